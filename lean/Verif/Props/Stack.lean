import Verif.Proofs.Stack
import Verif.Props.Whole
/-!
# How much stack an extraction needs (C66)
-/

namespace Hext.Props

variable {rx : RxEngine} {h : Heap} {n : Nat} {r : Rule} {t : Tree}

/-- C66. Five frames of the matching functions for each level of the document are enough, whatever the rule is: with so many
frames an extraction does what it does without a bound. -/
theorem C66_enough_stack (hn : n ≤ 2147483647) (hr : r.Safe n) (ht : IsDocument h n t) (d : Nat) (hd : 5 * t.height ≤ d)
    (ms : UInt64) : Stack.extract rx h d r t.ptr ms = extract rx h r t.ptr ms :=
  Stack.extract_same (l := Loc.root t) hn r hr ht d (by simpa [Loc.onward, Loc.root] using hd) ms

/-- C66 for hexts. -/
theorem C66_hext {charSigned : Bool} {s : Str} (hs : NoLong s) (hp : parseHext rx charSigned s = .ok r)
    (ht : IsDocument h 1147483648 t) (ms : UInt64) : Stack.extract rx h (5 * t.height) r t.ptr ms = extract rx h r t.ptr ms :=
  C66_enough_stack (by decide) (parse_safe hs hp) ht _ (Nat.le_refl _) ms

/-- C66, the other direction. A document that does not branch needs a frame for each of its levels, even with a rule that has
no children: with fewer frames the stack overflows. -/
theorem C66_stack_needed (hn : n ≤ 2147483647) (hr : r.Safe n) (h1 : Single r) (ht : IsDocument h n t) (h2 : Tower t) (d : Nat)
    (hd : d < t.height) : Stack.extract rx h d r t.ptr 0 = throw .ub := by
  obtain ⟨_, hnx, _, _⟩ := (sibs_onward (l := Loc.root t) ht).tail
  have := Stack.tower_overflow (rx := rx) (p := ⟨[], r⟩) hn hr h1 d (Loc.root t) h2 ht hnx hd []
  unfold Stack.extract
  show (Stack.saveMatchingNodesRecursive rx h d ⟨[], r⟩ t.ptr [] 0 >>= _) = _
  have e : (Loc.root t).ptr = t.ptr := rfl
  rw [e] at this
  rw [this]
  rfl

/-- Elements `<a>` in each other: `k` of them, and a text. -/
def tower : Nat → Tree
  | 0 => .node 1 (.text (lit "x")) []
  | k + 1 => .node (k + 2) (.element { tag := .known (lit "a") }) [tower k]

theorem tower_ptr (k : Nat) : (tower k).ptr = k + 1 := by cases k <;> rfl
theorem tower_height (k : Nat) : (tower k).height = k + 1 := by
  induction k with
  | zero => rfl
  | succ k ih => simp [tower, Tree.height, Tree.heightL, ih]; omega
theorem tower_tower (k : Nat) : Tower (tower k) := by
  induction k with
  | zero => exact .leaf
  | succ k ih => exact .step rfl ih
theorem tower_entries (k : Nat) : ∀ parent i, (∀ e ∈ entries parent i (tower k), 1 ≤ e.1 ∧ e.1 ≤ k + 1) ∧
    ((entries parent i (tower k)).map (·.1)).Nodup := by
  induction k with
  | zero => intro parent i; simp [tower, entries, entriesL]
  | succ k ih =>
    intro parent i
    obtain ⟨h1, h2⟩ := ih (some (k + 2)) 0
    simp only [tower, entries, entriesL, List.append_nil, List.map_cons, List.nodup_cons]
    refine ⟨?_, ?_, h2⟩
    · intro e he
      rcases List.mem_cons.1 he with rfl | he
      · simp
      · obtain ⟨h3, h4⟩ := h1 e he; exact ⟨h3, Nat.le_succ_of_le h4⟩
    · intro hm
      obtain ⟨e, he, h3⟩ := List.mem_map.1 hm
      have h4 : (k + 2 : Nat) ≤ k + 1 := h3 ▸ (h1 e he).2
      omega
theorem tower_document (k : Nat) : IsDocument (docHeap 0 (tower k)) 1147483648 (tower k) := by
  refine docHeap_isDocument ?_ ?_
  · simp only [docEntries, List.map_cons, List.nodup_cons]
    refine ⟨fun hm => ?_, (tower_entries k _ _).2⟩
    obtain ⟨e, he, h3⟩ := List.mem_map.1 hm
    have h4 : (1 : Nat) ≤ 0 := h3 ▸ ((tower_entries k _ _).1 e he).1
    omega
  · induction k with
    | zero => exact ⟨by simp, trivial⟩
    | succ k ih => exact ⟨by simp, ih, trivial⟩

/-- C66. So no stack is large enough for all documents: for each number of frames there is a document on which `<a href:x/>`
overflows the stack, although it extracts from it when there are more frames. -/
theorem C66_overflow (d : Nat) : ∃ (h : Heap) (t : Tree), IsDocument h 1147483648 t ∧ t.height = d + 1 ∧
    Stack.extract Ex.rx h d hrefRule t.ptr 0 = throw .ub ∧
    ∃ res, Stack.extract Ex.rx h (5 * (d + 1)) hrefRule t.ptr 0 = pure res := by
  have hs : hrefRule.Safe 1147483648 := parse_safe (noLong_of_few (by decide)) (href_parsed Ex.rx true)
  refine ⟨_, tower d, tower_document d, tower_height d, ?_, ?_⟩
  · exact C66_stack_needed (by decide) hs ⟨rfl, rfl, rfl, rfl, rfl⟩ (tower_document d) (tower_tower d) d (by rw [tower_height]; omega)
  · rw [C66_enough_stack (by decide) hs (tower_document d) _ (by rw [tower_height]; omega)]
    exact extract_unlimited (l := Loc.root (tower d)) (by decide) hs (tower_document d)

/-- 25 frames are enough for the example document. -/
example : Stack.extract Ex.rx Ex.heap 25 hrefRule Ex.doc.ptr 0 = pure [[(lit "x", lit "1")], [(lit "x", lit "2")]] := by
  have hd : IsDocument Ex.heap 1147483648 Ex.doc := isDocument_of_ok (by decide +kernel)
  have hs : hrefRule.Safe 1147483648 := parse_safe (noLong_of_few (by decide)) (href_parsed Ex.rx true)
  rw [C66_enough_stack (by decide) hs hd 25 (by decide)]
  show extract Ex.rx Ex.heap hrefRule (Loc.root Ex.doc).ptr 0 = _
  rw [extract_eq (rx := Ex.rx) (h := Ex.heap) (n := 1147483648) (by decide) hs (l := Loc.root Ex.doc) hd]
  decide +kernel

end Hext.Props
