import Verif.Proofs.WorkBound
import Verif.Props.Bound
/-!
# What an extraction does between two searches (C77)

`Work.extract` (Model/Work.lean) is `extract` with a counter of its steps: the searches, which the limit `max_searches`
counts, and the calls of `Rule::matches`, which it does not count. `Tree.size`, `Rule.size` and `Rule.levels` are defined in
`Verif/Spec/Size.lean`.
-/

namespace Hext.Props

/-- C77. Every extraction comes to an end after some number of steps, with the result of `extract`. The number is at least one and
at most `(4 * r.size * t.size ^ 2) ^ r.levels`: a polynomial in the size of the document whose degree is the double of the number
of levels of the rule. -/
theorem C77_steps {rx : RxEngine} {h : Heap} {n : Nat} {r : Rule} {t : Tree} (hn : n ≤ 2147483647) (hr : r.Safe n)
    (ht : IsDocument h n t) :
    ∃ res k, extract rx h r t.ptr 0 = pure res ∧ Work.extract rx h r t.ptr = pure (res, k) ∧
      1 ≤ k ∧ k ≤ (4 * r.size * t.size ^ 2) ^ r.levels := by
  obtain ⟨res, h1, h2⟩ := Work.extract_count (rx := rx) (l := Loc.root t) hn hr ht
  have hc : (Work.searchAt rx h r (Loc.root t)).cost ≤ (4 * r.size * (t.size * t.size)) ^ r.levels :=
    Work.search_cost_le r [] (by simp [Loc.onward]) (by simp [Loc.onward, Loc.root, Tree.sizeL])
  refine ⟨res, _, h1, h2, ?_, by rw [Nat.pow_two]; exact hc⟩
  simp only [Work.searchAt, save]
  omega

/-- C77 for rules without `?`, `+` and braces: there each node of the document is tried at most once for each level of the rule, and
the number of steps is at most the number of nodes times one more than the number of levels. -/
theorem C77_linear {rx : RxEngine} {h : Heap} {n : Nat} {r : Rule} {t : Tree} (hn : n ≤ 2147483647) (hr : r.Safe n)
    (ht : IsDocument h n t) (ho : r.All Work.InfoOnce) (hf : r.Flat) :
    ∃ res k, extract rx h r t.ptr 0 = pure res ∧ Work.extract rx h r t.ptr = pure (res, k) ∧ k ≤ (r.levels + 1) * t.size := by
  obtain ⟨res, h1, h2⟩ := Work.extract_count (rx := rx) (l := Loc.root t) hn hr ht
  refine ⟨res, _, h1, h2, ?_⟩
  have := Work.search_once_le (own := ownVal rx h) (r := r) [] ho hf (ls := (Loc.root t).onward) (by simp [Loc.onward])
  simpa [Loc.onward, Loc.root, Tree.sizeL, Work.searchAt] using this

/-- A mandatory rule on a list of siblings, where each try costs one step: each sibling is tried once. -/
theorem once_each {ρ α : Type} {c : CR ρ α} (h1 : ∀ x, (c.run x).cost = 1) : ∀ ns : List α,
    ((once c ns).val = none → (once c ns).cost = ns.length) ∧
    ∀ b x s r, (once c ns).val = some (b, x, s, r) → (once c ns).cost + r.length = ns.length
  | [] => by simp [once]
  | y :: ys => by
    obtain ⟨i1, i2⟩ := once_each h1 ys
    have hy := h1 y
    unfold once
    cases hr : (c.run y).val with
    | some sub => refine ⟨by simp, fun b x s r hv => ?_⟩; cases hv; simp [hy]; omega
    | none =>
      cases ho : (once c ys).val with
      | none => simp [hy, i1 ho]; omega
      | some q =>
        obtain ⟨b, x, s, r⟩ := q
        have := i2 _ _ _ _ ho
        refine ⟨by simp, fun b x s r hv => ?_⟩
        cases hv
        simp [hy]; omega

theorem groups_each {ρ α : Type} {c : CR ρ α} (hc : c.optional = false) (hg : c.greedy = false) (h1 : ∀ x, (c.run x).cost = 1)
    (k : Nat) : ∀ ns : List α, ns.length = k → (groups [c] ns).cost = ns.length := by
  induction k using Nat.strongRecOn with
  | _ k ih =>
    intro ns hk
    cases ns with
    | nil => unfold groups; rfl
    | cons n ns =>
      unfold groups
      simp only
      have ho := once_each h1 (n :: ns)
      have hgr : (group [] [c] false (n :: ns) []).cost + (group [] [c] false (n :: ns) []).val.2.length = (n :: ns).length := by
        unfold group
        simp only [hc, hg, Bool.or_self, Bool.false_eq_true, if_false]
        split
        · rename_i h; simp [ho.1 h]
        · rename_i b x s r h
          have := ho.2 _ _ _ _ h
          unfold group
          simpa using this
      have hlt := group_lt c [] false n ns []
      have := ih _ (by omega) (group [] [c] false (n :: ns) []).val.2 rfl
      omega

mutual
theorem descend_each {ρ : Type} {c : CR ρ Loc} (hc : c.optional = false) (hg : c.greedy = false) (h1 : ∀ x, (c.run x).cost = 1) :
    ∀ t : Tree, (descend [c] t).cost = t.under.length + (t.under.map List.length).sum
  | .node p k kids => by
    unfold descend Tree.under
    cases k with
    | element e =>
      simp only
      split
      · rfl
      · simp only [groups_each hc hg h1 _ _ rfl, descendL_each hc hg h1 kids, List.length_cons, List.map_cons, List.sum_cons]; omega
    | _ => rfl
theorem descendL_each {ρ : Type} {c : CR ρ Loc} (hc : c.optional = false) (hg : c.greedy = false) (h1 : ∀ x, (c.run x).cost = 1) :
    ∀ ts : List Tree, (descendL [c] ts).cost = (underL ts).length + ((underL ts).map List.length).sum
  | [] => rfl
  | t :: ts => by
    simp only [descendL, underL, descend_each hc hg h1 t, descendL_each hc hg h1 ts, List.length_append, List.map_append, List.sum_append]
    omega
end

/-- C77 for a single mandatory rule, exactly: one step for each list of siblings that is searched, and one for each node in it. -/
theorem C77_single {rx : RxEngine} {h : Heap} {n : Nat} {r : Rule} {t : Tree} (hn : n ≤ 2147483647) (hr : r.Safe n)
    (ht : IsDocument h n t) (hs : Single r) :
    ∃ res, extract rx h r t.ptr 0 = pure res ∧ Work.extract rx h r t.ptr =
      pure (res, (Loc.root t).searched.length + ((Loc.root t).searched.map List.length).sum) := by
  obtain ⟨res, h1, h2⟩ := Work.extract_count (rx := rx) (l := Loc.root t) hn hr ht
  refine ⟨res, h1, ?_⟩
  rw [show t.ptr = (Loc.root t).ptr from rfl, h2]
  obtain ⟨i, c, nx, ns⟩ := r
  obtain ⟨ho, hg, rfl, rfl, rfl⟩ := hs
  have hrun : ∀ x, ((⟨⟨[], .mk i none none []⟩, i.optional, i.greedy, Work.runRule (ownVal rx h i) [] []⟩ : CR RulePtr Loc).run x).cost = 1 := by
    intro x
    simp only [Work.runRule, runRule]
    split <;> rfl
  have : (Work.searchAt rx h (.mk i none none []) (Loc.root t)).cost =
      (Loc.root t).searched.length + ((Loc.root t).searched.map List.length).sum := by
    show (save [(⟨⟨[], .mk i none none []⟩, i.optional, i.greedy, Work.runRule (ownVal rx h i) [] []⟩ : CR RulePtr Loc)] _).cost = _
    simp only [save, Loc.searched, groups_each ho hg hrun _ _ rfl, descendL_each ho hg hrun, List.length_cons, List.map_cons, List.sum_cons]
    omega
  rw [this]

/-- `<a href:x/>` on the example document. -/
example : ∃ res k, extract Ex.rx Ex.heap hrefRule Ex.doc.ptr 0 = pure res ∧ Work.extract Ex.rx Ex.heap hrefRule Ex.doc.ptr = pure (res, k) ∧
    k ≤ (hrefRule.levels + 1) * Ex.doc.size :=
  C77_linear (by decide) (parse_safe (noLong_of_few (by decide)) (href_parsed Ex.rx true)) (isDocument_of_ok (by decide +kernel))
    ⟨⟨rfl, rfl⟩, trivial, trivial, trivial⟩ ⟨rfl, trivial, trivial⟩

example : ∃ res, extract Ex.rx Ex.heap hrefRule Ex.doc.ptr 0 = pure res ∧ Work.extract Ex.rx Ex.heap hrefRule Ex.doc.ptr =
    pure (res, (Loc.root Ex.doc).searched.length + ((Loc.root Ex.doc).searched.map List.length).sum) :=
  C77_single (by decide) (parse_safe (noLong_of_few (by decide)) (href_parsed Ex.rx true)) (isDocument_of_ok (by decide +kernel))
    ⟨rfl, rfl, rfl, rfl, rfl⟩

/-! ## The limit does not bound the steps -/

/-- `<div>` in `<div>`: `i + 1` of them, in memory at `p` and behind it. -/
def divPath (p : Nat) : Nat → Tree
  | 0 => .node p (.element { tag := .known (lit "div") }) []
  | i + 1 => .node p (.element { tag := .known (lit "div") }) [divPath (p + 1) i]

/-- `<div>` with two children: a path of `i + 1` elements, and the same again with `i` in place of `i + 1`. -/
def divBomb (p : Nat) : Nat → Tree
  | 0 => .node p (.element { tag := .known (lit "div") }) []
  | i + 1 => .node p (.element { tag := .known (lit "div") }) [divPath (p + 1) i, divBomb (p + 1 + (i + 1)) i]

/-- `<div>` ... `<?p/></div>` around `<div/>`, `d` times. -/
def bombHext : Nat → Str
  | 0 => lit "<div/>"
  | d + 1 => lit "<div>" ++ bombHext d ++ lit "<?p/></div>"

/-- The rules of it, with the rules behind it. -/
def bombRule (nx : Option Rule) : Nat → Rule
  | 0 => .mk { tag := .tag (.known (lit "div")) } none nx []
  | d + 1 => .mk { tag := .tag (.known (lit "div")) }
      (some (bombRule (some (.mk { tag := .tag (.known (lit "p")), optional := true } none none [])) d)) nx []

theorem divPath_size (p i : Nat) : (divPath p i).size = i + 1 := by
  induction i generalizing p with
  | zero => rfl
  | succ i ih => simp only [divPath, Tree.size, Tree.sizeL, ih]; omega

theorem divBomb_size (p i : Nat) : (divBomb p i).size ≤ (i + 1) ^ 2 := by
  induction i generalizing p with
  | zero => simp [divBomb, Tree.size, Tree.sizeL]
  | succ i ih =>
    have := ih (p + 1 + (i + 1))
    have e : (i + 1 + 1) ^ 2 = (i + 1) ^ 2 + 2 * (i + 1) + 1 := by
      rw [Nat.pow_two, Nat.pow_two, Nat.add_mul, Nat.mul_add]; omega
    simp only [divBomb, Tree.size, Tree.sizeL, divPath_size]
    omega

/-- An address as a number. -/
def addrNat (p : Ptr) : Nat := p

theorem divPath_entries (i : Nat) : ∀ p parent j, (∀ e ∈ entries parent j (divPath p i), p ≤ addrNat e.1 ∧ addrNat e.1 < p + (divPath p i).size) ∧
    ((entries parent j (divPath p i)).map (·.1)).Nodup := by
  induction i with
  | zero => intro p parent j; simp [divPath, entries, entriesL, Tree.size, Tree.sizeL, addrNat]
  | succ i ih =>
    intro p parent j
    obtain ⟨h1, h2⟩ := ih (p + 1) (some p) 0
    simp only [divPath, entries, entriesL, List.append_nil, List.map_cons, List.nodup_cons, Tree.size, Tree.sizeL]
    refine ⟨?_, ?_, h2⟩
    · intro e he
      rcases List.mem_cons.1 he with rfl | he
      · have e : addrNat p = p := rfl
        simp only [e]; omega
      · obtain ⟨h3, h4⟩ := h1 e he; exact ⟨by omega, by omega⟩
    · intro hm
      obtain ⟨e, he, h3⟩ := List.mem_map.1 hm
      have := (h1 e he).1
      have h3 : addrNat e.1 = p := h3
      omega

theorem divBomb_entries (i : Nat) : ∀ p parent j, (∀ e ∈ entries parent j (divBomb p i), p ≤ addrNat e.1 ∧ addrNat e.1 < p + (divBomb p i).size) ∧
    ((entries parent j (divBomb p i)).map (·.1)).Nodup := by
  induction i with
  | zero => intro p parent j; simp [divBomb, entries, entriesL, Tree.size, Tree.sizeL, addrNat]
  | succ i ih =>
    intro p parent j
    obtain ⟨h1, h2⟩ := ih (p + 1 + (i + 1)) (some p) 1
    obtain ⟨g1, g2⟩ := divPath_entries i (p + 1) (some p) 0
    rw [divPath_size] at g1
    simp only [divBomb, entries, entriesL, List.append_nil, List.map_cons, List.map_append, List.nodup_cons, Tree.size, Tree.sizeL,
      divPath_size]
    refine ⟨?_, ?_, List.nodup_append.2 ⟨g2, h2, ?_⟩⟩
    · intro e he
      rcases List.mem_cons.1 he with rfl | he
      · have e : addrNat p = p := rfl
        simp only [e]; omega
      · rcases List.mem_append.1 he with he | he
        · have := g1 e he; omega
        · have := h1 e he; omega
    · intro hm
      rcases List.mem_append.1 hm with hm | hm
      · obtain ⟨e, he, h3⟩ := List.mem_map.1 hm
        have := (g1 e he).1
        have h3 : addrNat e.1 = p := h3
        omega
      · obtain ⟨e, he, h3⟩ := List.mem_map.1 hm
        have := (h1 e he).1
        have h3 : addrNat e.1 = p := h3
        omega
    · intro a ha b hb
      obtain ⟨e, he, rfl⟩ := List.mem_map.1 ha
      obtain ⟨f, hf, rfl⟩ := List.mem_map.1 hb
      have h3 := (g1 e he).2
      have h4 := (h1 f hf).1
      intro hef
      rw [hef] at h3
      omega

theorem divPath_fanout (p i : Nat) : FanoutLe 1147483648 (divPath p i) := by
  induction i generalizing p with
  | zero => exact ⟨by simp, trivial⟩
  | succ i ih => exact ⟨by simp, ih _, trivial⟩

theorem divBomb_document (d : Nat) : IsDocument (docHeap 0 (divBomb 1 d)) 1147483648 (divBomb 1 d) := by
  refine docHeap_isDocument ?_ ?_
  · simp only [docEntries, List.map_cons, List.nodup_cons]
    refine ⟨fun hm => ?_, (divBomb_entries d _ _ _).2⟩
    obtain ⟨e, he, h3⟩ := List.mem_map.1 hm
    have := ((divBomb_entries d _ _ _).1 e he).1
    have h3 : addrNat e.1 = 0 := h3
    omega
  · generalize 1 = p
    induction d generalizing p with
    | zero => exact ⟨by simp, trivial⟩
    | succ i ih => exact ⟨by simp, divPath_fanout _ _, ih _, trivial⟩

/-! ### The hext -/

def divHead : Syn.Head := { options := [], tag := lit "div", conds := [], pats := [], ws := [] }
def pHead : Syn.Head := { options := [true], tag := lit "p", conds := [], pats := [], ws := [] }

theorem divHead_meaning (rx : RxEngine) : divHead.meaning rx {} = some ({ tag := .tag (.known (lit "div")) }, {}) := by
  simp only [Syn.Head.meaning, divHead, Syn.condsMeaning, Syn.patsMeaning]
  have h : Syn.tagMeaning (lit "div") = (.tag (.known (lit "div")), none) := by decide +kernel
  rw [h]; rfl

theorem pHead_meaning (rx : RxEngine) : pHead.meaning rx {} = some ({ tag := .tag (.known (lit "p")), optional := true }, {}) := by
  simp only [Syn.Head.meaning, pHead, Syn.condsMeaning, Syn.patsMeaning]
  have h : Syn.tagMeaning (lit "p") = (.tag (.known (lit "p")), none) := by decide +kernel
  rw [h]; rfl

def bombItems : Nat → List Syn.Item
  | 0 => [.start divHead true]
  | d + 1 => .start divHead false :: (bombItems d ++ [.start pHead true]) ++ [.stop (lit "div")]

theorem bombItems_text (d : Nat) : bombHext d = Syn.itemsText (bombItems d) := by
  induction d with
  | zero => decide +kernel
  | succ d ih =>
    have h1 : (Syn.Item.start divHead false).text = lit "<div>" := by decide +kernel
    have h2 : (Syn.Item.start pHead true).text ++ (Syn.Item.stop (lit "div")).text = lit "<?p/></div>" := by decide +kernel
    simp only [bombHext, bombItems, ih, Syn.itemsText, List.flatMap_cons, List.flatMap_append, List.flatMap_nil, List.append_nil,
      List.cons_append, h1, ← h2, List.append_assoc, List.nil_append]

theorem bombItems_ok (d : Nat) : ∀ i ∈ bombItems d, i.Ok := by
  have hd : divHead.Ok := ⟨.inr ⟨100, lit "iv", by decide, .inr (by decide), by
    intro x hx
    have : lit "iv" = [105, 118] := by decide +kernel
    rw [this] at hx
    simp only [List.mem_cons, List.not_mem_nil, or_false] at hx
    rcases hx with rfl | rfl <;> exact .inl (.inr (by decide))⟩, by simp [divHead], by simp [divHead], by simp [divHead]⟩
  have hp : pHead.Ok := ⟨.inr ⟨112, [], by decide, .inr (by decide), by simp⟩, by simp [pHead], by simp [pHead], by simp [pHead]⟩
  induction d with
  | zero => intro i hi; simp only [bombItems, List.mem_singleton] at hi; subst hi; exact hd
  | succ d ih =>
    intro i hi
    simp only [bombItems, List.cons_append, List.mem_cons, List.mem_append, List.append_assoc, List.not_mem_nil, or_false] at hi
    rcases hi with rfl | hi | rfl | hi | rfl
    · exact hd
    · exact ih i hi
    · exact hp
    · exact hi.elim
    · exact hd.1

theorem bombRule_chain (nx : Option Rule) (s : Rule) (h : s.next = none) (d : Nat) : Syn.chain (bombRule nx d) [s] = bombRule (some s) d := by
  cases s with
  | mk i c n ns =>
    simp only [Rule.next] at h
    subst h
    cases d <;> rfl

theorem bomb_elem (rx : RxEngine) (d : Nat) : Syn.Elem rx {} (bombItems d) {} (bombRule none d) := by
  induction d with
  | zero => exact .selfClosing (divHead_meaning rx)
  | succ d ih =>
    have hc : Syn.Closes { tag := .tag (.known (lit "div")) } (lit "div") := by
      show lit "div" ≠ [42] ∧ gumboTagEnum (cstr (lit "div")) = .known (lit "div")
      decide +kernel
    have := Syn.Elem.closed (rx := rx) (divHead_meaning rx) (.child ih (.child (.selfClosing (pHead_meaning rx)) .nil)) hc
    have e : bombRule none (d + 1) = Syn.mkRule { tag := .tag (.known (lit "div")) }
        [bombRule none d, .mk { tag := .tag (.known (lit "p")), optional := true } none none []] [] := by
      show _ = Rule.mk _ (some (Syn.chain (bombRule none d) [_])) none []
      rw [bombRule_chain none (.mk { tag := .tag (.known (lit "p")), optional := true } none none []) rfl]
      rfl
    rw [e]
    have e2 : bombItems (d + 1) = .start divHead false :: (bombItems d ++ ([.start pHead true] ++ [])) ++ [.stop (lit "div")] := rfl
    rw [e2]
    exact this

theorem bomb_parsed (rx : RxEngine) (charSigned : Bool) (d : Nat) : parseHext rx charSigned (bombHext d) = .ok (bombRule none d) := by
  refine (parse_iff rx charSigned _ _).2 ⟨bombItems d, {}, [bombRule none d], bombItems_ok d, bombItems_text d, ?_, ?_⟩
  · have := Syn.Seq.elem (bomb_elem rx d) (Syn.Seq.nil (f := {}))
    simpa using this
  · cases d <;> rfl

theorem bombHext_length (d : Nat) : (bombHext d).length = 16 * d + 6 := by
  induction d with
  | zero => decide +kernel
  | succ d ih =>
    have h1 : (lit "<div>").length = 5 := by decide +kernel
    have h2 : (lit "<?p/></div>").length = 11 := by decide +kernel
    simp only [bombHext, List.length_append, ih, h1, h2]
    omega

theorem bombHext_noLong (d : Nat) : NoLong (bombHext d) := by
  have h : (bombHext d).countP (fun x => decide (48 ≤ x ∧ x ≤ 57)) = 0 := by
    induction d with
    | zero => decide +kernel
    | succ d ih =>
      have h1 : (lit "<div>").countP (fun x => decide (48 ≤ x ∧ x ≤ 57)) = 0 := by decide +kernel
      have h2 : (lit "<?p/></div>").countP (fun x => decide (48 ≤ x ∧ x ≤ 57)) = 0 := by decide +kernel
      rw [bombHext, List.countP_append, List.countP_append, h1, ih, h2]
  exact noLong_of_few (by omega)

theorem bombRule_flat (nx : Option Rule) (hn : Rule.FlatO nx) (d : Nat) : (bombRule nx d).Flat := by
  induction d generalizing nx with
  | zero => exact ⟨rfl, trivial, hn⟩
  | succ d ih => exact ⟨rfl, ih _ ⟨rfl, trivial, trivial⟩, hn⟩

/-! ### The steps -/

section
variable {ρ α : Type} {c b : CR ρ α} {x y : α} {s s' : Pairs ρ α}

theorem groups_one (hc : c.optional = false) (hg : c.greedy = false) (hb : b.optional = true) (hx : (c.run x).val = some s) :
    (groups [c, b] [x]).val ≠ [] := by
  have h1 : once c [x] = ⟨some ([], x, s, []), (c.run x).cost⟩ := by simp [once, hx]
  have h2 : group [] [c, b] false [x] [] = ⟨([] ++ s ++ [(c.id, x)], []), (c.run x).cost⟩ := by
    rw [group.eq_def]
    simp only [hc, Bool.or_self, Bool.false_eq_true, if_false]
    split
    · rename_i h; rw [h1] at h; simp at h
    · rename_i h
      rw [h1] at h
      simp only [Option.some.injEq, Prod.mk.injEq] at h
      obtain ⟨rfl, rfl, rfl, rfl⟩ := h
      simp [hg, group, hb, h1]
  rw [groups, h2]
  simp

theorem groups_two (hc : c.optional = false) (hg : c.greedy = false) (hb : b.optional = true) (hb' : b.greedy = false)
    (hx : (c.run x).val = some s) (hy : (c.run y).val = some s') :
    (groups [c, b] [x, y]).val ≠ [] ∧ 2 * (c.run y).cost ≤ (groups [c, b] [x, y]).cost := by
  have h1 : once c [x, y] = ⟨some ([], x, s, [y]), (c.run x).cost⟩ := by simp [once, hx]
  have h3 : once c [y] = ⟨some ([], y, s', []), (c.run y).cost⟩ := by simp [once, hy]
  have h4 : range [b] ([] : List α) = ⟨([], none), 0⟩ := by simp [range, hb', once]
  have h2 : group [] [c, b] false [x, y] [] = ⟨([] ++ s ++ [(c.id, x)], [y]), (c.run x).cost + (c.run y).cost⟩ := by
    rw [group.eq_def]
    simp only [hc, Bool.or_self, Bool.false_eq_true, if_false]
    split
    · rename_i h; rw [h1] at h; simp at h
    · rename_i h
      rw [h1] at h
      simp only [Option.some.injEq, Prod.mk.injEq] at h
      obtain ⟨rfl, rfl, rfl, rfl⟩ := h
      simp only [hg, Bool.false_eq_true, if_false]
      have : group ([] ++ [c]) [b] false [y] ([] ++ s ++ [(c.id, x)]) = ⟨([] ++ s ++ [(c.id, x)], [y]), (c.run y).cost⟩ := by
        rw [group.eq_def]
        simp [hb, splitMand, firstMand, hc, h3, h4]
      rw [this, h1]
  have h5 : group [] [c, b] false [y] [] = ⟨([] ++ s' ++ [(c.id, y)], []), (c.run y).cost⟩ := by
    rw [group.eq_def]
    simp only [hc, Bool.or_self, Bool.false_eq_true, if_false]
    split
    · rename_i h; rw [h3] at h; simp at h
    · rename_i h
      rw [h3] at h
      simp only [Option.some.injEq, Prod.mk.injEq] at h
      obtain ⟨rfl, rfl, rfl, rfl⟩ := h
      simp [hg, group, hb, h3]
  rw [groups]
  simp only [h2]
  rw [groups]
  simp only [h5]
  refine ⟨by simp, by omega⟩
end

/-- The `<div>` rule matches each `<div>` element. -/
theorem div_own {rx : RxEngine} {h : Heap} {n : Nat} {l : Loc} (hl : l.Stored h n)
    (hk : l.self.kind = .element { tag := .known (lit "div") }) :
    ownVal rx h { tag := .tag (.known (lit "div")) } l = true := by
  obtain ⟨pp, j, hld⟩ := hl.load
  unfold ownVal
  simp only [ruleMatches, load_eq hld, pure_bind, hk, decide_eq_true_eq]
  rfl

theorem divPath_kind (p i : Nat) : (divPath p i).kind = .element { tag := .known (lit "div") } := by cases i <;> rfl
theorem divBomb_kind (p i : Nat) : (divBomb p i).kind = .element { tag := .known (lit "div") } := by cases i <;> rfl

/-- What the first rule of a list costs. -/
def firstRun (cs : List (CR RulePtr Loc)) (l : Loc) : W (Option (Pairs RulePtr Loc)) :=
  match cs with
  | [] => ⟨none, 0⟩
  | c :: _ => c.run l

/-- The flags of the first rule of a list. -/
def firstFlags (cs : List (CR RulePtr Loc)) : Bool × Bool :=
  match cs with
  | [] => (true, true)
  | c :: _ => (c.optional, c.greedy)

theorem bomb_steps {rx : RxEngine} {h : Heap} {n : Nat} (i : Nat) : ∀ (addr : List Step) (nx : Option Rule) (l : Loc), l.Stored h n →
    (∀ p, l.self = divPath p i → (firstRun (Work.chain (ownVal rx h) addr (bombRule nx i)) l).val.isSome) ∧
    (∀ p, l.self = divBomb p i → (firstRun (Work.chain (ownVal rx h) addr (bombRule nx i)) l).val.isSome ∧
      2 ^ i ≤ (firstRun (Work.chain (ownVal rx h) addr (bombRule nx i)) l).cost) := by
  induction i with
  | zero =>
    intro addr nx l hl
    have key : l.self.kind = .element { tag := .known (lit "div") } →
        firstRun (Work.chain (ownVal rx h) addr (bombRule nx 0)) l = ⟨some [], 1⟩ := by
      intro hk
      simp [bombRule, Work.chain, firstRun, Work.runRule, Work.chainO, Work.chainN, runRule, div_own hl hk]
    refine ⟨fun p hp => ?_, fun p hp => ?_⟩
    · rw [key (by rw [hp]; exact divPath_kind p 0)]; rfl
    · rw [key (by rw [hp]; exact divBomb_kind p 0)]; exact ⟨rfl, by simp⟩
  | succ i ih =>
    intro addr nx l hl
    obtain ⟨c, b, hcb, hco, hcg, hbo, hbg, hcr⟩ : ∃ c b, Work.chainO (ownVal rx h) (addr ++ [.child]) (some (bombRule (some (.mk
        { tag := .tag (.known (lit "p")), optional := true } none none [])) i)) = [c, b] ∧ c.optional = false ∧ c.greedy = false ∧
        b.optional = true ∧ b.greedy = false ∧ ∀ k, firstRun (Work.chain (ownVal rx h) (addr ++ [.child]) (bombRule (some (.mk
        { tag := .tag (.known (lit "p")), optional := true } none none [])) i)) k = c.run k := by
      cases i <;> exact ⟨_, _, rfl, rfl, rfl, rfl, rfl, fun _ => rfl⟩
    have run : firstRun (Work.chain (ownVal rx h) addr (bombRule nx (i + 1))) l =
        ⟨(runRule (ownVal rx h { tag := .tag (.known (lit "div")) }) [c, b] [] l).val,
          1 + (runRule (ownVal rx h { tag := .tag (.known (lit "div")) }) [c, b] [] l).cost⟩ := by
      rw [← hcb]; rfl
    have step : l.self.kind = .element { tag := .known (lit "div") } → l.self.kids ≠ [] →
        (groups [c, b] (locs l.self.kids)).val ≠ [] →
        (firstRun (Work.chain (ownVal rx h) addr (bombRule nx (i + 1))) l).val.isSome ∧
        (groups [c, b] (locs l.self.kids)).cost ≤ (firstRun (Work.chain (ownVal rx h) addr (bombRule nx (i + 1))) l).cost := by
      intro hk hks hg
      rw [run]
      simp only [runRule, div_own hl hk, hk, Kind.isElement]
      have h1 : (groups [c, b] (locs l.self.kids)).val.isEmpty = false := by simpa using hg
      have h2 : l.self.kids.isEmpty = false := by simpa using hks
      simp [h1, h2, nestedRun]
    have hs : ∀ k ∈ locs l.self.kids, l.self.kind.isElement = true → k.Stored h n := fun k hk he => (sibs_locs hl he).stored hk
    refine ⟨fun p hp => ?_, fun p hp => ?_⟩
    · have hk : l.self.kind = .element { tag := .known (lit "div") } := by rw [hp]; exact divPath_kind p _
      have hkids : l.self.kids = [divPath (p + 1) i] := by rw [hp]; rfl
      have hst := hs ⟨true, [], divPath (p + 1) i, []⟩ (by rw [hkids]; simp [locs, locsAux]) (by rw [hk]; rfl)
      have h1 := (ih (addr ++ [.child]) (some (.mk { tag := .tag (.known (lit "p")), optional := true } none none [])) _ hst).1 _ rfl
      rw [hcr] at h1
      obtain ⟨s, h1⟩ := Option.isSome_iff_exists.1 h1
      exact (step hk (by rw [hkids]; simp) (by rw [hkids]; exact groups_one hco hcg hbo h1)).1
    · have hk : l.self.kind = .element { tag := .known (lit "div") } := by rw [hp]; exact divBomb_kind p _
      have hkids : l.self.kids = [divPath (p + 1) i, divBomb (p + 1 + (i + 1)) i] := by rw [hp]; rfl
      have hst1 := hs ⟨true, [], divPath (p + 1) i, [divBomb (p + 1 + (i + 1)) i]⟩ (by rw [hkids]; simp [locs, locsAux]) (by rw [hk]; rfl)
      have hst2 := hs ⟨true, [divPath (p + 1) i], divBomb (p + 1 + (i + 1)) i, []⟩ (by rw [hkids]; simp [locs, locsAux]) (by rw [hk]; rfl)
      have h1 := (ih (addr ++ [.child]) (some (.mk { tag := .tag (.known (lit "p")), optional := true } none none [])) _ hst1).1 _ rfl
      obtain ⟨h2, h3⟩ := (ih (addr ++ [.child]) (some (.mk { tag := .tag (.known (lit "p")), optional := true } none none [])) _ hst2).2 _ rfl
      rw [hcr] at h1 h2 h3
      obtain ⟨s, h1⟩ := Option.isSome_iff_exists.1 h1
      obtain ⟨s', h2⟩ := Option.isSome_iff_exists.1 h2
      obtain ⟨g1, g2⟩ := groups_two hco hcg hbo hbg h1 h2
      have g := step hk (by rw [hkids]; simp) (by rw [hkids]; exact g1)
      refine ⟨g.1, Nat.le_trans ?_ g.2⟩
      rw [hkids]
      refine Nat.le_trans ?_ g2
      rw [Nat.pow_succ]
      omega

/-- C77. The limit bounds the searches, and not the steps: for each `d` there is a hext of `16 * d + 6` bytes and a document of at
most `(d + 1) ^ 2` nodes such that every limit above `(d + 1) ^ 2` lets the extraction return normally, after `2 ^ d` steps or
more. -/
theorem C77_exponential (rx : RxEngine) (charSigned : Bool) (d : Nat) : ∃ (s : Str) (r : Rule) (h : Heap) (t : Tree),
    s.length = 16 * d + 6 ∧ parseHext rx charSigned s = .ok r ∧ IsDocument h 1147483648 t ∧ t.size ≤ (d + 1) ^ 2 ∧
    ∃ res k, (∀ ms : UInt64, (d + 1) ^ 2 < ms.toNat → extract rx h r t.ptr ms = pure res) ∧
      Work.extract rx h r t.ptr = pure (res, k) ∧ 2 ^ d ≤ k := by
  have hd := divBomb_document d
  have hp := bomb_parsed rx charSigned d
  have hs := parse_safe (bombHext_noLong d) hp
  refine ⟨bombHext d, _, _, divBomb 1 d, bombHext_length d, hp, hd, divBomb_size 1 d, ?_⟩
  obtain ⟨res, _, _, h2⟩ := extract_result (rx := rx) (l := Loc.root (divBomb 1 d)) (by decide) hs hd
  obtain ⟨res', e1, e2⟩ := Work.extract_count (rx := rx) (l := Loc.root (divBomb 1 d)) (by decide) hs hd
  have hres : res' = res := by
    rw [h2, if_neg (by simp)] at e1
    exact (E.pure_inj e1).symm
  subst hres
  refine ⟨res', _, fun ms hms => ?_, e2, ?_⟩
  · have hc : (searchAt rx (docHeap 0 (divBomb 1 d)) (bombRule none d) (Loc.root (divBomb 1 d))).cost ≤ (divBomb 1 d).size := by
      have := Bound.save_cost_le (B := 0) (n := (divBomb 1 d).size) (Bound.chain_ne (own := ownVal rx (docHeap 0 (divBomb 1 d))) (addr := []) (bombRule none d))
        (fun c hc l _ => by rw [chain_flat _ _ (bombRule_flat none trivial d) [] c hc l]; exact Nat.le_refl _)
        (ls := (Loc.root (divBomb 1 d)).onward) (by simp [Loc.onward]) (by simp [Loc.onward, Loc.root, Tree.sizeL])
      simpa [searchAt] using this
    have := divBomb_size 1 d
    rw [show (divBomb 1 d).ptr = (Loc.root (divBomb 1 d)).ptr from rfl, h2, if_neg (by omega)]
  · obtain ⟨g1, g2⟩ := (bomb_steps (rx := rx) d [] none _ hd).2 1 rfl
    obtain ⟨c, hcc⟩ : ∃ c, Work.chain (ownVal rx (docHeap 0 (divBomb 1 d))) [] (bombRule none d) = [c] := by cases d <;> exact ⟨_, rfl⟩
    rw [hcc] at g1 g2
    simp only [firstRun] at g1 g2
    have hg : (c.run (Loc.root (divBomb 1 d))).cost ≤ (groups [c] [Loc.root (divBomb 1 d)]).cost := by
      obtain ⟨s, hv⟩ := Option.isSome_iff_exists.1 g1
      have h1 : once c [Loc.root (divBomb 1 d)] = ⟨some ([], Loc.root (divBomb 1 d), s, []), (c.run (Loc.root (divBomb 1 d))).cost⟩ := by
        simp [once, hv]
      rw [groups]
      refine Nat.le_trans ?_ (Nat.le_add_right _ _)
      obtain ⟨e1, e2⟩ : c.optional = false ∧ c.greedy = false := by
        have : firstFlags (Work.chain (ownVal rx (docHeap 0 (divBomb 1 d))) [] (bombRule none d)) = (false, false) := by cases d <;> rfl
        rw [hcc] at this
        simpa [firstFlags] using this
      rw [group.eq_def]
      simp only [e1, Bool.or_self, Bool.false_eq_true, if_false]
      split
      · rw [h1]; exact Nat.le_refl _
      · rw [h1]; exact Nat.le_add_right _ _
    simp only [Work.searchAt, hcc, save]
    have : (Loc.root (divBomb 1 d)).onward = [Loc.root (divBomb 1 d)] := rfl
    rw [this]
    omega

/-- With 966 bytes of hext and a document of at most 3721 nodes, an extraction that the limit 10000 lets pass takes more than
10^18 steps. -/
example : ∃ (s : Str) (r : Rule) (h : Heap) (t : Tree), s.length = 966 ∧ parseHext Ex.rx true s = .ok r ∧ IsDocument h 1147483648 t ∧
    t.size ≤ 3721 ∧ ∃ res k, extract Ex.rx h r t.ptr 10000 = pure res ∧ Work.extract Ex.rx h r t.ptr = pure (res, k) ∧ 10 ^ 18 < k := by
  obtain ⟨s, r, h, t, h1, h2, h3, h4, res, k, h5, h6, h7⟩ := C77_exponential Ex.rx true 60
  refine ⟨s, r, h, t, h1, h2, h3, h4, res, k, h5 10000 (by decide), h6, ?_⟩
  have : 10 ^ 18 < 2 ^ 60 := by decide
  omega

end Hext.Props
