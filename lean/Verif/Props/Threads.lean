import Verif.Proofs.Threads
import Verif.Spec.Threads
import Verif.Props.Extract
import Verif.Props.Whole
import Verif.Props.Stateful
/-!
# Extraction in several threads (C89)
-/

namespace Hext.Props

open Threads

variable {ι : Type} [DecidableEq ι] {S S' : System ι} {i : ι} {doc : Heap} {rx : RxEngine} {n : Nat} {r : Rule} {t : Tree}

theorem threads_rel (rx : RxEngine) (hn : n ≤ 2147483647) (hr : r.Safe n) (ht : IsDocument doc n t) (ms : UInt64) :
    ∃ k, ∀ (ι : Type) [DecidableEq ι] (S : System ι) (i : ι), Untouched S doc → ∀ m,
      (comesTo rx S i doc r t.ptr ms m = none ∧ ¬ ∃ m', k ≤ turns S.turn i m m') ∨
      ((∃ m', turns S.turn i m m' = k) ∧ comesTo rx S i doc r t.ptr ms m = extract rx doc r t.ptr ms) := by
  have key : ∀ y : E (List (List (Str × Str))), y ≠ none → y ≠ throw .ub →
      Rel (Keeps doc) y (fun s => Threads.extract rx (s.access doc) r t.ptr ms) →
      ∃ k, ∀ (ι : Type) [DecidableEq ι] (S : System ι) (i : ι), Untouched S doc → ∀ m,
        (comesTo rx S i doc r t.ptr ms m = none ∧ ¬ ∃ m', k ≤ turns S.turn i m m') ∨
        ((∃ m', turns S.turn i m m' = k) ∧ comesTo rx S i doc r t.ptr ms m = y) := by
    intro y h1 h2 h3
    rcases h3 with h3 | h3 | ⟨k, h3⟩
    · exact absurd h3 h1
    · exact absurd h3 h2
    · refine ⟨k, fun ι _ S i hu m => ?_⟩
      rcases h3 ⟨ι, inferInstance, S, i⟩ ⟨hu.there, hu.kept⟩ m with ⟨h4, hk⟩ | ⟨m', _, ht, h4⟩
      · refine .inl ⟨?_, hk⟩
        have h4 : Threads.extract rx (S.access i doc) r t.ptr ms m = none := h4
        simp only [comesTo, StateT.run', h4]; rfl
      · refine .inr ⟨⟨m', ht⟩, ?_⟩
        have h4 : Threads.extract rx (S.access i doc) r t.ptr ms m = y >>= fun a => pure (a, m') := h4
        simp only [comesTo, StateT.run', h4]
        match y with
        | none => rfl
        | some (.error _) => rfl
        | some (.ok _) => rfl
  refine key _ ?_ ?_ (extract_rel (sees doc) r t.ptr ms)
  · rcases extract_document_safe (rx := rx) hn hr ht ms with ⟨res, h2⟩ | ⟨_, h2⟩ <;> rw [h2] <;> exact fun h => nomatch h
  · rcases extract_document_safe (rx := rx) hn hr ht ms with ⟨res, h2⟩ | ⟨_, h2⟩ <;> rw [h2] <;> exact fun h => nomatch h

theorem fair_turns (hf : Fair S i) : ∀ k m, ∃ m', m ≤ m' ∧ k ≤ turns S.turn i m m'
  | 0, m => ⟨m, Nat.le_refl _, Nat.zero_le _⟩
  | k + 1, m => by
    obtain ⟨m1, h1, h2⟩ := fair_turns hf k m
    obtain ⟨m2, h3, h4⟩ := hf m1
    refine ⟨m2 + 1, by omega, ?_⟩
    have e := turns_add ⟨ι, inferInstance, S, i⟩ h1 (Nat.le_succ_of_le h3)
    have e2 := turns_add ⟨ι, inferInstance, S, i⟩ h3 (Nat.le_succ m2)
    have e3 : turns S.turn i m2 (m2 + 1) = 1 := by simp [turns, h4]
    simp only [Member.turns, Nat.succ_eq_add_one] at e e2
    omega

/-- C89. However many threads there are, whatever the others do with the rest of the memory, and however the turns of the threads
follow each other: an extraction in one of them comes to what the same extraction comes to alone. -/
theorem C89_same (hu : Untouched S doc) (hf : Fair S i) (hn : n ≤ 2147483647) (hr : r.Safe n) (ht : IsDocument doc n t)
    (ms : UInt64) (m : Nat) : comesTo rx S i doc r t.ptr ms m = extract rx doc r t.ptr ms := by
  obtain ⟨k, h⟩ := threads_rel rx hn hr ht ms
  rcases h ι S i hu m with h | h
  · obtain ⟨m', _, h1⟩ := fair_turns hf k m
    exact absurd ⟨m', h1⟩ h.2
  · exact h.2

/-- C89. In particular there is no undefined behaviour, and the extraction ends. -/
theorem C89_safe (hu : Untouched S doc) (hf : Fair S i) (hn : n ≤ 2147483647) (hr : r.Safe n) (ht : IsDocument doc n t)
    (ms : UInt64) (m : Nat) : (∃ res, comesTo rx S i doc r t.ptr ms m = pure res) ∨
      (ms ≠ 0 ∧ comesTo rx S i doc r t.ptr ms m = throw .maxSearch) := by
  rw [C89_same hu hf hn hr ht]
  exact extract_document_safe hn hr ht ms

/-- C89. A thread that is not given enough turns does not end, but it does not come to another outcome either. -/
theorem C89_any_schedule (hu : Untouched S doc) (hn : n ≤ 2147483647) (hr : r.Safe n) (ht : IsDocument doc n t)
    (ms : UInt64) (m : Nat) :
    comesTo rx S i doc r t.ptr ms m = none ∨ comesTo rx S i doc r t.ptr ms m = extract rx doc r t.ptr ms :=
  have ⟨_, h⟩ := threads_rel rx hn hr ht ms
  (h ι S i hu m).imp And.left And.right

/-- C89. How many turns an extraction needs depends on the rule, the document and `max_searches` alone, and not on the number of
threads, on what they do or on the order of the turns: it ends if and only if the thread is given so many turns. So no thread
can hold up another. -/
theorem C89_turns (rx : RxEngine) (hn : n ≤ 2147483647) (hr : r.Safe n) (ht : IsDocument doc n t) (ms : UInt64) :
    ∃ k, ∀ (ι : Type) [DecidableEq ι] (S : System ι) (i : ι), Untouched S doc → ∀ m,
      comesTo rx S i doc r t.ptr ms m ≠ none ↔ ∃ m', k ≤ turns S.turn i m m' := by
  obtain ⟨k, h⟩ := threads_rel rx hn hr ht ms
  refine ⟨k, fun ι _ S i hu m => ?_⟩
  rcases h ι S i hu m with h | ⟨⟨m', h1⟩, h2⟩
  · exact ⟨fun h1 => absurd h.1 h1, fun h1 => absurd h1 h.2⟩
  · refine ⟨fun _ => ⟨m', Nat.le_of_eq h1.symm⟩, fun _ => ?_⟩
    rw [h2]
    rcases extract_document_safe (rx := rx) hn hr ht ms with ⟨res, h2⟩ | ⟨_, h2⟩ <;> rw [h2] <;> exact fun h => nomatch h

/-- C89. The threads of a program may all extract at the same time, with the same rule or with different rules, from the same
document or from different documents: each of them comes to its own outcome. -/
theorem C89_jobs (jobs : ι → Job) (hn : n ≤ 2147483647)
    (hj : ∀ i, (jobs i).rule.Safe n ∧ IsDocument (jobs i).doc n (jobs i).tree ∧ Untouched S (jobs i).doc ∧ Fair S i) (i : ι) :
    comesTo rx S i (jobs i).doc (jobs i).rule (jobs i).tree.ptr (jobs i).maxSearches (jobs i).starts =
      extract rx (jobs i).doc (jobs i).rule (jobs i).tree.ptr (jobs i).maxSearches :=
  C89_same (hj i).2.2.1 (hj i).2.2.2 hn (hj i).1 (hj i).2.1 _ _

/-- C89. The outcome does not depend on the order of the turns, nor on the moment at which the extraction starts, nor on the
other threads. -/
theorem C89_schedules (hu : Untouched S doc) (hf : Fair S i) (hu' : Untouched S' doc) (hf' : Fair S' i) (hn : n ≤ 2147483647)
    (hr : r.Safe n) (ht : IsDocument doc n t) (ms : UInt64) (m m' : Nat) :
    comesTo rx S i doc r t.ptr ms m = comesTo rx S' i doc r t.ptr ms m' := by
  rw [C89_same hu hf hn hr ht, C89_same hu' hf' hn hr ht]

/-- C89 for hexts. -/
theorem C89_hext {charSigned : Bool} {s : Str} (hs : NoLong s) (hp : parseHext rx charSigned s = .ok r) (hu : Untouched S doc)
    (hf : Fair S i) (ht : IsDocument doc 1147483648 t) (ms : UInt64) (m : Nat) :
    comesTo rx S i doc r t.ptr ms m = extract rx doc r t.ptr ms :=
  C89_same hu hf (by decide) (parse_safe hs hp) ht ms m

/-! ## Examples -/

/-- Two threads that take turns. The first extracts; the second allocates and frees a node at address 1000 over and over. -/
def alternating : System Bool where
  start := docHeap 0 mixedDoc
  turn m := m % 2 == 1
  writes j m _ := if j then [(1000, if m % 4 == 1 then some ⟨.text [], [], none, 0⟩ else none)] else []

theorem alternating_untouched : Untouched alternating (docHeap 0 mixedDoc) where
  there _ _ h := h
  kept j m h w hw := by
    cases j with
    | false => cases hw
    | true =>
      cases hw with
      | head => show docHeap 0 mixedDoc 1000 = none; decide +kernel
      | tail _ hw => cases hw

theorem alternating_fair (i : Bool) : Fair alternating i := fun m => by
  cases i
  · exact ⟨2 * m, by omega, by simp [alternating]⟩
  · exact ⟨2 * m + 1, by omega, by simp [alternating]⟩

set_option synthInstance.maxSize 1000 in
/-- The hypotheses of the theorems above are met, and the outcome is not trivial. -/
example : comesTo Ex.rx alternating false (docHeap 0 mixedDoc) mixedRule mixedDoc.ptr 0 7 = pure
    [[(lit "href", lit "href1"), (lit "img", lit "src1"), (lit "number", [])],
     [(lit "href", lit "href3"), (lit "img", lit "src3")],
     [(lit "href", lit "href4"), (lit "img", lit "src4"), (lit "number", [])]] := by
  rw [C89_same (n := 2147483647) alternating_untouched (alternating_fair false) (by decide) (mixedRule_safe _) mixedDoc_ok,
    show mixedDoc.ptr = (Loc.root mixedDoc).ptr from rfl,
    extract_eq (n := 2147483647) (by decide) (mixedRule_safe _) (l := Loc.root mixedDoc) mixedDoc_ok]
  show @Eq (Option (Except Err (List (List (Str × Str))))) _ _
  decide +kernel

/-- Both threads may extract from the document at the same time. -/
example (i : Bool) (ms : UInt64) (m : Nat) :
    comesTo Ex.rx alternating i (docHeap 0 mixedDoc) mixedRule mixedDoc.ptr ms m =
      extract Ex.rx (docHeap 0 mixedDoc) mixedRule mixedDoc.ptr ms :=
  C89_jobs (jobs := fun _ => ⟨mixedRule, docHeap 0 mixedDoc, mixedDoc, ms, m⟩) (n := 2147483647) (by decide)
    (fun i => ⟨mixedRule_safe _, mixedDoc_ok, alternating_untouched, alternating_fair i⟩) i

/-- There is a number of turns after which the extraction of `mixedRule` has ended, whoever else has turns. -/
example (ms : UInt64) : ∃ k, ∀ (S : System Nat), Untouched S (docHeap 0 mixedDoc) → ∀ m,
    (∃ m', k ≤ turns S.turn 3 m m') →
    comesTo Ex.rx S 3 (docHeap 0 mixedDoc) mixedRule mixedDoc.ptr ms m = extract Ex.rx (docHeap 0 mixedDoc) mixedRule mixedDoc.ptr ms := by
  obtain ⟨k, h⟩ := C89_turns Ex.rx (n := 2147483647) (by decide) (mixedRule_safe _) mixedDoc_ok ms
  refine ⟨k, fun S hu m hk => ?_⟩
  rcases C89_any_schedule (rx := Ex.rx) (i := 3) hu (n := 2147483647) (by decide) (mixedRule_safe _) mixedDoc_ok ms m with h1 | h1
  · exact absurd h1 ((h Nat S 3 hu m).2 hk)
  · exact h1

/-- The second thread frees the root of the document at once. -/
def freeing : System Bool where
  start := docHeap 0 mixedDoc
  turn m := m == 0
  writes j _ _ := if j then [(mixedDoc.ptr, none)] else []

/-- Then the extraction is undefined: that the document stays as it is cannot be left out. -/
theorem C89_needs_untouched : comesTo Ex.rx freeing false (docHeap 0 mixedDoc) mixedRule mixedDoc.ptr 0 0 = throw .ub := by
  have hw : wait freeing.turn false 0 = pure 1 := by
    rw [wait, if_neg (by decide), wait, if_pos (by decide)]
  have hl : (freeing.access false (docHeap 0 mixedDoc)).load mixedDoc.ptr 0 = throw .ub := by
    simp only [System.access, hw, pure_bind]
    rfl
  have hm : Threads.ruleMatches Ex.rx (freeing.access false (docHeap 0 mixedDoc)) mixedRule.info mixedDoc.ptr 0 = throw .ub := by
    show ((freeing.access false (docHeap 0 mixedDoc)).load mixedDoc.ptr 0 >>= _) = _
    rw [hl]; rfl
  have bindC : ∀ {α β : Type} {x : C α} {f : α → C β}, x 0 = throw .ub → (x >>= f) 0 = throw .ub := by
    intro α β x f h
    show (x 0 >>= fun p => f p.1 p.2) = _
    rw [h]; rfl
  have bindM : ∀ {α β : Type} {x : CM α} {f : α → CM β}, x 0 0 = throw .ub → (x >>= f) 0 0 = throw .ub := by
    intro α β x f h
    show (x 0 0 >>= fun p => f p.1.1 p.1.2 p.2) = _
    rw [h]; rfl
  have liftC : ∀ {α : Type} {x : C α}, x 0 = throw .ub → (liftM x : CM α) 0 0 = throw .ub := by
    intro α x h
    show (x 0 >>= fun p => pure ((p.1, (0 : UInt64)), p.2)) = _
    rw [h]; rfl
  let acc := freeing.access false (docHeap 0 mixedDoc)
  let rp : RulePtr := ⟨[], mixedRule⟩
  have h1 : Threads.ruleMatchesNodeRecursive Ex.rx acc rp mixedDoc.ptr [] 0 0 = throw .ub := by
    rw [Threads.ruleMatchesNodeRecursive.eq_def]
    exact bindM (liftC hm)
  have h2 : Threads.matchRuleOnce Ex.rx acc rp (some mixedDoc.ptr) none [] 0 0 = throw .ub := by
    rw [Threads.matchRuleOnce.eq_def]
    exact bindM h1
  have h3 : Threads.groupLoop Ex.rx acc rp (some rp) (some mixedDoc.ptr) [] [] 0 0 = throw .ub := by
    rw [Threads.groupLoop.eq_def]
    exact bindM h2
  have h4 : Threads.matchRuleGroup Ex.rx acc (some rp) (some mixedDoc.ptr) [] 0 0 = throw .ub := by
    rw [Threads.matchRuleGroup.eq_def]
    exact h3
  have h5 : Threads.saveLoop Ex.rx acc rp (some mixedDoc.ptr) [] 0 0 = throw .ub := by
    rw [Threads.saveLoop.eq_def]
    exact bindM h4
  have h6 : Threads.saveMatchingNodesRecursive Ex.rx acc rp mixedDoc.ptr [] 0 0 = throw .ub := by
    rw [Threads.saveMatchingNodesRecursive.eq_def]
    show (Threads.saveLoop Ex.rx acc rp (some mixedDoc.ptr) [] >>= Threads.saveDescend Ex.rx acc rp mixedDoc.ptr) 0 0 = _
    exact bindM h5
  show (Threads.extract Ex.rx acc mixedRule mixedDoc.ptr 0 0 >>= _) = _
  rw [show Threads.extract Ex.rx acc mixedRule mixedDoc.ptr 0 0 = throw .ub from bindC h6]
  rfl

end Hext.Props
