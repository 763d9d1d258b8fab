import Verif.Proofs.Pure
import Verif.Proofs.Run
set_option linter.unusedSimpArgs false
/-!
# What a group computed by the pure engine looks like
-/

namespace Hext

section
variable {ρ α : Type}

/-- One use of a rule: the rule, the node, the pairs below. -/
structure Use (ρ α : Type) where
  c : CR ρ α
  x : α
  s : Pairs ρ α

/-- The rule really matches the node with these pairs. -/
def Use.ok (u : Use ρ α) : Prop := (u.c.run u.x).val = some u.s

/-- The pairs contributed by uses. -/
def blocks (us : List (Use ρ α)) : Pairs ρ α := us.flatMap fun u => u.s ++ [(u.c.id, u.x)]

@[simp] theorem blocks_nil : blocks ([] : List (Use ρ α)) = [] := rfl
@[simp] theorem blocks_cons (u : Use ρ α) (us) : blocks (u :: us) = u.s ++ (u.c.id, u.x) :: blocks us := by
  simp [blocks]
@[simp] theorem blocks_append (us vs : List (Use ρ α)) : blocks (us ++ vs) = blocks us ++ blocks vs := by
  simp [blocks]

theorem once_run {c : CR ρ α} {ns : List α} {b : List α} {x : α} {s : Pairs ρ α} {r : List α}
    (h : (once c ns).val = some (b, x, s, r)) :
    (c.run x).val = some s ∧ ∀ y ∈ b, (c.run y).val = none := by
  induction ns generalizing b with
  | nil => simp [once] at h
  | cons y ys ih =>
    unfold once at h
    split at h
    · rename_i sub heq
      simp at h; obtain ⟨rfl, rfl, rfl, rfl⟩ := h
      exact ⟨heq, by simp⟩
    · split at h
      · simp at h
      · rename_i hy b' y' s' r' heq
        simp at h
        obtain ⟨rfl, rfl, rfl, rfl⟩ := h
        obtain ⟨h1, h2⟩ := ih heq
        refine ⟨h1, ?_⟩
        intro z hz
        rcases List.mem_cons.1 hz with rfl | hz
        · assumption
        · exact h2 z hz

theorem once_none {c : CR ρ α} {ns : List α} :
    (once c ns).val = none ↔ ∀ y ∈ ns, (c.run y).val = none := by
  induction ns with
  | nil => simp [once]
  | cons y ys ih =>
    unfold once
    split
    · rename_i sub heq; simp [heq]
    · rename_i heq
      split
      · rename_i h2; simp [heq, ← ih, h2]
      · rename_i h2; simp [heq, ← ih, h2]

/-- The rule matches the node. -/
def CR.sat (c : CR ρ α) (x : α) : Prop := (c.run x).val.isSome = true

theorem CR.not_sat {c : CR ρ α} {x : α} : ¬ c.sat x ↔ (c.run x).val = none := by
  unfold CR.sat; cases (c.run x).val <;> simp

abbrev FillC : List (CR ρ α) → List α → List (Use ρ α) → Option (List α) → Prop :=
  Fill CR.greedy CR.sat Use.c Use.x

abbrev RunC : Option (CR ρ α) → List (CR ρ α) → List (CR ρ α) → List α → List (Anchored (Use ρ α)) →
    List (Use ρ α) → List α → Prop := Run CR.optional CR.greedy CR.sat Use.c Use.x

theorem once_leftmost {c : CR ρ α} {ns b : List α} {x : α} {s : Pairs ρ α} {r : List α}
    (h : (once c ns).val = some (b, x, s, r)) : Leftmost c.sat ns b x r := by
  obtain ⟨h1, h2⟩ := once_run h
  exact ⟨once_some h, fun y hy => CR.not_sat.2 (h2 y hy), by simp [CR.sat, h1]⟩

theorem once_miss {c : CR ρ α} {ns : List α} (h : (once c ns).val = none) : ∀ y ∈ ns, ¬ c.sat y :=
  fun y hy => CR.not_sat.2 (once_none.1 h y hy)

theorem rangeGreedy_fill (c : CR ρ α) (hg : c.greedy = true) (cs : List (CR ρ α)) (vs : List (Use ρ α))
    (o : Option (List α)) (ns : List α) (hf : FillC cs (rangeGreedy c ns).val.2 vs o) :
    ∃ us, FillC (c :: cs) ns (us ++ vs) o ∧ (∀ u ∈ us, u.ok) ∧ (rangeGreedy c ns).val.1 = blocks us := by
  fun_induction rangeGreedy c ns with
  | case1 ns h => exact ⟨[], .miss (once_miss h) hf, by simp, by simp⟩
  | case2 ns b x s r h _ t ih =>
    obtain ⟨us, h1, h2, h3⟩ := ih hf
    refine ⟨⟨c, x, s⟩ :: us, .more hg rfl (once_leftmost h) h1, ?_, ?_⟩
    · intro u hu
      rcases List.mem_cons.1 hu with rfl | hu
      · exact (once_run h).1
      · exact h2 u hu
    · simp [t, h3]

/-- `range` uses fillers. -/
theorem range_fill (cs : List (CR ρ α)) (ns : List α) :
    ∃ us, FillC cs ns us (range cs ns).val.2 ∧ (∀ u ∈ us, u.ok) ∧ (range cs ns).val.1 = blocks us := by
  induction cs generalizing ns with
  | nil => exact ⟨[], .nil, by simp, by simp [range]⟩
  | cons c cs ih =>
    unfold range
    split
    · rename_i hg
      obtain ⟨vs, k1, k2, k3⟩ := ih (rangeGreedy c ns).val.2
      obtain ⟨us, h1, h2, h3⟩ := rangeGreedy_fill c hg cs vs _ ns k1
      refine ⟨us ++ vs, h1, ?_, by simp [h3, k3]⟩
      intro u hu
      rcases List.mem_append.1 hu with hu | hu
      · exact h2 u hu
      · exact k2 u hu
    · rename_i hg
      simp only
      split
      · rename_i ho
        obtain ⟨vs, k1, k2, k3⟩ := ih ns
        exact ⟨vs, .miss (once_miss ho) k1, k2, k3⟩
      · rename_i b x s r ho
        obtain ⟨vs, k1, k2, k3⟩ := ih r
        refine ⟨⟨c, x, s⟩ :: vs, ?_, ?_, by simp [k3]⟩
        · have := Fill.hit (rule := Use.c) (node := Use.x) (u := (⟨c, x, s⟩ : Use ρ α)) (by simpa using hg) rfl
            (once_leftmost ho) k1
          simpa only [List.isEmpty_iff] using this
        · intro u hu
          rcases List.mem_cons.1 hu with rfl | hu
          · exact (once_run ho).1
          · exact k2 u hu

theorem splitMand_eq {cs o r : List (CR ρ α)} {m : CR ρ α} (h : splitMand cs = some (o, m, r)) :
    cs = o ++ m :: r ∧ (∀ c ∈ o, c.optional = true) ∧ m.optional = false := by
  induction cs generalizing o with
  | nil => simp [splitMand] at h
  | cons c cs ih =>
    unfold splitMand at h
    split at h
    · rename_i hc
      split at h
      · simp at h
      · rename_i o' m' r' heq
        simp at h
        obtain ⟨rfl, rfl, rfl⟩ := h
        obtain ⟨h1, h2, h3⟩ := ih heq
        refine ⟨by simp [← h1], ?_, h3⟩
        intro d hd
        rcases List.mem_cons.1 hd with rfl | hd
        · exact hc
        · exact h2 d hd
    · rename_i hc
      simp at h
      obtain ⟨rfl, rfl, rfl⟩ := h
      exact ⟨by simp, by simp, by simpa using hc⟩

theorem splitMand_none_iff {cs : List (CR ρ α)} : splitMand cs = none ↔ ∀ c ∈ cs, c.optional = true := by
  induction cs with
  | nil => simp [splitMand]
  | cons c cs ih =>
    unfold splitMand
    split
    · rename_i hc
      split
      · rename_i h; simp [hc, ← ih, h]
      · rename_i h; simp [hc, ← ih, h]
    · rename_i hc; simp [hc]

/-- The pairs of a run. -/
def runPairs (steps : List (Anchored (Use ρ α))) (final : List (Use ρ α)) : Pairs ρ α :=
  (steps.flatMap fun s => s.anchor.s ++ blocks s.fill ++ [(s.anchor.c.id, s.anchor.x)]) ++ blocks final

theorem Run.optionals {first : Option (CR ρ α)} {opts : List (CR ρ α)} (ho : ∀ c ∈ opts, c.optional = true)
    {F cs : List (CR ρ α)} {ns : List α} {steps : List (Anchored (Use ρ α))} {final : List (Use ρ α)} {rest : List α}
    (h : RunC first (F ++ opts) cs ns steps final rest) : RunC first F (opts ++ cs) ns steps final rest := by
  induction opts generalizing F with
  | nil => simpa using h
  | cons c opts ih =>
    refine .optional (ho c (by simp)) (ih (fun d hd => ho d (by simp [hd])) (by simpa using h))

theorem firstMand_append (xs ys : List (CR ρ α)) : firstMand (xs ++ ys) = (firstMand xs).or (firstMand ys) := by
  simp [firstMand, List.find?_append]

theorem firstMand_none {xs : List (CR ρ α)} (h : ∀ c ∈ xs, c.optional = true) : firstMand xs = none := by
  simp only [firstMand, List.find?_eq_none]
  intro c hc; simp [h c hc]

/-- A computed group is a run, or it failed. -/
theorem group_run (pre cs : List (CR ρ α)) (again : Bool) (ns : List α) (sub : Pairs ρ α)
    (hag : again = true → ∃ c cs', cs = c :: cs' ∧ c.greedy = true ∧ c.optional = false) :
    (group pre cs again ns sub).val = ([], []) ∨
    ∃ steps final, RunC (firstMand pre) (if again then cs.take 1 else []) (if again then cs.tail else cs) ns steps final
        (group pre cs again ns sub).val.2 ∧
      (∀ u ∈ Anchored.uses steps final, u.ok) ∧
      (group pre cs again ns sub).val.1 = sub ++ runPairs steps final := by
  -- fillers pending at a rule that is optional or was matched already
  have pend : ∀ (first : Option (CR ρ α)) (c : CR ρ α) (cs opts : List (CR ρ α)) (again : Bool) ns steps final rest,
      (c.optional || again) = true → (∀ c ∈ opts, c.optional = true) →
      RunC first (c :: opts) cs ns steps final rest →
      RunC first (if again then (c :: (opts ++ cs)).take 1 else []) (if again then (c :: (opts ++ cs)).tail else c :: (opts ++ cs))
        ns steps final rest := by
    intro first c cs opts again ns steps final rest hc ho h
    cases again with
    | true =>
      simp only [if_true, List.take_succ_cons, List.take_zero, List.tail_cons]
      exact Run.optionals ho (by simpa using h)
    | false =>
      simp only [Bool.or_false] at hc
      simp only [Bool.false_eq_true, if_false]
      refine Run.optionals (opts := c :: opts) ?_ (by simpa using h)
      intro d hd
      rcases List.mem_cons.1 hd with rfl | hd
      · exact hc
      · exact ho d hd
  fun_induction group pre cs again ns sub with
  | case1 pre again ns sub =>
    right
    cases again with
    | true => obtain ⟨_, _, h, _⟩ := hag rfl; cases h
    | false => exact ⟨[], [], .done, by simp [Anchored.uses], by simp [runPairs]⟩
  | case2 pre again sub c cs h =>
    right
    refine ⟨[], [], ?_, by simp [Anchored.uses], by simp [runPairs]⟩
    have hfill : ∀ F : List (CR ρ α), FillC F [] [] none := by
      intro F
      induction F with
      | nil => exact .nil
      | cons c F ih => exact .miss (by simp) ih
    have hcs : (c.optional || again) = true ∧ ∀ d ∈ cs, d.optional = true := by
      cases again with
      | true => simpa using h
      | false => simpa using h
    have := pend (firstMand pre) c [] cs again ([] : List α) [] [] [] hcs.1 hcs.2 (by
      cases firstMand pre with
      | none => exact Run.fillEnd (o := none) (by simp) (hfill _)
      | some m => exact Run.fillAll (by simp) (by simp) (hfill _))
    simpa using this
  | case3 => left; rfl
  | case4 => left; rfl
  | case5 pre again sub c cs n ns hc opts stop rest hs b x s r h _ m t ih =>
    obtain ⟨e1, e2, e3⟩ := splitMand_eq hs
    obtain ⟨hx, hb⟩ := once_run h
    rcases ih (by simp) with ih | ⟨steps, final, k1, k2, k3⟩
    · left; exact ih
    · right
      obtain ⟨us, l1, l2, l3⟩ := range_fill (c :: opts) b
      refine ⟨⟨us, ⟨stop, x, s⟩⟩ :: steps, final, ?_, ?_, ?_⟩
      · rw [e1]
        refine pend _ c (stop :: rest) opts again _ _ _ _ hc e2 ?_
        refine .anchor e3 rfl (once_leftmost h) l1 (.inr (by simp)) ?_
        simp only [Bool.false_eq_true, if_false] at k1
        have e : firstMand (pre ++ c :: opts ++ [stop]) =
            (firstMand pre).or ((c :: opts ++ [stop]).find? (! CR.optional ·)) := by
          rw [List.append_assoc, firstMand_append]; rfl
        rw [e] at k1
        exact k1
      · intro u hu
        simp only [Anchored.uses, List.flatMap_cons, List.append_assoc, List.mem_append, List.mem_singleton] at hu
        rcases hu with hu | rfl | hu
        · exact l2 u hu
        · exact hx
        · exact k2 u (by simpa [Anchored.uses] using hu)
      · refine k3.trans ?_
        simp [runPairs, m, l3]
  | case6 pre again sub c cs n ns hc hs hf m =>
    right
    obtain ⟨us, l1, l2, l3⟩ := range_fill (c :: cs) (n :: ns)
    refine ⟨[], us, ?_, by simpa [Anchored.uses] using l2, by simp [runPairs, m, l3]⟩
    have := pend (firstMand pre) c [] cs again _ [] us _ hc (splitMand_none_iff.1 hs)
      (by rw [hf]; exact .fillEnd (by simp) l1)
    simpa using this
  | case7 pre again sub c cs n ns hc hs stop hf o h m =>
    right
    obtain ⟨us, l1, l2, l3⟩ := range_fill (c :: cs) (n :: ns)
    refine ⟨[], us, ?_, by simpa [Anchored.uses] using l2, by simp [runPairs, m, l3]⟩
    have := pend (firstMand pre) c [] cs again _ [] us _ hc (splitMand_none_iff.1 hs)
      (by rw [hf]; exact .fillAll (by simp) (once_miss h) l1)
    simpa using this
  | case8 pre again sub c cs n ns hc hs stop hf o b x s r h m =>
    right
    obtain ⟨us, l1, l2, l3⟩ := range_fill (c :: cs) b
    refine ⟨[], us, ?_, by simpa [Anchored.uses] using l2, by simp [runPairs, m, l3]⟩
    have := pend (firstMand pre) c [] cs again _ [] us _ hc (splitMand_none_iff.1 hs)
      (by rw [hf]; exact .fillNext (by simp) (once_leftmost (c := stop) h) l1)
    simpa using this
  | case9 => left; rfl
  | case10 pre again sub c cs n ns hc b x s r h _ sub' t ih1 ih2 =>
    obtain ⟨hx, hb⟩ := once_run h
    obtain ⟨hco, rfl⟩ : c.optional = false ∧ again = false := by simpa using hc
    have key : t.val = ([], []) ∨ ∃ steps final,
        RunC (firstMand pre) [] (c :: cs) (n :: ns) (⟨[], ⟨c, x, s⟩⟩ :: steps) final t.val.2 ∧
        (∀ u ∈ Anchored.uses steps final, u.ok) ∧ t.val.1 = sub' ++ runPairs steps final := by
      by_cases hg : c.greedy = true
      · simp only [t, hg, if_true]
        rcases ih1 (fun _ => ⟨c, cs, rfl, hg, hco⟩) with h' | ⟨steps, final, k1, k2, k3⟩
        · exact .inl h'
        · refine .inr ⟨steps, final, ?_, k2, k3⟩
          simp only [if_true, List.take_succ_cons, List.take_zero, List.tail_cons] at k1
          exact .anchorGreedy hco rfl (once_leftmost h) hg k1
      · simp only [t, hg]
        rcases ih2 (by simp) with h' | ⟨steps, final, k1, k2, k3⟩
        · exact .inl h'
        · refine .inr ⟨steps, final, ?_, k2, k3⟩
          simp only [Bool.false_eq_true, if_false, firstMand_append] at k1 ⊢
          exact .anchor hco rfl (once_leftmost h) .nil (.inl (by simpa using hg)) k1
    rcases key with h' | ⟨steps, final, k1, k2, k3⟩
    · left; exact h'
    · right
      refine ⟨⟨[], ⟨c, x, s⟩⟩ :: steps, final, by simpa using k1, ?_, ?_⟩
      · intro u hu
        simp only [Anchored.uses, List.flatMap_cons, List.nil_append, List.append_assoc, List.mem_append,
          List.mem_singleton] at hu
        rcases hu with rfl | hu
        · exact hx
        · exact k2 u (by simpa [Anchored.uses] using hu)
      · refine k3.trans ?_
        simp [runPairs, sub']

/-! ## When does a group succeed? -/

/-- The mandatory rules can be assigned in order. -/
inductive EmbC : List (CR ρ α) → List α → Prop
  | nil {ls} : EmbC [] ls
  | optional {c cs ls} : c.optional = true → EmbC cs ls → EmbC (c :: cs) ls
  | here {c cs x ls} : c.optional = false → (c.run x).val.isSome = true → EmbC cs ls →
      EmbC (c :: cs) (x :: ls)
  | later {c cs x ls} : EmbC (c :: cs) ls → EmbC (c :: cs) (x :: ls)

theorem EmbC.prepend {cs : List (CR ρ α)} {ls : List α} (h : EmbC cs ls) (p : List α) :
    EmbC cs (p ++ ls) := by
  induction p with
  | nil => exact h
  | cons x p ih =>
    cases cs with
    | nil => exact .nil
    | cons c cs => exact .later ih

theorem EmbC.skip_iff {c : CR ρ α} {cs : List (CR ρ α)} {ls : List α} (hc : c.optional = true) :
    EmbC (c :: cs) ls ↔ EmbC cs ls := by
  refine ⟨fun h => ?_, .optional hc⟩
  induction ls with
  | nil =>
    cases h with
    | optional _ h => exact h
  | cons x ls ih =>
    cases h with
    | optional _ h => exact h
    | here h0 => simp [hc] at h0
    | later h => exact (ih h).prepend [x]

theorem EmbC.allOptional {cs : List (CR ρ α)} (h : ∀ c ∈ cs, c.optional = true) (ls : List α) :
    EmbC cs ls := by
  induction cs with
  | nil => exact .nil
  | cons c cs ih => exact .optional (h c (by simp)) (ih fun d hd => h d (by simp [hd]))

theorem EmbC.nil_iff {cs : List (CR ρ α)} : EmbC cs [] ↔ ∀ c ∈ cs, c.optional = true := by
  refine ⟨fun h => ?_, fun h => .allOptional h []⟩
  induction cs with
  | nil => simp
  | cons c cs ih =>
    cases h with
    | optional h0 h => simpa [h0] using ih h

theorem EmbC.append_opt {os cs : List (CR ρ α)} {ls : List α} (ho : ∀ c ∈ os, c.optional = true) :
    EmbC (os ++ cs) ls ↔ EmbC cs ls := by
  induction os with
  | nil => rfl
  | cons o os ih =>
    rw [List.cons_append, EmbC.skip_iff (ho o (by simp)), ih fun c hc => ho c (by simp [hc])]

/-- Taking the leftmost match of the first mandatory rule loses nothing. -/
theorem EmbC.mandatory_iff {c : CR ρ α} {cs : List (CR ρ α)} {ls : List α} (hc : c.optional = false) :
    EmbC (c :: cs) ls ↔ ∃ b x s r, (once c ls).val = some (b, x, s, r) ∧ EmbC cs r := by
  constructor
  · intro h
    induction ls with
    | nil =>
      cases h with
      | optional h0 => simp [hc] at h0
    | cons y ys ih =>
      cases hy : (c.run y).val with
      | some sub =>
        refine ⟨[], y, sub, ys, by simp [once, hy], ?_⟩
        cases h with
        | optional h0 => simp [hc] at h0
        | here _ _ h => exact h
        | later h =>
          obtain ⟨b, x, s, r, h1, h2⟩ := ih h
          rw [once_some h1]
          have := h2.prepend (b ++ [x])
          simpa using this
      | none =>
        cases h with
        | optional h0 => simp [hc] at h0
        | here _ h1 _ => simp [hy] at h1
        | later h =>
          obtain ⟨b, x, s, r, h1, h2⟩ := ih h
          exact ⟨y :: b, x, s, r, by simp [once, hy, h1], h2⟩
  · rintro ⟨b, x, s, r, h1, h2⟩
    rw [once_some h1]
    exact EmbC.prepend (.here hc (by simp [(once_run h1).1]) h2) b

/-- A group with a mandatory rule left (or already matched) is non-empty exactly when the mandatory
rules left can be assigned. -/
theorem group_embed (pre cs : List (CR ρ α)) (again : Bool) (ns : List α) (sub : Pairs ρ α)
    (hag : again = true → ∃ c cs', cs = c :: cs' ∧ c.greedy = true)
    (hm : sub ≠ [] ∨ (again = false ∧ ∃ c ∈ cs, c.optional = false)) :
    (group pre cs again ns sub).val.1 ≠ [] ↔ EmbC (if again then cs.tail else cs) ns := by
  fun_induction group pre cs again ns sub with
  | case1 pre again sub ns =>
    have : sub ≠ [] := by simpa using hm
    simp only [ne_eq, this, not_false_eq_true, List.tail_nil, ite_self, true_iff]
    exact .nil
  | case2 pre again sub c cs h =>
    have e : EmbC (if again then (c :: cs).tail else c :: cs) [] := by
      rw [EmbC.nil_iff]
      cases again <;> simpa using h
    simp only [e, iff_true]
    rcases hm with h' | ⟨h1, d, hd, h2⟩
    · exact h'
    · subst h1
      simp only [Bool.false_eq_true, if_false, List.all_eq_true] at h
      rw [h d hd] at h2; cases h2
  | case3 pre again sub c cs h =>
    have e : ¬ EmbC (if again then (c :: cs).tail else c :: cs) [] := by
      rw [EmbC.nil_iff]
      cases again <;> simpa using h
    exact iff_of_false (by simp) e
  | case4 pre again sub c cs n ns hc opts stop rest hs h =>
    obtain ⟨e1, e2, e3⟩ := splitMand_eq hs
    have e : ¬ EmbC (if again then (c :: cs).tail else c :: cs) (n :: ns) := by
      have k : ¬ EmbC cs (n :: ns) := by
        rw [e1, EmbC.append_opt e2, EmbC.mandatory_iff e3]
        simp [h]
      cases again with
      | true => exact k
      | false =>
        have : c.optional = true := by simpa using hc
        simp only [Bool.false_eq_true, if_false]
        rwa [EmbC.skip_iff this]
    exact iff_of_false (by simp) e
  | case5 pre again sub c cs n ns hc opts stop rest hs b x s r h _ m t ih =>
    obtain ⟨e1, e2, e3⟩ := splitMand_eq hs
    have e : EmbC (if again then (c :: cs).tail else c :: cs) (n :: ns) ↔ EmbC rest r := by
      have k : EmbC cs (n :: ns) ↔ EmbC rest r := by
        rw [e1, EmbC.append_opt e2, EmbC.mandatory_iff e3]
        constructor
        · rintro ⟨b', x', s', r', h1, h2⟩
          rw [h] at h1; cases h1; exact h2
        · intro h'; exact ⟨_, _, _, _, h, h'⟩
      cases again with
      | true => exact k
      | false =>
        have : c.optional = true := by simpa using hc
        simp only [Bool.false_eq_true, if_false]
        rwa [EmbC.skip_iff this]
    rw [e]
    exact ih (by simp) (.inl (by simp))
  | case6 pre again sub c cs n ns hc hs hf m =>
    have ho := splitMand_none_iff.1 hs
    have hsub : sub ≠ [] := by
      rcases hm with h | ⟨h1, d, hd, h2⟩
      · exact h
      · subst h1
        have hc' : c.optional = true := by simpa using hc
        rcases List.mem_cons.1 hd with rfl | hd
        · simp [hc'] at h2
        · simp [ho d hd] at h2
    have e : EmbC (if again then (c :: cs).tail else c :: cs) (n :: ns) := by
      refine .allOptional ?_ _
      cases again with
      | true => exact ho
      | false => intro d hd; rcases List.mem_cons.1 hd with rfl | hd; · simpa using hc
                 · exact ho d hd
    exact iff_of_true (by simp [hsub]) e
  | case7 pre again sub c cs n ns hc hs stop hf o h m =>
    have ho := splitMand_none_iff.1 hs
    have hsub : sub ≠ [] := by
      rcases hm with h | ⟨h1, d, hd, h2⟩
      · exact h
      · subst h1
        have hc' : c.optional = true := by simpa using hc
        rcases List.mem_cons.1 hd with rfl | hd
        · simp [hc'] at h2
        · simp [ho d hd] at h2
    have e : EmbC (if again then (c :: cs).tail else c :: cs) (n :: ns) := by
      refine .allOptional ?_ _
      cases again with
      | true => exact ho
      | false => intro d hd; rcases List.mem_cons.1 hd with rfl | hd; · simpa using hc
                 · exact ho d hd
    exact iff_of_true (by simp [hsub]) e
  | case8 pre again sub c cs n ns hc hs stop hf o b x s r h m =>
    have ho := splitMand_none_iff.1 hs
    have hsub : sub ≠ [] := by
      rcases hm with h | ⟨h1, d, hd, h2⟩
      · exact h
      · subst h1
        have hc' : c.optional = true := by simpa using hc
        rcases List.mem_cons.1 hd with rfl | hd
        · simp [hc'] at h2
        · simp [ho d hd] at h2
    have e : EmbC (if again then (c :: cs).tail else c :: cs) (n :: ns) := by
      refine .allOptional ?_ _
      cases again with
      | true => exact ho
      | false => intro d hd; rcases List.mem_cons.1 hd with rfl | hd; · simpa using hc
                 · exact ho d hd
    exact iff_of_true (by simp [hsub]) e
  | case9 pre again sub c cs n ns hc h =>
    have hc' : c.optional = false ∧ again = false := by simpa using hc
    have e : ¬ EmbC (if again then (c :: cs).tail else c :: cs) (n :: ns) := by
      simp only [hc'.2, Bool.false_eq_true, if_false]
      rw [EmbC.mandatory_iff hc'.1]
      simp [h]
    exact iff_of_false (by simp) e
  | case10 pre again sub c cs n ns hc b x s r h _ sub' t ih1 ih2 =>
    have hc' : c.optional = false ∧ again = false := by simpa using hc
    have e : EmbC (if again then (c :: cs).tail else c :: cs) (n :: ns) ↔ EmbC cs r := by
      simp only [hc'.2, Bool.false_eq_true, if_false]
      rw [EmbC.mandatory_iff hc'.1]
      constructor
      · rintro ⟨b', x', s', r', h1, h2⟩
        rw [h] at h1; cases h1; exact h2
      · intro h'; exact ⟨_, _, _, _, h, h'⟩
    rw [e]
    by_cases hg : c.greedy = true
    · simp only [t, hg, if_true]
      exact ih1 (fun _ => ⟨c, cs, rfl, hg⟩) (.inl (by simp [sub']))
    · simp only [t, hg]
      exact ih2 (by simp) (.inl (by simp [sub']))

theorem range_empty {cs : List (CR ρ α)} {ns : List α} (h : (range cs ns).val.1 = []) :
    (range cs ns).val.2 = none := by
  induction cs generalizing ns with
  | nil => rfl
  | cons c cs ih =>
    unfold range at h ⊢
    split
    · rename_i hg
      simp only [hg, if_true, List.append_eq_nil_iff] at h
      exact ih h.2
    · rename_i hg
      simp only [hg, Bool.false_eq_true, if_false] at h
      simp only
      split
      · rename_i ho
        simp only [ho] at h
        exact ih h
      · rename_i ho
        simp only [ho] at h
        simp at h

/-- An empty group is the last one. -/
theorem group_empty_stop (c : CR ρ α) (cs : List (CR ρ α)) (n : α) (ns : List α)
    (h : (group [] (c :: cs) false (n :: ns) []).val.1 = []) :
    (group [] (c :: cs) false (n :: ns) []).val.2 = [] := by
  have key : ∀ pre cs again ns (sub : Pairs ρ α), sub ≠ [] →
      (again = true → ∃ c cs', cs = c :: cs' ∧ c.greedy = true ∧ c.optional = false) →
      (group pre cs again ns sub).val.1 = [] → (group pre cs again ns sub).val.2 = [] := by
    intro pre cs again ns sub hsub hag h
    rcases group_run pre cs again ns sub hag with h' | ⟨_, _, _, _, k5⟩
    · rw [h']
    · rw [k5] at h; simp [hsub] at h
  unfold group at h ⊢
  split at h
  · rename_i hc
    simp only [hc, if_true]
    split at h
    · rename_i opts stop rest hs
      split at h
      · rfl
      · exact key _ _ _ _ _ (by simp) (by simp) h
    · rename_i hs
      simp only [firstMand, List.find?_nil] at h ⊢
      simp only [List.nil_append] at h
      rw [range_empty h]; rfl
  · rename_i hc
    simp only [hc]
    split at h
    · rfl
    · by_cases hg : c.greedy = true
      · simp only [hg, if_true] at h ⊢
        exact key _ _ _ _ _ (by simp) (fun _ => ⟨c, cs, rfl, hg, by simpa using hc⟩) h
      · simp only [hg] at h ⊢
        exact key _ _ _ _ _ (by simp) (by simp) h

/-- The groups of a chain on a list of siblings. -/
inductive GroupsC (cs : List (CR ρ α)) : List α → List (Pairs ρ α) → Prop
  | stop {rest} : ¬ EmbC cs rest → GroupsC cs rest []
  | stopOptional {rest} : (∀ c ∈ cs, c.optional = true) → (∀ c ∈ cs, ∀ x ∈ rest, ¬ c.sat x) → GroupsC cs rest []
  | cons {ns rest gs} (steps : List (Anchored (Use ρ α))) (final : List (Use ρ α)) :
      RunC none [] cs ns steps final rest → (∀ u ∈ Anchored.uses steps final, u.ok) →
      Anchored.uses steps final ≠ [] → GroupsC cs rest gs → GroupsC cs ns (runPairs steps final :: gs)

theorem runPairs_nil {steps : List (Anchored (Use ρ α))} {final : List (Use ρ α)} :
    runPairs steps final = [] ↔ Anchored.uses steps final = [] := by
  cases steps with
  | nil =>
    cases final with
    | nil => simp [runPairs, Anchored.uses]
    | cons u us => simp [runPairs, Anchored.uses]
  | cons s steps => simp [runPairs, Anchored.uses]

theorem groups_spec (cs : List (CR ρ α)) (ns : List α) : GroupsC cs ns (groups cs ns).val := by
  fun_induction groups cs ns with
  | case1 => exact .stopOptional (by simp) (by simp)
  | case2 cs hcs =>
    by_cases hm : ∀ c ∈ cs, c.optional = true
    · exact .stopOptional hm (by simp)
    · exact .stop (mt EmbC.nil_iff.1 hm)
  | case3 c cs n ns g _ t ih =>
    by_cases he : g.val.1.isEmpty
    · have h2 := group_empty_stop c cs n ns (by simpa using he)
      have ht : t.val = [] := by
        simp only [t]
        have : g.val.2 = [] := h2
        rw [this]; unfold groups; rfl
      simp only [he, if_true, ht]
      by_cases hm : ∃ d ∈ c :: cs, d.optional = false
      · refine .stop ?_
        have := group_embed [] (c :: cs) false (n :: ns) [] (by simp) (.inr ⟨rfl, hm⟩)
        simp only [Bool.false_eq_true, if_false] at this
        rw [← this]
        simpa using he
      · have hm' : ∀ d ∈ c :: cs, d.optional = true := by
          intro d hd
          cases ho : d.optional with
          | true => rfl
          | false => exact absurd ⟨d, hd, ho⟩ hm
        refine .stopOptional hm' ?_
        have hg : g.val.1 = (range (c :: cs) (n :: ns)).val.1 := by
          have hs : splitMand cs = none := splitMand_none_iff.2 fun d hd => hm' d (by simp [hd])
          simp only [g]
          unfold group
          simp [hm' c (by simp), hs, firstMand]
        obtain ⟨us, l1, _, l3⟩ := range_fill (c :: cs) (n :: ns)
        refine l1.eq_nil.1 ?_
        rw [← hg] at l3
        cases us with
        | nil => rfl
        | cons u us =>
          have : g.val.1 = [] := by simpa using he
          rw [this] at l3
          simp at l3
    · have hne : g.val.1 ≠ [] := by simpa using he
      rcases group_run [] (c :: cs) false (n :: ns) [] (by simp) with h | ⟨steps, final, k1, k2, k3⟩
      · exact absurd (by simp only [g, h]) hne
      · simp only [he, Bool.false_eq_true, if_false]
        have hp : g.val.1 = runPairs steps final := by simpa using k3
        rw [hp] at hne ⊢
        exact .cons steps final k1 k2 (mt runPairs_nil.2 hne) ih

end
end Hext
