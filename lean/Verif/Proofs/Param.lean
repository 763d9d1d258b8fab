import Verif.Proofs.Pure
import Verif.Spec.Similar
set_option linter.unusedSimpArgs false
/-!
# The engine does the same on similar inputs

Two runs of the engine, on lists of siblings that correspond to each other, with rules that correspond to each other, find
corresponding pairs. The first list may have additional members that no rule matches (`D`).
-/

namespace Hext.Param

/-- The members of two lists correspond to each other; the first list may have additional members. -/
inductive Sib {α β : Type} (D : α → Prop) (R : α → β → Prop) : List α → List β → Prop
  | nil : Sib D R [] []
  | cons {x y xs ys} : R x y → Sib D R xs ys → Sib D R (x :: xs) (y :: ys)
  | skip {x xs ys} : D x → Sib D R xs ys → Sib D R (x :: xs) ys

/-- The members of two lists of the same length correspond to each other. -/
inductive All2 {α β : Type} (R : α → β → Prop) : List α → List β → Prop
  | nil : All2 R [] []
  | cons {x y xs ys} : R x y → All2 R xs ys → All2 R (x :: xs) (y :: ys)

namespace All2
variable {α β : Type} {R : α → β → Prop}

theorem append {a b : List α} {a' b' : List β} (h : All2 R a a') (h' : All2 R b b') : All2 R (a ++ b) (a' ++ b') := by
  induction h with
  | nil => exact h'
  | cons h _ ih => exact .cons h ih

theorem isEmpty_eq {a : List α} {a' : List β} (h : All2 R a a') : a.isEmpty = a'.isEmpty := by cases h <;> rfl

theorem nil_iff {a : List α} {a' : List β} (h : All2 R a a') : a = [] ↔ a' = [] := by cases h <;> simp

theorem flatten {a : List (List α)} {a' : List (List β)} (h : All2 (All2 R) a a') : All2 R a.flatten a'.flatten := by
  induction h with
  | nil => exact .nil
  | cons h _ ih => exact h.append ih

end All2

namespace Sib
variable {α β : Type} {D : α → Prop} {R : α → β → Prop}

theorem append {a b : List α} {a' b' : List β} (h : Sib D R a a') (h' : Sib D R b b') : Sib D R (a ++ b) (a' ++ b') := by
  induction h with
  | nil => exact h'
  | cons h _ ih => exact .cons h ih
  | skip h _ ih => exact .skip h ih

theorem nil_left {ys : List β} (h : Sib D R [] ys) : ys = [] := by cases h; rfl

end Sib

/-- Two optional values correspond to each other. -/
def Opt2 {α β : Type} (R : α → β → Prop) : Option α → Option β → Prop
  | none, none => True
  | some a, some b => R a b
  | _, _ => False

section
variable {ρ ρ' α β : Type} (P : ρ → ρ' → Prop) (D : α → Prop) (R : α → β → Prop)

/-- What two runs cost: the second not more than the first, and the same if there are no additional nodes. -/
def CostRel {α : Type} (D : α → Prop) (a b : Nat) : Prop := b ≤ a ∧ ((∀ x, ¬ D x) → a = b)

theorem CostRel.refl {α : Type} {D : α → Prop} (a : Nat) : CostRel D a a := ⟨Nat.le_refl _, fun _ => rfl⟩

theorem CostRel.of_eq {α : Type} {D : α → Prop} {a b : Nat} (h : a = b) : CostRel D a b := h ▸ .refl a

theorem CostRel.add {α : Type} {D : α → Prop} {a b c d : Nat} (h : CostRel D a b) (h' : CostRel D c d) :
    CostRel D (a + c) (b + d) := ⟨Nat.add_le_add h.1 h'.1, fun hd => by rw [h.2 hd, h'.2 hd]⟩

theorem CostRel.skip {α : Type} {D : α → Prop} {a b c : Nat} {x : α} (hx : D x) (h : CostRel D a b) (hc : a ≤ c) :
    CostRel D c b := ⟨Nat.le_trans h.1 hc, fun hd => absurd hx (hd x)⟩

theorem CostRel.zero {α : Type} {D : α → Prop} (c : Nat) {x : α} (hx : D x) : CostRel D c 0 :=
  ⟨Nat.zero_le _, fun hd => absurd hx (hd x)⟩

/-- Pairs of a rule and a node correspond to each other. -/
def Pair2 (p : ρ × α) (q : ρ' × β) : Prop := P p.1 q.1 ∧ R p.2 q.2

/-- Two rules correspond to each other: they do the same on corresponding nodes. The second makes
no more searches than the first, and the same number if there are no additional nodes. -/
structure CRel (c : CR ρ α) (c' : CR ρ' β) : Prop where
  id : P c.id c'.id
  optional : c.optional = c'.optional
  greedy : c.greedy = c'.greedy
  run : ∀ x y, R x y → Opt2 (All2 (Pair2 P R)) (c.run x).val (c'.run y).val
  cost : ∀ x y, R x y → CostRel D (c.run x).cost (c'.run y).cost
  dead : ∀ x, D x → (c.run x).val = none

variable {P D R}

/-- What `once` finds. -/
def Hit2 (P : ρ → ρ' → Prop) (D : α → Prop) (R : α → β → Prop) (a : List α × α × Pairs ρ α × List α)
    (b : List β × β × Pairs ρ' β × List β) : Prop :=
  Sib D R a.1 b.1 ∧ R a.2.1 b.2.1 ∧ All2 (Pair2 P R) a.2.2.1 b.2.2.1 ∧ Sib D R a.2.2.2 b.2.2.2

theorem once_dead {c : CR ρ α} {x : α} (h : (c.run x).val = none) (xs : List α) :
    (once c (x :: xs)).val = (once c xs).val.map fun q => (x :: q.1, q.2) := by
  rw [once, h]
  cases h3 : (once c xs).val <;> rfl

theorem once_rel {c : CR ρ α} {c' : CR ρ' β} (hc : CRel P D R c c') {ns : List α} {ns' : List β} (h : Sib D R ns ns') :
    Opt2 (Hit2 P D R) (once c ns).val (once c' ns').val ∧ CostRel D (once c ns).cost (once c' ns').cost := by
  induction h with
  | nil => exact ⟨trivial, CostRel.refl _⟩
  | @cons x y xs ys hxy hs ih =>
    have hr := hc.run x y hxy
    have hk := hc.cost x y hxy
    unfold once
    cases h1 : (c.run x).val with
    | some s =>
      cases h2 : (c'.run y).val with
      | none => simp [h1, h2, Opt2] at hr
      | some s' =>
        rw [h1, h2] at hr
        exact ⟨⟨.nil, hxy, hr, hs⟩, hk⟩
    | none =>
      cases h2 : (c'.run y).val with
      | some s => simp [h1, h2, Opt2] at hr
      | none =>
        simp only
        obtain ⟨ih1, ih2⟩ := ih
        cases h3 : (once c xs).val with
        | none =>
          cases h4 : (once c' ys).val with
          | some s => simp [h3, h4, Opt2] at ih1
          | none => exact ⟨trivial, (hk.add ih2)⟩
        | some s =>
          cases h4 : (once c' ys).val with
          | none => simp [h3, h4, Opt2] at ih1
          | some s' =>
            rw [h3, h4] at ih1
            obtain ⟨b, z, q, r⟩ := s
            obtain ⟨b', z', q', r'⟩ := s'
            obtain ⟨i1, i2, i3, i4⟩ := ih1
            exact ⟨⟨.cons hxy i1, i2, i3, i4⟩, (hk.add ih2)⟩
  | @skip x xs ys hx hs ih =>
    refine ⟨?_, ih.2.skip hx ?_⟩
    case refine_2 =>
      rw [once, hc.dead x hx]
      cases h3 : (once c xs).val <;> simp
    rw [once_dead (hc.dead x hx)]
    obtain ⟨ih1, -⟩ := ih
    cases h3 : (once c xs).val with
    | none => rw [h3] at ih1; exact ih1
    | some s =>
      rw [h3] at ih1
      cases h4 : (once c' ys).val with
      | none => rw [h4] at ih1; exact ih1
      | some s' =>
        rw [h4] at ih1
        exact ⟨.skip hx ih1.1, ih1.2⟩

theorem once_cases {c : CR ρ α} {c' : CR ρ' β} (hc : CRel P D R c c') {ns : List α} {ns' : List β} (h : Sib D R ns ns') :
    ((once c ns).val = none ∧ (once c' ns').val = none) ∨
    ∃ b x s r b' x' s' r', (once c ns).val = some (b, x, s, r) ∧ (once c' ns').val = some (b', x', s', r') ∧
      Sib D R b b' ∧ R x x' ∧ All2 (Pair2 P R) s s' ∧ Sib D R r r' := by
  have := (once_rel hc h).1
  cases h3 : (once c ns).val with
  | none =>
    cases h4 : (once c' ns').val with
    | none => exact .inl ⟨rfl, rfl⟩
    | some s' => simp [h3, h4, Opt2] at this
  | some s =>
    cases h4 : (once c' ns').val with
    | none => simp [h3, h4, Opt2] at this
    | some s' =>
      rw [h3, h4] at this
      obtain ⟨b, z, q, r⟩ := s
      obtain ⟨b', z', q', r'⟩ := s'
      exact .inr ⟨b, z, q, r, b', z', q', r', rfl, rfl, this⟩

theorem rangeGreedy_none {c : CR ρ α} {ns : List α} (h : (once c ns).val = none) :
    rangeGreedy c ns = ⟨([], ns), (once c ns).cost⟩ := by
  rw [rangeGreedy]; split
  · rfl
  · simp_all

theorem rangeGreedy_some {c : CR ρ α} {ns b : List α} {x s r} (h : (once c ns).val = some (b, x, s, r)) :
    rangeGreedy c ns = ⟨(s ++ (c.id, x) :: (rangeGreedy c r).val.1, (rangeGreedy c r).val.2),
      (once c ns).cost + (rangeGreedy c r).cost⟩ := by
  rw [rangeGreedy]; split
  · simp_all
  · simp_all

theorem rangeGreedy_rel {c : CR ρ α} {c' : CR ρ' β} (hc : CRel P D R c c') :
    ∀ (k : Nat) {ns : List α} {ns' : List β}, ns.length ≤ k → Sib D R ns ns' →
    (All2 (Pair2 P R) (rangeGreedy c ns).val.1 (rangeGreedy c' ns').val.1 ∧
      Sib D R (rangeGreedy c ns).val.2 (rangeGreedy c' ns').val.2) ∧
    CostRel D (rangeGreedy c ns).cost (rangeGreedy c' ns').cost := by
  intro k
  induction k with
  | zero =>
    intro ns ns' hk h
    have : ns = [] := List.length_eq_zero_iff.1 (by omega)
    subst this
    cases h.nil_left
    rw [rangeGreedy_none (by rfl), rangeGreedy_none (by rfl)]
    exact ⟨⟨.nil, .nil⟩, CostRel.refl _⟩
  | succ k ih =>
    intro ns ns' hk h
    have hco := (once_rel hc h).2
    rcases once_cases hc h with ⟨h1, h2⟩ | ⟨b, x, s, r, b', x', s', r', h1, h2, hb, hx, hs, hr⟩
    · rw [rangeGreedy_none h1, rangeGreedy_none h2]
      exact ⟨⟨.nil, h⟩, hco⟩
    · have := once_rest_lt h1
      obtain ⟨⟨i1, i2⟩, i3⟩ := ih (by omega) hr
      rw [rangeGreedy_some h1, rangeGreedy_some h2]
      exact ⟨⟨hs.append (.cons ⟨hc.id, hx⟩ i1), i2⟩, (hco.add i3)⟩

theorem range_rel {cs : List (CR ρ α)} {cs' : List (CR ρ' β)} (hc : All2 (CRel P D R) cs cs') :
    ∀ {ns : List α} {ns' : List β}, Sib D R ns ns' →
    (All2 (Pair2 P R) (range cs ns).val.1 (range cs' ns').val.1 ∧
      Opt2 (Sib D R) (range cs ns).val.2 (range cs' ns').val.2) ∧
    CostRel D (range cs ns).cost (range cs' ns').cost := by
  induction hc with
  | nil => intro ns ns' _; exact ⟨⟨.nil, trivial⟩, CostRel.refl _⟩
  | @cons c c' cs cs' hc hcs ih =>
    intro ns ns' h
    unfold range
    rw [← hc.greedy]
    cases hg : c.greedy with
    | true =>
      obtain ⟨⟨g1, g2⟩, g3⟩ := rangeGreedy_rel hc _ (Nat.le_refl _) h
      obtain ⟨⟨i1, i2⟩, i3⟩ := ih g2
      exact ⟨⟨g1.append i1, i2⟩, (g3.add i3)⟩
    | false =>
      simp only [Bool.false_eq_true, if_false]
      have hco := (once_rel hc h).2
      rcases once_cases hc h with ⟨h1, h2⟩ | ⟨b, x, s, r, b', x', s', r', h1, h2, hb, hx, hs, hr⟩
      · obtain ⟨⟨i1, i2⟩, i3⟩ := ih h
        rw [h1, h2]
        exact ⟨⟨i1, i2⟩, (hco.add i3)⟩
      · obtain ⟨⟨i1, i2⟩, i3⟩ := ih hr
        rw [h1, h2]
        refine ⟨⟨hs.append (.cons ⟨hc.id, hx⟩ i1), ?_⟩, (hco.add i3)⟩
        simp only [hcs.isEmpty_eq]
        split
        · exact hr
        · exact i2

/-- What `splitMand` returns. -/
def Split2 (P : ρ → ρ' → Prop) (D : α → Prop) (R : α → β → Prop) (a : List (CR ρ α) × CR ρ α × List (CR ρ α))
    (b : List (CR ρ' β) × CR ρ' β × List (CR ρ' β)) : Prop :=
  All2 (CRel P D R) a.1 b.1 ∧ CRel P D R a.2.1 b.2.1 ∧ All2 (CRel P D R) a.2.2 b.2.2

theorem splitMand_rel {cs : List (CR ρ α)} {cs' : List (CR ρ' β)} (hc : All2 (CRel P D R) cs cs') :
    Opt2 (Split2 P D R) (splitMand cs) (splitMand cs') := by
  induction hc with
  | nil => trivial
  | @cons c c' cs cs' hc hcs ih =>
    unfold splitMand
    rw [← hc.optional]
    cases ho : c.optional with
    | false => exact ⟨.nil, hc, hcs⟩
    | true =>
      simp only [if_true]
      cases h1 : splitMand cs with
      | none =>
        cases h2 : splitMand cs' with
        | none => trivial
        | some q => simp [h1, h2, Opt2] at ih
      | some q =>
        cases h2 : splitMand cs' with
        | none => simp [h1, h2, Opt2] at ih
        | some q' =>
          rw [h1, h2] at ih
          exact ⟨.cons hc ih.1, ih.2⟩

theorem firstMand_rel {cs : List (CR ρ α)} {cs' : List (CR ρ' β)} (hc : All2 (CRel P D R) cs cs') :
    Opt2 (CRel P D R) (firstMand cs) (firstMand cs') := by
  induction hc with
  | nil => trivial
  | @cons c c' cs cs' hc hcs ih =>
    unfold firstMand at *
    rw [List.find?_cons, List.find?_cons, ← hc.optional]
    cases ho : c.optional with
    | false => exact hc
    | true => exact ih

theorem all_optional_rel {cs : List (CR ρ α)} {cs' : List (CR ρ' β)} (hc : All2 (CRel P D R) cs cs') :
    cs.all (·.optional) = cs'.all (·.optional) := by
  induction hc with
  | nil => rfl
  | cons hc hcs ih => simp [hc.optional, ih]

theorem splitMand_none_iff {cs : List (CR ρ α)} : splitMand cs = none ↔ cs.all (·.optional) = true := by
  induction cs with
  | nil => simp [splitMand]
  | cons c cs ih =>
    unfold splitMand
    cases ho : c.optional with
    | false => simp [ho]
    | true =>
      simp only [if_true, List.all_cons, ho, Bool.true_and, ← ih]
      cases splitMand cs <;> simp

/-! ## Lists of which no rule matches any member -/

/-- No member of the list is matched by a rule of the chain. -/
def AllDead (cs : List (CR ρ α)) (ns : List α) : Prop := ∀ c ∈ cs, ∀ x ∈ ns, (c.run x).val = none

theorem once_allDead {c : CR ρ α} {ns : List α} (h : ∀ x ∈ ns, (c.run x).val = none) : (once c ns).val = none := by
  induction ns with
  | nil => rfl
  | cons x xs ih => rw [once_dead (h x (by simp)), ih fun y hy => h y (by simp [hy])]; rfl

theorem range_allDead {cs : List (CR ρ α)} {ns : List α} (h : AllDead cs ns) :
    (range cs ns).val.1 = [] ∧ (range cs ns).val.2 = none := by
  induction cs with
  | nil => exact ⟨rfl, rfl⟩
  | cons c cs ih =>
    have h1 := once_allDead (h c (by simp))
    have h2 := ih fun d hd => h d (by simp [hd])
    unfold range
    split
    · rw [rangeGreedy_none h1]; exact ⟨by simp [h2.1], h2.2⟩
    · simp only [h1]; exact h2

theorem splitMand_mem {cs o r : List (CR ρ α)} {m : CR ρ α} (h : splitMand cs = some (o, m, r)) :
    cs = o ++ m :: r := by
  induction cs generalizing o with
  | nil => simp [splitMand] at h
  | cons c cs ih =>
    unfold splitMand at h
    split at h
    · split at h
      · simp at h
      · rename_i o' m' r' h2
        simp at h
        obtain ⟨rfl, rfl, rfl⟩ := h
        simp [ih h2]
    · simp at h; obtain ⟨rfl, rfl, rfl⟩ := h; rfl

theorem group_nil (pre : List (CR ρ α)) (c : CR ρ α) (cs : List (CR ρ α)) (again : Bool) (sub : Pairs ρ α) :
    group pre (c :: cs) again [] sub =
      if (if again then cs else c :: cs).all (·.optional) then ⟨(sub, []), 0⟩ else ⟨([], []), 0⟩ := by
  rw [group]

theorem group_done (pre : List (CR ρ α)) (again : Bool) (ns : List α) (sub : Pairs ρ α) :
    group pre [] again ns sub = ⟨(sub, ns), 0⟩ := by
  rw [group]

theorem group_stop_none {pre cs opts rest : List (CR ρ α)} {c stop : CR ρ α} {again : Bool} {n : α} {ns : List α}
    {sub : Pairs ρ α} (hoa : (c.optional || again) = true) (hs : splitMand cs = some (opts, stop, rest))
    (h : (once stop (n :: ns)).val = none) :
    group pre (c :: cs) again (n :: ns) sub = ⟨([], []), (once stop (n :: ns)).cost⟩ := by
  rw [group, if_pos hoa, hs]
  simp only
  split
  · rfl
  · simp_all

theorem group_stop_some {pre cs opts rest : List (CR ρ α)} {c stop : CR ρ α} {again : Bool} {n : α} {ns : List α}
    {sub : Pairs ρ α} (hoa : (c.optional || again) = true) (hs : splitMand cs = some (opts, stop, rest)) {b x s r}
    (h : (once stop (n :: ns)).val = some (b, x, s, r)) :
    group pre (c :: cs) again (n :: ns) sub =
      let m := range (c :: opts) b
      let t := group (pre ++ c :: opts ++ [stop]) rest false r (sub ++ s ++ m.val.1 ++ [(stop.id, x)])
      ⟨t.val, (once stop (n :: ns)).cost + m.cost + t.cost⟩ := by
  rw [group, if_pos hoa, hs]
  simp only
  split
  · simp_all
  · rename_i heq
    rw [h] at heq
    simp only [Option.some.injEq, Prod.mk.injEq] at heq
    obtain ⟨rfl, rfl, rfl, rfl⟩ := heq
    rfl

theorem group_first_none {pre cs : List (CR ρ α)} {c : CR ρ α} {again : Bool} {n : α} {ns : List α}
    {sub : Pairs ρ α} (hoa : ¬ (c.optional || again) = true) (h : (once c (n :: ns)).val = none) :
    group pre (c :: cs) again (n :: ns) sub = ⟨([], []), (once c (n :: ns)).cost⟩ := by
  rw [group, if_neg hoa]
  split
  · rfl
  · simp_all

theorem group_first_some {pre cs : List (CR ρ α)} {c : CR ρ α} {again : Bool} {n : α} {ns : List α}
    {sub : Pairs ρ α} (hoa : ¬ (c.optional || again) = true) {b x s r} (h : (once c (n :: ns)).val = some (b, x, s, r)) :
    group pre (c :: cs) again (n :: ns) sub =
      let t := if c.greedy then group pre (c :: cs) true r (sub ++ s ++ [(c.id, x)])
        else group (pre ++ [c]) cs false r (sub ++ s ++ [(c.id, x)])
      ⟨t.val, (once c (n :: ns)).cost + t.cost⟩ := by
  rw [group, if_neg hoa]
  split
  · rename_i heq; rw [h] at heq; cases heq
  · rename_i heq
    rw [h] at heq
    simp only [Option.some.injEq, Prod.mk.injEq] at heq
    obtain ⟨rfl, rfl, rfl, rfl⟩ := heq
    rfl

/-- A group on a list of which no rule matches any member ends like one on the empty list. -/
theorem group_allDead (pre : List (CR ρ α)) (c : CR ρ α) (cs : List (CR ρ α)) (again : Bool) (ns : List α)
    (sub : Pairs ρ α) (hd : AllDead (pre ++ c :: cs) ns) :
    (group pre (c :: cs) again ns sub).val = (group pre (c :: cs) again [] sub).val := by
  cases ns with
  | nil => rfl
  | cons n ns =>
    have hc : ∀ d ∈ pre ++ c :: cs, (once d (n :: ns)).val = none := fun d h => once_allDead (hd d h)
    rw [group_nil, group]
    split
    · rename_i hoa
      split
      · rename_i opts stop rest hs
        have hm : stop ∈ pre ++ c :: cs := by rw [splitMand_mem hs]; simp
        have hna : cs.all (·.optional) = false := by
          cases h : cs.all (·.optional) with
          | false => rfl
          | true => rw [splitMand_none_iff.2 h] at hs; cases hs
        have h2 : (if again = true then cs else c :: cs).all (·.optional) = false := by split <;> simp [hna]
        rw [h2]
        split
        · rfl
        · rename_i h3; rw [hc stop hm] at h3; cases h3
      · rename_i hs
        have ha := splitMand_none_iff.1 hs
        have h2 : (if again = true then cs else c :: cs).all (·.optional) = true := by
          split
          · exact ha
          · rename_i hag; simp only [List.all_cons, ha, Bool.and_true]; simpa [hag] using hoa
        rw [h2]
        have hr := range_allDead (cs := c :: cs) (ns := n :: ns) fun d h => hd d (by simp [List.mem_cons.1 h])
        split
        · simp [hr]
        · rename_i stop hf
          have hm : stop ∈ pre ++ c :: cs := List.mem_append_left _ (List.mem_of_find?_eq_some hf)
          simp only [hc stop hm, hr]
          simp
    · rename_i hoa
      have ho : c.optional = false ∧ again = false := by simpa using hoa
      split
      · simp [ho]
      · rename_i h3; rw [hc c (by simp)] at h3; cases h3

theorem Sib.all_dead {ns : List α} (h : Sib D R ns ([] : List β)) : ∀ x ∈ ns, D x := by
  generalize hy : ([] : List β) = ys at h
  induction h with
  | nil => simp
  | cons => cases hy
  | skip hx _ ih =>
    intro z hz
    rcases List.mem_cons.1 hz with rfl | hz
    · exact hx
    · exact ih hy z hz

theorem AllDead.of_rel {cs : List (CR ρ α)} {cs' : List (CR ρ' β)} (hc : All2 (CRel P D R) cs cs') {ns : List α}
    (h : ∀ x ∈ ns, D x) : AllDead cs ns := by
  induction hc with
  | nil => intro c hc; simp at hc
  | cons hc _ ih =>
    intro d hd x hx
    rcases List.mem_cons.1 hd with rfl | hd
    · exact hc.dead x (h x hx)
    · exact ih d hd x hx

/-! ## Groups -/

theorem group_rel : ∀ (k : Nat) {pre cs : List (CR ρ α)} {pre' cs' : List (CR ρ' β)} (again : Bool) {ns : List α}
    {ns' : List β} {sub : Pairs ρ α} {sub' : Pairs ρ' β}, ns.length ≤ k → All2 (CRel P D R) pre pre' →
    All2 (CRel P D R) cs cs' → Sib D R ns ns' → All2 (Pair2 P R) sub sub' →
    (All2 (Pair2 P R) (group pre cs again ns sub).val.1 (group pre' cs' again ns' sub').val.1 ∧
      Sib D R (group pre cs again ns sub).val.2 (group pre' cs' again ns' sub').val.2) ∧
    CostRel D (group pre cs again ns sub).cost (group pre' cs' again ns' sub').cost := by
  intro k
  induction k with
  | zero =>
    intro pre cs pre' cs' again ns ns' sub sub' hk hp hcs h hs
    have : ns = [] := List.length_eq_zero_iff.1 (by omega)
    subst this
    cases h.nil_left
    cases hcs with
    | nil => rw [group_done, group_done]; exact ⟨⟨hs, .nil⟩, CostRel.refl _⟩
    | @cons c c' cs cs' hc hcs =>
      rw [group_nil, group_nil]
      have : (if again = true then cs else c :: cs).all (·.optional) = (if again = true then cs' else c' :: cs').all (·.optional) := by
        split
        · exact all_optional_rel hcs
        · exact all_optional_rel (.cons hc hcs)
      rw [this]
      generalize (if again = true then cs' else c' :: cs').all (·.optional) = o
      cases o
      · exact ⟨⟨.nil, .nil⟩, CostRel.refl _⟩
      · exact ⟨⟨hs, .nil⟩, CostRel.refl _⟩
  | succ k ih =>
    intro pre cs pre' cs' again ns ns' sub sub' hk hp hcs h hs
    cases hcs with
    | nil => rw [group_done, group_done]; exact ⟨⟨hs, h⟩, CostRel.refl _⟩
    | @cons c c' cs cs' hc hcs =>
      have hempty : (All2 (Pair2 P R) (group pre (c :: cs) again [] sub).val.1 (group pre' (c' :: cs') again [] sub').val.1 ∧
          Sib D R (group pre (c :: cs) again [] sub).val.2 (group pre' (c' :: cs') again [] sub').val.2) ∧
          (group pre (c :: cs) again [] sub).cost = (group pre' (c' :: cs') again [] sub').cost := by
        rw [group_nil, group_nil]
        have : (if again = true then cs else c :: cs).all (·.optional) = (if again = true then cs' else c' :: cs').all (·.optional) := by
          split
          · exact all_optional_rel hcs
          · exact all_optional_rel (.cons hc hcs)
        rw [this]
        generalize (if again = true then cs' else c' :: cs').all (·.optional) = o
        cases o
        · exact ⟨⟨.nil, .nil⟩, rfl⟩
        · exact ⟨⟨hs, .nil⟩, rfl⟩
      cases ns' with
      | nil =>
        have hdd := h.all_dead
        cases ns with
        | nil => exact ⟨hempty.1, .of_eq hempty.2⟩
        | cons n ns =>
          rw [group_allDead _ _ _ _ _ _ (AllDead.of_rel (hp.append (.cons hc hcs)) hdd)]
          refine ⟨hempty.1, ?_⟩
          have h0 : (group pre' (c' :: cs') again [] sub').cost = 0 := by
            rw [group_nil]; generalize List.all _ _ = o; cases o <;> rfl
          rw [h0]
          exact .zero _ (hdd n (by simp))
      | cons n' ns' =>
        cases ns with
        | nil => cases h
        | cons n ns =>
          by_cases hoa : (c.optional || again) = true
          · -- the first rule is a filler
            have hoa' : (c'.optional || again) = true := by rw [← hc.optional]; exact hoa
            have hsp := splitMand_rel hcs
            cases hs1 : splitMand cs with
            | none =>
              cases hs2 : splitMand cs' with
              | some q => simp [hs1, hs2, Opt2] at hsp
              | none =>
                rw [group, group, if_pos hoa, if_pos hoa', hs1, hs2]
                simp only
                have hfm := firstMand_rel hp
                cases hf1 : firstMand pre with
                | none =>
                  cases hf2 : firstMand pre' with
                  | some q => simp [hf1, hf2, Opt2] at hfm
                  | none =>
                    simp only
                    obtain ⟨⟨m1, m2⟩, m3⟩ := range_rel (All2.cons hc hcs) h
                    refine ⟨⟨hs.append m1, ?_⟩, m3⟩
                    cases hr1 : (range (c :: cs) (n :: ns)).val.2 <;>
                      cases hr2 : (range (c' :: cs') (n' :: ns')).val.2 <;> rw [hr1, hr2] at m2
                    · exact .nil
                    · exact m2.elim
                    · exact m2.elim
                    · exact m2
                | some stop =>
                  cases hf2 : firstMand pre' with
                  | none => simp [hf1, hf2, Opt2] at hfm
                  | some stop' =>
                    rw [hf1, hf2] at hfm
                    simp only
                    have hco := (once_rel hfm h).2
                    rcases once_cases hfm h with ⟨h1, h2⟩ | ⟨b, x, s, r, b', x', s', r', h1, h2, hb, hx, hs', hr⟩
                    · obtain ⟨⟨m1, m2⟩, m3⟩ := range_rel (All2.cons hc hcs) h
                      rw [h1, h2]
                      exact ⟨⟨hs.append m1, .nil⟩, (hco.add m3)⟩
                    · obtain ⟨⟨m1, m2⟩, m3⟩ := range_rel (All2.cons hc hcs) hb
                      rw [h1, h2]
                      exact ⟨⟨hs.append m1, .cons hx hr⟩, (hco.add m3)⟩
            | some q =>
              cases hs2 : splitMand cs' with
              | none => simp [hs1, hs2, Opt2] at hsp
              | some q' =>
                rw [hs1, hs2] at hsp
                obtain ⟨opts, stop, rest⟩ := q
                obtain ⟨opts', stop', rest'⟩ := q'
                obtain ⟨ho, hst, hre⟩ := hsp
                simp only at ho hst hre
                have hco := (once_rel hst h).2
                rcases once_cases hst h with ⟨h1, h2⟩ | ⟨b, x, s, r, b', x', s', r', h1, h2, hb, hx, hs', hr⟩
                · rw [group_stop_none hoa hs1 h1, group_stop_none hoa' hs2 h2]
                  exact ⟨⟨.nil, .nil⟩, hco⟩
                · rw [group_stop_some hoa hs1 h1, group_stop_some hoa' hs2 h2]
                  obtain ⟨⟨m1, m2⟩, m3⟩ := range_rel (All2.cons hc ho) hb
                  have hlt := once_rest_lt h1
                  have hsub := ((hs.append hs').append m1).append
                    (.cons (show Pair2 P R (stop.id, x) (stop'.id, x') from ⟨hst.id, hx⟩) .nil)
                  obtain ⟨⟨i1, i2⟩, i3⟩ := ih false (by simp at hk hlt; omega)
                    ((hp.append (.cons hc ho)).append (.cons hst .nil)) hre hr hsub
                  exact ⟨⟨i1, i2⟩, ((hco.add m3).add i3)⟩
          · have hoa' : ¬ (c'.optional || again) = true := by rw [← hc.optional]; exact hoa
            have hco := (once_rel hc h).2
            rcases once_cases hc h with ⟨h1, h2⟩ | ⟨b, x, s, r, b', x', s', r', h1, h2, hb, hx, hs', hr⟩
            · rw [group_first_none hoa h1, group_first_none hoa' h2]
              exact ⟨⟨.nil, .nil⟩, hco⟩
            · rw [group_first_some hoa h1, group_first_some hoa' h2]
              have hlt := once_rest_lt h1
              have hsub := (hs.append hs').append (.cons (show Pair2 P R (c.id, x) (c'.id, x') from ⟨hc.id, hx⟩) .nil)
              simp only [← hc.greedy]
              cases hg : c.greedy with
              | true =>
                obtain ⟨⟨i1, i2⟩, i3⟩ := ih true (by simp at hk hlt; omega) hp (.cons hc hcs) hr hsub
                exact ⟨⟨i1, i2⟩, (hco.add i3)⟩
              | false =>
                obtain ⟨⟨i1, i2⟩, i3⟩ := ih false (by simp at hk hlt; omega) (hp.append (.cons hc .nil)) hcs hr hsub
                exact ⟨⟨i1, i2⟩, (hco.add i3)⟩

theorem groups_nil_left (ns : List α) : groups ([] : List (CR ρ α)) ns = ⟨[], 0⟩ := by rw [groups]

theorem groups_nil_right (cs : List (CR ρ α)) : groups cs [] = ⟨[], 0⟩ := by cases cs <;> rw [groups]; simp

theorem groups_allDead {cs : List (CR ρ α)} {ns : List α} (h : AllDead cs ns) : (groups cs ns).val = [] := by
  cases cs with
  | nil => rw [groups_nil_left]
  | cons c cs =>
    cases ns with
    | nil => rw [groups_nil_right]
    | cons n ns =>
      rw [groups]
      have := group_allDead [] c cs false (n :: ns) [] (by simpa using h)
      simp only [this, group_nil]
      split <;> simp [groups_nil_right]

theorem groups_rel {cs : List (CR ρ α)} {cs' : List (CR ρ' β)} (hcs : All2 (CRel P D R) cs cs') :
    ∀ (k : Nat) {ns : List α} {ns' : List β}, ns.length ≤ k → Sib D R ns ns' →
    All2 (All2 (Pair2 P R)) (groups cs ns).val (groups cs' ns').val ∧
    CostRel D (groups cs ns).cost (groups cs' ns').cost := by
  cases hcs with
  | nil => intro k ns ns' _ _; rw [groups_nil_left, groups_nil_left]; exact ⟨.nil, CostRel.refl _⟩
  | @cons c c' cs cs' hc hcs =>
    intro k
    induction k with
    | zero =>
      intro ns ns' hk h
      have : ns = [] := List.length_eq_zero_iff.1 (by omega)
      subst this
      cases h.nil_left
      rw [groups_nil_right, groups_nil_right]; exact ⟨.nil, CostRel.refl _⟩
    | succ k ih =>
      intro ns ns' hk h
      cases ns with
      | nil => cases h.nil_left; rw [groups_nil_right, groups_nil_right]; exact ⟨.nil, CostRel.refl _⟩
      | cons n ns =>
        cases ns' with
        | nil =>
          have hdd := h.all_dead
          rw [groups_allDead (AllDead.of_rel (.cons hc hcs) hdd), groups_nil_right]
          exact ⟨.nil, .zero _ (hdd n (by simp))⟩
        | cons n' ns' =>
          rw [groups, groups]
          obtain ⟨⟨g1, g2⟩, g3⟩ := group_rel _ false (Nat.le_refl _) (.nil : All2 (CRel P D R) [] []) (.cons hc hcs) h
            (.nil : All2 (Pair2 P R) [] [])
          have hlt := group_lt c cs false n ns []
          obtain ⟨i1, i2⟩ := ih (by simp at hk hlt; omega) g2
          refine ⟨?_, (g3.add i2)⟩
          simp only [g1.isEmpty_eq]
          split
          · exact i1
          · exact .cons g1 i1
end

/-! ## Trees -/

section
variable (K : Tree → Tree → Prop) (dead : Tree → Prop)

mutual
/-- The trees correspond to each other: `K` relates them and their children correspond to each other, where the first
tree may have additional (`dead`) children. -/
def TRel : Tree → Tree → Prop
  | .node p k kids, t' => K (.node p k kids) t' ∧ TRelL kids t'.kids
def TRelL : List Tree → List Tree → Prop
  | [], ts' => ts' = []
  | t :: ts, ts' => (dead t ∧ TRelL ts ts') ∨ ∃ t' us, ts' = t' :: us ∧ TRel t t' ∧ TRelL ts us
end

theorem TRel.iff (t t' : Tree) : TRel K dead t t' ↔ K t t' ∧ TRelL K dead t.kids t'.kids := by
  cases t; simp [TRel, Tree.kids]

/-- The nodes correspond to each other, and so do their siblings. -/
structure LRel (l l' : Loc) : Prop where
  inElem : l.inElem = l'.inElem
  before : TRelL K dead l.before l'.before
  self : TRel K dead l.self l'.self
  after : TRelL K dead l.after l'.after

variable {K dead}

theorem TRelL.append {a b a' b' : List Tree} (h : TRelL K dead a a') (h' : TRelL K dead b b') :
    TRelL K dead (a ++ b) (a' ++ b') := by
  induction a generalizing a' with
  | nil => simp only [TRelL] at h; subst h; exact h'
  | cons t ts ih =>
    simp only [TRelL, List.cons_append] at h ⊢
    rcases h with ⟨h1, h2⟩ | ⟨t', us, rfl, h1, h2⟩
    · exact .inl ⟨h1, ih h2⟩
    · exact .inr ⟨t', us ++ b', rfl, h1, ih h2⟩

variable (K dead)
/-- Corresponding nodes, on both sides of which something holds. -/
def LR (Ok Ok' : Loc → Prop) (l l' : Loc) : Prop := LRel K dead l l' ∧ Ok l ∧ Ok' l'
def LD (Ok : Loc → Prop) (l : Loc) : Prop := dead l.self ∧ Ok l
variable {K dead}

theorem locsAux_rel {Ok Ok' : Loc → Prop} : ∀ {kids kids' before before' : List Tree}, TRelL K dead kids kids' →
    TRelL K dead before before' → (∀ l ∈ locsAux before kids, Ok l) → (∀ l ∈ locsAux before' kids', Ok' l) →
    Sib (LD dead Ok) (LR K dead Ok Ok') (locsAux before kids) (locsAux before' kids')
  | [], kids', before, before', h, hb, ho, ho' => by simp only [TRelL] at h; subst h; exact .nil
  | t :: ts, kids', before, before', h, hb, ho, ho' => by
    simp only [TRelL] at h
    simp only [locsAux] at ho ⊢
    rcases h with ⟨h1, h2⟩ | ⟨t', us, rfl, h1, h2⟩
    · refine .skip ⟨h1, ho _ (by simp)⟩ (locsAux_rel h2 ?_ (fun l hl => ho l (by simp [hl])) ho')
      have := hb.append (b := [t]) (b' := []) (by simp [TRelL, h1])
      simpa using this
    · simp only [locsAux] at ho'
      refine .cons ⟨⟨rfl, hb, h1, h2⟩, ho _ (by simp), ho' _ (by simp)⟩
        (locsAux_rel h2 ?_ (fun l hl => ho l (by simp [hl])) (fun l hl => ho' l (by simp [hl])))
      exact hb.append (b := [t]) (b' := [t']) (by simp [TRelL, h1])

/-! ## Searching trees -/

/-- What is needed of the relations between documents. -/
structure Good (K : Tree → Tree → Prop) (dead : Tree → Prop) (Ok Ok' : Loc → Prop) : Prop where
  elem : ∀ t t', K t t' → t.kind.isElement = t'.kind.isElement
  deadKids : ∀ t, dead t → t.kind.isElement = true → ∀ u ∈ t.kids, dead u
  ok : ∀ l, Ok l → l.self.kind.isElement = true → ∀ x ∈ locs l.self.kids, Ok x
  ok' : ∀ l, Ok' l → l.self.kind.isElement = true → ∀ x ∈ locs l.self.kids, Ok' x

theorem locsAux_self (before ts : List Tree) : (locsAux before ts).map (·.self) = ts := by
  induction ts generalizing before with
  | nil => rfl
  | cons t ts ih => simp [locsAux, ih]

theorem locs_self (ts : List Tree) : (locs ts).map (·.self) = ts := locsAux_self [] ts

variable {Ok Ok' : Loc → Prop} {ρ ρ' : Type} {P : ρ → ρ' → Prop}

theorem descend_leaf (cs : List (CR ρ Loc)) {t : Tree} (h : t.kind.isElement = false) : descend cs t = ⟨[], 0⟩ := by
  cases t with
  | node p k kids => cases k <;> first | rfl | simp [Tree.kind, Kind.isElement] at h

theorem descend_elem (cs : List (CR ρ Loc)) {t : Tree} (h : t.kind.isElement = true) (hk : t.kids ≠ []) :
    descend cs t = ⟨(groups cs (locs t.kids)).val ++ (descendL cs t.kids).val,
      1 + (groups cs (locs t.kids)).cost + (descendL cs t.kids).cost⟩ := by
  cases t with
  | node p k kids =>
    cases k <;> simp [Tree.kind, Kind.isElement] at h
    cases kids with
    | nil => exact absurd rfl hk
    | cons => rfl

theorem descend_empty (cs : List (CR ρ Loc)) {t : Tree} (hk : t.kids = []) : descend cs t = ⟨[], 0⟩ := by
  cases t with
  | node p k kids => simp only [Tree.kids] at hk; subst hk; cases k <;> rfl

theorem kids_rel (hg : Good K dead Ok Ok') {l l' : Loc} (h : LR K dead Ok Ok' l l') (he : l.self.kind.isElement = true) :
    Sib (LD dead Ok) (LR K dead Ok Ok') (locs l.self.kids) (locs l'.self.kids) := by
  have ht := (TRel.iff K dead _ _).1 h.1.self
  have he' : l'.self.kind.isElement = true := by rw [← hg.elem _ _ ht.1]; exact he
  exact locsAux_rel ht.2 rfl (hg.ok l h.2.1 he) (hg.ok' l' h.2.2 he')

theorem mem_locs_self {ts : List Tree} {x : Loc} (h : x ∈ locs ts) : x.self ∈ ts := by
  rw [← locs_self ts]; exact List.mem_map_of_mem h

mutual
theorem descend_dead (hg : Good K dead Ok Ok') {cs : List (CR ρ Loc)} {cs' : List (CR ρ' Loc)}
    (hc : All2 (CRel P (LD dead Ok) (LR K dead Ok Ok')) cs cs') : ∀ (t : Tree) (l : Loc), l.self = t → LD dead Ok l →
    (descend cs t).val = []
  | .node p k kids, l, hl, h => by
    cases he : (Tree.node p k kids).kind.isElement with
    | false => rw [descend_leaf _ he]
    | true =>
      by_cases h1 : kids = []
      · rw [descend_empty _ (by simpa [Tree.kids] using h1)]
      · have hkd : ∀ x ∈ locs kids, LD dead Ok x := by
          intro x hx
          have hks : l.self.kids = kids := by rw [hl]; rfl
          refine ⟨hg.deadKids l.self h.1 (by rw [hl]; exact he) _ (by rw [hks]; exact mem_locs_self hx), ?_⟩
          exact hg.ok l h.2 (by rw [hl]; exact he) x (by rw [hks]; exact hx)
        rw [descend_elem cs he (by simpa [Tree.kids] using h1)]
        simp only [Tree.kids, groups_allDead (AllDead.of_rel hc hkd), descendL_dead hg hc kids (locs kids) (locs_self kids) hkd]
        rfl
theorem descendL_dead (hg : Good K dead Ok Ok') {cs : List (CR ρ Loc)} {cs' : List (CR ρ' Loc)}
    (hc : All2 (CRel P (LD dead Ok) (LR K dead Ok Ok')) cs cs') : ∀ (ts : List Tree) (ls : List Loc),
    ls.map (·.self) = ts → (∀ x ∈ ls, LD dead Ok x) → (descendL cs ts).val = []
  | [], ls, _, _ => rfl
  | t :: ts, [], hl, h => by simp at hl
  | t :: ts, x :: xs, hl, h => by
    simp only [List.map_cons, List.cons.injEq] at hl
    simp only [descendL, descend_dead hg hc t x hl.1 (h x (by simp)),
      descendL_dead hg hc ts xs hl.2 fun y hy => h y (by simp [hy])]
    rfl
end

mutual
theorem descend_rel (hg : Good K dead Ok Ok') {cs : List (CR ρ Loc)} {cs' : List (CR ρ' Loc)}
    (hc : All2 (CRel P (LD dead Ok) (LR K dead Ok Ok')) cs cs') : ∀ (t : Tree) (l l' : Loc), l.self = t →
    LR K dead Ok Ok' l l' →
    All2 (All2 (Pair2 P (LR K dead Ok Ok'))) (descend cs l.self).val (descend cs' l'.self).val ∧
    CostRel (LD dead Ok) (descend cs l.self).cost (descend cs' l'.self).cost
  | .node p k kids, l, l', hl, h => by
    have ht := (TRel.iff K dead _ _).1 h.1.self
    have hke := hg.elem _ _ ht.1
    cases he : l.self.kind.isElement with
    | false =>
      rw [he] at hke
      rw [descend_leaf _ he, descend_leaf _ hke.symm]
      exact ⟨.nil, CostRel.refl _⟩
    | true =>
      rw [he] at hke
      have hk := kids_rel hg h he
      have hks : l.self.kids = kids := by rw [hl]; rfl
      rw [hks] at hk
      by_cases h1 : l.self.kids = []
      · rw [hks] at h1
        subst h1
        have h2 : l'.self.kids = [] := by
          have := hk.nil_left
          rw [← locs_self l'.self.kids, this]; rfl
        rw [descend_empty _ hks, descend_empty _ h2]
        exact ⟨.nil, CostRel.refl _⟩
      · have hd := descendL_rel hg hc kids (locs kids) (locs l'.self.kids) (locs_self kids) hk
        have hgr := groups_rel hc _ (Nat.le_refl _) hk
        rw [descend_elem cs he h1, hks]
        rw [locs_self, locs_self] at hd
        by_cases h2 : l'.self.kids = []
        · rw [descend_empty cs' h2]
          rw [h2] at hd hgr hk
          rw [show locs [] = [] from rfl] at hgr hk
          rw [groups_nil_right] at hgr
          refine ⟨hgr.1.append hd.1, ?_⟩
          have := hk.all_dead
          rw [hks] at h1
          cases kids with
          | nil => exact (h1 rfl).elim
          | cons t ts => exact .zero _ (this ⟨true, [], t, ts⟩ (by simp [locs, locsAux]))
        · rw [descend_elem cs' hke.symm h2]
          exact ⟨hgr.1.append hd.1, ((CostRel.refl 1).add hgr.2).add hd.2⟩
theorem descendL_rel (hg : Good K dead Ok Ok') {cs : List (CR ρ Loc)} {cs' : List (CR ρ' Loc)}
    (hc : All2 (CRel P (LD dead Ok) (LR K dead Ok Ok')) cs cs') : ∀ (ts : List Tree) (ls ls' : List Loc),
    ls.map (·.self) = ts → Sib (LD dead Ok) (LR K dead Ok Ok') ls ls' →
    All2 (All2 (Pair2 P (LR K dead Ok Ok'))) (descendL cs (ls.map (·.self))).val (descendL cs' (ls'.map (·.self))).val ∧
    CostRel (LD dead Ok) (descendL cs (ls.map (·.self))).cost (descendL cs' (ls'.map (·.self))).cost
  | [], ls, ls', hl, h => by
    have : ls = [] := List.map_eq_nil_iff.1 hl
    subst this
    cases h.nil_left
    exact ⟨.nil, CostRel.refl _⟩
  | t :: ts, ls, ls', hl, h => by
    cases h with
    | nil => simp at hl
    | @cons x y xs ys hxy hs =>
      simp only [List.map_cons, List.cons.injEq] at hl
      have h1 := descend_rel hg hc t x y hl.1 hxy
      have h2 := descendL_rel hg hc ts xs ys hl.2 hs
      simp only [List.map_cons, descendL]
      exact ⟨h1.1.append h2.1, (h1.2.add h2.2)⟩
    | @skip x xs _ hx hs =>
      simp only [List.map_cons, List.cons.injEq] at hl
      have h2 := descendL_rel hg hc ts xs ls' hl.2 hs
      simp only [List.map_cons, descendL, descend_dead hg hc x.self x rfl hx]
      exact ⟨h2.1, h2.2.skip hx (by simp)⟩
end

theorem save_rel (hg : Good K dead Ok Ok') {cs : List (CR ρ Loc)} {cs' : List (CR ρ' Loc)}
    (hc : All2 (CRel P (LD dead Ok) (LR K dead Ok Ok')) cs cs') {ls ls' : List Loc}
    (h : Sib (LD dead Ok) (LR K dead Ok Ok') ls ls') :
    All2 (All2 (Pair2 P (LR K dead Ok Ok'))) (save cs ls).val (save cs' ls').val ∧
    CostRel (LD dead Ok) (save cs ls).cost (save cs' ls').cost := by
  have h1 := groups_rel hc _ (Nat.le_refl _) h
  have h2 := descendL_rel hg hc _ ls ls' rfl h
  unfold save
  exact ⟨h1.1.append h2.1, ((CostRel.refl 1).add h1.2).add h2.2⟩

theorem save_dead (hg : Good K dead Ok Ok') {cs : List (CR ρ Loc)} {cs' : List (CR ρ' Loc)}
    (hc : All2 (CRel P (LD dead Ok) (LR K dead Ok Ok')) cs cs') {ls : List Loc} (h : ∀ x ∈ ls, LD dead Ok x) :
    (save cs ls).val = [] := by
  unfold save
  simp only [groups_allDead (AllDead.of_rel hc h), descendL_dead hg hc _ ls rfl h]
  rfl

theorem nestedRun_rel (hg : Good K dead Ok Ok') {css : List (List (CR ρ Loc))} {css' : List (List (CR ρ' Loc))}
    (hc : All2 (All2 (CRel P (LD dead Ok) (LR K dead Ok Ok'))) css css') {ks ks' : List Tree}
    (h : Sib (LD dead Ok) (LR K dead Ok Ok') (locs ks) (locs ks')) :
    Opt2 (All2 (Pair2 P (LR K dead Ok Ok'))) (nestedRun ks css).val (nestedRun ks' css').val ∧
    CostRel (LD dead Ok) (nestedRun ks css).cost (nestedRun ks' css').cost := by
  induction hc with
  | nil => exact ⟨.nil, CostRel.refl _⟩
  | @cons cs cs' css css' hc hcs ih =>
    have hs := save_rel hg hc h
    have hf : (firstMand cs).isSome = (firstMand cs').isSome := by
      have := firstMand_rel hc
      cases h1 : firstMand cs <;> cases h2 : firstMand cs' <;> simp [h1, h2, Opt2] at this ⊢
    unfold nestedRun
    simp only [hs.1.isEmpty_eq, hf]
    cases ((save cs' (locs ks')).val.isEmpty && (firstMand cs').isSome) with
    | true => exact ⟨trivial, hs.2⟩
    | false =>
      simp only [Bool.false_eq_true, if_false]
      obtain ⟨i1, i2⟩ := ih
      cases h1 : (nestedRun ks css).val with
      | none =>
        cases h2 : (nestedRun ks' css').val with
        | some q => simp [h1, h2, Opt2] at i1
        | none => exact ⟨trivial, (hs.2.add i2)⟩
      | some q =>
        cases h2 : (nestedRun ks' css').val with
        | none => simp [h1, h2, Opt2] at i1
        | some q' =>
          rw [h1, h2] at i1
          exact ⟨hs.1.flatten.append i1, (hs.2.add i2)⟩

theorem nestedRun_dead (hg : Good K dead Ok Ok') {css : List (List (CR ρ Loc))} {css' : List (List (CR ρ' Loc))}
    (hc : All2 (All2 (CRel P (LD dead Ok) (LR K dead Ok Ok'))) css css') {ks : List Tree}
    (h : ∀ x ∈ locs ks, LD dead Ok x) (hm : ∃ cs ∈ css, (firstMand cs).isSome = true) :
    (nestedRun ks css).val = none := by
  induction hc with
  | nil => simp at hm
  | @cons cs cs' css css' hc hcs ih =>
    unfold nestedRun
    simp only [save_dead hg hc h]
    cases hf : (firstMand cs).isSome with
    | true => rfl
    | false =>
      obtain ⟨ds, hd, hm⟩ := hm
      rcases List.mem_cons.1 hd with rfl | hd
      · rw [hf] at hm; cases hm
      · simp [ih ⟨ds, hd, hm⟩]

/-- A rule that has child or nested rules has a mandatory one among them. -/
def Anchors (child : List (CR ρ Loc)) (nested : List (List (CR ρ Loc))) : Prop :=
  (child = [] ∧ nested = []) ∨ (firstMand child).isSome = true ∨ ∃ cs ∈ nested, (firstMand cs).isSome = true

theorem runRule_rel (hg : Good K dead Ok Ok') {own own' : Loc → Bool} {child : List (CR ρ Loc)}
    {child' : List (CR ρ' Loc)} {nested : List (List (CR ρ Loc))} {nested' : List (List (CR ρ' Loc))}
    (hown : ∀ l l', LR K dead Ok Ok' l l' → own l = own' l')
    (hc : All2 (CRel P (LD dead Ok) (LR K dead Ok Ok')) child child')
    (hn : All2 (All2 (CRel P (LD dead Ok) (LR K dead Ok Ok'))) nested nested')
    (hm : (∀ x, ¬ LD dead Ok x) ∨ Anchors child nested) {l l' : Loc} (h : LR K dead Ok Ok' l l') :
    Opt2 (All2 (Pair2 P (LR K dead Ok Ok'))) (runRule own child nested l).val (runRule own' child' nested' l').val ∧
    CostRel (LD dead Ok) (runRule own child nested l).cost (runRule own' child' nested' l').cost := by
  have ht := (TRel.iff K dead _ _).1 h.1.self
  have hke := hg.elem _ _ ht.1
  unfold runRule
  rw [hown l l' h, hc.isEmpty_eq, hn.isEmpty_eq]
  cases own' l' with
  | false => exact ⟨trivial, CostRel.refl _⟩
  | true =>
    simp only [Bool.not_true, Bool.false_eq_true, if_false]
    cases hem : (child'.isEmpty && nested'.isEmpty) with
    | true => exact ⟨.nil, CostRel.refl _⟩
    | false =>
      simp only [Bool.false_eq_true, if_false]
      rw [hke]
      cases he : l'.self.kind.isElement with
      | false => exact ⟨trivial, CostRel.refl _⟩
      | true =>
        rw [he] at hke
        have hk := kids_rel hg h hke
        simp only [Bool.not_true, Bool.false_or]
        by_cases h1 : l.self.kids = []
        · have h2 : l'.self.kids = [] := by
            rw [h1] at hk
            have := hk.nil_left
            rw [← locs_self l'.self.kids, this]; rfl
          simp only [h1, h2, List.isEmpty_nil, if_true]
          exact ⟨trivial, .refl _⟩
        · have h1' : l.self.kids.isEmpty = false := by simpa using h1
          by_cases h2 : l'.self.kids = []
          · -- all children of the first node are additional
            simp only [h1', h2, List.isEmpty_nil, if_true, Bool.false_eq_true, if_false]
            rw [h2] at hk
            have hdd := Sib.all_dead hk
            have hex : ∃ x, LD dead Ok x := by
              cases hks : l.self.kids with
              | nil => exact absurd hks h1
              | cons t ts => rw [hks] at hdd; exact ⟨_, hdd ⟨true, [], t, ts⟩ (by simp [locs, locsAux])⟩
            obtain ⟨x0, hx0⟩ := hex
            refine ⟨?_, .zero _ hx0⟩
            rcases hm with hno | hm
            · exact absurd hx0 (hno x0)
            · have hgr := groups_allDead (AllDead.of_rel hc hdd)
              have hg0 : (if child'.isEmpty = true then (⟨[], 0⟩ : W (List (Pairs ρ Loc))) else groups child (locs l.self.kids)).val = [] := by
                split
                · rfl
                · exact hgr
              rw [hg0]
              rcases hm with ⟨hm1, hm2⟩ | hm | hm
              · subst hm1; subst hm2
                cases hc; cases hn
                simp at hem
              · have hce : child'.isEmpty = false := by
                  rw [← hc.isEmpty_eq]
                  cases child with
                  | nil => simp [firstMand] at hm
                  | cons => rfl
                have hfn : (firstMand child).isNone = false := by
                  cases hf : firstMand child with
                  | none => simp [hf] at hm
                  | some => rfl
                simp only [hce, hfn]
                trivial
              · have := nestedRun_dead hg hn hdd hm
                split
                · rw [this]; trivial
                · trivial
          · have h2' : l'.self.kids.isEmpty = false := by simpa using h2
            simp only [h1', h2', Bool.false_eq_true, if_false]
            have hgr : All2 (All2 (Pair2 P (LR K dead Ok Ok')))
                (if child'.isEmpty = true then (⟨[], 0⟩ : W (List (Pairs ρ Loc))) else groups child (locs l.self.kids)).val
                (if child'.isEmpty = true then (⟨[], 0⟩ : W (List (Pairs ρ' Loc))) else groups child' (locs l'.self.kids)).val ∧
                CostRel (LD dead Ok)
                (if child'.isEmpty = true then (⟨[], 0⟩ : W (List (Pairs ρ Loc))) else groups child (locs l.self.kids)).cost
                (if child'.isEmpty = true then (⟨[], 0⟩ : W (List (Pairs ρ' Loc))) else groups child' (locs l'.self.kids)).cost := by
              cases child'.isEmpty with
              | true => exact ⟨.nil, CostRel.refl _⟩
              | false => exact groups_rel hc _ (Nat.le_refl _) hk
            have hf : (firstMand child).isNone = (firstMand child').isNone := by
              have := firstMand_rel hc
              cases h1 : firstMand child <;> cases h2 : firstMand child' <;> simp [h1, h2, Opt2] at this ⊢
            rw [hgr.1.isEmpty_eq, hf]
            generalize (if child'.isEmpty = true then (⟨[], 0⟩ : W (List (Pairs ρ Loc))) else groups child (locs l.self.kids)) = g at hgr ⊢
            generalize (if child'.isEmpty = true then (⟨[], 0⟩ : W (List (Pairs ρ' Loc))) else groups child' (locs l'.self.kids)) = g' at hgr ⊢
            obtain ⟨i1, i2⟩ := nestedRun_rel hg hn hk
            cases (child'.isEmpty || !g'.val.isEmpty || (firstMand child').isNone) with
            | false => exact ⟨trivial, hgr.2⟩
            | true =>
              simp only [if_true]
              cases h3 : (nestedRun l.self.kids nested).val with
              | none =>
                cases h4 : (nestedRun l'.self.kids nested').val with
                | some q => simp [h3, h4, Opt2] at i1
                | none => exact ⟨trivial, (hgr.2.add i2)⟩
              | some q =>
                cases h4 : (nestedRun l'.self.kids nested').val with
                | none => simp [h3, h4, Opt2] at i1
                | some q' =>
                  rw [h3, h4] at i1
                  exact ⟨hgr.1.flatten.append i1, (hgr.2.add i2)⟩

/-! ## Rules -/

theorem chain_firstMand (own : RuleInfo → Loc → Bool) : ∀ (r : Rule) (addr : List Step),
    r.hasMandatory → (firstMand (chain own addr r)).isSome = true
  | .mk i c none ns, addr, h => by
    obtain ⟨q, hq, ho⟩ := h
    simp only [Rule.siblings, List.mem_singleton] at hq
    subst hq
    simp only [Rule.isOptional, Rule.info] at ho
    simp [firstMand, chain, ho]
  | .mk i c (some nx) ns, addr, h => by
    obtain ⟨q, hq, ho⟩ := h
    simp only [Rule.siblings, List.mem_cons] at hq
    cases hi : i.optional with
    | false => simp [firstMand, chain, hi]
    | true =>
      rcases hq with rfl | hq
      · simp [Rule.isOptional, Rule.info, hi] at ho
      · have := chain_firstMand own nx (addr ++ [.next]) ⟨q, hq, ho⟩
        simpa [firstMand, chain, chainO, hi] using this

theorem chainN_firstMand (own : RuleInfo → Loc → Bool) (addr : List Step) : ∀ (ns : List Rule) (k : Nat),
    (∃ q ∈ ns, q.hasMandatory) → ∃ cs ∈ chainN own addr k ns, (firstMand cs).isSome = true
  | [], k, h => by simp at h
  | r :: rs, k, ⟨q, hq, hm⟩ => by
    simp only [chainN]
    rcases List.mem_cons.1 hq with rfl | hq
    · exact ⟨_, List.mem_cons_self, chain_firstMand own q _ hm⟩
    · obtain ⟨cs, h1, h2⟩ := chainN_firstMand own addr rs (k + 1) ⟨q, hq, hm⟩
      exact ⟨cs, by simp [h1], h2⟩

/-- The rules of two pointers are related. -/
def PRel (I : RuleInfo → RuleInfo → Prop) (p q : RulePtr) : Prop := I p.val.info q.val.info

/-- What is needed of the relation between rules. -/
structure GoodRules (K : Tree → Tree → Prop) (dead : Tree → Prop) (Ok Ok' : Loc → Prop) (own own' : RuleInfo → Loc → Bool)
    (I : RuleInfo → RuleInfo → Prop) : Prop where
  optional : ∀ i i', I i i' → i.optional = i'.optional
  greedy : ∀ i i', I i i' → i.greedy = i'.greedy
  same : ∀ i i' l l', I i i' → LR K dead Ok Ok' l l' → own i l = own' i' l'
  miss : ∀ i i' l, I i i' → LD dead Ok l → own i l = false

mutual
theorem chain_rel (hg : Good K dead Ok Ok') {own own' : RuleInfo → Loc → Bool} {I : RuleInfo → RuleInfo → Prop}
    (hr : GoodRules K dead Ok Ok' own own' I) : ∀ (r r' : Rule) (addr addr' : List Step), Rule.Alike I r r' →
    ((∀ x, ¬ LD dead Ok x) ∨ r.Anchored) →
    All2 (CRel (PRel I) (LD dead Ok) (LR K dead Ok Ok')) (chain own addr r) (chain own' addr' r')
  | .mk i c nx ns, .mk i' c' nx' ns', addr, addr', h, hm => by
    simp only [Rule.Alike, Rule.info, Rule.child, Rule.next, Rule.nested] at h
    obtain ⟨h1, h2, h3, h4⟩ := h
    have hc := chainO_rel hg hr c c' (addr ++ [.child]) (addr' ++ [.child]) h2
      (hm.imp id fun hm => by simp only [Rule.Anchored] at hm; exact hm.2.1)
    have hnx := chainO_rel hg hr nx nx' (addr ++ [.next]) (addr' ++ [.next]) h3
      (hm.imp id fun hm => by simp only [Rule.Anchored] at hm; exact hm.2.2.1)
    have hns := chainN_rel hg hr ns ns' addr addr' 0 0 h4
      (hm.imp id fun hm => by simp only [Rule.Anchored] at hm; exact hm.2.2.2)
    have hanch : (∀ x, ¬ LD dead Ok x) ∨ Anchors (chainO own (addr ++ [.child]) c) (chainN own addr 0 ns) := by
      refine hm.imp id fun hm => ?_
      simp only [Rule.Anchored] at hm
      rcases hm.1 with ⟨rfl, rfl⟩ | ⟨r, rfl, h⟩ | h
      · exact .inl ⟨rfl, rfl⟩
      · exact .inr (.inl (chain_firstMand own r _ h))
      · exact .inr (.inr (chainN_firstMand own addr ns 0 h))
    simp only [chain]
    refine .cons ⟨h1, hr.optional _ _ h1, hr.greedy _ _ h1, ?_, ?_, ?_⟩ hnx
    · intro x y hxy
      exact (runRule_rel hg (fun l l' h => hr.same _ _ l l' h1 h) hc hns hanch hxy).1
    · intro x y hxy
      exact (runRule_rel hg (fun l l' h => hr.same _ _ l l' h1 h) hc hns hanch hxy).2
    · intro x hx
      simp only [runRule, hr.miss _ _ x h1 hx]
      rfl
theorem chainO_rel (hg : Good K dead Ok Ok') {own own' : RuleInfo → Loc → Bool} {I : RuleInfo → RuleInfo → Prop}
    (hr : GoodRules K dead Ok Ok' own own' I) : ∀ (r r' : Option Rule) (addr addr' : List Step), Rule.AlikeO I r r' →
    ((∀ x, ¬ LD dead Ok x) ∨ Rule.AnchoredO r) →
    All2 (CRel (PRel I) (LD dead Ok) (LR K dead Ok Ok')) (chainO own addr r) (chainO own' addr' r')
  | none, r', addr, addr', h, _ => by
    simp only [Rule.AlikeO] at h; subst h; exact .nil
  | some r, r', addr, addr', h, hm => by
    simp only [Rule.AlikeO] at h
    obtain ⟨q, rfl, h⟩ := h
    simp only [chainO]
    exact chain_rel hg hr r q addr addr' h (hm.imp id fun hm => by simpa only [Rule.AnchoredO] using hm)
theorem chainN_rel (hg : Good K dead Ok Ok') {own own' : RuleInfo → Loc → Bool} {I : RuleInfo → RuleInfo → Prop}
    (hr : GoodRules K dead Ok Ok' own own' I) : ∀ (rs rs' : List Rule) (addr addr' : List Step) (k k' : Nat), Rule.AlikeL I rs rs' →
    ((∀ x, ¬ LD dead Ok x) ∨ Rule.AnchoredL rs) →
    All2 (All2 (CRel (PRel I) (LD dead Ok) (LR K dead Ok Ok'))) (chainN own addr k rs) (chainN own' addr' k' rs')
  | [], rs', addr, addr', k, k', h, _ => by
    simp only [Rule.AlikeL] at h; subst h; exact .nil
  | r :: rs, rs', addr, addr', k, k', h, hm => by
    simp only [Rule.AlikeL] at h
    obtain ⟨q, ss, rfl, h1, h2⟩ := h
    simp only [chainN]
    exact .cons (chain_rel hg hr r q _ _ h1 (hm.imp id fun hm => by simp only [Rule.AnchoredL] at hm; exact hm.1))
      (chainN_rel hg hr rs ss _ _ _ _ h2 (hm.imp id fun hm => by simp only [Rule.AnchoredL] at hm; exact hm.2))
end

end

end Hext.Param
