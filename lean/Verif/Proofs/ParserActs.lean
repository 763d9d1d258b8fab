import Verif.Proofs.ParserSim
/-!
# The code blocks in memory: lemmas
-/

namespace Hext.Mem

open Hext (PSt PErr Act)

section
variable {m₀ m : Mem} {s : PSt} {t : PMem}

/-! ## PatternValues -/

theorem sim_putTest {a v} (hr : t.rest = PSt.forget s) (h : Own m₀ (testA a v ∗ stA t s) m) :
    Sim (Bad m₀) (putTest a) t m (pure { s with pv := { s.pv with test := v } }) (Post m₀) := by
  unfold putTest
  refine sim_get (sim_set (sim_last ?_))
  obtain ⟨m', e, o⟩ := own_destroyTest (F := stA { t with test := a } { s with pv := { s.pv with test := v } })
    (h.mono (by simp only [stA]; ac_rfl))
  exact sim_mem e (sim_pure ⟨hr, o⟩)

theorem sim_setTest {v} (hv : ∀ c a, c a = some (.test v) → HoldsTest c a v [a]) (h : Rep m₀ s t m) :
    Sim (Bad m₀) (setTestR v) t m (pure { s with pv := { s.pv with test := some v } }) (Post m₀) := by
  unfold setTestR
  refine sim_request h.bad (sim_request h.bad ?_)
  obtain ⟨a, m', e, o⟩ := own_allocTest v hv h.2
  exact sim_mem e (sim_putTest h.1 o)

theorem sim_negateTest (h : Rep m₀ s t m) :
    Sim (Bad m₀) negateTestR t m (pure { s with pv := { s.pv with test := some (negatedTest s.pv.test) } }) (Post m₀) := by
  unfold negateTestR
  refine sim_request h.bad (sim_get (sim_set ?_))
  obtain ⟨a, m', e, o⟩ := own_allocNegateTest (q := t.test) (v := s.pv.test)
    (F := stA { t with test := none } { s with pv := { s.pv with test := none } })
    (h.2.mono (by simp only [stA, ptrA_none, emp_sep]; ac_rfl))
  exact sim_mem e (sim_putTest (s := { s with pv := { s.pv with test := none } }) h.1 o)

theorem sim_setTrait {v} (hv : Plain v) (h : Rep m₀ s t m) :
    Sim (Bad m₀) (setTraitR v) t m (pure { s with pv := { s.pv with trait := some v } }) (Post m₀) := by
  unfold setTraitR
  refine sim_request h.bad (sim_request h.bad ?_)
  obtain ⟨a, m', e, o⟩ := own_allocMatch v hv h.2
  refine sim_mem e (sim_get (sim_set (sim_last ?_)))
  obtain ⟨m', e, o⟩ := own_destroyMatch (a := t.trait)
    (F := stA { t with trait := some a } { s with pv := { s.pv with trait := some v } })
    (o.mono (by simp only [stA]; ac_rfl))
  exact sim_mem e (sim_pure ⟨h.1, o⟩)

theorem sim_addPipe {v} (h : Rep m₀ s t m) :
    Sim (Bad m₀) (addPipeR v) t m (pure { s with pv := s.pv.addPipe v }) (Post m₀) := by
  unfold addPipeR
  refine sim_request h.bad (sim_request h.bad ?_)
  obtain ⟨a, m', e, o⟩ := own_allocPipe v h.2
  refine sim_mem e (sim_get (sim_last ?_))
  cases hp : s.pv.pipe with
  | none =>
    have hq : t.pipe = none := ptr_none_of (hp ▸ h.2.pipe)
    rw [hq]
    refine sim_set (sim_pure ⟨?_, ?_⟩)
    · show t.rest = _
      rw [h.1]; rfl
    · simp only [stA, hp, hq, PV.addPipe, ptrA_none, emp_sep] at o ⊢
      exact o.mono (by ac_rfl)
  | some q =>
    obtain ⟨b, hq⟩ : ∃ b, t.pipe = some b := ptr_some_of (hp ▸ h.2.pipe)
    rw [hq]
    obtain ⟨m'', e, o⟩ := own_appendPipe (a := b) (q := some a) (v := q) (v' := some (.last v))
      (F := stA { t with pipe := none } { s with pv := { s.pv with pipe := none } })
      (o.mono (by simp only [stA, hp, hq, ptrA_none, emp_sep]; ac_rfl))
    refine sim_mem e (sim_pure ⟨?_, ?_⟩)
    · rw [h.1]; rfl
    · simp only [stA, hp, hq, PV.addPipe, ptrA_none, emp_sep] at o ⊢
      exact o.mono (by simp only [Pipe.appendPtr]; ac_rfl)

theorem sim_negateNew (h : Rep m₀ s t m) :
    Sim (Bad m₀) negateNewR t m (pure { s with pv := { s.pv with negate := some [] } }) (Post m₀) := by
  unfold negateNewR
  refine sim_request h.bad ?_
  obtain ⟨a, m', e, o⟩ := own_allocNegate h.2
  refine sim_mem e (sim_get (sim_set (sim_last ?_)))
  obtain ⟨m', e, o⟩ := own_destroyMatch (a := t.negate)
    (F := stA { t with negate := some a } { s with pv := { s.pv with negate := some [] } })
    (o.mono (by simp only [stA, Option.map_some]; ac_rfl))
  exact sim_mem e (sim_pure ⟨h.1, o⟩)

theorem sim_negateAppend {b} (h : Rep m₀ s t m) :
    Sim (Bad m₀) (negateAppendR b) t m (match s.pv.negate with
      | none => throw .assertFail
      | some ms => pure { s with pv := { s.pv with negate := some (ms ++ [s.pv.trait]), trait := none } }) (Post m₀) := by
  unfold negateAppendR
  refine sim_get ?_
  cases hn : s.pv.negate with
  | none =>
    have hq : t.negate = none := by
      have := h.2.negate
      rw [hn] at this
      exact ptr_none_of this
    rw [hq]
    exact sim_fault_last rfl fun _ => rfl
  | some ms =>
    obtain ⟨n, hq⟩ : ∃ b, t.negate = some b := by
      have := h.2.negate
      rw [hn] at this
      exact ptr_some_of this
    rw [hq]
    refine sim_set (sim_ifRequest ?_ (sim_last ?_))
    · obtain ⟨m', e, o⟩ := own_destroyMatch (a := t.trait)
        (F := stA { t with trait := none, negate := some n } { s with pv := { s.pv with trait := none } })
        (h.2.mono (by simp only [stA, hq, ptrA_none, emp_sep]; ac_rfl))
      exact ⟨m', e, _, o⟩
    · obtain ⟨m', e, o⟩ := own_appendNegated (a := n) (q := t.trait) (v := s.pv.trait) (ms := ms)
        (F := stA { t with trait := none, negate := none } { s with pv := { s.pv with trait := none, negate := none } })
        (h.2.mono (by simp only [stA, hn, hq, Option.map_some, Option.map_none, ptrA_none, sep_emp]; ac_rfl))
      refine sim_mem e (sim_pure ⟨h.1, o.mono ?_⟩)
      simp only [stA, Option.map_some, Option.map_none, ptrA_none, emp_sep, sep_emp]
      ac_rfl

theorem ptr_isSome {α} {R : Cells → Nat → α → List Nat → Prop} {hf ha} {m₀ m : Mem} {F : Asrt} {q : Option Nat} {v : Option α}
    (h : Own m₀ (ptrA R hf ha q v ∗ F) m) : q.isSome = v.isSome := by
  cases v with
  | none => rw [ptr_none_of h]; rfl
  | some v =>
    obtain ⟨a, rfl⟩ := ptr_some_of h
    rfl

theorem sim_reset (h : Rep m₀ s t m) :
    Sim (Bad m₀) resetR t m (do let pv ← s.pv.reset; pure { s with pv }) (Post m₀) := by
  unfold resetR
  refine sim_get ?_
  have h₁ : t.pipe.isSome = s.pv.pipe.isSome := ptr_isSome h.2.pipe
  have h₂ : t.test.isSome = s.pv.test.isSome := ptr_isSome h.2.test
  have h₃ : t.trait.isSome = s.pv.trait.isSome := ptr_isSome h.2.trait
  have h₄ : t.negate.isSome = s.pv.negate.isSome := by
    rw [ptr_isSome h.2.negate, Option.isSome_map]
  rw [h₁, h₂, h₃, h₄]
  unfold PV.reset
  have asrt : ∀ b : Bool, Hext.P.assert b = if b then pure () else .error .assertFail := fun b => rfl
  rw [asrt, asrt, asrt, asrt]
  cases e₁ : s.pv.pipe with
  | some _ => exact sim_fault_last rfl fun _ => rfl
  | none =>
  cases e₂ : s.pv.test with
  | some _ => exact sim_fault_last rfl fun _ => rfl
  | none =>
  cases e₃ : s.pv.trait with
  | some _ => exact sim_fault_last rfl fun _ => rfl
  | none =>
  cases e₄ : s.pv.negate with
  | some _ => exact sim_fault_last rfl fun _ => rfl
  | none =>
    refine sim_last (sim_set (sim_pure ⟨?_, ?_⟩))
    · show ({ t.rest with pv := {} } : PSt) = _
      rw [h.1]; rfl
    · exact h.2.mono (by simp only [stA, e₁, e₂, e₃, e₄])

/-! ## Rules -/

theorem run_curRule {a as ats n} (h : t.stacks = (a :: as) :: ats) : curRuleR ⟨m, n, t⟩ = pure (.ok a, ⟨m, n, t⟩) := by
  unfold curRuleR
  rw [R.bind_run_ok (a := t) (s' := ⟨m, n, t⟩) rfl]
  simp only [h]
  rfl

theorem sim_cur {α β : Type} {f : Nat → R α} {g : Rule → Rule} {k : PSt → Hext.P β} {good} (h : Own m₀ (stA t s) m)
    (hk : ∀ a as ats r rs rts, t.stacks = (a :: as) :: ats → s.stacks = (r :: rs) :: rts →
      Sim (Bad m₀) (f a) t m (k { s with stacks := (g r :: rs) :: rts }) good) :
    Sim (Bad m₀) (curRuleR >>= f) t m (modifyCur g s >>= k) good := by
  have key : ∀ b, t.stacks = b → (∀ a as ats, b ≠ (a :: as) :: ats) → ∀ n, curRuleR ⟨m, n, t⟩ = throw .assertFail := by
    intro b hb hne n
    unfold curRuleR
    rw [R.bind_run_ok (a := t) (s' := ⟨m, n, t⟩) rfl]
    rw [hb]
    match b, hne with
    | [], _ => rfl
    | [] :: _, _ => rfl
    | (a :: as) :: ats, hne => exact absurd rfl (hne a as ats)
  rcases stacks_cases (F := _) (h.mono (by unfold stA; rfl)) with ⟨h₁, h₂⟩ | ⟨_, _, h₁, h₂⟩ | ⟨a, as, ats, r, rs, rts, h₁, h₂⟩
  · unfold modifyCur
    rw [h₂]
    exact sim_fault (f' := .assertFail) rfl (key _ h₁ (by simp))
  · unfold modifyCur
    rw [h₂]
    exact sim_fault (f' := .assertFail) rfl (key _ h₁ (by simp))
  · unfold modifyCur
    rw [h₂]
    exact sim_run (fun n => run_curRule h₁) (hk a as ats r rs rts h₁ h₂)

theorem sim_appendMatch {b a q v as ats r rs rts} (ht : t.stacks = (a :: as) :: ats) (hs : s.stacks = (r :: rs) :: rts)
    (hr : t.rest = PSt.forget s) (h : Own m₀ (matchA q v ∗ stA t s) m) :
    Sim (Bad m₀) (appendMatchR b a q) t m (pure { s with stacks := (r.appendMatch v :: rs) :: rts }) (Post m₀) := by
  unfold appendMatchR
  refine sim_ifRequest ?_ (sim_last ?_)
  · obtain ⟨m', e, o⟩ := own_destroyMatch h
    exact ⟨m', e, _, o⟩
  · obtain ⟨m', e, o⟩ := own_appendMatch (a := a) (q := q) (r := r) (v := v)
      (F := rulesA as rs ∗ (stacksA ats rts ∗ (pipeA t.pipe s.pv.pipe ∗ (testA t.test s.pv.test ∗
        (matchA t.trait s.pv.trait ∗ matchA t.negate (s.pv.negate.map .negate))))))
      (h.mono (by simp only [stA, ht, hs, stacksA_rule]; ac_rfl))
    refine sim_mem e (sim_pure ⟨hr, o.mono ?_⟩)
    simp only [stA, ht, stacksA_rule]
    ac_rfl

theorem sim_appendCapture {b a q v as ats r rs rts} (ht : t.stacks = (a :: as) :: ats) (hs : s.stacks = (r :: rs) :: rts)
    (hr : t.rest = PSt.forget s) (h : Own m₀ (captureA q v ∗ stA t s) m) :
    Sim (Bad m₀) (appendCaptureR b a q) t m (pure { s with stacks := (r.appendCapture v :: rs) :: rts }) (Post m₀) := by
  unfold appendCaptureR
  refine sim_ifRequest ?_ (sim_last ?_)
  · obtain ⟨m', e, o⟩ := own_destroyCapture h
    exact ⟨m', e, _, o⟩
  · obtain ⟨m', e, o⟩ := own_appendCapture (a := a) (q := q) (r := r) (v := v)
      (F := rulesA as rs ∗ (stacksA ats rts ∗ (pipeA t.pipe s.pv.pipe ∗ (testA t.test s.pv.test ∗
        (matchA t.trait s.pv.trait ∗ matchA t.negate (s.pv.negate.map .negate))))))
      (h.mono (by simp only [stA, ht, hs, stacksA_rule]; ac_rfl))
    refine sim_mem e (sim_pure ⟨hr, o.mono ?_⟩)
    simp only [stA, ht, stacksA_rule]
    ac_rfl

theorem sim_capture {b} {mk : Option Nat → Obj} {mv : Option Pipe → Capture}
    (hmk : ∀ {m : Mem} {F : Asrt} {q v}, Own m₀ (pipeA q v ∗ F) m →
      ∃ a m', alloc (mk q) m = pure (a, m') ∧ Own m₀ (captureA (some a) (some (mv v)) ∗ F) m') (h : Rep m₀ s t m) :
    Sim (Bad m₀) (captureR b mk) t m (do
      let s ← modifyCur (·.appendCapture (some (mv s.pv.pipe))) s
      pure { s with pv := { s.pv with pipe := none } }) (Post m₀) := by
  unfold captureR
  refine sim_cur h.2 ?_
  intro a as ats r rs rts ht hs
  refine sim_request h.bad (sim_request h.bad (sim_request h.bad (sim_get (sim_set ?_))))
  obtain ⟨c, m', e, o⟩ := hmk (q := t.pipe) (v := s.pv.pipe) (F := stA { t with pipe := none } { s with pv := { s.pv with pipe := none } })
    (h.2.mono (by simp only [stA, ptrA_none, emp_sep]; ac_rfl))
  exact sim_mem e (sim_appendCapture (s := { s with pv := { s.pv with pipe := none } }) ht hs h.1 o)

theorem sim_match {b} {mk : Option Nat → Obj} {mv : Option ValueTest → Match}
    (hmk : ∀ {m : Mem} {F : Asrt} {q v}, Own m₀ (testA q v ∗ F) m →
      ∃ a m', alloc (mk q) m = pure (a, m') ∧ Own m₀ (matchA (some a) (some (mv v)) ∗ F) m') (h : Rep m₀ s t m) :
    Sim (Bad m₀) (matchR b mk) t m (do
      let s ← modifyCur (·.appendMatch (some (mv s.pv.test))) s
      pure { s with pv := { s.pv with test := none } }) (Post m₀) := by
  unfold matchR
  refine sim_cur h.2 ?_
  intro a as ats r rs rts ht hs
  refine sim_request h.bad (sim_request h.bad (sim_get (sim_set ?_)))
  obtain ⟨c, m', e, o⟩ := hmk (q := t.test) (v := s.pv.test) (F := stA { t with test := none } { s with pv := { s.pv with test := none } })
    (h.2.mono (by simp only [stA, ptrA_none, emp_sep]; ac_rfl))
  exact sim_mem e (sim_appendMatch (s := { s with pv := { s.pv with test := none } }) ht hs h.1 o)

theorem sim_pushRule {b} (h : Rep m₀ s t m) : Sim (Bad m₀) (pushRuleR b) t m (Hext.pushRule s) (Post m₀) := by
  unfold pushRuleR Hext.pushRule
  refine sim_get ?_
  cases hs : s.stacks with
  | nil =>
    have ht : t.stacks = [] := vec_nil_of (by have := h.2; rwa [stA, hs] at this)
    rw [ht]
    exact sim_fault_last rfl fun _ => rfl
  | cons v vs =>
    obtain ⟨top, st, ht⟩ := vec_cons_of (bs := t.stacks) (v := v) (vs := vs)
      (by have := h.2; rwa [stA, hs] at this)
    rw [ht]
    refine sim_ifRequest (d := pure ()) ⟨m, rfl, h.bad⟩ ?_
    obtain ⟨top', m₁, e₁, o₁⟩ := own_makeRoom b (as := top) (rs := v)
      (F := stacksA st vs ∗ (pipeA t.pipe s.pv.pipe ∗ (testA t.test s.pv.test ∗
        (matchA t.trait s.pv.trait ∗ matchA t.negate (s.pv.negate.map .negate)))))
      (h.2.mono (by simp only [stA, ht, hs, stacksA_cons]; ac_rfl))
    obtain ⟨a, m₂, e₂, o₂⟩ := own_newRule o₁
    refine sim_mem e₁ (sim_mem e₂ (sim_last (sim_set (sim_pure ⟨h.1, o₂.mono ?_⟩))))
    simp only [stA, stacksA_rule]
    ac_rfl

/-- The parser without its stacks. -/
def pvA (t : PMem) (s : PSt) : Asrt :=
  pipeA t.pipe s.pv.pipe ∗ (testA t.test s.pv.test ∗ (matchA t.trait s.pv.trait ∗ matchA t.negate (s.pv.negate.map .negate)))

theorem stA_eq (t s) : stA t s = stacksA t.stacks s.stacks ∗ pvA t s := rfl

theorem sim_takeRule {x r st rst} {α β : Type} {f : Nat → R α} {ref : Hext.P β} {good} (h : Own m₀ (ruleA x r ∗ (stacksA st rst ∗ pvA t s)) m)
    (k : ∀ rule m', Own m₀ (ruleA rule r ∗ (stacksA st rst ∗ pvA t s)) m' →
      Sim (Bad m₀) (f rule) { t with stacks := st } m' ref good) :
    Sim (Bad m₀) (takeRule x st >>= f) t m ref good := by
  unfold takeRule
  simp only [bind_assoc]
  obtain ⟨b, m₁, e₁, o₁⟩ := own_moveRule h
  obtain ⟨m₂, e₂, o₂⟩ := own_destroyRule (a := x) (r := Hist.movedFrom r) (F := ruleA b r ∗ (stacksA st rst ∗ pvA t s)) (o₁.mono (by ac_rfl))
  refine sim_mem e₁ (sim_mem e₂ (sim_get (sim_set ?_)))
  rw [pure_bind]
  exact k b m₂ o₂

theorem sim_appendRule {asks : Bool} {fm : Nat → Nat → P Unit} {g : Rule → Rule → Rule} {F : Asrt}
    (hf : ∀ {m : Mem} {F : Asrt} {a s r r₂}, Own m₀ (ruleA a r ∗ (ruleA s r₂ ∗ F)) m →
      ∃ m', fm a s m = pure ((), m') ∧ Own m₀ (ruleA a (g r r₂) ∗ F) m')
    {this rule y r} (h : Own m₀ (ruleA rule r ∗ (ruleA this y ∗ F)) m) {β : Type} {ref : β} {good}
    (hb : ∀ m', Own m₀ (ruleA this y ∗ F) m' → Bad m₀ t m')
    (hg : ∀ m', Own m₀ (ruleA this (g y r) ∗ F) m' → good ref () t m') :
    Sim (Bad m₀) (appendRule asks fm this rule) t m (pure ref) good := by
  unfold appendRule
  obtain ⟨p, m₁, e₁, o₁⟩ := own_moveRule h
  refine sim_mem e₁ ?_
  refine sim_ifRequest ?_ ?_
  · obtain ⟨m₂, e₂, o₂⟩ := own_destroyRule o₁
    obtain ⟨m₃, e₃, o₃⟩ := own_destroyRule o₂
    exact ⟨m₃, by rw [bind_ok e₂, e₃], hb m₃ o₃⟩
  · obtain ⟨m₂, e₂, o₂⟩ := hf (a := this) (s := p) (r := y) (r₂ := r) (F := ruleA rule (Hist.movedFrom r) ∗ F)
      (o₁.mono (by ac_rfl))
    obtain ⟨m₃, e₃, o₃⟩ := own_destroyRule (a := rule) (r := Hist.movedFrom r) (F := ruleA this (g y r) ∗ F) (o₂.mono (by ac_rfl))
    exact sim_mem e₂ (sim_last (sim_mem e₃ (sim_pure (hg m₃ o₃))))

theorem sim_popRule {b} (h : Rep m₀ s t m) : Sim (Bad m₀) (popRuleR b) t m (Hext.popRule s) (Post m₀) := by
  unfold popRuleR Hext.popRule
  refine sim_get ?_
  obtain ⟨hr, h⟩ := h
  rcases stacks_cases h with ⟨h₁, h₂⟩ | ⟨_, _, h₁, h₂⟩ | ⟨x, as, ats, r, rs, rts, h₁, h₂⟩
  · rw [h₁, h₂]; exact sim_fault_last rfl fun _ => rfl
  · rw [h₁, h₂]; exact sim_fault_last rfl fun _ => rfl
  · rw [h₁, h₂]
    rw [stA_eq, h₁, h₂, stacksA_rule] at h
    cases rs with
    | cons r₂ rs =>
      obtain ⟨y, as, rfl⟩ := rules_cons_of (bs := as) (v := r₂) (vs := rs) (F := ruleA x r ∗ (stacksA ats rts ∗ pvA t s)) (h.mono (by ac_rfl))
      refine sim_takeRule (r := r) (rst := (r₂ :: rs) :: rts) (h.mono (by rw [stacksA_cons]; ac_rfl)) ?_
      intro rule m' h'
      refine sim_appendRule (y := r₂) (r := r) (F := rulesA as rs ∗ (stacksA ats rts ∗ pvA t s)) own_appendChild
        (h'.mono (by rw [stacksA_rule]; ac_rfl)) ?_ ?_
      · intro m' o
        refine ⟨{ s with stacks := (r₂ :: rs) :: rts }, o.mono ?_⟩
        rw [stA_eq, stacksA_rule]; simp only [pvA]; ac_rfl
      · intro m' o
        refine ⟨hr, o.mono ?_⟩
        rw [stA_eq, stacksA_rule]; simp only [pvA]; ac_rfl
    | nil =>
      obtain rfl := rules_nil_of (bs := as) (F := ruleA x r ∗ (stacksA ats rts ∗ pvA t s)) (h.mono (by ac_rfl))
      rw [rulesA_nil, emp_sep] at h
      rcases stacks_cases (as := ats) (rs := rts) (F := ruleA x r ∗ pvA t s) (h.mono (by ac_rfl)) with ⟨rfl, rfl⟩ | ⟨ats, rts, rfl, rfl⟩ |
        ⟨y, as, ats, r₂, rs, rts, rfl, rfl⟩
      · exact sim_fault_last rfl fun _ => rfl
      · refine sim_takeRule (r := r) (rst := [] :: [] :: rts) (h.mono (by simp only [stacksA_empty]; ac_rfl)) ?_
        intro rule m' h'
        refine sim_ifRequest ?_ ?_
        · obtain ⟨m₂, e₂, o₂⟩ := own_destroyRule h'
          exact ⟨m₂, e₂, { s with stacks := [] :: [] :: rts }, o₂.mono rfl⟩
        · obtain ⟨b, m₁, e₁, o₁⟩ := own_moveRule h'
          refine sim_mem e₁ (sim_get (sim_set (sim_last ?_)))
          obtain ⟨m₂, e₂, o₂⟩ := own_destroyRule (a := rule) (r := Hist.movedFrom r) (F := ruleA b r ∗ (stacksA ats rts ∗ pvA t s))
            (o₁.mono (by simp only [stacksA_empty]; ac_rfl))
          refine sim_mem e₂ (sim_pure ⟨hr, o₂.mono ?_⟩)
          rw [stA_eq, stacksA_empty, stacksA_rule, rulesA_nil, emp_sep]
          simp only [pvA]; ac_rfl
      · refine sim_takeRule (r := r) (rst := [] :: (r₂ :: rs) :: rts) (h.mono (by simp only [stacksA_empty]; ac_rfl)) ?_
        intro rule m' h'
        refine sim_appendRule (y := r₂) (r := r) (F := rulesA as rs ∗ (stacksA ats rts ∗ pvA t s)) own_appendNext
          (h'.mono (by rw [stacksA_empty, stacksA_rule]; ac_rfl)) ?_ ?_
        · intro m' o
          refine ⟨{ s with stacks := [] :: (r₂ :: rs) :: rts }, o.mono ?_⟩
          rw [stA_eq, stacksA_empty, stacksA_rule]; simp only [pvA]; ac_rfl
        · intro m' o
          refine ⟨hr, o.mono ?_⟩
          rw [stA_eq, stacksA_empty, stacksA_rule]; simp only [pvA]; ac_rfl

theorem throwErrorMessage_error (c : Ctx) (p : Nat) (msg : Str) : ∃ e, ∀ α : Type, (throwErrorMessage c p msg : Hext.P α) = .error e := by
  unfold throwErrorMessage
  cases h : pMinus1 p with
  | error e => exact ⟨e, fun _ => rfl⟩
  | ok u =>
    cases h' : printErrorLocation c u 1 with
    | error e => exact ⟨e, fun _ => by show (printErrorLocation c u 1 >>= _) = _; rw [h']; rfl⟩
    | ok l => exact ⟨_, fun _ => by show (printErrorLocation c u 1 >>= _) = _; rw [h']; rfl⟩

theorem sim_throwErrorMessage {α β : Type} {good : β → α → PMem → Mem → Prop} {c p msg d} (hd : ∃ m', d m = pure ((), m') ∧ Bad m₀ t m') :
    Sim (Bad m₀) (R.parseElse d (throwErrorMessage c p msg)) t m (throwErrorMessage c p msg) good := by
  obtain ⟨e, h⟩ := throwErrorMessage_error c p msg
  rw [h, h]
  exact sim_parseError hd

theorem sim_pushNested {c p} (h : Rep m₀ s t m) : Sim (Bad m₀) (pushNestedR c p) t m (Hext.pushNested c p s) (Post m₀) := by
  unfold pushNestedR Hext.pushNested topStack
  refine sim_get ?_
  rcases stacks_cases h.2 with ⟨h₁, h₂⟩ | ⟨_, _, h₁, h₂⟩ | ⟨x, as, ats, r, rs, rts, h₁, h₂⟩
  · rw [h₁, h₂]; exact sim_fault_last rfl fun _ => rfl
  · rw [h₁, h₂]
    exact sim_throwErrorMessage ⟨m, rfl, h.bad⟩
  · rw [h₁, h₂]
    refine sim_request h.bad (sim_set (sim_request ?_ (sim_last (sim_set (sim_pure ⟨h.1, ?_⟩)))))
    · refine ⟨{ s with stacks := [] :: (r :: rs) :: rts }, h.2.mono ?_⟩
      simp only [stA, h₁, h₂, stacksA_empty]
    · refine h.2.mono ?_
      simp only [stA, h₁, h₂, stacksA_empty]

theorem sim_popNested {c p b} (h : Rep m₀ s t m) : Sim (Bad m₀) (popNestedR c p b) t m (Hext.popNested c p s) (Post m₀) := by
  unfold popNestedR Hext.popNested
  refine sim_get ?_
  obtain ⟨hr, h⟩ := h
  rcases stacks_cases h with ⟨h₁, h₂⟩ | ⟨ats, rts, h₁, h₂⟩ | ⟨x, as, ats, r, rs, rts, h₁, h₂⟩
  · rw [h₁, h₂]; exact sim_fault_last rfl fun _ => rfl
  · rw [h₁, h₂]
    rw [stA_eq, h₁, h₂, stacksA_empty] at h
    refine sim_set ?_
    rcases stacks_cases h with ⟨rfl, rfl⟩ | ⟨ats, rts, rfl, rfl⟩ | ⟨x, as, ats, r, rs, rts, rfl, rfl⟩
    · exact sim_fault_last rfl fun _ => rfl
    · exact sim_throwErrorMessage ⟨m, rfl, { s with stacks := [] :: rts }, h⟩
    · cases rs with
      | cons r₂ rs =>
        obtain ⟨y, as, rfl⟩ := rules_cons_of (bs := as) (v := r₂) (vs := rs)
          (F := ruleA x r ∗ (stacksA ats rts ∗ pvA t s)) (h.mono (by rw [stacksA_rule]; ac_rfl))
        exact sim_fault_last rfl fun _ => rfl
      | nil =>
        obtain rfl := rules_nil_of (bs := as)
          (F := ruleA x r ∗ (stacksA ats rts ∗ pvA t s)) (h.mono (by rw [stacksA_rule]; ac_rfl))
        rw [stacksA_rule, rulesA_nil, emp_sep, sep_assoc] at h
        refine sim_takeRule (r := r) (rst := rts) (s := s) h ?_
        intro rule m' h'
        have hbad : ∃ m'', destroyRule rule m' = pure ((), m'') ∧ Bad m₀ { t with stacks := ats } m'' := by
          obtain ⟨m₂, e₂, o₂⟩ := own_destroyRule h'
          exact ⟨m₂, e₂, { s with stacks := rts }, o₂⟩
        rcases stacks_cases (as := ats) (rs := rts) (F := ruleA rule r ∗ pvA t s) (h'.mono (by ac_rfl)) with ⟨rfl, rfl⟩ | ⟨ats, rts, rfl, rfl⟩ |
          ⟨y, as, ats, r₂, rs, rts, rfl, rfl⟩
        · exact sim_throwErrorMessage hbad
        · exact sim_throwErrorMessage hbad
        · refine sim_appendRule (y := r₂) (r := r) (F := rulesA as rs ∗ (stacksA ats rts ∗ pvA t s)) (own_appendNested b)
            (h'.mono (by rw [stacksA_rule]; ac_rfl)) ?_ ?_
          · intro m' o
            refine ⟨{ s with stacks := (r₂ :: rs) :: rts }, o.mono ?_⟩
            rw [stA_eq, stacksA_rule]; simp only [pvA]; ac_rfl
          · intro m' o
            refine ⟨hr, o.mono ?_⟩
            rw [stA_eq, stacksA_rule]; simp only [pvA]; ac_rfl
  · rw [h₁, h₂]
    exact sim_throwErrorMessage ⟨m, rfl, s, h⟩

end

end Hext.Mem
