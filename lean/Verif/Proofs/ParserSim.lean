import Verif.Proofs.OwnedOps
import Verif.Spec.ParserMemory
/-!
# The parser in memory does what the parser does on values: lemmas
-/

namespace Hext.Mem

open Hext (PSt PErr Act)

/-- After `N` requests `x` throws the exception `e` of the parser; making a `SyntaxError` takes a further request, which must not
fail. -/
def Throws {α} (bad : PMem → Mem → Prop) (x : R α) (t : PMem) (m : Mem) (N : Nat) (e : PErr) : Prop :=
  ∃ t' m', bad t' m' ∧ match e with
    | .syntax w => x ⟨m, N, t⟩ = throw .assertFail ∧ ∀ n, x ⟨m, n + 1 + N, t⟩ = pure (.error (.thrown (.syntax w)), ⟨m', n, t'⟩)
    | e => ∀ n, x ⟨m, n + N, t⟩ = pure (.error (.thrown e), ⟨m', n, t'⟩)

/-- `x` does what `ref` says. It requests memory a number of times; whenever that or the parser throws, `bad` holds of what the
parser leaves behind. -/
def Sim {α β} (bad : PMem → Mem → Prop) (x : R α) (t : PMem) (m : Mem) (ref : Hext.P β) (good : β → α → PMem → Mem → Prop) : Prop :=
  ∃ N, (∀ n, n < N → ∃ t' m', x ⟨m, n, t⟩ = pure (.error .badAlloc, ⟨m', 0, t'⟩) ∧ bad t' m') ∧
    match ref with
    | .ok b => ∃ a t' m', good b a t' m' ∧ ∀ n, x ⟨m, n + N, t⟩ = pure (.ok a, ⟨m', n, t'⟩)
    | .error e => match faultOf e with
      | some f => ∀ n, x ⟨m, n + N, t⟩ = throw f
      | none => Throws bad x t m N e

theorem R.bind_run_ok {α β} {x : R α} {f : α → R β} {s s' : PS} {a : α} (h : x s = pure (.ok a, s')) :
    (x >>= f) s = f a s' := by
  show (x s >>= fun p => ExceptT.bindCont (m := StateT PS E) f p.1 p.2) = _
  rw [h]; rfl

theorem R.bind_run_error {α β} {x : R α} {f : α → R β} {s s' : PS} {e : Exn} (h : x s = pure (.error e, s')) :
    (x >>= f) s = pure (.error e, s') := by
  show (x s >>= fun p => ExceptT.bindCont (m := StateT PS E) f p.1 p.2) = _
  rw [h]; rfl

theorem R.bind_run_throw {α β} {x : R α} {f : α → R β} {s : PS} {e : Err} (h : x s = throw e) :
    (x >>= f) s = throw e := by
  show (x s >>= fun p => ExceptT.bindCont (m := StateT PS E) f p.1 p.2) = _
  rw [h]; rfl

theorem Throws.of_run {α β} {bad : PMem → Mem → Prop} {x : R α} {y : R β} {t t' : PMem} {m m' : Mem} {M K : Nat} {e : PErr}
    (hok : ∀ z s' k, y ⟨m', k, t'⟩ = pure (.error z, s') → x ⟨m, k + K, t⟩ = pure (.error z, s'))
    (hno : ∀ k, y ⟨m', k, t'⟩ = throw .assertFail → x ⟨m, k + K, t⟩ = throw .assertFail)
    (h : Throws bad y t' m' M e) : Throws bad x t m (M + K) e := by
  obtain ⟨t₁, m₁, b, h⟩ := h
  refine ⟨t₁, m₁, b, ?_⟩
  cases e with
  | «syntax» w => exact ⟨hno _ h.1, fun n => by rw [← Nat.add_assoc]; exact hok _ _ _ (h.2 n)⟩
  | _ => exact fun n => by rw [← Nat.add_assoc]; exact hok _ _ _ (h n)

section
variable {α β γ δ : Type} {bad : PMem → Mem → Prop} {t t' : PMem} {m m' : Mem} {ref : Hext.P β}
  {good : β → α → PMem → Mem → Prop}

theorem sim_bind {x : R α} {f : α → R γ} {g : β → Hext.P δ} {good' : δ → γ → PMem → Mem → Prop}
    (h : Sim bad x t m ref good)
    (k : ∀ b a t' m', ref = .ok b → good b a t' m' → Sim bad (f a) t' m' (g b) good') :
    Sim bad (x >>= f) t m (ref >>= g) good' := by
  obtain ⟨N, h₁, h₂⟩ := h
  have low : ∀ n, n < N → ∃ t' m', (x >>= f) ⟨m, n, t⟩ = pure (.error .badAlloc, ⟨m', 0, t'⟩) ∧ bad t' m' := by
    intro n hn
    obtain ⟨t', m', e, b⟩ := h₁ n hn
    exact ⟨t', m', R.bind_run_error e, b⟩
  cases ref with
  | ok b =>
    obtain ⟨a, t', m', hg, hx⟩ := h₂
    obtain ⟨M, k₁, k₂⟩ := k b a t' m' rfl hg
    refine ⟨M + N, ?_, ?_⟩
    · intro n hn
      by_cases hN : n < N
      · exact low n hN
      · obtain ⟨t'', m'', e, b⟩ := k₁ (n - N) (by omega)
        have := hx (n - N)
        rw [Nat.sub_add_cancel (by omega)] at this
        exact ⟨t'', m'', by rw [R.bind_run_ok this]; exact e, b⟩
    · have run : ∀ n, (x >>= f) ⟨m, n + (M + N), t⟩ = f a ⟨m', n + M, t'⟩ := by
        intro n
        rw [← Nat.add_assoc, R.bind_run_ok (hx (n + M))]
      show match g b with
        | .ok b => _
        | .error e => _
      revert k₂
      cases g b with
      | ok d =>
        rintro ⟨a', t'', m'', hg', h'⟩
        exact ⟨a', t'', m'', hg', fun n => by rw [run, h']⟩
      | error e =>
        simp only
        cases faultOf e with
        | some f => intro h' n; rw [run, h']
        | none =>
          intro h'
          have run' : ∀ n, (x >>= f) ⟨m, n + N, t⟩ = f a ⟨m', n, t'⟩ := fun n => R.bind_run_ok (hx n)
          exact Throws.of_run (y := f a) (t' := t') (m' := m') (fun _ _ k e => (run' k).trans e) (fun k e => (run' k).trans e) h'
  | error e =>
    refine ⟨N, low, ?_⟩
    show match faultOf e with
      | some f => _
      | none => _
    revert h₂
    simp only
    cases faultOf e with
    | some f => intro h' n; exact R.bind_run_throw (h' n)
    | none => exact fun h' => Throws.of_run (K := 0) (y := x) (t' := t) (m' := m) (fun _ _ k e => R.bind_run_error e) (fun k e => R.bind_run_throw e) h'

theorem sim_last {x : R α} (h : Sim bad (x >>= pure) t m ref good) : Sim bad x t m ref good := by
  rwa [bind_pure] at h

theorem sim_pure {a : α} {b : β} (h : good b a t m) : Sim bad (pure a) t m (pure b) good :=
  ⟨0, by omega, a, t, m, h, fun _ => rfl⟩

theorem sim_run {x : R γ} {f : γ → R α} {a : γ} (hx : ∀ n, x ⟨m, n, t⟩ = pure (.ok a, ⟨m', n, t'⟩))
    (h : Sim bad (f a) t' m' ref good) : Sim bad (x >>= f) t m ref good := by
  have := sim_bind (f := f) (g := fun _ => ref) (ref := (pure () : Hext.P Unit))
    (good := fun _ a' t₁ m₁ => a' = a ∧ t₁ = t' ∧ m₁ = m') (bad := bad) (x := x) (t := t) (m := m) (good' := good)
    ⟨0, by omega, a, t', m', ⟨rfl, rfl, rfl⟩, hx⟩ (by rintro _ _ _ _ _ ⟨rfl, rfl, rfl⟩; exact h)
  exact this

theorem sim_fault {x : R γ} {f : γ → R α} {e : PErr} {f' : Err} (he : faultOf e = some f') (hx : ∀ n, x ⟨m, n, t⟩ = throw f') :
    Sim bad (x >>= f) t m (.error e) good := by
  refine ⟨0, by omega, ?_⟩
  simp only [he]
  exact fun n => R.bind_run_throw (hx n)

theorem sim_fault_last {x : R α} {e : PErr} {f' : Err} (he : faultOf e = some f') (hx : ∀ n, x ⟨m, n, t⟩ = throw f') :
    Sim bad x t m (.error e) good := sim_last (sim_fault he hx)

theorem sim_get {f : PMem → R α} (h : Sim bad (f t) t m ref good) : Sim bad (R.get >>= f) t m ref good :=
  sim_run (fun _ => rfl) h

theorem sim_set {f : Unit → R α} (h : Sim bad (f ()) t' m ref good) : Sim bad (R.set t' >>= f) t m ref good :=
  sim_run (fun _ => rfl) h

theorem sim_mem {x : P γ} {f : γ → R α} {a : γ} (hx : x m = pure (a, m')) (h : Sim bad (f a) t m' ref good) :
    Sim bad (R.mem x >>= f) t m ref good :=
  sim_run (fun n => by show (x m >>= fun p => pure (Except.ok p.1, ({ mem := p.2, left := n, st := t } : PS))) = _; rw [hx]; rfl) h

theorem sim_requestElse {d : P Unit} {f : Unit → R α} (hd : ∃ m', d m = pure ((), m') ∧ bad t m')
    (h : Sim bad (f ()) t m ref good) : Sim bad (R.requestElse d >>= f) t m ref good := by
  have := sim_bind (f := f) (g := fun _ => ref) (ref := (pure () : Hext.P Unit))
    (good := fun _ _ t₁ m₁ => t₁ = t ∧ m₁ = m) (bad := bad) (x := R.requestElse d) (t := t) (m := m) (good' := good)
    ⟨1, ?_, (), t, m, ⟨rfl, rfl⟩, fun n => rfl⟩ (by rintro _ _ _ _ _ ⟨rfl, rfl⟩; exact h)
  · exact this
  · intro n hn
    obtain rfl : n = 0 := by omega
    obtain ⟨m', e, b⟩ := hd
    refine ⟨t, m', ?_, b⟩
    show (d m >>= fun p => pure (Except.error Exn.badAlloc, ({ mem := p.2, left := 0, st := t } : PS))) = _
    rw [e]; rfl

theorem sim_request {f : Unit → R α} (hd : bad t m) (h : Sim bad (f ()) t m ref good) :
    Sim bad (R.request >>= f) t m ref good := sim_requestElse ⟨m, rfl, hd⟩ h

theorem sim_ifRequest {b : Bool} {d : P Unit} {f : Unit → R α} (hd : ∃ m', d m = pure ((), m') ∧ bad t m')
    (h : Sim bad (f ()) t m ref good) : Sim bad (R.requestIf b d >>= f) t m ref good := by
  cases b with
  | false => exact sim_run (a := ()) (fun _ => rfl) h
  | true => exact sim_requestElse hd h

theorem sim_throw {x : R α} {e : PErr} (he : faultOf e = none) (hx : Throws bad x t m 0 e) : Sim bad x t m (.error e) good := by
  refine ⟨0, by omega, ?_⟩
  simp only [he]
  exact hx

theorem sim_parseElse {d : P Unit} {x : Hext.P γ} {f : γ → R α} {g : γ → Hext.P β}
    (hd : ∃ m', d m = pure ((), m') ∧ bad t m')
    (h : ∀ c, x = .ok c → Sim bad (f c) t m (g c) good) : Sim bad (R.parseElse d x >>= f) t m (x >>= g) good := by
  have exc : ∀ (e : PErr) (z : R γ), faultOf e = none → Throws bad z t m 0 e →
      Sim bad ((do R.requestElse d; z : R γ) >>= f) t m (.error e : Hext.P β) good := by
    intro e z he hz
    refine sim_bind (ref := (.error e : Hext.P γ)) (g := g) (good := fun _ _ _ _ => False) ?_ (fun b a t' m' hb => nomatch hb)
    exact sim_requestElse hd (sim_throw he hz)
  have run : ∀ (e : PErr) n m', d m = pure ((), m') →
      (do R.mem d; throw (.thrown e) : R γ) ⟨m, n, t⟩ = pure (.error (.thrown e), ⟨m', n, t⟩) := by
    intro e n m' h
    have hm : R.mem d ⟨m, n, t⟩ = pure (.ok (), ⟨m', n, t⟩) := by
      show (d m >>= fun p => pure (Except.ok p.1, ({ mem := p.2, left := n, st := t } : PS))) = _
      rw [h]; rfl
    rw [R.bind_run_ok hm]; rfl
  cases x with
  | ok c => exact sim_run (a := c) (fun _ => rfl) (h c rfl)
  | error e =>
    cases e with
    | ub => exact sim_fault (f' := .ub) rfl fun _ => rfl
    | overflow => exact sim_fault (f' := .ub) rfl fun _ => rfl
    | assertFail => exact sim_fault (f' := .assertFail) rfl fun _ => rfl
    | «syntax» w =>
      refine exc _ _ rfl ?_
      obtain ⟨m', e, b⟩ := hd
      exact ⟨t, m', b, rfl, fun n => run _ n m' e⟩
    | outOfRange | invalidArgument =>
      refine exc _ _ rfl ?_
      obtain ⟨m', e, b⟩ := hd
      exact ⟨t, m', b, fun n => run _ n m' e⟩

theorem sim_parseError {d : P Unit} {e : PErr} (hd : ∃ m', d m = pure ((), m') ∧ bad t m') :
    Sim bad (R.parseElse d (.error e)) t m (.error e) good :=
  sim_last (sim_parseElse (x := (.error e : Hext.P α)) (g := fun _ => (.error e : Hext.P β)) hd fun _ hc => nomatch hc)

theorem sim_parse {x : Hext.P γ} {f : γ → R α} {g : γ → Hext.P β} (hd : bad t m)
    (h : ∀ c, x = .ok c → Sim bad (f c) t m (g c) good) : Sim bad (R.parse x >>= f) t m (x >>= g) good :=
  sim_parseElse ⟨m, rfl, hd⟩ h

end

/-! ## The state of the parser -/

/-- What the parser owns. -/
def stA (t : PMem) (s : PSt) : Asrt :=
  stacksA t.stacks s.stacks ∗ (pipeA t.pipe s.pv.pipe ∗ (testA t.test s.pv.test ∗
    (matchA t.trait s.pv.trait ∗ matchA t.negate (s.pv.negate.map .negate))))

/-- The members without pointers. -/
def PSt.forget (s : PSt) : PSt :=
  { s with stacks := [[], []], pv := { s.pv with pipe := none, test := none, trait := none, negate := none } }

/-- The parser is in state `s`. -/
def Rep (m₀ : Mem) (s : PSt) (t : PMem) (m : Mem) : Prop := t.rest = PSt.forget s ∧ Own m₀ (stA t s) m

/-- The parser owns all that is in memory in addition to `m₀`. -/
def Bad (m₀ : Mem) (t : PMem) (m : Mem) : Prop := ∃ s, Own m₀ (stA t s) m

theorem Own.pipe {m₀ s t m} (h : Own m₀ (stA t s) m) : Own m₀ (pipeA t.pipe s.pv.pipe ∗ (stacksA t.stacks s.stacks ∗ (testA t.test s.pv.test ∗
    (matchA t.trait s.pv.trait ∗ matchA t.negate (s.pv.negate.map .negate))))) m := h.mono (by simp only [stA]; ac_rfl)
theorem Own.test {m₀ s t m} (h : Own m₀ (stA t s) m) : Own m₀ (testA t.test s.pv.test ∗ (stacksA t.stacks s.stacks ∗ (pipeA t.pipe s.pv.pipe ∗
    (matchA t.trait s.pv.trait ∗ matchA t.negate (s.pv.negate.map .negate))))) m := h.mono (by simp only [stA]; ac_rfl)
theorem Own.trait {m₀ s t m} (h : Own m₀ (stA t s) m) : Own m₀ (matchA t.trait s.pv.trait ∗ (stacksA t.stacks s.stacks ∗ (pipeA t.pipe s.pv.pipe ∗
    (testA t.test s.pv.test ∗ matchA t.negate (s.pv.negate.map .negate))))) m := h.mono (by simp only [stA]; ac_rfl)
theorem Own.negate {m₀ s t m} (h : Own m₀ (stA t s) m) : Own m₀ (matchA t.negate (s.pv.negate.map .negate) ∗ (stacksA t.stacks s.stacks ∗ (pipeA t.pipe s.pv.pipe ∗
    (testA t.test s.pv.test ∗ matchA t.trait s.pv.trait)))) m := h.mono (by simp only [stA]; ac_rfl)

/-- What a code block leads to. -/
abbrev Post (m₀ : Mem) : PSt → Unit → PMem → Mem → Prop := fun s _ t m => Rep m₀ s t m

theorem Rep.bad {m₀ s t m} (h : Rep m₀ s t m) : Bad m₀ t m := ⟨s, h.2⟩

theorem vec_nil_of {α β} {R : Cells → β → α → List Nat → Prop} {hf ha} {m₀ m : Mem} {F : Asrt} {bs : List β}
    (h : Own m₀ (vecA R hf ha bs [] ∗ F) m) : bs = [] := by
  obtain ⟨S, T, hT, _⟩ := h.exists_left
  cases bs with
  | nil => rfl
  | cons => exact hT.elim

theorem vec_cons_of {α β} {R : Cells → β → α → List Nat → Prop} {hf ha} {m₀ m : Mem} {F : Asrt} {bs : List β} {v : α} {vs : List α}
    (h : Own m₀ (vecA R hf ha bs (v :: vs) ∗ F) m) : ∃ b bs', bs = b :: bs' := by
  obtain ⟨S, T, hT, _⟩ := h.exists_left
  cases bs with
  | nil => exact hT.elim
  | cons b bs => exact ⟨b, bs, rfl⟩

theorem rules_nil_of {m₀ m : Mem} {F : Asrt} {bs : List Nat} (h : Own m₀ (rulesA bs [] ∗ F) m) : bs = [] := vec_nil_of h
theorem rules_cons_of {m₀ m : Mem} {F : Asrt} {bs : List Nat} {v : Rule} {vs : List Rule} (h : Own m₀ (rulesA bs (v :: vs) ∗ F) m) :
    ∃ b bs', bs = b :: bs' := vec_cons_of h

theorem ptr_none_of {α} {R : Cells → Nat → α → List Nat → Prop} {hf ha} {m₀ m : Mem} {F : Asrt} {q : Option Nat}
    (h : Own m₀ (ptrA R hf ha q none ∗ F) m) : q = none := by
  obtain ⟨S, T, hT, _⟩ := h.exists_left
  cases q with
  | none => rfl
  | some b => exact hT.elim

theorem ptr_some_of {α} {R : Cells → Nat → α → List Nat → Prop} {hf ha} {m₀ m : Mem} {F : Asrt} {q : Option Nat} {v : α}
    (h : Own m₀ (ptrA R hf ha q (some v) ∗ F) m) : ∃ a, q = some a := by
  obtain ⟨S, T, hT, _⟩ := h.exists_left
  cases q with
  | none => exact hT.elim
  | some b => exact ⟨b, rfl⟩

theorem stacks_cases {m₀ m : Mem} {F : Asrt} {as : List (List Nat)} {rs : List (List Rule)} (h : Own m₀ (stacksA as rs ∗ F) m) :
    (as = [] ∧ rs = []) ∨ (∃ as' rs', as = [] :: as' ∧ rs = [] :: rs') ∨
    ∃ a at' ats r rt rts, as = (a :: at') :: ats ∧ rs = (r :: rt) :: rts := by
  cases rs with
  | nil => exact .inl ⟨vec_nil_of h, rfl⟩
  | cons v vs =>
    obtain ⟨b, bs, rfl⟩ := vec_cons_of h
    rw [stacksA_cons, sep_assoc] at h
    cases v with
    | nil =>
      obtain rfl := vec_nil_of h
      exact .inr (.inl ⟨_, _, rfl, rfl⟩)
    | cons r rt =>
      obtain ⟨a, at', rfl⟩ := vec_cons_of h
      exact .inr (.inr ⟨_, _, _, _, _, _, rfl, rfl⟩)

theorem stacksA_rule (a as ats r rs rts) :
    stacksA ((a :: as) :: ats) ((r :: rs) :: rts) = ruleA a r ∗ (rulesA as rs ∗ stacksA ats rts) := by
  rw [stacksA_cons, rulesA_cons, sep_assoc]

theorem stacksA_empty (ats rts) : stacksA ([] :: ats) ([] :: rts) = stacksA ats rts := by
  rw [stacksA_cons, rulesA_nil, emp_sep]

end Hext.Mem
