import Verif.Spec.Programs
import Verif.Props.ParserMemory
/-!
# C95: programs that parse hexts and change the rules they get
-/

namespace Hext.Prog

open Hist Mem

/-- With enough memory, parsing ends in the same memory however much there is. -/
theorem parse_enough (rx : RxEngine) (charSigned : Bool) (g : Nat → Nat → Growth) (hext : Str) {m : Mem} (w : m.Wf) :
    match parseHext rx charSigned hext with
    | .ok r => ∃ N a m' S, HoldsRule m'.cell a r S ∧ Changed m m' [] S ∧
        ∀ n, N ≤ n → parseHextMem rx charSigned g hext m n = pure (.ok a, m')
    | .error e => faultOf e = none → ∃ N m', Untouched m m' ∧
        ∀ n, N ≤ n → parseHextMem rx charSigned g hext m n = pure (.error (.thrown e), m') := by
  obtain ⟨N, h₁, h₂⟩ := sim_body { input := hext, charSigned, rx } g w
  have run : ∀ {n r t' m' k}, parseBodyR { input := hext, charSigned, rx } g ⟨m, n, {}⟩ = pure (r, ⟨m', k, t'⟩) →
      ∀ {m''}, destroyParser t' m' = pure ((), m'') → parseHextMem rx charSigned g hext m n = pure (r, m'') := by
    intro n r t' m' k e m'' e'
    unfold parseHextMem
    rw [e]
    show (destroyParser t' m' >>= _) = _
    rw [e']
    rfl
  unfold parseHext
  generalize Parser.parse { input := hext, charSigned, rx } = x at h₂
  cases x with
  | ok r =>
    obtain ⟨a, t', m', ⟨s', o⟩, e⟩ := h₂
    obtain ⟨m'', e', o⟩ := own_destroyParser (F := ruleA a r) (o.mono (by rw [sep_comm]))
    obtain ⟨S, ⟨T, hT, p⟩, c⟩ := o
    refine ⟨N, a, m'', T, hT, c.perm p.symm, fun n hn => ?_⟩
    have e := e (n - N)
    rw [show n - N + N = n by omega] at e
    exact run e e'
  | error e =>
    intro hf
    simp only at h₂ ⊢
    rw [hf] at h₂
    obtain ⟨t', m', b, h₃⟩ := h₂
    obtain ⟨m'', e', u⟩ := bad_end w b
    cases e with
    | «syntax» what =>
      refine ⟨N + 1, m'', u, fun n hn => ?_⟩
      have h := h₃.2 (n - N - 1)
      rw [show n - N - 1 + 1 + N = n by omega] at h
      exact run h e'
    | _ =>
      refine ⟨N, m'', u, fun n hn => ?_⟩
      have h := h₃ (n - N)
      rw [show n - N + N = n by omega] at h
      exact run h e'

theorem Inv.untouched {m m' vars env F} (h : Inv m vars env F []) (u : Untouched m m') : Inv m' vars env F [] := by
  have e : m'.cell = m.cell := funext u.2
  exact {
    wf := fun x hx => by
      rw [e] at hx
      exact Nat.lt_of_lt_of_le (h.wf x hx) u.1
    holds := by rw [e]; exact h.holds
    nodup := h.nodup
    disj := h.disj
    alive := fun x hx => nomatch hx
    noLeak := by rw [e]; exact h.noLeak }

/-- Every program that has a meaning on values is executed accordingly. -/
theorem run_val (rx : RxEngine) (charSigned : Bool) (g : Nat → Nat → Growth) : ∀ (ss : List Stmt) {m vars env F x env'},
    Inv m vars env F [] → val rx charSigned env ss = some (x, env') → (∀ e ∈ x, faultOf e = none) →
    ∃ N m' vars' F', Inv m' vars' env' F' [] ∧ ∀ n, N ≤ n → run rx charSigned g n vars m ss = pure (x.map .thrown, vars', m')
  | [], m, vars, env, F, x, env', h, hv, _ => by
    simp only [val, Option.some.injEq, Prod.mk.injEq] at hv
    obtain ⟨rfl, rfl⟩ := hv
    exact ⟨0, m, vars, F, h, fun _ _ => rfl⟩
  | s :: ss, m, vars, env, F, x, env', h, hv, hx => by
    -- the statement returns, in one way or the other
    suffices hs : match s.val rx charSigned env with
        | none => False
        | some (.ok env₁) => ∃ N m₁ vars₁ F₁, Inv m₁ vars₁ env₁ F₁ [] ∧
            ∀ n, N ≤ n → s.run rx charSigned g n vars m = pure (.ok vars₁, m₁)
        | some (.error e) => faultOf e = none → ∃ N m₁ F₁, Inv m₁ vars env F₁ [] ∧
            ∀ n, N ≤ n → s.run rx charSigned g n vars m = pure (.error (.thrown e), m₁) by
      simp only [val] at hv
      cases hsv : s.val rx charSigned env with
      | none => rw [hsv] at hv; cases hv
      | some y =>
        rw [hsv] at hs hv
        cases y with
        | error e =>
          simp only [Option.some.injEq, Prod.mk.injEq] at hv
          obtain ⟨rfl, rfl⟩ := hv
          obtain ⟨N, m₁, F₁, i, e⟩ := hs (hx _ rfl)
          refine ⟨N, m₁, vars, F₁, i, fun n hn => ?_⟩
          rw [run, e n hn]
          rfl
        | ok env₁ =>
          obtain ⟨N, m₁, vars₁, F₁, i, e⟩ := hs
          obtain ⟨N', m', vars', F', i', e'⟩ := run_val rx charSigned g ss i hv hx
          refine ⟨max N N', m', vars', F', i', fun n hn => ?_⟩
          rw [run, e n (by omega)]
          exact e' n (by omega)
    cases s with
    | op o =>
      simp only [Stmt.val]
      cases ho : o.val env with
      | none => simp only [val, Stmt.val, ho] at hv; cases hv
      | some env₁ =>
        obtain ⟨m₁, vars₁, F₁, e, i⟩ := run_ok h o ho
        refine ⟨0, m₁, vars₁, F₁, i, fun n _ => ?_⟩
        rw [Stmt.run, e]
        rfl
    | check p =>
      simp only [Stmt.val]
      cases hp : env.get p with
      | none => simp only [val, Stmt.val, hp] at hv; cases hv
      | some q =>
        obtain ⟨root, r, x, Tq, rest, hvv, hrr, ep, f⟩ := h.place hp
        refine ⟨0, m, vars, F, h, fun n _ => ?_⟩
        rw [Stmt.run, ep m fun _ _ => rfl]
        rfl
    | parse v hext =>
      have hp := parse_enough rx charSigned g hext h.wf
      simp only [Stmt.val]
      cases hr : parseHext rx charSigned hext with
      | error e =>
        rw [hr] at hp
        intro hf
        obtain ⟨N, m', u, e'⟩ := hp hf
        refine ⟨N, m', F, Inv.untouched h u, fun n hn => ?_⟩
        rw [Stmt.run, e' n hn]
        rfl
      | ok r =>
        rw [hr] at hp
        obtain ⟨N, a, m', S, hh, c, e'⟩ := hp
        cases hv' : env v with
        | some q => simp only [val, Stmt.val, hr, Env.create, hv'] at hv; cases hv
        | none =>
          simp only [Env.create, hv', Option.map_some]
          refine ⟨N, m', update vars v (some a), updateF F v S, ?_, fun n hn => ?_⟩
          · refine h.step (S := S) (T' := []) ?_ hh (fun x hx => nomatch hx)
            rw [(h.gone hv').2]
            simpa using c
          · rw [Stmt.run, e' n hn]
            rfl

/-- C95. A program that constructs, parses and changes rules in any way that has a meaning on values does, if there is enough memory,
what it means: it throws the exception of the first hext that is not accepted, or none; every rule that can be reached
then is the value that was meant, and extracts accordingly; and whatever the program or the unwinding of the stack does afterwards, no object is left behind
once the variables are gone. -/
theorem C95_programs (rx : RxEngine) (charSigned : Bool) (g : Nat → Nat → Growth) (ss : List Stmt) {x : Option PErr} {env : Env}
    (hv : val rx charSigned noEnv ss = some (x, env)) (hx : ∀ e ∈ x, faultOf e = none) :
    ∃ N m vars, (∀ n, N ≤ n → run rx charSigned g n noVars noMem ss = pure (x.map .thrown, vars, m)) ∧
      (∀ p q, env.get p = some q → vars.read p m = pure q ∧
        ∀ rx doc node ms, vars.extract p rx doc node ms m = Hext.extract rx doc q node ms) ∧
      ∀ later env', Hist.vals env later = some env' → (∀ v, env' v = none) →
        ∃ vars' m', runs vars later m = pure (vars', m') ∧ ∀ x, m'.cell x = none := by
  obtain ⟨N, m, vars, F, i, e⟩ := run_val rx charSigned g ss inv_start hv hx
  refine ⟨N, m, vars, e, fun p q hq => ⟨i.read hq, fun rx doc node ms => i.extract hq rx doc node ms⟩, fun later env' hl hd => ?_⟩
  obtain ⟨m', vars', F', e', i'⟩ := runs_ok i later hl
  refine ⟨vars', m', e', fun x => ?_⟩
  cases hx : m'.cell x with
  | none => rfl
  | some o =>
    obtain ⟨v, hv, _⟩ := i'.owner x (by rw [hx]; rfl)
    rw [(i'.gone (hd v)).2] at hv
    cases hv

end Hext.Prog
