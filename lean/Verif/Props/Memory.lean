import Verif.Proofs.MemoryParts
import Verif.Proofs.RuleRead
/-!
# Rules as values: copies, appends, lifetimes
-/

namespace Hext

namespace Hist

open Mem

theorem put_other {e : Env} {p : Place} {q : Rule} {v : Nat} (h : p.var ≠ v) : e.put p q v = e v := by
  simp [Env.put, update, Ne.symm h]

theorem get_of_eq {e e' : Env} {p : Place} (h : e' p.var = e p.var) : e'.get p = e.get p := by
  simp [Env.get, h]

theorem append_iff {e e' : Env} {p : Place} {a : Arg} {f : Rule → Rule → Rule} :
    e.append p a f = some e' ↔ ∃ q e₁ d, a.val e = some (q, e₁) ∧
      e₁.get p = some d ∧ e' = e₁.put p (f d q) := by
  unfold Env.append
  rw [Option.bind_eq_bind, Option.bind_eq_some_iff]
  constructor
  · rintro ⟨⟨q, e₁⟩, h₁, h₂⟩
    obtain ⟨d, h₂, h₃⟩ := modify_iff.mp h₂
    exact ⟨q, e₁, d, h₁, h₂, h₃⟩
  · rintro ⟨q, e₁, d, h₁, h₂, h₃⟩
    exact ⟨(q, e₁), h₁, modify_iff.mpr ⟨d, h₂, h₃⟩⟩

theorem argVal {e e' : Env} {a : Arg} {q : Rule} (h : a.val e = some (q, e')) :
    e.get a.source = some q ∧ ∀ v, a.moves v = false → e' v = e v := by
  cases a with
  | copy src =>
    simp only [Arg.val, Option.bind_eq_bind, Option.bind_eq_some_iff, Option.pure_def, Option.some.injEq,
      Prod.mk.injEq] at h
    obtain ⟨_, h, rfl, rfl⟩ := h
    exact ⟨h, fun _ _ => rfl⟩
  | move src =>
    simp only [Arg.val, Option.bind_eq_bind, Option.bind_eq_some_iff, Option.pure_def, Option.some.injEq,
      Prod.mk.injEq] at h
    obtain ⟨_, h, rfl, rfl⟩ := h
    exact ⟨h, fun v hv => put_other (by simpa [Arg.moves] using hv)⟩

theorem append_unchanged {e e' : Env} {p : Place} {a : Arg} {f : Rule → Rule → Rule}
    (h : e.append p a f = some e') {v : Nat} (hp : p.var ≠ v) (ha : a.moves v = false) : e' v = e v := by
  obtain ⟨q, e₁, d, h₁, _, rfl⟩ := append_iff.mp h
  rw [put_other hp, (argVal h₁).2 v ha]

/-- A statement changes only the variables that `Op.changes` names. -/
theorem val_unchanged {e e' : Env} {op : Op} (h : op.val e = some e') {v : Nat}
    (hv : op.changes v = false) : e' v = e v := by
  have key : ∀ {dst : Place} {f : Rule → Rule}, dst.var ≠ v → e.modify dst f = some e' → e' v = e v := by
    intro dst f hd hm
    obtain ⟨q, _, rfl⟩ := modify_iff.mp hm
    exact put_other hd
  have app : ∀ {dst : Place} {a : Arg} {f : Rule → Rule → Rule}, (dst.var == v || match a with
      | .copy _ => false
      | .move src => src.var == v) = false → e.append dst a f = some e' → e' v = e v := by
    intro dst a f hc ha
    have ⟨h₁, h₂⟩ := Bool.or_eq_false_iff.mp hc
    refine append_unchanged ha (by simpa using h₁) ?_
    cases a with
    | copy => rfl
    | move => exact h₂
  cases op with
  | ofTag w | ofName w =>
    obtain ⟨_, rfl⟩ := create_iff.mp h
    have : w ≠ v := by simpa [Op.changes] using hv
    simp [update, Ne.symm this]
  | copy w src =>
    simp only [Op.val, Option.bind_eq_bind, Option.bind_eq_some_iff] at h
    obtain ⟨_, _, h⟩ := h
    obtain ⟨_, rfl⟩ := create_iff.mp h
    have : w ≠ v := by simpa [Op.changes] using hv
    simp [update, Ne.symm this]
  | move w src =>
    simp only [Op.val, Option.bind_eq_bind, Option.bind_eq_some_iff] at h
    obtain ⟨_, _, h⟩ := h
    obtain ⟨_, rfl⟩ := create_iff.mp h
    have : w ≠ v ∧ src.var ≠ v := by simpa [Op.changes] using hv
    simp only [update, if_neg (Ne.symm this.1)]
    exact put_other this.2
  | assign dst src =>
    simp only [Op.val, Option.bind_eq_bind, Option.bind_eq_some_iff] at h
    obtain ⟨_, _, h⟩ := h
    exact key (by simpa [Op.changes] using hv) h
  | moveAssign dst src =>
    simp only [Op.val] at h
    split at h
    · cases h
    · simp only [Option.bind_eq_bind, Option.bind_eq_some_iff] at h
      obtain ⟨_, _, h⟩ := h
      obtain ⟨q, _, rfl⟩ := modify_iff.mp h
      have : dst.var ≠ v ∧ src.var ≠ v := by simpa [Op.changes] using hv
      rw [put_other this.1, put_other this.2]
  | appendChild dst a | appendNext dst a | appendNested _ dst a => exact app hv h
  | appendMatch dst | appendCapture dst | setTag dst | setOptional dst | setGreedy dst | setTagname dst =>
    exact key (by simpa [Op.changes] using hv) h
  | destroy w =>
    simp only [Op.val, Option.map_eq_some_iff] at h
    obtain ⟨_, _, rfl⟩ := h
    have : w ≠ v := by simpa [Op.changes] using hv
    simp [update, Ne.symm this]

theorem vals_unchanged {e e' : Env} {ops : List Op} (h : vals e ops = some e') {v : Nat}
    (hv : ∀ op ∈ ops, op.changes v = false) : e' v = e v := by
  induction ops generalizing e with
  | nil => simp [vals] at h; rw [h]
  | cons op ops ih =>
    simp only [vals, Option.bind_eq_bind, Option.bind_eq_some_iff] at h
    obtain ⟨e₁, h₁, h₂⟩ := h
    rw [ih h₂ fun o ho => hv o (.tail _ ho), val_unchanged h₁ (hv op (.head _))]

theorem vals_append {e : Env} (xs ys : List Op) : vals e (xs ++ ys) = (vals e xs).bind fun e => vals e ys := by
  induction xs generalizing e with
  | nil => simp [vals]
  | cons x xs ih => simp only [List.cons_append, vals, Option.bind_eq_bind, ih, Option.bind_assoc]

theorem runs_append {vars : Vars} (xs ys : List Op) :
    runs vars (xs ++ ys) = runs vars xs >>= fun vars => runs vars ys := by
  induction xs generalizing vars with
  | nil => simp [runs]
  | cons x xs ih => simp only [List.cons_append, runs, ih, bind_assoc]

theorem inv_start : Inv noMem noVars noEnv (fun _ => []) [] :=
  ⟨fun _ h => by simp [noMem] at h, fun _ => rfl, fun _ => by simp, fun _ _ _ _ h => (nomatch h),
    fun _ h => (nomatch h), fun _ h => by simp [noMem] at h⟩

theorem run'_ok {α} {x : P α} {m m' : Mem} {a : α} (h : x m = pure (a, m')) : x.run' m = pure a := by
  unfold StateT.run'
  rw [h]; rfl

theorem Inv.extract {m vars env F} (h : Inv m vars env F []) {p : Place} {q : Rule}
    (hq : env.get p = some q) (rx : RxEngine) (doc : Heap) (node : Ptr) (ms : UInt64) :
    vars.extract p rx doc node ms m = Hext.extract rx doc q node ms := by
  obtain ⟨root, r, x, Tq, rest, hvv, hrr, ep, f⟩ := h.place hq
  have e : (do extractAt rx doc (← vars.place p) node ms : P _) m =
      StateT.lift (m := E) (Hext.extract rx doc q node ms) m := by
    rw [bind_ok (ep m fun _ _ => rfl)]
    unfold extractAt
    rw [bind_ok (reads_rule q x Tq m f.holds)]
  unfold Vars.extract StateT.run'
  rw [e]
  show (fun x => x.1) <$> (Hext.extract rx doc q node ms >>= fun a => pure (a, m)) = _
  simp

theorem Inv.read {m vars env F} (h : Inv m vars env F []) {p : Place} {q : Rule}
    (hq : env.get p = some q) : vars.read p m = pure q := by
  obtain ⟨root, r, x, Tq, rest, hvv, hrr, ep, f⟩ := h.place hq
  refine run'_ok (m' := m) ?_
  rw [bind_ok (ep m fun _ _ => rfl), reads_rule q x Tq m f.holds]

theorem Inv.owner {m vars env F} (h : Inv m vars env F []) : ∀ x, (m.cell x).isSome → ∃ v, x ∈ F v ∧
    ∀ w, x ∈ F w → w = v := by
  intro x hx
  rcases h.noLeak x hx with k | ⟨v, k⟩
  · cases k
  · refine ⟨v, k, fun w hw => ?_⟩
    by_cases e : w = v
    · exact e
    · exact absurd k (h.disj w v e x hw)

/-! ## Every program -/

/-- C47. Take any program over rules: construct, copy, move, assign, append, change and destroy rules, in
any order, reaching sub-rules through `child()`, `next()` and `nested()`. If it only uses variables and
sub-rules that exist, it runs without undefined behaviour (no use after free, no double free, no null
pointer), and every rule that can be reached extracts, from every document, what the value extracts that
the program computes if rules are plain values. -/
theorem rules_are_values (ops : List Op) {env : Env} (h : vals noEnv ops = some env) :
    ∃ m vars, runs noVars ops noMem = pure (vars, m) ∧
      ∀ p q, env.get p = some q → ∀ rx doc node ms,
        vars.extract p rx doc node ms m = Hext.extract rx doc q node ms := by
  obtain ⟨m, vars, F, e, i⟩ := runs_ok inv_start ops h
  exact ⟨m, vars, e, fun p q hq rx doc node ms => i.extract hq rx doc node ms⟩

/-- C47, no leak: when the last variable is gone, so is every object. -/
theorem no_leak (ops : List Op) {env : Env} (h : vals noEnv ops = some env) (hd : ∀ v, env v = none) :
    ∃ m vars, runs noVars ops noMem = pure (vars, m) ∧ ∀ x, m.cell x = none := by
  obtain ⟨m, vars, F, e, i⟩ := runs_ok inv_start ops h
  refine ⟨m, vars, e, fun x => ?_⟩
  cases hx : m.cell x with
  | none => rfl
  | some o =>
    obtain ⟨v, hv, _⟩ := i.owner x (by rw [hx]; rfl)
    rw [(i.gone (hd v)).2] at hv
    cases hv

/-! ## Copies -/

/-- C32 for the copy constructor: the copy extracts what the original extracted when it was copied,
whatever the program does afterwards with other variables (it may change or destroy the original), and
copying does not change what the original extracts. -/
theorem copy_extracts_same (before later : List Op) (v : Nat) (src : Place)
    (h : (vals noEnv (before ++ .copy v src :: later)).isSome)
    (hv : ∀ op ∈ later, op.changes v = false) :
    ∃ m₁ vars₁ m₂ vars₂, runs noVars before noMem = pure (vars₁, m₁) ∧
      runs noVars (before ++ .copy v src :: later) noMem = pure (vars₂, m₂) ∧
      (∀ rx doc node ms, vars₂.extract ⟨v, []⟩ rx doc node ms m₂ = vars₁.extract src rx doc node ms m₁) ∧
      ((∀ op ∈ later, op.changes src.var = false) →
        ∀ rx doc node ms, vars₂.extract src rx doc node ms m₂ = vars₁.extract src rx doc node ms m₁) := by
  obtain ⟨env₂, h₂⟩ := Option.isSome_iff_exists.mp h
  obtain ⟨m₂, vars₂, F₂, e₂, i₂⟩ := runs_ok inv_start _ h₂
  rw [vals_append, Option.bind_eq_some_iff] at h₂
  obtain ⟨env₁, h₁, h₂⟩ := h₂
  obtain ⟨m₁, vars₁, F₁, e₁, i₁⟩ := runs_ok inv_start _ h₁
  simp only [vals, Op.val, Option.bind_eq_bind, Option.bind_eq_some_iff] at h₂
  obtain ⟨env, ⟨q, hq, hc⟩, h₂⟩ := h₂
  obtain ⟨hn, rfl⟩ := create_iff.mp hc
  have hsv : src.var ≠ v := by
    intro k
    rw [← k] at hn
    simp [Env.get, hn] at hq
  refine ⟨m₁, vars₁, m₂, vars₂, e₁, e₂, fun rx doc node ms => ?_, fun hs rx doc node ms => ?_⟩
  · have : env₂.get ⟨v, []⟩ = some q := by
      simp [Env.get, vals_unchanged h₂ hv, update, Rule.at?]
    rw [i₂.extract this, i₁.extract hq]
  · have : env₂.get src = some q := by
      rw [get_of_eq (vals_unchanged h₂ hs), ← hq]
      exact get_of_eq (by simp [update, hsv])
    rw [i₂.extract this, i₁.extract hq]

/-- C32 for the assignment operator: `dst = src` for any two rules that can be reached, also if one is a
part of the other or if both are the same. -/
theorem assign_extracts_same (before later : List Op) (dst src : Place)
    (h : (vals noEnv (before ++ .assign dst src :: later)).isSome)
    (hv : ∀ op ∈ later, op.changes dst.var = false) :
    ∃ m₁ vars₁ m₂ vars₂, runs noVars before noMem = pure (vars₁, m₁) ∧
      runs noVars (before ++ .assign dst src :: later) noMem = pure (vars₂, m₂) ∧
      (∀ rx doc node ms, vars₂.extract dst rx doc node ms m₂ = vars₁.extract src rx doc node ms m₁) ∧
      (src.var ≠ dst.var → (∀ op ∈ later, op.changes src.var = false) →
        ∀ rx doc node ms, vars₂.extract src rx doc node ms m₂ = vars₁.extract src rx doc node ms m₁) := by
  obtain ⟨env₂, h₂⟩ := Option.isSome_iff_exists.mp h
  obtain ⟨m₂, vars₂, F₂, e₂, i₂⟩ := runs_ok inv_start _ h₂
  rw [vals_append, Option.bind_eq_some_iff] at h₂
  obtain ⟨env₁, h₁, h₂⟩ := h₂
  obtain ⟨m₁, vars₁, F₁, e₁, i₁⟩ := runs_ok inv_start _ h₁
  simp only [vals, Op.val, Option.bind_eq_bind, Option.bind_eq_some_iff] at h₂
  obtain ⟨env, ⟨q, hq, hc⟩, h₂⟩ := h₂
  obtain ⟨d, hd, rfl⟩ := modify_iff.mp hc
  refine ⟨m₁, vars₁, m₂, vars₂, e₁, e₂, fun rx doc node ms => ?_, fun hne hs rx doc node ms => ?_⟩
  · have : env₂.get dst = some q := by
      rw [get_of_eq (vals_unchanged h₂ hv)]
      exact get_put hd q
    rw [i₂.extract this, i₁.extract hq]
  · have : env₂.get src = some q := by
      rw [get_of_eq (vals_unchanged h₂ hs), ← hq]
      exact get_of_eq (put_other (Ne.symm hne))
    rw [i₂.extract this, i₁.extract hq]

/-! ## Moves -/

/-- C48 for `Rule(Rule&&)`: the new variable extracts what the rule that was moved extracted, and what was moved is
left without children, siblings, nested rules, matches and captures. -/
theorem move_extracts_same (before later : List Op) (v : Nat) (src : Place)
    (h : (vals noEnv (before ++ .move v src :: later)).isSome)
    (hv : ∀ op ∈ later, op.changes v = false) :
    ∃ m₁ vars₁ m₂ vars₂, runs noVars before noMem = pure (vars₁, m₁) ∧
      runs noVars (before ++ .move v src :: later) noMem = pure (vars₂, m₂) ∧
      (∀ rx doc node ms, vars₂.extract ⟨v, []⟩ rx doc node ms m₂ = vars₁.extract src rx doc node ms m₁) ∧
      ((∀ op ∈ later, op.changes src.var = false) → ∃ q, vars₁.read src m₁ = pure q ∧
        vars₂.read src m₂ = pure (movedFrom q)) := by
  obtain ⟨env₂, h₂⟩ := Option.isSome_iff_exists.mp h
  obtain ⟨m₂, vars₂, F₂, e₂, i₂⟩ := runs_ok inv_start _ h₂
  rw [vals_append, Option.bind_eq_some_iff] at h₂
  obtain ⟨env₁, h₁, h₂⟩ := h₂
  obtain ⟨m₁, vars₁, F₁, e₁, i₁⟩ := runs_ok inv_start _ h₁
  simp only [vals, Op.val, Option.bind_eq_bind, Option.bind_eq_some_iff] at h₂
  obtain ⟨env, ⟨q, hq, hc⟩, h₂⟩ := h₂
  obtain ⟨hn, rfl⟩ := create_iff.mp hc
  have hvs : src.var ≠ v := by
    intro k
    obtain ⟨r, hr, _⟩ := Option.bind_eq_some_iff.mp hq
    simp [Env.put, update, k] at hn
    rw [k, hn] at hr
    cases hr
  refine ⟨m₁, vars₁, m₂, vars₂, e₁, e₂, fun rx doc node ms => ?_, fun hs => ⟨q, i₁.read hq, ?_⟩⟩
  · have k₂ : env₂.get ⟨v, []⟩ = some q := by
      simp [Env.get, vals_unchanged h₂ hv, update, Rule.at?]
    rw [i₂.extract k₂, i₁.extract hq]
  · refine i₂.read ?_
    rw [get_of_eq (vals_unchanged h₂ hs), ← get_put hq (movedFrom q)]
    exact get_of_eq (by simp [update, hvs])

/-- C48 for `operator=(Rule&&)`. Missing: a rule that is moved into a part of itself, or to itself, or a part of a
rule that is moved into the rule; `move_assign_defined_iff` shows that nothing else is missing, and
`move_assign_from_part_ub`, `move_assign_to_part_leaks` and `move_assign_self_loses` that the claim is wrong there. -/
theorem move_assign_extracts_same_partial (before later : List Op) (dst src : Place)
    (h : (vals noEnv (before ++ .moveAssign dst src :: later)).isSome)
    (hv : ∀ op ∈ later, op.changes dst.var = false) :
    ∃ m₁ vars₁ m₂ vars₂, runs noVars before noMem = pure (vars₁, m₁) ∧
      runs noVars (before ++ .moveAssign dst src :: later) noMem = pure (vars₂, m₂) ∧
      ∀ rx doc node ms, vars₂.extract dst rx doc node ms m₂ = vars₁.extract src rx doc node ms m₁ := by
  obtain ⟨env₂, h₂⟩ := Option.isSome_iff_exists.mp h
  obtain ⟨m₂, vars₂, F₂, e₂, i₂⟩ := runs_ok inv_start _ h₂
  rw [vals_append, Option.bind_eq_some_iff] at h₂
  obtain ⟨env₁, h₁, h₂⟩ := h₂
  obtain ⟨m₁, vars₁, F₁, e₁, i₁⟩ := runs_ok inv_start _ h₁
  simp only [vals, Option.bind_eq_bind, Option.bind_eq_some_iff] at h₂
  obtain ⟨env, k, h₂⟩ := h₂
  simp only [Op.val] at k
  split at k
  · cases k
  · simp only [Option.bind_eq_bind, Option.bind_eq_some_iff] at k
    obtain ⟨q, hq, hc⟩ := k
    obtain ⟨d, hd, rfl⟩ := modify_iff.mp hc
    refine ⟨m₁, vars₁, m₂, vars₂, e₁, e₂, fun rx doc node ms => ?_⟩
    have k₂ : env₂.get dst = some q := by
      rw [get_of_eq (vals_unchanged h₂ hv)]
      exact get_put hd q
    rw [i₂.extract k₂, i₁.extract hq]

/-- The claim about `operator=(Rule&&)` covers exactly the programs in which both rules exist and neither is the other,
or a part of the other. -/
theorem move_assign_defined_iff (e : Env) (dst src : Place) :
    ((Op.moveAssign dst src).val e).isSome ↔
      (e.get src).isSome ∧ (e.get dst).isSome ∧ dst.contains src = false ∧ src.contains dst = false := by
  simp only [Op.val]
  cases hc : dst.contains src with
  | true => simp
  | false =>
    simp only [Bool.false_eq_true, if_false, Option.bind_eq_bind, Option.isSome_bind, true_and]
    cases hq : e.get src with
    | none => simp
    | some q =>
      simp only [Option.any_some, Option.isSome_some, true_and, Env.modify, Option.bind_eq_bind, Option.isSome_bind,
        Option.pure_def, Option.any_true]
      exact get_put_part hq hc

/-- C48, violated: in every program, moving a part of a rule to the rule is undefined behaviour, because the part is
destroyed with the other old parts of the target before all of its members were read. -/
theorem move_assign_from_part_ub (before later : List Op) (dst src : Place) {env : Env}
    (h : vals noEnv before = some env) (hs : (env.get src).isSome) (hc : dst.contains src = true)
    (hne : src.contains dst = false) :
    runs noVars (before ++ .moveAssign dst src :: later) noMem = throw .ub := by
  obtain ⟨q, hq⟩ := Option.isSome_iff_exists.mp hs
  obtain ⟨m, vars, F, e, i⟩ := runs_ok inv_start _ h
  rw [runs_append, bind_ok e, runs]
  exact bind_ub (i.fromPart hq hc hne)

/-- C48, violated: in every program, after a rule was moved to a part of itself, that part lives on in memory but can
not be reached from any variable any more. -/
theorem move_assign_to_part_leaks (before : List Op) (dst src : Place) {env : Env}
    (h : vals noEnv before = some env) (hd : (env.get dst).isSome) (hc : src.contains dst = true)
    (hne : dst.contains src = false) :
    ∃ m₁ vars m₂ x, runs noVars before noMem = pure (vars, m₁) ∧ vars.place dst m₁ = pure (x, m₁) ∧
      runs noVars (before ++ [.moveAssign dst src]) noMem = pure (vars, m₂) ∧
      (m₂.cell x).isSome ∧ ∀ p, vars.place p m₂ ≠ pure (x, m₂) := by
  obtain ⟨q, hq⟩ := Option.isSome_iff_exists.mp hd
  obtain ⟨m, vars, F, e, i⟩ := runs_ok inv_start _ h
  obtain ⟨m', x, ex, e', alive, lost⟩ := i.toPart hq hc hne
  refine ⟨m, vars, m', x, e, ex, ?_, alive, lost⟩
  rw [runs_append, bind_ok e, runs, bind_ok e']
  rfl

/-- C48, violated: in every program, a rule that is moved to itself loses its nested rules, matches and captures. (The
standard leaves the state of a vector that is moved to itself unspecified; this is what the GNU library does. Nothing
is said about the name of a custom tag.) -/
theorem move_assign_self_loses (before : List Op) (p : Place) {env : Env} (h : vals noEnv before = some env)
    (hp : (env.get p).isSome) :
    ∃ m₁ vars m₂ q name, runs noVars before noMem = pure (vars, m₁) ∧
      runs noVars (before ++ [.moveAssign p p]) noMem = pure (vars, m₂) ∧ vars.read p m₁ = pure q ∧
      vars.read p m₂ = pure (.mk { q.info with ms := [], caps := [], tagname := name } q.child q.next []) := by
  obtain ⟨q, hq⟩ := Option.isSome_iff_exists.mp hp
  obtain ⟨m, vars, F, e, i⟩ := runs_ok inv_start _ h
  obtain ⟨root, r, x, Tq, rest, hv, hr, ex, f⟩ := i.place hq
  have ex := ex m fun _ _ => rfl
  have hn : Tq.Nodup := (append_split (f.perm.nodup_iff.mp (append_split (i.nodup p.var)).1)).1
  cases q with
  | mk inf ch nx ns =>
    obtain ⟨m', S', e', h', c⟩ := moveAssign_self i.wf f.holds hn
    obtain ⟨F', i'⟩ := i.at hv hr f (by simpa using c) h'
    refine ⟨m, vars, m', _, inf.tagname, e, ?_, i.read hq, i'.read (get_put hq _)⟩
    rw [runs_append, bind_ok e, runs, Op.run, bind_ok ?_]
    · rfl
    rw [bind_ok ex, bind_ok ex, bind_ok e']
    rfl

/-- Moving a rule into an argument has a meaning if both rules exist and the target is not a part of the rule that is
moved. It may be the same rule. -/
theorem append_move_defined_iff (e : Env) (dst src : Place) (f : Rule → Rule → Rule) :
    (e.append dst (.move src) f).isSome ↔
      (e.get src).isSome ∧ (e.get dst).isSome ∧ (src.contains dst = true → dst.contains src = true) := by
  simp only [Env.append, Arg.val, Option.bind_eq_bind]
  cases hq : e.get src with
  | none => simp
  | some q =>
    simp only [Option.bind_some, Option.pure_def, Option.isSome_some, true_and, Env.modify, Option.bind_eq_bind,
      Option.isSome_bind, Option.any_true]
    cases hc : dst.contains src with
    | false => rw [get_put_part hq hc]; simp
    | true => simp [get_put_above hq hc, get_above hq hc]

/-! ## Appending -/

end Hist

theorem Rule.chain_appendNext (r s : Rule) : (r.appendNext s).chain = r.chain ++ s.chain := by
  induction r using Mem.rule_induct with
  | mk i c n ns _ hn _ =>
    cases n with
    | none => simp [Rule.appendNext, Rule.chain]
    | some n => simp [Rule.appendNext, Rule.chain, hn n rfl]

theorem Rule.children_appendChild (r s : Rule) : (r.appendChild s).children = r.children ++ s.chain := by
  cases r with
  | mk i c n ns =>
    cases c with
    | none => simp [Rule.appendChild, Rule.children, Rule.child]
    | some c => simp [Rule.appendChild, Rule.children, Rule.child, Rule.chain_appendNext]

namespace Hist

open Mem

/-- Arguments for several appends to a rule of variable `v`: none is taken from `v`, and nothing is taken
from a variable from which an earlier one was moved. -/
def Independent (v : Nat) (args : List Arg) : Prop :=
  (∀ a ∈ args, a.source.var ≠ v) ∧ args.Pairwise fun a b => a.moves b.source.var = false

theorem moves_source {a : Arg} {v : Nat} (h : a.source.var ≠ v) : a.moves v = false := by
  cases a with
  | copy => rfl
  | move src => simpa [Arg.moves, Arg.source] using h

theorem appends_val {f : Rule → Rule → Rule} {β : Type} {g : β → Op} {ar : β → Arg} {dst : Place}
    (hg : ∀ a e, (g a).val e = e.append dst (ar a) f) {args : List β} :
    ∀ {env env' : Env} {q : Rule}, Independent dst.var (args.map ar) → vals env (args.map g) = some env' →
    env.get dst = some q → ∃ cs : List Rule, args.map (fun a => env.get (ar a).source) = cs.map some ∧
      env'.get dst = some (cs.foldl f q) := by
  induction args with
  | nil =>
    intro env env' q _ h hq
    have : env = env' := by simpa [vals] using h
    subst this
    exact ⟨[], rfl, hq⟩
  | cons a args ih =>
    intro env env' q hi h hq
    simp only [List.map_cons, vals, Option.bind_eq_bind, Option.bind_eq_some_iff, hg] at h
    obtain ⟨e₁, h₁, h₂⟩ := h
    obtain ⟨c, e₀, d, hc, hd, rfl⟩ := append_iff.mp h₁
    obtain ⟨hi₁, hi₂⟩ := hi
    obtain ⟨hp, hi₂⟩ := List.pairwise_cons.mp hi₂
    have hp : ∀ b ∈ args, (ar a).moves (ar b).source.var = false := fun b hb => hp _ (List.mem_map_of_mem hb)
    have hi₁ : ∀ b ∈ a :: args, (ar b).source.var ≠ dst.var := fun b hb => hi₁ _ (List.mem_map_of_mem hb)
    obtain ⟨hc₁, hc₂⟩ := argVal hc
    have hdv : e₀ dst.var = env dst.var := hc₂ _ (moves_source (hi₁ a (.head _)))
    have hdq : d = q := by rw [get_of_eq hdv, hq] at hd; injection hd with hd; exact hd.symm
    subst hdq
    obtain ⟨cs, k₁, k₂⟩ := ih ⟨fun b hb => by
      obtain ⟨c, hc, rfl⟩ := List.mem_map.mp hb
      exact hi₁ c (.tail _ hc), hi₂⟩ h₂ (get_put hd _)
    refine ⟨c :: cs, ?_, k₂⟩
    rw [List.map_cons, List.map_cons, hc₁, ← k₁]
    congr 1
    refine List.map_congr_left fun b hb => ?_
    refine (get_of_eq ?_).symm
    rw [put_other (Ne.symm (hi₁ b (.tail _ hb))), hc₂ _ (hp b hb)]

/-- What several appends do to a rule in memory. -/
theorem appends_read {f : Rule → Rule → Rule} {β : Type} {g : β → Op} {ar : β → Arg} {dst : Place}
    (hg : ∀ a e, (g a).val e = e.append dst (ar a) f) (before : List Op) (args : List β) (hn : args ≠ [])
    (hi : Independent dst.var (args.map ar)) (h : (vals noEnv (before ++ args.map g)).isSome) :
    ∃ (m₁ : Mem) (vars₁ : Vars) (m₂ : Mem) (vars₂ : Vars) (q : Rule) (cs : List Rule), runs noVars before noMem = pure (vars₁, m₁) ∧
      runs noVars (before ++ args.map g) noMem = pure (vars₂, m₂) ∧
      vars₁.read dst m₁ = pure q ∧ args.map (fun a => vars₁.read (ar a).source m₁) = cs.map pure ∧
      vars₂.read dst m₂ = pure (cs.foldl f q) := by
  obtain ⟨env₂, h₂⟩ := Option.isSome_iff_exists.mp h
  obtain ⟨m₂, vars₂, F₂, e₂, i₂⟩ := runs_ok inv_start _ h₂
  rw [vals_append, Option.bind_eq_some_iff] at h₂
  obtain ⟨env₁, h₁, h₂⟩ := h₂
  obtain ⟨m₁, vars₁, F₁, e₁, i₁⟩ := runs_ok inv_start _ h₁
  have hq : ∃ q, env₁.get dst = some q := by
    cases args with
    | nil => exact absurd rfl hn
    | cons a args =>
      simp only [List.map_cons, vals, Option.bind_eq_bind, Option.bind_eq_some_iff, hg] at h₂
      obtain ⟨e, h₂, _⟩ := h₂
      obtain ⟨c, e₀, d, hc, hd, rfl⟩ := append_iff.mp h₂
      refine ⟨d, ?_⟩
      rw [← hd]
      exact (get_of_eq ((argVal hc).2 _ (moves_source (hi.1 _ (.head _))))).symm
  obtain ⟨q, hq⟩ := hq
  obtain ⟨cs, k₁, k₂⟩ := appends_val hg hi h₂ hq
  refine ⟨m₁, vars₁, m₂, vars₂, q, cs, e₁, e₂, i₁.read hq, ?_, i₂.read k₂⟩
  clear k₂ h h₂ hi hn e₂
  induction args generalizing cs with
  | nil =>
    cases cs with
    | nil => rfl
    | cons => cases k₁
  | cons a args ih =>
    cases cs with
    | nil => cases k₁
    | cons c cs =>
      simp only [List.map_cons, List.cons.injEq] at k₁ ⊢
      exact ⟨i₁.read k₁.1, ih cs k₁.2⟩

/-- C33 for `append_next`: after appending `c₁, …, cₖ`, the sibling chain is the previous chain followed by
`c₁, …, cₖ`, each with its own siblings, and nothing else of the rule changed. -/
theorem append_next_order (before : List Op) (dst : Place) (args : List Arg) (hn : args ≠ [])
    (hi : Independent dst.var args) (h : (vals noEnv (before ++ args.map (.appendNext dst))).isSome) :
    ∃ (m₁ : Mem) (vars₁ : Vars) (m₂ : Mem) (vars₂ : Vars) (q : Rule) (cs : List Rule) (q' : Rule),
      runs noVars before noMem = pure (vars₁, m₁) ∧
      runs noVars (before ++ args.map (.appendNext dst)) noMem = pure (vars₂, m₂) ∧
      vars₁.read dst m₁ = pure q ∧ args.map (fun a => vars₁.read a.source m₁) = cs.map pure ∧
      vars₂.read dst m₂ = pure q' ∧ q'.chain = q.chain ++ cs.flatMap Rule.chain ∧
      q'.info = q.info ∧ q'.child = q.child ∧ q'.nested = q.nested := by
  obtain ⟨m₁, vars₁, m₂, vars₂, q, cs, k₁, k₂, k₃, k₄, k₅⟩ :=
    appends_read (g := .appendNext dst) (ar := id) (fun _ _ => rfl) before args hn (by simpa using hi) h
  refine ⟨m₁, vars₁, m₂, vars₂, q, cs, _, k₁, k₂, k₃, k₄, k₅, ?_⟩
  clear k₃ k₄ k₅
  induction cs generalizing q with
  | nil => simp
  | cons c cs ih =>
    have hq : (q.appendNext c).info = q.info ∧ (q.appendNext c).child = q.child ∧
        (q.appendNext c).nested = q.nested := by
      cases q with
      | mk i c n ns => cases n <;> simp [Rule.appendNext, Rule.info, Rule.child, Rule.nested]
    have := ih (q.appendNext c)
    rw [List.foldl_cons, this.1, this.2.1, this.2.2.1, this.2.2.2, hq.1, hq.2.1, hq.2.2, Rule.chain_appendNext]
    simp

/-- C33 for `append_child`. -/
theorem append_child_order (before : List Op) (dst : Place) (args : List Arg) (hn : args ≠ [])
    (hi : Independent dst.var args) (h : (vals noEnv (before ++ args.map (.appendChild dst))).isSome) :
    ∃ (m₁ : Mem) (vars₁ : Vars) (m₂ : Mem) (vars₂ : Vars) (q : Rule) (cs : List Rule) (q' : Rule),
      runs noVars before noMem = pure (vars₁, m₁) ∧
      runs noVars (before ++ args.map (.appendChild dst)) noMem = pure (vars₂, m₂) ∧
      vars₁.read dst m₁ = pure q ∧ args.map (fun a => vars₁.read a.source m₁) = cs.map pure ∧
      vars₂.read dst m₂ = pure q' ∧ q'.children = q.children ++ cs.flatMap Rule.chain ∧
      q'.info = q.info ∧ q'.next = q.next ∧ q'.nested = q.nested := by
  obtain ⟨m₁, vars₁, m₂, vars₂, q, cs, k₁, k₂, k₃, k₄, k₅⟩ :=
    appends_read (g := .appendChild dst) (ar := id) (fun _ _ => rfl) before args hn (by simpa using hi) h
  refine ⟨m₁, vars₁, m₂, vars₂, q, cs, _, k₁, k₂, k₃, k₄, k₅, ?_⟩
  clear k₃ k₄ k₅
  induction cs generalizing q with
  | nil => simp
  | cons c cs ih =>
    have hq : (q.appendChild c).info = q.info ∧ (q.appendChild c).next = q.next ∧
        (q.appendChild c).nested = q.nested := by
      cases q with
      | mk i ch n ns => cases ch <;> simp [Rule.appendChild, Rule.info, Rule.next, Rule.nested]
    have := ih (q.appendChild c)
    rw [List.foldl_cons, this.1, this.2.1, this.2.2.1, this.2.2.2, hq.1, hq.2.1, hq.2.2, Rule.children_appendChild]
    simp

/-- C33 for `append_nested`. The flag of each append tells whether the vector reallocates. -/
theorem append_nested_order (before : List Op) (dst : Place) (args : List (Bool × Arg)) (hn : args ≠ [])
    (hi : Independent dst.var (args.map (·.2)))
    (h : (vals noEnv (before ++ args.map fun a => .appendNested a.1 dst a.2)).isSome) :
    ∃ (m₁ : Mem) (vars₁ : Vars) (m₂ : Mem) (vars₂ : Vars) (q : Rule) (cs : List Rule) (q' : Rule),
      runs noVars before noMem = pure (vars₁, m₁) ∧
      runs noVars (before ++ args.map fun a => .appendNested a.1 dst a.2) noMem = pure (vars₂, m₂) ∧
      vars₁.read dst m₁ = pure q ∧ args.map (fun a => vars₁.read a.2.source m₁) = cs.map pure ∧
      vars₂.read dst m₂ = pure q' ∧ q'.nested = q.nested ++ cs ∧
      q'.info = q.info ∧ q'.child = q.child ∧ q'.next = q.next := by
  obtain ⟨m₁, vars₁, m₂, vars₂, q, cs, k₁, k₂, k₃, k₄, k₅⟩ :=
    appends_read (g := fun a : Bool × Arg => .appendNested a.1 dst a.2) (ar := (·.2)) (fun _ _ => rfl) before args
      hn hi h
  refine ⟨m₁, vars₁, m₂, vars₂, q, cs, _, k₁, k₂, k₃, k₄, k₅, ?_⟩
  clear k₃ k₄ k₅
  induction cs generalizing q with
  | nil => simp
  | cons c cs ih =>
    have hq : (q.appendNested c).info = q.info ∧ (q.appendNested c).child = q.child ∧
        (q.appendNested c).next = q.next ∧ (q.appendNested c).nested = q.nested ++ [c] := by
      cases q with
      | mk i ch n ns => simp [Rule.appendNested, Rule.info, Rule.child, Rule.next, Rule.nested]
    have := ih (q.appendNested c)
    rw [List.foldl_cons, this.1, this.2.1, this.2.2.1, this.2.2.2, hq.1, hq.2.1, hq.2.2.1, hq.2.2.2]
    simp

/-! ## A program that meets the hypotheses -/

namespace Ex

/-- A rule with a child that has a capture with a pipe, a nested rule and a negated match; a sub-rule is
copied, and a variable is moved into another one. -/
def before : List Op := [
  .ofTag 0 (.tag (.known [100, 105, 118])) false false,
  .ofTag 1 (.tag (.known [97])) false true,
  .appendCapture ⟨1, []⟩ (some (.attribute [104] [108] (some (.cons (.trim [32]) (.last .toLower))))),
  .appendMatch ⟨1, []⟩ (some (.negate [some (.attribute [105] (some (.negate (.equals [120])))), none])),
  .appendChild ⟨0, []⟩ (.copy ⟨1, []⟩),
  .ofName 2 [120, 45, 121] true false,
  .appendNested true ⟨0, []⟩ (.move ⟨2, []⟩),
  .setTagname ⟨0, [.nested 0]⟩ [122]]

def later : List Op := [
  .setGreedy ⟨0, [.child]⟩ false,
  .appendNext ⟨0, [.child]⟩ (.copy ⟨0, [.child]⟩),
  .destroy 0]

theorem before_defined : (vals noEnv before).isSome := by rfl

example : (vals noEnv (before ++ .copy 3 ⟨0, [.child]⟩ :: later)).isSome ∧
    ∀ op ∈ later, op.changes 3 = false := ⟨by rfl, by decide⟩

/-- A rule is assigned to a rule that it is a part of. -/
example : (vals noEnv (before ++ .assign ⟨0, []⟩ ⟨0, [.child]⟩ :: [.destroy 1])).isSome ∧
    ∀ op ∈ [Op.destroy 1], op.changes 0 = false := ⟨by rfl, by decide⟩

example : (vals noEnv (before ++ .move 3 ⟨1, []⟩ :: later)).isSome ∧ ∀ op ∈ later, op.changes 3 = false :=
  ⟨by rfl, by decide⟩

/-- A sub-rule is moved out of a rule. -/
example : (vals noEnv (before ++ .move 3 ⟨0, [.child]⟩ :: later)).isSome ∧ ∀ op ∈ later, op.changes 3 = false :=
  ⟨by rfl, by decide⟩

example : (vals noEnv (before ++ .move 3 ⟨0, [.child]⟩ :: [.destroy 1])).isSome ∧
    ∀ op ∈ [Op.destroy 1], op.changes 3 = false ∧ op.changes 0 = false := ⟨by rfl, by decide⟩

example : (vals noEnv (before ++ .moveAssign ⟨0, [.child]⟩ ⟨1, []⟩ :: [.destroy 1])).isSome ∧
    ∀ op ∈ [Op.destroy 1], op.changes 0 = false := ⟨by rfl, by decide⟩

/-- One part of a rule is moved to another part. -/
example : (vals noEnv (before ++ .moveAssign ⟨0, [.nested 0]⟩ ⟨0, [.child]⟩ :: [.destroy 1])).isSome := by rfl

/-- Programs after which a part can be moved to the whole, the whole to a part, or a rule to itself. -/
example : ∃ env, vals noEnv before = some env ∧ (env.get ⟨0, [.child]⟩).isSome ∧
    Place.contains ⟨0, []⟩ ⟨0, [.child]⟩ = true ∧ Place.contains ⟨0, [.child]⟩ ⟨0, []⟩ = false :=
  ⟨_, rfl, by rfl, by decide, by decide⟩

/-- A part of a rule is appended to the rule, and a rule is appended to itself. -/
example : (vals noEnv (before ++ [.appendNext ⟨0, []⟩ (.move ⟨0, [.child]⟩),
    .appendChild ⟨0, []⟩ (.move ⟨0, []⟩)])).isSome := by rfl

def args : List Arg := [.copy ⟨1, []⟩, .copy ⟨1, []⟩, .move ⟨1, []⟩, .move ⟨2, []⟩]

theorem args_independent : Independent 0 args :=
  ⟨by decide, by simp [args, Arg.moves, Arg.source]⟩

example : args ≠ [] ∧ Independent 0 args ∧
    (vals noEnv (before ++ args.map (.appendNext ⟨0, [.child]⟩))).isSome :=
  ⟨by simp [args], args_independent, by rfl⟩

example : (vals noEnv (before ++ args.map (.appendChild ⟨0, []⟩))).isSome := by rfl

def nestedArgs : List (Bool × Arg) := [(true, .copy ⟨1, []⟩), (false, .move ⟨2, []⟩)]

example : nestedArgs ≠ [] ∧ Independent 0 (nestedArgs.map (·.2)) ∧
    (vals noEnv (before ++ nestedArgs.map fun a => .appendNested a.1 ⟨0, [.nested 0]⟩ a.2)).isSome :=
  ⟨by simp [nestedArgs], ⟨by decide, by simp [nestedArgs, Arg.moves, Arg.source]⟩, by rfl⟩

/-- A program after which nothing is left. -/
example : ∃ env, vals noEnv (before ++ [.destroy 2, .destroy 1, .destroy 0]) = some env ∧
    ∀ v, env v = none := by
  refine ⟨_, rfl, fun v => ?_⟩
  simp only [update]
  split
  · rfl
  · split
    · rfl
    · split
      · rfl
      · simp_all [Env.put, update, noEnv]

end Ex

end Hist

/-! ## What is not safe -/

namespace Mem

/-- C49, violated: assigning an attribute capture that has no pipe is undefined behaviour. -/
theorem assign_capture_without_pipe_ub {m : Mem} {a b : Addr} (hab : a ≠ b) {attr name attr' name' : Str}
    {q : Option Addr} (ha : m.cell a = some (.attributeCapture attr name q))
    (hb : m.cell b = some (.attributeCapture attr' name' none)) : assignCapture a b m = throw .ub := by
  unfold assignCapture
  rw [if_neg hab, bind_ok (load_ok ha), bind_ok (load_ok hb)]
  rfl

/-- The same for function captures. -/
theorem assign_function_capture_without_pipe_ub {m : Mem} {a b : Addr} (hab : a ≠ b) {f f' : Option CaptureFn}
    {name name' : Str} {q : Option Addr} (ha : m.cell a = some (.functionCapture f name q))
    (hb : m.cell b = some (.functionCapture f' name' none)) : assignCapture a b m = throw .ub := by
  unfold assignCapture
  rw [if_neg hab, bind_ok (load_ok ha), bind_ok (load_ok hb)]
  rfl

/-- Writing a new pipe into a capture and destroying the old one. -/
theorem replace_pipe {m : Mem} (w : m.Wf) {a p : Addr} {pv : Pipe} {q : Option Addr} {qv : Option Pipe}
    {So Sp : List Addr} (ha : (m.cell a).isSome) (hq : HoldsPtr (HoldsPipe m.cell) q qv So) (hS : (a :: So).Nodup)
    (hp : HoldsPipe m.cell p pv Sp) (mk : Addr → Obj) :
    ∃ p' m' T, (clonePipe p >>= fun p' => store a (mk p') >>= fun _ => onPtr destroyPipe q) m = pure ((), m') ∧
      m'.cell a = some (mk p') ∧ HoldsPipe m'.cell p' pv T ∧ Changed m m' (a :: So) (a :: T) := by
  obtain ⟨p', T, m₁, e₁, r₁, g₁⟩ := copies_pipe pv p Sp m w hp
  have hal := w a ha
  have hSol : ∀ x ∈ So, x < m.fresh := fun x hx => w x (alive_ptr (fun y _ => alive_pipe y) _ _ _ hq x hx)
  obtain ⟨naS, nS⟩ := List.nodup_cons.mp hS
  have hT : ∀ x ∈ T, m.fresh ≤ x := fun x hx => ((g₁.mem x).mp hx).1
  have ha₁ : (m₁.cell a).isSome := by rw [g₁.same a hal]; exact ha
  have naT : a ∉ T := fun k => by have := hT a k; omega
  have q₁ : HoldsPtr (HoldsPipe (m₁.put a (mk p')).cell) q qv So := by
    refine framed_ptr (fun y _ => framed_pipe y) _ _ _ _ hq fun x hx => ?_
    have : x ≠ a := fun k => naS (k ▸ hx)
    simp [Mem.put, this, g₁.same x (hSol x hx)]
  obtain ⟨m₂, e₂, s₂⟩ := destroys_ptr (fun y _ => destroys_pipe y) q So _ q₁ nS
  refine ⟨p', m₂, T, ?_, ?_, ?_, ?_⟩
  · rw [bind_ok e₁, bind_ok (store_ok ha₁ _)]
    exact e₂
  · rw [s₂.cell, if_neg naS]; simp [Mem.put]
  · refine framed_pipe pv _ _ _ _ r₁ fun x hx => ?_
    have h₁ : x ≠ a := fun k => naT (k ▸ hx)
    have h₂ : x ∉ So := fun k => by have := hSol x k; have := hT x hx; omega
    rw [s₂.cell, if_neg h₂]; simp [Mem.put, h₁]
  · have c₁ := g₁.changed.beside (rest := a :: So) hS
      (fun x hx => by rcases List.mem_cons.mp hx with k | k; · omega
                      · exact hSol x k) (fun _ _ => by simp)
    have c₂ := (changed_put g₁.wf ha₁ (mk p')).beside (rest := So ++ T)
      (List.nodup_append.mpr ⟨nS, g₁.nodup, fun x hx y hy hxy => by
        have := hSol x hx; have := hT y hy; omega⟩)
      (fun x hx => by
        rcases List.mem_append.mp hx with k | k
        · have := hSol x k; have := g₁.le; omega
        · exact ((g₁.mem x).mp k).2)
      (fun x hx k => by
        rw [List.mem_singleton] at k
        subst k
        rcases List.mem_append.mp hx with k | k
        · exact naS k
        · exact naT k)
    have c₃ := c₁.trans (c₂.old (old' := T ++ a :: So) fun x => by simp only [List.mem_append, List.mem_cons, List.not_mem_nil]; grind)
    exact Changed.destroy (T := So) (c₃.perm (by perm)) s₂

/-- C49, what holds: a capture with a pipe can be assigned to another one of its kind; it then is the same
capture, made of its own objects, the old pipe is gone and nothing else changed. -/
theorem assign_attribute_capture_partial {m : Mem} (w : m.Wf) {a b : Addr} {attr name attr' name' : Str}
    {p : Option Pipe} {p' : Pipe} {S S' : List Addr} (ha : HoldsCapture m.cell a (.attribute attr name p) S)
    (hb : HoldsCapture m.cell b (.attribute attr' name' (some p')) S') (hS : S.Nodup) (hab : a ≠ b) :
    ∃ m' T, assignCapture a b m = pure ((), m') ∧
      HoldsCapture m'.cell a (.attribute attr' name' (some p')) T ∧ Changed m m' S T := by
  obtain ⟨q, So, ha, hq, rfl⟩ := ha
  obtain ⟨q', Sp, hb, hq', rfl⟩ := hb
  cases q' with
  | none => exact hq'.elim
  | some x =>
    obtain ⟨y, m', T, e, h₁, h₂, h₃⟩ := replace_pipe w (by rw [ha]; rfl) hq hS hq'
      (fun y => .attributeCapture attr' name' (some y))
    refine ⟨m', a :: T, ?_, ⟨some y, T, h₁, h₂, rfl⟩, h₃⟩
    unfold assignCapture
    rw [if_neg hab, bind_ok (load_ok ha), bind_ok (load_ok hb)]
    exact e

theorem assign_function_capture_partial {m : Mem} (w : m.Wf) {a b : Addr} {f f' : Option CaptureFn}
    {name name' : Str} {p : Option Pipe} {p' : Pipe} {S S' : List Addr}
    (ha : HoldsCapture m.cell a (.function f name p) S)
    (hb : HoldsCapture m.cell b (.function f' name' (some p')) S') (hS : S.Nodup) (hab : a ≠ b) :
    ∃ m' T, assignCapture a b m = pure ((), m') ∧
      HoldsCapture m'.cell a (.function f' name' (some p')) T ∧ Changed m m' S T := by
  obtain ⟨q, So, ha, hq, rfl⟩ := ha
  obtain ⟨q', Sp, hb, hq', rfl⟩ := hb
  cases q' with
  | none => exact hq'.elim
  | some x =>
    obtain ⟨y, m', T, e, h₁, h₂, h₃⟩ := replace_pipe w (by rw [ha]; rfl) hq hS hq'
      (fun y => .functionCapture f' name' (some y))
    refine ⟨m', a :: T, ?_, ⟨some y, T, h₁, h₂, rfl⟩, h₃⟩
    unfold assignCapture
    rw [if_neg hab, bind_ok (load_ok ha), bind_ok (load_ok hb)]
    exact e

/-- Two captures, `a` without a pipe and `b` with one: `b = a` is undefined behaviour, `a = b` is not. -/
example : ∃ m : Mem, m.Wf ∧ HoldsCapture m.cell 0 (.attribute [97] [98] none) [0] ∧
    HoldsCapture m.cell 1 (.attribute [99] [100] (some (.last .toLower))) [1, 2] := by
  refine ⟨⟨fun x => if x = 0 then some (.attributeCapture [97] [98] none) else
    if x = 1 then some (.attributeCapture [99] [100] (some 2)) else
    if x = 2 then some (.pipe .toLower none) else none, 3⟩, fun x hx => ?_, ⟨none, [], rfl, rfl, rfl⟩,
    ⟨some 2, [2], rfl, ⟨rfl, rfl⟩, rfl⟩⟩
  show x < 3
  by_cases h₀ : x = 0
  · omega
  · by_cases h₁ : x = 1
    · omega
    · by_cases h₂ : x = 2
      · omega
      · simp [h₀, h₁, h₂] at hx

end Mem
end Hext
