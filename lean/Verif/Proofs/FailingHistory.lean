import Verif.Proofs.FailingOps
/-!
# Programs that catch `std::bad_alloc`: lemmas
-/

namespace Hext.Hist

open Mem

theorem Inv.untouched {m m' vars env F T} (h : Inv m vars env F T) (u : Untouched m m') : Inv m' vars env F T :=
  ⟨u.wf h.wf, fun v => by rw [u.cell]; exact h.holds v, h.nodup, h.disj,
    fun x hx => Nat.lt_of_lt_of_le (h.alive x hx) u.1, fun x hx => h.noLeak x (by rw [← u.2]; exact hx)⟩

/-- The temporaries die. -/
theorem Inv.dies {m m' vars env F T} (h : Inv m vars env F T) (s : Shrunk m m' T) : Inv m' vars env F [] := by
  have same : ∀ v, ∀ x ∈ F v, m'.cell x = m.cell x := by
    intro v x hx
    rw [s.cell, if_neg]
    exact (append_split (h.nodup v)).2.2 x hx
  refine ⟨fun x hx => ?_, fun v => framed_ptr (fun r _ => framed_rule r) _ _ _ _ (h.holds v) (same v), fun v => ?_,
    h.disj, fun x hx => (nomatch hx), fun x hx => ?_⟩
  · rw [s.fresh]
    rw [s.cell] at hx
    split at hx
    · cases hx
    · exact h.wf x hx
  · simpa using (append_split (h.nodup v)).1
  · rw [s.cell] at hx
    split at hx
    · cases hx
    · next k => exact .inr ((h.noLeak x hx).resolve_left k)

/-- The state of a program after a statement that returned, or threw. -/
abbrev Goes (N : Nat) (x : Q Vars) (m : Mem) (n : Nat) (vars : Vars) (env env' : Env) : Prop :=
  Ends N x m n (fun vars' m' => ∃ F, Inv m' vars' env' F []) (fun m' => ∃ F, Inv m' vars env F [])

/-- Initializing a parameter. -/
theorem Inv.argQ {env env' : Env} {arg : Arg} {q : Rule} (hq : arg.val env = some (q, env')) :
    ∃ N, ∀ {m vars F}, Inv m vars env F [] → ∀ n, Ends N (arg.runQ vars) m n
      (fun s m' => ∃ F' T, HoldsRule m'.cell s q T ∧ Inv m' vars env' F' T ∧
        ∀ p x, Vars.place vars p m' = pure (x, m') → Vars.place vars p m = pure (x, m))
      (fun m' => env' = env ∧ Untouched m m') := by
  cases arg with
  | copy src =>
    simp only [Arg.val, Option.bind_eq_bind, Option.bind_eq_some_iff, Option.pure_def,
      Option.some.injEq, Prod.mk.injEq] at hq
    obtain ⟨q', hq', rfl, rfl⟩ := hq
    obtain ⟨N, hN⟩ := copiesQ_rule q'
    refine ⟨N, fun {m vars F} h n => ?_⟩
    obtain ⟨root, r, x, Tq, rest, hv, hr, e, f⟩ := h.place hq'
    show Ends N (lift (vars.place src) >>= fun s => copyRuleQ s) m n _ _
    refine Ends.read (e m fun _ _ => rfl) ((hN x Tq m n h.wf f.holds).imp ?_ (fun _ u => ⟨rfl, u⟩))
    rintro s m₁ ⟨T, r₁, g₁⟩
    obtain ⟨h₁, same⟩ := h.temp g₁
    exact ⟨F, T, r₁, h₁, fun p x hx => h.placeBefore (fun v y hy => .inl (same v y hy)) hx⟩
  | move src =>
    refine ⟨0, fun {m vars F} h n => ?_⟩
    obtain ⟨s, m', F', T, e, k⟩ := h.arg hq
    exact ends_lift e ⟨F', T, k⟩

/-- Appending. -/
theorem Inv.appendQ {env env' : Env} {p : Place} {arg : Arg}
    {rf : Rule → Rule → Rule} (N₂ : Nat) (app : Nat → Nat → Q Unit)
    (happ : ∀ {r r₂ : Rule} {m : Mem} (n : Nat), m.Wf → ∀ {a s : Nat} {S S₂ : List Nat},
      HoldsRule m.cell a r S → HoldsRule m.cell s r₂ S₂ → (S ++ S₂).Nodup →
      Ends N₂ (app a s) m n (fun _ m' => ∃ S', HoldsRule m'.cell a (rf r r₂) S' ∧ Changed m m' (S ++ S₂) S')
        (fun m' => Shrunk m m' S₂))
    (hv : Env.append env p arg rf = some env') :
    ∃ N, ∀ {m vars F}, Inv m vars env F [] → ∀ n, Goes N (do
        let d ← lift (vars.place p)
        let s ← arg.runQ vars
        app d s
        pure vars) m n vars (arg.failed env) env' := by
  unfold Env.append at hv
  simp only [Option.bind_eq_bind, Option.bind_eq_some_iff, Prod.exists] at hv
  obtain ⟨q, e₀, hq, hm⟩ := hv
  simp only [Env.modify, Option.bind_eq_bind, Option.bind_eq_some_iff, Option.pure_def,
    Option.some.injEq] at hm
  obtain ⟨d, hd, rfl⟩ := hm
  have hfail : arg.failed env = e₀ := by
    cases arg with
    | copy src =>
      simp only [Arg.val, Option.bind_eq_bind, Option.bind_eq_some_iff, Option.pure_def,
        Option.some.injEq, Prod.mk.injEq] at hq
      obtain ⟨_, _, _, rfl⟩ := hq
      rfl
    | move src =>
      simp only [Arg.val, Option.bind_eq_bind, Option.bind_eq_some_iff, Option.pure_def,
        Option.some.injEq, Prod.mk.injEq] at hq
      obtain ⟨_, hw, rfl, rfl⟩ := hq
      simp only [Arg.failed, hw]
  rw [hfail]
  obtain ⟨N₁, hN⟩ := Inv.argQ hq
  refine ⟨N₁ + (N₂ + 0), fun {m vars F} h n => ?_⟩
  -- the place is the same before the parameter was initialized
  obtain ⟨x, hx⟩ : ∃ x, Vars.place vars p m = pure (x, m) := by
    obtain ⟨_, m₁, F₁, T, _, _, h₁, before⟩ := h.arg hq
    obtain ⟨_, _, x, _, _, _, _, ep, _⟩ := h₁.place hd
    exact ⟨x, before p x (ep m₁ fun _ _ => rfl)⟩
  refine Ends.read hx (Ends.bind ((hN h n).imp (fun _ _ k => k) ?_) ?_)
  · rintro m' ⟨rfl, u⟩
    exact ⟨F, h.untouched u⟩
  · rintro s m₁ ⟨F₁, T, hs, h₁, before⟩
    obtain ⟨root, r, x₁, Tq, rest, hvv, hrr, ep, f⟩ := h₁.place hd
    obtain rfl := place_unique (before p x₁ (ep m₁ fun _ _ => rfl)) hx
    have hTq : ∀ y ∈ Tq, y ∈ F₁ p.var := fun y hy => f.perm.mem_iff.mpr (List.mem_append_left _ hy)
    have hn := append_split (h₁.nodup p.var)
    have hnd : (Tq ++ T).Nodup := by
      refine List.nodup_append.mpr ⟨(append_split (f.perm.nodup_iff.mp hn.1)).1, hn.2.1, ?_⟩
      intro y hy z hz hyz
      exact hn.2.2 y (hTq y hy) (hyz ▸ hz)
    refine Ends.bind ((happ _ h₁.wf f.holds hs hnd).imp (fun _ _ k => k) fun m' sh => ⟨F₁, h₁.dies sh⟩) ?_
    rintro _ m₂ ⟨S', hS', c₂⟩
    obtain ⟨F', hF'⟩ := h₁.at hvv hrr f c₂ hS'
    exact ends_pure ⟨F', hF'⟩

/-- The parameter dies if `std::make_unique` or `push_back` throws. -/
theorem request_or_die {m : Mem} (n : Nat) {d : P Unit} {T : List Nat} {m' : Mem} (e : d m = pure ((), m'))
    (s : Shrunk m m' T) : Ends 1 (unwinding d request) m n (fun _ m'' => m'' = m) (fun m'' => Shrunk m m'' T) :=
  Ends.unwinding (T := fun m'' => m'' = m) (ends_request rfl rfl) fun _ h => by rw [h]; exact ⟨m', e, s⟩

theorem appendNextQ_ends {r r₂ : Rule} {m : Mem} (n : Nat) (w : m.Wf) {a s : Nat} {S S₂ : List Nat}
    (h : HoldsRule m.cell a r S) (hs : HoldsRule m.cell s r₂ S₂) (hS : (S ++ S₂).Nodup) :
    Ends (1 + 0) (appendNextQ a s) m n (fun _ m' => ∃ S', HoldsRule m'.cell a (r.appendNext r₂) S' ∧ Changed m m' (S ++ S₂) S')
      (fun m' => Shrunk m m' S₂) := by
  obtain ⟨m', e, sh⟩ := destroys_rule r₂ s S₂ m hs (append_split hS).2.1
  refine Ends.bind (request_or_die n e sh) ?_
  rintro _ _ rfl
  obtain ⟨m₂, S', e₂, k⟩ := appendNext_ok w h hs hS
  exact ends_lift e₂ ⟨S', k⟩

theorem appendChildQ_ends {r r₂ : Rule} {m : Mem} (n : Nat) (w : m.Wf) {a s : Nat} {S S₂ : List Nat}
    (h : HoldsRule m.cell a r S) (hs : HoldsRule m.cell s r₂ S₂) (hS : (S ++ S₂).Nodup) :
    Ends (1 + 0) (appendChildQ a s) m n (fun _ m' => ∃ S', HoldsRule m'.cell a (r.appendChild r₂) S' ∧ Changed m m' (S ++ S₂) S')
      (fun m' => Shrunk m m' S₂) := by
  obtain ⟨m', e, sh⟩ := destroys_rule r₂ s S₂ m hs (append_split hS).2.1
  refine Ends.bind (request_or_die n e sh) ?_
  rintro _ _ rfl
  obtain ⟨m₂, S', e₂, k⟩ := appendChild_ok w h hs hS
  exact ends_lift e₂ ⟨S', k⟩

theorem appendNestedQ_ends (realloc : Bool) {r r₂ : Rule} {m : Mem} (n : Nat) (w : m.Wf) {a s : Nat} {S S₂ : List Nat}
    (h : HoldsRule m.cell a r S) (hs : HoldsRule m.cell s r₂ S₂) (hS : (S ++ S₂).Nodup) :
    Ends ((if realloc then 1 else 0) + 0) (appendNestedQ realloc a s) m n
      (fun _ m' => ∃ S', HoldsRule m'.cell a (r.appendNested r₂) S' ∧ Changed m m' (S ++ S₂) S')
      (fun m' => Shrunk m m' S₂) := by
  obtain ⟨m', e, sh⟩ := destroys_rule r₂ s S₂ m hs (append_split hS).2.1
  obtain ⟨m₂, S', e₂, k⟩ := appendNested_ok realloc w h hs hS
  cases realloc with
  | true =>
    refine Ends.bind (request_or_die n e sh) ?_
    rintro _ _ rfl
    exact ends_lift e₂ ⟨S', k⟩
  | false => exact ends_lift e₂ ⟨S', k⟩

/-- A statement that changes the rule at a place. -/
theorem Inv.modifyQ {m vars env env' F} (h : Inv m vars env F []) {p : Place} {rf : Rule → Rule} {N : Nat}
    (op : Nat → Q Unit)
    (hop : ∀ {r : Rule} {a : Nat} {S : List Nat} (n : Nat), HoldsRule m.cell a r S → S.Nodup →
      Ends N (op a) m n (fun _ m' => ∃ S', HoldsRule m'.cell a (rf r) S' ∧ Changed m m' S S') (Untouched m))
    (hv : Env.modify env p rf = some env') (n : Nat) :
    Goes (N + 0) (do
      let d ← lift (vars.place p)
      op d
      pure vars) m n vars env env' := by
  obtain ⟨q, hq, rfl⟩ := modify_iff.mp hv
  obtain ⟨root, r, x, Tq, rest, hvv, hrr, ep, f⟩ := h.place hq
  have hn : Tq.Nodup := (append_split (f.perm.nodup_iff.mp (append_split (h.nodup p.var)).1)).1
  refine Ends.read (ep m fun _ _ => rfl) (Ends.bind ((hop n f.holds hn).imp (fun _ _ k => k) fun m' u => ⟨F, h.untouched u⟩) ?_)
  rintro _ m' ⟨S', h', c⟩
  obtain ⟨F', hF'⟩ := h.at hvv hrr f (by simpa using c) h'
  exact ends_pure ⟨F', hF'⟩

/-- A statement that builds an object and gives it to the rule at a place. -/
theorem Inv.giveQ {m vars env env' F} {β γ : Type} (h : Inv m vars env F []) {p : Place} {rf : Rule → Rule}
    {R : Cells → β → γ → List Nat → Prop} {v : γ} (build : γ → P β) (hb : Builds R build v) {N : Nat}
    (op : Nat → β → Q Unit)
    (hop : ∀ {m : Mem} (n : Nat), m.Wf → ∀ {r : Rule} {a : Nat} {b : β} {S T : List Nat}, HoldsRule m.cell a r S →
      R m.cell b v T → (S ++ T).Nodup →
      Ends N (op a b) m n (fun _ m' => ∃ S', HoldsRule m'.cell a (rf r) S' ∧ Changed m m' (S ++ T) S')
        (fun m' => Shrunk m m' T))
    (hv : Env.modify env p rf = some env') (n : Nat) :
    Goes (1 + (0 + (N + 0))) (do
      let d ← lift (vars.place p)
      request
      let b ← lift (build v)
      op d b
      pure vars) m n vars env env' := by
  obtain ⟨q, hq, rfl⟩ := modify_iff.mp hv
  obtain ⟨root₀, r₀, x₀, Tq₀, rest₀, hvv₀, hrr₀, ep₀, f₀⟩ := h.place hq
  obtain ⟨b, T, m₁, e₁, r₁, g₁⟩ := hb m h.wf
  obtain ⟨h₁, same⟩ := h.temp g₁
  obtain ⟨root, r, x, Tq, rest, hvv, hrr, ep, f⟩ := h₁.place hq
  have hx : x = x₀ := by
    have k₁ := ep m₁ fun _ _ => rfl
    have k₂ := ep₀ m₁ (same _)
    rw [k₁] at k₂
    have := E.pure_inj k₂
    injection this
  subst hx
  have hTq : ∀ y ∈ Tq, y ∈ F p.var := fun y hy => f.perm.mem_iff.mpr (List.mem_append_left _ hy)
  have hn := append_split (h₁.nodup p.var)
  have hnd : (Tq ++ T).Nodup := by
    refine List.nodup_append.mpr ⟨(append_split (f.perm.nodup_iff.mp hn.1)).1, hn.2.1, ?_⟩
    intro y hy z hz hyz
    exact hn.2.2 y (hTq y hy) (hyz ▸ hz)
  refine Ends.read (ep₀ m fun _ _ => rfl) (Ends.after ⟨F, h⟩ ?_)
  refine Ends.bind (P₁ := fun b' m' => b' = b ∧ m' = m₁) (ends_lift e₁ ⟨rfl, rfl⟩) ?_
  rintro b' m' ⟨hb', hm'⟩
  rw [hb', hm']
  refine Ends.bind ((hop _ h₁.wf f.holds r₁ hnd).imp (fun _ _ k => k) fun m' sh => ⟨F, h₁.dies sh⟩) ?_
  rintro _ m₂ ⟨S', hS', c₂⟩
  obtain ⟨F', hF'⟩ := h₁.at hvv hrr f c₂ hS'
  exact ends_pure ⟨F', hF'⟩

theorem appendMatchQ_ends {v : Option Match} {m : Mem} (n : Nat) (w : m.Wf) {r : Rule} {a : Nat} {q : Option Nat}
    {S T : List Nat} (h : HoldsRule m.cell a r S) (hv : HoldsPtr (HoldsMatch m.cell) q v T) (hS : (S ++ T).Nodup) :
    Ends (1 + 0) (appendMatchQ true a q) m n
      (fun _ m' => ∃ S', HoldsRule m'.cell a (r.appendMatch v) S' ∧ Changed m m' (S ++ T) S')
      (fun m' => Shrunk m m' T) := by
  obtain ⟨m', e, sh⟩ := destroys_ptr (fun y _ => destroys_match y) q T m hv (append_split hS).2.1
  refine Ends.bind (request_or_die n e sh) ?_
  rintro _ _ rfl
  obtain ⟨m₂, S', e₂, k⟩ := appendMatch_ok w h hv hS
  exact ends_lift e₂ ⟨S', k⟩

theorem appendCaptureQ_ends {v : Option Capture} {m : Mem} (n : Nat) (w : m.Wf) {r : Rule} {a : Nat} {q : Option Nat}
    {S T : List Nat} (h : HoldsRule m.cell a r S) (hv : HoldsPtr (HoldsCapture m.cell) q v T) (hS : (S ++ T).Nodup) :
    Ends (1 + 0) (appendCaptureQ true a q) m n
      (fun _ m' => ∃ S', HoldsRule m'.cell a (r.appendCapture v) S' ∧ Changed m m' (S ++ T) S')
      (fun m' => Shrunk m m' T) := by
  obtain ⟨m', e, sh⟩ := destroys_ptr (fun y _ => destroys_capture y) q T m hv (append_split hS).2.1
  refine Ends.bind (request_or_die n e sh) ?_
  rintro _ _ rfl
  obtain ⟨m₂, S', e₂, k⟩ := appendCapture_ok w h hv hS
  exact ends_lift e₂ ⟨S', k⟩

/-- Every statement that has a meaning on values: it needs a certain number of requests, independent of how many
succeed. If they do, the variables hold what it means; otherwise they hold what they held, apart from a variable that
was moved into a parameter. -/
theorem runQ_ok {env env' : Env} (op : Op) (hv : op.val env = some env') :
    ∃ N, ∀ {m vars F}, Inv m vars env F [] → ∀ n, ¬ op.Terminates n → Goes N (op.runQ vars) m n vars (op.failed env) env' := by
  -- statements that request no memory
  have free : ∀ op' : Op, op'.val env = some env' → (∀ vars, op'.runQ vars = lift (op'.run vars)) →
      op'.failed env = env → ∃ N, ∀ {m vars F}, Inv m vars env F [] → ∀ n, ¬ op'.Terminates n →
        Goes N (op'.runQ vars) m n vars (op'.failed env) env' := by
    intro op' hv' hr hf
    refine ⟨0, fun {m vars F} h n _ => ?_⟩
    obtain ⟨m', vars', F', e, h'⟩ := run_ok h op' hv'
    rw [hr, hf]
    exact ends_lift e ⟨F', h'⟩
  cases op with
  | ofTag v t o g => exact free _ hv (fun _ => rfl) rfl
  | move v w => exact free _ hv (fun _ => rfl) rfl
  | moveAssign dst w => exact free _ hv (fun _ => rfl) rfl
  | setTag dst t => exact free _ hv (fun _ => rfl) rfl
  | setOptional dst b => exact free _ hv (fun _ => rfl) rfl
  | setGreedy dst b => exact free _ hv (fun _ => rfl) rfl
  | destroy v => exact free _ hv (fun _ => rfl) rfl
  | ofName v name o g =>
    obtain ⟨e, rfl⟩ := create_iff.mp hv
    by_cases hu : gumboTagEnum (cstr name) = .unknown
    · refine ⟨2, fun {m vars F} h n hn => ?_⟩
      obtain ⟨a, S, m', e₁, r, g₁⟩ := newRuleNamed_ok h.wf name o g
      obtain ⟨F', h'⟩ := h.new e g₁ r
      have hn : n ≠ 1 := fun k => hn ⟨hu, k⟩
      match n, hn with
      | 0, _ => exact .inr ⟨by omega, m, rfl, F, h⟩
      | 1, hn => exact absurd rfl hn
      | n + 2, _ =>
        refine .inl ⟨by omega, _, m', ?_, F', h'⟩
        show (newRuleNamedQ name o g >>= fun a => pure (update vars v (some a))) ⟨m, n + 1⟩ = _
        have : newRuleNamedQ name o g ⟨m, n + 1⟩ = pure (.ok a, ⟨m', n⟩) := by
          unfold newRuleNamedQ noexcept
          rw [if_pos hu]
          show ((lift (newRuleNamed name o g)) ⟨m, n⟩ >>= _) = _
          show ((newRuleNamed name o g m >>= _) >>= _) = _
          rw [e₁]
          rfl
        show (newRuleNamedQ name o g ⟨m, n + 1⟩ >>= _) = _
        rw [this]
        rfl
    · refine ⟨1, fun {m vars F} h n _ => ?_⟩
      obtain ⟨a, S, m', e₁, r, g₁⟩ := newRuleNamed_ok h.wf name o g
      obtain ⟨F', h'⟩ := h.new e g₁ r
      match n with
      | 0 => exact .inr ⟨by omega, m, rfl, F, h⟩
      | n + 1 =>
        refine .inl ⟨by omega, _, m', ?_, F', h'⟩
        show (newRuleNamedQ name o g >>= fun a => pure (update vars v (some a))) ⟨m, n⟩ = _
        have : newRuleNamedQ name o g ⟨m, n⟩ = pure (.ok a, ⟨m', n⟩) := by
          unfold newRuleNamedQ noexcept
          rw [if_neg hu]
          show ((newRuleNamed name o g m >>= _) >>= _) = _
          rw [e₁]
          rfl
        show (newRuleNamedQ name o g ⟨m, n⟩ >>= _) = _
        rw [this]
        rfl
  | copy v src =>
    simp only [Op.val, Option.bind_eq_bind, Option.bind_eq_some_iff] at hv
    obtain ⟨q, hq, hc⟩ := hv
    obtain ⟨e, rfl⟩ := create_iff.mp hc
    obtain ⟨N, hN⟩ := copiesQ_rule q
    refine ⟨N + 0, fun {m vars F} h n _ => ?_⟩
    obtain ⟨root, r, x, Tq, rest, hvv, hrr, ep, f⟩ := h.place hq
    rw [Op.runQ]
    refine Ends.read (ep m fun _ _ => rfl) (Ends.bind ((hN x Tq m n h.wf f.holds).imp (fun _ _ k => k)
      fun m' u => ⟨F, h.untouched u⟩) ?_)
    rintro a m₁ ⟨T, r₁, g₁⟩
    obtain ⟨F', h'⟩ := h.new e g₁ r₁
    exact ends_pure ⟨F', h'⟩
  | assign dst src =>
    simp only [Op.val, Option.bind_eq_bind, Option.bind_eq_some_iff] at hv
    obtain ⟨q, hq, hm⟩ := hv
    obtain ⟨N, hN⟩ := assignRuleQ_ends q
    refine ⟨N + 0, fun {m vars F} h n _ => ?_⟩
    obtain ⟨root, r, x, Tq, rest, hvv, hrr, ep, f⟩ := h.place hq
    obtain ⟨q₂, hq₂, rfl⟩ := modify_iff.mp hm
    obtain ⟨root₂, r₂, x₂, Tq₂, rest₂, hvv₂, hrr₂, ep₂, f₂⟩ := h.place hq₂
    have hn : Tq₂.Nodup := (append_split (f₂.perm.nodup_iff.mp (append_split (h.nodup dst.var)).1)).1
    rw [Op.runQ]
    refine Ends.read (ep₂ m fun _ _ => rfl) (Ends.read (ep m fun _ _ => rfl) ?_)
    refine Ends.bind ((hN n h.wf f₂.holds f.holds hn).imp (fun _ _ k => k) fun m' u => ⟨F, h.untouched u⟩) ?_
    rintro _ m' ⟨S', h', c⟩
    obtain ⟨F', hF'⟩ := h.at hvv₂ hrr₂ f₂ (by simpa using c) h'
    exact ends_pure ⟨F', hF'⟩
  | appendChild dst arg =>
    obtain ⟨N, hN⟩ := Inv.appendQ (1 + 0) appendChildQ (fun n w => appendChildQ_ends n w) hv
    exact ⟨N, fun h n _ => hN h n⟩
  | appendNext dst arg =>
    obtain ⟨N, hN⟩ := Inv.appendQ (1 + 0) appendNextQ (fun n w => appendNextQ_ends n w) hv
    exact ⟨N, fun h n _ => hN h n⟩
  | appendNested b dst arg =>
    obtain ⟨N, hN⟩ := Inv.appendQ _ (appendNestedQ b) (fun n w => appendNestedQ_ends b n w) hv
    exact ⟨N, fun h n _ => hN h n⟩
  | appendMatch dst v =>
    exact ⟨_, fun h n _ => h.giveQ (R := PtrR HoldsMatch) buildMatchPtr
      (by rw [buildMatchPtr_eq]; exact builds_ptr fun x _ => builds_match x) (appendMatchQ true)
      (fun n w => appendMatchQ_ends n w) hv n⟩
  | appendCapture dst v =>
    exact ⟨_, fun h n _ => h.giveQ (R := PtrR HoldsCapture) (buildPtr buildCapture)
      (builds_ptr fun x _ => builds_capture x) (appendCaptureQ true)
      (fun n w => appendCaptureQ_ends n w) hv n⟩
  | setTagname dst s =>
    refine ⟨(1 + 0) + 0, fun {m vars F} h n _ => ?_⟩
    have := h.modifyQ (N := 1 + 0) (fun d => do request; lift (Mem.setTagname d s)) (fun {r a S} n ha hS => by
      obtain ⟨m', k₁, k₂, k₃⟩ := setter_ok h.wf ha hS (fun d => Mem.setTagname d s) (·.setTagname s)
        (fun o => { o with tagname := some s }) (fun i => { i with tagname := some s }) rfl
        (fun _ _ _ _ => rfl)
        (fun o => ⟨rfl, rfl, rfl, rfl, rfl⟩) (fun i => ⟨rfl, rfl⟩)
        (fun o i k => ⟨k.1, k.2.1, k.2.2.1, rfl⟩)
      exact Ends.after (Untouched.refl m) (ends_lift k₁ ⟨S, k₂, k₃⟩)) hv n
    rw [Op.runQ]
    show Goes _ _ m n vars env env'
    simpa only [bind_assoc] using this

/-- A whole program. -/
theorem prog_ok (p : Prog) : ∀ {m vars env F}, Inv m vars env F [] → p.Defined env →
    ∃ m' vars' t env' F', p.run vars m = pure ((vars', t), m') ∧ p.vals env t = some env' ∧ Inv m' vars' env' F' [] := by
  induction p with
  | done => intro m vars env F h _; exact ⟨m, vars, [], env, F, rfl, rfl, h⟩
  | step n op returned caught ih₁ ih₂ =>
    rintro m vars env F h ⟨ht, ⟨e', hv, d₁⟩, d₂⟩
    obtain ⟨N, hN⟩ := runQ_ok op hv
    rcases hN h n ht with ⟨_, vars₁, m₁, e₁, F₁, h₁⟩ | ⟨_, m₁, e₁, F₁, h₁⟩
    · obtain ⟨m', vars', t, env', F', k₁, k₂, k₃⟩ := ih₁ h₁ d₁
      refine ⟨m', vars', true :: t, env', F', ?_, by simp [Prog.vals, hv, k₂], k₃⟩
      show (op.runQ vars ⟨m, n⟩ >>= _) = _
      rw [e₁]
      simp only [pure_bind]
      rw [k₁]
      rfl
    · obtain ⟨m', vars', t, env', F', k₁, k₂, k₃⟩ := ih₂ h₁ d₂
      refine ⟨m', vars', false :: t, env', F', ?_, by simp [Prog.vals, k₂], k₃⟩
      show (op.runQ vars ⟨m, n⟩ >>= _) = _
      rw [e₁]
      simp only [pure_bind]
      rw [k₁]
      rfl

/-- Statements with enough memory. -/
theorem line_ok (ops : List Op) : ∀ {env env' : Env}, vals env ops = some env' → ∃ N, ∀ n, N ≤ n →
    ∀ {m vars F}, Inv m vars env F [] → ∃ m' vars' F',
      (Prog.line n ops).run vars m = pure ((vars', ops.map fun _ => true), m') ∧ Inv m' vars' env' F' [] := by
  induction ops with
  | nil =>
    intro env env' hv
    have : env = env' := by simpa [vals] using hv
    exact ⟨0, fun n _ {m vars F} h => ⟨m, vars, F, rfl, this ▸ h⟩⟩
  | cons op ops ih =>
    intro env env' hv
    simp only [vals, Option.bind_eq_bind, Option.bind_eq_some_iff] at hv
    obtain ⟨env₁, hv₁, hv₂⟩ := hv
    obtain ⟨N₁, h₁⟩ := runQ_ok op hv₁
    obtain ⟨N₂, h₂⟩ := ih hv₂
    refine ⟨max (max N₁ N₂) 2, fun n hn {m vars F} h => ?_⟩
    have ht : ¬ op.Terminates n := by
      cases op <;> simp only [Op.Terminates, not_false_eq_true, not_and]
      omega
    rcases h₁ h n ht with ⟨_, vars₁, m₁, e₁, F₁, i₁⟩ | ⟨hl, _⟩
    · obtain ⟨m', vars', F', k₁, k₂⟩ := h₂ n (by omega) i₁
      refine ⟨m', vars', F', ?_, k₂⟩
      show (op.runQ vars ⟨m, n⟩ >>= _) = _
      rw [e₁]
      simp only [pure_bind]
      rw [k₁]
      rfl
    · omega

end Hext.Hist
