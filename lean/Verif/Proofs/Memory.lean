import Verif.Spec.Memory
/-!
# Cloning and destroying: lemmas

A clone is made of fresh objects only and holds the same value; destroying an object ends exactly the
objects that it owns.
-/

namespace Hext.Mem

theorem bind_ok {α β} {x : P α} {f : α → P β} {m m' : Mem} {a : α} (h : x m = pure (a, m')) :
    (x >>= f) m = f a m' := by
  show (x m >>= fun p => f p.1 p.2) = _
  rw [h]; rfl

theorem load_ok {m : Mem} {a : Addr} {o : Obj} (h : m.cell a = some o) : load a m = pure (o, m) := by
  show ((match m.cell a with | some o => pure o | none => throw .ub : P Obj) m) = _
  rw [h]; rfl

theorem loadRule_ok {m : Mem} {a : Addr} {o : RuleObj} (h : m.cell a = some (.rule o)) :
    loadRule a m = pure (o, m) := by
  unfold loadRule
  rw [bind_ok (load_ok h)]; rfl

/-- Memory after writing. -/
def Mem.put (m : Mem) (a : Addr) (o : Obj) : Mem :=
  { m with cell := fun x => if x = a then some o else m.cell x }
/-- Memory after handing out a new object. -/
def Mem.push (m : Mem) (o : Obj) : Mem :=
  { cell := fun x => if x = m.fresh then some o else m.cell x, fresh := m.fresh + 1 }
/-- Memory after ending an object. -/
def Mem.drop (m : Mem) (a : Addr) : Mem :=
  { m with cell := fun x => if x = a then none else m.cell x }

theorem store_ok {m : Mem} {a : Addr} (h : (m.cell a).isSome) (o' : Obj) :
    store a o' m = pure ((), m.put a o') := by
  obtain ⟨x, hx⟩ := Option.isSome_iff_exists.mp h
  show ((match m.cell a with
    | some _ => set { m with cell := fun x => if x = a then some o' else m.cell x }
    | none => throw .ub : P Unit) m) = _
  rw [hx]; rfl

theorem alloc_ok (m : Mem) (o : Obj) : alloc o m = pure (m.fresh, m.push o) := rfl

theorem free_ok {m : Mem} {a : Addr} (h : (m.cell a).isSome) : free a m = pure ((), m.drop a) := by
  obtain ⟨x, hx⟩ := Option.isSome_iff_exists.mp h
  show ((match m.cell a with
    | some _ => set { m with cell := fun x => if x = a then none else m.cell x }
    | none => throw .ub : P Unit) m) = _
  rw [hx]; rfl

/-- Only addresses that were handed out are alive. -/
def Mem.Wf (m : Mem) : Prop := ∀ x, (m.cell x).isSome → x < m.fresh

/-- `m'` is `m` with new objects, whose addresses are `S`. -/
structure Grown (m m' : Mem) (S : List Addr) : Prop where
  le : m.fresh ≤ m'.fresh
  wf : m'.Wf
  same : ∀ x, x < m.fresh → m'.cell x = m.cell x
  nodup : S.Nodup
  mem : ∀ x, x ∈ S ↔ m.fresh ≤ x ∧ x < m'.fresh

theorem Grown.refl {m : Mem} (h : m.Wf) : Grown m m [] :=
  ⟨Nat.le_refl _, h, fun _ _ => rfl, .nil, fun x => by simp⟩

theorem Grown.trans {m₁ m₂ m₃ : Mem} {S T : List Addr} (h : Grown m₁ m₂ S) (k : Grown m₂ m₃ T) :
    Grown m₁ m₃ (S ++ T) := by
  refine ⟨Nat.le_trans h.le k.le, k.wf, fun x hx => ?_, ?_, fun x => ?_⟩
  · rw [k.same x (Nat.lt_of_lt_of_le hx h.le), h.same x hx]
  · rw [List.nodup_append]
    refine ⟨h.nodup, k.nodup, fun a ha b hb hab => ?_⟩
    have := (h.mem a).mp ha
    have := (k.mem b).mp hb
    omega
  · rw [List.mem_append, h.mem, k.mem]
    have := h.le; have := k.le
    omega

theorem grown_push {m : Mem} (h : m.Wf) (o : Obj) : Grown m (m.push o) [m.fresh] := by
  refine ⟨Nat.le_succ _, fun x hx => ?_, fun x hx => ?_, by simp, fun x => ?_⟩
  · simp only [Mem.push] at hx ⊢
    split at hx
    · omega
    · have := h x hx; omega
  · simp only [Mem.push]
    rw [if_neg (by omega)]
  · simp only [Mem.push, List.mem_singleton]; omega

theorem Grown.perm {m m' : Mem} {S T : List Addr} (h : Grown m m' S) (p : S.Perm T) : Grown m m' T :=
  ⟨h.le, h.wf, h.same, p.nodup_iff.mp h.nodup, fun x => by rw [← p.mem_iff, h.mem]⟩

/-! ## Predicates about a family of objects -/

section
variable {α β : Type}

/-- The value depends on the objects of the footprint only. -/
def Framed (R : Cells → β → α → List Addr → Prop) (v : α) : Prop :=
  ∀ b S c c', R c b v S → (∀ x ∈ S, c' x = c x) → R c' b v S

/-- The objects of the footprint are alive. -/
def Alive (R : Cells → β → α → List Addr → Prop) (v : α) : Prop :=
  ∀ b S c, R c b v S → ∀ x ∈ S, (c x).isSome

/-- `f` makes a copy. -/
def Copies (R : Cells → β → α → List Addr → Prop) (f : β → P β) (v : α) : Prop :=
  ∀ b S m, m.Wf → R m.cell b v S → ∃ b' S' m', f b m = pure (b', m') ∧ R m'.cell b' v S' ∧ Grown m m' S'

/-- Memory `m'` is memory `m` without the objects `S`. -/
structure Shrunk (m m' : Mem) (S : List Addr) : Prop where
  fresh : m'.fresh = m.fresh
  cell : ∀ x, m'.cell x = if x ∈ S then none else m.cell x

/-- `f` ends the objects of the footprint. -/
def Destroys (R : Cells → β → α → List Addr → Prop) (f : β → P Unit) (v : α) : Prop :=
  ∀ b S m, R m.cell b v S → S.Nodup → ∃ m', f b m = pure ((), m') ∧ Shrunk m m' S

theorem Shrunk.trans {m₁ m₂ m₃ : Mem} {S T : List Addr} (h : Shrunk m₁ m₂ S) (k : Shrunk m₂ m₃ T) :
    Shrunk m₁ m₃ (S ++ T) := by
  refine ⟨k.fresh.trans h.fresh, fun x => ?_⟩
  rw [k.cell, h.cell]
  simp only [List.mem_append]
  by_cases h₁ : x ∈ S <;> by_cases h₂ : x ∈ T <;> simp [h₁, h₂]

theorem Shrunk.iff {m m' : Mem} {S T : List Addr} (h : Shrunk m m' S) (e : ∀ x, x ∈ S ↔ x ∈ T) :
    Shrunk m m' T := ⟨h.fresh, fun x => by rw [h.cell]; simp only [e]⟩

theorem Shrunk.refl (m : Mem) : Shrunk m m [] := ⟨rfl, fun x => by simp⟩

theorem shrunk_drop (m : Mem) (a : Addr) : Shrunk m (m.drop a) [a] :=
  ⟨rfl, fun x => by simp [Mem.drop]⟩

theorem Shrunk.wf {m m' : Mem} {S : List Addr} (h : Shrunk m m' S) (w : m.Wf) : m'.Wf := by
  intro x hx
  rw [h.cell] at hx
  split at hx
  · cases hx
  · rw [h.fresh]; exact w x hx

variable {R : Cells → Addr → α → List Addr → Prop}

/-- The same for a pointer. -/
abbrev PtrR (R : Cells → Addr → α → List Addr → Prop) :
    Cells → Option Addr → Option α → List Addr → Prop := fun c => HoldsPtr (R c)
/-- The same for a vector. -/
abbrev VecR {β} (R : Cells → β → α → List Addr → Prop) :
    Cells → List β → List α → List Addr → Prop := fun c => HoldsVec (R c)

theorem framed_ptr {v : Option α} (h : ∀ x ∈ v, Framed R x) : Framed (PtrR R) v := by
  intro b S c c' hR hc
  match b, v, hR with
  | none, none, hR => exact hR
  | some a, some v, hR => exact h v rfl a S c c' hR hc

theorem alive_ptr {v : Option α} (h : ∀ x ∈ v, Alive R x) : Alive (PtrR R) v := by
  intro b S c hR x hx
  match b, v, hR with
  | none, none, hR =>
    have hS : S = [] := hR
    rw [hS] at hx; cases hx
  | some a, some v, hR => exact h v rfl a S c hR x hx

theorem copies_ptr {v : Option α} {f : Addr → P Addr} (h : ∀ x ∈ v, Copies R f x) :
    Copies (PtrR R) (mapPtr f) v := by
  intro b S m w hR
  match b, v, hR with
  | none, none, hR => exact ⟨none, [], m, rfl, rfl, .refl w⟩
  | some a, some v, hR =>
    obtain ⟨b', S', m', h₁, h₂, h₃⟩ := h v rfl a S m w hR
    exact ⟨some b', S', m', by show (f a >>= fun x => pure (some x)) m = _; rw [bind_ok h₁]; rfl, h₂, h₃⟩

theorem destroys_ptr {v : Option α} {f : Addr → P Unit} (h : ∀ x ∈ v, Destroys R f x) :
    Destroys (PtrR R) (onPtr f) v := by
  intro b S m hR hS
  match b, v, hR with
  | none, none, hR =>
    have hS : S = [] := hR
    rw [hS]
    exact ⟨m, rfl, .refl m⟩
  | some a, some v, hR => exact h v rfl a S m hR hS

variable {β : Type} {Q : Cells → β → α → List Addr → Prop}

theorem framed_vec {vs : List α} (h : ∀ x ∈ vs, Framed Q x) : Framed (VecR Q) vs := by
  induction vs with
  | nil => intro b S c c' hR _; cases b <;> exact hR
  | cons v vs ih =>
    intro b S c c' hR hc
    cases b with
    | nil => exact hR
    | cons b bs =>
      obtain ⟨S₁, S₂, h₁, h₂, rfl⟩ := hR
      exact ⟨S₁, S₂, h v (.head _) b S₁ c c' h₁ fun x hx => hc x (List.mem_append_left _ hx),
        ih (fun x hx => h x (.tail _ hx)) bs S₂ c c' h₂ fun x hx => hc x (List.mem_append_right _ hx), rfl⟩

theorem alive_vec {vs : List α} (h : ∀ x ∈ vs, Alive Q x) : Alive (VecR Q) vs := by
  induction vs with
  | nil =>
    intro b S c hR x hx
    cases b with
    | nil =>
      have hS : S = [] := hR
      rw [hS] at hx; cases hx
    | cons => exact hR.elim
  | cons v vs ih =>
    intro b S c hR x hx
    cases b with
    | nil => exact hR.elim
    | cons b bs =>
      obtain ⟨S₁, S₂, h₁, h₂, rfl⟩ := hR
      rcases List.mem_append.mp hx with hx | hx
      · exact h v (.head _) b S₁ c h₁ x hx
      · exact ih (fun x hx => h x (.tail _ hx)) bs S₂ c h₂ x hx

/-- A value stays where it is while memory grows. -/
theorem keep_grown {β} {Q : Cells → β → α → List Addr → Prop} {v : α} (hf : Framed Q v) (ha : Alive Q v)
    {m m' : Mem} {T : List Addr} (w : m.Wf) (g : Grown m m' T) {b S} (h : Q m.cell b v S) :
    Q m'.cell b v S :=
  hf b S _ _ h fun x hx => g.same x (w x (ha b S _ h x hx))

theorem copies_vec {vs : List α} {f : β → P β} (hf : ∀ x ∈ vs, Framed Q x) (ha : ∀ x ∈ vs, Alive Q x)
    (h : ∀ x ∈ vs, Copies Q f x) : Copies (VecR Q) (mapVec f) vs := by
  induction vs with
  | nil =>
    intro b S m w hR
    cases b with
    | nil => exact ⟨[], [], m, rfl, rfl, .refl w⟩
    | cons => exact hR.elim
  | cons v vs ih =>
    intro b S m w hR
    cases b with
    | nil => exact hR.elim
    | cons b bs =>
      obtain ⟨S₁, S₂, h₁, h₂, rfl⟩ := hR
      obtain ⟨b', S₁', m₁, e₁, r₁, g₁⟩ := h v (.head _) b S₁ m w h₁
      have hf' := framed_vec fun x hx => hf x (.tail v hx)
      have ha' := alive_vec fun x hx => ha x (.tail v hx)
      obtain ⟨bs', S₂', m₂, e₂, r₂, g₂⟩ := ih (fun x hx => hf x (.tail _ hx))
        (fun x hx => ha x (.tail _ hx)) (fun x hx => h x (.tail _ hx)) bs S₂ m₁ g₁.wf
        (keep_grown hf' ha' w g₁ h₂)
      refine ⟨b' :: bs', S₁' ++ S₂', m₂, ?_, ⟨S₁', S₂', ?_, r₂, rfl⟩, g₁.trans g₂⟩
      · show (f b >>= fun b' => mapVec f bs >>= fun bs' => pure (b' :: bs')) m = _
        rw [bind_ok e₁, bind_ok e₂]; rfl
      · exact keep_grown (hf v (.head _)) (ha v (.head _)) g₁.wf g₂ r₁

/-- A value stays where it is while other objects end. -/
theorem keep_shrunk {β} {Q : Cells → β → α → List Addr → Prop} {v : α} (hf : Framed Q v)
    {m m' : Mem} {T : List Addr} (g : Shrunk m m' T) {b S} (h : Q m.cell b v S)
    (d : ∀ x ∈ S, x ∉ T) : Q m'.cell b v S :=
  hf b S _ _ h fun x hx => by rw [g.cell, if_neg (d x hx)]

theorem destroys_vec {vs : List α} {f : β → P Unit} (hf : ∀ x ∈ vs, Framed Q x)
    (h : ∀ x ∈ vs, Destroys Q f x) : Destroys (VecR Q) (forVec f) vs := by
  induction vs with
  | nil =>
    intro b S m hR hS
    cases b with
    | nil =>
      have hS : S = [] := hR
      rw [hS]
      exact ⟨m, rfl, .refl m⟩
    | cons => exact hR.elim
  | cons v vs ih =>
    intro b S m hR hS
    cases b with
    | nil => exact hR.elim
    | cons b bs =>
      obtain ⟨S₁, S₂, h₁, h₂, rfl⟩ := hR
      obtain ⟨n₁, n₂, d⟩ := List.nodup_append.mp hS
      obtain ⟨m₁, e₁, g₁⟩ := h v (.head _) b S₁ m h₁ n₁
      obtain ⟨m₂, e₂, g₂⟩ := ih (fun x hx => hf x (.tail _ hx)) (fun x hx => h x (.tail _ hx)) bs S₂ m₁
        (keep_shrunk (framed_vec fun x hx => hf x (.tail v hx)) g₁ h₂
          fun x hx hx' => d x hx' x hx rfl) n₂
      refine ⟨m₂, ?_, g₁.trans g₂⟩
      show (f b >>= fun _ => forVec f bs) m = _
      rw [bind_ok e₁, e₂]

end

/-! ## Pipes -/

theorem framed_pipe (v : Pipe) : Framed HoldsPipe v := by
  induction v with
  | last t =>
    intro b S c c' h hc
    obtain ⟨h, rfl⟩ := h
    exact ⟨by rw [hc b (.head _), h], rfl⟩
  | cons t p ih =>
    intro b S c c' h hc
    obtain ⟨q, S', h, h', rfl⟩ := h
    exact ⟨q, S', by rw [hc b (.head _), h], ih q S' c c' h' fun x hx => hc x (.tail _ hx), rfl⟩

theorem alive_pipe (v : Pipe) : Alive HoldsPipe v := by
  induction v with
  | last t =>
    intro b S c h x hx
    obtain ⟨h, rfl⟩ := h
    rw [List.mem_singleton.mp hx, h]; rfl
  | cons t p ih =>
    intro b S c h x hx
    obtain ⟨q, S', h, h', rfl⟩ := h
    cases hx with
    | head => rw [h]; rfl
    | tail _ hx => exact ih q S' c h' x hx

/-- Put a new object on top of freshly copied parts. -/
theorem grown_top {m m₁ : Mem} {S : List Addr} (g : Grown m m₁ S) (o : Obj) :
    Grown m (m₁.push o) (m₁.fresh :: S) :=
  (g.trans (grown_push g.wf o)).perm (List.perm_append_comm (l₂ := [_]))

theorem push_self (m : Mem) (o : Obj) : (m.push o).cell m.fresh = some o := by simp [Mem.push]

theorem copies_pipe (v : Pipe) : Copies HoldsPipe clonePipe v := by
  induction v with
  | last t =>
    intro b S m w h
    obtain ⟨h, rfl⟩ := h
    refine ⟨m.fresh, [m.fresh], m.push (.pipe t none), ?_, ⟨push_self _ _, rfl⟩, grown_push w _⟩
    rw [clonePipe, bind_ok (load_ok h)]
    rfl
  | cons t p ih =>
    intro b S m w h
    obtain ⟨q, S', h, h', rfl⟩ := h
    obtain ⟨q', S₁, m₁, e₁, r₁, g₁⟩ := ih q S' m w h'
    refine ⟨m₁.fresh, m₁.fresh :: S₁, m₁.push (.pipe t (some q')), ?_,
      ⟨q', S₁, push_self _ _, ?_, rfl⟩, grown_top g₁ _⟩
    · rw [clonePipe, bind_ok (load_ok h)]
      show ((clonePipe q >>= fun x => pure (some x)) >>= fun n => alloc (.pipe t n)) m = _
      rw [bind_ok (a := some q') (m' := m₁) (by rw [bind_ok e₁]; rfl)]
      rfl
    · exact keep_grown (framed_pipe p) (alive_pipe p) g₁.wf (grown_push g₁.wf _) r₁

/-- End the parts, then the object. -/
theorem shrunk_top {m m₁ : Mem} {S : List Addr} {a : Addr} (g : Shrunk m m₁ S) :
    Shrunk m (m₁.drop a) (a :: S) :=
  (g.trans (shrunk_drop m₁ a)).iff fun x => by simp [or_comm]

theorem shrunk_alive {m m₁ : Mem} {S : List Addr} {a : Addr} {o : Obj} (g : Shrunk m m₁ S)
    (h : m.cell a = some o) (ha : a ∉ S) : (m₁.cell a).isSome := by
  rw [g.cell, if_neg ha, h]; rfl

theorem destroys_pipe (v : Pipe) : Destroys HoldsPipe destroyPipe v := by
  induction v with
  | last t =>
    intro b S m h _
    obtain ⟨h, rfl⟩ := h
    refine ⟨m.drop b, ?_, shrunk_drop m b⟩
    rw [destroyPipe, bind_ok (load_ok h)]
    show (pure () >>= fun _ => free b) m = _
    rw [bind_ok (a := ()) (m' := m) rfl, free_ok (by rw [h]; rfl)]
  | cons t p ih =>
    intro b S m h hS
    obtain ⟨q, S', h, h', rfl⟩ := h
    obtain ⟨hb, hS⟩ := List.nodup_cons.mp hS
    obtain ⟨m₁, e₁, g₁⟩ := ih q S' m h' hS
    refine ⟨m₁.drop b, ?_, shrunk_top g₁⟩
    rw [destroyPipe, bind_ok (load_ok h)]
    show (destroyPipe q >>= fun _ => free b) m = _
    rw [bind_ok e₁, free_ok (shrunk_alive g₁ h hb)]

/-! ## Value tests -/

theorem framed_test (v : ValueTest) : Framed HoldsTest v := by
  induction v with
  | negate t ih =>
    intro b S c c' h hc
    obtain ⟨q, S', h, h', rfl⟩ := h
    exact ⟨q, S', by rw [hc b (.head _), h], ih q S' c c' h' fun x hx => hc x (.tail _ hx), rfl⟩
  | _ =>
    intro b S c c' h hc
    obtain ⟨h, rfl⟩ := h
    exact ⟨by rw [hc b (.head _), h], rfl⟩

theorem alive_test (v : ValueTest) : Alive HoldsTest v := by
  induction v with
  | negate t ih =>
    intro b S c h x hx
    obtain ⟨q, S', h, h', rfl⟩ := h
    cases hx with
    | head => rw [h]; rfl
    | tail _ hx => exact ih q S' c h' x hx
  | _ =>
    intro b S c h x hx
    obtain ⟨h, rfl⟩ := h
    rw [List.mem_singleton.mp hx, h]; rfl

theorem copies_test (v : ValueTest) : Copies HoldsTest cloneTest v := by
  induction v with
  | negate t ih =>
    intro b S m w h
    obtain ⟨q, S', h, h', rfl⟩ := h
    obtain ⟨q', S₁, m₁, e₁, r₁, g₁⟩ := ih q S' m w h'
    refine ⟨m₁.fresh, m₁.fresh :: S₁, m₁.push (.negateTest (some q')), ?_,
      ⟨q', S₁, push_self _ _, ?_, rfl⟩, grown_top g₁ _⟩
    · rw [cloneTest, bind_ok (load_ok h)]
      show ((cloneTest q >>= fun x => pure (some x)) >>= fun n => alloc (.negateTest n)) m = _
      rw [bind_ok (a := some q') (m' := m₁) (by rw [bind_ok e₁]; rfl)]
      rfl
    · exact keep_grown (framed_test t) (alive_test t) g₁.wf (grown_push g₁.wf _) r₁
  | _ =>
    intro b S m w h
    obtain ⟨h, rfl⟩ := h
    refine ⟨m.fresh, [m.fresh], m.push _, ?_, ⟨push_self _ _, rfl⟩, grown_push w _⟩
    rw [cloneTest, bind_ok (load_ok h)]
    rfl

theorem destroys_test (v : ValueTest) : Destroys HoldsTest destroyTest v := by
  induction v with
  | negate t ih =>
    intro b S m h hS
    obtain ⟨q, S', h, h', rfl⟩ := h
    obtain ⟨hb, hS⟩ := List.nodup_cons.mp hS
    obtain ⟨m₁, e₁, g₁⟩ := ih q S' m h' hS
    refine ⟨m₁.drop b, ?_, shrunk_top g₁⟩
    rw [destroyTest, bind_ok (load_ok h)]
    show (destroyTest q >>= fun _ => free b) m = _
    rw [bind_ok e₁, free_ok (shrunk_alive g₁ h hb)]
  | negateNull =>
    intro b S m h _
    obtain ⟨h, rfl⟩ := h
    refine ⟨m.drop b, ?_, shrunk_drop m b⟩
    rw [destroyTest, bind_ok (load_ok h)]
    show (pure () >>= fun _ => free b) m = _
    rw [bind_ok (a := ()) (m' := m) rfl, free_ok (by rw [h]; rfl)]
  | _ =>
    intro b S m h _
    obtain ⟨h, rfl⟩ := h
    refine ⟨m.drop b, ?_, shrunk_drop m b⟩
    rw [destroyTest, bind_ok (load_ok h)]
    exact free_ok (by rw [h]; rfl)

/-! ## Captures -/

theorem framed_capture (v : Capture) : Framed HoldsCapture v := by
  cases v with
  | _ =>
    intro b S c c' h hc
    obtain ⟨q, S', h, h', rfl⟩ := h
    exact ⟨q, S', by rw [hc b (.head _), h],
      framed_ptr (fun x _ => framed_pipe x) q S' c c' h' fun x hx => hc x (.tail _ hx), rfl⟩

theorem alive_capture (v : Capture) : Alive HoldsCapture v := by
  cases v with
  | _ =>
    intro b S c h x hx
    obtain ⟨q, S', h, h', rfl⟩ := h
    cases hx with
    | head => rw [h]; rfl
    | tail _ hx => exact alive_ptr (fun x _ => alive_pipe x) q S' c h' x hx

theorem copies_capture (v : Capture) : Copies HoldsCapture cloneCapture v := by
  cases v with
  | _ =>
    intro b S m w h
    obtain ⟨q, S', h, h', rfl⟩ := h
    obtain ⟨q', S₁, m₁, e₁, r₁, g₁⟩ := copies_ptr (fun x _ => copies_pipe x) q S' m w h'
    refine ⟨m₁.fresh, m₁.fresh :: S₁, m₁.push _, ?_, ⟨q', S₁, push_self _ _, ?_, rfl⟩, grown_top g₁ _⟩
    · rw [cloneCapture, bind_ok (load_ok h)]
      show (mapPtr clonePipe q >>= _) m = _
      rw [bind_ok e₁]
      rfl
    · exact keep_grown (framed_ptr fun x _ => framed_pipe x) (alive_ptr fun x _ => alive_pipe x) g₁.wf
        (grown_push g₁.wf _) r₁

theorem destroys_capture (v : Capture) : Destroys HoldsCapture destroyCapture v := by
  cases v with
  | _ =>
    intro b S m h hS
    obtain ⟨q, S', h, h', rfl⟩ := h
    obtain ⟨hb, hS⟩ := List.nodup_cons.mp hS
    obtain ⟨m₁, e₁, g₁⟩ := destroys_ptr (fun x _ => destroys_pipe x) q S' m h' hS
    refine ⟨m₁.drop b, ?_, shrunk_top g₁⟩
    rw [destroyCapture, bind_ok (load_ok h)]
    show (onPtr destroyPipe q >>= fun _ => free b) m = _
    rw [bind_ok e₁, free_ok (shrunk_alive g₁ h hb)]

end Hext.Mem
