import Verif.Spec.Failing
import Verif.Proofs.AssignPipe
/-!
# Copying when memory runs out: lemmas
-/

namespace Hext.Mem

theorem Untouched.refl (m : Mem) : Untouched m m := ⟨Nat.le_refl _, fun _ => rfl⟩

theorem Untouched.trans {m₁ m₂ m₃ : Mem} (h : Untouched m₁ m₂) (k : Untouched m₂ m₃) : Untouched m₁ m₃ :=
  ⟨Nat.le_trans h.1 k.1, fun x => (k.2 x).trans (h.2 x)⟩

theorem Untouched.cell {m m' : Mem} (h : Untouched m m') : m'.cell = m.cell := funext h.2

theorem Untouched.wf {m m' : Mem} (h : Untouched m m') (w : m.Wf) : m'.Wf := by
  intro x hx
  rw [h.2] at hx
  exact Nat.lt_of_lt_of_le (w x hx) h.1

/-- Ending exactly the objects that were added. -/
theorem untouched_of {m m₁ m₂ m₃ : Mem} {T : List Addr} (w : m.Wf) (g : Grown m m₁ T) (u : Untouched m₁ m₂)
    (s : Shrunk m₂ m₃ T) : Untouched m m₃ := by
  refine ⟨?_, fun x => ?_⟩
  · rw [s.fresh]; exact Nat.le_trans g.le u.1
  · rw [s.cell]
    by_cases hx : x ∈ T
    · rw [if_pos hx]
      have := ((g.mem x).mp hx).1
      cases h : m.cell x with
      | none => rfl
      | some o => have := w x (by rw [h]; rfl); omega
    · rw [if_neg hx, u.2]
      by_cases hl : x < m.fresh
      · exact g.same x hl
      · have h₁ : m.cell x = none := by
          cases h : m.cell x with
          | none => rfl
          | some o => have := w x (by rw [h]; rfl); omega
        rw [h₁]
        cases h : m₁.cell x with
        | none => rfl
        | some o =>
          have := g.wf x (by rw [h]; rfl)
          exact absurd ((g.mem x).mpr ⟨by omega, this⟩) hx

/-! ## Rules for `Ends` -/

theorem Ends.bind {α β} {N₁ N₂ : Nat} {x : Q α} {f : α → Q β} {m : Mem} {n : Nat} {P₁ : α → Mem → Prop}
    {P₂ : β → Mem → Prop} {T : Mem → Prop} (h : Ends N₁ x m n P₁ T)
    (k : ∀ a m', P₁ a m' → Ends N₂ (f a) m' (n - N₁) P₂ T) : Ends (N₁ + N₂) (x >>= f) m n P₂ T := by
  have e : ∀ s, (x >>= f) s = (x s >>= fun (r, s') => match r with
      | .ok a => f a s'
      | .error e => pure (.error e, s')) := by
    intro s
    show (x s >>= fun p => ExceptT.bindCont f p.1 p.2) = _
    congr 1
    funext p
    cases p with
    | mk r s' => cases r <;> rfl
  rcases h with ⟨h₁, a, m₁, e₁, p₁⟩ | ⟨h₁, m₁, e₁, p₁⟩
  · rcases k a m₁ p₁ with ⟨h₂, b, m₂, e₂, p₂⟩ | ⟨h₂, m₂, e₂, p₂⟩
    · refine .inl ⟨by omega, b, m₂, ?_, p₂⟩
      rw [e, e₁]
      simp only [pure_bind]
      rw [e₂]
      congr 3
      omega
    · refine .inr ⟨by omega, m₂, ?_, p₂⟩
      rw [e, e₁]
      simp only [pure_bind]
      exact e₂
  · refine .inr ⟨by omega, m₁, ?_, p₁⟩
    rw [e, e₁]
    rfl

theorem Ends.imp {α} {N : Nat} {x : Q α} {m : Mem} {n : Nat} {P P' : α → Mem → Prop} {T T' : Mem → Prop}
    (h : Ends N x m n P T) (hp : ∀ a m', P a m' → P' a m') (ht : ∀ m', T m' → T' m') : Ends N x m n P' T' := by
  rcases h with ⟨h₁, a, m₁, e₁, p₁⟩ | ⟨h₁, m₁, e₁, p₁⟩
  · exact .inl ⟨h₁, a, m₁, e₁, hp _ _ p₁⟩
  · exact .inr ⟨h₁, m₁, e₁, ht _ p₁⟩

theorem ends_pure {α} {m : Mem} {n : Nat} {P : α → Mem → Prop} {T : Mem → Prop} {a : α} (h : P a m) :
    Ends 0 (pure a) m n P T := .inl ⟨Nat.zero_le _, a, m, rfl, h⟩

theorem ends_lift {α} {x : P α} {m m' : Mem} {n : Nat} {P : α → Mem → Prop} {T : Mem → Prop} {a : α}
    (e : x m = pure (a, m')) (h : P a m') : Ends 0 (lift x) m n P T := by
  refine .inl ⟨Nat.zero_le _, a, m', ?_, h⟩
  show (x m >>= fun p => _) = _
  rw [e]
  rfl

theorem ends_request {m : Mem} {n : Nat} {P : Unit → Mem → Prop} {T : Mem → Prop} (h : P () m) (ht : T m) :
    Ends 1 request m n P T := by
  cases n with
  | zero => exact .inr ⟨by omega, m, rfl, ht⟩
  | succ n => exact .inl ⟨by omega, (), m, rfl, h⟩

theorem Ends.unwinding {α} {N : Nat} {x : Q α} {d : P Unit} {m : Mem} {n : Nat} {P : α → Mem → Prop} {T T' : Mem → Prop}
    (h : Ends N x m n P T) (hd : ∀ m', T m' → ∃ m'', d m' = pure ((), m'') ∧ T' m'') :
    Ends N (unwinding d x) m n P T' := by
  have e : ∀ s, Mem.unwinding d x s = (x s >>= fun (r, s') => match r with
    | .ok a => pure (.ok a, s')
    | .error e => do
      let ((), m) ← d s'.mem
      pure (.error e, { s' with mem := m })) := fun _ => rfl
  rcases h with ⟨h₁, a, m₁, e₁, p₁⟩ | ⟨h₁, m₁, e₁, p₁⟩
  · refine .inl ⟨h₁, a, m₁, ?_, p₁⟩
    rw [e, e₁]; rfl
  · obtain ⟨m₂, e₂, p₂⟩ := hd m₁ p₁
    refine .inr ⟨h₁, m₂, ?_, p₂⟩
    rw [e, e₁]
    simp only [pure_bind]
    rw [e₂]
    rfl

/-- Read, then go on. -/
theorem Ends.read {α β} {x : P α} {f : α → Q β} {m : Mem} {n N : Nat} {P : β → Mem → Prop} {T : Mem → Prop} {a : α}
    (e : x m = pure (a, m)) (k : Ends N (f a) m n P T) : Ends N (lift x >>= f) m n P T := by
  have := Ends.bind (N₁ := 0) (N₂ := N) (P₂ := P) (T := T) (f := f)
    (ends_lift (P := fun b m' => b = a ∧ m' = m) (n := n) e ⟨rfl, rfl⟩)
    (by rintro _ _ ⟨rfl, rfl⟩; exact k)
  rwa [Nat.zero_add] at this

/-- Request, then go on. -/
theorem Ends.after {β} {f : Unit → Q β} {m : Mem} {n N : Nat} {P : β → Mem → Prop} {T : Mem → Prop}
    (ht : T m) (k : Ends N (f ()) m (n - 1) P T) : Ends (1 + N) (request >>= f) m n P T :=
  Ends.bind (ends_request (P := fun _ m' => m' = m) rfl ht) (by rintro _ _ rfl; exact k)

/-! ## Copying -/

/-- `x` makes a copy of the value `v`, or throws and leaves everything as it was. -/
abbrev MakesCopy {α β} (R : Cells → β → α → List Addr → Prop) (v : α) (N : Nat) (x : Q β) (m : Mem) (n : Nat) : Prop :=
  Ends N x m n (fun b m' => ∃ S, R m'.cell b v S ∧ Grown m m' S) (Untouched m)

/-- `f` makes copies; how many requests it needs depends on the value only. -/
def CopiesQ {α β} (R : Cells → β → α → List Addr → Prop) (f : β → Q β) (v : α) : Prop :=
  ∃ N, ∀ b S m n, m.Wf → R m.cell b v S → MakesCopy R v N (f b) m n

/-- Make a copy, then go on; the copy dies if that throws. -/
theorem own {α β γ} {R : Cells → β → α → List Addr → Prop} {d : β → P Unit} {v : α} (hd : Destroys R d v)
    {N₁ N₂ : Nat} {x : Q β} {k : β → Q γ} {m : Mem} (w : m.Wf) {n : Nat} {P : γ → Mem → Prop}
    (hx : MakesCopy R v N₁ x m n)
    (hk : ∀ b m₁ S, R m₁.cell b v S → Grown m m₁ S → Ends N₂ (k b) m₁ (n - N₁) P (Untouched m₁)) :
    Ends (N₁ + N₂) (x >>= fun b => unwinding (d b) (k b)) m n P (Untouched m) := by
  refine Ends.bind hx ?_
  rintro b m₁ ⟨S, r, g⟩
  refine Ends.unwinding (hk b m₁ S r g) fun m₂ u => ?_
  obtain ⟨m₃, e₃, s₃⟩ := hd b S m₂ (by rw [u.cell]; exact r) g.nodup
  exact ⟨m₃, e₃, untouched_of w g u s₃⟩

theorem copiesQ_ptr {α} {R : Cells → Addr → α → List Addr → Prop} {v : Option α} {f : Addr → Q Addr}
    (h : ∀ x ∈ v, CopiesQ R f x) : CopiesQ (PtrR R) (mapPtrQ f) v := by
  cases v with
  | none =>
    refine ⟨0, fun b S m n w hR => ?_⟩
    cases b with
    | none => exact ends_pure ⟨[], rfl, .refl w⟩
    | some => exact hR.elim
  | some v =>
    obtain ⟨N, h⟩ := h v rfl
    refine ⟨N, fun b S m n w hR => ?_⟩
    cases b with
    | none => exact hR.elim
    | some b =>
      have := Ends.bind (N₂ := 0) (f := fun a => (pure (some a) : Q (Option Addr))) (h b S m n w hR)
        (P₂ := fun b m' => ∃ S, PtrR R m'.cell b (some v) S ∧ Grown m m' S)
        (by rintro a m' ⟨S, r, g⟩; exact ends_pure ⟨S, r, g⟩)
      exact this

theorem copiesQ_vec {α β} {R : Cells → β → α → List Addr → Prop} {vs : List α} {f : β → Q β} {d : β → P Unit}
    (hf : ∀ x ∈ vs, Framed R x) (ha : ∀ x ∈ vs, Alive R x) (hd : ∀ x ∈ vs, Destroys R d x)
    (h : ∀ x ∈ vs, CopiesQ R f x) : CopiesQ (VecR R) (mapVecQ d f) vs := by
  induction vs with
  | nil =>
    refine ⟨0, fun b S m n w hR => ?_⟩
    cases b with
    | nil => exact ends_pure ⟨[], rfl, .refl w⟩
    | cons => exact hR.elim
  | cons v vs ih =>
    obtain ⟨N₁, h₁⟩ := h v (.head _)
    obtain ⟨N₂, h₂⟩ := ih (fun x hx => hf x (.tail _ hx)) (fun x hx => ha x (.tail _ hx))
      (fun x hx => hd x (.tail _ hx)) (fun x hx => h x (.tail _ hx))
    refine ⟨N₁ + N₂, fun b S m n w hR => ?_⟩
    cases b with
    | nil => exact hR.elim
    | cons b bs =>
      obtain ⟨S₁, S₂, r₁, r₂, rfl⟩ := hR
      have hf' := framed_vec fun x hx => hf x (.tail v hx)
      have ha' := alive_vec fun x hx => ha x (.tail v hx)
      show Ends _ (f b >>= fun b' => unwinding (d b') (mapVecQ d f bs) >>= fun bs' => pure (b' :: bs')) m n _ _
      refine Ends.bind (h₁ b S₁ m n w r₁) ?_
      rintro b' m₁ ⟨T₁, q₁, g₁⟩
      have key := Ends.unwinding (d := d b') (T' := Untouched m)
        (h₂ bs S₂ m₁ (n - N₁) g₁.wf (keep_grown hf' ha' w g₁ r₂)) (fun m₂ u => by
          obtain ⟨m₃, e₃, s₃⟩ := hd v (.head _) b' T₁ m₂ (by rw [u.cell]; exact q₁) g₁.nodup
          exact ⟨m₃, e₃, untouched_of w g₁ u s₃⟩)
      refine Ends.bind (N₂ := 0) key ?_
      rintro bs' m₂ ⟨T₂, q₂, g₂⟩
      exact ends_pure ⟨T₁ ++ T₂, ⟨T₁, T₂, keep_grown (hf v (.head _)) (ha v (.head _)) g₁.wf g₂ q₁, q₂, rfl⟩, g₁.trans g₂⟩

/-- The last step: put the object on top of its copied parts. -/
theorem ends_alloc {β} {m m₁ : Mem} {T : List Addr} (g : Grown m m₁ T) (o : Obj) {n : Nat}
    {R : Cells → Addr → β → List Addr → Prop} {v : β} {T' : Mem → Prop}
    (h : R (m₁.push o).cell m₁.fresh v (m₁.fresh :: T)) :
    Ends 0 (lift (alloc o)) m₁ n (fun b m' => ∃ S, R m'.cell b v S ∧ Grown m m' S) T' :=
  ends_lift (alloc_ok m₁ o) ⟨_, h, grown_top g o⟩

theorem copiesQ_pipe (v : Pipe) : CopiesQ HoldsPipe clonePipeQ v := by
  have main : ∀ v : Pipe, CopiesQ (PtrR HoldsPipe) (mapPtrQ clonePipeQ) v.rest → CopiesQ HoldsPipe clonePipeQ v := by
    rintro v ⟨N, h⟩
    refine ⟨1 + (N + (1 + 0)), fun b S m n w hR => ?_⟩
    obtain ⟨nx, Sr, hb, k, rfl⟩ := holds_pipe.mp hR
    rw [clonePipeQ]
    refine Ends.after (Untouched.refl m) (Ends.read (load_ok hb) ?_)
    refine Ends.bind (h nx Sr m _ w k) ?_
    rintro nx' m₁ ⟨T, r, g⟩
    refine Ends.bind (P₁ := fun _ m' => m' = m₁) (Ends.unwinding (ends_request rfl (Untouched.refl m₁)) fun m₂ u => ?_) ?_
    · obtain ⟨m₃, e₃, s₃⟩ := destroys_ptr (fun y _ => destroys_pipe y) nx' T m₂ (by rw [u.cell]; exact r) g.nodup
      exact ⟨m₃, e₃, untouched_of w g u s₃⟩
    · rintro _ _ rfl
      refine ends_alloc g _ (holds_pipe.mpr ⟨nx', T, push_self _ _, ?_, rfl⟩)
      exact keep_grown (framed_pipes _) (alive_pipes _) g.wf (grown_push g.wf _) r
  induction v with
  | last t => exact main _ (copiesQ_ptr fun x hx => by cases hx)
  | cons t p ih => exact main _ (copiesQ_ptr fun x hx => by cases hx; exact ih)

theorem copiesQ_test (v : ValueTest) : CopiesQ HoldsTest cloneTestQ v := by
  have neg : ∀ (v : ValueTest) (o : Option ValueTest), CopiesQ (PtrR HoldsTest) (mapPtrQ cloneTestQ) o →
      (∀ c a S, HoldsTest c a v S ↔ ∃ q S', c a = some (.negateTest q) ∧ HoldsPtr (HoldsTest c) q o S' ∧ S = a :: S') →
      CopiesQ HoldsTest cloneTestQ v := by
    rintro v o ⟨N, h⟩ hv
    refine ⟨1 + (N + 0), fun b S m n w hR => ?_⟩
    obtain ⟨nx, Sr, hb, k, rfl⟩ := (hv _ _ _).mp hR
    rw [cloneTestQ]
    refine Ends.after (Untouched.refl m) (Ends.read (load_ok hb) ?_)
    refine Ends.bind (h nx Sr m _ w k) ?_
    rintro nx' m₁ ⟨T, r, g⟩
    refine ends_alloc g _ ((hv _ _ _).mpr ⟨nx', T, push_self _ _, ?_, rfl⟩)
    exact keep_grown (framed_ptr fun x _ => framed_test x) (alive_ptr fun x _ => alive_test x) g.wf (grown_push g.wf _) r
  induction v with
  | negate t ih =>
    refine neg _ (some t) (copiesQ_ptr fun x hx => by cases hx; exact ih) fun c a S => ?_
    constructor
    · rintro ⟨b, S', h, h', rfl⟩; exact ⟨some b, S', h, h', rfl⟩
    · rintro ⟨q, S', h, h', rfl⟩
      cases q with
      | none => exact h'.elim
      | some b => exact ⟨b, S', h, h', rfl⟩
  | negateNull =>
    refine neg _ none (copiesQ_ptr fun x hx => by cases hx) fun c a S => ?_
    constructor
    · rintro ⟨h, rfl⟩; exact ⟨none, [], h, rfl, rfl⟩
    · rintro ⟨q, S', h, h', rfl⟩
      cases q with
      | none => cases (show S' = [] from h'); exact ⟨h, rfl⟩
      | some b => exact h'.elim
  | _ =>
    refine ⟨1 + (1 + 0), fun b S m n w hR => ?_⟩
    obtain ⟨hb, rfl⟩ := hR
    rw [cloneTestQ]
    refine Ends.after (Untouched.refl m) (Ends.read (load_ok hb) (Ends.after (Untouched.refl m) ?_))
    exact ends_lift (alloc_ok m _) ⟨_, ⟨push_self _ _, rfl⟩, grown_push w _⟩

theorem copiesQ_match (v : Match) : CopiesQ HoldsMatch cloneMatchQ v := by
  induction v using match_cases with
  | attr nm t =>
    obtain ⟨N, h⟩ := copiesQ_ptr (v := t) (R := HoldsTest) fun x _ => copiesQ_test x
    refine ⟨1 + (1 + (N + 0)), fun b S m n w hR => ?_⟩
    obtain ⟨q, S', hb, h', rfl⟩ := holds_attribute.mp hR
    rw [cloneMatchQ]
    refine Ends.after (Untouched.refl m) (Ends.read (load_ok hb) (Ends.after (Untouched.refl m) ?_))
    refine Ends.bind (h q S' m _ w h') ?_
    rintro q' m₁ ⟨T, r, g⟩
    refine ends_alloc g _ (holds_attribute.mpr ⟨q', T, push_self _ _, ?_, rfl⟩)
    exact keep_grown (framed_ptr fun x _ => framed_test x) (alive_ptr fun x _ => alive_test x) g.wf (grown_push g.wf _) r
  | functionValue nm t =>
    obtain ⟨N, h⟩ := copiesQ_ptr (v := t) (R := HoldsTest) fun x _ => copiesQ_test x
    refine ⟨1 + (1 + (N + 0)), fun b S m n w hR => ?_⟩
    obtain ⟨q, S', hb, h', rfl⟩ := holds_functionValue.mp hR
    rw [cloneMatchQ]
    refine Ends.after (Untouched.refl m) (Ends.read (load_ok hb) (Ends.after (Untouched.refl m) ?_))
    refine Ends.bind (h q S' m _ w h') ?_
    rintro q' m₁ ⟨T, r, g⟩
    refine ends_alloc g _ (holds_functionValue.mpr ⟨q', T, push_self _ _, ?_, rfl⟩)
    exact keep_grown (framed_ptr fun x _ => framed_test x) (alive_ptr fun x _ => alive_test x) g.wf (grown_push g.wf _) r
  | negate ms ih =>
    have hf : ∀ x ∈ ms, Framed (PtrR HoldsMatch) x := fun x _ => framed_ptr fun y _ => framed_match y
    have ha : ∀ x ∈ ms, Alive (PtrR HoldsMatch) x := fun x _ => alive_ptr fun y _ => alive_match y
    obtain ⟨N, h⟩ := copiesQ_vec (d := onPtr destroyMatch) hf ha (fun x _ => destroys_ptr fun y _ => destroys_match y)
      (fun x hx => copiesQ_ptr (ih x hx))
    refine ⟨1 + (1 + (N + 0)), fun b S m n w hR => ?_⟩
    obtain ⟨q, S', hb, h', rfl⟩ := holds_negate.mp hR
    rw [cloneMatchQ]
    refine Ends.after (Untouched.refl m) (Ends.read (load_ok hb) (Ends.after (Untouched.refl m) ?_))
    refine Ends.bind (h q S' m _ w h') ?_
    rintro q' m₁ ⟨T, r, g⟩
    refine ends_alloc g _ (holds_negate.mpr ⟨q', T, push_self _ _, ?_, rfl⟩)
    exact keep_grown (framed_vec hf) (alive_vec ha) g.wf (grown_push g.wf _) r
  | plain v hm =>
    refine ⟨1 + (1 + 0), fun b S m n w hR => ?_⟩
    obtain ⟨hb, rfl⟩ := (holds_plain hm).mp hR
    rw [cloneMatchQ]
    refine Ends.after (Untouched.refl m) (Ends.read (load_ok hb) (Ends.after (Untouched.refl m) ?_))
    exact ends_lift (alloc_ok m _) ⟨_, (holds_plain hm).mpr ⟨push_self _ _, rfl⟩, grown_push w _⟩

theorem copiesQ_capture (v : Capture) : CopiesQ HoldsCapture cloneCaptureQ v := by
  cases v with
  | «attribute» attr nm p =>
    obtain ⟨N, h⟩ := copiesQ_ptr (v := p) (R := HoldsPipe) fun x _ => copiesQ_pipe x
    refine ⟨1 + (1 + (1 + (N + 0))), fun b S m n w hR => ?_⟩
    obtain ⟨q, S', hb, h', rfl⟩ := hR
    unfold cloneCaptureQ
    refine Ends.after (Untouched.refl m) (Ends.read (load_ok hb) (Ends.after (Untouched.refl m)
      (Ends.after (Untouched.refl m) ?_)))
    refine Ends.bind (h q S' m _ w h') ?_
    rintro q' m₁ ⟨T, r, g⟩
    refine ends_alloc (R := HoldsCapture) g _ ⟨q', T, push_self _ _, ?_, rfl⟩
    exact keep_grown (framed_pipes _) (alive_pipes _) g.wf (grown_push g.wf _) r
  | function f nm p =>
    obtain ⟨N, h⟩ := copiesQ_ptr (v := p) (R := HoldsPipe) fun x _ => copiesQ_pipe x
    refine ⟨1 + (1 + (1 + (N + 0))), fun b S m n w hR => ?_⟩
    obtain ⟨q, S', hb, h', rfl⟩ := hR
    unfold cloneCaptureQ
    refine Ends.after (Untouched.refl m) (Ends.read (load_ok hb) (Ends.after (Untouched.refl m)
      (Ends.after (Untouched.refl m) ?_)))
    refine Ends.bind (h q S' m _ w h') ?_
    rintro q' m₁ ⟨T, r, g⟩
    refine ends_alloc (R := HoldsCapture) g _ ⟨q', T, push_self _ _, ?_, rfl⟩
    exact keep_grown (framed_pipes _) (alive_pipes _) g.wf (grown_push g.wf _) r

/-- One more request before each copy. -/
theorem copiesQ_new {α} {R : Cells → Addr → α → List Addr → Prop} {v : α} {f : Addr → Q Addr} (h : CopiesQ R f v) :
    CopiesQ R (fun p => do request; f p) v := by
  obtain ⟨N, h⟩ := h
  exact ⟨1 + N, fun b S m n w hR => Ends.after (Untouched.refl m) (h b S m _ w hR)⟩

theorem copiesQ_rule (r : Rule) : CopiesQ HoldsRule copyRuleQ r := by
  induction r using rule_induct with
  | mk i ch nx ns hc hn hns =>
    have fc : Framed (PtrR HoldsRule) ch := framed_ptr fun x _ => framed_rule x
    have fn : Framed (PtrR HoldsRule) nx := framed_ptr fun x _ => framed_rule x
    have fs : Framed (VecR HoldsRule) ns := framed_vec fun x _ => framed_rule x
    have ac : Alive (PtrR HoldsRule) ch := alive_ptr fun x _ => alive_rule x
    have an : Alive (PtrR HoldsRule) nx := alive_ptr fun x _ => alive_rule x
    have as : Alive (VecR HoldsRule) ns := alive_vec fun x _ => alive_rule x
    obtain ⟨N₃, h₃⟩ := copiesQ_vec (d := destroyRule) (fun x _ => framed_rule x) (fun x _ => alive_rule x)
      (fun x _ => destroys_rule x) hns
    obtain ⟨N₁, h₁⟩ := copiesQ_ptr fun x hx => copiesQ_new (hc x hx)
    obtain ⟨N₂, h₂⟩ := copiesQ_ptr fun x hx => copiesQ_new (hn x hx)
    obtain ⟨N₄, h₄⟩ := copiesQ_vec (R := PtrR HoldsMatch) (d := onPtr destroyMatch) (vs := i.ms)
      (fun _ _ => framed_ptr fun y _ => framed_match y) (fun _ _ => alive_ptr fun y _ => alive_match y)
      (fun _ _ => destroys_ptr fun y _ => destroys_match y) (fun _ _ => copiesQ_ptr fun y _ => copiesQ_match y)
    obtain ⟨N₅, h₅⟩ := copiesQ_vec (R := PtrR HoldsCapture) (d := onPtr destroyCapture) (vs := i.caps)
      (fun _ _ => framed_ptr fun y _ => framed_capture y) (fun _ _ => alive_ptr fun y _ => alive_capture y)
      (fun _ _ => destroys_ptr fun y _ => destroys_capture y) (fun _ _ => copiesQ_ptr fun y _ => copiesQ_capture y)
    refine ⟨1 + (N₃ + (1 + (N₁ + (N₂ + (1 + (N₄ + (1 + (N₅ + 0)))))))), fun b S m n w hR => ?_⟩
    obtain ⟨o, S₁, S₂, S₃, S₄, S₅, hb, p, rfl⟩ := holds_rule.mp hR
    rw [copyRuleQ]
    refine Ends.read (loadRule_ok hb) (Ends.after (Untouched.refl m) ?_)
    refine own (destroys_vec (fun x _ => framed_rule x) fun x _ => destroys_rule x) w (h₃ o.nested S₃ m _ w p.nested) ?_
    intro b₃ m₁ T₃ r₃ g₁
    refine Ends.after (Untouched.refl m₁) ?_
    refine own (destroys_ptr fun x _ => destroys_rule x) g₁.wf (h₁ o.child S₁ m₁ _ g₁.wf (keep_grown fc ac w g₁ p.child)) ?_
    intro b₁ m₂ T₁ r₁ g₂
    have g₁₂ := g₁.trans g₂
    refine own (destroys_ptr fun x _ => destroys_rule x) g₂.wf (h₂ o.next S₂ m₂ _ g₂.wf (keep_grown fn an w g₁₂ p.next)) ?_
    intro b₂ m₃ T₂ r₂ g₃
    have g₁₃ := g₁₂.trans g₃
    refine Ends.after (Untouched.refl m₃) ?_
    refine own (destroys_vec (Q := PtrR HoldsMatch) (fun _ _ => framed_ptr fun y _ => framed_match y)
      fun _ _ => destroys_ptr fun y _ => destroys_match y) g₃.wf
      (h₄ o.ms S₄ m₃ _ g₃.wf (keep_grown (framed_matches _) (alive_matches _) w g₁₃ p.ms)) ?_
    intro b₄ m₄ T₄ r₄ g₄
    have g₁₄ := g₁₃.trans g₄
    refine Ends.after (Untouched.refl m₄) ?_
    refine Ends.bind (h₅ o.caps S₅ m₄ _ g₄.wf (keep_grown (framed_captures _) (alive_captures _) w g₁₄ p.caps)) ?_
    rintro b₅ m₅ ⟨T₅, r₅, g₅⟩
    have g₁₅ := g₁₄.trans g₅
    have gp := fun (o : Obj) => grown_push g₅.wf o
    refine ends_lift (alloc_ok m₅ _) ⟨m₅.fresh :: (T₁ ++ (T₂ ++ (T₃ ++ (T₄ ++ T₅)))),
      holds_rule.mpr ⟨_, T₁, T₂, T₃, T₄, T₅, push_self _ _, ⟨?_, ?_, ?_, ?_, ?_, ?_, ?_, ?_, ?_⟩, rfl⟩,
      (grown_top g₁₅ _).perm ?_⟩
    · exact p.tag
    · exact p.optional
    · exact p.greedy
    · exact p.tagname
    · exact keep_grown fc ac g₂.wf (((g₃.trans g₄).trans g₅).trans (gp _)) r₁
    · exact keep_grown fn an g₃.wf ((g₄.trans g₅).trans (gp _)) r₂
    · exact keep_grown fs as g₁.wf ((((g₂.trans g₃).trans g₄).trans g₅).trans (gp _)) r₃
    · exact keep_grown (framed_matches _) (alive_matches _) g₄.wf (g₅.trans (gp _)) r₄
    · exact keep_grown (framed_captures _) (alive_captures _) g₅.wf (gp _) r₅
    · refine List.Perm.cons _ ?_
      simp only [List.append_assoc]
      refine (List.perm_append_comm_assoc T₃ T₁ _).trans (List.Perm.append_left T₁ ?_)
      exact List.perm_append_comm_assoc T₃ T₂ _

end Hext.Mem
