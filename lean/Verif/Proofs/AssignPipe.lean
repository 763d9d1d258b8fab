import Verif.Proofs.Assign
import Verif.Spec.Assign
/-!
# Assigning and appending transformations: lemmas
-/

namespace Hext

/-- The first transformation of a chain. -/
def Pipe.first : Pipe → Transform
  | .last t | .cons t _ => t

/-- The transformations after the first one. -/
def Pipe.rest : Pipe → Option Pipe
  | .last _ => none
  | .cons _ p => some p

theorem Pipe.ext_parts {p q : Pipe} (h : p.first = q.first) (k : p.rest = q.rest) : p = q := by
  cases p <;> cases q <;> simp_all [Pipe.first, Pipe.rest]

theorem Pipe.list_inj : ∀ {p q : Pipe}, p.list = q.list → p = q
  | .last _, .last _, h => by simp_all [Pipe.list]
  | .last _, .cons _ q, h => by cases q <;> simp [Pipe.list] at h
  | .cons _ p, .last _, h => by cases p <;> simp [Pipe.list] at h
  | .cons _ p, .cons _ q, h => by
    simp only [Pipe.list, List.cons.injEq] at h
    rw [h.1, Pipe.list_inj h.2]

theorem Pipe.list_append (p q : Pipe) : (p.append q).list = p.list ++ q.list := by
  induction p with
  | last t => rfl
  | cons t p ih => simp [Pipe.append, Pipe.list, ih]

/-- Append a chain that may be null. -/
def Pipe.appendPtr (p : Pipe) : Option Pipe → Pipe
  | none => p
  | some q => p.append q

end Hext

namespace Hext.Mem

theorem throw_bind {α β} {x : P α} {f : α → P β} {m : Mem} {e : Err} (h : x m = throw e) :
    (x >>= f) m = throw e := by
  show (x m >>= fun p => f p.1 p.2) = _
  rw [h]; rfl

theorem load_ub {m : Mem} {a : Addr} (h : m.cell a = none) : load a m = throw .ub := by
  unfold load
  simp only [bind, StateT.bind, ExceptT.bind, get, getThe, MonadStateOf.get, StateT.get, pure, ExceptT.pure, ExceptT.mk]
  simp [h, ExceptT.bindCont]
  rfl

theorem loadPipe_ub {m : Mem} {a : Addr} (h : m.cell a = none) : loadPipe a m = throw .ub := by
  unfold loadPipe
  exact throw_bind (load_ub h)

theorem loadPipe_ok {m : Mem} {a : Addr} {t : Transform} {n : Option Addr}
    (h : m.cell a = some (.pipe t n)) : loadPipe a m = pure ((t, n), m) := by
  unfold loadPipe
  rw [bind_ok (load_ok h)]
  rfl

theorem holds_pipe {c : Cells} {a : Addr} {v : Pipe} {S : List Addr} : HoldsPipe c a v S ↔
    ∃ n S', c a = some (.pipe v.first n) ∧ HoldsPtr (HoldsPipe c) n v.rest S' ∧ S = a :: S' := by
  cases v with
  | last t =>
    constructor
    · rintro ⟨h, rfl⟩; exact ⟨none, [], h, rfl, rfl⟩
    · rintro ⟨n, S', h, k, rfl⟩
      cases n with
      | none => cases (show S' = [] from k); exact ⟨h, rfl⟩
      | some x => exact k.elim
  | cons t p =>
    constructor
    · rintro ⟨b, S', h, k, rfl⟩; exact ⟨some b, S', h, k, rfl⟩
    · rintro ⟨n, S', h, k, rfl⟩
      cases n with
      | none => exact k.elim
      | some x => exact ⟨x, S', h, k, rfl⟩

theorem pipe_unique (v v' : Pipe) : ∀ {c : Cells} {a : Addr} {S S' : List Addr}, HoldsPipe c a v S → HoldsPipe c a v' S' →
    v = v' ∧ S = S' := by
  induction v generalizing v' with
  | last t =>
    intro c a S S' h h'
    obtain ⟨h, rfl⟩ := h
    cases v' with
    | last t' =>
      obtain ⟨h', rfl⟩ := h'
      rw [h] at h'
      injection h' with h'
      injection h' with h'
      exact ⟨by rw [h'], rfl⟩
    | cons t' p =>
      obtain ⟨b, _, h', _⟩ := h'
      rw [h] at h'
      injection h' with h'
      injection h' with _ h'
      cases h'
  | cons t p ih =>
    intro c a S S' h h'
    obtain ⟨b, Sr, h, k, rfl⟩ := h
    cases v' with
    | last t' =>
      obtain ⟨h', rfl⟩ := h'
      rw [h] at h'
      injection h' with h'
      injection h' with _ h'
      cases h'
    | cons t' p' =>
      obtain ⟨b', Sr', h', k', rfl⟩ := h'
      rw [h] at h'
      injection h' with h'
      injection h' with h₁ h₂
      injection h₂ with h₂
      subst h₁ h₂
      obtain ⟨rfl, rfl⟩ := ih p' k k'
      exact ⟨rfl, rfl⟩

theorem holds_pipe_length (v : Pipe) : ∀ {c : Cells} {a : Addr} {S : List Addr}, HoldsPipe c a v S →
    v.list.length = S.length := by
  induction v with
  | last t => intro c a S h; obtain ⟨_, rfl⟩ := h; rfl
  | cons t p ih =>
    intro c a S h
    obtain ⟨b, Sr, _, k, rfl⟩ := h
    simp [Pipe.list, ih k]

theorem framed_pipes (v : Option Pipe) : Framed (PtrR HoldsPipe) v := framed_ptr fun y _ => framed_pipe y
theorem alive_pipes (v : Option Pipe) : Alive (PtrR HoldsPipe) v := alive_ptr fun y _ => alive_pipe y

/-! ## Appending -/

theorem appendPipe_ok (v : Pipe) : ∀ {m : Mem}, m.Wf → ∀ {a : Addr} {S S' : List Addr} {p : Option Addr} {pv : Option Pipe},
    HoldsPipe m.cell a v S → HoldsPtr (HoldsPipe m.cell) p pv S' → (S ++ S').Nodup →
    ∃ m', appendPipe a p m = pure ((), m') ∧ HoldsPipe m'.cell a (v.appendPtr pv) (S ++ S') ∧
      Changed m m' (S ++ S') (S ++ S') := by
  induction v with
  | last t =>
    intro m w a S S' p pv h hp hn
    obtain ⟨h, rfl⟩ := h
    obtain ⟨na, nS⟩ := List.nodup_cons.mp (show (a :: S').Nodup from hn)
    have hl : ∀ x ∈ S', x < m.fresh := fun x hx => w x (alive_pipes _ _ _ _ hp x hx)
    refine ⟨m.put a (.pipe t p), ?_, ?_, ?_⟩
    · rw [appendPipe, bind_ok (loadPipe_ok h)]
      exact store_ok (by rw [h]; rfl) _
    · refine holds_pipe.mpr ⟨p, S', ?_, ?_, rfl⟩
      · have : ((Pipe.last t).appendPtr pv).first = t := by cases pv <;> rfl
        rw [this]; simp [Mem.put]
      · have : ((Pipe.last t).appendPtr pv).rest = pv := by cases pv <;> rfl
        rw [this]
        refine framed_pipes _ _ _ _ _ hp fun x hx => ?_
        have : x ≠ a := fun k => na (k ▸ hx)
        simp [Mem.put, this]
    · exact (changed_put w (by rw [h]; rfl) _).beside (rest := S') nS hl
        (fun x hx k => na ((List.mem_singleton.mp k) ▸ hx))
  | cons t q ih =>
    intro m w a S S' p pv h hp hn
    obtain ⟨b, Sr, h, h', rfl⟩ := h
    obtain ⟨na, nS⟩ := List.nodup_cons.mp (show (a :: (Sr ++ S')).Nodup from hn)
    obtain ⟨m', e, r, c⟩ := ih w h' hp nS
    have hal := w a (by rw [h]; rfl)
    refine ⟨m', ?_, ?_, ?_⟩
    · rw [appendPipe, bind_ok (loadPipe_ok h)]
      exact e
    · refine holds_pipe.mpr ⟨some b, Sr ++ S', ?_, ?_, rfl⟩
      · have : ((Pipe.cons t q).appendPtr pv).first = t := by cases pv <;> rfl
        rw [this, c.others a hal na, h]
      · have : ((Pipe.cons t q).appendPtr pv).rest = some (q.appendPtr pv) := by cases pv <;> rfl
        rw [this]; exact r
    · exact ((c.beside (rest := [a]) (by simp) (by simpa using hal) (by simpa using na)).perm
        (by perm)).old fun x => by simp only [List.mem_append, List.mem_cons, List.not_mem_nil]; grind

/-! ## Assigning -/

/-- `this->next_ = p`. -/
theorem setNext_ok {m : Mem} {a : Addr} {v : Pipe} {S : List Addr} (h : HoldsPipe m.cell a v S)
    (hS : S.Nodup) (p : Option Addr) :
    ∃ m₂ So, S = a :: So ∧ setNext a p m = pure ((), m₂) ∧ m₂.fresh = m.fresh ∧
      ∀ x, m₂.cell x = if x ∈ So then none else if x = a then some (.pipe v.first p) else m.cell x := by
  obtain ⟨n, So, h₀, k, rfl⟩ := holds_pipe.mp h
  obtain ⟨na, nS⟩ := List.nodup_cons.mp hS
  have k₁ : HoldsPtr (HoldsPipe (m.put a (.pipe v.first p)).cell) n v.rest So := by
    refine framed_pipes _ _ _ _ _ k fun x hx => ?_
    have : x ≠ a := fun k => na (k ▸ hx)
    simp [Mem.put, this]
  obtain ⟨m₂, e₂, s₂⟩ := destroys_ptr (fun y _ => destroys_pipe y) n So _ k₁ nS
  refine ⟨m₂, So, rfl, ?_, s₂.fresh, fun x => s₂.cell x⟩
  unfold setNext
  rw [bind_ok (loadPipe_ok h₀)]
  dsimp only
  rw [bind_ok (store_ok (by rw [h₀]; rfl) _)]
  exact e₂

/-- What happens after the old chain is gone. -/
theorem copyNext_ok {m : Mem} (w : m.Wf) {a b : Addr} {v : Pipe} {S : List Addr} {t : Transform}
    (ha : m.cell a = some (.pipe t none)) (hb : HoldsPipe m.cell b v S) :
    ∃ m' T y, ((do
        let (_, next) ← loadPipe b
        match next with
        | none => pure ()
        | some n => do
          let n' ← clonePipe n
          setNext a (some n')) : P Unit) m = pure ((), m') ∧
      m'.cell a = some (.pipe t y) ∧ HoldsPtr (HoldsPipe m'.cell) y v.rest T ∧ a ∉ T ∧
      Changed m m' [a] (a :: T) := by
  obtain ⟨n, Sr, hb, k, rfl⟩ := holds_pipe.mp hb
  have hal := w a (by rw [ha]; rfl)
  cases n with
  | none =>
    have hr : v.rest = none := by
      cases hv : v.rest with
      | none => rfl
      | some p => rw [hv] at k; exact k.elim
    refine ⟨m, [], none, ?_, ha, by rw [hr]; rfl, by simp, ?_⟩
    · rw [bind_ok (loadPipe_ok hb)]; rfl
    · exact ⟨Nat.le_refl _, w, fun _ _ _ => rfl, by simp, fun x hx => .inl hx, fun x hx => by
        by_cases hx' : x = a
        · exact .inl (by simp [hx'])
        · exact .inr ⟨w x hx, by simpa using hx'⟩⟩
  | some x =>
    obtain ⟨p, hr⟩ : ∃ p, v.rest = some p := by
      cases hv : v.rest with
      | none => rw [hv] at k; exact k.elim
      | some p => exact ⟨p, rfl⟩
    rw [hr] at k
    obtain ⟨x', T, m₁, e₁, r₁, g₁⟩ := copies_pipe p x Sr m w k
    have hT : ∀ y ∈ T, m.fresh ≤ y := fun y hy => ((g₁.mem y).mp hy).1
    have naT : a ∉ T := fun k => by have := hT a k; omega
    have ha₁ : m₁.cell a = some (.pipe t none) := by rw [g₁.same a hal, ha]
    refine ⟨m₁.put a (.pipe t (some x')), T, some x', ?_, by simp [Mem.put], ?_, naT, ?_⟩
    · rw [bind_ok (loadPipe_ok hb)]
      dsimp only
      rw [bind_ok e₁]
      unfold setNext
      rw [bind_ok (loadPipe_ok ha₁)]
      dsimp only
      rw [bind_ok (store_ok (by rw [ha₁]; rfl) _)]
      rfl
    · rw [hr]
      refine framed_pipe p _ _ _ _ r₁ fun y hy => ?_
      have : y ≠ a := fun k => naT (k ▸ hy)
      simp [Mem.put, this]
    · have c₁ := g₁.changed.beside (rest := [a]) (by simp) (by simpa using hal) (by simp)
      have c₂ := (changed_put g₁.wf (by rw [ha₁]; rfl) (.pipe t (some x'))).beside (rest := T) g₁.nodup
        (fun y hy => ((g₁.mem y).mp hy).2) (fun y hy k => naT (by rw [List.mem_singleton.mp k] at hy; exact hy))
      exact (c₁.perm (List.perm_append_comm (l₂ := [a]))).trans c₂

/-- The whole operator after the old chain is gone. -/
theorem assignPipe_after {m m₂ : Mem} (w₂ : m₂.Wf) {a b : Addr} {v : Pipe} {S : List Addr} {t : Transform}
    (hab : a ≠ b) (e : setNext a none m = pure ((), m₂)) (ha : m₂.cell a = some (.pipe t none))
    (hb : HoldsPipe m₂.cell b v S) :
    ∃ m' T, assignPipe a b m = pure ((), m') ∧ HoldsPipe m'.cell a v T ∧ Changed m₂ m' [a] T := by
  obtain ⟨m₃, T, y, e₃, ha₃, hy, naT, c₃⟩ := copyNext_ok w₂ ha hb
  obtain ⟨n, Sr, hbc, _, rfl⟩ := holds_pipe.mp hb
  have hbl := w₂ b (by rw [hbc]; rfl)
  have hb₃ : m₃.cell b = some (.pipe v.first n) := by
    rw [c₃.others b hbl (by simpa using Ne.symm hab), hbc]
  have eb : assignPipeBase a b m = pure ((), m₃) := by
    unfold assignPipeBase
    rw [if_neg hab, bind_ok e]
    exact e₃
  refine ⟨m₃.put a (.pipe v.first y), a :: T, ?_, holds_pipe.mpr ⟨y, T, by simp [Mem.put], ?_, rfl⟩, ?_⟩
  · unfold assignPipe
    rw [bind_ok eb, bind_ok (loadPipe_ok hb₃)]
    dsimp only
    rw [bind_ok (loadPipe_ok ha₃)]
    exact store_ok (by rw [ha₃]; rfl) _
  · refine framed_pipes _ _ _ _ _ hy fun x hx => ?_
    have : x ≠ a := fun k => naT (k ▸ hx)
    simp [Mem.put, this]
  · have nT := (List.nodup_cons.mp c₃.nodup).2
    have c₄ := (changed_put c₃.wf (by rw [ha₃]; rfl) (.pipe v.first y)).beside (rest := T) nT
      (fun x hx => c₃.wf x (alive_pipes _ _ _ _ hy x hx))
      (fun x hx k => naT (by rw [List.mem_singleton.mp k] at hx; exact hx))
    exact c₃.trans c₄

/-- Clearing a chain, as a change. -/
theorem setNext_changed {m m₂ : Mem} (w : m.Wf) {a : Addr} {So : List Addr} {o : Obj} (hn : (a :: So).Nodup)
    (hal : a < m.fresh) (hf : m₂.fresh = m.fresh)
    (hc : ∀ x, m₂.cell x = if x ∈ So then none else if x = a then some o else m.cell x) :
    Changed m m₂ (a :: So) [a] := by
  obtain ⟨na, nS⟩ := List.nodup_cons.mp hn
  refine ⟨Nat.le_of_eq hf.symm, fun x hx => ?_, fun x _ hx => ?_, by simp, fun x hx => .inl ?_, fun x hx => ?_⟩
  · rw [hf]
    rw [hc] at hx
    split at hx
    · cases hx
    · split at hx
      · next e => rw [e]; exact hal
      · exact w x hx
  · simp only [List.mem_cons, not_or] at hx
    rw [hc, if_neg hx.2, if_neg hx.1]
  · rw [List.mem_singleton.mp hx]; exact .head _
  · rw [hc] at hx
    split at hx
    · cases hx
    · next h₁ =>
      split at hx
      · next e => exact .inl (by simp [e])
      · next h₂ => exact .inr ⟨w x hx, by simp [h₁, h₂]⟩

theorem assignPipe_disjoint {m : Mem} (w : m.Wf) {a b : Addr} {v v' : Pipe} {S S' : List Addr}
    (ha : HoldsPipe m.cell a v S) (hb : HoldsPipe m.cell b v' S') (hS : S.Nodup) (hd : ∀ x ∈ S', x ∉ S) :
    ∃ m' T, assignPipe a b m = pure ((), m') ∧ HoldsPipe m'.cell a v' T ∧ Changed m m' S T := by
  obtain ⟨m₂, So, rfl, e, hf, hc⟩ := setNext_ok ha hS none
  obtain ⟨na, nS⟩ := List.nodup_cons.mp hS
  have hal := w a (alive_pipe v a _ _ ha a (.head _))
  have c₂ := setNext_changed w hS hal hf hc
  have hab : a ≠ b := by
    obtain ⟨_, _, _, _, rfl⟩ := holds_pipe.mp hb
    exact fun k => hd b (.head _) (k ▸ .head _)
  obtain ⟨m', T, e', r', c'⟩ := assignPipe_after c₂.wf hab e (by rw [hc, if_neg na, if_pos rfl]) (v := v') (S := S')
    (framed_pipe v' _ _ _ _ hb fun x hx => by
      have := hd x hx
      simp only [List.mem_cons, not_or] at this
      rw [hc, if_neg this.2, if_neg this.1])
  exact ⟨m', T, e', r', c₂.trans c'⟩

/-- Assigning a transformation to itself changes nothing. -/
theorem assignPipe_self {m : Mem} {a : Addr} {v : Pipe} {S : List Addr} (ha : HoldsPipe m.cell a v S) :
    assignPipe a a m = pure ((), m) := by
  obtain ⟨n, S', h, _, _⟩ := holds_pipe.mp ha
  unfold assignPipe assignPipeBase
  rw [if_pos rfl, bind_ok (a := ()) (m' := m) rfl, bind_ok (loadPipe_ok h)]
  dsimp only
  rw [bind_ok (loadPipe_ok h)]
  dsimp only
  rw [store_ok (by rw [h]; rfl)]
  congr 2
  simp only [Mem.put]
  congr 1
  funext x
  split
  · next e => rw [e, h]
  · rfl

/-- Assigning from a later part of the own chain reads deleted memory. -/
theorem assignPipe_tail_ub {m : Mem} {a b : Addr} {v : Pipe} {S : List Addr}
    (ha : HoldsPipe m.cell a v S) (hS : S.Nodup) (hb : b ∈ S) (hab : a ≠ b) : assignPipe a b m = throw .ub := by
  obtain ⟨m₂, So, rfl, e, hf, hc⟩ := setNext_ok ha hS none
  have hb : b ∈ So := by
    cases hb with
    | head => exact absurd rfl hab
    | tail _ h => exact h
  unfold assignPipe
  refine throw_bind ?_
  unfold assignPipeBase
  rw [if_neg hab, bind_ok e]
  exact throw_bind (loadPipe_ub (by rw [hc, if_pos hb]))

/-! ## A chain that contains the assigned one -/

/-- Cut a chain after the object `a`. -/
theorem cut_chain (v : Pipe) : ∀ {c c' : Cells} {b a : Addr} {X Y : List Addr} {t : Transform},
    HoldsPipe c b v (X ++ a :: Y) → (X ++ a :: Y).Nodup →
    (∀ n, c a = some (.pipe t n) → c' a = some (.pipe t none)) → (∃ n, c a = some (.pipe t n)) →
    (∀ x ∈ X, c' x = c x) →
    ∃ u, HoldsPipe c' b u (X ++ [a]) ∧ u.list = v.list.take (X.length + 1) := by
  induction v with
  | last t' =>
    intro c c' b a X Y t h hn hc hc' hX
    obtain ⟨h, e⟩ := h
    have : X = [] ∧ a = b := by
      cases X with
      | nil => injection e with e _; exact ⟨rfl, e⟩
      | cons x X => injection e with _ e; simp at e
    obtain ⟨rfl, rfl⟩ := this
    obtain ⟨n, hn'⟩ := hc'
    have := hc n hn'
    rw [h] at hn'
    injection hn' with hn'
    injection hn' with h₁ h₂
    subst h₁
    exact ⟨.last t', ⟨this, rfl⟩, rfl⟩
  | cons t' q ih =>
    intro c c' b a X Y t h hn hc hc' hX
    obtain ⟨n, S', h, k, e⟩ := h
    cases X with
    | nil =>
      injection e with e e'
      subst e
      obtain ⟨n', hn'⟩ := hc'
      have := hc n' hn'
      rw [h] at hn'
      injection hn' with hn'
      injection hn' with h₁ h₂
      subst h₁
      exact ⟨.last t', ⟨this, rfl⟩, by simp [Pipe.list]⟩
    | cons x X =>
      injection e with e e'
      subst e e'
      obtain ⟨u, hu, hl⟩ := ih k (List.nodup_cons.mp hn).2 hc hc' fun y hy => hX y (.tail _ hy)
      exact ⟨.cons t' u, ⟨n, X ++ [a], by rw [hX x (.head _), h], hu, rfl⟩, by simp [Pipe.list, hl]⟩

/-- Every object of a chain is the start of a chain. -/
theorem tail_chain (v : Pipe) : ∀ {c : Cells} {b a : Addr} {X Y : List Addr},
    HoldsPipe c b v (X ++ a :: Y) → ∃ u, HoldsPipe c a u (a :: Y) := by
  induction v with
  | last t' =>
    intro c b a X Y h
    obtain ⟨h, e⟩ := h
    cases X with
    | nil => injection e with e e'; subst e e'; exact ⟨.last t', h, rfl⟩
    | cons x X => injection e with _ e; simp at e
  | cons t' q ih =>
    intro c b a X Y h
    obtain ⟨n, S', h, k, e⟩ := h
    cases X with
    | nil => injection e with e e'; subst e e'; exact ⟨.cons t' q, n, Y, h, k, rfl⟩
    | cons x X => injection e with e e'; subst e'; exact ih k

/-- Assigning a chain to one of its own later parts: the copy ends where the assigned part was. -/
theorem assignPipe_around {m : Mem} (w : m.Wf) {a b : Addr} {v : Pipe} {X Y : List Addr}
    (hb : HoldsPipe m.cell b v (b :: X ++ a :: Y)) (hn : (b :: X ++ a :: Y).Nodup) :
    ∃ m' T u, assignPipe a b m = pure ((), m') ∧ HoldsPipe m'.cell a u T ∧
      u.list = v.list.take (X.length + 2) := by
  obtain ⟨va, ha⟩ := tail_chain v (X := b :: X) hb
  have hS : (a :: Y).Nodup := (List.nodup_append.mp hn).2.1
  have hdis := (List.nodup_append.mp hn).2.2
  obtain ⟨m₂, So, e₀, e, hf, hc⟩ := setNext_ok ha hS none
  injection e₀ with _ e₀
  subst e₀
  obtain ⟨na, nS⟩ := List.nodup_cons.mp hS
  have hal := w a (alive_pipe va a _ _ ha a (.head _))
  have c₂ := setNext_changed w hS hal hf hc
  have hab : a ≠ b := fun k => hdis b (.head _) a (.head _) k.symm
  obtain ⟨n, _, hac, _, _⟩ := holds_pipe.mp ha
  have ha₂ : m₂.cell a = some (.pipe va.first none) := by rw [hc, if_neg na, if_pos rfl]
  obtain ⟨u, hu, hl⟩ := cut_chain v (c' := m₂.cell) (X := b :: X) (t := va.first) hb hn (fun _ _ => ha₂) ⟨n, hac⟩
    fun x hx => by
      rw [hc, if_neg (show ¬ x ∈ Y from fun k => hdis x hx x (.tail _ k) rfl), if_neg (show ¬ x = a from fun k => hdis x hx a (.head _) k)]
  obtain ⟨m', T, e', r', c'⟩ := assignPipe_after c₂.wf hab e ha₂ hu
  exact ⟨m', T, u, e', r', hl⟩

/-! ## Moving -/

/-- The members of a transformation that has some. -/
theorem moveMembers_ok (spent : Transform) {m : Mem} {a b : Addr} (hab : a ≠ b) {t t' : Transform} {n n' : Option Addr}
    (ha : m.cell a = some (.pipe t n)) (hb : m.cell b = some (.pipe t' n')) :
    ((do
      let (t', n') ← loadPipe b
      store b (.pipe spent n')
      let (_, n) ← loadPipe a
      store a (.pipe t' n)) : P Unit) m = pure ((), (m.put b (.pipe spent n')).put a (.pipe t' n)) := by
  rw [bind_ok (loadPipe_ok hb)]
  dsimp only
  rw [bind_ok (store_ok (by rw [hb]; rfl) _), bind_ok (loadPipe_ok (t := t) (n := n) (by simp [Mem.put, hab, ha]))]
  dsimp only
  exact store_ok (by simp [Mem.put, hab, ha]) _

/-- Take over the chain of another transformation of the same class. -/
theorem moveAssignPipe_disjoint (spent : Transform) {m : Mem} (w : m.Wf) {a b : Addr} {v v' : Pipe} {S S' : List Addr}
    (ha : HoldsPipe m.cell a v S) (hb : HoldsPipe m.cell b v' S') (hS : (S ++ S').Nodup)
    (hcls : v'.first = .collapseWs → v.first = .collapseWs) :
    ∃ m' T s, moveAssignPipe spent a b m = pure ((), m') ∧ HoldsPipe m'.cell a v' (a :: T) ∧
      S' = b :: T ∧ HoldsPipe m'.cell b (.last s) [b] ∧ Changed m m' (S ++ S') (b :: a :: T) := by
  obtain ⟨n', Sp, hb₀, kb, rfl⟩ := holds_pipe.mp hb
  obtain ⟨n, So, ha₀, ka, rfl⟩ := holds_pipe.mp ha
  obtain ⟨nS, nS', hdis⟩ := List.nodup_append.mp hS
  obtain ⟨na, nSo⟩ := List.nodup_cons.mp nS
  obtain ⟨nb, nSp⟩ := List.nodup_cons.mp nS'
  have hab : a ≠ b := hdis a (.head _) b (.head _)
  have hal := w a (by rw [ha₀]; rfl)
  have hbl := w b (by rw [hb₀]; rfl)
  have hSp : ∀ x ∈ Sp, x < m.fresh := fun x hx => w x (alive_pipes _ _ _ _ kb x hx)
  have hSo : ∀ x ∈ So, x < m.fresh := fun x hx => w x (alive_pipes _ _ _ _ ka x hx)
  have ha₁ : HoldsPipe (m.put b (.pipe v'.first none)).cell a v (a :: So) :=
    framed_pipe v _ _ _ _ ha fun x hx => by
      have : x ≠ b := hdis x hx b (.head _)
      simp [Mem.put, this]
  obtain ⟨m₂, So', e₀, e₂, hf₂, hc₂⟩ := setNext_ok ha₁ nS n'
  injection e₀ with _ e₀
  subst e₀
  have hc : ∀ x, m₂.cell x = if x ∈ So then none else if x = a then some (.pipe v.first n') else
      if x = b then some (.pipe v'.first none) else m.cell x := hc₂
  have hbSo : b ∉ So := fun k => hdis b (.tail _ k) b (.head _) rfl
  have ha₂ : m₂.cell a = some (.pipe v.first n') := by rw [hc, if_neg na, if_pos rfl]
  have hb₂ : m₂.cell b = some (.pipe v'.first none) := by rw [hc, if_neg hbSo, if_neg (Ne.symm hab), if_pos rfl]
  -- the end result, with or without members
  have fin : ∀ (m' : Mem) (s : Transform), m'.fresh = m.fresh →
      (∀ x, m'.cell x = if x ∈ So then none else if x = a then some (.pipe v'.first n') else
        if x = b then some (.pipe s none) else m.cell x) →
      HoldsPipe m'.cell a v' (a :: Sp) ∧ HoldsPipe m'.cell b (.last s) [b] ∧
        Changed m m' (a :: So ++ b :: Sp) (b :: a :: Sp) := by
    intro m' s hf' hc'
    have hSpa : ∀ x ∈ Sp, x ∉ So ∧ x ≠ a ∧ x ≠ b := fun x hx =>
      ⟨fun k => hdis x (.tail _ k) x (.tail _ hx) rfl, fun k => hdis a (.head _) x (.tail _ hx) k.symm,
        fun k => nb (k ▸ hx)⟩
    refine ⟨holds_pipe.mpr ⟨n', Sp, by rw [hc', if_neg na, if_pos rfl], ?_, rfl⟩,
      ⟨by rw [hc', if_neg hbSo, if_neg (Ne.symm hab), if_pos rfl], rfl⟩, ?_⟩
    · refine framed_pipes _ _ _ _ _ kb fun x hx => ?_
      obtain ⟨h₁, h₂, h₃⟩ := hSpa x hx
      rw [hc', if_neg h₁, if_neg h₂, if_neg h₃]
    · refine ⟨Nat.le_of_eq hf'.symm, fun x hx => ?_, fun x _ hx => ?_, ?_, fun x hx => .inl ?_, fun x hx => ?_⟩
      · rw [hf']
        rw [hc'] at hx
        split at hx
        · cases hx
        · split at hx
          · next e => rw [e]; exact hal
          · split at hx
            · next e => rw [e]; exact hbl
            · exact w x hx
      · simp only [List.cons_append, List.mem_cons, List.mem_append, not_or] at hx
        rw [hc', if_neg hx.2.1, if_neg hx.1, if_neg hx.2.2.1]
      · simp only [List.nodup_cons, List.mem_cons, not_or]
        exact ⟨⟨Ne.symm hab, nb⟩, fun k => (hSpa a k).2.1 rfl, nSp⟩
      · simp only [List.mem_cons, List.cons_append, List.mem_append] at hx ⊢
        grind
      · rw [hc'] at hx
        split at hx
        · cases hx
        · next h₁ =>
          split at hx
          · next e => exact .inl (by simp [e])
          · next h₂ =>
            split at hx
            · next e => exact .inl (by simp [e])
            · next h₃ =>
              by_cases hx' : x ∈ Sp
              · exact .inl (by simp [hx'])
              · exact .inr ⟨w x hx, by simp [h₁, h₂, h₃, hx']⟩
  by_cases ht : v'.first = .collapseWs
  · obtain ⟨r₁, r₂, r₃⟩ := fin m₂ v'.first hf₂ (by have := hcls ht; rw [this] at hc; rw [ht] at hc ⊢; exact hc)
    refine ⟨m₂, Sp, v'.first, ?_, r₁, rfl, r₂, r₃⟩
    unfold moveAssignPipe
    rw [bind_ok (loadPipe_ok hb₀)]
    dsimp only
    rw [bind_ok (store_ok (by rw [hb₀]; rfl) _), bind_ok e₂, ht]
    rfl
  · obtain ⟨r₁, r₂, r₃⟩ := fin ((m₂.put b (.pipe spent none)).put a (.pipe v'.first n')) spent hf₂ (by
      intro x
      simp only [Mem.put]
      rw [hc]
      by_cases h₁ : x = a
      · subst h₁; simp [na]
      · by_cases h₂ : x = b
        · subst h₂; simp [h₁, hbSo]
        · simp [h₁, h₂])
    refine ⟨_, Sp, spent, ?_, r₁, rfl, r₂, r₃⟩
    unfold moveAssignPipe
    rw [bind_ok (loadPipe_ok hb₀)]
    dsimp only
    rw [bind_ok (store_ok (by rw [hb₀]; rfl) _), bind_ok e₂]
    have := moveMembers_ok spent hab ha₂ hb₂
    cases hv : v'.first with
    | collapseWs => exact absurd hv ht
    | _ => rw [hv] at this; exact this

/-- Moving from a later part of the own chain reads deleted memory, if there are members to move. -/
theorem moveAssignPipe_tail_ub (spent : Transform) {m : Mem} {a b : Addr} {v : Pipe} {S : List Addr} {t : Transform}
    {n : Option Addr} (ha : HoldsPipe m.cell a v S) (hS : S.Nodup) (hb : b ∈ S) (hab : a ≠ b)
    (ht : m.cell b = some (.pipe t n)) (htc : t ≠ .collapseWs) : moveAssignPipe spent a b m = throw .ub := by
  obtain ⟨X, Y, rfl⟩ := List.append_of_mem hb
  cases X with
  | nil =>
    obtain ⟨_, _, _, _, e⟩ := holds_pipe.mp ha
    injection e with e _
    exact absurd e.symm hab
  | cons x X =>
    obtain rfl : x = a := by
      obtain ⟨_, _, _, _, e⟩ := holds_pipe.mp ha
      injection e
    obtain ⟨u, hu, _⟩ := cut_chain v (c' := (m.put b (.pipe t none)).cell) (t := t) ha hS
      (fun _ _ => by simp [Mem.put]) ⟨n, ht⟩ (fun y hy => by
        have : y ≠ b := fun k => (List.nodup_append.mp hS).2.2 y hy b (.head _) k
        simp [Mem.put, this])
    have hn : (x :: X ++ [b]).Nodup := by
      have := hS
      simp only [List.nodup_append, List.nodup_cons] at this ⊢
      refine ⟨this.1, by simp, fun p hp q hq => ?_⟩
      rw [List.mem_singleton.mp hq]
      exact this.2.2 p hp b (.head _)
    obtain ⟨m₂, So, e₀, e₂, hf₂, hc₂⟩ := setNext_ok hu hn n
    injection e₀ with _ e₀
    have hb₂ : m₂.cell b = none := by
      rw [hc₂, if_pos]
      rw [← e₀]; simp
    unfold moveAssignPipe
    rw [bind_ok (loadPipe_ok ht)]
    dsimp only
    rw [bind_ok (store_ok (by rw [ht]; rfl) _), bind_ok e₂]
    cases t with
    | collapseWs => exact absurd rfl htc
    | _ => exact throw_bind (loadPipe_ub hb₂)

end Hext.Mem
