import Verif.Proofs.MemoryAppend
import Verif.Proofs.AssignPipe
import Verif.Proofs.History
/-!
# Separate parts of memory: lemmas

An assertion says what a list of objects holds. Two assertions side by side speak about different objects. What an operation
does to the objects of one assertion does not concern the objects of the others.
-/

namespace Hext.Mem

/-- What the objects at some addresses hold. -/
structure Asrt where
  holds : Cells → List Nat → Prop
  perm : ∀ {c S T}, holds c S → S.Perm T → holds c T
  framed : ∀ {c c' S}, holds c S → (∀ x ∈ S, c' x = c x) → holds c' S
  alive : ∀ {c S}, holds c S → ∀ x ∈ S, (c x).isSome

theorem Asrt.ext {H K : Asrt} (h : ∀ c S, H.holds c S ↔ K.holds c S) : H = K := by
  have : H.holds = K.holds := by funext c S; exact propext (h c S)
  cases H; cases K; cases this; rfl

/-- No objects. -/
def emp : Asrt where
  holds _ S := S = []
  perm := by rintro c S T rfl h; exact h.symm.eq_nil
  framed h _ := h
  alive := by rintro c S rfl x hx; cases hx

/-- Different objects. -/
def sep (H K : Asrt) : Asrt where
  holds c S := ∃ S₁ S₂, H.holds c S₁ ∧ K.holds c S₂ ∧ (S₁ ++ S₂).Perm S
  perm := by
    rintro c S T ⟨S₁, S₂, h, k, p⟩ q
    exact ⟨S₁, S₂, h, k, p.trans q⟩
  framed := by
    rintro c c' S ⟨S₁, S₂, h, k, p⟩ e
    exact ⟨S₁, S₂, H.framed h fun x hx => e x (p.mem_iff.mp (List.mem_append_left _ hx)),
      K.framed k fun x hx => e x (p.mem_iff.mp (List.mem_append_right _ hx)), p⟩
  alive := by
    rintro c S ⟨S₁, S₂, h, k, p⟩ x hx
    rcases List.mem_append.mp (p.mem_iff.mpr hx) with hx | hx
    · exact H.alive h x hx
    · exact K.alive k x hx

scoped infixr:65 " ∗ " => sep

theorem sep_comm (H K : Asrt) : H ∗ K = K ∗ H := by
  apply Asrt.ext
  intro c S
  constructor
  · rintro ⟨S₁, S₂, h, k, p⟩; exact ⟨S₂, S₁, k, h, List.perm_append_comm.trans p⟩
  · rintro ⟨S₁, S₂, h, k, p⟩; exact ⟨S₂, S₁, k, h, List.perm_append_comm.trans p⟩

theorem sep_assoc (H K L : Asrt) : (H ∗ K) ∗ L = H ∗ (K ∗ L) := by
  apply Asrt.ext
  intro c S
  constructor
  · rintro ⟨S₁, S₂, ⟨T₁, T₂, h, k, q⟩, l, p⟩
    exact ⟨T₁, T₂ ++ S₂, h, ⟨T₂, S₂, k, l, .refl _⟩, by
      rw [← List.append_assoc]; exact (q.append_right S₂).trans p⟩
  · rintro ⟨S₁, S₂, h, ⟨T₁, T₂, k, l, q⟩, p⟩
    exact ⟨S₁ ++ T₁, T₂, ⟨S₁, T₁, h, k, .refl _⟩, l, by
      rw [List.append_assoc]; exact (q.append_left S₁).trans p⟩

theorem emp_sep (H : Asrt) : emp ∗ H = H := by
  apply Asrt.ext
  intro c S
  constructor
  · rintro ⟨S₁, S₂, rfl, h, p⟩; exact H.perm h p
  · intro h; exact ⟨[], S, rfl, h, .refl _⟩

theorem sep_emp (H : Asrt) : H ∗ emp = H := by rw [sep_comm, emp_sep]

instance : Std.Associative sep := ⟨sep_assoc⟩
instance : Std.Commutative sep := ⟨sep_comm⟩

/-- A value at a place. -/
def atA {α β} (R : Cells → β → α → List Nat → Prop) (hf : ∀ v, Framed R v) (ha : ∀ v, Alive R v) (b : β) (v : α) : Asrt where
  holds c S := ∃ T, R c b v T ∧ T.Perm S
  perm := by rintro c S T ⟨U, h, p⟩ q; exact ⟨U, h, p.trans q⟩
  framed := by
    rintro c c' S ⟨U, h, p⟩ e
    exact ⟨U, hf v b U c c' h fun x hx => e x (p.mem_iff.mp hx), p⟩
  alive := by
    rintro c S ⟨U, h, p⟩ x hx
    exact ha v b U c h x (p.mem_iff.mpr hx)

theorem framed_rulePtrs {α} {R : Cells → Nat → α → List Nat → Prop} (hf : ∀ v, Framed R v) (v : Option α) : Framed (PtrR R) v :=
  framed_ptr fun x _ => hf x
theorem alive_rulePtrs {α} {R : Cells → Nat → α → List Nat → Prop} (ha : ∀ v, Alive R v) (v : Option α) : Alive (PtrR R) v :=
  alive_ptr fun x _ => ha x

/-- A pointer. -/
def ptrA {α} (R : Cells → Nat → α → List Nat → Prop) (hf : ∀ v, Framed R v) (ha : ∀ v, Alive R v) (b : Option Nat) (v : Option α) :
    Asrt := atA (PtrR R) (framed_rulePtrs hf) (alive_rulePtrs ha) b v

/-- A vector. -/
def vecA {α β} (R : Cells → β → α → List Nat → Prop) (hf : ∀ v, Framed R v) (ha : ∀ v, Alive R v) (bs : List β) (vs : List α) :
    Asrt := atA (VecR R) (fun _ => framed_vec fun x _ => hf x) (fun _ => alive_vec fun x _ => ha x) bs vs

theorem ptrA_some {α R hf ha} (b : Nat) (v : α) : ptrA R hf ha (some b) (some v) = atA R hf ha b v := Asrt.ext fun _ _ => Iff.rfl

theorem ptrA_none {α} {R : Cells → Nat → α → List Nat → Prop} {hf ha} : ptrA R hf ha none none = emp := by
  apply Asrt.ext
  intro c S
  constructor
  · rintro ⟨T, h, p⟩
    have h : T = [] := h
    subst h
    exact p.symm.eq_nil
  · rintro rfl; exact ⟨[], rfl, .refl _⟩

theorem vecA_nil {α β} {R : Cells → β → α → List Nat → Prop} {hf ha} : vecA R hf ha [] [] = emp := by
  apply Asrt.ext
  intro c S
  constructor
  · rintro ⟨T, h, p⟩
    have h : T = [] := h
    subst h
    exact p.symm.eq_nil
  · rintro rfl; exact ⟨[], rfl, .refl _⟩

theorem vecA_cons {α β} {R : Cells → β → α → List Nat → Prop} {hf ha} (b : β) (bs : List β) (v : α) (vs : List α) :
    vecA R hf ha (b :: bs) (v :: vs) = atA R hf ha b v ∗ vecA R hf ha bs vs := by
  apply Asrt.ext
  intro c S
  constructor
  · rintro ⟨T, ⟨S₁, S₂, h, k, rfl⟩, p⟩
    exact ⟨S₁, S₂, ⟨S₁, h, .refl _⟩, ⟨S₂, k, .refl _⟩, p⟩
  · rintro ⟨S₁, S₂, ⟨T₁, h, p₁⟩, ⟨T₂, k, p₂⟩, p⟩
    exact ⟨T₁ ++ T₂, ⟨T₁, T₂, h, k, rfl⟩, (p₁.append p₂).trans p⟩

/-! ## Memory that holds nothing else -/

/-- Memory is `m₀` and, in addition, what `H` says. -/
def Own (m₀ : Mem) (H : Asrt) (m : Mem) : Prop := ∃ S, H.holds m.cell S ∧ Changed m₀ m [] S

theorem Own.wf {m₀ m : Mem} {H : Asrt} (h : Own m₀ H m) : m.Wf := h.choose_spec.2.wf

theorem own_start {m : Mem} (w : m.Wf) : Own m emp m := ⟨[], rfl, (Grown.refl w).changed⟩

theorem own_end {m₀ m : Mem} (h : Own m₀ emp m) : m₀.fresh ≤ m.fresh ∧ ∀ x, m₀.Wf → m.cell x = m₀.cell x := by
  obtain ⟨S, h, c⟩ := h
  have h : S = [] := h
  subst h
  refine ⟨c.le, fun x w => ?_⟩
  by_cases hx : x < m₀.fresh
  · exact c.others x hx (by simp)
  · cases e : m.cell x with
    | some o =>
      rcases c.noLeak x (by rw [e]; rfl) with k | k
      · cases k
      · exact absurd k.1 hx
    | none =>
      cases e' : m₀.cell x with
      | none => rfl
      | some o => exact absurd (w x (by rw [e']; rfl)) hx

theorem Own.mono {m₀ m : Mem} {H K : Asrt} (h : Own m₀ H m) (e : H = K) : Own m₀ K m := e ▸ h

theorem Own.exists_left {m₀ m : Mem} {H F : Asrt} (h : Own m₀ (H ∗ F) m) : ∃ S, H.holds m.cell S := by
  obtain ⟨S, ⟨S₁, S₂, h, _⟩, _⟩ := h
  exact ⟨S₁, h⟩

/-- A step touches only the objects that it is about. -/
theorem Own.step {m₀ m : Mem} {H F : Asrt} (h : Own m₀ (H ∗ F) m) {α} {x : P α} {K : α → Asrt}
    (k : ∀ S, m.Wf → S.Nodup → H.holds m.cell S →
      ∃ a m' S', x m = pure (a, m') ∧ (K a).holds m'.cell S' ∧ Changed m m' S S') :
    ∃ a m', x m = pure (a, m') ∧ Own m₀ (K a ∗ F) m' := by
  obtain ⟨S, ⟨S₁, S₂, h₁, h₂, p⟩, c⟩ := h
  have n : (S₁ ++ S₂).Nodup := p.nodup_iff.mpr c.nodup
  obtain ⟨n₁, n₂, d⟩ := append_split n
  obtain ⟨a, m', S', e, r, c'⟩ := k S₁ c.wf n₁ h₁
  have lt : ∀ x ∈ S₂, x < m.fresh := fun x hx => c.wf x (F.alive h₂ x hx)
  have hd : ∀ x ∈ S₂, x ∉ S₁ := fun x hx hx' => d x hx' hx
  refine ⟨a, m', e, S' ++ S₂, ⟨S', S₂, r, F.framed h₂ fun x hx => c'.others x (lt x hx) (hd x hx), .refl _⟩, ?_⟩
  exact (c.perm p.symm).trans (c'.beside n₂ lt hd)

section
variable {α β : Type} {R : Cells → β → α → List Nat → Prop} {hf : ∀ v, Framed R v} {ha : ∀ v, Alive R v}

/-- Destroying. -/
theorem Own.destroy {m₀ m : Mem} {F : Asrt} {b : β} {v : α} (h : Own m₀ (atA R hf ha b v ∗ F) m) {f : β → P Unit}
    (hd : Destroys R f v) : ∃ m', f b m = pure ((), m') ∧ Own m₀ F m' := by
  obtain ⟨⟨⟩, m', e, o⟩ := h.step (x := f b) (K := fun _ => emp) (by
    rintro S w n ⟨T, hT, p⟩
    obtain ⟨m', e, s⟩ := hd b T m hT (p.nodup_iff.mpr n)
    exact ⟨(), m', [], e, rfl, (s.changed w).old fun x => p.mem_iff⟩)
  exact ⟨m', e, o.mono (emp_sep F)⟩

end

/-- Making an object from its parts. -/
theorem Own.alloc {m₀ m : Mem} {H F : Asrt} (h : Own m₀ (H ∗ F) m) (o : Obj) {K : Nat → Asrt}
    (hK : ∀ c a S, H.holds c S → c a = some o → (K a).holds c (a :: S)) :
    ∃ a m', alloc o m = pure (a, m') ∧ Own m₀ (K a ∗ F) m' := by
  refine h.step (x := Mem.alloc o) ?_
  intro S w n hH
  have g := grown_push w o
  have lt : ∀ x ∈ S, x < m.fresh := fun x hx => w x (H.alive hH x hx)
  refine ⟨m.fresh, m.push o, m.fresh :: S, alloc_ok m o, hK _ _ _ (H.framed hH fun x hx => g.same x (lt x hx)) (push_self m o), ?_⟩
  have c := g.changed.beside n lt (by simp)
  exact c

end Hext.Mem
