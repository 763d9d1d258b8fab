import Verif.Proofs.AssignPipe
/-!
# Move assignment of value tests and matches: lemmas
-/

namespace Hext.Mem

/-- `a` has taken over the content of `b`, the old parts of `a` are gone and `e` is left in `b`. -/
theorem taken {α} {R : Cells → Addr → α → List Addr → Prop} {destroy : Addr → P Unit} (K : Kind_ R destroy)
    {m m' : Mem} (w : m.Wf) {a b : Addr} {v' : α} {So Sp : List Addr} {e : Obj}
    (ha : (m.cell a).isSome) (hb : R m.cell b v' (b :: Sp)) (hS : (a :: So ++ b :: Sp).Nodup)
    (hf : m'.fresh = m.fresh)
    (hc : ∀ x, m'.cell x = if x ∈ So then none else if x = a then m.cell b else if x = b then some e else m.cell x) :
    R m'.cell a v' (a :: Sp) ∧ m'.cell b = some e ∧ Changed m m' (a :: So ++ b :: Sp) (b :: a :: Sp) := by
  obtain ⟨nS, nS', hdis⟩ := List.nodup_append.mp hS
  obtain ⟨na, nSo⟩ := List.nodup_cons.mp nS
  obtain ⟨nb, nSp⟩ := List.nodup_cons.mp nS'
  have hab : a ≠ b := hdis a (.head _) b (.head _)
  have hal := w a ha
  have hbl := w b (K.alive _ _ _ _ hb b (.head _))
  have hbSo : b ∉ So := fun k => hdis b (.tail _ k) b (.head _) rfl
  have hSpa : ∀ x ∈ Sp, x ∉ So ∧ x ≠ a ∧ x ≠ b := fun x hx =>
    ⟨fun k => hdis x (.tail _ k) x (.tail _ hx) rfl, fun k => hdis a (.head _) x (.tail _ hx) k.symm,
      fun k => nb (k ▸ hx)⟩
  refine ⟨K.reroot _ _ _ _ _ _ hb (by rw [hc, if_neg na, if_pos rfl]) fun x hx => ?_,
    by rw [hc, if_neg hbSo, if_neg (Ne.symm hab), if_pos rfl],
    Nat.le_of_eq hf.symm, fun x hx => ?_, fun x _ hx => ?_, ?_, fun x hx => .inl ?_, fun x hx => ?_⟩
  · obtain ⟨h₁, h₂, h₃⟩ := hSpa x hx
    rw [hc, if_neg h₁, if_neg h₂, if_neg h₃]
  · rw [hf]
    rw [hc] at hx
    split at hx
    · cases hx
    · split at hx
      · next k => rw [k]; exact hal
      · split at hx
        · next k => rw [k]; exact hbl
        · exact w x hx
  · simp only [List.cons_append, List.mem_cons, List.mem_append, not_or] at hx
    rw [hc, if_neg hx.2.1, if_neg hx.1, if_neg hx.2.2.1]
  · simp only [List.nodup_cons, List.mem_cons, not_or]
    exact ⟨⟨Ne.symm hab, nb⟩, fun k => (hSpa a k).2.1 rfl, nSp⟩
  · simp only [List.mem_cons, List.cons_append, List.mem_append] at hx ⊢
    grind
  · rw [hc] at hx
    split at hx
    · cases hx
    · next h₁ =>
      split at hx
      · next k => exact .inl (by simp [k])
      · next h₂ =>
        split at hx
        · next k => exact .inl (by simp [k])
        · next h₃ =>
          by_cases h₄ : x ∈ Sp
          · exact .inl (by simp [h₄])
          · exact .inr ⟨w x hx, by simp [h₁, h₂, h₃, h₄]⟩

/-- What a `NegateTest` points to. -/
theorem holds_negateTest {c : Cells} {a : Addr} {v : ValueTest} {S : List Addr} (h : HoldsTest c a v S) (hv : IsNegate v) :
    ∃ q u S', c a = some (.negateTest q) ∧ HoldsPtr (HoldsTest c) q u S' ∧ S = a :: S' := by
  cases v with
  | negate t =>
    obtain ⟨q, S', h, h', rfl⟩ := h
    exact ⟨some q, some t, S', h, h', rfl⟩
  | negateNull =>
    obtain ⟨h, rfl⟩ := h
    exact ⟨none, none, [], h, rfl, rfl⟩
  | _ => exact hv.elim

theorem moveAssignNegateTest_disjoint {m : Mem} (w : m.Wf) {a b : Addr} {v v' : ValueTest} {S S' : List Addr}
    (ha : HoldsTest m.cell a v S) (hb : HoldsTest m.cell b v' S') (hS : (S ++ S').Nodup) (hv : IsNegate v) (hv' : IsNegate v') :
    ∃ m' T, moveAssignNegateTest a b m = pure ((), m') ∧ HoldsTest m'.cell a v' (a :: T) ∧ S' = b :: T ∧
      HoldsTest m'.cell b .negateNull [b] ∧ Changed m m' (S ++ S') (b :: a :: T) := by
  obtain ⟨q, u, So, ka, ha', rfl⟩ := holds_negateTest ha hv
  obtain ⟨q', u', Sp, kb, hb', rfl⟩ := holds_negateTest hb hv'
  obtain ⟨nS, nS', hdis⟩ := List.nodup_append.mp hS
  obtain ⟨na, nSo⟩ := List.nodup_cons.mp nS
  have hab : a ≠ b := hdis a (.head _) b (.head _)
  obtain ⟨m', e', g⟩ := destroys_ptr (fun y _ => destroys_test y) q So
    ((m.put b (.negateTest none)).put a (.negateTest q'))
    (framed_ptr (fun y _ => framed_test y) _ _ _ _ ha' fun x hx => by
      have h₁ : x ≠ a := fun k => na (k ▸ hx)
      have h₂ : x ≠ b := hdis x (.tail _ hx) b (.head _)
      simp [Mem.put, h₁, h₂]) nSo
  obtain ⟨r₁, r₂, r₃⟩ := taken kind_test (e := .negateTest none) w (by rw [ka]; rfl) hb hS g.fresh (fun x => by
    rw [g.cell]
    simp only [Mem.put, kb])
  refine ⟨m', Sp, ?_, r₁, rfl, ⟨r₂, rfl⟩, r₃⟩
  unfold moveAssignNegateTest
  rw [bind_ok (loadNegateTest_ok kb), bind_ok (store_ok (by rw [kb]; rfl) _),
    bind_ok (loadNegateTest_ok (t := q) (by simp [Mem.put, hab, ka])),
    bind_ok (store_ok (by simp [Mem.put, hab, ka]) _)]
  exact e'

theorem kind_capture : Kind_ HoldsCapture destroyCapture where
  framed := framed_capture
  alive := alive_capture
  destroys := destroys_capture
  head c a v S h := by cases v <;> (obtain ⟨_, S', _, _, rfl⟩ := h; exact ⟨_, rfl⟩)
  reroot c c' a b v rest h hb hr := by
    cases v <;>
    · obtain ⟨q, S', h, h', e⟩ := h
      injection e with _ e
      subst e
      exact ⟨q, _, by rw [hb, h], framed_ptr (fun y _ => framed_pipe y) _ _ _ _ h' hr, rfl⟩

theorem pipePtr_unique {c : Cells} {q : Option Addr} {p p' : Option Pipe} {T T' : List Addr} (k : HoldsPtr (HoldsPipe c) q p T)
    (k' : HoldsPtr (HoldsPipe c) q p' T') : T = T' := by
  cases q <;> cases p <;> cases p'
  · exact k.trans k'.symm
  · exact k'.elim
  · exact k.elim
  · exact k.elim
  · exact k.elim
  · exact k.elim
  · exact k'.elim
  · exact (pipe_unique _ _ k k').2

/-- A capture is made of one set of objects. -/
theorem capture_unique {c : Cells} {a : Addr} {v v' : Capture} {S S' : List Addr} (h : HoldsCapture c a v S) (h' : HoldsCapture c a v' S') :
    S = S' := by
  cases v <;> cases v' <;>
  · obtain ⟨q, T, h, k, rfl⟩ := h
    obtain ⟨q', T', h', k', rfl⟩ := h'
    rw [h] at h'
    cases h'
    try exact congrArg _ (pipePtr_unique k k')

/-- What is left of a match of this class. -/
def leftover (sp : Spent) : Match → Match
  | .attribute _ _ => .attribute sp.str none
  | .functionValue _ _ => .functionValue sp.fn none
  | .negate _ => .negate []
  | v => v

theorem moveAssignMatch_disjoint (sp : Spent) {m : Mem} (w : m.Wf) {a b : Addr} {v v' : Match} {S S' : List Addr}
    (ha : HoldsMatch m.cell a v S) (hb : HoldsMatch m.cell b v' S') (hS : (S ++ S').Nodup) (hv : BothOwn v v') :
    ∃ m' T, moveAssignMatch sp a b m = pure ((), m') ∧ HoldsMatch m'.cell a v' (a :: T) ∧ S' = b :: T ∧
      HoldsMatch m'.cell b (leftover sp v') [b] ∧ Changed m m' (S ++ S') (b :: a :: T) := by
  obtain ⟨So, rfl⟩ := kind_match.head _ _ _ _ ha
  obtain ⟨Sp, rfl⟩ := kind_match.head _ _ _ _ hb
  obtain ⟨nS, nS', hdis⟩ := List.nodup_append.mp hS
  obtain ⟨na, nSo⟩ := List.nodup_cons.mp nS
  have hab : a ≠ b := hdis a (.head _) b (.head _)
  have hba := Ne.symm hab
  have hne : ∀ x ∈ So, x ≠ a ∧ x ≠ b := fun x hx => ⟨fun k => na (k ▸ hx), hdis x (.tail _ hx) b (.head _)⟩
  cases v <;> cases v' <;> first | exact hv.elim | skip
  · rename_i n t n' t'
    obtain ⟨q, S₁, ka, ha', e₁⟩ := holds_attribute.mp ha
    obtain ⟨q', S₂, kb, hb', e₂⟩ := holds_attribute.mp hb
    injection e₁ with _ e₁; subst e₁
    injection e₂ with _ e₂; subst e₂
    obtain ⟨m', e', g⟩ := destroys_ptr (fun y _ => destroys_test y) q So
      ((m.put b (.attributeMatch sp.str none)).put a (.attributeMatch n' q'))
      (framed_ptr (fun y _ => framed_test y) _ _ _ _ ha' fun x hx => by
        simp [Mem.put, (hne x hx).1, (hne x hx).2]) nSo
    obtain ⟨r₁, r₂, r₃⟩ := taken kind_match (e := .attributeMatch sp.str none) w (by rw [ka]; rfl) hb hS g.fresh (fun x => by
      rw [g.cell]
      simp only [Mem.put, kb])
    refine ⟨m', Sp, ?_, r₁, rfl, holds_attribute.mpr ⟨none, [], r₂, rfl, rfl⟩, r₃⟩
    unfold moveAssignMatch
    rw [bind_ok (load_ok kb)]
    show moveAssignAttributeMatch sp a b m = _
    unfold moveAssignAttributeMatch
    rw [bind_ok (loadAttributeMatch_ok kb)]
    dsimp only
    rw [bind_ok (store_ok (by rw [kb]; rfl) _),
      bind_ok (loadAttributeMatch_ok (n := n) (t := q) (by simp [put_cell, hab, ka]))]
    dsimp only
    rw [bind_ok (store_ok (by simp [put_cell, hab, ka]) _),
      bind_ok (loadAttributeMatch_ok (n := sp.str) (t := q') (by simp [put_cell, hba]))]
    dsimp only
    rw [bind_ok (store_ok (by simp [put_cell, hba]) _),
      bind_ok (loadAttributeMatch_ok (n := n') (t := q) (by simp [put_cell, hab]))]
    dsimp only
    rw [bind_ok (store_ok (by simp [put_cell, hab]) _), put_comm _ hab, put_put, put_put]
    exact e'
  · rename_i n t n' t'
    obtain ⟨q, S₁, ka, ha', e₁⟩ := holds_functionValue.mp ha
    obtain ⟨q', S₂, kb, hb', e₂⟩ := holds_functionValue.mp hb
    injection e₁ with _ e₁; subst e₁
    injection e₂ with _ e₂; subst e₂
    obtain ⟨m', e', g⟩ := destroys_ptr (fun y _ => destroys_test y) q So
      ((m.put b (.functionValueMatch sp.fn none)).put a (.functionValueMatch n' q'))
      (framed_ptr (fun y _ => framed_test y) _ _ _ _ ha' fun x hx => by
        simp [Mem.put, (hne x hx).1, (hne x hx).2]) nSo
    obtain ⟨r₁, r₂, r₃⟩ := taken kind_match (e := .functionValueMatch sp.fn none) w (by rw [ka]; rfl) hb hS g.fresh (fun x => by
      rw [g.cell]
      simp only [Mem.put, kb])
    refine ⟨m', Sp, ?_, r₁, rfl, holds_functionValue.mpr ⟨none, [], r₂, rfl, rfl⟩, r₃⟩
    unfold moveAssignMatch
    rw [bind_ok (load_ok kb)]
    show moveAssignFunctionValueMatch sp a b m = _
    unfold moveAssignFunctionValueMatch
    rw [bind_ok (loadFunctionValueMatch_ok kb)]
    dsimp only
    rw [bind_ok (store_ok (by rw [kb]; rfl) _),
      bind_ok (loadFunctionValueMatch_ok (n := n) (t := q) (by simp [put_cell, hab, ka]))]
    dsimp only
    rw [bind_ok (store_ok (by simp [put_cell, hab, ka]) _),
      bind_ok (loadFunctionValueMatch_ok (n := sp.fn) (t := q') (by simp [put_cell, hba]))]
    dsimp only
    rw [bind_ok (store_ok (by simp [put_cell, hba]) _),
      bind_ok (loadFunctionValueMatch_ok (n := n') (t := q) (by simp [put_cell, hab]))]
    dsimp only
    rw [bind_ok (store_ok (by simp [put_cell, hab]) _), put_comm _ hab, put_put, put_put]
    exact e'
  · obtain ⟨q, S₁, ka, ha', e₁⟩ := holds_negate.mp ha
    obtain ⟨q', S₂, kb, hb', e₂⟩ := holds_negate.mp hb
    injection e₁ with _ e₁; subst e₁
    injection e₂ with _ e₂; subst e₂
    obtain ⟨m', e', g⟩ := destroys_vec (fun y _ => framed_ptr (fun z _ => framed_match z))
      (fun y _ => destroys_ptr fun z _ => destroys_match z) q So
      ((m.put b (.negateMatch [])).put a (.negateMatch q'))
      (framed_matches _ _ _ _ _ ha' fun x hx => by
        simp [Mem.put, (hne x hx).1, (hne x hx).2]) nSo
    obtain ⟨r₁, r₂, r₃⟩ := taken kind_match (e := .negateMatch []) w (by rw [ka]; rfl) hb hS g.fresh (fun x => by
      rw [g.cell]
      simp only [Mem.put, kb])
    refine ⟨m', Sp, ?_, r₁, rfl, holds_negate.mpr ⟨[], [], r₂, rfl, rfl⟩, r₃⟩
    unfold moveAssignMatch
    rw [bind_ok (load_ok kb)]
    show moveAssignNegateMatch a b m = _
    unfold moveAssignNegateMatch
    rw [bind_ok (loadNegateMatch_ok ka), bind_ok (store_ok (by rw [ka]; rfl) _),
      bind_ok (loadNegateMatch_ok (t := q') (by simp [put_cell, hba, kb])),
      bind_ok (store_ok (by simp [put_cell, hba, kb]) _),
      bind_ok (loadNegateMatch_ok (t := []) (by simp [put_cell, hab])),
      bind_ok (store_ok (by simp [put_cell, hab]) _), put_comm _ hab, put_put]
    exact e'

end Hext.Mem
