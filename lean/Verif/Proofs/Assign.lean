import Verif.Model.Assign
import Verif.Proofs.MemoryAppend
/-!
# Assigning transformations, value tests and matches: lemmas
-/

namespace Hext.Mem

/-! ## Copy and swap -/

/-- What copy-and-swap needs to know about a kind of object. -/
structure Kind_ {α} (R : Cells → Addr → α → List Addr → Prop) (destroy : Addr → P Unit) : Prop where
  framed : ∀ v, Framed R v
  alive : ∀ v, Alive R v
  destroys : ∀ v, Destroys R destroy v
  head : ∀ c a v S, R c a v S → ∃ rest, S = a :: rest
  reroot : ∀ c c' a b v rest, R c a v (a :: rest) → c' b = c a → (∀ x ∈ rest, c' x = c x) →
    R c' b v (b :: rest)

/-- After the copy `t` was made, `this` and `t` are exchanged and `t` dies. -/
theorem swap_die {α} {R : Cells → Addr → α → List Addr → Prop} {destroy : Addr → P Unit}
    (K : Kind_ R destroy) {m m₁ m₂ : Mem} (w : m.Wf) {a t : Addr} {v v' : α} {S T : List Addr}
    (ha : R m.cell a v S) (hS : S.Nodup) (g₁ : Grown m m₁ T) (r₁ : R m₁.cell t v' T)
    (hm₂ : ∀ x, m₂.cell x = if x = t then m₁.cell a else if x = a then m₁.cell t else m₁.cell x)
    (hfr₂ : m₁.fresh ≤ m₂.fresh) :
    ∃ m' T', destroy t m₂ = pure ((), m') ∧ R m'.cell a v' T' ∧ Changed m m' S T' := by
  obtain ⟨Sr, rfl⟩ := K.head _ _ _ _ ha
  obtain ⟨Tr, rfl⟩ := K.head _ _ _ _ r₁
  have hlt : ∀ x ∈ a :: Sr, x < m.fresh := fun x hx => w x (K.alive v a _ _ ha x hx)
  have ha₁ := keep_grown (K.framed v) (K.alive v) w g₁ ha
  have hta := ((g₁.mem t).mp (.head _)).1
  have hat : a ≠ t := by have := hlt a (.head _); omega
  obtain ⟨haS, hSr⟩ := List.nodup_cons.mp hS
  obtain ⟨htT, hTr⟩ := List.nodup_cons.mp g₁.nodup
  have hTf : ∀ x ∈ Tr, m.fresh ≤ x ∧ x < m₁.fresh := fun x hx => (g₁.mem x).mp (.tail _ hx)
  have hSl : ∀ x ∈ Sr, x < m.fresh := fun x hx => hlt x (.tail _ hx)
  have hT₂ : R m₂.cell a v' (a :: Tr) := by
    refine K.reroot _ _ _ _ _ _ r₁ (by rw [hm₂, if_neg hat, if_pos rfl]) fun x hx => ?_
    have := hTf x hx
    have := hlt a (.head _)
    have hxt : x ≠ t := fun k => htT (k ▸ hx)
    have hxa : x ≠ a := by omega
    rw [hm₂, if_neg hxt, if_neg hxa]
  have hS₂ : R m₂.cell t v (t :: Sr) := by
    refine K.reroot _ _ _ _ _ _ ha₁ (by rw [hm₂, if_pos rfl]) fun x hx => ?_
    have := hSl x hx
    have hxt : x ≠ t := by omega
    have hxa : x ≠ a := fun k => haS (k ▸ hx)
    rw [hm₂, if_neg hxt, if_neg hxa]
  have hnd : (t :: Sr).Nodup := List.nodup_cons.mpr ⟨fun k => by have := hSl t k; omega, hSr⟩
  obtain ⟨m₃, e₃, g₃⟩ := K.destroys v t (t :: Sr) _ hS₂ hnd
  refine ⟨m₃, a :: Tr, e₃, ?_, ?_⟩
  · refine keep_shrunk (K.framed v') g₃ hT₂ fun x hx hx' => ?_
    have hax := hlt a (.head _)
    cases hx with
    | head =>
      rcases List.mem_cons.mp hx' with k | k
      · exact hat k
      · exact haS k
    | tail _ hx =>
      rcases List.mem_cons.mp hx' with k | k
      · exact htT (k ▸ hx)
      · have := hTf x hx; have := hSl x k; omega
  · have hcell : ∀ x, m₃.cell x = if x ∈ t :: Sr then none else
        if x = t then m₁.cell a else if x = a then m₁.cell t else m₁.cell x := fun x => by
      rw [g₃.cell, hm₂]
    have hfr : m₃.fresh = m₂.fresh := g₃.fresh
    refine ⟨by rw [hfr]; exact Nat.le_trans g₁.le hfr₂, fun x hx => ?_, fun x hx hx' => ?_, ?_, fun x hx => ?_, fun x hx => ?_⟩
    · rw [hfr]
      refine Nat.lt_of_lt_of_le ?_ hfr₂
      rw [hcell] at hx
      split at hx
      · cases hx
      · split at hx
        · next e => subst e; exact ((g₁.mem _).mp (.head _)).2
        · split at hx
          · next e => subst e; have := hlt x (.head _); have := g₁.le; omega
          · exact g₁.wf x hx
    · rw [hcell]
      simp only [List.mem_cons, not_or] at hx' ⊢
      rw [if_neg (by intro k; rcases k with k | k; omega; exact hx'.2 k), if_neg (by omega), if_neg hx'.1,
        g₁.same x hx]
    · exact List.nodup_cons.mpr ⟨fun k => by have := hTf a k; have := hlt a (.head _); omega, hTr⟩
    · rcases List.mem_cons.mp hx with k | k
      · exact .inl (k ▸ .head _)
      · exact .inr (hTf x k).1
    · rw [hcell] at hx
      split at hx
      · cases hx
      · next hn =>
        simp only [List.mem_cons, not_or] at hn
        rw [if_neg hn.1] at hx
        split at hx
        · next e => exact .inl (e ▸ .head _)
        · next hxa =>
          by_cases hl : x < m.fresh
          · refine .inr ⟨hl, ?_⟩
            simp only [List.mem_cons, not_or]
            exact ⟨hxa, hn.2⟩
          · have := (g₁.mem x).mpr ⟨by omega, g₁.wf x hx⟩
            rcases List.mem_cons.mp this with k | k
            · exact absurd k hn.1
            · exact .inl (.tail _ k)

/-! ## Value tests -/

theorem kind_test : Kind_ HoldsTest destroyTest where
  framed := framed_test
  alive := alive_test
  destroys := destroys_test
  head c a v S h := by
    cases v with
    | negate t => obtain ⟨_, S', _, _, rfl⟩ := h; exact ⟨_, rfl⟩
    | _ => obtain ⟨_, rfl⟩ := h; exact ⟨_, rfl⟩
  reroot c c' a b v rest h hb hr := by
    cases v with
    | negate t =>
      obtain ⟨q, S', h, h', e⟩ := h
      injection e with _ e
      subst e
      exact ⟨q, _, by rw [hb, h], framed_test t _ _ _ _ h' hr, rfl⟩
    | _ =>
      obtain ⟨h, e⟩ := h
      injection e with _ e
      subst e
      exact ⟨by rw [hb, h], rfl⟩

theorem loadNegateTest_ok {m : Mem} {a : Addr} {t : Option Addr} (h : m.cell a = some (.negateTest t)) :
    loadNegateTest a m = pure (t, m) := by
  unfold loadNegateTest
  rw [bind_ok (load_ok h)]
  rfl

theorem moveAssignNegateTest_ok {m : Mem} {a b : Addr} (hab : a ≠ b) {t : Option Addr}
    (ha : m.cell a = some (.negateTest none)) (hb : m.cell b = some (.negateTest t)) :
    moveAssignNegateTest a b m =
      pure ((), (m.put b (.negateTest none)).put a (.negateTest t)) := by
  unfold moveAssignNegateTest
  rw [bind_ok (loadNegateTest_ok hb), bind_ok (store_ok (by rw [hb]; rfl) _),
    bind_ok (loadNegateTest_ok (t := none) (by simp [Mem.put, hab, ha])),
    bind_ok (store_ok (by simp [Mem.put, hab, ha]) _)]
  rfl

theorem swapNegateTest_ok {m : Mem} (w : m.Wf) {a b : Addr} (hab : a ≠ b) {s t : Option Addr}
    (ha : m.cell a = some (.negateTest s)) (hb : m.cell b = some (.negateTest t)) :
    ∃ m', swapNegateTest a b m = pure ((), m') ∧ m.fresh ≤ m'.fresh ∧
      ∀ x, m'.cell x = if x = b then m.cell a else if x = a then m.cell b else m.cell x := by
  have haf : a ≠ m.fresh := by have := w a (by rw [ha]; rfl); omega
  have hbf : b ≠ m.fresh := by have := w b (by rw [hb]; rfl); omega
  have hf : m.cell m.fresh = none := by
    cases h : m.cell m.fresh with
    | none => rfl
    | some o => have := w m.fresh (by rw [h]; rfl); omega
  refine ⟨((((((m.put a (.negateTest none)).push (.negateTest s)).put b (.negateTest none)).put a (.negateTest t)).put
    m.fresh (.negateTest none)).put b (.negateTest s)).drop m.fresh, ?_, ?_, ?_⟩
  · unfold swapNegateTest
    have e : moveNegateTest a m = pure (m.fresh, (m.put a (.negateTest none)).push (.negateTest s)) := by
      unfold moveNegateTest
      rw [bind_ok (loadNegateTest_ok ha), bind_ok (store_ok (by rw [ha]; rfl) _)]
      rfl
    rw [bind_ok e, bind_ok (moveAssignNegateTest_ok hab (t := t) (by simp [Mem.push, Mem.put, haf])
        (by simp [Mem.push, Mem.put, hbf, Ne.symm hab, hb])),
      bind_ok (moveAssignNegateTest_ok hbf (t := s) (by simp [Mem.push, Mem.put, Ne.symm hab])
        (by simp [Mem.push, Mem.put, Ne.symm hbf, Ne.symm haf])),
      destroyTest, bind_ok (load_ok (o := .negateTest none) (by simp [Mem.push, Mem.put, Ne.symm hbf]))]
    show (pure () >>= fun _ => free m.fresh) _ = _
    rw [bind_ok (a := ()) rfl, free_ok (by simp [Mem.push, Mem.put, Ne.symm hbf])]
  · simp [Mem.push, Mem.put, Mem.drop]
  · intro x
    by_cases h₁ : x = m.fresh
    · subst h₁
      simp [Mem.push, Mem.put, Mem.drop, Ne.symm haf, Ne.symm hbf, hf]
    · by_cases h₂ : x = b
      · subst h₂; simp [Mem.push, Mem.put, Mem.drop, h₁, ha]
      · by_cases h₃ : x = a
        · subst h₃; simp [Mem.push, Mem.put, Mem.drop, h₁, h₂, hb]
        · simp [Mem.push, Mem.put, Mem.drop, h₁, h₂, h₃]

/-- The value of a `NegateTest`. -/
def IsNegate : ValueTest → Prop
  | .negate _ | .negateNull => True
  | _ => False

theorem assignTest_negate {m : Mem} (w : m.Wf) {a b : Addr} {v v' : ValueTest} {S S' : List Addr}
    (ha : HoldsTest m.cell a v S) (hb : HoldsTest m.cell b v' S') (hS : S.Nodup)
    (hv : IsNegate v) (hv' : IsNegate v') :
    ∃ m' T, assignTest a b m = pure ((), m') ∧ HoldsTest m'.cell a v' T ∧ Changed m m' S T := by
  have cellOf : ∀ {c : Cells} {x v S}, HoldsTest c x v S → IsNegate v → ∃ t, c x = some (.negateTest t) := by
    intro c x v S h hv
    cases v with
    | negate t => obtain ⟨q, _, h, _⟩ := h; exact ⟨_, h⟩
    | negateNull => exact ⟨_, h.1⟩
    | _ => exact hv.elim
  obtain ⟨qb, hqb⟩ := cellOf hb hv'
  obtain ⟨qa, hqa⟩ := cellOf ha hv
  obtain ⟨t, T, m₁, e₁, r₁, g₁⟩ := copies_test v' b S' m w hb
  obtain ⟨qt, hqt⟩ := cellOf r₁ hv'
  have hal := w a (by rw [hqa]; rfl)
  have htf : m.fresh ≤ t := by
    obtain ⟨rest, rfl⟩ := kind_test.head _ _ _ _ r₁
    exact ((g₁.mem t).mp (.head _)).1
  have hat : a ≠ t := by omega
  obtain ⟨m₂, e₂, hf₂, hc₂⟩ := swapNegateTest_ok g₁.wf hat (s := qa) (t := qt)
    (by rw [g₁.same a hal, hqa]) hqt
  obtain ⟨m₃, T', e₃, r₃, c₃⟩ := swap_die kind_test w ha hS g₁ r₁ hc₂ hf₂
  refine ⟨m₃, T', ?_, r₃, c₃⟩
  unfold assignTest
  rw [bind_ok (load_ok hqb)]
  show (cloneTest b >>= fun tmp => swapNegateTest a tmp >>= fun _ => destroyTest tmp) m = _
  rw [bind_ok e₁, bind_ok e₂, e₃]

theorem assignTest_plain {m : Mem} (w : m.Wf) {a b : Addr} {v v' : ValueTest} {S S' : List Addr}
    (ha : HoldsTest m.cell a v S) (hb : HoldsTest m.cell b v' S')
    (hv : ¬ IsNegate v) (hv' : ¬ IsNegate v') :
    ∃ m' T, assignTest a b m = pure ((), m') ∧ HoldsTest m'.cell a v' T ∧ Changed m m' S T := by
  have cellOf : ∀ {c : Cells} {x v S}, HoldsTest c x v S → ¬ IsNegate v → c x = some (.test v) ∧ S = [x] := by
    intro c x v S h hv
    cases v with
    | negate t => exact (hv trivial).elim
    | negateNull => exact (hv trivial).elim
    | _ => exact h
  have holdsOf : ∀ {c : Cells} {x v}, ¬ IsNegate v → c x = some (.test v) → HoldsTest c x v [x] := by
    intro c x v hv h
    cases v with
    | negate t => exact (hv trivial).elim
    | negateNull => exact (hv trivial).elim
    | _ => exact ⟨h, rfl⟩
  obtain ⟨ka, rfl⟩ := cellOf ha hv
  obtain ⟨kb, rfl⟩ := cellOf hb hv'
  clear ha hb
  refine ⟨m.put a (.test v'), [a], ?_, holdsOf hv' (by simp [Mem.put]), changed_put w (by rw [ka]; rfl) _⟩
  unfold assignTest
  rw [bind_ok (load_ok kb)]
  show (load a >>= fun o => match o with | .test _ => store a (.test v') | _ => throw .ub) m = _
  rw [bind_ok (load_ok ka)]
  exact store_ok (by rw [ka]; rfl) _

/-! ## Matches -/

theorem kind_match : Kind_ HoldsMatch destroyMatch where
  framed := framed_match
  alive := alive_match
  destroys := destroys_match
  head c a v S h := by
    cases v with
    | «attribute» n t => obtain ⟨_, S', _, _, rfl⟩ := holds_attribute.mp h; exact ⟨_, rfl⟩
    | functionValue f t => obtain ⟨_, S', _, _, rfl⟩ := holds_functionValue.mp h; exact ⟨_, rfl⟩
    | negate ms => obtain ⟨_, S', _, _, rfl⟩ := holds_negate.mp h; exact ⟨_, rfl⟩
    | _ => obtain ⟨_, rfl⟩ := (holds_plain (by simp [Plain])).mp h; exact ⟨_, rfl⟩
  reroot c c' a b v rest h hb hr := by
    cases v with
    | «attribute» n t =>
      obtain ⟨q, S', h, h', e⟩ := holds_attribute.mp h
      injection e with _ e
      subst e
      exact holds_attribute.mpr ⟨q, _, by rw [hb, h],
        framed_ptr (fun y _ => framed_test y) _ _ _ _ h' hr, rfl⟩
    | functionValue f t =>
      obtain ⟨q, S', h, h', e⟩ := holds_functionValue.mp h
      injection e with _ e
      subst e
      exact holds_functionValue.mpr ⟨q, _, by rw [hb, h],
        framed_ptr (fun y _ => framed_test y) _ _ _ _ h' hr, rfl⟩
    | negate ms =>
      obtain ⟨q, S', h, h', e⟩ := holds_negate.mp h
      injection e with _ e
      subst e
      exact holds_negate.mpr ⟨q, _, by rw [hb, h], framed_matches _ _ _ _ _ h' hr, rfl⟩
    | _ =>
      obtain ⟨k, e⟩ := (holds_plain (by simp [Plain])).mp h
      injection e with _ e
      subst e
      exact (holds_plain (by simp [Plain])).mpr ⟨by rw [hb, k], rfl⟩

theorem loadAttributeMatch_ok {m : Mem} {a : Addr} {n : Str} {t : Option Addr}
    (h : m.cell a = some (.attributeMatch n t)) : loadAttributeMatch a m = pure ((n, t), m) := by
  unfold loadAttributeMatch
  rw [bind_ok (load_ok h)]
  rfl

theorem loadFunctionValueMatch_ok {m : Mem} {a : Addr} {n : Option CaptureFn} {t : Option Addr}
    (h : m.cell a = some (.functionValueMatch n t)) : loadFunctionValueMatch a m = pure ((n, t), m) := by
  unfold loadFunctionValueMatch
  rw [bind_ok (load_ok h)]
  rfl

theorem loadNegateMatch_ok {m : Mem} {a : Addr} {t : List (Option Addr)}
    (h : m.cell a = some (.negateMatch t)) : loadNegateMatch a m = pure (t, m) := by
  unfold loadNegateMatch
  rw [bind_ok (load_ok h)]
  rfl

theorem put_put (m : Mem) (a : Addr) (o o' : Obj) : (m.put a o).put a o' = m.put a o' := by
  simp only [Mem.put]
  congr 1
  funext x
  split <;> rfl

theorem put_comm (m : Mem) {a b : Addr} (h : a ≠ b) (o o' : Obj) :
    (m.put a o).put b o' = (m.put b o').put a o := by
  simp only [Mem.put]
  congr 1
  funext x
  by_cases hb : x = b
  · subst hb; simp [Ne.symm h]
  · simp [hb]

theorem put_cell (m : Mem) (a : Addr) (o : Obj) (x : Addr) :
    (m.put a o).cell x = if x = a then some o else m.cell x := rfl

/-- Two objects of one of the match classes that own something. -/
inductive SameOwner : Obj → Obj → Prop
  | «attribute» {n n' t t'} : SameOwner (.attributeMatch n t) (.attributeMatch n' t')
  | functionValue {f f' t t'} : SameOwner (.functionValueMatch f t) (.functionValueMatch f' t')
  | negate {ms ms'} : SameOwner (.negateMatch ms) (.negateMatch ms')

theorem SameOwner.symm {o o' : Obj} (h : SameOwner o o') : SameOwner o' o := by cases h <;> constructor

theorem SameOwner.trans {o o' o'' : Obj} (h : SameOwner o o') (k : SameOwner o' o'') : SameOwner o o'' := by
  cases h <;> cases k <;> constructor

/-- What is left of an object that was moved from. -/
def emptied (sp : Spent) : Obj → Obj
  | .attributeMatch _ _ => .attributeMatch sp.str none
  | .functionValueMatch _ _ => .functionValueMatch sp.fn none
  | .negateMatch _ => .negateMatch []
  | o => o

theorem emptied_same (sp : Spent) {o o' : Obj} (h : SameOwner o o') : SameOwner (emptied sp o) o' := by
  cases h <;> constructor

theorem emptied_eq (sp : Spent) {o o' : Obj} (h : SameOwner o o') : emptied sp o = emptied sp o' := by
  cases h <;> rfl

theorem moveMatch_ok (sp : Spent) {m : Mem} {a : Addr} {o o' : Obj} (k : SameOwner o o') (ha : m.cell a = some o) :
    moveMatch sp a m = pure (m.fresh, (m.put a (emptied sp o)).push o) := by
  unfold moveMatch
  rw [bind_ok (load_ok ha)]
  cases k
  · show (store a _ >>= fun _ => alloc _) m = _
    rw [bind_ok (store_ok (by rw [ha]; rfl) _)]; rfl
  · show (store a _ >>= fun _ => alloc _) m = _
    rw [bind_ok (store_ok (by rw [ha]; rfl) _)]; rfl
  · show (store a _ >>= fun _ => alloc _) m = _
    rw [bind_ok (store_ok (by rw [ha]; rfl) _)]; rfl

theorem moveAssignMatch_ok (sp : Spent) {m : Mem} {a b : Addr} (hab : a ≠ b) {o o' : Obj} (k : SameOwner o o')
    (ha : m.cell a = some (emptied sp o')) (hb : m.cell b = some o) :
    moveAssignMatch sp a b m = pure ((), (m.put b (emptied sp o)).put a o) := by
  have hba := Ne.symm hab
  unfold moveAssignMatch
  rw [bind_ok (load_ok hb)]
  cases k with
  | «attribute» =>
    rename_i n n' t t'
    show moveAssignAttributeMatch sp a b m = _
    have ha : m.cell a = some (.attributeMatch sp.str none) := ha
    unfold moveAssignAttributeMatch
    rw [bind_ok (loadAttributeMatch_ok hb)]
    dsimp only
    rw [bind_ok (store_ok (by rw [hb]; rfl) _),
      bind_ok (loadAttributeMatch_ok (n := sp.str) (t := none) (by simp [put_cell, hab, ha]))]
    dsimp only
    rw [bind_ok (store_ok (by simp [put_cell, hab, ha]) _),
      bind_ok (loadAttributeMatch_ok (n := sp.str) (t := t) (by simp [put_cell, hba]))]
    dsimp only
    rw [bind_ok (store_ok (by simp [put_cell, hba]) _),
      bind_ok (loadAttributeMatch_ok (n := n) (t := none) (by simp [put_cell, hab]))]
    dsimp only
    rw [bind_ok (store_ok (by simp [put_cell, hab]) _), put_comm _ hab, put_put, put_put]
    rfl
  | functionValue =>
    rename_i n n' t t'
    show moveAssignFunctionValueMatch sp a b m = _
    have ha : m.cell a = some (.functionValueMatch sp.fn none) := ha
    unfold moveAssignFunctionValueMatch
    rw [bind_ok (loadFunctionValueMatch_ok hb)]
    dsimp only
    rw [bind_ok (store_ok (by rw [hb]; rfl) _),
      bind_ok (loadFunctionValueMatch_ok (n := sp.fn) (t := none) (by simp [put_cell, hab, ha]))]
    dsimp only
    rw [bind_ok (store_ok (by simp [put_cell, hab, ha]) _),
      bind_ok (loadFunctionValueMatch_ok (n := sp.fn) (t := t) (by simp [put_cell, hba]))]
    dsimp only
    rw [bind_ok (store_ok (by simp [put_cell, hba]) _),
      bind_ok (loadFunctionValueMatch_ok (n := n) (t := none) (by simp [put_cell, hab]))]
    dsimp only
    rw [bind_ok (store_ok (by simp [put_cell, hab]) _), put_comm _ hab, put_put, put_put]
    rfl
  | negate =>
    rename_i ms ms'
    show moveAssignNegateMatch a b m = _
    have ha : m.cell a = some (.negateMatch []) := ha
    unfold moveAssignNegateMatch
    rw [bind_ok (loadNegateMatch_ok ha), bind_ok (store_ok (by rw [ha]; rfl) _),
      bind_ok (loadNegateMatch_ok (t := ms) (by simp [put_cell, hba, hb])),
      bind_ok (store_ok (by simp [put_cell, hba, hb]) _),
      bind_ok (loadNegateMatch_ok (t := []) (by simp [put_cell, hab])),
      bind_ok (store_ok (by simp [put_cell, hab]) _), put_comm _ hab, put_put]
    rfl

theorem destroy_emptied (sp : Spent) {m : Mem} {a : Addr} {o o' : Obj} (k : SameOwner o o')
    (ha : m.cell a = some (emptied sp o)) : destroyMatch a m = pure ((), m.drop a) := by
  rw [destroyMatch, bind_ok (load_ok ha)]
  cases k
  · show (pure () >>= fun _ => free a) m = _
    rw [bind_ok (a := ()) (m' := m) rfl, free_ok (by rw [ha]; rfl)]
  · show (pure () >>= fun _ => free a) m = _
    rw [bind_ok (a := ()) (m' := m) rfl, free_ok (by rw [ha]; rfl)]
  · show (pure () >>= fun _ => free a) m = _
    rw [bind_ok (a := ()) (m' := m) rfl, free_ok (by rw [ha]; rfl)]

theorem swapMatch_ok (sp : Spent) {m : Mem} (w : m.Wf) {a b : Addr} (hab : a ≠ b) {s t : Obj} (k : SameOwner s t)
    (ha : m.cell a = some s) (hb : m.cell b = some t) :
    ∃ m', swapMatch sp a b m = pure ((), m') ∧ m.fresh ≤ m'.fresh ∧
      ∀ x, m'.cell x = if x = b then m.cell a else if x = a then m.cell b else m.cell x := by
  have haf : a ≠ m.fresh := by have := w a (by rw [ha]; rfl); omega
  have hbf : b ≠ m.fresh := by have := w b (by rw [hb]; rfl); omega
  have hf : m.cell m.fresh = none := by
    cases h : m.cell m.fresh with
    | none => rfl
    | some o => have := w m.fresh (by rw [h]; rfl); omega
  refine ⟨((((((m.put a (emptied sp s)).push s).put b (emptied sp t)).put a t).put
    m.fresh (emptied sp s)).put b s).drop m.fresh, ?_, ?_, ?_⟩
  · unfold swapMatch
    rw [bind_ok (moveMatch_ok sp k ha),
      bind_ok (moveAssignMatch_ok sp hab (o := t) (o' := s) k.symm (by simp [Mem.push, Mem.put, haf])
        (by simp [Mem.push, Mem.put, hbf, Ne.symm hab, hb])),
      bind_ok (moveAssignMatch_ok sp hbf (o := s) (o' := t) k (by simp [Mem.push, Mem.put, Ne.symm hab])
        (by simp [Mem.push, Mem.put, Ne.symm hbf, Ne.symm haf])),
      destroy_emptied sp k (by simp [Mem.push, Mem.put, Ne.symm hbf])]
  · simp [Mem.push, Mem.put, Mem.drop]
  · intro x
    by_cases h₁ : x = m.fresh
    · subst h₁
      simp [Mem.push, Mem.put, Mem.drop, Ne.symm haf, Ne.symm hbf, hf]
    · by_cases h₂ : x = b
      · subst h₂; simp [Mem.push, Mem.put, Mem.drop, h₁, ha]
      · by_cases h₃ : x = a
        · subst h₃; simp [Mem.push, Mem.put, Mem.drop, h₁, h₂, hb]
        · simp [Mem.push, Mem.put, Mem.drop, h₁, h₂, h₃]

/-- Two matches of the same class that owns something. -/
def BothOwn : Match → Match → Prop
  | .attribute _ _, .attribute _ _ | .functionValue _ _, .functionValue _ _ | .negate _, .negate _ => True
  | _, _ => False

theorem sameOwner_of {c c' : Cells} {a b : Addr} {v v' : Match} {S S' : List Addr} (h : BothOwn v v')
    (ha : HoldsMatch c a v S) (hb : HoldsMatch c' b v' S') :
    ∃ o o', c a = some o ∧ c' b = some o' ∧ SameOwner o o' := by
  cases v <;> cases v' <;> first | exact h.elim | skip
  · obtain ⟨_, _, k, _⟩ := holds_attribute.mp ha
    obtain ⟨_, _, k', _⟩ := holds_attribute.mp hb
    exact ⟨_, _, k, k', .attribute⟩
  · obtain ⟨_, _, k, _⟩ := holds_functionValue.mp ha
    obtain ⟨_, _, k', _⟩ := holds_functionValue.mp hb
    exact ⟨_, _, k, k', .functionValue⟩
  · obtain ⟨_, _, k, _⟩ := holds_negate.mp ha
    obtain ⟨_, _, k', _⟩ := holds_negate.mp hb
    exact ⟨_, _, k, k', .negate⟩

theorem BothOwn.refl {v v' : Match} (h : BothOwn v v') : BothOwn v' v' := by
  cases v <;> cases v' <;> first | exact h.elim | trivial

theorem assignMatch_owner (sp : Spent) {m : Mem} (w : m.Wf) {a b : Addr} {v v' : Match} {S S' : List Addr}
    (ha : HoldsMatch m.cell a v S) (hb : HoldsMatch m.cell b v' S') (hS : S.Nodup) (hv : BothOwn v v') :
    ∃ m' T, assignMatch sp a b m = pure ((), m') ∧ HoldsMatch m'.cell a v' T ∧ Changed m m' S T := by
  obtain ⟨oa, ob, hoa, hob, k⟩ := sameOwner_of hv ha hb
  obtain ⟨t, T, m₁, e₁, r₁, g₁⟩ := copies_match v' b S' m w hb
  have hal := w a (by rw [hoa]; rfl)
  have htf : m.fresh ≤ t := by
    obtain ⟨rest, rfl⟩ := kind_match.head _ _ _ _ r₁
    exact ((g₁.mem t).mp (.head _)).1
  have hat : a ≠ t := by omega
  obtain ⟨ob', ot, hob', hot, k'⟩ := sameOwner_of hv.refl hb r₁
  have : ob = ob' := by rw [hob] at hob'; injection hob'
  subst this
  obtain ⟨m₂, e₂, hf₂, hc₂⟩ := swapMatch_ok sp g₁.wf hat (k.trans k') (by rw [g₁.same a hal, hoa]) hot
  obtain ⟨m₃, T', e₃, r₃, c₃⟩ := swap_die kind_match w ha hS g₁ r₁ hc₂ hf₂
  refine ⟨m₃, T', ?_, r₃, c₃⟩
  unfold assignMatch
  rw [bind_ok (load_ok hob)]
  have : (cloneMatch b >>= fun tmp => swapMatch sp a tmp >>= fun _ => destroyMatch tmp) m = pure ((), m₃) := by
    rw [bind_ok e₁, bind_ok e₂, e₃]
  cases k <;> exact this

theorem assignMatch_plain (sp : Spent) {m : Mem} (w : m.Wf) {a b : Addr} {v v' : Match} {S S' : List Addr}
    (ha : HoldsMatch m.cell a v S) (hb : HoldsMatch m.cell b v' S') (hv : Plain v) (hv' : Plain v') :
    ∃ m' T, assignMatch sp a b m = pure ((), m') ∧ HoldsMatch m'.cell a v' T ∧ Changed m m' S T := by
  obtain ⟨ka, rfl⟩ := (holds_plain hv).mp ha
  obtain ⟨kb, rfl⟩ := (holds_plain hv').mp hb
  refine ⟨m.put a (.match_ v'), [a], ?_, (holds_plain hv').mpr ⟨by simp [Mem.put], rfl⟩,
    changed_put w (by rw [ka]; rfl) _⟩
  unfold assignMatch
  rw [bind_ok (load_ok kb)]
  show (load a >>= fun o => match o with | .match_ _ => store a (.match_ v') | _ => throw .ub) m = _
  rw [bind_ok (load_ok ka)]
  exact store_ok (by rw [ka]; rfl) _

theorem negateAppendMatch_ok {m : Mem} (w : m.Wf) {a : Addr} {ms : List (Option Match)} {S S' : List Addr}
    {p : Option Addr} {v : Option Match}
    (ha : HoldsMatch m.cell a (.negate ms) S) (hp : HoldsPtr (HoldsMatch m.cell) p v S') (hn : (S ++ S').Nodup) :
    ∃ m', negateAppendMatch a p m = pure ((), m') ∧
      HoldsMatch m'.cell a (.negate (ms ++ [v])) (S ++ S') ∧ Changed m m' (S ++ S') (S ++ S') := by
  obtain ⟨qs, Sr, ka, h', rfl⟩ := holds_negate.mp ha
  obtain ⟨naS, nS⟩ := List.nodup_cons.mp (show (a :: (Sr ++ S')).Nodup from hn)
  have hl₁ : ∀ x ∈ Sr, x < m.fresh := fun x hx => w x (alive_matches _ _ _ _ h' x hx)
  have hl₂ : ∀ x ∈ S', x < m.fresh := fun x hx => w x (alive_ptr (fun y _ => alive_match y) _ _ _ hp x hx)
  refine ⟨m.put a (.negateMatch (qs ++ [p])), ?_, ?_, ?_⟩
  · unfold negateAppendMatch
    rw [bind_ok (loadNegateMatch_ok ka)]
    exact store_ok (by rw [ka]; rfl) _
  · refine holds_negate.mpr ⟨qs ++ [p], Sr ++ S', by simp [Mem.put], ?_, rfl⟩
    have h₁ := framed_matches _ _ _ _ (m.put a (.negateMatch (qs ++ [p]))).cell h' fun x hx => by
      have : x ≠ a := fun k => naS (k ▸ List.mem_append_left _ hx)
      simp [Mem.put, this]
    have h₂ := framed_ptr (fun y _ => framed_match y) _ _ _ (m.put a (.negateMatch (qs ++ [p]))).cell hp
      fun x hx => by
        have : x ≠ a := fun k => naS (k ▸ List.mem_append_right _ hx)
        simp [Mem.put, this]
    exact vec_snoc h₁ h₂
  · exact (changed_put w (by rw [ka]; rfl) _).beside (rest := Sr ++ S') nS
      (fun x hx => (List.mem_append.mp hx).elim (hl₁ x) (hl₂ x))
      (fun x hx k => naS ((List.mem_singleton.mp k) ▸ hx))

end Hext.Mem
