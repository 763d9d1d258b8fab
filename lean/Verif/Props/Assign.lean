import Verif.Spec.Assign
import Verif.Proofs.AssignPipe
import Verif.Proofs.AssignMove
import Verif.Proofs.MemoryBuild
import Verif.Props.Memory
/-!
# C72: assigning matches, value tests and transformations

`Changed m m' S T` (Proofs/MemoryOps.lean) says: of the objects that existed, only those in `S` were touched;
the objects in `T` are distinct, each of them is new or was in `S`, and nothing else is left alive.
-/

namespace Hext.Mem

/-- C72 for matches: whatever two matches of the same class are, `a = b` is defined. Afterwards `a` is what `b`
was, made of its own objects, the old parts of `a` are gone and nothing else has changed. `b` may be `a`
itself, a part of `a`, or contain `a`. -/
theorem C72_assign_match (sp : Spent) {m : Mem} (w : m.Wf) {a b : Addr} {v v' : Match} {S S' : List Addr}
    (ha : HoldsMatch m.cell a v S) (hb : HoldsMatch m.cell b v' S') (hS : S.Nodup) (hc : v.cls = v'.cls) :
    ∃ m' T, assignMatch sp a b m = pure ((), m') ∧ HoldsMatch m'.cell a v' T ∧ Changed m m' S T := by
  by_cases h : BothOwn v v'
  · exact assignMatch_owner sp w ha hb hS h
  · refine assignMatch_plain sp w ha hb ?_ ?_
    · cases v <;> cases v' <;> simp_all [Match.cls, BothOwn, Plain]
    · cases v <;> cases v' <;> simp_all [Match.cls, BothOwn, Plain]

/-- C72 for value tests. -/
theorem C72_assign_test {m : Mem} (w : m.Wf) {a b : Addr} {v v' : ValueTest} {S S' : List Addr}
    (ha : HoldsTest m.cell a v S) (hb : HoldsTest m.cell b v' S') (hS : S.Nodup) (hc : v.cls = v'.cls) :
    ∃ m' T, assignTest a b m = pure ((), m') ∧ HoldsTest m'.cell a v' T ∧ Changed m m' S T := by
  by_cases h : IsNegate v
  · refine assignTest_negate w ha hb hS h ?_
    cases v <;> cases v' <;> simp_all [ValueTest.cls, IsNegate]
  · refine assignTest_plain w ha hb h ?_
    cases v <;> cases v' <;> simp_all [ValueTest.cls, IsNegate]

/-- C72 for transformations: the same, if the two chains have no object in common or `a` is `b`. Missing: one
of the two is a later part of the other's chain, see `C72_own_tail` and `C72_around`. -/
theorem C72_assign_pipe_partial {m : Mem} (w : m.Wf) {a b : Addr} {v v' : Pipe} {S S' : List Addr}
    (ha : HoldsPipe m.cell a v S) (hb : HoldsPipe m.cell b v' S') (hS : S.Nodup)
    (hd : a = b ∨ ∀ x ∈ S', x ∉ S) :
    ∃ m' T, assignPipe a b m = pure ((), m') ∧ HoldsPipe m'.cell a v' T ∧ Changed m m' S T := by
  rcases hd with rfl | hd
  · have := pipe_unique v v' ha hb
    obtain ⟨rfl, rfl⟩ := this
    refine ⟨m, S, assignPipe_self ha, ha, Nat.le_refl _, w, fun _ _ _ => rfl, hS, fun _ h => .inl h, fun x hx => ?_⟩
    by_cases h : x ∈ S
    · exact .inl h
    · exact .inr ⟨w x hx, h⟩
  · exact assignPipe_disjoint w ha hb hS hd

/-- C72, violated: a transformation that is assigned from a later part of its own chain reads an object that was
just deleted. -/
theorem C72_own_tail {m : Mem} {a b : Addr} {v : Pipe} {S : List Addr}
    (ha : HoldsPipe m.cell a v S) (hS : S.Nodup) (hb : b ∈ S) (hab : a ≠ b) : assignPipe a b m = throw .ub :=
  assignPipe_tail_ub ha hS hb hab

/-- C72, violated: if `a` is a later part of the chain of `b`, then `a = b` gives `a` only those transformations of
`b` up to the place of `a`. The ones after `a` are lost. -/
theorem C72_around {m : Mem} (w : m.Wf) {a b : Addr} {v : Pipe} {X Y : List Addr}
    (hb : HoldsPipe m.cell b v (b :: X ++ a :: Y)) (hn : (b :: X ++ a :: Y).Nodup) :
    ∃ m' T u, assignPipe a b m = pure ((), m') ∧ HoldsPipe m'.cell a u T ∧
      u.list = v.list.take (X.length + 2) ∧ (u = v ↔ Y = []) := by
  obtain ⟨m', T, u, h₁, h₂, h₃⟩ := assignPipe_around w hb hn
  have hl := holds_pipe_length v hb
  refine ⟨m', T, u, h₁, h₂, h₃, ?_⟩
  constructor
  · rintro rfl
    have := congrArg List.length h₃
    rw [List.length_take] at this
    simp only [List.length_append, List.length_cons] at hl
    cases Y with
    | nil => rfl
    | cons y Y => simp only [List.length_cons] at hl; omega
  · rintro rfl
    apply Pipe.list_inj
    rw [h₃, List.take_of_length_le]
    simp only [List.length_append, List.length_cons, List.length_nil] at hl
    omega

/-- C72, moving: `a = std::move(b)` for chains without a common object hands the transformations of `b` over to `a`;
`b` is left without successors and nothing leaks. -/
theorem C72_move_pipe_partial (spent : Transform) {m : Mem} (w : m.Wf) {a b : Addr} {v v' : Pipe} {S S' : List Addr}
    (ha : HoldsPipe m.cell a v S) (hb : HoldsPipe m.cell b v' S') (hS : (S ++ S').Nodup)
    (hc : v.first.cls = v'.first.cls) :
    ∃ m' T s, moveAssignPipe spent a b m = pure ((), m') ∧ HoldsPipe m'.cell a v' (a :: T) ∧
      HoldsPipe m'.cell b (.last s) [b] ∧ Changed m m' (S ++ S') (b :: a :: T) := by
  obtain ⟨m', T, s, h₁, h₂, _, h₃, h₄⟩ := moveAssignPipe_disjoint spent w ha hb hS (by
    intro h
    rw [h] at hc
    cases hv : v.first <;> simp_all [Transform.cls])
  exact ⟨m', T, s, h₁, h₂, h₃, h₄⟩

/-- C72, violated: moving from a later part of the own chain reads an object that was just deleted, unless it is a
transformation without members. -/
theorem C72_move_own_tail (spent : Transform) {m : Mem} {a b : Addr} {v : Pipe} {S : List Addr} {t : Transform}
    {n : Option Addr} (ha : HoldsPipe m.cell a v S) (hS : S.Nodup) (hb : b ∈ S) (hab : a ≠ b)
    (ht : m.cell b = some (.pipe t n)) (htc : t.cls ≠ .collapseWsPipe) : moveAssignPipe spent a b m = throw .ub :=
  moveAssignPipe_tail_ub spent ha hS hb hab ht fun h => htc (by rw [h]; rfl)

/-- C72, moving value tests: `a = std::move(b)` for `NegateTest`s without a common object hands the negated test of `b` over to
`a`, frees the old one exactly once and leaves `b` without a test. -/
theorem C72_move_test {m : Mem} (w : m.Wf) {a b : Addr} {v v' : ValueTest} {S S' : List Addr}
    (ha : HoldsTest m.cell a v S) (hb : HoldsTest m.cell b v' S') (hS : (S ++ S').Nodup) (hv : IsNegate v) (hv' : IsNegate v') :
    ∃ m' T, moveAssignNegateTest a b m = pure ((), m') ∧ HoldsTest m'.cell a v' (a :: T) ∧
      HoldsTest m'.cell b .negateNull [b] ∧ Changed m m' (S ++ S') (b :: a :: T) := by
  obtain ⟨m', T, h₁, h₂, _, h₃, h₄⟩ := moveAssignNegateTest_disjoint w ha hb hS hv hv'
  exact ⟨m', T, h₁, h₂, h₃, h₄⟩

/-- C72, moving matches: `a = std::move(b)` for matches of the same class, one that owns something, hands the parts of `b` over
to `a`, frees the old parts of `a` exactly once, and leaves `b` without parts. -/
theorem C72_move_match (sp : Spent) {m : Mem} (w : m.Wf) {a b : Addr} {v v' : Match} {S S' : List Addr}
    (ha : HoldsMatch m.cell a v S) (hb : HoldsMatch m.cell b v' S') (hS : (S ++ S').Nodup) (hv : BothOwn v v') :
    ∃ m' T u, moveAssignMatch sp a b m = pure ((), m') ∧ HoldsMatch m'.cell a v' (a :: T) ∧
      HoldsMatch m'.cell b u [b] ∧ u.cls = v'.cls ∧ Changed m m' (S ++ S') (b :: a :: T) := by
  obtain ⟨m', T, h₁, h₂, _, h₃, h₄⟩ := moveAssignMatch_disjoint sp w ha hb hS hv
  exact ⟨m', T, _, h₁, h₂, h₃, by cases v' <;> rfl, h₄⟩

/-- C72, appending to a chain: the transformations of `p` come after those of `a`, and nothing is copied, lost or
touched besides the last object of the chain. -/
theorem C72_append_pipe {m : Mem} (w : m.Wf) {a : Addr} {v : Pipe} {S S' : List Addr} {p : Option Addr}
    {pv : Option Pipe} (ha : HoldsPipe m.cell a v S) (hp : HoldsPtr (HoldsPipe m.cell) p pv S')
    (hn : (S ++ S').Nodup) :
    ∃ m' u, appendPipe a p m = pure ((), m') ∧ HoldsPipe m'.cell a u (S ++ S') ∧
      u.list = v.list ++ (match pv with | none => [] | some q => q.list) ∧
      Changed m m' (S ++ S') (S ++ S') := by
  obtain ⟨m', e, r, c⟩ := appendPipe_ok v w ha hp hn
  refine ⟨m', _, e, r, ?_, c⟩
  cases pv with
  | none => simp [Pipe.appendPtr]
  | some q => simp [Pipe.appendPtr, Pipe.list_append]

/-- C72, appending to a negated match. -/
theorem C72_append_match {m : Mem} (w : m.Wf) {a : Addr} {ms : List (Option Match)} {S S' : List Addr}
    {p : Option Addr} {v : Option Match}
    (ha : HoldsMatch m.cell a (.negate ms) S) (hp : HoldsPtr (HoldsMatch m.cell) p v S') (hn : (S ++ S').Nodup) :
    ∃ m', negateAppendMatch a p m = pure ((), m') ∧
      HoldsMatch m'.cell a (.negate (ms ++ [v])) (S ++ S') ∧ Changed m m' (S ++ S') (S ++ S') :=
  negateAppendMatch_ok w ha hp hn

/-- C72 for transformations, exactly. Objects belong to one owner, so two chains have objects in common only if one is a later part
of the other. `a = b` gives `a` the transformations of `b` if and only if `a` is `b`, or they have nothing in common, or `a` is the
last transformation of the chain of `b`. -/
theorem C72_assign_pipe_iff {m : Mem} (w : m.Wf) {a b : Addr} {v v' : Pipe} {S S' : List Addr}
    (ha : HoldsPipe m.cell a v S) (hb : HoldsPipe m.cell b v' S') (hS : S.Nodup) (hS' : S'.Nodup)
    (ho : (∀ x ∈ S', x ∉ S) ∨ b ∈ S ∨ a ∈ S') :
    (∃ m' T, assignPipe a b m = pure ((), m') ∧ HoldsPipe m'.cell a v' T) ↔
      a = b ∨ (∀ x ∈ S', x ∉ S) ∨ ∃ X, S' = X ++ [a] := by
  by_cases hab : a = b
  · obtain ⟨m', T, h₁, h₂, _⟩ := C72_assign_pipe_partial w ha hb hS (.inl hab)
    exact ⟨fun _ => .inl hab, fun _ => ⟨m', T, h₁, h₂⟩⟩
  · rcases ho with ho | ho | ho
    · obtain ⟨m', T, h₁, h₂, _⟩ := C72_assign_pipe_partial w ha hb hS (.inr ho)
      exact ⟨fun _ => .inr (.inl ho), fun _ => ⟨m', T, h₁, h₂⟩⟩
    · have hub := C72_own_tail ha hS ho hab
      constructor
      · rintro ⟨m', T, h₁, _⟩
        rw [hub] at h₁
        cases h₁
      · rintro (h | h | ⟨X, rfl⟩)
        · exact absurd h hab
        · exact absurd ho (h b (by cases v' <;> (first | (obtain ⟨_, rfl⟩ := hb; simp) | (obtain ⟨_, _, _, _, rfl⟩ := hb; simp))))
        · exfalso
          have h1 : ∃ X', X ++ [a] = b :: X' ++ [a] := by
            cases v' with
            | last t =>
              obtain ⟨_, h⟩ := hb
              cases X with
              | nil => simp only [List.nil_append, List.cons.injEq, and_true] at h; exact absurd h hab
              | cons x X => simp at h
            | cons t p =>
              obtain ⟨_, _, _, _, h⟩ := hb
              cases X with
              | nil => simp only [List.nil_append, List.cons.injEq] at h; exact absurd h.1 hab
              | cons x X => simp only [List.cons_append, List.cons.injEq] at h; exact ⟨X, by simp [h.1]⟩
          obtain ⟨X', h1⟩ := h1
          rw [h1] at hb
          obtain ⟨va, hva⟩ := tail_chain v' (X := b :: X') hb
          have := (pipe_unique _ _ ha hva).2
          subst this
          simp only [List.mem_singleton] at ho
          exact hab ho.symm
    · obtain ⟨X, Y, rfl⟩ := List.append_of_mem ho
      have hX : ∃ X', X = b :: X' := by
        cases v' with
        | last t =>
          obtain ⟨_, h⟩ := hb
          cases X with
          | nil => simp only [List.nil_append, List.cons.injEq] at h; exact absurd h.1 hab
          | cons x X => simp at h
        | cons t p =>
          obtain ⟨_, _, _, _, h⟩ := hb
          cases X with
          | nil => simp only [List.nil_append, List.cons.injEq] at h; exact absurd h.1 hab
          | cons x X => simp only [List.cons_append, List.cons.injEq] at h; exact ⟨X, by simp [h.1]⟩
      obtain ⟨X, rfl⟩ := hX
      obtain ⟨m', T, u, h₁, h₂, _, h₃⟩ := C72_around w hb hS'
      constructor
      · rintro ⟨m'', T', k₁, k₂⟩
        rw [h₁] at k₁
        cases k₁
        exact .inr (.inr ⟨b :: X, by rw [h₃.1 (pipe_unique _ _ h₂ k₂).1]⟩)
      · rintro (h | h | ⟨Z, h⟩)
        · exact absurd h hab
        · refine absurd ?_ (h a ho)
          cases v <;> (first | (obtain ⟨_, rfl⟩ := ha; simp) | (obtain ⟨_, _, _, _, rfl⟩ := ha; simp))
        · have hY : Y = [] := by
            cases Y with
            | nil => rfl
            | cons y Y =>
              exfalso
              have hl := congrArg List.getLast? h
              have hn := (List.nodup_append.mp hS').2.1
              simp only [List.getLast?_append, List.getLast?_singleton, Option.some_or] at hl
              rw [show (a :: y :: Y).getLast? = (y :: Y).getLast? from by simp [List.getLast?_cons_cons]] at hl
              have hm : a ∈ (y :: Y) := List.mem_of_getLast? (by
                cases hg : (y :: Y).getLast? with
                | none => simp at hg
                | some z => rw [hg] at hl; simpa using hl)
              exact (List.nodup_cons.mp hn).1 hm
          exact ⟨m', T, h₁, h₃.2 hY ▸ h₂⟩

/-! ## C49: captures -/

/-- C49, exactly: `a = b` is defined and makes `a` what `b` is if and only if `a` is `b` or `b` has a transformation; otherwise it is
undefined behaviour. -/
theorem C49_assign_iff {m : Mem} (w : m.Wf) {a b : Addr} {v v' : Capture} {S S' : List Addr}
    (ha : HoldsCapture m.cell a v S) (hb : HoldsCapture m.cell b v' S') (hS : S.Nodup) (hc : v.cls = v'.cls) :
    ((∃ m' T, assignCapture a b m = pure ((), m') ∧ HoldsCapture m'.cell a v' T ∧ Changed m m' S T) ↔
      (a = b ∨ v'.pipe ≠ none)) ∧
    (¬ (a = b ∨ v'.pipe ≠ none) → assignCapture a b m = throw .ub) := by
  have hub : ¬ (a = b ∨ v'.pipe ≠ none) → assignCapture a b m = throw .ub := by
    intro h
    rw [not_or, Classical.not_not] at h
    obtain ⟨hab, hp⟩ := h
    cases v <;> cases v' <;> first | cases hc | skip
    · subst hp
      obtain ⟨q, _, ha, _⟩ := ha
      obtain ⟨q', _, hb, hq, _⟩ := hb
      cases q' with
      | some x => exact hq.elim
      | none => exact assign_capture_without_pipe_ub hab ha hb
    · subst hp
      obtain ⟨q, _, ha, _⟩ := ha
      obtain ⟨q', _, hb, hq, _⟩ := hb
      cases q' with
      | some x => exact hq.elim
      | none => exact assign_function_capture_without_pipe_ub hab ha hb
  refine ⟨⟨fun ⟨m', T, h₁, _⟩ => ?_, fun h => ?_⟩, hub⟩
  · refine Classical.byContradiction fun h => ?_
    rw [hub h] at h₁
    cases h₁
  · by_cases hab : a = b
    · subst hab
      refine ⟨m, S', by unfold assignCapture; rw [if_pos rfl]; rfl, hb, ?_⟩
      have := capture_unique ha hb
      subst this
      refine ⟨Nat.le_refl _, w, fun _ _ _ => rfl, hS, fun _ h => .inl h, fun x hx => ?_⟩
      by_cases h : x ∈ S
      · exact .inl h
      · exact .inr ⟨w x hx, h⟩
    · have hp := h.resolve_left hab
      cases v <;> cases v' <;> first | cases hc | skip
      · rename_i p' 
        cases p' with
        | none => exact absurd rfl hp
        | some p' => exact assign_attribute_capture_partial w ha hb hS hab
      · rename_i p' 
        cases p' with
        | none => exact absurd rfl hp
        | some p' => exact assign_function_capture_partial w ha hb hS hab

/-- C49, moving: `a = std::move(b)` for two captures hands the transformations of `b` over to `a`, frees the old ones of `a` exactly
once, and leaves `b` without one. A capture without transformations is no exception here. -/
theorem C49_move_assign (sp : Spent) {m : Mem} (w : m.Wf) {a b : Addr} {v v' : Capture} {S S' : List Addr}
    (ha : HoldsCapture m.cell a v S) (hb : HoldsCapture m.cell b v' S') (hS : (S ++ S').Nodup) (hc : v.cls = v'.cls) :
    ∃ m' T u, moveAssignCapture sp a b m = pure ((), m') ∧ HoldsCapture m'.cell a v' (a :: T) ∧
      HoldsCapture m'.cell b u [b] ∧ u.cls = v'.cls ∧ u.pipe = none ∧ Changed m m' (S ++ S') (b :: a :: T) := by
  cases v <;> cases v' <;> first | cases hc | skip
  all_goals
    obtain ⟨q, So, ka, ha', rfl⟩ := ha
    have hb0 := hb
    obtain ⟨q', Sp, kb, hb', rfl⟩ := hb
    obtain ⟨nS, nS', hdis⟩ := List.nodup_append.mp hS
    obtain ⟨na, nSo⟩ := List.nodup_cons.mp nS
    have hab : a ≠ b := hdis a (.head _) b (.head _)
    have hba := Ne.symm hab
    have hne : ∀ x ∈ So, x ≠ a ∧ x ≠ b := fun x hx => ⟨fun k => na (k ▸ hx), hdis x (.tail _ hx) b (.head _)⟩
  · rename_i attr name p attr' name' p'
    obtain ⟨m', e', g⟩ := destroys_ptr (fun y _ => destroys_pipe y) q So
      ((m.put b (.attributeCapture sp.str sp.str none)).put a (.attributeCapture attr' name' q'))
      (framed_ptr (fun y _ => framed_pipe y) _ _ _ _ ha' fun x hx => by
        simp [Mem.put, (hne x hx).1, (hne x hx).2]) nSo
    obtain ⟨r₁, r₂, r₃⟩ := taken kind_capture (e := .attributeCapture sp.str sp.str none) w (by rw [ka]; rfl) hb0 hS g.fresh (fun x => by
      rw [g.cell]
      simp only [Mem.put, kb])
    refine ⟨m', Sp, .attribute sp.str sp.str none, ?_, r₁, ⟨none, [], r₂, rfl, rfl⟩, rfl, rfl, r₃⟩
    unfold moveAssignCapture
    rw [bind_ok (load_ok ka), bind_ok (load_ok kb)]
    dsimp only
    rw [bind_ok (store_ok (by rw [kb]; rfl) _), bind_ok (store_ok (by simp [put_cell, hab, ka]) _)]
    exact e'
  · rename_i attr name p attr' name' p'
    obtain ⟨m', e', g⟩ := destroys_ptr (fun y _ => destroys_pipe y) q So
      ((m.put b (.functionCapture sp.fn sp.str none)).put a (.functionCapture attr' name' q'))
      (framed_ptr (fun y _ => framed_pipe y) _ _ _ _ ha' fun x hx => by
        simp [Mem.put, (hne x hx).1, (hne x hx).2]) nSo
    obtain ⟨r₁, r₂, r₃⟩ := taken kind_capture (e := .functionCapture sp.fn sp.str none) w (by rw [ka]; rfl) hb0 hS g.fresh (fun x => by
      rw [g.cell]
      simp only [Mem.put, kb])
    refine ⟨m', Sp, .function sp.fn sp.str none, ?_, r₁, ⟨none, [], r₂, rfl, rfl⟩, rfl, rfl, r₃⟩
    unfold moveAssignCapture
    rw [bind_ok (load_ok ka), bind_ok (load_ok kb)]
    dsimp only
    rw [bind_ok (store_ok (by rw [kb]; rfl) _), bind_ok (store_ok (by simp [put_cell, hab, ka]) _)]
    exact e'

/-! ## Examples -/

/-- A chain of three transformations at the addresses 0, 1 and 2, and another one at 3. -/
def exChain : Mem where
  cell := fun x => match x with
    | 0 => some (.pipe (.append "a".toUTF8.toList) (some 1))
    | 1 => some (.pipe (.append "b".toUTF8.toList) (some 2))
    | 2 => some (.pipe (.append "c".toUTF8.toList) none)
    | 3 => some (.pipe (.append "d".toUTF8.toList) none)
    | _ => none
  fresh := 4

theorem exChain_wf : exChain.Wf := by
  intro x hx
  show x < 4
  match x with
  | 0 | 1 | 2 | 3 => omega
  | n + 4 => cases hx

def exPipe : Pipe := .cons (.append "a".toUTF8.toList) (.cons (.append "b".toUTF8.toList) (.last (.append "c".toUTF8.toList)))

theorem exChain_holds : HoldsPipe exChain.cell 0 exPipe [0, 1, 2] :=
  ⟨1, [1, 2], rfl, ⟨2, [2], rfl, ⟨rfl, rfl⟩, rfl⟩, rfl⟩

theorem exChain_single : HoldsPipe exChain.cell 3 (.last (.append "d".toUTF8.toList)) [3] := ⟨rfl, rfl⟩

-- hypotheses of C72_assign_pipe_partial, C72_move_pipe_partial, C72_append_pipe
example := C72_assign_pipe_partial exChain_wf exChain_holds exChain_single (by decide) (.inr (by decide))
example := C72_assign_pipe_partial exChain_wf exChain_single exChain_holds (by decide) (.inr (by decide))
example := C72_move_pipe_partial (.append []) exChain_wf exChain_holds exChain_single (by decide) rfl
example := C72_append_pipe exChain_wf exChain_holds (p := some 3) (pv := some (.last (.append "d".toUTF8.toList)))
  exChain_single (by decide)
-- the violations happen
example : assignPipe 0 1 exChain = throw .ub := C72_own_tail exChain_holds (by decide) (by decide) (by decide)
example : moveAssignPipe (.append []) 0 2 exChain = throw .ub :=
  C72_move_own_tail (t := .append "c".toUTF8.toList) (n := none) _ exChain_holds (by decide) (by decide) (by decide) rfl
    nofun
example : ∃ m' T u, assignPipe 1 0 exChain = pure ((), m') ∧ HoldsPipe m'.cell 1 u T ∧ u.list = exPipe.list.take 2 ∧ u ≠ exPipe := by
  obtain ⟨m', T, u, h₁, h₂, h₃, h₄⟩ := C72_around (X := []) (Y := [2]) exChain_wf exChain_holds (by decide)
  exact ⟨m', T, u, h₁, h₂, h₃, fun h => by cases h₄.mp h⟩

-- C72_assign_pipe_iff: assigning the whole chain to its last transformation works, to the one in the middle does not
example : ∃ m' T, assignPipe 2 0 exChain = pure ((), m') ∧ HoldsPipe m'.cell 2 exPipe T :=
  (C72_assign_pipe_iff exChain_wf (v := .last (.append "c".toUTF8.toList)) (S := [2]) ⟨rfl, rfl⟩ exChain_holds (by decide) (by decide)
    (.inr (.inr (by decide)))).2 (.inr (.inr ⟨[0, 1], rfl⟩))
example : ¬ ∃ m' T, assignPipe 1 0 exChain = pure ((), m') ∧ HoldsPipe m'.cell 1 exPipe T := by
  rw [C72_assign_pipe_iff exChain_wf (v := .cons (.append "b".toUTF8.toList) (.last (.append "c".toUTF8.toList))) (S := [1, 2])
    ⟨2, [2], rfl, ⟨rfl, rfl⟩, rfl⟩ exChain_holds (by decide) (by decide) (.inr (.inr (by decide)))]
  rintro (h | h | ⟨X, h⟩)
  · cases h
  · exact absurd h (by decide)
  · have := congrArg List.getLast? h
    simp at this

/-- Captures at 0 (without a transformation), 1 (with the one at 2) and 3 (without). -/
def exCaptures : Mem where
  cell := fun x => match x with
    | 0 => some (.attributeCapture "a".toUTF8.toList "b".toUTF8.toList none)
    | 1 => some (.attributeCapture "c".toUTF8.toList "d".toUTF8.toList (some 2))
    | 2 => some (.pipe .toLower none)
    | 3 => some (.functionCapture none "e".toUTF8.toList none)
    | _ => none
  fresh := 4

theorem exCaptures_wf : exCaptures.Wf := by
  intro x hx
  show x < 4
  match x with
  | 0 | 1 | 2 | 3 => omega
  | n + 4 => cases hx

theorem exCaptures_bare : HoldsCapture exCaptures.cell 0 (.attribute "a".toUTF8.toList "b".toUTF8.toList none) [0] :=
  ⟨none, [], rfl, rfl, rfl⟩

theorem exCaptures_piped : HoldsCapture exCaptures.cell 1 (.attribute "c".toUTF8.toList "d".toUTF8.toList (some (.last .toLower))) [1, 2] :=
  ⟨some 2, [2], rfl, ⟨rfl, rfl⟩, rfl⟩

-- C49_assign_iff: the one with a transformation can be assigned, the other one cannot; C49_move_assign: both can be moved
example : ∃ m' T, assignCapture 0 1 exCaptures = pure ((), m') ∧
    HoldsCapture m'.cell 0 (.attribute "c".toUTF8.toList "d".toUTF8.toList (some (.last .toLower))) T ∧ Changed exCaptures m' [0] T :=
  (C49_assign_iff exCaptures_wf exCaptures_bare exCaptures_piped (by decide) rfl).1.2 (.inr nofun)
example : assignCapture 1 0 exCaptures = throw .ub :=
  (C49_assign_iff exCaptures_wf exCaptures_piped exCaptures_bare (by decide) rfl).2 (by simp [Capture.pipe])
example := C49_move_assign ⟨[], none⟩ exCaptures_wf exCaptures_piped exCaptures_bare (by decide) rfl

/-- `:not(:not(…))` at 0 with the inner match at 1 and a plain match at 2, and an attribute match with a negated test
at 3, 4 and 5. -/
def exMatches : Mem where
  cell := fun x => match x with
    | 0 => some (.negateMatch [some 1, none])
    | 1 => some (.negateMatch [some 2])
    | 2 => some (.match_ (.childCount 1))
    | 3 => some (.attributeMatch "id".toUTF8.toList (some 4))
    | 4 => some (.negateTest (some 5))
    | 5 => some (.test (.equals "x".toUTF8.toList))
    | 6 => some (.attributeMatch "class".toUTF8.toList none)
    | _ => none
  fresh := 7

theorem exMatches_wf : exMatches.Wf := by
  intro x hx
  show x < 7
  match x with
  | 0 | 1 | 2 | 3 | 4 | 5 | 6 => omega
  | n + 7 => cases hx

theorem exInner : HoldsMatch exMatches.cell 1 (.negate [some (.childCount 1)]) [1, 2] :=
  holds_negate.mpr ⟨[some 2], [2], rfl, ⟨[2], [], (holds_plain (m := .childCount 1) trivial).mpr ⟨rfl, rfl⟩, rfl, rfl⟩, rfl⟩

theorem exOuter : HoldsMatch exMatches.cell 0 (.negate [some (.negate [some (.childCount 1)]), none]) [0, 1, 2] :=
  holds_negate.mpr ⟨[some 1, none], [1, 2], rfl, ⟨[1, 2], [], exInner, ⟨[], [], rfl, rfl, rfl⟩, rfl⟩, rfl⟩

theorem exAttr : HoldsMatch exMatches.cell 3 (.attribute "id".toUTF8.toList (some (.negate (.equals "x".toUTF8.toList)))) [3, 4, 5] :=
  holds_attribute.mpr ⟨some 4, [4, 5], rfl, ⟨5, [5], rfl, ⟨rfl, rfl⟩, rfl⟩, rfl⟩

theorem exAttr' : HoldsMatch exMatches.cell 6 (.attribute "class".toUTF8.toList none) [6] :=
  holds_attribute.mpr ⟨none, [], rfl, rfl, rfl⟩

/-- Two negated tests, at 0 (with the test at 1) and at 2. -/
def exTests : Mem where
  cell := fun x => match x with
    | 0 => some (.negateTest (some 1))
    | 1 => some (.test (.equals [1]))
    | 2 => some (.negateTest none)
    | _ => none
  fresh := 3

theorem exTests_wf : exTests.Wf := by
  intro x hx
  show x < 3
  match x with
  | 0 | 1 | 2 => omega
  | n + 3 => cases hx

-- a negated match is assigned its own part, and the other way round
example (sp : Spent) := C72_assign_match sp exMatches_wf exOuter exInner (by decide) rfl
example (sp : Spent) := C72_assign_match sp exMatches_wf exInner exOuter (by decide) rfl
example (sp : Spent) := C72_assign_match sp exMatches_wf exAttr exAttr' (by decide) rfl
example (sp : Spent) := C72_move_match sp exMatches_wf exAttr exAttr' (by decide) trivial
example (sp : Spent) := C72_move_match sp exMatches_wf exAttr' exAttr (by decide) trivial
example : ∃ m' T, moveAssignNegateTest 0 2 exTests = pure ((), m') ∧ HoldsTest m'.cell 0 .negateNull (0 :: T) := by
  obtain ⟨m', T, h₁, h₂, _⟩ := C72_move_test (m := exTests) (a := 0) (b := 2) (v := .negate (.equals [1])) (v' := .negateNull)
    (S := [0, 1]) (S' := [2]) exTests_wf ⟨1, [1], rfl, ⟨rfl, rfl⟩, rfl⟩ ⟨rfl, rfl⟩ (by decide) trivial trivial
  exact ⟨m', T, h₁, h₂⟩
example := C72_append_match exMatches_wf exOuter (p := some 6) (v := some (.attribute "class".toUTF8.toList none))
  exAttr' (by decide)
example : ∃ m : Mem, ∃ a S, m.Wf ∧ HoldsTest m.cell a (.negate (.negate .negateNull)) S ∧ S.Nodup := by
  obtain ⟨a, S, m, h, g⟩ := fits_test (.negate (.negate .negateNull)) Mem.empty (by intro x hx; cases hx)
  exact ⟨m, a, S, g.wf, h, g.nodup⟩

end Hext.Mem
