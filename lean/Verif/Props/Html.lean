import Verif.Spec.Html
/-!
# C46: documents
-/

namespace Hext.HtmlMem

@[simp] theorem set_self {α} (f : Nat → Option α) (k : Nat) (x : Option α) : set f k x k = x := by simp [set]

theorem set_ne {α} (f : Nat → Option α) {k i : Nat} (x : Option α) (h : i ≠ k) : set f k x i = f i := by simp [set, h]

theorem set_apply {α} (f : Nat → Option α) (k i : Nat) (x : Option α) : set f k x i = if i = k then x else f i := rfl

theorem pure_inj {α} {a b : α} (h : (pure a : E α) = pure b) : a = b := by
  injection h with h; injection h with h

theorem ub_ne {α} {a : α} (h : (throw .ub : E α) = pure a) : False := by
  injection h with h; injection h

theorem run_or (s : State) (op : Op) : (∃ s', op.run s = pure s') ∨ op.run s = throw .ub := by
  cases op <;> simp only [Op.run, newBuffer, freeBuffer, construct, moveConstruct, moveAssign, destroy, root]
  all_goals repeat' split
  all_goals first
    | exact .inl ⟨_, rfl⟩
    | exact .inr rfl

theorem runs_or : ∀ (ops : List Op) (s : State), (∃ s', runs s ops = pure s') ∨ runs s ops = throw .ub
  | [], s => .inl ⟨s, rfl⟩
  | op :: ops, s => by
    rcases run_or s op with ⟨s', h⟩ | h
    · rcases runs_or ops s' with ⟨s'', h'⟩ | h'
      · exact .inl ⟨s'', by rw [runs, h]; exact h'⟩
      · exact .inr (by rw [runs, h]; exact h')
    · exact .inr (by rw [runs, h]; rfl)

/-- What is true as long as nothing is moved. -/
structure Rel (e : Env) (s : State) : Prop where
  buffers : s.mem.buffers = e.buffers
  absent : ∀ v, e.htmls v = none → s.htmls v = none
  full : ∀ v, e.htmls v ≠ some none
  holds : ∀ v b t, e.htmls v = some (some (b, t)) →
    ∃ p t', s.htmls v = some p ∧ s.mem.outputs p = some ⟨b, t⟩ ∧ e.buffers b = some t'
  inj : ∀ v w p, s.htmls v = some p → s.htmls w = some p → v = w
  owned : ∀ p o, s.mem.outputs p = some o → p < s.mem.fresh ∧ ∃ v, s.htmls v = some p

theorem Rel.start : Rel noEnv start := ⟨rfl, fun _ _ => rfl, by simp [noEnv], by simp [noEnv], by simp [HtmlMem.start],
  by simp [HtmlMem.start]⟩

theorem Rel.of_htmls {e s} (h : Rel e s) {v p} (hp : s.htmls v = some p) :
    ∃ b t t', e.htmls v = some (some (b, t)) ∧ s.mem.outputs p = some ⟨b, t⟩ ∧ e.buffers b = some t' := by
  rcases hv : e.htmls v with _ | _ | ⟨b, t⟩
  · rw [h.absent v hv] at hp; cases hp
  · exact absurd hv (h.full v)
  · obtain ⟨q, t', h1, h2, h3⟩ := h.holds v b t hv
    rw [hp] at h1; cases h1
    exact ⟨b, t, t', rfl, h2, h3⟩

theorem Rel.step {e s op e'} (h : Rel e s) (hv : Op.Val e op e') (hm : ¬ op.Moves) : ∃ s', op.run s = pure s' ∧ Rel e' s' := by
  cases hv with
  | @newBuffer b t hb =>
    refine ⟨_, rfl, ?_, h.absent, h.full, fun v b' t' hv => ?_, h.inj, h.owned⟩
    · simp only [h.buffers]
    · obtain ⟨p, t'', h1, h2, h3⟩ := h.holds v b' t' hv
      refine ⟨p, t'', h1, h2, ?_⟩
      have : b' ≠ b := by rintro rfl; rw [hb] at h3; cases h3
      simp only [set_ne _ _ this, h3]
  | @freeBuffer b t hb hu =>
    refine ⟨{ s with mem := { s.mem with buffers := set s.mem.buffers b none } }, by simp only [Op.run, freeBuffer, h.buffers, hb], ?_, h.absent, h.full, fun v b' t' hv => ?_, h.inj, h.owned⟩
    · simp only [h.buffers]
    · obtain ⟨p, t'', h1, h2, h3⟩ := h.holds v b' t' hv
      refine ⟨p, t'', h1, h2, ?_⟩
      have : b' ≠ b := by rintro rfl; exact hu v t' hv
      simp only [set_ne _ _ this, h3]
  | @construct v b t hv hb =>
    have hf : ∀ w p, s.htmls w = some p → p ≠ s.mem.fresh := by
      rintro w p hw rfl
      obtain ⟨_, _, _, _, ho, _⟩ := h.of_htmls hw
      exact absurd (h.owned _ _ ho).1 (by simp)
    refine ⟨_, by simp only [Op.run, construct, h.buffers, hb]; rfl, rfl, fun w hw => ?_, fun w hw => ?_, fun w b' t' hw => ?_,
      fun w w' p hw hw' => ?_, fun p o ho => ?_⟩
    · simp only [set_apply] at hw ⊢
      split
      · simp [*] at hw
      · rw [if_neg ‹_›] at hw; exact h.absent w hw
    · simp only [set_apply] at hw
      split at hw
      · cases hw
      · exact h.full w hw
    · simp only [set_apply] at hw
      split at hw
      · cases hw
        subst_vars
        exact ⟨s.mem.fresh, t, by simp, by simp, hb⟩
      · obtain ⟨p, t'', h1, h2, h3⟩ := h.holds w b' t' hw
        refine ⟨p, t'', by simp only [set_ne _ _ ‹_›, h1], ?_, h3⟩
        simp only [set_ne _ _ (hf w p h1), h2]
    · simp only [set_apply] at hw hw'
      split at hw <;> split at hw'
      · subst_vars; rfl
      · cases hw; exact absurd rfl (hf _ _ hw')
      · cases hw'; exact absurd rfl (hf _ _ hw)
      · exact h.inj w w' p hw hw'
    · simp only [set_apply] at ho
      split at ho
      · subst_vars
        exact ⟨by simp, v, by simp⟩
      · obtain ⟨h1, w, h2⟩ := h.owned p o ho
        refine ⟨by simp; omega, w, ?_⟩
        have : w ≠ v := by rintro rfl; rw [h.absent w hv] at h2; cases h2
        simp only [set_ne _ _ this, h2]
  | moveConstruct => exact absurd trivial hm
  | moveAssign hne => exact absurd hne hm
  | @selfAssign v d hv =>
    obtain ⟨⟨b, t⟩, rfl⟩ : ∃ d', d = some d' := by
      cases d with
      | none => exact absurd hv (h.full v)
      | some d => exact ⟨d, rfl⟩
    obtain ⟨p, t', h1, h2, h3⟩ := h.holds v b t hv
    refine ⟨_, by simp only [Op.run, moveAssign, h1]; rfl, ?_⟩
    have : set s.htmls v (some p) = s.htmls := by
      funext i; simp only [set_apply]; split <;> simp_all
    rw [this]; exact h
  | @read v d hv =>
    obtain ⟨b, t⟩ := d
    obtain ⟨p, t', h1, h2, h3⟩ := h.holds v b t hv
    refine ⟨s, ?_, h⟩
    simp only [Op.run, root, h1, h2, h.buffers, h3]
    rfl
  | @destroy v d hv =>
    obtain ⟨⟨b, t⟩, rfl⟩ : ∃ d', d = some d' := by
      cases d with
      | none => exact absurd hv (h.full v)
      | some d => exact ⟨d, rfl⟩
    obtain ⟨p, t', h1, h2, h3⟩ := h.holds v b t hv
    refine ⟨⟨{ s.mem with outputs := set s.mem.outputs p none }, set s.htmls v none⟩, by simp only [Op.run, destroy, h1, h2], h.buffers, fun w hw => ?_, fun w hw => ?_, fun w b' t' hw => ?_,
      fun w w' q hw hw' => ?_, fun q o ho => ?_⟩
    · simp only [set_apply] at hw ⊢
      split
      · rfl
      · rw [if_neg ‹_›] at hw; exact h.absent w hw
    · simp only [set_apply] at hw
      split at hw
      · cases hw
      · exact h.full w hw
    · simp only [set_apply] at hw
      split at hw
      · cases hw
      · obtain ⟨q, t'', h1', h2', h3'⟩ := h.holds w b' t' hw
        refine ⟨q, t'', by simp only [set_ne _ _ ‹_›, h1'], ?_, h3'⟩
        have : q ≠ p := by rintro rfl; exact absurd (h.inj _ _ _ h1' h1) ‹_›
        simp only [set_ne _ _ this, h2']
    · simp only [set_apply] at hw hw'
      split at hw <;> split at hw'
      · subst_vars; rfl
      · cases hw
      · cases hw'
      · exact h.inj w w' q hw hw'
    · simp only [set_apply] at ho
      split at ho
      · cases ho
      · obtain ⟨g1, w, g2⟩ := h.owned q o ho
        refine ⟨g1, w, ?_⟩
        have : w ≠ v := by rintro rfl; rw [h1] at g2; cases g2; exact absurd rfl ‹_›
        simp only [set_ne _ _ this, g2]

theorem Rel.steps {ops} : ∀ {e s e'}, Rel e s → Vals e ops e' → (∀ op ∈ ops, ¬ op.Moves) → ∃ s', runs s ops = pure s' ∧ Rel e' s' := by
  induction ops with
  | nil => intro e s e' h hv _; cases hv; exact ⟨s, rfl, h⟩
  | cons op ops ih =>
    intro e s e' h hv hm
    cases hv with
    | cons h1 h2 =>
      obtain ⟨s1, h3, h4⟩ := h.step h1 (hm op (by simp))
      obtain ⟨s2, h5, h6⟩ := ih h4 h2 fun op ho => hm op (by simp [ho])
      exact ⟨s2, by rw [runs, h3]; exact h5, h6⟩

/-- C46, partial. A program that follows the documentation of `Html` and moves no `Html` has no undefined behaviour, reads
from each `Html` the document of the text it was made from, and leaves no document in memory when all are destroyed. (What is
missing: programs that move, see below.) -/
theorem C46_documents_partial {ops : List Op} {e : Env} (hv : Vals noEnv ops e) (hm : ∀ op ∈ ops, ¬ op.Moves) :
    ∃ s, runs start ops = pure s ∧ (∀ v b t, e.htmls v = some (some (b, t)) → root v s = pure t) ∧
      ((∀ v, e.htmls v = none) → ∀ p, s.mem.outputs p = none) := by
  obtain ⟨s, h1, h2⟩ := Rel.start.steps hv hm
  refine ⟨s, h1, fun v b t hv => ?_, fun hn p => ?_⟩
  · obtain ⟨p, t', h3, h4, h5⟩ := h2.holds v b t hv
    simp only [root, h3, h4, h2.buffers, h5]
  · cases hp : s.mem.outputs p with
    | none => rfl
    | some o =>
      obtain ⟨_, v, h3⟩ := h2.owned p o hp
      rw [h2.absent v (hn v)] at h3; cases h3

/-! ## Moves -/

/-- Two objects have the same output, or one has an output that was freed. -/
def Bad (s : State) : Prop :=
  ∃ v p, s.htmls v = some p ∧ (s.mem.outputs p = none ∨ ∃ w, w ≠ v ∧ s.htmls w = some p)

/-- The same variables exist. -/
def Same (e : Env) (s : State) : Prop :=
  (∀ v, e.htmls v = none ↔ s.htmls v = none) ∧ (∀ v p, s.htmls v = some p → p < s.mem.fresh)

theorem Same.step {e s op e' s'} (h : Same e s) (hv : Op.Val e op e') (hr : op.run s = pure s') : Same e' s' := by
  obtain ⟨hd, hf⟩ := h
  cases hv with
  | newBuffer hb =>
    have := pure_inj hr; subst this
    exact ⟨hd, hf⟩
  | freeBuffer hb =>
    simp only [Op.run, freeBuffer] at hr
    split at hr
    · exact (ub_ne hr).elim
    · have := pure_inj hr; subst this
      exact ⟨hd, hf⟩
  | construct hv hb =>
    simp only [Op.run, construct] at hr
    split at hr
    · exact (ub_ne hr).elim
    · have := pure_inj hr; subst this
      refine ⟨fun w => ?_, fun w p hw => ?_⟩
      · simp only [set_apply]; split
        · simp
        · exact hd w
      · simp only [set_apply] at hw
        split at hw
        · cases hw; simp
        · have := hf w p hw; simp only; omega
  | moveConstruct hv hw =>
    simp only [Op.run, moveConstruct] at hr
    split at hr
    · exact (ub_ne hr).elim
    · rename_i p hp
      have := pure_inj hr; subst this
      refine ⟨fun x => ?_, fun x q hx => ?_⟩
      · simp only [set_apply]; split
        · simp
        · split
          · subst_vars; simp [hp]
          · exact hd x
      · simp only [set_apply] at hx
        split at hx
        · cases hx; exact hf _ _ hp
        · exact hf x q hx
  | moveAssign hne hv hw =>
    simp only [Op.run, moveAssign] at hr
    split at hr
    · rename_i q p hq hp
      have := pure_inj hr; subst this
      refine ⟨fun x => ?_, fun x q hx => ?_⟩
      · simp only [set_apply]; split
        · simp
        · split
          · subst_vars; simp [hp]
          · exact hd x
      · simp only [set_apply] at hx
        split at hx
        · cases hx; exact hf _ _ hp
        · exact hf x q hx
    · exact (ub_ne hr).elim
  | selfAssign hv =>
    simp only [Op.run, moveAssign] at hr
    split at hr
    · rename_i q p hq hp
      have := pure_inj hr; subst this
      refine ⟨fun x => ?_, fun x q hx => ?_⟩
      · simp only [set_apply]; split
        · subst_vars; simp [hv]
        · exact hd x
      · simp only [set_apply] at hx
        split at hx
        · cases hx; exact hf _ _ hp
        · exact hf x q hx
    · exact (ub_ne hr).elim
  | read hv =>
    simp only [Op.run, root] at hr
    repeat' split at hr
    all_goals first
      | exact (ub_ne hr).elim
      | (have := pure_inj hr; subst this; exact ⟨hd, hf⟩)
  | destroy hv =>
    simp only [Op.run, destroy] at hr
    split at hr
    · exact (ub_ne hr).elim
    · split at hr
      · exact (ub_ne hr).elim
      · have := pure_inj hr; subst this
        refine ⟨fun x => ?_, fun x q hx => ?_⟩
        · simp only [set_apply]; split
          · simp
          · exact hd x
        · simp only [set_apply] at hx
          split at hx
          · cases hx
          · exact hf x q hx

theorem Bad.step {e s op e' s'} (h : Same e s) (hb : Bad s) (hv : Op.Val e op e') (hr : op.run s = pure s') : Bad s' := by
  obtain ⟨hd, hf⟩ := h
  obtain ⟨v, p, hvp, hbad⟩ := hb
  cases hv with
  | newBuffer _ =>
    have := pure_inj hr; subst this
    exact ⟨v, p, hvp, hbad⟩
  | freeBuffer _ =>
    simp only [Op.run, freeBuffer] at hr
    split at hr
    · exact (ub_ne hr).elim
    · have := pure_inj hr; subst this
      exact ⟨v, p, hvp, hbad⟩
  | @construct v0 b t hv0 _ =>
    simp only [Op.run, construct] at hr
    split at hr
    · exact (ub_ne hr).elim
    · have := pure_inj hr; subst this
      have hn := (hd v0).1 hv0
      have h0 : v ≠ v0 := by rintro rfl; rw [hn] at hvp; cases hvp
      refine ⟨v, p, by simp only [set_ne _ _ h0, hvp], ?_⟩
      rcases hbad with ho | ⟨w, hw, hwp⟩
      · refine .inl ?_
        have := hf v p hvp
        show set _ _ _ _ = none
        rw [set_ne _ _ (by omega), ho]
      · have h1 : w ≠ v0 := by rintro rfl; rw [hn] at hwp; cases hwp
        exact .inr ⟨w, hw, by simp only [set_ne _ _ h1, hwp]⟩
  | @moveConstruct v0 w0 d hv0 hw0 =>
    simp only [Op.run, moveConstruct] at hr
    split at hr
    · exact (ub_ne hr).elim
    · have := pure_inj hr; subst this
      have hn := (hd v0).1 hv0
      have h0 : v ≠ v0 := by rintro rfl; rw [hn] at hvp; cases hvp
      refine ⟨v, p, by simp only [set_ne _ _ h0, hvp], ?_⟩
      rcases hbad with ho | ⟨w, hw, hwp⟩
      · exact .inl ho
      · have h1 : w ≠ v0 := by rintro rfl; rw [hn] at hwp; cases hwp
        exact .inr ⟨w, hw, by simp only [set_ne _ _ h1, hwp]⟩
  | @moveAssign v0 w0 d d' hne _ _ =>
    simp only [Op.run, moveAssign] at hr
    split at hr
    · rename_i q p' hq hp
      have := pure_inj hr; subst this
      exact ⟨v0, p', by simp, .inr ⟨w0, hne.symm, by simp only [set_ne _ _ hne.symm, hp]⟩⟩
    · exact (ub_ne hr).elim
  | @selfAssign v0 _ _ =>
    simp only [Op.run, moveAssign] at hr
    split at hr
    · rename_i q p' hq hp
      have := pure_inj hr; subst this
      have : set s.htmls v0 (some p') = s.htmls := by
        funext i; simp only [set_apply]; split <;> simp_all
      rw [this]
      exact ⟨v, p, hvp, hbad⟩
    · exact (ub_ne hr).elim
  | read _ =>
    simp only [Op.run, root] at hr
    repeat' split at hr
    all_goals first
      | exact (ub_ne hr).elim
      | (have := pure_inj hr; subst this; exact ⟨v, p, hvp, hbad⟩)
  | @destroy v0 _ _ =>
    simp only [Op.run, destroy] at hr
    split at hr
    · exact (ub_ne hr).elim
    · rename_i p0 hp0
      split at hr
      · exact (ub_ne hr).elim
      · rename_i o ho
        have := pure_inj hr; subst this
        by_cases h0 : v = v0
        · subst h0
          rw [hvp] at hp0; cases hp0
          rcases hbad with h1 | ⟨w, hw, hwp⟩
          · rw [h1] at ho; cases ho
          · exact ⟨w, p, by simp only [set_ne _ _ hw, hwp], .inl (by simp)⟩
        · refine ⟨v, p, by simp only [set_ne _ _ h0, hvp], ?_⟩
          rcases hbad with h1 | ⟨w, hw, hwp⟩
          · refine .inl ?_
            simp only [set_apply]; split
            · rfl
            · exact h1
          · by_cases h2 : w = v0
            · subst h2
              rw [hwp] at hp0; cases hp0
              exact .inl (by simp)
            · exact .inr ⟨w, hw, by simp only [set_ne _ _ h2, hwp]⟩

theorem Bad.of_move {e s op e' s'} (hv : Op.Val e op e') (h : Same e s) (hm : op.Moves) (hr : op.run s = pure s') : Bad s' := by
  obtain ⟨hd, hf⟩ := h
  cases hv with
  | @moveConstruct v0 w0 d hv0 hw0 =>
    simp only [Op.run, moveConstruct] at hr
    split at hr
    · exact (ub_ne hr).elim
    · rename_i p hp
      have := pure_inj hr; subst this
      have hne : w0 ≠ v0 := by rintro rfl; rw [hv0] at hw0; cases hw0
      exact ⟨v0, p, by simp, .inr ⟨w0, hne, by simp only [set_ne _ _ hne, hp]⟩⟩
  | @moveAssign v0 w0 d d' hne _ _ =>
    simp only [Op.run, moveAssign] at hr
    split at hr
    · rename_i q p' hq hp
      have := pure_inj hr; subst this
      exact ⟨v0, p', by simp, .inr ⟨w0, hne.symm, by simp only [set_ne _ _ hne.symm, hp]⟩⟩
    · exact (ub_ne hr).elim
  | selfAssign => exact absurd rfl hm
  | _ => exact absurd hm id

theorem bad_runs {ops} : ∀ {e s e' s'}, Same e s → Vals e ops e' → runs s ops = pure s' → (Bad s ∨ ∃ op ∈ ops, op.Moves) →
    Same e' s' ∧ Bad s' := by
  induction ops with
  | nil =>
    intro e s e' s' h hv hr hb
    cases hv
    have := pure_inj hr; subst this
    exact ⟨h, hb.resolve_right (by simp)⟩
  | cons op ops ih =>
    intro e s e' s' h hv hr hb
    cases hv with
    | cons h1 h2 =>
      rcases run_or s op with ⟨s1, h3⟩ | h3
      · rw [runs, h3] at hr
        refine ih (h.step h1 h3) h2 hr ?_
        rcases hb with hb | ⟨op', ho, hm⟩
        · exact .inl (hb.step h h1 h3)
        · rcases List.mem_cons.1 ho with rfl | ho
          · exact .inl (Bad.of_move h1 h hm h3)
          · exact .inr ⟨op', ho, hm⟩
      · rw [runs, h3] at hr
        exact (ub_ne hr).elim

/-- C46 fails for moves: every program that moves an `Html` to another one, in whatever way, and destroys all in the end, has
undefined behaviour. -/
theorem C46_move_ub {ops : List Op} {e : Env} (hv : Vals noEnv ops e) (hm : ∃ op ∈ ops, op.Moves)
    (he : ∀ v, e.htmls v = none) : runs start ops = throw .ub := by
  rcases runs_or ops start with ⟨s, h⟩ | h
  · have h0 : Same noEnv start := ⟨fun _ => by simp [noEnv, start], by simp [start]⟩
    obtain ⟨⟨hd, _⟩, v, p, hvp, _⟩ := bad_runs h0 hv h (.inr hm)
    rw [(hd v).1 (he v)] at hvp
    cases hvp
  · exact h

/-- C46, the exact limit: a program that follows the documentation and destroys all in the end has undefined behaviour exactly if
it moves an `Html` to another one. -/
theorem C46_ub_iff {ops : List Op} {e : Env} (hv : Vals noEnv ops e) (he : ∀ v, e.htmls v = none) :
    runs start ops = throw .ub ↔ ∃ op ∈ ops, op.Moves := by
  refine ⟨fun h => Classical.byContradiction fun hm => ?_, fun hm => C46_move_ub hv hm he⟩
  obtain ⟨s, h1, _⟩ := C46_documents_partial hv fun op ho hop => hm ⟨op, ho, hop⟩
  rw [h] at h1
  exact ub_ne h1

/-- The two theorems apply: a document, and a document that is moved. -/
example : ∃ e, Vals noEnv [.newBuffer 0 (lit "<a>"), .construct 0 0, .read 0] e ∧ e.htmls 0 = some (some (0, lit "<a>")) :=
  ⟨_, .cons (.newBuffer rfl) (.cons (.construct rfl rfl) (.cons (.read rfl) .nil)), rfl⟩

example : ∃ e, Vals noEnv [.newBuffer 0 (lit "<a>"), .construct 0 0, .moveConstruct 1 0, .read 1, .destroy 1, .destroy 0] e ∧
    ∀ v, e.htmls v = none := by
  refine ⟨_, .cons (.newBuffer rfl) (.cons (.construct rfl rfl) (.cons (.moveConstruct rfl rfl) (.cons (.read rfl)
    (.cons (.destroy rfl) (.cons (.destroy rfl) .nil))))), fun v => ?_⟩
  simp only [set_apply, noEnv]
  repeat' split
  all_goals rfl

/-! ## main.cpp -/

theorem Vals.append {ops ops'} : ∀ {e e' e''}, Vals e ops e' → Vals e' ops' e'' → Vals e (ops ++ ops') e'' := by
  induction ops with
  | nil => intro e e' e'' h h'; cases h; exact h'
  | cons op ops ih =>
    intro e e' e'' h h'
    cases h with
    | cons h1 h2 => exact .cons h1 (ih h2 h')

/-- With enough capacity there is no reallocation. -/
theorem readLoop_eq (growth : Vec → List Nat × Nat) : ∀ (ts : List Str) (vec : Vec) (i : Nat), vec.elems.length + ts.length ≤ vec.capacity →
    readLoop growth vec i ts = (⟨vec.elems ++ List.range' i ts.length, vec.capacity⟩,
      (ts.zipIdx i).flatMap fun p => [.newBuffer p.2 p.1, .construct p.2 p.2])
  | [], vec, i, _ => by simp [readLoop]
  | t :: ts, vec, i, h => by
    simp only [List.length_cons] at h
    simp only [readLoop, emplaceBack, if_pos (show vec.elems.length < vec.capacity by omega)]
    rw [readLoop_eq growth ts _ (i + 1) (by simp; omega)]
    simp [List.range'_succ]

/-- The documents and texts numbered from `a` to `b`, and the texts before. -/
def docs (texts : List Str) (a b c d : Nat) : Env :=
  ⟨fun i => if a ≤ i ∧ i < b then texts[i]?.map fun t => some (i, t) else none,
   fun i => if c ≤ i ∧ i < d then texts[i]? else none⟩

theorem docs_start (texts : List Str) : docs texts 0 0 0 0 = noEnv := by simp [docs, noEnv]

theorem vals_read (texts : List Str) : ∀ (rest : List Str) (i : Nat), texts.drop i = rest →
    Vals (docs texts 0 i 0 i) ((rest.zipIdx i).flatMap fun p => [.newBuffer p.2 p.1, .construct p.2 p.2])
      (docs texts 0 (i + rest.length) 0 (i + rest.length))
  | [], i, _ => .nil
  | t :: rest, i, h => by
    have ht : texts[i]? = some t := by
      have := congrArg List.head? h
      simpa using this
    have hr : texts.drop (i + 1) = rest := by
      rw [← List.drop_drop, h]; rfl
    have ih := vals_read texts rest (i + 1) hr
    rw [List.length_cons, show i + (rest.length + 1) = i + 1 + rest.length by omega]
    simp only [List.zipIdx_cons, List.flatMap_cons]
    refine Vals.append (.cons (.newBuffer ?_) (.cons (.construct (t := t) ?_ ?_) .nil)) ?_
    · simp [docs]
    · simp [docs]
    · simp
    · have : (⟨set (docs texts 0 i 0 i).htmls i (some (some (i, t))), set (docs texts 0 i 0 i).buffers i (some t)⟩ : Env) = docs texts 0 (i + 1) 0 (i + 1) := by
        simp only [docs, Env.mk.injEq]
        constructor
        · funext k
          simp only [set_apply]
          by_cases hk : k = i
          · subst hk; simp [ht]
          · rw [if_neg hk]
            by_cases h2 : k < i
            · rw [if_pos (by omega), if_pos (by omega)]
            · rw [if_neg (by omega), if_neg (by omega)]
        · funext k
          simp only [set_apply]
          by_cases hk : k = i
          · subst hk; simp [ht]
          · rw [if_neg hk]
            by_cases h2 : k < i
            · rw [if_pos (by omega), if_pos (by omega)]
            · rw [if_neg (by omega), if_neg (by omega)]
      rw [this]
      exact ih

theorem vals_reads {e : Env} : ∀ (vs : List Nat), (∀ v ∈ vs, ∃ d, e.htmls v = some (some d)) → Vals e (vs.map .read) e
  | [], _ => .nil
  | v :: vs, h => by
    obtain ⟨d, hd⟩ := h v (by simp)
    exact .cons (.read hd) (vals_reads vs fun w hw => h w (by simp [hw]))

theorem vals_destroy (texts : List Str) : ∀ (n a : Nat), a + n = texts.length →
    Vals (docs texts a texts.length 0 texts.length) ((List.range' a n).map .destroy) (docs texts texts.length texts.length 0 texts.length)
  | 0, a, h => by
    have : a = texts.length := by omega
    subst this; exact .nil
  | n + 1, a, h => by
    have ht : texts[a]? = some texts[a] := List.getElem?_eq_getElem (by omega)
    rw [List.range'_succ]
    refine .cons (.destroy (d := some (a, texts[a])) ?_) ?_
    · simp [docs]; omega
    · have : ({ docs texts a texts.length 0 texts.length with htmls := set (docs texts a texts.length 0 texts.length).htmls a none } : Env) =
          docs texts (a + 1) texts.length 0 texts.length := by
        simp only [docs, Env.mk.injEq, and_true]
        funext k
        simp only [set_apply]
        by_cases hk : k = a
        · subst hk; rw [if_pos rfl, if_neg (by omega)]
        · rw [if_neg hk]
          by_cases h2 : a ≤ k ∧ k < texts.length
          · rw [if_pos h2, if_pos (by omega)]
          · rw [if_neg h2, if_neg (by omega)]
      rw [this]
      exact vals_destroy texts n (a + 1) (by omega)

theorem vals_free (texts : List Str) : ∀ (n a : Nat), a + n = texts.length →
    Vals (docs texts texts.length texts.length a texts.length) ((List.range' a n).map .freeBuffer)
      (docs texts texts.length texts.length texts.length texts.length)
  | 0, a, h => by
    have : a = texts.length := by omega
    subst this; exact .nil
  | n + 1, a, h => by
    have ht : texts[a]? = some texts[a] := List.getElem?_eq_getElem (by omega)
    rw [List.range'_succ]
    refine .cons (.freeBuffer (t := texts[a]) ?_ ?_) ?_
    · simp [docs]; omega
    · intro v t
      simp only [docs]
      rw [if_neg (by omega)]
      simp
    · have : ({ docs texts texts.length texts.length a texts.length with
          buffers := set (docs texts texts.length texts.length a texts.length).buffers a none } : Env) =
          docs texts texts.length texts.length (a + 1) texts.length := by
        simp only [docs, Env.mk.injEq, true_and]
        funext k
        simp only [set_apply]
        by_cases hk : k = a
        · subst hk; rw [if_pos rfl, if_neg (by omega)]
        · rw [if_neg hk]
          by_cases h2 : a ≤ k ∧ k < texts.length
          · rw [if_pos h2, if_pos (by omega)]
          · rw [if_neg h2, if_neg (by omega)]
      rw [this]
      exact vals_free texts n (a + 1) (by omega)

theorem vals_main (growth : Vec → List Nat × Nat) (reserved : Nat) (texts : List Str) (rules : Nat) (h : texts.length ≤ reserved) :
    Vals noEnv (mainOps growth reserved texts rules) (docs texts texts.length texts.length texts.length texts.length) ∧
      ∀ op ∈ mainOps growth reserved texts rules, ¬ op.Moves := by
  have hr := readLoop_eq growth texts ⟨[], reserved⟩ 0 (by simpa using h)
  unfold mainOps
  rw [hr]
  simp only [List.nil_append]
  constructor
  · have h1 := vals_read texts texts 0 rfl
    rw [docs_start, Nat.zero_add] at h1
    refine ((h1.append ?_).append (vals_destroy texts texts.length 0 (by omega))).append ?_
    · rw [show (List.replicate rules ((List.range' 0 texts.length).map Op.read)).flatten =
          ((List.replicate rules (List.range' 0 texts.length)).flatten).map Op.read by
        rw [List.map_flatten, List.map_replicate]]
      apply vals_reads
      intro v hv
      simp only [List.mem_flatten, List.mem_replicate] at hv
      obtain ⟨l, ⟨_, rfl⟩, hv⟩ := hv
      have : v < texts.length := by simpa [List.mem_range'] using hv
      exact ⟨(v, texts[v]), by simp [docs, this]⟩
    · rw [List.range_eq_range']
      exact vals_free texts texts.length 0 (by omega)
  · intro op hop
    simp only [List.mem_append, List.mem_flatMap, List.mem_flatten, List.mem_replicate, List.mem_map] at hop
    rcases hop with ((⟨p, _, hp⟩ | ⟨l, ⟨_, rfl⟩, hp⟩) | ⟨v, _, rfl⟩) | ⟨v, _, rfl⟩
    · simp only [List.mem_cons, List.not_mem_nil, or_false] at hp
      rcases hp with rfl | rfl <;> exact id
    · obtain ⟨v, _, rfl⟩ := List.mem_map.1 hp
      exact id
    · exact id
    · exact id

/-- C46 for htmlext: as the capacity for all documents is reserved before the first one is parsed, whatever the number of files,
the number of files that are read before one cannot be read, and the number of rules, the program has no undefined behaviour
from its documents, and leaves none in memory. -/
theorem C46_main (growth : Vec → List Nat × Nat) (files : Nat) (texts : List Str) (rules : Nat) (h : texts.length ≤ files) :
    ∃ s, runs start (mainOps growth files texts rules) = pure s ∧ ∀ p, s.mem.outputs p = none := by
  obtain ⟨h1, h2⟩ := vals_main growth files texts rules h
  obtain ⟨s, h3, _, h4⟩ := C46_documents_partial h1 h2
  refine ⟨s, h3, h4 fun v => ?_⟩
  simp only [docs]
  rw [if_neg (by omega)]

/-- What the reads find during the extractions: the documents of the texts. -/
theorem C46_main_reads (growth : Vec → List Nat × Nat) (files : Nat) (texts : List Str) (h : texts.length ≤ files) :
    ∃ s, runs start (readLoop growth ⟨[], files⟩ 0 texts).2 = pure s ∧
      (readLoop growth ⟨[], files⟩ 0 texts).1.elems.map (fun v => root v s) = texts.map pure := by
  have hr := readLoop_eq growth texts ⟨[], files⟩ 0 (by simpa using h)
  rw [hr]
  have h1 := vals_read texts texts 0 rfl
  rw [docs_start, Nat.zero_add] at h1
  obtain ⟨s, h3, h4, _⟩ := C46_documents_partial h1 (by
    intro op hop
    simp only [List.mem_flatMap] at hop
    obtain ⟨p, _, hp⟩ := hop
    simp only [List.mem_cons, List.not_mem_nil, or_false] at hp
    rcases hp with rfl | rfl <;> exact id)
  refine ⟨s, h3, ?_⟩
  apply List.ext_getElem
  · simp
  · intro i hi hi'
    have : i < texts.length := by simpa using hi'
    simp only [List.nil_append, List.getElem_map, List.getElem_range', Nat.zero_add, Nat.one_mul]
    exact h4 i i _ (by simp [docs, this])

/-- Without `parsed_html.reserve` the vector reallocates at the second file, and the program has undefined behaviour. -/
theorem C46_main_needs_reserve (t t' : Str) (rules : Nat) :
    runs start (mainOps (fun vec => (vec.elems.map (· + 2), vec.elems.length + 1)) 0 [t, t'] rules) = throw .ub := by
  cases rules with
  | zero => rfl
  | succ n => rfl

/-! ## The wrapper of the bindings -/

/-- What Python, Ruby and PHP do with documents. -/
inductive WOp
  | new (v : Nat) (t : Str)
  | extract (v : Nat)
  | delete (v : Nat)

def WOp.ops : WOp → List Op
  | .new v t => wrapNew v t
  | .extract v => [.read v]
  | .delete v => wrapDelete v

/-- The texts of the living objects after a program that uses only living objects. -/
inductive Alive : (Nat → Option Str) → List WOp → (Nat → Option Str) → Prop
  | nil {f} : Alive f [] f
  | new {f v t ops g} : f v = none → Alive (set f v (some t)) ops g → Alive f (.new v t :: ops) g
  | extract {f v ops g} : f v ≠ none → Alive f ops g → Alive f (.extract v :: ops) g
  | delete {f v ops g} : f v ≠ none → Alive (set f v none) ops g → Alive f (.delete v :: ops) g

def wrapEnv (f : Nat → Option Str) : Env := ⟨fun v => (f v).map fun t => some (v, t), f⟩

theorem wrapEnv_set (f : Nat → Option Str) (v : Nat) (t : Str) : (⟨set (wrapEnv f).htmls v (some (some (v, t))), set f v (some t)⟩ : Env) = wrapEnv (set f v (some t)) := by
  simp only [wrapEnv, Env.mk.injEq, and_true]
  funext k
  simp only [set_apply]
  split <;> simp_all

theorem wrapEnv_unset (f : Nat → Option Str) (v : Nat) : (⟨set (wrapEnv f).htmls v none, set f v none⟩ : Env) = wrapEnv (set f v none) := by
  simp only [wrapEnv, Env.mk.injEq, and_true]
  funext k
  simp only [set_apply]
  split <;> simp_all

theorem wrap_vals {f ops g} (h : Alive f ops g) : Vals (wrapEnv f) (ops.flatMap WOp.ops) (wrapEnv g) := by
  induction h with
  | nil => exact .nil
  | @new f v t ops g hv _ ih =>
    rw [List.flatMap_cons]
    refine Vals.append (e' := wrapEnv (set f v (some t))) ?_ ih
    rw [← wrapEnv_set]
    exact .cons (.newBuffer hv) (.cons (.construct (by simp [wrapEnv, hv]) (by simp)) .nil)
  | @extract f v ops g hv _ ih =>
    rw [List.flatMap_cons]
    obtain ⟨t, ht⟩ := Option.ne_none_iff_exists'.1 hv
    exact Vals.append (.cons (.read (d := (v, t)) (by simp [wrapEnv, ht])) .nil) ih
  | @delete f v ops g hv _ ih =>
    rw [List.flatMap_cons]
    obtain ⟨t, ht⟩ := Option.ne_none_iff_exists'.1 hv
    refine Vals.append (e' := wrapEnv (set f v none)) ?_ ih
    rw [← wrapEnv_unset]
    refine .cons (.destroy (d := some (v, t)) (by simp [wrapEnv, ht])) (.cons (.freeBuffer (t := t) ht ?_) .nil)
    intro w t'
    simp only [set_apply]
    split
    · simp
    · rename_i hne
      simp only [wrapEnv, ne_eq, Option.map_eq_some_iff, not_exists, not_and]
      intro a _ h
      cases h
      exact hne rfl

/-- C46 for Python, Ruby and PHP: whatever documents they create, use and delete, in whatever order, there is no undefined
behaviour, each document that is alive is the one of its text, and none is left when all are deleted. -/
theorem C46_wrapper {ops : List WOp} {f : Nat → Option Str} (h : Alive (fun _ => none) ops f) :
    ∃ s, runs start (ops.flatMap WOp.ops) = pure s ∧ (∀ v t, f v = some t → root v s = pure t) ∧
      ((∀ v, f v = none) → ∀ p, s.mem.outputs p = none) := by
  have h1 := wrap_vals h
  have h0 : wrapEnv (fun _ => none) = noEnv := rfl
  rw [h0] at h1
  obtain ⟨s, h2, h3, h4⟩ := C46_documents_partial h1 (by
    intro op hop
    obtain ⟨w, _, hw⟩ := List.mem_flatMap.1 hop
    cases w <;> simp only [WOp.ops, wrapNew, wrapDelete, List.mem_cons, List.not_mem_nil, or_false] at hw
    · rcases hw with rfl | rfl <;> exact id
    · subst hw; exact id
    · rcases hw with rfl | rfl <;> exact id)
  exact ⟨s, h2, fun v t hv => h3 v v t (by simp [wrapEnv, hv]), fun hn => h4 fun v => by simp [wrapEnv, hn v]⟩

example : ∃ f, Alive (fun _ => none) [.new 0 (lit "a"), .new 1 (lit "b"), .extract 1, .delete 0, .extract 1] f ∧
    f 1 = some (lit "b") :=
  ⟨_, .new rfl (.new rfl (.extract (by simp) (.delete (by simp [set]) (.extract (by simp [set]) .nil)))), rfl⟩

end Hext.HtmlMem
