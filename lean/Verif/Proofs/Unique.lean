import Verif.Proofs.Complete
set_option linter.unusedSimpArgs false
/-!
# The specification determines the result
-/

namespace Hext

theorem uses_inj {β γ : Type} (f : β → γ) {steps steps' : List (Anchored β)} {final final' : List β}
    (h1 : steps.map (Anchored.bare f) = steps'.map (Anchored.bare f))
    (h3 : Anchored.uses steps final = Anchored.uses steps' final') : steps = steps' ∧ final = final' := by
  induction steps generalizing steps' with
  | nil =>
    cases steps' with
    | nil => exact ⟨rfl, by simpa [uses_nil] using h3⟩
    | cons => simp at h1
  | cons s steps ih =>
    cases steps' with
    | nil => simp at h1
    | cons s' steps' =>
      simp only [List.map_cons, List.cons.injEq] at h1
      rw [uses_cons, uses_cons] at h3
      have hl : s.fill.length = s'.fill.length := by
        have := congrArg (fun a => (Anchored.fill a).length) h1.1
        simpa [Anchored.bare] using this
      obtain ⟨e1, e2⟩ := List.append_inj h3 hl
      simp only [List.cons.injEq] at e2
      obtain ⟨k1, k2⟩ := ih h1.2 e2.2
      refine ⟨?_, k2⟩
      rw [k1]
      congr 1
      cases s; cases s'
      simp only at e1 e2
      simp [e1, e2.1]

/-- The groups of a search are determined by the specification. -/
theorem Search.unique {own : RuleInfo → Loc → Prop} {chain kss gs} (hm : Search own chain kss gs) :
    ∀ gs', Search own chain kss gs' → gs = gs' := by
  refine Search.rec
    (motive_1 := fun r l ps _ => ∀ ps', Matched own r l ps' → ps = ps')
    (motive_2 := fun ns t ps _ => ∀ ps', Nested own ns t ps' → ps = ps')
    (motive_3 := fun chain kss gs _ => ∀ gs', Search own chain kss gs' → gs = gs')
    (motive_4 := fun chain ks gs _ => ∀ gs', Groups own chain ks gs' → gs = gs')
    (motive_5 := fun chain ks g rest _ => ∀ g' rest', Group own chain ks g' rest' → g = g' ∧ rest = rest')
    (motive_6 := fun asg _ => ∀ asg', AllMatched own asg' →
      asg.map (fun a => (a.rule, a.loc)) = asg'.map (fun a => (a.rule, a.loc)) → asg = asg')
    ?_ ?_ ?_ ?_ ?_ ?_ ?_ ?_ ?_ ?_ ?_ ?_ hm
  · intro r l _ h1 h2 ps' h
    cases h with
    | leaf => rfl
    | inner _ h => exact absurd ⟨h1, h2⟩ h
  · intro r l gs ps _ hnl _ _ ihg ihn ps' h
    cases h with
    | leaf _ h1 h2 => exact absurd ⟨h1, h2⟩ hnl
    | inner _ _ h1 h2 => rw [ihg _ h1, ihn _ h2]
  · intro t ps' h; cases h; rfl
  · intro q qs t gs ps _ _ ihs ihn ps' h
    cases h with
    | cons h1 h2 => rw [ihs _ h1, ihn _ h2]
  · intro chain gs' h; cases h; rfl
  · intro chain ks kss gs hs _ _ ihg ihs gs' h
    cases h with
    | cons h1 h2 => rw [ihg _ h1, ihs _ h2]
  · intro chain rest he gs' h
    cases h with
    | stop => rfl
    | stopOptional => rfl
    | cons hg _ => exact absurd hg.embeds he
  · intro chain rest ho hn gs' h
    cases h with
    | stop => rfl
    | stopOptional => rfl
    | cons hg _ =>
      exfalso
      obtain ⟨asg, seg, rfl, a1, a2, a3, a4, _⟩ := hg.shape
      obtain ⟨a, asg, rfl⟩ := List.exists_cons_of_ne_nil a4
      exact hn a.rule (a1.mem _ (by simp)) a.loc
        (List.mem_append_left _ (a2.subset (by simp))) (AllMatched.embeds a3 a (by simp))
  · intro chain ns rest g gs hg _ ihg ihs gs' h
    cases h with
    | stop he => exact absurd hg.embeds he
    | stopOptional ho hn =>
      exfalso
      obtain ⟨asg, seg, rfl, a1, a2, a3, a4, _⟩ := hg.shape
      obtain ⟨a, asg, rfl⟩ := List.exists_cons_of_ne_nil a4
      exact hn a.rule (a1.mem _ (by simp)) a.loc
        (List.mem_append_left _ (a2.subset (by simp))) (AllMatched.embeds a3 a (by simp))
    | cons h1 h2 =>
      obtain ⟨rfl, rfl⟩ := ihg _ _ h1
      rw [ihs _ h2]
  · intro chain ns rest steps final hr _ _ ih g' rest' h
    cases h with
    | mk steps' final' hr' ha' _ =>
      obtain ⟨e1, e2, rfl⟩ := hr.unique hr'
      have eu : Anchored.uses (steps.map (Anchored.bare fun a => (a.rule, a.loc))) (final.map fun a => (a.rule, a.loc)) =
          Anchored.uses (steps'.map (Anchored.bare fun a => (a.rule, a.loc))) (final'.map fun a => (a.rule, a.loc)) := by
        rw [e1, e2]
      rw [uses_map, uses_map] at eu
      obtain ⟨rfl, rfl⟩ := uses_inj _ e1 (ih _ ha' eu)
      exact ⟨rfl, rfl⟩
  · intro asg' _ h
    simpa using h.symm
  · intro a asg _ _ ihm ihs asg' h e
    cases h with
    | nil => simp at e
    | @cons b asg' h1 h2 =>
      simp only [List.map_cons, List.cons.injEq, Prod.mk.injEq] at e
      obtain ⟨⟨e1, e2⟩, e3⟩ := e
      obtain ⟨r, l, f⟩ := a
      obtain ⟨r', l', f'⟩ := b
      simp only at e1 e2 ihm h1
      subst e1 e2
      rw [ihm _ h1, ihs _ h2 e3]

theorem Maps.unique {rx : RxEngine} {h : Heap} {gs : List Found} {ms ms' : List (List (Str × Str))}
    (hm : Maps rx h gs ms) (hm' : Maps rx h gs ms') : ms = ms' := by
  induction hm generalizing ms' with
  | nil => cases hm'; rfl
  | cons h1 h2 _ ih =>
    cases hm' with
    | cons h1' h2' h3' =>
      have := h1.unique h1'
      subst this
      rw [h2.unique h2', ih h3']

/-- There is at most one result. -/
theorem IsResult.unique {rx : RxEngine} {h : Heap} {r : Rule} {l : Loc} {res res' : List (List (Str × Str))}
    (h1 : IsResult rx h r l res) (h2 : IsResult rx h r l res') : res = res' := by
  obtain ⟨gs, ms, a1, a2, rfl⟩ := h1
  obtain ⟨gs', ms', b1, b2, rfl⟩ := h2
  have := a1.unique _ b1
  subst this
  rw [a2.unique b2]

end Hext
