import Verif.Spec.Extract
set_option linter.unusedSimpArgs false
/-!
# Facts about fillers, anchors and runs
-/

namespace Hext

/-! ## Words -/

theorem Covers.mono {ι : Type} {o o' g : ι → Bool} {cs w : List ι} (h : Covers o g cs w)
    (ho : ∀ c ∈ cs, o c = true → o' c = true) : Covers o' g cs w := by
  induction h with
  | done => exact .done
  | skip hc _ ih => exact .skip (ho _ (by simp) hc) (ih fun c hc' => ho c (by simp [hc']))
  | once _ ih => exact .once (ih fun c hc' => ho c (by simp [hc']))
  | more hg _ ih => exact .more hg (ih ho)

theorem Covers.append {ι : Type} {o g : ι → Bool} {cs w ds v : List ι} (h : Covers o g cs w)
    (h2 : Covers o g ds v) : Covers o g (cs ++ ds) (w ++ v) := by
  induction h with
  | done => exact h2
  | skip hc _ ih => exact .skip hc ih
  | once _ ih => exact .once ih
  | more hg _ ih => exact .more hg ih

theorem Covers.replicate {ι : Type} {o g : ι → Bool} {c : ι} {cs w : List ι} (hg : g c = true) :
    ∀ k, Covers o g cs w → Covers o g (c :: cs) (List.replicate (k + 1) c ++ w)
  | 0, h => .once h
  | k + 1, h => by
    have := Covers.replicate hg k h
    rw [List.replicate_succ] at this ⊢
    rw [List.replicate_succ]
    exact .more hg this

theorem Covers.split {ι : Type} {o g : ι → Bool} {cs ds : List ι} : ∀ {w : List ι}, Covers o g (cs ++ ds) w →
    ∃ u v, w = u ++ v ∧ Covers o g cs u ∧ Covers o g ds v := by
  induction cs with
  | nil => intro w h; exact ⟨[], w, rfl, .done, h⟩
  | cons c cs ih =>
    intro w h
    generalize he : (c :: cs) ++ ds = es at h
    induction h with
    | done => simp at he
    | skip hc h _ =>
      simp only [List.cons_append, List.cons.injEq] at he
      obtain ⟨rfl, rfl⟩ := he
      obtain ⟨u, v, rfl, h1, h2⟩ := ih h
      exact ⟨u, v, rfl, .skip hc h1, h2⟩
    | once h _ =>
      simp only [List.cons_append, List.cons.injEq] at he
      obtain ⟨rfl, rfl⟩ := he
      obtain ⟨u, v, rfl, h1, h2⟩ := ih h
      exact ⟨_ :: u, v, rfl, .once h1, h2⟩
    | more hg h ih' =>
      obtain ⟨u, v, e, h1, h2⟩ := ih' he
      simp only [List.cons_append, List.cons.injEq] at he
      obtain ⟨rfl, rfl⟩ := he
      cases u with
      | nil =>
        simp only [List.nil_append] at e
        subst e
        exact ⟨[c], _, rfl, (by cases h1 with | skip _ h1 => exact .once h1), h2⟩
      | cons d u =>
        simp only [List.cons_append, List.cons.injEq] at e
        obtain ⟨rfl, rfl⟩ := e
        exact ⟨c :: c :: u, v, rfl, .more hg h1, h2⟩

/-- A word of one greedy rule that may be left out. -/
theorem Covers.single {ι : Type} {g : ι → Bool} {c : ι} {w : List ι} (h : Covers (fun _ => true) g [c] w) :
    ∃ k, w = List.replicate k c := by
  generalize he : [c] = cs at h
  induction h with
  | done => cases he
  | skip _ h _ => cases he; cases h; exact ⟨0, rfl⟩
  | once h _ => cases he; cases h; exact ⟨1, rfl⟩
  | more _ _ ih =>
    obtain ⟨k, e⟩ := ih he
    cases he
    exact ⟨k + 1, by rw [List.replicate_succ, ← e]⟩

section
variable {ι α β : Type} {optional greedy : ι → Bool} {sat : ι → α → Prop} {rule : β → ι} {node : β → α}

/-! ## Fillers -/

theorem Fill.sublist {F : List ι} {ns : List α} {us : List β} {o : Option (List α)}
    (h : Fill greedy sat rule node F ns us o) :
    (us.map node).Sublist ns ∧ ∀ r, o = some r → ∃ p, ns = p ++ r ∧ (us.map node).Sublist p := by
  induction h with
  | nil => simp
  | miss _ _ ih => exact ih
  | @hit c F ns b r u us o hg _ hl hrest ih =>
    obtain ⟨rfl, _, _⟩ := hl
    refine ⟨?_, ?_⟩
    · simp only [List.map_cons]
      exact (ih.1.cons_cons _).trans (List.sublist_append_right _ _)
    · intro r' hr
      split at hr
      · rename_i hF
        cases hr
        subst hF
        cases hrest
        exact ⟨b ++ [node u], by simp, by simp⟩
      · obtain ⟨p, rfl, h2⟩ := ih.2 r' hr
        refine ⟨b ++ node u :: p, by simp, ?_⟩
        simp only [List.map_cons]
        exact (h2.cons_cons _).trans (List.sublist_append_right _ _)
  | @more c F ns b r u us o hg _ hl _ ih =>
    obtain ⟨rfl, _, _⟩ := hl
    refine ⟨?_, ?_⟩
    · simp only [List.map_cons]
      exact (ih.1.cons_cons _).trans (List.sublist_append_right _ _)
    · intro r' hr
      obtain ⟨p, rfl, h2⟩ := ih.2 r' hr
      refine ⟨b ++ node u :: p, by simp, ?_⟩
      simp only [List.map_cons]
      exact (h2.cons_cons _).trans (List.sublist_append_right _ _)

theorem Fill.ok {F : List ι} {ns : List α} {us : List β} {o : Option (List α)}
    (h : Fill greedy sat rule node F ns us o) : ∀ u ∈ us, sat (rule u) (node u) ∧ rule u ∈ F := by
  induction h with
  | nil => simp
  | miss _ _ ih => exact fun u hu => ⟨(ih u hu).1, by simp [(ih u hu).2]⟩
  | hit hg hr hl _ ih =>
    intro u hu
    rcases List.mem_cons.1 hu with rfl | hu
    · exact ⟨hr ▸ hl.2.2, by simp [hr]⟩
    · exact ⟨(ih u hu).1, by simp [(ih u hu).2]⟩
  | more hg hr hl _ ih =>
    intro u hu
    rcases List.mem_cons.1 hu with rfl | hu
    · exact ⟨hr ▸ hl.2.2, by simp [hr]⟩
    · exact ih u hu

theorem Fill.covers {F : List ι} {ns : List α} {us : List β} {o : Option (List α)}
    (h : Fill greedy sat rule node F ns us o) : Covers (fun _ => true) greedy F (us.map rule) := by
  induction h with
  | nil => exact .done
  | miss _ _ ih => exact .skip rfl ih
  | hit hg hr hl _ ih => rw [List.map_cons, hr]; exact .once ih
  | @more c F ns b r u us o hg hr hl _ ih =>
    rw [List.map_cons, hr]
    -- the uses of `c` come first
    generalize us.map rule = w at ih
    cases ih with
    | skip _ h => exact .once h
    | once h => exact .more hg (.once h)
    | more _ h => exact .more hg (.more hg h)

theorem Leftmost.unique {p : α → Prop} {ns b b' : List α} {x x' : α} {r r' : List α} (h : Leftmost p ns b x r)
    (h' : Leftmost p ns b' x' r') : b = b' ∧ x = x' ∧ r = r' := by
  obtain ⟨rfl, h1, h2⟩ := h
  obtain ⟨e, h3, h4⟩ := h'
  induction b generalizing b' with
  | nil =>
    cases b' with
    | nil => simpa using e
    | cons y b' =>
      simp only [List.nil_append, List.cons_append, List.cons.injEq] at e
      obtain ⟨rfl, _⟩ := e
      exact absurd h2 (h3 x (by simp))
  | cons y b ih =>
    cases b' with
    | nil =>
      simp only [List.nil_append, List.cons_append, List.cons.injEq] at e
      obtain ⟨rfl, _⟩ := e
      exact absurd h4 (h1 y (by simp))
    | cons z b' =>
      simp only [List.cons_append, List.cons.injEq] at e
      obtain ⟨rfl, e⟩ := e
      obtain ⟨rfl, k⟩ := ih (fun z hz => h1 z (by simp [hz])) e (fun z hz => h3 z (by simp [hz]))
      exact ⟨rfl, k⟩

theorem Leftmost.exists {p : α → Prop} {ns b : List α} {x : α} {r : List α} (h : Leftmost p ns b x r) :
    ¬ ∀ y ∈ ns, ¬ p y := by
  obtain ⟨rfl, _, h2⟩ := h
  intro h; exact h x (by simp) h2

/-- Fillers are used in one way only. -/
theorem Fill.unique {F : List ι} {ns : List α} {us us' : List β} {o o' : Option (List α)}
    (h : Fill greedy sat rule node F ns us o) (h' : Fill greedy sat rule node F ns us' o') :
    us.map rule = us'.map rule ∧ us.map node = us'.map node ∧ o = o' := by
  induction h generalizing us' o' with
  | nil => cases h'; simp
  | miss h1 _ ih =>
    cases h' with
    | miss _ h' => exact ih h'
    | hit _ _ hl _ => exact absurd h1 hl.exists
    | more _ _ hl _ => exact absurd h1 hl.exists
  | @hit c F ns b r u us o hg hr hl _ ih =>
    cases h' with
    | miss h1 _ => exact absurd h1 hl.exists
    | more hg' => rw [hg] at hg'; cases hg'
    | @hit _ _ _ _ _ u' _ _ _ hr' hl' h' =>
      obtain ⟨rfl, e, rfl⟩ := hl.unique hl'
      obtain ⟨h1, h2, rfl⟩ := ih h'
      exact ⟨by simp [h1, hr, hr'], by simp [h2, e], rfl⟩
  | @more c F ns b r u us o hg hr hl _ ih =>
    cases h' with
    | miss h1 _ => exact absurd h1 hl.exists
    | hit hg' => rw [hg] at hg'; cases hg'
    | more _ hr' hl' h' =>
      obtain ⟨rfl, e, rfl⟩ := hl.unique hl'
      obtain ⟨h1, h2, rfl⟩ := ih h'
      exact ⟨by simp [h1, hr, hr'], by simp [h2, e], rfl⟩

/-- No filler is used iff none matches. -/
theorem Fill.eq_nil {F : List ι} {ns : List α} {us : List β} {o : Option (List α)}
    (h : Fill greedy sat rule node F ns us o) : us = [] ↔ ∀ c ∈ F, ∀ x ∈ ns, ¬ sat c x := by
  induction h with
  | nil => simp
  | @miss c F ns us o h1 _ ih =>
    rw [ih]
    constructor
    · intro h d hd
      rcases List.mem_cons.1 hd with rfl | hd
      · exact h1
      · exact h d hd
    · intro h d hd; exact h d (by simp [hd])
  | @hit c F ns b r u us o hg hr hl _ ih =>
    simp only [reduceCtorEq, false_iff]
    intro h; exact hl.exists (h c (by simp))
  | @more c F ns b r u us o hg hr hl _ ih =>
    simp only [reduceCtorEq, false_iff]
    intro h; exact hl.exists (h c (by simp))

/-! ## Runs -/

theorem uses_cons (s : Anchored β) (steps : List (Anchored β)) (final : List β) :
    Anchored.uses (s :: steps) final = s.fill ++ s.anchor :: Anchored.uses steps final := by
  simp [Anchored.uses]

theorem uses_nil (final : List β) : Anchored.uses [] final = final := by simp [Anchored.uses]

/-- The used nodes form a subsequence of a prefix; the rest is left. -/
theorem Run.sublist {first : Option ι} {F cs : List ι} {ns rest : List α} {steps : List (Anchored β)} {final : List β}
    (h : Run optional greedy sat rule node first F cs ns steps final rest) :
    ∃ seg, ns = seg ++ rest ∧ ((Anchored.uses steps final).map node).Sublist seg := by
  induction h with
  | optional _ _ ih => exact ih
  | @anchor first F m cs ns b r a us o steps final rest h1 h2 h3 h4 h5 _ ih =>
    obtain ⟨seg, rfl, hs⟩ := ih
    refine ⟨b ++ node a :: seg, by rw [h3.1]; simp, ?_⟩
    rw [uses_cons, List.map_append, List.map_cons]
    exact h4.sublist.1.append (hs.cons_cons _)
  | @anchorGreedy first m cs ns b r a steps final rest h1 h2 h3 h4 _ ih =>
    obtain ⟨seg, rfl, hs⟩ := ih
    refine ⟨b ++ node a :: seg, by rw [h3.1]; simp, ?_⟩
    rw [uses_cons, List.map_append, List.map_cons]
    exact (List.nil_sublist _).append (hs.cons_cons _)
  | done => exact ⟨[], by simp, by simp [uses_nil]⟩
  | @fillEnd F ns us o _ hf =>
    rw [uses_nil]
    cases o with
    | none => exact ⟨ns, by simp, hf.sublist.1⟩
    | some r =>
      obtain ⟨p, h1, h2⟩ := hf.sublist.2 r rfl
      exact ⟨p, h1, h2⟩
  | @fillNext m F ns b x r us o _ hl hf => exact ⟨b, hl.1, by rw [uses_nil]; exact hf.sublist.1⟩
  | @fillAll m F ns us o _ _ hf => exact ⟨ns, by simp, by rw [uses_nil]; exact hf.sublist.1⟩

theorem Run.ok {first : Option ι} {F cs : List ι} {ns rest : List α} {steps : List (Anchored β)} {final : List β}
    (h : Run optional greedy sat rule node first F cs ns steps final rest) :
    ∀ u ∈ Anchored.uses steps final, sat (rule u) (node u) ∧ rule u ∈ F ++ cs := by
  induction h with
  | optional _ _ ih => intro u hu; simpa using ih u hu
  | @anchor first F m cs ns b r a us o steps final rest h1 h2 h3 h4 h5 _ ih =>
    intro u hu
    rw [uses_cons] at hu
    rcases List.mem_append.1 hu with hu | hu
    · exact ⟨(h4.ok u hu).1, by simp [(h4.ok u hu).2]⟩
    · rcases List.mem_cons.1 hu with rfl | hu
      · exact ⟨h2 ▸ h3.2.2, by simp [h2]⟩
      · have := ih u hu
        exact ⟨this.1, by have := this.2; simp at this; simp [this]⟩
  | @anchorGreedy first m cs ns b r a steps final rest h1 h2 h3 h4 _ ih =>
    intro u hu
    rw [uses_cons] at hu
    simp only [List.nil_append] at hu
    rcases List.mem_cons.1 hu with rfl | hu
    · exact ⟨h2 ▸ h3.2.2, by simp [h2]⟩
    · exact ih u hu
  | done => simp [uses_nil]
  | fillEnd _ hf => rw [uses_nil, List.append_nil]; exact hf.ok
  | fillNext _ _ hf => rw [uses_nil, List.append_nil]; exact hf.ok
  | fillAll _ _ hf => rw [uses_nil, List.append_nil]; exact hf.ok

/-- The rules used form a word of the chain. -/
theorem Run.covers {first : Option ι} {F cs : List ι} {ns rest : List α} {steps : List (Anchored β)} {final : List β}
    (h : Run optional greedy sat rule node first F cs ns steps final rest) :
    ∃ v w, (Anchored.uses steps final).map rule = v ++ w ∧ Covers (fun _ => true) greedy F v ∧
      Covers optional greedy cs w := by
  induction h with
  | @optional first F c cs ns steps final rest hc _ ih =>
    obtain ⟨v, w, e, h1, h2⟩ := ih
    obtain ⟨v1, v2, rfl, h3, h4⟩ := h1.split
    refine ⟨v1, v2 ++ w, by rw [e]; simp, h3, ?_⟩
    have : Covers optional greedy [c] v2 := h4.mono (by simpa using hc)
    exact this.append h2
  | @anchor first F m cs ns b r a us o steps final rest h1 h2 h3 h4 h5 _ ih =>
    obtain ⟨v, w, e, k1, k2⟩ := ih
    cases k1
    refine ⟨us.map rule, m :: w, ?_, h4.covers, .once k2⟩
    rw [uses_cons, List.map_append, List.map_cons, e, h2]; rfl
  | @anchorGreedy first m cs ns b r a steps final rest h1 h2 h3 h4 _ ih =>
    obtain ⟨v, w, e, k1, k2⟩ := ih
    obtain ⟨k, rfl⟩ := k1.single
    refine ⟨[], List.replicate (k + 1) m ++ w, ?_, .done, Covers.replicate h4 k k2⟩
    rw [uses_cons, List.map_append, List.map_cons, e, h2, List.replicate_succ]; rfl
  | done => exact ⟨[], [], rfl, .done, .done⟩
  | fillEnd _ hf => exact ⟨_, [], by rw [uses_nil, List.append_nil], hf.covers, .done⟩
  | fillNext _ _ hf => exact ⟨_, [], by rw [uses_nil, List.append_nil], hf.covers, .done⟩
  | fillAll _ _ hf => exact ⟨_, [], by rw [uses_nil, List.append_nil], hf.covers, .done⟩

theorem Run.covers_chain {first : Option ι} {cs : List ι} {ns rest : List α} {steps : List (Anchored β)} {final : List β}
    (h : Run optional greedy sat rule node first [] cs ns steps final rest) :
    Covers optional greedy cs ((Anchored.uses steps final).map rule) := by
  obtain ⟨v, w, e, h1, h2⟩ := h.covers
  cases h1
  rw [e]; exact h2

/-- A use without what is attached to it. -/
def Anchored.bare {γ : Type} (f : β → γ) (s : Anchored β) : Anchored γ := ⟨s.fill.map f, f s.anchor⟩

/-- A chain runs in one way only. -/
theorem Run.unique {first : Option ι} {F cs : List ι} {ns rest rest' : List α} {steps steps' : List (Anchored β)}
    {final final' : List β} (h : Run optional greedy sat rule node first F cs ns steps final rest)
    (h' : Run optional greedy sat rule node first F cs ns steps' final' rest') :
    steps.map (Anchored.bare fun u => (rule u, node u)) = steps'.map (Anchored.bare fun u => (rule u, node u)) ∧
    final.map (fun u => (rule u, node u)) = final'.map (fun u => (rule u, node u)) ∧ rest = rest' := by
  have fz : ∀ {us us' : List β}, us.map rule = us'.map rule → us.map node = us'.map node →
      us.map (fun u => (rule u, node u)) = us'.map (fun u => (rule u, node u)) := by
    intro us us' h1 h2
    have : ∀ l : List β, l.map (fun u => (rule u, node u)) = (l.map rule).zip (l.map node) := by
      intro l; rw [List.zip_map']
    rw [this, this, h1, h2]
  induction h generalizing steps' final' rest' with
  | optional hc _ ih =>
    cases h' with
    | optional _ h' => exact ih h'
    | anchor hc' => rw [hc] at hc'; cases hc'
    | anchorGreedy hc' => rw [hc] at hc'; cases hc'
  | @anchor first F m cs ns b r a us o steps final rest h1 h2 h3 h4 h5 _ ih =>
    cases h' with
    | optional hc _ => rw [h1] at hc; cases hc
    | anchorGreedy _ _ _ hg =>
      rcases h5 with h5 | h5
      · rw [h5] at hg; cases hg
      · exact absurd rfl h5
    | anchor _ h2' h3' h4' h5' h' =>
      obtain ⟨rfl, e, rfl⟩ := h3.unique h3'
      obtain ⟨k1, k2, rfl⟩ := ih h'
      obtain ⟨f1, f2, _⟩ := h4.unique h4'
      refine ⟨?_, k2, rfl⟩
      simp only [List.map_cons, k1, Anchored.bare, fz f1 f2, h2, h2', e]
  | @anchorGreedy first m cs ns b r a steps final rest h1 h2 h3 h4 _ ih =>
    cases h' with
    | optional hc _ => rw [h1] at hc; cases hc
    | anchor _ _ _ _ h5 =>
      rcases h5 with h5 | h5
      · rw [h4] at h5; cases h5
      · exact absurd rfl h5
    | anchorGreedy _ h2' h3' h4' h' =>
      obtain ⟨rfl, e, rfl⟩ := h3.unique h3'
      obtain ⟨k1, k2, rfl⟩ := ih h'
      exact ⟨by simp only [List.map_cons, k1, Anchored.bare, List.map_nil, h2, h2', e], k2, rfl⟩
  | done =>
    cases h' with
    | done => simp
    | fillEnd hF => exact absurd rfl hF
    | fillNext hF => exact absurd rfl hF
    | fillAll hF => exact absurd rfl hF
  | fillEnd hF hf =>
    cases h' with
    | done => exact absurd rfl hF
    | fillEnd _ hf' =>
      obtain ⟨f1, f2, rfl⟩ := hf.unique hf'
      exact ⟨rfl, fz f1 f2, rfl⟩
  | fillNext hF hl hf =>
    cases h' with
    | done => exact absurd rfl hF
    | fillNext _ hl' hf' =>
      obtain ⟨rfl, rfl, rfl⟩ := hl.unique hl'
      obtain ⟨f1, f2, rfl⟩ := hf.unique hf'
      exact ⟨rfl, fz f1 f2, rfl⟩
    | fillAll _ hn _ => exact absurd hn hl.exists
  | fillAll hF hn hf =>
    cases h' with
    | done => exact absurd rfl hF
    | fillNext _ hl' _ => exact absurd hn hl'.exists
    | fillAll _ _ hf' =>
      obtain ⟨f1, f2, rfl⟩ := hf.unique hf'
      exact ⟨rfl, fz f1 f2, rfl⟩

end

/-! ## Transport -/

section
variable {ι ι' α β β' : Type} {optional greedy : ι → Bool} {sat : ι → α → Prop} {rule : β → ι} {node : β → α}
  {optional' greedy' : ι' → Bool} {sat' : ι' → α → Prop} {rule' : β' → ι'} {node' : β' → α}

theorem Fill.map (f : ι → ι') (g : β → β') (hrule : ∀ u, rule' (g u) = f (rule u)) (hnode : ∀ u, node' (g u) = node u)
    {F : List ι} {ns : List α} {us : List β} {o : Option (List α)} (h : Fill greedy sat rule node F ns us o)
    (hF : ∀ c ∈ F, greedy' (f c) = greedy c ∧ ∀ x, sat' (f c) x ↔ sat c x) :
    Fill greedy' sat' rule' node' (F.map f) ns (us.map g) o := by
  have lm : ∀ {c ns b x r}, (∀ x, sat' (f c) x ↔ sat c x) → Leftmost (sat c) ns b x r → Leftmost (sat' (f c)) ns b x r :=
    fun hs h => ⟨h.1, fun y hy => mt (hs y).1 (h.2.1 y hy), (hs _).2 h.2.2⟩
  induction h with
  | nil => exact .nil
  | @miss c F ns us o h1 _ ih =>
    exact .miss (fun y hy => mt ((hF c (by simp)).2 y).1 (h1 y hy)) (ih fun d hd => hF d (by simp [hd]))
  | @hit c F ns b r u us o hg hr hl _ ih =>
    have := Fill.hit (rule := rule') (node := node') (u := g u) ((hF c (by simp)).1.trans hg) (by rw [hrule, hr])
      (by rw [hnode]; exact lm (hF c (by simp)).2 hl) (ih fun d hd => hF d (by simp [hd]))
    simpa using this
  | @more c F ns b r u us o hg hr hl _ ih =>
    exact .more (u := g u) ((hF c (by simp)).1.trans hg) (by rw [hrule, hr])
      (by rw [hnode]; exact lm (hF c (by simp)).2 hl) (ih hF)

theorem Run.map (f : ι → ι') (g : β → β') (hrule : ∀ u, rule' (g u) = f (rule u)) (hnode : ∀ u, node' (g u) = node u)
    {first : Option ι} {F cs : List ι} {ns rest : List α} {steps : List (Anchored β)} {final : List β}
    (h : Run optional greedy sat rule node first F cs ns steps final rest)
    (hF : ∀ c, c ∈ first.toList ++ (F ++ cs) → optional' (f c) = optional c ∧ greedy' (f c) = greedy c ∧ ∀ x, sat' (f c) x ↔ sat c x) :
    Run optional' greedy' sat' rule' node' (first.map f) (F.map f) (cs.map f) ns (steps.map (Anchored.bare g)) (final.map g) rest := by
  have lm : ∀ {c ns b x r}, (∀ x, sat' (f c) x ↔ sat c x) → Leftmost (sat c) ns b x r → Leftmost (sat' (f c)) ns b x r :=
    fun hs h => ⟨h.1, fun y hy => mt (hs y).1 (h.2.1 y hy), (hs _).2 h.2.2⟩
  induction h with
  | @optional first F c cs ns steps final rest hc _ ih =>
    have := ih (fun d hd => hF d (by simpa using hd))
    rw [List.map_append] at this
    exact .optional ((hF c (by simp)).1.trans hc) this
  | @anchor first F m cs ns b r a us o steps final rest h1 h2 h3 h4 h5 _ ih =>
    have hm := hF m (by simp)
    have hfind : (first.or ((F ++ [m]).find? (! optional ·))).map f =
        (first.map f).or ((F.map f ++ [f m]).find? (! optional' ·)) := by
      cases first with
      | some a => simp
      | none =>
        simp only [Option.or, Option.map_none]
        have e : F.map f ++ [f m] = (F ++ [m]).map f := by simp
        rw [e, List.find?_map]
        congr 1
        have : ∀ l : List ι, (∀ c ∈ l, c ∈ F ++ [m]) → l.find? (! optional ·) = l.find? ((! optional' ·) ∘ f) := by
          intro l hl
          induction l with
          | nil => rfl
          | cons d l ihl =>
            have hd := (hF d (by have := hl d (by simp); simp at this ⊢; rcases this with h | h <;> simp [h])).1
            simp only [List.find?_cons, Function.comp, hd]
            cases optional d with
            | true => exact ihl fun c hc => hl c (by simp [hc])
            | false => rfl
        exact this _ fun c hc => hc
    have hfst : ∀ d, d ∈ first.or ((F ++ [m]).find? (! optional ·)) → d ∈ first ∨ d ∈ F ∨ d = m := by
      intro d hd
      cases first with
      | some a => exact .inl hd
      | none =>
        have := List.mem_of_find?_eq_some (show (F ++ [m]).find? (! optional ·) = some d by simpa using hd)
        exact .inr (by simpa using this)
    have := ih (fun d hd => hF d (by
      simp only [List.mem_append, Option.mem_toList, List.mem_cons, List.not_mem_nil, false_or] at hd ⊢
      rcases hd with hd | hd
      · rcases hfst d hd with h | h | h
        · exact .inl h
        · exact .inr (.inl h)
        · exact .inr (.inr (.inl h))
      · exact .inr (.inr (.inr hd))))
    rw [hfind] at this
    refine .anchor (hm.1.trans h1) (by rw [hrule, h2]) (by rw [hnode]; exact lm hm.2.2 h3)
      (h4.map f g hrule hnode fun c hc => (hF c (by simp [hc])).2) ?_ this
    rcases h5 with h5 | h5
    · exact .inl (hm.2.1.trans h5)
    · exact .inr (by simpa using h5)
  | @anchorGreedy first m cs ns b r a steps final rest h1 h2 h3 h4 _ ih =>
    have hm := hF m (by simp)
    exact .anchorGreedy (hm.1.trans h1) (by rw [hrule, h2]) (by rw [hnode]; exact lm hm.2.2 h3) (hm.2.1.trans h4)
      (ih fun d hd => hF d (by simpa using hd))
  | done => exact .done
  | fillEnd h1 hf =>
    exact .fillEnd (by simpa using h1) (hf.map f g hrule hnode fun c hc => (hF c (by simp [hc])).2)
  | @fillNext m F ns b x r us o h1 hl hf =>
    exact .fillNext (by simpa using h1) (lm (hF m (by simp)).2.2 hl)
      (hf.map f g hrule hnode fun c hc => (hF c (by simp [hc])).2)
  | @fillAll m F ns us o h1 hn hf =>
    exact .fillAll (by simpa using h1) (fun y hy => mt ((hF m (by simp)).2.2 y).1 (hn y hy))
      (hf.map f g hrule hnode fun c hc => (hF c (by simp [hc])).2)

end

/-! ## Greedy rules -/

section
open Classical
variable {ι α β : Type} {optional greedy : ι → Bool} {sat : ι → α → Prop} {rule : β → ι} {node : β → α}

theorem satIn_leftmost {c : ι} {ns b : List α} {x : α} {r : List α} (h : Leftmost (sat c) ns b x r) :
    satIn sat c ns = x :: satIn sat c r := by
  obtain ⟨rfl, h1, h2⟩ := h
  have : b.filter (fun x => decide (sat c x)) = [] := by
    rw [List.filter_eq_nil_iff]; intro y hy; simp [h1 y hy]
  simp [satIn, this, h2]

theorem satIn_miss {c : ι} {ns : List α} (h : ∀ y ∈ ns, ¬ sat c y) : satIn sat c ns = [] := by
  rw [satIn, List.filter_eq_nil_iff]; intro y hy; simp [h y hy]

theorem EndsWith.append {us vs : List β} {s t : List α} (h : EndsWith node us s) (k : EndsWith node vs t) :
    EndsWith node (us ++ vs) (s ++ t) := by
  rcases k with ⟨rfl, rfl⟩ | ⟨vs', v, t', rfl, rfl⟩
  · simpa using h
  · exact .inr ⟨us ++ vs', v, s ++ t', by simp, by simp⟩

theorem EndsWith.single (u : β) (b : List α) : EndsWith node [u] (b ++ [node u]) := .inr ⟨[], u, b, rfl, rfl⟩

/-- A greedy filler takes everything it matches behind the fillers before it. -/
theorem Fill.takes {F1 F2 : List ι} {c : ι} (hg : greedy c = true) {F : List ι} {ns : List α} {us : List β}
    {o : Option (List α)} (h : Fill greedy sat rule node F ns us o) (hF : F = F1 ++ c :: F2) :
    ∃ us1 us2 us3 p q, us = us1 ++ us2 ++ us3 ∧ ns = p ++ q ∧ EndsWith node us1 p ∧ (us1.map node).Sublist p ∧
      (∀ u ∈ us1, rule u ∈ F1) ∧ (∀ u ∈ us2, rule u = c) ∧ (∀ u ∈ us3, rule u ∈ F2) ∧
      us2.map node = satIn sat c q := by
  induction h generalizing F1 with
  | nil => simp at hF
  | @miss d F ns us o h1 hf ih =>
    cases F1 with
    | nil =>
      simp only [List.nil_append, List.cons.injEq] at hF
      obtain ⟨rfl, rfl⟩ := hF
      refine ⟨[], [], us, [], ns, by simp, by simp, .inl ⟨rfl, rfl⟩, by simp, by simp, by simp, fun u hu => (hf.ok u hu).2, ?_⟩
      rw [satIn_miss h1]; rfl
    | cons e F1 =>
      simp only [List.cons_append, List.cons.injEq] at hF
      obtain ⟨rfl, rfl⟩ := hF
      obtain ⟨us1, us2, us3, p, q, h1, h2, h3, h4, h5, h6⟩ := ih rfl
      exact ⟨us1, us2, us3, p, q, h1, h2, h3, h4, fun u hu => by simp [h5 u hu], h6⟩
  | @hit d F ns b r u us o hgd hr hl _ ih =>
    cases F1 with
    | nil =>
      simp only [List.nil_append, List.cons.injEq] at hF
      obtain ⟨rfl, rfl⟩ := hF
      rw [hg] at hgd; cases hgd
    | cons e F1 =>
      simp only [List.cons_append, List.cons.injEq] at hF
      obtain ⟨rfl, rfl⟩ := hF
      obtain ⟨us1, us2, us3, p, q, h1, h2, h3, h4, h5, h6⟩ := ih rfl
      refine ⟨u :: us1, us2, us3, b ++ node u :: p, q, by simp [h1], by rw [hl.1, h2]; simp, ?_, ?_, ?_, h6⟩
      · have := (EndsWith.single (node := node) u b).append h3
        simpa using this
      · simp only [List.map_cons]
        exact (h4.cons_cons _).trans (List.sublist_append_right _ _)
      · intro v hv
        rcases List.mem_cons.1 hv with rfl | hv
        · simp [hr]
        · simp [h5 v hv]
  | @more d F ns b r u us o hgd hr hl _ ih =>
    cases F1 with
    | nil =>
      obtain ⟨us1, us2, us3, p, q, h1, h2, h3, h4, h5, h6, h7, h8⟩ := ih hF
      simp only [List.nil_append, List.cons.injEq] at hF
      obtain ⟨rfl, rfl⟩ := hF
      have : us1 = [] := by
        cases us1 with
        | nil => rfl
        | cons v _ => have := h5 v (by simp); simp at this
      subst this
      have hp : p = [] := by
        rcases h3 with ⟨_, h⟩ | ⟨_, _, _, h, _⟩
        · exact h
        · simp at h
      subst hp
      refine ⟨[], u :: us2, us3, [], ns, by simp [h1], by simp, .inl ⟨rfl, rfl⟩, by simp, by simp, ?_, h7, ?_⟩
      · intro v hv
        rcases List.mem_cons.1 hv with rfl | hv
        · exact hr
        · exact h6 v hv
      · rw [satIn_leftmost hl, List.map_cons, h8, h2]; rfl
    | cons e F1 =>
      obtain ⟨us1, us2, us3, p, q, h1, h2, h3, h4, h5, h6⟩ := ih hF
      simp only [List.cons_append, List.cons.injEq] at hF
      obtain ⟨rfl, rfl⟩ := hF
      refine ⟨u :: us1, us2, us3, b ++ node u :: p, q, by simp [h1], by rw [hl.1, h2]; simp, ?_, ?_, ?_, h6⟩
      · have := (EndsWith.single (node := node) u b).append h3
        simpa using this
      · simp only [List.map_cons]
        exact (h4.cons_cons _).trans (List.sublist_append_right _ _)
      · intro v hv
        rcases List.mem_cons.1 hv with rfl | hv
        · simp [hr]
        · exact h5 v hv

theorem Run.takes_pending {F1 F2 : List ι} {c : ι} (hg : greedy c = true) {first : Option ι} {F cs : List ι}
    {ns rest : List α} {steps : List (Anchored β)} {final : List β}
    (h : Run optional greedy sat rule node first F cs ns steps final rest) (hF : F = F1 ++ c :: F2) :
    ∃ us1 us2 us3 p mid s1, Anchored.uses steps final = us1 ++ us2 ++ us3 ∧ ns = p ++ mid ++ s1 ∧
      EndsWith node us1 p ∧ (us1.map node).Sublist p ∧
      (∀ u ∈ us1, rule u ∈ F1) ∧ (∀ u ∈ us2, rule u = c) ∧ (∀ u ∈ us3, rule u ∈ F2 ++ cs) ∧
      us2.map node = satIn sat c mid ∧ StopsAt optional sat rule node first cs us3 s1 := by
  induction h generalizing F2 with
  | @optional first F d cs ns steps final rest hd _ ih =>
    obtain ⟨us1, us2, us3, p, mid, s1, h1, h2, h3, h4, h5, h6, h7, h8, h9⟩ := ih (F2 := F2 ++ [d]) (by simp [hF])
    refine ⟨us1, us2, us3, p, mid, s1, h1, h2, h3, h4, h5, h6, by simpa using h7, h8, ?_⟩
    simpa [StopsAt, List.find?_cons, hd] using h9
  | @anchor first F m cs ns b r a us o steps final rest k1 k2 k3 k4 k5 hrest _ =>
    obtain ⟨us1, us2, us3, p, q, h1, h2, h3, h4, h5, h6, h7, h8⟩ := k4.takes hg hF
    refine ⟨us1, us2, us3 ++ a :: Anchored.uses steps final, p, q, node a :: r, by rw [uses_cons]; simp [h1],
      by rw [k3.1, h2], h3, h4, h5, h6, ?_, h8, ?_⟩
    · intro u hu
      simp only [List.mem_append, List.mem_cons] at hu ⊢
      rcases hu with hu | rfl | hu
      · exact .inl (h7 u hu)
      · exact .inr (.inl k2)
      · exact .inr (.inr (by simpa using (hrest.ok u hu).2))
    · simp only [StopsAt, List.find?_cons, k1, Bool.not_false]
      exact ⟨a, by simp, k2, r, rfl⟩
  | anchorGreedy => simp at hF
  | done => simp at hF
  | @fillEnd F ns us o _ hf =>
    obtain ⟨us1, us2, us3, p, q, h1, h2, h3, h4, h5, h6, h7, h8⟩ := hf.takes hg hF
    exact ⟨us1, us2, us3, p, q, [], by rw [uses_nil, h1], by simp [h2], h3, h4, h5, h6, by simpa using h7, h8, .inl rfl⟩
  | @fillNext m F ns b x r us o _ hl hf =>
    obtain ⟨us1, us2, us3, p, q, h1, h2, h3, h4, h5, h6, h7, h8⟩ := hf.takes hg hF
    exact ⟨us1, us2, us3, p, q, x :: r, by rw [uses_nil, h1], by rw [hl.1, h2], h3, h4, h5, h6, by simpa using h7, h8,
      .inr ⟨m, x, r, rfl, rfl, hl.2.2⟩⟩
  | @fillAll m F ns us o _ _ hf =>
    obtain ⟨us1, us2, us3, p, q, h1, h2, h3, h4, h5, h6, h7, h8⟩ := hf.takes hg hF
    exact ⟨us1, us2, us3, p, q, [], by rw [uses_nil, h1], by simp [h2], h3, h4, h5, h6, by simpa using h7, h8, .inl rfl⟩

/-- What a greedy rule takes in a run. -/
theorem Run.takes {pre post : List ι} {c : ι} (hg : greedy c = true) {first : Option ι} {F cs : List ι}
    {ns rest : List α} {steps : List (Anchored β)} {final : List β}
    (h : Run optional greedy sat rule node first F cs ns steps final rest) (hcs : cs = pre ++ c :: post)
    (hc : optional c = true ∨ pre.foldl (fun w d => optional d || (greedy d && !w)) (!F.isEmpty) = false) :
    ∃ us1 us2 us3 p mid s1, Anchored.uses steps final = us1 ++ us2 ++ us3 ∧ ns = p ++ mid ++ s1 ∧
      EndsWith node us1 p ∧ (us1.map node).Sublist p ∧
      (∀ u ∈ us1, rule u ∈ F ++ pre) ∧ (∀ u ∈ us2, rule u = c) ∧ (∀ u ∈ us3, rule u ∈ post) ∧
      us2.map node = satIn sat c mid ∧
      StopsAt optional sat rule node (first.or ((F ++ cs).find? (! optional ·))) post us3 s1 := by
  have weaken : ∀ {first first' : Option ι} {cs : List ι} {vs : List β} {s1 : List α},
      (∀ m, first = some m → first' = some m) → StopsAt optional sat rule node first cs vs s1 →
      StopsAt optional sat rule node first' cs vs s1 := by
    intro first first' cs vs s1 hf h
    unfold StopsAt at h ⊢
    split
    · rename_i m hm; rw [hm] at h; exact h
    · rename_i hm
      rw [hm] at h
      rcases h with h | ⟨m, x, r, h1, h2⟩
      · exact .inl h
      · exact .inr ⟨m, x, r, hf m h1, h2⟩
  induction h generalizing pre with
  | @optional first F d cs ns steps final rest hd hrun ih =>
    cases pre with
    | nil =>
      simp only [List.nil_append, List.cons.injEq] at hcs
      obtain ⟨rfl, rfl⟩ := hcs
      obtain ⟨us1, us2, us3, p, mid, s1, h1, h2, h3, h4, h5, h6, h7, h8, h9⟩ :=
        hrun.takes_pending hg (F1 := F) (F2 := []) rfl
      exact ⟨us1, us2, us3, p, mid, s1, h1, h2, h3, h4, by simpa using h5, h6, by simpa using h7, h8,
        weaken (fun m hm => by simp [hm]) h9⟩
    | cons e pre =>
      simp only [List.cons_append, List.cons.injEq] at hcs
      obtain ⟨rfl, rfl⟩ := hcs
      obtain ⟨us1, us2, us3, p, mid, s1, h1, h2, h3, h4, h5, h6, h7, h8, h9⟩ := ih rfl (by
        rcases hc with hc | hc
        · exact .inl hc
        · exact .inr (by rw [show (!(F ++ [d]).isEmpty) = true by cases F <;> rfl]; simpa [hd] using hc))
      exact ⟨us1, us2, us3, p, mid, s1, h1, h2, h3, h4, by simpa using h5, h6, h7, h8, by simpa using h9⟩
  | @anchor first F m cs ns b r a us o steps final rest k1 k2 k3 k4 k5 hrun ih =>
    cases pre with
    | nil =>
      simp only [List.nil_append, List.cons.injEq] at hcs
      obtain ⟨rfl, rfl⟩ := hcs
      exfalso
      rcases hc with hc | hc
      · rw [k1] at hc; cases hc
      · rcases k5 with k5 | k5
        · rw [hg] at k5; cases k5
        · exact k5 (by simpa using hc)
    | cons e pre =>
      simp only [List.cons_append, List.cons.injEq] at hcs
      obtain ⟨rfl, rfl⟩ := hcs
      obtain ⟨us1, us2, us3, p, mid, s1, h1, h2, h3, h4, h5, h6, h7, h8, h9⟩ := ih rfl (by
        rcases hc with hc | hc
        · exact .inl hc
        · have hw : (optional m || (greedy m && !(!F.isEmpty))) = false := by
            rcases k5 with k5 | k5
            · simp [k1, k5]
            · cases F with
              | nil => exact absurd rfl k5
              | cons => simp [k1]
          rw [List.foldl_cons, hw] at hc
          exact .inr hc)
      refine ⟨us ++ a :: us1, us2, us3, b ++ node a :: p, mid, s1, by rw [uses_cons]; simp [h1], by rw [k3.1, h2]; simp,
        ?_, ?_, ?_, h6, h7, h8, ?_⟩
      · have e1 : EndsWith node (us ++ [a]) (b ++ [node a]) := .inr ⟨us, a, b, rfl, rfl⟩
        simpa using e1.append h3
      · rw [List.map_append, List.map_cons]
        exact k4.sublist.1.append (h4.cons_cons _)
      · intro u hu
        simp only [List.mem_append, List.mem_cons] at hu ⊢
        rcases hu with hu | rfl | hu
        · exact .inl (k4.ok u hu).2
        · exact .inr (.inl k2)
        · exact .inr (.inr (by simpa using h5 u hu))
      · refine weaken (fun m' hm' => ?_) h9
        rw [Option.or_assoc] at hm'
        rw [← hm', ← List.find?_append]
        simp
  | @anchorGreedy first m cs ns b r a steps final rest k1 k2 k3 k4 hrun ih =>
    cases pre with
    | nil =>
      simp only [List.nil_append, List.cons.injEq] at hcs
      obtain ⟨rfl, rfl⟩ := hcs
      obtain ⟨us1, us2, us3, p, mid, s1, h1, h2, h3, h4, h5, h6, h7, h8, h9⟩ :=
        hrun.takes_pending hg (F1 := []) (F2 := []) rfl
      have : us1 = [] := by
        cases us1 with
        | nil => rfl
        | cons v _ => have := h5 v (by simp); simp at this
      subst this
      have hp : p = [] := by
        rcases h3 with ⟨_, h⟩ | ⟨_, _, _, h, _⟩
        · exact h
        · simp at h
      subst hp
      refine ⟨[], a :: us2, us3, [], b ++ node a :: mid, s1, by rw [uses_cons]; simp [h1], by rw [k3.1, h2]; simp,
        .inl ⟨rfl, rfl⟩, by simp, by simp, ?_, by simpa using h7, ?_, weaken (fun m hm => by simp [hm]) h9⟩
      · intro v hv
        rcases List.mem_cons.1 hv with rfl | hv
        · exact k2
        · exact h6 v hv
      · rw [satIn_leftmost ⟨rfl, k3.2.1, k3.2.2⟩, List.map_cons, h8]
    | cons e pre =>
      simp only [List.cons_append, List.cons.injEq] at hcs
      obtain ⟨rfl, rfl⟩ := hcs
      obtain ⟨us1, us2, us3, p, mid, s1, h1, h2, h3, h4, h5, h6, h7, h8, h9⟩ := ih rfl (by
        rcases hc with hc | hc
        · exact .inl hc
        · exact .inr (by simpa [k4] using hc))
      refine ⟨a :: us1, us2, us3, b ++ node a :: p, mid, s1, by rw [uses_cons]; simp [h1], by rw [k3.1, h2]; simp,
        ?_, ?_, ?_, h6, h7, h8, h9⟩
      · have e1 : EndsWith node [a] (b ++ [node a]) := .inr ⟨[], a, b, rfl, rfl⟩
        simpa using e1.append h3
      · rw [List.map_cons]
        exact (h4.cons_cons _).trans (List.sublist_append_right _ _)
      · intro u hu
        rcases List.mem_cons.1 hu with rfl | hu
        · simp [k2]
        · simpa using h5 u hu
  | done => simp at hcs
  | fillEnd => simp at hcs
  | fillNext => simp at hcs
  | fillAll => simp at hcs

/-- A mandatory rule that is reached while another one is waiting is used once. -/
theorem Run.once {pre post : List ι} {c : ι} (ho : optional c = false) {first : Option ι} {F cs : List ι}
    {ns rest : List α} {steps : List (Anchored β)} {final : List β}
    (h : Run optional greedy sat rule node first F cs ns steps final rest) (hcs : cs = pre ++ c :: post)
    (hc : pre.foldl (fun w d => optional d || (greedy d && !w)) (!F.isEmpty) = true) :
    ∃ us1 u us3, Anchored.uses steps final = us1 ++ u :: us3 ∧ rule u = c ∧ (∀ v ∈ us1, rule v ∈ F ++ pre) ∧
      ∀ v ∈ us3, rule v ∈ post := by
  induction h generalizing pre with
  | @optional first F d cs ns steps final rest hd hrun ih =>
    cases pre with
    | nil =>
      simp only [List.nil_append, List.cons.injEq] at hcs
      rw [hcs.1, ho] at hd; cases hd
    | cons e pre =>
      simp only [List.cons_append, List.cons.injEq] at hcs
      obtain ⟨rfl, rfl⟩ := hcs
      obtain ⟨us1, u, us3, h1, h2, h3, h4⟩ := ih rfl (by rw [show (!(F ++ [d]).isEmpty) = true by cases F <;> rfl]; simpa [hd] using hc)
      exact ⟨us1, u, us3, h1, h2, by simpa using h3, h4⟩
  | @anchor first F m cs ns b r a us o steps final rest k1 k2 k3 k4 k5 hrun ih =>
    cases pre with
    | nil =>
      simp only [List.nil_append, List.cons.injEq] at hcs
      obtain ⟨rfl, rfl⟩ := hcs
      exact ⟨us, a, Anchored.uses steps final, by rw [uses_cons], k2, fun v hv => by simpa using (k4.ok v hv).2,
        fun v hv => by simpa using (hrun.ok v hv).2⟩
    | cons e pre =>
      simp only [List.cons_append, List.cons.injEq] at hcs
      obtain ⟨rfl, rfl⟩ := hcs
      have hw : (optional m || (greedy m && !(!F.isEmpty))) = false := by
        rcases k5 with k5 | k5
        · simp [k1, k5]
        · cases F with
          | nil => exact absurd rfl k5
          | cons => simp [k1]
      rw [List.foldl_cons, hw] at hc
      obtain ⟨us1, u, us3, h1, h2, h3, h4⟩ := ih rfl hc
      refine ⟨us ++ a :: us1, u, us3, by rw [uses_cons]; simp [h1], h2, ?_, h4⟩
      intro v hv
      simp only [List.mem_append, List.mem_cons] at hv ⊢
      rcases hv with hv | rfl | hv
      · exact .inl (k4.ok v hv).2
      · exact .inr (.inl k2)
      · exact .inr (.inr (by simpa using h3 v hv))
  | @anchorGreedy first m cs ns b r a steps final rest k1 k2 k3 k4 hrun ih =>
    cases pre with
    | nil => simp at hc
    | cons e pre =>
      simp only [List.cons_append, List.cons.injEq] at hcs
      obtain ⟨rfl, rfl⟩ := hcs
      obtain ⟨us1, u, us3, h1, h2, h3, h4⟩ := ih rfl (by simpa [k4] using hc)
      refine ⟨a :: us1, u, us3, by rw [uses_cons]; simp [h1], h2, ?_, h4⟩
      intro v hv
      rcases List.mem_cons.1 hv with rfl | hv
      · simp [k2]
      · simpa using h3 v hv
  | done => simp at hcs
  | fillEnd => simp at hcs
  | fillNext => simp at hcs
  | fillAll => simp at hcs

end

end Hext
