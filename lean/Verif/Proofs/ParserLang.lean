import Verif.Proofs.ParserAuto
/-!
# The automaton accepts the grammar

For every state, the words that the automaton produces are the words of the expressions that remain.
-/

namespace Hext.Check

open Data

/-- The words of a subexpression that is given by its number. -/
inductive NLang (T : BT Node) : Nat → List Sym → Prop
  | eps {i} : T.get i = some .eps → NLang T i []
  | act {i n} : T.get i = some (.act n) → NLang T i [.act (actN n)]
  | cls {i m} {b : Byte} : T.get i = some (.cls m) → m.testBit b.toNat = true → NLang T i [.ch b]
  | seq {i a b u v} : T.get i = some (.seq a b) → NLang T a u → NLang T b v → NLang T i (u ++ v)
  | altl {i a b u} : T.get i = some (.alt a b) → NLang T a u → NLang T i u
  | altr {i a b u} : T.get i = some (.alt a b) → NLang T b u → NLang T i u
  | starNil {i a} : T.get i = some (.star a) → NLang T i []
  | starCons {i a u v} : T.get i = some (.star a) → NLang T a u → NLang T i v → NLang T i (u ++ v)

/-- The words of a stack. -/
inductive NLangK (T : BT Node) : List Nat → List Sym → Prop
  | nil : NLangK T [] []
  | cons {i k u v} : NLang T i u → NLangK T k v → NLangK T (i :: k) (u ++ v)

/-- The words that start with the step `e`. -/
def EdgeWord (T : BT Node) : NEdge → List Sym → Prop
  | .fin a, w => w = syms a
  | .ch a m k, w => ∃ (b : Byte) (w' : List Sym), w = syms a ++ .ch b :: w' ∧ m.testBit b.toNat = true ∧ NLangK T k w'

theorem syms_append (a b : List Nat) : syms (a ++ b) = syms a ++ syms b := by simp [syms]

theorem NLangK.cons_inv {T : BT Node} {i k w} (h : NLangK T (i :: k) w) :
    ∃ u v, w = u ++ v ∧ NLang T i u ∧ NLangK T k v := by
  cases h with
  | cons h1 h2 => exact ⟨_, _, rfl, h1, h2⟩

theorem expandN_complete (T : BT Node) : ∀ (f : Nat) (acts k : List Nat) (es : List NEdge),
    expandN T f acts k = some es → ∀ w, NLangK T k w → ∃ e ∈ es, EdgeWord T e (syms acts.reverse ++ w) := by
  intro f
  induction f with
  | zero => intro acts k es h; simp [expandN] at h
  | succ f ih =>
    intro acts k es h w hw
    cases k with
    | nil =>
      simp only [expandN, Option.some.injEq] at h
      subst h
      cases hw
      exact ⟨_, .head _, by simp [EdgeWord]⟩
    | cons i k =>
      obtain ⟨u, v, rfl, h1, h2⟩ := hw.cons_inv
      simp only [expandN] at h
      cases h1 with
      | eps hi => rw [hi] at h; exact ih _ _ _ h _ h2
      | act hi =>
        rw [hi] at h
        obtain ⟨e, he, hw⟩ := ih _ _ _ h _ h2
        exact ⟨e, he, by simpa [syms_append, syms] using hw⟩
      | cls hi hb =>
        rw [hi] at h
        simp only [Option.some.injEq] at h
        subst h
        exact ⟨_, .head _, _, _, rfl, hb, h2⟩
      | seq hi ha hb =>
        rw [hi] at h
        exact ih _ _ _ h _ (by rw [List.append_assoc]; exact .cons ha (.cons hb h2))
      | altl hi ha =>
        rw [hi] at h
        simp only at h
        split at h
        · rename_i x y hx hy
          simp only [Option.some.injEq] at h
          subst h
          obtain ⟨e, he, hw⟩ := ih _ _ _ hx _ (.cons ha h2)
          exact ⟨e, List.mem_append_left _ he, hw⟩
        · simp at h
      | altr hi ha =>
        rw [hi] at h
        simp only at h
        split at h
        · rename_i x y hx hy
          simp only [Option.some.injEq] at h
          subst h
          obtain ⟨e, he, hw⟩ := ih _ _ _ hy _ (.cons ha h2)
          exact ⟨e, List.mem_append_right _ he, hw⟩
        · simp at h
      | starNil hi =>
        rw [hi] at h
        simp only at h
        split at h
        · rename_i x y hx hy
          simp only [Option.some.injEq] at h
          subst h
          obtain ⟨e, he, hw⟩ := ih _ _ _ hx _ h2
          exact ⟨e, List.mem_append_left _ he, hw⟩
        · simp at h
      | starCons hi ha hb =>
        rw [hi] at h
        simp only at h
        split at h
        · rename_i x y hx hy
          simp only [Option.some.injEq] at h
          subst h
          obtain ⟨e, he, hw⟩ := ih _ _ _ hy _ (.cons ha (.cons hb h2))
          exact ⟨e, List.mem_append_right _ he, by rw [List.append_assoc]; exact hw⟩
        · simp at h

theorem expandN_sound (T : BT Node) : ∀ (f : Nat) (acts k : List Nat) (es : List NEdge),
    expandN T f acts k = some es → ∀ e ∈ es, ∀ W, EdgeWord T e W →
      ∃ w, W = syms acts.reverse ++ w ∧ NLangK T k w := by
  intro f
  induction f with
  | zero => intro acts k es h; simp [expandN] at h
  | succ f ih =>
    intro acts k es h e he W hW
    cases k with
    | nil =>
      simp only [expandN, Option.some.injEq] at h
      subst h
      simp only [List.mem_singleton] at he
      subst he
      exact ⟨[], by simpa [EdgeWord] using hW, .nil⟩
    | cons i k =>
      simp only [expandN] at h
      split at h
      · simp at h
      · rename_i hi
        obtain ⟨w, hw, hk⟩ := ih _ _ _ h e he W hW
        exact ⟨w, hw, NLangK.cons (.eps hi) hk⟩
      · rename_i a hi
        obtain ⟨w, hw, hk⟩ := ih _ _ _ h e he W hW
        exact ⟨.act (actN a) :: w, by simpa [syms_append, syms] using hw, NLangK.cons (.act hi) hk⟩
      · rename_i m hi
        simp only [Option.some.injEq] at h
        subst h
        simp only [List.mem_singleton] at he
        subst he
        obtain ⟨b, w', hw, hb, hk⟩ := hW
        exact ⟨.ch b :: w', hw, NLangK.cons (.cls hi hb) hk⟩
      · rename_i a b hi
        obtain ⟨w, hw, hk⟩ := ih _ _ _ h e he W hW
        obtain ⟨u, v, rfl, h1, h2⟩ := hk.cons_inv
        obtain ⟨u', v', rfl, h3, h4⟩ := h2.cons_inv
        exact ⟨_, hw, by rw [← List.append_assoc]; exact .cons (.seq hi h1 h3) h4⟩
      · rename_i a b hi
        split at h
        · rename_i x y hx hy
          simp only [Option.some.injEq] at h
          subst h
          rcases List.mem_append.mp he with he | he
          · obtain ⟨w, hw, hk⟩ := ih _ _ _ hx e he W hW
            obtain ⟨u, v, rfl, h1, h2⟩ := hk.cons_inv
            exact ⟨_, hw, .cons (.altl hi h1) h2⟩
          · obtain ⟨w, hw, hk⟩ := ih _ _ _ hy e he W hW
            obtain ⟨u, v, rfl, h1, h2⟩ := hk.cons_inv
            exact ⟨_, hw, .cons (.altr hi h1) h2⟩
        · simp at h
      · rename_i a hi
        split at h
        · rename_i x y hx hy
          simp only [Option.some.injEq] at h
          subst h
          rcases List.mem_append.mp he with he | he
          · obtain ⟨w, hw, hk⟩ := ih _ _ _ hx e he W hW
            exact ⟨_, hw, NLangK.cons (.starNil hi) hk⟩
          · obtain ⟨w, hw, hk⟩ := ih _ _ _ hy e he W hW
            obtain ⟨u, v, rfl, h1, h2⟩ := hk.cons_inv
            obtain ⟨u', v', rfl, h3, h4⟩ := h2.cons_inv
            exact ⟨_, hw, by rw [← List.append_assoc]; exact .cons (.starCons hi h1 h3) h4⟩
        · simp at h

theorem normN_iff (T : BT Node) : ∀ (f : Nat) (k : List Nat) (w : List Sym), NLangK T (normN T f k) w ↔ NLangK T k w := by
  intro f
  induction f with
  | zero => intro k w; rfl
  | succ f ih =>
    intro k w
    cases k with
    | nil => rfl
    | cons i k =>
      simp only [normN]
      split
      · rename_i hi
        rw [ih]
        constructor
        · intro h; exact NLangK.cons (.eps hi) h
        · intro h
          obtain ⟨u, v, rfl, h1, h2⟩ := h.cons_inv
          cases h1 <;> simp_all
      · rename_i a b hi
        rw [ih]
        constructor
        · intro h
          obtain ⟨u, v, rfl, h1, h2⟩ := h.cons_inv
          obtain ⟨u', v', rfl, h3, h4⟩ := h2.cons_inv
          rw [← List.append_assoc]; exact .cons (.seq hi h1 h3) h4
        · intro h
          obtain ⟨u, v, rfl, h1, h2⟩ := h.cons_inv
          cases h1 with
          | seq hi' ha hb =>
            rw [hi] at hi'
            cases hi'
            rw [List.append_assoc]; exact .cons ha (.cons hb h2)
          | _ => simp_all
      · rfl

theorem expandAll_iff {T : BT Node} : ∀ {ks : List (List Nat)} {es : List NEdge}, expandAll T ks = some es →
    ∀ w, (∃ k ∈ ks, NLangK T k w) ↔ ∃ e ∈ es, EdgeWord T e w := by
  intro ks
  induction ks with
  | nil => intro es h w; simp only [expandAll, Option.some.injEq] at h; subst h; simp
  | cons k ks ih =>
    intro es h w
    simp only [expandAll] at h
    split at h
    · rename_i x y hx hy
      simp only [Option.some.injEq] at h
      subst h
      have h1 := expandN_complete T _ _ _ _ hx w
      have h2 := expandN_sound T _ _ _ _ hx
      have h3 := ih hy w
      simp only [List.reverse_nil, syms, List.map_nil, List.nil_append] at h1 h2
      constructor
      · rintro ⟨k', hk', hw⟩
        rcases List.mem_cons.mp hk' with rfl | hk'
        · obtain ⟨e, he, hw⟩ := h1 hw
          exact ⟨e, List.mem_append_left _ he, hw⟩
        · obtain ⟨e, he, hw⟩ := h3.mp ⟨k', hk', hw⟩
          exact ⟨e, List.mem_append_right _ he, hw⟩
      · rintro ⟨e, he, hw⟩
        rcases List.mem_append.mp he with he | he
        · obtain ⟨w', rfl, hk⟩ := h2 e he w hw
          exact ⟨k, .head _, hk⟩
        · obtain ⟨k', hk', hw⟩ := h3.mpr ⟨e, he, hw⟩
          exact ⟨k', .tail _ hk', hw⟩
    · simp at h

/-! ## One step -/

/-- The words that remain in the state `q`. -/
def Remains (q : Nat) (w : List Sym) : Prop := ∃ ks, residual.get q = some ks ∧ ∃ k ∈ ks, NLangK nodes k w

theorem elemL_mem {k : List Nat} {ks : List (List Nat)} (h : elemL k ks = true) : k ∈ ks := by
  induction ks with
  | nil => simp [elemL] at h
  | cons x xs ih =>
    simp only [elemL] at h
    cases hc : beqL k x with
    | true => exact List.mem_cons.mpr (.inl (beqL_eq.mp hc))
    | false => rw [hc] at h; exact .tail _ (ih h)

theorem land_zero_testBit {m m' b : Nat} (h : Nat.beq (Nat.land m m') 0 = true) (hb : m.testBit b = true) :
    m'.testBit b = false := by
  have e : m &&& m' = 0 := Nat.eq_of_beq_eq_true h
  have := congrArg (Nat.testBit · b) e
  simp only [Nat.testBit_and, hb, Nat.zero_testBit, Bool.true_and] at this
  exact this

theorem land_self_testBit {m m' b : Nat} (h : Nat.beq (Nat.land m m') m = true) (hb : m.testBit b = true) :
    m'.testBit b = true := by
  have e : m &&& m' = m := Nat.eq_of_beq_eq_true h
  have := congrArg (Nat.testBit · b) e
  simp only [Nat.testBit_and, hb, Bool.true_and] at this
  exact this

theorem stepsOk_spec {m b : Nat} (hb : m.testBit b = true) {acts : List Nat} {ks : List (List Nat)} : ∀ {es : List NEdge},
    stepsOk m acts ks es = true → ∀ {a m' k}, NEdge.ch a m' k ∈ es → m'.testBit b = true →
      a = acts ∧ normN nodes 20 k ∈ ks := by
  intro es
  induction es with
  | nil => intro _ a m' k h; cases h
  | cons e es ih =>
    intro h a m' k hm hb'
    cases e with
    | fin a0 =>
      simp only [stepsOk] at h
      rcases List.mem_cons.mp hm with hm | hm
      · cases hm
      · exact ih h hm hb'
    | ch a0 m0 k0 =>
      simp only [stepsOk] at h
      cases hz : Nat.beq (Nat.land m m0) 0 with
      | true =>
        rw [hz] at h
        rcases List.mem_cons.mp hm with hm | hm
        · cases hm
          rw [land_zero_testBit hz hb] at hb'; cases hb'
        · exact ih h hm hb'
      | false =>
        rw [hz] at h
        simp only [cond_false] at h
        cases hc : (Nat.beq (Nat.land m m0) m && beqL a0 acts && elemL (normN nodes 20 k0) ks) with
        | false => rw [hc] at h; simp at h
        | true =>
          rw [hc] at h
          simp only [Bool.and_eq_true] at hc
          rcases List.mem_cons.mp hm with hm | hm
          · cases hm
            exact ⟨beqL_eq.mp hc.1.2, elemL_mem hc.2⟩
          · exact ih h hm hb'

theorem reached_spec {m b : Nat} (hb : m.testBit b = true) {k : List Nat} : ∀ {es : List NEdge}, reached m k es = true →
    ∃ a m' k', NEdge.ch a m' k' ∈ es ∧ m'.testBit b = true ∧ normN nodes 20 k' = k := by
  intro es
  induction es with
  | nil => intro h; simp [reached] at h
  | cons e es ih =>
    intro h
    cases e with
    | fin a0 =>
      obtain ⟨a, m', k', h1, h2⟩ := ih h
      exact ⟨a, m', k', .tail _ h1, h2⟩
    | ch a0 m0 k0 =>
      simp only [reached] at h
      cases hc : (Nat.beq (Nat.land m m0) m && beqL (normN nodes 20 k0) k) with
      | true =>
        simp only [Bool.and_eq_true] at hc
        exact ⟨a0, m0, k0, .head _, land_self_testBit hc.1 hb, beqL_eq.mp hc.2⟩
      | false =>
        rw [hc] at h
        obtain ⟨a, m', k', h1, h2⟩ := ih h
        exact ⟨a, m', k', .tail _ h1, h2⟩

theorem allReached_spec {m : Nat} {es : List NEdge} : ∀ {ks : List (List Nat)}, allReached m es ks = true →
    ∀ k ∈ ks, reached m k es = true := by
  intro ks
  induction ks with
  | nil => intro _ k hk; cases hk
  | cons x xs ih =>
    intro h k hk
    simp only [allReached] at h
    cases hc : reached m x es with
    | false => rw [hc] at h; simp at h
    | true =>
      rw [hc] at h
      rcases List.mem_cons.mp hk with rfl | hk
      · exact hc
      · exact ih h k hk

theorem noSteps_spec {m b : Nat} (hb : m.testBit b = true) : ∀ {es : List NEdge}, noSteps m es = true →
    ∀ {a m' k}, NEdge.ch a m' k ∈ es → m'.testBit b = false := by
  intro es
  induction es with
  | nil => intro _ a m' k h; cases h
  | cons e es ih =>
    intro h a m' k hm
    cases e with
    | fin a0 =>
      rcases List.mem_cons.mp hm with hm | hm
      · cases hm
      · exact ih h hm
    | ch a0 m0 k0 =>
      simp only [noSteps] at h
      cases hz : Nat.beq (Nat.land m m0) 0 with
      | false => rw [hz] at h; simp at h
      | true =>
        rw [hz] at h
        rcases List.mem_cons.mp hm with hm | hm
        · cases hm; exact land_zero_testBit hz hb
        · exact ih h hm

theorem finsOk_spec {acts : List Nat} : ∀ {es : List NEdge}, finsOk acts es = true → ∀ {a}, NEdge.fin a ∈ es → a = acts := by
  intro es
  induction es with
  | nil => intro _ a h; cases h
  | cons e es ih =>
    intro h a hm
    cases e with
    | ch a0 m0 k0 =>
      rcases List.mem_cons.mp hm with hm | hm
      · cases hm
      · exact ih h hm
    | fin a0 =>
      simp only [finsOk] at h
      cases hc : beqL a0 acts with
      | false => rw [hc] at h; simp at h
      | true =>
        rw [hc] at h
        rcases List.mem_cons.mp hm with hm | hm
        · cases hm; exact beqL_eq.mp hc
        · exact ih h hm

theorem hasFin_iff : ∀ {es : List NEdge}, hasFin es = true ↔ ∃ a, NEdge.fin a ∈ es := by
  intro es
  induction es with
  | nil => simp [hasFin]
  | cons e es ih =>
    cases e with
    | ch a0 m0 k0 => simp [hasFin, ih]
    | fin a0 => simp [hasFin]

theorem syms_ch_inj {a a' : List Nat} {b b' : Byte} {w w' : List Sym} (h : syms a ++ .ch b :: w = syms a' ++ .ch b' :: w') :
    b = b' ∧ w = w' := by
  induction a generalizing a' with
  | nil =>
    cases a' with
    | nil => simpa [syms] using h
    | cons x a' => simp [syms] at h
  | cons x a ih =>
    cases a' with
    | nil => simp [syms] at h
    | cons y a' =>
      simp only [syms, List.map_cons, List.cons_append, List.cons.injEq] at h
      exact ih h.2

theorem chars_step (a : List Nat) (b : Byte) (w : List Sym) : chars (syms a ++ .ch b :: w) = b :: chars w := by
  rw [chars_append, chars_syms]; rfl

/-- The words that remain when the next byte is `b`. -/
theorem remains_step {q : Nat} (h0 : q ≠ 0) (hq : q < 820) (b : Byte) (w : List Sym) :
    (Remains q w ∧ ∃ rest, chars w = b :: rest) ↔
      packed transTargs (trans q b) ≠ 0 ∧
        ∃ w', w = syms (transActs (trans q b)) ++ .ch b :: w' ∧ Remains (packed transTargs (trans q b)) w' := by
  obtain ⟨ks, es, ok⟩ := ok_of h0 hq
  obtain ⟨m, hb, eok⟩ := edgeOk_trans ok b
  constructor
  · rintro ⟨⟨ks', hks', hk⟩, rest, hrest⟩
    rw [ok.res] at hks'
    cases hks'
    obtain ⟨e, he, hw⟩ := (expandAll_iff ok.exp w).mp hk
    cases e with
    | fin a =>
      rw [show w = syms a from hw, chars_syms] at hrest
      cases hrest
    | ch a m' k =>
      obtain ⟨b', w', rfl, hb', hk'⟩ := hw
      rw [chars_step] at hrest
      cases hrest
      by_cases hz : packed transTargs (trans q b) = 0
      · rw [noSteps_spec hb (eok.err hz).2 he] at hb'; cases hb'
      · obtain ⟨ks', hks', hst, _⟩ := eok.ok hz
        obtain ⟨ha, hmem⟩ := stepsOk_spec hb hst he hb'
        exact ⟨hz, w', by rw [ha], ks', hks', _, hmem, (normN_iff _ _ _ _).mpr hk'⟩
  · rintro ⟨hz, w', rfl, ks', hks', k, hk, hw⟩
    obtain ⟨ks'', hks'', hst, hr⟩ := eok.ok hz
    rw [hks''] at hks'
    cases hks'
    obtain ⟨a, m', k', he, hb', hn⟩ := reached_spec hb (allReached_spec hr k hk)
    obtain ⟨ha, _⟩ := stepsOk_spec hb hst he hb'
    subst ha
    refine ⟨⟨ks, ok.res, (expandAll_iff ok.exp _).mpr ⟨_, he, b, w', rfl, hb', ?_⟩⟩, _, chars_step _ _ _⟩
    rw [← hn] at hw
    exact (normN_iff _ _ _ _).mp hw

/-- The word that remains at the end of the input. -/
theorem remains_end {q : Nat} (h0 : q ≠ 0) (hq : q < 820) (w : List Sym) :
    (Remains q w ∧ chars w = []) ↔ beqL (eofActs q) [88] = false ∧ w = syms (eofActs q) := by
  obtain ⟨ks, es, ok⟩ := ok_of h0 hq
  have hfin := ok.fin
  constructor
  · rintro ⟨⟨ks', hks', hk⟩, hc⟩
    rw [ok.res] at hks'
    cases hks'
    obtain ⟨e, he, hw⟩ := (expandAll_iff ok.exp w).mp hk
    cases e with
    | ch a m' k =>
      obtain ⟨b', w', rfl, _⟩ := hw
      rw [chars_step] at hc; cases hc
    | fin a =>
      have hh := hasFin_iff.mpr ⟨a, he⟩
      cases hb : beqL (eofActs q) [88] with
      | true => rw [hb, hh] at hfin; simp at hfin
      | false =>
        rw [hb, hh] at hfin
        simp only [cond_false, Bool.true_and] at hfin
        have := finsOk_spec hfin he
        subst this
        exact ⟨rfl, hw⟩
  · rintro ⟨hb, rfl⟩
    rw [hb] at hfin
    simp only [cond_false, Bool.and_eq_true] at hfin
    obtain ⟨a, ha⟩ := hasFin_iff.mp hfin.1
    have := finsOk_spec hfin.2 ha
    subst this
    exact ⟨⟨ks, ok.res, (expandAll_iff ok.exp _).mpr ⟨_, ha, rfl⟩⟩, chars_syms _⟩

/-- The words that remain and have the bytes of the input are the one word of the automaton. -/
theorem remains_iff : ∀ (input : Str) (q : Nat) (w : List Sym), q ≠ 0 → q < 820 →
    ((Remains q w ∧ chars w = input) ↔ accepts q input = true ∧ w = dfaWord q input) := by
  intro input
  induction input with
  | nil =>
    intro q w h0 hq
    rw [remains_end h0 hq, accepts, dfaWord]
    simp
  | cons b rest ih =>
    intro q w h0 hq
    obtain ⟨ks, es, ok⟩ := ok_of h0 hq
    obtain ⟨m, hb, eok⟩ := edgeOk_trans ok b
    have hstep := remains_step h0 hq b w
    simp only [accepts, dfaWord, Bool.and_eq_true, bne_iff_ne]
    constructor
    · rintro ⟨hr, hc⟩
      obtain ⟨hz, w', rfl, hr'⟩ := hstep.mp ⟨hr, rest, hc⟩
      rw [chars_step] at hc
      simp only [List.cons.injEq, true_and] at hc
      obtain ⟨h1, h2⟩ := (ih _ w' hz eok.qlt).mp ⟨hr', hc⟩
      exact ⟨⟨hz, h1⟩, by rw [if_neg hz, ← h2]⟩
    · rintro ⟨⟨hz, ha⟩, rfl⟩
      obtain ⟨h1, h2⟩ := (ih _ _ hz eok.qlt).mpr ⟨ha, rfl⟩
      rw [if_neg hz]
      rw [if_neg hz] at hstep
      exact ⟨(hstep.mpr ⟨hz, _, rfl, h1⟩).1, by rw [chars_step, h2]⟩

/-! ## The grammar -/

/-- The subexpression `i` is `g`. -/
def repB (T : BT Node) : G → Nat → Bool
  | .eps, i => match T.get i with | some .eps => true | _ => false
  | .act a, i => match T.get i with | some (.act n) => actN n == a | _ => false
  | .cls m, i => match T.get i with | some (.cls m') => Nat.beq m m' | _ => false
  | .seq g h, i => match T.get i with | some (.seq a b) => repB T g a && repB T h b | _ => false
  | .alt g h, i => match T.get i with | some (.alt a b) => repB T g a && repB T h b | _ => false
  | .star g, i => match T.get i with | some (.star a) => repB T g a | _ => false

theorem root_rep : repB nodes Grammar.main root = true := by decide +kernel

theorem lang_of_nlang {T : BT Node} {i : Nat} {w : List Sym} (h : NLang T i w) : ∀ {g}, repB T g i = true → Lang g w := by
  induction h with
  | eps hi => intro g hg; cases g <;> simp [repB, hi] at hg; exact .eps
  | act hi => intro g hg; cases g <;> simp [repB, hi] at hg; subst hg; exact .act
  | cls hi hb =>
    intro g hg; cases g <;> simp [repB, hi] at hg
    rw [← hg] at hb; exact .cls hb
  | seq hi _ _ iha ihb =>
    intro g hg; cases g <;> simp [repB, hi] at hg
    exact .seq (iha hg.1) (ihb hg.2)
  | altl hi _ iha =>
    intro g hg; cases g <;> simp [repB, hi] at hg
    exact .altl (iha hg.1)
  | altr hi _ iha =>
    intro g hg; cases g <;> simp [repB, hi] at hg
    exact .altr (iha hg.2)
  | starNil hi => intro g hg; cases g <;> simp [repB, hi] at hg; exact .starNil
  | starCons hi _ _ iha ihb =>
    intro g hg
    have hg' := hg
    cases g <;> simp [repB, hi] at hg
    exact .starCons (iha hg) (ihb hg')

theorem nlang_of_lang {T : BT Node} {g : G} {w : List Sym} (h : Lang g w) : ∀ {i}, repB T g i = true → NLang T i w := by
  induction h with
  | eps =>
    intro i hi; simp only [repB] at hi
    split at hi
    · rename_i h; exact .eps h
    · simp at hi
  | act =>
    intro i hi; simp only [repB] at hi
    split at hi
    · rename_i h; simp at hi; subst hi; exact .act h
    · simp at hi
  | cls hb =>
    intro i hi; simp only [repB] at hi
    split at hi
    · rename_i h; rw [Nat.eq_of_beq_eq_true hi] at hb; exact .cls h hb
    · simp at hi
  | seq _ _ iha ihb =>
    intro i hi; simp only [repB] at hi
    split at hi
    · rename_i h; simp at hi; exact .seq h (iha hi.1) (ihb hi.2)
    · simp at hi
  | altl _ iha =>
    intro i hi; simp only [repB] at hi
    split at hi
    · rename_i h; simp at hi; exact .altl h (iha hi.1)
    · simp at hi
  | altr _ iha =>
    intro i hi; simp only [repB] at hi
    split at hi
    · rename_i h; simp at hi; exact .altr h (iha hi.2)
    · simp at hi
  | starNil =>
    intro i hi; simp only [repB] at hi
    split at hi
    · rename_i h; exact .starNil h
    · simp at hi
  | starCons _ _ iha ihb =>
    intro i hi
    have hi' := hi
    simp only [repB] at hi
    split at hi
    · rename_i h; exact .starCons h (iha hi) (ihb hi')
    · simp at hi

theorem residual_start : residual.get hextStart = some [[root]] := by decide +kernel

theorem remains_start (w : List Sym) : Remains hextStart w ↔ Lang Grammar.main w := by
  unfold Remains
  rw [residual_start]
  constructor
  · rintro ⟨ks, hks, k, hk, hw⟩
    cases hks
    simp only [List.mem_singleton] at hk
    subst hk
    obtain ⟨u, v, rfl, h1, h2⟩ := hw.cons_inv
    cases h2
    rw [List.append_nil]
    exact lang_of_nlang h1 root_rep
  · intro h
    refine ⟨_, rfl, _, .head _, ?_⟩
    rw [← List.append_nil w]
    exact .cons (nlang_of_lang h root_rep) .nil

/-- The automaton accepts exactly the bytes of the words of the grammar, and it runs the actions of the
one word that has these bytes. -/
theorem grammar_iff (input : Str) (w : List Sym) :
    (Lang Grammar.main w ∧ chars w = input) ↔ accepts hextStart input = true ∧ w = dfaWord hextStart input := by
  rw [← remains_start]
  exact remains_iff input hextStart w (by decide) (by decide)

/-! ## Inputs outside the grammar -/

/-- Operands have smaller numbers and sets of bytes are not empty. -/
def nodeOk (i : Nat) : Bool :=
  match nodes.get i with
  | none => false
  | some (.cls m) => !Nat.beq m 0 && Nat.blt m (2 ^ 256)
  | some (.seq a b) => Nat.blt a i && Nat.blt b i
  | some (.alt a _) => Nat.blt a i
  | some _ => true

theorem nodes_ok : (upto 0 554).all nodeOk = true := by decide +kernel

theorem exists_bit {m : Nat} (h0 : m ≠ 0) (h : m < 2 ^ 256) : ∃ b : Byte, m.testBit b.toNat = true := by
  obtain ⟨i, hi⟩ := Nat.exists_testBit_of_ne_zero h0
  have : i < 256 := by
    refine Decidable.byContradiction fun hc => ?_
    rw [Nat.testBit_lt_two_pow (Nat.lt_of_lt_of_le h (Nat.pow_le_pow_right (by omega) (by omega)))] at hi
    cases hi
  exact ⟨UInt8.ofNat i, by rw [UInt8.toNat_ofNat_of_lt' this]; exact hi⟩

theorem node_word : ∀ i < 554, ∃ w, NLang nodes i w := by
  intro i
  induction i using Nat.strongRecOn with
  | ind i ih =>
    intro hi
    have h := List.all_eq_true.mp nodes_ok i (mem_upto (by omega) (by omega))
    unfold nodeOk at h
    split at h
    · simp at h
    · rename_i m hm
      simp only [Bool.and_eq_true, Nat.blt_eq, Bool.not_eq_true'] at h
      obtain ⟨b, hb⟩ := exists_bit (by intro e; subst e; simp at h) h.2
      exact ⟨_, .cls hm hb⟩
    · rename_i a b hm
      simp only [Bool.and_eq_true, Nat.blt_eq] at h
      obtain ⟨u, hu⟩ := ih a h.1 (by omega)
      obtain ⟨v, hv⟩ := ih b h.2 (by omega)
      exact ⟨_, .seq hm hu hv⟩
    · rename_i a b hm
      simp only [Nat.blt_eq] at h
      obtain ⟨u, hu⟩ := ih a h (by omega)
      exact ⟨_, .altl hm hu⟩
    · rename_i n hn1 hn2 hn3 hn
      cases n with
      | eps => exact ⟨_, .eps hn⟩
      | act a => exact ⟨_, .act hn⟩
      | star a => exact ⟨_, .starNil hn⟩
      | cls m => exact absurd rfl (hn1 m)
      | seq a b => exact absurd rfl (hn2 a b)
      | alt a b => exact absurd rfl (hn3 a b)

/-- Every state has a stack, and its expressions exist. -/
def residualOk (q : Nat) : Bool :=
  match residual.get q with
  | some (k :: _) => k.all fun i => Nat.blt i 554
  | _ => false

theorem residuals_ok : (upto 1 819).all residualOk = true := by decide +kernel

/-- In every state some word remains. -/
theorem remains_nonempty {q : Nat} (h0 : q ≠ 0) (hq : q < 820) : ∃ w, Remains q w := by
  have h := List.all_eq_true.mp residuals_ok q (mem_upto (by omega) (by omega))
  unfold residualOk at h
  split at h
  · rename_i k ks hk
    have : ∀ k : List Nat, (k.all fun i => Nat.blt i 554) = true → ∃ w, NLangK nodes k w := by
      intro k
      induction k with
      | nil => intro _; exact ⟨_, .nil⟩
      | cons i k ih =>
        intro h
        simp only [List.all_cons, Bool.and_eq_true, Nat.blt_eq] at h
        obtain ⟨u, hu⟩ := node_word i h.1
        obtain ⟨v, hv⟩ := ih h.2
        exact ⟨_, .cons hu hv⟩
    obtain ⟨w, hw⟩ := this k h
    exact ⟨w, _, hk, k, .head _, hw⟩
  · simp at h

theorem actN_88 : actN 88 = .unexpected := rfl

/-- An input that is not accepted: the automaton follows a word as long as it can and then fails. -/
theorem reject_spec : ∀ (input : Str) (q : Nat), q ≠ 0 → q < 820 → accepts q input = false →
    ∃ u rest, input = chars u ++ rest ∧ dfaWord q input = u ++ [.act .unexpected] ∧ (∃ v, Remains q (u ++ v)) ∧
      (∀ b rest', rest = b :: rest' → ∀ w, Remains q w → ¬ (chars u ++ [b] <+: chars w)) ∧
      (∀ w, Remains q w → chars u <+: chars w → u <+: w) := by
  intro input
  induction input with
  | nil =>
    intro q h0 hq ha
    simp only [accepts, Bool.not_eq_false'] at ha
    refine ⟨[], [], rfl, ?_, ?_, ?_, fun w _ _ => List.nil_prefix⟩
    · rw [dfaWord, beqL_eq.mp ha]; rfl
    · obtain ⟨w, hw⟩ := remains_nonempty h0 hq
      exact ⟨w, hw⟩
    · intro b rest' h; cases h
  | cons b rest ih =>
    intro q h0 hq ha
    obtain ⟨ks, es, ok⟩ := ok_of h0 hq
    obtain ⟨m, hb, eok⟩ := edgeOk_trans ok b
    by_cases hz : packed transTargs (trans q b) = 0
    · refine ⟨[], b :: rest, rfl, ?_, ?_, ?_, fun w _ _ => List.nil_prefix⟩
      · simp only [dfaWord, if_pos hz, (eok.err hz).1]; rfl
      · obtain ⟨w, hw⟩ := remains_nonempty h0 hq
        exact ⟨w, hw⟩
      · intro b' rest' h w hw hp
        cases h
        obtain ⟨t, ht⟩ := hp
        exact ((remains_step h0 hq b w).mp ⟨hw, t, by rw [← ht]; rfl⟩).1 hz
    · simp only [accepts, Bool.and_eq_false_iff, bne_eq_false_iff_eq] at ha
      obtain ⟨u, rest', h1, h2, ⟨v, h3⟩, h4, h5⟩ := ih _ hz eok.qlt (ha.resolve_left hz)
      refine ⟨syms (transActs (trans q b)) ++ .ch b :: u, rest', ?_, ?_, ⟨v, ?_⟩, ?_, ?_⟩
      · rw [chars_step, h1]; rfl
      · simp only [dfaWord, if_neg hz, h2]; simp
      · have := (remains_step h0 hq b _).mpr ⟨hz, _, rfl, h3⟩
        simpa using this.1
      · intro b' r' hr w hw hp
        rw [chars_step] at hp
        obtain ⟨t, ht⟩ := hp
        obtain ⟨_, w', rfl, hw'⟩ := (remains_step h0 hq b w).mp ⟨hw, chars u ++ b' :: t, by rw [← ht]; simp⟩
        rw [chars_step] at ht
        exact h4 b' r' hr w' hw' ⟨t, by simpa using ht⟩
      · intro w hw hp
        rw [chars_step] at hp
        obtain ⟨t, ht⟩ := hp
        obtain ⟨_, w', rfl, hw'⟩ := (remains_step h0 hq b w).mp ⟨hw, chars u ++ t, by rw [← ht]; simp⟩
        rw [chars_step] at ht
        obtain ⟨x, hx⟩ := h5 w' hw' ⟨t, by simpa using ht⟩
        exact ⟨x, by rw [← hx]; simp⟩

end Hext.Check
