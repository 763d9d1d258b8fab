import Verif.Spec.Reorder
import Verif.Props.Similar
import Verif.Proofs.ParserRules
set_option linter.unusedSimpArgs false
/-!
# Conditions and captures in another order: proofs
-/

namespace Hext

open Param Props

section
variable {rx : RxEngine} {h : Heap} {n : Nat} {l : Loc}

theorem pure_tf : (pure false : E Bool) ≠ pure true := by intro h; exact absurd (E.pure_inj h) (by simp)

theorem eq_of_true {x y : E Bool} (hx : ∃ b, x = pure b) (hy : ∃ b, y = pure b) (h : x = pure true ↔ y = pure true) : x = y := by
  obtain ⟨a, rfl⟩ := hx
  obtain ⟨b, rfl⟩ := hy
  cases a <;> cases b <;> simp_all [pure_tf, pure_tf.symm]

theorem negateLoop_true (hl : l.Stored h n) (hn : n ≤ 2147483647) : ∀ ms : List (Option Match), Match.SafeL n ms →
    (negateLoop rx h l.ptr ms = pure true ↔ ¬ ∃ m, some m ∈ ms ∧ m.matches rx h l.ptr = pure true)
  | [], _ => by simp [negateLoop]
  | none :: ms, hs => by
    simp only [Match.SafeL] at hs
    rw [negateLoop, optMatches, pure_bind]
    simp only [Bool.false_eq_true, if_false, List.mem_cons, reduceCtorEq, false_or]
    exact negateLoop_true hl hn ms hs.2
  | some m :: ms, hs => by
    simp only [Match.SafeL, Match.SafeO] at hs
    obtain ⟨b, hb⟩ := m.matches_total rx hl hn hs.1
    have ih := negateLoop_true hl hn ms hs.2
    rw [negateLoop, optMatches, hb, pure_bind]
    cases b with
    | true =>
      simp only [if_true]
      exact ⟨fun k => absurd k pure_tf, fun k => absurd ⟨m, by simp, hb⟩ k⟩
    | false =>
      simp only [Bool.false_eq_true, if_false, ih]
      refine not_congr ⟨fun ⟨c, h1, h2⟩ => ⟨c, by simp [h1], h2⟩, fun ⟨c, h1, h2⟩ => ?_⟩
      rcases List.mem_cons.1 h1 with h1 | h1
      · cases h1
        rw [hb] at h2
        exact absurd h2 pure_tf
      · exact ⟨c, h1, h2⟩

theorem allMatch_true (hl : l.Stored h n) (hn : n ≤ 2147483647) : ∀ ms : List (Option Match), Match.SafeL n ms →
    (allMatch rx h l.ptr ms = pure true ↔ ∀ m, some m ∈ ms → m.matches rx h l.ptr = pure true)
  | [], _ => by simp [allMatch]
  | none :: ms, hs => by
    simp only [Match.SafeL] at hs
    simp only [allMatch, pure_bind, Bool.false_eq_true, if_false, List.mem_cons, reduceCtorEq, false_or]
    exact allMatch_true hl hn ms hs.2
  | some m :: ms, hs => by
    simp only [Match.SafeL, Match.SafeO] at hs
    obtain ⟨b, hb⟩ := m.matches_total rx hl hn hs.1
    have ih := allMatch_true hl hn ms hs.2
    simp only [allMatch, hb, pure_bind]
    cases b with
    | true =>
      simp only [Bool.not_true, Bool.false_eq_true, if_false, ih]
      refine ⟨fun k c hc => ?_, fun k c hc => k c (by simp [hc])⟩
      rcases List.mem_cons.1 hc with hc | hc
      · cases hc; exact hb
      · exact k c hc
    | false =>
      simp only [Bool.not_false, if_true]
      refine ⟨fun k => absurd k pure_tf, fun k => ?_⟩
      have := k m (by simp)
      rw [hb] at this
      exact absurd this pure_tf

mutual
theorem sameAs_eq (hl : l.Stored h n) (hn : n ≤ 2147483647) : ∀ (m m' : Match), m.SameAs m' → m.Safe n → m'.Safe n →
    m.matches rx h l.ptr = m'.matches rx h l.ptr
  | .negate ms, m', he, hs, hs' => by
    simp only [Match.SameAs] at he
    obtain ⟨ms', rfl, h1, h2⟩ := he
    simp only [Match.Safe] at hs hs'
    simp only [Match.matches]
    refine eq_of_true (negateLoop_total rx hl hn ms hs) (negateLoop_total rx hl hn ms' hs') ?_
    rw [negateLoop_true hl hn ms hs, negateLoop_true hl hn ms' hs']
    refine not_congr ⟨eachIn_some hl hn ms ms' h1 hs hs', ?_⟩
    rintro ⟨c, hc, ht⟩
    exact oneOf_some hl hn ms c (h2 c hc) hs (safeL_iff.1 hs' c hc) ht
  | .attribute .., m', he, _, _ => by simp only [Match.SameAs] at he; rw [he]
  | .attributeCount .., m', he, _, _ => by simp only [Match.SameAs] at he; rw [he]
  | .childCount .., m', he, _, _ => by simp only [Match.SameAs] at he; rw [he]
  | .function .., m', he, _, _ => by simp only [Match.SameAs] at he; rw [he]
  | .functionValue .., m', he, _, _ => by simp only [Match.SameAs] at he; rw [he]
  | .nthChild .., m', he, _, _ => by simp only [Match.SameAs] at he; rw [he]
  | .onlyChild .., m', he, _, _ => by simp only [Match.SameAs] at he; rw [he]
  | .typeRegex .., m', he, _, _ => by simp only [Match.SameAs] at he; rw [he]
theorem eachIn_some (hl : l.Stored h n) (hn : n ≤ 2147483647) : ∀ (ms ms' : List (Option Match)), Match.EachIn ms ms' → Match.SafeL n ms →
    Match.SafeL n ms' → (∃ m, some m ∈ ms ∧ m.matches rx h l.ptr = pure true) → ∃ m, some m ∈ ms' ∧ m.matches rx h l.ptr = pure true
  | [], _, _, _, _, hm => by obtain ⟨m, hm, _⟩ := hm; cases hm
  | none :: ms, ms', he, hs, hs', hm => by
    simp only [Match.SafeL, Match.EachIn] at hs he
    obtain ⟨m, h1, h2⟩ := hm
    exact eachIn_some hl hn ms ms' he hs.2 hs' ⟨m, by simpa using h1, h2⟩
  | some x :: ms, ms', he, hs, hs', hm => by
    simp only [Match.SafeL, Match.SafeO, Match.EachIn] at hs he
    obtain ⟨m, h1, h2⟩ := hm
    rcases List.mem_cons.1 h1 with h1 | h1
    · cases h1
      obtain ⟨c, h3, h4⟩ := he.1
      exact ⟨c, h3, by rw [← sameAs_eq hl hn x c h4 hs.1 (safeL_iff.1 hs' c h3), h2]⟩
    · exact eachIn_some hl hn ms ms' he.2 hs.2 hs' ⟨m, h1, h2⟩
theorem oneOf_some (hl : l.Stored h n) (hn : n ≤ 2147483647) : ∀ (ms : List (Option Match)) (c : Match), Match.OneOf ms c → Match.SafeL n ms →
    c.Safe n → c.matches rx h l.ptr = pure true → ∃ m, some m ∈ ms ∧ m.matches rx h l.ptr = pure true
  | [], _, he, _, _, _ => by simp only [Match.OneOf] at he
  | none :: ms, c, he, hs, hs', hm => by
    simp only [Match.SafeL, Match.OneOf] at hs he
    obtain ⟨m, h1, h2⟩ := oneOf_some hl hn ms c he hs.2 hs' hm
    exact ⟨m, by simp [h1], h2⟩
  | some x :: ms, c, he, hs, hs', hm => by
    simp only [Match.SafeL, Match.SafeO, Match.OneOf] at hs he
    rcases he with he | he
    · exact ⟨x, by simp, by rw [sameAs_eq hl hn x c he hs.1 hs', hm]⟩
    · obtain ⟨m, h1, h2⟩ := oneOf_some hl hn ms c he hs.2 hs' hm
      exact ⟨m, by simp [h1], h2⟩
end

theorem eachIn_mem {ms ms' : List (Option Match)} : Match.EachIn ms ms' ↔ ∀ m, some m ∈ ms → ∃ c, some c ∈ ms' ∧ m.SameAs c := by
  induction ms with
  | nil => simp [Match.EachIn]
  | cons m ms ih => cases m <;> simp [Match.EachIn, ih]

theorem oneOf_mem {ms : List (Option Match)} {c : Match} : Match.OneOf ms c ↔ ∃ m, some m ∈ ms ∧ m.SameAs c := by
  induction ms with
  | nil => simp [Match.OneOf]
  | cons m ms ih => cases m <;> simp [Match.OneOf, ih]

mutual
theorem sameAs_safe : ∀ (m m' : Match), m.SameAs m' → m.Safe n → m'.Safe n
  | .negate ms, m', he, hs => by
    simp only [Match.SameAs] at he
    obtain ⟨ms', rfl, _, h2⟩ := he
    simp only [Match.Safe] at hs ⊢
    exact safeL_iff.2 fun c hc => oneOf_safe ms c (h2 c hc) hs
  | .attribute .., m', he, hs => by simp only [Match.SameAs] at he; rw [← he]; exact hs
  | .attributeCount .., m', he, hs => by simp only [Match.SameAs] at he; rw [← he]; exact hs
  | .childCount .., m', he, hs => by simp only [Match.SameAs] at he; rw [← he]; exact hs
  | .function .., m', he, hs => by simp only [Match.SameAs] at he; rw [← he]; exact hs
  | .functionValue .., m', he, hs => by simp only [Match.SameAs] at he; rw [← he]; exact hs
  | .nthChild .., m', he, hs => by simp only [Match.SameAs] at he; rw [← he]; exact hs
  | .onlyChild .., m', he, hs => by simp only [Match.SameAs] at he; rw [← he]; exact hs
  | .typeRegex .., m', he, hs => by simp only [Match.SameAs] at he; rw [← he]; exact hs
theorem oneOf_safe : ∀ (ms : List (Option Match)) (c : Match), Match.OneOf ms c → Match.SafeL n ms → c.Safe n
  | [], _, he, _ => by simp only [Match.OneOf] at he
  | none :: ms, c, he, hs => by
    simp only [Match.SafeL, Match.OneOf] at hs he
    exact oneOf_safe ms c he hs.2
  | some x :: ms, c, he, hs => by
    simp only [Match.SafeL, Match.SafeO, Match.OneOf] at hs he
    rcases he with he | he
    · exact sameAs_safe x c he hs.1
    · exact oneOf_safe ms c he hs.2
end

theorem rearranged_safe {i i' : RuleInfo} (hi : i.Rearranged i') (hs : i.Safe n) : i'.Safe n := by
  refine ⟨safeL_iff.2 fun c hc => oneOf_safe _ c (hi.2.1.2 c hc) hs.1, fun c hc => ?_⟩
  have h1 : c ∈ capturesInto (· = c.resultName) i'.caps := by
    simp only [capturesInto, List.mem_filter, List.mem_filterMap, id, decide_true, and_true]
    exact ⟨some c, hc, rfl⟩
  rw [← hi.2.2 c.resultName] at h1
  simp only [capturesInto, List.mem_filter, List.mem_filterMap, id, decide_true, and_true] at h1
  obtain ⟨o, h1, rfl⟩ := h1
  exact hs.2 c h1

theorem rearranged_own {i i' : RuleInfo} (hl : l.Stored h n) (hn : n ≤ 2147483647) (hi : i.Rearranged i') (hs : i.Safe n) :
    ownVal rx h i l = ownVal rx h i' l := by
  have hs' := rearranged_safe hi hs
  have hms : allMatch rx h l.ptr i.ms = allMatch rx h l.ptr i'.ms := by
    refine eq_of_true (allMatch_total rx hl hn _ hs.1) (allMatch_total rx hl hn _ hs'.1) ?_
    rw [allMatch_true hl hn _ hs.1, allMatch_true hl hn _ hs'.1]
    constructor
    · intro k c hc
      obtain ⟨m, h1, h2⟩ := oneOf_mem.1 (hi.2.1.2 c hc)
      rw [← sameAs_eq hl hn m c h2 (safeL_iff.1 hs.1 m h1) (safeL_iff.1 hs'.1 c hc), k m h1]
    · intro k m hm
      obtain ⟨c, h1, h2⟩ := eachIn_mem.1 hi.2.1.1 m hm
      rw [sameAs_eq hl hn m c h2 (safeL_iff.1 hs.1 m hm) (safeL_iff.1 hs'.1 c h1), k c h1]
  have ht : ∀ k, tagAgrees i' k = tagAgrees i k := fun k => by rw [hi.1]; rfl
  unfold ownVal ruleMatches
  simp only [hms, ht]

mutual
theorem alike_and {I : RuleInfo → RuleInfo → Prop} {P : RuleInfo → Prop} : ∀ {r r' : Rule}, r.Alike I r' → r.All P →
    r.Alike (fun i i' => I i i' ∧ P i) r'
  | .mk i c nx ns, r', ha, hp => by
    simp only [Rule.Alike, Rule.All] at ha hp ⊢
    exact ⟨⟨ha.1, hp.1⟩, alikeO_and ha.2.1 hp.2.1, alikeO_and ha.2.2.1 hp.2.2.1, alikeL_and ha.2.2.2 hp.2.2.2⟩
theorem alikeO_and {I : RuleInfo → RuleInfo → Prop} {P : RuleInfo → Prop} : ∀ {r r' : Option Rule}, Rule.AlikeO I r r' → Rule.AllO P r →
    Rule.AlikeO (fun i i' => I i i' ∧ P i) r r'
  | none, r', ha, _ => ha
  | some r, r', ha, hp => by
    simp only [Rule.AlikeO, Rule.AllO] at ha hp ⊢
    obtain ⟨q, rfl, ha⟩ := ha
    exact ⟨q, rfl, alike_and ha hp⟩
theorem alikeL_and {I : RuleInfo → RuleInfo → Prop} {P : RuleInfo → Prop} : ∀ {r r' : List Rule}, Rule.AlikeL I r r' → Rule.AllL P r →
    Rule.AlikeL (fun i i' => I i i' ∧ P i) r r'
  | [], r', ha, _ => ha
  | r :: rs, r', ha, hp => by
    simp only [Rule.AlikeL, Rule.AllL] at ha hp ⊢
    obtain ⟨q, qs, rfl, h1, h2⟩ := ha
    exact ⟨q, qs, rfl, alike_and h1 hp.1, alikeL_and h2 hp.2⟩
end

mutual
theorem alike_all {I : RuleInfo → RuleInfo → Prop} {P P' : RuleInfo → Prop} (hI : ∀ i i', I i i' → P i → P' i') : ∀ {r r' : Rule},
    r.Alike I r' → r.All P → r'.All P'
  | .mk i c nx ns, .mk i' c' nx' ns', ha, hp => by
    simp only [Rule.Alike, Rule.All, Rule.info, Rule.child, Rule.next, Rule.nested] at ha hp ⊢
    exact ⟨hI _ _ ha.1 hp.1, alikeO_all hI ha.2.1 hp.2.1, alikeO_all hI ha.2.2.1 hp.2.2.1, alikeL_all hI ha.2.2.2 hp.2.2.2⟩
theorem alikeO_all {I : RuleInfo → RuleInfo → Prop} {P P' : RuleInfo → Prop} (hI : ∀ i i', I i i' → P i → P' i') : ∀ {r r' : Option Rule},
    Rule.AlikeO I r r' → Rule.AllO P r → Rule.AllO P' r'
  | none, r', ha, _ => by simp only [Rule.AlikeO] at ha; rw [ha]; trivial
  | some r, r', ha, hp => by
    simp only [Rule.AlikeO, Rule.AllO] at ha hp
    obtain ⟨q, rfl, ha⟩ := ha
    exact alike_all hI ha hp
theorem alikeL_all {I : RuleInfo → RuleInfo → Prop} {P P' : RuleInfo → Prop} (hI : ∀ i i', I i i' → P i → P' i') : ∀ {r r' : List Rule},
    Rule.AlikeL I r r' → Rule.AllL P r → Rule.AllL P' r'
  | [], r', ha, _ => by simp only [Rule.AlikeL] at ha; rw [ha]; trivial
  | r :: rs, r', ha, hp => by
    simp only [Rule.AlikeL, Rule.AllL] at ha hp
    obtain ⟨q, qs, rfl, h1, h2⟩ := ha
    exact ⟨alike_all hI h1 hp.1, alikeL_all hI h2 hp.2⟩
end

/-- Rules whose tags and conditions hold for the same nodes find the same nodes in the same document. -/
theorem search_own {I : RuleInfo → RuleInfo → Prop} (ho : ∀ i i', I i i' → i.optional = i'.optional ∧ i.greedy = i'.greedy)
    (hI : ∀ i i', I i i' → ∀ l, l.Stored h n → ownVal rx h i l = ownVal rx h i' l) {r r' : Rule} (hr : r.Alike I r')
    (hl : l.Stored h n) :
    All2 (All2 (Pair2 (PRel I) (Same (Loc.Stored h n)))) (searchAt rx h r l).val (searchAt rx h r' l).val ∧
    (searchAt rx h r l).cost = (searchAt rx h r' l).cost := by
  have hrules : GoodRules (· = ·) (fun _ => False) (Loc.Stored h n) (Loc.Stored h n) (ownVal rx h) (ownVal rx h) I := by
    refine ⟨fun i i' hi => (ho i i' hi).1, fun i i' hi => (ho i i' hi).2, ?_, fun _ _ x _ hd => absurd hd (never x)⟩
    intro i i' l l' hi hll
    rw [← lrel_eq hll.1]
    exact hI i i' hi l hll.2.1
  have hc := chain_rel (stored_good h n) hrules r r' [] [] hr (.inl never)
  have := save_rel (stored_good h n) hc (same_sib fun x hx => (sibs_onward hl).stored hx)
  exact ⟨this.1, this.2.2 never⟩

theorem captured_rearranged {I : RuleInfo → RuleInfo → Prop} (hI : ∀ i i', I i i' → SameCaptures i.caps i'.caps) {Ok : Loc → Prop}
    {g g' : Pairs RulePtr Loc} (hg : All2 (Pair2 (PRel I) (Same Ok)) g g') {vs vs' : List (Str × Str)}
    (hv : Captured rx h (found g) vs) (hv' : Captured rx h (found g') vs') (name : Str) :
    vs.filter (·.1 = name) = vs'.filter (·.1 = name) := by
  induction hg generalizing vs vs' with
  | nil => cases hv; cases hv'; rfl
  | @cons p q g g' hpq _ ih =>
    cases hv with
    | cons k hv =>
      cases hv' with
      | cons k' hv' =>
        have hp : SameCaptures p.1.val.info.caps q.1.val.info.caps := hI _ _ hpq.1
        have hx : p.2 = q.2 := lrel_eq hpq.2.1
        have h1 := ruleCapture_restrict (fun x => decide (x = name)) _ _ _ k
        have h2 := ruleCapture_restrict (fun x => decide (x = name)) _ _ _ k'
        rw [hp name, hx, h2] at h1
        rw [List.filter_append, List.filter_append, ih hv hv', E.pure_inj h1]

theorem maps_rearranged {I : RuleInfo → RuleInfo → Prop} (hI : ∀ i i', I i i' → SameCaptures i.caps i'.caps) {Ok : Loc → Prop}
    {gs gs' : List (Pairs RulePtr Loc)} (hg : All2 (All2 (Pair2 (PRel I) (Same Ok))) gs gs') {ms ms' : List (List (Str × Str))}
    (hm : Maps rx h (gs.map found) ms) (hm' : Maps rx h (gs'.map found) ms') : ms = ms' := by
  induction hg generalizing ms ms' with
  | nil => cases hm; cases hm'; rfl
  | cons hp _ ih =>
    cases hm with
    | cons c i hm =>
      cases hm' with
      | cons c' i' hm' =>
        rw [ih hm hm']
        congr 1
        exact i.unique ⟨i'.1, fun name => by rw [i'.2 name, captured_rearranged hI hp c c' name]⟩

end

end Hext
