import Verif.Spec.Synonyms
import Verif.Proofs.ReorderHext
import Verif.Proofs.PrintAll
import Verif.Props.Conditions
set_option linter.unusedSimpArgs false
/-!
# Ways of writing the same conditions: proofs
-/

namespace Hext

open Param Props Syn

section
variable {rx : RxEngine} {h : Heap} {n : Nat} {l : Loc}

/-! ## Traits -/

theorem decides_eq {x y : E Bool} {p q : Prop} (hx : Decides x p) (hy : Decides y q) (h : p ↔ q) : x = y := by
  obtain ⟨a, rfl, ha⟩ := hx
  obtain ⟨b, rfl, hb⟩ := hy
  have : a = true ↔ b = true := ha.trans (h.trans hb.symm)
  cases a <;> cases b <;> simp_all

theorem trait_words {t : Trait} {m : Match} {f f' : Flags} (h : t.meaning rx f = some (m, f')) : m.WordsOk := by
  cases t <;> simp only [Trait.meaning, Option.bind_eq_bind, Option.bind_eq_some_iff, Option.some.injEq, Prod.mk.injEq] at h
  all_goals first
    | (obtain ⟨rfl, _⟩ := h; simp [Match.WordsOk])
    | (obtain ⟨_, _, rfl, _⟩ := h; simp [Match.WordsOk])

theorem children_meaning {t : Trait} {k : Int} (ht : t.children = some k) {m : Match} {f f' : Flags} (hm : t.meaning rx f = some (m, f')) :
    m = .childCount k.toNat := by
  cases t <;> simp only [Trait.children, Option.some.injEq, reduceCtorEq] at ht
  · subst ht; cases hm; rfl
  · simp [Trait.meaning, ht] at hm; exact hm.1.symm

theorem attributes_meaning {t : Trait} {k : Int} (ht : t.attributes = some k) {m : Match} {f f' : Flags} (hm : t.meaning rx f = some (m, f')) :
    m = .attributeCount k.toNat := by
  cases t <;> simp only [Trait.attributes, Option.some.injEq, reduceCtorEq] at ht
  simp [Trait.meaning, ht] at hm; exact hm.1.symm

theorem places_meaning {t : Trait} {p : Int × Int} {first ofType : Bool} (ht : t.places = some (p, first, ofType)) {m : Match} {f f' : Flags}
    (hm : t.meaning rx f = some (m, f')) : m = .nthChild p.1 p.2 first ofType := by
  cases t <;> simp only [Trait.places, Option.some.injEq, reduceCtorEq, Option.map_eq_some_iff, Prod.mk.injEq] at ht
  · obtain ⟨q, h1, rfl, rfl, rfl⟩ := ht
    simp [Trait.meaning, h1] at hm; exact hm.1.symm
  · obtain ⟨rfl, rfl, rfl⟩ := ht
    cases hm; rfl

/-! ## The same text in other quotes -/

theorem rx_plain (r : Rx) (f : Flags) : r.plain.meaning rx f = r.meaning rx f := by
  have : r.plain.flags f = r.flags f := by
    simp only [Rx.flags, Rx.plain]
    cases r.mods.contains true <;> cases r.mods.contains false <;> simp
  simp only [Rx.meaning, this]
  rfl

theorem test_plain (t : Test) (f : Flags) : t.plain.meaning rx f = t.meaning rx f := by
  cases t with
  | op o q => rfl
  | regex r => simp only [Test.plain, Test.meaning, rx_plain]

theorem pipe_plain (p : PipeS) (f : Flags) : p.plain.meaning rx f = p.meaning rx f := by
  cases p <;> first | rfl | simp only [PipeS.plain, PipeS.meaning, rx_plain] <;> rfl

theorem pipes_plain : ∀ (ps : List PipeS) (f : Flags), pipesMeaning rx f (ps.map PipeS.plain) = pipesMeaning rx f ps
  | [], _ => rfl
  | p :: ps, f => by
    simp only [List.map_cons, pipesMeaning, pipe_plain, pipes_plain ps]

theorem types_meaning {r r' : Rx} (h : r.plain = r'.plain) (f : Flags) : (Trait.typeMatches r).meaning rx f = (Trait.typeMatches r').meaning rx f := by
  simp only [Trait.meaning, ← rx_plain (rx := rx) r, ← rx_plain (rx := rx) r', h]

theorem types_mods {r r' : Rx} (h : r.plain = r'.plain) (h0 : r.mods = []) : r'.mods = [] := by
  have h1 : r'.plain.mods = [] := by rw [← h]; simp [Rx.plain, h0]
  simp only [Rx.plain, List.append_eq_nil_iff] at h1
  obtain ⟨k1, k2⟩ := h1
  cases hm : r'.mods with
  | nil => rfl
  | cons b bs =>
    cases b
    · simp [hm] at k2
    · simp [hm] at k1

theorem synonym_matches (hl : l.Stored h n) (hn : n ≤ 2147483647) {t t' : Trait} (ht : t.Synonym t') {m m' : Match} {f f' g g' : Flags}
    (hf : f = g) (hm : t.meaning rx f = some (m, f')) (hm' : t'.meaning rx g = some (m', g')) (hs : m.Safe n) (hs' : m'.Safe n) :
    m.matches rx h l.ptr = m'.matches rx h l.ptr := by
  subst hf
  cases ht with
  | same => rw [hm] at hm'; cases hm'; rfl
  | children h1 h2 => rw [children_meaning h1 hm, children_meaning h2 hm']
  | attributes h1 h2 => rw [attributes_meaning h1 hm, attributes_meaning h2 hm']
  | places h1 h2 h3 =>
    refine decides_eq (match_decides hl hn hs (trait_words hm)) (match_decides hl hn hs' (trait_words hm')) ?_
    rw [places_meaning h1 hm, places_meaning h2 hm']
    simp only [Match.Means, h3 _]
  | types h1 => rw [types_meaning h1, hm'] at hm; cases hm; rfl

theorem only_iff (hl : l.Stored h n) (hn : n ≤ 2147483647) (ofType : Bool) :
    (Match.onlyChild ofType).matches rx h l.ptr = pure true ↔
      (Match.nthChild 0 1 true ofType).matches rx h l.ptr = pure true ∧ (Match.nthChild 0 1 false ofType).matches rx h l.ptr = pure true := by
  by_cases hin : l.inElem = true
  · exact only_child_iff hl hn hin ofType
  · have hsafe : NthSafe n 0 1 := by simp only [NthSafe, intMin, intMax]; omega
    rw [(match_decides (rx := rx) (m := .onlyChild ofType) hl hn (by simp [Match.Safe]) (by simp [Match.WordsOk])).true_iff,
      (match_decides (rx := rx) (m := .nthChild 0 1 true ofType) hl hn (by simpa [Match.Safe] using hsafe) (by simp [Match.WordsOk])).true_iff]
    simp [Match.Means, OnStep, Loc.position, hin]

/-! ## Conditions -/

/-- The demand is met. -/
def Met (rx : RxEngine) (h : Heap) (l : Loc) (d : Bool × Trait) : Prop :=
  ∃ m, d.2.meaning rx {} = some (m, {}) ∧ m.matches rx h l.ptr = pure d.1

/-- The trait of the demand means something safe. -/
def Fine (rx : RxEngine) (n : Nat) (d : Bool × Trait) : Prop := ∃ m, d.2.meaning rx {} = some (m, {}) ∧ m.Safe n

theorem met_eq {d : Bool × Trait} {m : Match} (hm : d.2.meaning rx {} = some (m, {})) : Met rx h l d ↔ m.matches rx h l.ptr = pure d.1 := by
  constructor
  · rintro ⟨m', h1, h2⟩; rw [hm] at h1; cases h1; exact h2
  · exact fun h => ⟨m, hm, h⟩

theorem met_synonym (hl : l.Stored h n) (hn : n ≤ 2147483647) {d d' : Bool × Trait} (hd : d.1 = d'.1 ∧ d.2.Synonym d'.2) (hf : Fine rx n d)
    (hf' : Fine rx n d') : Met rx h l d ↔ Met rx h l d' := by
  obtain ⟨m, h1, h2⟩ := hf
  obtain ⟨m', h1', h2'⟩ := hf'
  rw [met_eq h1, met_eq h1', synonym_matches hl hn hd.2 rfl h1 h1' h2 h2', hd.1]

theorem safeL_mem {ms : List (Option Match)} (hs : Match.SafeL n ms) {m : Match} (hm : some m ∈ ms) : m.Safe n := safeL_iff.1 hs m hm

theorem cond_fine {c : Cond} (hc : c.NoOptions) {m : Match} (hm : c.meaning rx {} = some (m, {})) (hs : m.Safe n) (hn : n ≤ 2147483647) :
    ∀ d ∈ c.demands, Fine rx n d := by
  have hsafe : NthSafe n 0 1 := by simp only [NthSafe, intMin, intMax]; omega
  cases c with
  | trait t =>
    by_cases ho : ∃ o, t = .only o
    · obtain ⟨o, rfl⟩ := ho
      simp only [Cond.demands, List.mem_cons, List.not_mem_nil, or_false]
      rintro d (rfl | rfl) <;> exact ⟨_, rfl, by simpa [Match.Safe] using hsafe⟩
    · have : Cond.demands (.trait t) = [(true, t)] := by
        cases t <;> first | rfl | exact absurd ⟨_, rfl⟩ ho
      rw [this]
      simp only [List.mem_singleton, forall_eq]
      exact ⟨m, hm, hs⟩
  | not ts =>
    simp only [Cond.meaning, Option.bind_eq_bind, Option.bind_eq_some_iff, Option.some.injEq, Prod.mk.injEq] at hm
    obtain ⟨⟨ms, g⟩, h1, rfl, rfl⟩ := hm
    obtain ⟨_, k1⟩ := traits_lists hc h1
    simp only [Cond.demands, List.mem_map]
    rintro d ⟨t, ht, rfl⟩
    obtain ⟨m, hm, he⟩ := k1.1 t ht
    simp only [Match.Safe] at hs
    exact ⟨m, he, safeL_mem hs (by simp [hm])⟩

theorem cond_met (hl : l.Stored h n) (hn : n ≤ 2147483647) {c : Cond} (hc : c.NoOptions) {m : Match} (hm : c.meaning rx {} = some (m, {}))
    (hs : m.Safe n) : m.matches rx h l.ptr = pure true ↔ ∀ d ∈ c.demands, Met rx h l d := by
  cases c with
  | trait t =>
    by_cases ho : ∃ o, t = .only o
    · obtain ⟨o, rfl⟩ := ho
      cases hm
      simp only [Cond.demands, List.mem_cons, List.not_mem_nil, or_false, forall_eq_or_imp, forall_eq]
      rw [met_eq (m := .nthChild 0 1 true o) rfl, met_eq (m := .nthChild 0 1 false o) rfl]
      exact only_iff hl hn o
    · have : Cond.demands (.trait t) = [(true, t)] := by
        cases t <;> first | rfl | exact absurd ⟨_, rfl⟩ ho
      rw [this]
      simp only [List.mem_singleton, forall_eq]
      rw [met_eq (show t.meaning rx {} = some (m, {}) from hm)]
  | not ts =>
    simp only [Cond.meaning, Option.bind_eq_bind, Option.bind_eq_some_iff, Option.some.injEq, Prod.mk.injEq] at hm
    obtain ⟨⟨ms, g⟩, h1, rfl, rfl⟩ := hm
    obtain ⟨_, k1⟩ := traits_lists hc h1
    simp only [Match.Safe] at hs
    rw [Match.matches, negateLoop_true hl hn _ hs]
    simp only [Cond.demands, List.mem_map, forall_exists_index, and_imp, forall_apply_eq_imp_iff₂]
    constructor
    · intro k t ht
      obtain ⟨m, hm, he⟩ := k1.1 t ht
      obtain ⟨b, hb⟩ := m.matches_total rx hl hn (safeL_mem hs (show some m ∈ ms.map some by simp [hm]))
      refine ⟨m, he, ?_⟩
      cases b with
      | false => exact hb
      | true => exact absurd ⟨m, by simp [hm], hb⟩ k
    · rintro k ⟨m, hm, hb⟩
      simp only [Option.some.injEq, exists_eq_right] at hm
      obtain ⟨t, ht, he⟩ := k1.2 m hm
      have := (met_eq (d := (false, t)) he).1 (k t ht)
      rw [hb] at this
      exact pure_tf this.symm

/-! ## Patterns -/

/-- Everything that the pattern adds holds. -/
def PMet (rx : RxEngine) (h : Heap) (l : Loc) (p : Pat) : Prop := ∀ m ∈ (patVal rx p).1, m.matches rx h l.ptr = pure true

theorem wordsOf_eq (s : Str) : mkContainsWords s = .containsWords (wordsOf s) := by
  rw [Print.mkContainsWords_eq, show Print.sp = (· == 32) from funext fun b => by rw [Bool.eq_iff_iff]; simp [Print.sp]]
  rfl

theorem wordsOf_ne (s : Str) : wordsOf s ≠ [] := by
  unfold wordsOf
  split
  · simp
  · assumption

theorem wordsOf_word {s w : Str} (hw : w ∈ wordsOf s) : wordsOf w = [w] := by
  unfold wordsOf at hw
  split at hw
  · rw [List.mem_singleton.1 hw]; rfl
  · have := wordsBy_word_append (· == 32) w [] (wordsBy_isWord (· == 32) s w hw) (.inl rfl)
    rw [List.append_nil] at this
    unfold wordsOf
    rw [this]; simp [Spec.wordsBy]

theorem attr_met (hl : l.Stored h n) (hn : n ≤ 2147483647) (a : Str) (t : ValueTest) (hw : t.WordsOk) :
    (Match.attribute a (some t)).matches rx h l.ptr = pure true ↔ (Match.attribute a (some t)).Means rx h l :=
  (match_decides hl hn (by simp [Match.Safe]) (by simpa [Match.WordsOk] using hw)).true_iff

theorem has_met (hl : l.Stored h n) (hn : n ≤ 2147483647) (a : Str) :
    (Match.attribute a none).matches rx h l.ptr = pure true ↔ (Match.attribute a none).Means rx h l :=
  (match_decides hl hn (by simp [Match.Safe]) (by simp [Match.WordsOk])).true_iff

theorem fn_met (hl : l.Stored h n) (hn : n ≤ 2147483647) (f : CaptureFn) (t : ValueTest) (hw : t.WordsOk) :
    (Match.functionValue (some f) (some t)).matches rx h l.ptr = pure true ↔ (Match.functionValue (some f) (some t)).Means rx h l :=
  (match_decides hl hn (by simp [Match.Safe]) (by simpa [Match.WordsOk] using hw)).true_iff

theorem test_words {t : Test} {f : Flags} {x : ValueTest} (hx : t.meaning rx f = some x) : x.WordsOk := by
  cases t with
  | op o q => cases o <;> (cases hx; first | exact mkContainsWords_ok _ | trivial)
  | regex r =>
    simp only [Test.meaning, Option.bind_eq_bind, Option.bind_eq_some_iff, Option.some.injEq] at hx
    obtain ⟨_, _, rfl⟩ := hx
    trivial

/-- A test that is not negated, on an attribute, demands that the attribute is there. -/
theorem test_has (hl : l.Stored h n) (hn : n ≤ 2147483647) {a : Str} {t : Test} {f : Flags} {x : ValueTest} (hx : t.meaning rx f = some x)
    (hm : (Match.attribute a (some x)).matches rx h l.ptr = pure true) : (Match.attribute a none).matches rx h l.ptr = pure true := by
  have hw : x.WordsOk := test_words hx
  have hnone : ¬ x.Accepts rx none := by
    cases t with
    | op o q => cases o <;> (cases hx; simp [Op.meaning, wordsOf_eq, ValueTest.Accepts])
    | regex r =>
      simp only [Test.meaning, Option.bind_eq_bind, Option.bind_eq_some_iff, Option.some.injEq] at hx
      obtain ⟨_, _, rfl⟩ := hx
      simp [ValueTest.Accepts]
  rw [has_met hl hn]
  rw [attr_met hl hn a x hw] at hm
  simp only [Match.Means] at hm ⊢
  obtain ⟨e, he, ⟨_, h1⟩ | ⟨b, v, h1, _⟩⟩ := hm
  · exact absurd h1 hnone
  · exact ⟨e, b, he, h1⟩

theorem words_accepts {s : Str} {v : Option Str} : (mkContainsWords s).Accepts rx v ↔ ∀ w ∈ wordsOf s, (mkContainsWords w).Accepts rx v := by
  rw [wordsOf_eq]
  simp only [ValueTest.Accepts]
  constructor
  · rintro ⟨_, v, rfl, k⟩ w hw
    rw [wordsOf_eq, wordsOf_word hw]
    exact ⟨by simp, v, rfl, by simpa using k w hw⟩
  · intro k
    refine ⟨wordsOf_ne s, ?_⟩
    have k' : ∀ w ∈ wordsOf s, ∃ u, v = some u ∧ w ≠ [] ∧ Spec.OccursAsWord w u := by
      intro w hw
      have := k w hw
      rw [wordsOf_eq, wordsOf_word hw] at this
      obtain ⟨_, u, e, hu⟩ := this
      exact ⟨u, e, hu w (by simp)⟩
    cases hs : wordsOf s with
    | nil => exact absurd hs (wordsOf_ne s)
    | cons w ws =>
      obtain ⟨u, rfl, _⟩ := k' w (by simp [hs])
      refine ⟨u, rfl, fun w' hw' => ?_⟩
      obtain ⟨u', e, hu'⟩ := k' w' (by rw [hs]; exact hw')
      cases e
      exact hu'

theorem words_met_attr (hl : l.Stored h n) (hn : n ≤ 2147483647) (a : Str) (s : Str) :
    (Match.attribute a (some (mkContainsWords s))).matches rx h l.ptr = pure true ↔
      ∀ w ∈ wordsOf s, (Match.attribute a (some (mkContainsWords w))).matches rx h l.ptr = pure true := by
  have hset : ∀ s, (mkContainsWords s).WordsOk := mkContainsWords_ok
  have hnone : ∀ s, ¬ (mkContainsWords s).Accepts rx none := fun s => by simp [wordsOf_eq, ValueTest.Accepts]
  rw [attr_met hl hn a _ (hset _)]
  constructor
  · intro k w hw
    rw [attr_met hl hn a _ (hset _)]
    simp only [Match.Means] at k ⊢
    obtain ⟨e, he, ⟨_, h1⟩ | ⟨b, v, h1, h2, h3⟩⟩ := k
    · exact absurd h1 (hnone _)
    · exact ⟨e, he, .inr ⟨b, v, h1, h2, words_accepts.1 h3 w hw⟩⟩
  · intro k
    have k' : ∀ w ∈ wordsOf s, (Match.attribute a (some (mkContainsWords w))).Means rx h l :=
      fun w hw => (attr_met hl hn a _ (hset _)).1 (k w hw)
    cases hs : wordsOf s with
    | nil => exact absurd hs (wordsOf_ne s)
    | cons w ws =>
      have k0 := k' w (by simp [hs])
      simp only [Match.Means] at k0 ⊢
      obtain ⟨e, he, ⟨_, h1⟩ | ⟨b, v, h1, h2, h3⟩⟩ := k0
      · exact absurd h1 (hnone _)
      · refine ⟨e, he, .inr ⟨b, v, h1, h2, words_accepts.2 fun w' hw' => ?_⟩⟩
        have k1 := k' w' hw'
        simp only [Match.Means] at k1
        obtain ⟨e', he', ⟨_, g1⟩ | ⟨b', v', g1, g2, g3⟩⟩ := k1
        · exact absurd g1 (hnone _)
        · rw [he] at he'; cases he'
          have e := (isAttr_iff.1 h1).symm.trans (isAttr_iff.1 g1)
          cases e
          rw [h2] at g2; cases g2
          exact g3

theorem words_met_fn (hl : l.Stored h n) (hn : n ≤ 2147483647) (f : CaptureFn) (s : Str) :
    (Match.functionValue (some f) (some (mkContainsWords s))).matches rx h l.ptr = pure true ↔
      ∀ w ∈ wordsOf s, (Match.functionValue (some f) (some (mkContainsWords w))).matches rx h l.ptr = pure true := by
  simp only [fn_met hl hn f _ (mkContainsWords_ok _), Match.Means, Option.some.injEq, exists_and_left, exists_eq_left']
  exact words_accepts

theorem demand_met (hl : l.Stored h n) (hn : n ≤ 2147483647) {p : Pat} {y : List Match × List Capture} (hy : p.meaning rx {} = some y) :
    PMet rx h l p ↔ ∀ q ∈ p.demands, PMet rx h l q := by
  have hv : (patVal rx p).1 = y.1 := by simp [patVal, hy]
  cases p with
  | capFn fn ps nm =>
    simp only [Pat.meaning, Option.bind_eq_bind, Option.bind_eq_some_iff, Option.some.injEq] at hy
    obtain ⟨_, _, rfl⟩ := hy
    simp [PMet, hv, Pat.demands]
  | capAttr a ps nm o =>
    simp only [Pat.meaning, Option.bind_eq_bind, Option.bind_eq_some_iff, Option.some.injEq] at hy
    obtain ⟨_, _, rfl⟩ := hy
    unfold PMet
    rw [hv]
    cases o <;> simp [Pat.demands, patVal, Pat.meaning]
  | hasAttr a neg => simp [Pat.demands]
  | testFn fn t neg =>
    have hplain : PMet rx h l (.testFn fn t neg) ↔ ∀ q ∈ [Pat.testFn fn t.plain neg], PMet rx h l q := by
      simp [PMet, patVal, Pat.meaning, test_plain]
    cases neg with
    | true => simpa [Pat.demands] using hplain
    | false =>
      cases t with
      | regex r => simpa [Pat.demands] using hplain
      | op o q =>
        cases o with
        | words => simpa [PMet, patVal, Pat.meaning, Test.meaning, Op.meaning, negated, Pat.demands] using words_met_fn hl hn fn.meaning q.body
        | _ => simpa [Pat.demands] using hplain
  | testAttr a t neg =>
    simp only [Pat.meaning, Option.bind_eq_bind, Option.bind_eq_some_iff, Option.some.injEq] at hy
    obtain ⟨x, hx, rfl⟩ := hy
    cases neg with
    | true => simp [PMet, patVal, Pat.meaning, test_plain, Pat.demands]
    | false =>
      have hhas := test_has (a := a) hl hn hx
      have hplain : PMet rx h l (.testAttr a t false) ↔ ∀ q ∈ [Pat.hasAttr a false, Pat.testAttr a t.plain false], PMet rx h l q := by
        simp [PMet, patVal, Pat.meaning, test_plain, hx, negated]
        exact hhas
      cases t with
      | regex r => simpa [Pat.demands] using hplain
      | op o q =>
        cases o with
        | words =>
          cases hx
          have := words_met_attr (rx := rx) hl hn a q.body
          simp only [PMet, patVal, Pat.meaning, Test.meaning, Op.meaning, negated, Pat.demands] at hhas ⊢
          simp
          rw [← this]
          exact ⟨fun k => ⟨hhas k, k⟩, fun k => k.2⟩
        | _ => simpa [Pat.demands] using hplain

theorem pat_synonym {p p' : Pat} (hp : p.Synonym p') : PMet rx h l p ↔ PMet rx h l p' := by
  have key : ∀ {q q' : Quoted}, SameMembers (wordsOf q.body) (wordsOf q'.body) →
      (ValueTest.negate (mkContainsWords q.body)).test rx = (ValueTest.negate (mkContainsWords q'.body)).test rx := by
    intro q q' hs
    funext v
    simp only [wordsOf_eq, ValueTest.test]
    cases v with
    | none => rfl
    | some v =>
      have e1 : (wordsOf q.body).isEmpty = false := by simpa using wordsOf_ne q.body
      have e2 : (wordsOf q'.body).isEmpty = false := by simpa using wordsOf_ne q'.body
      have e3 : (wordsOf q.body).all (containsWord v ·) = (wordsOf q'.body).all (containsWord v ·) := by
        rw [Bool.eq_iff_iff]
        simp only [List.all_eq_true]
        exact ⟨fun k w hw => k w ((hs w).2 hw), fun k w hw => k w ((hs w).1 hw)⟩
      simp only [ValueTest.test, e1, e2, e3]
  cases hp with
  | same => rfl
  | notWordsAttr a hs =>
    simp [PMet, patVal, Pat.meaning, Test.meaning, Op.meaning, negated, Match.matches, attributeMatches, key hs]
  | notWordsFn f hs =>
    simp [PMet, patVal, Pat.meaning, Test.meaning, Op.meaning, negated, Match.matches, key hs]

theorem capture_val {p : Pat} {y : List Match × List Capture} (hy : p.meaning rx {} = some y) :
    y.2 = match p.capture with
      | none => []
      | some q => (patVal rx q).2 := by
  cases p with
  | capFn fn ps nm =>
    simp only [Pat.meaning, Option.bind_eq_bind, Option.bind_eq_some_iff, Option.some.injEq] at hy
    obtain ⟨x, h1, rfl⟩ := hy
    simp [Pat.capture, patVal, Pat.meaning, pipes_plain, h1, CapName.unquoted, CapName.meaning]
  | capAttr a ps nm o =>
    simp only [Pat.meaning, Option.bind_eq_bind, Option.bind_eq_some_iff, Option.some.injEq] at hy
    obtain ⟨x, h1, rfl⟩ := hy
    simp [Pat.capture, patVal, Pat.meaning, pipes_plain, h1, CapName.unquoted, CapName.meaning]
  | testFn fn t neg =>
    simp only [Pat.meaning, Option.bind_eq_bind, Option.bind_eq_some_iff, Option.some.injEq] at hy
    obtain ⟨_, _, rfl⟩ := hy; rfl
  | testAttr fn t neg =>
    simp only [Pat.meaning, Option.bind_eq_bind, Option.bind_eq_some_iff, Option.some.injEq] at hy
    obtain ⟨_, _, rfl⟩ := hy; rfl
  | hasAttr a neg => cases hy; rfl

theorem demands_met (hl : l.Stored h n) (hn : n ≤ 2147483647) {ps : List Pat} (hp : ∀ p ∈ ps, ∃ y, p.meaning rx {} = some y) :
    (∀ p ∈ ps, PMet rx h l p) ↔ ∀ q ∈ ps.flatMap Pat.demands, PMet rx h l q := by
  simp only [List.mem_flatMap]
  constructor
  · rintro k q ⟨p, h1, h2⟩
    obtain ⟨y, hy⟩ := hp p h1
    exact (demand_met hl hn hy).1 (k p h1) q h2
  · intro k p h1
    obtain ⟨y, hy⟩ := hp p h1
    exact (demand_met hl hn hy).2 fun q hq => k q ⟨p, h1, hq⟩

theorem captures_val {ps : List Pat} (hp : ∀ p ∈ ps, ∃ y, p.meaning rx {} = some y) :
    ps.flatMap (fun p => (patVal rx p).2) = (ps.filterMap Pat.capture).flatMap fun p => (patVal rx p).2 := by
  induction ps with
  | nil => rfl
  | cons p ps ih =>
    obtain ⟨y, hy⟩ := hp p (by simp)
    have h1 := capture_val hy
    have h2 : (patVal rx p).2 = y.2 := by simp [patVal, hy]
    rw [List.flatMap_cons, ih (fun q hq => hp q (by simp [hq])), h2, h1, List.filterMap_cons]
    cases p.capture <;> simp

/-! ## Tags -/

/-- The rules look for the same. -/
structure SameSense (rx : RxEngine) (i i' : RuleInfo) : Prop where
  tag : i.tag = i'.tag
  tagname : i.tagname = i'.tagname
  optional : i.optional = i'.optional
  greedy : i.greedy = i'.greedy
  captures : SameCaptures i.caps i'.caps
  conditions : ∀ {h : Heap} {n : Nat} {l : Loc}, n ≤ 2147483647 → l.Stored h n → i.Safe n → i'.Safe n →
    ((∀ m, some m ∈ i.ms → m.matches rx h l.ptr = pure true) ↔ ∀ m, some m ∈ i'.ms → m.matches rx h l.ptr = pure true)

theorem sense_closes {i i' : RuleInfo} (h : SameSense rx i i') {t : Str} (hc : Closes i t) : Closes i' t := by
  unfold Closes at *
  rw [← h.tag, ← h.tagname]
  exact hc

theorem sense_refl (i : RuleInfo) : SameSense rx i i := ⟨rfl, rfl, rfl, rfl, fun _ => rfl, fun _ _ _ _ => .rfl⟩

theorem sense_own {i i' : RuleInfo} (hl : l.Stored h n) (hn : n ≤ 2147483647) (hi : SameSense rx i i') (hs : i.Safe n) (hs' : i'.Safe n) :
    ownVal rx h i l = ownVal rx h i' l := by
  have hms : allMatch rx h l.ptr i.ms = allMatch rx h l.ptr i'.ms := by
    refine eq_of_true (allMatch_total rx hl hn _ hs.1) (allMatch_total rx hl hn _ hs'.1) ?_
    rw [allMatch_true hl hn _ hs.1, allMatch_true hl hn _ hs'.1]
    exact hi.conditions hn hl hs hs'
  have ht : ∀ k, tagAgrees i' k = tagAgrees i k := fun k => by unfold tagAgrees; rw [hi.tag, hi.tagname]
  unfold ownVal ruleMatches
  simp only [hms, ht]

theorem head_fine {h : Head} (ho : ∀ c ∈ h.conds, c.NoOptions) {info : RuleInfo} {f : Flags} (hm : h.meaning rx {} = some (info, f)) :
    f = {} ∧ ∃ ms, Lists (fun c m => c.meaning rx {} = some (m, {})) h.conds ms ∧
      (∀ p ∈ h.pats.map (·.2), ∃ y, p.meaning rx {} = some y) ∧
      info = { tag := (tagMeaning h.tag).1, tagname := (tagMeaning h.tag).2, optional := h.options.contains true,
               greedy := h.options.contains false, ms := (ms ++ (h.pats.map (·.2)).flatMap (fun p => (patVal rx p).1)).map some,
               caps := (h.captures.flatMap fun p => (patVal rx p).2).map some } := by
  simp only [Head.meaning, Option.bind_eq_bind, Option.bind_eq_some_iff, Option.some.injEq, Prod.mk.injEq] at hm
  obtain ⟨⟨ms, g⟩, h1, y, h2, hi, rfl⟩ := hm
  obtain ⟨e, k1⟩ := conds_lists ho h1
  simp only at e
  subst e
  obtain ⟨k2, rfl⟩ := pats_val.1 h2
  refine ⟨rfl, ms, k1, k2, ?_⟩
  rw [← hi]
  have e2 : h.captures = (h.pats.map (·.2)).filterMap Pat.capture := by simp [Head.captures, List.filterMap_map, Function.comp_def]
  simp only [e2, ← captures_val k2]

theorem head_conditions {hd : Head} {ms : List Match} (hl : l.Stored h n) (hn : n ≤ 2147483647) (ho : ∀ c ∈ hd.conds, c.NoOptions)
    (hc : Lists (fun c m => c.meaning rx {} = some (m, {})) hd.conds ms) (hs : ∀ m ∈ ms, m.Safe n) :
    ((∀ m ∈ ms, m.matches rx h l.ptr = pure true) ↔ ∀ d ∈ hd.conds.flatMap Cond.demands, Met rx h l d) ∧
    ∀ d ∈ hd.conds.flatMap Cond.demands, Fine rx n d := by
  refine ⟨⟨fun k d hd => ?_, fun k m hm => ?_⟩, fun d hd => ?_⟩
  · obtain ⟨c, h1, h2⟩ := List.mem_flatMap.1 hd
    obtain ⟨m, hm, he⟩ := hc.1 c h1
    exact (cond_met hl hn (ho c h1) he (hs m hm)).1 (k m hm) d h2
  · obtain ⟨c, h1, he⟩ := hc.2 m hm
    exact (cond_met hl hn (ho c h1) he (hs m hm)).2 fun d hd => k d (List.mem_flatMap.2 ⟨c, h1, hd⟩)
  · obtain ⟨c, h1, h2⟩ := List.mem_flatMap.1 hd
    obtain ⟨m, hm, he⟩ := hc.1 c h1
    exact cond_fine (ho c h1) he (hs m hm) hn d h2

theorem head_synonym {hd hd' : Head} (hr : hd.Synonym hd') (ho : ∀ c ∈ hd.conds, c.NoOptions) (ho' : ∀ c ∈ hd'.conds, c.NoOptions)
    {info info' : RuleInfo} {f f' : Flags} (hm : hd.meaning rx {} = some (info, f)) (hm' : hd'.meaning rx {} = some (info', f')) :
    SameSense rx info info' := by
  obtain ⟨_, ms, k1, k2, rfl⟩ := head_fine ho hm
  obtain ⟨_, ms', k1', k2', rfl⟩ := head_fine ho' hm'
  refine ⟨by simp [hr.tag], by simp [hr.tag], ?_, ?_, ?_, ?_⟩
  · have := hr.options true
    rw [Bool.eq_iff_iff]; simp [this]
  · have := hr.options false
    rw [Bool.eq_iff_iff]; simp [this]
  · intro name
    have hcap : ∀ cs : List Capture, capturesInto (· = name) (cs.map some) = cs.filter (·.resultName = name) := fun cs => by
      simp [capturesInto, List.filterMap_map]
    simp only [hcap, pats_captures, hr.captures name]
  · intro h n l hn hl hs hs'
    have a1 : ∀ m ∈ ms, m.Safe n := fun m hm => safeL_mem hs.1 (by simp [hm])
    have a1' : ∀ m ∈ ms', m.Safe n := fun m hm => safeL_mem hs'.1 (by simp [hm])
    obtain ⟨b1, b2⟩ := head_conditions hl hn ho k1 a1
    obtain ⟨b1', b2'⟩ := head_conditions hl hn ho' k1' a1'
    have c1 : (∀ d ∈ hd.conds.flatMap Cond.demands, Met rx h l d) ↔ ∀ d ∈ hd'.conds.flatMap Cond.demands, Met rx h l d := by
      constructor
      · intro k d' hd'
        obtain ⟨d, e1, e2⟩ := hr.conds.2 d' hd'
        exact (met_synonym hl hn e2 (b2 d e1) (b2' d' hd')).1 (k d e1)
      · intro k d hd1
        obtain ⟨d', e1, e2⟩ := hr.conds.1 d hd1
        exact (met_synonym hl hn e2 (b2 d hd1) (b2' d' e1)).2 (k d' e1)
    have c2 : (∀ p ∈ hd.pats.map (·.2), PMet rx h l p) ↔ ∀ p ∈ hd'.pats.map (·.2), PMet rx h l p := by
      have e : ∀ hd : Head, (hd.pats.map (·.2)).flatMap Pat.demands = hd.patDemands := fun hd => by
        simp [Head.patDemands, List.flatMap_map]
      rw [demands_met hl hn k2, demands_met hl hn k2', e, e]
      constructor
      · intro k p' hp'
        obtain ⟨p, e1, e2⟩ := hr.pats.2 p' hp'
        exact (pat_synonym e2).1 (k p e1)
      · intro k p hp
        obtain ⟨p', e1, e2⟩ := hr.pats.1 p hp
        exact (pat_synonym e2).2 (k p' e1)
    have c3 : ∀ ps : List Pat, (∀ m, m ∈ ps.flatMap (fun p => (patVal rx p).1) → m.matches rx h l.ptr = pure true) ↔ ∀ p ∈ ps, PMet rx h l p := by
      intro ps
      simp only [List.mem_flatMap, PMet]
      exact ⟨fun k p hp m hm => k m ⟨p, hp, hm⟩, fun k m ⟨p, hp, hm⟩ => k p hp m hm⟩
    simp only [List.mem_map, Option.some.injEq, exists_eq_right, List.mem_append, or_imp, forall_and]
    simp only [List.mem_map] at c2 c3
    rw [b1, b1', c1, c3, c3]
    simp only [List.mem_map]
    rw [c2]

/-! ## If one is accepted, then so is the other -/

theorem synonym_some {t t' : Trait} (ht : t.Synonym t') (ho : t.NoOptions) (hm : ∃ m, t.meaning rx {} = some (m, {})) :
    t'.NoOptions ∧ ∃ m, t'.meaning rx {} = some (m, {}) := by
  cases ht with
  | same => exact ⟨ho, hm⟩
  | children h1 h2 =>
    cases t' <;> simp only [Trait.children, Option.some.injEq, reduceCtorEq] at h2
    · exact ⟨trivial, _, rfl⟩
    · exact ⟨trivial, _, by simp [Trait.meaning, h2]; rfl⟩
  | attributes h1 h2 =>
    cases t' <;> simp only [Trait.attributes, Option.some.injEq, reduceCtorEq] at h2
    exact ⟨trivial, _, by simp [Trait.meaning, h2]; rfl⟩
  | places h1 h2 h3 =>
    cases t' <;> simp only [Trait.places, Option.some.injEq, reduceCtorEq, Option.map_eq_some_iff, Prod.mk.injEq] at h2
    · obtain ⟨q, h4, _⟩ := h2
      exact ⟨trivial, _, by simp [Trait.meaning, h4]; rfl⟩
    · exact ⟨trivial, _, rfl⟩
  | types h1 => exact ⟨types_mods h1 ho, by rw [← types_meaning h1]; exact hm⟩

theorem cond_some {c : Cond} : c.NoOptions ∧ (∃ m, c.meaning rx {} = some (m, {})) ↔
    ∀ d ∈ c.demands, d.2.NoOptions ∧ ∃ m, d.2.meaning rx {} = some (m, {}) := by
  cases c with
  | trait t =>
    by_cases ho : ∃ o, t = .only o
    · obtain ⟨o, rfl⟩ := ho
      simp [Cond.demands, Cond.NoOptions, Trait.NoOptions, Cond.meaning, Trait.meaning]
    · have : Cond.demands (.trait t) = [(true, t)] := by
        cases t <;> first | rfl | exact absurd ⟨_, rfl⟩ ho
      rw [this]
      simp [Cond.NoOptions, Cond.meaning]
  | not ts =>
    simp only [Cond.demands, List.mem_map, forall_exists_index, and_imp, forall_apply_eq_imp_iff₂]
    constructor
    · rintro ⟨ho, m, hm⟩ t ht
      simp only [Cond.meaning, Option.bind_eq_bind, Option.bind_eq_some_iff, Option.some.injEq, Prod.mk.injEq] at hm
      obtain ⟨⟨ms, g⟩, h1, rfl, rfl⟩ := hm
      obtain ⟨_, k1⟩ := traits_lists ho h1
      obtain ⟨m, _, he⟩ := k1.1 t ht
      exact ⟨ho t ht, m, he⟩
    · intro k
      obtain ⟨ms, h1⟩ := traits_some (rx := rx) (ts := ts) fun t ht => (k t ht).2
      exact ⟨fun t ht => (k t ht).1, _, by simp [Cond.meaning, h1]; rfl⟩

theorem pat_some {p : Pat} : (∃ y, p.meaning rx {} = some y) ↔
    (∀ q ∈ p.demands, ∃ y, q.meaning rx {} = some y) ∧ ∀ q, p.capture = some q → ∃ y, q.meaning rx {} = some y := by
  have hb : ∀ {α β : Type} (x : Option α) (g : α → β), (x.bind fun a => some (g a)).isSome = x.isSome := by
    intro α β x g
    cases x <;> rfl
  have ht : ∀ t : Test, (t.plain.meaning rx {}).isSome = (t.meaning rx {}).isSome := fun t => by rw [test_plain]
  simp only [← Option.isSome_iff_exists]
  cases p with
  | capAttr a ps nm o =>
    cases o <;> simp [Pat.demands, Pat.capture, Pat.meaning, hb, pipes_plain]
  | capFn f ps nm => simp [Pat.demands, Pat.capture, Pat.meaning, hb, pipes_plain]
  | hasAttr a neg => simp [Pat.demands, Pat.capture, Pat.meaning]
  | testFn f t neg =>
    cases neg <;> cases t with
    | regex r => simp [Pat.demands, Pat.capture, Pat.meaning, hb, ht]
    | op o q => cases o <;> simp [Pat.demands, Pat.capture, Pat.meaning, hb, Test.plain, Test.meaning]
  | testAttr f t neg =>
    cases neg <;> cases t with
    | regex r => simp [Pat.demands, Pat.capture, Pat.meaning, hb, ht]
    | op o q => cases o <;> simp [Pat.demands, Pat.capture, Pat.meaning, hb, Test.plain, Test.meaning]

theorem pat_synonym_some {p p' : Pat} (hp : p.Synonym p') (h : ∃ y, p.meaning rx {} = some y) : ∃ y, p'.meaning rx {} = some y := by
  cases hp with
  | same => exact h
  | notWordsAttr a hs => exact ⟨_, rfl⟩
  | notWordsFn a hs => exact ⟨_, rfl⟩

theorem capture_named {p q : Pat} (h : p.capture = some q) : ∃ name, q.captureName = some name := by
  cases p <;> simp only [Pat.capture, reduceCtorEq, Option.some.injEq] at h <;> subst h <;> exact ⟨_, rfl⟩

theorem head_some {hd hd' : Head} (hr : hd.Synonym hd') (ho : ∀ c ∈ hd.conds, c.NoOptions) {info : RuleInfo} {f : Flags}
    (hm : hd.meaning rx {} = some (info, f)) :
    f = {} ∧ (∀ c ∈ hd'.conds, c.NoOptions) ∧ ∃ info', hd'.meaning rx {} = some (info', {}) := by
  obtain ⟨rfl, ms, k1, k2, _⟩ := head_fine ho hm
  have hd1 : ∀ d ∈ hd.conds.flatMap Cond.demands, d.2.NoOptions ∧ ∃ m, d.2.meaning rx {} = some (m, {}) := by
    intro d h1
    obtain ⟨c, h2, h3⟩ := List.mem_flatMap.1 h1
    obtain ⟨m, _, he⟩ := k1.1 c h2
    exact cond_some.1 ⟨ho c h2, m, he⟩ d h3
  have hc' : ∀ c ∈ hd'.conds, c.NoOptions ∧ ∃ m, c.meaning rx {} = some (m, {}) := by
    intro c hc
    refine cond_some.2 fun d' h1 => ?_
    obtain ⟨d, h2, _, h3⟩ := hr.conds.2 d' (List.mem_flatMap.2 ⟨c, hc, h1⟩)
    exact synonym_some h3 (hd1 d h2).1 (hd1 d h2).2
  obtain ⟨ms', h3⟩ := conds_some (rx := rx) (cs := hd'.conds) fun c h => (hc' c h).2
  have hp : ∀ p ∈ hd'.pats.map (·.2), ∃ y, p.meaning rx {} = some y := by
    intro p hp
    obtain ⟨x, hx, rfl⟩ := List.mem_map.1 hp
    refine pat_some.2 ⟨fun q hq => ?_, fun q hq => ?_⟩
    · obtain ⟨q', h1, hs⟩ := hr.pats.2 q (List.mem_flatMap.2 ⟨x, hx, hq⟩)
      obtain ⟨x', h2, h3⟩ := List.mem_flatMap.1 h1
      exact pat_synonym_some hs ((pat_some.1 (k2 x'.2 (List.mem_map.2 ⟨x', h2, rfl⟩))).1 q' h3)
    · obtain ⟨name, hname⟩ := capture_named hq
      have h1 : q ∈ hd'.captures.filter (·.captureName = some name) := by
        have h0 : q ∈ hd'.captures := List.mem_filterMap.2 ⟨x, hx, hq⟩
        simpa [hname] using h0
      rw [← hr.captures name] at h1
      obtain ⟨x', h2, h3⟩ := List.mem_filterMap.1 (List.mem_filter.1 h1).1
      exact (pat_some.1 (k2 x'.2 (List.mem_map.2 ⟨x', h2, rfl⟩))).2 q h3
  have h4 := (pats_val (rx := rx) (ps := hd'.pats)).2 ⟨hp, rfl⟩
  exact ⟨rfl, fun c h => (hc' c h).1, _, by simp [Head.meaning, h3, h4]; rfl⟩

/-! ## Hexts -/

theorem synonym_refl (hd : Head) : hd.Synonym hd :=
  ⟨rfl, fun _ => .rfl, ⟨fun d h => ⟨d, h, rfl, .same _⟩, fun d h => ⟨d, h, rfl, .same _⟩⟩, ⟨fun p h => ⟨p, h, .same _⟩, fun p h => ⟨p, h, .same _⟩⟩, fun _ => rfl⟩

theorem item_synonym {i i' : Item} (h : i.Synonym i') (ho : i.NoOptions) : ItemRel rx (SameSense rx) i i' := by
  have key : ∀ {hd hd' : Head}, hd.Synonym hd' → (∀ c ∈ hd.conds, c.NoOptions) → ∀ info f, hd.meaning rx {} = some (info, f) →
      f = {} ∧ ∃ info', hd'.meaning rx {} = some (info', {}) ∧ SameSense rx info info' := by
    intro hd hd' hr ho info f hm
    obtain ⟨rfl, h1, info', h2⟩ := head_some hr ho hm
    exact ⟨rfl, info', h2, head_synonym hr ho h1 hm h2⟩
  rcases h with rfl | ⟨h, h', sc', rfl, rfl, hr⟩
  · cases i with
    | start hd sc => exact ⟨hd, rfl, key (synonym_refl hd) ho⟩
    | _ => rfl
  · exact ⟨h', rfl, key hr ho⟩

theorem seq_synonym {f f' : Flags} {is is' : List Item} {rs : List Rule} (hs : Syn.Seq rx f is f' rs) (ho : ∀ i ∈ is, i.NoOptions)
    (hf : f = {}) (hi : All2 Item.Synonym is is') : f' = {} ∧ ∃ rs', Syn.Seq rx {} is' {} rs' ∧ All2 (Rule.Alike (SameSense rx)) rs rs' :=
  seq_related (fun _ _ _ h hc => sense_closes h hc) hs hf (items_related hi fun i _ h1 h2 => item_synonym h2 (ho i h1))

mutual
theorem alike_and' {I : RuleInfo → RuleInfo → Prop} {P : RuleInfo → Prop} : ∀ {r r' : Rule}, r.Alike I r' → r'.All P →
    r.Alike (fun i i' => I i i' ∧ P i') r'
  | .mk i c nx ns, .mk i' c' nx' ns', ha, hp => by
    simp only [Rule.Alike, Rule.All, Rule.info, Rule.child, Rule.next, Rule.nested] at ha hp ⊢
    exact ⟨⟨ha.1, hp.1⟩, alikeO_and' ha.2.1 hp.2.1, alikeO_and' ha.2.2.1 hp.2.2.1, alikeL_and' ha.2.2.2 hp.2.2.2⟩
theorem alikeO_and' {I : RuleInfo → RuleInfo → Prop} {P : RuleInfo → Prop} : ∀ {r r' : Option Rule}, Rule.AlikeO I r r' → Rule.AllO P r' →
    Rule.AlikeO (fun i i' => I i i' ∧ P i') r r'
  | none, r', ha, _ => ha
  | some r, r', ha, hp => by
    simp only [Rule.AlikeO] at ha ⊢
    obtain ⟨q, rfl, ha⟩ := ha
    exact ⟨q, rfl, alike_and' ha hp⟩
theorem alikeL_and' {I : RuleInfo → RuleInfo → Prop} {P : RuleInfo → Prop} : ∀ {r r' : List Rule}, Rule.AlikeL I r r' → Rule.AllL P r' →
    Rule.AlikeL (fun i i' => I i i' ∧ P i') r r'
  | [], r', ha, _ => ha
  | r :: rs, r', ha, hp => by
    simp only [Rule.AlikeL] at ha ⊢
    obtain ⟨q, qs, rfl, h1, h2⟩ := ha
    exact ⟨q, qs, rfl, alike_and' h1 hp.1, alikeL_and' h2 hp.2⟩
end

theorem sense_extract {r r' : Rule} (hn : n ≤ 2147483647) (hs : r.Safe n) (hs' : r'.Safe n) (hr : r.Alike (SameSense rx) r') (hl : l.Stored h n)
    (ms : UInt64) : extract rx h r l.ptr ms = extract rx h r' l.ptr ms := by
  obtain ⟨res, _, ⟨maps, h1, h2⟩, h3⟩ := extract_result (rx := rx) hn hs hl
  obtain ⟨res', _, ⟨maps', h1', h2'⟩, h3'⟩ := extract_result (rx := rx) hn hs' hl
  have hsame := search_own (rx := rx) (I := fun i i' => (SameSense rx i i' ∧ i.Safe n) ∧ i'.Safe n)
    (fun i i' hi => ⟨hi.1.1.optional, hi.1.1.greedy⟩)
    (fun i i' hi l hl => sense_own hl hn hi.1.1 hi.1.2 hi.2) (alike_and' (alike_and hr hs) hs') hl
  have hm := maps_rearranged (fun i i' hi => hi.1.1.captures) hsame.1 h1 h1'
  rw [h3, h3', hsame.2, h2, h2', hm]

theorem ruleOf_sense {rs rs' : List Rule} (hs : All2 (Rule.Alike (SameSense rx)) rs rs') : (ruleOf rs).Alike (SameSense rx) (ruleOf rs') := by
  cases hs with
  | nil => exact ⟨sense_refl _, rfl, rfl, rfl⟩
  | cons h1 h2 => exact chain_alike h1 h2

end

end Hext
