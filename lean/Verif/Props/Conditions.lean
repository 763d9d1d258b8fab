import Verif.Proofs.Conditions
import Verif.Proofs.Result
import Verif.Spec.Example
/-!
# Properties of conditions (C16 - C22, C25)
-/

namespace Hext.Props

variable {rx : RxEngine} {h : Heap} {n : Nat} {l : Loc}

/-! ## The meaning of a rule's own conditions -/

/-- C21 - C25. The tag and the conditions of a rule hold for a node, as the engine evaluates them, iff they
hold by the declarative meaning: `TagMeans` for the tag, `Match.Means` for each condition. -/
theorem holds_iff (hl : l.Stored h n) (hn : n ≤ 2147483647) {i : RuleInfo} (hi : i.Safe n) (hw : Match.WordsOkL i.ms) :
    Holds rx h i l ↔ TagMeans i l ∧ ∀ m, some m ∈ i.ms → m.Means rx h l :=
  (ruleMatches_decides rx hl hn i hi hw).true_iff

/-- Evaluating a condition terminates without undefined behaviour and decides its meaning. -/
theorem match_decides (hl : l.Stored h n) (hn : n ≤ 2147483647) {m : Match} (hm : m.Safe n) (hw : m.WordsOk) :
    Decides (m.matches rx h l.ptr) (m.Means rx h l) := m.decides rx hl hn hm hw

/-- The word lists made from a string, as in `class="a b"`, consist of words without spaces. -/
theorem words_ok (s : Str) : (mkContainsWords s).WordsOk := mkContainsWords_ok s

/-- The second `a` of the example document: the third child of the `div`, before the `p`. -/
def exLoc : Loc := ⟨true, [Ex.el 4 "a" [("href", "1")] [Ex.txt 5 "x"], Ex.el 6 "b" [] [Ex.txt 7 "y"]],
  Ex.el 8 "a" [("href", "2")] [Ex.txt 9 "z"], [Ex.el 10 "p" [] []]⟩

theorem exLoc_ok : exLoc.Stored Ex.heap 2147483647 :=
  searched_stored Ex.doc_ok (locs (exLoc.before ++ exLoc.self :: exLoc.after))
    (by simp [Loc.searched, Loc.onward, Loc.root, underL, Tree.under, Ex.doc, Ex.el, Ex.txt, exLoc]) _
    (by simp [locs, locsAux, exLoc])

/-- The element of `exLoc`. -/
def exElem : Elem := { tag := .known (lit "a"), attrs := [{ name := lit "href", value := some (lit "2") }] }

theorem exLoc_kind : exLoc.self.kind = .element exElem := rfl

/-! ## C17, C18: nth-child -/

/-- The evaluation of an nth-child match on a node at position `pos` overflows an `int`. -/
def NthOverflow (step shift : Int) (pos : Nat) : Prop :=
  (0 < step ∧ shift ≤ pos ∧ intMax < pos - shift) ∨ (step = intMin ∧ (pos : Int) ≤ shift)

/-- The arithmetic of an nth-child match. -/
private def nthArith (step shift pos : Int) : E Bool :=
  if step = 0 then pure (pos == shift)
  else if step > 0 then
    if pos < shift then pure false
    else do
      let d ← mkInt (pos - shift)
      pure (d.tmod step == 0)
  else
    if pos > shift then pure false
    else do
      let d ← mkInt (shift - pos)
      let s ← mkInt (-1 * step)
      pure (d.tmod s == 0)

private theorem nth_eval (hl : l.Stored h n) (hn : n ≤ 2147483647) {step shift : Int} (first ofType : Bool) {e : Elem}
    (hk : l.self.kind = .element e) :
    (Match.nthChild step shift first ofType).matches rx h l.ptr = nthArith step shift (l.pos first ofType e) := by
  obtain ⟨pp, i, hld⟩ := hl.load
  simp only [Match.matches, nthChildMatches, load_eq hld, pure_bind, hk]
  cases first <;> simp only [countPreceding_eq hl hn, countFollowing_eq hl hn, pure_bind, if_true, Bool.false_eq_true, if_false] <;> rfl

/-- C17, C18. For all `int` arguments, `:nth-child(step n + shift)` and its three variants hold for an
element iff its 1-based position, counted from the stated end among its element siblings (those of its own
tag for the of-type variants), is `step * k + shift` for some `k ≥ 0`; unless the arithmetic overflows. -/
theorem nth_child_iff (hl : l.Stored h n) (hn : n ≤ 2147483647) {step shift : Int} (first ofType : Bool)
    (h1 : intMin ≤ step ∧ step ≤ intMax) (h2 : intMin ≤ shift ∧ shift ≤ intMax)
    {e : Elem} (hk : l.self.kind = .element e)
    (ho : ¬ NthOverflow step shift (l.position first (if ofType then some e.tag else none))) :
    Decides ((Match.nthChild step shift first ofType).matches rx h l.ptr)
      (∃ k : Nat, (l.position first (if ofType then some e.tag else none) : Int) = step * k + shift) := by
  refine ⟨_, ?_, nthVal_iff step shift _⟩
  rw [nth_eval hl hn first ofType hk]
  rw [← Loc.pos_eq hk] at ho ⊢
  have hle := Loc.pos_le hl first ofType e
  unfold nthArith
  generalize l.pos first ofType e = q at *
  unfold NthOverflow at ho
  unfold nthVal
  simp only [intMin, intMax] at *
  by_cases h0 : step = 0
  · simp [h0]
  · simp only [h0, if_false]
    by_cases hp : step > 0
    · simp only [hp, if_true]
      by_cases hq : (q : Int) < shift
      · simp [hq]
      · have : mkInt ((q : Int) - shift) = pure ((q : Int) - shift) := by
          apply mkInt_eq <;> simp only [intMin, intMax] at * <;> omega
        simp [hq, this]
    · simp only [hp, if_false]
      by_cases hq : (q : Int) > shift
      · simp [hq]
      · have e1 : mkInt (shift - (q : Int)) = pure (shift - (q : Int)) := by
          apply mkInt_eq <;> simp only [intMin, intMax] at * <;> omega
        have e2 : mkInt (-1 * step) = pure (-step) := by
          rw [show -1 * step = -step by omega]
          apply mkInt_eq <;> simp only [intMin, intMax] at * <;> omega
        simp only [hq, if_false, e1, e2, pure_bind]
        simp

/-- C18. The overflow does happen: exactly in the remaining cases the evaluation is undefined. -/
theorem nth_child_overflow_iff (hl : l.Stored h n) (hn : n ≤ 2147483647) {step shift : Int} (first ofType : Bool)
    (h1 : intMin ≤ step ∧ step ≤ intMax) (h2 : intMin ≤ shift ∧ shift ≤ intMax)
    {e : Elem} (hk : l.self.kind = .element e) :
    (Match.nthChild step shift first ofType).matches rx h l.ptr = throw .ub ↔
      NthOverflow step shift (l.position first (if ofType then some e.tag else none)) := by
  constructor
  · intro hub
    apply Classical.byContradiction
    intro ho
    obtain ⟨b, hb, _⟩ := nth_child_iff (rx := rx) hl hn first ofType h1 h2 hk ho
    rw [hb] at hub
    cases hub
  · intro ho
    rw [nth_eval hl hn first ofType hk]
    rw [← Loc.pos_eq hk] at ho
    have hle := Loc.pos_le hl first ofType e
    unfold nthArith
    generalize l.pos first ofType e = q at *
    unfold NthOverflow at ho
    have hub : ∀ x : Int, intMax < x → mkInt x = throw .ub := by
      intro x hx; unfold mkInt; rw [if_neg (by omega)]
    simp only [intMin, intMax] at *
    rcases ho with ⟨ha, hb, hc⟩ | ⟨rfl, hb⟩
    · rw [if_neg (by omega), if_pos (by omega), if_neg (by omega), hub _ hc]; rfl
    · have e1 : mkInt (shift - (q : Int)) = pure (shift - (q : Int)) := by
        apply mkInt_eq <;> simp only [intMin, intMax] at * <;> omega
      rw [if_neg (by omega), if_neg (by omega), if_neg (by omega), e1, pure_bind, hub _ (by decide)]; rfl

/-- The third child is the second from the end, and the second `a`. -/
example : exLoc.position true none = 3 ∧ exLoc.position false none = 2 ∧
    exLoc.position true (some exElem.tag) = 2 ∧ exLoc.position false (some exElem.tag) = 1 := by decide +kernel

/-- `:nth-child(2n+1)` holds for the third child. -/
example : (Match.nthChild 2 1 true false).matches Ex.rx Ex.heap exLoc.ptr = pure true := by
  refine ((nth_child_iff (rx := Ex.rx) exLoc_ok (by decide) true false (by decide) (by decide) exLoc_kind ?_).true_iff).2 ⟨1, ?_⟩
  · rw [show exLoc.position true (if false = true then some exElem.tag else none) = 3 by decide +kernel]
    simp [NthOverflow, intMin, intMax]
  · rw [show exLoc.position true (if false = true then some exElem.tag else none) = 3 by decide +kernel]; rfl

/-- C18. `:nth-child(-2147483648n+3)` and `:nth-child(1n-2147483648)` are undefined for the third child. -/
theorem nth_child_overflow_witness :
    (Match.nthChild (-2147483648) 3 true false).matches Ex.rx Ex.heap exLoc.ptr = throw .ub ∧
    (Match.nthChild 1 (-2147483648) true false).matches Ex.rx Ex.heap exLoc.ptr = throw .ub := by
  refine ⟨(nth_child_overflow_iff exLoc_ok (by decide) true false (by decide) (by decide) exLoc_kind).2 ?_,
    (nth_child_overflow_iff exLoc_ok (by decide) true false (by decide) (by decide) exLoc_kind).2 ?_⟩ <;>
  · rw [show exLoc.position true (if false = true then some exElem.tag else none) = 3 by decide +kernel]
    simp [NthOverflow, intMin, intMax]

/-- C18. Nothing overflows if the arguments are bounded: `-2147483647 ≤ step` and, for positive `step`,
`shift ≥ n - 2147483647`, where `n` is the largest number of children of a node. -/
theorem nth_child_no_overflow_partial (hl : l.Stored h n) (hn : n ≤ 2147483647) {step shift : Int} (hs : NthSafe n step shift)
    (first ofType : Bool) : ∃ b, (Match.nthChild step shift first ofType).matches rx h l.ptr = pure b :=
  Match.matches_total rx hl hn _ hs

/-- The root element is at position 0: `:nth-child(even)` holds for it, `:first-child` does not. -/
theorem nth_child_root_witness :
    (Match.nthChild 2 0 true false).matches Ex.rx Ex.heap Ex.doc.ptr = pure true ∧
    (Match.nthChild 0 1 true false).matches Ex.rx Ex.heap Ex.doc.ptr = pure false := by
  decide +kernel

/-- Elements with unknown tags are all of the same type: in `<x-a/><x-b/>` the second is not the first
of its type. -/
def customDoc : Tree := Ex.el 1 "div" [] [
  .node 2 (.element { tag := .unknown, origName := some (lit "x-a") }) [],
  .node 3 (.element { tag := .unknown, origName := some (lit "x-b") }) []]

theorem of_type_unknown_witness :
    (Match.nthChild 0 1 true true).matches Ex.rx (docHeap 0 customDoc) 3 = pure false ∧
    (Match.nthChild 0 2 true true).matches Ex.rx (docHeap 0 customDoc) 3 = pure true := by
  decide +kernel

/-! ## C19: only-child -/

/-- C19. For a node with a parent element, `:only-child` holds iff both `:first-child` and `:last-child`
hold, and likewise for the of-type variants. -/
theorem only_child_iff (hl : l.Stored h n) (hn : n ≤ 2147483647) (hin : l.inElem = true) (ofType : Bool) :
    (Match.onlyChild ofType).matches rx h l.ptr = pure true ↔
      (Match.nthChild 0 1 true ofType).matches rx h l.ptr = pure true ∧
      (Match.nthChild 0 1 false ofType).matches rx h l.ptr = pure true := by
  have hsafe : NthSafe n 0 1 := by simp only [NthSafe, intMin, intMax]; omega
  rw [(match_decides (rx := rx) (m := .onlyChild ofType) hl hn (by simp [Match.Safe]) (by simp [Match.WordsOk])).true_iff,
    (match_decides (rx := rx) (m := .nthChild 0 1 true ofType) hl hn (by simpa [Match.Safe] using hsafe) (by simp [Match.WordsOk])).true_iff,
    (match_decides (rx := rx) (m := .nthChild 0 1 false ofType) hl hn (by simpa [Match.Safe] using hsafe) (by simp [Match.WordsOk])).true_iff]
  simp only [Match.Means, OnStep, Loc.position, hin, if_true, Bool.false_eq_true, if_false, Int.zero_mul, Int.zero_add,
    exists_const, true_and]
  constructor
  · rintro ⟨e, hk, hall⟩
    have hf : ∀ ts : List Tree, (∀ t ∈ ts, isCounted (if ofType = true then some e.tag else none) t = false) →
        (ts.filter (isCounted (if ofType = true then some e.tag else none))).length = 0 := by
      intro ts hts
      rw [List.length_eq_zero_iff, List.filter_eq_nil_iff]
      intro t ht; simp [hts t ht]
    exact ⟨⟨e, hk, by rw [hf _ fun t ht => hall t (by simp [ht])]; rfl⟩,
      ⟨e, hk, by rw [hf _ fun t ht => hall t (by simp [ht])]; rfl⟩⟩
  · rintro ⟨⟨e, hk, h1⟩, ⟨e', hk', h2⟩⟩
    rw [hk] at hk'
    cases hk'
    refine ⟨e, hk, fun t ht => ?_⟩
    have z1 : (l.before.filter (isCounted (if ofType = true then some e.tag else none))).length = 0 := by omega
    have z2 : (l.after.filter (isCounted (if ofType = true then some e.tag else none))).length = 0 := by omega
    rw [List.length_eq_zero_iff, List.filter_eq_nil_iff] at z1 z2
    rcases List.mem_append.1 ht with ht | ht
    · simpa using z1 t ht
    · simpa using z2 t ht

example : exLoc.inElem = true ∧ (Match.onlyChild false).matches Ex.rx Ex.heap exLoc.ptr = pure false ∧
    (Match.onlyChild false).matches Ex.rx Ex.heap 2 = pure true := by decide +kernel

/-! ## C20: counts -/

/-- C20. `:child-count(k)` holds iff the node is an element with exactly `k` element children; `:empty` is
`:child-count(0)`. -/
theorem child_count_iff (hl : l.Stored h n) (hn : n ≤ 2147483647) (k : Nat) :
    Decides ((Match.childCount k).matches rx h l.ptr)
      (∃ e, l.self.kind = .element e ∧ (l.self.kids.filter (·.kind.isElement)).length = k) := by
  simpa only [Match.Means] using match_decides (rx := rx) (m := .childCount k) hl hn (by simp [Match.Safe]) (by simp [Match.WordsOk])

/-- C20. `:attribute-count(k)` holds iff the node is an element with exactly `k` attributes. -/
theorem attribute_count_iff (hl : l.Stored h n) (hn : n ≤ 2147483647) (k : Nat) :
    Decides ((Match.attributeCount k).matches rx h l.ptr) (∃ e, l.self.kind = .element e ∧ e.attrs.length = k) := by
  simpa only [Match.Means] using match_decides (rx := rx) (m := .attributeCount k) hl hn (by simp [Match.Safe]) (by simp [Match.WordsOk])

example : (Match.attributeCount 1).matches Ex.rx Ex.heap exLoc.ptr = pure true ∧
    (Match.childCount 0).matches Ex.rx Ex.heap exLoc.ptr = pure true ∧
    (Match.childCount 4).matches Ex.rx Ex.heap 3 = pure true := by decide +kernel

/-! ## C21: attributes -/

/-- C21. `attr` holds iff the element has the attribute. -/
theorem attr_present_iff (hl : l.Stored h n) (hn : n ≤ 2147483647) (name : Str) :
    Decides ((Match.attribute name none).matches rx h l.ptr) (∃ e a, l.self.kind = .element e ∧ IsAttr e name a) := by
  simpa only [Match.Means] using match_decides (rx := rx) (m := .attribute name none) hl hn (by simp [Match.Safe]) (by simp [Match.WordsOk])

/-- C21. `attr!` (a `NegateTest` without a test) holds iff the element lacks the attribute. -/
theorem attr_missing_iff (hl : l.Stored h n) (hn : n ≤ 2147483647) (name : Str) :
    Decides ((Match.attribute name (some .negateNull)).matches rx h l.ptr) (∃ e, l.self.kind = .element e ∧ NoAttr e name) := by
  obtain ⟨b, h1, h2⟩ := match_decides (rx := rx) (m := .attribute name (some .negateNull)) hl hn (by simp [Match.Safe])
    (by simp [Match.WordsOk, ValueTest.WordsOk])
  refine ⟨b, h1, h2.trans ?_⟩
  simp [Match.Means, ValueTest.Accepts]

/-- C21. `attr^="x"` and the like hold iff the attribute is present and its value passes the test. The test
must not accept a missing value, which only negated tests do. -/
theorem attr_test_iff (hl : l.Stored h n) (hn : n ≤ 2147483647) (name : Str) {t : ValueTest} (hw : t.WordsOk)
    (ht : ¬ t.Accepts rx none) :
    Decides ((Match.attribute name (some t)).matches rx h l.ptr)
      (∃ e a v, l.self.kind = .element e ∧ IsAttr e name a ∧ a.value = some v ∧ t.Accepts rx (some v)) := by
  obtain ⟨b, h1, h2⟩ := match_decides (rx := rx) (m := .attribute name (some t)) hl hn (by simp [Match.Safe])
    (by simpa [Match.WordsOk] using hw)
  refine ⟨b, h1, h2.trans ?_⟩
  simp [Match.Means, ht]

/-- C21. `attr^="x"!` and the like hold iff the attribute is missing or it has a value, which fails the
test. (An attribute whose value is a null pointer, which Gumbo does not produce, passes no test at all.) -/
theorem attr_negated_test_iff (hl : l.Stored h n) (hn : n ≤ 2147483647) (name : Str) {t : ValueTest} (hw : t.WordsOk)
    (ht : ¬ t.Accepts rx none) :
    Decides ((Match.attribute name (some (.negate t))).matches rx h l.ptr)
      (∃ e, l.self.kind = .element e ∧
        (NoAttr e name ∨ ∃ a v, IsAttr e name a ∧ a.value = some v ∧ ¬ t.Accepts rx (some v))) := by
  obtain ⟨b, h1, h2⟩ := match_decides (rx := rx) (m := .attribute name (some (.negate t))) hl hn (by simp [Match.Safe])
    (by simpa [Match.WordsOk, ValueTest.WordsOk] using hw)
  refine ⟨b, h1, h2.trans ?_⟩
  simp [Match.Means, ValueTest.Accepts, ht]

/-- C21. So for an element a test and its negation are complements. -/
theorem attr_negation_complements (hl : l.Stored h n) (hn : n ≤ 2147483647) (name : Str) {t : ValueTest} (hw : t.WordsOk)
    (ht : ¬ t.Accepts rx none) (hv : ∀ e a, l.self.kind = .element e → IsAttr e name a → a.value ≠ none)
    (he : l.self.kind.isElement = true) :
    (Match.attribute name (some (.negate t))).matches rx h l.ptr = pure true ↔
      (Match.attribute name (some t)).matches rx h l.ptr = pure false := by
  obtain ⟨b, h1, h2⟩ := match_decides (rx := rx) (m := .attribute name (some t)) hl hn (by simp [Match.Safe])
    (by simpa [Match.WordsOk] using hw)
  rw [(attr_negated_test_iff (rx := rx) hl hn name hw ht).true_iff, h1]
  have : (pure b : E Bool) = pure false ↔ ¬ (b = true) := by
    cases b
    · simp
    · exact ⟨fun h => absurd (E.pure_inj h) (by decide), fun h => absurd rfl h⟩
  rw [this, h2]
  cases hk : l.self.kind with
  | element e =>
    simp only [Match.Means, hk, ht]
    constructor
    · rintro ⟨e', he', h⟩ ⟨e'', he'', h'⟩
      cases he'; cases he''
      rcases h' with ⟨_, h'⟩ | ⟨a, v, ha, hv1, hv2⟩
      · exact h'
      · rcases h with h | ⟨a', v', ha', hv1', hv2'⟩
        · rw [noAttr_iff] at h; rw [isAttr_iff, h] at ha; cases ha
        · rw [isAttr_iff] at ha ha'
          rw [ha] at ha'; cases ha'
          rw [hv1] at hv1'; cases hv1'
          exact hv2' hv2
    · intro hno
      refine ⟨e, rfl, ?_⟩
      cases hg : getAttribute e.attrs name with
      | none => exact Or.inl (noAttr_iff.2 hg)
      | some a =>
        have ha := isAttr_iff.2 hg
        cases hval : a.value with
        | none => exact absurd hval (hv e a hk ha)
        | some v => exact Or.inr ⟨a, v, ha, hval, fun hacc => hno ⟨e, rfl, Or.inr ⟨a, v, ha, hval, hacc⟩⟩⟩
  | _ => simp [hk, Kind.isElement] at he

/-- The tests of the language accept no missing value. -/
example (l : Str) : ¬ (ValueTest.beginsWith l).Accepts Ex.rx none ∧ ¬ (ValueTest.equals l).Accepts Ex.rx none := by
  simp [ValueTest.Accepts]

/-- `href^="2"` holds for the second `a`, `href^="2"!` and `class` do not, `class!` and `class="x"!` do. -/
example : (Match.attribute (lit "HREF") (some (.beginsWith (lit "2")))).matches Ex.rx Ex.heap exLoc.ptr = pure true ∧
    (Match.attribute (lit "href") (some (.negate (.beginsWith (lit "2"))))).matches Ex.rx Ex.heap exLoc.ptr = pure false ∧
    (Match.attribute (lit "class") none).matches Ex.rx Ex.heap exLoc.ptr = pure false ∧
    (Match.attribute (lit "class") (some .negateNull)).matches Ex.rx Ex.heap exLoc.ptr = pure true ∧
    (Match.attribute (lit "class") (some (.negate (.equals (lit "x"))))).matches Ex.rx Ex.heap exLoc.ptr = pure true := by
  decide +kernel

/-! ## C22: negated conditions -/

/-- C22. `:not(...)` holds iff none of the listed conditions holds. -/
theorem negate_iff (hl : l.Stored h n) (hn : n ≤ 2147483647) {ms : List (Option Match)} (hs : Match.SafeL n ms) (hw : Match.WordsOkL ms) :
    Decides ((Match.negate ms).matches rx h l.ptr) (∀ m, some m ∈ ms → m.matches rx h l.ptr = pure false) := by
  obtain ⟨b, h1, h2⟩ := match_decides (rx := rx) (m := .negate ms) hl hn (by simpa [Match.Safe] using hs) (by simpa [Match.WordsOk] using hw)
  refine ⟨b, h1, h2.trans ?_⟩
  simp only [Match.Means]
  clear h1 h2
  induction ms with
  | nil => simp [Match.NoneMeans]
  | cons m ms ih =>
    simp only [Match.SafeL] at hs
    cases m with
    | none =>
      simp only [Match.WordsOkL] at hw
      simp only [Match.NoneMeans, ih hs.2 hw]
      simp
    | some m =>
      simp only [Match.WordsOkL] at hw
      simp only [Match.NoneMeans, ih hs.2 hw.2]
      obtain ⟨c, h3, h4⟩ := match_decides (rx := rx) (m := m) hl hn hs.1 hw.1
      have hc : m.matches rx h l.ptr = pure false ↔ ¬ m.Means rx h l := by
        rw [h3, ← h4]
        cases c
        · simp
        · exact ⟨fun h => absurd (E.pure_inj h) (by decide), fun h => absurd rfl h⟩
      rw [← hc]
      constructor
      · rintro ⟨h5, h6⟩ m' hm'
        rcases List.mem_cons.1 hm' with hm' | hm'
        · cases hm'; exact h5
        · exact h6 m' hm'
      · intro hall
        exact ⟨hall m (by simp), fun m' hm' => hall m' (by simp [hm'])⟩

/-- C22. Negating twice restores the meaning. -/
theorem negate_negate (hl : l.Stored h n) (hn : n ≤ 2147483647) {m : Match} (hs : m.Safe n) (hw : m.WordsOk) :
    (Match.negate [some (.negate [some m])]).matches rx h l.ptr = m.matches rx h l.ptr := by
  obtain ⟨b, h1, _⟩ := match_decides (rx := rx) hl hn hs hw
  simp only [Match.matches, negateLoop, optMatches, h1, pure_bind]
  cases b <;> rfl

example : (Match.negate [some (.attributeCount 0), some (.childCount 3)]).matches Ex.rx Ex.heap exLoc.ptr = pure true ∧
    (Match.negate [some (.attributeCount 0), some (.childCount 0)]).matches Ex.rx Ex.heap exLoc.ptr = pure false := by
  decide +kernel

/-! ## C25: tags -/

theorem cstr_eq_self {s : Str} (hs : 0 ∉ s) : cstr s = s := by
  unfold cstr
  induction s with
  | nil => rfl
  | cons c s ih =>
    simp at hs
    rw [List.takeWhile_cons, if_pos (by simpa using fun h => hs.1 h.symm), ih hs.2]

/-- C25. The tag part of a rule agrees with a node iff `TagMeans`. -/
theorem tag_iff (hl : l.Stored h n) (i : RuleInfo) (hi : i.ms = []) :
    Decides (ruleMatches rx h i l.ptr) (TagMeans i l) := by
  obtain ⟨pp, j, hld⟩ := hl.load
  simp only [ruleMatches, load_eq hld, pure_bind, ← tagAgrees_iff, hi, allMatch]
  cases tagAgrees i l.self.kind <;> simp [Decides.pure_iff]

/-- C25. The rule for a known tag name, in any case, matches exactly the elements of that tag. -/
theorem known_tag_rule (hl : l.Stored h n) (name : Str) (hname : 0 ∉ name) (o g : Bool)
    (hk : name.map toLowerB ∈ knownTagNames.map lit) :
    Decides (ruleMatches rx h (Rule.ofName name o g).info l.ptr)
      (∃ e, l.self.kind = .element e ∧ e.tag = .known (name.map toLowerB)) := by
  have hc : cstr name = name :=
    cstr_eq_self hname
  have ht : gumboTagEnum (cstr name) = .known (name.map toLowerB) := by
    simp only [gumboTagEnum, hc]
    rw [if_pos (by simpa using hk)]
  obtain ⟨b, h1, h2⟩ := tag_iff (rx := rx) hl (Rule.ofName name o g).info rfl
  refine ⟨b, h1, h2.trans ?_⟩
  simp [TagMeans, Rule.ofName, Rule.info, ht]

/-- C25. The rule for any other tag name matches exactly the elements of unknown tag whose name in the
source is this name, up to ASCII case. -/
theorem custom_tag_rule (hl : l.Stored h n) (name : Str) (hname : 0 ∉ name) (o g : Bool)
    (hk : name.map toLowerB ∉ knownTagNames.map lit) :
    Decides (ruleMatches rx h (Rule.ofName name o g).info l.ptr)
      (∃ e orig, l.self.kind = .element e ∧ e.tag = .unknown ∧ e.origName = some orig ∧ SameName name orig) := by
  have hc : cstr name = name :=
    cstr_eq_self hname
  have ht : gumboTagEnum (cstr name) = .unknown := by
    simp only [gumboTagEnum, hc]
    rw [if_neg (by simpa using hk)]
  obtain ⟨b, h1, h2⟩ := tag_iff (rx := rx) hl (Rule.ofName name o g).info rfl
  refine ⟨b, h1, h2.trans ?_⟩
  simp [TagMeans, Rule.ofName, Rule.info, ht]

example : ruleMatches Ex.rx Ex.heap (Rule.ofName (lit "A") false false).info exLoc.ptr = pure true ∧
    ruleMatches Ex.rx Ex.heap (Rule.ofName (lit "b") false false).info exLoc.ptr = pure false ∧
    ruleMatches Ex.rx (docHeap 0 customDoc) (Rule.ofName (lit "X-B") false false).info 3 = pure true ∧
    ruleMatches Ex.rx (docHeap 0 customDoc) (Rule.ofName (lit "x-b") false false).info 2 = pure false := by
  decide +kernel

end Hext.Props
