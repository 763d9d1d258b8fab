import Verif.Proofs.Synonyms
import Verif.Props.Reorder
set_option linter.unusedSimpArgs false
/-!
# C100: different ways of writing the same conditions
-/

namespace Hext.Props

open Hext Param Syn

section
variable {rx : RxEngine} {r : Rule}

/-- C100. Write what the tags of a hext demand and capture in another way: `:child-count(0)` for `:empty`, `:first-child:last-child` for
`:only-child`, `:nth-child(odd)` for `:nth-child(2n+1)`, two `:not(...)` for one with two conditions, `href href:x?` for `href:x`,
`class='b' class="a"` for `class="a b"`, `:trim(' ')` for `:trim`, other quotes, and each in any order and number. If the one hext is accepted, then so is the other one, and both give the same results for every document and every
limit. Missing: options of `:type-matches` (C41) and numbers with ten digits (C18), as in C98. -/
theorem C100_synonyms_partial {charSigned : Bool} {is is' : List Item} (hok : ∀ i ∈ is, i.Ok) (hok' : ∀ i ∈ is', i.Ok)
    (hlen : is.length = is'.length) (hi : ∀ p ∈ is.zip is', p.1.Synonym p.2) (ho : ∀ i ∈ is, i.NoOptions)
    (hl : NoLong (itemsText is)) (hl' : NoLong (itemsText is')) (hp : parseHext rx charSigned (itemsText is) = .ok r) :
    ∃ r', parseHext rx charSigned (itemsText is') = .ok r' ∧
      ∀ {h : Heap} {t : Tree}, IsDocument h 1147483648 t → ∀ ms, extract rx h r t.ptr ms = extract rx h r' t.ptr ms := by
  obtain ⟨f, rs, hs, he⟩ := (parse_items hok r).1 hp
  obtain ⟨_, rs', hs', ha⟩ := seq_synonym hs ho rfl (all2_of_zip hlen hi)
  have hp' := (parse_items (rx := rx) (cs := charSigned) hok' _).2 ⟨_, rs', hs', rfl⟩
  refine ⟨_, hp', fun {h t} ht ms => ?_⟩
  have hsafe : r.Safe 1147483648 := parse_safe hl hp
  have hsafe' := parse_safe hl' hp'
  subst he
  exact sense_extract (l := Loc.root t) (n := 1147483648) (by decide) hsafe hsafe' (ruleOf_sense ha) ht ms

end

/-- Two arguments of `:nth-child(...)` with the same places are synonyms. -/
theorem C100_nth {x y : Nth} {first ofType : Bool} {p q : Int × Int} (hx : x.meaning = some p) (hy : y.meaning = some q) (h : SamePlaces p q) :
    (Trait.nth first ofType x).Synonym (.nth first ofType y) :=
  .places (p := p) (p' := q) (first := first) (ofType := ofType) (by simp [Trait.places, hx]) (by simp [Trait.places, hy]) h

/-- A shift that goes to the first place before the beginning: `:nth-child(2n-1)` is `:nth-child(2n+1)`. -/
theorem shift_back {a b : Int} (hb : b < 0) : SamePlaces (a, b) (a, b + a) := by
  intro pos
  simp only [OnStep]
  constructor
  · rintro ⟨k, hk⟩
    cases k with
    | zero => simp at hk; omega
    | succ k =>
      refine ⟨k, ?_⟩
      rw [hk, show ((k + 1 : Nat) : Int) = (k : Int) + 1 by omega, Int.mul_add, Int.mul_one]
      omega
  · rintro ⟨k, hk⟩
    refine ⟨k + 1, ?_⟩
    rw [hk, show ((k + 1 : Nat) : Int) = (k : Int) + 1 by omega, Int.mul_add, Int.mul_one]
    omega

/-! ## Example: `<a:only-child:empty:nth-child(odd) href:x/>` -/

def synPlain : List Item := [.start (tagHead "a" [.capAttr (lit "href") [] (.plain (lit "x")) false]
  [.trait (.only false), .trait .empty, .trait (.nth true false .odd), .not [.childCount (lit "7"), .endmost true true]]) true]
def synOther : List Item := [.start (tagHead "a" [.hasAttr (lit "href") false, .capAttr (lit "href") [] (.plain (lit "x")) true]
  [.not [.nth true true (.number false (lit "1"))], .trait (.nth true false (.linear false (lit "2") true (lit "1"))),
   .trait (.childCount (lit "0")), .trait (.endmost false false), .trait (.nth true false (.number false (lit "01"))),
   .not [.childCount (lit "7")]]) true]

theorem synPlain_text : itemsText synPlain = lit "<a:only-child:empty:nth-child(odd):not(:child-count(7):first-of-type) href:x/>" := by decide +kernel
theorem synOther_text : itemsText synOther =
    lit "<a:not(:nth-of-type(1)):nth-child(2n-1):child-count(0):last-child:nth-child(01):not(:child-count(7)) href href:x?/>" := by
  decide +kernel

theorem synPlain_ok : ∀ i ∈ synPlain, i.Ok := by
  simp only [synPlain, List.mem_singleton, forall_eq]
  refine ⟨a_tag, ?_, ?_, by simp [tagHead]⟩
  · simp [tagHead, Cond.Ok, Trait.Ok, Nth.Ok, IsDigits, lit]
  · simp [tagHead, Pat.Ok, CapName.Ok, IsSpace, IsNameByte, IsAlpha, lit]
    exact href_name

theorem synOther_ok : ∀ i ∈ synOther, i.Ok := by
  simp only [synOther, List.mem_singleton, forall_eq]
  refine ⟨a_tag, ?_, ?_, by simp [tagHead]⟩
  · simp [tagHead, Cond.Ok, Trait.Ok, Nth.Ok, IsDigits, lit]
  · simp [tagHead, Pat.Ok, CapName.Ok, IsSpace, IsNameByte, IsAlpha, lit]
    exact href_name

theorem syn_synonym : ∀ p ∈ synPlain.zip synOther, p.1.Synonym p.2 := by
  simp only [synPlain, synOther, List.zip_cons_cons, List.zip_nil_left, List.mem_singleton, forall_eq]
  refine .inr ⟨_, _, _, rfl, rfl, ?_⟩
  have e1 : (Trait.endmost true false).Synonym (.nth true false (.number false (lit "01"))) :=
    .places (p := (0, 1)) (p' := (0, 1)) rfl rfl fun _ => .rfl
  have e2 : Trait.empty.Synonym (.childCount (lit "0")) := .children (k := 0) rfl rfl
  have e3 : (Trait.nth true false .odd).Synonym (.nth true false (.linear false (lit "2") true (lit "1"))) :=
    .places (p := (2, -1 + 2)) (p' := (2, -1)) rfl rfl fun pos => (shift_back (a := 2) (b := -1) (by decide) pos).symm
  have e4 : (Trait.endmost true true).Synonym (.nth true true (.number false (lit "1"))) :=
    .places (p := (0, 1)) (p' := (0, 1)) rfl rfl fun _ => .rfl
  constructor
  · rfl
  · exact fun _ => .rfl
  · simp only [SameDemands, tagHead, List.flatMap_cons, List.flatMap_nil, Cond.demands, List.map_cons, List.map_nil, List.cons_append, List.nil_append,
      List.append_nil, List.mem_cons, List.not_mem_nil, or_false, forall_eq_or_imp, forall_eq]
    refine ⟨⟨⟨_, .inr (.inr (.inr (.inr (.inl rfl)))), rfl, e1⟩, ⟨_, .inr (.inr (.inr (.inl rfl))), rfl, .same _⟩,
      ⟨_, .inr (.inr (.inl rfl)), rfl, e2⟩, ⟨_, .inr (.inl rfl), rfl, e3⟩, ⟨_, .inr (.inr (.inr (.inr (.inr rfl)))), rfl, .same _⟩,
      ⟨_, .inl rfl, rfl, e4⟩⟩, ⟨_, .inr (.inr (.inr (.inr (.inr rfl)))), rfl, e4⟩, ⟨_, .inr (.inr (.inr (.inl rfl))), rfl, e3⟩,
      ⟨_, .inr (.inr (.inl rfl)), rfl, e2⟩, ⟨_, .inr (.inl rfl), rfl, .same _⟩, ⟨_, .inl rfl, rfl, e1⟩,
      ⟨_, .inr (.inr (.inr (.inr (.inl rfl)))), rfl, .same _⟩⟩
  · have e : ∀ hd : Head, hd.patDemands = (hd.pats.map (·.2)).flatMap Pat.demands := fun hd => by simp [Head.patDemands, List.flatMap_map]
    simp only [SamePatDemands, e, tagHead, List.map_cons, List.map_nil, List.flatMap_cons, List.flatMap_nil, Pat.demands, List.append_nil,
      List.nil_append, List.mem_singleton, forall_eq, exists_eq_left]
    exact ⟨.same _, .same _⟩
  · intro name
    simp only [Head.captures, tagHead, List.map_cons, List.map_nil, List.filterMap_cons, List.filterMap_nil, Pat.capture]

example (charSigned : Bool) : ∃ r r', parseHext Ex.rx charSigned (itemsText synPlain) = .ok r ∧
    parseHext Ex.rx charSigned (itemsText synOther) = .ok r' ∧
    ∀ ms, extract Ex.rx Ex.heap r Ex.doc.ptr ms = extract Ex.rx Ex.heap r' Ex.doc.ptr ms := by
  have hr : ∃ r, parseHext Ex.rx charSigned (itemsText synPlain) = .ok r :=
    ⟨_, (parse_items synPlain_ok _).2 ⟨_, _, .elem (.selfClosing rfl) .nil, rfl⟩⟩
  obtain ⟨r, hr⟩ := hr
  obtain ⟨r', h1, h2⟩ := C100_synonyms_partial synPlain_ok synOther_ok rfl syn_synonym
    (by simp [synPlain, Item.NoOptions, tagHead, Cond.NoOptions, Trait.NoOptions])
    (synPlain_text ▸ noLong_of_few (by decide +kernel)) (synOther_text ▸ noLong_of_few (by decide +kernel)) hr
  exact ⟨r, r', hr, h1, h2 doc_ok2⟩

/-! ## Example: `<a class="a b" href:x title="c d"! id=~/i./ @text:trim:t/>` -/

def valPlain : List Item := [.start (tagHead "a" [.testAttr (lit "class") (.op .words ⟨34, lit "a b"⟩) false,
  .capAttr (lit "href") [] (.plain (lit "x")) false, .testAttr (lit "title") (.op .words ⟨34, lit "c d"⟩) true,
  .testAttr (lit "id") (.regex ⟨⟨47, lit "i."⟩, []⟩) false, .capFn .text [.trim] (.plain (lit "t"))] []) true]
def valOther : List Item := [.start (tagHead "a" [.capFn .text [.trimChars ⟨39, [32]⟩] (.quoted ⟨39, lit "t"⟩), .hasAttr (lit "id") false,
  .testAttr (lit "class") (.op .words ⟨39, lit "b"⟩) false, .testAttr (lit "class") (.op .words ⟨34, lit " a  b a"⟩) false,
  .hasAttr (lit "href") false, .capAttr (lit "href") [] (.quoted ⟨34, lit "x"⟩) true, .testAttr (lit "title") (.op .words ⟨39, lit "d c d"⟩) true,
  .testAttr (lit "id") (.regex ⟨⟨34, lit "i."⟩, []⟩) false] []) true]

theorem valPlain_text : itemsText valPlain = lit "<a class=\"a b\" href:x title=\"c d\"! id=~/i./ @text:trim:t/>" := by decide +kernel
theorem valOther_text : itemsText valOther =
    lit "<a @text:trim(' '):'t' id class='b' class=\" a  b a\" href href:\"x\"? title='d c d'! id=~\"i.\"/>" := by decide +kernel

theorem val_synonym : ∀ p ∈ valPlain.zip valOther, p.1.Synonym p.2 := by
  simp only [valPlain, valOther, List.zip_cons_cons, List.zip_nil_left, List.mem_singleton, forall_eq]
  refine .inr ⟨_, _, _, rfl, rfl, ?_⟩
  constructor
  · rfl
  · exact fun _ => .rfl
  · exact ⟨fun _ h => (nomatch h), fun _ h => (nomatch h)⟩
  · have e : ∀ hd : Head, hd.patDemands = (hd.pats.map (·.2)).flatMap Pat.demands := fun hd => by simp [Head.patDemands, List.flatMap_map]
    have w1 : wordsOf (lit "a b") = [lit "a", lit "b"] := by decide +kernel
    have w2 : wordsOf (lit "b") = [lit "b"] := by decide +kernel
    have w3 : wordsOf (lit " a  b a") = [lit "a", lit "b", lit "a"] := by decide +kernel
    have w4 : (Pat.testAttr (lit "title") (.op .words ⟨34, lit "c d"⟩) true).Synonym (.testAttr (lit "title") (.op .words ⟨34, lit "d c d"⟩) true) := by
      refine .notWordsAttr _ ?_
      rw [show wordsOf (lit "c d") = [lit "c", lit "d"] by decide +kernel, show wordsOf (lit "d c d") = [lit "d", lit "c", lit "d"] by decide +kernel]
      intro w
      simp only [List.mem_cons, List.not_mem_nil, or_false]
      grind
    simp only [SamePatDemands, e, tagHead, List.map_cons, List.map_nil, List.flatMap_cons, List.flatMap_nil, Pat.demands, List.append_nil,
      List.nil_append, List.cons_append, w1, w2, w3, Test.plain, Quoted.plain, Rx.plain, List.mem_cons, List.not_mem_nil, or_false,
      forall_eq_or_imp, forall_eq, exists_eq_or_imp, exists_eq_left]
    have s : ∀ p : Pat, p.Synonym p := .same
    simp [s, w4]
  · intro name
    simp only [Head.captures, tagHead, List.map_cons, List.map_nil, List.filterMap_cons, List.filterMap_nil, Pat.capture, PipeS.plain, Quoted.plain,
      CapName.unquoted, CapName.meaning, List.filter_cons, List.filter_nil, Pat.captureName]
    by_cases h1 : name = lit "x"
    · subst h1; simp [lit]
    · by_cases h2 : name = lit "t"
      · subst h2; simp [lit]
      · simp [Ne.symm h1, Ne.symm h2]

theorem val_ok : (∀ i ∈ valPlain, i.Ok) ∧ ∀ i ∈ valOther, i.Ok := by
  simp only [valPlain, valOther, List.mem_singleton, forall_eq]
  have q : ∀ {qs : List Byte} {b : Byte} {s : Str}, b ∈ qs → b ∉ s → 92 ∉ s → Quoted.Ok qs ⟨b, s⟩ := fun {qs b s} h1 h2 h3 =>
    ⟨h1, fun u v e => absurd (by simp only at e; rw [e]; simp) h2, fun u e => h3 (by simp only at e; rw [e]; simp)⟩
  have hn : ∀ s : String, decide (∀ b ∈ lit s, 97 ≤ b ∧ b ≤ 122) = true → lit s ≠ [] → IsName (lit s) := by
    intro s h1 h2
    have h1 := of_decide_eq_true h1
    cases hs : lit s with
    | nil => exact absurd hs h2
    | cons b t =>
      rw [hs] at h1
      have ha : ∀ b : Byte, 97 ≤ b ∧ b ≤ 122 → IsAlpha b := fun b hb => .inr hb
      exact ⟨b, t, rfl, ha b (h1 b (by simp)), fun c hc => .inl (ha c (h1 c (by simp [hc])))⟩
  have n1 := hn "class" (by decide) (by decide)
  have n2 := hn "title" (by decide) (by decide)
  have n3 := hn "id" (by decide) (by decide)
  have t1 : Quoted.Ok stringQuotes ⟨34, lit "a b"⟩ := q (by decide) (by decide) (by decide)
  have t2 : Quoted.Ok stringQuotes ⟨34, lit "c d"⟩ := q (by decide) (by decide) (by decide)
  have t3 : Quoted.Ok regexQuotes ⟨47, lit "i."⟩ := q (by decide) (by decide) (by decide)
  have t4 : Quoted.Ok stringQuotes ⟨39, [32]⟩ := q (by decide) (by decide) (by decide)
  have t5 : Quoted.Ok stringQuotes ⟨39, lit "t"⟩ := q (by decide) (by decide) (by decide)
  have t6 : Quoted.Ok stringQuotes ⟨39, lit "b"⟩ := q (by decide) (by decide) (by decide)
  have t7 : Quoted.Ok stringQuotes ⟨34, lit " a  b a"⟩ := q (by decide) (by decide) (by decide)
  have t8 : Quoted.Ok stringQuotes ⟨34, lit "x"⟩ := q (by decide) (by decide) (by decide)
  have t9 : Quoted.Ok stringQuotes ⟨39, lit "d c d"⟩ := q (by decide) (by decide) (by decide)
  have t0 : Quoted.Ok regexQuotes ⟨34, lit "i."⟩ := q (by decide) (by decide) (by decide)
  have c1 : CapName.Ok (.plain (lit "x")) := ⟨by decide, by simp [lit, IsNameByte, IsAlpha]⟩
  have c2 : CapName.Ok (.plain (lit "t")) := ⟨by decide, by simp [lit, IsNameByte, IsAlpha]⟩
  have hsp : IsSpace 32 := by simp [IsSpace]
  constructor
  · refine ⟨a_tag, by simp [tagHead], ?_, by simp [tagHead]⟩
    simp only [tagHead, List.map_cons, List.map_nil, List.mem_cons, List.not_mem_nil, or_false, forall_eq_or_imp, forall_eq, Pat.Ok, Test.Ok, PipeS.Ok,
      Rx.Ok, ne_eq, reduceCtorEq, not_false_eq_true, true_and, and_true]
    simp [hsp, n1, n2, n3, t1, t2, t3, c1, c2, href_name]
  · refine ⟨a_tag, by simp [tagHead], ?_, by simp [tagHead]⟩
    simp only [tagHead, List.map_cons, List.map_nil, List.mem_cons, List.not_mem_nil, or_false, forall_eq_or_imp, forall_eq, Pat.Ok, Test.Ok, PipeS.Ok,
      Rx.Ok, CapName.Ok, ne_eq, reduceCtorEq, not_false_eq_true, true_and, and_true]
    simp [hsp, n1, n2, n3, t4, t5, t6, t7, t8, t9, t0, href_name]

example (charSigned : Bool) : ∃ r r', parseHext Ex.rx charSigned (itemsText valPlain) = .ok r ∧
    parseHext Ex.rx charSigned (itemsText valOther) = .ok r' ∧
    ∀ ms, extract Ex.rx Ex.heap r Ex.doc.ptr ms = extract Ex.rx Ex.heap r' Ex.doc.ptr ms := by
  have hr : ∃ r, parseHext Ex.rx charSigned (itemsText valPlain) = .ok r :=
    ⟨_, (parse_items val_ok.1 _).2 ⟨_, _, .elem (.selfClosing rfl) .nil, rfl⟩⟩
  obtain ⟨r, hr⟩ := hr
  obtain ⟨r', h1, h2⟩ := C100_synonyms_partial val_ok.1 val_ok.2 rfl val_synonym
    (by simp [valPlain, Item.NoOptions, tagHead])
    (valPlain_text ▸ noLong_of_few (by decide +kernel)) (valOther_text ▸ noLong_of_few (by decide +kernel)) hr
  exact ⟨r, r', hr, h1, h2 doc_ok2⟩

/-! ## No synonyms -/

/-- `:nth-child(2n)` and `:nth-child(2n+2)` are not the same: the root element, which is at no place among siblings, is matched by the first
one only. -/
theorem C100_root {h : Heap} {n : Nat} {l : Loc} (rx : RxEngine) (hn : n ≤ 1000000000) (hl : l.Stored h n) (hr : l.inElem = false) {e : Elem} (he : l.self.kind = .element e)
    (first ofType : Bool) : (Match.nthChild 2 0 first ofType).matches rx h l.ptr = pure true ∧
      (Match.nthChild 2 2 first ofType).matches rx h l.ptr = pure false := by
  have hs : NthSafe n 2 0 := by simp only [NthSafe, intMin, intMax]; omega
  have hs2 : NthSafe n 2 2 := by simp only [NthSafe, intMin, intMax]; omega
  have k1 := match_decides (rx := rx) (m := .nthChild 2 0 first ofType) hl (by omega) (by simpa [Match.Safe] using hs) (by simp [Match.WordsOk])
  have k2 := match_decides (rx := rx) (m := .nthChild 2 2 first ofType) hl (by omega) (by simpa [Match.Safe] using hs2) (by simp [Match.WordsOk])
  refine ⟨k1.true_iff.2 ?_, ?_⟩
  · simp only [Match.Means, OnStep, Loc.position, hr]
    exact ⟨e, he, 0, by simp⟩
  · obtain ⟨b, h1, h2⟩ := k2
    cases b with
    | false => exact h1
    | true =>
      have := h2.1 rfl
      simp only [Match.Means, OnStep, Loc.position, hr] at this
      obtain ⟨_, _, k, hk⟩ := this
      simp at hk
      omega

/-- It is so for the root of the example. -/
example : ∃ rx, (Match.nthChild 2 0 true false).matches rx Ex.heap (Loc.root Ex.doc).ptr = pure true ∧
    (Match.nthChild 2 2 true false).matches rx Ex.heap (Loc.root Ex.doc).ptr = pure false :=
  ⟨Ex.rx, C100_root (n := 1000000000) Ex.rx (by decide) (isDocument_of_ok (by decide +kernel)) rfl rfl true false⟩

end Hext.Props
