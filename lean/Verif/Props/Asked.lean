import Verif.Spec.Asked
import Verif.Proofs.Synonyms
import Verif.Props.EndToEnd
import Verif.Props.Paths
import Verif.Props.Examples
set_option linter.unusedSimpArgs false
/-!
# Asking for a text (C108)
-/

namespace Hext.Props

open Hext Syn

section
variable {rx : RxEngine} {h : Heap} {n : Nat} {l : Loc}

/-- The rule that `<tag attr=="v" attr2:key/>` stands for. -/
def askedInfo (tag attr : Str) (o : Op) (v attr2 key : Str) : RuleInfo :=
  { tag := (tagMeaning tag).1, tagname := (tagMeaning tag).2,
    ms := [some (.attribute attr (some (o.meaning v))), some (.attribute attr2 none)], caps := [some (.attribute attr2 key none)] }

theorem asked_safe {tag attr : Str} {o : Op} {v attr2 key : Str} : (askedInfo tag attr o v attr2 key).Safe n := by
  cases o <;> simp [RuleInfo.Safe, askedInfo, Op.meaning, mkContainsWords, Match.SafeL, Match.SafeO, Match.Safe, Capture.Safe]

theorem name_plain {key : Str} (hk : IsName key) : (CapName.plain key).Ok := by
  obtain ⟨b, t, rfl, hb, hk⟩ := hk
  refine ⟨by simp, fun x hx => ?_⟩
  rcases List.mem_cons.1 hx with rfl | hx
  · exact .inl (.inl hb)
  · exact .inl (hk x hx)

/-- The hext `<tag attr=="v" attr2:key/>` with any comparison and any quotes. -/
def askedText (tag attr : Str) (o : Op) (q : Byte) (v attr2 key : Str) : Str :=
  lit "<" ++ tag ++ lit " " ++ attr ++ o.text ++ [q] ++ v ++ [q] ++ lit " " ++ attr2 ++ lit ":" ++ key ++ lit "/>"

theorem asked_parsed (rx : RxEngine) (charSigned : Bool) {tag attr attr2 key v : Str} {q : Byte} (o : Op) (ht : IsName tag)
    (ha : IsName attr) (ha2 : IsName attr2) (hk : IsName key) (hv : FitsQuotes q v) :
    parseHext rx charSigned (askedText tag attr o q v attr2 key) = .ok (.mk (askedInfo tag attr o v attr2 key) none none []) := by
  let hd : Head := { options := [], tag, conds := [], ws := [],
                     pats := [([32], .testAttr attr (.op o ⟨q, v⟩) false), ([32], .capAttr attr2 [] (.plain key) false)] }
  have hok : ∀ i ∈ [Item.start hd true], i.Ok := by
    simp only [List.mem_cons, List.not_mem_nil, or_false]
    rintro i rfl
    refine ⟨.inr ht, by simp [hd], ?_, by simp [hd]⟩
    simp only [hd, List.mem_cons, List.not_mem_nil, or_false]
    rintro p (rfl | rfl)
    · exact ⟨by simp, by simp [IsSpace], ha, by simpa [stringQuotes] using hv.1, hv.2⟩
    · exact ⟨by simp, by simp [IsSpace], ha2, by simp, name_plain hk⟩
  have htext : askedText tag attr o q v attr2 key = itemsText [Item.start hd true] := by
    have e1 : lit "<" = [60] := by decide
    have e2 : lit " " = [32] := by decide
    have e3 : lit ":" = [58] := by decide
    simp [askedText, itemsText, Item.text, Head.text, hd, patsText, Pat.text, Test.text, Quoted.text, bang, CapName.text, e1, e2, e3]
  rw [htext]
  exact (parse_items hok _).2 ⟨_, _, .elem (.selfClosing rfl) .nil, rfl⟩

theorem op_accepts {o : Op} {v : Str} {s : Option Str} : (o.meaning v).Accepts rx s ↔ ∃ x, s = some x ∧ o.Fits v x := by
  cases o with
  | words =>
    simp only [Op.meaning, wordsOf_eq, ValueTest.Accepts, Op.Fits]
    exact ⟨fun ⟨_, x, h1, h2⟩ => ⟨x, h1, h2⟩, fun ⟨x, h1, h2⟩ => ⟨wordsOf_ne v, x, h1, h2⟩⟩
  | equals => cases s <;> simp [Op.meaning, ValueTest.Accepts, Op.Fits]
  | beginsWith => cases s <;> simp [Op.meaning, ValueTest.Accepts, Op.Fits]
  | contains => cases s <;> simp [Op.meaning, ValueTest.Accepts, Op.Fits]
  | endsWith => cases s <;> simp [Op.meaning, ValueTest.Accepts, Op.Fits]

theorem any_fits {e : Elem} {b : Bool} {attr v : Str} {o : Op} [DecidablePred fun s => o.Fits v s] :
    (b = true ∧ ∃ s, e.valueOf attr = some s ∧ o.Fits v s) ↔ (b = true ∧ (e.valueOf attr).any (fun s => decide (o.Fits v s)) = true) := by
  cases e.valueOf attr <;> simp

theorem asked_holds (hl : l.Stored h n) (hn : n ≤ 2147483647) {tag attr attr2 key v : Str} {o : Op} (ht : IsName tag) (ha : IsName attr) :
    Holds rx h (askedInfo tag attr o v attr2 key) l ↔
      ∃ e a, l.self.kind = .element e ∧ (e.hasTag tag = true ∧ ∃ s, e.valueOf attr = some s ∧ o.Fits v s) ∧
        getAttribute e.attrs attr2 = some a := by
  have hw : Match.WordsOk (.attribute attr (some (o.meaning v))) := by
    cases o <;> simp [Op.meaning, Match.WordsOk, ValueTest.WordsOk]
    exact mkContainsWords_ok v
  have hl2 := link_holds (rx := rx) (key := key) (attr := attr2) hl hn ht
  rw [holds_iff hl hn (by simp [RuleInfo.Safe, linkInfo, Match.SafeL, Match.SafeO, Match.Safe, Capture.Safe]) (by simp [linkInfo, Match.WordsOkL, Match.WordsOk])] at hl2
  rw [holds_iff hl hn asked_safe (by simp [askedInfo, Match.WordsOkL, hw]; simp [Match.WordsOk])]
  have htag : TagMeans (askedInfo tag attr o v attr2 key) l ↔ TagMeans (linkInfo tag attr2 key) l := Iff.rfl
  rw [htag]
  have hm : (Match.attribute attr (some (o.meaning v))).Means rx h l ↔
      ∃ e s, l.self.kind = .element e ∧ e.valueOf attr = some s ∧ o.Fits v s := by
    simp only [Match.Means, op_accepts, isAttr_iff, valueOf_eq ha]
    constructor
    · rintro ⟨e, he, ⟨_, x, hx, _⟩ | ⟨a, v, h1, h2, x, h3, h4⟩⟩
      · cases hx
      · cases h3; exact ⟨e, v, he, by simp [h1, h2], h4⟩
    · rintro ⟨e, s, he, h1, h2⟩
      refine ⟨e, he, .inr ?_⟩
      cases hg : getAttribute e.attrs attr with
      | none => simp [hg] at h1
      | some a => exact ⟨a, s, rfl, by simpa [hg] using h1, s, rfl, h2⟩
  simp only [linkInfo, List.mem_cons, List.not_mem_nil, or_false, Option.some.injEq, forall_eq] at hl2
  simp only [askedInfo, List.mem_cons, List.not_mem_nil, or_false, Option.some.injEq, forall_eq_or_imp, forall_eq, hm]
  constructor
  · rintro ⟨h1, ⟨e, s, h2, h3, h4⟩, h5⟩
    obtain ⟨e', a, k1, k2, k3⟩ := hl2.1 ⟨h1, h5⟩
    rw [h2] at k1; cases k1
    exact ⟨e, a, h2, ⟨k2, s, h3, h4⟩, k3⟩
  · rintro ⟨e, a, h1, ⟨h2, s, h3, h4⟩, h5⟩
    obtain ⟨k1, k2⟩ := hl2.2 ⟨e, a, h1, h2, h5⟩
    exact ⟨k1, ⟨e, s, h1, h3, h4⟩, k2⟩

mutual
theorem found_under (f : Tree → Option Str) : ∀ (t : Tree),
    t.under.flatten.filterMap (fun x => f x.self) = t.foundBelow f
  | .node p k kids => by
    cases k with
    | element e =>
      simp only [Tree.under, Tree.foundBelow]
      split
      · rename_i hk
        cases kids with
        | nil => simp [foundBelowL]
        | cons => simp at hk
      · rw [List.flatten_cons, List.filterMap_append, found_underL f kids]
        congr 1
        have := List.filterMap_map (f := fun x : Loc => x.self) (g := f) (l := locs kids)
        rw [locs, Param.locsAux_self] at this
        exact this.symm
    | _ => simp [Tree.under, Tree.foundBelow]
theorem found_underL (f : Tree → Option Str) : ∀ (ts : List Tree),
    (underL ts).flatten.filterMap (fun x => f x.self) = foundBelowL f ts
  | [] => by simp [underL, foundBelowL]
  | t :: ts => by
    simp only [underL, foundBelowL, List.flatten_append, List.filterMap_append, found_under f t, found_underL f ts]
end

theorem found_searched (f : Tree → Option Str) (t : Tree) :
    t.found f = (Loc.root t).searched.flatten.filterMap fun x => f x.self := by
  have := found_under f t
  simp only [Tree.found, Loc.searched, List.flatten_cons, List.filterMap_append, Loc.onward, Loc.root, List.map_cons, underL,
    List.append_nil, this, List.map_nil, List.filterMap_cons, List.filterMap_nil, locsAux]
  simp only [Bool.false_eq_true, if_false, List.map_nil, underL, List.append_nil, this, List.filterMap_nil]
  cases f t <;> rfl

/-- C108, for texts that fit into quotes. `<tag attr=="v" attr2:key/>`, for any names, any comparison and any such text, is a valid
hext. Its result is one map for each element that has this tag, whose attribute `attr` has a value that is asked for, and which has the
attribute `attr2`; the map has the value of `attr2` under `key` and nothing else.

Missing: the texts that fit into no quotes, see `C108_limit`. -/
theorem C108_asked_partial (charSigned : Bool) {tag attr attr2 key v : Str} {q : Byte} (o : Op) (ht : IsName tag) (ha : IsName attr)
    (ha2 : IsName attr2) (hk : IsName key) (hv : FitsQuotes q v) [DecidablePred fun s => o.Fits v s] {t : Tree} (hn : n ≤ 2147483647) (hd : IsDocument h n t) :
    ∃ r, parseHext rx charSigned (lit "<" ++ tag ++ lit " " ++ attr ++ o.text ++ [q] ++ v ++ [q] ++ lit " " ++ attr2 ++ lit ":" ++ key ++ lit "/>") = .ok r ∧
      extract rx h r t.ptr 0 = pure ((t.found (Tree.askedAt tag attr (fun s => o.Fits v s) attr2)).map fun x => [(key, x)]) := by
  refine ⟨_, asked_parsed rx charSigned o ht ha ha2 hk hv, ?_⟩
  have hres := leaf_rule_result (rx := rx) (h := h) (l := Loc.root t) hn (asked_safe (o := o) (tag := tag) (attr := attr) (v := v) (attr2 := attr2) (key := key)) rfl hd
    (fun x => ((x.self.askedAt tag attr (fun s => o.Fits v s) attr2).map fun v => (key, v)).toList) (by
      intro x hx ho
      obtain ⟨e, a, h1, h2, h3⟩ := (asked_holds (key := key) hx hn ht ha).1 ho
      obtain ⟨pp, i, hld⟩ := hx.load
      rw [any_fits] at h2
      refine ⟨((x.self.askedAt tag attr (fun s => o.Fits v s) attr2).map fun v => (key, v)).toList, ?_, ?_⟩
      · simp only [askedInfo, ruleCapture, Capture.capture, load_eq hld, pure_bind, h1, h3, Tree.askedAt, if_pos h2, valueOf_eq ha2]
        cases hv : a.value with
        | none => simp [hv]
        | some v => simp [hv, applyPipe]
      · exact ⟨by cases x.self.askedAt tag attr (fun s => o.Fits v s) attr2 <;> simp, fun _ => rfl⟩)
  refine hres.trans ?_
  congr 1
  rw [found_searched]
  have hst : ∀ x ∈ (Loc.root t).searched.flatten, x.Stored h n := by
    intro x hx
    obtain ⟨ks, hks, hx⟩ := List.mem_flatten.1 hx
    exact searched_stored hd ks hks x hx
  generalize (Loc.root t).searched.flatten = xs at hst
  induction xs with
  | nil => rfl
  | cons x xs ih =>
    have ih := ih fun y hy => hst y (by simp [hy])
    have hx := asked_holds (rx := rx) (key := key) (attr2 := attr2) (o := o) (v := v) (hst x (by simp)) hn ht ha
    by_cases ho : Holds rx h (askedInfo tag attr o v attr2 key) x
    · rw [List.filter_cons_of_pos (by simpa using ho), List.map_cons, List.filterMap_cons]
      cases hv : x.self.askedAt tag attr (fun s => o.Fits v s) attr2 with
      | none => simpa [hv] using ih
      | some v => simpa [hv] using ih
    · rw [List.filter_cons_of_neg (by simpa using ho), ih, List.filterMap_cons]
      have : x.self.askedAt tag attr (fun s => o.Fits v s) attr2 = none := by
        simp only [Tree.askedAt]
        split
        · rename_i e he
          split
          · rename_i h2
            rw [← any_fits] at h2
            rw [valueOf_eq ha2]
            cases hg : getAttribute e.attrs attr2 with
            | none => rfl
            | some a => exact absurd (hx.2 ⟨e, a, he, h2, hg⟩) ho
          · rfl
        · rfl
      rw [this]

theorem traits_no_attribute {f : Flags} {ts : List Trait} {x : List Match × Flags} (h : traitsMeaning rx f ts = some x) (a : Str)
    (t : Option ValueTest) : Match.attribute a t ∉ x.1 := by
  induction ts generalizing f x with
  | nil => cases h; simp
  | cons c ts ih =>
    simp only [traitsMeaning, Option.bind_eq_bind, Option.bind_eq_some_iff] at h
    obtain ⟨y, hy, z, hz, h⟩ := h
    cases h
    simp only [List.mem_cons, not_or]
    refine ⟨fun he => ?_, ih hz⟩
    cases c <;> simp only [Trait.meaning, Option.bind_eq_bind, Option.bind_eq_some_iff, Option.some.injEq] at hy
    case empty | endmost | only => subst hy; cases he
    all_goals
      obtain ⟨_, _, hy⟩ := hy
      subst hy
      cases he

theorem conds_no_attribute {f : Flags} {cs : List Cond} {x : List Match × Flags} (h : condsMeaning rx f cs = some x) (a : Str)
    (t : Option ValueTest) : Match.attribute a t ∉ x.1 := by
  induction cs generalizing f x with
  | nil => cases h; simp
  | cons c ts ih =>
    simp only [condsMeaning, Option.bind_eq_bind, Option.bind_eq_some_iff] at h
    obtain ⟨y, hy, z, hz, h⟩ := h
    cases h
    simp only [List.mem_cons, not_or]
    refine ⟨fun he => ?_, ih hz⟩
    cases c with
    | trait t' =>
      have := traits_no_attribute (rx := rx) (f := f) (ts := [t']) (x := ([y.1], y.2)) (by
        simp only [Cond.meaning] at hy; simp [traitsMeaning, hy]) a t
      exact this (by simp [he])
    | not ts' =>
      simp only [Cond.meaning, Option.bind_eq_bind, Option.bind_eq_some_iff, Option.some.injEq] at hy
      obtain ⟨_, _, hy⟩ := hy
      subst hy
      cases he

/-- An attribute is compared with `v`: a pattern of the tag has `v` in quotes. -/
theorem pats_equals {f : Flags} {ps : List (Str × Pat)} {x : List Match × List Capture × Flags} (h : patsMeaning rx f ps = some x)
    (hok : ∀ p ∈ ps, p.2.Ok) {a v : Str} (hm : Match.attribute a (some (.equals v)) ∈ x.1) : ∃ q, FitsQuotes q v := by
  induction ps generalizing f x with
  | nil => cases h; simp at hm
  | cons p ps ih =>
    simp only [patsMeaning, Option.bind_eq_bind, Option.bind_eq_some_iff] at h
    obtain ⟨y, hy, z, hz, h⟩ := h
    cases h
    rcases List.mem_append.1 hm with hm | hm
    · have hp := hok p (by simp)
      cases hpp : p.2 with
      | capFn fn ps n =>
        simp only [hpp, Pat.meaning, Option.bind_eq_bind, Option.bind_eq_some_iff, Option.some.injEq] at hy
        obtain ⟨_, _, rfl⟩ := hy
        simp at hm
      | capAttr a ps n o =>
        simp only [hpp, Pat.meaning, Option.bind_eq_bind, Option.bind_eq_some_iff, Option.some.injEq] at hy
        obtain ⟨_, _, rfl⟩ := hy
        cases o <;> simp at hm
      | testFn fn t neg =>
        simp only [hpp, Pat.meaning, Option.bind_eq_bind, Option.bind_eq_some_iff, Option.some.injEq] at hy
        obtain ⟨_, _, rfl⟩ := hy
        simp at hm
      | hasAttr a neg =>
        simp only [hpp, Pat.meaning, Option.some.injEq] at hy
        subst hy
        cases neg <;> simp at hm
      | testAttr a t neg =>
        simp only [hpp, Pat.meaning, Option.bind_eq_bind, Option.bind_eq_some_iff, Option.some.injEq] at hy
        obtain ⟨w, hw, rfl⟩ := hy
        simp only [List.mem_singleton, Match.attribute.injEq, Option.some.injEq] at hm
        cases neg with
        | true => simp [negated] at hm
        | false =>
          simp only [negated, Bool.false_eq_true, if_false] at hm
          rw [hpp] at hp
          cases t with
          | regex r =>
            simp only [Test.meaning, Option.bind_eq_bind, Option.bind_eq_some_iff, Option.some.injEq] at hw
            obtain ⟨_, _, rfl⟩ := hw
            simp at hm
          | op o q =>
            simp only [Test.meaning, Option.some.injEq] at hw
            subst hw
            cases o <;> simp [Op.meaning, mkContainsWords] at hm
            obtain ⟨_, rfl⟩ := hm
            exact ⟨q.quote, by simpa [stringQuotes] using hp.2.1, hp.2.2⟩
    · exact ih hz (fun p hp => hok p (by simp [hp])) hm

/-- C108: a hext can compare an attribute with the text `v`, in any of its rules, exactly if `v` fits into quotes of one kind. -/
theorem C108_limit (rx : RxEngine) (charSigned : Bool) (v : Str) :
    (∃ s r sub a, parseHext rx charSigned s = .ok r ∧ SubRule sub r ∧ some (Match.attribute a (some (.equals v))) ∈ sub.info.ms) ↔
      ∃ q, FitsQuotes q v := by
  constructor
  · rintro ⟨s, r, sub, a, hp, hs, hm⟩
    obtain ⟨is, hok, rfl, _⟩ := C36_accepted_balanced rx charSigned s r hp
    rcases C36_rule_has_tag hok hp sub hs with ⟨hd, c, f, f', hi, hmean⟩ | ⟨_, rfl, rfl⟩
    · simp only [Head.meaning, Option.bind_eq_bind, Option.bind_eq_some_iff, Option.some.injEq] at hmean
      obtain ⟨x, hx, y, hy, he⟩ := hmean
      have he := congrArg (·.1.ms) he
      simp only at he
      rw [← he] at hm
      simp only [List.mem_map, List.mem_append, Option.some.injEq, exists_eq_right] at hm
      rcases hm with hm | hm
      · exact absurd hm (conds_no_attribute hx _ _)
      · exact pats_equals hy (fun p hp => ((hok _ hi).2.2.1 p hp).2.2) hm
    · simp [Rule.info] at hm
  · rintro ⟨q, hq⟩
    have hn : IsName (lit "a") := isName_check (by decide +kernel)
    exact ⟨_, _, _, lit "a", asked_parsed rx charSigned .equals hn hn hn hn hq, .refl, by simp [Rule.info, askedInfo, Op.meaning]⟩

/-- A text with quotes of one kind only fits into those of the other kind, unless it ends in a backslash. -/
theorem fits_of_not_mem {q : Byte} (hq : q = 34 ∨ q = 39) {v : Str} (h : q ∉ v) (hb : v.getLast? ≠ some 92) : FitsQuotes q v :=
  ⟨hq, fun u w he => absurd (by simp [he]) h, fun u he => hb (by simp [he])⟩

/-- C108: a text that has quotes of both kinds, each without a backslash in front of it, fits into no quotes, and neither does a
text that ends in a backslash. -/
theorem C108_unaskable {v : Str} (h : (v.getLast? = some 92) ∨
    ((∃ u w, v = u ++ 34 :: w ∧ u.getLast? ≠ some 92) ∧ ∃ u w, v = u ++ 39 :: w ∧ u.getLast? ≠ some 92)) : ¬ ∃ q, FitsQuotes q v := by
  rintro ⟨q, hq, h1, h2⟩
  rcases h with h | ⟨⟨u, w, ha, hb⟩, ⟨u', w', ha', hb'⟩⟩
  · obtain ⟨u, rfl⟩ := List.getLast?_eq_some_iff.1 h
    exact h2 u rfl
  · rcases hq with rfl | rfl
    · obtain ⟨x, rfl⟩ := h1 u w ha
      simp at hb
    · obtain ⟨x, rfl⟩ := h1 u' w' ha'
      simp at hb'

instance (v s : Str) : Decidable (Op.equals.Fits v s) := inferInstanceAs (Decidable (s = v))

/-- Two links, whose titles are `"x"` and `\"x\"`. -/
def titlesDoc : Tree := Ex.el 1 "body" [] [
  Ex.el 2 "a" [("title", "\"x\""), ("id", "1")] [],
  Ex.el 3 "a" [("title", "\\\"x\\\""), ("id", "2")] []]

/-- C108: a backslash in front of a quote stays in the text. `<a title=="\"x\"" id:i/>` asks for the title `\"x\"`, and not for `"x"`; to
ask for that, it has to be written in quotes of the other kind. -/
theorem C108_backslash_stays :
    (∃ r, parseHext Ex.rx true (lit "<a title==\"\\\"x\\\"\" id:i/>") = .ok r ∧
      extract Ex.rx (docHeap 0 titlesDoc) r titlesDoc.ptr 0 = pure [[(lit "i", lit "2")]]) ∧
    ∃ r, parseHext Ex.rx true (lit "<a title=='\"x\"' id:i/>") = .ok r ∧
      extract Ex.rx (docHeap 0 titlesDoc) r titlesDoc.ptr 0 = pure [[(lit "i", lit "1")]] := by
  have hd : IsDocument (docHeap 0 titlesDoc) 2147483647 titlesDoc := isDocument_of_ok (by decide +kernel)
  have n1 : IsName (lit "a") := isName_check (by decide +kernel)
  have n2 : IsName (lit "title") := isName_check (by decide +kernel)
  have n3 : IsName (lit "id") := isName_check (by decide +kernel)
  have n4 : IsName (lit "i") := isName_check (by decide +kernel)
  constructor
  · have hf : FitsQuotes 34 (lit "\\\"x\\\"") := by
      have := (bodyOkB_iff 34 (by decide) (lit "\\\"x\\\"") false).1 (by decide)
      exact ⟨.inl rfl, fun u w he => by simpa using this.1 u w he, this.2.2⟩
    obtain ⟨r, h1, h2⟩ := C108_asked_partial (rx := Ex.rx) true .equals n1 n2 n3 n4 hf (by decide) hd
    refine ⟨r, ?_, ?_⟩
    · rw [← h1]; exact congrArg _ (by decide +kernel)
    · rw [h2]; decide +kernel
  · have hf : FitsQuotes 39 (lit "\"x\"") := fits_of_not_mem (.inr rfl) (by decide) (by decide)
    obtain ⟨r, h1, h2⟩ := C108_asked_partial (rx := Ex.rx) true .equals n1 n2 n3 n4 hf (by decide) hd
    refine ⟨r, ?_, ?_⟩
    · rw [← h1]; exact congrArg _ (by decide +kernel)
    · rw [h2]; decide +kernel

/-- The titles `'"` and `\` cannot be asked for. -/
example (rx : RxEngine) (charSigned : Bool) (v : Str) (hv : v = lit "'\"" ∨ v = lit "\\") :
    ¬ ∃ s r sub a, parseHext rx charSigned s = .ok r ∧ SubRule sub r ∧ some (Match.attribute a (some (.equals v))) ∈ sub.info.ms := by
  rw [C108_limit]
  apply C108_unaskable
  rcases hv with rfl | rfl
  · exact .inr ⟨⟨lit "'", [], by decide, by decide⟩, ⟨[], lit "\"", by decide, by decide⟩⟩
  · exact .inl (by decide)

/-- A text that does not fit can become a part of the hext: with `x" title:k id=="` as the text, `<a href=="..." id:i/>` is a valid
hext that captures titles. -/
def injectedItems : List Item := [.start (tagHead "a" [.testAttr (lit "href") (.op .equals ⟨34, lit "x"⟩) false,
  .capAttr (lit "title") [] (.plain (lit "k")) false, .testAttr (lit "id") (.op .equals ⟨34, []⟩) false,
  .capAttr (lit "id") [] (.plain (lit "i")) false]) true]

def injectedDoc : Tree := Ex.el 1 "a" [("href", "x"), ("title", "T"), ("id", "")] []

/-- The rule that it stands for. -/
def injectedRule : Rule := .mk
  { tag := .tag (.known (lit "a")),
    ms := [some (.attribute (lit "href") (some (.equals (lit "x")))), some (.attribute (lit "title") none),
           some (.attribute (lit "id") (some (.equals []))), some (.attribute (lit "id") none)],
    caps := [some (.attribute (lit "title") (lit "k") none), some (.attribute (lit "id") (lit "i") none)] } none none []

theorem injectedItems_ok : ∀ i ∈ injectedItems, i.Ok := by
  simp only [injectedItems, List.mem_cons, List.not_mem_nil, or_false]
  rintro i rfl
  have n1 : IsName (lit "href") := isName_check (by decide +kernel)
  have n2 : IsName (lit "title") := isName_check (by decide +kernel)
  have n3 : IsName (lit "id") := isName_check (by decide +kernel)
  refine ⟨.inr (isName_check (by decide +kernel)), by simp [tagHead], ?_, by simp [tagHead]⟩
  simp only [tagHead, List.map_cons, List.map_nil, List.mem_cons, List.not_mem_nil, or_false]
  rintro p (rfl | rfl | rfl | rfl) <;> refine ⟨by simp, by simp [IsSpace], ?_⟩
  · exact ⟨n1, by simp [stringQuotes], (fits_of_not_mem (q := 34) (.inl rfl) (by decide) (by decide)).2⟩
  · exact ⟨n2, by simp, name_plain (isName_check (by decide +kernel))⟩
  · exact ⟨n3, by simp [stringQuotes], (fits_of_not_mem (q := 34) (.inl rfl) (by decide) (by decide)).2⟩
  · exact ⟨n3, by simp, name_plain (isName_check (by decide +kernel))⟩

theorem C108_injection : ∃ r, parseHext Ex.rx true (askedText (lit "a") (lit "href") .equals 34 (lit "x\" title:k id==\"") (lit "id") (lit "i")) = .ok r ∧
    extract Ex.rx (docHeap 0 injectedDoc) r injectedDoc.ptr 0 = pure [[(lit "i", []), (lit "k", lit "T")]] := by
  have ht : askedText (lit "a") (lit "href") .equals 34 (lit "x\" title:k id==\"") (lit "id") (lit "i") = itemsText injectedItems := by
    decide +kernel
  have hp : parseHext Ex.rx true (itemsText injectedItems) = .ok injectedRule :=
    (parse_items injectedItems_ok _).2 ⟨_, _, .elem (.selfClosing rfl) .nil, rfl⟩
  rw [ht]
  refine ⟨_, hp, ?_⟩
  have hd : IsDocument (docHeap 0 injectedDoc) 1147483648 injectedDoc := isDocument_of_ok (by decide +kernel)
  rw [show injectedDoc.ptr = (Loc.root injectedDoc).ptr from rfl, extract_eq (by decide) (parse_safe (noLong_of_few (by decide +kernel)) hp) hd]
  decide +kernel

end

end Hext.Props
