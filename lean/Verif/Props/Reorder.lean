import Verif.Proofs.ReorderHext
import Verif.Proofs.ParserFill
import Verif.Props.SimilarHext
import Verif.Props.Conditions
import Verif.Props.Concat
set_option linter.unusedSimpArgs false
/-!
# C98: the order in which conditions and captures are written
-/

namespace Hext.Props

open Hext Param Syn

section
variable {rx : RxEngine} {h : Heap} {n : Nat} {l : Loc} {r r' : Rule}

/-- C98. Rearrange the conditions of a rule and of the rules in it, repeat some of them, rearrange the captures with different names:
the extraction gives the same result, and throws `MaxSearchError` for the same limits. Missing: rules with conditions whose evaluation
overflows an `int` (C18), see `C98_undefined`. -/
theorem C98_rearranged_partial (hn : n ≤ 2147483647) (hs : r.Safe n) (hr : r.Alike RuleInfo.Rearranged r') (hl : l.Stored h n) (ms : UInt64) :
    extract rx h r l.ptr ms = extract rx h r' l.ptr ms := by
  have hs' : r'.Safe n := alike_all (fun i i' hi => rearranged_safe hi) hr hs
  obtain ⟨res, _, ⟨maps, h1, h2⟩, h3⟩ := extract_result (rx := rx) hn hs hl
  obtain ⟨res', _, ⟨maps', h1', h2'⟩, h3'⟩ := extract_result (rx := rx) hn hs' hl
  have hsame := search_own (rx := rx) (I := fun i i' => i.Rearranged i' ∧ i.Safe n)
    (fun i i' hi => by rw [hi.1.1]; exact ⟨rfl, rfl⟩)
    (fun i i' hi l hl => rearranged_own hl hn hi.1 hi.2) (alike_and hr hs) hl
  have hm := maps_rearranged (fun i i' hi => hi.1.2.2) hsame.1 h1 h1'
  rw [h3, h3', hsame.2, h2, h2', hm]

theorem all2_of_zip {α β : Type} {R : α → β → Prop} : ∀ {xs : List α} {ys : List β}, xs.length = ys.length →
    (∀ p ∈ xs.zip ys, R p.1 p.2) → All2 R xs ys
  | [], [], _, _ => .nil
  | [], _ :: _, h, _ => by simp at h
  | _ :: _, [], h, _ => by simp at h
  | x :: xs, y :: ys, h, hp => .cons (hp (x, y) (by simp)) (all2_of_zip (by simpa using h) fun p hpp => hp p (by simp [hpp]))

/-- C98 for hexts. Write the conditions of the tags in another order or repeatedly, the same with the options and the patterns, except that
captures with the same name keep their order. If the one hext is accepted, then so is the other one, and both give the same results for every
document and every limit. Missing: options of `:type-matches`, which apply to what follows (C41), see `C98_options`, and numbers with ten
digits (C18). -/
theorem C98_hext_partial {charSigned : Bool} {is is' : List Item} (hok : ∀ i ∈ is, i.Ok) (hok' : ∀ i ∈ is', i.Ok)
    (hlen : is.length = is'.length) (hi : ∀ p ∈ is.zip is', p.1.Rearranged p.2) (ho : ∀ i ∈ is, i.NoOptions)
    (hl : NoLong (itemsText is)) (hp : parseHext rx charSigned (itemsText is) = .ok r) :
    ∃ r', parseHext rx charSigned (itemsText is') = .ok r' ∧
      ∀ {h : Heap} {t : Tree}, IsDocument h 1147483648 t → ∀ ms, extract rx h r t.ptr ms = extract rx h r' t.ptr ms := by
  obtain ⟨f, rs, hs, he⟩ := (parse_items hok r).1 hp
  obtain ⟨_, rs', hs', ha⟩ := seq_rearranged hs ho rfl (all2_of_zip hlen hi)
  refine ⟨_, (parse_items hok' _).2 ⟨_, rs', hs', rfl⟩, fun {h t} ht ms => ?_⟩
  have hsafe : r.Safe 1147483648 := parse_safe hl hp
  subst he
  exact C98_rearranged_partial (l := Loc.root t) (n := 1147483648) (by decide) hsafe (ruleOf_alike ha) ht ms

end

/-! ## Example: `<a:first-child:not(:empty:only-child) class href:x @text:y/>` -/

def exConds : List Cond := [.trait (.endmost true false), .not [.empty, .only false]]
def exPats : List Pat := [.hasAttr (lit "class") false, .capAttr (lit "href") [] (.plain (lit "x")) false, .capFn .text [] (.plain (lit "y"))]

def inOrder : List Item := [.start (tagHead "a" exPats exConds) true]
/-- The same in another order, with one of the conditions twice. -/
def outOfOrder : List Item := [.start (tagHead "a" [.capFn .text [] (.plain (lit "y")), .capAttr (lit "href") [] (.plain (lit "x")) false,
  .hasAttr (lit "class") false] [.not [.only false, .empty], .trait (.endmost true false), .trait (.endmost true false)]) true]

theorem inOrder_text : itemsText inOrder = lit "<a:first-child:not(:empty:only-child) class href:x @text:y/>" := by decide +kernel
theorem outOfOrder_text : itemsText outOfOrder = lit "<a:not(:only-child:empty):first-child:first-child @text:y href:x class/>" := by
  decide +kernel

theorem name_ok {s : String} (h : ∃ b t, lit s = b :: t ∧ IsAlpha b ∧ ∀ x ∈ t, IsAlpha x) : IsName (lit s) := by
  obtain ⟨b, t, h1, h2, h3⟩ := h
  exact ⟨b, t, h1, h2, fun x hx => .inl (h3 x hx)⟩

theorem class_name : IsName (lit "class") := name_ok ⟨99, lit "lass", rfl, by simp [IsAlpha], by simp only [IsAlpha]; decide⟩
theorem href_name : IsName (lit "href") := name_ok ⟨104, lit "ref", rfl, by simp [IsAlpha], by simp only [IsAlpha]; decide⟩
theorem a_tag : IsTag (lit "a") := .inr (name_ok ⟨97, [], rfl, by simp [IsAlpha], by simp⟩)

theorem inOrder_ok : ∀ i ∈ inOrder, i.Ok := by
  simp only [inOrder, List.mem_singleton, forall_eq]
  refine ⟨a_tag, ?_, ?_, by simp [tagHead]⟩
  · simp [tagHead, exConds, Cond.Ok, Trait.Ok]
  · simp [tagHead, exPats, Pat.Ok, CapName.Ok, IsSpace, IsNameByte, IsAlpha, lit]
    exact ⟨class_name, href_name⟩

theorem outOfOrder_ok : ∀ i ∈ outOfOrder, i.Ok := by
  simp only [outOfOrder, List.mem_singleton, forall_eq]
  refine ⟨a_tag, ?_, ?_, by simp [tagHead]⟩
  · simp [tagHead, Cond.Ok, Trait.Ok]
  · simp [tagHead, Pat.Ok, CapName.Ok, IsSpace, IsNameByte, IsAlpha, lit]
    exact ⟨href_name, class_name⟩

theorem order_rearranged : ∀ p ∈ inOrder.zip outOfOrder, p.1.Rearranged p.2 := by
  simp only [inOrder, outOfOrder, List.zip_cons_cons, List.zip_nil_left, List.mem_singleton, forall_eq]
  refine .inr ⟨_, _, _, rfl, rfl, ?_⟩
  constructor
  · rfl
  · exact fun _ => .rfl
  · simp only [tagHead, exConds, List.mem_cons, List.not_mem_nil, or_false]
    rintro c (rfl | rfl)
    · exact ⟨_, .inr (.inl rfl), .inl rfl⟩
    · exact ⟨_, .inl rfl, .inr ⟨_, _, rfl, rfl, fun t => by simp [or_comm]⟩⟩
  · simp only [tagHead, exConds, List.mem_cons, List.not_mem_nil, or_false]
    rintro c (rfl | rfl | rfl)
    · exact ⟨_, .inr rfl, .inr ⟨_, _, rfl, rfl, fun t => by simp [or_comm]⟩⟩
    · exact ⟨_, .inl rfl, .inl rfl⟩
    · exact ⟨_, .inl rfl, .inl rfl⟩
  · intro p
    simp only [tagHead, exPats, List.map_cons, List.map_nil, List.mem_cons, List.not_mem_nil, or_false]
    grind
  · intro name
    simp only [tagHead, exPats, List.map_cons, List.map_nil, List.filter_cons, Pat.captureName, CapName.meaning, Option.some.injEq, reduceCtorEq,
      decide_false, Bool.false_eq_true, if_false, List.filter_nil]
    by_cases h1 : lit "x" = name
    · subst h1
      rfl
    · simp [h1]

theorem inOrder_parsed (rx : RxEngine) (charSigned : Bool) : ∃ r, parseHext rx charSigned (itemsText inOrder) = .ok r :=
  ⟨_, (parse_items inOrder_ok _).2 ⟨_, _, .elem (.selfClosing rfl) .nil, rfl⟩⟩

/-- `<a:first-child:not(:empty:only-child) class href:x @text:y/>` and
`<a:not(:only-child:empty):first-child:first-child @text:y href:x class/>` -/
example (charSigned : Bool) : ∃ r r', parseHext Ex.rx charSigned (itemsText inOrder) = .ok r ∧
    parseHext Ex.rx charSigned (itemsText outOfOrder) = .ok r' ∧
    ∀ ms, extract Ex.rx Ex.heap r Ex.doc.ptr ms = extract Ex.rx Ex.heap r' Ex.doc.ptr ms := by
  obtain ⟨r, hr⟩ := inOrder_parsed Ex.rx charSigned
  obtain ⟨r', h1, h2⟩ := C98_hext_partial inOrder_ok outOfOrder_ok rfl order_rearranged
    (by simp [inOrder, Item.NoOptions, tagHead, exConds, Cond.NoOptions, Trait.NoOptions])
    (inOrder_text ▸ noLong_of_few (by decide +kernel)) hr
  exact ⟨r, r', hr, h1, h2 doc_ok2⟩

/-! ## What is missing -/

/-- C98 fails for conditions that overflow an `int`: in the one order `Rule::matches` returns false, since an earlier condition does not
hold, in the other order its behaviour is undefined. -/
theorem C98_undefined : ∃ i i' : RuleInfo, i.Rearranged i' ∧ ruleMatches Ex.rx Ex.heap i exLoc.ptr = pure false ∧
    ruleMatches Ex.rx Ex.heap i' exLoc.ptr = throw .ub := by
  have h1 : (Match.childCount 5).matches Ex.rx Ex.heap exLoc.ptr = pure false := by rfl
  have h2 := nth_child_overflow_witness.1
  refine ⟨{ ms := [some (.childCount 5), some (.nthChild (-2147483648) 3 true false)] },
    { ms := [some (.nthChild (-2147483648) 3 true false), some (.childCount 5)] }, ⟨rfl, ⟨?_, ?_⟩, fun _ => rfl⟩, ?_, ?_⟩
  · simp [Match.EachIn, Match.SameAs]
  · simp [Match.OneOf, Match.SameAs]
  · obtain ⟨pp, j, hl⟩ := exLoc_ok.load
    simp only [ruleMatches, load_eq hl, pure_bind, tagAgrees, Bool.not_true, Bool.false_eq_true, if_false, allMatch, h1, Bool.not_false, if_true]
  · obtain ⟨pp, j, hl⟩ := exLoc_ok.load
    simp only [ruleMatches, load_eq hl, pure_bind, tagAgrees, Bool.not_true, Bool.false_eq_true, if_false, allMatch, h2]
    rfl

/-- `<*:type-matches(/a/i):type-matches(/A/)/>` -/
def optionFirst : List Item := [.start (tagHead "*" [] [.trait (.typeMatches (rxLit "a" true)), .trait (.typeMatches (rxLit "A" false))]) true]
/-- `<*:type-matches(/A/):type-matches(/a/i)/>` -/
def optionLast : List Item := [.start (tagHead "*" [] [.trait (.typeMatches (rxLit "A" false)), .trait (.typeMatches (rxLit "a" true))]) true]

/-- A regular expression of one letter; it looks for the letter, or with `icase` for both letters. -/
def letterRx : RxEngine := ⟨fun re s =>
  if s.any fun b => re.src = [b] || re.icase && re.src.map toLowerB = [toLowerB b] then some [] else none, fun _ s _ => s, fun _ => none⟩

theorem letter_ok (s : String) (icase : Bool) (h : ∀ b ∈ lit s, b ≠ 47 ∧ b ≠ 92) : (rxLit s icase).Ok := by
  refine ⟨by simp [regexQuotes, rxLit], fun u v e => ?_, fun u e => ?_⟩
  · exact absurd rfl (h 47 (by rw [show lit s = u ++ 47 :: v from e]; simp)).1
  · exact absurd rfl (h 92 (by rw [show lit s = u ++ [92] from e]; simp)).2

theorem star_ok (x y : Rx) (hx : x.Ok) (hy : y.Ok) :
    ∀ i ∈ [Item.start (tagHead "*" [] [.trait (.typeMatches x), .trait (.typeMatches y)]) true], i.Ok := by
  simp only [List.mem_singleton, forall_eq]
  exact ⟨.inl rfl, by simp [tagHead, Cond.Ok, Trait.Ok, hx, hy], by simp [tagHead], by simp [tagHead]⟩

/-- C98 fails for `:type-matches` with options, as these apply to the regular expressions that follow (C41): the element `a` is matched by
`<*:type-matches(/a/i):type-matches(/A/)/>`, but not by `<*:type-matches(/A/):type-matches(/a/i)/>`. -/
theorem C98_options (charSigned : Bool) : itemsText optionFirst = lit "<*:type-matches(/a/i):type-matches(/A/)/>" ∧
    itemsText optionLast = lit "<*:type-matches(/A/):type-matches(/a/i)/>" ∧ (∀ p ∈ optionFirst.zip optionLast, p.1.Rearranged p.2) ∧
    ∃ r r', parseHext letterRx charSigned (itemsText optionFirst) = .ok r ∧ parseHext letterRx charSigned (itemsText optionLast) = .ok r' ∧
      ruleMatches letterRx Ex.heap r.info exLoc.ptr = pure true ∧ ruleMatches letterRx Ex.heap r'.info exLoc.ptr = pure false := by
  refine ⟨by decide +kernel, by decide +kernel, ?_, _, _,
    (parse_items (star_ok _ _ (letter_ok "a" true (by decide)) (letter_ok "A" false (by decide))) _).2
      ⟨_, _, .elem (.selfClosing rfl) .nil, rfl⟩,
    (parse_items (star_ok _ _ (letter_ok "A" false (by decide)) (letter_ok "a" true (by decide))) _).2
      ⟨_, _, .elem (.selfClosing rfl) .nil, rfl⟩, ?_, ?_⟩
  · simp only [optionFirst, optionLast, List.zip_cons_cons, List.zip_nil_left, List.mem_singleton, forall_eq]
    refine .inr ⟨_, _, _, rfl, rfl, rfl, fun _ => .rfl, ?_, ?_, fun _ => .rfl, fun _ => rfl⟩ <;>
    · simp only [tagHead, List.mem_cons, List.not_mem_nil, or_false]
      rintro c (rfl | rfl)
      · exact ⟨_, .inr rfl, .inl rfl⟩
      · exact ⟨_, .inl rfl, .inl rfl⟩
  · rfl
  · rfl

end Hext.Props
