import Verif.Proofs.Case
import Verif.Props.Synonyms
set_option linter.unusedSimpArgs false
/-!
# C101: the case of tag names and attribute names
-/

namespace Hext.Props

open Hext Param Syn

section
variable {rx : RxEngine} {r : Rule} {charSigned : Bool}

/-- C101. Write the names of tags and attributes in a hext in other case, each of them always in the same way, for example all in upper case.
If the hext is accepted, then it is still accepted, and it gives the same results for every document and every limit. Missing: numbers with ten
digits (C18), and close tags that differ from their open tags, see `C101_close_tags`. -/
theorem C101_recased_partial {f : Str → Str} (hf : Recasing f) {is : List Item} (hok : ∀ i ∈ is, i.Ok) (hl : NoLong (itemsText is))
    (hp : parseHext rx charSigned (itemsText is) = .ok r) :
    ∃ r', parseHext rx charSigned (itemsText (is.map (Item.rename f))) = .ok r' ∧
      ∀ {h : Heap} {t : Tree}, IsDocument h 1147483648 t → ∀ ms, extract rx h r t.ptr ms = extract rx h r' t.ptr ms := by
  obtain ⟨fl, rs, hs, he⟩ := (parse_items hok r).1 hp
  obtain ⟨rs', hs', ha⟩ := seq_rename hf hs
  have hok' : ∀ i ∈ is.map (Item.rename f), i.Ok := by
    intro i hi
    obtain ⟨j, hj, rfl⟩ := List.mem_map.1 hi
    exact item_rename_ok hf (hok j hj)
  refine ⟨_, (parse_items hok' _).2 ⟨_, rs', hs', rfl⟩, fun {h t} ht ms => ?_⟩
  have hsafe : r.Safe 1147483648 := parse_safe hl hp
  subst he
  exact recased_extract (l := Loc.root t) (n := 1147483648) (by decide) hsafe (ruleOf_recased ha) ht ms

theorem lowerCase_recasing : Recasing lowerCase := by
  intro s
  simp only [SameName, lowerCase, List.map_map]
  refine List.map_congr_left fun b _ => ?_
  simp only [Function.comp, toLowerB]
  split
  · rename_i h
    simp only [Bool.and_eq_true, decide_eq_true_eq, UInt8.le_iff_toNat_le, UInt8.toNat_ofNat] at h
    rw [if_neg]
    simp only [Bool.and_eq_true, decide_eq_true_eq, UInt8.le_iff_toNat_le, UInt8.toNat_ofNat, UInt8.toNat_add]
    omega
  · simp_all

theorem upperCase_recasing : Recasing upperCase := by
  intro s
  simp only [SameName, upperCase, List.map_map]
  refine List.map_congr_left fun b _ => ?_
  simp only [Function.comp, toLowerB, toUpperB]
  split
  · rename_i h
    simp only [Bool.and_eq_true, decide_eq_true_eq, UInt8.le_iff_toNat_le, UInt8.toNat_ofNat] at h
    rw [if_pos, if_neg]
    · simp
    · simp only [Bool.and_eq_true, decide_eq_true_eq, UInt8.le_iff_toNat_le, UInt8.toNat_ofNat]; omega
    · simp only [Bool.and_eq_true, decide_eq_true_eq, UInt8.le_iff_toNat_le, UInt8.toNat_ofNat, UInt8.toNat_sub]
      omega
  · rfl

/-- C101. Two hexts that are the same up to the case of tag names and attribute names, and that are both accepted, give the same results for
every document and every limit. That both are accepted has to be said only because of close tags, see `C101_close_tags`. -/
theorem C101_same_partial {is is' : List Item} (hok : ∀ i ∈ is, i.Ok) (hok' : ∀ i ∈ is', i.Ok) (hi : SameUpToCase is is')
    (hl : NoLong (itemsText is)) (hl' : NoLong (itemsText is')) {r' : Rule} (hp : parseHext rx charSigned (itemsText is) = .ok r)
    (hp' : parseHext rx charSigned (itemsText is') = .ok r') {h : Heap} {t : Tree} (ht : IsDocument h 1147483648 t) (ms : UInt64) :
    extract rx h r t.ptr ms = extract rx h r' t.ptr ms := by
  obtain ⟨q, h1, h2⟩ := C101_recased_partial lowerCase_recasing hok hl hp
  obtain ⟨q', h1', h2'⟩ := C101_recased_partial lowerCase_recasing hok' hl' hp'
  rw [hi, h1'] at h1
  cases h1
  rw [h2 ht, h2' ht]

end

theorem accepted_of {rx : RxEngine} {charSigned : Bool} {s : Str} (hs : (match parseHext rx charSigned s with | .ok _ => true | _ => false) = true) :
    ∃ r, parseHext rx charSigned s = .ok r := by
  cases h : parseHext rx charSigned s with
  | ok r => exact ⟨r, rfl⟩
  | error e => simp [h] at hs

/-- The name of a custom tag in its close tag has to be written as in its open tag, whereas the case does not matter for other tags. -/
theorem C101_close_tags (charSigned : Bool) :
    (∃ r, parseHext Ex.rx charSigned (lit "<a></A>") = .ok r) ∧ (∃ r, parseHext Ex.rx charSigned (lit "<foo></foo>") = .ok r) ∧
    ∃ e, parseHext Ex.rx charSigned (lit "<foo></FOO>") = .error (.syntax e) := by
  refine ⟨accepted_of (by cases charSigned <;> decide +kernel), accepted_of (by cases charSigned <;> decide +kernel), ?_⟩
  have hs : (match parseHext Ex.rx charSigned (lit "<foo></FOO>") with | .error (.«syntax» _) => true | _ => false) = true := by
    cases charSigned <;> decide +kernel
  cases h : parseHext Ex.rx charSigned (lit "<foo></FOO>") with
  | ok r => simp [h] at hs
  | error e =>
    cases e with
    | «syntax» w => exact ⟨w, rfl⟩
    | _ => simp [h] at hs

/-! ## Example: `<A:first-child Href:x CLASS/>` -/

def upperHext : List Item := [.start (tagHead "A" [.capAttr (lit "Href") [] (.plain (lit "x")) false, .hasAttr (lit "CLASS") true]
  [.trait (.endmost true false)]) false, .start (tagHead "foo" [.capFn .text [] (.plain (lit "Y"))] []) false, .stop (lit "foo"), .stop (lit "a")]

example : itemsText upperHext = lit "<A:first-child Href:x CLASS!><foo @text:Y></foo></a>" := by decide +kernel
example : itemsText (upperHext.map (Item.rename upperCase)) = lit "<A:first-child HREF:x CLASS!><FOO @text:Y></FOO></A>" := by decide +kernel
example : itemsText (upperHext.map (Item.rename lowerCase)) = lit "<a:first-child href:x class!><foo @text:Y></foo></a>" := by decide +kernel

theorem upperHext_ok : ∀ i ∈ upperHext, i.Ok := by
  have h1 : IsName (lit "Href") := name_ok ⟨72, lit "ref", rfl, by simp [IsAlpha], by simp only [IsAlpha]; decide⟩
  have h2 : IsName (lit "CLASS") := name_ok ⟨67, lit "LASS", rfl, by simp [IsAlpha], by simp only [IsAlpha]; decide⟩
  have h3 : IsTag (lit "A") := .inr (name_ok ⟨65, [], rfl, by simp [IsAlpha], by simp⟩)
  have h4 : IsTag (lit "foo") := .inr (name_ok ⟨102, lit "oo", rfl, by simp [IsAlpha], by simp only [IsAlpha]; decide⟩)
  have h5 : ∀ s : String, s = "x" ∨ s = "Y" → (CapName.plain (lit s)).Ok := by
    rintro s (rfl | rfl) <;> simp [CapName.Ok, IsNameByte, IsAlpha, lit]
  simp only [upperHext, List.mem_cons, List.not_mem_nil, or_false, forall_eq_or_imp, forall_eq]
  refine ⟨⟨h3, by simp [tagHead, Cond.Ok, Trait.Ok], ?_, by simp [tagHead]⟩, ⟨h4, by simp [tagHead], ?_, by simp [tagHead]⟩, h4, a_tag⟩
  · simp only [tagHead, List.map_cons, List.map_nil, List.mem_cons, List.not_mem_nil, or_false, forall_eq_or_imp, forall_eq]
    exact ⟨⟨by simp, by simp [IsSpace], h1, by simp, h5 _ (.inl rfl)⟩, by simp, by simp [IsSpace], h2⟩
  · simp only [tagHead, List.map_cons, List.map_nil, List.mem_cons, List.not_mem_nil, or_false, forall_eq]
    exact ⟨by simp, by simp [IsSpace], by simp, h5 _ (.inr rfl)⟩

example (charSigned : Bool) : ∃ r r', parseHext Ex.rx charSigned (lit "<A:first-child Href:x CLASS!><foo @text:Y></foo></a>") = .ok r ∧
    parseHext Ex.rx charSigned (lit "<A:first-child HREF:x CLASS!><FOO @text:Y></FOO></A>") = .ok r' ∧
    ∀ ms, extract Ex.rx Ex.heap r Ex.doc.ptr ms = extract Ex.rx Ex.heap r' Ex.doc.ptr ms := by
  have e1 : itemsText upperHext = lit "<A:first-child Href:x CLASS!><foo @text:Y></foo></a>" := by decide +kernel
  have e2 : itemsText (upperHext.map (Item.rename upperCase)) = lit "<A:first-child HREF:x CLASS!><FOO @text:Y></FOO></A>" := by decide +kernel
  have hr : ∃ r, parseHext Ex.rx charSigned (itemsText upperHext) = .ok r := by
    rw [e1]
    exact accepted_of (by cases charSigned <;> decide +kernel)
  obtain ⟨r, hr⟩ := hr
  obtain ⟨r', h1, h2⟩ := C101_recased_partial upperCase_recasing upperHext_ok (e1 ▸ noLong_of_few (by decide +kernel)) hr
  rw [e1] at hr
  rw [e2] at h1
  exact ⟨r, r', hr, h1, h2 doc_ok2⟩

end Hext.Props
