import Verif.Proofs.Reformat
import Verif.Props.SimilarHext
import Verif.Props.Examples
set_option linter.unusedSimpArgs false
/-!
# The layout of documents

C104: the whitespace in texts. C105: whitespace between tags. C106: the contents of texts and comments, for a hext without
functions. C107: texts and comments, for a hext without functions.
-/

namespace Hext.Props

open Hext Param Syn

section
variable {rx : RxEngine} {charSigned : Bool} {s : Str} {h h' : Heap} {n n' : Nat} {r : Rule} {t t' u : Tree}

/-! ## C104 -/

/-- C104. What the gaps between the words of a document are made of has no influence on a rule that uses no function but `@text`:
spaces may be replaced with line breaks, or with more spaces. The result is the same, and the same limits are exceeded. -/
theorem spacing_does_not_matter (hn : n ≤ 2147483647) (hn' : n' ≤ 2147483647) (hs : r.Safe n) (hs' : r.Safe n')
    (hf : r.All (RuleInfo.Calls (· = .text))) (ht : IsDocument h n t) (ht' : IsDocument h' n' t')
    (hsame : t.Alike Kind.Respaced t') (ms : UInt64) : extract rx h r t.ptr ms = extract rx h' r t'.ptr ms :=
  extract_rel (l := Loc.root t) (l' := Loc.root t') hn hn' (sameWords_good fun _ h => h.elim) (words_good h h') hs hs' hf
    (.inl fun _ hd => hd) ht ht' (root_rel (trel_of_respaced _ _ hsame)) ms (.inl fun _ hd => hd)

theorem parse_only_text {cs : Bool} (hi : ¬ lit "@inner-html" <:+: s) (hst : ¬ lit "@strip-tags" <:+: s)
    (h : parseHext rx cs s = .ok r) : r.All (RuleInfo.Calls (· = .text)) :=
  parse_calls (fun fn hfn => by
    cases fn with
    | innerHtml => exact absurd hfn hi
    | stripTags => exact absurd hfn hst
    | _ => rfl) h

/-- C104 for hexts that use neither `@inner-html` nor `@strip-tags`. -/
theorem C104_hext (hs : NoLong s) (hi : ¬ lit "@inner-html" <:+: s) (hst : ¬ lit "@strip-tags" <:+: s)
    (hp : parseHext rx charSigned s = .ok r) (ht : IsDocument h 1147483648 t) (ht' : IsDocument h' 1147483648 t')
    (hsame : t.Alike Kind.Respaced t') (ms : UInt64) : extract rx h r t.ptr ms = extract rx h' r t'.ptr ms :=
  spacing_does_not_matter (by decide) (by decide) (parse_safe hs hp) (parse_safe hs hp) (parse_only_text hi hst hp) ht ht' hsame ms

/-- `<html><body><p>…</p></body></html>` -/
def docPara (text : String) : Tree := Ex.el 1 "html" [] [Ex.el 2 "body" [] [Ex.el 3 "p" [] [Ex.txt 4 text]]]

theorem docPara_respaced : (docPara "a b  c").Alike Kind.Respaced (docPara "a\n  b c") := by
  refine ⟨.inl rfl, _, _, rfl, ⟨.inl rfl, _, _, rfl, ⟨.inl rfl, _, _, rfl, ⟨?_, rfl⟩, rfl⟩, rfl⟩, rfl⟩
  refine .inr ⟨lit "a b  c", lit "a\n  b c", .inl rfl, .inl rfl, .byte ?_⟩
  exact .gap (w := lit " ") (w' := lit "\n  ") (s := lit "b  c") (s' := lit "b c") ⟨by decide, by decide⟩ ⟨by decide, by decide⟩
    (.byte (.gap (w := lit "  ") (w' := lit " ") (s := lit "c") (s' := lit "c") ⟨by decide, by decide⟩ ⟨by decide, by decide⟩ (.byte .nil)))

/-- `<p @text:x/>` -/
def textRule : Rule := Ex.rule "p" (caps := [Ex.capText "x"])

theorem textRule_safe (n : Nat) : textRule.Safe n := by
  simp [Rule.Safe, Rule.All, Rule.AllO, Rule.AllL, textRule, Ex.rule, RuleInfo.Safe, Match.SafeL, Capture.Safe, Ex.capText]

theorem textRule_calls : textRule.All (RuleInfo.Calls (· = .text)) := by
  simp [Rule.All, Rule.AllO, Rule.AllL, textRule, Ex.rule, RuleInfo.Calls, Match.CallsL, Capture.Calls, Ex.capText]

theorem textRule_anchored : textRule.Anchored := by
  simp [textRule, Ex.rule, Rule.Anchored, Rule.AnchoredO, Rule.AnchoredL]

theorem textRule_tags : textRule.All fun i => i.tag ≠ .any := by
  simp [Rule.All, Rule.AllO, Rule.AllL, textRule, Ex.rule]

def textRuleItems : List Item := [.start (exHead [] "p" [] [pText "x"] "") true]

theorem textRule_parsed : parseHext Ex.rx true (lit "<p @text:x/>") = .ok textRule := by
  rw [show lit "<p @text:x/>" = itemsText textRuleItems by decide +kernel]
  exact (parse_items (by unfold textRuleItems; example_items) _).2 ⟨_, _, .elem (.selfClosing rfl) .nil, rfl⟩

example (ms : UInt64) : extract Ex.rx (docHeap 0 (docPara "a b  c")) textRule (docPara "a b  c").ptr ms =
    extract Ex.rx (docHeap 0 (docPara "a\n  b c")) textRule (docPara "a\n  b c").ptr ms :=
  spacing_does_not_matter (n := 2147483647) (n' := 2147483647) (by decide) (by decide) (textRule_safe _) (textRule_safe _) textRule_calls
    (isDocument_of_ok (by decide +kernel)) (isDocument_of_ok (by decide +kernel)) docPara_respaced ms

example (ms : UInt64) : extract Ex.rx (docHeap 0 (docPara "a b  c")) textRule (docPara "a b  c").ptr ms =
    extract Ex.rx (docHeap 0 (docPara "a\n  b c")) textRule (docPara "a\n  b c").ptr ms :=
  C104_hext (noLong_of_few (by decide +kernel)) (by decide +kernel) (by decide +kernel) textRule_parsed
    (isDocument_of_ok (by decide +kernel)) (isDocument_of_ok (by decide +kernel)) docPara_respaced ms

/-- The other functions return the gaps as they are. -/
theorem other_functions_keep_gaps :
    CaptureFn.stripTags.val (docHeap 0 (docPara "a b  c")) (docPara "a b  c") ≠
      CaptureFn.stripTags.val (docHeap 0 (docPara "a\n  b c")) (docPara "a\n  b c") ∧
    CaptureFn.innerHtml.val (docHeap 0 (docPara "a b  c")) (docPara "a b  c") ≠
      CaptureFn.innerHtml.val (docHeap 0 (docPara "a\n  b c")) (docPara "a\n  b c") := by decide +kernel

/-! ## C105 -/

/-- C105, in part. The whitespace with which a document is indented has no influence: whitespace next to a block, and at the
beginning and the end of a block, may be left out. The rule uses no function but `@text`; no rule may be for any tag (`*`), since
such a rule matches whitespace; a rule with child rules must have a mandatory one; and there must be no limit, since whitespace
costs searches. The examples below show that each of these is needed. -/
theorem indentation_does_not_matter_partial (hn : n ≤ 2147483647) (hn' : n' ≤ 2147483647) (hs : r.Safe n) (hs' : r.Safe n')
    (hf : r.All (RuleInfo.Calls (· = .text))) (ha : r.Anchored) (htag : r.All fun i => i.tag ≠ .any)
    (ht : IsDocument h n t) (ht' : IsDocument h' n' t') (hsame : t.Unindented t') :
    extract rx h r t.ptr 0 = extract rx h' r t'.ptr 0 :=
  extract_rel (l := Loc.root t) (l' := Loc.root t') hn hn' (sameWords_good space_notElem) (words_good h h') hs hs' hf
    (.inr ⟨ha, htag⟩) ht ht' (root_rel (trel_of_unindented _ _ hsame)) 0 (.inr rfl)

/-- C105, in part, with a limit: what an extraction returns from the indented document, it also returns from the other one, under
the same limit. -/
theorem C105_limit_partial (hn : n ≤ 2147483647) (hn' : n' ≤ 2147483647) (hs : r.Safe n) (hs' : r.Safe n')
    (hf : r.All (RuleInfo.Calls (· = .text))) (ha : r.Anchored) (htag : r.All fun i => i.tag ≠ .any)
    (ht : IsDocument h n t) (ht' : IsDocument h' n' t') (hsame : t.Unindented t') (ms : UInt64)
    (res : List (List (Str × Str))) (he : extract rx h r t.ptr ms = pure res) : extract rx h' r t'.ptr ms = pure res :=
  extract_within (l := Loc.root t) (l' := Loc.root t') hn hn' (sameWords_good space_notElem) (words_good h h') hs hs' hf
    (.inr ⟨ha, htag⟩) ht ht' (root_rel (trel_of_unindented _ _ hsame)) ms he

/-- C105, in part, for two layouts: both documents are layouts of a third one. -/
theorem C105_layouts_partial {g : Heap} {m : Nat} (hn : n ≤ 2147483647) (hn' : n' ≤ 2147483647) (hm : m ≤ 2147483647)
    (hs : r.Safe n) (hs' : r.Safe n') (hsm : r.Safe m)
    (hf : r.All (RuleInfo.Calls (· = .text))) (ha : r.Anchored) (htag : r.All fun i => i.tag ≠ .any)
    (ht : IsDocument h n t) (ht' : IsDocument h' n' t') (hu : IsDocument g m u) (h1 : t.Unindented u) (h2 : t'.Unindented u) :
    extract rx h r t.ptr 0 = extract rx h' r t'.ptr 0 :=
  (indentation_does_not_matter_partial hn hm hs hsm hf ha htag ht hu h1).trans
    (indentation_does_not_matter_partial hn' hm hs' hsm hf ha htag ht' hu h2).symm

/-- C105 for hexts, in part: the hext uses neither `@inner-html` nor `@strip-tags` nor the bytes `?` and `*`. -/
theorem C105_hext_partial (hs : NoLong s) (hi : ¬ lit "@inner-html" <:+: s) (hst : ¬ lit "@strip-tags" <:+: s)
    (hq : (63 : Byte) ∉ s) (hstar : (42 : Byte) ∉ s)
    (hp : parseHext rx charSigned s = .ok r) (ht : IsDocument h 1147483648 t) (ht' : IsDocument h' 1147483648 t')
    (hsame : t.Unindented t') : extract rx h r t.ptr 0 = extract rx h' r t'.ptr 0 := by
  have hsafe := parse_safe hs hp
  rcases parse_unmarked hq hstar hp with hc | ⟨ha, htag⟩
  · have h1 := no_captures_no_results (rx := rx) (h := h) (l := Loc.root t) (by decide) hsafe hc ht
    have h2 := no_captures_no_results (rx := rx) (h := h') (l := Loc.root t') (by decide) hsafe hc ht'
    exact h1.trans h2.symm
  · exact indentation_does_not_matter_partial (by decide) (by decide) hsafe hsafe (parse_only_text hi hst hp) ha htag ht ht' hsame

def wsp (p : Ptr) (s : String) : Tree := .node p (.whitespace (lit s)) []

/-- A document, indented:
```
<html><body>
  <div href="0"> </div>
  <p>
    a <b>x</b>
  </p>
  <a href="1"></a></body></html>
``` -/
def docIndented : Tree :=
  Ex.el 1 "html" [] [Ex.el 2 "body" [] [wsp 3 "\n  ", Ex.el 4 "div" [("href", "0")] [wsp 5 " "], wsp 6 "\n  ",
    Ex.el 8 "p" [] [wsp 9 "\n    ", Ex.el 15 "b" [] [Ex.txt 10 "a"], Ex.txt 11 "\n   ", Ex.el 12 "b" [] [Ex.txt 13 "x"], wsp 14 "\n  "],
    wsp 16 "\n  ", Ex.el 7 "a" [("href", "1")] []]]

/-- The same without indentation: `<html><body><div href="0"></div><p><b>a</b> <b>x</b></p><a href="1"></a></body></html>`. The
space between `a` and `x` stays, since `b` is no block. -/
def docDense : Tree :=
  Ex.el 1 "html" [] [Ex.el 2 "body" [] [Ex.el 4 "div" [("href", "0")] [],
    Ex.el 8 "p" [] [Ex.el 15 "b" [] [Ex.txt 10 "a"], wsp 11 " ", Ex.el 12 "b" [] [Ex.txt 13 "x"]],
    Ex.el 7 "a" [("href", "1")] []]]

theorem docIndented_ok : IsDocument (docHeap 0 docIndented) 2147483647 docIndented := isDocument_of_ok (by decide +kernel)
theorem docDense_ok : IsDocument (docHeap 0 docDense) 2147483647 docDense := isDocument_of_ok (by decide +kernel)

theorem wsp_space (p : Ptr) (s : String) (h : ∀ c ∈ lit s, Spec.Ws c) : (wsp p s).IsSpace := ⟨lit s, .inr rfl, h⟩

theorem docIndented_dense : docIndented.Unindented docDense := by
  refine ⟨.inl rfl, .inr ⟨_, _, rfl, ⟨.inl rfl, ?_⟩, rfl⟩⟩
  refine .inl ⟨wsp_space _ _ (by decide), by decide, .inr ⟨_, _, rfl, ⟨.inl rfl, .inl ⟨wsp_space _ _ (by decide), by decide, rfl⟩⟩, ?_⟩⟩
  refine .inl ⟨wsp_space _ _ (by decide), by decide, .inr ⟨_, _, rfl, ⟨.inl rfl, ?_⟩, ?_⟩⟩
  · refine .inl ⟨wsp_space _ _ (by decide), by decide, .inr ⟨_, _, rfl, ⟨.inl rfl, .inr ⟨_, _, rfl, ⟨.inl rfl, rfl⟩, rfl⟩⟩, ?_⟩⟩
    refine .inr ⟨_, _, rfl, ⟨.inr ⟨lit "\n   ", lit " ", .inl rfl, .inr rfl, ?_⟩, rfl⟩, ?_⟩
    · exact .gap (w := lit "\n   ") (w' := lit " ") (s := []) (s' := []) ⟨by decide, by decide⟩ ⟨by decide, by decide⟩ .nil
    · exact .inr ⟨_, _, rfl, ⟨.inl rfl, .inr ⟨_, _, rfl, ⟨.inl rfl, rfl⟩, rfl⟩⟩, .inl ⟨wsp_space _ _ (by decide), by decide, rfl⟩⟩
  · exact .inl ⟨wsp_space _ _ (by decide), by decide, .inr ⟨_, _, rfl, ⟨.inl rfl, rfl⟩, rfl⟩⟩

theorem docDense_self : docDense.Unindented docDense := by
  repeat' (first | rfl | exact .inl rfl | refine .inr ⟨_, _, rfl, ?_, ?_⟩ | refine ⟨.inl rfl, ?_⟩)

example : extract Ex.rx (docHeap 0 docIndented) textRule docIndented.ptr 0 = extract Ex.rx (docHeap 0 docDense) textRule docDense.ptr 0 :=
  indentation_does_not_matter_partial (n := 2147483647) (n' := 2147483647) (by decide) (by decide) (textRule_safe _) (textRule_safe _) textRule_calls
    textRule_anchored textRule_tags docIndented_ok docDense_ok docIndented_dense

example (ms : UInt64) (res : List (List (Str × Str)))
    (he : extract Ex.rx (docHeap 0 docIndented) textRule docIndented.ptr ms = pure res) :
    extract Ex.rx (docHeap 0 docDense) textRule docDense.ptr ms = pure res :=
  C105_limit_partial (n := 2147483647) (n' := 2147483647) (by decide) (by decide) (textRule_safe _) (textRule_safe _) textRule_calls
    textRule_anchored textRule_tags docIndented_ok docDense_ok docIndented_dense ms res he

example : extract Ex.rx (docHeap 0 docIndented) textRule docIndented.ptr 0 = extract Ex.rx (docHeap 0 docDense) textRule docDense.ptr 0 :=
  C105_layouts_partial (n := 2147483647) (n' := 2147483647) (m := 2147483647) (by decide) (by decide) (by decide) (textRule_safe _)
    (textRule_safe _) (textRule_safe _) textRule_calls textRule_anchored textRule_tags docIndented_ok docDense_ok docDense_ok
    docIndented_dense docDense_self

example : extract Ex.rx (docHeap 0 docIndented) textRule docIndented.ptr 0 = extract Ex.rx (docHeap 0 docDense) textRule docDense.ptr 0 :=
  C105_hext_partial (noLong_of_few (by decide +kernel)) (by decide +kernel) (by decide +kernel) (by decide +kernel) (by decide +kernel) textRule_parsed
    (isDocument_of_ok (by decide +kernel)) (isDocument_of_ok (by decide +kernel)) docIndented_dense

/-- C105 fails if all child rules are optional: `<div href:x><?b/></div>` matches the `div` that contains a space, but not the
empty `div`. -/
theorem space_fills_empty_element :
    extract Ex.rx (docHeap 0 docIndented) optRule docIndented.ptr 0 = pure [[(lit "x", lit "0")]] ∧
    extract Ex.rx (docHeap 0 docDense) optRule docDense.ptr 0 = pure [] := by
  have h1 := extract_eq (rx := Ex.rx) (n := 2147483647) (by decide) (optRule_safe _) (l := Loc.root docIndented) docIndented_ok
  have h2 := extract_eq (rx := Ex.rx) (n := 2147483647) (by decide) (optRule_safe _) (l := Loc.root docDense) docDense_ok
  have e1 : (Loc.root docIndented).ptr = docIndented.ptr := rfl
  have e2 : (Loc.root docDense).ptr = docDense.ptr := rfl
  rw [← e1, ← e2, h1, h2]
  decide +kernel

/-- `<*/><*/><*/><a href:x/>` -/
def anyThreeRule : Rule := .mk { tag := .any } none (some anyAnyRule) []

theorem anyThreeRule_safe (n : Nat) : anyThreeRule.Safe n := by
  simp [Rule.Safe, Rule.All, Rule.AllO, Rule.AllL, anyThreeRule, anyAnyRule, anyRule, Ex.rule, RuleInfo.Safe, Match.SafeL, Capture.Safe, Ex.capHref]

/-- C105 fails for `*`: `<*/><*/><*/><a href:x/>` finds the link behind two elements and indentation, but not the link behind two
elements. -/
theorem any_matches_space :
    extract Ex.rx (docHeap 0 docIndented) anyThreeRule docIndented.ptr 0 = pure [[(lit "x", lit "1")]] ∧
    extract Ex.rx (docHeap 0 docDense) anyThreeRule docDense.ptr 0 = pure [] := by
  have h1 := extract_eq (rx := Ex.rx) (n := 2147483647) (by decide) (anyThreeRule_safe _) (l := Loc.root docIndented) docIndented_ok
  have h2 := extract_eq (rx := Ex.rx) (n := 2147483647) (by decide) (anyThreeRule_safe _) (l := Loc.root docDense) docDense_ok
  have e1 : (Loc.root docIndented).ptr = docIndented.ptr := rfl
  have e2 : (Loc.root docDense).ptr = docDense.ptr := rfl
  rw [← e1, ← e2, h1, h2]
  decide +kernel

/-- Whitespace that is not next to a block counts: without the space between the two `b`, their words run together. -/
theorem space_between_inlines_counts :
    CaptureFn.text.val (docHeap 0 docDense) (Ex.el 8 "p" [] [Ex.el 15 "b" [] [Ex.txt 10 "a"], wsp 11 " ", Ex.el 12 "b" [] [Ex.txt 13 "x"]]) = lit "a x" ∧
    CaptureFn.text.val (docHeap 0 docDense) (Ex.el 8 "p" [] [Ex.el 15 "b" [] [Ex.txt 10 "a"], Ex.el 12 "b" [] [Ex.txt 13 "x"]]) = lit "ax" := by
  decide +kernel

/-! ## C106 -/

/-- C106. A rule without functions does not look into texts and comments: the nodes that are not elements may have any contents,
and may be of any kind, as long as there are as many of them at the same places. -/
theorem only_elements_are_looked_at (hn : n ≤ 2147483647) (hn' : n' ≤ 2147483647) (hs : r.Safe n) (hs' : r.Safe n')
    (hf : r.All (RuleInfo.Calls fun _ => False)) (ht : IsDocument h n t) (ht' : IsDocument h' n' t')
    (hsame : t.Alike Kind.SameElement t') (ms : UInt64) : extract rx h r t.ptr ms = extract rx h' r t'.ptr ms :=
  extract_rel (l := Loc.root t) (l' := Loc.root t') hn hn' (sameElement_good fun _ h => h.elim) (none_good h h') hs hs' hf
    (.inl fun _ hd => hd) ht ht' (root_rel (trel_of_alike _ _ hsame)) ms (.inl fun _ hd => hd)

theorem parse_no_function {cs : Bool} (hat : (64 : Byte) ∉ s) (h : parseHext rx cs s = .ok r) :
    r.All (RuleInfo.Calls fun _ => False) :=
  parse_calls (fun fn hfn => by
    refine absurd (hfn.subset (a := 64) ?_) hat
    cases fn <;> decide) h

/-- C106 for hexts that do not contain the byte `@`. -/
theorem C106_hext (hs : NoLong s) (hat : (64 : Byte) ∉ s) (hp : parseHext rx charSigned s = .ok r)
    (ht : IsDocument h 1147483648 t) (ht' : IsDocument h' 1147483648 t')
    (hsame : t.Alike Kind.SameElement t') (ms : UInt64) : extract rx h r t.ptr ms = extract rx h' r t'.ptr ms :=
  only_elements_are_looked_at (by decide) (by decide) (parse_safe hs hp) (parse_safe hs hp) (parse_no_function hat hp) ht ht' hsame ms

/-- `docComment` with texts instead of comments. -/
def docTexts : Tree :=
  Ex.el 1 "html" [] [Ex.el 2 "body" [] [Ex.txt 3 "some", Ex.el 4 "div" [("href", "0")] [Ex.txt 5 "other"],
    wsp 6 "\n", Ex.el 7 "a" [("href", "1")] []]]

theorem docTexts_ok : IsDocument (docHeap 0 docTexts) 2147483647 docTexts := isDocument_of_ok (by decide +kernel)

theorem docComment_texts : docComment.Alike Kind.SameElement docTexts := by
  refine ⟨.inl rfl, _, _, rfl, ⟨.inl rfl, _, _, rfl, ⟨.inr ⟨nofun, nofun⟩, rfl⟩, _, _, rfl,
    ⟨.inl rfl, _, _, rfl, ⟨.inr ⟨nofun, nofun⟩, rfl⟩, rfl⟩, _, _, rfl, ⟨.inr ⟨nofun, nofun⟩, rfl⟩, _, _, rfl, ⟨.inl rfl, rfl⟩, rfl⟩, rfl⟩

example (ms : UInt64) : extract Ex.rx (docHeap 0 docComment) bodyRule docComment.ptr ms =
    extract Ex.rx (docHeap 0 docTexts) bodyRule docTexts.ptr ms :=
  only_elements_are_looked_at (by decide) (by decide) (bodyRule_safe 2147483647) (bodyRule_safe 2147483647) (bodyRule_calls _)
    docComment_ok docTexts_ok docComment_texts ms

example (ms : UInt64) : extract Ex.rx (docHeap 0 docComment) hrefRule docComment.ptr ms =
    extract Ex.rx (docHeap 0 docTexts) hrefRule docTexts.ptr ms :=
  C106_hext href_short (by decide +kernel) (href_parsed Ex.rx true) (isDocument_of_ok (by decide +kernel))
    (isDocument_of_ok (by decide +kernel)) docComment_texts ms

/-! ## C107 -/

/-- C107, in part. A rule without functions gives the same if everything but the elements is removed from the document. No rule may
be for any tag (`*`), a rule with child rules must have a mandatory one, and there must be no limit. -/
theorem texts_do_not_matter_partial (hn : n ≤ 2147483647) (hn' : n' ≤ 2147483647) (hs : r.Safe n) (hs' : r.Safe n')
    (hf : r.All (RuleInfo.Calls fun _ => False)) (ha : r.Anchored) (htag : r.All fun i => i.tag ≠ .any)
    (ht : IsDocument h n t) (ht' : IsDocument h' n' t') (hsame : t.bare.SameContent t') :
    extract rx h r t.ptr 0 = extract rx h' r t'.ptr 0 :=
  extract_rel (l := Loc.root t) (l' := Loc.root t') hn hn' (sameElement_good fun _ h => h) (none_good h h') hs hs' hf
    (.inr ⟨ha, htag⟩) ht ht' (root_rel (trel_of_bare _ _ (alike_mono (fun _ _ h => .inl h) _ _ hsame))) 0 (.inr rfl)

/-- C107, in part, with a limit. -/
theorem C107_limit_partial (hn : n ≤ 2147483647) (hn' : n' ≤ 2147483647) (hs : r.Safe n) (hs' : r.Safe n')
    (hf : r.All (RuleInfo.Calls fun _ => False)) (ha : r.Anchored) (htag : r.All fun i => i.tag ≠ .any)
    (ht : IsDocument h n t) (ht' : IsDocument h' n' t') (hsame : t.bare.SameContent t') (ms : UInt64)
    (res : List (List (Str × Str))) (he : extract rx h r t.ptr ms = pure res) : extract rx h' r t'.ptr ms = pure res :=
  extract_within (l := Loc.root t) (l' := Loc.root t') hn hn' (sameElement_good fun _ h => h) (none_good h h') hs hs' hf
    (.inr ⟨ha, htag⟩) ht ht' (root_rel (trel_of_bare _ _ (alike_mono (fun _ _ h => .inl h) _ _ hsame))) ms he

/-- C107 for hexts, in part: the hext does not contain the bytes `@`, `?` and `*`. -/
theorem C107_hext_partial (hs : NoLong s) (hat : (64 : Byte) ∉ s) (hq : (63 : Byte) ∉ s) (hstar : (42 : Byte) ∉ s)
    (hp : parseHext rx charSigned s = .ok r) (ht : IsDocument h 1147483648 t) (ht' : IsDocument h' 1147483648 t')
    (hsame : t.bare.SameContent t') : extract rx h r t.ptr 0 = extract rx h' r t'.ptr 0 := by
  have hsafe := parse_safe hs hp
  rcases parse_unmarked hq hstar hp with hc | ⟨ha, htag⟩
  · have h1 := no_captures_no_results (rx := rx) (h := h) (l := Loc.root t) (by decide) hsafe hc ht
    have h2 := no_captures_no_results (rx := rx) (h := h') (l := Loc.root t') (by decide) hsafe hc ht'
    exact h1.trans h2.symm
  · exact texts_do_not_matter_partial (by decide) (by decide) hsafe hsafe (parse_no_function hat hp) ha htag ht ht' hsame

theorem docTexts_bare : docTexts.bare.SameContent docPlain := by
  repeat' (first | rfl | refine ⟨_, _, rfl, ?_, ?_⟩ | refine ⟨rfl, ?_⟩)

example : extract Ex.rx (docHeap 0 docTexts) bodyRule docTexts.ptr 0 = extract Ex.rx (docHeap 0 docPlain) bodyRule docPlain.ptr 0 :=
  texts_do_not_matter_partial (by decide) (by decide) (bodyRule_safe 2147483647) (bodyRule_safe _) (bodyRule_calls _) bodyRule_anchored
    bodyRule_tags docTexts_ok docPlain_ok docTexts_bare

example (ms : UInt64) (res : List (List (Str × Str)))
    (he : extract Ex.rx (docHeap 0 docTexts) bodyRule docTexts.ptr ms = pure res) :
    extract Ex.rx (docHeap 0 docPlain) bodyRule docPlain.ptr ms = pure res :=
  C107_limit_partial (by decide) (by decide) (bodyRule_safe 2147483647) (bodyRule_safe 2147483647) (bodyRule_calls _) bodyRule_anchored
    bodyRule_tags docTexts_ok docPlain_ok docTexts_bare ms res he

example : extract Ex.rx (docHeap 0 docTexts) hrefRule docTexts.ptr 0 = extract Ex.rx (docHeap 0 docPlain) hrefRule docPlain.ptr 0 :=
  C107_hext_partial href_short (by decide +kernel) (by decide +kernel) (by decide +kernel) (href_parsed Ex.rx true)
    (isDocument_of_ok (by decide +kernel)) (isDocument_of_ok (by decide +kernel)) docTexts_bare

/-- C107 fails if all child rules are optional: `<div href:x><?b/></div>` matches the `div` that contains a text, but not the
empty `div`; it fails for `*`, which matches texts; and it fails for limits, since texts cost searches. -/
theorem texts_can_matter :
    (extract Ex.rx (docHeap 0 docTexts) optRule docTexts.ptr 0 = pure [[(lit "x", lit "0")]] ∧
      extract Ex.rx (docHeap 0 docPlain) optRule docPlain.ptr 0 = pure []) ∧
    (extract Ex.rx (docHeap 0 docTexts) anyAnyRule docTexts.ptr 0 = pure [[(lit "x", lit "1")]] ∧
      extract Ex.rx (docHeap 0 docPlain) anyAnyRule docPlain.ptr 0 = pure []) ∧
    (extract Ex.rx (docHeap 0 docTexts) bodyRule docTexts.ptr 4 = throw .maxSearch ∧
      extract Ex.rx (docHeap 0 docPlain) bodyRule docPlain.ptr 4 = pure [[(lit "x", lit "1"), (lit "y", lit "0")]]) := by
  have h1 := fun r hs ms => extract_eq (rx := Ex.rx) (n := 2147483647) (r := r) (by decide) hs (l := Loc.root docTexts) docTexts_ok (ms := ms)
  have h2 := fun r hs ms => extract_eq (rx := Ex.rx) (n := 2147483647) (r := r) (by decide) hs (l := Loc.root docPlain) docPlain_ok (ms := ms)
  have e1 : (Loc.root docTexts).ptr = docTexts.ptr := rfl
  have e2 : (Loc.root docPlain).ptr = docPlain.ptr := rfl
  rw [← e1, ← e2, h1 _ (optRule_safe _), h1 _ (anyAnyRule_safe _), h1 _ (bodyRule_safe _), h2 _ (optRule_safe _),
    h2 _ (anyAnyRule_safe _), h2 _ (bodyRule_safe _)]
  refine ⟨⟨?_, ?_⟩, ⟨?_, ?_⟩, ?_, ?_⟩ <;> decide +kernel

end

end Hext.Props
