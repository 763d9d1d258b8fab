import Verif.Proofs.Similar
import Verif.Props.Extract
set_option linter.unusedSimpArgs false
/-!
# What the result of an extraction does not depend on

C56: the addresses of the nodes. C57: other captures. C58: comments. C59: the order of attributes. C60: whether the only
rule is optional.
-/

namespace Hext.Props

open Hext Param

section
variable {rx : RxEngine} {h h' : Heap} {n n' : Nat} {r : Rule} {t t' : Tree}

/-! ## C56 -/

/-- C56. Two copies of a document, stored wherever, give the same result and throw for the same limits, if the rule calls no
functions except the ones hext provides (a function of the user gets the address of the node). -/
theorem same_content_same_result (hn : n ≤ 2147483647) (hn' : n' ≤ 2147483647) (hs : r.Safe n) (hs' : r.Safe n')
    (hb : r.All (RuleInfo.Calls CaptureFn.Builtin)) (ht : IsDocument h n t) (ht' : IsDocument h' n' t')
    (hsame : t.SameContent t') (ms : UInt64) : extract rx h r t.ptr ms = extract rx h' r t'.ptr ms :=
  extract_rel (l := Loc.root t) (l' := Loc.root t') hn hn' eq_good.good (builtin_good h h') hs hs' hb (.inl fun _ hd => hd) ht ht'
    (root_rel (trel_of_alike _ _ hsame)) ms (.inl fun _ hd => hd)

/-- A second copy of `Ex.doc` at other addresses. -/
def docCopy : Tree :=
  Ex.el 71 "html" [] [Ex.el 32 "body" [] [Ex.el 43 "div" []
    [Ex.el 24 "a" [("href", "1")] [Ex.txt 15 "x"], Ex.el 16 "b" [] [Ex.txt 17 "y"],
     Ex.el 18 "a" [("href", "2")] [Ex.txt 9 "z"], Ex.el 10 "p" [] []]]]

theorem docCopy_ok : IsDocument (docHeap 99 docCopy) 2147483647 docCopy := isDocument_of_ok (by decide +kernel)

theorem docCopy_same : Ex.doc.SameContent docCopy := by
  repeat' (first | rfl | refine ⟨_, _, rfl, ?_, ?_⟩ | refine ⟨rfl, ?_⟩)

theorem r_calls (F : CaptureFn → Prop) : Ex.r.All (RuleInfo.Calls F) := by
  simp [Rule.All, Rule.AllO, Rule.AllL, Ex.r, Ex.rule, RuleInfo.Calls, Match.CallsL, Capture.Calls, Ex.capHref]

example (ms : UInt64) : extract Ex.rx Ex.heap Ex.r Ex.doc.ptr ms = extract Ex.rx (docHeap 99 docCopy) Ex.r docCopy.ptr ms :=
  same_content_same_result (by decide) (by decide) (Ex.r_safe _) (Ex.r_safe _) (r_calls _) Ex.doc_ok docCopy_ok docCopy_same ms

/-! ## C57 -/

theorem bind_eq_pure {α β : Type} {x : E α} {f : α → E β} {b : β} (h : (x >>= f) = pure b) :
    ∃ a, x = pure a ∧ f a = pure b := by
  match x, h with
  | some (.ok a), h => exact ⟨a, rfl, h⟩
  | some (.error e), h => injection h with h; injection h
  | none, h => injection h

theorem capture_name {p : Ptr} {c : Capture} {q : Str × Str} (hc : c.capture rx h p = pure (some q)) : q.1 = c.resultName := by
  cases c with
  | «attribute» a nm pipe =>
    simp only [Capture.capture] at hc
    obtain ⟨nd, _, hc⟩ := bind_eq_pure hc
    split at hc
    · split at hc
      · cases E.pure_inj hc
      · split at hc
        · cases E.pure_inj hc
        · obtain ⟨w, _, hc⟩ := bind_eq_pure hc
          have := Option.some.inj (E.pure_inj hc); subst this; rfl
    · cases E.pure_inj hc
  | function f nm pipe =>
    simp only [Capture.capture] at hc
    split at hc
    · injection hc with hc; injection hc
    · obtain ⟨v, _, hc⟩ := bind_eq_pure hc
      obtain ⟨w, _, hc⟩ := bind_eq_pure hc
      have := Option.some.inj (E.pure_inj hc); subst this; rfl

theorem ruleCapture_restrict (N : Str → Bool) (p : Ptr) (cs : List (Option Capture)) (vs : List (Str × Str))
    (hv : ruleCapture rx h p cs = pure vs) :
    ruleCapture rx h p ((capturesInto N cs).map some) = pure (vs.filter fun q => N q.1) := by
  induction cs generalizing vs with
  | nil => have := E.pure_inj (hv : (pure [] : E _) = _); subst this; rfl
  | cons c cs ih =>
    cases c with
    | none => exact ih vs hv
    | some c =>
      simp only [ruleCapture] at hv
      obtain ⟨o, hc, hv⟩ := bind_eq_pure hv
      obtain ⟨ws, hr, hv⟩ := bind_eq_pure hv
      have ih := ih ws hr
      have hin : capturesInto N (some c :: cs) = (if N c.resultName then [c] else []) ++ capturesInto N cs := by
        simp only [capturesInto, List.filterMap_cons, id, List.filter_cons]
        split <;> simp
      cases o with
      | none =>
        have := E.pure_inj (hv : (pure ws : E _) = _)
        subst this
        rw [hin]
        split
        · simp only [List.map_append, List.map_cons, List.map_nil, List.cons_append, List.nil_append, ruleCapture, hc, ih]
          rfl
        · simpa using ih
      | some q =>
        have := E.pure_inj (hv : (pure (q :: ws) : E _) = _)
        subst this
        have hq := capture_name (q := q) hc
        rw [hin, List.filter_cons, hq]
        split
        · simp only [List.map_append, List.map_cons, List.map_nil, List.cons_append, List.nil_append, ruleCapture, hc, ih]
          rfl
        · simpa using ih

theorem captured_restrict {N : Str → Bool} {Ok : Loc → Prop} {g g' : Pairs RulePtr Loc}
    (hg : All2 (Pair2 (PRel (SameCapturesInto N)) (Same Ok)) g g') {vs vs' : List (Str × Str)}
    (hv : Captured rx h (found g) vs) (hv' : Captured rx h (found g') vs') :
    vs.filter (fun q => N q.1) = vs'.filter fun q => N q.1 := by
  induction hg generalizing vs vs' with
  | nil => cases hv; cases hv'; rfl
  | @cons p q g g' hpq _ ih =>
    cases hv with
    | cons k hv =>
      cases hv' with
      | cons k' hv' =>
        have hp : SameCapturesInto N p.1.val.info q.1.val.info := hpq.1
        have hx : p.2 = q.2 := lrel_eq hpq.2.1
        have h1 := ruleCapture_restrict N _ _ _ k
        have h2 := ruleCapture_restrict N _ _ _ k'
        rw [hp.2, hx, h2] at h1
        rw [List.filter_append, List.filter_append, ih hv hv', E.pure_inj h1]

theorem isMap_filter {vs m : List (Str × Str)} (N : Str → Bool) (hm : IsMap vs m) :
    IsMap (vs.filter fun q => N q.1) (m.filter fun q => N q.1) := by
  refine ⟨hm.1.filter _, fun name => ?_⟩
  have := congrArg (List.filter fun q => N q.1) (hm.2 name)
  simp only [List.filter_filter, Bool.and_comm] at this ⊢
  exact this

theorem maps_restrict {N : Str → Bool} {Ok : Loc → Prop} {gs gs' : List (Pairs RulePtr Loc)}
    (hg : All2 (All2 (Pair2 (PRel (SameCapturesInto N)) (Same Ok))) gs gs') {ms ms' : List (List (Str × Str))}
    (hm : Maps rx h (gs.map found) ms) (hm' : Maps rx h (gs'.map found) ms') :
    ms.map (·.filter fun q => N q.1) = ms'.map (·.filter fun q => N q.1) := by
  induction hg generalizing ms ms' with
  | nil => cases hm; cases hm'; rfl
  | cons hp _ ih =>
    cases hm with
    | cons c i hm =>
      cases hm' with
      | cons c' i' hm' =>
        have h1 := isMap_filter N i
        rw [captured_restrict hp c c'] at h1
        rw [List.map_cons, List.map_cons, ih hm hm', h1.unique (isMap_filter N i')]

theorem restrict_nonempty (N : Str → Bool) (ms : List (List (Str × Str))) :
    restrict N (ms.filter (· ≠ [])) = (ms.map (·.filter fun q => N q.1)).filter (· ≠ []) := by
  induction ms with
  | nil => rfl
  | cons m ms ih =>
    unfold restrict at ih ⊢
    cases m with
    | nil => simpa using ih
    | cons q m =>
      simp only [List.filter_cons, List.map_cons] at ih ⊢
      simp only [ne_eq, reduceCtorEq, not_false_eq_true, decide_true, if_true, List.map_cons, List.filter_cons]
      rw [ih]

/-- C57. What a rule captures has no influence on what it matches: take two rules that differ only in their captures and that
capture the same under the names `N`. Either both throw `MaxSearchError`, or both succeed, and the results agree in all values
whose names are in `N`. -/
theorem captures_do_not_influence_matching {l : Loc} (hn : n ≤ 2147483647) {r' : Rule} (hs : r.Safe n) (hs' : r'.Safe n)
    (N : Str → Bool) (hr : r.Alike (SameCapturesInto N) r') (hl : l.Stored h n) (ms : UInt64) :
    (extract rx h r l.ptr ms = throw .maxSearch ∧ extract rx h r' l.ptr ms = throw .maxSearch) ∨
    ∃ res res', extract rx h r l.ptr ms = pure res ∧ extract rx h r' l.ptr ms = pure res' ∧
      restrict N res = restrict N res' := by
  obtain ⟨res, _, ⟨maps, h1, h2⟩, h3⟩ := extract_result (rx := rx) hn hs hl
  obtain ⟨res', _, ⟨maps', h1', h2'⟩, h3'⟩ := extract_result (rx := rx) hn hs' hl
  have hsame := search_same (rx := rx) (fun i i' hi => hi.1) hr hl
  rw [h3, h3', hsame.2]
  split
  · exact .inl ⟨rfl, rfl⟩
  · refine .inr ⟨res, res', rfl, rfl, ?_⟩
    subst h2 h2'
    rw [restrict_nonempty, restrict_nonempty, maps_restrict hsame.1 h1 h1']

/-- `Ex.r` with a further capture. -/
def rMore : Rule := Ex.rule "div" (caps := [Ex.capText "t"]) (child := some (Ex.rule "a" (caps := [Ex.capHref "u", Ex.capHref "x"])
  (next := some (Ex.rule "b" (optional := true)))))

theorem rMore_safe (n : Nat) : rMore.Safe n := by
  simp [Rule.Safe, Rule.All, Rule.AllO, Rule.AllL, rMore, Ex.rule, RuleInfo.Safe, Match.SafeL, Capture.Safe, Ex.capHref, Ex.capText]

theorem rMore_alike : Ex.r.Alike (SameCapturesInto (· = lit "x")) rMore := by
  refine ⟨⟨rfl, rfl⟩, ⟨_, rfl, ⟨rfl, rfl⟩, rfl, ⟨_, rfl, ⟨rfl, rfl⟩, rfl, rfl, rfl⟩, rfl⟩, rfl, rfl⟩

example (ms : UInt64) :
    (extract Ex.rx Ex.heap Ex.r Ex.doc.ptr ms = throw .maxSearch ∧ extract Ex.rx Ex.heap rMore Ex.doc.ptr ms = throw .maxSearch) ∨
    ∃ res res', extract Ex.rx Ex.heap Ex.r Ex.doc.ptr ms = pure res ∧ extract Ex.rx Ex.heap rMore Ex.doc.ptr ms = pure res' ∧
      restrict (· = lit "x") res = restrict (· = lit "x") res' :=
  captures_do_not_influence_matching (l := Loc.root Ex.doc) (n := 2147483647) (by decide) (Ex.r_safe _) (rMore_safe _) _ rMore_alike Ex.doc_ok ms

/-! ## C58 -/

/-- C58, in part. Comments have no influence: a document and the document without its comments give the same result. The rule may
use `@text` and `@strip-tags` but not `@inner-html`, which returns comments, or functions of the user; no rule may be for any
tag (`*`), since such a rule matches comments; a rule with child rules must have a mandatory one; and there must be no limit,
since comments cost searches. The examples below show that each of these is needed. -/
theorem comments_do_not_matter_partial (hn : n ≤ 2147483647) (hn' : n' ≤ 2147483647) (hs : r.Safe n) (hs' : r.Safe n')
    (hf : r.All (RuleInfo.Calls CaptureFn.Textual)) (ha : r.Anchored) (htag : r.All fun i => i.tag ≠ .any)
    (ht : IsDocument h n t) (ht' : IsDocument h' n' t') (hsame : t.uncomment.SameContent t') :
    extract rx h r t.ptr 0 = extract rx h' r t'.ptr 0 :=
  extract_rel (l := Loc.root t) (l' := Loc.root t') hn hn' comment_good.good (textual_good comment_good h h') hs hs' hf
    (.inr ⟨ha, htag⟩) ht ht' (root_rel (trel_of_uncomment _ _ hsame)) 0 (.inr rfl)

/-- C58, in part, with a limit: what an extraction returns from the document with comments, it also returns from the document
without comments, under the same limit. So comments can only cost searches. -/
theorem C58_limit_partial (hn : n ≤ 2147483647) (hn' : n' ≤ 2147483647) (hs : r.Safe n) (hs' : r.Safe n')
    (hf : r.All (RuleInfo.Calls CaptureFn.Textual)) (ha : r.Anchored) (htag : r.All fun i => i.tag ≠ .any)
    (ht : IsDocument h n t) (ht' : IsDocument h' n' t') (hsame : t.uncomment.SameContent t') (ms : UInt64)
    (res : List (List (Str × Str))) (he : extract rx h r t.ptr ms = pure res) : extract rx h' r t'.ptr ms = pure res :=
  extract_within (l := Loc.root t) (l' := Loc.root t') hn hn' comment_good.good (textual_good comment_good h h') hs hs' hf
    (.inr ⟨ha, htag⟩) ht ht' (root_rel (trel_of_uncomment _ _ hsame)) ms he

/-- `<html><body><!--c--><div><!--c--></div><!--c--><a href="1"></a></body></html>` -/
def docComment : Tree :=
  Ex.el 1 "html" [] [Ex.el 2 "body" [] [.node 3 (.comment (lit "c")) [], Ex.el 4 "div" [("href", "0")] [.node 5 (.comment (lit "c")) []],
    .node 6 (.comment (lit "c")) [], Ex.el 7 "a" [("href", "1")] []]]

theorem docComment_ok : IsDocument (docHeap 0 docComment) 2147483647 docComment := isDocument_of_ok (by decide +kernel)

/-- The same without comments. -/
def docPlain : Tree :=
  Ex.el 1 "html" [] [Ex.el 2 "body" [] [Ex.el 4 "div" [("href", "0")] [], Ex.el 7 "a" [("href", "1")] []]]

theorem docPlain_ok : IsDocument (docHeap 0 docPlain) 2147483647 docPlain := isDocument_of_ok (by decide +kernel)

theorem docComment_uncomment : docComment.uncomment.SameContent docPlain := by
  repeat' (first | rfl | refine ⟨_, _, rfl, ?_, ?_⟩ | refine ⟨rfl, ?_⟩)

/-- `<body><div href:y/><a href:x/></body>` -/
def bodyRule : Rule := Ex.rule "body" (child := some (Ex.rule "div" (caps := [Ex.capHref "y"])
  (next := some (Ex.rule "a" (caps := [Ex.capHref "x"])))))

theorem bodyRule_safe (n : Nat) : bodyRule.Safe n := by
  simp [Rule.Safe, Rule.All, Rule.AllO, Rule.AllL, bodyRule, Ex.rule, RuleInfo.Safe, Match.SafeL, Capture.Safe, Ex.capHref]

theorem bodyRule_calls (F : CaptureFn → Prop) : bodyRule.All (RuleInfo.Calls F) := by
  simp [Rule.All, Rule.AllO, Rule.AllL, bodyRule, Ex.rule, RuleInfo.Calls, Match.CallsL, Capture.Calls, Ex.capHref]

theorem bodyRule_anchored : bodyRule.Anchored := by
  simp [bodyRule, Ex.rule, Rule.Anchored, Rule.AnchoredO, Rule.AnchoredL, Rule.hasMandatory, Rule.siblings, Rule.isOptional, Rule.info]

theorem bodyRule_tags : bodyRule.All fun i => i.tag ≠ .any := by
  simp [Rule.All, Rule.AllO, Rule.AllL, bodyRule, Ex.rule]

example : extract Ex.rx (docHeap 0 docComment) bodyRule docComment.ptr 0 = extract Ex.rx (docHeap 0 docPlain) bodyRule docPlain.ptr 0 :=
  comments_do_not_matter_partial (by decide) (by decide) (bodyRule_safe 2147483647) (bodyRule_safe _) (bodyRule_calls _) bodyRule_anchored
    bodyRule_tags docComment_ok docPlain_ok docComment_uncomment

example (ms : UInt64) (res : List (List (Str × Str)))
    (he : extract Ex.rx (docHeap 0 docComment) bodyRule docComment.ptr ms = pure res) :
    extract Ex.rx (docHeap 0 docPlain) bodyRule docPlain.ptr ms = pure res :=
  C58_limit_partial (by decide) (by decide) (bodyRule_safe 2147483647) (bodyRule_safe 2147483647) (bodyRule_calls _) bodyRule_anchored
    bodyRule_tags docComment_ok docPlain_ok docComment_uncomment ms res he

/-- `<div href:x><?b/></div>`: the rule has no mandatory child rule. -/
def optRule : Rule := Ex.rule "div" (caps := [Ex.capHref "x"]) (child := some (Ex.rule "b" (optional := true)))

theorem optRule_safe (n : Nat) : optRule.Safe n := by
  simp [Rule.Safe, Rule.All, Rule.AllO, Rule.AllL, optRule, Ex.rule, RuleInfo.Safe, Match.SafeL, Capture.Safe, Ex.capHref]

/-- C58 fails if all child rules are optional: `<div href:x><?b/></div>` matches the `div` that contains a comment, but not the
empty `div`. -/
theorem comment_fills_empty_element :
    extract Ex.rx (docHeap 0 docComment) optRule docComment.ptr 0 = pure [[(lit "x", lit "0")]] ∧
    extract Ex.rx (docHeap 0 docPlain) optRule docPlain.ptr 0 = pure [] := by
  have h1 := extract_eq (rx := Ex.rx) (n := 2147483647) (by decide) (optRule_safe _) (l := Loc.root docComment) docComment_ok
  have h2 := extract_eq (rx := Ex.rx) (n := 2147483647) (by decide) (optRule_safe _) (l := Loc.root docPlain) docPlain_ok
  have e1 : (Loc.root docComment).ptr = docComment.ptr := rfl
  have e2 : (Loc.root docPlain).ptr = docPlain.ptr := rfl
  rw [← e1, ← e2, h1, h2]
  decide +kernel

/-- `<*/><a href:x/>` -/
def anyRule : Rule := .mk { tag := .any } none (some (Ex.rule "a" (caps := [Ex.capHref "x"]))) []

/-- `<*/><*/><a href:x/>` -/
def anyAnyRule : Rule := .mk { tag := .any } none (some anyRule) []

theorem anyAnyRule_safe (n : Nat) : anyAnyRule.Safe n := by
  simp [Rule.Safe, Rule.All, Rule.AllO, Rule.AllL, anyAnyRule, anyRule, Ex.rule, RuleInfo.Safe, Match.SafeL, Capture.Safe, Ex.capHref]

/-- C58 fails for `*`: `<*/><*/><a href:x/>` finds the link behind a comment and a `div`, but not the one behind the `div`. -/
theorem any_matches_comments :
    extract Ex.rx (docHeap 0 docComment) anyAnyRule docComment.ptr 0 = pure [[(lit "x", lit "1")]] ∧
    extract Ex.rx (docHeap 0 docPlain) anyAnyRule docPlain.ptr 0 = pure [] := by
  have h1 := extract_eq (rx := Ex.rx) (n := 2147483647) (by decide) (anyAnyRule_safe _) (l := Loc.root docComment) docComment_ok
  have h2 := extract_eq (rx := Ex.rx) (n := 2147483647) (by decide) (anyAnyRule_safe _) (l := Loc.root docPlain) docPlain_ok
  have e1 : (Loc.root docComment).ptr = docComment.ptr := rfl
  have e2 : (Loc.root docPlain).ptr = docPlain.ptr := rfl
  rw [← e1, ← e2, h1, h2]
  decide +kernel

/-- C58 fails for limits: comments cost searches. -/
theorem comments_cost_searches :
    extract Ex.rx (docHeap 0 docComment) bodyRule docComment.ptr 4 = throw .maxSearch ∧
    extract Ex.rx (docHeap 0 docPlain) bodyRule docPlain.ptr 4 = pure [[(lit "x", lit "1"), (lit "y", lit "0")]] := by
  have h1 := extract_eq (rx := Ex.rx) (n := 2147483647) (by decide) (bodyRule_safe _) (l := Loc.root docComment) docComment_ok
  have h2 := extract_eq (rx := Ex.rx) (n := 2147483647) (by decide) (bodyRule_safe _) (l := Loc.root docPlain) docPlain_ok
  have e1 : (Loc.root docComment).ptr = docComment.ptr := rfl
  have e2 : (Loc.root docPlain).ptr = docPlain.ptr := rfl
  rw [← e1, ← e2, h1, h2]
  decide +kernel

/-! ## C59 -/

/-- C59. The order of the attributes of an element has no influence, if no two of them have the same name and the rule calls only
`@text` and `@strip-tags` (`@inner-html` returns the attributes in their order). -/
theorem attribute_order_does_not_matter (hn : n ≤ 2147483647) (hn' : n' ≤ 2147483647) (hs : r.Safe n) (hs' : r.Safe n')
    (hf : r.All (RuleInfo.Calls CaptureFn.Textual)) (ht : IsDocument h n t) (ht' : IsDocument h' n' t')
    (hsame : t.Alike Kind.Reordered t') (ms : UInt64) : extract rx h r t.ptr ms = extract rx h' r t'.ptr ms :=
  extract_rel (l := Loc.root t) (l' := Loc.root t') hn hn' reordered_good.good (textual_good reordered_good h h') hs hs' hf
    (.inl fun _ hd => hd) ht ht' (root_rel (trel_of_alike _ _ hsame)) ms (.inl fun _ hd => hd)

def docAttrs (as : List (String × String)) : Tree := Ex.el 1 "html" [] [Ex.el 2 "a" as []]

theorem docAttrs_ok : IsDocument (docHeap 0 (docAttrs [("href", "1"), ("class", "c")])) 2147483647
    (docAttrs [("href", "1"), ("class", "c")]) := isDocument_of_ok (by decide +kernel)

theorem docAttrs_ok' : IsDocument (docHeap 0 (docAttrs [("class", "c"), ("href", "1")])) 2147483647
    (docAttrs [("class", "c"), ("href", "1")]) := isDocument_of_ok (by decide +kernel)

theorem docAttrs_alike : (docAttrs [("href", "1"), ("class", "c")]).Alike Kind.Reordered (docAttrs [("class", "c"), ("href", "1")]) := by
  refine ⟨.inl rfl, _, [], rfl, ⟨.inr ⟨_, _, rfl, rfl, ?_, ?_⟩, rfl⟩, rfl⟩
  · exact List.Perm.swap _ _ _
  · simp only [DistinctNames, SameName, List.map_cons, List.map_nil, List.pairwise_cons]
    decide

example (ms : UInt64) : extract Ex.rx (docHeap 0 (docAttrs [("href", "1"), ("class", "c")])) (Ex.rule "a" (caps := [Ex.capHref "x"]))
      (docAttrs [("href", "1"), ("class", "c")]).ptr ms =
    extract Ex.rx (docHeap 0 (docAttrs [("class", "c"), ("href", "1")])) (Ex.rule "a" (caps := [Ex.capHref "x"]))
      (docAttrs [("class", "c"), ("href", "1")]).ptr ms := by
  refine attribute_order_does_not_matter (n := 2147483647) (n' := 2147483647) (by decide) (by decide) ?_ ?_ ?_ docAttrs_ok docAttrs_ok' docAttrs_alike ms
  all_goals simp [Rule.Safe, Rule.All, Rule.AllO, Rule.AllL, Ex.rule, RuleInfo.Safe, Match.SafeL, Capture.Safe, Ex.capHref,
    RuleInfo.Calls, Match.CallsL, Capture.Calls]

/-! ## C60 -/

/-- C60. If a hext has a single top-level rule, it makes no difference whether that rule is optional: `<?a …/>` and `<a …/>` give
the same result and throw for the same limits. -/
theorem sole_rule_optional {l : Loc} (hn : n ≤ 2147483647) {i : RuleInfo} {c : Option Rule} {ns : List Rule}
    (hs : (Rule.mk i c none ns).Safe n) (hl : l.Stored h n) (b : Bool) (ms : UInt64) :
    extract rx h (.mk { i with optional := b } c none ns) l.ptr ms = extract rx h (.mk i c none ns) l.ptr ms := by
  have hs' : (Rule.mk { i with optional := b } c none ns).Safe n := hs
  have hstep : ∀ b', ∃ c0 : CR RulePtr Loc, ∃ idb : RulePtr, idb.val.info.caps = i.caps ∧ c0.id.val.info.caps = i.caps ∧
      chain (ownVal rx h) [] (.mk i c none ns) = [{ c0 with optional := i.optional }] ∧
      chain (ownVal rx h) [] (.mk { i with optional := b' } c none ns) = [{ c0 with id := idb, optional := b' }] :=
    fun b' => ⟨(chain (ownVal rx h) [] (.mk i c none ns)).head (by simp [chain]), ⟨[], .mk { i with optional := b' } c none ns⟩,
      rfl, rfl, rfl, rfl⟩
  obtain ⟨c0, idb, hid, hid0, hc, hcb⟩ := hstep b
  have hgood : Good (· = ·) (fun _ => False) (fun _ => True) (fun _ => True) :=
    ⟨fun _ _ h => by rw [h], fun _ h => h.elim, fun _ _ _ _ _ => trivial, fun _ _ _ _ _ => trivial⟩
  have hrel : CRel (fun p q : RulePtr => p.val.info.caps = q.val.info.caps) (Never fun _ => True) (Same fun _ => True)
      { c0 with id := idb, optional := true } { c0 with optional := true } := by
    refine ⟨by rw [hid, hid0], rfl, rfl, ?_, ?_, fun x hx => absurd hx (never x)⟩
    · intro x y hxy
      rw [lrel_eq hxy.1]
      show Opt2 _ (c0.run y).val (c0.run y).val
      cases (c0.run y).val with
      | none => exact trivial
      | some ps => exact pair2_refl (P := fun p q : RulePtr => p.val.info.caps = q.val.info.caps) (Ok := fun _ => True) (fun _ => rfl) (fun _ _ => trivial)
    · intro x y hxy
      rw [lrel_eq hxy.1]
      exact .refl _
  have hsave := save_rel hgood (.cons hrel .nil) (same_sib (Ok := fun _ => True) (ls := l.onward) fun _ _ => trivial)
  have h1 : searchAt rx h (.mk { i with optional := b } c none ns) l = save [{ c0 with id := idb, optional := true }] l.onward := by
    rw [searchAt, hcb]; exact save_single_optional { c0 with id := idb } b l.onward
  have h2 : searchAt rx h (.mk i c none ns) l = save [{ c0 with optional := true }] l.onward := by
    rw [searchAt, hc]; exact save_single_optional c0 i.optional l.onward
  rw [extract_eq hn hs' hl, extract_eq hn hs hl, h1, h2, hsave.2.2 never,
    groupsToResult_rel (fun p q x y hp hx => by rw [lrel_eq hx.1, hp]) hsave.1]

example (b : Bool) (ms : UInt64) :
    extract Ex.rx Ex.heap (Ex.rule "a" (optional := b) (greedy := true) (caps := [Ex.capHref "x"])) Ex.doc.ptr ms =
    extract Ex.rx Ex.heap (Ex.rule "a" (greedy := true) (caps := [Ex.capHref "x"])) Ex.doc.ptr ms :=
  sole_rule_optional (n := 2147483647) (l := Loc.root Ex.doc) 
    (i := { tag := .tag (.known (lit "a")), greedy := true, caps := [some (Ex.capHref "x")] }) (by decide)
    (by simp [Rule.Safe, Rule.All, Rule.AllO, Rule.AllL, RuleInfo.Safe, Match.SafeL, Capture.Safe, Ex.capHref]) Ex.doc_ok b ms

end

end Hext.Props
