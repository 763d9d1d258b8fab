import Verif.Props.ResultGroups
import Verif.Props.Captures
import Verif.Props.Conditions
import Verif.Props.Whole
import Verif.Props.Strings
/-!
# The theorems about extraction, conditions and captures, applied

Each theorem is applied to a concrete document and rule. This shows that its hypotheses can be met, all at once.
-/

namespace Hext.Props.Applied

open Hext Hext.Props

/-- The root of the example document, with what all theorems need. -/
abbrev root : Loc := Loc.root Ex.doc

theorem limit : (2147483647 : Nat) ≤ 2147483647 := Nat.le_refl _
theorem stored : root.Stored Ex.heap 2147483647 := Ex.doc_ok
theorem safe : Ex.r.Safe 2147483647 := Ex.r_safe _

/-- The result of `<div><a href:x/><?b href:y/></div>` without limit. -/
theorem result : extract Ex.rx Ex.heap Ex.r root.ptr 0 = pure [[(lit "x", lit "1"), (lit "x", lit "2")]] := by
  rw [extract_eq (rx := Ex.rx) (h := Ex.heap) limit safe stored]
  decide +kernel

theorem result8 : extract Ex.rx Ex.heap Ex.r root.ptr 8 = pure [[(lit "x", lit "1"), (lit "x", lit "2")]] := by
  rw [extract_eq (rx := Ex.rx) (h := Ex.heap) limit safe stored]
  decide +kernel

/-! ## C01 to C04 -/

example := extract_terminates_safely (rx := Ex.rx) limit safe stored 3
example : ∀ ks ∈ root.searched, ∀ x ∈ ks, x.Stored Ex.heap 2147483647 := searched_nodes_stored Ex.doc_ok
example : IsDocument (docHeap 0 Ex.doc) (maxFanout Ex.doc) Ex.doc := every_tree_is_a_document 0 Ex.doc (by decide +kernel)
example := extract_unlimited (rx := Ex.rx) limit safe stored
example := max_searches_exact (rx := Ex.rx) limit safe stored
example : extract Ex.rx Ex.heap Ex.r root.ptr 7 = throw .maxSearch :=
  (max_searches_flat (rx := Ex.rx) limit safe stored (by simp [Rule.Flat, Rule.FlatO, Ex.r, Ex.rule]) 7 (by decide)).2 (by decide +kernel)
example : extract Ex.rx Ex.heap Ex.r root.ptr 9 = pure [[(lit "x", lit "1"), (lit "x", lit "2")]] :=
  max_searches_monotone (rx := Ex.rx) limit safe stored (by decide) (.inl (by decide)) result8
example := extract_sound (rx := Ex.rx) limit safe stored result (m := [(lit "x", lit "1"), (lit "x", lit "2")]) (by simp)
  (v := (lit "x", lit "2")) (by simp)
theorem isResult : IsResult Ex.rx Ex.heap Ex.r root [[(lit "x", lit "1"), (lit "x", lit "2")]] :=
  extract_isResult (rx := Ex.rx) limit safe stored result
example : extract Ex.rx Ex.heap Ex.r root.ptr 0 = pure [[(lit "x", lit "1"), (lit "x", lit "2")]] :=
  (extract_characterised limit safe stored _).2 isResult

/-! ## C05 to C12 -/

/-- The groups of the example. -/
theorem groups : ∃ gs, Search (Holds Ex.rx Ex.heap) Ex.r.siblings root.searched gs ∧ ∃ g, g ∈ gs := by
  obtain ⟨gs, ms, h1, h2, h3⟩ := isResult
  refine ⟨gs, h1, ?_⟩
  cases gs with
  | nil => cases h2; cases h3
  | cons g gs => exact ⟨g, by simp⟩

example := sat_iff (own := Holds Ex.rx Ex.heap) (r := Ex.r) (l := root) (fun h => by cases h.1)
example := single_rule_complete (rx := Ex.rx) limit safe stored rfl rfl result
example := C06_result (rx := Ex.rx) limit safe stored result
example := C07_result (rx := Ex.rx) limit safe stored result
example := C08_result (rx := Ex.rx) limit safe stored result
example := C10_result (rx := Ex.rx) limit safe stored result
example := C12_result (rx := Ex.rx) limit safe stored result

example : ∃ g : Found, ∃ ks ∈ root.searched, ∃ asg : List (Rule × Loc), asg ≠ [] ∧ asg.Sublist g ∧ (asg.map (·.2)).Sublist ks := by
  obtain ⟨gs, hs, g, hg⟩ := groups
  obtain ⟨ks, h1, asg, h2, h3, h4, _⟩ := group_shape stored hs hg
  exact ⟨g, ks, h1, asg, h2, h3, h4⟩

/-- The group contains the rule `div`. -/
example : ∃ g : Found, ∃ x, (Ex.r, x) ∈ g := by
  obtain ⟨gs, hs, g, hg⟩ := groups
  exact ⟨g, group_mandatory hs hg (c := Ex.r) (by simp [Ex.r, Ex.rule, Rule.siblings]) rfl⟩

example : ∃ (g : Found) (asg : List (Rule × Loc)), asg.Sublist g ∧ asg.Pairwise fun a b => a.2.ptr ≠ b.2.ptr ∧ (a.1 = b.1 → a.1.isGreedy = true) := by
  obtain ⟨gs, hs, g, hg⟩ := groups
  obtain ⟨asg, h1, _, _, h2⟩ := group_nongreedy_once stored hs hg
  exact ⟨g, asg, h1, h2⟩

example : ∃ gs : List Found, ∀ g ∈ gs, ∀ p ∈ g, (p.1 ∈ Ex.r.siblings ∧ ∃ ks ∈ root.searched, p.2 ∈ ks) ∨ ∃ o ∈ g,
    (p.1 ∈ chainOf o.1.child ∧ o.2.self.kind.isElement = true ∧ p.2 ∈ locs o.2.self.kids) ∨
      ∃ q ∈ o.1.nested, p.1 ∈ q.siblings ∧ ∃ ks ∈ o.2.self.under, p.2 ∈ ks := by
  obtain ⟨gs, hs, _⟩ := groups
  exact ⟨gs, pairs_placed hs⟩

/-- There is no table in the document. -/
example : ∃ res, extract Ex.rx Ex.heap (Ex.rule "table") root.ptr 0 = pure res ∧ res = [] := by
  have hs : (Ex.rule "table").Safe 2147483647 := by
    simp [Rule.Safe, Rule.All, Rule.AllO, Rule.AllL, Ex.rule, RuleInfo.Safe, Match.SafeL, Capture.Safe]
  obtain ⟨res, he⟩ := extract_unlimited (rx := Ex.rx) limit hs stored
  refine ⟨res, he, no_embedding_no_result (rx := Ex.rx) limit hs stored he ?_⟩
  intro ks hks hemb
  have hno : ∀ x ∈ ks, ¬ Sat (Holds Ex.rx Ex.heap) (Ex.rule "table") x := by
    intro x hx hsat
    have hh : Holds Ex.rx Ex.heap (Ex.rule "table").info x := by cases hsat <;> assumption
    have : ∀ ks ∈ root.searched, ∀ x ∈ ks, ruleMatches Ex.rx Ex.heap (Ex.rule "table").info x.ptr ≠ pure true := by decide +kernel
    exact this ks hks x hx hh
  clear hks
  have hq : (Ex.rule "table").siblings = [Ex.rule "table"] := rfl
  rw [hq] at hemb
  induction ks with
  | nil =>
    cases hemb with
    | optional h => cases h
  | cons k ks ih =>
    cases hemb with
    | optional h => cases h
    | here _ h => exact hno k (by simp) h
    | later h => exact ih h fun x hx => hno x (by simp [hx])

/-- The list of siblings that consists of `div`. -/
abbrev divs : List Loc := (root.searched)[2]'(by decide +kernel)

/-- `div` satisfies the rule, so there is a group. -/
example : ∃ g : Found, ∃ rest, Group (Holds Ex.rx Ex.heap) Ex.r.siblings divs g rest := by
  obtain ⟨gs, hs, _⟩ := groups
  have hh : ∀ (i : RuleInfo) (x : Loc), ruleMatches Ex.rx Ex.heap i x.ptr = pure true → Holds Ex.rx Ex.heap i x := fun _ _ h => h
  have hemb : Embeds (Holds Ex.rx Ex.heap) Ex.r.siblings divs :=
    .here rfl (.inner (hh _ _ (by decide +kernel)) rfl (by decide) (.here rfl (.leaf (hh _ _ (by decide +kernel)) rfl rfl) (.optional rfl .nil)) .nil) .nil
  obtain ⟨g, _, rest, hg⟩ := embedding_gives_group hs ⟨Ex.r, by simp [Ex.r, Ex.rule, Rule.siblings], rfl⟩ (List.getElem_mem _) hemb
  exact ⟨g, rest, hg⟩

/-! ### Greedy rules -/

abbrev root2 : Loc := Loc.root doc2
theorem stored2 : root2.Stored (docHeap 0 doc2) 2147483647 := doc2_ok

theorem groups2 (o g : Bool) {m : List (Str × Str)} {res : List (List (Str × Str))}
    (he : extract Ex.rx (docHeap 0 doc2) (abRule o g) root2.ptr 0 = pure (m :: res)) :
    ∃ gs, Search (Holds Ex.rx (docHeap 0 doc2)) (abRule o g).siblings root2.searched gs ∧ ∃ g, g ∈ gs := by
  obtain ⟨gs, ms, h1, h2, h3⟩ := extract_isResult (rx := Ex.rx) limit (abRule_safe o g _) stored2 he
  refine ⟨gs, h1, ?_⟩
  cases gs with
  | nil => cases h2; cases h3
  | cons g gs => exact ⟨g, by simp⟩

/-- The rule `<+b href:x/>` of the chains below. -/
abbrev greedyB : Rule := Ex.rule "b" (greedy := true) (caps := [Ex.capHref "x"])

/-- `<a/><+b href:x/>` takes all `b`. -/
example := C09_result_partial (rx := Ex.rx) limit (abRule_safe false false _) stored2 greedy_after_mandatory
  (pre := [abRule false false]) (c := greedyB) (post := []) rfl rfl (.inr rfl)
/-- `<?a/><+b href:x/>` takes one `b` only. -/
example := C09_result_once (rx := Ex.rx) limit (abRule_safe true false _) stored2 greedy_after_optional_once
  (pre := [abRule true false]) (c := greedyB) (post := []) rfl rfl rfl

example : ∃ g : Found, ∃ ks ∈ root2.searched, ∃ ns, ns <:+ ks ∧ ∃ (a1 a2 a3 : List (Rule × Loc)) (p mid s1 : List Loc),
    (a1 ++ a2 ++ a3).Sublist g ∧ ns = p ++ mid ++ s1 ∧ a2.map Prod.snd = satIn (Sat (Holds Ex.rx (docHeap 0 doc2))) greedyB mid := by
  obtain ⟨gs, hs, g, hg⟩ := groups2 false false greedy_after_mandatory
  obtain ⟨ks, h1, ns, h2, a1, a2, a3, p, mid, s1, h3, h4, _, _, _, _, h5, _⟩ := greedy_takes_all_partial hs hg
    (pre := [abRule false false]) (c := greedyB) (post := []) rfl rfl (.inr rfl)
  exact ⟨g, ks, h1, ns, h2, a1, a2, a3, p, mid, s1, h3, h4, h5⟩

example : ∃ g : Found, ∃ (steps : List (Anchored Assigned)) (final us1 : List Assigned) (u : Assigned) (us3 : List Assigned),
    g = groupPairs steps final ∧ Anchored.uses steps final = us1 ++ u :: us3 ∧ u.rule = greedyB := by
  obtain ⟨gs, hs, g, hg⟩ := groups2 true false greedy_after_optional_once
  obtain ⟨steps, final, us1, u, us3, h1, h2, h3, _⟩ := greedy_once hs hg
    (pre := [abRule true false]) (c := greedyB) (post := []) rfl rfl rfl
  exact ⟨g, steps, final, us1, u, us3, h1, h2, h3⟩

/-! ## C13 -/

/-- `<div><a href:x/></div>` -/
abbrev divA : Rule := Ex.rule "div" (child := some (Ex.rule "a" (caps := [Ex.capHref "x"])))

theorem sameMandatory : SameMandatory (chainOf Ex.r.child) (chainOf divA.child) := by
  simp [SameMandatory, mandatoryOf, Ex.r, Ex.rule, Rule.alone, chainOf, Rule.siblings, Rule.child, Rule.isOptional, Rule.info]

example : Sat (Holds Ex.rx Ex.heap) Ex.r root ↔ Sat (Holds Ex.rx Ex.heap) divA root :=
  optional_never_blocks_partial rfl rfl sameMandatory rfl (by decide)
example : Sat (Holds Ex.rx Ex.heap) Ex.r root ↔ Sat (Holds Ex.rx Ex.heap) divA root :=
  optional_never_blocks_inner rfl rfl sameMandatory ⟨fun h => (by cases h), fun h => (by cases h)⟩
example {ls : List Loc} (h : Embeds (Holds Ex.rx Ex.heap) (chainOf Ex.r.child) ls) : Embeds (Holds Ex.rx Ex.heap) (chainOf divA.child) ls :=
  embeds_of_sameMandatory sameMandatory h
example := optional_blocks_iff (own := Holds Ex.rx Ex.heap) (r := Ex.r) (r' := divA) (l := root) rfl rfl sameMandatory

/-! ## C14 to C16 -/

example := no_empty_maps (rx := Ex.rx) limit safe stored result
example := result_maps (rx := Ex.rx) limit safe stored result
theorem aMap : IsMap [(lit "b", lit "1"), (lit "a", lit "2"), (lit "b", lit "0")] [(lit "a", lit "2"), (lit "b", lit "1"), (lit "b", lit "0")] := by
  have := foldl_isMap [(lit "b", lit "1"), (lit "a", lit "2"), (lit "b", lit "0")] [] [] ⟨by simp, by simp⟩
  have e : [(lit "b", lit "1"), (lit "a", lit "2"), (lit "b", lit "0")].foldl (fun m v => multimapInsert v m) [] =
      [(lit "a", lit "2"), (lit "b", lit "1"), (lit "b", lit "0")] := by decide +kernel
  exact e ▸ this
example := isMap_perm aMap
example := isMap_sorted_stable aMap
example := isMap_unique aMap aMap

/-- The list of siblings that consists of `a`, `b`, `a` and `p`. -/
abbrev four : List Loc := (root.searched)[3]'(by decide +kernel)
theorem four_stored : ∀ x ∈ four, x.Stored Ex.heap 2147483647 := searched_nodes_stored Ex.doc_ok _ (List.getElem_mem _)

/-- The first link of the example document, and the element `b`. -/
abbrev link : Loc := four[0]'(by decide +kernel)
abbrev bold : Loc := four[1]'(by decide +kernel)
theorem link_stored : link.Stored Ex.heap 2147483647 := four_stored _ (List.getElem_mem _)
theorem bold_stored : bold.Stored Ex.heap 2147483647 := four_stored _ (List.getElem_mem _)

theorem href_safe : hrefRule.Safe 2147483647 := by
  simp [hrefRule, Rule.Safe, Rule.All, Rule.AllO, Rule.AllL, RuleInfo.Safe, Ex.rule, Rule.appendMatch, Match.SafeL, Match.SafeO, Match.Safe,
    Ex.capHref, Capture.Safe]
theorem href_result : ∃ res, extract Ex.rx Ex.heap hrefRule root.ptr 0 = pure res := by
  rw [extract_eq (rx := Ex.rx) (h := Ex.heap) limit href_safe stored]
  exact ⟨[[(lit "x", lit "1")], [(lit "x", lit "2")]], by decide +kernel⟩
example : ∃ res gs maps, extract Ex.rx Ex.heap hrefRule root.ptr 0 = pure res ∧ Search (Holds Ex.rx Ex.heap) hrefRule.siblings root.searched gs ∧
    Maps Ex.rx Ex.heap gs maps := by
  obtain ⟨res, h⟩ := href_result
  obtain ⟨gs, maps, h1, h2, _⟩ := C16_hext hrefItems_ok (by rw [← href_parsed Ex.rx true]; rfl) limit href_safe stored h
  exact ⟨res, gs, maps, h, h1, h2⟩
example := mandatory_capture_present (rx := Ex.rx) limit safe stored result
example : (Ex.capHref "x").capture Ex.rx Ex.heap link.ptr = pure (some (lit "x", lit "1")) :=
  (attribute_capture_iff link_stored _ _ _ _).2 (.inl ⟨_, { name := lit "href", value := some (lit "1") }, lit "1", lit "1", rfl,
    ⟨[], [], rfl, by simp only [SameName]; decide +kernel, by simp⟩, rfl, rfl, rfl⟩)
example : (Ex.capText "t").capture Ex.rx Ex.heap bold.ptr = pure (some (lit "t", lit "y")) :=
  (function_capture_iff bold_stored .text _ _ _).2 ⟨lit "y", by decide +kernel, rfl⟩
example := rule_capture_iff (rx := Ex.rx) link_stored [some (Ex.capHref "x"), none, some (Ex.capText "t")]
  (by simp [Ex.capHref, Ex.capText, Capture.Safe])

/-! ## C17 to C25 -/

example := nth_child_no_overflow_partial (rx := Ex.rx) link_stored limit (step := 2) (shift := 1) (by unfold NthSafe; decide) true false
example := nth_child_overflow_iff (rx := Ex.rx) link_stored limit (step := 2) (shift := 1) true false (by decide) (by decide) rfl
example := only_child_iff (rx := Ex.rx) link_stored limit rfl false
example := child_count_iff (rx := Ex.rx) stored limit 1
example := attribute_count_iff (rx := Ex.rx) link_stored limit 1
example := attr_present_iff (rx := Ex.rx) link_stored limit (lit "HREF")
example := attr_missing_iff (rx := Ex.rx) bold_stored limit (lit "href")
example := attr_test_iff (rx := Ex.rx) link_stored limit (lit "href") (t := .equals (lit "1")) (by trivial) (by simp [ValueTest.Accepts])
example := attr_negated_test_iff (rx := Ex.rx) link_stored limit (lit "href") (t := .equals (lit "1")) (by trivial) (by simp [ValueTest.Accepts])
example : (Match.attribute (lit "href") (some (.negate (.equals (lit "2"))))).matches Ex.rx Ex.heap link.ptr = pure true ↔
    (Match.attribute (lit "href") (some (.equals (lit "2")))).matches Ex.rx Ex.heap link.ptr = pure false :=
  attr_negation_complements link_stored limit (lit "href") (by trivial) (by simp [ValueTest.Accepts]) (by
    intro e a he ha
    cases he
    obtain ⟨b, c, h1, _⟩ := ha
    have : a ∈ [({ name := lit "href", value := some (lit "1") } : Attr)] := by rw [show [_] = b ++ a :: c from h1]; simp
    simp only [List.mem_singleton] at this
    rw [this]; simp) rfl
example := negate_iff (rx := Ex.rx) link_stored limit (ms := [some (.childCount 3), none]) (by simp [Match.SafeL, Match.SafeO, Match.Safe])
  (by simp [Match.WordsOkL, Match.WordsOk])
example := negate_negate (rx := Ex.rx) link_stored limit (m := .nthChild 2 1 true false) (by unfold Match.Safe NthSafe; decide) (by trivial)
example := tag_iff (rx := Ex.rx) link_stored { tag := .tag (.known (lit "a")) } rfl
example := known_tag_rule (rx := Ex.rx) link_stored (lit "A") (by decide) false false (by decide +kernel)
example := custom_tag_rule (rx := Ex.rx) link_stored (lit "my-tag") (by decide) false false (by decide +kernel)

/-! ## C26 to C31 -/

example := collapseWs_normal_form (lit " a \n b ") (lit "a b") (by decide +kernel)
example := collapseWs_idempotent (lit " a \n b ") (lit "a b") (by decide +kernel)
example := trim_idempotent Ex.rx (lit "_ ") (lit " _a_") (lit "a") (by decide +kernel)
example := strip_tags_correct link_stored
example := text_correct link_stored
example : ∃ s, CaptureFn.text.call Ex.heap bold.ptr = pure s ∧ (Spec.words s).flatten = lit "y" := by
  obtain ⟨s, _, h1⟩ := text_correct bold_stored
  exact ⟨_, h1, (text_keeps_bytes bold_stored h1).trans (by decide +kernel)⟩
example := text_inline bold_stored rfl (by rw [Ex.txt, NoBlocks, NoBlocks]; exact ⟨rfl, trivial, trivial⟩)
example := inner_html_correct bold_stored rfl (by
  rw [show bold.self.kids = [Ex.txt 7 "y"] by rfl, Ex.txt, noDocument, noDocument]
  exact ⟨(fun _ h => nomatch h), trivial, trivial⟩)
example := attribute_readable { name := lit "href", value := some (lit "a\"b") } (lit "a\"b") (lit ">") rfl

end Hext.Props.Applied
