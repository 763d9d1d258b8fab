import Verif.Proofs.Trim
import Verif.Props.SimilarHext
import Verif.Props.Meaning
set_option linter.unusedSimpArgs false
/-!
# C78: irrelevant parts of a document do not matter
-/

namespace Hext.Props

open Hext Param Syn

section
variable {rx : RxEngine} {h h' : Heap} {n n' : Nat} {r : Rule} {t t' : Tree}

/-- C78, in part. Parts of a document that contain nothing that any of the rules admits have no influence: the document with and
without them gives the same result. The conditions of the rules may be about tags and attributes, and the rules may capture
attributes; a rule with child rules must have a mandatory one; and there is no limit. The theorems below show why this is
needed. -/
theorem irrelevant_parts_do_not_matter_partial (hn : n ≤ 2147483647) (hn' : n' ≤ 2147483647) (hs : r.Safe n) (hs' : r.Safe n')
    (hw : r.All fun i => Match.WordsOkL i.ms) (hl : r.All RuleInfo.Local) (ha : r.Anchored)
    (ht : IsDocument h n t) (ht' : IsDocument h' n' t') (hsame : t.Trimmed (Tree.Irrelevant rx h r) t') :
    extract rx h r t.ptr 0 = extract rx h' r t'.ptr 0 :=
  (extract_trimmed hn hn' hs hs' hw hl ha ht ht' hsame).1

/-- C78, in part, with a limit: irrelevant parts can only cost searches. What an extraction returns from the whole document, it
also returns without the irrelevant parts, under the same limit. -/
theorem C78_limit_partial (hn : n ≤ 2147483647) (hn' : n' ≤ 2147483647) (hs : r.Safe n) (hs' : r.Safe n')
    (hw : r.All fun i => Match.WordsOkL i.ms) (hl : r.All RuleInfo.Local) (ha : r.Anchored)
    (ht : IsDocument h n t) (ht' : IsDocument h' n' t') (hsame : t.Trimmed (Tree.Irrelevant rx h r) t') (ms : UInt64)
    (res : List (List (Str × Str))) (he : extract rx h r t.ptr ms = pure res) : extract rx h' r t'.ptr ms = pure res :=
  (extract_trimmed hn hn' hs hs' hw hl ha ht ht' hsame).2 ms res he

end

/-! ## Hexts -/

theorem localL_iff {ms : List (Option Match)} : Match.LocalL ms ↔ ∀ m, some m ∈ ms → m.Local := by
  induction ms with
  | nil => simp [Match.LocalL]
  | cons m ms ih => cases m <;> simp [Match.LocalL, ih]

/-- The text names no function (`@text`, …) and no condition about the content or the siblings of a node. -/
structure OnlyAttributes (s : Str) : Prop where
  functions : (64 : Byte) ∉ s
  empty : ¬ lit ":empty" <:+: s
  child : ¬ lit "child" <:+: s
  ofType : ¬ lit "of-type" <:+: s

theorem OnlyAttributes.infix {s u : Str} (h : OnlyAttributes s) (hu : u <:+: s) : OnlyAttributes u :=
  ⟨fun k => h.functions (hu.subset k), fun k => h.empty (k.trans hu), fun k => h.child (k.trans hu), fun k => h.ofType (k.trans hu)⟩

theorem trait_local {rx f} {t : Trait} {x : Match × Flags} (ho : OnlyAttributes t.text) (h : t.meaning rx f = some x) :
    x.1.Local := by
  cases t with
  | empty => exact absurd (List.infix_refl _) ho.empty
  | childCount d => exact absurd ⟨lit ":", lit "-count(" ++ d ++ lit ")", by simp [Trait.text, lit]⟩ ho.child
  | nth a b m =>
    cases a <;> cases b
    · exact absurd ⟨lit ":nth-last-", lit "(" ++ m.text ++ lit ")", by simp [Trait.text, lit]⟩ ho.child
    · exact absurd ⟨lit ":nth-last-", lit "(" ++ m.text ++ lit ")", by simp [Trait.text, lit]⟩ ho.ofType
    · exact absurd ⟨lit ":nth-", lit "(" ++ m.text ++ lit ")", by simp [Trait.text, lit]⟩ ho.child
    · exact absurd ⟨lit ":nth-", lit "(" ++ m.text ++ lit ")", by simp [Trait.text, lit]⟩ ho.ofType
  | endmost a b =>
    cases a <;> cases b
    · exact absurd ⟨lit ":last-", [], by decide⟩ ho.child
    · exact absurd ⟨lit ":last-", [], by decide⟩ ho.ofType
    · exact absurd ⟨lit ":first-", [], by decide⟩ ho.child
    · exact absurd ⟨lit ":first-", [], by decide⟩ ho.ofType
  | only b =>
    cases b
    · exact absurd ⟨lit ":only-", [], by decide⟩ ho.child
    · exact absurd ⟨lit ":only-", [], by decide⟩ ho.ofType
  | attributeCount d =>
    simp only [Trait.meaning, Option.bind_eq_bind, Option.bind_eq_some_iff, Option.some.injEq] at h
    obtain ⟨v, hv, rfl⟩ := h; trivial
  | typeMatches r =>
    simp only [Trait.meaning, Option.bind_eq_bind, Option.bind_eq_some_iff, Option.some.injEq] at h
    obtain ⟨v, hv, rfl⟩ := h; trivial

theorem traits_local {rx} : ∀ {ts : List Trait} {f : Flags} {x : List Match × Flags}, OnlyAttributes (ts.flatMap Trait.text) →
    traitsMeaning rx f ts = some x → ∀ m ∈ x.1, m.Local
  | [], _, _, _, h => by cases h; simp
  | t :: ts, f, x, ho, h => by
    simp only [traitsMeaning, Option.bind_eq_bind, Option.bind_eq_some_iff, Option.some.injEq] at h
    obtain ⟨y, h1, z, h2, rfl⟩ := h
    rw [List.flatMap_cons] at ho
    intro m hm
    rcases List.mem_cons.1 hm with rfl | hm
    · exact trait_local (ho.infix (List.prefix_append _ _).isInfix) h1
    · exact traits_local (ho.infix (List.suffix_append _ _).isInfix) h2 m hm

theorem cond_local {rx f} {c : Cond} {x : Match × Flags} (ho : OnlyAttributes c.text) (h : c.meaning rx f = some x) :
    x.1.Local := by
  cases c with
  | trait t => exact trait_local ho h
  | not ts =>
    simp only [Cond.meaning, Option.bind_eq_bind, Option.bind_eq_some_iff, Option.some.injEq] at h
    obtain ⟨y, h1, rfl⟩ := h
    simp only [Match.Local]
    rw [localL_iff]
    intro m hm
    simp only [List.mem_map, Option.some.injEq] at hm
    obtain ⟨m, hm, rfl⟩ := hm
    exact traits_local (ho.infix ⟨lit ":not(", lit ")", rfl⟩) h1 m hm

theorem conds_local {rx} : ∀ {ts : List Cond} {f : Flags} {x : List Match × Flags}, OnlyAttributes (ts.flatMap Cond.text) →
    condsMeaning rx f ts = some x → ∀ m ∈ x.1, m.Local
  | [], _, _, _, h => by cases h; simp
  | t :: ts, f, x, ho, h => by
    simp only [condsMeaning, Option.bind_eq_bind, Option.bind_eq_some_iff, Option.some.injEq] at h
    obtain ⟨y, h1, z, h2, rfl⟩ := h
    rw [List.flatMap_cons] at ho
    intro m hm
    rcases List.mem_cons.1 hm with rfl | hm
    · exact cond_local (ho.infix (List.prefix_append _ _).isInfix) h1
    · exact conds_local (ho.infix (List.suffix_append _ _).isInfix) h2 m hm

theorem fn_at (fn : Fn) : (64 : Byte) ∈ fn.name := by cases fn <;> decide

theorem pat_local {rx f} {p : Pat} {x : List Match × List Capture} (ho : OnlyAttributes p.text)
    (h : p.meaning rx f = some x) : (∀ m ∈ x.1, m.Local) ∧ ∀ c ∈ x.2, ∃ attr name pipe, c = Capture.attribute attr name pipe := by
  cases p with
  | capFn fn ps n => exact absurd (by simp [Pat.text, fn_at]) ho.functions
  | capAttr a ps n o =>
    simp only [Pat.meaning, Option.bind_eq_bind, Option.bind_eq_some_iff, Option.some.injEq] at h
    obtain ⟨y, _, rfl⟩ := h
    cases o <;> simp [Match.Local]
  | testFn fn t neg => exact absurd (by simp [Pat.text, fn_at]) ho.functions
  | testAttr a t neg =>
    simp only [Pat.meaning, Option.bind_eq_bind, Option.bind_eq_some_iff, Option.some.injEq] at h
    obtain ⟨y, _, rfl⟩ := h
    simp [Match.Local]
  | hasAttr a neg => cases h; simp [Match.Local]

theorem pats_local {rx} : ∀ {ps : List (Str × Pat)} {f : Flags} {x : List Match × List Capture × Flags},
    OnlyAttributes (patsText ps) → patsMeaning rx f ps = some x →
    (∀ m ∈ x.1, m.Local) ∧ ∀ c ∈ x.2.1, ∃ attr name pipe, c = Capture.attribute attr name pipe
  | [], _, _, _, h => by cases h; simp
  | p :: ps, f, x, ho, h => by
    simp only [patsMeaning, Option.bind_eq_bind, Option.bind_eq_some_iff, Option.some.injEq] at h
    obtain ⟨y, h1, z, h2, rfl⟩ := h
    have a := pat_local (ho.infix ⟨p.1, patsText ps, by simp [patsText]⟩) h1
    have b := pats_local (ho.infix ⟨p.1 ++ p.2.text, [], by simp [patsText]⟩) h2
    constructor
    · intro m hm
      rcases List.mem_append.1 hm with hm | hm
      · exact a.1 m hm
      · exact b.1 m hm
    · intro m hm
      rcases List.mem_append.1 hm with hm | hm
      · exact a.2 m hm
      · exact b.2 m hm

theorem head_local {rx f f' info} {h : Head} (ho : OnlyAttributes h.text) (hm : h.meaning rx f = some (info, f')) : info.Local := by
  simp only [Head.meaning, Option.bind_eq_bind, Option.bind_eq_some_iff, Option.some.injEq, Prod.mk.injEq] at hm
  obtain ⟨x, h1, y, h2, rfl, _⟩ := hm
  have a := conds_local (ho.infix ⟨60 :: h.options.map (fun o => if o then 63 else 43) ++ h.tag, patsText h.pats ++ h.ws,
    by simp [Head.text]⟩) h1
  have b := pats_local (ho.infix
    ⟨60 :: h.options.map (fun o => if o then 63 else 43) ++ h.tag ++ h.conds.flatMap Cond.text, h.ws, by simp [Head.text]⟩) h2
  unfold RuleInfo.Local
  rw [localL_iff]
  constructor
  · intro m hm
    simp only [List.mem_map, List.mem_append, Option.some.injEq] at hm
    obtain ⟨m, hm, rfl⟩ := hm
    rcases hm with hm | hm
    · exact a m hm
    · exact b.1 m hm
  · intro c hc
    simp only [List.mem_map, Option.some.injEq] at hc
    obtain ⟨c, hc, rfl⟩ := hc
    exact b.2 c hc

theorem parse_local {rx cs s r} (ho : OnlyAttributes s) (h : parseHext rx cs s = .ok r) : r.All RuleInfo.Local := by
  obtain ⟨is, f, rs, hok, rfl, hseq, rfl⟩ := (parse_iff rx cs s r).1 h
  refine ruleOf_all (fun _ => ?_) (seq_all hseq fun hd c hc f f' info hm => head_local (ho.infix (head_infix hc)) hm)
  exact ⟨by simp [Match.LocalL], by simp⟩

/-- A hext without `?` has no optional rules. -/
theorem parse_mandatory {rx cs s r} (hq : (63 : Byte) ∉ s) (h : parseHext rx cs s = .ok r) : r.All fun i => i.optional = false := by
  obtain ⟨is, f, rs, hok, rfl, hseq, rfl⟩ := (parse_iff rx cs s r).1 h
  refine ruleOf_all (fun _ => rfl) (seq_all hseq fun hd c hc f f' info hm => ?_)
  simp only [Head.meaning, Option.bind_eq_bind, Option.bind_eq_some_iff, Option.some.injEq, Prod.mk.injEq] at hm
  obtain ⟨x, h1, y, h2, rfl, _⟩ := hm
  rw [Bool.eq_false_iff]
  intro htrue
  have hmem : true ∈ hd.options := List.contains_iff_mem.1 htrue
  refine hq ((head_infix hc).subset ?_)
  simp only [Head.text, List.mem_append, List.mem_cons, List.mem_map]
  exact .inl (.inl (.inl (.inl (.inr ⟨true, hmem, rfl⟩))))

section
variable {rx : RxEngine} {charSigned : Bool} {s : Str} {r : Rule} {h h' : Heap} {t t' : Tree}

/-- C78 for hexts, in part: the hext names no functions, no conditions about the content or the siblings of a node, and has no
optional parts. -/
theorem C78_hext_partial (hs : NoLong s) (ho : OnlyAttributes s) (hq : (63 : Byte) ∉ s)
    (hp : parseHext rx charSigned s = .ok r) (ht : IsDocument h 1147483648 t) (ht' : IsDocument h' 1147483648 t')
    (hsame : t.Trimmed (Tree.Irrelevant rx h r) t') :
    extract rx h r t.ptr 0 = extract rx h' r t'.ptr 0 ∧
    ∀ ms res, extract rx h r t.ptr ms = pure res → extract rx h' r t'.ptr ms = pure res :=
  extract_trimmed (n := 1147483648) (n' := 1147483648) (by decide) (by decide) (parse_safe hs hp) (parse_safe hs hp)
    (parse_words hp) (parse_local ho hp) (anchored_of_mandatory _ (parse_mandatory hq hp)) ht ht' hsame

end

/-! ## Examples -/

/-- `<html><body><p>x<a name="n"></a></p><a href="1"><b>y</b></a></body></html>` -/
def docAd : Tree :=
  Ex.el 1 "html" [] [Ex.el 2 "body" [] [Ex.el 3 "p" [] [Ex.txt 4 "x", Ex.el 5 "a" [("name", "n")] []],
    Ex.el 6 "a" [("href", "1")] [Ex.el 7 "b" [] [Ex.txt 8 "y"]]]]

/-- `<html><body><a href="1"></a></body></html>` -/
def docNoAd : Tree := Ex.el 1 "html" [] [Ex.el 2 "body" [] [Ex.el 3 "a" [("href", "1")] []]]

theorem docAd_ok : IsDocument (docHeap 0 docAd) 1147483648 docAd := isDocument_of_ok (by decide +kernel)
theorem docNoAd_ok : IsDocument (docHeap 0 docNoAd) 1147483648 docNoAd := isDocument_of_ok (by decide +kernel)

/-- A rule for `a` elements with an `href`, which may have further conditions. -/
def IsLinkRule (i : RuleInfo) : Prop := i.tag = .tag (.known (lit "a")) ∧ some (.attribute (lit "href") none) ∈ i.ms

/-- It admits nothing else. -/
theorem linkRule_admits {rx : RxEngine} {h : Heap} {i : RuleInfo} (hi : IsLinkRule i) {t : Tree} (ha : i.Admits rx h t) :
    ∃ e a, t.kind = .element e ∧ e.tag = .known (lit "a") ∧ IsAttr e (lit "href") a := by
  obtain ⟨l, rfl, ht, hm⟩ := ha
  obtain ⟨e, a, he, hattr⟩ : (Match.attribute (lit "href") none).Means rx h l := hm _ hi.2
  refine ⟨e, a, he, ?_, hattr⟩
  simp only [TagMeans, hi.1] at ht
  rcases ht with ht | ⟨n, e', h1, h2, h3⟩ | ⟨e', _, _, h1, _⟩
  · cases ht
  · rw [he] at h2; cases h2; cases h1; exact h3
  · cases h1

theorem docAd_trimmed {rx : RxEngine} {h : Heap} {i : RuleInfo} (hi : IsLinkRule i) {D : Tree → Prop}
    (hD : ∀ t, (∀ u ∈ t.kids, D u) → ¬ i.Admits rx h t → D t) : docAd.Trimmed D docNoAd := by
  have htxt : ∀ p x, D (Ex.txt p x) := fun p x => hD _ (by simp [Ex.txt, Tree.kids]) fun ha => by
    obtain ⟨e, a, h1, -⟩ := linkRule_admits hi ha
    cases h1
  have hname : D (Ex.el 5 "a" [("name", "n")] []) := by
    refine hD _ (by simp [Ex.el, Tree.kids]) fun ha => ?_
    obtain ⟨e, a, h1, h2, b, c, h3, h4, h5⟩ := linkRule_admits hi ha
    cases h1
    simp only [List.map_cons, List.map_nil] at h3
    have hm : a ∈ [({ name := lit "name", value := some (lit "n") } : Attr)] := by rw [h3]; simp
    simp only [List.mem_singleton] at hm
    subst hm
    exact absurd h4 (by simp only [SameName]; decide)
  have hp : D (Ex.el 3 "p" [] [Ex.txt 4 "x", Ex.el 5 "a" [("name", "n")] []]) := by
    refine hD _ ?_ fun ha => ?_
    · simp only [Ex.el, Tree.kids, List.mem_cons, List.not_mem_nil, or_false]
      rintro u (rfl | rfl)
      · exact htxt _ _
      · exact hname
    · obtain ⟨e, a, h1, h2, -⟩ := linkRule_admits hi ha
      cases h1
      exact absurd h2 (by decide)
  have hb : D (Ex.el 7 "b" [] [Ex.txt 8 "y"]) := by
    refine hD _ ?_ fun ha => ?_
    · simp only [Ex.el, Tree.kids, List.mem_cons, List.not_mem_nil, or_false]
      rintro u rfl
      exact htxt _ _
    · obtain ⟨e, a, h1, h2, -⟩ := linkRule_admits hi ha
      cases h1
      exact absurd h2 (by decide)
  refine ⟨rfl, .inr ⟨_, _, rfl, ⟨rfl, .inl ⟨hp, .inr ⟨_, _, rfl, ⟨rfl, .inl ⟨hb, rfl⟩⟩, rfl⟩⟩⟩, rfl⟩⟩

/-- What is irrelevant for a single rule. -/
theorem irrelevant_of {rx : RxEngine} {h : Heap} {i : RuleInfo} {t : Tree}
    (hk : ∀ u ∈ t.kids, u.Irrelevant rx h (.mk i none none [])) (ha : ¬ i.Admits rx h t) : t.Irrelevant rx h (.mk i none none []) := by
  cases t with
  | node p k kids =>
    simp only [Tree.Irrelevant, Rule.All, Rule.AllO, Rule.AllL]
    refine ⟨⟨ha, trivial, trivial, trivial⟩, ?_⟩
    simp only [Tree.kids] at hk
    clear ha
    induction kids with
    | nil => trivial
    | cons t ts ih => exact ⟨hk t (by simp), ih fun u hu => hk u (by simp [hu])⟩

theorem hrefRule_only : OnlyAttributes (lit "<a href:x/>") := ⟨by decide +kernel, by decide +kernel, by decide +kernel, by decide +kernel⟩

theorem docAd_href : docAd.Trimmed (Tree.Irrelevant Ex.rx (docHeap 0 docAd) hrefRule) docNoAd :=
  docAd_trimmed (i := hrefRule.info) (rx := Ex.rx) (h := docHeap 0 docAd) ⟨rfl, by simp [hrefRule, Rule.appendMatch, Ex.rule, Rule.info]⟩
    fun _ hk ha => irrelevant_of hk ha

/-- The hext `<a href:x/>` gives the same for both documents. -/
example : extract Ex.rx (docHeap 0 docAd) hrefRule docAd.ptr 0 = extract Ex.rx (docHeap 0 docNoAd) hrefRule docNoAd.ptr 0 :=
  (C78_hext_partial href_short hrefRule_only (by decide +kernel) (href_parsed Ex.rx true) docAd_ok docNoAd_ok docAd_href).1

theorem hrefRule_facts : (∀ n, hrefRule.Safe n) ∧ (hrefRule.All fun i => Match.WordsOkL i.ms) ∧ hrefRule.All RuleInfo.Local ∧
    hrefRule.Anchored :=
  ⟨fun n => by simp [hrefRule, Rule.appendMatch, Ex.rule, Rule.Safe, Rule.All, Rule.AllO, Rule.AllL, RuleInfo.Safe, Match.SafeL,
      Match.SafeO, Match.Safe, Capture.Safe, Ex.capHref],
   parse_words (href_parsed Ex.rx true), parse_local hrefRule_only (href_parsed Ex.rx true),
   anchored_of_mandatory _ (parse_mandatory (by decide +kernel) (href_parsed Ex.rx true))⟩

example : extract Ex.rx (docHeap 0 docAd) hrefRule docAd.ptr 0 = extract Ex.rx (docHeap 0 docNoAd) hrefRule docNoAd.ptr 0 :=
  irrelevant_parts_do_not_matter_partial (by decide) (by decide) (hrefRule_facts.1 _) (hrefRule_facts.1 _) hrefRule_facts.2.1
    hrefRule_facts.2.2.1 hrefRule_facts.2.2.2 docAd_ok docNoAd_ok docAd_href

example (ms : UInt64) (res : List (List (Str × Str))) (he : extract Ex.rx (docHeap 0 docAd) hrefRule docAd.ptr ms = pure res) :
    extract Ex.rx (docHeap 0 docNoAd) hrefRule docNoAd.ptr ms = pure res :=
  C78_limit_partial (by decide) (by decide) (hrefRule_facts.1 1147483648) (hrefRule_facts.1 _) hrefRule_facts.2.1
    hrefRule_facts.2.2.1 hrefRule_facts.2.2.2 docAd_ok docNoAd_ok docAd_href ms res he

/-! ## Why the restrictions are needed -/

/-- A rule for links, with a further condition and another capture. -/
def trimLinkInfo (ms : List Match) (cap : Capture) : RuleInfo :=
  { tag := .tag (.known (lit "a")), ms := (.attribute (lit "href") none :: ms).map some, caps := [some cap] }

theorem docAd_link (ms : List Match) (cap : Capture) :
    docAd.Trimmed (Tree.Irrelevant Ex.rx (docHeap 0 docAd) (.mk (trimLinkInfo ms cap) none none [])) docNoAd :=
  docAd_trimmed (i := trimLinkInfo ms cap) (rx := Ex.rx) (h := docHeap 0 docAd) ⟨rfl, by simp [trimLinkInfo]⟩
    fun _ hk ha => irrelevant_of hk ha

/-- C78 fails for conditions about siblings: `<a:first-child href:x/>` finds nothing, because of the `p`. -/
theorem C78_fails_for_siblings :
    docAd.Trimmed (Tree.Irrelevant Ex.rx (docHeap 0 docAd) (.mk (trimLinkInfo [.nthChild 0 1 true false] (Ex.capHref "x")) none none [])) docNoAd ∧
    extract Ex.rx (docHeap 0 docAd) (.mk (trimLinkInfo [.nthChild 0 1 true false] (Ex.capHref "x")) none none []) docAd.ptr 0 = pure [] ∧
    extract Ex.rx (docHeap 0 docNoAd) (.mk (trimLinkInfo [.nthChild 0 1 true false] (Ex.capHref "x")) none none []) docNoAd.ptr 0 =
      pure [[(lit "x", lit "1")]] := by
  have hs : (Rule.mk (trimLinkInfo [.nthChild 0 1 true false] (Ex.capHref "x")) none none []).Safe 1147483648 := by
    simp [trimLinkInfo, Rule.Safe, Rule.All, Rule.AllO, Rule.AllL, RuleInfo.Safe, Match.SafeL, Match.SafeO, Match.Safe, Capture.Safe, Ex.capHref, NthSafe, intMin, intMax]
  refine ⟨docAd_link _ _, ?_, ?_⟩
  · rw [show docAd.ptr = (Loc.root docAd).ptr from rfl, extract_eq (by decide) hs docAd_ok]
    decide +kernel
  · rw [show docNoAd.ptr = (Loc.root docNoAd).ptr from rfl, extract_eq (by decide) hs docNoAd_ok]
    decide +kernel

/-- C78 fails for conditions about the content: `<a:empty href:x/>` does not match the link, because of the `b` in it. -/
theorem C78_fails_for_content :
    docAd.Trimmed (Tree.Irrelevant Ex.rx (docHeap 0 docAd) (.mk (trimLinkInfo [.childCount 0] (Ex.capHref "x")) none none [])) docNoAd ∧
    extract Ex.rx (docHeap 0 docAd) (.mk (trimLinkInfo [.childCount 0] (Ex.capHref "x")) none none []) docAd.ptr 0 = pure [] ∧
    extract Ex.rx (docHeap 0 docNoAd) (.mk (trimLinkInfo [.childCount 0] (Ex.capHref "x")) none none []) docNoAd.ptr 0 =
      pure [[(lit "x", lit "1")]] := by
  have hs : (Rule.mk (trimLinkInfo [.childCount 0] (Ex.capHref "x")) none none []).Safe 1147483648 := by
    simp [trimLinkInfo, Rule.Safe, Rule.All, Rule.AllO, Rule.AllL, RuleInfo.Safe, Match.SafeL, Match.SafeO, Match.Safe, Capture.Safe, Ex.capHref]
  refine ⟨docAd_link _ _, ?_, ?_⟩
  · rw [show docAd.ptr = (Loc.root docAd).ptr from rfl, extract_eq (by decide) hs docAd_ok]
    decide +kernel
  · rw [show docNoAd.ptr = (Loc.root docNoAd).ptr from rfl, extract_eq (by decide) hs docNoAd_ok]
    decide +kernel

/-- C78 fails for limits: the irrelevant parts cost searches. -/
theorem C78_fails_for_limits :
    docAd.Trimmed (Tree.Irrelevant Ex.rx (docHeap 0 docAd) hrefRule) docNoAd ∧
    extract Ex.rx (docHeap 0 docAd) hrefRule docAd.ptr 4 = throw .maxSearch ∧
    extract Ex.rx (docHeap 0 docNoAd) hrefRule docNoAd.ptr 4 = pure [[(lit "x", lit "1")]] := by
  refine ⟨docAd_href, ?_, ?_⟩
  · rw [show docAd.ptr = (Loc.root docAd).ptr from rfl, extract_eq (by decide) (hrefRule_facts.1 _) docAd_ok]
    decide +kernel
  · rw [show docNoAd.ptr = (Loc.root docNoAd).ptr from rfl, extract_eq (by decide) (hrefRule_facts.1 _) docNoAd_ok]
    decide +kernel

/-- `<a href:x><?i/></a>` -/
def linkOpt : Rule := .mk (trimLinkInfo [] (Ex.capHref "x")) (some (Ex.rule "i" (optional := true))) none []

/-- C78 fails if all child rules are optional: `<a href:x><?i/></a>` matches the link that contains a `b`, but not the empty one. -/
theorem C78_fails_for_optional_children :
    extract Ex.rx (docHeap 0 docAd) linkOpt docAd.ptr 0 = pure [[(lit "x", lit "1")]] ∧
    extract Ex.rx (docHeap 0 docNoAd) linkOpt docNoAd.ptr 0 = pure [] := by
  have hs : linkOpt.Safe 1147483648 := by
    simp [linkOpt, Ex.rule, trimLinkInfo, Rule.Safe, Rule.All, Rule.AllO, Rule.AllL, RuleInfo.Safe, Match.SafeL, Match.SafeO, Match.Safe, Capture.Safe, Ex.capHref]
  refine ⟨?_, ?_⟩
  · rw [show docAd.ptr = (Loc.root docAd).ptr from rfl, extract_eq (by decide) hs docAd_ok]
    decide +kernel
  · rw [show docNoAd.ptr = (Loc.root docNoAd).ptr from rfl, extract_eq (by decide) hs docNoAd_ok]
    decide +kernel

end Hext.Props
