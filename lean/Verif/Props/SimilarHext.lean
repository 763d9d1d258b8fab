import Verif.Props.Similar
import Verif.Props.Whole
set_option linter.unusedSimpArgs false
/-!
# What the result of a hext does not depend on

The properties of `Verif/Props/Similar.lean` for hexts, with conditions on the text of the hext.
-/

namespace Hext.Props

open Hext Param Syn

/-! ## Which functions the rules of a hext call -/

theorem callsL_iff {F : CaptureFn → Prop} {ms : List (Option Match)} : Match.CallsL F ms ↔ ∀ m, some m ∈ ms → m.Calls F := by
  induction ms with
  | nil => simp [Match.CallsL]
  | cons m ms ih =>
    cases m with
    | none => simp [Match.CallsL, ih]
    | some m => simp [Match.CallsL, ih]

theorem trait_calls {rx f F} {t : Trait} {x : Match × Flags} (h : t.meaning rx f = some x) : x.1.Calls F := by
  cases t with
  | empty => cases h; trivial
  | endmost => cases h; trivial
  | only => cases h; trivial
  | _ =>
    simp only [Trait.meaning, Option.bind_eq_bind, Option.bind_eq_some_iff, Option.some.injEq] at h
    obtain ⟨v, hv, rfl⟩ := h; trivial

theorem traits_calls {rx F} : ∀ {ts : List Trait} {f : Flags} {x : List Match × Flags},
    traitsMeaning rx f ts = some x → ∀ m ∈ x.1, m.Calls F
  | [], _, _, h => by cases h; simp
  | t :: ts, f, x, h => by
    simp only [traitsMeaning, Option.bind_eq_bind, Option.bind_eq_some_iff, Option.some.injEq] at h
    obtain ⟨y, h1, z, h2, rfl⟩ := h
    intro m hm
    rcases List.mem_cons.1 hm with rfl | hm
    · exact trait_calls h1
    · exact traits_calls h2 m hm

theorem cond_calls {rx f F} {c : Cond} {x : Match × Flags} (h : c.meaning rx f = some x) : x.1.Calls F := by
  cases c with
  | trait t => exact trait_calls h
  | not ts =>
    simp only [Cond.meaning, Option.bind_eq_bind, Option.bind_eq_some_iff, Option.some.injEq] at h
    obtain ⟨y, h1, rfl⟩ := h
    simp only [Match.Calls]
    rw [callsL_iff]
    intro m hm
    simp only [List.mem_map, Option.some.injEq] at hm
    obtain ⟨m, hm, rfl⟩ := hm
    exact traits_calls h1 m hm

theorem conds_calls {rx F} : ∀ {ts : List Cond} {f : Flags} {x : List Match × Flags},
    condsMeaning rx f ts = some x → ∀ m ∈ x.1, m.Calls F
  | [], _, _, h => by cases h; simp
  | t :: ts, f, x, h => by
    simp only [condsMeaning, Option.bind_eq_bind, Option.bind_eq_some_iff, Option.some.injEq] at h
    obtain ⟨y, h1, z, h2, rfl⟩ := h
    intro m hm
    rcases List.mem_cons.1 hm with rfl | hm
    · exact cond_calls h1
    · exact conds_calls h2 m hm

theorem pat_calls {rx f F} {p : Pat} {x : List Match × List Capture} (hF : ∀ fn : Fn, fn.name <:+: p.text → F fn.meaning)
    (h : p.meaning rx f = some x) : (∀ m ∈ x.1, m.Calls F) ∧ ∀ c ∈ x.2, c.Calls F := by
  cases p with
  | capFn fn ps n =>
    simp only [Pat.meaning, Option.bind_eq_bind, Option.bind_eq_some_iff, Option.some.injEq] at h
    obtain ⟨y, _, rfl⟩ := h
    have := hF fn ⟨[], ps.flatMap PipeS.text ++ 58 :: n.text, by simp [Pat.text]⟩
    simpa [Capture.Calls] using this
  | capAttr a ps n o =>
    simp only [Pat.meaning, Option.bind_eq_bind, Option.bind_eq_some_iff, Option.some.injEq] at h
    obtain ⟨y, _, rfl⟩ := h
    cases o <;> simp [Capture.Calls, Match.Calls]
  | testFn fn t neg =>
    simp only [Pat.meaning, Option.bind_eq_bind, Option.bind_eq_some_iff, Option.some.injEq] at h
    obtain ⟨y, _, rfl⟩ := h
    have := hF fn ⟨[], t.text ++ bang neg, by simp [Pat.text]⟩
    simpa [Match.Calls] using this
  | testAttr a t neg =>
    simp only [Pat.meaning, Option.bind_eq_bind, Option.bind_eq_some_iff, Option.some.injEq] at h
    obtain ⟨y, _, rfl⟩ := h
    simp [Match.Calls]
  | hasAttr a neg => cases h; simp [Match.Calls]

theorem pats_calls {rx F} : ∀ {ps : List (Str × Pat)} {f : Flags} {x : List Match × List Capture × Flags},
    (∀ fn : Fn, fn.name <:+: patsText ps → F fn.meaning) →
    patsMeaning rx f ps = some x → (∀ m ∈ x.1, m.Calls F) ∧ ∀ c ∈ x.2.1, c.Calls F
  | [], _, _, _, h => by cases h; simp
  | p :: ps, f, x, hF, h => by
    simp only [patsMeaning, Option.bind_eq_bind, Option.bind_eq_some_iff, Option.some.injEq] at h
    obtain ⟨y, h1, z, h2, rfl⟩ := h
    have a := pat_calls (F := F) (fun fn hfn => hF fn (hfn.trans ⟨p.1, patsText ps, by simp [patsText]⟩)) h1
    have b := pats_calls (F := F) (fun fn hfn => hF fn (hfn.trans ⟨p.1 ++ p.2.text, [], by simp [patsText]⟩)) h2
    constructor
    · intro m hm
      rcases List.mem_append.1 hm with hm | hm
      · exact a.1 m hm
      · exact b.1 m hm
    · intro m hm
      rcases List.mem_append.1 hm with hm | hm
      · exact a.2 m hm
      · exact b.2 m hm

theorem head_calls {rx f f' info F} {h : Head} (hF : ∀ fn : Fn, fn.name <:+: h.text → F fn.meaning)
    (hm : h.meaning rx f = some (info, f')) : info.Calls F := by
  simp only [Head.meaning, Option.bind_eq_bind, Option.bind_eq_some_iff, Option.some.injEq, Prod.mk.injEq] at hm
  obtain ⟨x, h1, y, h2, rfl, _⟩ := hm
  have a := conds_calls (F := F) h1
  have b := pats_calls (F := F) (fun fn hfn => hF fn (hfn.trans
    ⟨60 :: h.options.map (fun o => if o then 63 else 43) ++ h.tag ++ h.conds.flatMap Cond.text, h.ws, by simp [Head.text]⟩)) h2
  unfold RuleInfo.Calls
  rw [callsL_iff]
  constructor
  · intro m hm
    simp only [List.mem_map, List.mem_append, Option.some.injEq] at hm
    obtain ⟨m, hm, rfl⟩ := hm
    rcases hm with hm | hm
    · exact a m hm
    · exact b.1 m hm
  · intro c hc
    simp only [List.mem_map, Option.some.injEq] at hc
    obtain ⟨c, hc, rfl⟩ := hc
    exact b.2 c hc

theorem head_infix {hd : Head} {c : Bool} {is : List Item} (hc : Item.start hd c ∈ is) : hd.text <:+: itemsText is := by
  refine List.IsInfix.trans ?_ (infix_flatMap hc)
  exact (List.prefix_append _ _).isInfix

/-- The rules of a hext call only functions whose names occur in the hext. -/
theorem parse_calls {rx cs s r F} (hF : ∀ fn : Fn, fn.name <:+: s → F fn.meaning) (h : parseHext rx cs s = .ok r) :
    r.All (RuleInfo.Calls F) := by
  obtain ⟨is, f, rs, hok, rfl, hseq, rfl⟩ := (parse_iff rx cs s r).1 h
  refine ruleOf_all (fun _ => ?_) (seq_all hseq fun hd c hc f f' info hm => head_calls (fun fn hfn => hF fn (hfn.trans (head_infix hc))) hm)
  exact ⟨by simp [Match.CallsL], by simp⟩

theorem parse_builtin {rx cs s r} (h : parseHext rx cs s = .ok r) : r.All (RuleInfo.Calls CaptureFn.Builtin) :=
  parse_calls (fun fn _ => by cases fn <;> simp [Fn.meaning, CaptureFn.Builtin]) h

theorem parse_textual {rx cs s r} (hi : ¬ lit "@inner-html" <:+: s) (h : parseHext rx cs s = .ok r) :
    r.All (RuleInfo.Calls CaptureFn.Textual) :=
  parse_calls (fun fn hfn => by
    cases fn with
    | innerHtml => exact absurd hfn hi
    | _ => simp [Fn.meaning, CaptureFn.Textual]) h

section
variable {rx : RxEngine} {charSigned : Bool} {s : Str} {r : Rule} {h h' : Heap} {t t' : Tree}

/-! ## C56 -/

/-- C56 for hexts. Two copies of a document, stored wherever, give the same result for every hext without ten digits in a row. -/
theorem C56_hext (hs : NoLong s) (hp : parseHext rx charSigned s = .ok r) (ht : IsDocument h 1147483648 t)
    (ht' : IsDocument h' 1147483648 t') (hsame : t.SameContent t') (ms : UInt64) :
    extract rx h r t.ptr ms = extract rx h' r t'.ptr ms :=
  same_content_same_result (n := 1147483648) (n' := 1147483648) (by decide) (by decide) (parse_safe hs hp) (parse_safe hs hp)
    (parse_builtin hp) ht ht' hsame ms

theorem docCopy_ok2 : IsDocument (docHeap 99 docCopy) 1147483648 docCopy := isDocument_of_ok (by decide +kernel)
theorem doc_ok2 : IsDocument Ex.heap 1147483648 Ex.doc := isDocument_of_ok (by decide +kernel)

theorem href_short : NoLong (lit "<a href:x/>") := noLong_of_few (by decide +kernel)

example (ms : UInt64) : extract Ex.rx Ex.heap hrefRule Ex.doc.ptr ms = extract Ex.rx (docHeap 99 docCopy) hrefRule docCopy.ptr ms :=
  C56_hext href_short (href_parsed Ex.rx true) doc_ok2 docCopy_ok2 docCopy_same ms

/-! ## C61 -/

/-- C61. A rule that captures nothing, in itself or in the rules below and behind it, yields no results, whatever it matches. -/
theorem no_captures_no_results {n : Nat} {l : Loc} (hn : n ≤ 2147483647) (hs : r.Safe n)
    (hc : r.All fun i => i.caps = []) (hl : l.Stored h n) : extract rx h r l.ptr 0 = pure [] := by
  obtain ⟨res, _, ⟨maps, h1, h2⟩, h3⟩ := extract_result (rx := rx) hn hs hl
  have hcl := (searchAt_search (rx := rx) (h := h) r l).closed (P := fun q _ => q.All fun i => i.caps = [])
    (fun p y q x hp hb => hb.all hp) (fun q hq ks hks x hx => mem_siblings_all hc q hq)
  rw [h3, if_neg (by simp), h2]
  generalize (searchAt rx h r l).val.map found = gs at h1 hcl
  clear h2 h3
  suffices maps.filter (· ≠ []) = [] by rw [this]
  induction h1 with
  | nil => rfl
  | @cons g gs vs m ms hcap hm _ ih =>
    have hvs : vs = [] := by
      have hg := hcl g (by simp)
      clear hm ih
      induction hcap with
      | nil => rfl
      | @cons q l g vs ws k _ ih =>
        have hq := hg (q, l) (by simp)
        cases q with
        | mk i c nx ns =>
          simp only [Rule.All] at hq
          have hi : (Rule.mk i c nx ns).info.caps = [] := hq.1
          rw [hi] at k
          have := E.pure_inj (k : (pure [] : E _) = _)
          rw [← this, ih (fun g hg' p hp => by
            rcases List.mem_cons.1 hg' with rfl | hg'
            · exact hg p (by simp [hp])
            · exact hcl g (by simp [hg']) p hp) (fun p hp => hg p (by simp [hp]))]
          rfl
    have hmn : m = [] := by
      cases m with
      | nil => rfl
      | cons q m => have := hm.2 q.1; simp [hvs] at this
    rw [List.filter_cons, hmn]
    simpa using ih fun g hg => hcl g (by simp [hg])

example : extract Ex.rx Ex.heap (Ex.rule "div" (child := some (Ex.rule "a"))) Ex.doc.ptr 0 = pure [] :=
  no_captures_no_results (n := 2147483647) (l := Loc.root Ex.doc) (by decide)
    (by simp [Rule.Safe, Rule.All, Rule.AllO, Rule.AllL, Ex.rule, RuleInfo.Safe, Match.SafeL])
    (by simp [Rule.All, Rule.AllO, Rule.AllL, Ex.rule]) Ex.doc_ok

/-! ## C58 -/

mutual
theorem anchored_of_mandatory : ∀ (r : Rule), (r.All fun i => i.optional = false) → r.Anchored
  | .mk i c nx ns, hr => by
    simp only [Rule.All] at hr
    simp only [Rule.Anchored]
    have hh : ∀ q : Rule, (q.All fun i => i.optional = false) → q.hasMandatory := by
      intro q hq
      cases q with
      | mk i c nx ns =>
        simp only [Rule.All] at hq
        cases nx with
        | none => exact ⟨_, List.mem_cons_self, hq.1⟩
        | some nx => exact ⟨_, List.mem_cons_self, hq.1⟩
    refine ⟨?_, anchoredO_of_mandatory c hr.2.1, anchoredO_of_mandatory nx hr.2.2.1, anchoredL_of_mandatory ns hr.2.2.2⟩
    cases c with
    | some c => exact .inr (.inl ⟨c, rfl, hh c (by simpa [Rule.AllO] using hr.2.1)⟩)
    | none =>
      cases ns with
      | nil => exact .inl ⟨rfl, rfl⟩
      | cons q ns =>
        have := hr.2.2.2
        simp only [Rule.AllL] at this
        exact .inr (.inr ⟨q, by simp, hh q this.1⟩)
theorem anchoredO_of_mandatory : ∀ (o : Option Rule), (Rule.AllO (fun i => i.optional = false) o) → Rule.AnchoredO o
  | none, _ => by simp [Rule.AnchoredO]
  | some r, hr => by simp only [Rule.AnchoredO]; exact anchored_of_mandatory r (by simpa [Rule.AllO] using hr)
theorem anchoredL_of_mandatory : ∀ (rs : List Rule), (Rule.AllL (fun i => i.optional = false) rs) → Rule.AnchoredL rs
  | [], _ => by simp [Rule.AnchoredL]
  | r :: rs, hr => by
    simp only [Rule.AllL] at hr
    simp only [Rule.AnchoredL]
    exact ⟨anchored_of_mandatory r hr.1, anchoredL_of_mandatory rs hr.2⟩
end

/-- A hext without the bytes `?` and `*` has no optional rules and no rules for any tag; or it is empty and captures nothing. -/
theorem parse_unmarked {cs : Bool} (hq : (63 : Byte) ∉ s) (hstar : (42 : Byte) ∉ s) (hp : parseHext rx cs s = .ok r) :
    (r.All fun i => i.caps = []) ∨ (r.Anchored ∧ r.All fun i => i.tag ≠ .any) := by
  obtain ⟨is, f, rs, hok, rfl, hseq, rfl⟩ := (parse_iff rx cs s r).1 hp
  have hopt : ∀ r ∈ rs, r.All fun i => i.optional = false := by
    refine seq_all hseq fun hd c hc f f' info hm => ?_
    simp only [Head.meaning, Option.bind_eq_bind, Option.bind_eq_some_iff, Option.some.injEq, Prod.mk.injEq] at hm
    obtain ⟨x, h1, y, h2, rfl, _⟩ := hm
    rw [Bool.eq_false_iff]
    intro htrue
    have hmem : true ∈ hd.options := List.contains_iff_mem.1 htrue
    refine hq ((head_infix hc).subset ?_)
    simp only [Head.text, List.mem_append, List.mem_cons, List.mem_map]
    exact .inl (.inl (.inl (.inl (.inr ⟨true, hmem, rfl⟩))))
  cases rs with
  | nil => exact .inl (by simp [ruleOf, Rule.All, Rule.AllO, Rule.AllL])
  | cons r rs =>
    refine .inr ⟨anchored_of_mandatory _ (ruleOf_all (by simp) hopt), ruleOf_all (by simp) (seq_all hseq fun hd c hc f f' info hm => ?_)⟩
    simp only [Head.meaning, Option.bind_eq_bind, Option.bind_eq_some_iff, Option.some.injEq, Prod.mk.injEq] at hm
    obtain ⟨x, h1, y, h2, rfl, _⟩ := hm
    intro hany
    simp only [tagMeaning] at hany
    split at hany
    · rename_i hst
      refine hstar ((head_infix hc).subset ?_)
      simp [Head.text, hst]
    · split at hany <;> cases hany

/-- C58 for hexts, in part: the hext uses neither `@inner-html` nor the bytes `?` and `*`, so it has no optional rules and no
rules for any tag. -/
theorem C58_hext_partial (hs : NoLong s) (hi : ¬ lit "@inner-html" <:+: s) (hq : (63 : Byte) ∉ s) (hstar : (42 : Byte) ∉ s)
    (hp : parseHext rx charSigned s = .ok r) (ht : IsDocument h 1147483648 t) (ht' : IsDocument h' 1147483648 t')
    (hsame : t.uncomment.SameContent t') : extract rx h r t.ptr 0 = extract rx h' r t'.ptr 0 := by
  have hsafe := parse_safe hs hp
  rcases parse_unmarked hq hstar hp with hc | ⟨ha, htag⟩
  · have h1 := no_captures_no_results (rx := rx) (h := h) (l := Loc.root t) (by decide) hsafe hc ht
    have h2 := no_captures_no_results (rx := rx) (h := h') (l := Loc.root t') (by decide) hsafe hc ht'
    exact h1.trans h2.symm
  · exact comments_do_not_matter_partial (by decide) (by decide) hsafe hsafe (parse_textual hi hp) ha htag ht ht' hsame

example : extract Ex.rx (docHeap 0 docComment) hrefRule docComment.ptr 0 = extract Ex.rx (docHeap 0 docPlain) hrefRule docPlain.ptr 0 :=
  C58_hext_partial href_short (by decide +kernel) (by decide +kernel) (by decide +kernel) (href_parsed Ex.rx true)
    (isDocument_of_ok (by decide +kernel)) (isDocument_of_ok (by decide +kernel)) docComment_uncomment

/-! ## C59 -/

/-- C59 for hexts that do not use `@inner-html`. -/
theorem C59_hext (hs : NoLong s) (hi : ¬ lit "@inner-html" <:+: s) (hp : parseHext rx charSigned s = .ok r)
    (ht : IsDocument h 1147483648 t) (ht' : IsDocument h' 1147483648 t') (hsame : t.Alike Kind.Reordered t') (ms : UInt64) :
    extract rx h r t.ptr ms = extract rx h' r t'.ptr ms :=
  attribute_order_does_not_matter (n := 1147483648) (n' := 1147483648) (by decide) (by decide) (parse_safe hs hp) (parse_safe hs hp)
    (parse_textual hi hp) ht ht' hsame ms

example (ms : UInt64) : extract Ex.rx (docHeap 0 (docAttrs [("href", "1"), ("class", "c")])) hrefRule
      (docAttrs [("href", "1"), ("class", "c")]).ptr ms =
    extract Ex.rx (docHeap 0 (docAttrs [("class", "c"), ("href", "1")])) hrefRule (docAttrs [("class", "c"), ("href", "1")]).ptr ms :=
  C59_hext href_short (by decide +kernel) (href_parsed Ex.rx true) (isDocument_of_ok (by decide +kernel))
    (isDocument_of_ok (by decide +kernel)) docAttrs_alike ms

end

end Hext.Props
