import Verif.Proofs.Unnamed
import Verif.Props.Trim
import Verif.Proofs.Reformat
set_option linter.unusedSimpArgs false
/-!
# Attributes that a hext does not name (C113)
-/

namespace Hext.Props

open Hext Param Syn

section
variable {rx : RxEngine} {h h' : Heap} {n n' : Nat} {N : Str → Prop}

theorem sameNamed_good : Unnamed.KText N (onKind (Kind.SameNamed N)) (fun _ => False) := by
  refine ⟨?_, fun _ h => h.elim⟩
  rintro t t' (h | ⟨e, as, h1, h2, ha⟩)
  · exact .inl h
  · refine .inr ⟨e, _, h1, h2, rfl, rfl, trivial, fun name hname => Option.ext fun a => ?_⟩
    have := ha name hname a
    rw [isAttr_iff, isAttr_iff] at this
    exact this

theorem find_filter {α : Type} {p keep : α → Bool} : ∀ {as : List α}, (∀ a ∈ as, keep a = false → p a = false) →
    (as.filter keep).find? p = as.find? p
  | [], _ => rfl
  | a :: as, hk => by
    have ih := find_filter (as := as) fun b hb => hk b (List.mem_cons_of_mem _ hb)
    cases h1 : keep a with
    | false => rw [List.filter_cons_of_neg (by simp [h1]), List.find?_cons, hk a (List.mem_cons_self ..) h1, ih]
    | true => rw [List.filter_cons_of_pos h1, List.find?_cons, List.find?_cons, ih]

/-- Attributes with other names may be missing. -/
theorem dropped_sameNamed {k k' : Kind} (hk : k.Dropped N k') : k.SameNamed N k' := by
  rcases hk with rfl | ⟨e, keep, rfl, rfl, hd⟩
  · exact .inl rfl
  · refine .inr ⟨e, _, rfl, rfl, fun name hname a => ?_⟩
    rw [isAttr_iff, isAttr_iff]
    have : getAttribute (e.attrs.filter keep) name = getAttribute e.attrs name := by
      refine find_filter fun b hb hkb => ?_
      have := hd b hb hkb name hname
      simpa [SameName, eqIgnoreCase] using this
    simp only [this]

/-- C113. Let two documents differ only in attributes that the rule does not name. They give the same result and throw for the same limits, if the
rule does not count attributes and calls only `@text` and `@strip-tags`. -/
theorem C113_named {r : Rule} {t t' : Tree} (hn : n ≤ 2147483647) (hn' : n' ≤ 2147483647) (hs : r.Safe n) (hs' : r.Safe n')
    (hf : r.All (RuleInfo.Calls CaptureFn.Textual)) (hnm : r.All (RuleInfo.Names N)) (ht : IsDocument h n t) (ht' : IsDocument h' n' t')
    (hsame : t.Alike (Kind.SameNamed N) t') (ms : UInt64) : extract rx h r t.ptr ms = extract rx h' r t'.ptr ms :=
  Unnamed.extract_named (l := Loc.root t) (l' := Loc.root t') hn hn' sameNamed_good.good (Unnamed.textual_good sameNamed_good h h') hs hs' hf hnm
    ht ht' (root_rel (trel_of_alike _ _ hsame)) ms

end

/-! ## Hexts -/

theorem namesL_iff {N : Str → Prop} {ms : List (Option Match)} : Match.NamesL N ms ↔ ∀ m, some m ∈ ms → m.Names N := by
  induction ms with
  | nil => simp [Match.NamesL]
  | cons m ms ih => cases m <;> simp [Match.NamesL, ih]

/-- The text does not count attributes, and all its parts are in `N`. -/
structure Uncounted (N : Str → Prop) (s : Str) : Prop where
  count : ¬ lit ":attribute-count(" <:+: s
  names : ∀ u, u <:+: s → N u

theorem Uncounted.infix {N : Str → Prop} {s u : Str} (h : Uncounted N s) (hu : u <:+: s) : Uncounted N u :=
  ⟨fun k => h.count (k.trans hu), fun v hv => h.names v (hv.trans hu)⟩

theorem trait_names {rx f N} {t : Trait} {x : Match × Flags} (ho : Uncounted N t.text) (h : t.meaning rx f = some x) : x.1.Names N := by
  cases t with
  | empty => cases h; trivial
  | childCount d =>
    simp only [Trait.meaning, Option.bind_eq_bind, Option.bind_eq_some_iff, Option.some.injEq] at h
    obtain ⟨v, hv, rfl⟩ := h; trivial
  | nth a b m =>
    simp only [Trait.meaning, Option.bind_eq_bind, Option.bind_eq_some_iff, Option.some.injEq] at h
    obtain ⟨v, hv, rfl⟩ := h; trivial
  | endmost a b => cases h; trivial
  | only b => cases h; trivial
  | attributeCount d => exact absurd ⟨[], d ++ lit ")", by simp [Trait.text, lit]⟩ ho.count
  | typeMatches r =>
    simp only [Trait.meaning, Option.bind_eq_bind, Option.bind_eq_some_iff, Option.some.injEq] at h
    obtain ⟨v, hv, rfl⟩ := h; trivial

theorem traits_names {rx N} : ∀ {ts : List Trait} {f : Flags} {x : List Match × Flags}, Uncounted N (ts.flatMap Trait.text) →
    traitsMeaning rx f ts = some x → ∀ m ∈ x.1, m.Names N
  | [], _, _, _, h => by cases h; simp
  | t :: ts, f, x, ho, h => by
    simp only [traitsMeaning, Option.bind_eq_bind, Option.bind_eq_some_iff, Option.some.injEq] at h
    obtain ⟨y, h1, z, h2, rfl⟩ := h
    rw [List.flatMap_cons] at ho
    intro m hm
    rcases List.mem_cons.1 hm with rfl | hm
    · exact trait_names (ho.infix (List.prefix_append _ _).isInfix) h1
    · exact traits_names (ho.infix (List.suffix_append _ _).isInfix) h2 m hm

theorem cond_names {rx f N} {c : Cond} {x : Match × Flags} (ho : Uncounted N c.text) (h : c.meaning rx f = some x) :
    x.1.Names N := by
  cases c with
  | trait t => exact trait_names ho h
  | not ts =>
    simp only [Cond.meaning, Option.bind_eq_bind, Option.bind_eq_some_iff, Option.some.injEq] at h
    obtain ⟨y, h1, rfl⟩ := h
    simp only [Match.Names]
    rw [namesL_iff]
    intro m hm
    simp only [List.mem_map, Option.some.injEq] at hm
    obtain ⟨m, hm, rfl⟩ := hm
    exact traits_names (ho.infix ⟨lit ":not(", lit ")", rfl⟩) h1 m hm

theorem conds_names {rx N} : ∀ {ts : List Cond} {f : Flags} {x : List Match × Flags}, Uncounted N (ts.flatMap Cond.text) →
    condsMeaning rx f ts = some x → ∀ m ∈ x.1, m.Names N
  | [], _, _, _, h => by cases h; simp
  | t :: ts, f, x, ho, h => by
    simp only [condsMeaning, Option.bind_eq_bind, Option.bind_eq_some_iff, Option.some.injEq] at h
    obtain ⟨y, h1, z, h2, rfl⟩ := h
    rw [List.flatMap_cons] at ho
    intro m hm
    rcases List.mem_cons.1 hm with rfl | hm
    · exact cond_names (ho.infix (List.prefix_append _ _).isInfix) h1
    · exact conds_names (ho.infix (List.suffix_append _ _).isInfix) h2 m hm

theorem pat_names {rx f N} {p : Pat} {x : List Match × List Capture} (ho : Uncounted N p.text)
    (h : p.meaning rx f = some x) : (∀ m ∈ x.1, m.Names N) ∧ ∀ c ∈ x.2, ∀ attr name pipe, c = Capture.attribute attr name pipe → N attr := by
  cases p with
  | capFn fn ps n =>
    simp only [Pat.meaning, Option.bind_eq_bind, Option.bind_eq_some_iff, Option.some.injEq] at h
    obtain ⟨y, _, rfl⟩ := h
    simp
  | capAttr a ps n o =>
    have ha : N a := ho.names _ ⟨[], ps.flatMap PipeS.text ++ 58 :: n.text ++ if o then [63] else [], by simp [Pat.text]⟩
    simp only [Pat.meaning, Option.bind_eq_bind, Option.bind_eq_some_iff, Option.some.injEq] at h
    obtain ⟨y, _, rfl⟩ := h
    cases o <;> simp [Match.Names, ha]
  | testFn fn t neg =>
    simp only [Pat.meaning, Option.bind_eq_bind, Option.bind_eq_some_iff, Option.some.injEq] at h
    obtain ⟨y, _, rfl⟩ := h
    simp [Match.Names]
  | testAttr a t neg =>
    have ha : N a := ho.names _ ⟨[], t.text ++ bang neg, by simp [Pat.text]⟩
    simp only [Pat.meaning, Option.bind_eq_bind, Option.bind_eq_some_iff, Option.some.injEq] at h
    obtain ⟨y, _, rfl⟩ := h
    simp [Match.Names, ha]
  | hasAttr a neg =>
    have ha : N a := ho.names _ ⟨[], bang neg, by simp [Pat.text]⟩
    cases h
    simp [Match.Names, ha]

theorem pats_names {rx N} : ∀ {ps : List (Str × Pat)} {f : Flags} {x : List Match × List Capture × Flags},
    Uncounted N (patsText ps) → patsMeaning rx f ps = some x →
    (∀ m ∈ x.1, m.Names N) ∧ ∀ c ∈ x.2.1, ∀ attr name pipe, c = Capture.attribute attr name pipe → N attr
  | [], _, _, _, h => by cases h; simp
  | p :: ps, f, x, ho, h => by
    simp only [patsMeaning, Option.bind_eq_bind, Option.bind_eq_some_iff, Option.some.injEq] at h
    obtain ⟨y, h1, z, h2, rfl⟩ := h
    have a := pat_names (ho.infix ⟨p.1, patsText ps, by simp [patsText]⟩) h1
    have b := pats_names (ho.infix ⟨p.1 ++ p.2.text, [], by simp [patsText]⟩) h2
    constructor
    · intro m hm
      rcases List.mem_append.1 hm with hm | hm
      · exact a.1 m hm
      · exact b.1 m hm
    · intro m hm
      rcases List.mem_append.1 hm with hm | hm
      · exact a.2 m hm
      · exact b.2 m hm

theorem head_names {rx f f' info N} {h : Head} (ho : Uncounted N h.text) (hm : h.meaning rx f = some (info, f')) : info.Names N := by
  simp only [Head.meaning, Option.bind_eq_bind, Option.bind_eq_some_iff, Option.some.injEq, Prod.mk.injEq] at hm
  obtain ⟨x, h1, y, h2, rfl, _⟩ := hm
  have a := conds_names (ho.infix ⟨60 :: h.options.map (fun o => if o then 63 else 43) ++ h.tag, patsText h.pats ++ h.ws,
    by simp [Head.text]⟩) h1
  have b := pats_names (ho.infix
    ⟨60 :: h.options.map (fun o => if o then 63 else 43) ++ h.tag ++ h.conds.flatMap Cond.text, h.ws, by simp [Head.text]⟩) h2
  unfold RuleInfo.Names
  rw [namesL_iff]
  constructor
  · intro m hm
    simp only [List.mem_map, List.mem_append, Option.some.injEq] at hm
    obtain ⟨m, hm, rfl⟩ := hm
    rcases hm with hm | hm
    · exact a m hm
    · exact b.1 m hm
  · intro attr name pipe hc
    simp only [List.mem_map, Option.some.injEq] at hc
    obtain ⟨c, hc, rfl⟩ := hc
    exact b.2 _ hc _ _ _ rfl

theorem parse_names {rx cs s r N} (ho : Uncounted N s) (h : parseHext rx cs s = .ok r) : r.All (RuleInfo.Names N) := by
  obtain ⟨is, f, rs, hok, rfl, hseq, rfl⟩ := (parse_iff rx cs s r).1 h
  refine ruleOf_all (fun _ => ?_) (seq_all hseq fun hd c hc f f' info hm => head_names (ho.infix (head_infix hc)) hm)
  exact ⟨by simp [Match.NamesL], by simp⟩

/-- C113 for hexts: attributes whose names do not occur in the hext, up to case, can be dropped or added, if the hext uses neither `@inner-html` nor
`:attribute-count`. -/
theorem C113_hext {rx : RxEngine} {charSigned : Bool} {s : Str} {r : Rule} {h h' : Heap} {t t' : Tree} (hs : NoLong s)
    (hi : ¬ lit "@inner-html" <:+: s) (hc : ¬ lit ":attribute-count(" <:+: s) (hp : parseHext rx charSigned s = .ok r)
    (ht : IsDocument h 1147483648 t) (ht' : IsDocument h' 1147483648 t') (hsame : t.Alike (Kind.Dropped (· <:+: s)) t') (ms : UInt64) :
    extract rx h r t.ptr ms = extract rx h' r t'.ptr ms :=
  C113_named (N := (· <:+: s)) (n := 1147483648) (n' := 1147483648) (by decide) (by decide) (parse_safe hs hp) (parse_safe hs hp) (parse_textual hi hp)
    (parse_names ⟨hc, fun _ hu => hu⟩ hp) ht ht' (alike_mono (fun _ _ => dropped_sameNamed) _ _ hsame) ms

/-- A name that does not occur in a text, up to case, is not the name of a part of the text. -/
theorem not_named {s a : Str} (hn : ¬ a.map toLowerB <:+: s.map toLowerB) (name : Str) (hi : name <:+: s) : ¬ SameName a (cstr name) := by
  intro hsame
  have h1 : cstr name <:+: s := (List.takeWhile_prefix _).isInfix.trans hi
  have h2 : (cstr name).map toLowerB <:+: s.map toLowerB := by
    obtain ⟨b, c, e⟩ := h1
    exact ⟨b.map toLowerB, c.map toLowerB, by rw [← e]; simp⟩
  rw [← show a.map toLowerB = (cstr name).map toLowerB from hsame] at h2
  exact hn h2

/-! ## Examples -/

theorem docAttrs_both : IsDocument (docHeap 0 (docAttrs [("Class", "c"), ("href", "1")])) 1147483648 (docAttrs [("Class", "c"), ("href", "1")]) :=
  isDocument_of_ok (by decide +kernel)

theorem docAttrs_one : IsDocument (docHeap 0 (docAttrs [("href", "1")])) 1147483648 (docAttrs [("href", "1")]) := isDocument_of_ok (by decide +kernel)

/-- The second document lacks the `class`. -/
theorem docAttrs_dropped {N : Str → Prop} (hN : ∀ name, N name → ¬ SameName (lit "Class") (cstr name)) :
    (docAttrs [("Class", "c"), ("href", "1")]).Alike (Kind.Dropped N) (docAttrs [("href", "1")]) := by
  refine ⟨.inl rfl, _, [], rfl, ⟨.inr ⟨_, fun a => a.name == lit "href", rfl, rfl, fun a ha hk => ?_⟩, rfl⟩, rfl⟩
  rcases List.mem_cons.1 ha with rfl | ha
  · exact hN
  · rcases List.mem_cons.1 ha with rfl | ha
    · cases hk
    · cases ha

/-- The hext `<a href:x/>` does not notice the `class`. -/
example (ms : UInt64) : extract Ex.rx (docHeap 0 (docAttrs [("Class", "c"), ("href", "1")])) hrefRule (docAttrs [("Class", "c"), ("href", "1")]).ptr ms =
    extract Ex.rx (docHeap 0 (docAttrs [("href", "1")])) hrefRule (docAttrs [("href", "1")]).ptr ms :=
  C113_hext href_short (by decide +kernel) (by decide +kernel) (href_parsed Ex.rx true) docAttrs_both docAttrs_one
    (docAttrs_dropped (not_named (by decide +kernel))) ms

/-- A rule that names `href` only, and uses `@text`. -/
example (ms : UInt64) : extract Ex.rx (docHeap 0 (docAttrs [("Class", "c"), ("href", "1")])) (Ex.rule "a" (caps := [Ex.capHref "x", Ex.capText "t"]))
      (docAttrs [("Class", "c"), ("href", "1")]).ptr ms =
    extract Ex.rx (docHeap 0 (docAttrs [("href", "1")])) (Ex.rule "a" (caps := [Ex.capHref "x", Ex.capText "t"])) (docAttrs [("href", "1")]).ptr ms :=
  C113_named (N := (· = lit "href")) (n := 1147483648) (n' := 1147483648) (by decide) (by decide)
    (by simp [Ex.rule, Rule.Safe, Rule.All, Rule.AllO, Rule.AllL, RuleInfo.Safe, Match.SafeL, Capture.Safe, Ex.capHref, Ex.capText])
    (by simp [Ex.rule, Rule.Safe, Rule.All, Rule.AllO, Rule.AllL, RuleInfo.Safe, Match.SafeL, Capture.Safe, Ex.capHref, Ex.capText])
    (by simp [Ex.rule, Rule.All, Rule.AllO, Rule.AllL, RuleInfo.Calls, Match.CallsL, Capture.Calls, CaptureFn.Textual, Ex.capHref, Ex.capText])
    (by simp [Ex.rule, Rule.All, Rule.AllO, Rule.AllL, RuleInfo.Names, Match.NamesL, Ex.capHref, Ex.capText]; intro _ _ _ h _ _; exact h)
    docAttrs_both docAttrs_one (alike_mono (fun _ _ => dropped_sameNamed) _ _ (docAttrs_dropped (by rintro name rfl; unfold SameName; decide))) ms

/-! ## Why the restrictions are needed -/

/-- `<a:attribute-count(1) href:x/>` -/
def oneAttrRule : Rule :=
  .mk { tag := .tag (.known (lit "a")), ms := [some (.attributeCount 1)], caps := [some (Ex.capHref "x")] } none none []

/-- C113 fails for `:attribute-count`, which counts all attributes. -/
theorem C113_fails_for_counts :
    extract Ex.rx (docHeap 0 (docAttrs [("Class", "c"), ("href", "1")])) oneAttrRule (docAttrs [("Class", "c"), ("href", "1")]).ptr 0 = pure [] ∧
    extract Ex.rx (docHeap 0 (docAttrs [("href", "1")])) oneAttrRule (docAttrs [("href", "1")]).ptr 0 = pure [[(lit "x", lit "1")]] := by
  have hs : oneAttrRule.Safe 1147483648 := by
    simp [oneAttrRule, Rule.Safe, Rule.All, Rule.AllO, Rule.AllL, RuleInfo.Safe, Match.SafeL, Match.SafeO, Match.Safe, Capture.Safe, Ex.capHref]
  have h1 := extract_eq (rx := Ex.rx) (by decide) hs (l := Loc.root (docAttrs [("Class", "c"), ("href", "1")])) docAttrs_both
  have h2 := extract_eq (rx := Ex.rx) (by decide) hs (l := Loc.root (docAttrs [("href", "1")])) docAttrs_one
  refine ⟨(h1 0).trans ?_, (h2 0).trans ?_⟩ <;> decide +kernel

/-- C113 fails for `@inner-html`, which writes all attributes. -/
theorem C113_fails_for_inner_html :
    CaptureFn.innerHtml.val (docHeap 0 (docAttrs [("Class", "c"), ("href", "1")])) (docAttrs [("Class", "c"), ("href", "1")]) =
      lit "<a Class=\"c\" href=\"1\"></a>" ∧
    CaptureFn.innerHtml.val (docHeap 0 (docAttrs [("href", "1")])) (docAttrs [("href", "1")]) = lit "<a href=\"1\"></a>" := by
  decide +kernel

end Hext.Props
