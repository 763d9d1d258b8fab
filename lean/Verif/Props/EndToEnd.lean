import Verif.Spec.Links
import Verif.Props.Conditions
import Verif.Props.Captures
import Verif.Props.Whole
import Verif.Proofs.Param
set_option linter.unusedSimpArgs false
/-!
# From the text of a hext to the result
-/

namespace Hext.Props

open Hext Syn

section
variable {rx : RxEngine} {h : Heap} {n : Nat} {l : Loc}

open Classical in
/-- A rule without child, nested or following rules, not greedy: one map for each searched node that it matches, in search order,
without the empty maps. -/
theorem leaf_rule_result (hn : n ≤ 2147483647) {i : RuleInfo} (hi : i.Safe n) (hg : i.greedy = false) (hl : l.Stored h n)
    (mapOf : Loc → List (Str × Str))
    (hm : ∀ x, x.Stored h n → Holds rx h i x → ∃ vs, ruleCapture rx h x.ptr i.caps = pure vs ∧ IsMap vs (mapOf x)) :
    extract rx h (.mk i none none []) l.ptr 0 =
      pure (((l.searched.flatten.filter fun x => decide (Holds rx h i x)).map mapOf).filter (· ≠ [])) := by
  have hr : (Rule.mk i none none []).Safe n := by
    simp only [Rule.Safe, Rule.All, Rule.AllO, Rule.AllL]; exact ⟨hi, trivial, trivial, trivial⟩
  obtain ⟨res, he⟩ := extract_unlimited (rx := rx) hn hr hl
  obtain ⟨subs, maps, h1, h2, h3, h4⟩ := single_rule_complete hn hr hl rfl hg he
  rw [he, h4]
  have hsat : ∀ x, Sat (Holds rx h) (.mk i none none []) x ↔ Holds rx h i x := by
    intro x
    constructor
    · intro hs
      cases hs with
      | leaf ho _ _ => exact ho
      | inner ho _ _ _ _ => exact ho
    · exact fun ho => .leaf ho rfl rfl
  simp only [hsat] at h1 h2 h3
  have hst : ∀ x ∈ l.searched.flatten.filter fun x => decide (Holds rx h i x), x.Stored h n ∧ Holds rx h i x := by
    intro x hx
    obtain ⟨hx, ho⟩ := List.mem_filter.1 hx
    obtain ⟨ks, hks, hx⟩ := List.mem_flatten.1 hx
    exact ⟨searched_stored hl ks hks x hx, by simpa using ho⟩
  generalize (l.searched.flatten.filter fun x => decide (Holds rx h i x)) = xs at h1 h2 h3 hst
  congr 2
  clear h4 he
  induction xs generalizing subs maps with
  | nil => cases h3; rfl
  | cons x xs ih =>
    cases subs with
    | nil => simp at h1
    | cons s subs =>
      simp only [List.zip_cons_cons, List.mem_cons] at h2
      have hs : s = [] := by
        cases h2 (x, s) (.inl rfl) with
        | leaf => rfl
        | inner _ hno => exact absurd ⟨rfl, rfl⟩ hno
      subst hs
      rw [List.zipWith_cons_cons] at h3
      generalize hG : List.zipWith (fun x sub => sub ++ [(Rule.mk i none none [], x)]) xs subs = G at h3
      cases h3 with
      | cons hc hmm h3 =>
        subst hG
        rw [List.map_cons, ← ih subs _ (by simpa using h1) (fun p hp => h2 p (.inr hp)) h3 fun y hy => hst y (by simp [hy])]
        congr 1
        obtain ⟨vs, hv1, hv2⟩ := hm x (hst x (by simp)).1 (hst x (by simp)).2
        have := hc.unique (ws := vs ++ []) (.cons (r := .mk i none none []) hv1 .nil)
        rw [this, List.append_nil] at hmm
        exact hmm.unique hv2

theorem isName_noNul {s : Str} (hs : IsName s) : 0 ∉ s := by
  obtain ⟨b, t, rfl, hb, ht⟩ := hs
  intro h0
  rcases List.mem_cons.1 h0 with rfl | h0
  · rcases hb with hb | hb <;> exact absurd hb.1 (by decide)
  · rcases ht 0 h0 with (hb | hb) | hb | hb | hb
    · exact absurd hb.1 (by decide)
    · exact absurd hb.1 (by decide)
    · exact absurd hb.1 (by decide)
    · exact absurd hb (by decide)
    · exact absurd hb (by decide)

theorem isName_ne_star {s : Str} (hs : IsName s) : s ≠ [42] := by
  obtain ⟨b, t, rfl, hb, ht⟩ := hs
  intro h0
  obtain ⟨rfl, _⟩ := List.cons.inj h0
  rcases hb with hb | hb <;> exact absurd hb.1 (by decide)

/-- The rule that `<tag attr:key/>` stands for. -/
def linkInfo (tag attr key : Str) : RuleInfo :=
  { tag := (tagMeaning tag).1, tagname := (tagMeaning tag).2, ms := [some (.attribute attr none)], caps := [some (.attribute attr key none)] }

theorem link_parsed (rx : RxEngine) (charSigned : Bool) {tag attr key : Str} (ht : IsName tag) (ha : IsName attr) (hk : IsName key) :
    parseHext rx charSigned (lit "<" ++ tag ++ lit " " ++ attr ++ lit ":" ++ key ++ lit "/>") =
      .ok (.mk (linkInfo tag attr key) none none []) := by
  let hd : Head := { options := [], tag, conds := [], pats := [([32], .capAttr attr [] (.plain key) false)], ws := [] }
  have hok : ∀ i ∈ [Item.start hd true], i.Ok := by
    simp only [List.mem_cons, List.not_mem_nil, or_false]
    rintro i rfl
    refine ⟨.inr ht, by simp [hd], ?_, by simp [hd]⟩
    simp only [hd, List.mem_cons, List.not_mem_nil, or_false, forall_eq]
    refine ⟨by simp, by simp [IsSpace], ha, by simp, ?_⟩
    obtain ⟨b, t, rfl, hb, hk⟩ := hk
    refine ⟨by simp, fun x hx => ?_⟩
    rcases List.mem_cons.1 hx with rfl | hx
    · exact .inl (.inl hb)
    · exact .inl (hk x hx)
  have htext : lit "<" ++ tag ++ lit " " ++ attr ++ lit ":" ++ key ++ lit "/>" = itemsText [Item.start hd true] := by
    have e1 : lit "<" = [60] := by decide
    have e2 : lit " " = [32] := by decide
    have e3 : lit ":" = [58] := by decide
    simp [itemsText, Item.text, Head.text, hd, patsText, Pat.text, CapName.text, e1, e2, e3]
  rw [htext]
  exact (parse_items hok _).2 ⟨_, _, .elem (.selfClosing rfl) .nil, rfl⟩

theorem link_holds (hl : l.Stored h n) (hn : n ≤ 2147483647) {tag attr key : Str} (ht : IsName tag) :
    Holds rx h (linkInfo tag attr key) l ↔
      ∃ e a, l.self.kind = .element e ∧ e.hasTag tag = true ∧ getAttribute e.attrs attr = some a := by
  rw [holds_iff hl hn (by simp [RuleInfo.Safe, linkInfo, Match.SafeL, Match.SafeO, Match.Safe, Capture.Safe]) (by simp [linkInfo, Match.WordsOkL, Match.WordsOk])]
  have htag : TagMeans (linkInfo tag attr key) l ↔ ∃ e, l.self.kind = .element e ∧ e.hasTag tag = true := by
    simp only [TagMeans, linkInfo, tagMeaning, if_neg (isName_ne_star ht), cstr_eq_self (isName_noNul ht), gumboTagEnum, Elem.hasTag]
    by_cases hk : tag.map toLowerB ∈ knownTagNames.map lit
    · rw [if_pos (by simpa using hk)]
      simp only [if_pos hk]
      simp
    · rw [if_neg (by simpa using hk)]
      simp only [if_neg hk]
      simp [SameName]
      constructor
      · rintro ⟨e, h1, h2, o, h3, h4⟩; exact ⟨e, h1, h2, by simp [h3, h4]⟩
      · rintro ⟨e, h1, h2, h3⟩
        cases ho : e.origName with
        | none => simp [ho] at h3
        | some o => exact ⟨e, h1, h2, o, ho, by simpa [ho] using h3⟩
  rw [htag]
  simp only [linkInfo, List.mem_cons, List.not_mem_nil, or_false, Option.some.injEq, forall_eq, Match.Means, isAttr_iff]
  constructor
  · rintro ⟨⟨e, h1, h2⟩, e', a, h3, h4⟩
    rw [h1] at h3
    cases h3
    exact ⟨e, a, h1, h2, h4⟩
  · rintro ⟨e, a, h1, h2, h3⟩
    exact ⟨⟨e, h1, h2⟩, e, a, h1, h3⟩

theorem valueOf_eq {attr : Str} (ha : IsName attr) (e : Elem) : e.valueOf attr = (getAttribute e.attrs attr).bind (·.value) := by
  simp only [Elem.valueOf, getAttribute, cstr_eq_self (isName_noNul ha), eqIgnoreCase]
  congr 2
  funext a
  rw [Bool.eq_iff_iff]; simp

mutual
theorem values_under (tag attr : Str) : ∀ (t : Tree),
    t.under.flatten.filterMap (fun x => x.self.valueAt tag attr) = t.valuesBelow tag attr
  | .node p k kids => by
    cases k with
    | element e =>
      simp only [Tree.under, Tree.valuesBelow]
      split
      · rename_i hk
        cases kids with
        | nil => simp [valuesBelowL]
        | cons => simp at hk
      · rw [List.flatten_cons, List.filterMap_append, values_underL tag attr kids]
        congr 1
        have := List.filterMap_map (f := fun x : Loc => x.self) (g := Tree.valueAt tag attr) (l := locs kids)
        rw [locs, Param.locsAux_self] at this
        exact this.symm
    | _ => simp [Tree.under, Tree.valuesBelow]
theorem values_underL (tag attr : Str) : ∀ (ts : List Tree),
    (underL ts).flatten.filterMap (fun x => x.self.valueAt tag attr) = valuesBelowL tag attr ts
  | [] => by simp [underL, valuesBelowL]
  | t :: ts => by
    simp only [underL, valuesBelowL, List.flatten_append, List.filterMap_append, values_under tag attr t, values_underL tag attr ts]
end

/-- C62. `<tag attr:key/>`, for any names, is a valid hext. Its result on a document is one map for each element that has this tag and
this attribute; the map has the value of the attribute under `key` and nothing else. The order is that of `Tree.values`. -/
theorem C62_link (charSigned : Bool) {tag attr key : Str} (ht : IsName tag) (ha : IsName attr) (hk : IsName key) {t : Tree}
    (hn : n ≤ 2147483647) (hd : IsDocument h n t) :
    ∃ r, parseHext rx charSigned (lit "<" ++ tag ++ lit " " ++ attr ++ lit ":" ++ key ++ lit "/>") = .ok r ∧
      extract rx h r t.ptr 0 = pure ((t.values tag attr).map fun v => [(key, v)]) := by
  refine ⟨_, link_parsed rx charSigned ht ha hk, ?_⟩
  have hi : (linkInfo tag attr key).Safe n := by simp [RuleInfo.Safe, linkInfo, Match.SafeL, Match.SafeO, Match.Safe, Capture.Safe]
  have hres := leaf_rule_result (rx := rx) (h := h) (l := Loc.root t) hn hi rfl hd
    (fun x => ((x.self.valueAt tag attr).map fun v => (key, v)).toList) (by
      intro x hx ho
      obtain ⟨e, a, h1, h2, h3⟩ := (link_holds (key := key) hx hn ht).1 ho
      obtain ⟨pp, i, hld⟩ := hx.load
      refine ⟨((x.self.valueAt tag attr).map fun v => (key, v)).toList, ?_, ?_⟩
      · simp only [linkInfo, ruleCapture, Capture.capture, load_eq hld, pure_bind, h1, h3, Tree.valueAt, h2, if_true, valueOf_eq ha]
        cases hv : a.value with
        | none => simp [hv]
        | some v => simp [hv, applyPipe]
      · exact ⟨by cases x.self.valueAt tag attr <;> simp, fun _ => rfl⟩)
  refine hres.trans ?_
  congr 1
  have hvals : t.values tag attr = (Loc.root t).searched.flatten.filterMap fun x => x.self.valueAt tag attr := by
    have := values_under tag attr t
    simp only [Tree.values, Loc.searched, List.flatten_cons, List.filterMap_append, Loc.onward, Loc.root, List.map_cons, underL,
      List.append_nil, this, List.map_nil, List.filterMap_cons, List.filterMap_nil, locsAux]
    simp only [Bool.false_eq_true, if_false, List.map_nil, underL, List.append_nil, this, List.filterMap_nil]
    cases t.valueAt tag attr <;> rfl
  rw [hvals]
  generalize hxs : (Loc.root t).searched.flatten = xs
  have hst : ∀ x ∈ xs, x.Stored h n := by
    intro x hx
    rw [← hxs] at hx
    obtain ⟨ks, hks, hx⟩ := List.mem_flatten.1 hx
    exact searched_stored hd ks hks x hx
  clear hxs hvals hres
  induction xs with
  | nil => rfl
  | cons x xs ih =>
    have ih := ih fun y hy => hst y (by simp [hy])
    rw [List.filter_cons]
    by_cases ho : Holds rx h (linkInfo tag attr key) x
    · rw [if_pos (by simpa using ho), List.map_cons, List.filter_cons, ih, List.filterMap_cons]
      cases hv : x.self.valueAt tag attr <;> simp
    · rw [if_neg (by simpa using ho), ih, List.filterMap_cons]
      have : x.self.valueAt tag attr = none := by
        rw [Option.eq_none_iff_forall_ne_some]
        intro v hv
        apply ho
        rw [link_holds (hst x (by simp)) hn ht]
        unfold Tree.valueAt at hv
        split at hv
        · rename_i e he
          split at hv
          · rename_i htg
            rw [valueOf_eq ha, Option.bind_eq_some_iff] at hv
            obtain ⟨a, ha', _⟩ := hv
            exact ⟨e, a, he, htg, ha'⟩
          · cases hv
        · cases hv
      rw [this]

/-- `<html><p><a href="1"></a></p><a href="2"></a></html>` -/
def nestedLinks : Tree := Ex.el 1 "html" [] [Ex.el 2 "p" [] [Ex.el 3 "a" [("href", "1")] []], Ex.el 4 "a" [("href", "2")] []]

/-- The order of the result is not that of the document: the links next to each other come first, then those inside of
elements. -/
theorem C62_order : parseHext Ex.rx true (lit "<a href:x/>") = .ok hrefRule ∧
    extract Ex.rx (docHeap 0 nestedLinks) hrefRule nestedLinks.ptr 0 = pure [[(lit "x", lit "2")], [(lit "x", lit "1")]] := by
  have hname : IsName (lit "a") ∧ IsName (lit "href") ∧ IsName (lit "x") := by
    refine ⟨⟨97, [], by decide, by simp [IsAlpha], by simp⟩, ⟨104, lit "ref", by decide, by simp [IsAlpha], ?_⟩,
      ⟨120, [], by decide, by simp [IsAlpha], by simp⟩⟩
    simp only [IsNameByte, IsAlpha]; decide
  have hd : IsDocument (docHeap 0 nestedLinks) 2147483647 nestedLinks := isDocument_of_ok (by decide +kernel)
  obtain ⟨r, h1, h2⟩ := C62_link (rx := Ex.rx) true hname.1 hname.2.1 hname.2.2 (by decide) hd
  rw [show lit "<" ++ lit "a" ++ lit " " ++ lit "href" ++ lit ":" ++ lit "x" ++ lit "/>" = lit "<a href:x/>" by decide,
    href_parsed] at h1
  cases h1
  refine ⟨href_parsed _ _, ?_⟩
  rw [h2]
  decide +kernel

end

end Hext.Props
