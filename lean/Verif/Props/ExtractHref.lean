import Verif.Spec.ExtractHref
import Verif.Props.Stateful
import Verif.Props.EndToEnd
set_option linter.unusedSimpArgs false
/-!
# The example program extract-href (C84)
-/

namespace Hext.Props

open ExtractHref Syn
open scoped List

section

variable {rx : RxEngine} {h : Heap} {n : Nat} {t : Tree} {u : Uris}

theorem values_searched (tag attr : Str) (t : Tree) :
    t.values tag attr = (Loc.root t).searched.flatten.filterMap fun x => x.self.valueAt tag attr := by
  have := values_under tag attr t
  simp only [Tree.values, Loc.searched, List.flatten_cons, List.filterMap_append, Loc.onward, Loc.root, List.map_cons, underL,
    List.append_nil, this, List.map_nil, List.filterMap_cons, List.filterMap_nil, locsAux]
  simp only [Bool.false_eq_true, if_false, List.map_nil, underL, List.append_nil, this, List.filterMap_nil]
  cases t.valueAt tag attr <;> rfl

theorem href_isName : IsName (lit "href") :=
  ⟨104, lit "ref", by decide, by simp [IsAlpha], by simp only [IsNameByte, IsAlpha]; decide⟩

/-- The value that the code looks at. -/
theorem hrefOf_eq {x : Loc} (hx : x.Stored h n) : hrefOf h x.ptr =
    match x.self.kind with
    | .element e => e.valueOf (lit "href")
    | _ => none := by
  obtain ⟨pp, i, hl⟩ := hx.load
  have e1 : ∀ e : Elem, e.valueOf (lit "href") = (getAttribute e.attrs (lit "href")).bind (·.value) := valueOf_eq href_isName
  unfold hrefOf
  rw [show h x.ptr = _ from hl]
  simp only
  cases hk : x.self.kind with
  | element e =>
    simp only [e1]
    cases getAttribute e.attrs (lit "href") <;> rfl
  | _ => rfl

theorem hasTag_known {tag : Str} (hk : tag.map toLowerB ∈ knownTagNames.map lit) (hlow : tag.map toLowerB = tag) (e : Elem) :
    e.hasTag tag = decide (e.tag = .known tag) := by
  unfold Elem.hasTag
  rw [if_pos hk, hlow]

theorem tagAgrees_known {i : RuleInfo} {tag : Str} (hi : i.tag = .tag (.known tag)) (k : Kind) :
    tagAgrees i k = match k with
      | .element e => decide (e.tag = .known tag)
      | _ => false := by
  unfold tagAgrees
  rw [hi]
  cases k with
  | element e =>
    by_cases he : e.tag = .known tag
    · simp [he]
    · simp [he]
  | _ => rfl

theorem ruleMatches_eq {x : Loc} (hx : x.Stored h n) (i : RuleInfo) :
    ruleMatches rx h i x.ptr = if !tagAgrees i x.self.kind then pure false else allMatch rx h x.ptr i.ms := by
  obtain ⟨pp, j, hl⟩ := hx.load
  simp only [ruleMatches, load_eq hl, pure_bind]

/-- What `BaseUri` extracts. -/
theorem base_extract (hn : n ≤ 2147483647) (hd : IsDocument h n t) :
    extract rx h baseRule t.ptr 0 = pure ((t.values (lit "base") (lit "href")).map fun v => [(lit "href", v)]) := by
  let i : RuleInfo := { tag := .tag (.known (lit "base")), caps := [some (.attribute (lit "href") (lit "href") none)] }
  have hi : i.Safe n := by simp [RuleInfo.Safe, i, Match.SafeL, Capture.Safe]
  have hv : ∀ x : Loc, x.Stored h n → Holds rx h i x → x.self.valueAt (lit "base") (lit "href") = hrefOf h x.ptr := by
    intro x hx ho
    unfold Holds at ho
    rw [ruleMatches_eq hx, tagAgrees_known rfl] at ho
    rw [hrefOf_eq hx]
    unfold Tree.valueAt
    cases hk : x.self.kind with
    | element e =>
      rw [hk] at ho
      simp only at ho ⊢
      by_cases he : e.tag = .known (lit "base")
      · rw [if_pos]
        rw [hasTag_known (by decide) (by decide)]
        simpa using he
      · simp only [he, decide_false, Bool.not_false, if_true] at ho
        exact absurd (E.pure_inj ho) (by decide)
    | _ => rfl
  have hres := leaf_rule_result (rx := rx) (h := h) (l := Loc.root t) hn hi rfl hd
    (fun x => ((x.self.valueAt (lit "base") (lit "href")).map fun v => (lit "href", v)).toList) (by
      intro x hx ho
      obtain ⟨pp, j, hld⟩ := hx.load
      refine ⟨((x.self.valueAt (lit "base") (lit "href")).map fun v => (lit "href", v)).toList, ?_, ?_⟩
      · rw [hv x hx ho]
        simp only [i, ruleCapture, Capture.capture, load_eq hld, pure_bind, hrefOf, show h x.ptr = _ from hld]
        cases hk : x.self.kind with
        | element e =>
          simp only
          cases hg : getAttribute e.attrs (lit "href") with
          | none => rfl
          | some a => cases hav : a.value <;> simp [hav, applyPipe]
        | _ => rfl
      · exact ⟨by cases x.self.valueAt (lit "base") (lit "href") <;> simp, fun _ => rfl⟩)
  refine hres.trans ?_
  congr 1
  rw [values_searched]
  generalize hxs : (Loc.root t).searched.flatten = xs
  have hst : ∀ x ∈ xs, x.Stored h n := by
    intro x hx
    rw [← hxs] at hx
    obtain ⟨ks, hks, hx⟩ := List.mem_flatten.1 hx
    exact searched_stored hd ks hks x hx
  clear hxs hres
  induction xs with
  | nil => rfl
  | cons x xs ih =>
    have ih := ih fun y hy => hst y (by simp [hy])
    rw [List.filter_cons]
    by_cases ho : Holds rx h i x
    · rw [if_pos (by simpa using ho), List.map_cons, List.filter_cons, ih, List.filterMap_cons]
      cases hv : x.self.valueAt (lit "base") (lit "href") <;> simp
    · rw [if_neg (by simpa using ho), ih, List.filterMap_cons]
      have : x.self.valueAt (lit "base") (lit "href") = none := by
        unfold Tree.valueAt
        cases hk : x.self.kind with
        | element e =>
          simp only
          rw [if_neg]
          intro htag
          rw [hasTag_known (by decide) (by decide)] at htag
          refine ho ?_
          unfold Holds
          rw [ruleMatches_eq (hst x (by simp)), tagAgrees_known rfl, hk]
          simp only [htag, Bool.not_true, Bool.false_eq_true, if_false]
          rfl
        | _ => rfl
      rw [this]

theorem baseUri_eq (hn : n ≤ 2147483647) (hd : IsDocument h n t) :
    baseUri rx h t.ptr = pure (t.values (lit "base") (lit "href")).head? := by
  unfold baseUri
  rw [base_extract hn hd, pure_bind]
  cases t.values (lit "base") (lit "href") with
  | nil => rfl
  | cons v vs => simp

theorem useful_eq (v : Str) :
    (if v.isEmpty || v.getD 0 0 == 35 then false
      else if v.length < (lit "javascript:").length then true
      else v.take (lit "javascript:").length != lit "javascript:") = decide (Useful v) := by
  rw [Bool.eq_iff_iff, decide_eq_true_eq]
  unfold Useful
  have e1 : lit "#" = [35] := by decide
  cases v with
  | nil => simp
  | cons b v =>
    rw [e1]
    generalize hq : lit "javascript:" = q
    simp only [List.isEmpty_cons, List.getD_cons_zero, Bool.false_or]
    have e2 : ([35] : Str) <+: b :: v ↔ b = 35 := by simp [List.cons_prefix_cons, eq_comm]
    rw [e2]
    by_cases hb : b = 35
    · simp [hb]
    · simp only [beq_iff_eq, hb, if_false, ne_eq, reduceCtorEq, not_false_eq_true, true_and]
      split
      · next hl =>
        simp only [true_iff]
        intro hp
        have := hp.length_le
        omega
      · rw [bne_iff_ne, ne_eq, List.prefix_iff_eq_take, eq_comm]

/-- The nodes that the rule of `main` matches. -/
theorem anchor_own {x : Loc} (hx : x.Stored h n) : ownVal rx h anchor.info x =
    match x.self.valueAt (lit "a") (lit "href") with
    | none => false
    | some v => decide (Useful v) := by
  unfold ownVal
  rw [ruleMatches_eq hx, tagAgrees_known (tag := lit "a") rfl]
  unfold Tree.valueAt
  cases hk : x.self.kind with
  | element e =>
    simp only [hasTag_known (tag := lit "a") (by decide) (by decide)]
    by_cases he : e.tag = .known (lit "a")
    · simp only [he, decide_true, Bool.not_true, Bool.false_eq_true, if_false, if_true]
      have hm : allMatch rx h x.ptr anchor.info.ms = pure (hasUsefulHref h x.ptr) := by
        show allMatch rx h x.ptr [some (.function (some hasUsefulHref))] = _
        simp only [allMatch, Match.matches, pure_bind]
        cases hasUsefulHref h x.ptr <;> rfl
      have hu : hasUsefulHref h x.ptr = match e.valueOf (lit "href") with
          | none => false
          | some v => decide (Useful v) := by
        unfold hasUsefulHref
        rw [hrefOf_eq hx, hk]
        simp only
        cases e.valueOf (lit "href") with
        | none => rfl
        | some v => exact useful_eq v
      rw [hm, hu]
      cases e.valueOf (lit "href") with
      | none => decide
      | some v => cases hd : decide (Useful v) <;> simp only [hd] <;> decide
    · simp only [he, decide_false, Bool.not_false, Bool.false_eq_true, if_false, if_true]
      decide
  | _ =>
    simp only [Bool.not_false, if_true]
    decide

theorem anchor_search (l : Loc) : (searchAt rx h anchor l).val.map conv =
    l.searched.flatten.filterMap fun x => if ownVal rx h anchor.info x then some [((⟨[], anchor⟩ : RulePtr), x.ptr)] else none := by
  unfold searchAt anchor
  rw [show chain (ownVal rx h) [] (Rule.mk _ none none []) = [_] from rfl, save_single _ rfl, List.map_filterMap]
  congr 1
  funext x
  simp only [oneGroup, runRule, Rule.info]
  rw [show chainO (ownVal rx h) ([] ++ [Step.child]) none = [] from rfl, show chainN (ownVal rx h) [] 0 [] = [] from rfl]
  split <;> simp_all [conv]

theorem anchor_safe (n : Nat) : anchor.Safe n := by
  simp [Rule.Safe, Rule.All, Rule.AllO, Rule.AllL, anchor, RuleInfo.Safe, Match.SafeL, Match.SafeO, Match.Safe, Capture.Safe]

/-- The links of some nodes. -/
def linksAt (xs : List Loc) : List Str :=
  (xs.filterMap fun x : Loc => x.self.valueAt (lit "a") (lit "href")).filter fun v => decide (Useful v)

theorem anchor_groups (b : u.Uri) : ∀ {xs : List Loc}, (∀ x ∈ xs, x.Stored h n) →
    Stateful.groupsToResult (ExtractHref.capture u b) rx h
      (xs.filterMap fun x => if ownVal rx h anchor.info x then some [((⟨[], anchor⟩ : RulePtr), x.ptr)] else none) () =
    if ∃ v ∈ linksAt xs, (u.resolve b v).isNone then some (Except.error Err.thrown, ())
    else some (Except.ok ((linksAt xs).map fun v => [(lit "href", ((u.resolve b v).map u.text).getD [])]), ())
  | [], _ => rfl
  | x :: xs, hst => by
    have ih := anchor_groups b (xs := xs) fun y hy => hst y (by simp [hy])
    have hx := hst x (by simp)
    unfold linksAt at ih ⊢
    rw [List.filterMap_cons, List.filterMap_cons, anchor_own hx]
    cases hv : x.self.valueAt (lit "a") (lit "href") with
    | none => simpa using ih
    | some v =>
      simp only
      by_cases hu : Useful v
      · simp only [hu, decide_true, if_true, List.filter_cons, List.mem_cons, List.map_cons, exists_eq_or_imp, Stateful.groupsToResult]
        have hh : hrefOf h x.ptr = some v := by
          rw [hrefOf_eq hx]
          unfold Tree.valueAt at hv
          cases hk : x.self.kind with
          | element e =>
            rw [hk] at hv
            simp only at hv ⊢
            split at hv
            · exact hv
            · cases hv
          | _ => rw [hk] at hv; cases hv
        have hg : Stateful.groupMap (ExtractHref.capture u b) rx h [((⟨[], anchor⟩ : RulePtr), x.ptr)] [] () =
            match u.resolve b v with
            | none => some (.error .thrown, ())
            | some w => some (.ok [(lit "href", u.text w)], ()) := by
          have hcap : ExtractHref.capture u b hrefCapture h x.ptr () = ((u.resolve b v).map u.text, ()) := by
            simp only [ExtractHref.capture, hh]
          cases hr : u.resolve b v with
          | none =>
            rw [hr] at hcap
            have hc : Stateful.call (ExtractHref.capture u b) h x.ptr (.user hrefCapture) () = some (.error .thrown, ()) := by
              simp only [Stateful.call, hcap]
              rfl
            have h1 : Stateful.capture (ExtractHref.capture u b) rx h x.ptr (.function (some (.user hrefCapture)) (lit "href") none) () =
                some (.error .thrown, ()) := by
              simp only [Stateful.capture]
              exact Stateful.bind_error hc
            have h2 : Stateful.ruleCapture (ExtractHref.capture u b) rx h x.ptr anchor.info.caps () = some (.error .thrown, ()) := by
              show Stateful.ruleCapture _ rx h x.ptr [some (.function (some (.user hrefCapture)) (lit "href") none)] () = _
              simp only [Stateful.ruleCapture]
              exact Stateful.bind_error h1
            unfold Stateful.groupMap
            simp only [show anchor.info.caps.length > 0 by decide, if_true]
            exact Stateful.bind_error h2
          | some w =>
            rw [hr] at hcap
            have hc : Stateful.call (ExtractHref.capture u b) h x.ptr (.user hrefCapture) () = some (.ok (u.text w), ()) := by
              simp only [Stateful.call, hcap]
              rfl
            have h1 : Stateful.capture (ExtractHref.capture u b) rx h x.ptr (.function (some (.user hrefCapture)) (lit "href") none) () =
                some (.ok (some (lit "href", u.text w)), ()) := by
              simp only [Stateful.capture]
              rw [Stateful.bind_ok hc]
              rfl
            have h2 : Stateful.ruleCapture (ExtractHref.capture u b) rx h x.ptr anchor.info.caps () = some (.ok [(lit "href", u.text w)], ()) := by
              show Stateful.ruleCapture _ rx h x.ptr [some (.function (some (.user hrefCapture)) (lit "href") none)] () = _
              simp only [Stateful.ruleCapture]
              rw [Stateful.bind_ok h1]
              rfl
            unfold Stateful.groupMap
            simp only [show anchor.info.caps.length > 0 by decide, if_true]
            rw [Stateful.bind_ok h2]
            rfl
        cases hr : u.resolve b v with
        | none =>
          rw [hr] at hg
          rw [Stateful.bind_error hg, if_pos (.inl rfl)]
        | some w =>
          rw [hr] at hg
          rw [Stateful.bind_ok hg]
          generalize hL : ((xs.filterMap fun x : Loc => x.self.valueAt (lit "a") (lit "href")).filter fun v => decide (Useful v)) = L at ih ⊢
          by_cases hE : ∃ v ∈ L, (u.resolve b v).isNone
          · rw [if_pos hE] at ih
            rw [Stateful.bind_error ih, if_pos (.inr hE)]
          · rw [if_neg hE] at ih
            have hE' : ¬ ((some w).isNone = true ∨ ∃ a, a ∈ L ∧ (u.resolve b a).isNone = true) := by
              rintro (hc | hc)
              · cases hc
              · exact hE hc
            rw [Stateful.bind_ok ih, if_neg hE']
            rfl
      · rw [List.filter_cons_of_neg (by simpa using hu)]
        simpa only [hu, decide_false, Bool.false_eq_true, if_false] using ih

/-- C84. extract-href prints each useful link of a document, resolved against the base, in the order of the search, one per line. If the base
or one of the links is malformed then it prints nothing and is terminated. -/
theorem C84_extract_href (u : Uris) (rx : RxEngine) (hn : n ≤ 2147483647) (hd : IsDocument h n t) (arg : Option Str) :
    ExtractHref.main u rx h arg t.ptr = pure (expected u arg t) := by
  have hbase : baseText rx h arg t.ptr = pure (baseOf arg t) := by
    unfold baseText
    cases arg with
    | some a => rfl
    | none =>
      simp only [baseUri_eq hn hd, pure_bind, baseOf, Option.getD_none]
      cases (t.values (lit "base") (lit "href")).head? <;> rfl
  unfold ExtractHref.main expected
  rw [hbase, pure_bind]
  cases u.parse (baseOf arg t) with
  | none => rfl
  | some b =>
    simp only
    have hst : ∀ x ∈ (Loc.root t).searched.flatten, x.Stored h n := by
      intro x hx
      obtain ⟨ks, hks, hx⟩ := List.mem_flatten.1 hx
      exact searched_stored hd ks hks x hx
    have hlinks : links t = linksAt (Loc.root t).searched.flatten := by
      unfold links linksAt
      rw [values_searched]
    rw [show t.ptr = (Loc.root t).ptr from rfl, Stateful.extract_search hn (anchor_safe _) hd, anchor_search, anchor_groups b hst, ← hlinks]
    by_cases hE : ∃ v ∈ links t, (u.resolve b v).isNone
    · simp only [if_pos hE]
    · simp only [if_neg hE, printAll, List.flatMap_map]
      simp

end

/-! ## Examples -/

/-- URIs that are just put together; those with a space are malformed. -/
def plainUris : Uris := ⟨Str, fun s => if 32 ∈ s then none else some s, fun b s => if 32 ∈ s then none else some (b ++ s), id⟩

/-- `<html><head><base href="http://x/"></head><body><a href="1"></a><a href="#top"></a><p><a href="JAVASCRIPT:f()"></a></p>
<a href="javascript:f()"></a><a href=""></a></body></html>` -/
def hrefDoc (extra : List Tree) : Tree := Ex.el 1 "html" [] [
  Ex.el 2 "head" [] [Ex.el 3 "base" [("href", "http://x/")] []],
  Ex.el 4 "body" [] ([Ex.el 5 "a" [("href", "1")] [], Ex.el 6 "a" [("href", "#top")] [],
    Ex.el 7 "p" [] [Ex.el 8 "a" [("href", "JAVASCRIPT:f()")] []],
    Ex.el 9 "a" [("href", "javascript:f()")] [], Ex.el 10 "a" [("href", "")] []] ++ extra)]

/-- Two links are printed. That `JAVASCRIPT:` means the same as `javascript:` is not taken into account. -/
example : ExtractHref.main plainUris Ex.rx (docHeap 0 (hrefDoc [])) none (hrefDoc []).ptr =
    pure (.exit (lit "http://x/1\nhttp://x/JAVASCRIPT:f()\n")) := by
  rw [C84_extract_href (n := 2147483647) _ _ (by decide) (isDocument_of_ok (by decide +kernel))]
  decide +kernel

/-- C84. One malformed link suppresses the whole output. -/
theorem C84_malformed : ExtractHref.main plainUris Ex.rx (docHeap 0 (hrefDoc [Ex.el 11 "a" [("href", "a b")] []])) none
    (hrefDoc [Ex.el 11 "a" [("href", "a b")] []]).ptr = pure .terminate := by
  rw [C84_extract_href (n := 2147483647) _ _ (by decide) (isDocument_of_ok (by decide +kernel))]
  decide +kernel

/-- `<html><p><base href="first/"></base></p><base href="second/"></base><a href="1"></a></html>` -/
def twoBases : Tree := Ex.el 1 "html" [] [Ex.el 2 "p" [] [Ex.el 3 "base" [("href", "first/")] []], Ex.el 4 "base" [("href", "second/")] [],
  Ex.el 5 "a" [("href", "1")] []]

/-- C84. The `base` that is used is the first one of the search, not the first one of the document. -/
theorem C84_base_order : ExtractHref.main plainUris Ex.rx (docHeap 0 twoBases) none twoBases.ptr = pure (.exit (lit "second/1\n")) := by
  rw [C84_extract_href (n := 2147483647) _ _ (by decide) (isDocument_of_ok (by decide +kernel))]
  decide +kernel

end Hext.Props
