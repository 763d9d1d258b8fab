import Verif.Spec.HextCaptures
import Verif.Props.Reorder
set_option linter.unusedSimpArgs false
/-!
# C57, C60 and C61 for hexts
-/

namespace Hext.Props

open Hext Param Syn

section
variable {rx : RxEngine} {h : Heap} {n : Nat} {l : Loc} {r r' : Rule}

/-! ## What patterns mean -/

theorem patVal_conditions (ps : List Pat) : (∀ p ∈ ps, ∃ y, p.meaning rx {} = some y) →
    (ps.flatMap fun p => (patVal rx p).1) = (ps.filterMap Pat.condition).flatMap fun p => (patVal rx p).1 := by
  induction ps with
  | nil => intro _; rfl
  | cons p ps ih =>
    intro hv
    obtain ⟨y, hy⟩ := hv p (by simp)
    have ih := ih fun q hq => hv q (by simp [hq])
    rw [List.flatMap_cons, ih, List.filterMap_cons]
    cases p with
    | capFn fn qs nm =>
      simp only [Pat.meaning, Option.bind_eq_bind, Option.bind_eq_some_iff, Option.some.injEq] at hy
      obtain ⟨x, hx, rfl⟩ := hy
      simp [Pat.condition, patVal, Pat.meaning, hx]
    | capAttr a qs nm o =>
      simp only [Pat.meaning, Option.bind_eq_bind, Option.bind_eq_some_iff, Option.some.injEq] at hy
      obtain ⟨x, hx, rfl⟩ := hy
      cases o <;> simp [Pat.condition, patVal, Pat.meaning, hx]
    | testFn _ _ _ => simp [Pat.condition]
    | testAttr _ _ _ => simp [Pat.condition]
    | hasAttr _ _ => simp [Pat.condition]

theorem patVal_captured (ps : List Pat) : (ps.flatMap fun p => (patVal rx p).2) =
    (ps.filterMap Pat.captured).flatMap fun p => (patVal rx p).2 := by
  induction ps with
  | nil => rfl
  | cons p ps ih =>
    rw [List.flatMap_cons, ih, List.filterMap_cons]
    cases p with
    | capFn fn qs nm => simp [Pat.captured]
    | capAttr a qs nm o =>
      simp only [Pat.captured, List.flatMap_cons, List.append_cancel_right_eq, patVal, Pat.meaning, Option.bind_eq_bind]
      cases pipesMeaning rx {} qs <;> simp
    | testFn _ t neg =>
      simp only [Pat.captured, patVal, Pat.meaning, Option.bind_eq_bind]
      cases t.meaning rx {} <;> simp
    | testAttr _ t neg =>
      simp only [Pat.captured, patVal, Pat.meaning, Option.bind_eq_bind]
      cases t.meaning rx {} <;> simp
    | hasAttr _ _ => simp [Pat.captured, patVal, Pat.meaning]

theorem patVal_filter (N : Str → Bool) (p : Pat) : (patVal rx p).2.filter (fun c => N c.resultName) =
    if p.captureName.any N then (patVal rx p).2 else [] := by
  unfold patVal
  cases p with
  | capFn fn ps nm =>
    simp only [Pat.meaning, Option.bind_eq_bind, Pat.captureName, Option.any_some]
    cases pipesMeaning rx {} ps with
    | none => by_cases hn : N nm.meaning <;> simp [hn]
    | some x => by_cases hn : N nm.meaning <;> simp [hn, Capture.resultName]
  | capAttr a ps nm o =>
    simp only [Pat.meaning, Option.bind_eq_bind, Pat.captureName, Option.any_some]
    cases pipesMeaning rx {} ps with
    | none => by_cases hn : N nm.meaning <;> simp [hn]
    | some x => by_cases hn : N nm.meaning <;> simp [hn, Capture.resultName]
  | testFn fn t neg =>
    simp only [Pat.meaning, Option.bind_eq_bind, Pat.captureName]
    cases t.meaning rx {} <;> simp
  | testAttr fn t neg =>
    simp only [Pat.meaning, Option.bind_eq_bind, Pat.captureName]
    cases t.meaning rx {} <;> simp
  | hasAttr a neg => simp [Pat.meaning, Pat.captureName]

theorem patVal_into (N : Str → Bool) (ps : List Pat) : (ps.flatMap fun p => (patVal rx p).2).filter (fun c => N c.resultName) =
    (capturedInto N ps).flatMap fun p => (patVal rx p).2 := by
  rw [patVal_captured, capturedInto]
  generalize ps.filterMap Pat.captured = qs
  induction qs with
  | nil => rfl
  | cons p ps ih =>
    rw [List.flatMap_cons, List.filter_append, ih, patVal_filter, List.filter_cons]
    by_cases hp : p.captureName.any N <;> simp [hp]

theorem head_sameUpTo {N : Str → Bool} {hd hd' : Head} (hr : hd.SameUpTo N hd') (ho : ∀ c ∈ hd.conds, c.NoOptions)
    (hv : ∀ p ∈ hd'.pats, ∃ x, p.2.meaning rx {} = some x) {info : RuleInfo} {f : Flags} (hm : hd.meaning rx {} = some (info, f)) :
    f = {} ∧ ∃ info', hd'.meaning rx {} = some (info', {}) ∧ SameCapturesInto N info info' := by
  simp only [Head.meaning, Option.bind_eq_bind, Option.bind_eq_some_iff, Option.some.injEq, Prod.mk.injEq] at hm
  obtain ⟨⟨ms, g⟩, h1, y, h2, hi, rfl⟩ := hm
  obtain ⟨e, _⟩ := conds_lists ho h1
  simp only at e
  subst e
  obtain ⟨k2, rfl⟩ := pats_val.1 h2
  have hv' : ∀ p ∈ hd'.pats.map (·.2), ∃ y, p.meaning rx {} = some y := fun p hp => by
    obtain ⟨q, hq, rfl⟩ := List.mem_map.1 hp
    exact hv q hq
  have h4 := (pats_val (rx := rx) (ps := hd'.pats)).2 ⟨hv', rfl⟩
  have h3 : condsMeaning rx {} hd'.conds = some (ms, {}) := hr.conds ▸ h1
  refine ⟨rfl, _, by simp [Head.meaning, h3, h4]; rfl, ?_⟩
  subst hi
  refine ⟨?_, ?_⟩
  · have e := (patVal_conditions _ k2).trans ((congrArg _ hr.pats).trans (patVal_conditions _ hv').symm)
    simp only at e
    rw [hr.tag, hr.options, e]
    simp
  · have hcap : ∀ cs : List Capture, capturesInto N (cs.map some) = cs.filter (fun c => N c.resultName) := fun cs => by
      simp [capturesInto, List.filterMap_map]
    rw [hcap, hcap, patVal_into, patVal_into, hr.captures]

theorem item_sameUpTo {N : Str → Bool} {i i' : Item} (hs : i.SameUpTo N i') (ho : i.NoOptions) (hv : i'.Valid rx) :
    ItemRel rx (SameCapturesInto N) i i' := by
  rcases hs with rfl | ⟨hd, hd', sc, rfl, rfl, hr⟩
  · cases i with
    | start hd sc => exact ⟨hd, rfl, fun info f hm => head_sameUpTo ⟨rfl, rfl, rfl, rfl, rfl⟩ ho hv hm⟩
    | _ => rfl
  · exact ⟨hd', rfl, fun info f hm => head_sameUpTo hr ho hv hm⟩

theorem items_sameUpTo {N : Str → Bool} : ∀ {is is' : List Item}, is.length = is'.length → (∀ p ∈ is.zip is', p.1.SameUpTo N p.2) →
    (∀ i ∈ is, i.NoOptions) → (∀ i ∈ is', i.Valid rx) → All2 (ItemRel rx (SameCapturesInto N)) is is'
  | [], [], _, _, _, _ => .nil
  | [], _ :: _, hl, _, _, _ => by simp at hl
  | _ :: _, [], hl, _, _, _ => by simp at hl
  | i :: is, i' :: is', hl, hp, ho, hv =>
    .cons (item_sameUpTo (hp (i, i') (by simp)) (ho i (by simp)) (hv i' (by simp)))
      (items_sameUpTo (by simpa using hl) (fun p h => hp p (by simp [h])) (fun i h => ho i (by simp [h])) fun i h => hv i (by simp [h]))

/-! ## C57 -/

/-- C57 for hexts. Add, remove, rename and change captures of the tags of a hext, as long as the attributes that are demanded stay the
same (`attr:name` demands the attribute, `attr:name?` does not): the hext stays valid if the regular expressions are, either both throw
`MaxSearchError` or none does, and what is captured under the names `N`, whose captures were not changed, is the same. (Not for hexts with
options of `:type-matches`, which apply to what follows, see C41, or with numbers of ten digits, see C18.) -/
theorem C57_hext {charSigned : Bool} {N : Str → Bool} {is is' : List Item} (hok : ∀ i ∈ is, i.Ok) (hok' : ∀ i ∈ is', i.Ok)
    (hlen : is.length = is'.length) (hi : ∀ p ∈ is.zip is', p.1.SameUpTo N p.2) (ho : ∀ i ∈ is, i.NoOptions)
    (hv : ∀ i ∈ is', i.Valid rx) (hl : NoLong (itemsText is)) (hl' : NoLong (itemsText is'))
    (hp : parseHext rx charSigned (itemsText is) = .ok r) :
    ∃ r', parseHext rx charSigned (itemsText is') = .ok r' ∧
      ∀ {h : Heap} {t : Tree}, IsDocument h 1147483648 t → ∀ ms,
        (extract rx h r t.ptr ms = throw .maxSearch ∧ extract rx h r' t.ptr ms = throw .maxSearch) ∨
        ∃ res res', extract rx h r t.ptr ms = pure res ∧ extract rx h r' t.ptr ms = pure res' ∧
          restrict N res = restrict N res' := by
  obtain ⟨f, rs, hs, he⟩ := (parse_items hok r).1 hp
  obtain ⟨_, rs', hs', ha⟩ := seq_related (fun i i' t hI hc => by rw [hI.1] at hc; exact hc) hs rfl (items_sameUpTo hlen hi ho hv)
  have hp' := (parse_items (cs := charSigned) hok' _).2 ⟨_, rs', hs', rfl⟩
  have hal : (ruleOf rs).Alike (SameCapturesInto N) (ruleOf rs') := by
    cases ha with
    | nil => exact ⟨⟨rfl, rfl⟩, rfl, rfl, rfl⟩
    | cons h1 h2 => exact chain_alike h1 h2
  refine ⟨_, hp', fun {h t} ht ms => ?_⟩
  subst he
  exact captures_do_not_influence_matching (l := Loc.root t) (n := 1147483648) (by decide) (parse_safe hl hp) (parse_safe hl' hp') N hal ht ms

/-! ## C60 -/

/-- C60 for hexts. If a hext has one rule on its top level, whose tag is `hd`, it makes no difference whether this tag is marked as
optional. (Not for hexts with numbers of ten digits, see C18.) -/
theorem C60_hext {charSigned : Bool} {fill rest : List Item} {hd : Head} {sc : Bool} (hfill : ∀ i ∈ fill, i.IsFiller)
    (hok : ∀ i ∈ fill ++ Item.start hd sc :: rest, i.Ok) (hl : NoLong (itemsText (fill ++ Item.start hd sc :: rest)))
    (hp : parseHext rx charSigned (itemsText (fill ++ Item.start hd sc :: rest)) = .ok r) (hone : r.next = none)
    {options : List Bool} (ho : options.contains false = hd.options.contains false) :
    ∃ r', parseHext rx charSigned (itemsText (fill ++ Item.start { hd with options } sc :: rest)) = .ok r' ∧
      ∀ {h : Heap} {t : Tree}, IsDocument h 1147483648 t → ∀ ms, extract rx h r' t.ptr ms = extract rx h r t.ptr ms := by
  have hsafe : r.Safe 1147483648 := parse_safe hl hp
  obtain ⟨f, rs, hs, he⟩ := (parse_items hok r).1 hp
  have hok' : ∀ i ∈ fill ++ Item.start { hd with options } sc :: rest, i.Ok := fun i hi => by
    rcases List.mem_append.1 hi with hi | hi
    · exact hok i (by simp [hi])
    · rcases List.mem_cons.1 hi with rfl | hi
      · exact hok (Item.start hd sc) (by simp)
      · exact hok i (by simp [hi])
  have hmean : ∀ {f info f'}, hd.meaning rx f = some (info, f') →
      Head.meaning rx f { hd with options } = some ({ info with optional := options.contains true }, f') := by
    intro f info f' hm
    simp only [Head.meaning, Option.bind_eq_bind, Option.bind_eq_some_iff, Option.some.injEq, Prod.mk.injEq] at hm ⊢
    obtain ⟨x, h1, y, h2, rfl, rfl⟩ := hm
    exact ⟨x, h1, y, h2, by simp only [RuleInfo.mk.injEq, true_and, and_true]; exact ho, rfl⟩
  have key : ∀ {fill : List Item} {f0 : Flags}, (∀ i ∈ fill, i.IsFiller) →
      Syn.Seq rx f0 (fill ++ Item.start hd sc :: rest) f rs → ∃ i kids nested more,
        rs = mkRule i kids nested :: more ∧
        Syn.Seq rx f0 (fill ++ Item.start { hd with options } sc :: rest) f
          (mkRule { i with optional := options.contains true } kids nested :: more) := by
    intro fill
    induction fill with
    | nil =>
      intro f0 _ hs
      generalize hx : [] ++ Item.start hd sc :: rest = xs at hs
      cases hs with
      | nil => cases hx
      | filler h1 h2 => cases hx; exact h1.elim
      | @elem _ is1 f1 r1 js f2 rs1 h1 h2 =>
        cases h1 with
        | selfClosing hm =>
          cases hx
          exact ⟨_, [], [], rs1, rfl, .elem (is := [.start { hd with options } true]) (.selfClosing (hmean hm)) h2⟩
        | @closed _ hd1 _ info is2 _ kids nested t hm hb hc =>
          simp only [List.nil_append, List.cons_append, List.cons.injEq, Item.start.injEq] at hx
          obtain ⟨⟨rfl, rfl⟩, rfl⟩ := hx
          refine ⟨_, kids, nested, rs1, rfl, ?_⟩
          have := Syn.Seq.elem (rx := rx) (.closed (hmean hm) hb (t := t) hc) h2
          simpa using this
    | cons i fill ih =>
      intro f0 hf hs
      have hi := hf i (by simp)
      generalize hx : (i :: fill) ++ Item.start hd sc :: rest = xs at hs
      cases hs with
      | nil => cases hx
      | filler h1 h2 =>
        cases hx
        obtain ⟨j, kids, nested, more, e, k⟩ := ih (fun i h => hf i (by simp [h])) h2
        exact ⟨j, kids, nested, more, e, .filler h1 k⟩
      | @elem _ is1 f1 r1 js f2 rs1 h1 h2 =>
        cases h1 with
        | selfClosing hm => cases hx; exact hi.elim
        | closed hm hb hc =>
          simp only [List.cons_append, List.cons.injEq] at hx
          rw [hx.1] at hi
          exact hi.elim
  obtain ⟨i, kids, nested, more, rfl, k⟩ := key hfill hs
  refine ⟨_, (parse_items hok' _).2 ⟨_, _, k, rfl⟩, fun {h t} ht ms => ?_⟩
  subst he
  cases more with
  | nil =>
    exact sole_rule_optional (l := Loc.root t) (n := 1147483648) (by decide) hsafe ht (options.contains true) ms
  | cons q more => simp [ruleOf, mkRule, Syn.chain, Rule.next] at hone

/-! ## C61 -/

/-- C61 for hexts. A hext without captures yields an empty result on every document. (Not for hexts with numbers of ten digits, see C18.) -/
theorem C61_hext {charSigned : Bool} {is : List Item} (hok : ∀ i ∈ is, i.Ok) (hc : ∀ i ∈ is, i.NoCaptures) (hl : NoLong (itemsText is))
    (hp : parseHext rx charSigned (itemsText is) = .ok r) {h : Heap} {t : Tree} (ht : IsDocument h 1147483648 t) :
    extract rx h r t.ptr 0 = pure [] := by
  refine no_captures_no_results (l := Loc.root t) (n := 1147483648) (by decide) (parse_safe hl hp) ?_ ht
  obtain ⟨f, rs, hseq, rfl⟩ := (parse_items hok r).1 hp
  cases rs with
  | nil => exact ⟨rfl, trivial, trivial, trivial⟩
  | cons r rs =>
    refine ruleOf_all (by simp) (seq_all hseq fun hd c hmem f f' info hm => ?_)
    have hn := hc _ hmem
    simp only [Head.meaning, Option.bind_eq_bind, Option.bind_eq_some_iff, Option.some.injEq, Prod.mk.injEq] at hm
    obtain ⟨x, _, y, h2, rfl, _⟩ := hm
    suffices ∀ (ps : List (Str × Pat)) f y, (∀ p ∈ ps, p.2.captured = none) → patsMeaning rx f ps = some y → y.2.1 = [] by
      simp [this _ _ _ hn h2]
    intro ps
    induction ps with
    | nil => intro f y _ h; cases h; rfl
    | cons p ps ih =>
      intro f y hn h
      simp only [patsMeaning, Option.bind_eq_bind, Option.bind_eq_some_iff, Option.some.injEq] at h
      obtain ⟨u, h1, v, h2, rfl⟩ := h
      have e := ih _ _ (fun q hq => hn q (by simp [hq])) h2
      have e' : u.2 = [] := by
        have := hn p (by simp)
        revert h1
        cases hpp : p.2 with
        | capFn _ _ _ => rw [hpp] at this; cases this
        | capAttr _ _ _ _ => rw [hpp] at this; cases this
        | testFn fn t neg =>
          simp only [Pat.meaning, Option.bind_eq_bind, Option.bind_eq_some_iff, Option.some.injEq]
          rintro ⟨_, _, rfl⟩; rfl
        | testAttr fn t neg =>
          simp only [Pat.meaning, Option.bind_eq_bind, Option.bind_eq_some_iff, Option.some.injEq]
          rintro ⟨_, _, rfl⟩; rfl
        | hasAttr a neg =>
          simp only [Pat.meaning, Option.some.injEq]
          rintro rfl; rfl
      simp [e, e']

end

/-! ## Examples: `<a href:x/>` and `<a href:x @text:y class:z?/>` -/

def oneCapture : List Item := [.start (tagHead "a" [.capAttr (lit "href") [] (.plain (lit "x")) false] []) true]
def moreCaptures : List Item := [.start (tagHead "a" [.capAttr (lit "href") [] (.plain (lit "x")) false,
  .capFn .text [] (.plain (lit "y")), .capAttr (lit "class") [] (.plain (lit "z")) true] []) true]
def noCapture : List Item := [.start (tagHead "a" [.hasAttr (lit "href") false] []) true]

theorem oneCapture_ok : ∀ i ∈ oneCapture, i.Ok := by
  simp only [oneCapture, List.mem_singleton, forall_eq]
  refine ⟨a_tag, by simp [tagHead], ?_, by simp [tagHead]⟩
  simp [tagHead, Pat.Ok, CapName.Ok, IsSpace, IsNameByte, IsAlpha, lit]
  exact href_name

theorem moreCaptures_ok : ∀ i ∈ moreCaptures, i.Ok := by
  simp only [moreCaptures, List.mem_singleton, forall_eq]
  refine ⟨a_tag, by simp [tagHead], ?_, by simp [tagHead]⟩
  simp [tagHead, Pat.Ok, CapName.Ok, IsSpace, IsNameByte, IsAlpha, lit]
  exact ⟨href_name, class_name⟩

theorem noCapture_ok : ∀ i ∈ noCapture, i.Ok := by
  simp only [noCapture, List.mem_singleton, forall_eq]
  refine ⟨a_tag, by simp [tagHead], ?_, by simp [tagHead]⟩
  simp [tagHead, Pat.Ok, IsSpace]
  exact href_name

/-- C57: `x` has the same values for `<a href:x/>` and `<a href:x @text:y class:z?/>`. -/
example (rx : RxEngine) (charSigned : Bool) : itemsText oneCapture = lit "<a href:x/>" ∧
    itemsText moreCaptures = lit "<a href:x @text:y class:z?/>" ∧
    ∃ r r', parseHext rx charSigned (itemsText oneCapture) = .ok r ∧ parseHext rx charSigned (itemsText moreCaptures) = .ok r' ∧
      ∀ {h : Heap} {t : Tree}, IsDocument h 1147483648 t → ∀ ms,
        (extract rx h r t.ptr ms = throw .maxSearch ∧ extract rx h r' t.ptr ms = throw .maxSearch) ∨
        ∃ res res', extract rx h r t.ptr ms = pure res ∧ extract rx h r' t.ptr ms = pure res' ∧
          restrict (· = lit "x") res = restrict (· = lit "x") res' := by
  have hp := (parse_items (rx := rx) (cs := charSigned) oneCapture_ok _).2 ⟨_, _, .elem (.selfClosing rfl) .nil, rfl⟩
  obtain ⟨r', h1, h2⟩ := C57_hext (N := (· = lit "x")) oneCapture_ok moreCaptures_ok rfl
    (by
      simp only [oneCapture, moreCaptures, List.zip_cons_cons, List.zip_nil_left, List.mem_singleton, forall_eq]
      exact .inr ⟨_, _, _, rfl, rfl, rfl, rfl, rfl, rfl, rfl⟩)
    (by simp [oneCapture, Item.NoOptions, tagHead])
    (by
      simp only [moreCaptures, Item.Valid, tagHead, List.mem_singleton, forall_eq, List.map_cons, List.map_nil, List.mem_cons,
        List.not_mem_nil, or_false]
      rintro p (rfl | rfl | rfl) <;> exact ⟨_, rfl⟩)
    (noLong_of_few (by decide +kernel)) (noLong_of_few (by decide +kernel)) hp
  exact ⟨by decide +kernel, by decide +kernel, _, r', hp, h1, h2⟩

/-- C60: `<?a href:x/>` and `<a href:x/>` give the same results. -/
example (rx : RxEngine) (charSigned : Bool) : ∃ r r', parseHext rx charSigned (lit "<a href:x/>") = .ok r ∧
    parseHext rx charSigned (lit "<?a href:x/>") = .ok r' ∧
      ∀ {h : Heap} {t : Tree}, IsDocument h 1147483648 t → ∀ ms, extract rx h r' t.ptr ms = extract rx h r t.ptr ms := by
  have e1 : lit "<a href:x/>" = itemsText oneCapture := by decide +kernel
  have e2 : lit "<?a href:x/>" = itemsText ([] ++ Item.start { tagHead "a" [.capAttr (lit "href") [] (.plain (lit "x")) false] []
    with options := [true] } true :: []) := by decide +kernel
  have hp := (parse_items (rx := rx) (cs := charSigned) oneCapture_ok _).2 ⟨_, _, .elem (.selfClosing rfl) .nil, rfl⟩
  obtain ⟨r', h1, h2⟩ := C60_hext (fill := []) (rest := []) (options := [true]) (by simp) oneCapture_ok (noLong_of_few (by decide +kernel)) hp rfl rfl
  rw [e1, e2]
  exact ⟨_, r', hp, h1, h2⟩

/-- C61: `<a href/>` yields nothing. -/
example (rx : RxEngine) (charSigned : Bool) : ∃ r, parseHext rx charSigned (lit "<a href/>") = .ok r ∧
    ∀ {h : Heap} {t : Tree}, IsDocument h 1147483648 t → extract rx h r t.ptr 0 = pure [] := by
  have e1 : lit "<a href/>" = itemsText noCapture := by decide +kernel
  have hp := (parse_items (rx := rx) (cs := charSigned) noCapture_ok _).2 ⟨_, _, .elem (.selfClosing rfl) .nil, rfl⟩
  rw [e1]
  exact ⟨_, hp, fun ht => C61_hext noCapture_ok (by simp [noCapture, Item.NoCaptures, tagHead, Pat.captured]) (noLong_of_few (by decide +kernel)) hp ht⟩

end Hext.Props
