import Verif.Spec.Concat
import Verif.Props.Whole
import Verif.Proofs.ParserSplit
set_option linter.unusedSimpArgs false
/-!
# C88: putting hexts together
-/

namespace Hext.Props

open Syn

/-! ## Options do not get out -/

section
variable {rx : RxEngine}

/-- The tag leaves no options behind. -/
def Quiet (rx : RxEngine) (h : Head) : Prop := ∀ i f, h.meaning rx {} = some (i, f) → f = {}

def TraitPlain : Trait → Prop
  | .typeMatches _ => False
  | _ => True

theorem trait_quiet {t : Trait} (ht : TraitPlain t) {f f' : Flags} {m : Match} (hm : t.meaning rx f = some (m, f')) : f' = f := by
  cases t with
  | typeMatches r => exact ht.elim
  | empty => cases hm; rfl
  | endmost a b => cases hm; rfl
  | only a => cases hm; rfl
  | childCount d =>
    simp only [Trait.meaning, Option.bind_eq_bind, Option.bind_eq_some_iff, Option.some.injEq, Prod.mk.injEq] at hm
    obtain ⟨_, _, _, rfl⟩ := hm; rfl
  | attributeCount d =>
    simp only [Trait.meaning, Option.bind_eq_bind, Option.bind_eq_some_iff, Option.some.injEq, Prod.mk.injEq] at hm
    obtain ⟨_, _, _, rfl⟩ := hm; rfl
  | nth a b n =>
    simp only [Trait.meaning, Option.bind_eq_bind, Option.bind_eq_some_iff, Option.some.injEq, Prod.mk.injEq] at hm
    obtain ⟨_, _, _, rfl⟩ := hm; rfl

theorem traits_quiet : ∀ {ts : List Trait}, (∀ t ∈ ts, TraitPlain t) → ∀ {f f' : Flags} {ms : List Match},
    traitsMeaning rx f ts = some (ms, f') → f' = f
  | [], _, f, f', ms, hm => by cases hm; rfl
  | t :: ts, ht, f, f', ms, hm => by
    simp only [traitsMeaning, Option.bind_eq_bind, Option.bind_eq_some_iff, Option.some.injEq, Prod.mk.injEq] at hm
    obtain ⟨⟨m, g⟩, h1, ⟨ms', g'⟩, h2, _, rfl⟩ := hm
    have := traits_quiet (fun t h => ht t (by simp [h])) h2
    rw [this]
    exact trait_quiet (ht t (by simp)) h1

def CondPlain : Cond → Prop
  | .trait t => TraitPlain t
  | .not ts => ∀ t ∈ ts, TraitPlain t

theorem cond_quiet {c : Cond} (hc : CondPlain c) {f f' : Flags} {m : Match} (hm : c.meaning rx f = some (m, f')) : f' = f := by
  cases c with
  | trait t => exact trait_quiet hc hm
  | not ts =>
    simp only [Cond.meaning, Option.bind_eq_bind, Option.bind_eq_some_iff, Option.some.injEq, Prod.mk.injEq] at hm
    obtain ⟨⟨ms, g⟩, h1, _, rfl⟩ := hm
    exact traits_quiet hc h1

theorem conds_quiet : ∀ {cs : List Cond}, (∀ c ∈ cs, CondPlain c) → ∀ {f f' : Flags} {ms : List Match},
    condsMeaning rx f cs = some (ms, f') → f' = f
  | [], _, f, f', ms, hm => by cases hm; rfl
  | c :: cs, hc, f, f', ms, hm => by
    simp only [condsMeaning, Option.bind_eq_bind, Option.bind_eq_some_iff, Option.some.injEq, Prod.mk.injEq] at hm
    obtain ⟨⟨m, g⟩, h1, ⟨ms', g'⟩, h2, _, rfl⟩ := hm
    have := conds_quiet (fun t h => hc t (by simp [h])) h2
    rw [this]
    exact cond_quiet (hc c (by simp)) h1

theorem pats_quiet : ∀ {ps : List (Str × Pat)} {f' : Flags} {ms : List Match} {cs : List Capture},
    patsMeaning rx {} ps = some (ms, cs, f') → f' = {}
  | [], f', ms, cs, hm => by cases hm; rfl
  | p :: ps, f', ms, cs, hm => by
    simp only [patsMeaning, Option.bind_eq_bind, Option.bind_eq_some_iff, Option.some.injEq, Prod.mk.injEq] at hm
    obtain ⟨⟨m, g⟩, _, ⟨ms', cs', g'⟩, h2, _, _, rfl⟩ := hm
    exact pats_quiet h2

theorem quiet_of_plain {h : Head} (hc : ∀ c ∈ h.conds, CondPlain c) : Quiet rx h := by
  intro i f hm
  simp only [Head.meaning, Option.bind_eq_bind, Option.bind_eq_some_iff, Option.some.injEq, Prod.mk.injEq] at hm
  obtain ⟨⟨ms, g⟩, h1, ⟨ms', cs', g'⟩, h2, _, rfl⟩ := hm
  have := conds_quiet hc h1
  simp only at this h2
  subst this
  exact pats_quiet h2

theorem trait_plain {t : Trait} (ht : NoTypeMatches t.text) : TraitPlain t := by
  cases t with
  | typeMatches r => exact ht ⟨[], r.text ++ lit ")", by simp [Trait.text]⟩
  | _ => trivial

theorem noTypeMatches_part {s t : Str} (ht : t <:+: s) (hs : NoTypeMatches s) : NoTypeMatches t := fun h => hs (h.trans ht)

theorem flatMap_infix {α : Type} {g : α → Str} {x : α} {xs : List α} (hx : x ∈ xs) : g x <:+: xs.flatMap g := by
  obtain ⟨a, b, rfl⟩ := List.append_of_mem hx
  exact ⟨a.flatMap g, b.flatMap g, by simp⟩

theorem cond_plain {c : Cond} (hc : NoTypeMatches c.text) : CondPlain c := by
  cases c with
  | trait t => exact trait_plain hc
  | not ts =>
    intro t ht
    refine trait_plain (noTypeMatches_part ((flatMap_infix ht).trans ⟨lit ":not(", lit ")", by simp [Cond.text]⟩) hc)

theorem quiet_of_text {h : Head} (hh : NoTypeMatches h.text) : Quiet rx h := by
  refine quiet_of_plain fun c hc => cond_plain (noTypeMatches_part ((flatMap_infix hc).trans ?_) hh)
  exact ⟨60 :: h.options.map (fun o => if o then 63 else 43) ++ h.tag, patsText h.pats ++ h.ws, by simp [Head.text]⟩

theorem quiet_items {is : List Item} (hs : NoTypeMatches (itemsText is)) {h : Head} {sc : Bool} (hi : Item.start h sc ∈ is) :
    Quiet rx h := by
  refine quiet_of_text (noTypeMatches_part (List.IsInfix.trans ?_ (flatMap_infix (g := Item.text) hi)) hs)
  exact ⟨[], if sc then lit "/>" else lit ">", by simp [Item.text]⟩

/-- Items without `:type-matches` leave no options behind. -/
theorem seq_quiet {f f' : Flags} {is : List Item} {rs : List Rule} (hq : ∀ h sc, Item.start h sc ∈ is → Quiet rx h)
    (hs : Syn.Seq rx f is f' rs) (hf : f = {}) : f' = {} := by
  refine Syn.Seq.rec
    (motive_1 := fun f is f' _ _ => (∀ h sc, Item.start h sc ∈ is → Quiet rx h) → f = {} → f' = {})
    (motive_2 := fun f is f' _ _ _ => (∀ h sc, Item.start h sc ∈ is → Quiet rx h) → f = {} → f' = {})
    (motive_3 := fun f is f' _ _ => (∀ h sc, Item.start h sc ∈ is → Quiet rx h) → f = {} → f' = {})
    ?_ ?_ ?_ ?_ ?_ ?_ ?_ ?_ ?_ hs hq hf
  · rintro f h f' info hm hq rfl
    exact hq h true (by simp) _ _ hm
  · rintro f h f1 info is f2 kids nested t hm _ _ ih hq rfl
    exact ih (fun h sc hi => hq h sc (by simp [hi])) (hq h false (by simp) _ _ hm)
  · rintro f _ rfl; rfl
  · rintro f i is f' kids nested _ _ ih hq hf
    exact ih (fun h sc hi => hq h sc (by simp [hi])) hf
  · rintro f is f1 r js f2 kids nested _ _ ih1 ih2 hq hf
    exact ih2 (fun h sc hi => hq h sc (by simp [hi])) (ih1 (fun h sc hi => hq h sc (by simp [hi])) hf)
  · rintro f is f1 r rs js f2 kids nested _ _ ih1 ih2 hq hf
    exact ih2 (fun h sc hi => hq h sc (by simp [hi])) (ih1 (fun h sc hi => hq h sc (by simp [hi])) hf)
  · rintro f _ rfl; rfl
  · rintro f i is f' rs _ _ ih hq hf
    exact ih (fun h sc hi => hq h sc (by simp [hi])) hf
  · rintro f is f1 r js f2 rs _ _ ih1 ih2 hq hf
    exact ih2 (fun h sc hi => hq h sc (by simp [hi])) (ih1 (fun h sc hi => hq h sc (by simp [hi])) hf)

theorem seq_blank {f f' : Flags} {is : List Item} {rs : List Rule} (hok : ∀ i ∈ is, i.Ok) (hs : Syn.Seq rx f is f' rs)
    (hb : ¬ BlankHext (itemsText is)) : rs ≠ [] := by
  intro he
  apply hb
  refine ⟨is, fun i hi => ⟨hok i hi, ?_⟩, rfl⟩
  clear hok hb
  revert he hi
  refine Syn.Seq.rec (motive_1 := fun _ _ _ _ _ => True) (motive_2 := fun _ _ _ _ _ _ => True)
    (motive_3 := fun _ is _ rs _ => rs = [] → i ∈ is → i.IsFiller) ?_ ?_ ?_ ?_ ?_ ?_ ?_ ?_ ?_ hs
  · intros; trivial
  · intros; trivial
  · intros; trivial
  · intros; trivial
  · intros; trivial
  · intros; trivial
  · intro f _ hi; simp at hi
  · intro f j is f' rs hj _ ih he hi
    rcases List.mem_cons.1 hi with rfl | hi
    · exact hj
    · exact ih he hi
  · intro f is f1 r js f2 rs _ _ _ _ he; cases he

theorem blank_seq {f : Flags} : ∀ {is : List Item}, (∀ i ∈ is, i.IsFiller) → Syn.Seq rx f is f []
  | [], _ => .nil
  | i :: is, h => .filler (h i (by simp)) (blank_seq fun j hj => h j (by simp [hj]))

/-! ## Rules put together -/

theorem chain_append (q : Rule) (qs : List Rule) : ∀ (rs : List Rule) (r : Rule),
    Syn.chain r (rs ++ q :: qs) = (Syn.chain r rs).appendNext (Syn.chain q qs)
  | [], .mk i c n ns => by simp only [List.nil_append, Syn.chain, Rule.appendNext]
  | s :: rs, .mk i c n ns => by simp only [List.cons_append, Syn.chain, Rule.appendNext, chain_append q qs rs s]

theorem mkRule_children {info : RuleInfo} {kids nested : List Rule} {r : Rule} {rs : List Rule} :
    (mkRule info kids nested).appendChild (Syn.chain r rs) = mkRule info (kids ++ r :: rs) nested := by
  cases kids with
  | nil => simp [mkRule, siblings, Rule.appendChild]
  | cons k kids => simp [mkRule, siblings, Rule.appendChild, chain_append]

theorem mkRule_nested {info : RuleInfo} {kids nested : List Rule} {r : Rule} :
    (mkRule info kids nested).appendNested r = mkRule info kids (nested ++ [r]) := rfl

theorem seq_body {f f' : Flags} {is : List Item} {rs : List Rule} (hs : Syn.Seq rx f is f' rs) : Body rx f is f' rs [] := by
  refine Syn.Seq.rec (motive_1 := fun _ _ _ _ _ => True) (motive_2 := fun _ _ _ _ _ _ => True)
    (motive_3 := fun f is f' rs _ => Body rx f is f' rs []) ?_ ?_ ?_ ?_ ?_ ?_ ?_ ?_ ?_ hs
  · intros; trivial
  · intros; trivial
  · intros; trivial
  · intros; trivial
  · intros; trivial
  · intros; trivial
  · intro f; exact .nil
  · intro f i is f' rs hi _ ih; exact .filler hi ih
  · intro f is f1 r js f2 rs he _ _ ih; exact .child he ih

theorem itemsText_append (is js : List Item) : itemsText (is ++ js) = itemsText is ++ itemsText js := by
  simp [itemsText]

theorem items_ok_append {is js : List Item} (h1 : ∀ i ∈ is, i.Ok) (h2 : ∀ i ∈ js, i.Ok) : ∀ i ∈ is ++ js, i.Ok := by
  intro i hi
  rcases List.mem_append.1 hi with hi | hi
  · exact h1 i hi
  · exact h2 i hi

/-- An accepted text that is not blank and without `:type-matches`. -/
theorem accepted_seq {charSigned : Bool} {s : Str} {r : Rule} (hp : parseHext rx charSigned s = .ok r) (hb : ¬ BlankHext s)
    (ht : NoTypeMatches s) :
    ∃ is q qs, (∀ i ∈ is, i.Ok) ∧ s = itemsText is ∧ Syn.Seq rx {} is {} (q :: qs) ∧ r = Syn.chain q qs := by
  obtain ⟨is, f, rs, hok, rfl, hs, rfl⟩ := (parse_iff rx charSigned s r).1 hp
  have hf : f = {} := seq_quiet (fun h sc hi => quiet_items ht hi) hs rfl
  subst hf
  cases rs with
  | nil => exact absurd rfl (seq_blank hok hs hb)
  | cons q qs => exact ⟨is, q, qs, hok, rfl, hs, rfl⟩

/-! ## The theorems -/

variable {charSigned : Bool}

/-- C88. Two hexts next to each other mean the rules of the second one behind those of the first one. -/
theorem C88_concat_partial {s t : Str} {r q : Rule} (hs : parseHext rx charSigned s = .ok r) (ht : parseHext rx charSigned t = .ok q)
    (bs : ¬ BlankHext s) (bt : ¬ BlankHext t) (hn : NoTypeMatches s) :
    parseHext rx charSigned (s ++ t) = .ok (r.appendNext q) := by
  obtain ⟨is, a, as, h1, rfl, h2, rfl⟩ := accepted_seq hs bs hn
  obtain ⟨js, f, rs, k1, rfl, k2, rfl⟩ := (parse_iff rx charSigned t q).1 ht
  cases rs with
  | nil => exact absurd rfl (seq_blank k1 k2 bt)
  | cons b bs =>
    refine (parse_iff ..).2 ⟨is ++ js, f, (a :: as) ++ (b :: bs), items_ok_append h1 k1, (itemsText_append _ _).symm,
      Syn.Seq.append h2 k2, ?_⟩
    simp only [ruleOf, List.cons_append, chain_append]

/-- C88. What follows an accepted hext is accepted behind it if and only if it is accepted on its own. -/
theorem C88_split_partial {s t : Str} {r : Rule} (hs : parseHext rx charSigned s = .ok r) (hn : NoTypeMatches s) :
    (∃ x, parseHext rx charSigned (s ++ t) = .ok x) ↔ ∃ q, parseHext rx charSigned t = .ok q := by
  obtain ⟨is, f, rs, h1, rfl, h2, rfl⟩ := (parse_iff rx charSigned s r).1 hs
  have hf : f = {} := seq_quiet (fun h sc hi => quiet_items hn hi) h2 rfl
  subst hf
  constructor
  · rintro ⟨x, hx⟩
    obtain ⟨ks, f', rs', k1, k2, _, _⟩ := (parse_iff rx charSigned _ x).1 hx
    obtain ⟨js, j1, rfl⟩ := rest_items ⟨is, h1, rfl⟩ ⟨ks, k1, k2⟩
    rw [← itemsText_append] at hx
    obtain ⟨f, rs3, h3, _⟩ := (parse_items (items_ok_append h1 j1) x).1 hx
    obtain ⟨rs2, h4⟩ := seq_split h3 h2
    exact ⟨_, (parse_items j1 _).2 ⟨_, _, h4, rfl⟩⟩
  · rintro ⟨q, hq⟩
    obtain ⟨js, f, rs2, j1, rfl, j2, _⟩ := (parse_iff rx charSigned t q).1 hq
    rw [← itemsText_append]
    exact ⟨_, (parse_items (items_ok_append h1 j1) _).2 ⟨_, _, Syn.Seq.append h2 j2, rfl⟩⟩

/-- C88. Whitespace and comments before or behind a hext do not matter. -/
theorem C88_blank {s t : Str} {q : Rule} (bs : BlankHext s) (ht : parseHext rx charSigned t = .ok q) :
    parseHext rx charSigned (s ++ t) = .ok q ∧ parseHext rx charSigned (t ++ s) = .ok q := by
  obtain ⟨is, h1, rfl⟩ := bs
  obtain ⟨js, f, rs, k1, rfl, k2, rfl⟩ := (parse_iff rx charSigned t q).1 ht
  have hok : ∀ i ∈ is, i.Ok := fun i hi => (h1 i hi).1
  constructor
  · exact (parse_iff ..).2 ⟨is ++ js, f, rs, items_ok_append hok k1, (itemsText_append _ _).symm,
      Syn.Seq.append (blank_seq fun i hi => (h1 i hi).2) k2, rfl⟩
  · refine (parse_iff ..).2 ⟨js ++ is, f, rs, items_ok_append k1 hok, (itemsText_append _ _).symm, ?_, rfl⟩
    have := Syn.Seq.append k2 (blank_seq (is := is) fun i hi => (h1 i hi).2)
    simpa using this

/-- The inner hexts as items. -/
theorem inner_items : ∀ {ps : List Inner}, (∀ p ∈ ps, parseHext rx charSigned p.hext = .ok p.rule ∧ ¬ BlankHext p.hext ∧
      NoTypeMatches p.hext) → ∀ info kids nested, ∃ is kids' nested', (∀ i ∈ is, i.Ok) ∧ ps.flatMap Inner.text = itemsText is ∧
      Body rx {} is {} kids' nested' ∧
      ps.foldl Inner.addTo (mkRule info kids nested) = mkRule info (kids ++ kids') (nested ++ nested')
  | [], _, info, kids, nested => ⟨[], [], [], by simp, rfl, .nil, by simp⟩
  | p :: ps, hp, info, kids, nested => by
    obtain ⟨h1, h2, h3⟩ := hp p (by simp)
    obtain ⟨js, a, as, j1, j2, j3, j4⟩ := accepted_seq h1 h2 h3
    cases hb : p.braces with
    | false =>
      obtain ⟨is, ks, ns, i1, i2, i3, i4⟩ := inner_items (ps := ps) (fun p h => hp p (by simp [h])) info (kids ++ a :: as) nested
      refine ⟨js ++ is, a :: as ++ ks, ns, items_ok_append j1 i1, ?_, ?_, ?_⟩
      · simp [Inner.text, hb, i2, itemsText_append, j2]
      · have := (seq_body j3).append i3
        simpa using this
      · simp only [List.foldl_cons, Inner.addTo, hb, Bool.false_eq_true, if_false, j4, mkRule_children, i4, List.append_assoc]
    | true =>
      obtain ⟨is, ks, ns, i1, i2, i3, i4⟩ := inner_items (ps := ps) (fun p h => hp p (by simp [h])) info kids
        (nested ++ [Syn.chain a as])
      refine ⟨.lbrace :: js ++ .rbrace :: is, ks, Syn.chain a as :: ns, ?_, ?_, .block j3 i3, ?_⟩
      · intro i hi
        simp only [List.cons_append, List.mem_cons, List.mem_append] at hi
        rcases hi with rfl | hi | rfl | hi
        · trivial
        · exact j1 i hi
        · trivial
        · exact i1 i hi
      · simp only [List.flatMap_cons, Inner.text, hb, if_true, i2, j2]
        simp [itemsText, Item.text]
      · simp only [List.foldl_cons, Inner.addTo, hb, if_true, j4, mkRule_nested, i4, List.append_assoc]
        rfl

/-- C88. A hext between an open tag and its close tag adds child rules to the rule of the tag, a hext in braces adds nested rules. -/
theorem C88_inside_partial {h : Head} (hok : h.Ok) (hn : NoTypeMatches h.text) {o : Rule}
    (ho : parseHext rx charSigned (h.text ++ lit "/>") = .ok o) {ps : List Inner}
    (hp : ∀ p ∈ ps, parseHext rx charSigned p.hext = .ok p.rule ∧ ¬ BlankHext p.hext ∧ NoTypeMatches p.hext) :
    parseHext rx charSigned (h.text ++ lit ">" ++ ps.flatMap Inner.text ++ lit "</" ++ h.tag ++ lit ">") =
      .ok (ps.foldl Inner.addTo o) := by
  have e1 : h.text ++ lit "/>" = itemsText [.start h true] := by simp [itemsText, Item.text]
  rw [e1] at ho
  obtain ⟨f, rs, h1, rfl⟩ := (parse_items (by simpa [Item.Ok] using hok) o).1 ho
  have hone : ∃ info f', h.meaning rx {} = some (info, f') := by
    generalize hi : [Item.start h true] = is at h1
    cases h1 with
    | nil => cases hi
    | filler k1 _ => cases hi; exact k1.elim
    | elem k1 _ =>
      cases k1 with
      | selfClosing hm => cases hi; exact ⟨_, _, hm⟩
      | closed _ _ _ => simp at hi
  obtain ⟨info, f', hm⟩ := hone
  have hf : f' = {} := quiet_of_text hn _ _ hm
  subst hf
  have hself : Syn.Seq rx {} [.start h true] {} [mkRule info [] []] := .elem (.selfClosing hm) .nil
  have hrs := Seq.unique h1 hself
  rw [hrs]
  obtain ⟨is, ks, ns, i1, i2, i3, i4⟩ := inner_items hp info [] []
  rw [show ruleOf [mkRule info [] []] = mkRule info [] [] from rfl, i4]
  refine (parse_iff ..).2 ⟨(.start h false :: is ++ [.stop h.tag]) ++ [], {}, [mkRule info ks ns], ?_, ?_,
    .elem (.closed hm i3 (closes_own hm)) .nil, rfl⟩
  · intro i hi
    simp only [List.append_nil, List.cons_append, List.mem_cons, List.mem_append, List.not_mem_nil, or_false] at hi
    rcases hi with rfl | hi | rfl
    · exact hok
    · exact i1 i hi
    · exact hok.1
  · simp only [i2, List.append_nil]
    simp [itemsText, Item.text]

end

/-! ## Examples -/

/-- A text that starts with a tag has a rule. -/
theorem not_blank {s : Str} : ¬ BlankHext (60 :: s) := by
  rintro ⟨is, h1, h2⟩
  cases is with
  | nil => simp [itemsText] at h2
  | cons i is =>
    obtain ⟨k1, k2⟩ := h1 i (by simp)
    cases i with
    | space b =>
      simp only [itemsText, List.flatMap_cons, Item.text, List.cons_append, List.nil_append, List.cons.injEq] at h2
      rw [← h2.1] at k1
      simp [Item.Ok, IsSpace] at k1
    | comment c => simp [itemsText, Item.text] at h2
    | _ => exact k2.elim

/-- A text without `(` has no `:type-matches(`. -/
theorem noTypeMatches_of {s : Str} (h : 40 ∉ s) : NoTypeMatches s :=
  fun hc => h (hc.subset (by decide))

example (rx : RxEngine) (charSigned : Bool) :
    parseHext rx charSigned (lit "<a href:x/><a href:x/>") = .ok (hrefRule.appendNext hrefRule) := by
  rw [show lit "<a href:x/><a href:x/>" = lit "<a href:x/>" ++ lit "<a href:x/>" by decide]
  exact C88_concat_partial (href_parsed rx charSigned) (href_parsed rx charSigned) not_blank not_blank (noTypeMatches_of (by decide))

theorem div_parsed (rx : RxEngine) (charSigned : Bool) :
    parseHext rx charSigned ((tagHead "div").text ++ lit "/>") = .ok (Ex.rule "div") := by
  rw [show (tagHead "div").text ++ lit "/>" = itemsText [.start (tagHead "div") true] by decide]
  exact (parse_items (by
    simp only [List.mem_cons, List.not_mem_nil, or_false, forall_eq, Item.Ok, Head.Ok, tagHead]
    exact ⟨.inr ⟨100, lit "iv", by decide, by simp [IsAlpha], by simp only [IsNameByte, IsAlpha]; decide⟩, by simp⟩) _).2
    ⟨_, _, .elem (.selfClosing rfl) .nil, rfl⟩

/-- `<div><a href:x/>{<a href:x/>}</div>` -/
example (rx : RxEngine) (charSigned : Bool) : parseHext rx charSigned (lit "<div><a href:x/>{<a href:x/>}</div>") =
    .ok (((Ex.rule "div").appendChild hrefRule).appendNested hrefRule) := by
  rw [show lit "<div><a href:x/>{<a href:x/>}</div>" = (tagHead "div").text ++ lit ">" ++
    [⟨false, lit "<a href:x/>", hrefRule⟩, ⟨true, lit "<a href:x/>", hrefRule⟩].flatMap Inner.text ++
    lit "</" ++ (tagHead "div").tag ++ lit ">" by decide]
  exact C88_inside_partial (h := tagHead "div") (ps := [⟨false, lit "<a href:x/>", hrefRule⟩, ⟨true, lit "<a href:x/>", hrefRule⟩])
    ⟨.inr ⟨100, lit "iv", by decide, by simp [IsAlpha], by simp only [IsNameByte, IsAlpha]; decide⟩, by simp [tagHead],
      by simp [tagHead], by simp [tagHead]⟩
    (noTypeMatches_of (by decide)) (div_parsed rx charSigned) (by
      simp only [List.mem_cons, List.not_mem_nil, or_false, forall_eq_or_imp, forall_eq]
      have h3 : NoTypeMatches (lit "<a href:x/>") := noTypeMatches_of (by decide)
      exact ⟨⟨href_parsed rx charSigned, not_blank, h3⟩, href_parsed rx charSigned, not_blank, h3⟩)

/-- A comment has to end with a line break. -/
theorem hash_rejected (rx : RxEngine) (charSigned : Bool) : ∀ r, parseHext rx charSigned (lit "# ") ≠ .ok r := by
  intro r hr
  obtain ⟨is, f, rs, h1, h2, _⟩ := (parse_iff rx charSigned _ r).1 hr
  cases is with
  | nil => simp [itemsText] at h2; exact absurd h2 (by decide)
  | cons i is =>
    have k1 := h1 i (by simp)
    simp only [itemsText, List.flatMap_cons] at h2
    cases i with
    | comment c =>
      have : (10 : Byte) ∈ lit "# " := by rw [h2]; simp [Item.text]
      exact absurd this (by decide)
    | space b =>
      rw [show lit "# " = 35 :: lit " " by decide] at h2
      simp only [Item.text, List.cons_append, List.cons.injEq] at h2
      rw [← h2.1] at k1
      simp [Item.Ok, IsSpace] at k1
    | lbrace => rw [show lit "# " = 35 :: lit " " by decide] at h2; simp [Item.text, lit] at h2
    | rbrace => rw [show lit "# " = 35 :: lit " " by decide] at h2; simp [Item.text, lit] at h2
    | start h b => rw [show lit "# " = 35 :: lit " " by decide] at h2; simp [Item.text, Head.text] at h2
    | stop t => rw [show lit "# " = 35 :: lit " " by decide] at h2; simp [Item.text, lit] at h2

/-- `<a href:x/># ` is not accepted since `# ` is not. -/
example (rx : RxEngine) (charSigned : Bool) : ¬ ∃ x, parseHext rx charSigned (lit "<a href:x/>" ++ lit "# ") = .ok x := by
  rw [C88_split_partial (href_parsed rx charSigned) (noTypeMatches_of (by decide))]
  exact fun ⟨q, hq⟩ => hash_rejected rx charSigned q hq

/-- The first part need not be accepted on its own: in `# <a href:x/>` and a line break, everything is a comment. -/
theorem C88_first_part (rx : RxEngine) (charSigned : Bool) : ∃ s t x q, parseHext rx charSigned (s ++ t) = .ok x ∧
    parseHext rx charSigned t = .ok q ∧ ∀ r, parseHext rx charSigned s ≠ .ok r := by
  refine ⟨lit "# ", lit "<a href:x/>\n", ruleOf [], _, ?_, (C88_blank (s := lit "\n") ⟨[.space 10], ?_, by decide⟩ (href_parsed rx charSigned)).2, ?_⟩
  · rw [show lit "# " ++ lit "<a href:x/>\n" = itemsText [.comment (lit " <a href:x/>")] by decide]
    exact (parse_items (by simp only [List.mem_singleton, forall_eq]; show (10 : Byte) ∉ _; decide) _).2
      ⟨_, _, .filler trivial .nil, rfl⟩
  · simp [Item.Ok, IsSpace, Item.IsFiller]
  · exact hash_rejected rx charSigned

/-- C88 needs that the first hext has no `:type-matches`: its options get into the second hext. -/
theorem C88_type_matches (charSigned : Bool) : ∃ s t r q, parseHext Ex.rx charSigned s = .ok r ∧
    parseHext Ex.rx charSigned t = .ok q ∧ ¬ BlankHext s ∧ ¬ BlankHext t ∧
    parseHext Ex.rx charSigned (s ++ t) ≠ .ok (r.appendNext q) := by
  obtain ⟨e, h1, h2⟩ := C41_options_leak charSigned
  refine ⟨lit "<a:type-matches(/x/i)/>", lit "<b href=~/y//>",
    .mk { tag := .tag (.known (lit "a")), ms := [some (.typeRegex { src := lit "x", icase := true, collate := false })] } none none [],
    .mk { tag := .tag (.known (lit "b")),
          ms := [some (.attribute (lit "href") (some (.regex { src := lit "y", icase := false, collate := false })))] } none none [],
    ?_, ?_, not_blank, not_blank, ?_⟩
  · rw [show lit "<a:type-matches(/x/i)/>" = itemsText (leaky.take 1) by decide]
    exact (parse_items (fun i hi => leaky_ok i (List.mem_of_mem_take hi)) _).2 ⟨_, _, .elem (.selfClosing rfl) .nil, rfl⟩
  · rw [show lit "<b href=~/y//>" = itemsText (leaky.drop 1) by decide]
    exact (parse_items (fun i hi => leaky_ok i (List.mem_of_mem_drop hi)) _).2 ⟨_, _, .elem (.selfClosing rfl) .nil, rfl⟩
  · rw [show lit "<a:type-matches(/x/i)/>" ++ lit "<b href=~/y//>" = itemsText leaky by decide, h1]
    intro hc
    have := Except.ok.inj hc
    simp [leakyRule, Rule.appendNext] at this

end Hext.Props
