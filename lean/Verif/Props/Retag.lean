import Verif.Spec.Retag
import Verif.Proofs.Unnamed
import Verif.Props.Trim
import Verif.Proofs.Reformat
/-!
# Tags that a hext does not name (C114)
-/

namespace Hext.Props

open Hext Param Syn

namespace Retag

section
variable {rx : RxEngine} {h h' : Heap} {n n' : Nat} {r : Rule} {K : Kind → Kind → Prop} {F : CaptureFn → Prop}

/-- Never. -/
abbrev never : Tree → Prop := fun _ => False

/-- Corresponding trees. -/
abbrev R (K : Kind → Kind → Prop) : Tree → Tree → Prop := onKind K

/-- The elements that a rule counts: all of them, or those of its own type. -/
def Counts (i : RuleInfo) (o : Option Tag) : Prop := i.tag = .any ∨ o = none ∨ ∃ T, o = some T ∧ i.tag = .tag T

theorem counted_pair {i : RuleInfo} (hi : i ∈ infosOf r) {o : Option Tag} (ho : Counts i o) {t t' : Tree}
    (hk : t.kind.Retagged r t'.kind) : isCounted o t = isCounted o t' := by
  rcases hk with hk | ⟨e, tag, name, h1, h2, hall⟩
  · simp only [isCounted, hk]
  · obtain ⟨a1, a2, a3⟩ := (all_iff_infos r).1 hall i hi
    rcases ho with ho | rfl | ⟨T, rfl, ho⟩
    · exact absurd ho a1
    · simp only [isCounted, h1, h2, Option.all_none]
    · rw [ho] at a2 a3
      have b2 : (T == e.tag) = false := by
        rw [beq_eq_false_iff_ne]
        exact fun h => a2 (by rw [h])
      have b3 : (T == tag) = false := by
        rw [beq_eq_false_iff_ne]
        exact fun h => a3 (by rw [h])
      simp only [isCounted, h1, h2, Option.all_some, b2, b3]

theorem filter_length {c : Tree → Bool} (hc : ∀ t t', R K t t' → c t = c t') : ∀ {ts ts' : List Tree}, TRelL (R K) never ts ts' →
    (ts.filter c).length = (ts'.filter c).length
  | [], ts', h => by simp only [TRelL] at h; subst h; rfl
  | t :: ts, ts', h => by
    simp only [TRelL] at h
    rcases h with ⟨h1, _⟩ | ⟨t', us, rfl, h1, h2⟩
    · exact h1.elim
    · have ih := filter_length hc h2
      have := hc _ _ ((TRel.iff _ _ t t').1 h1).1
      simp only [List.filter_cons, this]
      split <;> simp [ih]

theorem none_counted {c : Tree → Bool} (ts : List Tree) : (∀ t ∈ ts, c t = false) ↔ (ts.filter c).length = 0 := by
  rw [List.length_eq_zero_iff, List.filter_eq_nil_iff]
  simp

theorem elem_pair {t t' : Tree} (hk : t.kind.Retagged r t'.kind) : t.kind.isElement = t'.kind.isElement := by
  rcases hk with hk | ⟨e, tag, name, h1, h2, _⟩
  · rw [hk]
  · rw [h1, h2]; rfl

mutual
theorem strip_retag (hK : ∀ k k', K k k' → k.Retagged r k') (sw : Bool) (hw : sw = true → ∀ k k', K k k' → wrapsText k = wrapsText k') :
    ∀ (t t' : Tree), TRel (R K) never t t' → stripVal sw t = stripVal sw t'
  | .node p k kids, .node p' k' kids', h => by
    simp only [TRel, Tree.kids] at h
    have hl := stripL_retag hK sw hw kids kids' h.2
    have hs := hK _ _ h.1
    simp only [Tree.kind] at hs
    clear h
    rcases hs with rfl | ⟨e, tag, name, rfl, rfl, -⟩
    · cases k <;> simp [stripVal, hl]
    · simp [stripVal, hl]
theorem stripL_retag (hK : ∀ k k', K k k' → k.Retagged r k') (sw : Bool) (hw : sw = true → ∀ k k', K k k' → wrapsText k = wrapsText k') :
    ∀ (ts ts' : List Tree), TRelL (R K) never ts ts' → stripValL sw ts = stripValL sw ts'
  | [], ts', h => by simp only [TRelL] at h; subst h; rfl
  | t :: ts, ts', h => by
    simp only [TRelL] at h
    rcases h with ⟨h1, _⟩ | ⟨t', us, rfl, h1, h2⟩
    · exact h1.elim
    · have hk := ((TRel.iff _ _ t t').1 h1).1
      have : (sw && wrapsText t.kind) = (sw && wrapsText t'.kind) := by
        cases hsw : sw
        · rfl
        · rw [hw hsw _ _ hk]
      simp only [stripValL, strip_retag hK sw hw t t' h1, this, stripL_retag hK sw hw ts us h2]
end

section
variable (hK : ∀ k k', K k k' → k.Retagged r k') (hF : FGood (R K) never h h' F)
include hK hF

mutual
theorem means_retag {i : RuleInfo} (hi : i ∈ infosOf r) {l l' : Loc} (hr : LRel (R K) never l l') (hk : l.self.kind = l'.self.kind)
    (ht : ∀ e, l.self.kind = .element e → Counts i (some e.tag)) : ∀ (m : Match), m.Calls F → (m.Means rx h l ↔ m.Means rx h' l')
  | .attribute name none, _ => by simp only [Match.Means, hk]
  | .attribute name (some t), _ => by simp only [Match.Means, hk]
  | .attributeCount k, _ => by simp only [Match.Means, hk]
  | .childCount k, _ => by
    simp only [Match.Means, hk, filter_length (c := fun t => t.kind.isElement) (fun _ _ h => elem_pair (hK _ _ h)) ((TRel.iff _ _ _ _).1 hr.self).2]
  | .function f, hm => by simp [Match.Calls] at hm
  | .functionValue f test, hm => by
    simp only [Match.Calls] at hm
    simp only [Match.Means]
    refine exists_congr fun g => exists_congr fun u => and_congr_right fun hg => ?_
    rw [hF g (hm g hg) _ _ hr.self]
  | .negate ms, hm => by
    simp only [Match.Calls] at hm
    simp only [Match.Means]
    exact none_retag hi hr hk ht ms hm
  | .nthChild step shift first ofType, _ => by
    simp only [Match.Means, hk]
    refine exists_congr fun e => and_congr_right fun he => ?_
    have hc : Counts i (if ofType then some e.tag else none) := by
      cases ofType
      · exact .inr (.inl rfl)
      · exact ht e (by rw [hk, he])
    have hp : l.position first (if ofType then some e.tag else none) = l'.position first (if ofType then some e.tag else none) := by
      simp only [Loc.position, hr.inElem]
      cases first
      · simp only [Bool.false_eq_true, if_false, filter_length (fun _ _ h => counted_pair hi hc (hK _ _ h)) hr.after]
      · simp only [if_true, filter_length (fun _ _ h => counted_pair hi hc (hK _ _ h)) hr.before]
    rw [hp]
  | .onlyChild ofType, _ => by
    simp only [Match.Means, hk, hr.inElem]
    refine exists_congr fun e => and_congr_right fun he => and_congr_right fun _ => ?_
    have hc : Counts i (if ofType then some e.tag else none) := by
      cases ofType
      · exact .inr (.inl rfl)
      · exact ht e (by rw [hk, he])
    rw [none_counted, none_counted, filter_length (fun _ _ h => counted_pair hi hc (hK _ _ h)) (hr.before.append hr.after)]
  | .typeRegex r, _ => by simp only [Match.Means, hk]
theorem none_retag {i : RuleInfo} (hi : i ∈ infosOf r) {l l' : Loc} (hr : LRel (R K) never l l') (hk : l.self.kind = l'.self.kind)
    (ht : ∀ e, l.self.kind = .element e → Counts i (some e.tag)) : ∀ (ms : List (Option Match)), Match.CallsL F ms →
    (Match.NoneMeans rx h l ms ↔ Match.NoneMeans rx h' l' ms)
  | [], _ => by simp only [Match.NoneMeans]
  | none :: ms, hm => by
    simp only [Match.CallsL] at hm
    simp only [Match.NoneMeans]
    exact none_retag hi hr hk ht ms hm
  | some m :: ms, hm => by
    simp only [Match.CallsL] at hm
    simp only [Match.NoneMeans, means_retag hi hr hk ht m hm.1, none_retag hi hr hk ht ms hm.2]
end

end

theorem calls_mem {F : CaptureFn → Prop} : ∀ {ms : List (Option Match)}, Match.CallsL F ms → ∀ m, some m ∈ ms → m.Calls F
  | none :: ms, hp, m, hm => by
    simp only [Match.CallsL] at hp
    rcases List.mem_cons.1 hm with h | h
    · cases h
    · exact calls_mem hp m h
  | some k :: ms, hp, m, hm => by
    simp only [Match.CallsL] at hp
    rcases List.mem_cons.1 hm with h | h
    · cases h; exact hp.1
    · exact calls_mem hp.2 m h

/-- A rule whose tag agrees with an element counts the elements of that type. -/
theorem counts_of_tag {i : RuleInfo} {l : Loc} (ht : TagMeans i l) (e : Elem) (he : l.self.kind = .element e) : Counts i (some e.tag) := by
  rcases ht with ht | ⟨n, e', h1, h2, h3⟩ | ⟨e', _, _, h1, h2, h3, _⟩
  · exact .inl ht
  · rw [h2] at he
    cases he
    exact .inr (.inr ⟨_, rfl, by rw [h1, h3]⟩)
  · rw [h2] at he
    cases he
    exact .inr (.inr ⟨_, rfl, by rw [h1, h3]⟩)

theorem matches_retag (hK : ∀ k k', K k k' → k.Retagged r k') (hF : FGood (R K) never h h' F) (hn : n ≤ 2147483647) (hn' : n' ≤ 2147483647) {i : RuleInfo} (hi : i ∈ infosOf r) (hs : i.Safe n) (hs' : i.Safe n')
    (hw : Match.WordsOkL i.ms) (hc : Match.CallsL F i.ms) {l l' : Loc} (hl : l.Stored h n) (hl' : l'.Stored h' n')
    (hr : LRel (R K) never l l') : ruleMatches rx h i l.ptr = ruleMatches rx h' i l'.ptr := by
  refine decides_eq (ruleMatches_decides rx hl hn i hs hw) (ruleMatches_decides rx hl' hn' i hs' hw) ?_
  rcases hK _ _ ((TRel.iff _ _ _ _).1 hr.self).1 with hk | ⟨e, tag, name, h1, h2, hall⟩
  · have : TagMeans i l ↔ TagMeans i l' := by simp only [TagMeans, hk]
    rw [← this]
    refine and_congr_right fun ht => forall_congr' fun m => forall_congr' fun hm => ?_
    exact means_retag hK hF hi hr hk (counts_of_tag ht) m (calls_mem hc m hm)
  · obtain ⟨a1, a2, a3⟩ := (all_iff_infos r).1 hall i hi
    refine ⟨fun ⟨ht, _⟩ => ?_, fun ⟨ht, _⟩ => ?_⟩
    · rcases counts_of_tag ht e h1 with h | h | ⟨T, h, h'⟩
      · exact absurd h a1
      · cases h
      · cases h; exact absurd h' a2
    · rcases counts_of_tag ht _ h2 with h | h | ⟨T, h, h'⟩
      · exact absurd h a1
      · cases h
      · cases h; exact absurd h' a3

theorem capture_retag (hK : ∀ k k', K k k' → k.Retagged r k') (hF : FGood (R K) never h h' F) {cs : List (Option Capture)}
    (hc : ∀ c, some c ∈ cs → c.Calls F) {l l' : Loc} (hl : l.Stored h n)
    (hl' : l'.Stored h' n') (hr : LRel (R K) never l l') : ruleCapture rx h l.ptr cs = ruleCapture rx h' l'.ptr cs := by
  obtain ⟨pp, j, hld⟩ := hl.load
  obtain ⟨pp', j', hld'⟩ := hl'.load
  have hk := hK _ _ ((TRel.iff _ _ _ _).1 hr.self).1
  obtain ⟨_, _, _, _, _, hrep, _⟩ := hl.self
  obtain ⟨_, _, _, _, _, hrep', _⟩ := hl'.self
  induction cs with
  | nil => rfl
  | cons c cs ih =>
    have ih := ih fun c hm => hc c (by simp [hm])
    cases c with
    | none => simpa only [ruleCapture] using ih
    | some c =>
      have hcc := hc c (by simp)
      cases c with
      | «attribute» a nm pipe =>
        simp only [ruleCapture, Capture.capture, load_eq hld, load_eq hld', pure_bind, ih]
        rcases hk with hk | ⟨e, tag, name, h1, h2, _⟩
        · rw [hk]
        · simp only [h1, h2]
      | function f nm pipe =>
        simp only [Capture.Calls] at hcc
        cases f with
        | none => simp only [ruleCapture, Capture.capture, ih]
        | some g =>
          have h1 : g.call h l.ptr = pure (g.val h l.self) := g.call_eq _ hrep
          have h2 : g.call h' l'.ptr = pure (g.val h' l'.self) := g.call_eq _ hrep'
          simp only [ruleCapture, Capture.capture, h1, h2, hF g (hcc g rfl) _ _ hr.self, ih]

/-- The same rule, which is one of the rules in `r`. -/
abbrev I (r : Rule) (i i' : RuleInfo) : Prop := i = i' ∧ i ∈ infosOf r

theorem extract_retag {t t' : Tree} (hK : ∀ k k', K k k' → k.Retagged r k') (hF : FGood (R K) never h h' F) (hn : n ≤ 2147483647)
    (hn' : n' ≤ 2147483647) (hs : r.Safe n) (hs' : r.Safe n') (hw : r.All fun i => Match.WordsOkL i.ms) (hc : r.All (RuleInfo.Calls F))
    (ht : IsDocument h n t) (ht' : IsDocument h' n' t') (hsame : t.Alike K t') (ms : UInt64) :
    extract rx h r t.ptr ms = extract rx h' r t'.ptr ms := by
  have hS := (all_iff_infos r).1 hs
  have hS' := (all_iff_infos r).1 hs'
  have hW := (all_iff_infos r).1 hw
  have hC := (all_iff_infos r).1 hc
  have hgood : Good (R K) never (Loc.Stored h n) (Loc.Stored h' n') :=
    ⟨fun t t' hkk => elem_pair (hK _ _ hkk), fun t ht => ht.elim,
     fun l hl he x hx => (sibs_locs hl he).stored hx, fun l hl he x hx => (sibs_locs hl he).stored hx⟩
  have hrules : GoodRules (R K) never (Loc.Stored h n) (Loc.Stored h' n') (ownVal rx h) (ownVal rx h') (I r) := by
    refine ⟨fun i i' hi => by rw [hi.1], fun i i' hi => by rw [hi.1], ?_, fun i i' l hi hd => hd.1.elim⟩
    rintro i i' l l' ⟨rfl, hi⟩ hll
    simp only [ownVal, matches_retag (rx := rx) hK hF hn hn' hi (hS i hi) (hS' i hi) (hW i hi) (hC i hi).1 hll.2.1 hll.2.2 hll.1]
  have hr : r.Alike (I r) r := alike_of_all (P := fun i => i ∈ infosOf r) (fun i hi => ⟨rfl, hi⟩) r ((all_iff_infos r).2 fun i hi => hi)
  have hsearch := search_gen (rx := rx) hgood hrules hr (.inl fun _ hd => hd) (l := Loc.root t) (l' := Loc.root t') ht ht'
    (root_rel (trel_of_alike _ _ hsame))
  have hres : groupsToResult rx h ((searchAt rx h r (Loc.root t)).val.map conv) =
      groupsToResult rx h' ((searchAt rx h' r (Loc.root t')).val.map conv) :=
    groupsToResult_rel (fun p q x y hpq hxy => by
      have hpq : I r p.val.info q.val.info := hpq
      rw [← hpq.1]
      exact capture_retag hK hF (hC _ hpq.2).2 hxy.2.1 hxy.2.2 hxy.1) hsearch.1
  rw [show t.ptr = (Loc.root t).ptr from rfl, show t'.ptr = (Loc.root t').ptr from rfl, extract_eq hn hs ht, extract_eq hn' hs' ht', hres,
    hsearch.2.2 fun _ hd => hd]

end

end Retag

open Retag

section
variable {rx : RxEngine} {h h' : Heap} {n n' : Nat} {r : Rule} {t t' : Tree}

/-- C114. Let two documents differ only in the tags of elements of types that the rule does not name. They give the same result and throw for the
same limits, if the rule calls no functions but `@strip-tags`. -/
theorem C114_retagged (hn : n ≤ 2147483647) (hn' : n' ≤ 2147483647) (hs : r.Safe n) (hs' : r.Safe n')
    (hw : r.All fun i => Match.WordsOkL i.ms) (hc : r.All (RuleInfo.Calls (· = .stripTags))) (ht : IsDocument h n t) (ht' : IsDocument h' n' t')
    (hsame : t.Alike (Kind.Retagged r) t') (ms : UInt64) : extract rx h r t.ptr ms = extract rx h' r t'.ptr ms :=
  extract_retag (F := (· = .stripTags)) (fun _ _ h => h) (by
    rintro f rfl u u' hu
    exact strip_retag (fun _ _ h => h) false (fun h => by cases h) u u' hu) hn hn' hs hs' hw hc ht ht' hsame ms

/-- C114 for rules that also call `@text`, if inline elements remain inline, and blocks remain blocks. -/
theorem C114_text (hn : n ≤ 2147483647) (hn' : n' ≤ 2147483647) (hs : r.Safe n) (hs' : r.Safe n')
    (hw : r.All fun i => Match.WordsOkL i.ms) (hc : r.All (RuleInfo.Calls CaptureFn.Textual)) (ht : IsDocument h n t) (ht' : IsDocument h' n' t')
    (hsame : t.Alike (Kind.RetaggedInline r) t') (ms : UInt64) : extract rx h r t.ptr ms = extract rx h' r t'.ptr ms :=
  extract_retag (F := CaptureFn.Textual) (fun _ _ h => h.1) (by
    rintro f (rfl | rfl) u u' hu
    · simp only [CaptureFn.val, strip_retag (r := r) (fun _ _ h => h.1) true (fun _ _ _ h => h.2) u u' hu]
    · simp only [CaptureFn.val, strip_retag (r := r) (fun _ _ h => h.1) false (fun h => by cases h) u u' hu]) hn hn' hs hs' hw hc ht ht' hsame ms

end

section
variable {rx : RxEngine} {charSigned : Bool} {s : Str} {r : Rule} {h h' : Heap} {t t' : Tree}

/-- C114 for hexts without `@text` and `@inner-html`. -/
theorem C114_hext (hs : NoLong s) (hx : ¬ lit "@text" <:+: s) (hi : ¬ lit "@inner-html" <:+: s)
    (hp : parseHext rx charSigned s = .ok r) (ht : IsDocument h 1147483648 t) (ht' : IsDocument h' 1147483648 t')
    (hsame : t.Alike (Kind.Retagged r) t') (ms : UInt64) : extract rx h r t.ptr ms = extract rx h' r t'.ptr ms :=
  C114_retagged (n := 1147483648) (n' := 1147483648) (by decide) (by decide) (parse_safe hs hp) (parse_safe hs hp) (parse_words hp)
    (parse_calls (fun fn hfn => by
      cases fn with
      | innerHtml => exact absurd hfn hi
      | text => exact absurd hfn hx
      | _ => rfl) hp) ht ht' hsame ms

/-- C114 for hexts without `@inner-html`, if inline elements remain inline, and blocks remain blocks. -/
theorem C114_hext_text (hs : NoLong s) (hi : ¬ lit "@inner-html" <:+: s)
    (hp : parseHext rx charSigned s = .ok r) (ht : IsDocument h 1147483648 t) (ht' : IsDocument h' 1147483648 t')
    (hsame : t.Alike (Kind.RetaggedInline r) t') (ms : UInt64) : extract rx h r t.ptr ms = extract rx h' r t'.ptr ms :=
  C114_text (n := 1147483648) (n' := 1147483648) (by decide) (by decide) (parse_safe hs hp) (parse_safe hs hp) (parse_words hp)
    (parse_textual hi hp) ht ht' hsame ms

end

/-! ## In terms of the text of a hext -/

theorem star_infix {h : Head} (ht : h.tag = [42]) : lit "<*" <:+: h.text ∨ lit "?*" <:+: h.text ∨ lit "+*" <:+: h.text := by
  have key : ∀ (os : List Bool) (b : Byte), b = 60 ∨ b = 63 ∨ b = 43 → ∀ rest : Str,
      let u := b :: os.map (fun o => if o then (63 : Byte) else 43) ++ [42] ++ rest
      lit "<*" <:+: u ∨ lit "?*" <:+: u ∨ lit "+*" <:+: u := by
    intro os
    induction os with
    | nil =>
      rintro b (rfl | rfl | rfl) rest
      · exact .inl ⟨[], rest, rfl⟩
      · exact .inr (.inl ⟨[], rest, rfl⟩)
      · exact .inr (.inr ⟨[], rest, rfl⟩)
    | cons o os ih =>
      intro b _ rest
      have := ih (if o then 63 else 43) (by cases o <;> simp) rest
      refine this.imp (fun h => ?_) (Or.imp (fun h => ?_) (fun h => ?_)) <;>
        exact h.trans (List.suffix_cons _ _).isInfix
  have := key h.options 60 (.inl rfl) (h.conds.flatMap Cond.text ++ patsText h.pats ++ h.ws)
  simpa [Head.text, ht] using this

theorem tag_infix (h : Head) : h.tag <:+: h.text :=
  ⟨60 :: h.options.map (fun o => if o then 63 else 43), h.conds.flatMap Cond.text ++ patsText h.pats ++ h.ws, by simp [Head.text]⟩

theorem map_infix {α β : Type} {f : α → β} {a b : List α} (h : a <:+: b) : a.map f <:+: b.map f := by
  obtain ⟨c, d, rfl⟩ := h
  exact ⟨c.map f, d.map f, by simp⟩

/-- The types that rules are for occur in the hext. -/
theorem parse_tags {rx cs s r} (hn : NoStar s) (hne : r.info.tag ≠ .any) (h : parseHext rx cs s = .ok r) :
    r.All fun i => i.tag ≠ .any ∧ ∀ n, i.tag = .tag (.known n) → n <:+: s.map toLowerB := by
  obtain ⟨is, f, rs, hok, rfl, hseq, rfl⟩ := (parse_iff rx cs s r).1 h
  refine ruleOf_all (fun hrs => by subst hrs; exact absurd rfl hne) (seq_all hseq fun hd c hc f f' info hm => ?_)
  have hin := head_infix hc
  simp only [Head.meaning, Option.bind_eq_bind, Option.bind_eq_some_iff, Option.some.injEq, Prod.mk.injEq] at hm
  obtain ⟨x, _, y, _, rfl, _⟩ := hm
  have hstar : hd.tag ≠ [42] := fun ht => by
    rcases star_infix ht with h | h | h
    · exact hn.1 (h.trans hin)
    · exact hn.2.1 (h.trans hin)
    · exact hn.2.2 (h.trans hin)
  simp only [tagMeaning, hstar, if_false]
  by_cases hk : (knownTagNames.map lit).contains ((cstr hd.tag).map toLowerB) = true
  · have : gumboTagEnum (cstr hd.tag) = .known ((cstr hd.tag).map toLowerB) := by simp only [gumboTagEnum, hk, if_true]
    rw [this]
    refine ⟨by simp, fun n hn => ?_⟩
    simp only [RTag.tag.injEq, Tag.known.injEq] at hn
    subst hn
    exact map_infix (((List.takeWhile_prefix _).isInfix.trans (tag_infix hd)).trans hin)
  · have : gumboTagEnum (cstr hd.tag) = .unknown := by simp only [gumboTagEnum, hk]; rfl
    rw [this]
    exact ⟨by simp, by simp⟩

theorem retagged_of_other {rx cs s r} (hn : NoStar s) (hne : r.info.tag ≠ .any) (h : parseHext rx cs s = .ok r) {k k' : Kind}
    (hk : k.OtherTag s k') : k.Retagged r k' := by
  rcases hk with rfl | ⟨e, n, n', name, he, rfl, rfl, h1, h2⟩
  · exact .inl rfl
  · refine .inr ⟨e, _, _, rfl, rfl, (all_iff_infos r).2 fun i hi => ?_⟩
    obtain ⟨a, b⟩ := (all_iff_infos r).1 (parse_tags hn hne h) i hi
    exact ⟨a, fun h => h1 (b n (by rw [h, he])), fun h => h2 (b n' h)⟩

section
variable {rx : RxEngine} {charSigned : Bool} {s : Str} {r : Rule} {h h' : Heap} {t t' : Tree}

/-- C114 in terms of the text of a hext with at least one rule: standard elements whose names do not occur in the hext can be exchanged. -/
theorem C114_hext_names (hs : NoLong s) (hn : NoStar s) (hx : ¬ lit "@text" <:+: s) (hi : ¬ lit "@inner-html" <:+: s)
    (hp : parseHext rx charSigned s = .ok r) (hne : r.info.tag ≠ .any) (ht : IsDocument h 1147483648 t) (ht' : IsDocument h' 1147483648 t')
    (hsame : t.Alike (Kind.OtherTag s) t') (ms : UInt64) : extract rx h r t.ptr ms = extract rx h' r t'.ptr ms :=
  C114_hext hs hx hi hp ht ht' (alike_mono (fun _ _ => retagged_of_other hn hne hp) _ _ hsame) ms

end

/-! ## Examples -/

/-- A document with an element of some type around a link, and one before it. -/
def docTagged (u v : String) : Tree :=
  Ex.el 1 "html" [] [Ex.el 2 u [] [Ex.el 3 v [] [], Ex.el 4 "a" [("href", "1")] [Ex.txt 5 "x"]]]

theorem docTagged_div : IsDocument (docHeap 0 (docTagged "div" "b")) 1147483648 (docTagged "div" "b") := isDocument_of_ok (by decide +kernel)

theorem docTagged_section : IsDocument (docHeap 0 (docTagged "section" "i")) 1147483648 (docTagged "section" "i") := isDocument_of_ok (by decide +kernel)

theorem docTagged_a : IsDocument (docHeap 0 (docTagged "div" "a")) 1147483648 (docTagged "div" "a") := isDocument_of_ok (by decide +kernel)

/-- The two documents differ in the types of two elements. -/
theorem docTagged_retagged {r : Rule} (h : r.All fun i => i.tag = .tag (.known (lit "a"))) :
    (docTagged "div" "b").Alike (Kind.Retagged r) (docTagged "section" "i") := by
  have hall : ∀ {u v : String}, lit u ≠ lit "a" → lit v ≠ lit "a" →
      r.All fun i => i.tag ≠ .any ∧ i.tag ≠ .tag (.known (lit u)) ∧ i.tag ≠ .tag (.known (lit v)) := fun hu hv =>
    (all_iff_infos r).2 fun i hi => by
      rw [(all_iff_infos r).1 h i hi]
      exact ⟨by simp, by simpa using fun h => hu h.symm, by simpa using fun h => hv h.symm⟩
  refine ⟨.inl rfl, _, [], rfl, ⟨.inr ⟨_, _, _, rfl, rfl, hall (by decide) (by decide)⟩, _, _, rfl,
    ⟨.inr ⟨_, _, _, rfl, rfl, hall (by decide) (by decide)⟩, rfl⟩, _, [], rfl, ⟨.inl rfl, _, [], rfl, ⟨.inl rfl, rfl⟩, rfl⟩, rfl⟩, rfl⟩

/-- The hext `<a href:x/>` finds the link in both documents. -/
example (ms : UInt64) : extract Ex.rx (docHeap 0 (docTagged "div" "b")) hrefRule (docTagged "div" "b").ptr ms =
    extract Ex.rx (docHeap 0 (docTagged "section" "i")) hrefRule (docTagged "section" "i").ptr ms :=
  C114_hext href_short (by decide +kernel) (by decide +kernel) (href_parsed Ex.rx true) docTagged_div docTagged_section
    (docTagged_retagged (by simp [hrefRule, Ex.rule, Rule.appendMatch, Rule.All, Rule.AllO, Rule.AllL])) ms

/-- The names `div`, `b`, `section` and `i` do not occur in `<a href:x/>`. -/
example (ms : UInt64) : extract Ex.rx (docHeap 0 (docTagged "div" "b")) hrefRule (docTagged "div" "b").ptr ms =
    extract Ex.rx (docHeap 0 (docTagged "section" "i")) hrefRule (docTagged "section" "i").ptr ms :=
  C114_hext_names href_short ⟨by decide +kernel, by decide +kernel, by decide +kernel⟩ (by decide +kernel) (by decide +kernel)
    (href_parsed Ex.rx true) (by simp [hrefRule, Ex.rule, Rule.appendMatch, Rule.info]) docTagged_div docTagged_section
    ⟨.inl rfl, _, [], rfl, ⟨.inr ⟨_, lit "div", lit "section", none, rfl, rfl, rfl, by decide +kernel, by decide +kernel⟩, _, _, rfl,
      ⟨.inr ⟨_, lit "b", lit "i", none, rfl, rfl, rfl, by decide +kernel, by decide +kernel⟩, rfl⟩, _, [], rfl, ⟨.inl rfl, _, [], rfl, ⟨.inl rfl, rfl⟩, rfl⟩,
      rfl⟩, rfl⟩ ms

/-- `<a:first-of-type href:x/>`, or the same with `*`. -/
def firstLinkRule (tag : RTag) : Rule :=
  .mk { tag := tag, ms := [some (.nthChild 0 1 true true), some (.attribute (lit "href") none)], caps := [some (Ex.capHref "x")] } none none []

theorem firstLink_safe (tag : RTag) : (firstLinkRule tag).Safe 1147483648 := by
  simp only [firstLinkRule, Rule.Safe, Rule.All, Rule.AllO, Rule.AllL, RuleInfo.Safe, Match.SafeL, Match.SafeO, Match.Safe, Capture.Safe, Ex.capHref]
  simp [NthSafe]
  decide

/-- A rule with a condition about the place among elements of the same type. -/
example (ms : UInt64) :
    extract Ex.rx (docHeap 0 (docTagged "div" "b")) (firstLinkRule (.tag (.known (lit "a")))) (docTagged "div" "b").ptr ms =
    extract Ex.rx (docHeap 0 (docTagged "section" "i")) (firstLinkRule (.tag (.known (lit "a")))) (docTagged "section" "i").ptr ms :=
  C114_retagged (n := 1147483648) (n' := 1147483648) (by decide) (by decide) (firstLink_safe _) (firstLink_safe _)
    (by simp [firstLinkRule, Rule.All, Rule.AllO, Rule.AllL, Match.WordsOkL, Match.WordsOk])
    (by simp [firstLinkRule, Rule.All, Rule.AllO, Rule.AllL, RuleInfo.Calls, Match.CallsL, Match.Calls, Capture.Calls, Ex.capHref])
    docTagged_div docTagged_section (docTagged_retagged (by simp [firstLinkRule, Rule.All, Rule.AllO, Rule.AllL])) ms

/-- The exchanged elements are of the same sort: blocks, and inline elements. -/
theorem docTagged_inline {r : Rule} (h : r.All fun i => i.tag = .tag (.known (lit "a"))) :
    (docTagged "div" "b").Alike (Kind.RetaggedInline r) (docTagged "section" "i") := by
  obtain ⟨k1, _, _, e1, ⟨k2, _, _, e2, ⟨k3, e3⟩, _, _, e4, k4, e5⟩, e6⟩ := docTagged_retagged h
  cases e1; cases e2; cases e4
  refine ⟨⟨k1, rfl⟩, _, _, rfl, ⟨⟨k2, by decide⟩, _, _, rfl, ⟨⟨k3, by decide⟩, e3⟩, _, _, rfl, ⟨⟨.inl rfl, rfl⟩, _, [], rfl, ⟨⟨.inl rfl, rfl⟩, rfl⟩, rfl⟩, e5⟩, e6⟩

/-- The text of the link is the same, too. -/
example (ms : UInt64) : extract Ex.rx (docHeap 0 (docTagged "div" "b")) (Ex.rule "a" (caps := [Ex.capText "t"])) (docTagged "div" "b").ptr ms =
    extract Ex.rx (docHeap 0 (docTagged "section" "i")) (Ex.rule "a" (caps := [Ex.capText "t"])) (docTagged "section" "i").ptr ms :=
  C114_text (n := 1147483648) (n' := 1147483648) (by decide) (by decide)
    (by simp [Ex.rule, Rule.Safe, Rule.All, Rule.AllO, Rule.AllL, RuleInfo.Safe, Match.SafeL, Capture.Safe, Ex.capText])
    (by simp [Ex.rule, Rule.Safe, Rule.All, Rule.AllO, Rule.AllL, RuleInfo.Safe, Match.SafeL, Capture.Safe, Ex.capText])
    (by simp [Ex.rule, Rule.All, Rule.AllO, Rule.AllL, Match.WordsOkL])
    (by simp [Ex.rule, Rule.All, Rule.AllO, Rule.AllL, RuleInfo.Calls, Match.CallsL, Capture.Calls, CaptureFn.Textual, Ex.capText])
    docTagged_div docTagged_section (docTagged_inline (by simp [Ex.rule, Rule.All, Rule.AllO, Rule.AllL])) ms

/-! ## Why the restrictions are needed -/

/-- C114 fails for a type that the rule names, even for an element that does not match: a further `a` before the link. -/
theorem C114_fails_for_named :
    extract Ex.rx (docHeap 0 (docTagged "div" "b")) (firstLinkRule (.tag (.known (lit "a")))) (docTagged "div" "b").ptr 0 =
      pure [[(lit "x", lit "1")]] ∧
    extract Ex.rx (docHeap 0 (docTagged "div" "a")) (firstLinkRule (.tag (.known (lit "a")))) (docTagged "div" "a").ptr 0 = pure [] := by
  have h1 := extract_eq (rx := Ex.rx) (by decide) (firstLink_safe (.tag (.known (lit "a")))) (l := Loc.root (docTagged "div" "b")) docTagged_div
  have h2 := extract_eq (rx := Ex.rx) (by decide) (firstLink_safe (.tag (.known (lit "a")))) (l := Loc.root (docTagged "div" "a")) docTagged_a
  refine ⟨(h1 0).trans ?_, (h2 0).trans ?_⟩ <;> decide +kernel

/-- C114 fails for rules for any element. -/
theorem C114_fails_for_any :
    extract Ex.rx (docHeap 0 (docTagged "div" "b")) (firstLinkRule .any) (docTagged "div" "b").ptr 0 = pure [[(lit "x", lit "1")]] ∧
    extract Ex.rx (docHeap 0 (docTagged "div" "a")) (firstLinkRule .any) (docTagged "div" "a").ptr 0 = pure [] := by
  have h1 := extract_eq (rx := Ex.rx) (by decide) (firstLink_safe .any) (l := Loc.root (docTagged "div" "b")) docTagged_div
  have h2 := extract_eq (rx := Ex.rx) (by decide) (firstLink_safe .any) (l := Loc.root (docTagged "div" "a")) docTagged_a
  refine ⟨(h1 0).trans ?_, (h2 0).trans ?_⟩ <;> decide +kernel

/-- Without `RetaggedInline`, C114 fails for `@text`, which puts spaces around the text of blocks. -/
theorem C114_fails_for_text :
    CaptureFn.text.val (docHeap 0 Ex.doc) (Ex.el 8 "a" [] [Ex.txt 9 "x", Ex.el 10 "div" [] [Ex.txt 11 "y"]]) = lit "x y" ∧
    CaptureFn.text.val (docHeap 0 Ex.doc) (Ex.el 8 "a" [] [Ex.txt 9 "x", Ex.el 10 "b" [] [Ex.txt 11 "y"]]) = lit "xy" := by
  decide +kernel

/-- C114 fails for `@inner-html`, which writes the tags. -/
theorem C114_fails_for_inner_html :
    CaptureFn.innerHtml.val (docHeap 0 Ex.doc) (Ex.el 8 "a" [] [Ex.el 10 "i" [] [Ex.txt 11 "y"]]) = lit "<i>y</i>" ∧
    CaptureFn.innerHtml.val (docHeap 0 Ex.doc) (Ex.el 8 "a" [] [Ex.el 10 "b" [] [Ex.txt 11 "y"]]) = lit "<b>y</b>" := by
  decide +kernel

end Hext.Props
