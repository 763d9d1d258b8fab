import Verif.Proofs.Meaning
import Verif.Props.SimilarHext
/-!
# From hext and document to the result (C63)
-/

namespace Hext.Props

open Syn

variable {rx : RxEngine} {h : Heap} {n : Nat} {l : Loc} {r : Rule}

theorem wordsOkL_iff {ms : List (Option Match)} : Match.WordsOkL ms ↔ ∀ m, some m ∈ ms → m.WordsOk := by
  induction ms with
  | nil => simp [Match.WordsOkL]
  | cons m ms ih =>
    cases m with
    | none => simp [Match.WordsOkL, ih]
    | some m => simp [Match.WordsOkL, ih]

/-- C63. Without a limit, `extract` returns `res` iff `res` is the outcome of the rule by the definition of `IsOutcome`. -/
theorem extract_outcome (hn : n ≤ 2147483647) (hr : r.Safe n) (hw : r.All fun i => Match.WordsOkL i.ms) (hl : l.Stored h n)
    (res : List (List (Str × Str))) : extract rx h r l.ptr 0 = pure res ↔ IsOutcome rx h r l res := by
  rw [extract_characterised hn hr hl]
  have hag : SameOn (Holds rx h) (Fits rx h)
      (fun q x => q.Safe n ∧ (q.All fun i => Match.WordsOkL i.ms) ∧ x.Stored h n) :=
    ⟨fun p y q x hp hb => ⟨hb.all hp.1, hb.all hp.2.1, hb.stored hp.2.2⟩, fun q x hq => by
      obtain ⟨i, c, nx, ns⟩ := q
      exact holds_iff hq.2.2 hn hq.1.1 hq.2.1.1⟩
  have hreg : ∀ q ∈ r.siblings, ∀ ks ∈ l.searched, ∀ x ∈ ks,
      q.Safe n ∧ (q.All fun i => Match.WordsOkL i.ms) ∧ x.Stored h n :=
    fun q hq ks hks x hx => ⟨mem_siblings_all hr q hq, mem_siblings_all hw q hq, searched_stored hl ks hks x hx⟩
  have hcap : ∀ {own : RuleInfo → Loc → Prop} {gs : List Found}, Search own r.siblings l.searched gs →
      ∀ g ∈ gs, ∀ p ∈ g, p.2.Stored h n ∧ ∀ c, some c ∈ p.1.info.caps → c.Safe := by
    intro own gs hs g hg p hp
    have := hs.closed (P := fun q x => q.Safe n ∧ (q.All fun i => Match.WordsOkL i.ms) ∧ x.Stored h n) hag.below hreg g hg p hp
    obtain ⟨⟨i, c, nx, ns⟩, x⟩ := p
    exact ⟨this.2.2, this.1.1.2⟩
  constructor
  · rintro ⟨gs, ms, h1, h2, h3⟩
    exact ⟨gs, ms, search_congr hag h1 hreg, (maps_gives (hcap h1)).1 h2, h3⟩
  · rintro ⟨gs, ms, h1, h2, h3⟩
    exact ⟨gs, ms, search_congr hag.symm h1 hreg, (maps_gives (hcap h1)).2 h2, h3⟩

/-! ## The heap does not matter if only builtin functions are called -/

mutual
theorem means_heap {h h' : Heap} {l : Loc} : ∀ {m : Match}, m.Calls CaptureFn.Builtin → m.Means rx h l → m.Means rx h' l
  | .function _, hc, _ => absurd hc (by simp [Match.Calls])
  | .functionValue f t, hc, hm => by
    simp only [Match.Means] at hm ⊢
    obtain ⟨g, u, rfl, rfl, hm⟩ := hm
    refine ⟨g, u, rfl, rfl, ?_⟩
    rcases (hc g rfl : CaptureFn.Builtin g) with rfl | rfl | rfl <;> exact hm
  | .negate ms, hc, hm => by
    simp only [Match.Means, Match.Calls] at hm hc ⊢
    exact noneMeans_heap hc hm
  | .attribute _ none, _, hm => by simpa only [Match.Means] using hm
  | .attribute _ (some _), _, hm => by simpa only [Match.Means] using hm
  | .attributeCount _, _, hm => by simpa only [Match.Means] using hm
  | .childCount _, _, hm => by simpa only [Match.Means] using hm
  | .nthChild _ _ _ _, _, hm => by simpa only [Match.Means] using hm
  | .onlyChild _, _, hm => by simpa only [Match.Means] using hm
  | .typeRegex _, _, hm => by simpa only [Match.Means] using hm
theorem noneMeans_heap {h h' : Heap} {l : Loc} : ∀ {ms : List (Option Match)}, Match.CallsL CaptureFn.Builtin ms →
    Match.NoneMeans rx h l ms → Match.NoneMeans rx h' l ms
  | [], _, _ => by simp [Match.NoneMeans]
  | none :: ms, hc, hm => by
    simp only [Match.NoneMeans, Match.CallsL] at hm hc ⊢
    exact noneMeans_heap hc hm
  | some m :: ms, hc, hm => by
    simp only [Match.NoneMeans, Match.CallsL] at hm hc ⊢
    exact ⟨fun h1 => hm.1 (means_heap hc.1 h1), noneMeans_heap hc.2 hm.2⟩
end

theorem fits_heap {h h' : Heap} {i : RuleInfo} (hi : i.Calls CaptureFn.Builtin) (hf : Fits rx h i l) : Fits rx h' i l :=
  ⟨hf.1, fun m hm => means_heap (callsL_iff.1 hi.1 m hm) (hf.2 m hm)⟩

theorem gives_heap {h h' : Heap} {c : Capture} (hc : c.Calls CaptureFn.Builtin) {x : Option (Str × Str)} (hg : c.Gives rx h l x) :
    c.Gives rx h' l x := by
  cases c with
  | «attribute» a name p => cases x <;> exact hg
  | function f name p =>
    cases x with
    | none => exact hg
    | some x =>
      obtain ⟨k, u⟩ := x
      obtain ⟨rfl, g, rfl, hg⟩ := hg
      refine ⟨rfl, g, rfl, ?_⟩
      rcases (hc g rfl : CaptureFn.Builtin g) with rfl | rfl | rfl <;> exact hg

theorem givesAll_heap {h h' : Heap} {cs : List (Option Capture)} (hc : ∀ c, some c ∈ cs → c.Calls CaptureFn.Builtin)
    {vs : List (Str × Str)} (hg : GivesAll rx h l cs vs) : GivesAll rx h' l cs vs := by
  induction hg with
  | nil => exact .nil
  | null _ ih => exact .null (ih fun c h => hc c (by simp [h]))
  | hit h1 _ ih => exact .hit (gives_heap (hc _ (by simp)) h1) (ih fun c h => hc c (by simp [h]))
  | miss h1 _ ih => exact .miss (gives_heap (hc _ (by simp)) h1) (ih fun c h => hc c (by simp [h]))

theorem outcome_heap {h h' : Heap} (hb : r.All (RuleInfo.Calls CaptureFn.Builtin)) {res : List (List (Str × Str))}
    (ho : IsOutcome rx h r l res) : IsOutcome rx h' r l res := by
  obtain ⟨gs, ms, h1, h2, h3⟩ := ho
  have hag : SameOn (Fits rx h) (Fits rx h') (fun q _ => q.All (RuleInfo.Calls CaptureFn.Builtin)) :=
    ⟨fun p y q x hp hb => hb.all hp, fun q x hq => by
      obtain ⟨i, c, nx, ns⟩ := q
      exact ⟨fits_heap hq.1, fits_heap hq.1⟩⟩
  have hreg : ∀ q ∈ r.siblings, ∀ ks ∈ l.searched, ∀ x ∈ ks, q.All (RuleInfo.Calls CaptureFn.Builtin) :=
    fun q hq ks hks x hx => mem_siblings_all hb q hq
  refine ⟨gs, ms, search_congr hag h1 hreg, ?_, h3⟩
  have hall := h1.closed (P := fun q _ => q.All (RuleInfo.Calls CaptureFn.Builtin)) hag.below hreg
  clear h1 h3
  induction h2 with
  | nil => exact .nil
  | @cons g gs vs m ms h1 h2 _ ih =>
    refine .cons ?_ h2 (ih fun g hg => hall g (by simp [hg]))
    have hg := hall g (by simp)
    clear hall ih h2
    induction h1 with
    | nil => exact .nil
    | @cons q x g vs ws h1 _ ih =>
      refine .cons ?_ (ih fun p hp => hg p (by simp [hp]))
      have := hg (q, x) (by simp)
      obtain ⟨i, c, nx, ns⟩ := q
      exact givesAll_heap this.1.2 h1

/-! ## Hexts -/

theorem trait_words {f} {t : Trait} {x : Match × Flags} (h : t.meaning rx f = some x) : x.1.WordsOk := by
  cases t with
  | empty => cases h; trivial
  | endmost => cases h; trivial
  | only => cases h; trivial
  | _ =>
    simp only [Trait.meaning, Option.bind_eq_bind, Option.bind_eq_some_iff, Option.some.injEq] at h
    obtain ⟨_, _, rfl⟩ := h; simp [Match.WordsOk]

theorem traits_words : ∀ {ts : List Trait} {f : Flags} {x : List Match × Flags},
    traitsMeaning rx f ts = some x → ∀ m ∈ x.1, m.WordsOk
  | [], _, _, h => by cases h; simp
  | t :: ts, f, x, h => by
    simp only [traitsMeaning, Option.bind_eq_bind, Option.bind_eq_some_iff, Option.some.injEq] at h
    obtain ⟨y, h1, z, h2, rfl⟩ := h
    intro m hm
    rcases List.mem_cons.1 hm with rfl | hm
    · exact trait_words h1
    · exact traits_words h2 m hm

theorem cond_words {f} {c : Cond} {x : Match × Flags} (h : c.meaning rx f = some x) : x.1.WordsOk := by
  cases c with
  | trait t => exact trait_words h
  | not ts =>
    simp only [Cond.meaning, Option.bind_eq_bind, Option.bind_eq_some_iff, Option.some.injEq] at h
    obtain ⟨y, h1, rfl⟩ := h
    simp only [Match.WordsOk]
    rw [wordsOkL_iff]
    intro m hm
    simp only [List.mem_map, Option.some.injEq] at hm
    obtain ⟨m, hm, rfl⟩ := hm
    exact traits_words h1 m hm

theorem conds_words : ∀ {ts : List Cond} {f : Flags} {x : List Match × Flags},
    condsMeaning rx f ts = some x → ∀ m ∈ x.1, m.WordsOk
  | [], _, _, h => by cases h; simp
  | t :: ts, f, x, h => by
    simp only [condsMeaning, Option.bind_eq_bind, Option.bind_eq_some_iff, Option.some.injEq] at h
    obtain ⟨y, h1, z, h2, rfl⟩ := h
    intro m hm
    rcases List.mem_cons.1 hm with rfl | hm
    · exact cond_words h1
    · exact conds_words h2 m hm

theorem test_words {f} {t : Test} {x : ValueTest} (h : t.meaning rx f = some x) (neg : Bool) : (negated neg x).WordsOk := by
  have : x.WordsOk := by
    cases t with
    | op o q =>
      simp only [Test.meaning, Option.some.injEq] at h
      subst h
      cases o with
      | words => exact words_ok _
      | _ => trivial
    | regex r =>
      simp only [Test.meaning, Option.bind_eq_bind, Option.bind_eq_some_iff, Option.some.injEq] at h
      obtain ⟨_, _, rfl⟩ := h; trivial
  cases neg <;> exact this

theorem pat_words {f} {p : Pat} {x : List Match × List Capture} (h : p.meaning rx f = some x) : ∀ m ∈ x.1, m.WordsOk := by
  cases p with
  | capFn fn ps n =>
    simp only [Pat.meaning, Option.bind_eq_bind, Option.bind_eq_some_iff, Option.some.injEq] at h
    obtain ⟨y, _, rfl⟩ := h; simp
  | capAttr a ps n o =>
    simp only [Pat.meaning, Option.bind_eq_bind, Option.bind_eq_some_iff, Option.some.injEq] at h
    obtain ⟨y, _, rfl⟩ := h
    cases o <;> simp [Match.WordsOk]
  | testFn fn t neg =>
    simp only [Pat.meaning, Option.bind_eq_bind, Option.bind_eq_some_iff, Option.some.injEq] at h
    obtain ⟨y, h1, rfl⟩ := h
    simpa [Match.WordsOk] using test_words h1 neg
  | testAttr a t neg =>
    simp only [Pat.meaning, Option.bind_eq_bind, Option.bind_eq_some_iff, Option.some.injEq] at h
    obtain ⟨y, h1, rfl⟩ := h
    simpa [Match.WordsOk] using test_words h1 neg
  | hasAttr a neg => cases h; cases neg <;> simp [Match.WordsOk, ValueTest.WordsOk]

theorem pats_words : ∀ {ps : List (Str × Pat)} {f : Flags} {x : List Match × List Capture × Flags},
    patsMeaning rx f ps = some x → ∀ m ∈ x.1, m.WordsOk
  | [], _, _, h => by cases h; simp
  | p :: ps, f, x, h => by
    simp only [patsMeaning, Option.bind_eq_bind, Option.bind_eq_some_iff, Option.some.injEq] at h
    obtain ⟨y, h1, z, h2, rfl⟩ := h
    intro m hm
    rcases List.mem_append.1 hm with hm | hm
    · exact pat_words h1 m hm
    · exact pats_words h2 m hm

/-- The word lists of a parsed rule have no spaces in their words. -/
theorem parse_words {cs s} (h : parseHext rx cs s = .ok r) : r.All fun i => Match.WordsOkL i.ms := by
  obtain ⟨is, f, rs, hok, rfl, hseq, rfl⟩ := (parse_iff rx cs s r).1 h
  refine ruleOf_all (fun _ => by simp [Match.WordsOkL]) (seq_all hseq fun hd c hc f f' info hm => ?_)
  simp only [Head.meaning, Option.bind_eq_bind, Option.bind_eq_some_iff, Option.some.injEq, Prod.mk.injEq] at hm
  obtain ⟨x, h1, y, h2, rfl, _⟩ := hm
  rw [wordsOkL_iff]
  intro m hm
  simp only [List.mem_map, List.mem_append, Option.some.injEq] at hm
  obtain ⟨m, hm, rfl⟩ := hm
  rcases hm with hm | hm
  · exact conds_words h1 m hm
  · exact pats_words h2 m hm

/-- C63. Parsing a hext and extracting from a document gives `res` iff the hext means a rule (`Syn.Means`: the grammar and the
meaning of its parts) whose outcome on the tree of the document is `res` (`IsOutcome`). The right-hand side mentions no part of
the program and no address. (Ten digits in a row may not fit into an `int`; see C35 and C20.) -/
theorem C63_meaning {charSigned : Bool} {s : Str} {t : Tree} (hs : NoLong s) (ht : IsDocument h 1147483648 t)
    (res : List (List (Str × Str))) :
    (∃ r, parseHext rx charSigned s = .ok r ∧ extract rx h r t.ptr 0 = pure res) ↔
      ∃ r, Syn.Means rx s r ∧ IsOutcome rx (fun _ => none) r (Loc.root t) res := by
  constructor
  · rintro ⟨r, hp, he⟩
    refine ⟨r, (parse_iff rx charSigned s r).1 hp, outcome_heap (h := h) (parse_builtin hp) ?_⟩
    exact (extract_outcome (n := 1147483648) (by decide) (parse_safe hs hp) (parse_words hp) ht res).1 he
  · rintro ⟨r, hm, ho⟩
    have hp := (parse_iff rx charSigned s r).2 hm
    refine ⟨r, hp, ?_⟩
    exact (extract_outcome (n := 1147483648) (by decide) (parse_safe hs hp) (parse_words hp) ht res).2
      (outcome_heap (parse_builtin hp) ho)

/-- C63. Every accepted hext has exactly one outcome on every document. -/
theorem C63_total {charSigned : Bool} {s : Str} {t : Tree} (hs : NoLong s) (hp : parseHext rx charSigned s = .ok r)
    (ht : IsDocument h 1147483648 t) : ∃ res, IsOutcome rx (fun _ => none) r (Loc.root t) res ∧
      ∀ res', IsOutcome rx (fun _ => none) r (Loc.root t) res' → res' = res := by
  have key := fun res => extract_outcome (rx := rx) (n := 1147483648) (by decide) (parse_safe hs hp) (parse_words hp) ht res
  obtain ⟨res, he⟩ := extract_unlimited (rx := rx) (n := 1147483648) (by decide) (parse_safe hs hp) (l := Loc.root t) ht
  refine ⟨res, outcome_heap (parse_builtin hp) ((key res).1 he), fun res' h' => ?_⟩
  have := (key res').2 (outcome_heap (parse_builtin hp) h')
  rw [he] at this
  exact (E.pure_inj this).symm

/-- `<a href:x/>` on the example document. -/
example : IsOutcome Ex.rx (fun _ => none) hrefRule (Loc.root Ex.doc) [[(lit "x", lit "1")], [(lit "x", lit "2")]] := by
  have hp := href_parsed Ex.rx true
  refine outcome_heap (parse_builtin hp)
    ((extract_outcome (n := 1147483648) (by decide) (parse_safe href_short hp) (parse_words hp) doc_ok2 _).1 ?_)
  rw [extract_eq (rx := Ex.rx) (h := Ex.heap) (n := 1147483648) (by decide) (parse_safe href_short hp) (l := Loc.root Ex.doc) doc_ok2]
  decide +kernel

end Hext.Props
