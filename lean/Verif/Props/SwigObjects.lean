import Verif.Spec.SwigObjects
import Verif.Props.PyObjects
import Verif.Props.EveryMap
set_option linter.unusedSimpArgs false
/-!
# Programs of Ruby and PHP (C99)
-/

namespace Hext.Props.Swig

open Binding SwigApi

variable {V R : Type} {P : Host V R}

/-- What a program knows is what the memory holds. -/
structure Knows (P : Host V R) (k : Known) (s : SwigApi.State) : Prop where
  html : ∀ i text, k.htmls i = some text → s.htmls i = some (P.gumbo text)
  rule : ∀ i hext, k.rules i = some hext → ∃ r, s.rules i = some r ∧ Syn.Means P.rx hext r
  newHtml : ∀ i, s.fresh ≤ i → k.htmls i = none
  newRule : ∀ i, s.fresh ≤ i → k.rules i = none

theorem knows_start : Knows P .nothing .start :=
  ⟨fun _ _ h => by simp [Known.nothing] at h, fun _ _ h => by simp [Known.nothing] at h, fun _ _ => rfl, fun _ _ => rfl⟩

theorem wrapperRule_code {rx : RxEngine} {charSigned : Bool} {hext code what : Str} (h : wrapperRule rx charSigned hext = .raises code what) :
    code = lit "ValueError" := by
  unfold wrapperRule at h
  cases hp : parseHext rx charSigned hext with
  | ok r' => rw [hp] at h; cases h
  | error e => rw [hp] at h; cases e <;> cases h; rfl

theorem extracts_iff {k : Known} {r : Reply R} {self i : Nat} {n : UInt64} : Extracts P k r self i n ↔
    ∃ hext text rule, k.rules self = some hext ∧ k.htmls i = some text ∧ Syn.Means P.rx hext rule ∧
      r = resultReply P (wrapperExtract P.rx P.conv (P.gumbo text).1 rule (P.gumbo text).2 n) := by
  refine ⟨fun ⟨hext, text, rule, h1, h2, h3, h4⟩ => ⟨hext, text, rule, h1, h2, h3, ?_⟩, fun ⟨hext, text, rule, h1, h2, h3, h4⟩ =>
    ⟨hext, text, rule, h1, h2, h3, ?_⟩⟩
  · simp only at h4
    obtain ⟨a1, a2, a3, a4, a5⟩ := h4
    cases ha : wrapperExtract P.rx P.conv (P.gumbo text).1 rule (P.gumbo text).2 n with
    | value x => exact a1 x ha
    | raises code what => exact a2 code what ha
    | terminates => exact a3 ha
    | crash => exact a4 ha
    | hangs => exact a5 ha
  · subst h4
    refine ⟨?_, ?_, ?_, ?_, ?_⟩ <;> intros <;> simp_all [resultReply]

/-- One call: the reply is right, and afterwards the program knows again what the memory holds. -/
theorem step_right {k : Known} {s : SwigApi.State} (h : Knows P k s) (c : Call V) (hc : CallOk k c) :
    Right P k c (perform P s c).1 ∧ (goesOn (perform P s c).1 = true → Knows P (k.after P c (perform P s c).1) (perform P s c).2) := by
  cases c with
  | newHtml args =>
    match args with
    | [] => exact ⟨rfl, fun _ => h⟩
    | [v] =>
      simp only [perform, SwigApi.newHtml, Right]
      cases hv : P.text v with
      | error e => exact ⟨rfl, fun _ => h⟩
      | ok text =>
        refine ⟨⟨s.fresh, rfl, h.newHtml _ (Nat.le_refl _)⟩, fun _ => ⟨fun i t hi => ?_, h.rule, fun i hi => ?_, fun i hi => ?_⟩⟩
        · simp only [Known.after] at hi ⊢
          simp only [SwigApi.put]
          by_cases he : i = s.fresh
          · rw [if_pos he] at hi ⊢
            simp only [textArg, hv, Except.toOption, Option.some.injEq] at hi
            rw [hi]
          · rw [if_neg he] at hi ⊢
            exact h.html i t hi
        · simp only [Known.after] at hi ⊢
          rw [if_neg (by omega)]
          exact h.newHtml i (by omega)
        · exact h.newRule i (by simp only at hi; omega)
    | _ :: _ :: _ => exact ⟨rfl, fun _ => h⟩
  | newRule args =>
    match args with
    | [] => exact ⟨rfl, fun _ => h⟩
    | [v] =>
      simp only [perform, SwigApi.newRule, Right]
      cases hv : P.text v with
      | error e => exact ⟨rfl, fun _ => h⟩
      | ok hext =>
        simp only
        cases hr : wrapperRule P.rx P.charSigned hext with
        | value r =>
          have hm := Py.wrapperRule_value hr
          refine ⟨.inl ⟨s.fresh, r, rfl, h.newRule _ (Nat.le_refl _), hm⟩, fun _ => ⟨h.html, fun i t hi => ?_, fun i hi => ?_, fun i hi => ?_⟩⟩
          · simp only [Known.after] at hi ⊢
            simp only [SwigApi.put]
            by_cases he : i = s.fresh
            · rw [if_pos he] at hi ⊢
              simp only [textArg, hv, Except.toOption, Option.some.injEq] at hi
              subst hi
              exact ⟨r, rfl, hm⟩
            · rw [if_neg he] at hi ⊢
              exact h.rule i t hi
          · exact h.newHtml i (by simp only at hi; omega)
          · simp only [Known.after] at hi ⊢
            rw [if_neg (by omega)]
            exact h.newRule i (by omega)
        | raises code what =>
          exact ⟨.inr ⟨Py.wrapperRule_other fun r => by rw [hr]; simp, .inl ⟨what, by rw [wrapperRule_code hr]⟩⟩, fun _ => h⟩
        | terminates => exact ⟨.inr ⟨Py.wrapperRule_other fun r => by rw [hr]; simp, .inr rfl⟩, fun hg => by cases hg⟩
        | crash => exact ⟨.inr ⟨Py.wrapperRule_other fun r => by rw [hr]; simp, .inr rfl⟩, fun hg => by cases hg⟩
        | hangs => exact ⟨.inr ⟨Py.wrapperRule_other fun r => by rw [hr]; simp, .inr rfl⟩, fun hg => by cases hg⟩
    | _ :: _ :: _ => exact ⟨rfl, fun _ => h⟩
  | extract self args =>
    refine ⟨?_, fun _ => h⟩
    obtain ⟨hself, hargs⟩ := hc
    obtain ⟨hext, hk⟩ := Option.ne_none_iff_exists'.1 hself
    obtain ⟨r, hr, hm⟩ := h.rule _ _ hk
    have two {i : Nat} {n : UInt64} (hi : k.htmls i ≠ none) : Extracts P k (extractWith P self (.html i) (.ok n) s) self i n := by
      obtain ⟨text, ht⟩ := Option.ne_none_iff_exists'.1 hi
      simp only [extractWith, hr, h.html _ _ ht]
      exact extracts_iff.2 ⟨hext, text, r, hk, ht, hm, rfl⟩
    match args, hargs with
    | [], _ => rfl
    | [.html i], hargs => exact two (hargs (.html i) (by simp))
    | [.html i, max], hargs =>
      simp only [Right, perform, SwigApi.extract]
      cases hl : P.limit max with
      | ok n => exact two (hargs (.html i) (by simp))
      | error e => rfl
    | [.rule _], _ => rfl
    | [.plain _], _ => rfl
    | [.rule _, _], _ => rfl
    | [.plain _, _], _ => rfl
    | a :: _ :: _ :: _, _ => cases a <;> rfl
  | dropHtml i =>
    refine ⟨rfl, fun _ => ⟨fun j t hj => ?_, h.rule, fun j hj => ?_, h.newRule⟩⟩
    · simp only [Known.after, perform] at hj ⊢
      simp only [SwigApi.put]
      by_cases he : j = i
      · rw [if_pos he] at hj; cases hj
      · rw [if_neg he] at hj ⊢
        exact h.html j t hj
    · simp only [Known.after]
      split
      · rfl
      · exact h.newHtml j hj
  | dropRule i =>
    refine ⟨rfl, fun _ => ⟨h.html, fun j t hj => ?_, h.newHtml, fun j hj => ?_⟩⟩
    · simp only [Known.after, perform] at hj ⊢
      simp only [SwigApi.put]
      by_cases he : j = i
      · rw [if_pos he] at hj; cases hj
      · rw [if_neg he] at hj ⊢
        exact h.rule j t hj
    · simp only [Known.after]
      split
      · rfl
      · exact h.newRule j hj

theorem replies_right : ∀ (cs : List (Call V)) {k : Known} {s : SwigApi.State}, Knows P k s → AllRight P k cs (replies P s cs)
  | [], _, _, _ => rfl
  | c :: cs, k, s, h => by
    intro hc
    obtain ⟨h1, h2⟩ := step_right h c hc
    refine ⟨(perform P s c).1, if goesOn (perform P s c).1 then replies P (perform P s c).2 cs else [], rfl, h1, ?_⟩
    by_cases hg : goesOn (perform P s c).1 = true
    · rw [if_pos hg, if_pos hg]
      exact replies_right cs (h2 hg)
    · rw [if_neg hg, if_neg hg]

/-- C99. Whatever calls a program of Ruby or PHP makes, in whatever order and with whatever arguments, and whenever objects that it no longer
refers to are destroyed: each reply is right. -/
theorem C99_programs (P : Host V R) (calls : List (Call V)) : AllRight P .nothing calls (replies P .start calls) :=
  replies_right calls knows_start

/-- C99. What `extract` replies depends only on the texts that the rule and the document were made from, and on the limit. -/
theorem C99_same_reply {k k' : Known} {self self' i i' : Nat} {n : UInt64} {r r' : Reply R} (h : Extracts P k r self i n)
    (h' : Extracts P k' r' self' i' n) (hr : k.rules self = k'.rules self') (ht : k.htmls i = k'.htmls i') : r = r' := by
  obtain ⟨hext, text, rule, h1, h2, h3, h4⟩ := extracts_iff.1 h
  obtain ⟨hext', text', rule', h1', h2', h3', h4'⟩ := extracts_iff.1 h'
  rw [h1, h1'] at hr
  rw [h2, h2'] at ht
  cases hr
  cases ht
  rw [h4, h4', C36_meaning_unique _ _ _ _ h3 h3']

/-- C99. The limit is exact: for every rule and document there is a number of searches. A limit up to this number raises the exception for
`RuntimeError`; with every other limit the reply is the one without limit. -/
theorem C99_limit {hext text : Str} {t : Tree} (hl : NoLong hext) (hd : IsDocument (P.gumbo text).1 1147483648 t)
    (hroot : (P.gumbo text).2 = t.ptr) :
    ∃ N : Nat, ∀ {k k' : Known} {self self' i i' : Nat} {n : UInt64} {r r0 : Reply R},
      k.rules self = some hext → k.htmls i = some text → k'.rules self' = some hext → k'.htmls i' = some text →
      Extracts P k r self i n → Extracts P k' r0 self' i' 0 →
      r = if 1 ≤ n.toNat ∧ n.toNat ≤ N then .raises (P.cls (lit "RuntimeError")) (lit "The allowed amount of searches was exhausted")
        else r0 := by
  by_cases hm : ∃ rule, Syn.Means P.rx hext rule
  · obtain ⟨rule, hm⟩ := hm
    have hp := (C36_parse_iff P.rx P.charSigned _ _).2 hm
    obtain ⟨N, res, _, g1, g2⟩ := max_searches_exact (rx := P.rx) (n := 1147483648) (by decide) (parse_safe hl hp) (l := Loc.root t) hd
    refine ⟨N, fun {k k' self self' i i' n r r0} e1 e2 e3 e4 h h0 => ?_⟩
    obtain ⟨hx, tx, rule1, a1, a2, a3, a4⟩ := extracts_iff.1 h
    obtain ⟨hx', tx', rule2, b1, b2, b3, b4⟩ := extracts_iff.1 h0
    rw [e1] at a1; rw [e2] at a2; rw [e3] at b1; rw [e4] at b2
    cases a1; cases a2; cases b1; cases b2
    cases C36_meaning_unique _ _ _ _ hm a3
    cases C36_meaning_unique _ _ _ _ hm b3
    rw [a4, b4, hroot]
    have g3 := g2 n
    by_cases hc : 1 ≤ n.toNat ∧ n.toNat ≤ N
    · rw [if_pos (by omega)] at g3
      rw [if_pos hc, wrapperExtract, show Hext.extract P.rx (P.gumbo text).1 rule t.ptr n = _ from g3]
      rfl
    · rw [if_neg (by omega)] at g3
      rw [if_neg hc, wrapperExtract, wrapperExtract, show Hext.extract P.rx (P.gumbo text).1 rule t.ptr n = _ from g3,
        show Hext.extract P.rx (P.gumbo text).1 rule t.ptr 0 = _ from g1]
  · refine ⟨0, fun {k k' self self' i i' n r r0} e1 e2 e3 e4 h h0 => ?_⟩
    obtain ⟨hx', tx', rule2, b1, b2, b3, b4⟩ := h0
    rw [e3] at b1
    cases b1
    exact absurd ⟨_, b3⟩ hm

/-! ## Ruby and PHP -/

/-- The result of the extraction, and what becomes of its maps; `conv` does not fail. -/
theorem meaning_of (hc : ∀ res, (∀ m ∈ res, KeySorted m) → Returns false (P.conv res)) {k : Known} {self i : Nat} {n : UInt64} {r : Reply R}
    {hext text : Str} {t : Tree} (h : Extracts P k r self i n) (hr : k.rules self = some hext) (ht : k.htmls i = some text) (hl : NoLong hext)
    (hd : IsDocument (P.gumbo text).1 1147483648 t) (hroot : (P.gumbo text).2 = t.ptr) :
    ∃ rule res, Syn.Means P.rx hext rule ∧ IsOutcome P.rx (fun _ => none) rule (Loc.root t) res ∧ (∀ m ∈ res, ∃ vs, IsMap vs m) ∧
      ((n ≠ 0 ∧ Raises P "RuntimeError" r) ∨ ∃ x, r = .value (.result x) ∧ P.conv res = pure x) := by
  obtain ⟨hext', text', rule, h1, h2, h3, h4⟩ := extracts_iff.1 h
  rw [hr] at h1
  rw [ht] at h2
  cases h1
  cases h2
  subst h4
  have hp := (C36_parse_iff P.rx P.charSigned _ _).2 h3
  obtain ⟨res, ho, _⟩ := C63_total hl hp hd
  have he := (extract_outcome (h := (P.gumbo text).1) (n := 1147483648) (by decide) (parse_safe hl hp) (parse_words hp)
    (l := Loc.root t) hd res).2 (outcome_heap (parse_builtin hp) ho)
  obtain ⟨res', g1, _, g2⟩ := extract_result (rx := P.rx) (n := 1147483648) (by decide) (parse_safe hl hp) (l := Loc.root t) hd
  have e := g2 0
  rw [he] at e
  simp only [ne_eq, not_true_eq_false, false_and, if_false] at e
  have e := E.pure_inj e
  subst e
  refine ⟨rule, res, h3, ho, ?_, ?_⟩
  · obtain ⟨gs, ms', _, hms, hres⟩ := extract_isResult (l := Loc.root t) (n := 1147483648) (by decide) (parse_safe hl hp) hd he
    intro m hm
    rw [hres] at hm
    obtain ⟨g', _, vs, _, him⟩ := hms.mem (List.mem_filter.1 hm).1
    exact ⟨vs, him⟩
  · rw [hroot]
    rcases wrapperExtract_cases hc hl hp hd n with ⟨res', os, e1, e2, e3⟩ | ⟨e1, _, e3⟩ | ⟨e1, _⟩
    · have e5 := g2 n
      have e1' : Hext.extract P.rx (P.gumbo text).1 rule (Loc.root t).ptr n = pure res' := e1
      rw [e1'] at e5
      split at e5
      · exact (pure_ne_throw e5).elim
      cases E.pure_inj e5
      exact .inr ⟨os, by rw [e3]; rfl, e2⟩
    · exact .inl ⟨e1, _, by rw [e3]; rfl⟩
    · cases e1

/-- C99 for Ruby. The reply to `extract` is the meaning of the hext on the document that Gumbo makes of the text: an array with a hash for
each map of the result, with all bytes. With a limit the reply may also be the exception for `RuntimeError`. -/
theorem C99_ruby_meaning {P : Host V (List (List (Str × Entry Str)))} (hP : P.IsRuby) {k : Known} {self i : Nat} {n : UInt64}
    {r : Reply (List (List (Str × Entry Str)))} {hext text : Str} {t : Tree} (h : Extracts P k r self i n) (hr : k.rules self = some hext)
    (ht : k.htmls i = some text) (hl : NoLong hext) (hd : IsDocument (P.gumbo text).1 1147483648 t) (hroot : (P.gumbo text).2 = t.ptr) :
    ∃ rule res, Syn.Means P.rx hext rule ∧ IsOutcome P.rx (fun _ => none) rule (Loc.root t) res ∧
      ((n ≠ 0 ∧ Raises P "RuntimeError" r) ∨
        ∃ os, r = .value (.result os) ∧ os.length = res.length ∧ ∀ x ∈ res.zip os, Presents x.1 x.2) := by
  obtain ⟨rule, res, h1, h2, h3, h4⟩ := meaning_of (fun res hk => hP ▸ rubyResult_returns hk) h hr ht hl hd hroot
  refine ⟨rule, res, h1, h2, h4.imp_right fun ⟨os, e1, e2⟩ => ⟨os, e1, ?_⟩⟩
  rw [hP] at e2
  refine resultLoop_presents (fun m hm o ho => ?_) e2
  obtain ⟨vs, hv⟩ := h3 m hm
  obtain ⟨o', a1, a2, _⟩ := C42_every_map hv
  rw [rubyHash, ho] at a2
  injection a2 with a2; injection a2 with a2
  exact a2 ▸ a1

/-- C99 for PHP. The reply to `extract` is the meaning of the hext on the document: an array with an array for each map of the result. Names
and sole values are cut off before their first NUL byte, and of names that become equal the last one counts. With a limit the reply may also be
the exception for `RuntimeError`. -/
theorem C99_php_meaning {P : Host V (List (List (PhpKey × Entry Str)))} (hP : P.IsPhp) {k : Known} {self i : Nat} {n : UInt64}
    {r : Reply (List (List (PhpKey × Entry Str)))} {hext text : Str} {t : Tree} (h : Extracts P k r self i n) (hr : k.rules self = some hext)
    (ht : k.htmls i = some text) (hl : NoLong hext) (hd : IsDocument (P.gumbo text).1 1147483648 t) (hroot : (P.gumbo text).2 = t.ptr) :
    ∃ rule res, Syn.Means P.rx hext rule ∧ IsOutcome P.rx (fun _ => none) rule (Loc.root t) res ∧
      ((n ≠ 0 ∧ Raises P "RuntimeError" r) ∨
        ∃ os, r = .value (.result os) ∧ os.length = res.length ∧ ∀ x ∈ res.zip os, ∃ o d, Presents x.1 o ∧
          LastCounts (o.map fun y => (beforeNul y.1, y.2.cutSole)) d ∧ IsPhpArray d x.2) := by
  obtain ⟨rule, res, h1, h2, h3, h4⟩ := meaning_of (fun res hk => hP ▸ phpResult_returns hk) h hr ht hl hd hroot
  refine ⟨rule, res, h1, h2, h4.imp_right fun ⟨os, e1, e2⟩ => ⟨os, e1, ?_⟩⟩
  rw [hP] at e2
  refine resultLoop_presents (R := fun m a => ∃ o d, Presents m o ∧ LastCounts (o.map fun y => (beforeNul y.1, y.2.cutSole)) d ∧ IsPhpArray d a)
    (fun m hm a ha => ?_) e2
  obtain ⟨vs, hv⟩ := h3 m hm
  obtain ⟨o, a1, _, ⟨d, a', a2, a3, a4⟩, _⟩ := C42_every_map hv
  rw [phpArray, ha] at a4
  injection a4 with a4; injection a4 with a4
  exact ⟨o, d, a1, a2, a4 ▸ a3⟩

/-! ## The process goes on -/

/-- The hexts of the rules that a program makes are such that C55 applies. -/
def PlainCalls (P : Host V R) (calls : List (Call V)) : Prop :=
  ∀ v hext, Call.newRule [v] ∈ calls → P.text v = .ok hext → HextPlain P.charSigned hext

theorem goesOn_of (hconv : ∀ res, (∀ m ∈ res, KeySorted m) → Returns false (P.conv res)) {k : Known} {s : SwigApi.State} {c : Call V}
    (h : Knows P k s) (hc : CallOk k c) (hg : ∀ text, ∃ t, IsDocument (P.gumbo text).1 1147483648 t ∧ (P.gumbo text).2 = t.ptr)
    (hk : ∀ i hext, k.rules i = some hext → HextPlain P.charSigned hext)
    (hp : ∀ v hext, c = .newRule [v] → P.text v = .ok hext → HextPlain P.charSigned hext) : goesOn (perform P s c).1 = true := by
  have hr := (step_right h c hc).1
  have extracts {self i : Nat} {n : UInt64} {r : Reply R} (h : Extracts P k r self i n) : goesOn r = true := by
    obtain ⟨hext, text, rule, h1, h2, h3, _⟩ := extracts_iff.1 h
    obtain ⟨t, ht, he⟩ := hg text
    obtain ⟨_, _, _, _, _, ⟨_, _, e⟩ | ⟨_, e, _⟩⟩ := meaning_of hconv h h1 h2 (hk _ _ h1).1 ht he <;> rw [e] <;> rfl
  cases c with
  | newHtml args =>
    match args with
    | [] => rfl
    | [v] =>
      simp only [perform, SwigApi.newHtml]
      cases P.text v <;> rfl
    | _ :: _ :: _ => rfl
  | newRule args =>
    match args with
    | [] => rfl
    | [v] =>
      simp only [perform, SwigApi.newRule]
      cases hv : P.text v with
      | error e => rfl
      | ok hext =>
        simp only
        rcases C55_rule_partial P.rx (hp v hext rfl hv) with ⟨r, e, _⟩ | ⟨what, e, _⟩ <;> rw [e] <;> rfl
    | _ :: _ :: _ => rfl
  | extract self args =>
    match args, hr with
    | [], hr => rfl
    | [.html i], hr => exact extracts hr
    | [.html i, max], hr =>
      simp only [Right] at hr
      cases hl : P.limit max with
      | ok n => rw [hl] at hr; exact extracts hr
      | error e => rw [hl] at hr; rw [hr]; rfl
    | [.rule _], hr => rfl
    | [.plain _], hr => rfl
    | [.rule _, _], hr => rfl
    | [.plain _, _], hr => rfl
    | a :: _ :: _ :: _, hr => rfl
  | dropHtml i => rfl
  | dropRule i => rfl

theorem replies_all (hconv : ∀ res, (∀ m ∈ res, KeySorted m) → Returns false (P.conv res)) : ∀ (cs : List (Call V)) {k : Known} {s : SwigApi.State},
    Knows P k s → (∀ text, ∃ t, IsDocument (P.gumbo text).1 1147483648 t ∧ (P.gumbo text).2 = t.ptr) →
    (∀ i hext, k.rules i = some hext → HextPlain P.charSigned hext) → PlainCalls P cs → AllOk P k cs (replies P s cs) →
    (replies P s cs).length = cs.length ∧ ∀ r ∈ replies P s cs, goesOn r = true
  | [], _, _, _, _, _, _, _ => ⟨rfl, by simp [replies]⟩
  | c :: cs, k, s, h, hg, hk, hp, hok => by
    have hstep : replies P s (c :: cs) = (perform P s c).1 :: if goesOn (perform P s c).1 then replies P (perform P s c).2 cs else [] := rfl
    rw [hstep] at hok ⊢
    obtain ⟨hc, hok⟩ := hok
    have h1 := goesOn_of hconv h hc hg hk fun v hext e => hp v hext (by simp [e])
    rw [if_pos h1] at hok ⊢
    have hk' : ∀ i hext, (k.after P c (perform P s c).1).rules i = some hext → HextPlain P.charSigned hext := by
      intro i hext hi
      unfold Known.after at hi
      split at hi
      · exact hk i hext hi
      · rename_i args j _
        simp only at hi
        split at hi
        · match args, hi with
          | [v], hi =>
            simp only [textArg] at hi
            cases hv : P.text v with
            | error e => rw [hv] at hi; cases hi
            | ok x => rw [hv] at hi; cases hi; exact hp v _ (List.mem_cons_self ..) hv
        · exact hk i hext hi
      · exact hk i hext hi
      · simp only at hi
        split at hi
        · cases hi
        · exact hk i hext hi
      · exact hk i hext hi
    obtain ⟨h2, h3⟩ := replies_all hconv cs ((step_right h c hc).2 h1) hg hk' (fun v hext hm => hp v hext (by simp [hm])) hok
    refine ⟨by simp [h2], ?_⟩
    intro r hr
    rcases List.mem_cons.1 hr with rfl | hr
    · exact h1
    · exact h3 r hr

/-- C99. If the documents are such as Gumbo makes them, and the hexts are plain (`HextPlain`; C55 shows why), then no sequence of calls of Ruby
ends the process: each call gets a value or an exception. -/
theorem C99_ruby_never_ends {P : Host V (List (List (Str × Entry Str)))} (hP : P.IsRuby) (calls : List (Call V))
    (hg : ∀ text, ∃ t, IsDocument (P.gumbo text).1 1147483648 t ∧ (P.gumbo text).2 = t.ptr) (hp : PlainCalls P calls)
    (hok : AllOk P .nothing calls (replies P .start calls)) :
    (replies P .start calls).length = calls.length ∧ ∀ r ∈ replies P .start calls, goesOn r = true :=
  replies_all (fun _ hk => hP ▸ rubyResult_returns hk) calls knows_start hg (fun i hext h => by simp [Known.nothing] at h) hp hok

/-- C99. The same for PHP. -/
theorem C99_php_never_ends {P : Host V (List (List (PhpKey × Entry Str)))} (hP : P.IsPhp) (calls : List (Call V))
    (hg : ∀ text, ∃ t, IsDocument (P.gumbo text).1 1147483648 t ∧ (P.gumbo text).2 = t.ptr) (hp : PlainCalls P calls)
    (hok : AllOk P .nothing calls (replies P .start calls)) :
    (replies P .start calls).length = calls.length ∧ ∀ r ∈ replies P .start calls, goesOn r = true :=
  replies_all (fun _ hk => hP ▸ phpResult_returns hk) calls knows_start hg (fun i hext h => by simp [Known.nothing] at h) hp hok

/-! ## A program -/

/-- Values: a string or an integer. Every text is taken for the example document. -/
def exHost {R : Type} (conv : List (List (Str × Str)) → B R) : Host (Str ⊕ Int) R where
  rx := Ex.rx
  charSigned := true
  gumbo := fun _ => (Ex.heap, Ex.doc.ptr)
  text
    | .plain (.inl s) => .ok s
    | _ => .error (lit "TypeError", lit "Expected argument 0 of type std::string")
  limit
    | .plain (.inr n) => if 0 ≤ n ∧ n < 2 ^ 64 then .ok (UInt64.ofNat n.toNat) else .error (lit "RangeError", lit "bignum too big")
    | _ => .error (lit "TypeError", lit "Expected argument 2 of type uint64_t")
  notHtml _ := (lit "TypeError", lit "Expected argument 1 of type Html const &")
  count := (lit "ArgumentError", lit "wrong # of arguments")
  cls code := if code = lit "ValueError" then lit "ArgumentError" else code
  conv

/-- `h = Html.new(""); r = Rule.new("<a href:x/>"); r.extract("no"); r.extract(h, -1); a = r.extract(h); h = nil; h = Html.new("2"); b = r.extract(h, 1000)` -/
def exCalls : List (Call (Str ⊕ Int)) :=
  [.newHtml [.plain (.inl [])], .newRule [.plain (.inl (lit "<a href:x/>"))], .extract 1 [.plain (.inl (lit "no"))],
    .extract 1 [.html 0, .plain (.inr (-1))], .extract 1 [.html 0], .dropHtml 0, .newHtml [.plain (.inl (lit "2"))],
    .extract 1 [.html 2, .plain (.inr 1000)]]

theorem exHref (ms : UInt64) (hms : ms = 0 ∨ ms = 1000) :
    Hext.extract Ex.rx Ex.heap hrefRule Ex.doc.ptr ms = pure [[(lit "x", lit "1")], [(lit "x", lit "2")]] := by
  have hs := extract_eq (rx := Ex.rx) (h := Ex.heap) (n := 1147483648) (by decide) href_safe (l := Loc.root Ex.doc)
    (isDocument_of_ok (by decide +kernel))
  have e : (Loc.root Ex.doc).ptr = Ex.doc.ptr := rfl
  rw [← e, hs]
  rcases hms with rfl | rfl <;> decide +kernel

theorem exExtract {R : Type} {conv : List (List (Str × Str)) → B R} {x : R} (hx : conv [[(lit "x", lit "1")], [(lit "x", lit "2")]] = pure x)
    (ms : UInt64) (hms : ms = 0 ∨ ms = 1000) : wrapperExtract Ex.rx conv Ex.heap hrefRule Ex.doc.ptr ms = .value x := by
  unfold wrapperExtract
  rw [exHref ms hms]
  simp only [pure, ExceptT.pure, ExceptT.mk]
  rw [hx]; rfl

/-- The replies to the program: both extractions give the same result. -/
theorem exCalls_replies {R : Type} {conv : List (List (Str × Str)) → B R} {x : R}
    (hx : conv [[(lit "x", lit "1")], [(lit "x", lit "2")]] = pure x) : replies (exHost conv) .start exCalls =
    [.value (.html 0), .value (.rule 1), .raises (lit "TypeError") (lit "Expected argument 1 of type Html const &"),
      .raises (lit "RangeError") (lit "bignum too big"), .value (.result x), .value .nothing, .value (.html 2), .value (.result x)] := by
  have h0 := exExtract hx 0 (.inl rfl)
  have h1 := exExtract hx 1000 (.inr rfl)
  have hr : wrapperRule Ex.rx true (lit "<a href:x/>") = .value hrefRule := wrapperRule_ok (href_parsed _ _)
  simp [exCalls, replies, perform, SwigApi.newHtml, SwigApi.newRule, SwigApi.extract, extractWith, exHost, hr, goesOn, State.start, SwigApi.put,
    resultReply, h0, h1, SwigApi.raise]

/-- The arrays of the example in Ruby and in PHP. -/
theorem exConv : rubyResult [[(lit "x", lit "1")], [(lit "x", lit "2")]] = pure [[(lit "x", .one (lit "1"))], [(lit "x", .one (lit "2"))]] ∧
    phpResult [[(lit "x", lit "1")], [(lit "x", lit "2")]] = pure [[(.str (lit "x"), .one (lit "1"))], [(.str (lit "x"), .one (lit "2"))]] := by
  have hs (v : Str) : KeySorted [(lit "x", v)] := by unfold KeySorted; simp
  have r (v : Str) : mapLoop rubyString rubyPut [(lit "x", v)] 0 [] = pure [(lit "x", .one v)] := by
    have := rubyHash_presents (hs v) (entsOf_presents (hs v))
    rw [rubyHash] at this
    rw [this]; exact congrArg pure (by simp [entsOf, keysOf, valuesOf, entryOf])
  have p (v : Str) (hv : (0 : Byte) ∉ v) : mapLoop pure phpPut [(lit "x", v)] 0 [] = pure [(.str (lit "x"), .one v)] := by
    have := phpArray_presents (hs v) (by unfold NoNul; simp [hv]; decide) (entsOf_presents (hs v))
    rw [phpArray] at this
    rw [this]; exact congrArg pure (by simp [entsOf, keysOf, valuesOf, entryOf]; decide)
  constructor
  · unfold rubyResult
    rw [resultLoop, resultLoop, resultLoop, r, r]; rfl
  · unfold phpResult
    rw [resultLoop, resultLoop, resultLoop, p _ (by decide), p _ (by decide)]; rfl

/-- The hypotheses of C99 are met by this program, in Ruby and in PHP. -/
example : (exHost rubyResult).IsRuby ∧ (exHost phpResult).IsPhp ∧
    (∀ text, ∃ t, IsDocument ((exHost rubyResult).gumbo text).1 1147483648 t ∧ ((exHost rubyResult).gumbo text).2 = t.ptr) ∧
    PlainCalls (exHost rubyResult) exCalls ∧ AllOk (exHost rubyResult) .nothing exCalls (replies (exHost rubyResult) .start exCalls) ∧
    PlainCalls (exHost phpResult) exCalls ∧ AllOk (exHost phpResult) .nothing exCalls (replies (exHost phpResult) .start exCalls) := by
  have hp {R : Type} {conv : List (List (Str × Str)) → B R} : PlainCalls (exHost conv) exCalls := by
    intro v hext hm hv
    simp [exCalls] at hm
    subst hm
    cases hv
    exact ⟨noLong_of_few (by decide), charSafe_ascii fun _ => by decide, by decide⟩
  refine ⟨rfl, rfl, fun _ => ⟨Ex.doc, isDocument_of_ok (by decide +kernel), rfl⟩, hp, ?_, hp, ?_⟩
  · rw [exCalls_replies exConv.1]
    simp [exCalls, AllOk, CallOk, ValueOk, Known.after, Known.nothing, textArg, exHost, Except.toOption]
  · rw [exCalls_replies exConv.2]
    simp [exCalls, AllOk, CallOk, ValueOk, Known.after, Known.nothing, textArg, exHost, Except.toOption]

/-- The hypotheses of `C99_ruby_meaning` are met. -/
example : ∃ k r, Extracts (exHost rubyResult) k r 1 0 1000 ∧ k.rules 1 = some (lit "<a href:x/>") ∧
    k.htmls 0 = some [] ∧ NoLong (lit "<a href:x/>") ∧ IsDocument ((exHost rubyResult).gumbo []).1 1147483648 Ex.doc :=
  ⟨⟨fun _ => some [], fun _ => some (lit "<a href:x/>")⟩, _, extracts_iff.2 ⟨_, _, hrefRule, rfl, rfl, (C36_parse_iff _ true _ _).1 (href_parsed _ _), rfl⟩,
    rfl, rfl, noLong_of_few (by decide), isDocument_of_ok (by decide +kernel)⟩

end Hext.Props.Swig
