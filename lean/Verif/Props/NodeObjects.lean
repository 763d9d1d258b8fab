import Verif.Spec.NodeObjects
import Verif.Props.Calls
import Verif.Props.Part
import Verif.Props.Scripts
/-!
# Programs of JavaScript (C85)
-/

namespace Hext.Props

open Binding NodeApi

variable {N : Host}

/-- What a program knows is what the memory holds. -/
structure Knows (N : Host) (k : Known) (s : NodeApi.State) : Prop where
  html : ∀ i text, k.htmls i = some text → s.htmls i = some (some (N.gumbo text))
  rule : ∀ i hext, k.rules i = some hext → ∃ r, s.rules i = some (some r) ∧ Syn.Means N.rx (cstr hext) r
  newHtml : ∀ i, s.fresh ≤ i → k.htmls i = none
  newRule : ∀ i, s.fresh ≤ i → k.rules i = none

theorem knows_start : Knows N .nothing .start :=
  ⟨fun _ _ h => by simp [Known.nothing] at h, fun _ _ h => by simp [Known.nothing] at h, fun _ _ => rfl, fun _ _ => rfl⟩

theorem refused_type (what : String) : Refused (typeError what) := ⟨_, rfl⟩

theorem Knows.htmlNe {k : Known} {s : NodeApi.State} (h : Knows N k s) {i : Nat} {text : Str} (hi : k.htmls i = some text) : i ≠ s.fresh := by
  rintro rfl
  rw [h.newHtml _ (Nat.le_refl _)] at hi
  cases hi

theorem Knows.ruleNe {k : Known} {s : NodeApi.State} (h : Knows N k s) {i : Nat} {hext : Str} (hi : k.rules i = some hext) : i ≠ s.fresh := by
  rintro rfl
  rw [h.newRule _ (Nat.le_refl _)] at hi
  cases hi

/-- An object whose constructor failed is not known. -/
theorem Knows.failedHtml {k : Known} {s : NodeApi.State} (h : Knows N k s) (x : Option (Heap × Ptr)) :
    Knows N k { s with htmls := put s.htmls s.fresh (some x), fresh := s.fresh + 1 } :=
  ⟨fun i text hi => by simp only [put, if_neg (h.htmlNe hi)]; exact h.html i text hi, h.rule,
    fun i hi => h.newHtml i (by simp only at hi; omega), fun i hi => h.newRule i (by simp only at hi; omega)⟩

theorem Knows.failedRule {k : Known} {s : NodeApi.State} (h : Knows N k s) (x : Option Rule) :
    Knows N k { s with rules := put s.rules s.fresh (some x), fresh := s.fresh + 1 } :=
  ⟨h.html, fun i hext hi => by simp only [put, if_neg (h.ruleNe hi)]; exact h.rule i hext hi,
    fun i hi => h.newHtml i (by simp only at hi; omega), fun i hi => h.newRule i (by simp only at hi; omega)⟩

theorem nodeRule_value {rx : RxEngine} {charSigned : Bool} {hext : Str} {r : Rule} (h : nodeRule rx charSigned hext = .value r) :
    Syn.Means rx (cstr hext) r := by
  unfold nodeRule parseHextC at h
  cases hp : parseHext rx charSigned (cstr hext) with
  | ok r' => rw [hp] at h; cases h; exact (C36_parse_iff _ _ _ _).1 hp
  | error e => rw [hp] at h; cases e <;> cases h

theorem nodeRule_other {rx : RxEngine} {charSigned : Bool} {hext : Str} (h : ∀ r, nodeRule rx charSigned hext ≠ .value r) (r : Rule) :
    ¬ Syn.Means rx (cstr hext) r := by
  intro hm
  apply h r
  unfold nodeRule parseHextC
  rw [(C36_parse_iff rx charSigned _ r).2 hm]

theorem nodeRule_class {rx : RxEngine} {charSigned : Bool} {hext cls what : Str} (h : nodeRule rx charSigned hext = .raises cls what) :
    NotHext (.raises cls what) := by
  unfold nodeRule at h
  cases hp : parseHextC rx charSigned hext with
  | ok r' => rw [hp] at h; cases h
  | error e => rw [hp] at h; cases e <;> cases h; exact ⟨_, rfl⟩

theorem extract_refused {r : Rule} {s : NodeApi.State} {a : JsValue} {rest : List JsValue} (ha : ∀ i, a ≠ .html i) :
    Refused (match limitArg rest with
      | none => typeError "Argument error: Optional argument 'max_searches' must be a number"
      | some n => extractFrom N r n a s) ∨
    ∃ what, (match limitArg rest with
      | none => typeError "Argument error: Optional argument 'max_searches' must be a number"
      | some n => extractFrom N r n a s) = .raises (lit "Error") what := by
  cases limitArg rest with
  | none => exact .inl (refused_type _)
  | some n =>
    have hif (b : Bool) : Refused (if b = true then .raises (lit "Error") (lit "Internal error: napi_check_object_type_tag failed")
        else typeError "Argument error: invalid argument, expected hext.Html") ∨
        ∃ what, (if b = true then Answer.raises (lit "Error") (lit "Internal error: napi_check_object_type_tag failed")
        else typeError "Argument error: invalid argument, expected hext.Html") = .raises (lit "Error") what := by
      cases b
      · exact .inl (refused_type _)
      · exact .inr ⟨_, rfl⟩
    cases a with
    | html i => exact absurd rfl (ha i)
    | rule _ => exact .inl (refused_type _)
    | object => exact .inl (refused_type _)
    | string _ => exact hif _
    | number _ => exact hif _
    | primitive => exact hif _

theorem passes_mapsReply (a : Answer (List (List (Text × Entry Text)))) : Passes a (mapsReply a) := by
  refine ⟨?_, ?_, ?_, ?_, ?_⟩ <;> intros <;> subst_vars <;> rfl

theorem passes_eq {a : Answer (List (List (Text × Entry Text)))} {r : Reply} (h : Passes a r) : r = mapsReply a := by
  obtain ⟨h1, h2, h3, h4, h5⟩ := h
  cases a with
  | value os => exact h1 os rfl
  | raises cls what => exact h2 cls what rfl
  | terminates => exact h3 rfl
  | crash => exact h4 rfl
  | hangs => exact h5 rfl

/-- One call: the reply is right, and afterwards the program knows again what the memory holds. -/
theorem step_right {k : Known} {s : NodeApi.State} (h : Knows N k s) (c : Call) (hc : CallOk k c) :
    Right N k c (perform N s c).1 ∧ (goesOn (perform N s c).1 = true → Knows N (k.after c (perform N s c).1) (perform N s c).2) := by
  cases c with
  | newHtml args =>
    match args with
    | [] => exact ⟨refused_type _, fun _ => h.failedHtml none⟩
    | .string text :: rest =>
      refine ⟨⟨s.fresh, rfl, h.newHtml _ (Nat.le_refl _)⟩, fun _ => ⟨fun i t hi => ?_, h.rule, fun i hi => ?_, fun i hi => ?_⟩⟩
      · simp only [Known.after, perform, NodeApi.newHtml] at hi ⊢
        simp only [put]
        by_cases he : i = s.fresh
        · rw [if_pos he] at hi ⊢
          cases hi; rfl
        · rw [if_neg he] at hi ⊢
          exact h.html i t hi
      · simp only [Known.after, perform, NodeApi.newHtml] at hi ⊢
        rw [if_neg (by omega)]
        exact h.newHtml i (by omega)
      · simp only [perform, NodeApi.newHtml] at hi
        exact h.newRule i (by omega)
    | .number _ :: _ => exact ⟨refused_type _, fun _ => h.failedHtml none⟩
    | .html _ :: _ => exact ⟨refused_type _, fun _ => h.failedHtml none⟩
    | .rule _ :: _ => exact ⟨refused_type _, fun _ => h.failedHtml none⟩
    | .object :: _ => exact ⟨refused_type _, fun _ => h.failedHtml none⟩
    | .primitive :: _ => exact ⟨refused_type _, fun _ => h.failedHtml none⟩
  | newRule args =>
    match args with
    | [] => exact ⟨refused_type _, fun _ => h.failedRule none⟩
    | .string hext :: rest =>
      simp only [perform, NodeApi.newRule, Right]
      cases hr : nodeRule N.rx N.charSigned hext with
      | value r =>
        have hm := nodeRule_value hr
        refine ⟨.inl ⟨s.fresh, r, rfl, h.newRule _ (Nat.le_refl _), hm⟩, fun _ => ⟨h.html, fun i t hi => ?_, fun i hi => ?_, fun i hi => ?_⟩⟩
        · simp only [Known.after] at hi ⊢
          simp only [put]
          by_cases he : i = s.fresh
          · rw [if_pos he] at hi ⊢
            cases hi
            exact ⟨r, rfl, hm⟩
          · rw [if_neg he] at hi ⊢
            exact h.rule i t hi
        · exact h.newHtml i (by simp only at hi; omega)
        · simp only [Known.after] at hi ⊢
          rw [if_neg (by omega)]
          exact h.newRule i (by omega)
      | raises cls what =>
        exact ⟨.inr ⟨nodeRule_other fun r => by rw [hr]; simp, .inl (nodeRule_class hr)⟩, fun _ => h.failedRule none⟩
      | terminates => exact ⟨.inr ⟨nodeRule_other fun r => by rw [hr]; simp, .inr rfl⟩, fun hg => by cases hg⟩
      | crash => exact ⟨.inr ⟨nodeRule_other fun r => by rw [hr]; simp, .inr rfl⟩, fun hg => by cases hg⟩
      | hangs => exact ⟨.inr ⟨nodeRule_other fun r => by rw [hr]; simp, .inr rfl⟩, fun hg => by cases hg⟩
    | .number _ :: _ => exact ⟨refused_type _, fun _ => h.failedRule none⟩
    | .html _ :: _ => exact ⟨refused_type _, fun _ => h.failedRule none⟩
    | .rule _ :: _ => exact ⟨refused_type _, fun _ => h.failedRule none⟩
    | .object :: _ => exact ⟨refused_type _, fun _ => h.failedRule none⟩
    | .primitive :: _ => exact ⟨refused_type _, fun _ => h.failedRule none⟩
  | extract this args =>
    refine ⟨?_, fun _ => h⟩
    obtain ⟨hthis, hargs⟩ := hc
    obtain ⟨hext, hk⟩ := Option.ne_none_iff_exists'.1 hthis
    obtain ⟨r, hr, hm⟩ := h.rule _ _ hk
    simp only [perform, NodeApi.extract, hr]
    match args, hargs with
    | [], _ => exact .inl (refused_type _)
    | .html i :: rest, hargs =>
      obtain ⟨text, ht⟩ := Option.ne_none_iff_exists'.1 (show k.htmls i ≠ none from hargs (.html i) (by simp))
      have hd := h.html _ _ ht
      match rest with
      | [] =>
        refine ⟨hext, text, r, hk, ht, hm, ?_⟩
        simp only [limitArg, extractFrom, hd]
        exact passes_mapsReply _
      | .number n :: _ =>
        refine ⟨hext, text, r, hk, ht, hm, ?_⟩
        simp only [limitArg, extractFrom, hd]
        exact passes_mapsReply _
      | .string _ :: _ => exact refused_type _
      | .html _ :: _ => exact refused_type _
      | .rule _ :: _ => exact refused_type _
      | .object :: _ => exact refused_type _
      | .primitive :: _ => exact refused_type _
    | .rule i :: rest, _ => exact extract_refused (by simp)
    | .object :: rest, _ => exact extract_refused (by simp)
    | .string x :: rest, _ => exact extract_refused (by simp)
    | .number x :: rest, _ => exact extract_refused (by simp)
    | .primitive :: rest, _ => exact extract_refused (by simp)
  | collectHtml i =>
    refine ⟨rfl, fun _ => ⟨fun j t hj => ?_, h.rule, fun j hj => ?_, h.newRule⟩⟩
    · simp only [Known.after, perform] at hj ⊢
      simp only [put]
      by_cases he : j = i
      · rw [if_pos he] at hj; cases hj
      · rw [if_neg he] at hj ⊢
        exact h.html j t hj
    · simp only [Known.after]
      split
      · rfl
      · exact h.newHtml j hj
  | collectRule i =>
    refine ⟨rfl, fun _ => ⟨h.html, fun j t hj => ?_, h.newHtml, fun j hj => ?_⟩⟩
    · simp only [Known.after, perform] at hj ⊢
      simp only [put]
      by_cases he : j = i
      · rw [if_pos he] at hj; cases hj
      · rw [if_neg he] at hj ⊢
        exact h.rule j t hj
    · simp only [Known.after]
      split
      · rfl
      · exact h.newRule j hj

theorem replies_right : ∀ (cs : List Call) {k : Known} {s : NodeApi.State}, Knows N k s → AllRight N k cs (replies N s cs)
  | [], _, _, _ => rfl
  | c :: cs, k, s, h => by
    intro hc
    obtain ⟨h1, h2⟩ := step_right h c hc
    refine ⟨(perform N s c).1, if goesOn (perform N s c).1 then replies N (perform N s c).2 cs else [], rfl, h1, ?_⟩
    by_cases hg : goesOn (perform N s c).1 = true
    · rw [if_pos hg, if_pos hg]
      exact replies_right cs (h2 hg)
    · rw [if_neg hg, if_neg hg]

/-- C85. Whatever calls a program of JavaScript makes, in whatever order and with whatever arguments, and whenever the garbage collector
finalises objects that the program no longer refers to: each reply is right. -/
theorem C85_node_programs (N : Host) (calls : List Call) : AllRight N .nothing calls (replies N .start calls) :=
  replies_right calls knows_start

/-- C85. What `extract` replies depends only on the texts that the rule and the document were made from, and on the limit: two programs,
or two places in one program, get the same reply. -/
theorem C85_same_reply {k k' : Known} {this this' i i' : Nat} {n : JsNumber} {rest rest' : List JsValue} {r r' : Reply}
    (h : Right N k (.extract this (.html i :: .number n :: rest)) r) (h' : Right N k' (.extract this' (.html i' :: .number n :: rest')) r')
    (hr : k.rules this = k'.rules this') (ht : k.htmls i = k'.htmls i') : r = r' := by
  obtain ⟨hext, text, rule, h1, h2, h3, h4⟩ := h
  obtain ⟨hext', text', rule', h1', h2', h3', h4'⟩ := h'
  cases passes_eq h4
  cases passes_eq h4'
  rw [h1, h1'] at hr
  rw [h2, h2'] at ht
  cases hr
  cases ht
  rw [C36_meaning_unique _ _ _ _ h3 h3']

/-- C85. What the reply to `extract` is, if the document that Gumbo makes of the text has the form of a tree, and the result has neither
NUL bytes nor bytes that are not UTF-8: the meaning of the hext on the document, one object for each map, with the names and values of
the map, in the order of C42. With a limit the reply may be an `Error` instead. -/
theorem C85_meaning {k : Known} {this i : Nat} {n : JsNumber} {rest : List JsValue} {r : Reply} {hext text : Str} {t : Tree}
    (h : Right N k (.extract this (.html i :: .number n :: rest)) r) (hr : k.rules this = some hext) (ht : k.htmls i = some text)
    (hl : NoLong (cstr hext)) (hd : IsDocument (N.gumbo text).1 1147483648 t) (hroot : (N.gumbo text).2 = t.ptr) :
    ∃ rule res, Syn.Means N.rx (cstr hext) rule ∧ IsOutcome N.rx (fun _ => none) rule (Loc.root t) res ∧
      ((∃ os, r = .value (.maps os) ∧ os.length = res.length ∧
          ∀ x ∈ res.zip os, NoNul x.1 → IsUtf8 x.1 → (∀ p ∈ x.1, p.1 ≠ lit "__proto__") →
            ∃ o o', Presents x.1 o ∧ IsTextOf o o' ∧ x.2.Perm o' ∧ ((∀ p ∈ x.1, ∃ b ∈ p.1, ¬ (48 ≤ b ∧ b ≤ 57)) → x.2 = o')) ∨
        (nodeLimit n ≠ 0 ∧ ∃ what, r = .raises (lit "Error") what)) := by
  obtain ⟨hext', text', rule, h1, h2, h3, h4⟩ := h
  cases passes_eq h4
  rw [hr] at h1
  rw [ht] at h2
  cases h1
  cases h2
  have hp := (C36_parse_iff N.rx N.charSigned _ _).2 h3
  obtain ⟨res, ho, _⟩ := C63_total hl hp hd
  have he := (extract_outcome (h := (N.gumbo text).1) (n := 1147483648) (by decide) (parse_safe hl hp) (parse_words hp)
    (l := Loc.root t) hd res).2 (outcome_heap (parse_builtin hp) ho)
  obtain ⟨res', g1, _, g2⟩ := extract_result (rx := N.rx) (n := 1147483648) (by decide) (parse_safe hl hp) (l := Loc.root t) hd
  have e := g2 0
  rw [he] at e
  simp only [ne_eq, not_true_eq_false, false_and, if_false] at e
  have e := E.pure_inj e
  subst e
  refine ⟨rule, res, h3, ho, ?_⟩
  rw [hroot]
  rcases C55_node_extract N.js hl hp hd n with ⟨res', os, e1, e2, e3, e4⟩ | ⟨e1, e2, what, e3⟩
  · have e5 := g2 (nodeLimit n)
    have e1' : extract N.rx (N.gumbo text).1 rule (Loc.root t).ptr (nodeLimit n) = pure res' := e1
    rw [e1'] at e5
    split at e5
    · exact (pure_ne_throw e5).elim
    have e5 := E.pure_inj e5
    subst e5
    refine .inl ⟨os, by rw [e2]; rfl, e3, fun x hx hn hu hp' => ?_⟩
    obtain ⟨gs, ms', _, hms, hres⟩ := extract_isResult (l := Loc.root t) (n := 1147483648) (by decide) (parse_safe hl hp) hd he
    have hm : x.1 ∈ res' := (List.of_mem_zip hx).1
    rw [hres] at hm
    obtain ⟨g', _, vs, _, him⟩ := hms.mem (List.mem_filter.1 hm).1
    obtain ⟨o, o', a1, a2, _, _, _, _, a3⟩ := C42_presented_alike_partial him hn hu
    obtain ⟨d, b1, b2⟩ := a3 N.js
    have b3 := e4 x hx
    rw [b1] at b3
    have b3 : d = x.2 := by injection b3 with b3; injection b3
    obtain ⟨b4, b5⟩ := b2 hp'
    exact ⟨o, o', a1, a2, b3 ▸ b4, fun hb => b3 ▸ b5 hb⟩
  · exact .inr ⟨e1, what, by rw [e3]; rfl⟩

/-- C85. The limit is exact: for every rule and document there is a number of searches. A limit up to this number (and below 2^32, see C45)
raises an exception that says so; with every other limit below 2^32 the reply is the one without limit. -/
theorem C85_limit {hext text : Str} {t : Tree} (hl : NoLong (cstr hext)) (hd : IsDocument (N.gumbo text).1 1147483648 t)
    (hroot : (N.gumbo text).2 = t.ptr) :
    ∃ most : Nat, ∀ {k k' : Known} {this this' i i' n : Nat} {rest : List JsValue} {r r0 : Reply}, n < 4294967296 →
      k.rules this = some hext → k.htmls i = some text → k'.rules this' = some hext → k'.htmls i' = some text →
      Right N k (.extract this (.html i :: .number (.int n) :: rest)) r → Right N k' (.extract this' [.html i']) r0 →
      r = if 1 ≤ n ∧ n ≤ most then .raises (lit "Error") (lit "Error: The allowed amount of searches was exhausted") else r0 := by
  by_cases hm : ∃ rule, Syn.Means N.rx (cstr hext) rule
  · obtain ⟨rule, hm⟩ := hm
    have hp := (C36_parse_iff N.rx N.charSigned _ _).2 hm
    obtain ⟨most, res, _, g1, g2⟩ := max_searches_exact (rx := N.rx) (n := 1147483648) (by decide) (parse_safe hl hp) (l := Loc.root t) hd
    refine ⟨most, fun {k k' this this' i i' n rest r r0} hn e1 e2 e3 e4 h h0 => ?_⟩
    obtain ⟨hx, tx, rule1, a1, a2, a3, a4⟩ := h
    obtain ⟨hx', tx', rule2, b1, b2, b3, b4⟩ := h0
    rw [e1] at a1; rw [e2] at a2; rw [e3] at b1; rw [e4] at b2
    cases a1; cases a2; cases b1; cases b2
    cases C36_meaning_unique _ _ _ _ hm a3
    cases C36_meaning_unique _ _ _ _ hm b3
    rw [passes_eq a4, passes_eq b4, hroot]
    have hN := C45_node_limit_partial n hn
    have h0 : nodeLimit (.int 0) = 0 := UInt64.toNat_inj.1 (C45_node_limit_partial 0 (by decide))
    have g3 := g2 (nodeLimit (.int n))
    rw [hN] at g3
    by_cases hc : 1 ≤ n ∧ n ≤ most
    · rw [if_pos hc] at g3
      rw [if_pos hc, nodeExtract, show extract N.rx (N.gumbo text).1 rule t.ptr (nodeLimit (.int n)) = _ from g3]
      rfl
    · rw [if_neg hc] at g3
      rw [if_neg hc, nodeExtract, nodeExtract, show extract N.rx (N.gumbo text).1 rule t.ptr (nodeLimit (.int n)) = _ from g3,
        h0, show extract N.rx (N.gumbo text).1 rule t.ptr 0 = _ from g1]
  · refine ⟨0, fun {k k' this this' i i' n rest r r0} hn e1 e2 e3 e4 h h0 => ?_⟩
    obtain ⟨hx', tx', rule2, b1, b2, b3, b4⟩ := h0
    rw [e3] at b1
    cases b1
    exact absurd ⟨_, b3⟩ hm

/-- The hexts of the rules that a program makes are such that C55 applies. -/
def PlainCalls (N : Host) (calls : List Call) : Prop :=
  ∀ hext rest, Call.newRule (.string hext :: rest) ∈ calls → HextPlain N.charSigned (cstr hext)

theorem goesOn_of {k : Known} {s : NodeApi.State} {c : Call} (h : Knows N k s) (hc : CallOk k c)
    (hg : ∀ text, ∃ t, IsDocument (N.gumbo text).1 1147483648 t ∧ (N.gumbo text).2 = t.ptr)
    (hk : ∀ i hext, k.rules i = some hext → HextPlain N.charSigned (cstr hext))
    (hp : ∀ hext rest, c = .newRule (.string hext :: rest) → HextPlain N.charSigned (cstr hext)) : goesOn (perform N s c).1 = true := by
  have hr := (step_right h c hc).1
  have refused {r : Reply} (h : Refused r) : goesOn r = true := by obtain ⟨_, rfl⟩ := h; rfl
  have extracts {this i : Nat} {n : JsNumber} {r : Reply} (h : Right.Extracts N k r this i n) : goesOn r = true := by
    obtain ⟨hext, text, rule, h1, h2, h3, h4⟩ := h
    cases passes_eq h4
    obtain ⟨t, ht, he⟩ := hg text
    rw [he]
    rcases C55_node_extract (charSigned := N.charSigned) N.js (hk _ _ h1).1 ((C36_parse_iff _ N.charSigned _ _).2 h3) ht n with
      ⟨_, os, _, e, _⟩ | ⟨_, _, what, e⟩ <;> rw [e] <;> rfl
  cases c with
  | newHtml args =>
    match args with
    | [] => rfl
    | .string text :: rest => rfl
    | .number _ :: _ => rfl
    | .html _ :: _ => rfl
    | .rule _ :: _ => rfl
    | .object :: _ => rfl
    | .primitive :: _ => rfl
  | newRule args =>
    match args with
    | [] => rfl
    | .string hext :: rest =>
      simp only [perform, NodeApi.newRule]
      rcases C55_node_rule_partial N.rx (hp hext rest rfl) with ⟨r, e, _⟩ | ⟨what, e, _⟩ <;> rw [e] <;> rfl
    | .number _ :: _ => rfl
    | .html _ :: _ => rfl
    | .rule _ :: _ => rfl
    | .object :: _ => rfl
    | .primitive :: _ => rfl
  | extract this args =>
    have other {r : Reply} (h : Refused r ∨ ∃ what, r = .raises (lit "Error") what) : goesOn r = true := by
      rcases h with h | ⟨_, rfl⟩
      · exact refused h
      · rfl
    match args, hr with
    | [], hr => exact other hr
    | .string text :: rest, hr => exact other hr
    | .number _ :: _, hr => exact other hr
    | .rule _ :: _, hr => exact other hr
    | .object :: _, hr => exact other hr
    | .primitive :: _, hr => exact other hr
    | .html i :: [], hr => exact extracts hr
    | .html i :: .number n :: _, hr => exact extracts hr
    | .html i :: .string _ :: _, hr => exact refused hr
    | .html i :: .html _ :: _, hr => exact refused hr
    | .html i :: .rule _ :: _, hr => exact refused hr
    | .html i :: .object :: _, hr => exact refused hr
    | .html i :: .primitive :: _, hr => exact refused hr
  | collectHtml i => rfl
  | collectRule i => rfl

theorem replies_all : ∀ (cs : List Call) {k : Known} {s : NodeApi.State}, Knows N k s →
    (∀ text, ∃ t, IsDocument (N.gumbo text).1 1147483648 t ∧ (N.gumbo text).2 = t.ptr) →
    (∀ i hext, k.rules i = some hext → HextPlain N.charSigned (cstr hext)) → PlainCalls N cs → AllOk N k cs (replies N s cs) →
    (replies N s cs).length = cs.length ∧ ∀ r ∈ replies N s cs, goesOn r = true
  | [], _, _, _, _, _, _, _ => ⟨rfl, by simp [replies]⟩
  | c :: cs, k, s, h, hg, hk, hp, hok => by
    have hstep : replies N s (c :: cs) = (perform N s c).1 :: if goesOn (perform N s c).1 then replies N (perform N s c).2 cs else [] := rfl
    rw [hstep] at hok ⊢
    obtain ⟨hc, hok⟩ := hok
    have h1 := goesOn_of h hc hg hk fun hext rest e => hp hext rest (by simp [e])
    rw [if_pos h1] at hok ⊢
    have hk' : ∀ i hext, (k.after c (perform N s c).1).rules i = some hext → HextPlain N.charSigned (cstr hext) := by
      intro i hext hi
      unfold Known.after at hi
      split at hi
      · exact hk i hext hi
      · simp only at hi
        split at hi
        · cases hi
          exact hp _ _ (List.mem_cons_self ..)
        · exact hk i hext hi
      · exact hk i hext hi
      · simp only at hi
        split at hi
        · cases hi
        · exact hk i hext hi
      · exact hk i hext hi
    obtain ⟨h2, h3⟩ := replies_all cs ((step_right h c hc).2 h1) hg hk' (fun hext rest hm => hp hext rest (by simp [hm])) hok
    refine ⟨by simp [h2], ?_⟩
    intro r hr
    rcases List.mem_cons.1 hr with rfl | hr
    · exact h1
    · exact h3 r hr

/-- C85. If the documents are such as Gumbo makes them, and the hexts are plain (`HextPlain`; C55 shows why), then no sequence of calls
ends the process: each call gets a value or an exception of JavaScript. -/
theorem C85_never_ends (N : Host) (calls : List Call) (hg : ∀ text, ∃ t, IsDocument (N.gumbo text).1 1147483648 t ∧ (N.gumbo text).2 = t.ptr)
    (hp : PlainCalls N calls) (hok : AllOk N .nothing calls (replies N .start calls)) :
    (replies N .start calls).length = calls.length ∧ ∀ r ∈ replies N .start calls, goesOn r = true :=
  replies_all calls knows_start hg (fun i hext h => by simp [Known.nothing] at h) hp hok

/-! ## A program -/

/-- Every text is taken for the example document. -/
def exHost (js : Js) : Host where
  rx := Ex.rx
  charSigned := true
  js := js
  gumbo := fun _ => (Ex.heap, Ex.doc.ptr)
  tagCheckFails := fun _ => false

/-- A document and a rule are made, and the wrong argument `5` is refused. The rule is applied, the document is collected, and the rule is
applied to another document. -/
def exCalls : List Call :=
  [.newHtml [.string (lit "<html>")], .newRule [.string (lit "<a href:x/>")], .extract 1 [.number (.int 5)],
    .extract 1 [.html 0], .collectHtml 0, .newHtml [], .newHtml [.string (lit "<p>")], .extract 1 [.html 3, .number (.int 1000)]]

theorem exCalls_extract (js : Js) : ∃ os, nodeExtract Ex.rx js Ex.heap hrefRule Ex.doc.ptr (.int 0) = .value os ∧
    nodeExtract Ex.rx js Ex.heap hrefRule Ex.doc.ptr (.int 1000) = .value os := by
  have hs := extract_eq (rx := Ex.rx) (h := Ex.heap) (n := 1147483648) (by decide) href_safe (l := Loc.root Ex.doc)
    (isDocument_of_ok (by decide +kernel))
  have e : (Loc.root Ex.doc).ptr = Ex.doc.ptr := rfl
  have h0 : extract Ex.rx Ex.heap hrefRule Ex.doc.ptr 0 = pure [[(lit "x", lit "1")], [(lit "x", lit "2")]] := by
    rw [← e, hs]; decide +kernel
  have h1 : extract Ex.rx Ex.heap hrefRule Ex.doc.ptr 1000 = pure [[(lit "x", lit "1")], [(lit "x", lit "2")]] := by
    rw [← e, hs]; decide +kernel
  obtain ⟨os, ho⟩ := nodeResult_returns js (res := [[(lit "x", lit "1")], [(lit "x", lit "2")]]) (by unfold KeySorted; decide)
  refine ⟨os, ?_, ?_⟩
  · unfold nodeExtract
    rw [show nodeLimit (.int 0) = 0 by decide, h0]
    simp only [pure, ExceptT.pure, ExceptT.mk]
    rw [ho]; rfl
  · unfold nodeExtract
    rw [show nodeLimit (.int 1000) = 1000 by decide, h1]
    simp only [pure, ExceptT.pure, ExceptT.mk]
    rw [ho]; rfl

/-- The replies to the program: both extractions give the same objects. -/
theorem exCalls_replies (js : Js) : ∃ os, replies (exHost js) .start exCalls =
    [.value (.html 0), .value (.rule 1), typeError "Argument error: invalid argument, expected hext.Html", .value (.maps os), .value .nothing,
      typeError "Argument error: invalid argument, expected String", .value (.html 3), .value (.maps os)] := by
  obtain ⟨os, h0, h1⟩ := exCalls_extract js
  have hr : nodeRule Ex.rx true (lit "<a href:x/>") = .value hrefRule := by
    unfold nodeRule parseHextC
    rw [show cstr (lit "<a href:x/>") = lit "<a href:x/>" by decide, href_parsed]
  refine ⟨os, ?_⟩
  simp [exCalls, replies, perform, NodeApi.newHtml, NodeApi.newRule, NodeApi.extract, extractFrom, limitArg, exHost, hr, goesOn, State.start, put,
    mapsReply, h0, h1, typeError]

/-- The hypotheses of C85 are met by this program. -/
example (js : Js) : (∀ text, ∃ t, IsDocument ((exHost js).gumbo text).1 1147483648 t ∧ ((exHost js).gumbo text).2 = t.ptr) ∧
    PlainCalls (exHost js) exCalls ∧ AllOk (exHost js) .nothing exCalls (replies (exHost js) .start exCalls) := by
  obtain ⟨os, h⟩ := exCalls_replies js
  refine ⟨fun _ => ⟨Ex.doc, isDocument_of_ok (by decide +kernel), rfl⟩, ?_, ?_⟩
  · intro hext rest hm
    simp [exCalls] at hm
    rw [hm.1, show cstr (lit "<a href:x/>") = lit "<a href:x/>" by decide]
    exact ⟨noLong_of_few (by decide), charSafe_ascii fun _ => by decide, by decide⟩
  · rw [h]
    simp [exCalls, AllOk, CallOk, ValueOk, Known.after, Known.nothing, typeError]

/-- The hypotheses of `C85_meaning` are met. -/
example (js : Js) : ∃ k r, Right (exHost js) k (.extract 1 [.html 0, .number (.int 1000)]) r ∧ k.rules 1 = some (lit "<a href:x/>") ∧
    k.htmls 0 = some [] ∧ NoLong (cstr (lit "<a href:x/>")) ∧ IsDocument ((exHost js).gumbo []).1 1147483648 Ex.doc := by
  have e : cstr (lit "<a href:x/>") = lit "<a href:x/>" := by decide
  refine ⟨⟨fun _ => some [], fun _ => some (lit "<a href:x/>")⟩, _, ⟨_, _, hrefRule, rfl, rfl, ?_, passes_mapsReply _⟩, rfl, rfl, ?_,
    isDocument_of_ok (by decide +kernel)⟩
  · rw [e]; exact (C36_parse_iff _ true _ _).1 (href_parsed _ _)
  · rw [e]; exact noLong_of_few (by decide)

end Hext.Props
