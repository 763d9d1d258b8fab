import Verif.Spec.Scripts
import Verif.Proofs.Utf8Order
import Verif.Props.Calls
import Verif.Props.CliMeaning
import Verif.Proofs.ScriptText
/-!
# The scripts htmlext.py, htmlext.php, htmlext.js and htmlext.rb (C75)
-/

namespace Hext.Props

open Binding Script Cli

section
variable {rx : RxEngine} {charSigned : Bool} {gumbo : Str → Heap × Ptr} {files : Str → Option Str} {f g : Str}
  {res : List (List (Str × Str))}

/-! ## Printing -/

theorem print_json {α : Type} {text : α → Option Str} : ∀ {res : List (List (Str × Str))} {as : List α} (out : Str),
    as.length = res.length →
    (∀ x ∈ res.zip as, ∃ o s, text x.2 = some s ∧ (10 : Byte) ∉ s ∧ Presents x.1 o ∧ JText (objectJson o) s) →
    ∃ out', printLoop text out as = .exit 0 (out ++ out') ∧ JsonPerLine res out'
  | [], [], out, _, _ => ⟨[], by simp [printLoop], .nil⟩
  | [], _ :: _, _, h, _ => by cases h
  | _ :: _, [], _, h, _ => by cases h
  | m :: res, a :: as, out, hl, h => by
    obtain ⟨o, s, h1, h2, h3, h4⟩ := h (m, a) (by simp)
    obtain ⟨out', h5, h6⟩ := print_json (text := text) (res := res) (as := as) (out ++ s ++ [10]) (by simpa using hl)
      fun x hx => h x (by rw [List.zip_cons_cons]; exact List.mem_cons_of_mem _ hx)
    refine ⟨s ++ 10 :: out', ?_, .cons h2 h3 h4 h6⟩
    rw [printLoop]
    simp only at h1
    rw [h1]
    simp only
    rw [h5]
    simp

theorem insertName_end {ν : Type} (x : Text × ν) : ∀ l : List (Text × ν), (∀ y ∈ l, ¬ x.1 < y.1) → insertName x l = l ++ [x]
  | [], _ => rfl
  | y :: l, h => by
    rw [insertName, if_neg (h y (by simp)), insertName_end x l fun z hz => h z (by simp [hz])]
    rfl

/-- Items in order stay as they are. -/
theorem sortNames_eq {ν : Type} {d : List (Text × ν)} (h : d.Pairwise fun x y => x.1 < y.1) : sortNames d = d := by
  have key : ∀ (d l : List (Text × ν)), (l ++ d).Pairwise (fun x y => x.1 < y.1) → d.foldl (fun l x => insertName x l) l = l ++ d := by
    intro d
    induction d with
    | nil => intro l _; simp
    | cons x d ih =>
      intro l hl
      rw [List.foldl_cons, insertName_end x l, ih]
      · simp
      · simpa using hl
      · intro y hy hlt
        have := (List.pairwise_append.1 hl).2.2 y hy x (by simp)
        exact List.lt_irrefl _ (List.lt_trans hlt this)
  exact key d [] (by simpa using h)

theorem isTextOf_sorted : ∀ {o : List (Str × Entry Str)} {t : List (Text × Entry Text)}, IsTextOf o t →
    (o.map (·.1)).Pairwise (· < ·) → t.Pairwise fun x y => x.1 < y.1
  | _, _, .nil, _ => .nil
  | _, _, .cons (k := k) hk he h, hp => by
    rw [List.map_cons, List.pairwise_cons] at hp
    refine .cons (fun y hy => ?_) (isTextOf_sorted h hp.2)
    have : ∀ {o : List (Str × Entry Str)} {t : List (Text × Entry Text)}, IsTextOf o t → ∀ y ∈ t, ∃ x ∈ o, IsUtf8Of x.1 y.1 := by
      intro o t h
      induction h with
      | nil => simp
      | cons hk he h ih =>
        intro y hy
        rcases List.mem_cons.1 hy with rfl | hy
        · exact ⟨_, List.mem_cons_self .., hk⟩
        · obtain ⟨x, hx, hu⟩ := ih y hy
          exact ⟨x, List.mem_cons_of_mem _ hx, hu⟩
    obtain ⟨x, hx, hu⟩ := this h y hy
    exact (text_lt_iff hk hu).2 (hp.1 _ (List.mem_map_of_mem hx))

/-! ## Reading -/

theorem pyRead_eq {s : Str} (h : files f = some s) (hu : TextFile files f) (hc : (13 : Byte) ∉ s) : pyRead files f = some s := by
  obtain ⟨t, ht⟩ := hu s h
  rw [pyRead, h]
  simp only
  rw [utf8_iff.2 ht]
  simp only
  rw [newlines_eq hc]

theorem enc'_eq : nodeRead.enc' = enc := rfl

theorem nodeRead_eq {js : Js} {s : Str} (h : files f = some s) (hu : TextFile files f) : nodeRead files js f = some s := by
  obtain ⟨t, ht⟩ := hu s h
  rw [nodeRead, h, Option.map_some, js.strict s t (utf8_iff.2 ht), enc'_eq, ← ht.2]

/-! ## The outcome -/

/-- What `Asks` says about the code. -/
theorem asks_runs (charSigned : Bool) (h : Asks rx gumbo files f g res) : ∃ hext html r t, files f = some hext ∧ files g = some html ∧ NoLong hext ∧
    parseHext rx charSigned hext = .ok r ∧ IsDocument (gumbo html).1 1147483648 t ∧ t.ptr = (gumbo html).2 ∧
    (∀ ms, (extract rx (gumbo html).1 r t.ptr ms = pure res) ∨ (ms ≠ 0 ∧ extract rx (gumbo html).1 r t.ptr ms = throw .maxSearch)) ∧
    (∀ m ∈ res, m ≠ [] ∧ KeySorted m ∧ NoNul m ∧ IsUtf8 m) := by
  obtain ⟨hext, html, r, t, h1, h2, h3, h4, h5, h6, h7, h8⟩ := h
  have hp := (C36_parse_iff rx charSigned hext r).2 h4
  have he := (extract_outcome (h := (gumbo html).1) (n := 1147483648) (by decide) (parse_safe h3 hp) (parse_words hp) (l := Loc.root t) h5 res).2
    (outcome_heap (parse_builtin hp) h7)
  refine ⟨hext, html, r, t, h1, h2, h3, hp, h5, h6, fun ms => ?_, fun m hm => ?_⟩
  · obtain ⟨res', g1, _, g2⟩ := extract_result (rx := rx) (n := 1147483648) (by decide) (parse_safe h3 hp) (l := Loc.root t) h5
    have e := g2 0
    rw [he] at e
    simp only [ne_eq, not_true_eq_false, false_and, if_false] at e
    have e := E.pure_inj e
    subst e
    have e := g2 ms
    split at e
    · next hc => exact .inr ⟨hc.1, e⟩
    · exact .inl e
  · obtain ⟨gs, ms', _, hms, hr⟩ := extract_isResult (l := Loc.root t) (n := 1147483648) (by decide) (parse_safe h3 hp) h5 he
    rw [hr] at hm
    obtain ⟨hm1, hm2⟩ := List.mem_filter.1 hm
    obtain ⟨g', _, vs, _, him⟩ := hms.mem hm1
    exact ⟨by simpa using hm2, him.1, h8 m (hr ▸ hm)⟩

theorem wrapperRule_ok {hext : Str} {r : Rule} (h : parseHext rx charSigned hext = .ok r) : wrapperRule rx charSigned hext = .value r := by
  rw [wrapperRule, h]

theorem pure_ne_throw {α : Type} {a : α} {e : Err} (h : (pure a : E α) = throw e) : False := by
  injection h with h; injection h

theorem not_tooMany {hext html : Str} {r : Rule} (h1 : files f = some hext) (h2 : files g = some html)
    (h4 : parseHext rx charSigned hext = .ok r) (he : extract rx (gumbo html).1 r (gumbo html).2 10000 = pure res) :
    ¬ TooMany rx charSigned gumbo files f g := by
  rintro ⟨hext', html', r', g1, g2, g3, g4⟩
  rw [h1] at g1; rw [h2] at g2
  injection g1 with g1; injection g2 with g2
  subst g1 g2
  rw [h4] at g3
  injection g3 with g3
  subst g3
  rw [he] at g4
  exact pure_ne_throw g4

/-! ## The scripts -/

/-- C75, Ruby. The script prints the outcome of the rule, one JSON object for each line. -/
theorem C75_ruby (h : Asks rx gumbo files f g res) {toJson : List (Str × Entry Str) → Option Str} (hj : WritesObject toJson)
    (usage : Str) (rest : List Str) :
    ∃ out, ruby rx charSigned gumbo files toJson usage (f :: g :: rest) = .exit 0 out ∧ JsonPerLine res out := by
  obtain ⟨hext, html, r, t, h1, h2, h3, h4, h5, h6, h7, h8⟩ := asks_runs charSigned h
  have he : extract rx (gumbo html).1 r t.ptr 0 = pure res := (h7 0).resolve_right fun x => x.1 rfl
  rcases C55_ruby_extract h3 h4 h5 0 with ⟨res', os, g1, g2, g3⟩ | ⟨g1, _⟩
  · rw [he] at g1
    have e := E.pure_inj g1
    subst e
    obtain ⟨out, p1, p2⟩ := print_json (text := toJson) (res := res) (as := os) [] g3.1 fun x hx => by
      have ho := g3.2 x hx
      have hm := h8 x.1 (List.of_mem_zip hx).1
      obtain ⟨s, s1, s2, s3⟩ := hj x.2 ⟨_, presents_isText ho hm.2.2.2⟩
      exact ⟨x.2, s, s1, s3, ho, s2⟩
    refine ⟨out, ?_, p2⟩
    rw [ruby, h1]
    simp only
    rw [h2]
    simp only
    rw [wrapperRule_ok h4, guarded]
    rw [← h6, g2, guarded]
    rw [p1, List.nil_append]
  · exact absurd rfl g1

/-- C75, Python. For files that are UTF-8 without carriage returns, the script prints the outcome of the rule, one JSON object for
each line, unless ten thousand searches are not enough: then it exits with code 1 and prints nothing. -/
theorem C75_python_partial (h : Asks rx gumbo files f g res) {dumps : List (Text × Entry Text) → Str} (hj : WritesText dumps)
    (hu : TextFile files f) (hu' : TextFile files g) (hc : ∀ s, files f = some s → (13 : Byte) ∉ s)
    (hc' : ∀ s, files g = some s → (13 : Byte) ∉ s) (usage : Str) (rest : List Str) :
    (¬ TooMany rx charSigned gumbo files f g ∧
        ∃ out, python rx charSigned gumbo files dumps usage (f :: g :: rest) = .exit 0 out ∧ JsonPerLine res out) ∨
      (TooMany rx charSigned gumbo files f g ∧ python rx charSigned gumbo files dumps usage (f :: g :: rest) = .exit 1 []) := by
  obtain ⟨hext, html, r, t, h1, h2, h3, h4, h5, h6, h7, h8⟩ := asks_runs charSigned h
  have hrun : python rx charSigned gumbo files dumps usage (f :: g :: rest) =
      guarded (· == lit "RuntimeError") (pyExtract rx (gumbo html).1 r t.ptr 10000) fun result =>
            printLoop (fun map => some (dumps (sortNames map))) [] result := by
    rw [python, pyRead_eq h1 hu (hc _ h1)]
    simp only
    rw [pyRead_eq h2 hu' (hc' _ h2)]
    simp only
    rw [wrapperRule_ok h4, guarded, h6]
  rcases C55_python_extract h3 h4 h5 10000 with ⟨res', ts, g1, g2, g3⟩ | ⟨_, g1, g2⟩ | ⟨res', m, g1, g2, g3, _⟩
  · rcases h7 10000 with he | ⟨_, he⟩
    · rw [he] at g1
      have e := E.pure_inj g1
      subst e
      obtain ⟨l1, l2⟩ := g3 fun m hm => ⟨(h8 m hm).2.2.1, (h8 m hm).2.2.2⟩
      obtain ⟨out, p1, p2⟩ := print_json (text := fun map => some (dumps (sortNames map))) (res := res) (as := ts) [] l1 fun x hx => by
        obtain ⟨o, ho, ht⟩ := l2 x hx
        obtain ⟨s1, s2⟩ := hj _ _ ht
        exact ⟨o, _, by rw [sortNames_eq (isTextOf_sorted ht ho.1)], s2, ho, s1⟩
      refine .inl ⟨not_tooMany h1 h2 h4 (h6 ▸ he), out, ?_, p2⟩
      rw [hrun, g2, guarded]
      rw [p1, List.nil_append]
    · rw [he] at g1; exact (pure_ne_throw g1.symm).elim
  · refine .inr ⟨⟨hext, html, r, h1, h2, h4, h6 ▸ g1⟩, ?_⟩
    rw [hrun, g2, limitRaised, guarded, if_pos (by decide)]
  · rcases h7 10000 with he | ⟨_, he⟩
    · rw [he] at g1
      have e := E.pure_inj g1
      subst e
      exact absurd ⟨(h8 m g2).2.2.1, (h8 m g2).2.2.2⟩ g3
    · rw [he] at g1; exact (pure_ne_throw g1.symm).elim

/-- C75, Python, with carriage returns. The script reads every line break as a line feed: for files that are UTF-8 it prints the
outcome of the rule and the document that the files have with line feeds for all line breaks. -/
theorem C75_python_breaks {files' : Str → Option Str} (hb : SameButLineBreaks files files') (h : Asks rx gumbo files' f g res)
    {dumps : List (Text × Entry Text) → Str} (hj : WritesText dumps)
    (hu : TextFile files f) (hu' : TextFile files g) (usage : Str) (rest : List Str) :
    (¬ TooMany rx charSigned gumbo files' f g ∧
        ∃ out, python rx charSigned gumbo files dumps usage (f :: g :: rest) = .exit 0 out ∧ JsonPerLine res out) ∨
      (TooMany rx charSigned gumbo files' f g ∧ python rx charSigned gumbo files dumps usage (f :: g :: rest) = .exit 1 []) := by
  have e : python rx charSigned gumbo files dumps usage (f :: g :: rest) =
      python rx charSigned gumbo files' dumps usage (f :: g :: rest) := by
    rw [python, python, pyRead_breaks hb hu, pyRead_breaks hb hu']
  rw [e]
  have hc : ∀ f s, files' f = some s → (13 : Byte) ∉ s := by
    intro f s hs
    have := hb f
    rw [hs] at this
    cases hf : files f with
    | none => simp [hf] at this
    | some s' => simp only [hf] at this; exact this.no_cr
  exact C75_python_partial h hj (textFile_breaks hb hu) (textFile_breaks hb hu') (hc f) (hc g) usage rest

/-- C75, PHP. The same, for files of any bytes, if the names of no group are 0, 1 and so on. -/
theorem C75_php_partial (h : Asks rx gumbo files f g res) {J : PhpJson} (hj : WritesObject J.object)
    (h0 : ∀ m ∈ res, ¬ ListNames m) (usage : Str) (rest : List Str) :
    (¬ TooMany rx charSigned gumbo files f g ∧
        ∃ out, php rx charSigned gumbo files J usage (f :: g :: rest) = .exit 0 out ∧ JsonPerLine res out) ∨
      (TooMany rx charSigned gumbo files f g ∧ php rx charSigned gumbo files J usage (f :: g :: rest) = .exit 1 []) := by
  obtain ⟨hext, html, r, t, h1, h2, h3, h4, h5, h6, h7, h8⟩ := asks_runs charSigned h
  have hrun : php rx charSigned gumbo files J usage (f :: g :: rest) =
      guarded (fun _ => true) (phpExtract rx (gumbo html).1 r t.ptr 10000) fun result =>
            printLoop (fun map => some (phpEncode J map)) [] result := by
    rw [php, h1, h2]
    simp only
    rw [wrapperRule_ok h4, guarded, h6]
  rcases C55_php_extract h3 h4 h5 10000 with ⟨res', ts, g1, g2, g3⟩ | ⟨_, g1, g2⟩
  · rcases h7 10000 with he | ⟨_, he⟩
    · rw [he] at g1
      have e := E.pure_inj g1
      subst e
      obtain ⟨l1, l2⟩ := g3 fun m hm => (h8 m hm).2.2.1
      obtain ⟨out, p1, p2⟩ := print_json (text := fun map => some (phpEncode J map)) (res := res) (as := ts) [] l1 fun x hx => by
        obtain ⟨o, ho, ht⟩ := l2 x hx
        have hx1 := (List.of_mem_zip hx).1
        obtain ⟨m1, m2, m3, m4⟩ := h8 x.1 hx1
        obtain ⟨s, s1, s2, s3⟩ := hj o ⟨_, presents_isText ho m4⟩
        refine ⟨o, s, ?_, s3, ho, s2⟩
        have hk : keysFrom 0 x.2 = false := by
          rw [Bool.eq_false_iff]
          exact fun e => h0 x.1 hx1 ((keysFrom_listNames m2 ho ht).1 e)
        rw [phpEncode, hk]
        simp only [Bool.false_eq_true, if_false]
        have e1 : x.2.map (fun x => (keyText x.1, x.2)) = o := ht.1
        rw [e1, s1]
        rfl
      refine .inl ⟨not_tooMany h1 h2 h4 (h6 ▸ he), out, ?_, p2⟩
      rw [hrun, g2, guarded]
      rw [p1, List.nil_append]
    · rw [he] at g1; exact (pure_ne_throw g1.symm).elim
  · refine .inr ⟨⟨hext, html, r, h1, h2, h4, h6 ▸ g1⟩, ?_⟩
    rw [hrun, g2, limitRaised, guarded, if_pos (by decide)]

/-- C75, Node. The same, for files that are UTF-8 and a hext without NUL, if no name is `__proto__` or a number. -/
theorem C75_node_partial (h : Asks rx gumbo files f g res) {js : Js} {stringify : List (Text × Entry Text) → Str} (hj : WritesText stringify)
    (hu : TextFile files f) (hu' : TextFile files g) (h0 : ∀ s, files f = some s → (0 : Byte) ∉ s)
    (hp : ∀ m ∈ res, ∀ p ∈ m, p.1 ≠ lit "__proto__" ∧ ∃ b ∈ p.1, ¬ (48 ≤ b ∧ b ≤ 57)) (usage : Str) (rest : List Str) :
    (¬ TooMany rx charSigned gumbo files f g ∧
        ∃ out, node rx charSigned gumbo files js stringify usage (f :: g :: rest) = .exit 0 out ∧ JsonPerLine res out) ∨
      (TooMany rx charSigned gumbo files f g ∧ node rx charSigned gumbo files js stringify usage (f :: g :: rest) = .exit 1 []) := by
  obtain ⟨hext, html, r, t, h1, h2, h3, h4, h5, h6, h7, h8⟩ := asks_runs charSigned h
  have hr : nodeRule rx charSigned hext = .value r := by rw [nodeRule, parseHextC, cstr_eq (h0 _ h1), h4]
  have hl : nodeLimit (.int 10000) = 10000 := by decide
  have hrun : node rx charSigned gumbo files js stringify usage (f :: g :: rest) =
      guarded (fun _ => true) (nodeExtract rx js (gumbo html).1 r t.ptr (.int 10000)) fun result =>
            printLoop (fun map => some (stringify map)) [] result := by
    rw [node, nodeRead_eq h1 hu]
    simp only
    rw [nodeRead_eq h2 hu']
    simp only
    rw [hr, guarded, h6]
  rcases C55_node_extract js h3 h4 h5 (.int 10000) with ⟨res', ts, g1, g2, g3, g4⟩ | ⟨_, g1, what, g2⟩
  · rw [hl] at g1
    rcases h7 10000 with he | ⟨_, he⟩
    · rw [he] at g1
      have e := E.pure_inj g1
      subst e
      obtain ⟨out, p1, p2⟩ := print_json (text := fun map => some (stringify map)) (res := res) (as := ts) [] g3 fun x hx => by
        have hx1 := (List.of_mem_zip hx).1
        obtain ⟨m1, m2, m3, m4⟩ := h8 x.1 hx1
        obtain ⟨o, t', ho, ht, _, _, _, _, hn⟩ := C42_presented_alike_partial (vs := x.1) ⟨m2, fun _ => rfl⟩ m3 m4
        obtain ⟨d, d1, d2⟩ := hn js
        have hd := (d2 fun p hpm => (hp x.1 hx1 p hpm).1).2 fun p hpm => (hp x.1 hx1 p hpm).2
        have e := g4 x hx
        rw [d1] at e
        injection e with e; injection e with e
        obtain ⟨s1, s2⟩ := hj _ _ ht
        exact ⟨o, stringify t', by rw [← e, hd], s2, ho, s1⟩
      refine .inl ⟨not_tooMany h1 h2 h4 (h6 ▸ he), out, ?_, p2⟩
      rw [hrun, g2, guarded]
      rw [p1, List.nil_append]
    · rw [he] at g1; exact (pure_ne_throw g1.symm).elim
  · rw [hl] at g1
    refine .inr ⟨⟨hext, html, r, h1, h2, h4, h6 ▸ g1⟩, ?_⟩
    rw [hrun, g2, guarded, if_pos rfl]

/-! ## The same as htmlext -/

/-- C75, htmlext. With `-x f -i g` and one object for each line, htmlext prints JSON texts of the same objects as the scripts, on
as many lines. -/
theorem C75_htmlext {σ : Type} {W : World σ} {o : Opts} {w : σ} (h : Asks W.rx W.gumbo files f g res)
    (hx : o.hext = [f]) (hs : o.str = []) (hi : o.html = [g])
    (hfiles : ∀ path w s w', Contents W path w s w' → files path = some s) (h0 : ∀ s, files f = some s → (0 : Byte) ∉ s)
    (hh : o.help = false) (hv : o.version = false) (hl : o.lint = false) (hf : o.filter = none) (ha : o.array = false)
    (hp : o.pretty = false) (hc : o.compact = true ∨ W.ttyOut = false) (hw : Reliable W o) {out err : Str}
    (hm : main W (.ok o) w = some (.exit 0 out err)) : JsonPerLine res out := by
  obtain ⟨rules, texts, results, ⟨hexts, w1, w2, g1, g2, g3, g4⟩, hout⟩ :=
    C53_json_per_line hh hv hl (.inl (by rw [hx]; simp)) (by rw [hi]; simp) hf ha hp hc hw hm
  obtain ⟨hext, html, r, t, h1, h2, h3, h4, h5, h6, h7, h8⟩ := asks_runs W.charSigned h
  rw [hx] at g1
  rw [hi] at g3
  obtain ⟨⟩ | ⟨g1, ⟨⟩⟩ := g1
  obtain ⟨⟩ | ⟨g3, ⟨⟩⟩ := g3
  have e1 := hfiles _ _ _ _ g1
  have e2 := hfiles _ _ _ _ g3
  rw [h1] at e1
  rw [h2] at e2
  injection e1 with e1
  injection e2 with e2
  subst e1 e2
  rw [hs, List.append_nil, List.map_cons, List.map_nil, parseHextC, cstr_eq (h0 _ h1), h4] at g2
  cases rules with
  | nil => cases g2
  | cons r' rules =>
    rw [List.map_cons, List.cons.injEq] at g2
    obtain ⟨e, g2⟩ := g2
    injection e with e
    subst e
    cases rules with
    | cons _ _ => cases g2
    | nil =>
      rw [AllResults] at g4
      simp only [List.flatMap_cons, List.flatMap_nil, List.map_cons, List.map_nil, List.append_nil] at g4
      cases results with
      | nil => cases g4
      | cons res' results =>
        rw [List.map_cons, List.cons.injEq] at g4
        obtain ⟨e, g4⟩ := g4
        cases results with
        | cons _ _ => cases g4
        | nil =>
          rw [resultOf, ← h6] at e
          rcases h7 o.maxSearches with he | ⟨_, he⟩
          · rw [he] at e
            have e := E.pure_inj e
            subst e
            simpa using hout
          · rw [he] at e; exact (pure_ne_throw e.symm).elim

/-- Two outputs for the same outcome have the same number of lines, and corresponding lines are JSON texts of the same object. -/
theorem C75_same_objects : ∀ {res : List (List (Str × Str))} {out out' : Str}, JsonPerLine res out → JsonPerLine res out' →
    ∃ ls ls', Lines out ls ∧ Lines out' ls' ∧ ls.length = res.length ∧ ls'.length = res.length ∧
      ∀ x ∈ ls.zip ls', ∃ o, JText (objectJson o) x.1 ∧ JText (objectJson o) x.2
  | [], _, _, .nil, .nil => ⟨[], [], .nil, .nil, rfl, rfl, by simp⟩
  | m :: res, _, _, .cons a1 a2 a3 a4, .cons b1 b2 b3 b4 => by
    obtain ⟨ls, ls', h1, h2, h3, h4, h5⟩ := C75_same_objects a4 b4
    have e := a2.unique b2
    subst e
    refine ⟨_ :: ls, _ :: ls', .cons a1 h1, .cons b1 h2, by simp [h3], by simp [h4], fun x hx => ?_⟩
    rw [List.zip_cons_cons, List.mem_cons] at hx
    rcases hx with rfl | hx
    · exact ⟨_, a3, b3⟩
    · exact h5 x hx

/-! ## Where the scripts differ -/

/-- C75 fails if ten thousand searches are not enough: three scripts print nothing and exit with code 1, the script for Ruby prints
the outcome. -/
theorem C75_limit (h : Asks rx gumbo files f g res) (ht : TooMany rx charSigned gumbo files f g)
    {dumps stringify : List (Text × Entry Text) → Str} {toJson : List (Str × Entry Str) → Option Str} {J : PhpJson} {js : Js}
    (hj1 : WritesText dumps) (hj2 : WritesText stringify) (hj3 : WritesObject toJson) (hj4 : WritesObject J.object)
    (hu : TextFile files f) (hu' : TextFile files g) (hc : ∀ s, files f = some s → (13 : Byte) ∉ s ∧ (0 : Byte) ∉ s)
    (hc' : ∀ s, files g = some s → (13 : Byte) ∉ s)
    (hp : ∀ m ∈ res, ∀ p ∈ m, p.1 ≠ lit "__proto__" ∧ ∃ b ∈ p.1, ¬ (48 ≤ b ∧ b ≤ 57)) (usage : Str) :
    python rx charSigned gumbo files dumps usage [f, g] = .exit 1 [] ∧ php rx charSigned gumbo files J usage [f, g] = .exit 1 [] ∧
    node rx charSigned gumbo files js stringify usage [f, g] = .exit 1 [] ∧
    ∃ out, ruby rx charSigned gumbo files toJson usage [f, g] = .exit 0 out ∧ JsonPerLine res out := by
  refine ⟨?_, ?_, ?_, C75_ruby h hj3 usage []⟩
  · exact ((C75_python_partial h hj1 hu hu' (fun s hs => (hc s hs).1) hc' usage []).resolve_left fun x => x.1 ht).2
  · have hne : ∀ m ∈ res, m ≠ [] := by
      obtain ⟨_, _, _, _, _, _, _, _, _, _, _, h8⟩ := asks_runs charSigned h
      exact fun m hm => (h8 m hm).1
    refine ((C75_php_partial h hj4 (fun m hm => not_listNames (hne m hm) fun p hpm e => ?_) usage []).resolve_left fun x => x.1 ht).2
    obtain ⟨_, b, hb, hn⟩ := hp m hm p hpm
    rw [e] at hb
    have : ∀ b ∈ lit "0", 48 ≤ b ∧ b ≤ 57 := by decide
    exact hn (this b hb)
  · exact ((C75_node_partial h hj2 hu hu' (fun s hs => (hc s hs).2) hp usage []).resolve_left fun x => x.1 ht).2

theorem printLoop_some {α : Type} (text : α → Str) : ∀ (as : List α) (out : Str),
    printLoop (fun a => some (text a)) out as = .exit 0 (out ++ as.flatMap fun a => text a ++ [10])
  | [], out => by simp [printLoop]
  | a :: as, out => by rw [printLoop]; simp only; rw [printLoop_some text as]; simp

theorem line_split : ∀ {s s' r r' : Str}, (10 : Byte) ∉ s → (10 : Byte) ∉ s' → s ++ 10 :: r = s' ++ 10 :: r' → s = s' ∧ r = r'
  | [], [], _, _, _, _, h => by simpa using h
  | [], c :: s', _, _, _, h', h => by
    simp only [List.nil_append, List.cons_append, List.cons.injEq] at h
    exact absurd (List.mem_cons.2 (.inl h.1)) h'
  | c :: s, [], _, _, h', _, h => by
    simp only [List.nil_append, List.cons_append, List.cons.injEq] at h
    exact absurd (List.mem_cons.2 (.inl h.1.symm)) h'
  | c :: s, c' :: s', _, _, h1, h2, h => by
    simp only [List.cons_append, List.cons.injEq] at h
    obtain ⟨e1, e2⟩ := line_split (fun hm => h1 (List.mem_cons_of_mem _ hm)) (fun hm => h2 (List.mem_cons_of_mem _ hm)) h.2
    exact ⟨by rw [h.1, e1], e2⟩

/-- The lines of an output with JSON objects are JSON objects. -/
theorem jsonPerLine_objects {α : Type} {text : α → Str} : ∀ {res : List (List (Str × Str))} {as : List α},
    (∀ a ∈ as, (10 : Byte) ∉ text a) → JsonPerLine res (as.flatMap fun a => text a ++ [10]) →
    ∀ a ∈ as, ∃ o, JText (objectJson o) (text a)
  | _, [], _, _ => by simp
  | [], a :: as, _, h => by
    generalize hx : ((a :: as).flatMap fun a => text a ++ [10]) = x at h
    cases h
    simp at hx
  | m :: res, a :: as, hn, h => by
    generalize hx : ((a :: as).flatMap fun a => text a ++ [10]) = x at h
    cases h with
    | cons h1 h2 h3 h4 =>
      rw [List.flatMap_cons, List.append_assoc] at hx
      obtain ⟨e1, e2⟩ := line_split (hn a (by simp)) h1 hx
      subst e1 e2
      intro b hb
      rcases List.mem_cons.1 hb with rfl | hb
      · exact ⟨_, h3⟩
      · exact jsonPerLine_objects (fun c hc => hn c (by simp [hc])) h4 b hb

/-- C75 fails in PHP for exactly the other groups: the script prints a line with a JSON array instead of a JSON object if the names
of a group are 0, 1 and so on. -/
theorem C75_php_list (h : Asks rx gumbo files f g res) {J : PhpJson} (hj : WritesObject J.object) (hj' : WritesList J.list)
    {m : List (Str × Str)} (hm : m ∈ res) (h0 : ListNames m) (ht : ¬ TooMany rx charSigned gumbo files f g)
    (usage : Str) (rest : List Str) :
    ∃ out, php rx charSigned gumbo files J usage (f :: g :: rest) = .exit 0 out ∧ ¬ JsonPerLine res out := by
  obtain ⟨hext, html, r, t, h1, h2, h3, h4, h5, h6, h7, h8⟩ := asks_runs charSigned h
  have hrun : php rx charSigned gumbo files J usage (f :: g :: rest) =
      guarded (fun _ => true) (phpExtract rx (gumbo html).1 r t.ptr 10000) fun result =>
            printLoop (fun map => some (phpEncode J map)) [] result := by
    rw [php, h1, h2]
    simp only
    rw [wrapperRule_ok h4, guarded, h6]
  rcases C55_php_extract h3 h4 h5 10000 with ⟨res', ts, g1, g2, g3⟩ | ⟨_, g1, g2⟩
  · rcases h7 10000 with he | ⟨_, he⟩
    · rw [he] at g1
      have e := E.pure_inj g1
      subst e
      obtain ⟨l1, l2⟩ := g3 fun m hm => (h8 m hm).2.2.1
      rw [hrun, g2, guarded, printLoop_some]
      refine ⟨_, rfl, fun hout => ?_⟩
      rw [List.nil_append] at hout
      have key : ∀ a ∈ ts, ∃ m o, m ∈ res ∧ Presents m o ∧ IsPhpArray o a := by
        intro a ha
        obtain ⟨i, hi, rfl⟩ := List.getElem_of_mem ha
        have hz : (res[i]'(l1 ▸ hi), ts[i]) ∈ res.zip ts := by
          rw [List.mem_iff_getElem]
          exact ⟨i, by simp; omega, by simp⟩
        obtain ⟨o, ho, hp⟩ := l2 _ hz
        exact ⟨_, o, List.getElem_mem _, ho, hp⟩
      have texts : ∀ a ∈ ts, (10 : Byte) ∉ phpEncode J a ∧
          (keysFrom 0 a = true → ∃ es, JText (.arr es) (phpEncode J a)) := by
        intro a ha
        obtain ⟨m, o, hm, ho, hp⟩ := key a ha
        have hu := presents_isText ho (h8 m hm).2.2.2
        unfold phpEncode
        split
        · have : ∀ {o : List (Str × Entry Str)} {t}, IsTextOf o t → ∀ e ∈ o.map (·.2), ∃ t, e.IsText t := by
            intro o t h
            induction h with
            | nil => simp
            | cons _ he _ ih =>
              intro e hm
              rw [List.map_cons, List.mem_cons] at hm
              rcases hm with rfl | hm
              · exact ⟨_, he⟩
              · exact ih e hm
          have e1 : a.map (·.2) = o.map (·.2) := by rw [← hp.1, List.map_map]; rfl
          obtain ⟨s, s1, s2, s3⟩ := hj' (a.map (·.2)) (e1 ▸ this hu)
          rw [s1]
          exact ⟨s3, fun _ => ⟨_, s2⟩⟩
        · have e1 : a.map (fun x => (keyText x.1, x.2)) = o := hp.1
          obtain ⟨s, s1, s2, s3⟩ := hj o ⟨_, hu⟩
          rw [e1, s1]
          exact ⟨s3, fun hk => absurd hk (by assumption)⟩
      -- the array of the group
      obtain ⟨i, hi, him⟩ := List.getElem_of_mem hm
      have hz : (m, ts[i]'(l1 ▸ hi)) ∈ res.zip ts := by
        rw [List.mem_iff_getElem]
        exact ⟨i, by simp; omega, by simp [him]⟩
      obtain ⟨o, ho, hp⟩ := l2 _ hz
      have hmem : ts[i]'(l1 ▸ hi) ∈ ts := List.getElem_mem _
      generalize ts[i]'(l1 ▸ hi) = a at *
      have hp : IsPhpArray o a := hp
      have ho : Presents m o := ho
      have hk : keysFrom 0 a = true := (keysFrom_listNames (h8 m hm).2.1 ho hp).2 h0
      obtain ⟨es, hes⟩ := (texts a hmem).2 hk
      obtain ⟨o', ho'⟩ := jsonPerLine_objects (text := phpEncode J) (fun a ha => (texts a ha).1) hout a hmem
      have := hes.unique ho'
      cases this
    · rw [he] at g1; exact (pure_ne_throw g1.symm).elim
  · exact absurd ⟨hext, html, r, h1, h2, h4, h6 ▸ g1⟩ ht

end

/-! ## Examples -/

/-- An encoder for objects with texts. -/
def exBytes : Entry Text → Entry Str
  | .one v => .one (v.flatMap enc)
  | .many vs => .many (vs.map fun v => v.flatMap enc)

def exDumps (t : List (Text × Entry Text)) : Str := writeJson (objectJson (t.map fun x => (x.1.flatMap enc, exBytes x.2)))

theorem exDumps_writes : WritesText exDumps := by
  intro o t h
  have e : (t.map fun x => (x.1.flatMap enc, exBytes x.2)) = o := by
    induction h with
    | nil => rfl
    | cons hk he _ ih =>
      rw [List.map_cons, ih, ← hk.2]
      congr 2
      cases he with
      | one h => simp [exBytes, h.2]
      | @many ss ts hl h =>
        simp only [exBytes, Entry.many.injEq]
        clear ih
        induction ss generalizing ts with
        | nil => cases ts with
          | nil => rfl
          | cons _ _ => cases hl
        | cons s ss ih => cases ts with
          | nil => cases hl
          | cons t ts =>
            have ht : s = t.flatMap enc := (h (s, t) (by simp)).2
            rw [List.map_cons, ih (ts := ts) (by simpa using hl) fun x hx => h x (by rw [List.zip_cons_cons]; exact List.mem_cons_of_mem _ hx), ht]
  rw [exDumps, e]
  exact ⟨writeJson_text _, writeJson_ne _⟩

/-- Encoders for objects and lists with bytes. -/
def exJson : PhpJson where
  object := fun o => some (writeJson (objectJson o))
  list := fun es => some (writeJson (.arr (es.map Entry.json)))

theorem exJson_writes : WritesObject exJson.object ∧ WritesList exJson.list :=
  ⟨fun _ _ => ⟨_, rfl, writeJson_text _, writeJson_ne _⟩, fun _ _ => ⟨_, rfl, writeJson_text _, writeJson_ne _⟩⟩

/-- The file `rule` has `<a href:x/>`, or `<a href:0/>`; the other files have some HTML for the example document. -/
def exFiles (hext : Str) (f : Str) : Option Str := if f = lit "rule" then some hext else some (lit "<a/>")

theorem href_outcome : IsOutcome Ex.rx (fun _ => none) hrefRule (Loc.root Ex.doc) [[(lit "x", lit "1")], [(lit "x", lit "2")]] := by
  obtain ⟨_, _, _, _, _, _, h⟩ := ex_succeeds none false
  rw [AllResults] at h
  simp only [List.flatMap_cons, List.flatMap_nil, List.map_cons, List.map_nil, List.append_nil, List.cons.injEq, and_true] at h
  have hs : NoLong (lit "<a href:x/>") := noLong_of_few (by decide)
  exact outcome_heap (h := Ex.heap) (parse_builtin (href_parsed Ex.rx true))
    ((extract_outcome (n := 1147483648) (by decide) (parse_safe hs (href_parsed Ex.rx true)) (parse_words (href_parsed Ex.rx true))
      (l := Loc.root Ex.doc) doc_ok2 _).1 h)

theorem ex_asks : Asks Ex.rx exWorld.gumbo (exFiles (lit "<a href:x/>")) (lit "rule") (lit "page.html")
    [[(lit "x", lit "1")], [(lit "x", lit "2")]] :=
  ⟨lit "<a href:x/>", lit "<a/>", hrefRule, Ex.doc, rfl, rfl, noLong_of_few (by decide),
    (C36_parse_iff Ex.rx true _ _).1 (href_parsed Ex.rx true), doc_ok2, rfl, href_outcome, fun m hm => by
      have : ∀ m ∈ [[(lit "x", lit "1")], [(lit "x", lit "2")]], NoNul m ∧
          ∀ p ∈ m, utf8 p.1 = some (p.1.map (·.toNat)) ∧ utf8 p.2 = some (p.2.map (·.toNat)) := by unfold NoNul; decide +kernel
      exact ⟨(this m hm).1, isUtf8_ascii (this m hm).2⟩⟩

/-- Ten thousand searches are enough for it. -/
theorem ex_not_tooMany : ¬ TooMany Ex.rx true exWorld.gumbo (exFiles (lit "<a href:x/>")) (lit "rule") (lit "page.html") := by
  refine not_tooMany (res := [[(lit "x", lit "1")], [(lit "x", lit "2")]]) (hext := lit "<a href:x/>") (html := lit "<a/>") (r := hrefRule)
    rfl rfl (href_parsed Ex.rx true) ?_
  show extract Ex.rx Ex.heap hrefRule (Loc.root Ex.doc).ptr 10000 = _
  rw [extract_eq (rx := Ex.rx) (h := Ex.heap) (n := manyChildren) (by decide)
    (parse_safe (noLong_of_few (by decide)) (href_parsed Ex.rx true)) (l := Loc.root Ex.doc) (isDocument_of_ok (by decide +kernel))]
  decide +kernel

theorem ex_names : ∀ m ∈ [[(lit "x", lit "1")], [(lit "x", lit "2")]], ¬ ListNames m :=
  fun m hm => not_listNames (by rintro rfl; simp at hm) (by revert m; decide)

/-- All scripts print the two objects. -/
example (js : Js) : ∃ rb py ph no,
    ruby Ex.rx true exWorld.gumbo (exFiles (lit "<a href:x/>")) exJson.object [] [lit "rule", lit "page.html"] = .exit 0 rb ∧
    python Ex.rx true exWorld.gumbo (exFiles (lit "<a href:x/>")) exDumps [] [lit "rule", lit "page.html"] = .exit 0 py ∧
    php Ex.rx true exWorld.gumbo (exFiles (lit "<a href:x/>")) exJson [] [lit "rule", lit "page.html"] = .exit 0 ph ∧
    node Ex.rx true exWorld.gumbo (exFiles (lit "<a href:x/>")) js exDumps [] [lit "rule", lit "page.html"] = .exit 0 no ∧
    ∀ out ∈ [rb, py, ph, no], JsonPerLine [[(lit "x", lit "1")], [(lit "x", lit "2")]] out := by
  have hu : ∀ f, TextFile (exFiles (lit "<a href:x/>")) f := by
    intro f s hs
    unfold exFiles at hs
    split at hs <;> injection hs with hs <;> subst hs
    · exact ⟨_, utf8_iff.1 (show utf8 (lit "<a href:x/>") = some ((lit "<a href:x/>").map (·.toNat)) by decide +kernel)⟩
    · exact ⟨_, utf8_iff.1 (show utf8 (lit "<a/>") = some ((lit "<a/>").map (·.toNat)) by decide +kernel)⟩
  have hc : ∀ f s, exFiles (lit "<a href:x/>") f = some s → (13 : Byte) ∉ s ∧ (0 : Byte) ∉ s := by
    intro f s hs
    unfold exFiles at hs
    split at hs <;> injection hs with hs <;> subst hs <;> decide
  obtain ⟨rb, h1, p1⟩ := C75_ruby (charSigned := true) ex_asks exJson_writes.1 [] []
  obtain ⟨_, py, h2, p2⟩ := (C75_python_partial ex_asks exDumps_writes (hu _) (hu _) (fun s hs => (hc _ s hs).1) (fun s hs => (hc _ s hs).1)
    [] []).resolve_right fun x => ex_not_tooMany x.1
  obtain ⟨_, ph, h3, p3⟩ := (C75_php_partial ex_asks exJson_writes.1 ex_names [] []).resolve_right fun x => ex_not_tooMany x.1
  obtain ⟨_, no, h4, p4⟩ := (C75_node_partial (js := js) ex_asks exDumps_writes (hu _) (hu _) (fun s hs => (hc _ s hs).2) (by decide)
    [] []).resolve_right fun x => ex_not_tooMany x.1
  refine ⟨rb, py, ph, no, h1, h2, h3, h4, ?_⟩
  simp only [List.mem_cons, List.not_mem_nil, or_false]
  rintro out (rfl | rfl | rfl | rfl) <;> assumption

/-- The same with a line break at the end of the document. -/
def exBreaks (br : Str) (f : Str) : Option Str := if f = lit "rule" then some (lit "<a href:x/>") else some (lit "<a/>" ++ br)

/-- htmlext.py reads CR LF as LF. -/
example : ∃ out, python Ex.rx true exWorld.gumbo (exBreaks [13, 10]) exDumps [] [lit "rule", lit "page.html"] = .exit 0 out ∧
    JsonPerLine [[(lit "x", lit "1")], [(lit "x", lit "2")]] out := by
  have hb : SameButLineBreaks (exBreaks [13, 10]) (exBreaks [10]) := by
    intro f
    unfold exBreaks
    have : OneLineBreak (lit "<a href:x/>") (lit "<a href:x/>") := by
      rw [show lit "<a href:x/>" = [60, 97, 32, 104, 114, 101, 102, 58, 120, 47, 62] by decide]
      repeat first | exact .nil | refine .other (by decide) (by decide) ?_
    by_cases h : f = lit "rule"
    · simp only [h, if_true]
      exact this
    · simp only [h, if_false]
      rw [show lit "<a/>" = [60, 97, 47, 62] by decide]
      exact .other (by decide) (by decide) (.other (by decide) (by decide) (.other (by decide) (by decide)
        (.other (by decide) (by decide) (.crlf .nil))))
  have hu : ∀ f, TextFile (exBreaks [13, 10]) f := by
    intro f s hs
    unfold exBreaks at hs
    split at hs <;> injection hs with hs <;> subst hs
    · exact ⟨_, utf8_iff.1 (show utf8 (lit "<a href:x/>") = some ((lit "<a href:x/>").map (·.toNat)) by decide +kernel)⟩
    · exact ⟨_, utf8_iff.1 (show utf8 (lit "<a/>" ++ [13, 10]) = some ((lit "<a/>" ++ [13, 10]).map UInt8.toNat) by decide +kernel)⟩
  have ha : Asks Ex.rx exWorld.gumbo (exBreaks [10]) (lit "rule") (lit "page.html") [[(lit "x", lit "1")], [(lit "x", lit "2")]] := by
    obtain ⟨_, _, _, _, _, _, _, _, _, _, _, h⟩ := ex_asks
    exact ⟨lit "<a href:x/>", lit "<a/>" ++ [10], hrefRule, Ex.doc, rfl, rfl, noLong_of_few (by decide),
      (C36_parse_iff Ex.rx true _ _).1 (href_parsed Ex.rx true), doc_ok2, rfl, href_outcome, h⟩
  have hn : ¬ TooMany Ex.rx true exWorld.gumbo (exBreaks [10]) (lit "rule") (lit "page.html") := by
    rintro ⟨hext, html, r, h1, h2, h3, h4⟩
    exact ex_not_tooMany ⟨hext, lit "<a/>", r, h1, rfl, h3, h4⟩
  exact ((C75_python_breaks hb ha exDumps_writes (hu _) (hu _) [] []).resolve_right fun x => hn x.1).2

open Syn in
/-- `<a href:0/>` -/
def zeroItems : List Item := [.start (tagHead "a" [.capAttr (lit "href") [] (.plain (lit "0")) false]) true]

def zeroRule : Rule := (Ex.rule "a" (caps := [Ex.capHref "0"])).appendMatch (some (.attribute (lit "href") none))

open Syn in
theorem zero_parsed (rx : RxEngine) (charSigned : Bool) : parseHext rx charSigned (lit "<a href:0/>") = .ok zeroRule := by
  have hok : ∀ i ∈ zeroItems, i.Ok := by
    simp only [zeroItems, List.mem_cons, List.not_mem_nil, or_false]
    rintro i rfl
    refine ⟨.inr ⟨97, [], by decide, by simp [IsAlpha], by simp⟩, by simp [tagHead], ?_, by simp [tagHead]⟩
    simp only [tagHead, List.map_cons, List.map_nil, List.mem_cons, List.not_mem_nil, or_false, forall_eq]
    refine ⟨by simp, by simp [IsSpace], ⟨104, lit "ref", by decide, by simp [IsAlpha], ?_⟩, by simp, ?_⟩
    · simp only [IsNameByte, IsAlpha]; decide
    · simp only [CapName.Ok, IsNameByte, IsAlpha]; decide
  rw [show lit "<a href:0/>" = itemsText zeroItems by decide]
  exact (parse_items hok _).2 ⟨_, _, .elem (.selfClosing rfl) .nil, rfl⟩

theorem zero_extract (ms : UInt64) (h : ms = 0 ∨ ms = 10000) :
    extract Ex.rx Ex.heap zeroRule (Loc.root Ex.doc).ptr ms = pure [[(lit "0", lit "1")], [(lit "0", lit "2")]] := by
  rw [extract_eq (rx := Ex.rx) (h := Ex.heap) (n := manyChildren) (by decide)
    (parse_safe (noLong_of_few (by decide)) (zero_parsed Ex.rx true)) (l := Loc.root Ex.doc) (isDocument_of_ok (by decide +kernel))]
  rcases h with rfl | rfl <;> decide +kernel

theorem zero_names (v : Str) : ListNames [(lit "0", v)] := by
  refine ⟨1, by omega, fun name => ⟨?_, ?_⟩⟩
  · rintro ⟨w, hw⟩
    simp only [List.mem_singleton, Prod.mk.injEq] at hw
    exact ⟨0, by omega, hw.1⟩
  · rintro ⟨i, hi, rfl⟩
    obtain rfl : i = 0 := by omega
    exact ⟨v, List.mem_singleton.2 rfl⟩

/-- The names of a group may be a list although there are several of them, with several values. -/
example : ListNames [(lit "0", lit "a"), (lit "0", lit "b"), (lit "1", lit "c")] := by
  refine ⟨2, by omega, fun name => ⟨?_, ?_⟩⟩
  · rintro ⟨w, hw⟩
    simp only [List.mem_cons, List.not_mem_nil, or_false, Prod.mk.injEq] at hw
    rcases hw with hw | hw | hw
    · exact ⟨0, by omega, hw.1⟩
    · exact ⟨0, by omega, hw.1⟩
    · exact ⟨1, by omega, hw.1⟩
  · rintro ⟨i, hi, rfl⟩
    obtain rfl | rfl : i = 0 ∨ i = 1 := by omega
    · exact ⟨lit "a", by decide⟩
    · exact ⟨lit "c", by decide⟩

/-- With a gap it is no list. -/
example : ¬ ListNames [(lit "0", lit "a"), (lit "2", lit "b")] := by
  rintro ⟨k, _, h⟩
  obtain ⟨i, hi, e⟩ := (h (lit "2")).1 ⟨lit "b", by decide⟩
  by_cases h2 : 2 ≤ i
  · obtain ⟨v, hv⟩ := (h (lit "1")).2 ⟨1, by omega, rfl⟩
    revert hv
    simp [show lit "1" ≠ lit "0" by decide, show lit "1" ≠ lit "2" by decide]
  · obtain rfl | rfl : i = 0 ∨ i = 1 := by omega
    · exact absurd e (by decide)
    · exact absurd e (by decide)

/-- htmlext.php with `<a href:0/>` prints no JSON objects; htmlext.rb does. -/
example : ∃ out out', php Ex.rx true exWorld.gumbo (exFiles (lit "<a href:0/>")) exJson [] [lit "rule", lit "page.html"] = .exit 0 out ∧
    ¬ JsonPerLine [[(lit "0", lit "1")], [(lit "0", lit "2")]] out ∧
    ruby Ex.rx true exWorld.gumbo (exFiles (lit "<a href:0/>")) exJson.object [] [lit "rule", lit "page.html"] = .exit 0 out' ∧
    JsonPerLine [[(lit "0", lit "1")], [(lit "0", lit "2")]] out' := by
  have hs : NoLong (lit "<a href:0/>") := noLong_of_few (by decide)
  have ho := outcome_heap (h' := fun _ => none) (parse_builtin (zero_parsed Ex.rx true))
    ((extract_outcome (n := 1147483648) (by decide) (parse_safe hs (zero_parsed Ex.rx true)) (parse_words (zero_parsed Ex.rx true))
      (l := Loc.root Ex.doc) doc_ok2 _).1 (zero_extract 0 (.inl rfl)))
  have ha : Asks Ex.rx exWorld.gumbo (exFiles (lit "<a href:0/>")) (lit "rule") (lit "page.html") [[(lit "0", lit "1")], [(lit "0", lit "2")]] :=
    ⟨lit "<a href:0/>", lit "<a/>", zeroRule, Ex.doc, rfl, rfl, hs, (C36_parse_iff Ex.rx true _ _).1 (zero_parsed Ex.rx true), doc_ok2, rfl, ho,
      fun m hm => by
        have : ∀ m ∈ [[(lit "0", lit "1")], [(lit "0", lit "2")]], NoNul m ∧
            ∀ p ∈ m, utf8 p.1 = some (p.1.map (·.toNat)) ∧ utf8 p.2 = some (p.2.map (·.toNat)) := by unfold NoNul; decide +kernel
        exact ⟨(this m hm).1, isUtf8_ascii (this m hm).2⟩⟩
  obtain ⟨out, h1, h2⟩ := C75_php_list (charSigned := true) ha exJson_writes.1 exJson_writes.2 (m := [(lit "0", lit "1")]) (by simp) (zero_names _)
    (not_tooMany (hext := lit "<a href:0/>") (html := lit "<a/>") rfl rfl (zero_parsed Ex.rx true) (zero_extract 10000 (.inr rfl))) [] []
  obtain ⟨out', h3, h4⟩ := C75_ruby (charSigned := true) ha exJson_writes.1 [] []
  exact ⟨out, out', h1, h2, h3, h4⟩

end Hext.Props
