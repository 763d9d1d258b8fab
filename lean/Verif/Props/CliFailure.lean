import Verif.Props.CliIff
/-!
# C90: why htmlext fails, and what it then says
-/

namespace Hext.Props

open Cli

variable {σ : Type} {W : World σ} {o : Opts} {w : σ}

theorem readPath_err {p : Str} {w w' : σ} {e : Exc} : readPath W p w = (.error e, w') ↔
    (∃ m, W.files p w = (.noOpen m, w') ∧ e = .file (lit "cannot access '" ++ p ++ lit "': " ++ m)) ∨
    ∃ m, W.files p w = (.noRead m, w') ∧ e = .file (lit "cannot read '" ++ p ++ lit "': " ++ m) := by
  unfold readPath
  rcases W.files p w with ⟨a | a | a, w1⟩ <;>
    simp only [throw, throwThe, MonadExceptOf.throw, pure, Except.pure, Prod.mk.injEq, Except.error.injEq, FileAnswer.noOpen.injEq,
      FileAnswer.noRead.injEq, reduceCtorEq, false_and, exists_const, or_false, false_or]
  · constructor
    · rintro ⟨rfl, rfl⟩; exact ⟨a, ⟨rfl, rfl⟩, rfl⟩
    · rintro ⟨m, ⟨rfl, rfl⟩, rfl⟩; exact ⟨rfl, rfl⟩
  · constructor
    · rintro ⟨rfl, rfl⟩; exact ⟨a, ⟨rfl, rfl⟩, rfl⟩
    · rintro ⟨m, ⟨rfl, rfl⟩, rfl⟩; exact ⟨rfl, rfl⟩

theorem readFile_err {p : Str} {w : σ} {e : Exc} : (∃ w', readFile W p w = (.error e, w')) ↔ ∃ what, Unreadable W p w what ∧ e = .file what := by
  have plain : ∀ {q : Str} {w : σ}, q ≠ lit "-" → ((∃ w', readPath W q w = (.error e, w')) ↔ ∃ what, Unreadable W q w what ∧ e = .file what) := by
    intro q w hq
    simp only [readPath_err]
    constructor
    · rintro ⟨w', ⟨m, h, rfl⟩ | ⟨m, h, rfl⟩⟩
      · exact ⟨_, .access hq h, rfl⟩
      · exact ⟨_, .read h, rfl⟩
    · rintro ⟨what, h, rfl⟩
      cases h with
      | access _ h => exact ⟨_, .inl ⟨_, h, rfl⟩⟩
      | read h => exact ⟨_, .inr ⟨_, h, rfl⟩⟩
      | stdin _ _ => exact absurd rfl hq
  unfold readFile
  split
  · rename_i hp
    subst hp
    rcases hf : W.files (lit "-") w with ⟨a | a | a, w1⟩
    · simp only
      rw [plain (by decide)]
      constructor
      · rintro ⟨what, h, rfl⟩; exact ⟨what, .stdin hf h, rfl⟩
      · rintro ⟨what, h, rfl⟩
        cases h with
        | access h _ => exact absurd rfl h
        | read h => rw [hf] at h; cases h
        | stdin h h2 =>
          rw [hf] at h
          cases h
          exact ⟨what, h2, rfl⟩
    · simp only [throw, throwThe, MonadExceptOf.throw, Prod.mk.injEq, Except.error.injEq]
      constructor
      · rintro ⟨w', rfl, rfl⟩; exact ⟨_, .read hf, rfl⟩
      · rintro ⟨what, h, rfl⟩
        cases h with
        | access h _ => exact absurd rfl h
        | read h => rw [hf] at h; cases h; exact ⟨_, rfl, rfl⟩
        | stdin h h2 => rw [hf] at h; cases h
    · refine ⟨fun ⟨_, h⟩ => (nomatch h), ?_⟩
      rintro ⟨what, h, rfl⟩
      cases h with
      | access h _ => exact absurd rfl h
      | read h => rw [hf] at h; cases h
      | stdin h h2 => rw [hf] at h; cases h
  · exact plain ‹_›

theorem readHtml_err : ∀ {ps : List Str} {w : σ} {e : Exc}, (∃ w', readHtml W ps w = (.error e, w')) ↔
    ∃ fs f gs texts w1 what, ps = fs ++ f :: gs ∧ Reads W fs w texts w1 ∧ Unreadable W f w1 what ∧ e = .file what
  | [], w, e => by
    rw [readHtml]
    constructor
    · rintro ⟨w', h⟩; cases h
    · rintro ⟨fs, f, gs, _, _, _, h, _⟩; cases fs <;> cases h
  | p :: ps, w, e => by
    rw [readHtml]
    rcases h1 : readFile W p w with ⟨e1 | s, w1⟩
    · simp only [throw, throwThe, MonadExceptOf.throw, Prod.mk.injEq, Except.error.injEq]
      constructor
      · rintro ⟨w', rfl, rfl⟩
        obtain ⟨what, h2, rfl⟩ := readFile_err.1 ⟨_, h1⟩
        exact ⟨[], p, ps, [], w, what, rfl, .nil, h2, rfl⟩
      · rintro ⟨fs, f, gs, texts, w2, what, h2, h3, h4, rfl⟩
        cases fs with
        | nil =>
          cases h3
          injection h2 with h2 _
          subst h2
          obtain ⟨w', h5⟩ := readFile_err.2 ⟨what, h4, rfl⟩
          rw [h1] at h5
          cases h5
          exact ⟨_, rfl, rfl⟩
        | cons q fs =>
          injection h2 with h2 _
          subst h2
          cases h3 with
          | cons h7 _ => rw [readFile_ok.2 h7] at h1; cases h1
    · simp only
      have e1 : (∃ w', (match readHtml W ps w1 with
          | (.error e, w) => (throw e, w)
          | (.ok ts, w) => (pure (s :: ts), w) : Except Exc (List Str) × σ) = (.error e, w')) ↔
          ∃ w', readHtml W ps w1 = (.error e, w') := by
        rcases readHtml W ps w1 with ⟨e | rs, w2⟩
        · simp [throw, throwThe, MonadExceptOf.throw]
        · simp [pure, Except.pure]
      refine Iff.trans e1 ?_
      rw [readHtml_err (ps := ps)]
      constructor
      · rintro ⟨fs, f, gs, texts, w2, what, rfl, h3, h4, rfl⟩
        exact ⟨p :: fs, f, gs, s :: texts, w2, what, rfl, .cons (readFile_ok.1 h1) h3, h4, rfl⟩
      · rintro ⟨fs, f, gs, texts, w2, what, h2, h3, h4, rfl⟩
        cases fs with
        | nil =>
          cases h3
          injection h2 with h2 _
          subst h2
          obtain ⟨w', h5⟩ := readFile_err.2 ⟨what, h4, rfl⟩
          rw [h1] at h5
          cases h5
        | cons q fs =>
          injection h2 with h2 h8
          subst h2
          cases h3 with
          | cons h7 h9 =>
            have := readFile_ok.2 h7
            rw [h1] at this
            cases this
            exact ⟨fs, f, gs, _, w2, what, h8, h9, h4, rfl⟩

theorem parseFiles_err : ∀ {ps : List Str} {w : σ} {e : Exc}, (∃ w', parseFiles W ps w = (.error e, w')) ↔
    ∃ fs f gs hexts rules w1, ps = fs ++ f :: gs ∧ Reads W fs w hexts w1 ∧ AreHexts W hexts rules ∧
      ((∃ what, Unreadable W f w1 what ∧ e = .file what) ∨
        ∃ text w2, Contents W f w1 text w2 ∧ parseText W (lit "Error in " ++ f) text = .error e)
  | [], w, e => by
    rw [parseFiles]
    constructor
    · rintro ⟨w', h⟩; cases h
    · rintro ⟨fs, f, gs, _, _, _, h, _⟩; cases fs <;> cases h
  | p :: ps, w, e => by
    rw [parseFiles]
    rcases h1 : readFile W p w with ⟨e1 | s, w1⟩
    · simp only [throw, throwThe, MonadExceptOf.throw, Prod.mk.injEq, Except.error.injEq]
      constructor
      · rintro ⟨w', rfl, rfl⟩
        obtain ⟨what, h2, rfl⟩ := readFile_err.1 ⟨_, h1⟩
        exact ⟨[], p, ps, [], [], w, rfl, .nil, .nil, .inl ⟨what, h2, rfl⟩⟩
      · rintro ⟨fs, f, gs, hexts, rules, w2, h2, h3, h4, h5⟩
        cases fs with
        | nil =>
          cases h3
          injection h2 with h2 _
          subst h2
          rcases h5 with h5 | ⟨text, w3, h5, h6⟩
          · obtain ⟨w', h6⟩ := readFile_err.2 h5
            rw [h1] at h6
            cases h6
            exact ⟨_, rfl, rfl⟩
          · rw [readFile_ok.2 h5] at h1; cases h1
        | cons q fs =>
          injection h2 with h2 _
          subst h2
          cases h3 with
          | cons h7 _ => rw [readFile_ok.2 h7] at h1; cases h1
    · simp only
      cases hp : parseText W (lit "Error in " ++ p) s with
      | error e1 =>
        simp only [throw, throwThe, MonadExceptOf.throw, Prod.mk.injEq, Except.error.injEq]
        constructor
        · rintro ⟨w', rfl, rfl⟩
          exact ⟨[], p, ps, [], [], w, rfl, .nil, .nil, .inr ⟨s, w1, readFile_ok.1 h1, hp⟩⟩
        · rintro ⟨fs, f, gs, hexts, rules, w2, h2, h3, h4, h5⟩
          cases fs with
          | nil =>
            cases h3
            injection h2 with h2 _
            subst h2
            rcases h5 with h5 | ⟨text, w3, h5, h6⟩
            · obtain ⟨w', h6⟩ := readFile_err.2 h5
              rw [h1] at h6
              cases h6
            · rw [readFile_ok.2 h5] at h1
              cases h1
              rw [hp] at h6
              injection h6 with h6
              exact ⟨_, h6, rfl⟩
          | cons q fs =>
            injection h2 with h2 h8
            subst h2
            cases h3 with
            | cons h7 h9 =>
              have := readFile_ok.2 h7
              rw [h1] at this
              cases this
              cases h4 with
              | cons h10 _ => rw [parseText_ok.2 h10] at hp; cases hp
      | ok r =>
        simp only
        have e1 : (∃ w', (match parseFiles W ps w1 with
            | (.error e, w) => (throw e, w)
            | (.ok rs, w) => (pure (r :: rs), w) : Except Exc (List Rule) × σ) = (.error e, w')) ↔
            ∃ w', parseFiles W ps w1 = (.error e, w') := by
          rcases parseFiles W ps w1 with ⟨e | rs, w2⟩
          · simp [throw, throwThe, MonadExceptOf.throw]
          · simp [pure, Except.pure]
        refine Iff.trans e1 ?_
        rw [parseFiles_err (ps := ps)]
        constructor
        · rintro ⟨fs, f, gs, hexts, rules, w2, rfl, h3, h4, h5⟩
          exact ⟨p :: fs, f, gs, s :: hexts, r :: rules, w2, rfl, .cons (readFile_ok.1 h1) h3, .cons (parseText_ok.1 hp) h4, h5⟩
        · rintro ⟨fs, f, gs, hexts, rules, w2, h2, h3, h4, h5⟩
          cases fs with
          | nil =>
            cases h3
            injection h2 with h2 _
            subst h2
            rcases h5 with h5 | ⟨text, w3, h5, h6⟩
            · obtain ⟨w', h6⟩ := readFile_err.2 h5
              rw [h1] at h6
              cases h6
            · rw [readFile_ok.2 h5] at h1
              cases h1
              rw [hp] at h6
              cases h6
          | cons q fs =>
            injection h2 with h2 h8
            subst h2
            cases h3 with
            | cons h7 h9 =>
              have := readFile_ok.2 h7
              rw [h1] at this
              cases this
              cases h4 with
              | cons h10 h11 => exact ⟨fs, f, gs, _, _, w2, h8, h9, h11, h5⟩

theorem parseStrings_err : ∀ {ss : List Str} {e : Exc}, parseStrings W ss = .error e ↔
    ∃ pre s post rules, ss = pre ++ s :: post ∧ AreHexts W pre rules ∧ parseText W (lit "Error in <hext-string>") s = .error e
  | [], e => by
    rw [parseStrings]
    constructor
    · intro h; cases h
    · rintro ⟨pre, s, post, _, h, _⟩; cases pre <;> cases h
  | s :: ss, e => by
    rw [parseStrings]
    cases hp : parseText W (lit "Error in <hext-string>") s with
    | error e1 =>
      have e2 : (do let r ← (Except.error e1 : Except Exc Rule); let rs ← parseStrings W ss; pure (r :: rs)) = .error e ↔
          e1 = e := by simp [bind, Except.bind]
      rw [e2]
      constructor
      · rintro rfl
        exact ⟨[], s, ss, [], rfl, .nil, hp⟩
      · rintro ⟨pre, t, post, rules, h1, h2, h3⟩
        cases pre with
        | nil =>
          injection h1 with h1 _
          subst h1
          rw [hp] at h3
          injection h3
        | cons q pre =>
          injection h1 with h1 _
          subst h1
          cases h2 with
          | cons h4 _ => rw [parseText_ok.2 h4] at hp; cases hp
    | ok r =>
      have e2 : (do let r ← (Except.ok r : Except Exc Rule); let rs ← parseStrings W ss; pure (r :: rs)) = .error e ↔
          parseStrings W ss = .error e := by
        cases parseStrings W ss <;> simp [bind, Except.bind, pure, Except.pure]
      rw [e2, parseStrings_err (ss := ss)]
      constructor
      · rintro ⟨pre, t, post, rules, rfl, h2, h3⟩
        exact ⟨s :: pre, t, post, r :: rules, rfl, .cons (parseText_ok.1 hp) h2, h3⟩
      · rintro ⟨pre, t, post, rules, h1, h2, h3⟩
        cases pre with
        | nil =>
          injection h1 with h1 _
          subst h1
          rw [hp] at h3
          cases h3
        | cons q pre =>
          injection h1 with h1 h5
          subst h1
          cases h2 with
          | cons _ h4 => exact ⟨pre, t, post, _, h5, h4, h3⟩

theorem extractLoop_err {ps : List (Rule × Str)} {out : Str} {e : Exc} : extractLoop W o ps = some (out, some e) ↔
    ∃ before p after results, ps = before ++ p :: after ∧
      before.map (fun x => resultOf W o.maxSearches x.1 x.2) = List.map pure results ∧
      extractFrom W o p.1 p.2 = some (.error e) ∧ out = results.flatMap (render W o) := by
  constructor
  · intro h
    obtain ⟨ps1, ps2, results, rfl, h2, rfl, r, t, ps3, rfl, h5⟩ := extractLoop_some h
    exact ⟨ps1, (r, t), ps3, results, rfl, h2, h5, rfl⟩
  · rintro ⟨before, p, after, results, rfl, h2, h3, rfl⟩
    induction before generalizing results with
    | nil =>
      cases results with
      | nil => rw [List.nil_append, extractLoop, h3]; rfl
      | cons _ _ => cases h2
    | cons q before ih =>
      cases results with
      | nil => cases h2
      | cons res results =>
        simp only [List.map_cons, List.cons.injEq] at h2
        rw [List.cons_append, extractLoop, extractFrom_ok.2 h2.1]
        simp only
        rw [ih results h2.2, List.flatMap_cons]

/-- What is printed for an exception that is caught. -/
def Says : Exc → Str → Str → Prop
  | .syn t m, title, what => title = t ∧ what = m
  | .file m, title, what => title = lit "Error" ∧ what = m
  | .std m, title, what => title = lit "Error" ∧ what = m
  | .po _, _, _ => False
  | .crash, _, _ => False

theorem rejected_iff {place text title what : Str} :
    Rejected W place text title what ↔ ∃ e, parseText W place text = .error e ∧ Says e title what := by
  unfold parseText
  constructor
  · rintro (h | h | h)
    · exact ⟨.syn place what, by rw [h]; rfl, rfl, rfl⟩
    · exact ⟨.std (lit "stoi"), by rw [h]; rfl, rfl, rfl⟩
    · exact ⟨.std (lit "stoi"), by rw [h]; rfl, rfl, rfl⟩
  · rintro ⟨e, h, h2⟩
    split at h
    · cases h
    · rename_i m hm
      cases h
      obtain ⟨rfl, rfl⟩ := h2
      exact .syntax hm
    · rename_i hm
      cases h
      obtain ⟨rfl, rfl⟩ := h2
      exact .number (.inl hm)
    · rename_i hm
      cases h
      obtain ⟨rfl, rfl⟩ := h2
      exact .number (.inr hm)
    · cases h; cases h2

theorem extractFrom_err {r : Rule} {t : Str} {title what : Str} :
    (∃ e, extractFrom W o r t = some (.error e) ∧ Says e title what) ↔ resultOf W o.maxSearches r t = throw .maxSearch ∧
      title = lit "Error" ∧ what = lit "The allowed amount of searches was exhausted" := by
  unfold extractFrom resultOf
  simp only
  generalize extract W.rx (W.gumbo t).1 r (W.gumbo t).2 o.maxSearches = x
  constructor
  · rintro ⟨e, h, h2⟩
    split at h
    · cases h
    · cases h
    · cases h
      exact ⟨rfl, h2⟩
    · cases h; cases h2
  · rintro ⟨rfl, h⟩
    exact ⟨_, rfl, h⟩

theorem body_asked (ha : Asked o) : body W (.ok o) w = match parseFiles W o.hext w with
    | (.error e, _) => some ([], some e)
    | (.ok rs, w) =>
      match parseStrings W o.str with
      | .error e => some ([], some e)
      | .ok rs' =>
        if o.lint then some ([], none)
        else
          match readHtml W o.html w with
          | (.error e, _) => some ([], some e)
          | (.ok texts, _) => extractLoop W o (pairs (rs ++ rs') texts) := by
  simp only [body, (validate_iff ha.help ha.version).2 ha, ha.help, ha.version, Bool.false_eq_true, if_false]
  rfl

theorem body_failure (ha : Asked o) {out title what : Str} :
    (∃ e, body W (.ok o) w = some (out, some e) ∧ Says e title what) ↔ Failure W o w out title what := by
  rw [body_asked ha]
  constructor
  · rintro ⟨e, h, hs⟩
    rcases h1 : parseFiles W o.hext w with ⟨e1 | rs, w1⟩
    · rw [h1] at h
      simp only [Option.some.injEq, Prod.mk.injEq] at h
      obtain ⟨rfl, rfl⟩ := h
      obtain ⟨fs, f, gs, hexts, rules, w2, h2, h3, h4, ⟨m, h5, rfl⟩ | ⟨text, w3, h5, h6⟩⟩ := parseFiles_err.1 ⟨_, h1⟩
      · obtain ⟨rfl, rfl⟩ := hs
        exact .hextFile h2 h3 (areHexts_iff.1 h4) h5
      · exact .hextText h2 h3 (areHexts_iff.1 h4) h5 (rejected_iff.2 ⟨_, h6, hs⟩)
    · rw [h1] at h
      simp only at h
      obtain ⟨hexts, hr, hx⟩ := parseFiles_ok.1 h1
      cases h2 : parseStrings W o.str with
      | error e1 =>
        rw [h2] at h
        simp only [Option.some.injEq, Prod.mk.injEq] at h
        obtain ⟨rfl, rfl⟩ := h
        obtain ⟨pre, s, post, rules, h3, h4, h5⟩ := parseStrings_err.1 h2
        exact .hextString hr h3 (areHexts_iff.1 (hx.append h4)) (rejected_iff.2 ⟨_, h5, hs⟩)
      | ok rs' =>
        rw [h2] at h
        simp only at h
        have hacc := areHexts_iff.1 (hx.append (parseStrings_ok.1 h2))
        split at h
        · cases h
        · rename_i hl
          have hl : o.lint = false := by simpa using hl
          rcases h5 : readHtml W o.html w1 with ⟨e1 | texts, w2⟩
          · rw [h5] at h
            simp only [Option.some.injEq, Prod.mk.injEq] at h
            obtain ⟨rfl, rfl⟩ := h
            obtain ⟨fs, f, gs, texts, w3, m, h6, h7, h8, rfl⟩ := readHtml_err.1 ⟨_, h5⟩
            obtain ⟨rfl, rfl⟩ := hs
            exact .htmlFile hl hr hacc h6 h7 h8
          · rw [h5] at h
            obtain ⟨before, p, after, results, h6, h7, h8, rfl⟩ := extractLoop_err.1 h
            obtain ⟨h9, rfl, rfl⟩ := extractFrom_err.1 ⟨_, h8, hs⟩
            exact .limit hl hr hacc (readHtml_ok.1 h5) h6 h7 h9
  · intro h
    cases h with
    | hextFile h2 h3 h4 h5 =>
      obtain ⟨w', h6⟩ := (parseFiles_err (e := .file what)).2 ⟨_, _, _, _, _, _, h2, h3, areHexts_iff.2 h4, .inl ⟨_, h5, rfl⟩⟩
      exact ⟨.file what, by rw [h6], rfl, rfl⟩
    | hextText h2 h3 h4 h5 h6 =>
      obtain ⟨e, h7, h8⟩ := rejected_iff.1 h6
      obtain ⟨w', h6⟩ := (parseFiles_err (e := e)).2 ⟨_, _, _, _, _, _, h2, h3, areHexts_iff.2 h4, .inr ⟨_, _, h5, h7⟩⟩
      exact ⟨_, by rw [h6], h8⟩
    | hextString h1 h2 h3 h4 =>
      obtain ⟨rs, rs', rfl, h5, h6⟩ := AreHexts.split (areHexts_iff.2 h3)
      obtain ⟨e, h7, h8⟩ := rejected_iff.1 h4
      refine ⟨e, ?_, h8⟩
      rw [parseFiles_ok.2 ⟨_, h1, h5⟩]
      simp only
      rw [parseStrings_err.2 ⟨_, _, _, _, h2, h6, h7⟩]
    | htmlFile hl h1 h3 h4 h5 h6 =>
      obtain ⟨rs, rs', rfl, h7, h8⟩ := AreHexts.split (areHexts_iff.2 h3)
      obtain ⟨w', h9⟩ := (readHtml_err (e := .file what)).2 ⟨_, _, _, _, _, _, h4, h5, h6, rfl⟩
      refine ⟨.file what, ?_, rfl, rfl⟩
      rw [parseFiles_ok.2 ⟨_, h1, h7⟩]
      simp only
      rw [parseStrings_ok.2 h8]
      simp only [hl, Bool.false_eq_true, if_false]
      rw [h9]
    | limit hl h1 h3 h4 h5 h6 h7 =>
      obtain ⟨rs, rs', rfl, h8, h9⟩ := AreHexts.split (areHexts_iff.2 h3)
      obtain ⟨e, h10, h11⟩ := (extractFrom_err (W := W) (o := o)).2 ⟨h7, rfl, rfl⟩
      refine ⟨e, ?_, h11⟩
      rw [parseFiles_ok.2 ⟨_, h1, h8⟩]
      simp only
      rw [parseStrings_ok.2 h9]
      simp only [hl, Bool.false_eq_true, if_false]
      rw [readHtml_ok.2 h4]
      exact extractLoop_err.2 ⟨_, _, _, _, h5, h6, h10, rfl⟩

theorem message_eq (title what : Str) : errorLine W title what = message W title what := by
  unfold errorLine message
  cases W.ttyErr <;> simp [lit]

theorem body_argument {parsed : Except Str Opts} {out what : Str} :
    body W parsed w = some (out, some (.po what)) ↔ ArgumentFault parsed what ∧ out = [] := by
  cases parsed with
  | error m =>
    simp only [body, Option.some.injEq, Prod.mk.injEq, Exc.po.injEq]
    constructor
    · rintro ⟨rfl, rfl⟩; exact ⟨.options _, rfl⟩
    · rintro ⟨⟨⟩, rfl⟩; exact ⟨rfl, rfl⟩
  | ok o =>
    by_cases ha : Asked o
    · constructor
      · intro h
        exfalso
        rw [body_asked ha] at h
        rcases h1 : parseFiles W o.hext w with ⟨e1 | rs, w1⟩
        · rw [h1] at h
          simp only [Option.some.injEq, Prod.mk.injEq] at h
          obtain ⟨rfl, rfl⟩ := h
          obtain ⟨fs, f, gs, hexts, rules, w2, h2, h3, h4, ⟨m, h5, h6⟩ | ⟨text, w3, h5, h6⟩⟩ := parseFiles_err.1 ⟨_, h1⟩
          · cases h6
          · unfold parseText at h6
            split at h6 <;> cases h6
        · rw [h1] at h
          simp only at h
          cases h2 : parseStrings W o.str with
          | error e1 =>
            rw [h2] at h
            simp only [Option.some.injEq, Prod.mk.injEq] at h
            obtain ⟨rfl, rfl⟩ := h
            obtain ⟨pre, s, post, rules, h3, h4, h6⟩ := parseStrings_err.1 h2
            unfold parseText at h6
            split at h6 <;> cases h6
          | ok rs' =>
            rw [h2] at h
            simp only at h
            split at h
            · cases h
            · rcases h5 : readHtml W o.html w1 with ⟨e1 | texts, w2⟩
              · rw [h5] at h
                simp only [Option.some.injEq, Prod.mk.injEq] at h
                obtain ⟨rfl, rfl⟩ := h
                obtain ⟨fs, f, gs, texts, w3, m, h6, h7, h8, h9⟩ := readHtml_err.1 ⟨_, h5⟩
                cases h9
              · rw [h5] at h
                obtain ⟨before, p, after, results, h6, h7, h8, rfl⟩ := extractLoop_err.1 h
                unfold extractFrom at h8
                simp only at h8
                split at h8 <;> cases h8
      · rintro ⟨h, -⟩
        exfalso
        cases h with
        | noHext h1 h2 h3 h4 => exact ha.hexts.elim (fun h => h h3) (fun h => h h4)
        | noHtml h1 h2 h3 h4 h5 => exact ha.html.elim (fun h => by rw [h4] at h; cases h) (fun h => h h5)
    · constructor
      · intro h
        cases hh : o.help <;> cases hv : o.version <;> simp only [body, validate, hh, hv, Bool.or_self, Bool.or_true, Bool.true_or,
          Bool.false_eq_true, if_false, if_true] at h
        · by_cases h1 : o.hext = [] ∧ o.str = []
          · simp [h1.1, h1.2, throw, throwThe, MonadExceptOf.throw] at h
            obtain ⟨rfl, rfl⟩ := h
            exact ⟨.noHext hh hv h1.1 h1.2, rfl⟩
          · have h2 : o.hext ≠ [] ∨ o.str ≠ [] := by
              by_cases h3 : o.hext = []
              · exact .inr fun h4 => h1 ⟨h3, h4⟩
              · exact .inl h3
            have h3 : o.lint = false := by
              cases h4 : o.lint
              · rfl
              · exact absurd ⟨hh, hv, h2, .inl h4⟩ ha
            have h4 : o.html = [] := by
              by_cases h5 : o.html = []
              · exact h5
              · exact absurd ⟨hh, hv, h2, .inr h5⟩ ha
            simp [h1, h3, h4, throw, throwThe, MonadExceptOf.throw] at h
            obtain ⟨rfl, rfl⟩ := h
            exact ⟨.noHtml hh hv h2 h3 h4, rfl⟩
        all_goals cases h
      · rintro ⟨h, rfl⟩
        cases h with
        | noHext h1 h2 h3 h4 => simp [body, validate, h1, h2, h3, h4, throw, throwThe, MonadExceptOf.throw]
        | noHtml h1 h2 h3 h4 h5 =>
          have h6 : ¬ (o.hext = [] ∧ o.str = []) := fun h => h3.elim (fun k => k h.1) fun k => k h.2
          simp [body, validate, h1, h2, h4, h5, h6, throw, throwThe, MonadExceptOf.throw]

theorem not_says_po {m title what : Str} : ¬ Says (.po m) title what := id

theorem asked_of_says {parsed : Except Str Opts} {out title what : Str} {e : Exc} (h : body W parsed w = some (out, some e))
    (hs : Says e title what) : ∃ o, parsed = .ok o ∧ Asked o := by
  cases parsed with
  | error m => simp only [body, Option.some.injEq, Prod.mk.injEq] at h; rw [← h.2] at hs; cases hs
  | ok o =>
    refine ⟨o, rfl, ?_⟩
    cases hh : o.help <;> cases hv : o.version
    · cases hval : validate o with
      | ok _ => exact (validate_iff hh hv).1 hval
      | error e1 =>
        simp only [body, hval, Option.some.injEq, Prod.mk.injEq] at h
        obtain ⟨rfl, rfl⟩ := h
        unfold validate at hval
        repeat' split at hval
        all_goals first
          | cases hval; cases hs
          | cases hval
    all_goals simp [body, validate, hh, hv, pure, Except.pure] at h

/-- C90. Exactly when the program ends with exit code 1, what it has then printed, and its message: the arguments are wrong; or it stops
at the first hext file that cannot be read, the first hext that is rejected, the first HTML file that cannot be read, or the first
extraction that needs too many searches, in this order. -/
theorem C90_failure_iff (W : World σ) (parsed : Except Str Opts) (w : σ) (out err : Str) :
    main W parsed w = some (.exit 1 out err) ↔
      (∃ what, ArgumentFault parsed what ∧ out = [] ∧
        err = message W (lit "Argument error") what ++ if W.argc < 2 then lit "\n" ++ W.helpText else []) ∨
      ∃ o title what, parsed = .ok o ∧ Asked o ∧ Failure W o w out title what ∧ err = message W title what := by
  constructor
  · intro h
    have says : ∀ (e : Exc) (title what : Str), body W parsed w = some (out, some e) → Says e title what → err = errorLine W title what →
        ∃ o title what, parsed = .ok o ∧ Asked o ∧ Failure W o w out title what ∧ err = message W title what := by
      intro e title what h1 h2 h3
      obtain ⟨o, rfl, ha⟩ := asked_of_says h1 h2
      exact ⟨o, title, what, rfl, ha, (body_failure ha).1 ⟨e, h1, h2⟩, by rw [h3, message_eq]⟩
    unfold main at h
    split at h
    · cases h
    · cases h
    · rename_i out' title what hb
      cases h
      exact .inr (says _ title what hb ⟨rfl, rfl⟩ rfl)
    · rename_i out' what hb
      cases h
      exact .inr (says _ _ what hb ⟨rfl, rfl⟩ rfl)
    · rename_i out' what hb
      cases h
      obtain ⟨h1, rfl⟩ := body_argument.1 hb
      exact .inl ⟨what, h1, rfl, by rw [message_eq]; rfl⟩
    · rename_i out' what hb
      cases h
      exact .inr (says _ _ what hb ⟨rfl, rfl⟩ rfl)
    · cases h
  · rintro (⟨what, h1, rfl, rfl⟩ | ⟨o, title, what, rfl, ha, h1, rfl⟩)
    · rw [main, body_argument.2 ⟨h1, rfl⟩, ← message_eq]
      rfl
    · obtain ⟨e, h2, h3⟩ := (body_failure ha).2 h1
      rw [main, h2, ← message_eq]
      cases e with
      | po _ => cases h3
      | crash => cases h3
      | _ => obtain ⟨rfl, rfl⟩ := h3; rfl

/-- C90. Every run that ends, ends with exit code 0 and without a message, or as above with exit code 1, or it is undefined. -/
theorem C90_codes (W : World σ) (parsed : Except Str Opts) (w : σ) {code : Nat} {out err : Str}
    (h : main W parsed w = some (.exit code out err)) : (code = 0 ∧ err = []) ∨ code = 1 := by
  by_cases hc : code = 0
  · subst hc
    exact .inl ⟨rfl, (main_ok.1 h).1⟩
  · exact .inr (main_fail h hc).1

/-! ## Examples -/

/-- No hext is given. -/
example : main exWorld (.ok { html := [lit "a.html"] }) () =
    some (.exit 1 [] (lit "htmlext: Argument error: missing Hext input, use --hext/-x <file> or --str/-s <string>\n")) :=
  (C90_failure_iff exWorld _ () _ _).2 (.inl ⟨_, .noHext rfl rfl rfl rfl, rfl, by decide +kernel⟩)

/-- The HTML file is missing. -/
example : main exWorld (.ok { exOpts with html := [lit "no.html"] }) () =
    some (.exit 1 [] (lit "htmlext: Error: cannot access 'no.html': No such file or directory\n")) :=
  (C90_failure_iff exWorld _ () _ _).2 (.inr ⟨_, _, _, rfl, ⟨rfl, rfl, .inr (by simp [exOpts]), .inr (by simp)⟩,
    .htmlFile (fs := []) (gs := []) (hexts := []) (rules := [hrefRule]) (w1 := ()) (w2 := ()) rfl .nil
      (by
        unfold Accepted
        simp only [exOpts, List.nil_append, List.map_cons, List.map_nil]
        exact congrArg (fun x => [x]) (href_parsed Ex.rx true)) rfl .nil (.access (by decide) rfl), by decide +kernel⟩)

/-- The limit is one search. -/
example : main exWorld (.ok { exOpts with maxSearches := 1 }) () =
    some (.exit 1 [] (lit "htmlext: Error: The allowed amount of searches was exhausted\n")) := by
  refine (C90_failure_iff exWorld _ () _ _).2 (.inr ⟨_, _, _, rfl, ⟨rfl, rfl, .inr (by simp [exOpts]), .inr (by simp [exOpts])⟩,
    .limit (hexts := []) (rules := [hrefRule]) (texts := [lit "<a/>"]) (w1 := ()) (w2 := ()) (before := []) (after := [])
      (results := []) (p := (hrefRule, lit "<a/>")) rfl .nil ?_ (.cons (.inl rfl) .nil) rfl rfl ?_, by decide +kernel⟩)
  · unfold Accepted
    simp only [exOpts, List.nil_append, List.map_cons, List.map_nil]
    exact congrArg (fun x => [x]) (href_parsed Ex.rx true)
  · show extract Ex.rx Ex.heap hrefRule (Loc.root Ex.doc).ptr 1 = _
    rw [extract_eq (rx := Ex.rx) (h := Ex.heap) (n := manyChildren) (by decide)
      (parse_safe (noLong_of_few (by decide)) (href_parsed Ex.rx true)) (l := Loc.root Ex.doc) (isDocument_of_ok (by decide +kernel))]
    decide +kernel

end Hext.Props
