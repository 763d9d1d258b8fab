import Verif.Proofs.Cli
import Verif.Proofs.NoNul
import Verif.Props.Whole
/-!
# The command line program (C43, C44, C50 to C54)
-/

namespace Hext.Props

open Cli

variable {σ : Type} {W : World σ} {o : Opts} {w : σ}

/-! ## C50: success -/

theorem body_run (hh : o.help = false) (hv : o.version = false) (hl : o.lint = false) (hx : o.hext ≠ [] ∨ o.str ≠ [])
    (hi : o.html ≠ []) : body W (.ok o) w =
      match parseFiles W o.hext w with
      | (.error e, _) => some ([], some e)
      | (.ok rs, w) =>
        match parseStrings W o.str with
        | .error e => some ([], some e)
        | .ok rs' =>
          match readHtml W o.html w with
          | (.error e, _) => some ([], some e)
          | (.ok texts, _) => extractLoop W o (pairs (rs ++ rs') texts) := by
  have hval : validate o = .ok () := by
    unfold validate
    have h1 : (o.hext.isEmpty && o.str.isEmpty) = false := by
      rcases hx with h | h
      · cases h' : o.hext with
        | nil => exact absurd h' h
        | cons _ _ => simp
      · cases h' : o.str with
        | nil => exact absurd h' h
        | cons _ _ => simp
    have h2 : o.html.isEmpty = false := by cases h' : o.html with | nil => exact absurd h' hi | cons _ _ => simp
    simp [hh, hv, hl, h1, h2]
    rfl
  simp [body, hval, hh, hv, hl]
  rfl

theorem main_ok {parsed : Except Str Opts} {out err : Str} : main W parsed w = some (.exit 0 out err) ↔
    err = [] ∧ body W parsed w = some (out, none) := by
  unfold main
  rcases h : body W parsed w with _ | ⟨out', _ | e⟩
  · simp
  · simp only [Option.some.injEq, Outcome.exit.injEq, true_and, Prod.mk.injEq, and_true]
    constructor
    · rintro ⟨rfl, rfl⟩; exact ⟨rfl, rfl⟩
    · rintro ⟨rfl, rfl⟩; exact ⟨rfl, rfl⟩
  · cases e <;> simp

/-- C50. With hexts and HTML files given, the program exits with code 0 if and only if all files can be read, all hexts are
accepted and all extractions return a result. It then prints what is asked for, for every rule and every document, in the order
of the hext files, then the hext strings, and for each of them in the order of the HTML files; and nothing else. -/
theorem C50_success (hh : o.help = false) (hv : o.version = false) (hl : o.lint = false) (hx : o.hext ≠ [] ∨ o.str ≠ [])
    (hi : o.html ≠ []) (out err : Str) : main W (.ok o) w = some (.exit 0 out err) ↔
      err = [] ∧ ∃ rules texts results, Succeeds W o w rules texts results ∧ out = results.flatMap (render W o) := by
  rw [main_ok, body_run hh hv hl hx hi]
  refine and_congr_right fun _ => ?_
  constructor
  · intro h
    split at h
    · cases h
    · rename_i rs w1 h1
      obtain ⟨hs, h2, h3⟩ := parseFiles_ok.1 h1
      split at h
      · cases h
      · rename_i rs' h4
        have h5 := parseStrings_ok.1 h4
        split at h
        · cases h
        · rename_i texts w2 h6
          obtain ⟨ps1, ps2, results, h7, h8, h9, rfl⟩ := extractLoop_some h
          rw [List.append_nil] at h7
          subst h7
          exact ⟨rs ++ rs', texts, results, ⟨hs, w1, w2, h2, areHexts_iff.1 (h3.append h5), readHtml_ok.1 h6, pairs_map.1 h8⟩, h9⟩
  · rintro ⟨rules, texts, results, ⟨hs, w1, w2, h1, h2, h3, h4⟩, rfl⟩
    obtain ⟨rs, rs', rfl, h5, h6⟩ := AreHexts.split (areHexts_iff.2 h2)
    rw [parseFiles_ok.2 ⟨hs, h1, h5⟩]
    simp only
    rw [parseStrings_ok.2 h6]
    simp only
    rw [readHtml_ok.2 h3]
    simp only
    exact extractLoop_ok (pairs_map.2 h4)

/-! ## C51: failure -/

theorem errorLine_ne (title what : Str) : errorLine W title what ≠ [] := by simp [errorLine]

theorem main_fail {parsed : Except Str Opts} {code : Nat} {out err : Str} (h : main W parsed w = some (.exit code out err))
    (hc : code ≠ 0) : code = 1 ∧ err ≠ [] ∧ ∃ e, body W parsed w = some (out, some e) := by
  unfold main at h
  split at h
  · cases h
  · simp only [Option.some.injEq, Outcome.exit.injEq] at h
    exact absurd h.1.symm hc
  · simp only [Option.some.injEq, Outcome.exit.injEq] at h
    obtain ⟨rfl, rfl, rfl⟩ := h
    exact ⟨rfl, errorLine_ne _ _, _, by assumption⟩
  · simp only [Option.some.injEq, Outcome.exit.injEq] at h
    obtain ⟨rfl, rfl, rfl⟩ := h
    exact ⟨rfl, errorLine_ne _ _, _, by assumption⟩
  · simp only [Option.some.injEq, Outcome.exit.injEq] at h
    obtain ⟨rfl, rfl, rfl⟩ := h
    exact ⟨rfl, by simp [errorLine], _, by assumption⟩
  · simp only [Option.some.injEq, Outcome.exit.injEq] at h
    obtain ⟨rfl, rfl, rfl⟩ := h
    exact ⟨rfl, errorLine_ne _ _, _, by assumption⟩
  · cases h

/-- C51. If the program ends with an exit code other than 0, then the code is 1 and there is an error message. Nothing was
printed to standard output, unless all files were read and all hexts accepted: then what was printed are the results of the
rules and documents before the first one without a result. -/
theorem C51_failure {parsed : Except Str Opts} {code : Nat} {out err : Str}
    (h : main W parsed w = some (.exit code out err)) (hc : code ≠ 0) : code = 1 ∧ err ≠ [] ∧
      (out = [] ∨ ∃ (o : Opts) (hexts : List Str) (rules : List Rule) (texts : List Str) (w1 w2 : σ)
        (before : List (Rule × Str)) (p : Rule × Str) (after : List (Rule × Str)) (results : List (List (List (Str × Str)))),
        parsed = .ok o ∧ Reads W o.hext w hexts w1 ∧
        (hexts ++ o.str).map (parseHextC W.rx W.charSigned) = rules.map .ok ∧ Reads W o.html w1 texts w2 ∧
        (rules.flatMap fun r => texts.map fun t => (r, t)) = before ++ p :: after ∧
        before.map (fun x => resultOf W o.maxSearches x.1 x.2) = results.map pure ∧
        (∀ res, resultOf W o.maxSearches p.1 p.2 ≠ pure res) ∧ out = results.flatMap (render W o)) := by
  obtain ⟨h1, h2, e, h3⟩ := main_fail h hc
  refine ⟨h1, h2, ?_⟩
  clear h
  unfold body at h3
  split at h3
  · cases h3; exact .inl rfl
  · rename_i o
    split at h3
    · cases h3; exact .inl rfl
    · split at h3
      · cases h3
      · split at h3
        · cases h3
        · split at h3
          · cases h3; exact .inl rfl
          · rename_i rs w1 h4
            obtain ⟨hs, h5, h6⟩ := parseFiles_ok.1 h4
            split at h3
            · cases h3; exact .inl rfl
            · rename_i rs' h7
              have h8 := parseStrings_ok.1 h7
              split at h3
              · cases h3
              · split at h3
                · cases h3; exact .inl rfl
                · rename_i texts w2 h9
                  obtain ⟨ps1, ps2, results, h10, h11, h12, r, t, ps3, rfl, h13⟩ := extractLoop_some h3
                  refine .inr ⟨o, hs, rs ++ rs', texts, w1, w2, ps1, (r, t), ps3, results, rfl, h5,
                    areHexts_iff.1 (h6.append h8), readHtml_ok.1 h9, h10, h11, ?_, h12⟩
                  intro res hres
                  have := (extractFrom_ok (o := o)).2 hres
                  rw [h13] at this
                  cases this

/-- C51. A hext file that is rejected with a `SyntaxError` stops the program before anything is printed; the message names
the file. -/
theorem C51_rejected (hh : o.help = false) (hv : o.version = false) (hi : o.lint = true ∨ o.html ≠ []) {fs gs : List Str}
    {f text what : Str} {hexts : List Str} {rules : List Rule} {w1 w2 : σ} (ho : o.hext = fs ++ f :: gs)
    (hr : Reads W fs w hexts w1) (ha : hexts.map (parseHextC W.rx W.charSigned) = rules.map .ok) (hc : Contents W f w1 text w2)
    (he : parseHextC W.rx W.charSigned text = .error (.syntax what)) :
    main W (.ok o) w = some (.exit 1 [] (errorLine W (lit "Error in " ++ f) what)) := by
  have hval : validate o = .ok () := by
    unfold validate
    have h1 : (o.hext.isEmpty && o.str.isEmpty) = false := by rw [ho]; cases fs <;> simp
    rcases hi with h | h
    · simp [hh, hv, h, h1]; rfl
    · have h2 : o.html.isEmpty = false := by cases h' : o.html with | nil => exact absurd h' h | cons _ _ => simp
      simp [hh, hv, h1, h2]; rfl
  have hp : parseFiles W o.hext w = (.error (.syn (lit "Error in " ++ f) what), w2) := by
    rw [ho]
    clear ho
    have key : ∀ (fs : List Str) (w : σ) (hexts : List Str) (rules : List Rule), Reads W fs w hexts w1 → AreHexts W hexts rules →
        parseFiles W (fs ++ f :: gs) w = (.error (.syn (lit "Error in " ++ f) what), w2) := by
      intro fs
      induction fs with
      | nil =>
        intro w hexts rules h1 h2
        cases h1
        rw [List.nil_append, parseFiles, readFile_ok.2 hc]
        simp only [parseText, he]
        rfl
      | cons g fs ih =>
        intro w hexts rules h1 h2
        cases h1 with
        | cons h3 h4 =>
          cases h2 with
          | cons h5 h6 =>
            rw [List.cons_append, parseFiles, readFile_ok.2 h3]
            simp only
            rw [parseText_ok.2 h5]
            simp only
            rw [ih _ _ _ h4 h6]
            rfl
    exact key fs w hexts rules hr (areHexts_iff.2 ha)
  simp [main, body, hval, hh, hv, hp]

/-! ## C52: --lint -/

/-- C52. With --lint the program exits with code 0 if and only if all hext files can be read and all hexts are accepted. It prints
nothing, and HTML files make no difference. -/
theorem C52_lint (hh : o.help = false) (hv : o.version = false) (hl : o.lint = true) (hx : o.hext ≠ [] ∨ o.str ≠ [])
    (out err : Str) : main W (.ok o) w = some (.exit 0 out err) ↔ err = [] ∧ out = [] ∧
      ∃ (hexts : List Str) (w1 : σ) (rules : List Rule), Reads W o.hext w hexts w1 ∧
         (hexts ++ o.str).map (parseHextC W.rx W.charSigned) = rules.map .ok := by
  rw [main_ok]
  refine and_congr_right fun _ => ?_
  have hval : validate o = .ok () := by
    unfold validate
    have h1 : (o.hext.isEmpty && o.str.isEmpty) = false := by
      rcases hx with h | h
      · cases h' : o.hext with
        | nil => exact absurd h' h
        | cons _ _ => simp
      · cases h' : o.str with
        | nil => exact absurd h' h
        | cons _ _ => simp
    simp [hh, hv, hl, h1]
    rfl
  simp only [body, hval, hh, hv, hl, Bool.false_eq_true, if_false, if_true]
  constructor
  · intro h
    split at h
    · cases h
    · rename_i rs w1 h1
      obtain ⟨hs, h2, h3⟩ := parseFiles_ok.1 h1
      split at h
      · cases h
      · rename_i rs' h4
        cases h
        exact ⟨rfl, hs, w1, rs ++ rs', h2, areHexts_iff.1 (h3.append (parseStrings_ok.1 h4))⟩
  · rintro ⟨rfl, hs, w1, rules, h1, h2⟩
    obtain ⟨rs, rs', rfl, h5, h6⟩ := AreHexts.split (areHexts_iff.2 h2)
    rw [parseFiles_ok.2 ⟨hs, h1, h5⟩]
    simp only
    rw [parseStrings_ok.2 h6]

/-! ## C54: the program always ends properly -/

/-- Hexts that the parser and the matching engine can deal with, see C34 and C07. -/
def HextSafe (charSigned : Bool) (text : Str) : Prop :=
  NoLong (cstr text) ∧ CharSafe charSigned (cstr text) ∧ (cstr text).length ≤ 2147483645

/-- Gumbo makes documents, with at most 1147483648 children of each node. -/
def GumboSafe (W : World σ) : Prop :=
  ∀ text, ∃ t, IsDocument (W.gumbo text).1 1147483648 t ∧ t.ptr = (W.gumbo text).2

theorem parseText_safe {title text : Str} (h : HextSafe W.charSigned text) :
    (∃ r, parseText W title text = .ok r ∧ r.Safe manyChildren) ∨ ∃ e, parseText W title text = .error e ∧ e ≠ .crash := by
  unfold parseText
  rcases C34_parse_safe_partial W.rx W.charSigned (cstr text) h.2.1 h.2.2 with ⟨r, hr⟩ | ⟨m, hm⟩ | hm
  · exact .inl ⟨r, by rw [parseHextC, hr]; rfl, parse_safe h.1 hr⟩
  · exact .inr ⟨_, by rw [parseHextC, hm]; rfl, by simp⟩
  · exact .inr ⟨_, by rw [parseHextC, hm]; rfl, by simp⟩

theorem parseStrings_safe : ∀ {ss : List Str}, (∀ s ∈ ss, HextSafe W.charSigned s) →
    (∃ rs, parseStrings W ss = .ok rs ∧ ∀ r ∈ rs, r.Safe manyChildren) ∨ ∃ e, parseStrings W ss = .error e ∧ e ≠ .crash
  | [], _ => .inl ⟨[], rfl, by simp⟩
  | s :: ss, h => by
    rw [parseStrings]
    rcases parseText_safe (title := lit "Error in <hext-string>") (h s (by simp)) with ⟨r, hr, h1⟩ | ⟨e, he, h1⟩
    · rw [hr]
      rcases parseStrings_safe fun s hs => h s (List.mem_cons_of_mem _ hs) with ⟨rs, hrs, h2⟩ | ⟨e, he, h2⟩
      · exact .inl ⟨r :: rs, by rw [hrs]; rfl, by simpa using ⟨h1, h2⟩⟩
      · exact .inr ⟨e, by rw [he]; rfl, h2⟩
    · exact .inr ⟨e, by rw [he]; rfl, h1⟩

theorem readPath_safe {p : Str} {w w' : σ} {e : Exc} (h : readPath W p w = (.error e, w')) : e ≠ .crash := by
  unfold readPath at h
  split at h <;> simp [throw, throwThe, MonadExceptOf.throw, pure, Except.pure] at h <;> rw [← h.1] <;> simp

theorem readFile_safe {p : Str} {w w' : σ} {e : Exc} (h : readFile W p w = (.error e, w')) : e ≠ .crash := by
  unfold readFile at h
  split at h
  · split at h
    · exact readPath_safe h
    · simp [throw, throwThe, MonadExceptOf.throw] at h
      rw [← h.1]; simp
    · simp [pure, Except.pure] at h
  · exact readPath_safe h

theorem readHtml_safe : ∀ {ps : List Str} {w w' : σ} {e : Exc}, readHtml W ps w = (.error e, w') → e ≠ .crash
  | [], _, _, _, h => by simp [readHtml, pure, Except.pure] at h
  | p :: ps, w, w', e, h => by
    rw [readHtml] at h
    split at h
    · rename_i h1
      simp only [throw, throwThe, MonadExceptOf.throw, Prod.mk.injEq, Except.error.injEq] at h
      obtain ⟨rfl, rfl⟩ := h
      exact readFile_safe h1
    · split at h
      · rename_i h1
        simp only [throw, throwThe, MonadExceptOf.throw, Prod.mk.injEq, Except.error.injEq] at h
        obtain ⟨rfl, rfl⟩ := h
        exact readHtml_safe h1
      · simp [pure, Except.pure] at h

theorem parseFiles_safe : ∀ {ps : List Str} {w : σ},
    (∀ p ∈ ps, ∀ w s w', Contents W p w s w' → HextSafe W.charSigned s) →
    (∃ rs w', parseFiles W ps w = (.ok rs, w') ∧ ∀ r ∈ rs, r.Safe manyChildren) ∨
      ∃ e w', parseFiles W ps w = (.error e, w') ∧ e ≠ .crash
  | [], w, _ => .inl ⟨[], w, rfl, by simp⟩
  | p :: ps, w, h => by
    rw [parseFiles]
    rcases h1 : readFile W p w with ⟨e | text, w1⟩
    · exact .inr ⟨e, w1, rfl, readFile_safe h1⟩
    · simp only
      rcases parseText_safe (title := lit "Error in " ++ p) (h p (by simp) _ _ _ (readFile_ok.1 h1)) with ⟨r, hr, h2⟩ | ⟨e, he, h2⟩
      · rw [hr]
        simp only
        rcases parseFiles_safe (w := w1) fun p hp => h p (List.mem_cons_of_mem _ hp) with ⟨rs, w2, hrs, h3⟩ | ⟨e, w2, he, h3⟩
        · exact .inl ⟨r :: rs, w2, by rw [hrs]; rfl, by simpa using ⟨h2, h3⟩⟩
        · exact .inr ⟨e, w2, by rw [he]; rfl, h3⟩
      · exact .inr ⟨e, w1, by rw [he]; rfl, h2⟩

theorem extractFrom_safe (hg : GumboSafe W) {r : Rule} (hr : r.Safe manyChildren) (t : Str) :
    (∃ res, extractFrom W o r t = some (.ok res)) ∨ ∃ e, extractFrom W o r t = some (.error e) ∧ e ≠ .crash := by
  obtain ⟨d, h1, h2⟩ := hg t
  have := extract_document_safe (rx := W.rx) (n := manyChildren) (by decide) hr h1 o.maxSearches
  rw [h2] at this
  rcases this with ⟨res, h⟩ | ⟨_, h⟩
  · exact .inl ⟨res, extractFrom_ok.2 h⟩
  · refine .inr ⟨.std (lit "The allowed amount of searches was exhausted"), ?_, by simp⟩
    simp only [extractFrom, h]; rfl

theorem extractLoop_safe (hg : GumboSafe W) : ∀ {ps : List (Rule × Str)}, (∀ p ∈ ps, p.1.Safe manyChildren) →
    ∃ out e, extractLoop W o ps = some (out, e) ∧ e ≠ some .crash
  | [], _ => ⟨[], none, rfl, by simp⟩
  | (r, t) :: ps, h => by
    rw [extractLoop]
    rcases extractFrom_safe (o := o) hg (h (r, t) (by simp)) t with ⟨res, h1⟩ | ⟨e, h1, h2⟩
    · obtain ⟨out, e, h3, h4⟩ := extractLoop_safe hg (ps := ps) fun p hp => h p (List.mem_cons_of_mem _ hp)
      exact ⟨_, e, by rw [h1]; simp only; rw [h3], h4⟩
    · exact ⟨[], some e, by rw [h1], by simpa using h2⟩

/-- C54. The program ends with an exit code, without undefined behaviour and without a failed assertion, whatever the arguments
and files are, if Gumbo makes documents and the hexts are safe. (What is missing: hexts that are not safe, see `C54_crashes`.) -/
theorem C54_always_exits_partial (parsed : Except Str Opts) (w : σ) (hg : GumboSafe W)
    (hf : ∀ o, parsed = .ok o → ∀ p ∈ o.hext, ∀ w s w', Contents W p w s w' → HextSafe W.charSigned s)
    (hs : ∀ o, parsed = .ok o → ∀ s ∈ o.str, HextSafe W.charSigned s) :
    ∃ code out err, main W parsed w = some (.exit code out err) := by
  have key : ∃ out e, body W parsed w = some (out, e) ∧ e ≠ some .crash := by
    unfold body
    split
    · exact ⟨_, _, rfl, by simp⟩
    · rename_i o
      split
      · rename_i e h
        refine ⟨_, _, rfl, ?_⟩
        unfold validate at h
        repeat' split at h
        all_goals simp [throw, throwThe, MonadExceptOf.throw, pure, Except.pure] at h
        all_goals rw [← h]; simp
      · split
        · exact ⟨_, _, rfl, by simp⟩
        · split
          · exact ⟨_, _, rfl, by simp⟩
          · rcases parseFiles_safe (w := w) (hf o rfl) with ⟨rs, w1, h1, h2⟩ | ⟨e, w1, h1, h2⟩
            · rw [h1]
              simp only
              rcases parseStrings_safe (hs o rfl) with ⟨rs', h3, h4⟩ | ⟨e, h3, h4⟩
              · rw [h3]
                simp only
                split
                · exact ⟨_, _, rfl, by simp⟩
                · rcases h5 : readHtml W o.html w1 with ⟨e | texts, w2⟩
                  · exact ⟨_, _, rfl, by simpa using readHtml_safe h5⟩
                  · simp only
                    apply extractLoop_safe hg
                    intro p hp
                    simp only [pairs, List.mem_flatMap, List.mem_map] at hp
                    obtain ⟨r, hr, t, _, rfl⟩ := hp
                    rcases List.mem_append.1 hr with hr | hr
                    · exact h2 r hr
                    · exact h4 r hr
              · rw [h3]
                exact ⟨_, _, rfl, by simpa using h4⟩
            · rw [h1]
              exact ⟨_, _, rfl, by simpa using h2⟩
  obtain ⟨out, e, h1, h2⟩ := key
  unfold main
  rw [h1]
  rcases e with _ | e
  · exact ⟨_, _, _, rfl⟩
  · cases e with
    | crash => exact absurd rfl h2
    | _ => exact ⟨_, _, _, rfl⟩

/-! ## The results of a run -/

/-- What is known about the surroundings: Gumbo makes documents of C strings, the regular expressions make no NUL, and the hexts
are safe. -/
def Reliable (W : World σ) (o : Opts) : Prop :=
  GumboSafe W ∧ (∀ text, (W.gumbo text).1.NoNul) ∧ W.rx.NoNul ∧
    (∀ p ∈ o.hext, ∀ w s w', Contents W p w s w' → HextSafe W.charSigned s) ∧ ∀ s ∈ o.str, HextSafe W.charSigned s

theorem reads_safe {P : Str → Prop} : ∀ {ps : List Str} {w w' : σ} {ss : List Str}, Reads W ps w ss w' →
    (∀ p ∈ ps, ∀ w s w', Contents W p w s w' → P s) → ∀ s ∈ ss, P s
  | [], _, _, _, h, _ => by cases h; simp
  | p :: ps, w, w', ss, h, hp => by
    cases h with
    | cons h1 h2 =>
      intro s hs
      rcases List.mem_cons.1 hs with rfl | hs
      · exact hp p (by simp) _ _ _ h1
      · exact reads_safe h2 (fun p hm => hp p (by simp [hm])) s hs

/-- Every map of the results of a successful run is sorted, not empty, and free of NUL. -/
theorem results_good (hw : Reliable W o) {rules texts results} (hs : Succeeds W o w rules texts results) :
    ∀ res ∈ results, ∀ m ∈ res, m ≠ [] ∧ (∃ vs, IsMap vs m) ∧ NoNul m := by
  obtain ⟨hexts, w1, w2, h1, h2, h3, h4⟩ := hs
  obtain ⟨g1, g2, g3, g4, g5⟩ := hw
  intro res hres
  have hmem : pure res ∈ results.map (pure : List (List (Str × Str)) → E _) := List.mem_map_of_mem hres
  unfold AllResults at h4
  rw [← h4] at hmem
  obtain ⟨r, hr, hmem⟩ := List.mem_flatMap.1 hmem
  obtain ⟨t, ht, he⟩ := List.mem_map.1 hmem
  have hp : (Except.ok r : P Rule) ∈ rules.map Except.ok := List.mem_map_of_mem hr
  rw [← h2] at hp
  obtain ⟨x, hx, hp⟩ := List.mem_map.1 hp
  have hsafe : HextSafe W.charSigned x := by
    rcases List.mem_append.1 hx with hx | hx
    · exact reads_safe h1 g4 x hx
    · exact g5 x hx
  obtain ⟨d, hd, hptr⟩ := g1 t
  have hrs := parse_safe hsafe.1 hp
  unfold resultOf at he
  rw [← hptr] at he
  have hir := extract_isResult (l := Loc.root d) (n := manyChildren) (by decide) hrs hd he
  intro m hm
  have hn := isResult_noNul g3 (g2 t) hd (parse_noNul (cstr_nf _) hp) hrs hir m hm
  obtain ⟨gs, ms, _, hms, rfl⟩ := hir
  obtain ⟨hm1, hm2⟩ := List.mem_filter.1 hm
  obtain ⟨g, _, vs, _, him⟩ := hms.mem hm1
  exact ⟨by simpa using hm2, ⟨vs, him⟩, hn⟩

/-! ## C43: --filter -/

theorem printFilter_values (key : Str) (res : List (List (Str × Str))) :
    printFilter key res = (res.flatMap fun m => valuesOf m key).flatMap (· ++ [10]) := by
  unfold printFilter
  rw [List.flatMap_assoc]
  congr 1
  funext m
  unfold valuesOf
  rw [List.flatMap_map]
  induction m with
  | nil => rfl
  | cons p m ih =>
    rw [List.flatMap_cons, ih, List.filter_cons]
    by_cases h : p.1 = key
    · simp [h]
    · simp [h]

/-- C43. With --filter key a successful run prints the values of the key, each followed by a line break, in the order of the
results, and nothing else. -/
theorem C43_filter (hh : o.help = false) (hv : o.version = false) (hl : o.lint = false) (hx : o.hext ≠ [] ∨ o.str ≠ [])
    (hi : o.html ≠ []) {key : Str} (hf : o.filter = some key) {out err : Str}
    (h : main W (.ok o) w = some (.exit 0 out err)) :
    ∃ rules texts results, Succeeds W o w rules texts results ∧
      out = (results.flatten.flatMap fun m => valuesOf m key).flatMap (· ++ [10]) := by
  obtain ⟨_, rules, texts, results, h1, rfl⟩ := (C50_success hh hv hl hx hi out err).1 h
  refine ⟨rules, texts, results, h1, ?_⟩
  have : render W o = printFilter key := by funext res; simp [render, hf]
  rw [this]
  clear h h1
  induction results with
  | nil => rfl
  | cons res results ih =>
    rw [List.flatMap_cons, ih, printFilter_values, List.flatten_cons, List.flatMap_append, List.flatMap_append]

/-- C43, lines: if no value of the key contains a line break, then the lines of the output are these values. (What is missing:
values with line breaks are printed as they are, see below.) -/
theorem C43_filter_lines_partial (hh : o.help = false) (hv : o.version = false) (hl : o.lint = false)
    (hx : o.hext ≠ [] ∨ o.str ≠ []) (hi : o.html ≠ []) {key : Str} (hf : o.filter = some key) {out err : Str}
    (h : main W (.ok o) w = some (.exit 0 out err)) :
    ∃ rules texts results, Succeeds W o w rules texts results ∧
      ((∀ res ∈ results, ∀ m ∈ res, ∀ v ∈ valuesOf m key, (10 : Byte) ∉ v) →
        Lines out (results.flatten.flatMap fun m => valuesOf m key)) := by
  obtain ⟨rules, texts, results, h1, rfl⟩ := C43_filter hh hv hl hx hi hf h
  refine ⟨rules, texts, results, h1, fun hn => ?_⟩
  have key : ∀ vs : List Str, (∀ v ∈ vs, (10 : Byte) ∉ v) → Lines (vs.flatMap (· ++ [10])) vs := by
    intro vs
    induction vs with
    | nil => intro _; exact .nil
    | cons v vs ih =>
      intro hv
      rw [List.flatMap_cons, List.append_assoc]
      exact .cons (hv v (by simp)) (ih fun x hx => hv x (by simp [hx]))
  apply key
  intro v hv
  obtain ⟨m, hm, hv⟩ := List.mem_flatMap.1 hv
  obtain ⟨res, hres, hm⟩ := List.mem_flatten.1 hm
  exact hn res hres m hm v hv

/-- C43, exactly: the lines of the output are the values of the key if and only if none of them contains a line break. -/
theorem C43_filter_lines_iff (hh : o.help = false) (hv : o.version = false) (hl : o.lint = false)
    (hx : o.hext ≠ [] ∨ o.str ≠ []) (hi : o.html ≠ []) {key : Str} (hf : o.filter = some key) {out err : Str}
    (h : main W (.ok o) w = some (.exit 0 out err)) :
    ∃ rules texts results, Succeeds W o w rules texts results ∧
      (Lines out (results.flatten.flatMap fun m => valuesOf m key) ↔
        ∀ res ∈ results, ∀ m ∈ res, ∀ v ∈ valuesOf m key, (10 : Byte) ∉ v) := by
  obtain ⟨rules, texts, results, h1, h2⟩ := C43_filter_lines_partial hh hv hl hx hi hf h
  refine ⟨rules, texts, results, h1, fun hL res hres m hm v hv => ?_, h2⟩
  have key : ∀ {s : Str} {vs : List Str}, Lines s vs → ∀ v ∈ vs, (10 : Byte) ∉ v := by
    intro s vs h
    induction h with
    | nil => simp
    | cons h _ ih =>
      intro v hv
      rcases List.mem_cons.1 hv with rfl | hv
      · exact h
      · exact ih v hv
  exact key hL v (List.mem_flatMap.2 ⟨m, List.mem_flatten.2 ⟨res, hres, hm⟩, hv⟩)

/-- C43 fails for values with line breaks: two results with different values print the same. -/
theorem C43_filter_ambiguous (W : World σ) (key : Str) :
    render W { filter := some key } [[(key, lit "1\n2")]] = render W { filter := some key } [[(key, lit "1"), (key, lit "2")]] := by
  simp [render, printFilter]; decide

/-! ## C44, C53: JSON -/

/-- C44. Without --filter and --array a successful run prints, for every rule and document, each group of the result as one
JSON object that presents it, followed by a line break. -/
theorem C44_objects (hh : o.help = false) (hv : o.version = false) (hl : o.lint = false) (hx : o.hext ≠ [] ∨ o.str ≠ [])
    (hi : o.html ≠ []) (hf : o.filter = none) (ha : o.array = false) (hw : Reliable W o) {out err : Str}
    (h : main W (.ok o) w = some (.exit 0 out err)) :
    ∃ rules texts results, Succeeds W o w rules texts results ∧ Prints JsonLines results out := by
  obtain ⟨_, rules, texts, results, h1, rfl⟩ := (C50_success hh hv hl hx hi out err).1 h
  have hg := results_good hw h1
  refine ⟨rules, texts, results, h1, prints_flatMap fun res hres => ?_⟩
  simp only [render, hf, jsonOptions, ha]
  exact printJson_lines (fun m hm => by obtain ⟨vs, h⟩ := (hg res hres m hm).2.1; exact h.1) fun m hm => (hg res hres m hm).2.2

/-- C44. With --array a successful run prints one JSON array for every rule and document, with one object for every group of
the result, in order, if no result is empty. (What is missing: for an empty result nothing is printed, see below.) -/
theorem C44_array_partial (hh : o.help = false) (hv : o.version = false) (hl : o.lint = false) (hx : o.hext ≠ [] ∨ o.str ≠ [])
    (hi : o.html ≠ []) (hf : o.filter = none) (ha : o.array = true) (hw : Reliable W o) {out err : Str}
    (h : main W (.ok o) w = some (.exit 0 out err)) :
    ∃ rules texts results, Succeeds W o w rules texts results ∧
      ((∀ res ∈ results, res ≠ []) → Prints JsonArray results out) := by
  obtain ⟨_, rules, texts, results, h1, rfl⟩ := (C50_success hh hv hl hx hi out err).1 h
  have hg := results_good hw h1
  refine ⟨rules, texts, results, h1, fun hne => prints_flatMap fun res hres => ?_⟩
  simp only [render, hf, jsonOptions, ha]
  exact printJson_array (fun m hm => by obtain ⟨vs, h⟩ := (hg res hres m hm).2.1; exact h.1) (fun m hm => (hg res hres m hm).2.2)
    (hne res hres)

/-- C44 fails for empty results: nothing is printed, which is no JSON text. -/
theorem C44_array_empty (W : World σ) : render W { array := true } [] = [] ∧ ∀ out, JsonArray [] out → out ≠ [] := by
  refine ⟨rfl, ?_⟩
  rintro out ⟨os, s, _, _, _, rfl⟩
  simp

/-- C44, exactly. With --array a successful run prints one JSON array for every result that is not empty, and nothing for an
empty one. The whole output is one JSON array with every group of the results if and only if exactly one result is not empty. -/
theorem C44_array_iff (hh : o.help = false) (hv : o.version = false) (hl : o.lint = false) (hx : o.hext ≠ [] ∨ o.str ≠ [])
    (hi : o.html ≠ []) (hf : o.filter = none) (ha : o.array = true) (hw : Reliable W o) {out err : Str}
    (h : main W (.ok o) w = some (.exit 0 out err)) :
    ∃ rules texts results, Succeeds W o w rules texts results ∧
      Prints (fun res s => (res = [] ∧ s = []) ∨ (res ≠ [] ∧ JsonArray res s)) results out ∧
      (JsonArray results.flatten out ↔ ∃ before res after, results = before ++ res :: after ∧ res ≠ [] ∧
        (∀ r ∈ before, r = []) ∧ ∀ r ∈ after, r = []) := by
  obtain ⟨_, rules, texts, results, h1, rfl⟩ := (C50_success hh hv hl hx hi out err).1 h
  have hg := results_good hw h1
  have hone : ∀ res ∈ results, (res = [] ∧ render W o res = []) ∨ (res ≠ [] ∧ JsonArray res (render W o res)) := by
    intro res hres
    simp only [render, hf, jsonOptions, ha]
    by_cases hne : res = []
    · subst hne; exact .inl ⟨rfl, rfl⟩
    · exact .inr ⟨hne, printJson_array (fun m hm => by obtain ⟨vs, h⟩ := (hg res hres m hm).2.1; exact h.1)
        (fun m hm => (hg res hres m hm).2.2) hne⟩
  refine ⟨rules, texts, results, h1, prints_flatMap hone, ?_⟩
  clear h h1 hg
  have hnil : ∀ {rs : List (List (List (Str × Str)))}, (∀ r ∈ rs, r ∈ results) → (∀ r ∈ rs, r = []) →
      rs.flatten = [] ∧ rs.flatMap (render W o) = [] := by
    intro rs hsub hrs
    refine ⟨by simpa using hrs, List.flatMap_eq_nil_iff.2 fun r hr => ?_⟩
    rcases hone r (hsub r hr) with h | h
    · exact h.2
    · exact absurd (hrs r hr) h.1
  constructor
  · rintro ⟨os, s, _, _, ht, he⟩
    have : ∀ rs : List (List (List (Str × Str))), (∀ r ∈ rs, r ∈ results) → rs.flatMap (render W o) = s ++ [10] →
        ∃ before res after, rs = before ++ res :: after ∧ res ≠ [] ∧ (∀ r ∈ before, r = []) ∧ ∀ r ∈ after, r = [] := by
      intro rs
      induction rs with
      | nil => intro _ h; simp at h
      | cons r rs ih =>
        intro hsub h
        rw [List.flatMap_cons] at h
        rcases hone r (hsub r (by simp)) with ⟨hr, h0⟩ | ⟨hr, os', s', _, _, ht', he'⟩
        · rw [h0, List.nil_append] at h
          obtain ⟨b, x, a, rfl, h1, h2, h3⟩ := ih (fun r hr => hsub r (by simp [hr])) h
          exact ⟨r :: b, x, a, rfl, h1, by simpa [hr] using h2, h3⟩
        · rw [he', List.append_assoc] at h
          obtain ⟨_, _, h⟩ := text_det _ ht' ht h
          have h : rs.flatMap (render W o) = [] := by simpa using h
          refine ⟨[], r, rs, rfl, hr, by simp, fun x hx => ?_⟩
          rcases hone x (hsub x (by simp [hx])) with h' | ⟨_, _, _, _, _, _, h'⟩
          · exact h'.1
          · rw [List.flatMap_eq_nil_iff.1 h x hx] at h'
            simp at h'
    exact this results (fun _ h => h) he
  · rintro ⟨b, res, a, rfl, hne, hb, ha'⟩
    obtain ⟨e1, e2⟩ := hnil (fun r hr => by simp [hr]) hb
    obtain ⟨e3, e4⟩ := hnil (fun r hr => by simp [hr]) ha'
    rw [List.flatten_append, List.flatten_cons, List.flatMap_append, List.flatMap_cons, e1, e2, e3, e4]
    simp only [List.nil_append, List.append_nil]
    rcases hone res (by simp) with h | h
    · exact absurd h.1 hne
    · exact h.2

theorem hexDigit_ne {n : Nat} (h : n < 16) : hexDigit n ≠ 10 := by
  unfold hexDigit
  split
  · intro e
    have := congrArg UInt8.toNat e
    rw [UInt8.toNat_add, UInt8.toNat_ofNat'] at this
    have : (48 + n % 256) % 256 = 10 := this
    omega
  · intro e
    have := congrArg UInt8.toNat e
    rw [UInt8.toNat_add, UInt8.toNat_ofNat'] at this
    have : (55 + n % 256) % 256 = 10 := this
    omega

theorem quoteJson_ne (s : Str) : (10 : Byte) ∉ quoteJson s := by
  unfold quoteJson
  simp only [List.mem_cons, List.mem_append, List.mem_flatMap, List.not_mem_nil, or_false, not_or, not_exists, not_and]
  refine ⟨by decide, fun c _ => ?_, by decide⟩
  unfold escapeByte
  repeat' split
  all_goals first
    | decide
    | skip
  · rename_i h
    have hc : c.toNat < 32 := by simpa [UInt8.lt_iff_toNat_lt] using h
    have h1 := hexDigit_ne (n := c.toNat / 16) (by omega)
    have h2 := hexDigit_ne (n := c.toNat % 16) (by omega)
    simp only [List.mem_cons, List.not_mem_nil, or_false, not_or]
    exact ⟨by decide, by decide, by decide, by decide, Ne.symm h1, Ne.symm h2⟩
  · rename_i h _ _ _
    simp only [List.mem_singleton]
    intro e
    exact absurd e.symm (by assumption)

mutual
theorem writeJson_ne : ∀ v : Json, (10 : Byte) ∉ writeJson v
  | .str s => quoteJson_ne s
  | .arr vs => by
    have := writeElems_ne vs true
    simp [writeJson, this]
  | .obj ms => by
    have := writeMembers_ne ms true
    simp [writeJson, this]
theorem writeElems_ne : ∀ (vs : List Json) (first : Bool), (10 : Byte) ∉ writeElems first vs
  | [], _ => by simp [writeElems]
  | v :: vs, first => by
    have h1 := writeJson_ne v
    have h2 := writeElems_ne vs false
    cases first <;> simp [writeElems, h1, h2]
theorem writeMembers_ne : ∀ (ms : List (Str × Json)) (first : Bool), (10 : Byte) ∉ writeMembers first ms
  | [], _ => by simp [writeMembers]
  | (k, v) :: ms, first => by
    have h0 := quoteJson_ne k
    have h1 := writeJson_ne v
    have h2 := writeMembers_ne ms false
    cases first <;> simp [writeMembers, h0, h1, h2]
end

/-- C53. Without --filter, --array and --pretty, and with --compact or standard output not being a terminal, a successful run
prints one line for each group of each result: a JSON object that presents it. -/
theorem C53_json_per_line (hh : o.help = false) (hv : o.version = false) (hl : o.lint = false) (hx : o.hext ≠ [] ∨ o.str ≠ [])
    (hi : o.html ≠ []) (hf : o.filter = none) (ha : o.array = false) (hp : o.pretty = false)
    (hc : o.compact = true ∨ W.ttyOut = false) (hw : Reliable W o) {out err : Str}
    (h : main W (.ok o) w = some (.exit 0 out err)) :
    ∃ rules texts results, Succeeds W o w rules texts results ∧ JsonPerLine results.flatten out := by
  obtain ⟨_, rules, texts, results, h1, rfl⟩ := (C50_success hh hv hl hx hi out err).1 h
  have hg := results_good hw h1
  refine ⟨rules, texts, results, h1, ?_⟩
  clear h h1
  have happ : ∀ {r1 r2 o1 o2}, JsonPerLine r1 o1 → JsonPerLine r2 o2 → JsonPerLine (r1 ++ r2) (o1 ++ o2) := by
    intro r1 r2 o1 o2 h1 h2
    induction h1 with
    | nil => exact h2
    | cons a b c _ ih => rw [List.append_assoc]; exact .cons a b c ih
  have hone : ∀ res : List (List (Str × Str)), (∀ m ∈ res, m ≠ [] ∧ (∃ vs, IsMap vs m) ∧ NoNul m) →
      JsonPerLine res (render W o res) := by
    intro res hres
    have hpr : (o.pretty || (!o.compact && W.ttyOut)) = false := by
      rcases hc with hc | hc <;> simp [hp, hc]
    simp only [render, hf, jsonOptions, ha, hpr, printJson]
    clear hg
    induction res with
    | nil => exact .nil
    | cons m ms ih =>
      obtain ⟨_, ⟨vs, hm⟩, hn⟩ := hres m (by simp)
      have ho := entsOf_presents hm.1
      rw [List.map_cons, if_neg (by simp), printObjects, groupObject_presents hm.1 hn ho]
      refine .cons ?_ ho (printJsonValue_text _ _) ?_
      · simp only [printJsonValue]
        rw [if_neg (by simp)]
        exact writeJson_ne _
      · have := ih fun x hx => hres x (by simp [hx])
        rwa [if_neg (by simp)] at this
  induction results with
  | nil => exact .nil
  | cons res results ih =>
    rw [List.flatMap_cons, List.flatten_cons]
    exact happ (hone res (hg res (by simp))) (ih fun r hr => hg r (by simp [hr]))

/-! ## An example -/

/-- A world in which every file is the example document, and the program is called "htmlext". -/
def exWorld : World Unit where
  files := fun path w => if path = lit "no.html" then (.noOpen (lit "No such file or directory"), w) else (.bytes (lit "<a/>"), w)
  gumbo := fun _ => (Ex.heap, Ex.doc.ptr)
  rx := Ex.rx
  charSigned := true
  ttyOut := false
  ttyErr := false
  program := lit "htmlext"
  argc := 4
  helpText := lit "help"
  versionText := lit "version"

/-- `htmlext --filter x -s '<a href:x/>' -i page.html` -/
def exOpts : Opts := { str := [lit "<a href:x/>"], html := [lit "page.html"], filter := some (lit "x") }

/-- A sufficient test for `Kind.NoNul`. -/
def kindNf : Kind → Bool
  | .element e => (match e.tag with | .known n => !n.contains 0 | .unknown => false) && e.origName.isNone &&
      e.attrs.all fun a => !a.name.contains 0 && (match a.value with | some v => !v.contains 0 | none => true)
  | .text t => !t.contains 0
  | .document d => d.name.isNone && d.publicId.isNone && d.systemId.isNone
  | _ => false

theorem kindNf_noNul {k : Kind} (h : kindNf k = true) : k.NoNul := by
  cases k with
  | element e =>
    simp only [kindNf, Bool.and_eq_true, List.all_eq_true] at h
    obtain ⟨⟨h1, h2⟩, h3⟩ := h
    refine ⟨fun n hn => ?_, fun n hn => by simp [hn] at h2, fun a ha => ?_⟩
    · simpa [hn, NF] using h1
    · obtain ⟨h4, h5⟩ := h3 a ha
      refine ⟨by simpa [NF] using h4, fun v hv => ?_⟩
      simpa [hv, NF] using h5
  | text t => simpa [kindNf, Kind.NoNul, NF] using h
  | document d =>
    simp only [kindNf, Bool.and_eq_true, Option.isNone_iff_eq_none] at h
    simp [Kind.NoNul, h]
  | _ => cases h

theorem exHeap_noNul : Ex.heap.NoNul := by
  have hall : ∀ e ∈ docEntries 0 Ex.doc, kindNf e.2.kind = true := by decide +kernel
  intro p n hn
  simp only [Ex.heap, docHeap, heapOf, Option.map_eq_some_iff] at hn
  obtain ⟨e, he, rfl⟩ := hn
  exact kindNf_noNul (hall e (List.mem_of_find?_eq_some he))

theorem ex_reliable (filter : Option Str) (array : Bool) : Reliable exWorld { exOpts with filter := filter, array := array } := by
  refine ⟨fun _ => ⟨Ex.doc, isDocument_of_ok (by decide +kernel), rfl⟩, fun _ => exHeap_noNul, ⟨?_, ?_⟩, ?_, ?_⟩
  · intro r s gs h; cases h
  · intro r s t hs _; exact hs
  · simp [exOpts]
  · simp only [exOpts, List.mem_singleton, forall_eq]
    exact ⟨noLong_of_few (by decide), charSafe_ascii fun _ => by decide, by decide⟩

theorem ex_succeeds (filter : Option Str) (array : Bool) : Succeeds exWorld { exOpts with filter := filter, array := array } ()
    [hrefRule] [lit "<a/>"] [[[(lit "x", lit "1")], [(lit "x", lit "2")]]] := by
  refine ⟨[], (), (), .nil, ?_, .cons (.inl rfl) .nil, ?_⟩
  · simp only [exOpts, List.nil_append, List.map_cons, List.map_nil, List.cons.injEq, and_true]
    exact href_parsed Ex.rx true
  · simp only [AllResults, List.flatMap_cons, List.flatMap_nil, List.append_nil, List.map_cons, List.map_nil, List.cons.injEq,
      and_true]
    show extract Ex.rx Ex.heap hrefRule (Loc.root Ex.doc).ptr 0 = _
    rw [extract_eq (rx := Ex.rx) (h := Ex.heap) (n := manyChildren) (by decide)
      (parse_safe (noLong_of_few (by decide)) (href_parsed Ex.rx true)) (l := Loc.root Ex.doc) (isDocument_of_ok (by decide +kernel))]
    decide +kernel

theorem ex_run (filter : Option Str) (array : Bool) : main exWorld (.ok { exOpts with filter := filter, array := array }) () =
    some (.exit 0 (render exWorld { exOpts with filter := filter, array := array } [[(lit "x", lit "1")], [(lit "x", lit "2")]]) []) :=
  (C50_success rfl rfl rfl (.inr (by simp [exOpts])) (by simp [exOpts]) _ _).2
    ⟨rfl, _, _, _, ex_succeeds filter array, by simp⟩

/-- The hypotheses of the theorems above are met: the run succeeds and prints two values, two objects, or one array. -/
example : main exWorld (.ok exOpts) () = some (.exit 0 (lit "1\n2\n") []) :=
  (ex_run (some (lit "x")) false).trans (by congr 2)

example : Reliable exWorld { exOpts with filter := none } ∧ main exWorld (.ok { exOpts with filter := none }) () =
    some (.exit 0 (lit "{\"x\":\"1\"}\n{\"x\":\"2\"}\n") []) :=
  ⟨ex_reliable none false, (ex_run none false).trans (by congr 2)⟩

example : Reliable exWorld { exOpts with filter := none, array := true } ∧
    main exWorld (.ok { exOpts with filter := none, array := true }) () =
    some (.exit 0 (lit "[{\"x\":\"1\"},{\"x\":\"2\"}]\n") []) :=
  ⟨ex_reliable none true, (ex_run none true).trans (by congr 2)⟩

/-- A missing file: exit code 1, nothing on standard output, and a message. -/
example : main exWorld (.ok { exOpts with html := [lit "no.html"] }) () =
    some (.exit 1 [] (lit "htmlext: Error: cannot access 'no.html': No such file or directory\n")) := by
  rw [main, body_run rfl rfl rfl (.inr (by simp [exOpts])) (by simp)]
  have h1 : parseStrings exWorld exOpts.str = .ok [hrefRule] :=
    parseStrings_ok.2 (.cons (href_parsed Ex.rx true) .nil)
  have h2 : parseFiles exWorld exOpts.hext () = (.ok [], ()) := rfl
  have h3 : readHtml exWorld [lit "no.html"] () =
      (.error (.file (lit "cannot access 'no.html': No such file or directory")), ()) := by
    rw [readHtml]
    have : readFile exWorld (lit "no.html") () =
        (.error (.file (lit "cannot access 'no.html': No such file or directory")), ()) := by
      rw [readFile, if_neg (by decide), readPath]
      rw [show exWorld.files (lit "no.html") () = (.noOpen (lit "No such file or directory"), ()) from rfl]
      rfl
    rw [this]
    rfl
  simp only [h1, h2, h3]
  congr 2

/-- With --lint the hext is accepted, and nothing is printed. -/
example : main exWorld (.ok { exOpts with html := [], lint := true }) () = some (.exit 0 [] []) :=
  (C52_lint rfl rfl rfl (.inr (by simp [exOpts])) _ _).2 ⟨rfl, rfl, [], (), [hrefRule], .nil, by
    simp only [exOpts, List.nil_append, List.map_cons, List.map_nil, List.cons.injEq, and_true]
    exact href_parsed Ex.rx true⟩

/-- The hypotheses of C54 are met. -/
example : ∃ code out err, main exWorld (.ok exOpts) () = some (.exit code out err) :=
  C54_always_exits_partial _ _ (ex_reliable none false).1 (by rintro _ ⟨⟩ p hp; cases hp)
    (by rintro _ ⟨⟩; exact (ex_reliable none false).2.2.2.2)

/-- C54 fails for other hexts: where `char` is signed, `htmlext --lint` with the byte 0x80 as a hext has undefined behaviour. -/
theorem C54_crashes (hW : W.charSigned = true) : main W (.ok { str := [[128]], lint := true }) w = some .crash := by
  have h1 : parseStrings W [[128]] = .error .crash := by
    rw [parseStrings, parseText, parseHextC, hW]
    rw [show cstr [128] = [128] by decide, C34_parse_unsafe_byte]
    rfl
  simp only [main, body, parseFiles]
  rw [h1]
  rfl

open Syn in
/-- The hypotheses of C51_rejected are met: the second file contains `<a>`, which is not closed. -/
example : ∃ what, main { exWorld with files := fun f w => (.bytes (if f = lit "g" then lit "<a>" else lit "<a href:x/>"), w) }
    (.ok { hext := [lit "f", lit "g"], lint := true }) () =
      some (.exit 1 [] (errorLine exWorld (lit "Error in g") what)) := by
  have hok : ∀ i ∈ [Item.start (tagHead "a") false], i.Ok := by
    simp [Item.Ok, Head.Ok, tagHead, IsTag, IsName]
    exact .inr ⟨97, [], by decide, by simp [IsAlpha], by simp⟩
  obtain ⟨e, he⟩ := C36_unbalanced_rejected Ex.rx true _ hok (not_balanced_open (by simp))
  have ht : itemsText [Item.start (tagHead "a") false] = lit "<a>" := by decide
  rw [ht] at he
  obtain ⟨what, rfl⟩ := C35_only_syntax_error_partial Ex.rx true _ (charSafe_ascii fun _ => by decide) (by decide)
    (numbersFit_of_noLong (noLong_of_few (by decide))) e he
  exact ⟨what, C51_rejected (fs := [lit "f"]) (gs := []) (rules := [hrefRule]) (text := lit "<a>") (w1 := ()) (w2 := ())
    rfl rfl (.inl rfl) rfl (.cons (.inl rfl) .nil)
    (by
      simp only [List.map_cons, List.map_nil, List.cons.injEq, and_true]
      exact href_parsed Ex.rx true) (.inl rfl) he⟩

end Hext.Props
