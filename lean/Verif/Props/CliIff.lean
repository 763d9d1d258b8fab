import Verif.Props.Cli
import Verif.Spec.CliFailure
import Verif.Props.CallsIff
/-!
# C54: exactly when htmlext does not end properly
-/

namespace Hext.Props

open Cli

variable {σ : Type} {W : World σ} {o : Opts} {w : σ}

/-- Hexts without numbers of ten or more digits, and not longer than an `int` can count. Any bytes are allowed. -/
def HextShort (text : Str) : Prop := NoLong (cstr text) ∧ (cstr text).length ≤ 2147483645

/-- A hext that means a rule. Hexts end at their first NUL byte. -/
def Good (W : World σ) (text : Str) : Prop := ∃ r, Syn.Means W.rx (cstr text) r

/-- The program gets to this hext: it is in a file that can be read, or it is given as a string, and everything before it could be read
and means a rule. The files come before the strings. -/
def Reached (W : World σ) (o : Opts) (w : σ) (text : Str) : Prop :=
  (∃ fs f gs hexts w1 w2, o.hext = fs ++ f :: gs ∧ Reads W fs w hexts w1 ∧ (∀ s ∈ hexts, Good W s) ∧ Contents W f w1 text w2) ∨
  ∃ hexts w1 ss ts, Reads W o.hext w hexts w1 ∧ o.str = ss ++ text :: ts ∧ ∀ s ∈ hexts ++ ss, Good W s

theorem good_iff {text : Str} : Good W text ↔ ∃ r, IsHext W text r :=
  exists_congr fun r => (C36_parse_iff W.rx W.charSigned (cstr text) r).symm

theorem areHexts_of_good : ∀ {ts : List Str}, (∀ s ∈ ts, Good W s) → ∃ rs, AreHexts W ts rs
  | [], _ => ⟨[], .nil⟩
  | t :: ts, h => by
    obtain ⟨r, h1⟩ := good_iff.1 (h t (.head _))
    obtain ⟨rs, h2⟩ := areHexts_of_good (ts := ts) fun s hs => h s (.tail _ hs)
    exact ⟨r :: rs, .cons h1 h2⟩

theorem good_of_areHexts {ts : List Str} {rs : List Rule} (h : AreHexts W ts rs) : ∀ s ∈ ts, Good W s := by
  induction h with
  | nil => simp
  | cons h1 _ ih =>
    intro s hs
    cases hs with
    | head => exact good_iff.2 ⟨_, h1⟩
    | tail _ hs => exact ih s hs

theorem parseText_crash {title text : Str} (hl : (cstr text).length ≤ 2147483645) :
    parseText W title text = .error .crash ↔ EndsAtByte W.rx W.charSigned (cstr text) := by
  unfold parseText parseHextC
  rcases parse_all W.rx W.charSigned (cstr text) hl with ⟨r, h, _⟩ | ⟨h, _⟩ | ⟨h, h1⟩ | ⟨m, h⟩
  · have n : ¬ EndsAtByte W.rx W.charSigned (cstr text) := fun k => by have := h.symm.trans (ends_byte hl k); cases this
    simp [h, n, pure, Except.pure]
  · have n : ¬ EndsAtByte W.rx W.charSigned (cstr text) := fun k => by have := h.symm.trans (ends_byte hl k); cases this
    simp [h, n, throw, throwThe, MonadExceptOf.throw]
  · simp [h, h1, throw, throwThe, MonadExceptOf.throw]
  · have n : ¬ EndsAtByte W.rx W.charSigned (cstr text) := fun k => by have := h.symm.trans (ends_byte hl k); cases this
    simp [h, n, throw, throwThe, MonadExceptOf.throw]

theorem parseText_short {title text : Str} (h : HextShort text) :
    (∃ r, parseText W title text = .ok r ∧ r.Safe manyChildren) ∨ ∃ e, parseText W title text = .error e := by
  unfold parseText parseHextC
  cases hp : parseHext W.rx W.charSigned (cstr text) with
  | ok r => exact .inl ⟨r, rfl, parse_safe h.1 hp⟩
  | error e => cases e <;> exact .inr ⟨_, rfl⟩

/-- The strings: the loop is stopped by undefined behaviour exactly in the first hext that does not mean a rule. -/
theorem parseStrings_crash : ∀ {ss : List Str}, (∀ s ∈ ss, HextShort s) →
    (parseStrings W ss = .error .crash ↔ ∃ pre text post, ss = pre ++ text :: post ∧ (∀ s ∈ pre, Good W s) ∧
      EndsAtByte W.rx W.charSigned (cstr text))
  | [], _ => by
    rw [parseStrings]
    constructor
    · intro h; cases h
    · rintro ⟨pre, text, post, h, _⟩
      cases pre <;> cases h
  | s :: ss, hs => by
    have ih := parseStrings_crash (ss := ss) fun s h => hs s (.tail _ h)
    rw [parseStrings]
    cases hp : parseText W (lit "Error in <hext-string>") s with
    | ok r =>
      have hg : Good W s := good_iff.2 ⟨r, parseText_ok.1 hp⟩
      have e1 : (do let r ← (Except.ok r : Except Exc Rule); let rs ← parseStrings W ss; pure (r :: rs)) = .error .crash ↔
          parseStrings W ss = .error .crash := by
        cases parseStrings W ss <;> simp [bind, Except.bind, pure, Except.pure]
      rw [e1, ih]
      constructor
      · rintro ⟨pre, text, post, rfl, h2, h3⟩
        exact ⟨s :: pre, text, post, rfl, by simpa using ⟨hg, h2⟩, h3⟩
      · rintro ⟨pre, text, post, h1, h2, h3⟩
        cases pre with
        | nil =>
          injection h1 with h1 _
          subst h1
          have := (parseText_crash (W := W) (title := lit "Error in <hext-string>") (hs s (.head _)).2).2 h3
          rw [hp] at this; cases this
        | cons q pre =>
          injection h1 with h1 h4
          exact ⟨pre, text, post, h4, fun s h => h2 s (.tail _ h), h3⟩
    | error e =>
      have e1 : (do let r ← (Except.error e : Except Exc Rule); let rs ← parseStrings W ss; pure (r :: rs)) = .error .crash ↔
          e = .crash := by simp [bind, Except.bind]
      rw [e1]
      constructor
      · rintro rfl
        exact ⟨[], s, ss, rfl, by simp, (parseText_crash (hs s (.head _)).2).1 hp⟩
      · rintro ⟨pre, text, post, h1, h2, h3⟩
        cases pre with
        | nil =>
          injection h1 with h1 _
          subst h1
          have := (parseText_crash (W := W) (title := lit "Error in <hext-string>") (hs s (.head _)).2).2 h3
          rw [hp] at this; injection this
        | cons q pre =>
          injection h1 with h1 _
          subst h1
          obtain ⟨r, hr⟩ := good_iff.1 (h2 s (.head _))
          rw [parseText_ok.2 hr] at hp; cases hp

/-- The same for the files. -/
theorem parseFiles_crash : ∀ {ps : List Str} {w : σ}, (∀ p ∈ ps, ∀ w s w', Contents W p w s w' → HextShort s) →
    ((∃ w', parseFiles W ps w = (.error .crash, w')) ↔ ∃ fs f gs hexts w1 text w2, ps = fs ++ f :: gs ∧ Reads W fs w hexts w1 ∧
      (∀ s ∈ hexts, Good W s) ∧ Contents W f w1 text w2 ∧ EndsAtByte W.rx W.charSigned (cstr text))
  | [], w, _ => by
    rw [parseFiles]
    constructor
    · rintro ⟨w', h⟩; cases h
    · rintro ⟨fs, f, gs, _, _, _, _, h, _⟩
      cases fs <;> cases h
  | p :: ps, w, hs => by
    rw [parseFiles]
    rcases h1 : readFile W p w with ⟨e | s, w1⟩
    · constructor
      · rintro ⟨w', h⟩
        simp only [throw, throwThe, MonadExceptOf.throw, Prod.mk.injEq, Except.error.injEq] at h
        exact absurd h.1 (readFile_safe h1)
      · rintro ⟨fs, f, gs, hexts, w2, text, w3, h2, h3, h4, h5, h6⟩
        cases fs with
        | nil =>
          cases h3
          injection h2 with h2 _
          subst h2
          rw [readFile_ok.2 h5] at h1; cases h1
        | cons q fs =>
          injection h2 with h2 _
          subst h2
          cases h3 with
          | cons h7 _ => rw [readFile_ok.2 h7] at h1; cases h1
    · simp only
      have hshort := hs p (.head _) _ _ _ (readFile_ok.1 h1)
      have ih := parseFiles_crash (ps := ps) (w := w1) fun p h => hs p (.tail _ h)
      cases hp : parseText W (lit "Error in " ++ p) s with
      | ok r =>
        have hg : Good W s := good_iff.2 ⟨r, parseText_ok.1 hp⟩
        simp only
        have e1 : (∃ w', (match parseFiles W ps w1 with
            | (.error e, w) => (throw e, w)
            | (.ok rs, w) => (pure (r :: rs), w) : Except Exc (List Rule) × σ) = (.error .crash, w')) ↔
            ∃ w', parseFiles W ps w1 = (.error .crash, w') := by
          rcases parseFiles W ps w1 with ⟨e | rs, w2⟩
          · simp [throw, throwThe, MonadExceptOf.throw]
          · simp [pure, Except.pure]
        refine Iff.trans e1 ?_
        rw [ih]
        constructor
        · rintro ⟨fs, f, gs, hexts, w2, text, w3, rfl, h3, h4, h5, h6⟩
          exact ⟨p :: fs, f, gs, s :: hexts, w2, text, w3, rfl, .cons (readFile_ok.1 h1) h3, by simpa using ⟨hg, h4⟩, h5, h6⟩
        · rintro ⟨fs, f, gs, hexts, w2, text, w3, h2, h3, h4, h5, h6⟩
          cases fs with
          | nil =>
            cases h3
            injection h2 with h2 _
            subst h2
            have := readFile_ok.2 h5
            rw [h1] at this
            injection this with this _
            injection this with this
            subst this
            have := (parseText_crash (W := W) (title := lit "Error in " ++ p) hshort.2).2 h6
            rw [hp] at this; cases this
          | cons q fs =>
            injection h2 with h2 h8
            subst h2
            cases h3 with
            | cons h7 h9 =>
              have := readFile_ok.2 h7
              rw [h1] at this
              cases this
              exact ⟨fs, f, gs, _, w2, text, w3, h8, h9, fun s h => h4 s (.tail _ h), h5, h6⟩
      | error e =>
        simp only
        constructor
        · rintro ⟨w', h⟩
          simp only [throw, throwThe, MonadExceptOf.throw, Prod.mk.injEq, Except.error.injEq] at h
          obtain ⟨rfl, rfl⟩ := h
          exact ⟨[], p, ps, [], w, s, w1, rfl, .nil, by simp, readFile_ok.1 h1, (parseText_crash hshort.2).1 hp⟩
        · rintro ⟨fs, f, gs, hexts, w2, text, w3, h2, h3, h4, h5, h6⟩
          cases fs with
          | nil =>
            cases h3
            injection h2 with h2 _
            subst h2
            have := readFile_ok.2 h5
            rw [h1] at this
            injection this with this _
            injection this with this
            subst this
            have := (parseText_crash (W := W) (title := lit "Error in " ++ p) hshort.2).2 h6
            rw [hp] at this
            injection this with this
            exact ⟨w1, by rw [this]; rfl⟩
          | cons q fs =>
            injection h2 with h2 h8
            subst h2
            cases h3 with
            | cons h7 h9 =>
              have := readFile_ok.2 h7
              rw [h1] at this
              cases this
              obtain ⟨r, hr⟩ := good_iff.1 (h4 _ (.head _))
              rw [parseText_ok.2 hr] at hp; cases hp

theorem parseStrings_rules : ∀ {ss : List Str} {rs : List Rule}, (∀ s ∈ ss, HextShort s) → parseStrings W ss = .ok rs →
    ∀ r ∈ rs, r.Safe manyChildren := by
  intro ss rs hs hp
  have h := parseStrings_ok.1 hp
  clear hp
  induction h with
  | nil => simp
  | cons h1 _ ih =>
    intro r hr
    cases hr with
    | head => exact parse_safe (hs _ (.head _)).1 h1
    | tail _ hr => exact ih (fun s h => hs s (.tail _ h)) r hr

theorem parseFiles_rules {ps : List Str} {w w' : σ} {rs : List Rule} (hs : ∀ p ∈ ps, ∀ w s w', Contents W p w s w' → HextShort s)
    (hp : parseFiles W ps w = (.ok rs, w')) : ∀ r ∈ rs, r.Safe manyChildren := by
  obtain ⟨ts, h1, h2⟩ := parseFiles_ok.1 hp
  clear hp
  induction h1 generalizing rs with
  | nil => cases h2; simp
  | cons h3 _ ih =>
    cases h2 with
    | cons h4 h5 =>
      intro r hr
      cases hr with
      | head => exact parse_safe (hs _ (.head _) _ _ _ h3).1 h4
      | tail _ hr => exact ih (fun p h => hs p (.tail _ h)) h5 r hr

theorem validate_iff (hh : o.help = false) (hv : o.version = false) : validate o = .ok () ↔ Asked o := by
  unfold validate
  simp only [hh, hv, Bool.or_self, Bool.false_eq_true, if_false]
  cases h1 : o.hext <;> cases h2 : o.str <;> cases h3 : o.lint <;> cases h4 : o.html <;>
    simp [throw, throwThe, MonadExceptOf.throw, pure, Except.pure] <;>
    first
      | exact ⟨hh, hv, by simp [h1, h2], by simp [h3, h4]⟩
      | exact fun a => by simpa [h1, h2] using a.hexts
      | exact fun a => by simpa [h3, h4] using a.html

/-- C54. Exactly when the program does not end with an exit code, whatever the arguments and files are: if Gumbo makes documents and
the hexts are short, this happens exactly if the program is asked to work and gets to a hext whose first mistake is a byte from 128 to 254,
where `char` is signed. In all other cases it ends with an exit code. -/
theorem C54_crash_iff (parsed : Except Str Opts) (w : σ) (hg : GumboSafe W)
    (hf : ∀ o, parsed = .ok o → ∀ p ∈ o.hext, ∀ w s w', Contents W p w s w' → HextShort s)
    (hs : ∀ o, parsed = .ok o → ∀ s ∈ o.str, HextShort s) :
    (main W parsed w = some .crash ↔ ∃ o, parsed = .ok o ∧ Asked o ∧ ∃ text, Reached W o w text ∧
      EndsAtByte W.rx W.charSigned (cstr text)) ∧
    (main W parsed w ≠ some .crash → ∃ code out err, main W parsed w = some (.exit code out err)) := by
  have hm : (main W parsed w = some .crash ↔ ∃ out, body W parsed w = some (out, some .crash)) := by
    unfold main
    rcases body W parsed w with _ | ⟨out, _ | e⟩
    · simp
    · simp
    · cases e <;> simp
  have he : body W parsed w ≠ none → main W parsed w ≠ some .crash → ∃ code out err, main W parsed w = some (.exit code out err) := by
    unfold main
    rcases body W parsed w with _ | ⟨out, _ | e⟩
    · exact fun h => absurd rfl h
    · exact fun _ _ => ⟨_, _, _, rfl⟩
    · cases e
      case crash => exact fun _ h => absurd rfl h
      all_goals exact fun _ _ => ⟨_, _, _, rfl⟩
  have key : body W parsed w ≠ none ∧ ((∃ out, body W parsed w = some (out, some .crash)) ↔ ∃ o, parsed = .ok o ∧ Asked o ∧
      ∃ text, Reached W o w text ∧ EndsAtByte W.rx W.charSigned (cstr text)) := by
    cases parsed with
    | error what => exact ⟨by simp [body], by simp [body]⟩
    | ok o =>
      have hf := hf o rfl
      have hs := hs o rfl
      simp only [Except.ok.injEq, exists_eq_left']
      cases hv : validate o with
      | error e =>
        have hne : e ≠ .crash := by
          rintro rfl
          unfold validate at hv
          repeat' split at hv
          all_goals simp [throw, throwThe, MonadExceptOf.throw, pure, Except.pure] at hv
        refine ⟨by simp [body, hv], ?_⟩
        simp only [body, hv, Option.some.injEq, Prod.mk.injEq, hne, and_false, exists_const, false_iff, not_and]
        intro ha
        rw [(validate_iff ha.help ha.version).2 ha] at hv
        cases hv
      | ok _ =>
        cases hh : o.help with
        | true =>
          refine ⟨by simp [body, hv, hh], ?_⟩
          simp only [body, hv, hh, if_true, Option.some.injEq, Prod.mk.injEq, reduceCtorEq, and_false, exists_const, false_iff, not_and]
          intro ha; rw [ha.help] at hh; cases hh
        | false =>
          cases hve : o.version with
          | true =>
            refine ⟨by simp [body, hv, hh, hve], ?_⟩
            simp only [body, hv, hh, hve, if_true, Bool.false_eq_true, if_false, Option.some.injEq, Prod.mk.injEq, reduceCtorEq, and_false,
              exists_const, false_iff, not_and]
            intro ha; rw [ha.version] at hve; cases hve
          | false =>
            have ha : Asked o := (validate_iff hh hve).1 hv
            simp only [ha, true_and]
            have hb : body W (.ok o) w = match parseFiles W o.hext w with
                | (.error e, _) => some ([], some e)
                | (.ok rs, w) =>
                  match parseStrings W o.str with
                  | .error e => some ([], some e)
                  | .ok rs' =>
                    if o.lint then some ([], none)
                    else
                      match readHtml W o.html w with
                      | (.error e, _) => some ([], some e)
                      | (.ok texts, _) => extractLoop W o (pairs (rs ++ rs') texts) := by
              simp only [body, hv, hh, hve, Bool.false_eq_true, if_false]
              rfl
            rw [hb]
            have hF := parseFiles_crash (W := W) (w := w) hf
            have hS := parseStrings_crash (W := W) hs
            rcases h1 : parseFiles W o.hext w with ⟨e | rs, w1⟩
            · simp only
              refine ⟨by simp, ?_⟩
              constructor
              · rintro ⟨out, h⟩
                simp only [Option.some.injEq, Prod.mk.injEq] at h
                rw [h.2] at h1
                obtain ⟨fs, f, gs, hexts, w2, text, w3, h2, h3, h4, h5, h6⟩ := hF.1 ⟨w1, h1⟩
                exact ⟨text, .inl ⟨fs, f, gs, hexts, w2, w3, h2, h3, h4, h5⟩, h6⟩
              · rintro ⟨text, ⟨fs, f, gs, hexts, w2, w3, h2, h3, h4, h5⟩ | ⟨hexts, w2, ss, ts, h2, h3, h4⟩, h6⟩
                · obtain ⟨w', h7⟩ := hF.2 ⟨fs, f, gs, hexts, w2, text, w3, h2, h3, h4, h5, h6⟩
                  rw [h1] at h7
                  cases h7
                  exact ⟨_, rfl⟩
                · obtain ⟨rs, h7⟩ := areHexts_of_good (W := W) (ts := hexts) fun s h => h4 s (List.mem_append_left _ h)
                  rw [parseFiles_ok.2 ⟨hexts, h2, h7⟩] at h1
                  cases h1
            · obtain ⟨hexts, hr, hx⟩ := parseFiles_ok.1 h1
              simp only
              cases h2 : parseStrings W o.str with
              | error e =>
                simp only
                refine ⟨by simp, ?_⟩
                constructor
                · rintro ⟨out, h⟩
                  simp only [Option.some.injEq, Prod.mk.injEq] at h
                  rw [h.2] at h2
                  obtain ⟨pre, text, post, h3, h4, h5⟩ := hS.1 h2
                  refine ⟨text, .inr ⟨hexts, w1, pre, post, hr, h3, fun s h => ?_⟩, h5⟩
                  rcases List.mem_append.1 h with h | h
                  · exact good_of_areHexts hx s h
                  · exact h4 s h
                · rintro ⟨text, ⟨fs, f, gs, hexts, w2, w3, h2', h3, h4, h5⟩ | ⟨hexts, w2, ss, ts, h2', h3, h4⟩, h6⟩
                  · obtain ⟨w', h7⟩ := hF.2 ⟨fs, f, gs, hexts, w2, text, w3, h2', h3, h4, h5, h6⟩
                    rw [h1] at h7
                    cases h7
                  · have := hS.2 ⟨ss, text, ts, h3, fun s h => h4 s (List.mem_append_right _ h), h6⟩
                    rw [h2] at this
                    injection this with this
                    exact ⟨_, by rw [this]⟩
              | ok rs' =>
                have hno : ¬ ∃ text, Reached W o w text ∧ EndsAtByte W.rx W.charSigned (cstr text) := by
                  rintro ⟨text, ⟨fs, f, gs, hexts, w2, w3, h2', h3, h4, h5⟩ | ⟨hexts, w2, ss, ts, h2', h3, h4⟩, h6⟩
                  · obtain ⟨w', h7⟩ := hF.2 ⟨fs, f, gs, hexts, w2, text, w3, h2', h3, h4, h5, h6⟩
                    rw [h1] at h7
                    cases h7
                  · have := hS.2 ⟨ss, text, ts, h3, fun s h => h4 s (List.mem_append_right _ h), h6⟩
                    rw [h2] at this
                    cases this
                have done : ∀ x : Option (Str × Option Exc), (∃ out e, x = some (out, e) ∧ e ≠ some .crash) →
                    x ≠ none ∧ ((∃ out, x = some (out, some .crash)) ↔ ∃ text, Reached W o w text ∧
                      EndsAtByte W.rx W.charSigned (cstr text)) := by
                  rintro _ ⟨out, e, rfl, h⟩
                  refine ⟨by simp, ⟨?_, fun h => absurd h hno⟩⟩
                  rintro ⟨out', h3⟩
                  simp only [Option.some.injEq, Prod.mk.injEq] at h3
                  exact absurd h3.2 h
                simp only
                apply done
                split
                · exact ⟨_, _, rfl, by simp⟩
                · rcases h5 : readHtml W o.html w1 with ⟨e | texts, w2⟩
                  · exact ⟨_, _, rfl, by simpa using readHtml_safe h5⟩
                  · simp only
                    apply extractLoop_safe hg
                    intro p hp
                    simp only [pairs, List.mem_flatMap, List.mem_map] at hp
                    obtain ⟨r, hr, t, _, rfl⟩ := hp
                    rcases List.mem_append.1 hr with hr | hr
                    · exact parseFiles_rules hf h1 r hr
                    · exact parseStrings_rules hs h2 r hr
  exact ⟨hm.trans key.2, he key.1⟩

/-! ## Examples -/

/-- `htmlext --lint -s '<a href:x/>' -s $'\x80'`: the second string is reached and is undefined. -/
example : main exWorld (.ok { str := [lit "<a href:x/>", [128]], lint := true }) () = some .crash := by
  have hnl : NoLong (cstr (lit "<a href:x/>")) ∧ NoLong (cstr [128]) := by constructor <;> exact noLong_of_few (by decide)
  refine (C54_crash_iff _ _ (ex_reliable none false).1 (by rintro _ ⟨⟩ p hp; cases hp) ?_).1.2
    ⟨_, rfl, ⟨rfl, rfl, .inr (by simp), .inl rfl⟩, [128], .inr ⟨[], (), [lit "<a href:x/>"], [], .nil, rfl, ?_⟩, ?_⟩
  · rintro _ ⟨⟩ s hs
    rcases List.mem_cons.1 hs with rfl | hs
    · exact ⟨hnl.1, by decide⟩
    · rcases List.mem_cons.1 hs with rfl | hs
      · exact ⟨hnl.2, by decide⟩
      · cases hs
  · intro s hs
    rcases List.mem_cons.1 hs with rfl | hs
    · exact good_iff.2 ⟨_, href_parsed Ex.rx true⟩
    · cases hs
  · exact ⟨rfl, (C34_unsafe_iff Ex.rx _ (by decide)).1 (C34_parse_unsafe_byte _)⟩

end Hext.Props
