import Verif.Spec.Cli
import Verif.Proofs.Present
/-!
# The command line program
-/

namespace Hext.Cli

variable {σ : Type} {W : World σ}

/-! ## Files -/

theorem readPath_ok {p : Str} {w w' : σ} {s : Str} : readPath W p w = (.ok s, w') ↔ W.files p w = (.bytes s, w') := by
  unfold readPath
  split <;> rename_i h <;> simp [h, throw, throwThe, MonadExceptOf.throw, pure, Except.pure]

theorem readFile_ok {p : Str} {w w' : σ} {s : Str} : readFile W p w = (.ok s, w') ↔ Contents W p w s w' := by
  unfold readFile Contents
  split
  · rename_i h
    split
    · rename_i e w1 h1
      rw [readPath_ok]
      constructor
      · intro h2; exact .inr ⟨h, _, _, h1, h2⟩
      · rintro (h2 | ⟨_, e', w2, h2, h3⟩)
        · rw [h1] at h2; simp at h2
        · rw [h1] at h2
          simp only [Prod.mk.injEq, FileAnswer.noOpen.injEq] at h2
          obtain ⟨rfl, rfl⟩ := h2
          exact h3
    · rename_i e w1 h1
      simp [h1, throw, throwThe, MonadExceptOf.throw]
    · rename_i s1 w1 h1
      simp [h1, pure, Except.pure]
  · rename_i h
    rw [readPath_ok]
    simp [h]

theorem readHtml_ok : ∀ {ps : List Str} {w w' : σ} {ss : List Str}, readHtml W ps w = (.ok ss, w') ↔ Reads W ps w ss w'
  | [], w, w', ss => by
    rw [readHtml]
    constructor
    · intro h
      simp only [pure, Except.pure, Prod.mk.injEq, Except.ok.injEq] at h
      obtain ⟨rfl, rfl⟩ := h
      exact .nil
    · rintro ⟨⟩; rfl
  | p :: ps, w, w', ss => by
    rw [readHtml]
    constructor
    · intro h
      split at h
      · simp [throw, throwThe, MonadExceptOf.throw] at h
      · rename_i s w1 h1
        split at h
        · simp [throw, throwThe, MonadExceptOf.throw] at h
        · rename_i ts w2 h2
          simp only [pure, Except.pure, Prod.mk.injEq, Except.ok.injEq] at h
          obtain ⟨rfl, rfl⟩ := h
          exact .cons (readFile_ok.1 h1) (readHtml_ok.1 h2)
    · intro h
      cases h with
      | cons h1 h2 =>
        rw [readFile_ok.2 h1]
        simp only
        rw [readHtml_ok.2 h2]
        rfl

/-! ## Hexts -/

theorem parseText_ok {title text : Str} {r : Rule} : parseText W title text = .ok r ↔ IsHext W text r := by
  unfold parseText IsHext
  split <;> rename_i h <;> simp [h, throw, throwThe, MonadExceptOf.throw, pure, Except.pure]

/-- The texts are accepted hexts for the rules. -/
inductive AreHexts (W : World σ) : List Str → List Rule → Prop
  | nil : AreHexts W [] []
  | cons {t ts r rs} : IsHext W t r → AreHexts W ts rs → AreHexts W (t :: ts) (r :: rs)

theorem AreHexts.append {ts us rs qs} (h : AreHexts W ts rs) (h' : AreHexts W us qs) : AreHexts W (ts ++ us) (rs ++ qs) := by
  induction h with
  | nil => exact h'
  | cons h1 _ ih => exact .cons h1 ih

theorem AreHexts.split : ∀ {ts us ps}, AreHexts W (ts ++ us) ps → ∃ rs qs, ps = rs ++ qs ∧ AreHexts W ts rs ∧ AreHexts W us qs
  | [], us, ps, h => ⟨[], ps, rfl, .nil, h⟩
  | t :: ts, us, ps, h => by
    cases h with
    | cons h1 h2 =>
      obtain ⟨rs, qs, rfl, h3, h4⟩ := AreHexts.split h2
      exact ⟨_ :: rs, qs, rfl, .cons h1 h3, h4⟩

theorem areHexts_iff : ∀ {ts : List Str} {rs : List Rule}, AreHexts W ts rs ↔
    ts.map (parseHextC W.rx W.charSigned) = rs.map .ok
  | [], [] => ⟨fun _ => rfl, fun _ => .nil⟩
  | [], _ :: _ => by constructor <;> intro h <;> cases h
  | _ :: _, [] => by constructor <;> intro h <;> cases h
  | t :: ts, r :: rs => by
    rw [List.map_cons, List.map_cons, List.cons.injEq, ← areHexts_iff]
    constructor
    · rintro ⟨⟩; rename_i h1 h2; exact ⟨h1, h2⟩
    · rintro ⟨h1, h2⟩; exact .cons h1 h2

theorem parseStrings_ok : ∀ {ts : List Str} {rs : List Rule}, parseStrings W ts = .ok rs ↔ AreHexts W ts rs
  | [], rs => by
    rw [parseStrings]
    constructor
    · intro h; cases h; exact .nil
    · rintro ⟨⟩; rfl
  | t :: ts, rs => by
    rw [parseStrings]
    constructor
    · intro h
      cases h1 : parseText W (lit "Error in <hext-string>") t with
      | error e => rw [h1] at h; cases h
      | ok r =>
        rw [h1] at h
        cases h2 : parseStrings W ts with
        | error e => rw [h2] at h; cases h
        | ok rs' =>
          rw [h2] at h
          cases h
          exact .cons (parseText_ok.1 h1) (parseStrings_ok.1 h2)
    · rintro ⟨⟩
      rename_i h1 h2
      rw [(parseText_ok (title := lit "Error in <hext-string>")).2 h1, parseStrings_ok.2 h2]
      rfl

theorem parseFiles_ok : ∀ {ps : List Str} {w w' : σ} {rs : List Rule}, parseFiles W ps w = (.ok rs, w') ↔
    ∃ ts, Reads W ps w ts w' ∧ AreHexts W ts rs
  | [], w, w', rs => by
    rw [parseFiles]
    constructor
    · intro h
      simp only [pure, Except.pure, Prod.mk.injEq, Except.ok.injEq] at h
      obtain ⟨rfl, rfl⟩ := h
      exact ⟨[], .nil, .nil⟩
    · rintro ⟨ts, h1, h2⟩
      cases h1; cases h2; rfl
  | p :: ps, w, w', rs => by
    rw [parseFiles]
    constructor
    · intro h
      split at h
      · simp [throw, throwThe, MonadExceptOf.throw] at h
      · rename_i t w1 h1
        split at h
        · simp [throw, throwThe, MonadExceptOf.throw] at h
        · rename_i r h2
          split at h
          · simp [throw, throwThe, MonadExceptOf.throw] at h
          · rename_i rs' w2 h3
            simp only [pure, Except.pure, Prod.mk.injEq, Except.ok.injEq] at h
            obtain ⟨rfl, rfl⟩ := h
            obtain ⟨ts, h4, h5⟩ := parseFiles_ok.1 h3
            exact ⟨t :: ts, .cons (readFile_ok.1 h1) h4, .cons (parseText_ok.1 h2) h5⟩
    · rintro ⟨ts, h1, h2⟩
      cases h1 with
      | cons h3 h4 =>
        cases h2 with
        | cons h5 h6 =>
          rw [readFile_ok.2 h3]
          simp only
          rw [parseText_ok.2 h5]
          simp only
          rw [parseFiles_ok.2 ⟨_, h4, h6⟩]
          rfl

/-! ## Extraction -/

theorem extractFrom_ok {o : Opts} {r : Rule} {t : Str} {res} : extractFrom W o r t = some (.ok res) ↔
    resultOf W o.maxSearches r t = pure res := by
  unfold extractFrom resultOf
  simp only
  generalize extract W.rx (W.gumbo t).1 r (W.gumbo t).2 o.maxSearches = x
  rcases x with _ | ⟨_ | _ | _ | _⟩ | res'
  · constructor <;> intro h <;> cases h
  · constructor <;> intro h <;> cases h
  · constructor <;> intro h <;> cases h
  · constructor <;> intro h <;> cases h
  · constructor <;> intro h <;> cases h
  · constructor
    · intro h; cases h; rfl
    · intro h; cases h; rfl

theorem extractLoop_some {o : Opts} : ∀ {ps : List (Rule × Str)} {out : Str} {e : Option Exc}, extractLoop W o ps = some (out, e) →
    ∃ (ps1 ps2 : List (Rule × Str)) (results : List (List (List (Str × Str)))), ps = ps1 ++ ps2 ∧ ps1.map (fun x => resultOf W o.maxSearches x.1 x.2) = results.map pure ∧
      out = results.flatMap (render W o) ∧ match e with
        | none => ps2 = []
        | some e => ∃ r t ps3, ps2 = (r, t) :: ps3 ∧ extractFrom W o r t = some (.error e)
  | [], out, e, h => by
    rw [extractLoop] at h
    cases h
    exact ⟨[], [], [], rfl, rfl, rfl, rfl⟩
  | (r, t) :: ps, out, e, h => by
    rw [extractLoop] at h
    split at h
    · cases h
    · rename_i e' h1
      cases h
      exact ⟨[], _, [], rfl, rfl, rfl, r, t, ps, rfl, h1⟩
    · rename_i res h1
      split at h
      · cases h
      · rename_i out' e' h2
        cases h
        obtain ⟨ps1, ps2, results, rfl, h3, rfl, h5⟩ := extractLoop_some h2
        refine ⟨(r, t) :: ps1, ps2, res :: results, rfl, ?_, ?_, h5⟩
        · rw [List.map_cons, h3, List.map_cons, extractFrom_ok.1 h1]
        · rw [List.flatMap_cons]

theorem extractLoop_ok {o : Opts} : ∀ {ps : List (Rule × Str)} {results : List (List (List (Str × Str)))},
    ps.map (fun x => resultOf W o.maxSearches x.1 x.2) = results.map pure →
    extractLoop W o ps = some (results.flatMap (render W o), none)
  | [], [], _ => rfl
  | [], _ :: _, h => by simp at h
  | _ :: _, [], h => by simp at h
  | (r, t) :: ps, res :: results, h => by
    simp only [List.map_cons, List.cons.injEq] at h
    rw [extractLoop, extractFrom_ok.2 h.1]
    simp only
    rw [extractLoop_ok h.2, List.flatMap_cons]

theorem pairs_map {rs : List Rule} {ts : List Str} {limit : UInt64} {results} :
    (pairs rs ts).map (fun x => resultOf W limit x.1 x.2) = results.map pure ↔ AllResults W limit rs ts results := by
  unfold pairs AllResults
  rw [List.map_flatMap]
  simp only [List.map_map]
  rfl

/-! ## What is printed -/

theorem printJsonValue_text (v : Json) (opt : JsonOpt) : JText v (printJsonValue v opt) := by
  unfold printJsonValue
  split
  · exact prettyJson_text v 0
  · exact writeJson_text v

theorem printObjects_lines {opt : JsonOpt} : ∀ {res : List (List (Str × Str))}, (∀ m ∈ res, KeySorted m) → (∀ m ∈ res, NoNul m) →
    JsonLines res (printObjects opt (res.map fun g => Json.obj (groupObject g)))
  | [], _, _ => .nil
  | m :: ms, h1, h2 => by
    have ho := entsOf_presents (h1 m (by simp))
    rw [List.map_cons, printObjects, groupObject_presents (h1 m (by simp)) (h2 m (by simp)) ho]
    exact .cons ho (printJsonValue_text _ _) (printObjects_lines (fun x hx => h1 x (by simp [hx])) fun x hx => h2 x (by simp [hx]))

theorem printJson_lines {pretty : Bool} {res : List (List (Str × Str))} (h1 : ∀ m ∈ res, KeySorted m) (h2 : ∀ m ∈ res, NoNul m) :
    JsonLines res (printJson res { pretty := pretty, array := false }) := by
  simp only [printJson]
  exact printObjects_lines h1 h2

theorem printJson_array {pretty : Bool} {res : List (List (Str × Str))} (h1 : ∀ m ∈ res, KeySorted m) (h2 : ∀ m ∈ res, NoNul m)
    (hne : res ≠ []) : JsonArray res (printJson res { pretty := pretty, array := true }) := by
  have e : (res.map fun g => Json.obj (groupObject g)) = (res.map entsOf).map objectJson := by
    rw [List.map_map]
    apply List.map_congr_left
    intro m hm
    exact groupObject_presents (h1 m hm) (h2 m hm) (entsOf_presents (h1 m hm))
  simp only [printJson, if_true]
  rw [if_neg (by cases res with | nil => exact absurd rfl hne | cons _ _ => simp)]
  refine ⟨res.map entsOf, _, by simp, ?_, e ▸ printJsonValue_text _ _, rfl⟩
  intro x hx
  have : ∀ (l : List (List (Str × Str))), (∀ m ∈ l, KeySorted m) → ∀ y ∈ l.zip (l.map entsOf), Presents y.1 y.2 := by
    intro l
    induction l with
    | nil => simp
    | cons m l ih =>
      intro hl y hy
      simp only [List.map_cons, List.zip_cons_cons, List.mem_cons] at hy
      rcases hy with rfl | hy
      · exact entsOf_presents (hl m (by simp))
      · exact ih (fun z hz => hl z (by simp [hz])) y hy
  exact this res h1 x hx

theorem prints_flatMap {one : List (List (Str × Str)) → Str → Prop} {f : List (List (Str × Str)) → Str} :
    ∀ {results : List (List (List (Str × Str)))}, (∀ r ∈ results, one r (f r)) → Prints one results (results.flatMap f)
  | [], _ => .nil
  | r :: rs, h => by
    rw [List.flatMap_cons]
    exact .cons (h r (by simp)) (prints_flatMap fun x hx => h x (by simp [hx]))

end Hext.Cli
