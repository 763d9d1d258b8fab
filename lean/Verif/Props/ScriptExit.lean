import Verif.Props.Scripts
import Verif.Props.Stack
import Verif.Props.EndToEnd
/-!
# The exit codes of the scripts (C76)
-/

namespace Hext.Props

open Binding Script Cli

/-! ## What Python could convert -/

theorem bindB {α β : Type} {x : B α} {f : α → B β} {b : β} (h : (x >>= f) = pure b) : ∃ a, x = pure a ∧ f a = pure b := by
  rcases x with _ | _ | a
  · cases h
  · injection h with h; injection h
  · exact ⟨a, rfl, h⟩

theorem packLoop_all {ν : Type} {conv : Str → B ν} {C : Str → Prop} (hc : ∀ s v, conv s = pure v → C s) {m : List (Str × Str)} :
    ∀ (k lower upper : Nat) (acc vs : List ν), lower + k = upper → upper ≤ m.length → packLoop conv m lower upper acc = pure vs →
    ∀ j, lower ≤ j → j < upper → ∀ q, m[j]? = some q → C q.2
  | 0, lower, upper, acc, vs, h, _, _, j, h1, h2, _, _ => by omega
  | k + 1, lower, upper, acc, vs, h, hl, hp, j, h1, h2, q, hq => by
    rw [packLoop, if_neg (by omega), List.getElem?_eq_getElem (show lower < m.length by omega)] at hp
    obtain ⟨v, hv, hp⟩ := bindB hp
    rcases Nat.eq_or_lt_of_le h1 with rfl | h1
    · rw [List.getElem?_eq_getElem (show lower < m.length by omega)] at hq
      injection hq with hq
      subst hq
      exact hc _ _ hv
    · exact packLoop_all hc k (lower + 1) upper _ vs (by omega) hl hp j h1 h2 q hq

theorem mapLoop_all {σ ν : Type} {conv : Str → B ν} {put : σ → Str → Entry ν → B σ} {C K : Str → Prop}
    (hc : ∀ s v, conv s = pure v → C s) (hp : ∀ o k e o', put o k e = pure o' → K k) {m : List (Str × Str)} (hm : KeySorted m) :
    ∀ (k it : Nat) (o x : σ), m.length ≤ it + k → mapLoop conv put m it o = pure x →
      ∀ j, it ≤ j → ∀ q, m[j]? = some q → K q.1 ∧ C q.2
  | 0, it, o, x, h, _, j, hj, q, hq => by
    have := (List.getElem?_eq_some_iff.1 hq).1
    omega
  | k + 1, it, o, x, h, hx, j, hj, q, hq => by
    rw [mapLoop] at hx
    have hjl := (List.getElem?_eq_some_iff.1 hq).1
    cases hi : m[it]? with
    | none => rw [List.getElem?_eq_none_iff] at hi; omega
    | some p =>
      rw [hi] at hx
      simp only at hx
      split at hx
      · obtain ⟨v, hv, hx⟩ := bindB hx
        obtain ⟨o', ho, hx⟩ := bindB hx
        rcases Nat.eq_or_lt_of_le hj with rfl | hj
        · rw [hi] at hq; injection hq with hq; subst hq
          exact ⟨hp _ _ _ _ ho, hc _ _ hv⟩
        · exact mapLoop_all hc hp hm k (it + 1) o' x (by omega) hx j hj q hq
      · obtain ⟨vs, hv, hx⟩ := bindB hx
        obtain ⟨o', ho, hx⟩ := bindB hx
        have h1 := upperBound_gt hm hi
        rcases Nat.lt_or_ge j (upperBound m p.1) with hlt | hge
        · have hpq : p.1 = q.1 := by
            have a1 : ¬ q.1 < p.1 := by
              have hil := (List.getElem?_eq_some_iff.1 hi).1
              have hie := (List.getElem?_eq_some_iff.1 hi).2
              have hqe := (List.getElem?_eq_some_iff.1 hq).2
              rcases Nat.eq_or_lt_of_le hj with rfl | hj
              · rw [hi] at hq; injection hq with hq; subst hq; exact List.lt_irrefl _
              · have := List.pairwise_iff_getElem.1 hm it j hil hjl hj
                rw [hie, hqe] at this
                exact this
            have a2 : ¬ p.1 < q.1 := by
              intro hlt'
              unfold upperBound at hlt
              have := List.not_of_lt_findIdx hlt
              have hqe := (List.getElem?_eq_some_iff.1 hq).2
              rw [hqe] at this
              rw [← Bool.not_eq_true, bytesLt_iff] at this
              exact this hlt'
            exact List.le_antisymm a1 a2
          have h2 : lowerBound m p.1 ≤ it := by
            unfold lowerBound
            apply Nat.le_of_not_lt
            intro hlt'
            have := List.not_of_lt_findIdx hlt'
            have hie := (List.getElem?_eq_some_iff.1 hi).2
            rw [hie] at this
            rw [Bool.not_eq_false', bytesLt_iff] at this
            exact List.lt_irrefl _ this
          refine ⟨hpq ▸ hp _ _ _ _ ho, packLoop_all hc _ _ _ _ _ (Nat.add_sub_cancel' (lowerBound_le m p.1)) List.findIdx_le_length hv
            j (by omega) hlt q hq⟩
        · exact mapLoop_all hc hp hm k _ o' x (by omega) hx j hge q hq

theorem pyString_utf8 {s : Str} {t : Text} (h : pyString s = pure t) : IsUtf8Of (cstr s) t := by
  unfold pyString at h
  split at h
  · next hu => injection h with h; injection h with h; subst h; exact utf8_iff.1 hu
  · injection h with h; injection h

/-- If Python gets a dict, all names and values are UTF-8, up to their first NUL. -/
theorem pyDict_utf8 {m : List (Str × Str)} (hm : KeySorted m) {d} (h : pyDict m = pure d) :
    ∀ p ∈ m, (∃ t, IsUtf8Of (cstr p.1) t) ∧ ∃ t, IsUtf8Of (cstr p.2) t := by
  intro p hp
  obtain ⟨j, hj, rfl⟩ := List.getElem_of_mem hp
  exact mapLoop_all (C := fun s => ∃ t, IsUtf8Of (cstr s) t) (K := fun s => ∃ t, IsUtf8Of (cstr s) t) (fun s v hv => ⟨v, pyString_utf8 hv⟩)
    (fun o k e o' ho => by
      obtain ⟨t, ht, _⟩ := bindB ho
      exact ⟨t, pyString_utf8 ht⟩)
    hm m.length 0 [] d (by omega) h j (Nat.zero_le _) _ (List.getElem?_eq_getElem hj)

theorem pyResult_utf8 : ∀ {res : List (List (Str × Str))} {ts}, (∀ m ∈ res, KeySorted m) → pyResult res = pure ts →
    ∀ m ∈ res, ∀ p ∈ m, (∃ t, IsUtf8Of (cstr p.1) t) ∧ ∃ t, IsUtf8Of (cstr p.2) t
  | [], _, _, _ => by simp
  | m :: res, ts, hk, h => by
    rw [pyResult, resultLoop] at h
    obtain ⟨d, hd, h⟩ := bindB h
    obtain ⟨ds, hds, _⟩ := bindB h
    intro m' hm'
    rcases List.mem_cons.1 hm' with rfl | hm'
    · exact pyDict_utf8 (hk _ (by simp)) hd
    · exact pyResult_utf8 (fun x hx => hk x (by simp [hx])) hds m' hm'

/-! ## Success -/

section
variable {rx : RxEngine} {charSigned : Bool} {gumbo : Str → Heap × Ptr} {files : Str → Option Str} {f g : Str} {out : Str}

theorem guarded_ok {α : Type} {caught : Str → Bool} {x : Answer α} {k : α → Script.Ended} (h : guarded caught x k = .exit 0 out) :
    ∃ a, x = .value a ∧ k a = .exit 0 out := by
  cases x with
  | value a => exact ⟨a, rfl, h⟩
  | raises cls what =>
    rw [guarded] at h
    split at h <;> cases h
  | terminates => cases h
  | crash => cases h
  | hangs => cases h

theorem wrapperRule_value {hext : Str} {r : Rule} (h : wrapperRule rx charSigned hext = .value r) :
    parseHext rx charSigned hext = .ok r := by
  unfold wrapperRule at h
  split at h <;> cases h
  assumption

/-- What a parsed rule extracts is its outcome. -/
theorem extract_outcomeOf {hext html : Str} {r : Rule} {t : Tree} {ms : UInt64} {res : List (List (Str × Str))} (h1 : files f = some hext)
    (h2 : files g = some html) (hs : NoLong hext) (hp : parseHext rx charSigned hext = .ok r)
    (ht : IsDocument (gumbo html).1 1147483648 t) (hr : t.ptr = (gumbo html).2) (he : extract rx (gumbo html).1 r t.ptr ms = pure res) :
    OutcomeOf rx gumbo files f g res := by
  obtain ⟨res', g1, _, g2⟩ := extract_result (rx := rx) (n := 1147483648) (by decide) (parse_safe hs hp) (l := Loc.root t) ht
  have e := g2 ms
  rw [show (Loc.root t).ptr = t.ptr from rfl, he] at e
  split at e
  · exact (pure_ne_throw e).elim
  · have e := E.pure_inj e
    subst e
    have e0 := g2 0
    simp only [ne_eq, not_true_eq_false, false_and, if_false] at e0
    exact ⟨hext, html, r, t, h1, h2, (C36_parse_iff rx charSigned hext r).1 hp, ht, hr,
      outcome_heap (parse_builtin hp) ((extract_outcome (n := 1147483648) (by decide) (parse_safe hs hp) (parse_words hp)
        (l := Loc.root t) ht _).1 e0)⟩

/-- C76, Ruby. If the script exits with code 0, both files were read, the hext follows the grammar, and the script has printed the
whole outcome, one JSON object for each line. -/
theorem C76_ruby (hs : ∀ s, files f = some s → NoLong s) (hd : MakesDocuments gumbo) {toJson : List (Str × Entry Str) → Option Str}
    (hj : WritesOrRaises toJson) {usage : Str} {rest : List Str}
    (h : ruby rx charSigned gumbo files toJson usage (f :: g :: rest) = .exit 0 out) :
    ∃ res, OutcomeOf rx gumbo files f g res ∧ JsonPerLine res out := by
  rw [ruby] at h
  simp only at h
  split at h
  · cases h
  next hext h1 =>
  split at h
  · cases h
  next html h2 =>
  obtain ⟨r, hr, h⟩ := guarded_ok h
  obtain ⟨os, ho, h⟩ := guarded_ok h
  have hp := wrapperRule_value hr
  obtain ⟨t, ht, htr⟩ := hd html
  rcases C55_ruby_extract (hs _ h1) hp ht 0 with ⟨res, os', g1, g2, g3⟩ | ⟨g1, _⟩
  · rw [htr, ho] at g2
    injection g2 with g2
    subst g2
    refine ⟨res, extract_outcomeOf h1 h2 (hs _ h1) hp ht htr g1, ?_⟩
    obtain ⟨l1, l2⟩ := g3
    have key : ∀ (res : List (List (Str × Str))) (os : List (List (Str × Entry Str))) (pre : Str), os.length = res.length →
        (∀ x ∈ res.zip os, Presents x.1 x.2) → printLoop toJson pre os = .exit 0 out → ∃ out', out = pre ++ out' ∧ JsonPerLine res out' := by
      intro res
      induction res with
      | nil =>
        intro os pre hl _ h
        cases os with
        | cons _ _ => cases hl
        | nil => rw [printLoop] at h; injection h with _ h; exact ⟨[], by simp [h], .nil⟩
      | cons m res ih =>
        intro os pre hl hx h
        cases os with
        | nil => cases hl
        | cons o os =>
          rw [printLoop] at h
          split at h
          · cases h
          next s hse =>
          obtain ⟨out', e, ho'⟩ := ih os _ (by simpa using hl) (fun x hm => hx x (by rw [List.zip_cons_cons]; exact List.mem_cons_of_mem _ hm)) h
          exact ⟨s ++ 10 :: out', by rw [e]; simp, .cons (hj _ _ hse).2 (hx (m, o) (by simp)) (hj _ _ hse).1 ho'⟩
    obtain ⟨out', e, ho'⟩ := key res os [] l1 l2 h
    rw [e, List.nil_append]
    exact ho'
  · exact absurd rfl g1

/-- C76, Python. The same for files without carriage returns, if the outcome has no NUL bytes. -/
theorem C76_python_partial (hs : ∀ s, files f = some s → NoLong s) (hd : MakesDocuments gumbo)
    {dumps : List (Text × Entry Text) → Str} (hj : WritesText dumps) (hc : ∀ s, files f = some s → (13 : Byte) ∉ s)
    (hc' : ∀ s, files g = some s → (13 : Byte) ∉ s) (hn : ∀ res, OutcomeOf rx gumbo files f g res → ∀ m ∈ res, NoNul m)
    {usage : Str} {rest : List Str} (h : python rx charSigned gumbo files dumps usage (f :: g :: rest) = .exit 0 out) :
    ∃ res, OutcomeOf rx gumbo files f g res ∧ JsonPerLine res out := by
  have read : ∀ {f : Str} {s : Str}, (∀ s, files f = some s → (13 : Byte) ∉ s) → pyRead files f = some s → files f = some s := by
    intro f s hc h
    unfold pyRead at h
    split at h
    · cases h
    next s' h1 =>
    split at h
    · cases h
    · rw [newlines_eq (hc _ h1)] at h
      rw [h1]; exact h
  rw [python] at h
  simp only at h
  split at h
  · cases h
  next hext h1 =>
  split at h
  · cases h
  next html h2 =>
  have h1 := read hc h1
  have h2 := read hc' h2
  obtain ⟨r, hr, h⟩ := guarded_ok h
  obtain ⟨ts, ho, h⟩ := guarded_ok h
  have hp := wrapperRule_value hr
  obtain ⟨t, ht, htr⟩ := hd html
  rcases wrapperExtract_cases (fun res => pyResult_returns) (hs _ h1) hp ht 10000 with ⟨res, ts', g1, g2, g3⟩ | ⟨_, _, g3⟩ | ⟨_, _, _, _, g3⟩
  · have hout := extract_outcomeOf h1 h2 (hs _ h1) hp ht htr g1
    have hk : ∀ m ∈ res, KeySorted m := by
      rcases extract_cases (hs _ h1) hp ht 10000 with ⟨res', k1, k2⟩ | ⟨_, k1⟩
      · rw [g1] at k1; have k1 := E.pure_inj k1; subst k1; exact k2
      · rw [g1] at k1; exact (pure_ne_throw k1).elim
    have hu : ∀ m ∈ res, IsUtf8 m := by
      intro m hm p hpm
      have := pyResult_utf8 hk g2 m hm p hpm
      have hz := hn res hout m hm p hpm
      rw [cstr_eq hz.1, cstr_eq hz.2] at this
      exact this
    have hv : pyExtract rx (gumbo html).1 r t.ptr 10000 = .value ts' := g3
    rw [htr, ho] at hv
    injection hv with hv
    subst hv
    refine ⟨res, hout, ?_⟩
    rcases C55_python_extract (hs _ h1) hp ht 10000 with ⟨res', ts', k1, k2, k3⟩ | ⟨_, k1, _⟩ | ⟨res', m, k1, k2, k3, _⟩
    · rw [g1] at k1; have k1 := E.pure_inj k1; subst k1
      rw [htr, ho] at k2
      injection k2 with k2
      subst k2
      obtain ⟨l1, l2⟩ := k3 fun m hm => ⟨hn res hout m hm, hu m hm⟩
      obtain ⟨out', p1, p2⟩ := print_json (text := fun map => some (dumps (sortNames map))) (res := res) (as := ts) [] l1 fun x hx => by
        obtain ⟨o, ho, ht⟩ := l2 x hx
        obtain ⟨s1, s2⟩ := hj _ _ ht
        exact ⟨o, _, by rw [sortNames_eq (isTextOf_sorted ht ho.1)], s2, ho, s1⟩
      rw [p1] at h
      injection h with _ h
      rw [List.nil_append] at h
      exact h ▸ p2
    · rw [g1] at k1; exact (pure_ne_throw k1).elim
    · rw [g1] at k1; have k1 := E.pure_inj k1; subst k1
      exact absurd ⟨hn res hout m k2, hu m k2⟩ k3
  · have hv : pyExtract rx (gumbo html).1 r t.ptr 10000 = limitRaised := g3
    rw [htr, ho] at hv
    cases hv
  · have hv : pyExtract rx (gumbo html).1 r t.ptr 10000 = _ := g3
    rw [htr, ho] at hv
    cases hv

theorem outcome_asks (hs : ∀ s, files f = some s → NoLong s) {res : List (List (Str × Str))} (h : OutcomeOf rx gumbo files f g res)
    (hn : ∀ m ∈ res, NoNul m ∧ IsUtf8 m) : Asks rx gumbo files f g res := by
  obtain ⟨hext, html, r, t, h1, h2, h3, h4, h5, h6⟩ := h
  exact ⟨hext, html, r, t, h1, h2, hs _ h1, h3, h4, h5, h6, hn⟩

/-- C76, PHP. The same, if the outcome is UTF-8 without NUL bytes and the names of no group are 0, 1 and so on. -/
theorem C76_php_partial (hs : ∀ s, files f = some s → NoLong s) (hd : MakesDocuments gumbo) {J : PhpJson} (hj : WritesObject J.object)
    (hn : ∀ res, OutcomeOf rx gumbo files f g res → ∀ m ∈ res, NoNul m ∧ IsUtf8 m ∧ ¬ ListNames m)
    {usage : Str} {rest : List Str} (h : php rx charSigned gumbo files J usage (f :: g :: rest) = .exit 0 out) :
    ∃ res, OutcomeOf rx gumbo files f g res ∧ JsonPerLine res out := by
  have h0 := h
  rw [php] at h
  simp only at h
  split at h
  next hext html h1 h2 =>
    obtain ⟨r, hr, h⟩ := guarded_ok h
    obtain ⟨ts, ho, h⟩ := guarded_ok h
    have hp := wrapperRule_value hr
    obtain ⟨t, ht, htr⟩ := hd html
    rcases C55_php_extract (hs _ h1) hp ht 10000 with ⟨res, ts', g1, g2, _⟩ | ⟨_, _, g2⟩
    · have hout := extract_outcomeOf h1 h2 (hs _ h1) hp ht htr g1
      refine ⟨res, hout, ?_⟩
      have hc := hn res hout
      rcases C75_php_partial (charSigned := charSigned) (outcome_asks hs hout fun m hm => ⟨(hc m hm).1, (hc m hm).2.1⟩) hj
        (fun m hm => (hc m hm).2.2) usage rest with ⟨_, out', e, hout'⟩ | ⟨_, e⟩
      · rw [h0] at e
        injection e with _ e
        exact e ▸ hout'
      · rw [h0] at e
        injection e with e
        cases e
    · rw [htr, ho] at g2
      cases g2
  · cases h

/-- C76, Node. The same for files that are UTF-8 and a hext without NUL, if the outcome is UTF-8 without NUL bytes and no name is
`__proto__` or a number. -/
theorem C76_node_partial (hs : ∀ s, files f = some s → NoLong s) (hd : MakesDocuments gumbo) {js : Js}
    {stringify : List (Text × Entry Text) → Str} (hj : WritesText stringify) (hu : TextFile files f) (hu' : TextFile files g)
    (h0 : ∀ s, files f = some s → (0 : Byte) ∉ s)
    (hn : ∀ res, OutcomeOf rx gumbo files f g res → ∀ m ∈ res, NoNul m ∧ IsUtf8 m ∧
      ∀ p ∈ m, p.1 ≠ lit "__proto__" ∧ ∃ b ∈ p.1, ¬ (48 ≤ b ∧ b ≤ 57))
    {usage : Str} {rest : List Str} (h : node rx charSigned gumbo files js stringify usage (f :: g :: rest) = .exit 0 out) :
    ∃ res, OutcomeOf rx gumbo files f g res ∧ JsonPerLine res out := by
  have read : ∀ {f : Str} {s : Str}, TextFile files f → nodeRead files js f = some s → files f = some s := by
    intro f s hu h
    cases hf : files f with
    | none => rw [nodeRead, hf] at h; cases h
    | some s' => rw [nodeRead_eq hf hu] at h; exact h
  have hx := h
  rw [node] at h
  simp only at h
  split at h
  · cases h
  next hext h1 =>
  split at h
  · cases h
  next html h2 =>
  have h1 := read hu h1
  have h2 := read hu' h2
  obtain ⟨r, hr, h⟩ := guarded_ok h
  obtain ⟨ts, ho, h⟩ := guarded_ok h
  have hp : parseHext rx charSigned hext = .ok r := by
    unfold nodeRule parseHextC at hr
    rw [cstr_eq (h0 _ h1)] at hr
    split at hr <;> cases hr
    assumption
  obtain ⟨t, ht, htr⟩ := hd html
  rcases C55_node_extract js (hs _ h1) hp ht (.int 10000) with ⟨res, ts', g1, g2, _⟩ | ⟨_, _, what, g2⟩
  · have hout := extract_outcomeOf h1 h2 (hs _ h1) hp ht htr g1
    refine ⟨res, hout, ?_⟩
    have hc := hn res hout
    rcases C75_node_partial (charSigned := charSigned) (outcome_asks hs hout fun m hm => ⟨(hc m hm).1, (hc m hm).2.1⟩) (js := js) hj hu hu' h0
      (fun m hm => (hc m hm).2.2) usage rest with ⟨_, out', e, hout'⟩ | ⟨_, e⟩
    · rw [hx] at e
      injection e with _ e
      exact e ▸ hout'
    · rw [hx] at e
      injection e with e
      cases e
  · rw [htr, ho] at g2
    cases g2

/-! ## Failure -/

/-- C76. Without arguments, all scripts print how they are called; with one argument they print nothing and exit with code 1. -/
theorem C76_arguments (dumps stringify : List (Text × Entry Text) → Str) (toJson : List (Str × Entry Str) → Option Str) (J : PhpJson) (js : Js)
    (usage a : Str) :
    (python rx charSigned gumbo files dumps usage [] = .exit 0 usage ∧ php rx charSigned gumbo files J usage [] = .exit 0 usage ∧
      node rx charSigned gumbo files js stringify usage [] = .exit 0 usage ∧
      ruby rx charSigned gumbo files toJson usage [] = .exit 0 usage) ∧
    python rx charSigned gumbo files dumps usage [a] = .exit 1 [] ∧ php rx charSigned gumbo files J usage [a] = .exit 1 [] ∧
    node rx charSigned gumbo files js stringify usage [a] = .exit 1 [] ∧ ruby rx charSigned gumbo files toJson usage [a] = .exit 1 [] :=
  ⟨⟨rfl, rfl, rfl, rfl⟩, rfl, rfl, rfl, rfl⟩

/-- C76. If one of the files cannot be read, no script prints anything, and all report a failure. -/
theorem C76_missing (h : files f = none ∨ files g = none) (dumps stringify : List (Text × Entry Text) → Str)
    (toJson : List (Str × Entry Str) → Option Str) (J : PhpJson) (js : Js) (usage : Str) (rest : List Str) :
    Fails (python rx charSigned gumbo files dumps usage (f :: g :: rest)) ∧
    Fails (php rx charSigned gumbo files J usage (f :: g :: rest)) ∧
    Fails (node rx charSigned gumbo files js stringify usage (f :: g :: rest)) ∧
    Fails (ruby rx charSigned gumbo files toJson usage (f :: g :: rest)) := by
  refine ⟨?_, ?_, ?_, ?_⟩
  · rw [python]
    rcases h with h | h
    · rw [pyRead, h]; exact .uncaught
    · cases pyRead files f with
      | none => exact .uncaught
      | some s => simp only; rw [pyRead, h]; exact .uncaught
  · rw [php]
    rcases h with h | h
    · rw [h]; exact .exit
    · cases files f <;> rw [h] <;> exact .exit
  · rw [node]
    rcases h with h | h
    · rw [nodeRead, h]; exact .uncaught
    · cases nodeRead files js f with
      | none => exact .uncaught
      | some s => simp only; rw [nodeRead, h]; exact .uncaught
  · rw [ruby]
    rcases h with h | h
    · rw [h]; exact .uncaught
    · cases files f with
      | none => exact .uncaught
      | some s => simp only; rw [h]; exact .uncaught

/-- C76. If the hext does not follow the grammar, no script prints anything, and all exit with code 1. Hexts that make the parser
fail otherwise (C34, C35) are excluded. -/
theorem C76_rejected_partial {hext html : Str} (h1 : files f = some hext) (h2 : files g = some html) (hs : HextPlain charSigned hext)
    (hr : ∀ r, ¬ Syn.Means rx hext r) (hu : TextFile files f) (hu' : TextFile files g)
    (hc : (13 : Byte) ∉ hext ∧ (0 : Byte) ∉ hext) (dumps stringify : List (Text × Entry Text) → Str)
    (toJson : List (Str × Entry Str) → Option Str) (J : PhpJson) (js : Js) (usage : Str) (rest : List Str) :
    python rx charSigned gumbo files dumps usage (f :: g :: rest) = .exit 1 [] ∧
    php rx charSigned gumbo files J usage (f :: g :: rest) = .exit 1 [] ∧
    node rx charSigned gumbo files js stringify usage (f :: g :: rest) = .exit 1 [] ∧
    ruby rx charSigned gumbo files toJson usage (f :: g :: rest) = .exit 1 [] := by
  obtain ⟨what, hw⟩ : ∃ what, wrapperRule rx charSigned hext = .raises (lit "ValueError") what := by
    rcases C55_rule_partial rx hs with ⟨r, _, h⟩ | ⟨what, h, _⟩
    · exact absurd h (hr r)
    · exact ⟨what, h⟩
  obtain ⟨what', hw'⟩ : ∃ what, nodeRule rx charSigned hext = .raises (lit "Error") what := by
    have hz := cstr_eq hc.2
    rcases C55_node_rule_partial rx (charSigned := charSigned) (hext := hext) (by rw [hz]; exact hs) with ⟨r, _, h⟩ | ⟨what, h, _⟩
    · rw [hz] at h; exact absurd h (hr r)
    · exact ⟨what, h⟩
  refine ⟨?_, ?_, ?_, ?_⟩
  · rw [python, pyRead_eq h1 hu fun h => hc.1 h]
    simp only
    obtain ⟨t, ht⟩ := hu' html h2
    rw [pyRead, h2]
    simp only
    rw [utf8_iff.2 ht]
    simp only
    rw [hw, guarded, if_pos (by decide)]
  · rw [php, h1, h2]
    simp only
    rw [hw, guarded, if_pos rfl]
  · rw [node, nodeRead_eq h1 hu]
    simp only
    rw [nodeRead_eq h2 hu']
    simp only
    rw [hw', guarded, if_pos rfl]
  · rw [ruby, h1]
    simp only
    rw [h2]
    simp only
    rw [hw, guarded, if_pos (by decide)]

/-! ## Where a script does not report a failure -/

theorem jtext_nonempty {v : Json} {s : Str} (h : JText v s) : s ≠ [] := by
  cases h <;> simp

theorem entry_isText {m : List (Str × Str)} {o : List (Str × Entry Str)} (ho : Presents m o) {p : Str × Str} (hp : p ∈ m)
    (h : ∀ e ∈ o.map (·.2), ∃ t, e.IsText t) : ∃ t, IsUtf8Of p.2 t := by
  have hv : p.2 ∈ valuesOf m p.1 := List.mem_map.2 ⟨p, List.mem_filter.2 ⟨hp, by simp⟩, rfl⟩
  cases hvs : valuesOf m p.1 with
  | nil => rw [hvs] at hv; cases hv
  | cons v vs =>
    rw [hvs] at hv
    cases vs with
    | nil =>
      obtain ⟨t, ht⟩ := h _ (List.mem_map_of_mem ((ho.2 p.1 (.one v)).2 hvs))
      cases ht with
      | one ht => rw [List.mem_singleton.1 hv]; exact ⟨_, ht⟩
    | cons w vs =>
      obtain ⟨t, ht⟩ := h _ (List.mem_map_of_mem ((ho.2 p.1 (.many (v :: w :: vs))).2 ⟨hvs, by simp⟩))
      cases ht with
      | @many _ ts hl ht =>
        obtain ⟨i, hi, he⟩ := List.getElem_of_mem hv
        have hz : ((v :: w :: vs)[i], ts[i]'(hl ▸ hi)) ∈ (v :: w :: vs).zip ts := by
          rw [List.mem_iff_getElem]
          exact ⟨i, by rw [List.length_zip, ← hl, Nat.min_self]; exact hi, by simp⟩
        exact ⟨_, he ▸ ht _ hz⟩

/-- C76 fails in PHP for values that are not UTF-8: the script exits with code 0, although it has printed an empty line instead of
an object. -/
theorem C76_php_blank (hs : ∀ s, files f = some s → NoLong s) {res : List (List (Str × Str))} (h : OutcomeOf rx gumbo files f g res)
    (hn : ∀ m ∈ res, NoNul m) {m : List (Str × Str)} (hm : m ∈ res) {p : Str × Str} (hp : p ∈ m) (hu : ¬ ∃ t, IsUtf8Of p.2 t)
    (ht : ¬ TooMany rx charSigned gumbo files f g) {J : PhpJson} (hj1 : WritesObject J.object) (hj2 : WritesList J.list) (hj3 : Refuses J)
    (usage : Str) (rest : List Str) :
    ∃ out, php rx charSigned gumbo files J usage (f :: g :: rest) = .exit 0 out ∧ ¬ JsonPerLine res out := by
  obtain ⟨hext, html, r, t, h1, h2, h3, h4, h5, h6⟩ := h
  have hpr := (C36_parse_iff rx charSigned hext r).2 h3
  have he := (extract_outcome (h := (gumbo html).1) (n := 1147483648) (by decide) (parse_safe (hs _ h1) hpr) (parse_words hpr)
    (l := Loc.root t) h4 res).2 (outcome_heap (parse_builtin hpr) h6)
  have hrun : php rx charSigned gumbo files J usage (f :: g :: rest) =
      guarded (fun _ => true) (phpExtract rx (gumbo html).1 r t.ptr 10000) fun result =>
            printLoop (fun map => some (phpEncode J map)) [] result := by
    rw [php, h1, h2]
    simp only
    rw [wrapperRule_ok hpr, guarded, h5]
  rcases C55_php_extract (hs _ h1) hpr h4 10000 with ⟨res', ts, g1, g2, g3⟩ | ⟨_, g1, g2⟩
  · have e : res' = res := by
      obtain ⟨res'', k1, _, k2⟩ := extract_result (rx := rx) (n := 1147483648) (by decide) (parse_safe (hs _ h1) hpr) (l := Loc.root t) h4
      have e0 := k2 0
      rw [he] at e0
      simp only [ne_eq, not_true_eq_false, false_and, if_false] at e0
      have e0 := E.pure_inj e0
      have e1 := k2 10000
      rw [show (Loc.root t).ptr = t.ptr from rfl, g1] at e1
      split at e1
      · exact (pure_ne_throw e1).elim
      · rw [e0]; exact E.pure_inj e1
    subst e
    obtain ⟨l1, l2⟩ := g3 hn
    rw [hrun, g2, guarded, printLoop_some]
    refine ⟨_, rfl, fun hout => ?_⟩
    rw [List.nil_append] at hout
    have lines : ∀ a, (10 : Byte) ∉ phpEncode J a := by
      intro a
      unfold phpEncode
      split
      · by_cases hx : ∀ e ∈ a.map (·.2), ∃ t, e.IsText t
        · obtain ⟨s, s1, _, s3⟩ := hj2 _ hx
          rw [s1]; exact s3
        · rw [hj3.2 _ hx]; simp
      · by_cases hx : ∃ t, IsTextOf (a.map fun x => (keyText x.1, x.2)) t
        · obtain ⟨s, s1, _, s3⟩ := hj1 _ hx
          rw [s1]; exact s3
        · rw [hj3.1 _ hx]; simp
    obtain ⟨i, hi, him⟩ := List.getElem_of_mem hm
    have hz : (m, ts[i]'(l1 ▸ hi)) ∈ res'.zip ts := by
      rw [List.mem_iff_getElem]
      exact ⟨i, by simp; omega, by simp [him]⟩
    obtain ⟨o, ho, ha⟩ := l2 _ hz
    have ho : Presents m o := ho
    have ha : IsPhpArray o (ts[i]'(l1 ▸ hi)) := ha
    obtain ⟨o', hj⟩ := jsonPerLine_objects (text := phpEncode J) (fun a _ => lines a) hout (ts[i]'(l1 ▸ hi)) (List.getElem_mem _)
    have hmem : ∀ {o : List (Str × Entry Str)} {t}, IsTextOf o t → ∀ e ∈ o.map (·.2), ∃ t, e.IsText t := by
      intro o t h
      induction h with
      | nil => simp
      | cons _ he _ ih =>
        intro e hm
        rw [List.map_cons, List.mem_cons] at hm
        rcases hm with rfl | hm
        · exact ⟨_, he⟩
        · exact ih e hm
    have hno : ¬ ∀ e ∈ o.map (·.2), ∃ t, e.IsText t := fun hx => hu (entry_isText ho hp hx)
    have e1 : (ts[i]'(l1 ▸ hi)).map (·.2) = o.map (·.2) := by rw [← ha.1, List.map_map]; rfl
    have e2 : (ts[i]'(l1 ▸ hi)).map (fun x => (keyText x.1, x.2)) = o := ha.1
    apply jtext_nonempty hj
    unfold phpEncode
    rw [e1, e2, hj3.2 _ hno, hj3.1 _ fun ⟨t, hx⟩ => hno (hmem hx)]
    simp
  · exact absurd ⟨hext, html, r, h1, h2, hpr, h5 ▸ g1⟩ ht

end

/-! ## Examples -/

/-- An encoder that takes bytes: only correct texts, as `json_encode` does. -/
noncomputable def strictJson : PhpJson := by
  classical
  exact {
    object := fun o => if ∃ t, IsTextOf o t then some (writeJson (objectJson o)) else none
    list := fun es => if ∀ e ∈ es, ∃ t, e.IsText t then some (writeJson (.arr (es.map Entry.json))) else none }

theorem strictJson_writes : WritesObject strictJson.object ∧ WritesList strictJson.list ∧ Refuses strictJson :=
  ⟨fun _ h => ⟨_, if_pos h, writeJson_text _, writeJson_ne _⟩, fun _ h => ⟨_, if_pos h, writeJson_text _, writeJson_ne _⟩,
    fun _ h => if_neg h, fun _ h => if_neg h⟩

theorem exWorld_documents : MakesDocuments exWorld.gumbo := fun _ => ⟨Ex.doc, doc_ok2, rfl⟩

theorem exFiles_short {s : Str} (h : exFiles (lit "<a href:x/>") (lit "rule") = some s) : NoLong s := by
  injection h with h
  subst h
  exact noLong_of_few (by decide)

theorem exFiles_text (f : Str) : TextFile (exFiles (lit "<a href:x/>")) f := by
  intro s hs
  unfold exFiles at hs
  split at hs <;> injection hs with hs <;> subst hs
  · exact ⟨_, utf8_iff.1 (show utf8 (lit "<a href:x/>") = some ((lit "<a href:x/>").map (·.toNat)) by decide +kernel)⟩
  · exact ⟨_, utf8_iff.1 (show utf8 (lit "<a/>") = some ((lit "<a/>").map (·.toNat)) by decide +kernel)⟩

theorem exFiles_bytes (f : Str) {s : Str} (hs : exFiles (lit "<a href:x/>") f = some s) : (13 : Byte) ∉ s ∧ (0 : Byte) ∉ s := by
  unfold exFiles at hs
  split at hs <;> injection hs with hs <;> subst hs <;> decide

/-- The outcome of the example is the only one. -/
theorem ex_only {res : List (List (Str × Str))}
    (h : OutcomeOf Ex.rx exWorld.gumbo (exFiles (lit "<a href:x/>")) (lit "rule") (lit "page.html") res) :
    res = [[(lit "x", lit "1")], [(lit "x", lit "2")]] := by
  obtain ⟨hext, html, r, t, h1, h2, h3, h4, h5, h6⟩ := h
  injection h1 with h1
  subst h1
  have hp := (C36_parse_iff Ex.rx true _ r).2 h3
  rw [href_parsed] at hp
  injection hp with hp
  subst hp
  have hs : NoLong (lit "<a href:x/>") := noLong_of_few (by decide)
  have e1 := (extract_outcome (h := Ex.heap) (n := 1147483648) (by decide) (parse_safe hs (href_parsed Ex.rx true))
    (parse_words (href_parsed Ex.rx true)) (l := Loc.root t) h4 res).2 (outcome_heap (parse_builtin (href_parsed Ex.rx true)) h6)
  have e2 := (extract_outcome (h := Ex.heap) (n := 1147483648) (by decide) (parse_safe hs (href_parsed Ex.rx true))
    (parse_words (href_parsed Ex.rx true)) (l := Loc.root Ex.doc) doc_ok2 _).2 (outcome_heap (parse_builtin (href_parsed Ex.rx true)) href_outcome)
  rw [show (Loc.root t).ptr = (Loc.root Ex.doc).ptr from h5, e2] at e1
  exact (E.pure_inj e1).symm

/-- All scripts succeed on the example, with the whole outcome: the hypotheses of the four theorems are met. -/
example (js : Js) : ∃ rb py ph no,
    ruby Ex.rx true exWorld.gumbo (exFiles (lit "<a href:x/>")) strictJson.object [] [lit "rule", lit "page.html"] = .exit 0 rb ∧
    python Ex.rx true exWorld.gumbo (exFiles (lit "<a href:x/>")) exDumps [] [lit "rule", lit "page.html"] = .exit 0 py ∧
    php Ex.rx true exWorld.gumbo (exFiles (lit "<a href:x/>")) strictJson [] [lit "rule", lit "page.html"] = .exit 0 ph ∧
    node Ex.rx true exWorld.gumbo (exFiles (lit "<a href:x/>")) js exDumps [] [lit "rule", lit "page.html"] = .exit 0 no ∧
    ∀ out ∈ [rb, py, ph, no], ∃ res, OutcomeOf Ex.rx exWorld.gumbo (exFiles (lit "<a href:x/>")) (lit "rule") (lit "page.html") res ∧
      JsonPerLine res out := by
  obtain ⟨rb, h1, _⟩ := C75_ruby (charSigned := true) ex_asks strictJson_writes.1 [] []
  obtain ⟨_, py, h2, _⟩ := (C75_python_partial ex_asks exDumps_writes (exFiles_text _) (exFiles_text _) (fun s hs => (exFiles_bytes _ hs).1)
    (fun s hs => (exFiles_bytes _ hs).1) [] []).resolve_right fun x => ex_not_tooMany x.1
  obtain ⟨_, ph, h3, _⟩ := (C75_php_partial ex_asks strictJson_writes.1 ex_names [] []).resolve_right fun x => ex_not_tooMany x.1
  obtain ⟨_, no, h4, _⟩ := (C75_node_partial (js := js) ex_asks exDumps_writes (exFiles_text _) (exFiles_text _)
    (fun s hs => (exFiles_bytes _ hs).2) (by decide) [] []).resolve_right fun x => ex_not_tooMany x.1
  obtain ⟨_, _, _, _, _, _, _, _, _, _, _, hu⟩ := ex_asks
  refine ⟨rb, py, ph, no, h1, h2, h3, h4, ?_⟩
  simp only [List.mem_cons, List.not_mem_nil, or_false]
  rintro out (rfl | rfl | rfl | rfl)
  · refine C76_ruby (fun s => exFiles_short) exWorld_documents (fun o s h => ?_) h1
    by_cases ht : ∃ t, IsTextOf o t
    · obtain ⟨s', h', hw⟩ := strictJson_writes.1 o ht
      rw [h] at h'
      injection h' with h'
      subst h'
      exact hw
    · rw [strictJson_writes.2.2.1 o ht] at h
      cases h
  · exact C76_python_partial (fun s => exFiles_short) exWorld_documents exDumps_writes (fun s hs => (exFiles_bytes _ hs).1)
      (fun s hs => (exFiles_bytes _ hs).1) (fun res hr m hm => by cases ex_only hr; exact (hu m hm).1) h2
  · refine C76_php_partial (fun s => exFiles_short) exWorld_documents strictJson_writes.1
      (fun res hr m hm => ?_) h3
    cases ex_only hr
    exact ⟨(hu m hm).1, (hu m hm).2, ex_names m hm⟩
  · refine C76_node_partial (fun s => exFiles_short) exWorld_documents exDumps_writes (exFiles_text _) (exFiles_text _)
      (fun s hs => (exFiles_bytes _ hs).2)
      (fun res hr m hm => ?_) h4
    cases ex_only hr
    exact ⟨(hu m hm).1, (hu m hm).2, (show ∀ m ∈ [[(lit "x", lit "1")], [(lit "x", lit "2")]], ∀ p ∈ m, p.1 ≠ lit "__proto__" ∧ ∃ b ∈ p.1, ¬ (48 ≤ b ∧ b ≤ 57)
      by decide) m hm⟩

open Syn in
/-- `<a>` means no rule: no script accepts it. -/
example (js : Js) :
    python Ex.rx true exWorld.gumbo (exFiles (lit "<a>")) exDumps [] [lit "rule", lit "page.html"] = .exit 1 [] ∧
    php Ex.rx true exWorld.gumbo (exFiles (lit "<a>")) exJson [] [lit "rule", lit "page.html"] = .exit 1 [] ∧
    node Ex.rx true exWorld.gumbo (exFiles (lit "<a>")) js exDumps [] [lit "rule", lit "page.html"] = .exit 1 [] ∧
    ruby Ex.rx true exWorld.gumbo (exFiles (lit "<a>")) exJson.object [] [lit "rule", lit "page.html"] = .exit 1 [] := by
  have hok : ∀ i ∈ [Item.start (tagHead "a") false], i.Ok := by
    simp [Item.Ok, Head.Ok, tagHead, IsTag, IsName]
    exact .inr ⟨97, [], by decide, by simp [IsAlpha], by simp⟩
  obtain ⟨e, he⟩ := C36_unbalanced_rejected Ex.rx true _ hok (not_balanced_open (by simp))
  rw [show itemsText [Item.start (tagHead "a") false] = lit "<a>" by decide] at he
  have hu : ∀ f, TextFile (exFiles (lit "<a>")) f := by
    intro f s hs
    unfold exFiles at hs
    split at hs <;> injection hs with hs <;> subst hs
    · exact ⟨_, utf8_iff.1 (show utf8 (lit "<a>") = some ((lit "<a>").map (·.toNat)) by decide +kernel)⟩
    · exact ⟨_, utf8_iff.1 (show utf8 (lit "<a/>") = some ((lit "<a/>").map (·.toNat)) by decide +kernel)⟩
  refine C76_rejected_partial (files := exFiles (lit "<a>")) (f := lit "rule") (g := lit "page.html") (hext := lit "<a>") (html := lit "<a/>") rfl rfl
    ⟨noLong_of_few (by decide), charSafe_ascii fun _ => by decide, by decide⟩ (fun r hr => ?_) (hu _) (hu _) (by decide) _ _ _ _ _ _ _
  rw [(C36_parse_iff Ex.rx true _ r).2 hr] at he
  cases he

/-- No script succeeds without the second file. -/
example (js : Js) (files : Str → Option Str) (h : files (lit "page.html") = none) :
    Fails (ruby Ex.rx true exWorld.gumbo files exJson.object [] [lit "rule", lit "page.html"]) :=
  (C76_missing (.inr h) exDumps exDumps exJson.object exJson js [] []).2.2.2

/-- `<a href="é">` in Latin-1. -/
def latinTree : Tree := .node 1 (.element { tag := .known (lit "a"), attrs := [{ name := lit "href", value := some [0xE9] }] }) []

/-- htmlext.php prints an empty line for it, and exits with code 0. -/
example : ∃ out, php Ex.rx true (fun _ => (docHeap 0 latinTree, latinTree.ptr)) (exFiles (lit "<a href:x/>")) strictJson []
      [lit "rule", lit "page.html"] = .exit 0 out ∧ ¬ JsonPerLine [[(lit "x", [0xE9])]] out := by
  have hd : IsDocument (docHeap 0 latinTree) 1147483648 latinTree := isDocument_of_ok (by decide +kernel)
  have hs : NoLong (lit "<a href:x/>") := noLong_of_few (by decide)
  have he : ∀ ms : UInt64, ms = 0 ∨ ms = 10000 →
      extract Ex.rx (docHeap 0 latinTree) hrefRule (Loc.root latinTree).ptr ms = pure [[(lit "x", [0xE9])]] := by
    intro ms h
    rw [extract_eq (rx := Ex.rx) (n := 1147483648) (by decide) (parse_safe hs (href_parsed Ex.rx true)) (l := Loc.root latinTree) hd]
    rcases h with rfl | rfl <;> decide +kernel
  have ho := outcome_heap (h' := fun _ => none) (parse_builtin (href_parsed Ex.rx true))
    ((extract_outcome (n := 1147483648) (by decide) (parse_safe hs (href_parsed Ex.rx true)) (parse_words (href_parsed Ex.rx true))
      (l := Loc.root latinTree) hd _).1 (he 0 (.inl rfl)))
  refine C76_php_blank (charSigned := true) (fun s => exFiles_short)
    ⟨lit "<a href:x/>", lit "<a/>", hrefRule, latinTree, rfl, rfl, (C36_parse_iff Ex.rx true _ _).1 (href_parsed Ex.rx true), hd, rfl, ho⟩
    (by unfold NoNul; decide) (m := [(lit "x", [0xE9])]) (by simp) (p := (lit "x", [0xE9])) (by simp) ?_
    (not_tooMany (hext := lit "<a href:x/>") (html := lit "<a/>") rfl rfl (href_parsed Ex.rx true) (he 10000 (.inr rfl)))
    strictJson_writes.1 strictJson_writes.2.1 strictJson_writes.2.2 [] []
  rintro ⟨t, ht⟩
  have := utf8_iff.2 ht
  rw [show utf8 [0xE9] = none by decide +kernel] at this
  cases this

/-! ## A document with too many searches -/

/-- `<a href="1">`, and in it `k` elements `<a>` in each other. -/
def linkTower (k : Nat) : Tree := .node (k + 2) (.element { tag := .known (lit "a"), attrs := [{ name := lit "href", value := some (lit "1") }] })
  [tower k]

theorem linkTower_document (k : Nat) : IsDocument (docHeap 0 (linkTower k)) 1147483648 (linkTower k) := by
  have hf : ∀ k, FanoutLe 1147483648 (tower k) := by
    intro k
    induction k with
    | zero => exact ⟨by simp, trivial⟩
    | succ k ih => exact ⟨by simp, ih, trivial⟩
  refine docHeap_isDocument ?_ ⟨by simp, hf k, trivial⟩
  simp only [docEntries, linkTower, entries, entriesL, List.append_nil, List.map_cons, List.nodup_cons, List.mem_cons, not_or]
  obtain ⟨h1, h2⟩ := tower_entries k (some (k + 2)) 0
  refine ⟨⟨by simp, fun hm => ?_⟩, fun hm => ?_, h2⟩
  · obtain ⟨e, he, h3⟩ := List.mem_map.1 hm
    have h4 : (1 : Nat) ≤ 0 := h3 ▸ (h1 e he).1
    omega
  · obtain ⟨e, he, h3⟩ := List.mem_map.1 hm
    have h4 : (k + 2 : Nat) ≤ k + 1 := h3 ▸ (h1 e he).2
    omega

theorem tower_under (k : Nat) : (tower k).under.length = k := by
  induction k with
  | zero => rfl
  | succ k ih => simp [tower, Tree.under, underL, ih]

theorem root_onward (t : Tree) : (Loc.root t).onward = [Loc.root t] := rfl
theorem linkTower_searched (k : Nat) : (Loc.root (linkTower k)).searched.length = k + 2 := by
  rw [Loc.searched, root_onward, List.map_cons, List.map_nil]
  show (underL [linkTower k]).length + 1 = k + 2
  rw [underL, underL, List.append_nil, linkTower, Tree.under]
  simp only [List.isEmpty_cons, Bool.false_eq_true, if_false, underL, List.append_nil, List.length_cons, tower_under]

theorem valueAt_kind (tag attr : Str) (p : Ptr) (k : Kind) (kids : List Tree) :
    (Tree.node p k kids).valueAt tag attr = (Tree.node 0 k []).valueAt tag attr := rfl

theorem tower_values (k : Nat) : (tower k).valueAt (lit "a") (lit "href") = none ∧ (tower k).valuesBelow (lit "a") (lit "href") = [] := by
  induction k with
  | zero => exact ⟨rfl, rfl⟩
  | succ k ih =>
    refine ⟨?_, by simp [tower, Tree.valuesBelow, valuesBelowL, ih]⟩
    rw [tower, valueAt_kind]
    decide +kernel

open Syn in
/-- C75_limit is about documents that exist: the outcome of `<a href:x/>` on ten thousand elements in each other is one group, three
scripts report a failure, and only the script for Ruby prints it. -/
theorem C75_limit_reached (js : Js) : ∃ gumbo : Str → Heap × Ptr, MakesDocuments gumbo ∧
    OutcomeOf Ex.rx gumbo (exFiles (lit "<a href:x/>")) (lit "rule") (lit "page.html") [[(lit "x", lit "1")]] ∧
    python Ex.rx true gumbo (exFiles (lit "<a href:x/>")) exDumps [] [lit "rule", lit "page.html"] = .exit 1 [] ∧
    php Ex.rx true gumbo (exFiles (lit "<a href:x/>")) exJson [] [lit "rule", lit "page.html"] = .exit 1 [] ∧
    node Ex.rx true gumbo (exFiles (lit "<a href:x/>")) js exDumps [] [lit "rule", lit "page.html"] = .exit 1 [] ∧
    ∃ out, ruby Ex.rx true gumbo (exFiles (lit "<a href:x/>")) exJson.object [] [lit "rule", lit "page.html"] = .exit 0 out ∧
      JsonPerLine [[(lit "x", lit "1")]] out := by
  generalize hk : (9998 : Nat) = k
  have hd := linkTower_document k
  have hs : NoLong (lit "<a href:x/>") := noLong_of_few (by decide)
  have hsafe := parse_safe hs (href_parsed Ex.rx true)
  have hname : IsName (lit "a") ∧ IsName (lit "href") ∧ IsName (lit "x") := by
    refine ⟨⟨97, [], by decide, by simp [IsAlpha], by simp⟩, ⟨104, lit "ref", by decide, by simp [IsAlpha], ?_⟩,
      ⟨120, [], by decide, by simp [IsAlpha], by simp⟩⟩
    simp only [IsNameByte, IsAlpha]; decide
  obtain ⟨r, h1, h2⟩ := C62_link (rx := Ex.rx) true hname.1 hname.2.1 hname.2.2 (by decide) hd
  rw [show lit "<" ++ lit "a" ++ lit " " ++ lit "href" ++ lit ":" ++ lit "x" ++ lit "/>" = lit "<a href:x/>" by decide,
    href_parsed] at h1
  cases h1
  have hv : (linkTower k).values (lit "a") (lit "href") = [lit "1"] := by
    have : (linkTower k).valueAt (lit "a") (lit "href") = some (lit "1") := by rw [linkTower, valueAt_kind]; decide +kernel
    rw [Tree.values, this]
    simp [linkTower, Tree.valuesBelow, valuesBelowL, tower_values]
  rw [hv, List.map_cons, List.map_nil, show (linkTower k).ptr = (Loc.root (linkTower k)).ptr from rfl] at h2
  have ho := outcome_heap (h' := fun _ => none) (parse_builtin (href_parsed Ex.rx true))
    ((extract_outcome (n := 1147483648) (by decide) hsafe (parse_words (href_parsed Ex.rx true)) (l := Loc.root (linkTower k)) hd _).1 h2)
  have hmax := (max_searches_flat (rx := Ex.rx) (n := 1147483648) (by decide) hsafe (l := Loc.root (linkTower k)) hd
    ⟨rfl, trivial, trivial⟩ 10000 (by decide)).2 (by rw [linkTower_searched]; have : (10000 : UInt64).toNat = 10000 := rfl; omega)
  have hm : Syn.Means Ex.rx (lit "<a href:x/>") hrefRule := (C36_parse_iff Ex.rx true _ _).1 (href_parsed Ex.rx true)
  have ha : Asks Ex.rx (fun _ => (docHeap 0 (linkTower k), (linkTower k).ptr)) (exFiles (lit "<a href:x/>")) (lit "rule") (lit "page.html")
      [[(lit "x", lit "1")]] :=
    ⟨lit "<a href:x/>", lit "<a/>", hrefRule, linkTower k, rfl, rfl, hs, hm, hd, rfl, ho, fun m hm => by
      have : ∀ m ∈ [[(lit "x", lit "1")]], NoNul m ∧
          ∀ p ∈ m, utf8 p.1 = some (p.1.map (·.toNat)) ∧ utf8 p.2 = some (p.2.map (·.toNat)) := by unfold NoNul; decide +kernel
      exact ⟨(this m hm).1, isUtf8_ascii (this m hm).2⟩⟩
  exact ⟨fun _ => (docHeap 0 (linkTower k), (linkTower k).ptr), fun _ => ⟨_, hd, rfl⟩,
    ⟨lit "<a href:x/>", lit "<a/>", hrefRule, linkTower k, rfl, rfl, hm, hd, rfl, ho⟩,
    C75_limit ha ⟨lit "<a href:x/>", lit "<a/>", hrefRule, rfl, rfl, href_parsed Ex.rx true, hmax⟩ exDumps_writes exDumps_writes
      exJson_writes.1 exJson_writes.1 (exFiles_text _) (exFiles_text _) (fun s hs => exFiles_bytes _ hs)
      (fun s hs => (exFiles_bytes _ hs).1) (by decide) []⟩

end Hext.Props
