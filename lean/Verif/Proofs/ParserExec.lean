import Verif.Proofs.ParserAuto
import Verif.Proofs.ParserWords
/-!
# Running the words of the grammar

Running a word of bytes and actions, and the effect of the words of literals.
-/

namespace Hext

open Syn

/-! ## Errors -/

/-- The errors that the actions of a word may end with: a syntax error, or the exception of `std::stoi`.
(`overflow` needs an input of two billion lines.) -/
inductive Soft : PErr → Prop
  | syntax (m) : Soft (.syntax m)
  | outOfRange : Soft .outOfRange
  | overflow : Soft .overflow

/-- An error message was written, unless the count of lines overflowed. -/
inductive Written : PErr → Prop
  | syntax (m) : Written (.syntax m)
  | overflow : Written .overflow

theorem Written.soft {e} (h : Written e) : Soft e := by cases h <;> constructor

theorem printLines_written (width : Nat) (ls : List Str) : ∀ n, (∃ m, printLines width n ls = .ok m) ∨
    printLines width n ls = .error .overflow := by
  induction ls with
  | nil => intro n; exact .inl ⟨_, rfl⟩
  | cons l ls ih =>
    intro n
    simp only [printLines]
    split
    · exact .inr rfl
    · rcases ih (n + 1) with ⟨m, h⟩ | h
      · exact .inl ⟨_, by rw [h]; rfl⟩
      · exact .inr (by rw [h]; rfl)

theorem printNumberedLines_written (s : Str) : (∃ m, printNumberedLines s = .ok m) ∨
    printNumberedLines s = .error .overflow := printLines_written _ _ _

theorem printErrorLocation_written (c : Ctx) {uc : Nat} (h : uc ≤ c.input.length) (k : Nat) :
    (∃ m, printErrorLocation c uc k = .ok m) ∨ printErrorLocation c uc k = .error .overflow := by
  have h1 : P.assert (decide (uc ≤ c.input.length)) = .ok () := by simp [P.assert, h]; rfl
  have key : ∀ (l : P Str) (f : Str → P Str), ((∃ m, l = .ok m) ∨ l = .error .overflow) → (∀ x, ∃ m, f x = .ok m) →
      (∃ m, (l >>= f) = .ok m) ∨ (l >>= f) = .error .overflow := by
    rintro l f (⟨m, rfl⟩ | rfl) hf
    · exact .inl (hf m)
    · exact .inr rfl
  unfold printErrorLocation
  simp only [h1]
  refine key _ _ ?_ ?_
  · unfold errorLines
    split
    · exact printNumberedLines_written _
    · exact printNumberedLines_written _
  · intro x
    split
    · exact ⟨_, rfl⟩
    · split <;> exact ⟨_, rfl⟩

theorem throwErrorMessage_written {α} (c : Ctx) {p : Nat} (h0 : 0 < p) (h : p ≤ c.input.length) (msg : Str) :
    ∃ e, (throwErrorMessage c p msg : P α) = .error e ∧ Written e := by
  unfold throwErrorMessage pMinus1
  rw [if_neg (by omega)]
  rcases printErrorLocation_written c (show p - 1 ≤ _ by omega) 1 with ⟨m, hm⟩ | hm
  · exact ⟨_, by simp only [pure_bind, hm]; rfl, .syntax _⟩
  · exact ⟨_, by simp only [pure_bind, hm]; rfl, .overflow⟩

theorem throwRegexError_written {α} (c : Ctx) {p : Nat} (h0 : 0 < p) (h : p ≤ c.input.length) (k : Nat) (what : Str) :
    ∃ e, (throwRegexError c p k what : P α) = .error e ∧ Written e := by
  unfold throwRegexError pMinus1
  rw [if_neg (by omega)]
  rcases printErrorLocation_written c (show p - 1 ≤ _ by omega) k with ⟨m, hm⟩ | hm
  · exact ⟨_, by simp only [pure_bind, hm]; rfl, .syntax _⟩
  · exact ⟨_, by simp only [pure_bind, hm]; rfl, .overflow⟩

theorem throwUnexpectedTag_written {α} (c : Ctx) {p : Nat} (h0 : 0 < p) (h : p ≤ c.input.length) (t e n) :
    ∃ e', (throwUnexpectedTag c p t e n : P α) = .error e' ∧ Written e' := by
  unfold throwUnexpectedTag pMinus1
  rw [if_neg (by omega)]
  rcases printErrorLocation_written c (show p - 1 ≤ _ by omega) (t.length + 2) with ⟨m, hm⟩ | hm
  · exact ⟨_, by simp only [pure_bind, hm]; rfl, .syntax _⟩
  · exact ⟨_, by simp only [pure_bind, hm]; rfl, .overflow⟩

theorem throwMissingTag_written {α} (c : Ctx) (t n) : ∃ e, (throwMissingTag c t n : P α) = .error e ∧ Written e := by
  unfold throwMissingTag
  rcases printErrorLocation_written c (Nat.le_refl _) 0 with ⟨m, hm⟩ | hm
  · exact ⟨_, by rw [hm]; rfl, .syntax _⟩
  · exact ⟨_, by rw [hm]; rfl, .overflow⟩

/-! ## Running a word -/

/-- The stacks and the pattern values. -/
abbrev View := List (List Rule) × PV

def view (s : PSt) : View := (s.stacks, s.pv)

/-- The bytes of the word are at the position. -/
def At (c : Ctx) (p : Nat) (w : List Sym) : Prop := p ≤ c.input.length ∧ chars w <+: c.input.drop p

/-- The outcome is as described: a state with the property, or (`none`) an error. -/
def Out (r : P PSt) : Option (View → Prop) → Prop
  | some Q => ∃ s, r = .ok s ∧ Q (view s)
  | none => ∃ e, r = .error e ∧ Soft e

/-- From the view `x` the word `w` has the outcome `Q`, wherever it is in the input. -/
def Runs (c : Ctx) (w : List Sym) (x : View) (Q : Option (View → Prop)) : Prop :=
  ∀ p s, At c p w → view s = x → Out (execWord c p w s) Q

theorem At.step {c p b w} (h : At c p (.ch b :: w)) : At c (p + 1) w := by
  obtain ⟨h1, t, h2⟩ := h
  simp only [chars] at h2
  have h3 : (c.input.drop p).length = ((b :: chars w) ++ t).length := by rw [← h2]
  simp at h3
  refine ⟨by omega, t, ?_⟩
  rw [← List.drop_drop, ← h2]
  rfl

theorem At.act {c p a w} (h : At c p (.act a :: w)) : At c p w := h

theorem At.chs {c : Ctx} {w} : ∀ {s : Str} {p}, At c p (chs s ++ w) → At c (p + s.length) w
  | [], p, h => h
  | b :: s, p, h => by
    have := At.chs (s := s) h.step
    rw [List.length_cons]
    rw [show p + (s.length + 1) = p + 1 + s.length from by omega]
    exact this

theorem At.take {c : Ctx} {w} {s : Str} {p} (h : At c p (Hext.chs s ++ w)) : (c.input.drop p).take s.length = s := by
  obtain ⟨_, t, h2⟩ := h
  rw [← h2, chars_append, chars_chs]
  simp

theorem Runs.nil {c x} {Q : View → Prop} (h : Q x) : Runs c [] x (some Q) := by
  intro p s _ hs
  exact ⟨s, rfl, hs ▸ h⟩

theorem Runs.ch {c b w x Q} (h : Runs c w x Q) : Runs c (.ch b :: w) x Q := fun p s hp hs => h (p + 1) s hp.step hs

theorem execWord_chs (c : Ctx) (w : List Sym) : ∀ (t : Str) (p : Nat) (s : PSt),
    execWord c p (chs t ++ w) s = execWord c (p + t.length) w s
  | [], _, _ => rfl
  | b :: t, p, s => by
    rw [List.length_cons, show p + (t.length + 1) = p + 1 + t.length from by omega]
    exact execWord_chs c w t (p + 1) s

theorem Runs.chs {c w x Q} (t : Str) (h : Runs c w x Q) : Runs c (chs t ++ w) x Q := by
  intro p s hp hs
  rw [execWord_chs]
  exact h _ s hp.chs hs

theorem Runs.act {c a w x y Q} (ha : ∀ p s, view s = x → ∃ s', a.exec c p s = .ok s' ∧ view s' = y)
    (h : Runs c w y Q) : Runs c (.act a :: w) x Q := by
  intro p s hp hs
  obtain ⟨s', h1, h2⟩ := ha p s hs
  show Out (a.exec c p s >>= execWord c p w) Q
  rw [h1]
  exact h p s' hp.act h2

theorem Runs.tkStart {c w x Q} (h : Runs c w x Q) : Runs c (.act .tkStart :: w) x Q :=
  Runs.act (fun _ s hs => ⟨{ s with tokBegin := some _ }, rfl, hs⟩) h

/-- An action that changes the pattern values only. -/
theorem Runs.pv {c a w st pv Q} (f : PV → PV) (ha : ∀ p s, a.exec c p s = .ok { s with pv := f s.pv })
    (h : Runs c w (st, f pv) Q) : Runs c (.act a :: w) (st, pv) Q := by
  refine Runs.act (fun p s hs => ⟨_, ha p s, ?_⟩) h
  simp only [view, Prod.mk.injEq] at hs ⊢
  exact ⟨hs.1, by rw [hs.2]⟩

theorem tkStop_eq {c : Ctx} {p : Nat} {t : Str} {w : List Sym} (h : At c p (Hext.chs t ++ w)) (s : PSt) (hs : s.tokBegin = some p) :
    tkStop c (p + t.length) s = .ok { s with tok := t } := by
  have h1 := h.take
  have h2 : p + t.length ≤ c.input.length := h.chs.1
  simp only [tkStop, hs]
  rw [if_pos ⟨by omega, h2⟩, show p + t.length - p = t.length from by omega, h1]
  rfl

/-- A token, followed by an action that takes it. -/
theorem Runs.token {c a w x Q} {t : Str} (g : Nat → PSt → P PSt) (ha : ∀ p s, a.exec c p s = tkStop c p s >>= g p)
    (h : ∀ p s, t.length ≤ p → At c p w → view s = x → s.tok = t → Out (g p s >>= execWord c p w) Q) :
    Runs c (.act .tkStart :: (Hext.chs t ++ .act a :: w)) x Q := by
  intro p s hp hs
  have hp' : At c p (Hext.chs t ++ .act a :: w) := hp
  show Out (execWord c p (Hext.chs t ++ .act a :: w) { s with tokBegin := some p }) Q
  rw [execWord_chs]
  show Out (a.exec c (p + t.length) { s with tokBegin := some p } >>= execWord c (p + t.length) w) Q
  rw [ha, tkStop_eq hp' _ rfl, P.bind_assoc]
  exact h _ _ (by omega) hp'.chs.act hs rfl

/-- A token that is stored. -/
theorem Runs.tokenPV {c a w st pv Q} {t : Str} (f : Str → PV → PV)
    (ha : ∀ p s, a.exec c p s = tkStop c p s >>= fun s => pure { s with pv := f s.tok s.pv })
    (h : Runs c w (st, f t pv) Q) : Runs c (.act .tkStart :: (Hext.chs t ++ .act a :: w)) (st, pv) Q := by
  refine Runs.token (fun p s => pure { s with pv := f s.tok s.pv }) ha fun p s hp hw hs ht => ?_
  refine h p _ hw ?_
  simp only [view, Prod.mk.injEq] at hs ⊢
  exact ⟨hs.1, by rw [hs.2, ht]⟩

/-- A token that is read as a number. -/
theorem Runs.tokenInt {c a w st pv Q} {t : Str} (f : Int → PV → PV) (o : Option Int)
    (ha : ∀ p s, a.exec c p s = tkStop c p s >>= fun s => stoi s.tok >>= fun v => pure { s with pv := f v s.pv })
    (hv : stoi t = match o with | some v => .ok v | none => .error .outOfRange)
    (h : ∀ v, o = some v → Runs c w (st, f v pv) Q) (hn : o = none → Q = none) :
    Runs c (.act .tkStart :: (Hext.chs t ++ .act a :: w)) (st, pv) Q := by
  refine Runs.token (fun p s => stoi s.tok >>= fun v => pure { s with pv := f v s.pv }) ha fun p s hp hw hs ht => ?_
  simp only [ht, hv]
  cases o with
  | none =>
    rw [hn rfl]
    exact ⟨_, rfl, .outOfRange⟩
  | some v =>
    refine h v rfl p _ hw ?_
    simp only [view, Prod.mk.injEq] at hs ⊢
    exact ⟨hs.1, by rw [hs.2]⟩

/-! ## Numbers -/

theorem isDigit_of {b : Byte} (h : 48 ≤ b ∧ b ≤ 57) : isDigit b = true := by
  simp [isDigit, h.1, h.2]

theorem takeWhile_digits {d : Str} (h : ∀ b ∈ d, 48 ≤ b ∧ b ≤ 57) : d.takeWhile isDigit = d := by
  induction d with
  | nil => rfl
  | cons b d ih =>
    simp only [List.mem_cons, forall_eq_or_imp] at h
    rw [List.takeWhile_cons, isDigit_of h.1, if_pos rfl, ih h.2]

theorem digits_fold {d : Str} (h : ∀ b ∈ d, 48 ≤ b ∧ b ≤ 57) : ∀ n : Nat,
    d.foldl (fun (n : Int) (x : Byte) => n * 10 + ((x.toNat : Int) - 48)) (n : Int) =
      ((d.foldl (fun (n : Nat) (x : Byte) => n * 10 + (x.toNat - 48)) n : Nat) : Int) := by
  induction d with
  | nil => intro n; rfl
  | cons b d ih =>
    intro n
    simp only [List.mem_cons, forall_eq_or_imp] at h
    have hb : 48 ≤ b.toNat := h.1.1
    rw [List.foldl_cons, List.foldl_cons, ← ih h.2]
    congr 1
    omega

theorem stoi_run {neg : Bool} {d : Str} (h : IsDigits d) (s : Str)
    (hs : s = sign neg ++ d ∨ s = (if neg then 45 else 43) :: d) :
    stoi s = match intVal neg d with | some v => .ok v | none => .error .outOfRange := by
  obtain ⟨b, d', rfl⟩ : ∃ b d', d = b :: d' := by
    cases d with
    | nil => exact absurd rfl h.1
    | cons b d' => exact ⟨b, d', rfl⟩
  have hb := h.2 b (.head _)
  have e : splitSign s = (neg, b :: d') := by
    have n1 : b ≠ 45 := by rintro rfl; exact absurd hb.1 (by decide)
    have n2 : b ≠ 43 := by rintro rfl; exact absurd hb.1 (by decide)
    cases neg
    · rcases hs with rfl | rfl
      · show splitSign (b :: d') = _
        unfold splitSign
        split
        · next h => exact absurd (List.cons.inj h).1 n1
        · next h => exact absurd (List.cons.inj h).1 n2
        · rfl
      · rfl
    · rcases hs with rfl | rfl <;> rfl
  unfold stoi
  simp only [e, takeWhile_digits h.2]
  have hf := digits_fold h.2 0
  simp only [List.isEmpty_cons, Bool.false_eq_true, if_false, intVal, digitsVal]
  have hf' : List.foldl (fun (n : Int) (x : Byte) => n * 10 + ((x.toNat : Int) - 48)) 0 (b :: d') =
      ((List.foldl (fun (n : Nat) (x : Byte) => n * 10 + (x.toNat - 48)) 0 (b :: d') : Nat) : Int) := hf
  rw [hf']
  have key : ∀ v : Int, (if intMin ≤ v ∧ v ≤ intMax then (pure v : P Int) else throw .outOfRange) =
      match (if intMin ≤ v ∧ v ≤ intMax then some v else none) with
      | some v => .ok v
      | none => .error .outOfRange := by
    intro v
    by_cases hv : intMin ≤ v ∧ v ≤ intMax
    · rw [if_pos hv, if_pos hv]; rfl
    · rw [if_neg hv, if_neg hv]; rfl
  exact key _

theorem stoi_sign {neg : Bool} {d : Str} (h : IsDigits d) :
    stoi (sign neg ++ d) = match intVal neg d with | some v => .ok v | none => .error .outOfRange :=
  stoi_run h _ (.inl rfl)

theorem stoi_shift {neg : Bool} {d : Str} (h : IsDigits d) :
    stoi ((if neg then 45 else 43) :: d) = match intVal neg d with | some v => .ok v | none => .error .outOfRange :=
  stoi_run h _ (.inr rfl)

theorem stoi_digits {d : Str} (h : IsDigits d) :
    stoi d = match intVal false d with | some v => .ok v | none => .error .outOfRange :=
  stoi_run (neg := false) h _ (.inl rfl)

/-! ## Literals -/

theorem runs_quoted {c w st pv Q} (q : Quoted) (h : Runs c w (st, { pv with literal := q.body }) Q) :
    Runs c (quotedWord .literal q ++ w) (st, pv) Q := by
  have e : quotedWord .literal q ++ w =
      .ch q.quote :: .act .tkStart :: (chs q.body ++ .act .literal :: .ch q.quote :: w) := by simp [quotedWord]
  rw [e]
  exact (Runs.tokenPV (fun t pv => { pv with literal := t }) (fun p s => rfl) h.ch).ch

def PV.flags (pv : PV) : Flags := { icase := pv.icase, collate := pv.collate }

/-- The regular expression is compiled; `k` is what follows. -/
theorem runs_mods {c : Ctx} {w : List Sym} {Q} : ∀ (mods : List Bool) (p : Nat) (s : PSt),
    (∀ p' s', p ≤ p' → At c p' w → s' = { s with pv := { s.pv with
        icase := s.pv.icase || mods.contains true, collate := s.pv.collate || mods.contains false } } →
      Out (execWord c p' w s') Q) →
    At c p (mods.flatMap modWord ++ w) → Out (execWord c p (mods.flatMap modWord ++ w) s) Q := by
  intro mods
  induction mods with
  | nil =>
    intro p s h hp
    refine h p s (Nat.le_refl _) hp ?_
    simp
  | cons i mods ih =>
    intro p s h hp
    rw [List.flatMap_cons, List.append_assoc] at hp ⊢
    cases i with
    | true =>
      refine ih (p + 1) { s with pv := { s.pv with icase := true } } (fun p' s' h1 h2 h3 => ?_) hp.step
      refine h p' s' (by omega) h2 ?_
      rw [h3]
      simp
    | false =>
      refine ih (p + 1) { s with pv := { s.pv with collate := true } } (fun p' s' h1 h2 h3 => ?_) hp.step
      refine h p' s' (by omega) h2 ?_
      rw [h3]
      simp

theorem runs_rx {c w st pv Q} (r : Rx)
    (h : ∀ re f, r.meaning c.rx pv.flags = some (re, f) →
      Runs c w (st, { pv with regex := some re, icase := f.icase, collate := f.collate }) Q)
    (hn : r.meaning c.rx pv.flags = none → Q = none) :
    Runs c (rxWord r ++ w) (st, pv) Q := by
  intro p s hp hs
  simp only [view, Prod.mk.injEq] at hs
  have e : rxWord r ++ w = .ch r.lit.quote :: .act .tkStart :: (chs r.lit.body ++ .act .tkStop :: .ch r.lit.quote ::
      (r.mods.flatMap modWord ++ .act .regex :: w)) := by simp [rxWord, quotedWord]
  rw [e] at hp ⊢
  have hp1 : At c (p + 1) (chs r.lit.body ++ .act .tkStop :: .ch r.lit.quote :: (r.mods.flatMap modWord ++ .act .regex :: w)) :=
    hp.step.act
  show Out (execWord c (p + 1) (chs r.lit.body ++ _) { s with tokBegin := some (p + 1) }) Q
  rw [execWord_chs]
  rw [show execWord c (p + 1 + r.lit.body.length) (.act .tkStop :: _) _ = tkStop c _ _ >>= execWord c _ _ from rfl, tkStop_eq hp1 _ rfl]
  show Out (execWord c (p + 1 + r.lit.body.length + 1) (r.mods.flatMap modWord ++ _) _) Q
  refine runs_mods _ _ _ (fun p' s' h1 h2 h3 => ?_) hp1.chs.act.step
  subst h3
  show Out (Act.exec c p' .regex _ >>= execWord c p' w) Q
  simp only [Act.exec]
  have hf : ({ src := r.lit.body, icase := s.pv.icase || r.mods.contains true, collate := s.pv.collate || r.mods.contains false } : Regex) =
      { src := r.lit.body, icase := (r.flags pv.flags).icase, collate := (r.flags pv.flags).collate } := by
    simp [Rx.flags, PV.flags, hs.2]
  rw [hf]
  simp only [Rx.meaning] at h hn
  cases hc : c.rx.compile { src := r.lit.body, icase := (r.flags pv.flags).icase, collate := (r.flags pv.flags).collate } with
  | none =>
    rw [hc] at h
    refine h _ _ rfl p' _ h2.act ?_
    simp [view, hs.1, hs.2, Rx.flags, PV.flags]
  | some what =>
    rw [hc] at hn
    rw [hn rfl]
    have : p + 1 ≤ p' := by omega
    simp only [this, if_true]
    obtain ⟨e, he, hw⟩ := throwRegexError_written (α := PSt) c (show 0 < p' by omega) h2.1 (p' - (p + 1) + 1) what
    refine ⟨e, ?_, hw.soft⟩
    rw [he]; rfl

end Hext
