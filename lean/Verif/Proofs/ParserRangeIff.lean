import Verif.Proofs.ParserRange
import Verif.Proofs.ParserClose
/-!
# Exactly when parsing a hext ends with `std::out_of_range`
-/

namespace Hext

open Syn Check Data

/-! ## States -/

theorem isIn_mem {q : Nat} : ∀ {l : List Nat}, isIn q l = true ↔ q ∈ l
  | [] => by simp [isIn]
  | x :: xs => by
    simp only [isIn, List.mem_cons]
    cases hc : Nat.beq q x with
    | true => simp [Nat.eq_of_beq_eq_true hc]
    | false =>
      have : q ≠ x := by rintro rfl; simp at hc
      simp [this, isIn_mem (l := xs)]

theorem digits_opens : ∀ q ∈ digits, isIn q opens = false := by decide

theorem start_other : expectsNumber hextStart = false := by decide +kernel

/-- All digits lead to the same state. -/
theorem digit_states : (upto 1 819).all (fun q =>
    (!expectsNumber q || (upto 48 10).all (fun b => Nat.beq (nextState q (UInt8.ofNat b)) (nextState q 49))) &&
    (!isIn q digits || Nat.beq (nextState q 49) q)) = true := by decide +kernel

theorem digit_state {q : Nat} (h0 : q ≠ 0) (hq : q < 820) {b : Byte} (hb : IsDigit b) :
    (expectsNumber q = true → nextState q b = nextState q 49) ∧ (isIn q digits = true → nextState q b = q) := by
  have h := List.all_eq_true.1 digit_states q (mem_upto (by omega) (by omega))
  simp only [Bool.and_eq_true, Bool.or_eq_true, Bool.not_eq_true'] at h
  have key : expectsNumber q = true → nextState q b = nextState q 49 := by
    intro he
    rcases h.1 with h | h
    · rw [he] at h; cases h
    · have h := List.all_eq_true.1 h b.toNat (mem_upto (by have := hb.1; rw [UInt8.le_iff_toNat_le] at this; exact this)
        (by have := hb.2; rw [UInt8.le_iff_toNat_le] at this; exact Nat.lt_succ_of_le this))
      rw [UInt8.ofNat_toNat] at h
      exact Nat.eq_of_beq_eq_true h
  refine ⟨key, fun hd => ?_⟩
  rw [key (by simp [expectsNumber, hd])]
  rcases h.2 with h | h
  · rw [hd] at h; cases h
  · exact Nat.eq_of_beq_eq_true h

theorem next_one {q : Nat} (h0 : q ≠ 0) (hq : q < 820) (h : expectsNumber q = true) : isIn (nextState q 49) digits = true :=
  ((numberEdge_of h0 hq 49).digit h (by decide)).1

/-! ## Words -/

theorem walk_snoc {q : Nat} {s : Str} {b : Byte} {q' u} (h : walk q (s ++ [b]) = some (q', u)) :
    ∃ q1 u1, walk q s = some (q1, u1) ∧ nextState q1 b = q' ∧ q' ≠ 0 ∧ u = u1 ++ syms (nextActs q1 b) ++ [.ch b] := by
  rw [walk_append, Option.bind_eq_some_iff] at h
  obtain ⟨⟨q1, u1⟩, h1, h2⟩ := h
  simp only [Option.map_eq_some_iff] at h2
  obtain ⟨⟨q2, u2⟩, h2, h3⟩ := h2
  obtain ⟨h4, u3, h5, h6⟩ := walk_cons h2
  cases h5
  simp only [Prod.mk.injEq] at h3 h6
  obtain ⟨rfl, rfl⟩ := h3
  exact ⟨q1, u1, h1, rfl, h4, by rw [h6, ← List.append_assoc]⟩

/-- Before the first digit. -/
def tkOf (q : Nat) : List Sym := if isIn q opens = true then [.act .tkStart] else []

theorem number_back : ∀ (n : Nat) {s : Str} {q u}, s.length ≤ n → walk hextStart s = some (q, u) → isIn q digits = true →
    ∃ a d qa ua, s = a ++ d ∧ IsDigits d ∧ walk hextStart a = some (qa, ua) ∧ (isIn qa opens = true ∨ isIn qa signs = true) ∧
      u = ua ++ tkOf qa ++ chs d := by
  intro n
  induction n with
  | zero =>
    intro s q u hn hw hq
    have : s = [] := List.length_eq_zero_iff.1 (by omega)
    subst this
    cases hw
    have := start_other
    simp [expectsNumber, hq] at this
  | succ n ih =>
    intro s q u hn hw hq
    rcases List.eq_nil_or_concat s with rfl | ⟨s', b, rfl⟩
    · cases hw
      have := start_other
      simp [expectsNumber, hq] at this
    · rw [List.concat_eq_append] at hw hn ⊢
      obtain ⟨q1, u1, h1, rfl, h2, rfl⟩ := walk_snoc hw
      obtain ⟨k0, kq⟩ := walk_state (by decide) (by decide) h1
      have ne := numberEdge_of k0 kq b
      obtain ⟨hb, he⟩ := ne.counted hq
      have ha := (ne.digit he hb).2
      by_cases hd : isIn q1 digits = true
      · obtain ⟨a, d, qa, ua, rfl, i2, i3, i4, rfl⟩ := ih (by simp at hn; exact hn) h1 hd
        refine ⟨a, d ++ [b], qa, ua, by simp, ⟨by simp, ?_⟩, i3, i4, ?_⟩
        · intro x hx
          simp only [List.mem_append, List.mem_singleton] at hx
          rcases hx with hx | rfl
          · exact i2.2 x hx
          · exact hb
        · rw [ha, digits_opens q1 (isIn_mem.1 hd)]
          simp [syms, chs]
      · refine ⟨s', [b], q1, u1, rfl, ⟨by simp, by simpa [IsDigit] using hb⟩, h1, ?_, ?_⟩
        · simpa [expectsNumber, hd] using he
        · rw [ha]
          simp only [tkOf, chs]
          split <;> simp [syms, actN, Act.ofNat]

theorem walk_digits : ∀ {d : Str} {q : Nat}, q ≠ 0 → q < 820 → isIn q digits = true → (∀ b ∈ d, IsDigit b) →
    walk q d = some (q, chs d)
  | [], q, _, _, _, _ => rfl
  | b :: d, q, h0, hq, hd, h => by
    have hb := h b (by simp)
    have e := (digit_state h0 hq hb).2 hd
    have ha := ((numberEdge_of h0 hq b).digit (by simp [expectsNumber, hd]) hb).2
    rw [digits_opens q (isIn_mem.1 hd)] at ha
    rw [walk, e, if_neg h0, walk_digits h0 hq hd (fun x hx => h x (by simp [hx])), ha]
    rfl

/-- The automaton reads a number. -/
theorem walk_number {q : Nat} (h0 : q ≠ 0) (hq : q < 820) (he : isIn q opens = true ∨ isIn q signs = true) {d : Str} (hd : IsDigits d) :
    walk q d = some (nextState q 49, tkOf q ++ chs d) := by
  have hen : expectsNumber q = true := by rcases he with h | h <;> simp [expectsNumber, h]
  obtain ⟨hne, hd⟩ := hd
  cases d with
  | nil => exact absurd rfl hne
  | cons b d =>
    have hb := hd b (by simp)
    have e := (digit_state h0 hq hb).1 hen
    have hdig := next_one h0 hq hen
    have hlt := nextState_lt h0 hq 49
    have hnz : nextState q 49 ≠ 0 := by
      intro e; rw [e] at hdig; exact absurd hdig (by decide)
    have ha := ((numberEdge_of h0 hq b).digit hen hb).2
    rw [walk, e, if_neg hnz, walk_digits hnz hlt hdig (fun x hx => hd x (by simp [hx])), ha]
    simp only [tkOf, chs]
    split <;> simp [syms, actN, Act.ofNat]

theorem walk_avoids {s : Str} {q u} (h : walk hextStart s = some (q, u)) : Sym.act .unexpected ∉ u := by
  obtain ⟨t, ht⟩ := begins_iff.2 ⟨_, h⟩
  have hw := dfaWord_walk t h
  obtain ⟨h1, _⟩ := (grammar_iff _ _).mpr ⟨isText_iff.1 ht, rfl⟩
  have := G.avoids_spec h1 main_avoids
  rw [hw, List.mem_append, not_or] at this
  exact this.1

/-! ## Conversions -/

theorem converts_of {n : Nat} (h : Converts (actN n) = true) : converts n = true := by
  by_cases hn : n < 89
  · rw [converts_actN n hn]; exact h
  · have : Act.ofNat n = none := by
      unfold Act.ofNat
      split <;> first | omega | rfl
    simp [actN, this, Converts] at h

theorem converts_exec {n : Nat} (h : converts n = true) : ∃ f : Int → PSt → PSt, ∀ c p s,
    (actN n).exec c p s = tkStop c p s >>= fun s => stoi s.tok >>= fun v => .ok (f v s) := by
  simp only [converts, Bool.or_eq_true] at h
  rcases h with ((h | h) | h) | h <;> cases Nat.eq_of_beq_eq_true h <;> exact ⟨_, fun _ _ _ => rfl⟩

theorem execWord_fits (c : Ctx) : ∀ (w : List Sym) (p : Nat) (s : PSt), (∀ a, Sym.act a ∈ w → Converts a = false) →
    Errs NotRange (execWord c p w s)
  | [], _, _, _ => .pure
  | .ch _ :: w, p, s, h => execWord_fits c w (p + 1) s fun a ha => h a (by simp [ha])
  | .act a :: w, p, s, h => .bind (exec_fits c p a s (h a (by simp))) fun s' _ => execWord_fits c w p s' fun a ha => h a (by simp [ha])

theorem syms_fits {c : Ctx} {l : List Nat} {p s} (h : execWord c p (syms l) s = .error .outOfRange) : ∃ n ∈ l, converts n = true := by
  apply Classical.byContradiction
  intro hn
  refine execWord_fits c (syms l) p s (fun a ha => ?_) _ h rfl
  simp only [syms, List.mem_map, Sym.act.injEq] at ha
  obtain ⟨n, h1, rfl⟩ := ha
  cases hc : Converts (actN n) with
  | false => rfl
  | true => exact absurd ⟨n, h1, converts_of hc⟩ hn

/-- Where the exception comes from. -/
theorem range_split (c : Ctx) : ∀ (s : Str) (q p : Nat) (st : PSt), q ≠ 0 → q < 820 →
    execWord c p (dfaWord q s) st = .error .outOfRange →
    ∃ a b t q' u st' n, s = a ++ b :: t ∧ walk q a = some (q', u) ∧ execWord c p u st = .ok st' ∧ isIn q' digits = true ∧
      ¬ IsDigit b ∧ nextState q' b ≠ 0 ∧ nextActs q' b = [n] ∧ converts n = true ∧
      (actN n).exec c (p + a.length) st' = .error .outOfRange
  | [], q, p, st, h0, hq, h => by
    obtain ⟨n, h1, h2⟩ := syms_fits (l := eofActs q) h
    rw [eof_converts h0 hq n h1] at h2
    cases h2
  | b :: s, q, p, st, h0, hq, h => by
    have h : execWord c p (syms (nextActs q b) ++ (if nextState q b = 0 then [] else .ch b :: dfaWord (nextState q b) s)) st =
      .error .outOfRange := h
    rw [execWord_append, chars_syms] at h
    have ne := numberEdge_of h0 hq b
    cases he : execWord c p (syms (nextActs q b)) st with
    | error e =>
      rw [he] at h
      cases h
      obtain ⟨n, h1, h2⟩ := syms_fits he
      obtain ⟨h3, h4⟩ := ne.converted n h1 h2
      have h5 : nextState q b ≠ 0 := by
        intro hz
        obtain ⟨ks, es, ok⟩ := ok_of h0 hq
        obtain ⟨m, hb, eok⟩ := edgeOk_trans ok b
        have := (eok.err hz).1
        rw [show nextActs q b = [88] from this] at h1
        simp only [List.mem_singleton] at h1
        subst h1
        cases h2
      obtain ⟨k, h6, h7⟩ := ne.stop h3 h4 h5
      rw [h6] at he
      refine ⟨[], b, s, q, [], st, k, rfl, rfl, rfl, h3, h4, h5, h6, h7, ?_⟩
      have : (actN k).exec c p st >>= execWord c p [] = .error .outOfRange := he
      show (actN k).exec c p st = _
      cases hx : (actN k).exec c p st with
      | error e => rw [hx] at this; exact this
      | ok x => rw [hx] at this; cases this
    | ok st1 =>
      rw [he] at h
      by_cases hz : nextState q b = 0
      · rw [if_pos hz] at h; cases h
      · rw [if_neg hz] at h
        obtain ⟨a, b', t, q', u, st', n, rfl, h2, h3, h4, h5, h6, h7, h8, h9⟩ :=
          range_split c s (nextState q b) (p + 1) st1 hz (nextState_lt h0 hq b) h
        refine ⟨b :: a, b', t, q', syms (nextActs q b) ++ .ch b :: u, st', n, rfl, ?_, ?_, h4, h5, h6, h7, h8, ?_⟩
        · rw [walk, if_neg hz, h2]; rfl
        · rw [execWord_append, he, chars_syms]
          exact h3
        · rw [← h9]; congr 1; simp; omega

/-! ## Numbers -/

/-- Whether the number behind `a` has a minus sign. -/
def minus (a : Str) : Bool := a.getLast? == some 45

def orRange : Option Int → P Int
  | some v => .ok v
  | none => .error .outOfRange

theorem stoi_of {neg : Bool} {d : Str} (h : IsDigits d) : stoi ((if neg then 45 else 43) :: d) = orRange (intVal neg d) := by
  rw [stoi_shift h]; cases intVal neg d <;> rfl

theorem number_tok {a : Str} {qa ua} (hw : walk hextStart a = some (qa, ua)) (hq : isIn qa opens = true ∨ isIn qa signs = true) :
    (∀ b, a.getLast? = some b → ¬ IsDigit b) ∧
    ∃ a' sg, a = a' ++ sg ∧ (∀ d, IsDigits d → stoi (sg ++ d) = orRange (intVal (minus a) d)) ∧
      ∀ c st s, execWord c 0 (ua ++ tkOf qa) st = .ok s → s.tokBegin = some a'.length := by
  rcases List.eq_nil_or_concat a with rfl | ⟨a1, b, rfl⟩
  · cases hw
    have := start_other
    rcases hq with h | h <;> simp [expectsNumber, h] at this
  rw [List.concat_eq_append] at hw ⊢
  obtain ⟨q1, u1, h1, rfl, h2, rfl⟩ := walk_snoc hw
  obtain ⟨k0, kq⟩ := walk_state (by decide) (by decide) h1
  have ne := numberEdge_of k0 kq b
  by_cases ho : isIn (nextState q1 b) opens = true
  · have hb := ne.opened ho
    subst hb
    refine ⟨by simp [IsDigit], a1 ++ [40], [], by simp, ?_, ?_⟩
    · intro d hd
      rw [List.nil_append, stoi_digits hd, show minus (a1 ++ [40]) = false by simp [minus]]
      cases intVal false d <;> rfl
    · intro c st s h
      rw [tkOf, if_pos ho, execWord_append] at h
      cases hx : execWord c 0 (u1 ++ syms (nextActs q1 40) ++ [.ch 40]) st with
      | error e => rw [hx] at h; cases h
      | ok x =>
        rw [hx] at h
        cases h
        simp [chars_append, chars_syms, walk_chars h1, chars, tkStart]
  · have hs : isIn (nextState q1 b) signs = true := by
      rcases hq with h | h
      · exact absurd h ho
      · exact h
    obtain ⟨hb, as, ha⟩ := ne.signed hs
    refine ⟨by rcases hb with rfl | rfl <;> simp [IsDigit], a1, [b], rfl, ?_, ?_⟩
    · intro d hd
      rcases hb with rfl | rfl
      · rw [show minus (a1 ++ [43]) = false by simp [minus]]
        exact stoi_of (neg := false) hd
      · rw [show minus (a1 ++ [45]) = true by simp [minus]]
        exact stoi_of (neg := true) hd
    · intro c st s h
      rw [tkOf, if_neg ho, ha, List.append_nil, syms_append, ← List.append_assoc, List.append_assoc, execWord_append] at h
      cases hx : execWord c 0 (u1 ++ syms as) st with
      | error e => rw [hx] at h; cases h
      | ok x =>
        rw [hx] at h
        cases h
        simp [chars_append, chars_syms, walk_chars h1, tkStart]

/-- What converting the number behind `a` does. -/
theorem exec_number {a d t : Str} {qa ua} (hw : walk hextStart a = some (qa, ua)) (hq : isIn qa opens = true ∨ isIn qa signs = true)
    (hd : IsDigits d) {n : Nat} (hn : converts n = true) {c : Ctx} (hi : c.input = a ++ d ++ t) {s}
    (hs : execWord c 0 (ua ++ tkOf qa) {} = .ok s) :
    execWord c 0 (ua ++ tkOf qa ++ chs d) {} = .ok s ∧
      ((actN n).exec c (a ++ d).length s = .error .outOfRange ↔ intVal (minus a) d = none) ∧
      ((actN n).exec c (a ++ d).length s ≠ .error .outOfRange → ∃ s', (actN n).exec c (a ++ d).length s = .ok s') := by
  obtain ⟨f, hf⟩ := converts_exec hn
  obtain ⟨_, a', sg, rfl, h1, h2⟩ := number_tok hw hq
  have ht := h2 c _ s hs
  have hat : At c a'.length (chs (sg ++ d) ++ chs t) := by
    refine ⟨by rw [hi]; simp, ⟨[], ?_⟩⟩
    rw [hi]
    simp [chars_append, chars_chs]
  have he : (actN n).exec c ((a' ++ sg) ++ d).length s =
      stoi (sg ++ d) >>= fun v => .ok (f v { s with tok := sg ++ d }) := by
    rw [hf, show ((a' ++ sg) ++ d).length = a'.length + (sg ++ d).length by simp, tkStop_eq hat _ ht]
    rfl
  refine ⟨?_, ?_⟩
  · rw [execWord_append, hs]
    show execWord c _ (chs d) s = _
    have := execWord_chs c [] d (0 + (chars (ua ++ tkOf qa)).length) s
    rw [List.append_nil] at this
    rw [this]
    rfl
  · rw [he, h1 d hd]
    cases intVal (minus (a' ++ sg)) d with
    | none => exact ⟨by simp; rfl, fun h => absurd rfl h⟩
    | some v => exact ⟨(by constructor <;> intro h <;> cases h), fun _ => ⟨_, rfl⟩⟩

/-! ## Completing the tag -/

/-- Actions that end neither with a syntax error nor with an exception of `std::stoi`. -/
def Calm : Act → Bool
  | .nthStep | .traitNth _ _ | .negateAppend | .appendNegate | .appendTrait | .popRule => true
  | _ => false

theorem exec_calm (c : Ctx) (p : Nat) (a : Act) (s : PSt) (h : Calm a = true) : Errs (fun e => ¬ Soft e) (a.exec c p s) := by
  have modify : ∀ {f s}, Errs (fun e => ¬ Soft e) (modifyCur f s) := by
    intro f s
    unfold modifyCur
    split
    · exact .pure
    · exact .throw nofun
  cases a with
  | nthStep | traitNth => exact .pure
  | negateAppend =>
    simp only [Act.exec]
    split
    · exact .throw nofun
    · exact .pure
  | appendNegate | appendTrait => exact .bind modify fun _ _ => .pure
  | popRule =>
    simp only [Act.exec]
    unfold Hext.popRule
    split <;> first | exact .pure | exact .throw nofun
  | _ => cases h

theorem execWord_calm (c : Ctx) : ∀ (w : List Sym) (p : Nat) (s : PSt), (∀ a, Sym.act a ∈ w → Calm a = true) →
    Errs (fun e => ¬ Soft e) (execWord c p w s)
  | [], _, _, _ => .pure
  | .ch _ :: w, p, s, h => execWord_calm c w (p + 1) s fun a ha => h a (by simp [ha])
  | .act a :: w, p, s, h => .bind (exec_calm c p a s (h a (by simp))) fun s' _ => execWord_calm c w p s' fun a ha => h a (by simp [ha])

/-- The automaton reads `v` to the end and runs calm actions. -/
def calmWalk (q : Nat) : Str → Bool
  | [] => !beqL (eofActs q) [88] && (eofActs q).all fun n => Calm (actN n)
  | b :: v => !Nat.beq (nextState q b) 0 && ((nextActs q b).all fun n => Calm (actN n)) && calmWalk (nextState q b) v

theorem calmWalk_spec : ∀ {v : Str} {q : Nat}, calmWalk q v = true →
    accepts q v = true ∧ ∀ a, Sym.act a ∈ dfaWord q v → Calm a = true
  | [], q, h => by
    simp only [calmWalk, Bool.and_eq_true] at h
    refine ⟨h.1, fun a ha => ?_⟩
    have ha : Sym.act a ∈ syms (eofActs q) := ha
    simp only [syms, List.mem_map, Sym.act.injEq] at ha
    obtain ⟨n, h1, rfl⟩ := ha
    exact List.all_eq_true.1 h.2 n h1
  | b :: v, q, h => by
    simp only [calmWalk, Bool.and_eq_true, Bool.not_eq_true'] at h
    have hz : nextState q b ≠ 0 := by
      intro e; rw [e] at h; exact absurd h.1.1 (by decide)
    obtain ⟨h1, h2⟩ := calmWalk_spec h.2
    refine ⟨?_, fun a ha => ?_⟩
    · show (nextState q b != 0 && accepts (nextState q b) v) = true
      simp [hz, h1]
    · have ha : Sym.act a ∈ syms (nextActs q b) ++ (if nextState q b = 0 then [] else .ch b :: dfaWord (nextState q b) v) := ha
      rw [if_neg hz] at ha
      simp only [List.mem_append, List.mem_cons, reduceCtorEq, false_or] at ha
      rcases ha with ha | ha
      · simp only [syms, List.mem_map, Sym.act.injEq] at ha
        obtain ⟨n, h3, rfl⟩ := ha
        exact List.all_eq_true.1 h.1.2 n h3
      · exact h2 a ha

/-- What completes a tag behind a number. -/
def tagEnds : List Str := [lit "/>", lit ")/>", lit "))/>"]

theorem tag_ends : digits.all (fun q => (upto 0 256).all fun b => (Nat.ble 48 b && Nat.ble b 57) ||
    Nat.beq (nextState q (UInt8.ofNat b)) 0 || tagEnds.any (calmWalk (nextState q (UInt8.ofNat b)))) = true := by decide +kernel

theorem tag_end {q : Nat} (hq : isIn q digits = true) {b : Byte} (hb : ¬ IsDigit b) (hz : nextState q b ≠ 0) :
    ∃ v, calmWalk (nextState q b) v = true := by
  have h := List.all_eq_true.1 tag_ends q (isIn_mem.1 hq)
  have h := List.all_eq_true.1 h b.toNat (mem_upto (by omega) (by have := b.toNat_lt; omega))
  simp only [UInt8.ofNat_toNat, Bool.or_eq_true, Bool.and_eq_true] at h
  rcases h with (h | h) | h
  · refine absurd ⟨?_, ?_⟩ hb
    · rw [UInt8.le_iff_toNat_le]; exact Nat.le_of_ble_eq_true h.1
    · rw [UInt8.le_iff_toNat_le]; exact Nat.le_of_ble_eq_true h.2
  · exact absurd (Nat.eq_of_beq_eq_true h) hz
  · obtain ⟨v, _, h⟩ := List.any_eq_true.1 h
    exact ⟨v, h⟩

/-- A beginning that was run without an error is completed if what completes the text runs calm actions. -/
theorem complete {rx cs} {x v : Str} {q u} (hw : walk hextStart x = some (q, u)) {s}
    (hx : execWord { input := x ++ v, charSigned := cs, rx } 0 u {} = .ok s) (hv : calmWalk q v = true) :
    ∃ t r, parseHext rx cs (x ++ v ++ t) = .ok r := by
  obtain ⟨h1, h2⟩ := calmWalk_spec hv
  let c : Ctx := { input := x ++ v, charSigned := cs, rx }
  have hacc : accepts hextStart c.input = true := by
    show accepts hextStart (x ++ v) = true
    rw [accepts_walk v hw]; exact h1
  obtain ⟨is, i1, i2, i3⟩ := parse_accepted hacc
  have hword : itemsWord is = u ++ dfaWord q v := by
    rw [← i3]
    exact dfaWord_walk v hw
  have hat : At c 0 (itemsWord is) := ⟨by simp, by rw [chars_itemsWord, i2]; simp⟩
  have hrun := runs_items i1 (.base .nil : Conf c.rx [] {} [[], result []]) base_empty 0 {} hat rfl
  cases hst : steps c.rx {} [[], result []] is with
  | none =>
    rw [hst] at hrun
    obtain ⟨e, he, hs⟩ := hrun
    rw [hword, execWord_append, hx] at he
    exact absurd hs (execWord_calm c _ _ _ h2 e he)
  | some y =>
    obtain ⟨st, f⟩ := y
    have hc := (Conf.base (rx := c.rx) .nil).steps hst
    obtain ⟨js, f', rs, j1, j2⟩ := hc.close _ (Nat.le_refl _) (by simpa using i1)
    refine ⟨itemsText js, ruleOf rs, ?_⟩
    rw [show x ++ v = itemsText is from i2, show itemsText is ++ itemsText js = itemsText (is ++ js) by simp [itemsText]]
    refine (parse_items ?_ _).2 ⟨f', rs, by simpa using j2, rfl⟩
    intro i hi
    rcases List.mem_append.1 hi with hi | hi
    · exact i1 i hi
    · exact j1 i hi

/-! ## The theorem -/

theorem exec_same {rx cs} {a t t' : Str} {w : List Sym} (hw : chars w = a) (hn : Sym.act .unexpected ∉ w) {s}
    (h : execWord { input := a ++ t, charSigned := cs, rx } 0 w {} = .ok s) :
    execWord { input := a ++ t', charSigned := cs, rx } 0 w {} = .ok s := by
  have := execWord_sim (c := { input := a ++ t, charSigned := cs, rx }) (c' := { input := a ++ t', charSigned := cs, rx }) rfl
    w 0 {} hn rfl ⟨by simp, by simp [hw]⟩ ⟨by simp, by simp [hw]⟩
  rcases this with h' | ⟨_, _, h', _⟩
  · rw [← h', h]
  · rw [h] at h'; cases h'

theorem tk_avoids {s : Str} {q u} (h : walk hextStart s = some (q, u)) : Sym.act .unexpected ∉ u ++ tkOf q := by
  have := walk_avoids h
  simp only [List.mem_append, not_or]
  refine ⟨this, ?_⟩
  unfold tkOf
  split <;> simp

theorem tk_chars {s : Str} {q u} (h : walk hextStart s = some (q, u)) : chars (u ++ tkOf q) = s := by
  rw [chars_append, walk_chars h]
  unfold tkOf
  split <;> simp [chars]

theorem one_digits : IsDigits (lit "1") := by constructor <;> decide

theorem parse_range_iff {rx cs} (s : Str) : parseHext rx cs s = .error .outOfRange ↔
    ∃ a d b t, s = a ++ d ++ b :: t ∧ IsDigits d ∧ ¬ IsDigit b ∧ (∀ x, a.getLast? = some x → ¬ IsDigit x) ∧
      ¬ Begins (a ++ lit "x") ∧ intVal (minus a) d = none ∧ ∃ u r, parseHext rx cs (a ++ lit "1" ++ b :: u) = .ok r := by
  constructor
  · intro h
    let c : Ctx := { input := s, charSigned := cs, rx }
    have h : Parser.parse c = .error .outOfRange := h
    rw [parse_eq] at h
    have h : execWord c 0 (dfaWord hextStart s) {} = .error .outOfRange := by
      show execWord c 0 (dfaWord hextStart c.input) {} = _
      cases he : execWord c 0 (dfaWord hextStart c.input) {} with
      | error e =>
        rw [he] at h
        have h : (.error e : P Rule) = .error .outOfRange := h
        cases h
        rfl
      | ok x =>
        rw [he] at h
        exact absurd rfl (finishParse_fits c x _ h)
    obtain ⟨x, b, t, q, u, st, n, hs, h2, h3, h4, h5, h6, h7, h8, h9⟩ := range_split c s _ 0 _ (by decide) (by decide) h
    obtain ⟨a, d, qa, ua, rfl, i2, i3, i4, rfl⟩ := number_back _ (Nat.le_refl _) h2 h4
    obtain ⟨k0, kq⟩ := walk_state (by decide) (by decide) i3
    have hen : expectsNumber qa = true := by rcases i4 with h | h <;> simp [expectsNumber, h]
    have hq : q = nextState qa 49 := by
      rw [walk_append, i3, Option.bind_some, walk_number k0 kq i4 i2] at h2
      simp only [Option.map_some, Option.some.injEq, Prod.mk.injEq] at h2
      exact h2.1.symm
    -- the state before the first digit
    have hst : execWord c 0 (ua ++ tkOf qa) {} = .ok st := by
      rw [execWord_append] at h3
      cases he : execWord c 0 (ua ++ tkOf qa) {} with
      | error e => rw [he] at h3; cases h3
      | ok y =>
        rw [he] at h3
        have h3 : execWord c _ (chs d) y = .ok st := h3
        have := execWord_chs c [] d (0 + (chars (ua ++ tkOf qa)).length) y
        rw [List.append_nil] at this
        rw [this] at h3
        exact h3
    have hnum := exec_number i3 i4 i2 h8 (c := c) (t := b :: t) hs hst
    refine ⟨a, d, b, t, hs, i2, h5, (number_tok i3 i4).1, ?_, hnum.2.1.1 (by rw [← h9, Nat.zero_add]), ?_⟩
    · rw [begins_iff, show lit "x" = [120] by decide]
      rintro ⟨y, hy⟩
      rw [walk_append, i3, Option.bind_some] at hy
      simp only [walk, ((expectsNumber_iff k0 kq).1 hen).2, if_true] at hy
      cases hy
    · -- the number 1 instead
      subst hq
      obtain ⟨v, hv⟩ := tag_end h4 h5 h6
      have hw1 : walk hextStart (a ++ lit "1" ++ [b]) =
          some (nextState (nextState qa 49) b, ua ++ tkOf qa ++ chs (lit "1") ++ (syms [n] ++ [.ch b])) := by
        rw [walk_append, walk_append, i3, Option.bind_some, walk_number k0 kq i4 one_digits]
        simp only [Option.map_some, Option.bind_some, walk, if_neg h6, h7]
        simp
      have hst1 : execWord { input := a ++ (lit "1" ++ [b] ++ v), charSigned := cs, rx } 0 (ua ++ tkOf qa) {} = .ok st := by
        have : execWord { input := a ++ (d ++ b :: t), charSigned := cs, rx } 0 (ua ++ tkOf qa) {} = .ok st := by
          rw [show a ++ (d ++ b :: t) = s by rw [hs]; simp]; exact hst
        exact exec_same (tk_chars i3) (tk_avoids i3) this
      have hin : a ++ (lit "1" ++ [b] ++ v) = a ++ lit "1" ++ [b] ++ v := by simp
      rw [hin] at hst1
      have hnum1 := exec_number i3 i4 one_digits h8 (c := { input := a ++ lit "1" ++ [b] ++ v, charSigned := cs, rx })
        (t := [b] ++ v) (by simp) hst1
      have hone : intVal (minus a) (lit "1") ≠ none := by
        cases minus a <;> decide
      obtain ⟨s', hs'⟩ := hnum1.2.2 fun e => hone (hnum1.2.1.1 e)
      have hex : execWord { input := a ++ lit "1" ++ [b] ++ v, charSigned := cs, rx } 0
          (ua ++ tkOf qa ++ chs (lit "1") ++ (syms [n] ++ [.ch b])) {} = .ok s' := by
        rw [execWord_append, hnum1.1]
        show execWord _ _ (.act (actN n) :: [.ch b]) st = _
        rw [show 0 + (chars (ua ++ tkOf qa ++ chs (lit "1"))).length = (a ++ lit "1").length by
          rw [chars_append, tk_chars i3, chars_chs]; simp]
        show (actN n).exec _ _ st >>= _ = _
        rw [hs']
        rfl
      obtain ⟨t', r, hr⟩ := complete hw1 hex hv
      exact ⟨v ++ t', r, by rw [← hr]; simp⟩
  · rintro ⟨a, d, b, t, rfl, hd, hb, hl, hx, hv, u, r, hr⟩
    -- the automaton on the other text
    obtain ⟨is, f, rs, m1, m2, m3, rfl⟩ := (parse_iff rx cs _ _).1 hr
    have hacc : accepts hextStart (a ++ (lit "1" ++ b :: u)) = true := by
      rw [← isText_iff]
      exact ⟨is, m1, by rw [← m2]; simp⟩
    obtain ⟨⟨qa, ua⟩, hw⟩ := walk_of_accepts _ hacc
    obtain ⟨k0, kq⟩ := walk_state (by decide) (by decide) hw
    rw [accepts_walk _ hw, show lit "1" = [49] by decide] at hacc
    have hacc : (nextState qa 49 != 0 && (nextState (nextState qa 49) b != 0 && accepts (nextState (nextState qa 49) b) u)) = true := hacc
    simp only [Bool.and_eq_true, bne_iff_ne] at hacc
    obtain ⟨n1, n2, _⟩ := hacc
    have hen : expectsNumber qa = true := by
      rw [expectsNumber_iff k0 kq]
      refine ⟨n1, ?_⟩
      apply Classical.byContradiction
      intro hz
      refine hx (begins_iff.2 ?_)
      rw [walk_append, hw, Option.bind_some, show lit "x" = [120] by decide, walk, if_neg hz]
      exact ⟨_, rfl⟩
    have hos : isIn qa opens = true ∨ isIn qa signs = true := by
      simp only [expectsNumber, Bool.or_eq_true] at hen
      rcases hen with hen | hdig
      · exact hen
      · exfalso
        rcases List.eq_nil_or_concat a with rfl | ⟨a1, y, rfl⟩
        · cases hw
          have := start_other
          simp [expectsNumber, hdig] at this
        · rw [List.concat_eq_append] at hw hl
          obtain ⟨q1, u1, g1, rfl, g2, _⟩ := walk_snoc hw
          obtain ⟨j0, jq⟩ := walk_state (by decide) (by decide) g1
          exact hl y (by simp) ((numberEdge_of j0 jq y).counted hdig).1
    have hdig := next_one k0 kq hen
    have hlt := nextState_lt k0 kq 49
    obtain ⟨n, e1, e2⟩ := (numberEdge_of n1 hlt b).stop hdig hb n2
    -- the run on the other text
    have hrun : ∃ st, execWord { input := a ++ (lit "1" ++ b :: u), charSigned := cs, rx } 0 (ua ++ tkOf qa) {} = .ok st := by
      have hr : Parser.parse { input := a ++ lit "1" ++ b :: u, charSigned := cs, rx } = .ok (ruleOf rs) := hr
      rw [show a ++ lit "1" ++ b :: u = a ++ (lit "1" ++ b :: u) by simp, parse_eq] at hr
      have hone := dfaWord_walk (b :: u) (walk_number k0 kq hos one_digits)
      have hwd : dfaWord hextStart (a ++ (lit "1" ++ b :: u)) =
          (ua ++ tkOf qa) ++ (chs (lit "1") ++ dfaWord (nextState qa 49) (b :: u)) := by
        rw [dfaWord_walk _ hw, hone]; simp
      rw [hwd, execWord_append] at hr
      cases he : execWord { input := a ++ (lit "1" ++ b :: u), charSigned := cs, rx } 0 (ua ++ tkOf qa) {} with
      | ok st => exact ⟨st, rfl⟩
      | error e => rw [he] at hr; cases hr
    obtain ⟨st, hst⟩ := hrun
    have hst : execWord { input := a ++ (d ++ b :: t), charSigned := cs, rx } 0 (ua ++ tkOf qa) {} = .ok st :=
      exec_same (tk_chars hw) (tk_avoids hw) hst
    have hnum := exec_number hw hos hd e2 (c := { input := a ++ (d ++ b :: t), charSigned := cs, rx }) (t := b :: t) (by simp) hst
    show Parser.parse { input := a ++ d ++ b :: t, charSigned := cs, rx } = _
    rw [List.append_assoc, parse_eq]
    show execWord _ 0 (dfaWord hextStart (a ++ (d ++ b :: t))) {} >>= _ = _
    have hwd : dfaWord hextStart (a ++ (d ++ b :: t)) =
        (ua ++ tkOf qa ++ chs d) ++ (.act (actN n) :: .ch b :: dfaWord (nextState (nextState qa 49) b) t) := by
      rw [dfaWord_walk _ hw, dfaWord_walk _ (walk_number k0 kq hos hd)]
      show ua ++ (tkOf qa ++ chs d ++ (syms (nextActs (nextState qa 49) b) ++ (if nextState (nextState qa 49) b = 0 then [] else
        .ch b :: dfaWord (nextState (nextState qa 49) b) t))) = _
      rw [if_neg n2, e1]
      simp [syms]
    rw [hwd, execWord_append, hnum.1]
    show ((actN n).exec _ _ st >>= _) >>= _ = _
    rw [show 0 + (chars (ua ++ tkOf qa ++ chs d)).length = (a ++ d).length by
      rw [chars_append, tk_chars hw, chars_chs]; simp, hnum.2.1.2 hv]
    rfl

end Hext
