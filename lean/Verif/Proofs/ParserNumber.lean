import Verif.Proofs.ParserPlace
/-!
# Where the automaton reads numbers
-/

namespace Hext

open Syn Check Data

/-- The state that the byte leads to; 0 is an error. -/
def nextState (q : Nat) (b : Byte) : Nat := packed transTargs (trans q b)

/-- The actions that the byte causes. -/
def nextActs (q : Nat) (b : Byte) : List Nat := transActs (trans q b)

/-! ## The states in which numbers are read -/

/-- Behind `(`, where a number may begin. -/
def opens : List Nat := [414, 428, 490, 505, 556, 580, 601, 622, 687, 711, 732, 753]
/-- Behind the sign of a number. -/
def signs : List Nat := [557, 561, 581, 585, 602, 606, 623, 627, 688, 692, 712, 716, 733, 737, 754, 758]
/-- Behind a digit of a number. -/
def digits : List Nat := [415, 429, 491, 506, 558, 562, 582, 586, 603, 607, 624, 628, 689, 693, 713, 717, 734, 738, 755, 759]

def isIn (q : Nat) : List Nat → Bool
  | [] => false
  | x :: xs => bif Nat.beq q x then true else isIn q xs

def expectsNumber (q : Nat) : Bool := isIn q opens || isIn q signs || isIn q digits

/-- The bytes from `0` to `9`. -/
def digitMask : Nat := 0x3ff000000000000

def converts (a : Nat) : Bool := Nat.beq a 15 || Nat.beq a 18 || Nat.beq a 31 || Nat.beq a 33

/-- The transition for the bytes of `m` from the state `q`. -/
def numberEdge (q : Nat) (e : Nat × Nat) : Bool :=
  let m := e.1
  let q' := packed transTargs e.2
  let acts := transActs e.2
  let isDigits := Nat.beq (Nat.lor m digitMask) digitMask
  let noDigits := Nat.beq (Nat.land m digitMask) 0
  Nat.beq m 0 ||
    -- where a number is expected, a digit is read as part of it
    ((!expectsNumber q || noDigits || (isIn q' digits && beqL acts (bif isIn q opens then [2] else []))) &&
    (!expectsNumber q || noDigits || isDigits) &&
    -- where a digit was read, anything else ends the number
    (!isIn q digits || !noDigits || Nat.beq q' 0 || match acts with | [a] => converts a | _ => false) &&
    -- how these states are reached
    (!isIn q' opens || Nat.beq m (Nat.shiftLeft 1 40)) &&
    (!isIn q' signs || ((Nat.beq m (Nat.shiftLeft 1 43) || Nat.beq m (Nat.shiftLeft 1 45)) &&
      match acts.reverse with | a :: _ => Nat.beq a 2 | [] => false)) &&
    (!isIn q' digits || (isDigits && expectsNumber q)) &&
    -- where numbers are converted
    (!acts.any converts || (isIn q digits && noDigits)))

theorem number_edges : (upto 1 819).all (fun q => (edges q).all (numberEdge q)) = true := by decide +kernel

/-- A digit is allowed and an `x` is not exactly if a number is expected. -/
theorem number_states : (upto 1 819).all (fun q => (expectsNumber q ==
    (! Nat.beq (packed transTargs (trans q 49)) 0 && Nat.beq (packed transTargs (trans q 120)) 0)) &&
    ! (eofActs q).any converts) = true := by decide +kernel

def IsDigit (b : Byte) : Prop := 48 ≤ b ∧ b ≤ 57

instance (b : Byte) : Decidable (IsDigit b) := by unfold IsDigit; infer_instance

theorem digitMask_bits : ∀ n < 256, digitMask.testBit n = decide (48 ≤ n ∧ n ≤ 57) := by decide +kernel

theorem digitMask_bit (b : Byte) : digitMask.testBit b.toNat = true ↔ IsDigit b := by
  rw [digitMask_bits _ b.toNat_lt]
  simp [IsDigit, UInt8.le_iff_toNat_le]

theorem isDigits_spec {m : Nat} {b : Byte} (h : Nat.beq (Nat.lor m digitMask) digitMask = true) (hb : m.testBit b.toNat = true) :
    IsDigit b := by
  rw [← digitMask_bit, ← Nat.eq_of_beq_eq_true h]
  show (m ||| digitMask).testBit _ = true
  rw [Nat.testBit_or, hb, Bool.true_or]

theorem noDigits_spec {m : Nat} {b : Byte} (h : Nat.beq (Nat.land m digitMask) 0 = true) (hb : m.testBit b.toNat = true) :
    ¬ IsDigit b := by
  rw [← digitMask_bit]
  have : (m &&& digitMask).testBit b.toNat = false := by
    rw [show m &&& digitMask = 0 from Nat.eq_of_beq_eq_true h]; simp
  rw [Nat.testBit_and, hb, Bool.true_and] at this
  simp [this]

theorem single_spec {m k : Nat} {b : Byte} (h : Nat.beq m (Nat.shiftLeft 1 k) = true) (hb : m.testBit b.toNat = true) :
    k = b.toNat := by
  rw [Nat.eq_of_beq_eq_true h, testBit_single] at hb
  simpa using hb

/-- The contents of `numberEdge`. -/
structure NumberEdge (q : Nat) (b : Byte) : Prop where
  digit : expectsNumber q = true → IsDigit b → isIn (nextState q b) digits = true ∧
    nextActs q b = if isIn q opens = true then [2] else []
  stop : isIn q digits = true → ¬ IsDigit b → nextState q b ≠ 0 → ∃ a, nextActs q b = [a] ∧ converts a = true
  opened : isIn (nextState q b) opens = true → b = 40
  signed : isIn (nextState q b) signs = true → (b = 43 ∨ b = 45) ∧ ∃ as, nextActs q b = as ++ [2]
  counted : isIn (nextState q b) digits = true → IsDigit b ∧ expectsNumber q = true
  converted : ∀ a ∈ nextActs q b, converts a = true → isIn q digits = true ∧ ¬ IsDigit b

theorem numberEdge_of {q : Nat} (h0 : q ≠ 0) (hq : q < 820) (b : Byte) : NumberEdge q b := by
  have h := List.all_eq_true.1 number_edges q (mem_upto (by omega) (by omega))
  obtain ⟨⟨m, t⟩, h1, h2, h3⟩ := trans_mem q b
  subst h3
  have h := List.all_eq_true.1 h _ h1
  have hm : Nat.beq m 0 = false := by
    cases hc : Nat.beq m 0 with
    | false => rfl
    | true => rw [Nat.eq_of_beq_eq_true hc] at h2; simp at h2
  have hdig : digits ≠ [] := by decide
  simp only [numberEdge, hm, Bool.false_or, Bool.and_eq_true, Bool.or_eq_true, Bool.not_eq_true'] at h
  obtain ⟨⟨⟨⟨⟨⟨e1, e2⟩, e3⟩, e4⟩, e5⟩, e6⟩, e7⟩ := h
  have hexp : isIn q digits = true → expectsNumber q = true := by
    intro h; simp [expectsNumber, h]
  refine ⟨?_, ?_, ?_, ?_, ?_, ?_⟩
  · intro k1 k2
    rcases e1 with (e1 | e1) | e1
    · rw [k1] at e1; cases e1
    · exact absurd k2 (noDigits_spec e1 h2)
    · refine ⟨e1.1, ?_⟩
      have := beqL_eq.1 e1.2
      rw [Bool.cond_eq_ite] at this
      exact this
  · intro k1 k2 k3
    rcases e2 with (e2 | e2) | e2
    · rw [hexp k1] at e2; cases e2
    · rcases e3 with ((e3 | e3) | e3) | e3
      · rw [k1] at e3; cases e3
      · rw [e2] at e3; cases e3
      · exact absurd (Nat.eq_of_beq_eq_true e3) k3
      · unfold nextActs
        generalize transActs (trans q b) = as at e3
        split at e3
        · exact ⟨_, rfl, e3⟩
        · cases e3
    · exact absurd (isDigits_spec e2 h2) k2
  · intro k
    rcases e4 with e4 | e4
    · rw [show isIn (packed transTargs (trans q b)) opens = true from k] at e4; cases e4
    · exact UInt8.toNat_inj.1 (single_spec e4 h2).symm
  · intro k
    rcases e5 with e5 | e5
    · rw [show isIn (packed transTargs (trans q b)) signs = true from k] at e5; cases e5
    · refine ⟨?_, ?_⟩
      · rcases e5.1 with e | e
        · exact .inl (UInt8.toNat_inj.1 (single_spec e h2).symm)
        · exact .inr (UInt8.toNat_inj.1 (single_spec e h2).symm)
      · have e5 := e5.2
        unfold nextActs
        generalize transActs (trans q b) = as at e5
        split at e5
        · next a r e =>
          rw [Nat.eq_of_beq_eq_true e5] at e
          exact ⟨r.reverse, by rw [← List.reverse_reverse as, e]; simp⟩
        · cases e5
  · intro k
    rcases e6 with e6 | e6
    · rw [show isIn (packed transTargs (trans q b)) digits = true from k] at e6; cases e6
    · exact ⟨isDigits_spec e6.1 h2, e6.2⟩
  · intro a ha hc
    rcases e7 with e7 | e7
    · exact absurd hc (by simpa using List.any_eq_false.1 e7 a ha)
    · exact ⟨e7.1, noDigits_spec e7.2 h2⟩

theorem expectsNumber_iff {q : Nat} (h0 : q ≠ 0) (hq : q < 820) :
    expectsNumber q = true ↔ nextState q 49 ≠ 0 ∧ nextState q 120 = 0 := by
  have h := List.all_eq_true.1 number_states q (mem_upto (by omega) (by omega))
  simp only [Bool.and_eq_true, beq_iff_eq] at h
  rw [h.1, Bool.and_eq_true, Bool.not_eq_true']
  unfold nextState
  constructor
  · rintro ⟨h1, h2⟩
    exact ⟨fun e => (by rw [e] at h1; cases h1), Nat.eq_of_beq_eq_true h2⟩
  · rintro ⟨h1, h2⟩
    refine ⟨?_, by rw [h2]; rfl⟩
    cases hc : Nat.beq (packed transTargs (trans q 49)) 0 with
    | false => rfl
    | true => exact absurd (Nat.eq_of_beq_eq_true hc) h1

theorem eof_converts {q : Nat} (h0 : q ≠ 0) (hq : q < 820) : ∀ a ∈ eofActs q, converts a = false := by
  have h := List.all_eq_true.1 number_states q (mem_upto (by omega) (by omega))
  simp only [Bool.and_eq_true, Bool.not_eq_true'] at h
  intro a ha
  simpa using List.any_eq_false.1 h.2 a ha

/-! ## The beginning of an input -/

/-- The state and the word of an input that the automaton can read. -/
def walk (q : Nat) : Str → Option (Nat × List Sym)
  | [] => some (q, [])
  | b :: s => if nextState q b = 0 then none else (walk (nextState q b) s).map fun x => (x.1, syms (nextActs q b) ++ .ch b :: x.2)

theorem nextState_lt {q : Nat} (h0 : q ≠ 0) (hq : q < 820) (b : Byte) : nextState q b < 820 := by
  obtain ⟨ks, es, ok⟩ := ok_of h0 hq
  obtain ⟨m, hb, eok⟩ := edgeOk_trans ok b
  exact eok.qlt

theorem walk_cons {q b s x} (h : walk q (b :: s) = some x) : nextState q b ≠ 0 ∧ ∃ u, walk (nextState q b) s = some (x.1, u) ∧
    x.2 = syms (nextActs q b) ++ .ch b :: u := by
  simp only [walk] at h
  split at h
  · cases h
  · next hz =>
    simp only [Option.map_eq_some_iff] at h
    obtain ⟨y, h1, rfl⟩ := h
    exact ⟨hz, y.2, h1, rfl⟩

theorem walk_state : ∀ {s : Str} {q q' : Nat} {u}, q ≠ 0 → q < 820 → walk q s = some (q', u) → q' ≠ 0 ∧ q' < 820
  | [], q, q', u, h0, hq, h => by cases h; exact ⟨h0, hq⟩
  | b :: s, q, q', u, h0, hq, h => by
    obtain ⟨h1, u', h2, _⟩ := walk_cons h
    exact walk_state h1 (nextState_lt h0 hq b) h2

theorem walk_chars : ∀ {s : Str} {q q' : Nat} {u}, walk q s = some (q', u) → chars u = s
  | [], q, q', u, h => by cases h; rfl
  | b :: s, q, q', u, h => by
    obtain ⟨h1, u', h2, h3⟩ := walk_cons h
    simp only at h3
    rw [h3, chars_step, walk_chars h2]

theorem walk_append : ∀ (s t : Str) (q : Nat), walk q (s ++ t) =
    (walk q s).bind fun x => (walk x.1 t).map fun y => (y.1, x.2 ++ y.2)
  | [], t, q => by simp [walk]
  | b :: s, t, q => by
    simp only [List.cons_append, walk]
    split
    · rfl
    · rw [walk_append s t]
      cases walk (nextState q b) s with
      | none => rfl
      | some x =>
        simp only [Option.bind_some, Option.map_some]
        cases walk x.1 t with
        | none => rfl
        | some y => simp

theorem dfaWord_walk : ∀ {s : Str} {q q' : Nat} {u} (t : Str), walk q s = some (q', u) → dfaWord q (s ++ t) = u ++ dfaWord q' t
  | [], q, q', u, t, h => by cases h; rfl
  | b :: s, q, q', u, t, h => by
    obtain ⟨h1, u', h2, h3⟩ := walk_cons h
    simp only at h3
    show syms (nextActs q b) ++ (if nextState q b = 0 then [] else .ch b :: dfaWord (nextState q b) (s ++ t)) = _
    rw [if_neg h1, dfaWord_walk t h2, h3]
    simp

theorem accepts_walk : ∀ {s : Str} {q q' : Nat} {u} (t : Str), walk q s = some (q', u) → accepts q (s ++ t) = accepts q' t
  | [], q, q', u, t, h => by cases h; rfl
  | b :: s, q, q', u, t, h => by
    obtain ⟨h1, u', h2, h3⟩ := walk_cons h
    show (nextState q b != 0 && accepts (nextState q b) (s ++ t)) = _
    rw [accepts_walk t h2]
    simp [h1]

theorem walk_of_accepts : ∀ {s : Str} {q : Nat} (t : Str), accepts q (s ++ t) = true → ∃ x, walk q s = some x
  | [], q, t, h => ⟨_, rfl⟩
  | b :: s, q, t, h => by
    have h : (nextState q b != 0 && accepts (nextState q b) (s ++ t)) = true := h
    simp only [Bool.and_eq_true, bne_iff_ne] at h
    obtain ⟨x, hx⟩ := walk_of_accepts t h.2
    exact ⟨_, by rw [walk, if_neg h.1, hx]; rfl⟩

theorem isText_iff {s : Str} : IsText s ↔ accepts hextStart s = true := by
  constructor
  · rintro ⟨is, h1, rfl⟩
    exact ((grammar_iff _ _).mp ⟨(lang_main _).mpr ⟨is, h1, rfl⟩, chars_itemsWord is⟩).1
  · intro h
    obtain ⟨h1, h2⟩ := (grammar_iff _ _).mpr ⟨h, rfl⟩
    obtain ⟨is, h3, h4⟩ := (lang_main _).mp h1
    exact ⟨is, h3, by rw [← h2, h4, chars_itemsWord]⟩

/-- The automaton can read what a hext can begin with. -/
theorem begins_iff {s : Str} : Begins s ↔ ∃ x, walk hextStart s = some x := by
  constructor
  · rintro ⟨t, h⟩
    exact walk_of_accepts t (isText_iff.1 h)
  · rintro ⟨⟨q, u⟩, h⟩
    obtain ⟨h0, hq⟩ := walk_state (by decide) (by decide) h
    obtain ⟨w, hw⟩ := remains_nonempty h0 hq
    refine ⟨chars w, isText_iff.2 ?_⟩
    rw [accepts_walk _ h]
    exact ((remains_iff _ q w h0 hq).mp ⟨hw, rfl⟩).1

end Hext
