import Verif.Proofs.ParserFill
import Verif.Proofs.PhpKey
/-!
# Parsing with signed and with unsigned `char`
-/

namespace Hext

open Syn Check Msg

/-- The first words of the message about a byte that is not printable. -/
def asciiHead : Str := lit "Unexpected character '[ascii: "

/-- Not such a message. -/
def Other : PErr → Prop
  | .syntax m => ¬ asciiHead <+: m
  | _ => True

theorem printErrorLocation_other (c : Ctx) (uc k : Nat) : Errs Other (printErrorLocation c uc k) := by
  intro e he
  by_cases hu : uc ≤ c.input.length
  · rcases printErrorLocation_written c hu k with ⟨m, h⟩ | h
    · rw [h] at he; cases he
    · rw [h] at he; cases he; trivial
  · unfold printErrorLocation at he
    have h1 : P.assert (decide (uc ≤ c.input.length)) = .error .assertFail := by simp [P.assert, hu]; rfl
    rw [h1] at he
    cases he
    trivial

theorem assert_other {b} : Errs Other (P.assert b) := by
  unfold P.assert; split
  · exact .pure
  · exact .throw trivial

theorem pMinus1_other {p} : Errs Other (pMinus1 p) := by
  unfold pMinus1; split
  · exact .throw trivial
  · exact .pure

/-- Texts that differ within the first bytes. -/
theorem not_head {x y : Str} (k : Nat) (hk : k ≤ x.length) (h : x.take k ≠ asciiHead.take k) (hk' : k ≤ asciiHead.length) :
    ¬ asciiHead <+: x ++ y := by
  rintro ⟨t, e⟩
  apply h
  have := congrArg (List.take k) e
  rw [List.take_append_of_le_length hk', List.take_append_of_le_length hk] at this
  exact this.symm

theorem throwErrorMessage_other {α} (c : Ctx) (p : Nat) {msg : Str} (hm : 2 ≤ msg.length ∧ msg.take 2 ≠ asciiHead.take 2 ∨ 3 ≤ msg.length ∧ msg.take 3 ≠ asciiHead.take 3) :
    Errs Other (throwErrorMessage c p msg : P α) := by
  refine .bind pMinus1_other fun uc _ => .bind (printErrorLocation_other _ _ _) fun loc hl => ?_
  refine .throw ?_
  show ¬ asciiHead <+: _
  rw [List.append_assoc]
  rcases hm with hm | hm
  · exact not_head 2 hm.1 hm.2 (by decide)
  · exact not_head 3 hm.1 hm.2 (by decide)

theorem throwRegexError_other {α} (c : Ctx) (p k : Nat) (what : Str) : Errs Other (throwRegexError c p k what : P α) := by
  refine .bind pMinus1_other fun uc _ => .bind (printErrorLocation_other _ _ _) fun loc hl => ?_
  refine .throw ?_
  show ¬ asciiHead <+: _
  simp only [List.append_assoc]
  exact not_head 2 (by decide) (by decide) (by decide)

theorem throwUnexpectedTag_other {α} (c : Ctx) (p : Nat) (t e n) : Errs Other (throwUnexpectedTag c p t e n : P α) := by
  unfold throwUnexpectedTag
  refine .bind pMinus1_other fun uc _ => .bind (printErrorLocation_other _ _ _) fun loc hl => ?_
  refine .throw ?_
  show ¬ asciiHead <+: _
  simp only [List.append_assoc]
  exact not_head 20 (by decide) (by decide) (by decide)

theorem throwMissingTag_other {α} (c : Ctx) (t n) : Errs Other (throwMissingTag c t n : P α) := by
  refine .bind (printErrorLocation_other _ _ _) fun loc hl => ?_
  refine .throw ?_
  show ¬ asciiHead <+: _
  simp only [List.append_assoc]
  exact not_head 2 (by decide) (by decide) (by decide)

theorem tkStop_other {c p s} : Errs Other (Hext.tkStop c p s) := by
  unfold Hext.tkStop
  split
  · exact .throw trivial
  · split
    · exact .pure
    · exact .throw trivial

theorem stoi_other {s : Str} : Errs Other (stoi s) := by
  intro e he
  unfold stoi at he
  dsimp only at he
  split at he
  · cases he; trivial
  · split at he <;> split at he <;> cases he <;> trivial

theorem modifyCur_other {f s} : Errs Other (modifyCur f s) := by
  unfold modifyCur
  split
  · exact .pure
  · exact .throw trivial

theorem popRule_other {s} : Errs Other (Hext.popRule s) := by
  unfold Hext.popRule
  split <;> first | exact .pure | exact .throw trivial

theorem derefRegex_other {pv} : Errs Other (derefRegex pv) := by
  unfold derefRegex
  split
  · exact .pure
  · exact .throw trivial

theorem validateCloseTag_other {c p t s} : Errs Other (validateCloseTag c p t s) := by
  unfold validateCloseTag
  split
  · exact .throw trivial
  · exact throwUnexpectedTag_other _ _ _ _ _
  · dsimp only
    repeat' split
    all_goals first | exact .pure | exact .throw trivial | exact throwUnexpectedTag_other _ _ _ _ _

theorem exec_other (c : Ctx) (p : Nat) (a : Act) (s : PSt) (ha : a ≠ .unexpected) : Errs Other (a.exec c p s) := by
  cases a with
  | attrName | literal | capVarToken => exact .bind tkStop_other fun _ _ => .pure
  | nthNumber | nthShift | traitChildCount | traitAttributeCount =>
    exact .bind tkStop_other fun _ _ => .bind stoi_other fun _ _ => .pure
  | tkStop => exact tkStop_other
  | regex =>
    simp only [Act.exec]
    split
    · exact .pure
    · split
      · exact .throw trivial
      · split
        · exact throwRegexError_other _ _ _ _
        · exact .throw trivial
  | regexTest =>
    simp only [Act.exec]
    split
    · exact .throw trivial
    · exact .pure
  | negateAppend =>
    simp only [Act.exec]
    split
    · exact .throw trivial
    · exact .pure
  | traitTypeRegex | pipeFilter | pipeReplace => exact .bind derefRegex_other fun _ _ => .pure
  | captureFunction | matchFunction | matchAttribute | appendNegate | appendTrait =>
    exact .bind modifyCur_other fun _ _ => .pure
  | captureAttribute =>
    refine .bind modifyCur_other fun _ _ => ?_
    dsimp only
    split
    · exact .pure
    · exact modifyCur_other
  | reset =>
    refine .bind ?_ fun _ _ => .pure
    exact .bind assert_other fun _ _ => .bind assert_other fun _ _ => .bind assert_other fun _ _ => .bind assert_other fun _ _ => .pure
  | pushRule =>
    simp only [Act.exec, Hext.pushRule]
    split
    · exact .pure
    · exact .throw trivial
  | ruleOptional | ruleGreedy => exact modifyCur_other
  | openTag =>
    refine .bind tkStop_other fun _ _ => ?_
    simp only [setOpenTag]
    repeat' split
    all_goals exact modifyCur_other
  | popRule => exact popRule_other
  | closeTag => exact .bind tkStop_other fun _ _ => .bind validateCloseTag_other fun _ _ => popRule_other
  | pushNested =>
    refine .bind ?_ fun _ _ => ?_
    · unfold topStack
      split
      · exact .pure
      · exact .throw trivial
    · split
      · exact throwErrorMessage_other _ _ (by decide)
      · exact .pure
  | popNested =>
    simp only [Act.exec, Hext.popNested]
    split <;> first | exact .pure | exact .throw trivial | exact throwErrorMessage_other _ _ (by decide)
  | unexpected => exact absurd rfl ha
  | _ => exact .pure

theorem finishParse_other (c : Ctx) (s : PSt) : Errs Other (finishParse c s) := by
  unfold finishParse
  split
  · exact .throw trivial
  · split
    · exact throwErrorMessage_other _ _ (by decide)
    · split
      · exact .pure
      · exact .throw trivial
      · split
        · exact throwMissingTag_other _ _ _
        · exact .pure


/-! ## The message about an unexpected byte -/

theorem decimal_no_bracket (n : Nat) : ∀ x ∈ decimal n, x ≠ 93 := by
  induction n using Nat.strongRecOn with
  | ind n ih =>
    have key : ∀ k, k < 10 → (48 : Byte) + UInt8.ofNat k ≠ 93 := by decide
    rw [decimal]
    split
    · next h => simpa using key n h
    · intro x hx
      rcases List.mem_append.1 hx with hx | hx
      · exact ih _ (by omega) x hx
      · rw [List.mem_singleton] at hx
        subst hx
        exact key _ (by omega)

theorem before_bracket {a b x y : Str} (ha : ∀ c ∈ a, c ≠ 93) (hb : ∀ c ∈ b, c ≠ 93) (h : a ++ 93 :: x = b ++ 93 :: y) : a = b := by
  induction a generalizing b with
  | nil =>
    cases b with
    | nil => rfl
    | cons c b => simp at h; exact absurd h.1.symm (hb c (by simp))
  | cons d a ih =>
    cases b with
    | nil => simp at h; exact absurd h.1 (ha d (by simp))
    | cons c b =>
      simp only [List.cons_append, List.cons.injEq] at h
      rw [h.1, ih (fun c hc => ha c (by simp [hc])) (fun c hc => hb c (by simp [hc])) h.2]

/-- The message names the byte. -/
theorem ascii_inj {n k : Nat} {x y : Str} (h : asciiHead ++ (decimal n ++ 93 :: x) = asciiHead ++ (decimal k ++ 93 :: y)) : n = k := by
  have h1 := before_bracket (decimal_no_bracket n) (decimal_no_bracket k) (List.append_cancel_left h)
  have h2 := congrArg Binding.decimalVal h1
  rwa [(Binding.decimal_form n).2.1, (Binding.decimal_form k).2.1] at h2

/-- A message about an unexpected byte `n` that is not printable. -/
def Unprintable (n : Nat) (e : PErr) : Prop := ∃ loc, e = .syntax (asciiHead ++ (decimal n ++ 93 :: (lit "' " ++ loc)))

/-- What parsing with a signed and with an unsigned `char` gives. -/
inductive Pair {α : Type} : P α → P α → Prop
  | same {x : P α} : (∀ e, x = .error e → ∀ n, 128 ≤ n → ¬ Unprintable n e) → Pair x x
  | ub {n : Nat} {e : PErr} : 128 ≤ n → n < 255 → Unprintable n e → Pair (.error .ub) (.error e)
  | last (loc : Str) : Pair (.error (.syntax (asciiHead ++ (lit "-1]' " ++ loc)))) (.error (.syntax (asciiHead ++ (lit "255]' " ++ loc))))

theorem pair_of_other {α : Type} {x : P α} (h : Errs Other x) : Pair x x :=
  .same fun e he n _ ⟨loc, hl⟩ => by
    have := h e he
    subst hl
    exact this ⟨_, rfl⟩

theorem Pair.bind {α β : Type} {x y : P α} {f g : α → P β} (h : Pair x y) (hf : ∀ a, y = .ok a → Pair (f a) (g a)) :
    Pair (x >>= f) (y >>= g) := by
  cases h with
  | same h =>
    cases x with
    | error e => exact .same fun e' he => h e' (by cases he; rfl)
    | ok a => exact hf a rfl
  | ub h1 h2 h3 => exact .ub h1 h2 h3
  | last loc => exact .last loc

theorem charName_unsigned {b : Byte} (h : 128 ≤ b) : charName false b = .ok (lit "[ascii: " ++ decimal b.toNat ++ lit "]") := by
  have key : ∀ n, n < 256 → 128 ≤ UInt8.ofNat n →
    charName false (UInt8.ofNat n) = .ok (lit "[ascii: " ++ decimal (UInt8.ofNat n).toNat ++ lit "]") := by decide +kernel
  have := key b.toNat b.toNat_lt
  rw [UInt8.ofNat_toNat] at this
  exact this h

theorem charName_last : charName true 255 = .ok (lit "[ascii: -1]") := by decide +kernel

theorem charName_signed {b : Byte} (h : 128 ≤ b) (h' : b ≠ 255) : charName true b = .error .ub := by
  have key : ∀ n, n < 256 → 128 ≤ UInt8.ofNat n → UInt8.ofNat n ≠ 255 → charName true (UInt8.ofNat n) = .error .ub := by decide +kernel
  have := key b.toNat b.toNat_lt
  rw [UInt8.ofNat_toNat] at this
  exact this h h'

/-- How the name of a character begins. -/
def startsAs (b : Byte) : P Str → Bool
  | .ok m => m == lit "[ascii: " ++ decimal b.toNat ++ lit "]" || !(lit "[a").isPrefixOf (m ++ lit "' ")
  | .error _ => false

/-- The name of an ASCII character is not that of another byte. -/
theorem charName_low {b : Byte} (h : ¬ 128 ≤ b) : charName true b = charName false b ∧
    ∃ m, charName false b = .ok m ∧ (m = lit "[ascii: " ++ decimal b.toNat ++ lit "]" ∨ ¬ lit "[a" <+: m ++ lit "' ") := by
  have key : ∀ n, n < 256 → ¬ 128 ≤ UInt8.ofNat n → charName true (UInt8.ofNat n) = charName false (UInt8.ofNat n) ∧
    startsAs (UInt8.ofNat n) (charName false (UInt8.ofNat n)) = true := by decide +kernel
  have := key b.toNat b.toNat_lt
  rw [UInt8.ofNat_toNat] at this
  refine ⟨(this h).1, ?_⟩
  have h1 := (this h).2
  cases hm : charName false b with
  | error e => rw [hm] at h1; cases h1
  | ok m =>
    rw [hm] at h1
    simp only [startsAs, Bool.or_eq_true, beq_iff_eq, Bool.not_eq_true'] at h1
    refine ⟨m, rfl, h1.imp id fun h1 hp => ?_⟩
    rw [← List.isPrefixOf_iff_prefix, h1] at hp
    cases hp

theorem throwUnexpected_pair {α : Type} {rx : RxEngine} {input : Str} (hl : input.length ≤ 2147483645) {p : Nat} (hp : p ≤ input.length) :
    Pair (throwUnexpected { input, charSigned := true, rx } p : P α) (throwUnexpected { input, charSigned := false, rx } p) := by
  have h1 : P.assert (decide (p ≤ input.length)) = .ok () := by simp [P.assert, hp]; rfl
  have hloc : ∃ loc, ∀ cs, printErrorLocation { input, charSigned := cs, rx } p 1 = .ok loc := by
    have e : ∀ cs, printErrorLocation { input, charSigned := cs, rx } p 1 = printErrorLocation { input, charSigned := true, rx } p 1 :=
      fun _ => rfl
    rcases printErrorLocation_written { input, charSigned := true, rx } hp 1 with ⟨m, h⟩ | h
    · exact ⟨m, fun cs => by rw [e, h]⟩
    · have := printErrorLocation_errs _ _ _ _ h
      exact absurd hl (by show ¬ _; have h2 : 2147483645 < input.length := this; omega)
  obtain ⟨loc, hloc⟩ := hloc
  cases hb : input[p]? with
  | none =>
    have e : ∀ cs, (throwUnexpected { input, charSigned := cs, rx } p : P α) = .error (.syntax (lit "Premature termination " ++ loc)) := by
      intro cs
      unfold throwUnexpected
      simp only [h1, unexpectedHead, hb, hloc]
      rfl
    rw [e, e]
    refine .same fun e he n _ ⟨l, hl⟩ => ?_
    cases he
    injection hl with hl
    have := congrArg (List.take 1) hl
    simp [asciiHead, lit] at this
  | some b =>
    have e : ∀ cs, (throwUnexpected { input, charSigned := cs, rx } p : P α) = (charName cs b >>= fun name =>
        .error (.syntax (lit "Unexpected character '" ++ name ++ lit "' " ++ loc))) := by
      intro cs
      unfold throwUnexpected
      simp only [h1, unexpectedHead, hb, hloc]
      cases charName cs b <;> rfl
    rw [e, e]
    by_cases h128 : 128 ≤ b
    · rw [charName_unsigned h128]
      by_cases h255 : b = 255
      · subst h255
        rw [charName_last]
        have e1 : lit "Unexpected character '" ++ lit "[ascii: -1]" ++ lit "' " = asciiHead ++ lit "-1]' " := by decide
        have e2 : lit "Unexpected character '" ++ (lit "[ascii: " ++ decimal (255 : Byte).toNat ++ lit "]") ++ lit "' " = asciiHead ++ lit "255]' " := by
          decide +kernel
        have := Pair.last (α := α) loc
        rw [← List.append_assoc, ← List.append_assoc, ← e1, ← e2] at this
        exact this
      · rw [charName_signed h128 h255]
        refine .ub (n := b.toNat) (UInt8.le_iff_toNat_le.1 h128) ?_ ⟨loc, ?_⟩
        · have := b.toNat_lt
          have : b.toNat ≠ 255 := fun h => h255 (UInt8.toNat_inj.1 h)
          omega
        · show PErr.syntax (lit "Unexpected character '" ++ (lit "[ascii: " ++ decimal b.toNat ++ lit "]") ++ lit "' " ++ loc) = _
          congr 1
          have e1 : asciiHead = lit "Unexpected character '" ++ lit "[ascii: " := by decide
          have e2 : lit "]" = ([93] : Str) := by decide
          rw [e1, e2]
          simp
    · obtain ⟨h2, m, h3, h4⟩ := charName_low h128
      rw [h2, h3]
      refine .same fun e he n hn ⟨l, hl⟩ => ?_
      replace he : (Except.error (PErr.syntax (lit "Unexpected character '" ++ m ++ lit "' " ++ loc)) : P α) = .error e := he
      injection he with he
      rw [hl] at he
      injection he with he
      have e1 : asciiHead = lit "Unexpected character '" ++ lit "[ascii: " := by decide
      rcases h4 with rfl | h4
      · have e2 : lit "]" = ([93] : Str) := by decide
        have : asciiHead ++ (decimal b.toNat ++ 93 :: (lit "' " ++ loc)) = asciiHead ++ (decimal n ++ 93 :: (lit "' " ++ l)) := by
          rw [← he, e1, e2]; simp
        have := ascii_inj this
        have hb' : b.toNat < 128 := by
          rw [UInt8.le_iff_toNat_le] at h128
          have : (128 : Byte).toNat = 128 := rfl
          omega
        omega
      · rw [e1] at he
        simp only [List.append_assoc] at he
        have he := List.append_cancel_left he
        apply h4
        have e3 : lit "[ascii: " = lit "[a" ++ lit "scii: " := by decide
        have : lit "[a" <+: (m ++ lit "' ") ++ loc := by
          rw [List.append_assoc, he, e3]
          exact ⟨_, by rw [List.append_assoc]⟩
        refine List.prefix_of_prefix_length_le this (List.prefix_append _ _) ?_
        simp [lit]

theorem execWord_pair {rx : RxEngine} {input : Str} (hl : input.length ≤ 2147483645) : ∀ (w : List Sym) (p : Nat) (s : PSt),
    p + (chars w).length ≤ input.length →
    Pair (execWord { input, charSigned := true, rx } p w s) (execWord { input, charSigned := false, rx } p w s)
  | [], _, _, _ => pair_of_other .pure
  | .ch _ :: w, p, s, h => execWord_pair hl w (p + 1) s (by simp [chars] at h; omega)
  | .act a :: w, p, s, h => by
    refine Pair.bind ?_ fun s' _ => execWord_pair hl w p s' (by simpa [chars] using h)
    by_cases ha : a = .unexpected
    · subst ha
      exact throwUnexpected_pair hl (by omega)
    · rw [exec_signed (cs := true) (cs' := false) ha]
      exact pair_of_other (exec_other _ _ _ _ ha)

theorem dfaWord_chars_le : ∀ (input : Str) (q : Nat), (chars (dfaWord q input)).length ≤ input.length
  | [], q => by simp [dfaWord, chars_syms]
  | b :: rest, q => by
    have ih := dfaWord_chars_le rest
    simp only [dfaWord, chars_append, chars_syms, List.nil_append, List.length_cons]
    split
    · simp [chars]
    · simpa [chars] using ih _

theorem parse_pair (rx : RxEngine) {s : Str} (hl : s.length ≤ 2147483645) : Pair (parseHext rx true s) (parseHext rx false s) := by
  show Pair (Parser.parse { input := s, charSigned := true, rx }) (Parser.parse { input := s, charSigned := false, rx })
  rw [parse_eq, parse_eq]
  refine Pair.bind (execWord_pair hl _ 0 {} ?_) fun s' _ => pair_of_other (finishParse_other _ s')
  simpa using dfaWord_chars_le s hextStart

end Hext
