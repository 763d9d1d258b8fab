import Verif.Proofs.ParserNumber
import Verif.Proofs.ParserMessage
import Verif.Proofs.ParserSplit
/-!
# Where `std::out_of_range` comes from
-/

namespace Hext

open Syn Check Data Msg

def NotRange (e : PErr) : Prop := e ≠ .outOfRange

theorem printErrorLocation_fits (c : Ctx) (uc k : Nat) : Errs NotRange (printErrorLocation c uc k) := by
  intro e he
  by_cases hu : uc ≤ c.input.length
  · rcases printErrorLocation_written c hu k with ⟨m, h⟩ | h
    · rw [h] at he; cases he
    · rw [h] at he; cases he; nofun
  · unfold printErrorLocation at he
    have h1 : P.assert (decide (uc ≤ c.input.length)) = .error .assertFail := by simp [P.assert, hu]; rfl
    rw [h1] at he
    cases he
    nofun

theorem assert_fits {b} : Errs NotRange (P.assert b) := by
  unfold P.assert; split
  · exact .pure
  · exact .throw nofun

theorem pMinus1_fits {p} : Errs NotRange (pMinus1 p) := by
  unfold pMinus1; split
  · exact .throw nofun
  · exact .pure

theorem throwErrorMessage_fits {α} (c : Ctx) (p : Nat) (msg : Str) : Errs NotRange (throwErrorMessage c p msg : P α) :=
  .bind pMinus1_fits fun _ _ => .bind (printErrorLocation_fits _ _ _) fun _ _ => .throw nofun

theorem throwRegexError_fits {α} (c : Ctx) (p k : Nat) (what : Str) : Errs NotRange (throwRegexError c p k what : P α) :=
  .bind pMinus1_fits fun _ _ => .bind (printErrorLocation_fits _ _ _) fun _ _ => .throw nofun

theorem throwUnexpectedTag_fits {α} (c : Ctx) (p : Nat) (t e n) : Errs NotRange (throwUnexpectedTag c p t e n : P α) := by
  unfold throwUnexpectedTag
  exact .bind pMinus1_fits fun _ _ => .bind (printErrorLocation_fits _ _ _) fun _ _ => .throw nofun

theorem throwMissingTag_fits {α} (c : Ctx) (t n) : Errs NotRange (throwMissingTag c t n : P α) :=
  .bind (printErrorLocation_fits _ _ _) fun _ _ => .throw nofun

theorem throwUnexpected_fits {α} (c : Ctx) (p : Nat) : Errs NotRange (throwUnexpected c p : P α) := by
  refine .bind assert_fits fun _ _ => .bind ?_ fun head _ => .bind (printErrorLocation_fits _ _ _) fun loc hl => .throw nofun
  unfold unexpectedHead
  split
  · exact .pure
  · refine .bind (fun e he => ?_) fun _ _ => .pure
    obtain ⟨rfl, _⟩ := charName_error he
    nofun

theorem tkStop_fits {c p s} : Errs NotRange (Hext.tkStop c p s) := by
  unfold Hext.tkStop
  split
  · exact .throw nofun
  · split
    · exact .pure
    · exact .throw nofun

/-- The actions that call `std::stoi`. -/
def Converts : Act → Bool
  | .nthNumber | .nthShift | .traitChildCount | .traitAttributeCount => true
  | _ => false

theorem converts_actN : ∀ n < 89, converts n = Converts (actN n) := by decide +kernel

theorem modifyCur_fits {f s} : Errs NotRange (modifyCur f s) := by
  unfold modifyCur
  split
  · exact .pure
  · exact .throw nofun

theorem popRule_fits {s} : Errs NotRange (Hext.popRule s) := by
  unfold Hext.popRule
  split <;> first | exact .pure | exact .throw nofun

theorem derefRegex_fits {pv} : Errs NotRange (derefRegex pv) := by
  unfold derefRegex
  split
  · exact .pure
  · exact .throw nofun

theorem validateCloseTag_fits {c p t s} : Errs NotRange (validateCloseTag c p t s) := by
  unfold validateCloseTag
  split
  · exact .throw nofun
  · exact throwUnexpectedTag_fits _ _ _ _ _
  · dsimp only
    repeat' split
    all_goals first | exact .pure | exact .throw nofun | exact throwUnexpectedTag_fits _ _ _ _ _

theorem exec_fits (c : Ctx) (p : Nat) (a : Act) (s : PSt) (ha : Converts a = false) : Errs NotRange (a.exec c p s) := by
  cases a with
  | attrName | literal | capVarToken => exact .bind tkStop_fits fun _ _ => .pure
  | nthNumber | nthShift | traitChildCount | traitAttributeCount => cases ha
  | tkStop => exact tkStop_fits
  | regex =>
    simp only [Act.exec]
    split
    · exact .pure
    · split
      · exact .throw nofun
      · split
        · exact throwRegexError_fits _ _ _ _
        · exact .throw nofun
  | regexTest =>
    simp only [Act.exec]
    split
    · exact .throw nofun
    · exact .pure
  | negateAppend =>
    simp only [Act.exec]
    split
    · exact .throw nofun
    · exact .pure
  | traitTypeRegex | pipeFilter | pipeReplace => exact .bind derefRegex_fits fun _ _ => .pure
  | captureFunction | matchFunction | matchAttribute | appendNegate | appendTrait =>
    exact .bind modifyCur_fits fun _ _ => .pure
  | captureAttribute =>
    refine .bind modifyCur_fits fun _ _ => ?_
    dsimp only
    split
    · exact .pure
    · exact modifyCur_fits
  | reset =>
    refine .bind ?_ fun _ _ => .pure
    exact .bind assert_fits fun _ _ => .bind assert_fits fun _ _ => .bind assert_fits fun _ _ => .bind assert_fits fun _ _ => .pure
  | pushRule =>
    simp only [Act.exec, Hext.pushRule]
    split
    · exact .pure
    · exact .throw nofun
  | ruleOptional | ruleGreedy => exact modifyCur_fits
  | openTag =>
    refine .bind tkStop_fits fun _ _ => ?_
    simp only [setOpenTag]
    repeat' split
    all_goals exact modifyCur_fits
  | popRule => exact popRule_fits
  | closeTag => exact .bind tkStop_fits fun _ _ => .bind validateCloseTag_fits fun _ _ => popRule_fits
  | pushNested =>
    refine .bind ?_ fun _ _ => ?_
    · unfold topStack
      split
      · exact .pure
      · exact .throw nofun
    · split
      · exact throwErrorMessage_fits _ _ _
      · exact .pure
  | popNested =>
    simp only [Act.exec, Hext.popNested]
    split <;> first | exact .pure | exact .throw nofun | exact throwErrorMessage_fits _ _ _
  | unexpected => exact throwUnexpected_fits _ _
  | _ => exact .pure

theorem finishParse_fits (c : Ctx) (s : PSt) : Errs NotRange (finishParse c s) := by
  unfold finishParse
  split
  · exact .throw nofun
  · split
    · exact throwErrorMessage_fits _ _ _
    · split
      · exact .pure
      · exact .throw nofun
      · split
        · exact throwMissingTag_fits _ _ _
        · exact .pure

end Hext
