import Verif.Base
/-!
# Specification vocabulary for strings

Small definitions that say what the string properties mean, independent of the model.
-/

namespace Hext.Spec

/-- HTML whitespace: space, tab, line feed, form feed, carriage return. -/
def Ws (c : Byte) : Prop := c = 32 ∨ c = 9 ∨ c = 10 ∨ c = 12 ∨ c = 13

instance (c : Byte) : Decidable (Ws c) := by unfold Ws; infer_instance

/-- The words of `s` when cut at every byte satisfying `sep`: maximal non-empty runs of
non-separators, left to right. -/
def wordsBy (sep : Byte → Bool) : Str → List Str
  | [] => []
  | c :: s =>
    if sep c then wordsBy sep s
    else match s with
      | [] => [[c]]
      | d :: _ =>
        if sep d then [c] :: wordsBy sep s
        else match wordsBy sep s with
          | [] => [[c]]
          | w :: ws => (c :: w) :: ws

/-- The HTML-whitespace separated words of `s`. -/
def words (s : Str) : List Str := wordsBy (fun c => decide (Ws c)) s

/-- Words joined with one space (0x20) between neighbours. -/
def unwords : List Str → Str
  | [] => []
  | [w] => w
  | w :: ws => w ++ 32 :: unwords ws

/-- `w` occurs in `s` delimited on both sides by a space (0x20) or the end of the string. -/
def OccursAsWord (w s : Str) : Prop :=
  ∃ pre post, s = pre ++ w ++ post ∧
    (pre = [] ∨ ∃ p, pre = p ++ [32]) ∧ (post = [] ∨ ∃ p, post = 32 :: p)

end Hext.Spec
