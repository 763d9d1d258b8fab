import Verif.Spec.Syntax
/-!
# Numbers in a hext

The grammar allows a number to have any number of digits; `std::stoi` takes only numbers that fit into an `int`.
-/

namespace Hext.Syn

def Digit (b : Byte) : Prop := 48 ≤ b ∧ b ≤ 57

/-- The digits `d` behind `a` stand for a number that does not fit into an `int`. If `a` ends with `-`, the number is negative. -/
def TooLarge (a d : Str) : Prop := if a.getLast? = some 45 then 2147483648 < digitsVal d else 2147483647 < digitsVal d

/-- `s` is `a d b t`, where `d` are all the digits of a number.

A number is what is required behind `a` (a letter, as in a name or a string, is not allowed there). -/
structure NumberAt (s a d : Str) (b : Byte) (t : Str) : Prop where
  eq : s = a ++ d ++ b :: t
  digits : IsDigits d
  before : ∀ x, a.getLast? = some x → ¬ Digit x
  behind : ¬ Digit b
  required : ¬ Begins (a ++ lit "x")

end Hext.Syn
