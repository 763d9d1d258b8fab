import Verif.Base
/-!
# Where an error message points

What the part of a message means that tells the position of an error: it names the line and the column of a
byte of the input, quotes the input up to that byte with numbered lines, and puts carets below.
-/

namespace Hext.Msg

/-- The line of the position `p`, from 1. -/
def lineNo (s : Str) (p : Nat) : Nat := (s.take p).count 10 + 1

/-- The column of the position `p`, from 1: the bytes since the last line break. -/
def column (s : Str) (p : Nat) : Nat := ((s.take p).reverse.takeWhile (· != 10)).length + 1

/-- A number in decimal. -/
def dec (n : Nat) : Str := lit (toString n)

def whereText (s : Str) (p : Nat) : Str :=
  if p = s.length then lit "at end of input:\n\n"
  else lit "at line " ++ dec (lineNo s p) ++ lit ", char " ++ dec (column s p) ++ lit ":\n\n"

/-- `n`, right-aligned in `w` columns. -/
def padded (w n : Nat) : Str := List.replicate (w - (dec n).length) 32 ++ dec n

/-- Lines with their numbers in front. -/
def numbered (w : Nat) : (first : Nat) → List Str → Str
  | _, [] => []
  | n, l :: ls => padded w n ++ lit ": " ++ l ++ [10] ++ numbered w (n + 1) ls

/-- `text` consists of the lines `ls`. -/
def IsLines (text : Str) (ls : List Str) : Prop :=
  (∀ l ∈ ls, 10 ∉ l) ∧ ls ≠ [] ∧ text = [(10 : Byte)].intercalate ls

/-- `q` is `text` with numbered lines. Nothing is written for an empty text. -/
def Quoted (text q : Str) : Prop :=
  (text = [] ∧ q = []) ∨ (text ≠ [] ∧ ∃ ls, IsLines text ls ∧ q = numbered (dec ls.length).length 1 ls)

/-- What is quoted: everything up to the byte at `p`, with that byte unless it is a line break. -/
def quotedPart (s : Str) (p : Nat) : Str :=
  if p = s.length ∨ s[p]? = some 10 then s.take p else s.take (p + 1)

/-- `k` carets that end below the byte at `p`, no more than there are columns. There are none if the input
is not ASCII. -/
def marker (s : Str) (p k : Nat) : Str :=
  if k = 0 ∨ ∃ b ∈ s, 128 ≤ b then []
  else
    let k := min (column s p) k
    List.replicate ((dec (lineNo s p)).length + 2 + column s p - k) 32 ++ List.replicate k 94 ++ lit " here\n"

/-- `m` points to the byte at `p`. -/
def Points (s : Str) (p k : Nat) (m : Str) : Prop :=
  p ≤ s.length ∧ ∃ q, Quoted (quotedPart s p) q ∧ m = whereText s p ++ q ++ marker s p k

/-- `m` complains about the byte `n`, which it writes as a number. -/
def Complains (n : Nat) (m : Str) : Prop := ∃ loc, m = lit "Unexpected character '[ascii: " ++ dec n ++ lit "]' " ++ loc

end Hext.Msg
