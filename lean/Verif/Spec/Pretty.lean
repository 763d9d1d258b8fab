import Verif.Model.Cli
/-!
# The layout of JSON texts

A reader of a JSON text passes by strings and brackets. `Reader` is what they know on the way: whether they are inside a string, whether
the byte before was a backslash in a string, and how many brackets are open.
-/

namespace Hext.Layout

structure Reader where
  inString : Bool
  escaped : Bool
  depth : Nat

def Reader.start : Reader := ⟨false, false, 0⟩

def IsOpening (c : Byte) : Bool := c = 91 ∨ c = 123
def IsClosing (c : Byte) : Bool := c = 93 ∨ c = 125

/-- The reader passes a byte. -/
def Reader.pass (r : Reader) (c : Byte) : Reader :=
  if r.inString then
    if r.escaped then { r with escaped := false }
    else if c = 92 then { r with escaped := true }
    else if c = 34 then { r with inString := false }
    else r
  else if c = 34 then { r with inString := true }
  else if IsOpening c then { r with depth := r.depth + 1 }
  else if IsClosing c then { r with depth := r.depth - 1 }
  else r

/-- The reader has passed a text. -/
def Reader.after (r : Reader) (text : Str) : Reader := text.foldl Reader.pass r

/-- What is left of a text if blanks and line breaks outside of strings are removed. -/
def squeeze (r : Reader) : Str → Str
  | [] => []
  | c :: text => if ¬ r.inString ∧ (c = 32 ∨ c = 10) then squeeze (r.pass c) text else c :: squeeze (r.pass c) text

/-- Line breaks are outside of strings. A line begins with four blanks for each bracket that is open, not counting one that the line
begins to close with its first byte. There are no empty lines. -/
def Indented (text : Str) : Prop :=
  ∀ before line, text = before ++ 10 :: line →
    (Reader.start.after before).inString = false ∧
    (line = [] ∨ ∃ c rest, line = List.replicate (4 * ((Reader.start.after before).depth - if IsClosing c then 1 else 0)) 32 ++ c :: rest ∧
      c ≠ 32 ∧ c ≠ 10)

end Hext.Layout
