import Verif.Base
/-!
# Model of libhext/src/StringUtil.cpp
-/

namespace Hext

/-- `IsSpace`, StringUtil.cpp:63-82. -/
def isSpace (c : Byte) : Bool :=
  c == 32 || c == 9 || c == 10 || c == 12 || c == 13

/-- The loop of `TrimAndCollapseWs`, StringUtil.cpp:35-56: the string is rewritten in place,
`endp` is the end of the output, `c` the read index. -/
def trimCollapseLoop (str : Str) (c endp : Nat) (needSpace : Bool) : E (Str × Nat) :=
  if _h : c < str.length then do
    let ch ← getAt str c
    if isSpace ch then
      -- 41-42: `if( end > 0 ) need_space = true;`
      trimCollapseLoop str (c + 1) endp (if endp > 0 then true else needSpace)
    else do
      -- 46-53
      if needSpace then
        if _h1 : endp < str.length then
          let str1 := str.set endp 32
          let ch1 ← getAt str1 c
          if _h2 : endp + 1 < str1.length then
            trimCollapseLoop (str1.set (endp + 1) ch1) (c + 1) (endp + 2) false
          else throw .ub
        else throw .ub
      else
        if _h1 : endp < str.length then
          trimCollapseLoop (str.set endp ch) (c + 1) (endp + 1) false
        else throw .ub
  else pure (str, endp)
termination_by str.length - c
decreasing_by
  · omega
  · simp; omega
  · simp; omega

/-- `TrimAndCollapseWs`, StringUtil.cpp:21-61. `str.erase(end)` (line 59) keeps the first `end`
bytes (it would throw if `end > size()`, modelled as UB). -/
def trimAndCollapseWs (str : Str) : E Str := do
  let (s, e) ← trimCollapseLoop str 0 0 false
  if e ≤ s.length then pure (s.take e) else throw .ub

/-- `std::string_view::find(word, pos)`: the smallest `i >= pos` where `word` occurs, or `npos`.
Called in StringUtil.cpp:154 and ContainsTest.cpp:34. -/
def findFrom (subject word : Str) (pos : Nat) : Option Nat :=
  if pos + word.length ≤ subject.length then
    if (subject.drop pos).take word.length = word then some pos
    else findFrom subject word (pos + 1)
  else none
termination_by subject.length + 1 - pos

/-- The loop of `ContainsWord`, StringUtil.cpp:153-168. The guard `begin < end` always holds for a
non-empty word; it is only there to make the recursion visibly terminate. -/
def containsWordLoop (subject word : Str) (begin_ : Nat) : Bool :=
  match findFrom subject word begin_ with
  | none => false
  | some b =>
    let e := b + word.length
    let startIsBound := b == 0 || subject[b-1]? == some 32
    let endIsBound := e == subject.length || subject[e]? == some 32
    if startIsBound && endIsBound then true
    else if begin_ < e ∧ begin_ ≤ subject.length then containsWordLoop subject word e
    else false
termination_by subject.length + 1 - begin_

/-- `ContainsWord`, StringUtil.cpp:148-171. -/
def containsWord (subject word : Str) : Bool :=
  if subject.isEmpty || word.isEmpty || word.length > subject.length then false
  else containsWordLoop subject word 0

/-- `CharPosition`, StringUtil.cpp:109-137. The range `[begin, ...)` is the string `s`, the pointer
`c` is the index `c` (`begin <= c` holds by construction, so the assertion of line 111 cannot fail).
Returns (line, column), both 0-based. -/
def charPosition (s : Str) (c : Nat) : Nat × Nat :=
  let before := s.take c
  let lineCount := before.count 10
  -- 124-127: position just after the last newline before c (reverse `std::find`, then `.base()`)
  let lineOffset := if lineCount > 0 then c - (before.reverse.takeWhile (· != 10)).length else 0
  (lineCount, c - lineOffset)

/-- The loop of `DecimalWidth`, StringUtil.cpp:142-144. -/
def decimalWidthLoop (number : Nat) (width : Int) : Int :=
  if number / 10 = 0 then width else decimalWidthLoop (number / 10) (width + 1)
termination_by number
decreasing_by omega

/-- `DecimalWidth`, StringUtil.cpp:139-146. -/
def decimalWidth (number : Nat) : Int := decimalWidthLoop number 1

end Hext
