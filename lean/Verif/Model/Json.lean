import Verif.Model.Matching
/-!
# Model of the JSON output of htmlext
htmlext/htmlext/Json.cpp and Json.h, with the parts of RapidJSON that it calls.
-/

namespace Hext

/-- A `rapidjson::Value`. Simplification: only the kinds that Json.cpp makes (no numbers, booleans, null). -/
inductive Json
  | str (s : Str)
  | arr (vs : List Json)
  | obj (ms : List (Str × Json))
  deriving Repr

namespace Cli

/-- `rapidjson::Value::FindMember`, through `HasMember` and `operator[]`, Json.cpp:41-52: the first member of that
name. -/
def findMember (name : Str) : List (Str × Json) → Option Json
  | [] => none
  | m :: ms => if m.1 = name then some m.2 else findMember name ms

/-- Assigning to `obj[name]`, Json.cpp:45 and 52: the first member of that name gets the value. -/
def setMember (name : Str) (v : Json) : List (Str × Json) → List (Str × Json)
  | [] => []
  | m :: ms => if m.1 = name then (m.1, v) :: ms else m :: setMember name v ms

/-- The body of the loop over the pairs of a group, Json.cpp:36-58. `c_str()` gives RapidJSON the bytes before the
first NUL. -/
def addPair (obj : List (Str × Json)) (p : Str × Str) : List (Str × Json) :=
  let name := cstr p.1
  let value := Json.str (cstr p.2)
  match findMember name obj with
  | some (.arr vs) => setMember name (.arr (vs ++ [value])) obj
  | some v => setMember name (.arr [v, value]) obj
  | none => obj ++ [(name, value)]

/-- The members of the object made for one group, Json.cpp:34-58. -/
def groupObject (group : List (Str × Str)) : List (Str × Json) := group.foldl addPair []

/-- The digits of RapidJSON's `\u00XX`: "0123456789ABCDEF". Called from htmlext/htmlext/Json.cpp:85-102. -/
def hexDigit (n : Nat) : Byte := if n < 10 then 48 + UInt8.ofNat n else 55 + UInt8.ofNat n

/-- The escape table of `rapidjson::Writer::WriteString` (UTF-8 in, UTF-8 out, no validation): bytes from 0x20 on are
copied, except for the quotation mark and the backslash. Called from htmlext/htmlext/Json.cpp:85-102. -/
def escapeByte (c : Byte) : Str :=
  if c = 34 then [92, 34]
  else if c = 92 then [92, 92]
  else if c = 8 then [92, 98]
  else if c = 12 then [92, 102]
  else if c = 10 then [92, 110]
  else if c = 13 then [92, 114]
  else if c = 9 then [92, 116]
  else if c < 32 then [92, 117, 48, 48, hexDigit (c.toNat / 16), hexDigit (c.toNat % 16)]
  else [c]

/-- `rapidjson::Writer::WriteString`. Called from htmlext/htmlext/Json.cpp:85-102. -/
def quoteJson (s : Str) : Str := 34 :: (s.flatMap escapeByte ++ [34])

mutual
/-- `value.Accept(rapidjson::Writer)`, Json.cpp:93-95. -/
def writeJson : Json → Str
  | .str s => quoteJson s
  | .arr vs => 91 :: (writeElems true vs ++ [93])
  | .obj ms => 123 :: (writeMembers true ms ++ [125])

/-- The elements of an array; a comma comes before all but the first. `rapidjson::Writer`, htmlext/htmlext/Json.cpp:97-101. -/
def writeElems (first : Bool) : List Json → Str
  | [] => []
  | v :: vs => (if first then [] else [44]) ++ writeJson v ++ writeElems false vs

/-- The members of an object. `rapidjson::Writer`, htmlext/htmlext/Json.cpp:97-101. -/
def writeMembers (first : Bool) : List (Str × Json) → Str
  | [] => []
  | (k, v) :: ms => (if first then [] else [44]) ++ quoteJson k ++ [58] ++ writeJson v ++ writeMembers false ms
end

/-- `rapidjson::PrettyWriter::WriteIndent`: four blanks per level. htmlext/htmlext/Json.cpp:92. -/
def indent (depth : Nat) : Str := List.replicate (4 * depth) 32

mutual
/-- `value.Accept(rapidjson::PrettyWriter)`, Json.cpp:88-90, inside `depth` open brackets. -/
def prettyJson (depth : Nat) : Json → Str
  | .str s => quoteJson s
  | .arr [] => [91, 93]
  | .arr (v :: vs) => 91 :: (prettyElems (depth + 1) true (v :: vs) ++ 10 :: (indent depth ++ [93]))
  | .obj [] => [123, 125]
  | .obj (m :: ms) => 123 :: (prettyMembers (depth + 1) true (m :: ms) ++ 10 :: (indent depth ++ [125]))

/-- The elements of an array. `rapidjson::PrettyWriter`, htmlext/htmlext/Json.cpp:92-95. -/
def prettyElems (depth : Nat) (first : Bool) : List Json → Str
  | [] => []
  | v :: vs => (if first then [] else [44]) ++ 10 :: indent depth ++ prettyJson depth v ++ prettyElems depth false vs

/-- The members of an object. `rapidjson::PrettyWriter`, htmlext/htmlext/Json.cpp:92-95. -/
def prettyMembers (depth : Nat) (first : Bool) : List (Str × Json) → Str
  | [] => []
  | (k, v) :: ms => (if first then [] else [44]) ++ 10 :: indent depth ++ quoteJson k ++ [58, 32] ++ prettyJson depth v ++
      prettyMembers depth false ms
end

/-- `JsonOption`, Json.h:27-38: the two bits. -/
structure JsonOpt where
  pretty : Bool
  array : Bool

/-- `PrintJsonValue`, Json.cpp:81-99. -/
def printJsonValue (v : Json) (opt : JsonOpt) : Str := if opt.pretty then prettyJson 0 v else writeJson v

/-- The loop that prints each object on its own, Json.cpp:70-76. -/
def printObjects (opt : JsonOpt) : List Json → Str
  | [] => []
  | v :: vs => printJsonValue v opt ++ 10 :: printObjects opt vs

/-- `PrintJson`, Json.cpp:25-78: what it writes to `out`. -/
def printJson (result : List (List (Str × Str))) (opt : JsonOpt) : Str :=
  let doc := result.map fun group => Json.obj (groupObject group)
  if opt.array then
    if doc.isEmpty then [] else printJsonValue (.arr doc) opt ++ [10]
  else printObjects opt doc

end Cli

end Hext
