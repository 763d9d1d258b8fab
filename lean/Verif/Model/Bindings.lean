import Verif.Model.Json
/-!
# Model of the language bindings
libhext/bindings/nodejs/src/Rule.cpp, libhext/bindings/python/pyhext.i, libhext/bindings/ruby/rbhext.i and
libhext/bindings/php/phphext.i: how a `hext::Result` becomes a value of the language, and how `max_searches` is read.
-/

namespace Hext

/-- What stands under a name: the only value, or the list of all values.
pyhext.i:57-121, rbhext.i:22-60, phphext.i:20-64, nodejs/src/Rule.cpp:156-188. -/
inductive Entry (ν : Type)
  | one (v : ν)
  | many (vs : List ν)
  deriving Repr, DecidableEq

namespace Binding

/-- How a conversion can go wrong. `ub`: an iterator runs past the end. `unicode`: `PyUnicode_FromString` fails. pyhext.i:74, 98. -/
inductive BErr
  | ub
  | unicode
  deriving DecidableEq, Repr

/-- `none` is divergence. The loops are in pyhext.i:65-118, rbhext.i:32-57, phphext.i:31-61, nodejs/src/Rule.cpp:161-185. -/
abbrev B := ExceptT BErr Option

/-! ## std::multimap -/

/-- `std::multimap::count`. The map is the list of its entries in iteration order; keys are equivalent if neither is less
than the other. Called in pyhext.i:72, rbhext.i:35, phphext.i:33, nodejs/src/Rule.cpp:163. -/
def count (m : List (Str × Str)) (k : Str) : Nat := (m.filter fun q => !bytesLt q.1 k && !bytesLt k q.1).length

/-- `std::multimap::lower_bound`: the first entry whose key is not less than `k`, as an index.
Called in pyhext.i:92, rbhext.i:44, phphext.i:48, nodejs/src/Rule.cpp:174. -/
def lowerBound (m : List (Str × Str)) (k : Str) : Nat := m.findIdx fun q => !bytesLt q.1 k

/-- `std::multimap::upper_bound`: the first entry whose key is greater than `k`, as an index.
Called in pyhext.i:93, rbhext.i:45, phphext.i:49, nodejs/src/Rule.cpp:175. -/
def upperBound (m : List (Str × Str)) (k : Str) : Nat := m.findIdx fun q => bytesLt k q.1

/-! ## The loops

The four bindings have the same loops; `conv` is how they convert a value, and `put` how they put a name with its converted
value or values into the object of their language. -/

section
variable {σ ν : Type}
variable (conv : Str → B ν) (put : σ → Str → Entry ν → B σ)

/-- `for(; lower != upper; ++lower)`: the values of one key. Node: Rule.cpp:176-179; Python: pyhext.i:94-106; Ruby:
rbhext.i:46-52; PHP: phphext.i:50-55. -/
def packLoop (m : List (Str × Str)) (lower upper : Nat) (acc : List ν) : B (List ν) :=
  if lower = upper then pure acc
  else match m[lower]? with
  | none => throw .ub
  | some q => do
    let v ← conv q.2
    packLoop m (lower + 1) upper (acc ++ [v])
partial_fixpoint

/-- `while( it != map.cend() )`. Node: Rule.cpp:160-185; Python: pyhext.i:69-115; Ruby: rbhext.i:31-56; PHP:
phphext.i:30-60. -/
def mapLoop (m : List (Str × Str)) (it : Nat) (o : σ) : B σ :=
  match m[it]? with
  | none => pure o
  | some q =>
    if count m q.1 < 2 then do
      let v ← conv q.2
      let o ← put o q.1 (.one v)
      mapLoop m (it + 1) o
    else do
      let vs ← packLoop conv m (lowerBound m q.1) (upperBound m q.1) []
      let o ← put o q.1 (.many vs)
      mapLoop m (upperBound m q.1) o
partial_fixpoint

/-- The loop over the maps of the result. pyhext.i:57-121, rbhext.i:28-59, phphext.i:26-63, nodejs/src/Rule.cpp:157-188. -/
def resultLoop (empty : σ) : List (List (Str × Str)) → B (List σ)
  | [] => pure []
  | m :: ms => do
    let o ← mapLoop conv put m 0 empty
    let os ← resultLoop empty ms
    pure (o :: os)

end

/-! ## UTF-8 -/

/-- Code points. What `PyUnicode_FromString` (pyhext.i:74, 98) and `Napi::String::New` (nodejs/src/Rule.cpp:166, 179) make. -/
abbrev Text := List Nat

/-- A continuation byte of UTF-8. Part of `PyUnicode_FromString`, pyhext.i:74, 98. -/
def isCont (b : Byte) : Bool := 0x80 ≤ b && b ≤ 0xBF

/-- The second byte after a leading `a` of three or four bytes: no overlong forms, no surrogates, nothing above U+10FFFF
(Unicode, table 3-7). Part of `PyUnicode_FromString`, pyhext.i:74, 98. -/
def isSecond (a b : Byte) : Bool :=
  isCont b && (a != 0xE0 || 0xA0 ≤ b) && (a != 0xED || b ≤ 0x9F) && (a != 0xF0 || 0x90 ≤ b) && (a != 0xF4 || b ≤ 0x8F)

/-- A code point of two bytes: the leading byte is `a`. Part of `PyUnicode_FromString`, pyhext.i:74, 98. -/
def nextTwo (a : Byte) : Str → Option (Nat × Str)
  | b :: s => if isCont b then some ((a.toNat - 0xC0) * 64 + (b.toNat - 0x80), s) else none
  | _ => none

/-- A code point of three bytes: the leading byte is `a`. Part of `PyUnicode_FromString`, pyhext.i:74, 98. -/
def nextThree (a : Byte) : Str → Option (Nat × Str)
  | b :: c :: s =>
    if isSecond a b && isCont c then
      some ((a.toNat - 0xE0) * 4096 + (b.toNat - 0x80) * 64 + (c.toNat - 0x80), s)
    else none
  | _ => none

/-- A code point of four bytes: the leading byte is `a`. Part of `PyUnicode_FromString`, pyhext.i:74, 98. -/
def nextFour (a : Byte) : Str → Option (Nat × Str)
  | b :: c :: d :: s =>
    if isSecond a b && isCont c && isCont d then
      some ((a.toNat - 0xF0) * 262144 + (b.toNat - 0x80) * 4096 + (c.toNat - 0x80) * 64 + (d.toNat - 0x80), s)
    else none
  | _ => none

/-- The code point at the start of a string that begins with `a`, and what comes after it.
Part of `PyUnicode_FromString`, pyhext.i:74, 98. -/
def nextCode (a : Byte) (s : Str) : Option (Nat × Str) :=
  if a < 0x80 then some (a.toNat, s)
  else if 0xC2 ≤ a && a ≤ 0xDF then nextTwo a s
  else if 0xE0 ≤ a && a ≤ 0xEF then nextThree a s
  else if 0xF0 ≤ a && a ≤ 0xF4 then nextFour a s
  else none

theorem nextCode_length {a : Byte} {s : Str} {x : Nat × Str} (h : nextCode a s = some x) : x.2.length ≤ s.length := by
  unfold nextCode nextTwo nextThree nextFour at h
  repeat' split at h
  all_goals first
    | contradiction
    | (simp only [Option.some.injEq] at h; subst h; simp; try omega)

/-- Strict decoding of UTF-8; `none` if the string is not UTF-8. Part of `PyUnicode_FromString`, pyhext.i:74, 98. -/
def utf8 : Str → Option Text
  | [] => some []
  | a :: s =>
    match _h : nextCode a s with
    | none => none
    | some x => match utf8 x.2 with
      | none => none
      | some t => some (x.1 :: t)
termination_by s => s.length
decreasing_by
  have := nextCode_length _h
  simp; omega

/-! ## Python -/

/-- `PyDict_SetItem` on a dict, kept as the list of its items in iteration order (insertion order, Python 3.7).
Called in pyhext.i:80, 109. -/
def dictSet {κ ν : Type} [DecidableEq κ] (d : List (κ × ν)) (k : κ) (v : ν) : List (κ × ν) :=
  match d with
  | [] => [(k, v)]
  | q :: d => if q.1 = k then (k, v) :: d else q :: dictSet d k v

/-- `PyString_FromString(s.c_str())`: `PyUnicode_FromString` decodes the bytes before the first NUL strictly. Called in pyhext.i:74, 98. -/
def pyString (s : Str) : B Text :=
  match utf8 (cstr s) with
  | some t => pure t
  | none => throw .unicode

/-- `PyDict_SetItemString(dict, key.c_str(), value)`, pyhext.i:80-82 and 109-111. -/
def pyPut (d : List (Text × Entry Text)) (k : Str) (e : Entry Text) : B (List (Text × Entry Text)) := do
  let k ← pyString k
  pure (dictSet d k e)

/-- The dict made for one map, pyhext.i:65-115. -/
def pyDict (m : List (Str × Str)) : B (List (Text × Entry Text)) := mapLoop pyString pyPut m 0 []

/-- The list of dicts, pyhext.i:58-120. -/
def pyResult (res : List (List (Str × Str))) : B (List (List (Text × Entry Text))) := resultLoop pyString pyPut [] res

/-! ## Ruby -/

/-- A Ruby string: bytes tagged as UTF-8 (`rb_enc_str_new(s.c_str(), s.size(), rb_utf8_encoding())`). rbhext.i:34, 37, 49. -/
def rubyString (s : Str) : B Str := pure s

/-- `rb_hash_aset`, rbhext.i:38 and 53; a Hash keeps insertion order. -/
def rubyPut (d : List (Str × Entry Str)) (k : Str) (e : Entry Str) : B (List (Str × Entry Str)) := pure (dictSet d k e)

/-- The hash made for one map, rbhext.i:30-56. -/
def rubyHash (m : List (Str × Str)) : B (List (Str × Entry Str)) := mapLoop rubyString rubyPut m 0 []

/-! ## PHP -/

/-- A key of a PHP array. phphext.i:35, 57. -/
inductive PhpKey
  | int (n : Int)
  | str (s : Str)
  deriving DecidableEq, Repr

/-- Decimal digits without a superfluous zero in front. Part of `add_assoc_string`, phphext.i:35, 57. -/
def isDecimal (ds : Str) : Bool := ds ≠ [] && ds.all (fun d => 48 ≤ d && d ≤ 57) && (ds.head? != some 48 || ds.length == 1)

/-- The value of decimal digits. Part of `add_assoc_string`, phphext.i:35, 57. -/
def decimalVal (ds : Str) : Nat := ds.foldl (fun n d => n * 10 + (d.toNat - 48)) 0

/-- The key that a string is in an array of PHP: `add_assoc_string` and `add_assoc_zval` store with `zend_symtable_update`, which
takes the decimal form of an integer of 64 bits for that integer (Zend's `ZEND_HANDLE_NUMERIC_STR`). phphext.i:35, 57. -/
def phpKey (s : Str) : PhpKey :=
  match s with
  | [] => .str []
  | c :: ds =>
    if c = 45 then
      if isDecimal ds && ds != [48] && decimalVal ds ≤ 9223372036854775808 then .int (-(decimalVal ds : Int)) else .str (c :: ds)
    else if isDecimal (c :: ds) && decimalVal (c :: ds) ≤ 9223372036854775807 then .int (decimalVal (c :: ds)) else .str (c :: ds)

/-- `add_assoc_string(&map, key.c_str(), value.c_str())` and `add_assoc_zval(&map, key.c_str(), &values)`,
phphext.i:35-39 and 57; the values of an array are added with their size, phphext.i:51-55. An array keeps insertion order. -/
def phpPut (d : List (PhpKey × Entry Str)) (k : Str) (e : Entry Str) : B (List (PhpKey × Entry Str)) :=
  match e with
  | .one v => pure (dictSet d (phpKey (cstr k)) (.one (cstr v)))
  | .many vs => pure (dictSet d (phpKey (cstr k)) (.many vs))

/-- The array made for one map, phphext.i:27-60. -/
def phpArray (m : List (Str × Str)) : B (List (PhpKey × Entry Str)) := mapLoop pure phpPut m 0 []

/-! ## Node -/

/-- `napi_create_string_utf8` decodes every byte string; what V8 makes of bytes that are not UTF-8 is left open.
Called by `Napi::String::New`, nodejs/src/Rule.cpp:166, 179. -/
structure Js where
  fromUtf8 : Str → Text
  strict : ∀ s t, utf8 s = some t → fromUtf8 s = t

/-- "__proto__". A special name in `map.Set`, nodejs/src/Rule.cpp:165, 180. -/
def protoKey : Text := [95, 95, 112, 114, 111, 116, 111, 95, 95]

/-- `Napi::Object::Set` (`[[Set]]`) on an object made by `Napi::Object::New`, Rule.cpp:165-167 and 180-182. The own
properties are kept in the order of creation. Setting `__proto__` calls the accessor that the object inherits from
`Object.prototype`: it creates no own property. -/
def jsSet (d : List (Text × Entry Text)) (k : Text) (e : Entry Text) : List (Text × Entry Text) :=
  if k = protoKey then d else dictSet d k e

/-- `Napi::Object::Set`, nodejs/src/Rule.cpp:165, 180: an object is kept as the list of its own properties in the order in which they were
made. -/
def jsPut (js : Js) (d : List (Text × Entry Text)) (k : Str) (e : Entry Text) : B (List (Text × Entry Text)) :=
  pure (jsSet d (js.fromUtf8 k) e)

/-- The value of a string of decimal digits. Needed for the order of the properties that `map.Set` makes, nodejs/src/Rule.cpp:165, 180. -/
def digitsVal : Text → Option Nat
  | [] => some 0
  | ds => ds.foldl (fun a c => a.bind fun n => if 48 ≤ c ∧ c ≤ 57 then some (10 * n + (c - 48)) else none) (some 0)

/-- An array index (ECMA-262): the canonical decimal text of a number below 2^32 - 1.
Needed for the order of the properties that `map.Set` makes, nodejs/src/Rule.cpp:165, 180. -/
def arrayIndex (k : Text) : Option Nat :=
  match k with
  | [] => none
  | c :: k' =>
    if c = 48 ∧ k' ≠ [] then none
    else match digitsVal (c :: k') with
      | some n => if n < 4294967295 then some n else none
      | none => none

/-- Insert an entry before the first entry with a larger index.
Needed for the order of the properties that `map.Set` makes, nodejs/src/Rule.cpp:165, 180. -/
def insertIndex {ν : Type} (x : Nat × ν) : List (Nat × ν) → List (Nat × ν)
  | [] => [x]
  | y :: ys => if x.1 < y.1 then x :: y :: ys else y :: insertIndex x ys

/-- The order in which the own properties of an object are enumerated (ECMA-262 `OrdinaryOwnPropertyKeys`): array
indices in ascending order, then the other names in the order of creation. For the objects made in nodejs/src/Rule.cpp:159-185. -/
def jsOrder {ν : Type} (d : List (Text × ν)) : List (Text × ν) :=
  ((d.filterMap fun q => (arrayIndex q.1).map fun n => (n, q)).foldl (fun l x => insertIndex x l) []).map (·.2) ++
    d.filter fun q => (arrayIndex q.1).isNone

/-- The object made for one map, as its own properties in enumeration order, Rule.cpp:159-185. -/
def nodeObject (js : Js) (m : List (Str × Str)) : B (List (Text × Entry Text)) := do
  let d ← mapLoop (fun s => pure (js.fromUtf8 s)) (jsPut js) m 0 []
  pure (jsOrder d)

/-! ## max_searches -/

/-- A JavaScript number: its integral part, or not finite. The argument in nodejs/src/Rule.cpp:98. -/
inductive JsNumber
  | int (n : Int)
  | notFinite

/-- `Napi::Number::Uint32Value` (`napi_get_value_uint32`), Rule.cpp:98: the integral part modulo 2^32; 0 if not finite.
The result is stored in a `std::uint64_t`. -/
def nodeLimit : JsNumber → UInt64
  | .int n => UInt64.ofNat (n % 4294967296).toNat
  | .notFinite => 0

/-- SWIG's conversion of a Python `int` to `std::uint64_t` (pyhext.i:154-160, wrapper/Rule.h:36): other values raise
`OverflowError`. -/
def pyLimit (n : Int) : Option UInt64 := if 0 ≤ n ∧ n < 18446744073709551616 then some (UInt64.ofNat n.toNat) else none

end Binding

end Hext
