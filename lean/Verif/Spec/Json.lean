import Verif.Model.Bindings
/-!
# JSON texts (RFC 8259) and what a result looks like

`JText v s`: the bytes `s` are a JSON text for the value `v`. Numbers, `true`, `false` and `null` are left out. Strings are
byte strings; what is escaped is UTF-8.
-/

namespace Hext

/-- ws = *( %x20 / %x09 / %x0A / %x0D ) -/
def JWs (w : Str) : Prop := ∀ c ∈ w, c = 32 ∨ c = 9 ∨ c = 10 ∨ c = 13

/-- `d` is a hexadecimal digit for `n`. -/
def IsHex (d : Byte) (n : Nat) : Prop :=
  (48 ≤ d ∧ d ≤ 57 ∧ n + 48 = d.toNat) ∨ (65 ≤ d ∧ d ≤ 70 ∧ n + 55 = d.toNat) ∨ (97 ≤ d ∧ d ≤ 102 ∧ n + 87 = d.toNat)

/-- The code points that can be encoded: all but the surrogates. -/
def IsScalar (c : Nat) : Prop := c < 0xD800 ∨ (0xE000 ≤ c ∧ c < 0x110000)

/-- The UTF-8 form of a code point (RFC 3629, section 3). -/
def enc (c : Nat) : Str :=
  if c < 0x80 then [UInt8.ofNat c]
  else if c < 0x800 then [UInt8.ofNat (0xC0 + c / 64), UInt8.ofNat (0x80 + c % 64)]
  else if c < 0x10000 then
    [UInt8.ofNat (0xE0 + c / 4096), UInt8.ofNat (0x80 + c / 64 % 64), UInt8.ofNat (0x80 + c % 64)]
  else [UInt8.ofNat (0xF0 + c / 262144), UInt8.ofNat (0x80 + c / 4096 % 64), UInt8.ofNat (0x80 + c / 64 % 64),
    UInt8.ofNat (0x80 + c % 64)]

/-- The digits `d1 d2 d3 d4` are the hexadecimal form of `n`. -/
def IsHex4 (d1 d2 d3 d4 : Byte) (n : Nat) : Prop :=
  ∃ n1 n2 n3 n4, IsHex d1 n1 ∧ IsHex d2 n2 ∧ IsHex d3 n3 ∧ IsHex d4 n4 ∧ n = 4096 * n1 + 256 * n2 + 16 * n3 + n4

/-- `text` stands between the quotation marks of a string with the bytes `s`. -/
inductive JChars : (s : Str) → (text : Str) → Prop
  | nil : JChars [] []
  | plain {c s t} : 32 ≤ c → c ≠ 34 → c ≠ 92 → JChars s t → JChars (c :: s) (c :: t)
  | esc {e c s t} : (e, c) ∈ [((34 : Byte), (34 : Byte)), (92, 92), (47, 47), (98, 8), (102, 12), (110, 10), (114, 13), (116, 9)] →
      JChars s t → JChars (c :: s) (92 :: e :: t)
  | uni {d1 d2 d3 d4 n s t} : IsHex4 d1 d2 d3 d4 n → IsScalar n → JChars s t →
      JChars (enc n ++ s) (92 :: 117 :: d1 :: d2 :: d3 :: d4 :: t)
  | pair {d1 d2 d3 d4 e1 e2 e3 e4 hi lo s t} : IsHex4 d1 d2 d3 d4 (0xD800 + hi) → hi < 0x400 → IsHex4 e1 e2 e3 e4 (0xDC00 + lo) →
      lo < 0x400 → JChars s t →
      JChars (enc (0x10000 + 0x400 * hi + lo) ++ s) (92 :: 117 :: d1 :: d2 :: d3 :: d4 :: 92 :: 117 :: e1 :: e2 :: e3 :: e4 :: t)

mutual
/-- `s` is a JSON text for `v`, without blanks around it. -/
inductive JText : Json → Str → Prop
  | str {s t} : JChars s t → JText (.str s) (34 :: (t ++ [34]))
  | arr0 {w} : JWs w → JText (.arr []) (91 :: (w ++ [93]))
  | arr {vs t} : JElems vs t → JText (.arr vs) (91 :: (t ++ [93]))
  | obj0 {w} : JWs w → JText (.obj []) (123 :: (w ++ [125]))
  | obj {ms t} : JMembers ms t → JText (.obj ms) (123 :: (t ++ [125]))

/-- One or more values with commas between them. -/
inductive JElems : List Json → Str → Prop
  | one {v w s w'} : JWs w → JText v s → JWs w' → JElems [v] (w ++ s ++ w')
  | more {v w s w' vs t} : JWs w → JText v s → JWs w' → JElems vs t → JElems (v :: vs) (w ++ s ++ w' ++ 44 :: t)

/-- One or more members `"name": value` with commas between them. -/
inductive JMembers : List (Str × Json) → Str → Prop
  | one {k v w q w1 w2 s w'} : JWs w → JChars k q → JWs w1 → JWs w2 → JText v s → JWs w' →
      JMembers [(k, v)] (w ++ 34 :: q ++ 34 :: w1 ++ 58 :: w2 ++ s ++ w')
  | more {k v w q w1 w2 s w' ms t} : JWs w → JChars k q → JWs w1 → JWs w2 → JText v s → JWs w' → JMembers ms t →
      JMembers ((k, v) :: ms) (w ++ 34 :: q ++ 34 :: w1 ++ 58 :: w2 ++ s ++ w' ++ 44 :: t)
end

/-! ## How a result map is presented to users -/

/-- The values of `name` in the map `m`, in order. -/
def valuesOf (m : List (Str × Str)) (name : Str) : List Str := (m.filter (·.1 = name)).map (·.2)

/-- `o` presents the map `m`: its names are those of `m`, each once, in bytewise order; a name with a single value has that
value, and a name with several values has the list of them, in order. -/
def Presents (m : List (Str × Str)) (o : List (Str × Entry Str)) : Prop :=
  (o.map (·.1)).Pairwise (· < ·) ∧
  ∀ name e, (name, e) ∈ o ↔
    match e with
    | .one v => valuesOf m name = [v]
    | .many vs => valuesOf m name = vs ∧ 2 ≤ vs.length

/-- An entry as JSON: a string or an array of strings. -/
def Entry.json : Entry Str → Json
  | .one v => .str v
  | .many vs => .arr (vs.map .str)

/-- The object with the given entries. -/
def objectJson (o : List (Str × Entry Str)) : Json := .obj (o.map fun x => (x.1, x.2.json))

/-- The name that a key of a PHP array stands for: `$a["10"]` is `$a[10]`. -/
def Binding.PhpKey.name : Binding.PhpKey → Str
  | .int n => lit (toString n)
  | .str s => s

/-- `a` is the array of PHP with the entries `o`: the names that are the decimal form of an integer of 64 bits are integers, the
others are strings. -/
def IsPhpArray (o : List (Str × Entry Str)) (a : List (Binding.PhpKey × Entry Str)) : Prop :=
  a.map (fun x => (x.1.name, x.2)) = o ∧
  ∀ x ∈ a, match x.1 with
    | .int n => -9223372036854775808 ≤ n ∧ n ≤ 9223372036854775807
    | .str s => ∀ n : Int, -9223372036854775808 ≤ n → n ≤ 9223372036854775807 → s ≠ lit (toString n)

/-! ## Text -/

/-- No NUL byte in a name or a value. -/
def NoNul (m : List (Str × Str)) : Prop := ∀ p ∈ m, (0 : Byte) ∉ p.1 ∧ (0 : Byte) ∉ p.2

/-- `s` is the UTF-8 form of the text `t`. -/
def IsUtf8Of (s : Str) (t : Binding.Text) : Prop := (∀ c ∈ t, IsScalar c) ∧ s = t.flatMap enc

/-- Every name and value is UTF-8. -/
def IsUtf8 (m : List (Str × Str)) : Prop := ∀ p ∈ m, (∃ t, IsUtf8Of p.1 t) ∧ ∃ t, IsUtf8Of p.2 t

/-- The entry `e'` has the texts of the strings of `e`. -/
inductive Entry.IsText : Entry Str → Entry Binding.Text → Prop
  | one {s t} : IsUtf8Of s t → Entry.IsText (.one s) (.one t)
  | many {ss : List Str} {ts : List Binding.Text} : ss.length = ts.length → (∀ x ∈ ss.zip ts, IsUtf8Of x.1 x.2) →
      Entry.IsText (.many ss) (.many ts)

/-- The entries `o'` have the texts of the strings of `o`, in the same order. -/
inductive IsTextOf : List (Str × Entry Str) → List (Binding.Text × Entry Binding.Text) → Prop
  | nil : IsTextOf [] []
  | cons {k e k' e' o o'} : IsUtf8Of k k' → e.IsText e' → IsTextOf o o' → IsTextOf ((k, e) :: o) ((k', e') :: o')

end Hext
