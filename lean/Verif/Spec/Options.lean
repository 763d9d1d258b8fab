import Verif.Model.Options
import Verif.Spec.Syntax
/-!
# What a command line of htmlext says
-/

namespace Hext.Cli

/-- How `htmlext --help` documents an option: its name, its letter, and whether it has a value. -/
structure Usage where
  name : Str
  letter : Byte
  valued : Bool
  deriving DecidableEq

def Key.usage : Key → Usage
  | .hext => ⟨lit "hext", 'x'.toUInt8, true⟩
  | .html => ⟨lit "html", 'i'.toUInt8, true⟩
  | .str => ⟨lit "str", 's'.toUInt8, true⟩
  | .compact => ⟨lit "compact", 'c'.toUInt8, false⟩
  | .pretty => ⟨lit "pretty", 'p'.toUInt8, false⟩
  | .array => ⟨lit "array", 'a'.toUInt8, false⟩
  | .filter => ⟨lit "filter", 'f'.toUInt8, true⟩
  | .lint => ⟨lit "lint", 'l'.toUInt8, false⟩
  | .maxSearches => ⟨lit "max-searches", 'm'.toUInt8, true⟩
  | .help => ⟨lit "help", 'h'.toUInt8, false⟩
  | .version => ⟨lit "version", 'V'.toUInt8, false⟩

/-- What a command line consists of: options without a value, options with a value, and arguments. -/
inductive Item
  | flag (k : Key)
  | value (k : Key) (v : Str)
  | argument (v : Str)
  deriving DecidableEq

/-- `w` names the option `k` after two dashes: its name, or the beginning of its name and of no other name. (A dash and its letter
are taken as well: `---x`.) -/
def Names (w : Str) (k : Key) : Prop :=
  w = k.usage.name ∨ w = lit "-" ++ [k.usage.letter] ∨
    (w ≠ [] ∧ w <+: k.usage.name ∧ ∀ k', w <+: k'.usage.name → k' = k)

/-- `v` can be the value of an option as an argument of its own: it is not an option of the form `-x`, and not of the form
`--name=`. -/
def CanFollow (v : Str) : Prop :=
  (∀ k : Key, v ≠ lit "-" ++ [k.usage.letter]) ∧ ∀ w : Str, (61 : Byte) ∉ w → v ≠ lit "--" ++ w ++ lit "="

/-- The letters of options without a value. -/
def letters (ks : List Key) : Str := ks.map fun k => k.usage.letter

/-- The arguments `as` of the program are a way to write the items. -/
inductive Spells : List Item → List Str → Prop
  | nil : Spells [] []
  /-- An argument does not start with a dash, or is a dash. -/
  | argument {p is as} : (p.head? ≠ some 45 ∨ p = lit "-") → Spells is as → Spells (.argument p :: is) (p :: as)
  /-- After `--` everything is an argument. -/
  | arguments (ps : List Str) : Spells (ps.map .argument) (lit "--" :: ps)
  /-- `--compact` -/
  | long {k w is as} : k.usage.valued = false → Names w k → Spells is as → Spells (.flag k :: is) ((lit "--" ++ w) :: as)
  /-- `--hext file` -/
  | longNext {k w v is as} : k.usage.valued = true → Names w k → CanFollow v → Spells is as →
      Spells (.value k v :: is) ((lit "--" ++ w) :: v :: as)
  /-- `--hext=file` -/
  | longValue {k w v is as} : k.usage.valued = true → Names w k → v ≠ [] → Spells is as →
      Spells (.value k v :: is) ((lit "--" ++ w ++ lit "=" ++ v) :: as)
  /-- `-c` and `-cap` -/
  | short {ks is as} : ks ≠ [] → (∀ k ∈ ks, k.usage.valued = false) → Spells is as →
      Spells (ks.map .flag ++ is) ((lit "-" ++ letters ks) :: as)
  /-- `-x file` and `-capx file` -/
  | shortNext {ks k v is as} : (∀ k ∈ ks, k.usage.valued = false) → k.usage.valued = true → CanFollow v → Spells is as →
      Spells (ks.map .flag ++ .value k v :: is) ((lit "-" ++ letters ks ++ [k.usage.letter]) :: v :: as)
  /-- `-xfile` and `-capxfile` -/
  | shortValue {ks k v is as} : (∀ k ∈ ks, k.usage.valued = false) → k.usage.valued = true → v ≠ [] → Spells is as →
      Spells (ks.map .flag ++ .value k v :: is) ((lit "-" ++ letters ks ++ [k.usage.letter] ++ v) :: as)
  /-- `--=file`, which is an argument. -/
  | argumentValue {v is as} : v ≠ [] → Spells is as → Spells (.argument v :: is) ((lit "--=" ++ v) :: as)

/-- Arguments are HTML files. -/
def asHtml : List Item → List Item
  | [] => []
  | .argument p :: is => .value .html p :: asHtml is
  | i :: is => i :: asHtml is

/-- The first argument is a hext file, the others are HTML files. -/
def asFiles : List Item → List Item
  | [] => []
  | .argument p :: is => .value .hext p :: asHtml is
  | i :: is => i :: asFiles is

/-- The values of an option, in order. -/
def valuesGiven (k : Key) (is : List Item) : List Str :=
  is.filterMap fun
    | .value k' v => if k' = k then some v else none
    | _ => none

/-- An option is given at most once. -/
def AtMostOnce (k : Key) (is : List Item) : Prop := (is.filter (· = .flag k)).length + (valuesGiven k is).length ≤ 1

instance (k : Key) (is : List Item) : Decidable (AtMostOnce k is) := inferInstanceAs (Decidable (_ ≤ 1))

/-- `v` is a way to write the limit `n`: decimal digits, with a sign or without. A minus counts from 2^64 down. -/
def WritesLimit (v : Str) (n : UInt64) : Prop :=
  ∃ d, Syn.IsDigits d ∧ Syn.digitsVal d < 2 ^ 64 ∧
    ((v = d ∨ v = lit "+" ++ d) ∧ n.toNat = Syn.digitsVal d ∨ v = lit "-" ++ d ∧ n = 0 - UInt64.ofNat (Syn.digitsVal d))

/-- The items give the options `o`. -/
structure Gives (is : List Item) (o : Opts) : Prop where
  hext : o.hext = valuesGiven .hext is
  html : o.html = valuesGiven .html is
  str : o.str = valuesGiven .str is
  compact : o.compact = true ↔ .flag .compact ∈ is
  pretty : o.pretty = true ↔ .flag .pretty ∈ is
  array : o.array = true ↔ .flag .array ∈ is
  lint : o.lint = true ↔ .flag .lint ∈ is
  help : o.help = true ↔ .flag .help ∈ is
  version : o.version = true ↔ .flag .version ∈ is
  filter : o.filter = (valuesGiven .filter is).head?
  noLimit : valuesGiven .maxSearches is = [] → o.maxSearches = 0
  limit : ∀ v ∈ valuesGiven .maxSearches is, WritesLimit v o.maxSearches
  once : ∀ k, k ≠ .hext → k ≠ .html → k ≠ .str → AtMostOnce k is

/-- The command line `program args` gives the options `o`. Arguments are files, unless `-l` or `--lint` is written among the
arguments of the program. -/
def Says (program : Str) (args : List Str) (o : Opts) : Prop :=
  ∃ is, Spells is args ∧
    Gives (if lit "-l" ∈ program :: args ∨ lit "--lint" ∈ program :: args then is else asFiles is) o

end Hext.Cli
