import Verif.Model.Scripts
import Verif.Spec.Syntax
import Verif.Spec.Meaning
import Verif.Spec.Safe
import Verif.Spec.Cli
/-!
# What the scripts should do
-/

namespace Hext.Script

open Binding

/-- The encoder writes the JSON text of every object with strings that are texts, on one line. -/
def WritesText (dumps : List (Text × Entry Text) → Str) : Prop :=
  ∀ o t, IsTextOf o t → JText (objectJson o) (dumps t) ∧ (10 : Byte) ∉ dumps t

/-- The same for an encoder that takes strings of bytes, if they are UTF-8. -/
def WritesObject (encode : List (Str × Entry Str) → Option Str) : Prop :=
  ∀ o, (∃ t, IsTextOf o t) → ∃ s, encode o = some s ∧ JText (objectJson o) s ∧ (10 : Byte) ∉ s

/-- The encoder writes the JSON text of every list, if its strings are UTF-8, on one line. -/
def WritesList (encode : List (Entry Str) → Option Str) : Prop :=
  ∀ es, (∀ e ∈ es, ∃ t, e.IsText t) → ∃ s, encode es = some s ∧ JText (.arr (es.map Entry.json)) s ∧ (10 : Byte) ∉ s

/-- The file `f` has the hext of a rule and the file `g` the HTML of a document: `res` is the outcome of the rule on the document.
The hext has no ten digits in a row. The strings of the outcome are UTF-8 without NUL. -/
def Asks (rx : RxEngine) (gumbo : Str → Heap × Ptr) (files : Str → Option Str) (f g : Str) (res : List (List (Str × Str))) : Prop :=
  ∃ hext html r t, files f = some hext ∧ files g = some html ∧ NoLong hext ∧ Syn.Means rx hext r ∧
    IsDocument (gumbo html).1 1147483648 t ∧ t.ptr = (gumbo html).2 ∧ IsOutcome rx (fun _ => none) r (Loc.root t) res ∧
    ∀ m ∈ res, NoNul m ∧ IsUtf8 m

/-- Ten thousand searches are not enough for the rule of `f` on the document of `g`: `max_searches=10000` raises an exception. -/
def TooMany (rx : RxEngine) (charSigned : Bool) (gumbo : Str → Heap × Ptr) (files : Str → Option Str) (f g : Str) : Prop :=
  ∃ hext html r, files f = some hext ∧ files g = some html ∧ parseHext rx charSigned hext = .ok r ∧
    extract rx (gumbo html).1 r (gumbo html).2 10000 = throw .maxSearch

/-- The file is UTF-8. -/
def TextFile (files : Str → Option Str) (f : Str) : Prop := ∀ s, files f = some s → ∃ t, IsUtf8Of s t

/-- The second text is the first one with a line feed for every line break: CR LF, CR or LF. -/
inductive OneLineBreak : Str → Str → Prop
  | nil : OneLineBreak [] []
  | other {c : Byte} {s t : Str} : c ≠ 10 → c ≠ 13 → OneLineBreak s t → OneLineBreak (c :: s) (c :: t)
  | lf {s t : Str} : OneLineBreak s t → OneLineBreak (10 :: s) (10 :: t)
  | crlf {s t : Str} : OneLineBreak s t → OneLineBreak (13 :: 10 :: s) (10 :: t)
  | cr {s t : Str} : s.head? ≠ some 10 → OneLineBreak s t → OneLineBreak (13 :: s) (10 :: t)

/-- The second files are the first ones with a line feed for every line break. -/
def SameButLineBreaks (files files' : Str → Option Str) : Prop :=
  ∀ f, match files f, files' f with
    | none, none => True
    | some s, some t => OneLineBreak s t
    | _, _ => False

/-- The names are 0, 1 and so on, at most ten of them: to PHP this is a list. (With more names, `10` would come before `2`.) -/
def ListNames (m : List (Str × Str)) : Prop :=
  ∃ k ≤ 10, ∀ name, (∃ v, (name, v) ∈ m) ↔ ∃ i, i < k ∧ name = lit (toString i)

/-! ## Exit codes -/

/-- `res` is the outcome of the rule in the file `f` on the document in the file `g`. -/
def OutcomeOf (rx : RxEngine) (gumbo : Str → Heap × Ptr) (files : Str → Option Str) (f g : Str) (res : List (List (Str × Str))) : Prop :=
  ∃ hext html r t, files f = some hext ∧ files g = some html ∧ Syn.Means rx hext r ∧
    IsDocument (gumbo html).1 1147483648 t ∧ t.ptr = (gumbo html).2 ∧ IsOutcome rx (fun _ => none) r (Loc.root t) res

/-- What Gumbo makes is a document. -/
def MakesDocuments (gumbo : Str → Heap × Ptr) : Prop :=
  ∀ html, ∃ t, IsDocument (gumbo html).1 1147483648 t ∧ t.ptr = (gumbo html).2

/-- The encoder writes the JSON text of an object on one line, or raises an exception. -/
def WritesOrRaises (encode : List (Str × Entry Str) → Option Str) : Prop :=
  ∀ o s, encode o = some s → JText (objectJson o) s ∧ (10 : Byte) ∉ s

/-- `json_encode` fails if a string is not UTF-8. -/
def Refuses (J : PhpJson) : Prop :=
  (∀ o, (¬ ∃ t, IsTextOf o t) → J.object o = none) ∧ ∀ es : List (Entry Str), (¬ ∀ e ∈ es, ∃ t, e.IsText t) → J.list es = none

/-- The script ends, prints nothing and reports a failure: with exit code 1, or with an exception of the language. -/
inductive Fails : Ended → Prop
  | exit : Fails (.exit 1 [])
  | uncaught : Fails (.uncaught [])

end Hext.Script
