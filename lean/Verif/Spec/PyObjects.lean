import Verif.Model.PyObjects
import Verif.Spec.Syntax
import Verif.Spec.Meaning
import Verif.Spec.Json
/-!
# What a program of Python may expect of the binding
-/

namespace Hext.PyApi

open Binding

/-- What a program knows about the objects it has references to: the texts they were made from. -/
structure Known where
  htmls : Nat → Option Str
  rules : Nat → Option Str

def Known.nothing : Known := ⟨fun _ => none, fun _ => none⟩

/-- What is known after a call. -/
def Known.after (k : Known) (c : Call) (r : Reply) : Known :=
  match c, r with
  | .newHtml [.str (some text)], .value (.html i) => { k with htmls := fun j => if j = i then some text else k.htmls j }
  | .newRule [.str (some hext)], .value (.rule i) => { k with rules := fun j => if j = i then some hext else k.rules j }
  | .dropHtml i, _ => { k with htmls := fun j => if j = i then none else k.htmls j }
  | .dropRule i, _ => { k with rules := fun j => if j = i then none else k.rules j }
  | _, _ => k

/-- A program has only references to objects that it was given and that are still there. -/
def ValueOk (k : Known) : PyValue → Prop
  | .html i => k.htmls i ≠ none
  | .rule i => k.rules i ≠ none
  | _ => True

/-- A call that a program can make. -/
def CallOk (k : Known) : Call → Prop
  | .newHtml args => ∀ v ∈ args, ValueOk k v
  | .newRule args => ∀ v ∈ args, ValueOk k v
  | .extract self args => k.rules self ≠ none ∧ ∀ v ∈ args, ValueOk k v
  | _ => True

/-- The call raises an exception of this class. -/
def Raises (cls : String) (r : Reply) : Prop := ∃ what, r = .raises (lit cls) what

/-- A map with its values cut off before their first NUL byte. -/
def upToNul (m : List (Str × Str)) : List (Str × Str) := m.map fun p => (p.1, p.2.takeWhile (· != 0))

/-- What the extraction answers is what the program gets: the dicts, or the same exception with the same message, or the same end. -/
def Passes (a : Answer (List (List (Text × Entry Text)))) (r : Reply) : Prop :=
  (∀ os, a = .value os → r = .value (.dicts os)) ∧ (∀ cls what, a = .raises cls what → r = .raises cls what) ∧
    (a = .terminates → r = .terminates) ∧ (a = .crash → r = .crash) ∧ (a = .hangs → r = .hangs)

/-- The right reply to a call:
* `Html(text)` makes a new object if its only argument is a `str` that can be encoded;
* `Rule(hext)` makes a new object if its only argument is such a `str`, and a hext; what is not a hext raises `ValueError`;
* `extract` needs an `Html` and, if there is a second argument, an `int`. The `int` has to fit into 64 bits without sign, or `OverflowError`
  is raised. Then the reply is that of extracting with the rule that was written and from the text that was given;
* other arguments raise `TypeError`. -/
def Right (P : Host) (k : Known) (c : Call) (r : Reply) : Prop :=
  match c with
  | .newHtml [.str (some _)] => ∃ i, r = .value (.html i) ∧ k.htmls i = none
  | .newHtml [.str none] => r = .raises P.encodeError.1 P.encodeError.2
  | .newHtml _ => Raises "TypeError" r
  | .newRule [.str (some hext)] =>
    (∃ i rule, r = .value (.rule i) ∧ k.rules i = none ∧ Syn.Means P.rx hext rule) ∨
      ((∀ rule, ¬ Syn.Means P.rx hext rule) ∧ (Raises "ValueError" r ∨ goesOn r = false))
  | .newRule [.str none] => r = .raises P.encodeError.1 P.encodeError.2
  | .newRule _ => Raises "TypeError" r
  | .extract self [.html i] => Extracts self i 0
  | .extract self [.html i, .int n] => if 0 ≤ n ∧ n < 2 ^ 64 then Extracts self i n.toNat else Raises "OverflowError" r
  | .extract _ _ => Raises "TypeError" r
  | _ => r = .value .nothing
where
  /-- The reply to an extraction with the rule `self` from the document `i`. -/
  Extracts (self i : Nat) (n : Nat) : Prop :=
    ∃ hext text rule, k.rules self = some hext ∧ k.htmls i = some text ∧ Syn.Means P.rx hext rule ∧
      Passes (pyExtract P.rx (P.gumbo text).1 rule (P.gumbo text).2 (UInt64.ofNat n)) r

/-- All replies to a sequence of calls are right, as long as the program can make the calls. -/
def AllRight (P : Host) (k : Known) : List Call → List Reply → Prop
  | [], rs => rs = []
  | c :: cs, rs => CallOk k c → ∃ r rest, rs = r :: rest ∧ Right P k c r ∧
      if goesOn r then AllRight P (k.after c r) cs rest else rest = []

/-- All calls are such that a program can make them. -/
def AllOk (P : Host) (k : Known) : List Call → List Reply → Prop
  | c :: cs, r :: rs => CallOk k c ∧ AllOk P (k.after c r) cs rs
  | _, _ => True

end Hext.PyApi
