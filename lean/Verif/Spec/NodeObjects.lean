import Verif.Model.NodeObjects
import Verif.Spec.Syntax
/-!
# What a program of JavaScript may expect of the Node binding
-/

namespace Hext.NodeApi

open Binding

/-- What a program knows about the objects it has references to: the texts they were made from. -/
structure Known where
  htmls : Nat → Option Str
  rules : Nat → Option Str

def Known.nothing : Known := ⟨fun _ => none, fun _ => none⟩

/-- What is known after a call. -/
def Known.after (k : Known) (c : Call) (r : Reply) : Known :=
  match c, r with
  | .newHtml (.string text :: _), .value (.html i) => { k with htmls := fun j => if j = i then some text else k.htmls j }
  | .newRule (.string hext :: _), .value (.rule i) => { k with rules := fun j => if j = i then some hext else k.rules j }
  | .collectHtml i, _ => { k with htmls := fun j => if j = i then none else k.htmls j }
  | .collectRule i, _ => { k with rules := fun j => if j = i then none else k.rules j }
  | _, _ => k

/-- A program has only references to objects that it was given and that are not collected. -/
def ValueOk (k : Known) : JsValue → Prop
  | .html i => k.htmls i ≠ none
  | .rule i => k.rules i ≠ none
  | _ => True

/-- A call that a program can make. -/
def CallOk (k : Known) : Call → Prop
  | .newHtml args => ∀ v ∈ args, ValueOk k v
  | .newRule args => ∀ v ∈ args, ValueOk k v
  | .extract this args => k.rules this ≠ none ∧ ∀ v ∈ args, ValueOk k v
  | _ => True

/-- A `TypeError` says that the arguments are wrong. -/
def Refused (r : Reply) : Prop := ∃ what, r = .raises (lit "TypeError") what

/-- An `Error` says what is wrong with the hext. -/
def NotHext (r : Reply) : Prop := ∃ what, r = .raises (lit "Error") (lit "Hext syntax error: " ++ what)

/-- What the extraction answers is what the program gets: the objects, or the same exception with the same message, or the same end. -/
def Passes (a : Answer (List (List (Text × Entry Text)))) (r : Reply) : Prop :=
  (∀ os, a = .value os → r = .value (.maps os)) ∧ (∀ cls what, a = .raises cls what → r = .raises cls what) ∧
    (a = .terminates → r = .terminates) ∧ (a = .crash → r = .crash) ∧ (a = .hangs → r = .hangs)

/-- The right reply to a call:
* `new Html` makes a new object if its first argument is a string;
* `new Rule` makes a new object if its first argument is a string that is a hext, up to its first NUL;
* `extract` needs an `Html` and, if there is a second argument, a number. Then the reply is that of extracting with the rule that was
  written and from the text that was given;
* everything else is refused with an exception: `TypeError`, or `Error` where Node-API does not look at a value that is not an object. -/
def Right (N : Host) (k : Known) (c : Call) (r : Reply) : Prop :=
  match c with
  | .newHtml (.string _ :: _) => ∃ i, r = .value (.html i) ∧ k.htmls i = none
  | .newHtml _ => Refused r
  | .newRule (.string hext :: _) =>
    (∃ i rule, r = .value (.rule i) ∧ k.rules i = none ∧ Syn.Means N.rx (cstr hext) rule) ∨
      ((∀ rule, ¬ Syn.Means N.rx (cstr hext) rule) ∧ (NotHext r ∨ goesOn r = false))
  | .newRule _ => Refused r
  | .extract this (.html i :: rest) =>
    match rest with
    | [] => Extracts this i (.int 0)
    | .number n :: _ => Extracts this i n
    | _ => Refused r
  | .extract _ _ => Refused r ∨ ∃ what, r = .raises (lit "Error") what
  | _ => r = .value .nothing
where
  /-- The reply to an extraction with the rule `this` from the document `i`. -/
  Extracts (this i : Nat) (n : JsNumber) : Prop :=
    ∃ hext text rule, k.rules this = some hext ∧ k.htmls i = some text ∧ Syn.Means N.rx (cstr hext) rule ∧
      Passes (nodeExtract N.rx N.js (N.gumbo text).1 rule (N.gumbo text).2 n) r

/-- All replies to a sequence of calls are right, as long as the program can make the calls. -/
def AllRight (N : Host) (k : Known) : List Call → List Reply → Prop
  | [], rs => rs = []
  | c :: cs, rs => CallOk k c → ∃ r rest, rs = r :: rest ∧ Right N k c r ∧
      if goesOn r then AllRight N (k.after c r) cs rest else rest = []

/-- All calls are such that a program can make them. -/
def AllOk (N : Host) (k : Known) : List Call → List Reply → Prop
  | c :: cs, r :: rs => CallOk k c ∧ AllOk N (k.after c r) cs rs
  | _, _ => True

end Hext.NodeApi
