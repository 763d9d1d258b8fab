import Verif.Model.SwigObjects
import Verif.Spec.Syntax
import Verif.Spec.Meaning
import Verif.Spec.Json
import Verif.Spec.EveryMap
/-!
# What programs of Ruby and PHP may expect of the bindings
-/

namespace Hext.SwigApi

open Binding

variable {V R : Type}

/-- What a program knows about the objects it has references to: the texts they were made from. -/
structure Known where
  htmls : Nat → Option Str
  rules : Nat → Option Str

def Known.nothing : Known := ⟨fun _ => none, fun _ => none⟩

/-- The text that the only argument of a constructor stands for. -/
def textArg (P : Host V R) : List (Val V) → Option Str
  | [v] => (P.text v).toOption
  | _ => none

/-- What is known after a call. -/
def Known.after (P : Host V R) (k : Known) (c : Call V) (r : Reply R) : Known :=
  match c, r with
  | .newHtml args, .value (.html i) => { k with htmls := fun j => if j = i then textArg P args else k.htmls j }
  | .newRule args, .value (.rule i) => { k with rules := fun j => if j = i then textArg P args else k.rules j }
  | .dropHtml i, _ => { k with htmls := fun j => if j = i then none else k.htmls j }
  | .dropRule i, _ => { k with rules := fun j => if j = i then none else k.rules j }
  | _, _ => k

/-- A program has only references to objects that it was given and that are still there. -/
def ValueOk (k : Known) : Val V → Prop
  | .html i => k.htmls i ≠ none
  | .rule i => k.rules i ≠ none
  | .plain _ => True

/-- A call that a program can make. -/
def CallOk (k : Known) : Call V → Prop
  | .newHtml args => ∀ v ∈ args, ValueOk k v
  | .newRule args => ∀ v ∈ args, ValueOk k v
  | .extract self args => k.rules self ≠ none ∧ ∀ v ∈ args, ValueOk k v
  | _ => True

/-- The call raises the exception of the language for this error of SWIG. -/
def Raises (P : Host V R) (code : String) (r : Reply R) : Prop := ∃ what, r = .raises (P.cls (lit code)) what

/-- The right reply to an extraction with the rule `self` from the document `i`: that of extracting with the rule that was written and from
the text that was given. -/
def Extracts (P : Host V R) (k : Known) (r : Reply R) (self i : Nat) (n : UInt64) : Prop :=
  ∃ hext text rule, k.rules self = some hext ∧ k.htmls i = some text ∧ Syn.Means P.rx hext rule ∧
    let a := wrapperExtract P.rx P.conv (P.gumbo text).1 rule (P.gumbo text).2 n
    (∀ x, a = .value x → r = .value (.result x)) ∧ (∀ code what, a = .raises code what → r = .raises (P.cls code) what) ∧
      (a = .terminates → r = .terminates) ∧ (a = .crash → r = .crash) ∧ (a = .hangs → r = .hangs)

/-- The right reply to a call:
* `Html` with one argument makes a new object from the text that the argument is taken for;
* `Rule` with one argument makes a new object if the text is a hext; if not, the exception for `ValueError` is raised;
* `extract` needs an `Html` and, if there is a second argument, one that is taken for a number;
* everything else raises the exception that says so. -/
def Right (P : Host V R) (k : Known) (c : Call V) (r : Reply R) : Prop :=
  match c with
  | .newHtml [v] =>
    match P.text v with
    | .ok _ => ∃ i, r = .value (.html i) ∧ k.htmls i = none
    | .error e => r = .raises e.1 e.2
  | .newRule [v] =>
    match P.text v with
    | .ok hext =>
      (∃ i rule, r = .value (.rule i) ∧ k.rules i = none ∧ Syn.Means P.rx hext rule) ∨
        ((∀ rule, ¬ Syn.Means P.rx hext rule) ∧ (Raises P "ValueError" r ∨ goesOn r = false))
    | .error e => r = .raises e.1 e.2
  | .extract self [.html i] => Extracts P k r self i 0
  | .extract self [.html i, max] =>
    match P.limit max with
    | .ok n => Extracts P k r self i n
    | .error e => r = .raises e.1 e.2
  | .extract _ [v] => r = .raises (P.notHtml v).1 (P.notHtml v).2
  | .extract _ [v, _] => r = .raises (P.notHtml v).1 (P.notHtml v).2
  | .dropHtml _ => r = .value .nothing
  | .dropRule _ => r = .value .nothing
  | _ => r = .raises P.count.1 P.count.2

/-- All replies to a sequence of calls are right, as long as the program can make the calls. -/
def AllRight (P : Host V R) (k : Known) : List (Call V) → List (Reply R) → Prop
  | [], rs => rs = []
  | c :: cs, rs => CallOk k c → ∃ r rest, rs = r :: rest ∧ Right P k c r ∧
      if goesOn r then AllRight P (k.after P c r) cs rest else rest = []

/-- All calls are such that a program can make them. -/
def AllOk (P : Host V R) (k : Known) : List (Call V) → List (Reply R) → Prop
  | c :: cs, r :: rs => CallOk k c ∧ AllOk P (k.after P c r) cs rs
  | _, _ => True

/-- The result is converted as for Ruby, rbhext.i. -/
def Host.IsRuby (P : Host V (List (List (Str × Entry Str)))) : Prop := P.conv = rubyResult

/-- The result is converted as for PHP, phphext.i. -/
def Host.IsPhp (P : Host V (List (List (PhpKey × Entry Str)))) : Prop := P.conv = phpResult

end Hext.SwigApi
