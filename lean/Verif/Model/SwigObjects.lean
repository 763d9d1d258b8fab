import Verif.Model.Calls
/-!
# Programs of Ruby and PHP that use the bindings
libhext/bindings/ruby/rbhext.i and libhext/bindings/php/phphext.i with libhext/bindings/wrapper/{Html,Rule}.{h,cpp}, for every sequence of
calls.

Simplifications: the code around the wrapper is generated by SWIG; it is not in the repository. It counts the arguments, converts them
from left to right, calls the C++ function, maps the errors of SWIG to exceptions of the language and converts the result. What it takes
for a string or a number is a parameter. The methods are called on objects that were initialized.
-/

namespace Hext.SwigApi

open Binding

/-- An argument: an object of one of the two classes of the wrapper, or another value. wrapper/Html.h:23, wrapper/Rule.h:30. -/
inductive Val (V : Type)
  | html (id : Nat)
  | rule (id : Nat)
  | plain (v : V)

/-- What surrounds the wrapper; `V` are the values of the language and `R` what it gets for a result. `text` and `limit` convert an
argument to `std::string` and `uint64_t` (std_string.i and stdint.i, included in rbhext.i:17-19, phphext.i:17-19), or say which exception is
raised. `notHtml`: the exception for an argument that is not an `Html`; `count`: that for a wrong number of arguments. `cls`: the exception
for an error code of SWIG (exception.i, included in rbhext.i:62, phphext.i:66). `conv`: rbhext.i:22-60, phphext.i:22-64. -/
structure Host (V R : Type) where
  rx : RxEngine
  charSigned : Bool
  gumbo : Str → Heap × Ptr
  text : Val V → Except (Str × Str) Str
  limit : Val V → Except (Str × Str) UInt64
  notHtml : Val V → Str × Str
  count : Str × Str
  cls : Str → Str
  conv : List (List (Str × Str)) → B R

/-- The living C++ objects: the member `html_` of each `Html` (wrapper/Html.h:32; `buffer_` owns a copy of the text, which lives as long)
and the member `rule_` of each `Rule` (wrapper/Rule.h:39). -/
structure State where
  htmls : Nat → Option (Heap × Ptr)
  rules : Nat → Option Rule
  fresh : Nat

/-- Before the first call. wrapper/Html.h:23-32, wrapper/Rule.h:30-40. -/
def State.start : State := ⟨fun _ => none, fun _ => none, 0⟩

/-- What a program does. `dropHtml`, `dropRule`: the language destroys an object. wrapper/Html.h:26, wrapper/Rule.h:33-36. -/
inductive Call (V : Type)
  | newHtml (args : List (Val V))
  | newRule (args : List (Val V))
  | extract (self : Nat) (args : List (Val V))
  | dropHtml (id : Nat)
  | dropRule (id : Nat)

/-- What a call returns. rbhext.i:22-60, phphext.i:22-64, wrapper/Html.h:26, wrapper/Rule.h:33. -/
inductive Out (R : Type)
  | html (id : Nat)
  | rule (id : Nat)
  | result (x : R)
  | nothing

/-- What the program gets from a call. rbhext.i:22-82, phphext.i:22-86. -/
abbrev Reply (R : Type) := Answer (Out R)

variable {V R : Type}

/-- An exception that the generated code raises. rbhext.i:17-19, phphext.i:17-19. -/
def raise (e : Str × Str) : Reply R := .raises e.1 e.2

/-- Set the member of one object. wrapper/Html.cpp:18-22, wrapper/Rule.cpp:19-22. -/
def put {α : Type} (f : Nat → Option α) (k : Nat) (x : Option α) : Nat → Option α := fun i => if i = k then x else f i

variable (P : Host V R)

/-- `Html::Html(std::string)`, wrapper/Html.cpp:18-22, without handlers for C++ exceptions. -/
def newHtml (args : List (Val V)) (s : State) : Reply R × State :=
  match args with
  | [v] =>
    match P.text v with
    | .ok text => (.value (.html s.fresh), { s with htmls := put s.htmls s.fresh (some (P.gumbo text)), fresh := s.fresh + 1 })
    | .error e => (raise e, s)
  | _ => (raise P.count, s)

/-- `Rule::Rule(const std::string&)`, wrapper/Rule.cpp:19-22, with the handler rbhext.i:63-72, phphext.i:67-76. -/
def newRule (args : List (Val V)) (s : State) : Reply R × State :=
  match args with
  | [v] =>
    match P.text v with
    | .ok hext =>
      match wrapperRule P.rx P.charSigned hext with
      | .value r => (.value (.rule s.fresh), { s with rules := put s.rules s.fresh (some r), fresh := s.fresh + 1 })
      | .raises code what => (.raises (P.cls code) what, s)
      | .terminates => (.terminates, s)
      | .crash => (.crash, s)
      | .hangs => (.hangs, s)
    | .error e => (raise e, s)
  | _ => (raise P.count, s)

/-- The result as a reply. rbhext.i:22-82, phphext.i:22-86. -/
def resultReply : Answer R → Reply R
  | .value x => .value (.result x)
  | .raises code what => .raises (P.cls code) what
  | .terminates => .terminates
  | .crash => .crash
  | .hangs => .hangs

/-- `Rule::extract`, wrapper/Rule.cpp:24-28, with the handler rbhext.i:73-82, phphext.i:77-86. -/
def extractWith (self : Nat) (html : Val V) (max : Except (Str × Str) UInt64) (s : State) : Reply R :=
  match html with
  | .html i =>
    match max with
    | .ok m =>
      match s.rules self, s.htmls i with
      | some r, some d => resultReply P (wrapperExtract P.rx P.conv d.1 r d.2 m)
      | _, _ => .crash
    | .error e => raise e
  | v => raise (P.notHtml v)

/-- `Rule::extract(const Html& html, std::uint64_t max_searches = 0)`, wrapper/Rule.h:35-36. -/
def extract (self : Nat) (args : List (Val V)) (s : State) : Reply R :=
  match args with
  | [html] => extractWith P self html (.ok 0) s
  | [html, max] => extractWith P self html (P.limit max) s
  | _ => raise P.count

/-- One call. rbhext.i:22-95, phphext.i:22-99. -/
def perform (s : State) : Call V → Reply R × State
  | .newHtml args => newHtml P args s
  | .newRule args => newRule P args s
  | .extract self args => (extract P self args s, s)
  | .dropHtml i => (.value .nothing, { s with htmls := put s.htmls i none })
  | .dropRule i => (.value .nothing, { s with rules := put s.rules i none })

/-- Does the process go on? A C++ exception that rbhext.i:63-82, phphext.i:67-86 do not handle ends the process. -/
def goesOn : Reply R → Bool
  | .value _ => true
  | .raises _ _ => true
  | _ => false

/-- The replies to a sequence of calls. The sequence is cut where the process ends. rbhext.i:22-95, phphext.i:22-99. -/
def replies (s : State) : List (Call V) → List (Reply R)
  | [] => []
  | c :: cs =>
    let (r, s) := perform P s c
    r :: if goesOn r then replies s cs else []

end Hext.SwigApi
