import Verif.Model.Calls
/-!
# Programs of Python that use the binding
libhext/bindings/python/pyhext.i with the checks of the arguments, and libhext/bindings/wrapper/{Html,Rule}.{h,cpp}, for every sequence
of calls.

Simplifications: arguments are positional. SWIG makes a proxy class for each class of the wrapper; its methods take as many arguments as
the C++ functions, run the code given with `pythonprepend`, convert the arguments and call the C++ function with `self.this`. The methods
are called on objects of their class, whose `__init__` was run, and `Html` and `Rule` have no subclasses.
-/

namespace Hext.PyApi

open Binding

/-- A value of Python, as far as the checks tell values apart. `str`: its UTF-8 bytes, or `none` if it has surrogates, which have no
UTF-8. `int`: the booleans are integers as well. The checks pyhext.i:146-160. -/
inductive PyValue
  | str (s : Option Str)
  | int (n : Int)
  | html (id : Nat)
  | rule (id : Nat)
  | other

/-- What surrounds the binding. `encodeError`: class and message of the exception for a `str` that has no UTF-8; `countError`: the message
if the number of arguments is wrong. pyhext.i:57-160. -/
structure Host where
  rx : RxEngine
  charSigned : Bool
  gumbo : Str → Heap × Ptr
  encodeError : Str × Str
  countError : Str

/-- The living C++ objects: the member `html_` of each `Html` (wrapper/Html.h:32; `buffer_` owns a copy of the text, which lives as long)
and the member `rule_` of each `Rule` (wrapper/Rule.h:39). -/
structure State where
  htmls : Nat → Option (Heap × Ptr)
  rules : Nat → Option Rule
  fresh : Nat

/-- Before the first call. wrapper/Html.h:23-32, wrapper/Rule.h:30-40. -/
def State.start : State := ⟨fun _ => none, fun _ => none, 0⟩

/-- What Python does. `dropHtml`, `dropRule`: the last reference to an object is gone. wrapper/Html.h:26, wrapper/Rule.h:33-36. -/
inductive Call
  | newHtml (args : List PyValue)
  | newRule (args : List PyValue)
  | extract (self : Nat) (args : List PyValue)
  | dropHtml (id : Nat)
  | dropRule (id : Nat)

/-- What a call returns. pyhext.i:57-160. -/
inductive Out
  | html (id : Nat)
  | rule (id : Nat)
  | dicts (os : List (List (Text × Entry Text)))
  | nothing

/-- What Python gets from a call. pyhext.i:57-160. -/
abbrev Reply := Answer Out

/-- `raise TypeError(message)`. pyhext.i:148, 152, 156, 159. -/
def typeError (what : Str) : Reply := .raises (lit "TypeError") what

/-- Set the member of one object. wrapper/Html.cpp:18-22, wrapper/Rule.cpp:19-22. -/
def put {α : Type} (f : Nat → Option α) (k : Nat) (x : Option α) : Nat → Option α := fun i => if i = k then x else f i

variable (P : Host)

/-- `Html.__init__(self, html)`: the check pyhext.i:146-149, then `Html::Html(std::string)`, wrapper/Html.cpp:18-22. -/
def newHtml (args : List PyValue) (s : State) : Reply × State :=
  match args with
  | [.str (some text)] =>
    (.value (.html s.fresh), { s with htmls := put s.htmls s.fresh (some (P.gumbo text)), fresh := s.fresh + 1 })
  | [.str none] => (.raises P.encodeError.1 P.encodeError.2, s)
  | [_] => (typeError (lit "Wrong argument type, expected string"), s)
  | _ => (typeError P.countError, s)

/-- `Rule.__init__(self, hext)`: the check pyhext.i:150-153, then `Rule::Rule(const std::string&)`, wrapper/Rule.cpp:19-22. -/
def newRule (args : List PyValue) (s : State) : Reply × State :=
  match args with
  | [.str (some hext)] =>
    match wrapperRule P.rx P.charSigned hext with
    | .value r => (.value (.rule s.fresh), { s with rules := put s.rules s.fresh (some r), fresh := s.fresh + 1 })
    | .raises cls what => (.raises cls what, s)
    | .terminates => (.terminates, s)
    | .crash => (.crash, s)
    | .hangs => (.hangs, s)
  | [.str none] => (.raises P.encodeError.1 P.encodeError.2, s)
  | [_] => (typeError (lit "Wrong argument type, expected string"), s)
  | _ => (typeError P.countError, s)

/-- The dicts of the result as a reply. pyhext.i:57-121. -/
def dictsReply : Answer (List (List (Text × Entry Text))) → Reply
  | .value os => .value (.dicts os)
  | .raises cls what => .raises cls what
  | .terminates => .terminates
  | .crash => .crash
  | .hangs => .hangs

/-- `Rule.extract(self, html, max_searches)`: the checks pyhext.i:154-160, then `Rule::extract`, wrapper/Rule.cpp:24-28. SWIG looks at
`self`, `html` and `max_searches` in this order. -/
def extractWith (self : Nat) (html max : PyValue) (s : State) : Reply :=
  match html with
  | .html i =>
    match max with
    | .int n =>
      match s.rules self, s.htmls i with
      | some r, some d =>
        match pyLimit n with
        | none => .raises (lit "OverflowError") (lit "in method 'Rule_extract', argument 3 of type 'uint64_t'")
        | some m => dictsReply (pyExtract P.rx d.1 r d.2 m)
      | _, _ => .crash
    | _ => typeError (lit "Wrong argument type for <max_searches>, expected int")
  | _ => typeError (lit "Wrong argument type for <html>, expected hext.Html")

/-- `Rule.extract(self, html, max_searches=0)`, wrapper/Rule.h:35-36. -/
def extract (self : Nat) (args : List PyValue) (s : State) : Reply :=
  match args with
  | [html] => extractWith P self html (.int 0) s
  | [html, max] => extractWith P self html max s
  | _ => typeError P.countError

/-- One call. pyhext.i:57-160. -/
def perform (s : State) : Call → Reply × State
  | .newHtml args => newHtml P args s
  | .newRule args => newRule P args s
  | .extract self args => (extract P self args s, s)
  | .dropHtml i => (.value .nothing, { s with htmls := put s.htmls i none })
  | .dropRule i => (.value .nothing, { s with rules := put s.rules i none })

/-- Does the process go on?. A C++ exception that pyhext.i:124-143 does not handle ends the process. -/
def goesOn : Reply → Bool
  | .value _ => true
  | .raises _ _ => true
  | _ => false

/-- The replies to a sequence of calls. The sequence is cut where the process ends. pyhext.i:57-160. -/
def replies (s : State) : List Call → List Reply
  | [] => []
  | c :: cs =>
    let (r, s) := perform P s c
    r :: if goesOn r then replies s cs else []

end Hext.PyApi
