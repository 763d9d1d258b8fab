import Verif.Model.Calls
/-!
# Programs of JavaScript that use the Node binding
libhext/bindings/nodejs/src/{Html,Rule}.cpp and Html.h with the checks of the arguments, for every sequence of calls.

Simplifications: Gumbo and Node-API are parameters. An object whose constructor has thrown an exception stays in memory until it is
collected, and JavaScript has no reference to it. V8 calls `extract` only for objects made by `new Rule` (the methods of a class that
`napi_define_class` makes have a signature), and every `hext.Html` that a program has a reference to carries the type tag.
-/

namespace Hext.NodeApi

open Binding

/-- A value of JavaScript, as far as the checks tell values apart. Strings as what `Utf8Value` gives. `object`: all other objects, with
functions and arrays. `primitive`: undefined, null, booleans, symbols and big integers.
The arguments `info[0]` and `info[1]`, nodejs/src/Html.cpp:34, nodejs/src/Rule.cpp:40, 87, 102-107. -/
inductive JsValue
  | string (s : Str)
  | number (n : JsNumber)
  | html (id : Nat)
  | rule (id : Nat)
  | object
  | primitive

/-- What surrounds the binding. `tagCheckFails`: does `napi_check_object_type_tag` report a failure for this value, which is not an
object?. nodejs/src/Html.cpp:18-56, nodejs/src/Rule.cpp:25-191. -/
structure Host where
  rx : RxEngine
  charSigned : Bool
  js : Js
  gumbo : Str → Heap × Ptr
  tagCheckFails : JsValue → Bool

/-- The living C++ objects and their members `html_` (Html.h:47) and `rule_` (Rule.h:34), which are null or own a value. -/
structure State where
  htmls : Nat → Option (Option (Heap × Ptr))
  rules : Nat → Option (Option Rule)
  fresh : Nat

/-- Before the first call. nodejs/src/Html.cpp:18-21, nodejs/src/Rule.cpp:25-27. -/
def State.start : State := ⟨fun _ => none, fun _ => none, 0⟩

/-- What JavaScript does. `collectHtml`, `collectRule`: the garbage collector finalises an object.
nodejs/src/Html.cpp:58-62, nodejs/src/Rule.cpp:25, 62. -/
inductive Call
  | newHtml (args : List JsValue)
  | newRule (args : List JsValue)
  | extract (this : Nat) (args : List JsValue)
  | collectHtml (id : Nat)
  | collectRule (id : Nat)

/-- What a call returns. nodejs/src/Html.cpp:18-56, nodejs/src/Rule.cpp:25-191. -/
inductive Out
  | html (id : Nat)
  | rule (id : Nat)
  | maps (os : List (List (Text × Entry Text)))
  | nothing

/-- What JavaScript gets from a call. nodejs/src/Html.cpp:18-56, nodejs/src/Rule.cpp:25-191. -/
abbrev Reply := Answer Out

/-- `Napi::TypeError::New(env, message).ThrowAsJavaScriptException()`. nodejs/src/Html.cpp:27-40, nodejs/src/Rule.cpp:33-138. -/
def typeError (what : String) : Reply := .raises (lit "TypeError") (lit what)

/-- Set the member of one object. nodejs/src/Html.cpp:54, nodejs/src/Rule.cpp:51. -/
def put {α : Type} (f : Nat → Option α) (k : Nat) (x : Option α) : Nat → Option α := fun i => if i = k then x else f i

variable (N : Host)

/-- `Html::Html(const Napi::CallbackInfo&)`, Html.cpp:18-55. -/
def newHtml (args : List JsValue) (s : State) : Reply × State :=
  let failed : State := { s with htmls := put s.htmls s.fresh (some none), fresh := s.fresh + 1 }
  match args with
  | [] => (typeError "Argument error: invalid argument, expected String", failed)
  | .string text :: _ =>
    (.value (.html s.fresh), { s with htmls := put s.htmls s.fresh (some (some (N.gumbo text))), fresh := s.fresh + 1 })
  | _ :: _ => (typeError "Argument error: missing argument, expected String", failed)

/-- `Rule::Rule(const Napi::CallbackInfo&)`, Rule.cpp:25-62. -/
def newRule (args : List JsValue) (s : State) : Reply × State :=
  let failed : State := { s with rules := put s.rules s.fresh (some none), fresh := s.fresh + 1 }
  match args with
  | [] => (typeError "Argument error: missing argument, expected String", failed)
  | .string hext :: _ =>
    match nodeRule N.rx N.charSigned hext with
    | .value r => (.value (.rule s.fresh), { s with rules := put s.rules s.fresh (some (some r)), fresh := s.fresh + 1 })
    | .raises cls what => (.raises cls what, failed)
    | .terminates => (.terminates, s)
    | .crash => (.crash, s)
    | .hangs => (.hangs, s)
  | _ :: _ => (typeError "Argument error: invalid argument, expected String", failed)

/-- The optional argument `max_searches`, Rule.cpp:85-101: `none` if it is not a number, 0 if it is not given. -/
def limitArg : List JsValue → Option JsNumber
  | [] => some (.int 0)
  | .number n :: _ => some n
  | _ :: _ => none

/-- The objects of the result as a reply. nodejs/src/Rule.cpp:156-191. -/
def mapsReply : Answer (List (List (Text × Entry Text))) → Reply
  | .value os => .value (.maps os)
  | .raises cls what => .raises cls what
  | .terminates => .terminates
  | .crash => .crash
  | .hangs => .hangs

/-- `Rule::extract(const Napi::CallbackInfo&)` with its first argument, Rule.cpp:103-190. -/
def extractFrom (r : Rule) (n : JsNumber) (arg : JsValue) (s : State) : Reply :=
  let invalid := typeError "Argument error: invalid argument, expected hext.Html"
  match arg with
  | .html i =>
    match s.htmls i with
    | none => .crash
    | some none => typeError "Internal Error: html_ is uninitialized"
    | some (some d) => mapsReply (nodeExtract N.rx N.js d.1 r d.2 n)
  | .rule _ => invalid
  | .object => invalid
  | v => if N.tagCheckFails v then .raises (lit "Error") (lit "Internal error: napi_check_object_type_tag failed") else invalid

/-- `Rule::extract(const Napi::CallbackInfo&)`, Rule.cpp:64-190. -/
def extract (this : Nat) (args : List JsValue) (s : State) : Reply :=
  match s.rules this with
  | none => .crash
  | some none => typeError "Internal Error: rule_ is uninitialized"
  | some (some r) =>
    match args with
    | [] => typeError "Argument error: missing argument, expected hext.Html"
    | a :: rest =>
      match limitArg rest with
      | none => typeError "Argument error: Optional argument 'max_searches' must be a number"
      | some n => extractFrom N r n a s

/-- One call. A finalised object is destroyed with its members (`~Html`, `~Rule` are implicit).
nodejs/src/Html.cpp:18-56, nodejs/src/Rule.cpp:25-191. -/
def perform (s : State) : Call → Reply × State
  | .newHtml args => newHtml N args s
  | .newRule args => newRule N args s
  | .extract this args => (extract N this args s, s)
  | .collectHtml i => (.value .nothing, { s with htmls := put s.htmls i none })
  | .collectRule i => (.value .nothing, { s with rules := put s.rules i none })

/-- Does the process go on?. A C++ exception that nodejs/src/Rule.cpp:49-59, 142-154 does not handle ends the process. -/
def goesOn : Reply → Bool
  | .value _ => true
  | .raises _ _ => true
  | _ => false

/-- The replies to a sequence of calls. The sequence is cut where the process ends.
nodejs/src/Html.cpp:18-56, nodejs/src/Rule.cpp:25-191. -/
def replies (s : State) : List Call → List Reply
  | [] => []
  | c :: cs =>
    let (r, s) := perform N s c
    r :: if goesOn r then replies s cs else []

end Hext.NodeApi
