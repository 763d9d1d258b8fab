import Verif.Model.Bindings
import Verif.Model.Parser
import Verif.Model.Matching
/-!
# Model of the calls of the language bindings
libhext/bindings/wrapper/Rule.cpp with the exception handlers in pyhext.i, rbhext.i and phphext.i, and
libhext/bindings/nodejs/src/Rule.cpp.

Python, Ruby and PHP share the wrapper, and their exception handlers are the same. A C++ exception for which there is no
handler passes through the frames of the interpreter: `std::terminate`.
-/

namespace Hext.Binding

/-- How a call from another language ends. pyhext.i:124-143, rbhext.i:63-82, phphext.i:67-86, nodejs/src/Rule.cpp:49-59, 142-154. -/
inductive Answer (α : Type)
  | value (a : α)
  /-- An exception of the language, with its class and its message. -/
  | raises (cls what : Str)
  /-- `std::terminate` ends the process. -/
  | terminates
  /-- Undefined behaviour or a failed assertion. -/
  | crash
  /-- The call does not end. -/
  | hangs

section
variable (rx : RxEngine) (charSigned : Bool)

/-- `Rule::Rule(const std::string&)`, wrapper/Rule.cpp:19-22, called from Python (pyhext.i:124-133), Ruby (rbhext.i:63-72) or PHP
(phphext.i:67-76). `what()` is a C string. -/
def wrapperRule (hext : Str) : Answer Rule :=
  match parseHext rx charSigned hext with
  | .ok r => .value r
  | .error (.syntax what) => .raises (lit "ValueError") (cstr what)
  | .error .outOfRange => .terminates
  | .error .invalidArgument => .terminates
  | .error _ => .crash

/-- `Rule::extract`, wrapper/Rule.cpp:24-28, with the handlers pyhext.i:134-143, rbhext.i:73-82, phphext.i:77-86, and then the
conversion of the result. A conversion that fails raises `RuntimeError`, e.g. pyhext.i:76-78. -/
def wrapperExtract {α : Type} (conv : List (List (Str × Str)) → B α) (h : Heap) (r : Rule) (root : Ptr) (maxSearches : UInt64) :
    Answer α :=
  match extract rx h r root maxSearches with
  | none => .hangs
  | some (.error .maxSearch) => .raises (lit "RuntimeError") (lit "The allowed amount of searches was exhausted")
  | some (.error _) => .crash
  | some (.ok res) =>
    match conv res with
    | none => .hangs
    | some (.ok a) => .value a
    | some (.error .unicode) => .raises (lit "RuntimeError") (lit "PyString_FromString returned nullptr")
    | some (.error .ub) => .crash

/-- `Rule.extract` of Python: wrapper/Rule.cpp:24-28 between pyhext.i:134-143 and pyhext.i:57-121. -/
def pyExtract := wrapperExtract rx pyResult

/-- The array of hashes, rbhext.i:24-60. -/
def rubyResult (res : List (List (Str × Str))) : B (List (List (Str × Entry Str))) := resultLoop rubyString rubyPut [] res

/-- `Rule#extract` of Ruby: wrapper/Rule.cpp:24-28 between rbhext.i:73-82 and rbhext.i:22-60. -/
def rubyExtract := wrapperExtract rx rubyResult

/-- The array of arrays, phphext.i:23-64. -/
def phpResult (res : List (List (Str × Str))) : B (List (List (PhpKey × Entry Str))) := resultLoop pure phpPut [] res

/-- `HextRule::extract` of PHP: wrapper/Rule.cpp:24-28 between phphext.i:77-86 and phphext.i:20-64. -/
def phpExtract := wrapperExtract rx phpResult

/-- `Rule::Rule` of Node for a string argument, Rule.cpp:49-60; the text that JavaScript gives is UTF-8 without its end mark, and
`ParseHext(const char *)` stops at the first NUL. -/
def nodeRule (hext : Str) : Answer Rule :=
  match parseHextC rx charSigned hext with
  | .ok r => .value r
  | .error (.syntax what) => .raises (lit "Error") (lit "Hext syntax error: " ++ cstr what)
  | .error .outOfRange => .terminates
  | .error .invalidArgument => .terminates
  | .error _ => .crash

/-- The objects of all maps, Rule.cpp:156-188. -/
def nodeResult (js : Js) : List (List (Str × Str)) → B (List (List (Text × Entry Text)))
  | [] => pure []
  | m :: ms => do
    let o ← nodeObject js m
    let os ← nodeResult js ms
    pure (o :: os)

/-- `Rule::extract` of Node for a `hext.Html` and a number, Rule.cpp:140-190. -/
def nodeExtract (js : Js) (h : Heap) (r : Rule) (root : Ptr) (maxSearches : JsNumber) : Answer (List (List (Text × Entry Text))) :=
  match extract rx h r root (nodeLimit maxSearches) with
  | none => .hangs
  | some (.error .maxSearch) => .raises (lit "Error") (lit "Error: The allowed amount of searches was exhausted")
  | some (.error _) => .crash
  | some (.ok res) =>
    match nodeResult js res with
    | none => .hangs
    | some (.ok a) => .value a
    | some (.error _) => .crash

end

end Hext.Binding
