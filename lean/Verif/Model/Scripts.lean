import Verif.Model.Calls
/-!
# Model of the scripts htmlext.py, htmlext.php, htmlext.js and htmlext.rb
libhext/bindings/python/htmlext.py, libhext/bindings/php/htmlext.php, libhext/bindings/nodejs/htmlext.js and
libhext/bindings/ruby/htmlext.rb: ports of the command line program.

Simplifications: a file is the bytes that reading it gives, and does not change while a script runs; the locale is a UTF-8 locale;
the standard output takes every byte, and the standard error is not modelled. The modules that write JSON belong to the languages:
they are parameters, with what the languages promise about them.
-/

namespace Hext.Script

open Binding

/-- How a script ends. `uncaught`: an exception of the language that the script does not handle, with what was printed before it.
python/htmlext.py:22-53, php/htmlext.php:20-69, nodejs/htmlext.js:38-81, ruby/htmlext.rb:19-49. -/
inductive Ended
  | exit (code : Nat) (out : Str)
  | uncaught (out : Str)
  | terminates
  | crash
  | hangs

/-- `try: … except cls as e: …; sys.exit(1)`, and the same in the other languages.
python/htmlext.py:36-47, php/htmlext.php:45-66, nodejs/htmlext.js:58-78, ruby/htmlext.rb:33-45. -/
def guarded {α : Type} (caught : Str → Bool) (x : Answer α) (k : α → Ended) : Ended :=
  match x with
  | .value a => k a
  | .raises cls _ => if caught cls then .exit 1 [] else .uncaught []
  | .terminates => .terminates
  | .crash => .crash
  | .hangs => .hangs

/-- One line for each object; the text of an object is `none` if the encoder raises an exception.
python/htmlext.py:50-53, php/htmlext.php:68-69, nodejs/htmlext.js:80-81, ruby/htmlext.rb:47-49. -/
def printLoop {α : Type} (text : α → Option Str) (out : Str) : List α → Ended
  | [] => .exit 0 out
  | a :: as =>
    match text a with
    | none => .uncaught out
    | some s => printLoop text (out ++ s ++ [10]) as

section
variable (rx : RxEngine) (charSigned : Bool) (gumbo : Str → Heap × Ptr) (files : Str → Option Str)

/-! ## htmlext.py -/

/-- Universal newlines: what reading a text file of Python makes of line breaks. python/htmlext.py:33-34. -/
def newlines : Str → Str
  | [] => []
  | c :: s =>
    if c = 13 then
      match s with
      | [] => [10]
      | d :: s => if d = 10 then 10 :: newlines s else 10 :: newlines (d :: s)
    else c :: newlines s
termination_by s => s.length

/-- `open(f).read()`, htmlext.py:33-34, as the UTF-8 form of the string, which is what SWIG gives to C++. A file that cannot be read
or is not UTF-8 raises an exception. -/
def pyRead (f : Str) : Option Str :=
  match files f with
  | none => none
  | some s => match utf8 s with
    | none => none
    | some _ => some (newlines s)

/-- Insert an item before the first item with a larger name. Part of python/htmlext.py:53. -/
def insertName {ν : Type} (x : Text × ν) : List (Text × ν) → List (Text × ν)
  | [] => [x]
  | y :: ys => if x.1 < y.1 then x :: y :: ys else y :: insertName x ys

/-- `sort_keys=True` of `json.dumps`: the items in the order of the code points of their names. python/htmlext.py:53. -/
def sortNames {ν : Type} (d : List (Text × ν)) : List (Text × ν) := d.foldl (fun l x => insertName x l) []

/-- htmlext.py:22-53. `dumps` writes an object whose items are given in order, htmlext.py:50-53. -/
def python (dumps : List (Text × Entry Text) → Str) (usage : Str) (args : List Str) : Ended :=
  match args with
  | [] => .exit 0 usage
  | [_] => .exit 1 []
  | f :: g :: _ =>
    match pyRead files f with
    | none => .uncaught []
    | some strhext => match pyRead files g with
      | none => .uncaught []
      | some strhtml =>
        guarded (· == lit "ValueError") (wrapperRule rx charSigned strhext) fun rule =>
          let document := gumbo strhtml
          guarded (· == lit "RuntimeError") (pyExtract rx document.1 rule document.2 10000) fun result =>
            printLoop (fun map => some (dumps (sortNames map))) [] result

/-! ## htmlext.php -/

/-- The keys are 0, 1, 2 and so on, in this order, from `n`. Part of `json_encode`, php/htmlext.php:69. -/
def keysFrom (n : Nat) : List (PhpKey × Entry Str) → Bool
  | [] => true
  | x :: a => x.1 == .int n && keysFrom (n + 1) a

/-- `json_encode`: the text of a JSON object, or of a JSON array if the keys of the array are 0, 1, 2 and so on. php/htmlext.php:69. -/
structure PhpJson where
  object : List (Str × Entry Str) → Option Str
  list : List (Entry Str) → Option Str

/-- The text that an integer is as the name of a member. Part of `json_encode`, php/htmlext.php:69. -/
def keyText : PhpKey → Str
  | .int n => lit (toString n)
  | .str s => s

/-- `json_encode($map, …)."\n"` without the line break, htmlext.php:68-69. If it fails, `json_encode` returns `false`, and `false` as
a string is empty. -/
def phpEncode (J : PhpJson) (a : List (PhpKey × Entry Str)) : Str :=
  if keysFrom 0 a then (J.list (a.map (·.2))).getD [] else (J.object (a.map fun x => (keyText x.1, x.2))).getD []

/-- htmlext.php:20-69. Every exception is caught. -/
def php (J : PhpJson) (usage : Str) (args : List Str) : Ended :=
  match args with
  | [] => .exit 0 usage
  | [_] => .exit 1 []
  | f :: g :: _ =>
    match files f, files g with
    | some strhext, some strhtml =>
      guarded (fun _ => true) (wrapperRule rx charSigned strhext) fun rule =>
        let html := gumbo strhtml
        guarded (fun _ => true) (phpExtract rx html.1 rule html.2 10000) fun result =>
          printLoop (fun map => some (phpEncode J map)) [] result
    | _, _ => .exit 1 []

/-! ## htmlext.js -/

/-- `readFileSync(f, "utf-8")`, htmlext.js:54-55, as what `Utf8Value` gives to C++ for it. -/
def nodeRead (js : Js) (f : Str) : Option Str := (files f).map fun s => (js.fromUtf8 s).flatMap enc'
where
  /-- The UTF-8 form of a code point. -/
  enc' (c : Nat) : Str :=
    if c < 0x80 then [UInt8.ofNat c]
    else if c < 0x800 then [UInt8.ofNat (0xC0 + c / 64), UInt8.ofNat (0x80 + c % 64)]
    else if c < 0x10000 then
      [UInt8.ofNat (0xE0 + c / 4096), UInt8.ofNat (0x80 + c / 64 % 64), UInt8.ofNat (0x80 + c % 64)]
    else [UInt8.ofNat (0xF0 + c / 262144), UInt8.ofNat (0x80 + c / 4096 % 64), UInt8.ofNat (0x80 + c / 64 % 64),
      UInt8.ofNat (0x80 + c % 64)]

/-- htmlext.js:38-81. Every exception of the two calls is caught. -/
def node (js : Js) (stringify : List (Text × Entry Text) → Str) (usage : Str) (args : List Str) : Ended :=
  match args with
  | [] => .exit 0 usage
  | [_] => .exit 1 []
  | f :: g :: _ =>
    match nodeRead files js f with
    | none => .uncaught []
    | some strhext => match nodeRead files js g with
      | none => .uncaught []
      | some strhtml =>
        guarded (fun _ => true) (nodeRule rx charSigned strhext) fun rule =>
          let html := gumbo strhtml
          guarded (fun _ => true) (nodeExtract rx js html.1 rule html.2 (.int 10000)) fun result =>
            printLoop (fun map => some (stringify map)) [] result

/-! ## htmlext.rb -/

/-- The class of Ruby for an exception code of SWIG. rbhext.i:63-82, ruby/htmlext.rb:35, 43. -/
def rubyClass (cls : Str) : Str := if cls == lit "ValueError" then lit "ArgumentError" else cls

/-- htmlext.rb:19-49. `to_json` raises an exception for strings that are not UTF-8. `rule.extract(html)` has no limit of searches:
`max_searches` is 0 (wrapper/Rule.h:35). -/
def ruby (toJson : List (Str × Entry Str) → Option Str) (usage : Str) (args : List Str) : Ended :=
  match args with
  | [] => .exit 0 usage
  | [_] => .exit 1 []
  | f :: g :: _ =>
    match files f with
    | none => .uncaught []
    | some strhext => match files g with
      | none => .uncaught []
      | some strhtml =>
        guarded (fun cls => rubyClass cls == lit "ArgumentError") (wrapperRule rx charSigned strhext) fun rule =>
          let html := gumbo strhtml
          guarded (fun cls => rubyClass cls == lit "RuntimeError") (rubyExtract rx html.1 rule html.2 0) fun result =>
            printLoop toJson [] result

end

end Hext.Script
