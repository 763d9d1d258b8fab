import Verif.Model.Json
import Verif.Model.Parser
/-!
# Model of the command line program htmlext
htmlext/main.cpp and htmlext/htmlext/{ProgramOptions,File,ErrorOutput}.cpp.

What `boost::program_options` makes of the arguments is the input of the model: either the options with their explicitly given
values, or the message of the `boost::program_options::error` it throws.
-/

namespace Hext.Cli

/-- The options that were given explicitly (`vm_`), ProgramOptions.cpp:36-59. An option of vector type that is given has a value,
so an empty list stands for an option that is not given. -/
structure Opts where
  hext : List Str := []
  html : List Str := []
  str : List Str := []
  compact : Bool := false
  pretty : Bool := false
  array : Bool := false
  filter : Option Str := none
  lint : Bool := false
  maxSearches : UInt64 := 0
  help : Bool := false
  version : Bool := false

/-- What happens when a file is opened for reading and read: opening fails, reading fails (each with the text of `errno`), or
the bytes of the file. What `ReadFileOrThrow` can meet, htmlext/htmlext/File.cpp:66-89; which of these it sees is computed in `Model/FileRead.lean`. -/
inductive FileAnswer
  | noOpen (err : Str)
  | noRead (err : Str)
  | bytes (s : Str)

/-- What surrounds the program. `files path w`: the answer to reading `path` and the state of the file system after it (reading
a pipe twice gives different bytes). `gumbo`: the document that Gumbo makes, as the heap of its nodes and the root.
htmlext/main.cpp:32-140. -/
structure World (σ : Type) where
  files : Str → σ → FileAnswer × σ
  gumbo : Str → Heap × Ptr
  rx : RxEngine
  charSigned : Bool
  /-- `isatty(STDOUT_FILENO)` and `isatty(STDERR_FILENO)`. -/
  ttyOut : Bool
  ttyErr : Bool
  /-- `argv[0]`, `argc`, and the texts that `--help` and `--version` print. -/
  program : Str
  argc : Nat
  helpText : Str
  versionText : Str

/-- Why the program stops early. `file`, `po`, `std`: what is caught at main.cpp:119-139, with the message. `syn`: a
`SyntaxError` caught at main.cpp:69-72 and 79-82, with the title that is printed. `crash`: undefined behaviour or a failed
assertion. -/
inductive Exc
  | file (what : Str)
  | po (what : Str)
  | std (what : Str)
  | syn (title what : Str)
  | crash

section
variable {σ : Type} (W : World σ)

/-- `ProgramOptions::store_and_validate_or_throw` after `po::store`, ProgramOptions.cpp:91-102. -/
def validate (o : Opts) : Except Exc Unit :=
  if o.help || o.version then pure ()
  else if o.hext.isEmpty && o.str.isEmpty then
    throw (.po (lit "missing Hext input, use --hext/-x <file> or --str/-s <string>"))
  else if o.lint then pure ()
  else if o.html.isEmpty then throw (.po (lit "missing HTML input, use --html/-i <html-file>"))
  else pure ()

/-- `ProgramOptions::get_json_options`, ProgramOptions.cpp:133-149. -/
def jsonOptions (o : Opts) : JsonOpt where
  pretty := o.pretty || (!o.compact && W.ttyOut)
  array := o.array

/-- `ReadFileOrThrow`, File.cpp:66-89, for a path whose opening is not tried again. -/
def readPath (path : Str) (w : σ) : Except Exc Str × σ :=
  match W.files path w with
  | (.noOpen e, w) => (throw (.file (lit "cannot access '" ++ path ++ lit "': " ++ e)), w)
  | (.noRead e, w) => (throw (.file (lit "cannot read '" ++ path ++ lit "': " ++ e)), w)
  | (.bytes s, w) => (pure s, w)

/-- `ReadFileOrThrow`, File.cpp:66-89: if "-" cannot be opened, standard input is read. -/
def readFile (path : Str) (w : σ) : Except Exc Str × σ :=
  if path = lit "-" then
    match W.files path w with
    | (.noOpen _, w) => readPath W (lit "/dev/stdin") w
    | (.noRead e, w) => (throw (.file (lit "cannot read '" ++ path ++ lit "': " ++ e)), w)
    | (.bytes s, w) => (pure s, w)
  else readPath W path w

/-- `ParseHext(text.c_str())` with the handler for `SyntaxError`, main.cpp:66-72 and 77-82. -/
def parseText (title text : Str) : Except Exc Rule :=
  match parseHextC W.rx W.charSigned text with
  | .ok r => pure r
  | .error (.syntax what) => throw (.syn title what)
  | .error .outOfRange => throw (.std (lit "stoi"))
  | .error .invalidArgument => throw (.std (lit "stoi"))
  | .error _ => throw .crash

/-- The loop over the hext files, main.cpp:64-73. -/
def parseFiles : List Str → σ → Except Exc (List Rule) × σ
  | [], w => (pure [], w)
  | f :: fs, w =>
    match readFile W f w with
    | (.error e, w) => (throw e, w)
    | (.ok text, w) =>
      match parseText W (lit "Error in " ++ f) text with
      | .error e => (throw e, w)
      | .ok r =>
        match parseFiles fs w with
        | (.error e, w) => (throw e, w)
        | (.ok rs, w) => (pure (r :: rs), w)

/-- The loop over the hext strings, main.cpp:75-83. -/
def parseStrings : List Str → Except Exc (List Rule)
  | [] => pure []
  | s :: ss => do
    let r ← parseText W (lit "Error in <hext-string>") s
    let rs ← parseStrings ss
    pure (r :: rs)

/-- The loop over the HTML files, main.cpp:91-97. -/
def readHtml : List Str → σ → Except Exc (List Str) × σ
  | [], w => (pure [], w)
  | f :: fs, w =>
    match readFile W f w with
    | (.error e, w) => (throw e, w)
    | (.ok text, w) =>
      match readHtml fs w with
      | (.error e, w) => (throw e, w)
      | (.ok ts, w) => (pure (text :: ts), w)

/-- What `--filter` prints of one result, main.cpp:107-111. -/
def printFilter (key : Str) (res : List (List (Str × Str))) : Str :=
  res.flatMap fun group => group.flatMap fun p => if p.1 = key then p.2 ++ [10] else []

/-- What is printed for one result, main.cpp:105-116. -/
def render (o : Opts) (res : List (List (Str × Str))) : Str :=
  match o.filter with
  | some key => printFilter key res
  | none => printJson res (jsonOptions W o)

/-- `rule.extract(html.root(), max_searches)`, main.cpp:102-104. `none`: it does not return. -/
def extractFrom (o : Opts) (r : Rule) (text : Str) : Option (Except Exc (List (List (Str × Str)))) :=
  let g := W.gumbo text
  match extract W.rx g.1 r g.2 o.maxSearches with
  | none => none
  | some (.ok res) => some (pure res)
  | some (.error .maxSearch) => some (throw (.std (lit "The allowed amount of searches was exhausted")))
  | some (.error _) => some (throw .crash)

/-- The loops over rules and documents, main.cpp:99-117: what was printed, and the exception that ended them. -/
def extractLoop (o : Opts) : List (Rule × Str) → Option (Str × Option Exc)
  | [] => some ([], none)
  | (r, text) :: rest =>
    match extractFrom W o r text with
    | none => none
    | some (.error e) => some ([], some e)
    | some (.ok res) =>
      match extractLoop o rest with
      | none => none
      | some (out, e) => some (render W o res ++ out, e)

/-- The order of the two loops, main.cpp:99-100. -/
def pairs (rs : List Rule) (texts : List Str) : List (Rule × Str) := rs.flatMap fun r => texts.map fun t => (r, t)

/-- The `try` block, main.cpp:39-118: what was printed to standard output, and the exception or early `return EXIT_FAILURE`. -/
def body (parsed : Except Str Opts) (w : σ) : Option (Str × Option Exc) :=
  match parsed with
  | .error what => some ([], some (.po what))
  | .ok o =>
    match validate o with
    | .error e => some ([], some e)
    | .ok () =>
      if o.help then some (W.helpText, none)
      else if o.version then some (W.versionText, none)
      else
        match parseFiles W o.hext w with
        | (.error e, _) => some ([], some e)
        | (.ok rs, w) =>
          match parseStrings W o.str with
          | .error e => some ([], some e)
          | .ok rs' =>
            if o.lint then some ([], none)
            else
              match readHtml W o.html w with
              | (.error e, _) => some ([], some e)
              | (.ok texts, _) => extractLoop W o (pairs (rs ++ rs') texts)

/-- `ErrorOutput::print`, ErrorOutput.cpp:30-43. -/
def errorLine (title what : Str) : Str :=
  (if W.ttyErr then 27 :: lit "[1;31m" else []) ++ W.program ++ lit ": " ++ title ++ lit ": " ++
    (if W.ttyErr then 27 :: lit "[0m" else []) ++ what ++ [10]

/-- How the program ends. htmlext/main.cpp:32-140. -/
inductive Outcome
  | exit (code : Nat) (out err : Str)
  | crash

/-- `main`, main.cpp:32-142. `none`: it does not end. -/
def main (parsed : Except Str Opts) (w : σ) : Option Outcome :=
  match body W parsed w with
  | none => none
  | some (out, none) => some (.exit 0 out [])
  | some (out, some (.syn title what)) => some (.exit 1 out (errorLine W title what))
  | some (out, some (.file what)) => some (.exit 1 out (errorLine W (lit "Error") what))
  | some (out, some (.po what)) =>
    some (.exit 1 out (errorLine W (lit "Argument error") what ++ if W.argc < 2 then 10 :: W.helpText else []))
  | some (out, some (.std what)) => some (.exit 1 out (errorLine W (lit "Error") what))
  | some (_, some .crash) => some .crash

end

end Hext.Cli
