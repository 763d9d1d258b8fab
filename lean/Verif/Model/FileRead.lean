import Verif.Model.Cli
/-!
# Reading a file

`ReadFileOrThrow` of htmlext/htmlext/File.cpp with its two streams. `Model/Cli.lean` takes the answer for each file as given; here it
is computed from what the operating system does.
-/

namespace Hext.FileRead

open Cli (Exc World)

/-- An open file: the bytes that the operating system delivers, the error with which it stops delivering (none at the end of the file), and
how many bytes the `std::stringstream` gets memory for (none: for all). File.cpp:80-81. -/
structure Source where
  bytes : Str
  failure : Option Str := none
  room : Option Nat := none

/-- What the operating system does when a file is opened: it fails with an error, or the file is open. File.cpp:68. -/
structure System (σ : Type) where
  opens : Str → σ → Except Str Source × σ

/-- `std::ifstream`: its error state (`fail()`), and its buffer. File.cpp:68. -/
structure InStream where
  fail : Bool
  buf : Source

/-- `std::stringstream`: its error state, and what it holds. File.cpp:80. -/
structure Buffer where
  fail : Bool := false
  bytes : Str := []

/-- The loop of `operator<<(std::streambuf*)`: bytes are taken from the source and put into `have_`, until the source ends or fails or a byte
cannot be put. Returns what `have_` is then, and whether something went wrong. File.cpp:81. -/
def copyLoop (failure : Option Str) (room : Option Nat) : Str → Str → Str × Bool
  | [], have_ => (have_, failure.isSome)
  | b :: bs, have_ => if room = some have_.length then (have_, true) else copyLoop failure room bs (have_ ++ [b])

/-- `buffer << file.rdbuf()`, File.cpp:81. The stream that is written to gets the error state, also if the source fails or delivers
nothing; exceptions are caught by the operator. The other stream does not take part, only its buffer, so its error state stays the same.
Simplification: the bytes that are left in the buffer of the file are not modelled; nothing reads them. -/
def insert (buffer : Buffer) (file : InStream) : Buffer × InStream :=
  let r := copyLoop file.buf.failure file.buf.room file.buf.bytes buffer.bytes
  ({ fail := buffer.fail || r.2 || r.1.length == buffer.bytes.length, bytes := r.1 }, file)

variable {σ : Type} (S : System σ)

/-- `ReadFileOrThrow` from the second half on, File.cpp:80-88. -/
def readOpen (path : Str) (file : InStream) : Except Exc Str :=
  let (buffer, file) := insert {} file
  if file.fail then throw (.file (lit "cannot read '" ++ path ++ lit "': " ++ file.buf.failure.getD []))
  else pure buffer.bytes

/-- `ReadFileOrThrow` for a path whose opening is not tried again, File.cpp:66-89. -/
def readPath (path : Str) (w : σ) : Except Exc Str × σ :=
  match S.opens path w with
  | (.error e, w) => (throw (.file (lit "cannot access '" ++ path ++ lit "': " ++ e)), w)
  | (.ok src, w) => (readOpen path ⟨false, src⟩, w)

/-- `ReadFileOrThrow`, File.cpp:66-89: if "-" cannot be opened, standard input is read. -/
def readFile (path : Str) (w : σ) : Except Exc Str × σ :=
  if path = lit "-" then
    match S.opens path w with
    | (.error _, w) => readPath S (lit "/dev/stdin") w
    | (.ok src, w) => (readOpen path ⟨false, src⟩, w)
  else readPath S path w

/-- What `ReadFileOrThrow` meets as the files of a `World`: the answers of `readOpen`. File.cpp:66-89; the rest of the program, main.cpp:32-142,
is that of `Model/Cli.lean`. -/
def System.world (W : World σ) : World σ where
  files := fun path w =>
    match S.opens path w with
    | (.error e, w) => (.noOpen e, w)
    | (.ok src, w) =>
      match readOpen path ⟨false, src⟩ with
      | .ok s => (.bytes s, w)
      | .error _ => (.noRead (src.failure.getD []), w)
  gumbo := W.gumbo
  rx := W.rx
  charSigned := W.charSigned
  ttyOut := W.ttyOut
  ttyErr := W.ttyErr
  program := W.program
  argc := W.argc
  helpText := W.helpText
  versionText := W.versionText

/-- htmlext on a system, main.cpp:32-142. -/
def main (W : World σ) (parsed : Except Str Cli.Opts) (w : σ) : Option Cli.Outcome := Cli.main (S.world W) parsed w

end Hext.FileRead
