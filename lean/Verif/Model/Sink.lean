import Verif.Model.Cli
/-!
# htmlext with output streams that can fail

`Model/Cli.lean` collects what is printed. Here it is written to devices which may refuse a byte, for example because
the disk is full. An output stream that could not write has its `badbit` set; from then on all output to it is dropped
silently (no exceptions are enabled for `std::cout` and `std::cerr`, and no code in htmlext looks at their state).

Simplification: no buffer, each byte is handed to the device when it is printed. `SIGPIPE`, which by default kills a
process that writes to a closed pipe, is not modelled.
-/

namespace Hext.Cli

/-- What a device does with a byte: take it, or refuse it (`none`). What htmlext/main.cpp:32-140 writes to. -/
abbrev Device (τ : Type) := τ → UInt8 → Option τ

/-- An output stream: the device, whether no output has failed so far, and what the device has taken.
`std::cout` and `std::cerr` in htmlext/main.cpp:32-140. -/
structure Stream (τ : Type) where
  dev : τ
  good : Bool := true
  written : Str := []

section

variable {σ τ : Type} (W : World σ) (D : Device τ)

/-- Output of one byte: nothing happens if an earlier output has failed. Json.cpp:25-102, main.cpp:32-140. -/
def Stream.put (s : Stream τ) (b : UInt8) : Stream τ :=
  if s.good then
    match D s.dev b with
    | some d => { s with dev := d, written := s.written ++ [b] }
    | none => { s with good := false }
  else s

/-- `operator<<` with a string. Json.cpp:25-102, main.cpp:32-140. -/
def Stream.print (s : Stream τ) (text : Str) : Stream τ := text.foldl (Stream.put D) s

/-- The loops over rules and documents, main.cpp:99-117. -/
def extractLoopTo (o : Opts) : List (Rule × Str) → Stream τ → Option (Stream τ × Option Exc)
  | [], out => some (out, none)
  | (r, text) :: rest, out =>
    match extractFrom W o r text with
    | none => none
    | some (.error e) => some (out, some e)
    | some (.ok res) => extractLoopTo o rest (out.print D (render W o res))

/-- The `try` block, main.cpp:39-118. -/
def bodyTo (parsed : Except Str Opts) (w : σ) (out : Stream τ) : Option (Stream τ × Option Exc) :=
  match parsed with
  | .error what => some (out, some (.po what))
  | .ok o =>
    match validate o with
    | .error e => some (out, some e)
    | .ok () =>
      if o.help then some (out.print D W.helpText, none)
      else if o.version then some (out.print D W.versionText, none)
      else
        match parseFiles W o.hext w with
        | (.error e, _) => some (out, some e)
        | (.ok rs, w) =>
          match parseStrings W o.str with
          | .error e => some (out, some e)
          | .ok rs' =>
            if o.lint then some (out, none)
            else
              match readHtml W o.html w with
              | (.error e, _) => some (out, some e)
              | (.ok texts, _) => extractLoopTo W D o (pairs (rs ++ rs') texts) out

/-- How the program ends, with the states of `std::cout` and `std::cerr`. htmlext/main.cpp:32-140. -/
inductive Ended (τ : Type)
  | exit (code : Nat) (out err : Stream τ)
  | crash

/-- `main`, main.cpp:32-142. The exit code is decided by exceptions only. -/
def mainTo (parsed : Except Str Opts) (w : σ) (out err : Stream τ) : Option (Ended τ) :=
  match bodyTo W D parsed w out with
  | none => none
  | some (out, none) => some (.exit 0 out err)
  | some (out, some (.syn title what)) => some (.exit 1 out (err.print D (errorLine W title what)))
  | some (out, some (.file what)) => some (.exit 1 out (err.print D (errorLine W (lit "Error") what)))
  | some (out, some (.po what)) =>
    let err := err.print D (errorLine W (lit "Argument error") what)
    some (.exit 1 out (if W.argc < 2 then (err.print D [10]).print D W.helpText else err))
  | some (out, some (.std what)) => some (.exit 1 out (err.print D (errorLine W (lit "Error") what)))
  | some (_, some .crash) => some .crash

end

end Hext.Cli
