import Verif.Model.Cli
import Verif.Model.Throwing
/-!
# htmlext with regular expressions that throw

The parts of `Model/Cli.lean` from the extraction on, with `Throwing.extract`. The exception of Boost.Regex is a
`std::runtime_error` with the text `what`; it is caught by the last handler, main.cpp:135-139.
-/

namespace Hext.Throwing

open Cli hiding extractFrom extractLoop body main

variable {σ : Type} (th : Throws) (what : Str) (W : World σ)

/-- `rule.extract(html.root(), max_searches)`, main.cpp:102-104. `none`: it does not return. -/
def extractFrom (o : Opts) (r : Rule) (text : Str) : Option (Except Exc (List (List (Str × Str)))) :=
  let g := W.gumbo text
  match Throwing.extract th W.rx g.1 r g.2 o.maxSearches with
  | none => none
  | some (.ok res) => some (pure res)
  | some (.error .maxSearch) => some (throw (.std (lit "The allowed amount of searches was exhausted")))
  | some (.error .thrown) => some (throw (.std what))
  | some (.error _) => some (throw .crash)

/-- The loops over rules and documents, main.cpp:99-117: what was printed, and the exception that ended them. -/
def extractLoop (o : Opts) : List (Rule × Str) → Option (Str × Option Exc)
  | [] => some ([], none)
  | (r, text) :: rest =>
    match extractFrom th what W o r text with
    | none => none
    | some (.error e) => some ([], some e)
    | some (.ok res) =>
      match extractLoop o rest with
      | none => none
      | some (out, e) => some (render W o res ++ out, e)

/-- The `try` block, main.cpp:39-118: what was printed to standard output, and the exception or early `return EXIT_FAILURE`. -/
def body (parsed : Except Str Opts) (w : σ) : Option (Str × Option Exc) :=
  match parsed with
  | .error what => some ([], some (.po what))
  | .ok o =>
    match validate o with
    | .error e => some ([], some e)
    | .ok () =>
      if o.help then some (W.helpText, none)
      else if o.version then some (W.versionText, none)
      else
        match parseFiles W o.hext w with
        | (.error e, _) => some ([], some e)
        | (.ok rs, w) =>
          match parseStrings W o.str with
          | .error e => some ([], some e)
          | .ok rs' =>
            if o.lint then some ([], none)
            else
              match readHtml W o.html w with
              | (.error e, _) => some ([], some e)
              | (.ok texts, _) => extractLoop th what W o (pairs (rs ++ rs') texts)

/-- `main`, main.cpp:32-142. `none`: it does not end. -/
def main (parsed : Except Str Opts) (w : σ) : Option Outcome :=
  match body th what W parsed w with
  | none => none
  | some (out, none) => some (.exit 0 out [])
  | some (out, some (.syn title what)) => some (.exit 1 out (errorLine W title what))
  | some (out, some (.file what)) => some (.exit 1 out (errorLine W (lit "Error") what))
  | some (out, some (.po what)) =>
    some (.exit 1 out (errorLine W (lit "Argument error") what ++ if W.argc < 2 then 10 :: W.helpText else []))
  | some (out, some (.std what)) => some (.exit 1 out (errorLine W (lit "Error") what))
  | some (_, some .crash) => some .crash

end Hext.Throwing
