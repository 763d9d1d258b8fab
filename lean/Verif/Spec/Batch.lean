import Verif.Spec.Cli
/-!
# Several hexts and files in one run of htmlext
-/

namespace Hext.Cli

/-- A hext that is given to htmlext: in a file (`--hext`) or as a string (`--str`). -/
inductive Input
  | file (path : Str)
  | string (hext : Str)

def Input.files : Input → List Str
  | file p => [p]
  | string _ => []

def Input.strings : Input → List Str
  | file _ => []
  | string s => [s]

/-- The hexts in the order in which htmlext takes them: files come before strings. -/
def Opts.inputs (o : Opts) : List Input := o.hext.map .file ++ o.str.map .string

/-- The same options with only one hext and only one page. -/
def Opts.only (o : Opts) (x : Input) (page : Str) : Opts := { o with hext := x.files, str := x.strings, html := [page] }

/-- Reading a file does not change what later reads give. Pipes, terminals and standard input are not like this. -/
def World.Repeatable {σ : Type} (W : World σ) : Prop := ∀ path w, (W.files path w).2 = w

/-- What a run that ends has printed to standard output. -/
def printed : Option Outcome → Str
  | some (.exit _ out _) => out
  | _ => []

/-- A run ends with exit code 0 and prints nothing to standard error. -/
def Fine (r : Option Outcome) : Prop := ∃ out, r = some (.exit 0 out [])

end Hext.Cli
