import Verif.Model.Cli
import Verif.Proofs.MkDoc
open Hext
def unhex (s : String) : Str :=
  if s == "_" then [] else
  let v (c : Char) : Nat := if c.isDigit then c.toNat - 48 else c.toNat - 87
  let rec go : List Char → Str
    | a :: b :: r => UInt8.ofNat (v a * 16 + v b) :: go r
    | _ => []
  go s.toList
def hexOf (s : Str) : String := String.join (s.map fun b =>
  let d (n : Nat) : Char := if n < 10 then Char.ofNat (48+n) else Char.ofNat (87+n)
  String.ofList [d (b.toNat/16), d (b.toNat%16)])
structure Ln where
  d : Nat
  k : Kind
def attrsOf : List String → List Attr
  | a :: b :: r => ⟨.none, unhex a, some (unhex b)⟩ :: attrsOf r
  | _ => []
def parseLn (s : String) : Ln :=
  match s.splitOn " " with
  | d :: "E" :: t :: o :: r =>
    let t' := gumboTagEnum (unhex t)
    ⟨d.toNat!, .element ⟨t', if o == "-" then none else some (unhex o), attrsOf r⟩⟩
  | d :: "T" :: t :: _ => ⟨d.toNat!, .text (unhex t)⟩
  | d :: "W" :: t :: _ => ⟨d.toNat!, .whitespace (unhex t)⟩
  | d :: "C" :: t :: _ => ⟨d.toNat!, .comment (unhex t)⟩
  | _ => ⟨0, .text []⟩
instance : Inhabited Ln := ⟨⟨0,.text []⟩⟩
instance : Inhabited Tree := ⟨.node 0 (.text []) []⟩
partial def build (lines : Array Ln) (i : Nat) : Tree × Nat := Id.run do
  let l := lines[i]!
  let mut kids := #[]
  let mut j := i+1
  while j < lines.size && (lines[j]!).d > l.d do
    let (t, j') := build lines j
    kids := kids.push t
    j := j'
  return (.node (i+1) l.k kids.toList, j)
def py (args : List String) : String :=
  match unsafe (unsafeIO (IO.Process.output {cmd := "python3", args := #["/tmp/conf/rx.py"] ++ args.toArray})) with
  | .ok o => o.stdout.trimAscii.toString
  | .error _ => "ERR"
def q (s : Str) : String := let h := hexOf s; if h == "" then "_" else h
def rxe : RxEngine where
  search r s :=
    let o := py ["search", q r.src, toString r.icase, q s]
    if o == "N" then none else some ((o.splitOn " ").map unhex)
  replace r s t := unhex (py ["replace", q r.src, toString r.icase, q s, q t])
  compile r := let o := py ["compile", q r.src, toString r.icase, "_"]; if o == "ok" then none else some (lit "bad")
def strOf (b : Str) : String := String.fromUTF8! (ByteArray.mk b.toArray)
def main (args : List String) : IO Unit := do
  let tree := args[0]!
  let hext := args[1]!
  let ls := (← IO.FS.readFile tree).splitOn "\n" |>.filter (· ≠ "") |>.map parseLn
  let (t, _) := build ls.toArray 0
  let es := docEntries 0 t
  let arr := Id.run do
    let mut a : Array (Option GNode) := Array.replicate (ls.length + 1) none
    for e in es do a := a.set! e.1 (some e.2)
    return a
  let heap : Heap := fun p => (arr[p]?).getD none
  let hx ← IO.FS.readBinFile hext
  let W : Cli.World Unit := {
    files := fun p w => if p == lit "h" then (.bytes hx.toList, w) else (.bytes [], w)
    gumbo := fun _ => (heap, 1)
    rx := rxe
    charSigned := true
    ttyOut := false
    ttyErr := false
    program := lit "htmlext"
    argc := 3
    helpText := []
    versionText := [] }
  let o : Cli.Opts := { hext := [lit "h"], html := [lit "d"] }
  match Cli.main W (.ok o) () with
  | none => IO.println "DIVERGES"
  | some (.exit c out err) => do
    IO.print (strOf out); IO.eprint (strOf err); if c ≠ 0 then IO.println "EXIT"
  | some .crash => IO.println "CRASH"
