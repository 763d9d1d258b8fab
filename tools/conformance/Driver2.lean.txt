import Verif.Model.Cli
import Verif.Proofs.MkDoc
open Hext
def unhex (s : String) : Str :=
  if s == "_" then [] else
  let v (c : Char) : Nat := if c.isDigit then c.toNat - 48 else c.toNat - 87
  let rec go : List Char → Str
    | a :: b :: r => UInt8.ofNat (v a * 16 + v b) :: go r
    | _ => []
  go s.toList
def hexOf (s : Str) : String := String.join (s.map fun b =>
  let d (n : Nat) : Char := if n < 10 then Char.ofNat (48+n) else Char.ofNat (87+n)
  String.ofList [d (b.toNat/16), d (b.toNat%16)])
structure Ln where
  d : Nat
  k : Kind
def attrsOf : List String → List Attr
  | a :: b :: r => ⟨.none, unhex a, some (unhex b)⟩ :: attrsOf r
  | _ => []
def parseLn (s : String) : Ln :=
  match s.splitOn " " with
  | d :: "E" :: t :: o :: r =>
    let t' := gumboTagEnum (unhex t)
    ⟨d.toNat!, .element ⟨t', if o == "-" then none else some (unhex o), attrsOf r⟩⟩
  | d :: "T" :: t :: _ => ⟨d.toNat!, .text (unhex t)⟩
  | d :: "W" :: t :: _ => ⟨d.toNat!, .whitespace (unhex t)⟩
  | d :: "C" :: t :: _ => ⟨d.toNat!, .comment (unhex t)⟩
  | _ => ⟨0, .text []⟩
instance : Inhabited Ln := ⟨⟨0,.text []⟩⟩
instance : Inhabited Tree := ⟨.node 0 (.text []) []⟩
partial def build (lines : Array Ln) (i : Nat) : Tree × Nat := Id.run do
  let l := lines[i]!
  let mut kids := #[]
  let mut j := i+1
  while j < lines.size && (lines[j]!).d > l.d do
    let (t, j') := build lines j
    kids := kids.push t
    j := j'
  return (.node (i+1) l.k kids.toList, j)
def py (args : List String) : String :=
  match unsafe (unsafeIO (IO.Process.output {cmd := "python3", args := #["/tmp/conf/rx.py"] ++ args.toArray})) with
  | .ok o => o.stdout.trimAscii.toString
  | .error _ => "ERR"
def q (s : Str) : String := let h := hexOf s; if h == "" then "_" else h
def rxe : RxEngine where
  search r s :=
    let o := py ["search", q r.src, toString r.icase, q s]
    if o == "N" then none else some ((o.splitOn " ").map unhex)
  replace r s t := unhex (py ["replace", q r.src, toString r.icase, q s, q t])
  compile r := let o := py ["compile", q r.src, toString r.icase, "_"]; if o == "ok" then none else some (lit "bad")
def strOf (b : Str) : String := String.fromUTF8! (ByteArray.mk b.toArray)

def heapAt (n : String) : IO (Heap × Nat) := do
  let ls := (← IO.FS.readFile s!"/tmp/conf/u/{n}.tree").splitOn "\n" |>.filter (· ≠ "") |>.map parseLn
  let (t, _) := build ls.toArray 0
  let es := docEntries 0 t
  let arr := Id.run do
    let mut a : Array (Option GNode) := Array.replicate (ls.length + 1) none
    for e in es do a := a.set! e.1 (some e.2)
    return a
  return (fun p => (arr[p]?).getD none, ls.length)
def rule! (s : String) : IO Rule := match parseHext rxe true (lit s) with
  | .ok r => pure r
  | .error _ => throw (IO.userError s!"parse {s}")
def main (_ : List String) : IO Unit := do
  for s in ["invalid","<",">","/>","</>","<a>{","<a>}","{}","{<a/>}","<a/>}","<a/>{","<a>{<b/>}</a><b>","<a>{{<b/>}}</a>","<a>{{<b/>{{</a>"] do
    match parseHext rxe true (lit s) with
    | .error (.syntax m) => IO.println s!"ok syntax {s}: {(strOf m).splitOn "\n"}"
    | _ => IO.println s!"BAD {s}"
  let (h,_) ← heapAt "seven"
  for s in ["<div><ul><li/><li/></ul></div>","<?div><ul><li/><li/></ul></div>","<?div/><div><ul><li/><li/></ul></div>","<div><ul><li/><li/></ul></div><?div/>","<?div/><div><ul><li/><li/></ul></div><?div/>","<?div/><div><ul><+li/><li/></ul></div><?div/>","<?+div/><+div><+ul><+li/><+li/></ul></div><?+div/>"] do
    let r ← rule! s
    match (saveMatchingNodesRecursive rxe h ⟨[], r⟩ 1 []).run 0 with
    | some (.ok (mn, m)) =>
      let flat := mn.flatten.map (·.2)
      IO.println s!"{s}: {mn.length} {mn.map List.length} {m} unique {flat.eraseDups.length == flat.length}"
    | _ => IO.println s!"BAD {s}"
  let (h,_) ← heapAt "max"
  let r ← rule! "<a/>"
  for k in [0,1,2,5,6,7,8] do
    match (saveMatchingNodesRecursive rxe h ⟨[], r⟩ 1 []).run (UInt64.ofNat k) with
    | some (.ok (mn, m)) => IO.println s!"max {k}: {mn.length} left {m}"
    | some (.error .maxSearch) => IO.println s!"max {k}: throws"
    | _ => IO.println s!"BAD"
  for (d,s) in [("text","<html @text:x/>"),("inner","<body @inner-html:x/>"),("strip","<html @strip-tags:x/>"),("g1","<a @text:a/><?div @text:d/>"),("g1","<?a @text:a/><?div @text:d/>"),("g3","<+a @text:a/>"),
      ("n5","<div>{<b/><a/>}<i/>{<span><b/><a/></span>}</div>"),("n6","<div>{<b/><a/>}</div><b/>"),("n8","<div><p/>{<i/><b>{<a/><b/>}</b>}</div>")] do
    let (h,_) ← heapAt d
    let r ← rule! s
    match (saveMatchingNodesRecursive rxe h ⟨[], r⟩ 1 []).run 0 with
    | some (.ok (mn, _)) => IO.println s!"{s}: {mn.map List.length}"
    | _ => IO.println "BAD"
    match extract rxe h r 1 0 with
    | some (.ok res) => IO.println s!"   {res.map (·.map fun p => (strOf p.1, strOf p.2))}"
    | _ => IO.println "BAD"
