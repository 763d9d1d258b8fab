import Verif.Spec.Grammar
import Std.Data.HashMap
/-! Writes Verif/Proofs/ParserData.lean: the tables packed into numbers, the subexpressions of the grammar
and, for every state of the automaton, the expressions that remain to be read. Run in /verif/lean with
`lake env lean --run ../tools/gen_residual.lean.txt`. The output is data; the kernel checks it. -/
open Hext Grammar

deriving instance Hashable for Act
deriving instance Hashable for G

inductive Node | eps | act (a : Nat) | cls (m : Nat) | seq (i j : Nat) | alt (i j : Nat) | star (i : Nat)
deriving Inhabited

/-- The least number of an action. -/
def code (a : Act) : Nat := ((List.range 89).find? fun n => Act.ofNat n = some a).getD 88

abbrev St := StateM (Std.HashMap G Nat × Array Node)

partial def intern (g : G) : St Nat := do
  match (← get).1[g]? with
  | some i => pure i
  | none =>
    let n ← match g with
      | .eps => pure .eps
      | .act a => pure (.act (code a))
      | .cls m => pure (.cls m)
      | .seq a b => do pure (.seq (← intern a) (← intern b))
      | .alt a b => do pure (.alt (← intern a) (← intern b))
      | .star a => do pure (.star (← intern a))
    let (h, t) ← get
    set (h.insert g t.size, t.push n)
    pure t.size

inductive Edge | ch (acts : List Nat) (mask : Nat) (k : List Nat) | fin (acts : List Nat)

partial def expand (T : Array Node) (acts : List Nat) : List Nat → List Edge
  | [] => [.fin acts]
  | g :: k => match T[g]! with
    | .eps => expand T acts k
    | .act a => expand T (acts ++ [a]) k
    | .cls m => [.ch acts m k]
    | .seq a b => expand T acts (a :: b :: k)
    | .alt a b => expand T acts (a :: k) ++ expand T acts (b :: k)
    | .star a => expand T acts k ++ expand T acts (a :: g :: k)

partial def norm (T : Array Node) : List Nat → List Nat
  | [] => []
  | g :: k => match T[g]! with
    | .eps => norm T k
    | .seq a b => norm T (a :: b :: k)
    | _ => g :: k

def pack (l : List Nat) : Nat := l.foldr (fun x n => n * 65536 + x) 0

def hex (n : Nat) : String := String.ofList (Nat.toDigits 16 n)

def Node.print : Node → String
  | .eps => ".eps"
  | .act a => s!".act {a}"
  | .cls m => s!".cls {m}"
  | .seq i j => s!".seq {i} {j}"
  | .alt i j => s!".alt {i} {j}"
  | .star i => s!".star {i}"

partial def bt (xs : Array String) (lo hi : Nat) : String :=
  if lo ≥ hi then ".nil" else
  let mid := (lo + hi) / 2
  s!"(.node {bt xs lo mid} {mid} ({xs[mid]!})\n {bt xs (mid + 1) hi})"

def main : IO Unit := do
  let (root, _, T) := (intern Grammar.main).run (∅, #[])
  let indic := Tables.indicies.toArray
  let targs := Tables.transTargs.toArray
  let mut res : Array (Option (List (List Nat))) := Array.replicate 820 none
  res := res.set! 816 (some [[root]])
  let mut todo := [816]
  while !todo.isEmpty do
    let q := todo.head!
    todo := todo.tail!
    let E := res[q]!.get!.flatMap (expand T [])
    for b in List.range 256 do
      match transIndex true q (UInt8.ofNat b) with
      | .error _ => IO.println "err"
      | .ok i =>
        let q' := targs[indic[i]!]!
        if q' != 0 && res[q']!.isNone then
          let ks := (E.filterMap fun | .ch _ m k => if m.testBit b then some (norm T k) else none | _ => none).eraseDups
          res := res.set! q' (some ks)
          todo := todo ++ [q']
  let out ← IO.FS.Handle.mk "Verif/Proofs/ParserData.lean" .write
  let p (s : String) : IO Unit := out.putStrLn s
  p "import Verif.Proofs.ParserDefs\n/-!\n# Data for the verification of the parser's automaton\n\nWritten by tools/gen_residual.lean.txt.\n-/\n"
  p "namespace Hext.Data\n"
  for (n, t) in [("actions", Tables.actions), ("keyOffsets", Tables.keyOffsets), ("transKeys", Tables.transKeys),
      ("singleLengths", Tables.singleLengths), ("rangeLengths", Tables.rangeLengths), ("indexOffsets", Tables.indexOffsets),
      ("indicies", Tables.indicies), ("transTargs", Tables.transTargs), ("transActions", Tables.transActions),
      ("eofActions", Tables.eofActions)] do
    p s!"/-- `Tables.{n}`, 16 bits per entry. -/\ndef {n} : Nat :=\n  0x{hex (pack t)}\n"
  p "/-- The subexpressions of the grammar; the last one first. -/\ndef nodeList : List Node := [\n"
  p (String.intercalate ",\n" (T.toList.reverse.map fun n => "  " ++ n.print))
  p "]\n"
  p s!"def root : Nat := {root}\n"
  p "/-- The same as a search tree. -/\ndef nodes : BT Node :="
  p (bt (T.map Node.print) 0 T.size)
  p "\n/-- For every state, the stacks of expressions that may remain. -/\ndef residual : BT (List (List Nat)) :="
  p (bt (res.map fun r => toString (r.getD [])) 0 820)
  p "\nend Hext.Data"
  IO.println s!"nodes {T.size} root {root}"
