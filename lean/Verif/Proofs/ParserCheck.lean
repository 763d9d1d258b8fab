import Verif.Proofs.ParserData
/-!
# Checking the automaton against the grammar: evaluation

The kernel evaluates the checks on every state of the automaton.
-/

namespace Hext.Check

open Data

/-- The packed tables hold the tables. -/
theorem unpack_actions : unpacks actions Tables.actions = true := by decide +kernel
theorem unpack_keyOffsets : unpacks keyOffsets Tables.keyOffsets = true := by decide +kernel
theorem unpack_transKeys : unpacks transKeys Tables.transKeys = true := by decide +kernel
theorem unpack_singleLengths : unpacks singleLengths Tables.singleLengths = true := by decide +kernel
theorem unpack_rangeLengths : unpacks rangeLengths Tables.rangeLengths = true := by decide +kernel
theorem unpack_indexOffsets : unpacks indexOffsets Tables.indexOffsets = true := by decide +kernel
theorem unpack_indicies : unpacks indicies Tables.indicies = true := by decide +kernel
theorem unpack_transTargs : unpacks transTargs Tables.transTargs = true := by decide +kernel
theorem unpack_transActions : unpacks transActions Tables.transActions = true := by decide +kernel
theorem unpack_eofActions : unpacks eofActions Tables.eofActions = true := by decide +kernel

def allBytes : Nat := 2 ^ 256 - 1

def singleEdges (k i : Nat) : Nat → List (Nat × Nat)
  | 0 => []
  | n + 1 => (Nat.shiftLeft 1 (packed transKeys k), packed indicies i) :: singleEdges (k + 1) (i + 1) n

def rangeEdges (k i : Nat) : Nat → List (Nat × Nat)
  | 0 => []
  | n + 1 =>
    (Nat.sub (Nat.shiftLeft 1 (packed transKeys (k + 1) + 1)) (Nat.shiftLeft 1 (packed transKeys k)), packed indicies i) ::
      rangeEdges (k + 2) (i + 1) n

/-- The first set that contains a byte wins; `d` is taken for the bytes that are in no set. -/
def firstWins (d : Nat) (seen : Nat) : List (Nat × Nat) → List (Nat × Nat)
  | [] => [(Nat.xor allBytes seen, d)]
  | e :: es => (Nat.xor e.1 (Nat.land e.1 seen), e.2) :: firstWins d (Nat.lor seen e.1) es

/-- The transitions of a state: sets of bytes and transition numbers; the last one is the default. -/
def edges (q : Nat) : List (Nat × Nat) :=
  let k := packed keyOffsets q
  let i := packed indexOffsets q
  let s := packed singleLengths q
  let r := packed rangeLengths q
  firstWins (packed indicies (i + s + r)) 0 (singleEdges k i s ++ rangeEdges (k + s) (i + s) r)

/-- Keys are ASCII and increase. -/
def sortedSingle (k : Nat) : Nat → Bool
  | 0 => true
  | 1 => Nat.blt (packed transKeys k) 128
  | n + 2 => bif Nat.blt (packed transKeys k) (packed transKeys (k + 1)) then sortedSingle (k + 1) (n + 1) else false

def sortedRange (k : Nat) : Nat → Bool
  | 0 => true
  | 1 => bif Nat.ble (packed transKeys k) (packed transKeys (k + 1)) then Nat.blt (packed transKeys (k + 1)) 128 else false
  | n + 2 =>
    bif Nat.ble (packed transKeys k) (packed transKeys (k + 1)) then
      bif Nat.blt (packed transKeys (k + 1)) (packed transKeys (k + 2)) then sortedRange (k + 2) (n + 1) else false
    else false

def okState (q : Nat) : Bool :=
  let k := packed keyOffsets q
  let i := packed indexOffsets q
  let s := packed singleLengths q
  let r := packed rangeLengths q
  sortedSingle k s && sortedRange (k + s) r && Nat.ble (k + s + 2 * r) 2853 && Nat.blt (i + s + r) 3125

/-- The labels of an action list. -/
def labels (off : Nat) : Nat → List Nat
  | 0 => []
  | n + 1 => canon (packed actions off) :: labels (off + 1) n

def actList (off : Nat) : List Nat := bif Nat.beq off 0 then [] else labels (off + 1) (packed actions off)

/-- Is the stack among those of the state? -/
def elemL (k : List Nat) : List (List Nat) → Bool
  | [] => false
  | x :: xs => bif beqL k x then true else elemL k xs

/-- A transition that is taken for the bytes of `m` with these actions to a state with the residual
stacks `ks`: does every step of the grammar agree? -/
def stepsOk (m : Nat) (acts : List Nat) (ks : List (List Nat)) : List NEdge → Bool
  | [] => true
  | .fin _ :: es => stepsOk m acts ks es
  | .ch a m' k :: es =>
    bif Nat.beq (Nat.land m m') 0 then stepsOk m acts ks es
    else bif Nat.beq (Nat.land m m') m && beqL a acts && elemL (normN nodes 20 k) ks then stepsOk m acts ks es
    else false

/-- Is the stack reached by some step of the grammar? -/
def reached (m : Nat) (k : List Nat) : List NEdge → Bool
  | [] => false
  | .fin _ :: es => reached m k es
  | .ch _ m' k' :: es =>
    bif Nat.beq (Nat.land m m') m && beqL (normN nodes 20 k') k then true else reached m k es

def allReached (m : Nat) (es : List NEdge) : List (List Nat) → Bool
  | [] => true
  | k :: ks => bif reached m k es then allReached m es ks else false

/-- No step of the grammar reads a byte of `m`. -/
def noSteps (m : Nat) : List NEdge → Bool
  | [] => true
  | .fin _ :: es => noSteps m es
  | .ch _ m' _ :: es => bif Nat.beq (Nat.land m m') 0 then noSteps m es else false

def edgeOk (es : List NEdge) (e : Nat × Nat) : Bool :=
  bif Nat.beq e.1 0 then true
  else
    let q := packed transTargs e.2
    let acts := actList (packed transActions e.2)
    let off := packed transActions e.2
    bif !(Nat.blt e.2 1381 && Nat.blt q 820 && Nat.ble (off + packed actions off + 1) 371) then false
    else bif Nat.beq q 0 then beqL acts [88] && noSteps e.1 es
    else
      match residual.get q with
      | none => false
      | some ks => stepsOk e.1 acts ks es && allReached e.1 es ks

def finsOk (acts : List Nat) : List NEdge → Bool
  | [] => true
  | .fin a :: es => bif beqL a acts then finsOk acts es else false
  | .ch .. :: es => finsOk acts es

/-- The labels of the second `switch`. -/
def eofLabels : List Nat → Bool
  | [] => true
  | a :: as => bif Nat.beq a 83 || Nat.beq a 86 || Nat.beq a 87 || Nat.beq a 88 then eofLabels as else false

def hasFin : List NEdge → Bool
  | [] => false
  | .fin _ :: _ => true
  | .ch .. :: es => hasFin es

/-- The state `q` agrees with the grammar. -/
def stateOk (q : Nat) : Bool :=
  match residual.get q with
  | none => false
  | some ks =>
    match expandAll nodes ks with
    | none => false
    | some es =>
      let eof := actList (packed eofActions q)
      let off := packed eofActions q
      okState q && (edges q).all (edgeOk es) && Nat.ble (off + packed actions off + 1) 371 && eofLabels eof &&
        bif beqL eof [88] then !hasFin es else hasFin es && finsOk eof es

theorem states_ok : (upto 1 819).all stateOk = true := by decide +kernel

end Hext.Check
