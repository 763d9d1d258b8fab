import Verif.Spec.Grammar
/-!
# Checking the automaton against the grammar: definitions

Functions that the kernel evaluates on the tables.
-/

namespace Hext

/-- A subexpression; operands are numbers of subexpressions, actions are numbers of case labels. -/
inductive Node
  | eps
  | act (a : Nat)
  | cls (m : Nat)
  | seq (i j : Nat)
  | alt (i j : Nat)
  | star (i : Nat)

/-- A search tree. -/
inductive BT (α : Type) where
  | nil
  | node (l : BT α) (k : Nat) (v : α) (r : BT α)

def BT.get {α} (i : Nat) : BT α → Option α
  | .nil => none
  | .node l k v r => bif Nat.blt i k then l.get i else bif Nat.beq i k then some v else r.get i

/-- An entry of a packed table. -/
def packed (t i : Nat) : Nat := Nat.mod (Nat.shiftRight t (Nat.mul 16 i)) 65536

/-- `xs` is the packed list. -/
def unpacks (t : Nat) : List Nat → Bool
  | [] => Nat.beq t 0
  | x :: xs => bif Nat.beq (Nat.mod t 65536) x then unpacks (Nat.shiftRight t 16) xs else false

/-- The numbers `n, n + 1, ..., n + k - 1`. -/
def upto (n : Nat) : Nat → List Nat
  | 0 => []
  | k + 1 => n :: upto (n + 1) k

/-- What can be read next: a byte of the set, after running the actions, with the stack that remains, or
the end. -/
inductive NEdge
  | ch (acts : List Nat) (mask : Nat) (k : List Nat)
  | fin (acts : List Nat)

def beqL : List Nat → List Nat → Bool
  | [], [] => true
  | a :: as, b :: bs => bif Nat.beq a b then beqL as bs else false
  | _, _ => false

/-- The first steps of a stack of expressions; `none` if the fuel is used up. The actions are collected in
reverse. -/
def expandN (T : BT Node) : (fuel : Nat) → (acts : List Nat) → List Nat → Option (List NEdge)
  | 0, _, _ => none
  | _ + 1, acts, [] => some [.fin acts.reverse]
  | f + 1, acts, i :: k =>
    match T.get i with
    | none => none
    | some .eps => expandN T f acts k
    | some (.act a) => expandN T f (a :: acts) k
    | some (.cls m) => some [.ch acts.reverse m k]
    | some (.seq a b) => expandN T f acts (a :: b :: k)
    | some (.alt a b) =>
      match expandN T f acts (a :: k), expandN T f acts (b :: k) with
      | some x, some y => some (x ++ y)
      | _, _ => none
    | some (.star a) =>
      match expandN T f acts k, expandN T f acts (a :: i :: k) with
      | some x, some y => some (x ++ y)
      | _, _ => none

/-- Drops empty expressions and splits sequences at the top of the stack. -/
def normN (T : BT Node) : (fuel : Nat) → List Nat → List Nat
  | 0, k => k
  | _ + 1, [] => []
  | f + 1, i :: k =>
    match T.get i with
    | some .eps => normN T f k
    | some (.seq a b) => normN T f (a :: b :: k)
    | _ => i :: k

def expandAll (T : BT Node) : List (List Nat) → Option (List NEdge)
  | [] => some []
  | k :: ks =>
    match expandN T 60 [] k, expandAll T ks with
    | some x, some y => some (x ++ y)
    | _, _ => none

/-- The least label of the action with label `n`. -/
def canon (n : Nat) : Nat :=
  bif [2, 4, 6, 8, 10, 14, 17, 19, 21, 23, 30, 32, 60, 79, 84].elem n then 2
  else bif [5, 7, 9, 11].elem n then 5
  else bif [20, 22, 24].elem n then 20
  else bif [68, 69].elem n then 68
  else bif [71, 72, 74].elem n then 71
  else n

end Hext
