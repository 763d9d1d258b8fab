import Verif.Model.Dom
/-!
# Documents as trees

What the engine may assume of Gumbo's output: the nodes form a finite tree, `parent` and
`index_within_parent` are right, and the parent of the root element is a document node.
-/

namespace Hext

/-- A node (at address `ptr`) with everything below it. -/
inductive Tree
  | node (ptr : Ptr) (kind : Kind) (kids : List Tree)

namespace Tree
def ptr : Tree → Ptr
  | node p _ _ => p
def kind : Tree → Kind
  | node _ k _ => k
def kids : Tree → List Tree
  | node _ _ ks => ks
end Tree

/-- A node with its siblings. `inElem`: the parent is an element (then `before` and `after` are the
siblings to the left and to the right); otherwise the node is the root element. -/
structure Loc where
  inElem : Bool
  before : List Tree
  self : Tree
  after : List Tree

def Loc.ptr (l : Loc) : Ptr := l.self.ptr

/-- The locations of a list of children; `before` are the children to their left. -/
def locsAux (before : List Tree) : List Tree → List Loc
  | [] => []
  | t :: ts => ⟨true, before, t, ts⟩ :: locsAux (before ++ [t]) ts

/-- The locations of the children of an element. -/
def locs (kids : List Tree) : List Loc := locsAux [] kids

/-- The root element. -/
def Loc.root (t : Tree) : Loc := ⟨false, [], t, []⟩

/-- A location and its following siblings. -/
def Loc.onward (l : Loc) : List Loc :=
  l :: if l.inElem then locsAux (l.before ++ [l.self]) l.after else []

mutual
/-- The heap stores the tree, as child number `idx` of `parent`. -/
def Rep (h : Heap) (parent : Option Ptr) (idx : Nat) : Tree → Prop
  | .node p k kids => h p = some ⟨k, kids.map Tree.ptr, parent, idx⟩ ∧ RepL h p 0 kids
/-- The heap stores the trees, as children number `i`, `i + 1`, ... of `p`. -/
def RepL (h : Heap) (p : Ptr) (i : Nat) : List Tree → Prop
  | [] => True
  | t :: ts => Rep h (some p) i t ∧ RepL h p (i + 1) ts
end

mutual
/-- No node has more than `n` children. -/
def FanoutLe (n : Nat) : Tree → Prop
  | .node _ _ kids => kids.length ≤ n ∧ FanoutLeL n kids
def FanoutLeL (n : Nat) : List Tree → Prop
  | [] => True
  | t :: ts => FanoutLe n t ∧ FanoutLeL n ts
end

/-- The heap stores this node with its siblings below a common parent. -/
def Loc.Stored (h : Heap) (n : Nat) (l : Loc) : Prop :=
  if l.inElem then
    ∃ pp pn, h pp = some pn ∧ pn.kind.isElement = true ∧
      pn.children = (l.before ++ l.self :: l.after).map Tree.ptr ∧
      RepL h pp 0 (l.before ++ l.self :: l.after) ∧
      FanoutLeL n (l.before ++ l.self :: l.after) ∧
      (l.before ++ l.self :: l.after).length ≤ n
  else
    l.before = [] ∧ l.after = [] ∧
    ∃ pp pn i, h pp = some pn ∧ pn.kind.isElement = false ∧ Rep h (some pp) i l.self ∧ FanoutLe n l.self

/-- The heap stores a document whose root element is `t`, and no node has more than `n` children. -/
def IsDocument (h : Heap) (n : Nat) (t : Tree) : Prop := (Loc.root t).Stored h n

end Hext
