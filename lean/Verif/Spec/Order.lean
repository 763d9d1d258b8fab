import Verif.Spec.Extract
/-!
# Document order

Extraction searches a list of siblings as a whole before it goes on below them. In a document, what is below a node comes before its
next sibling.
-/

namespace Hext

mutual
/-- The nodes below a node, in the order of the document: each is followed by what is below it. Only elements are entered. -/
def Tree.inOrder : Tree → List Loc
  | .node _ k kids =>
    match k with
    | .element _ => inOrderL [] kids
    | _ => []
/-- The same for siblings; `before` are the siblings to their left. -/
def inOrderL (before : List Tree) : List Tree → List Loc
  | [] => []
  | t :: ts => ⟨true, before, t, ts⟩ :: (t.inOrder ++ inOrderL (before ++ [t]) ts)
end

/-- A node, what is below it, and its following siblings with what is below them, in the order of the document. -/
def Loc.inOrder (l : Loc) : List Loc :=
  l :: (l.self.inOrder ++ if l.inElem then inOrderL (l.before ++ [l.self]) l.after else [])

/-- `z` is below `y`. -/
inductive Loc.Inside (y : Loc) : Loc → Prop
  | child {x} : y.self.kind.isElement = true → x ∈ locs y.self.kids → Loc.Inside y x
  | deeper {z x} : Loc.Inside y z → z.self.kind.isElement = true → x ∈ locs z.self.kids → Loc.Inside y x

/-- Some node with the property `P` comes behind another one in the document, but is found first: it is a later sibling of `y`, and
the other one is below `y`. -/
def Overtaken (l : Loc) (P : Loc → Prop) : Prop := ∃ y x z, l.Reach y ∧ x ∈ y.onward.tail ∧ y.Inside z ∧ P x ∧ P z

end Hext
