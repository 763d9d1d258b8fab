import Verif.Spec.Doc
import Verif.Model.Rule
/-!
# Sizes of documents and of rules
-/

namespace Hext

mutual
/-- The number of nodes: the node and everything below it. -/
def Tree.size : Tree → Nat
  | .node _ _ kids => 1 + Tree.sizeL kids
def Tree.sizeL : List Tree → Nat
  | [] => 0
  | t :: ts => t.size + Tree.sizeL ts
end

mutual
/-- The number of nodes on the longest path down, with the node itself. -/
def Tree.height : Tree → Nat
  | .node _ _ kids => 1 + Tree.heightL kids
def Tree.heightL : List Tree → Nat
  | [] => 0
  | t :: ts => max t.height (Tree.heightL ts)
end

mutual
/-- The number of rules: the rule, its following siblings and all rules below them. -/
def Rule.size : Rule → Nat
  | .mk _ c nx ns => 1 + Rule.sizeO c + Rule.sizeO nx + Rule.sizeL ns
def Rule.sizeO : Option Rule → Nat
  | none => 0
  | some r => r.size
def Rule.sizeL : List Rule → Nat
  | [] => 0
  | r :: rs => r.size + Rule.sizeL rs
end

mutual
/-- How deep the rules are nested, as children or in braces; 1 if there are only siblings. -/
def Rule.levels : Rule → Nat
  | .mk _ c nx ns => max (1 + max (Rule.levelsO c) (Rule.levelsL ns)) (Rule.levelsO nx)
def Rule.levelsO : Option Rule → Nat
  | none => 0
  | some r => r.levels
def Rule.levelsL : List Rule → Nat
  | [] => 0
  | r :: rs => max r.levels (Rule.levelsL rs)
end

mutual
/-- No rule of the tree has nested rules. -/
def Rule.Flat : Rule → Prop
  | .mk _ c nx ns => ns = [] ∧ Rule.FlatO c ∧ Rule.FlatO nx
def Rule.FlatO : Option Rule → Prop
  | none => True
  | some r => r.Flat
end

/-- A tree that does not branch: elements with one child each, down to a node without children. -/
inductive Tower : Tree → Prop
  | leaf {p k} : Tower (.node p k [])
  | step {p k t} : k.isElement = true → Tower t → Tower (.node p k [t])

/-- A mandatory rule without siblings, children and nested rules. -/
def Single : Rule → Prop
  | .mk i c nx ns => i.optional = false ∧ i.greedy = false ∧ c = none ∧ nx = none ∧ ns = []

end Hext
