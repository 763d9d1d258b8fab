import Verif.Spec.Trim
import Verif.Spec.Records
/-!
# Documents with further enclosing elements
-/

namespace Hext

mutual
/-- `t'` is the tree `t`, except that at some of its nodes all children were put into a further element that is `D`; and perhaps those of
the further element into another one, and so on. -/
def Tree.Wrapped (D : Tree → Prop) (t : Tree) : Tree → Prop
  | .node _ k kids => t.kind = k ∧ Tree.WrappedL D t.kids kids
/-- The same for all children of a node. -/
def Tree.WrappedL (D : Tree → Prop) (ts : List Tree) : List Tree → Prop
  | [] => ts = []
  | t' :: us' => (∃ t us, ts = t :: us ∧ Tree.Wrapped D t t' ∧ Tree.WrappedEach D us us') ∨
      (us' = [] ∧ D t' ∧ Tree.WrappedIn D ts t')
/-- One tree for each tree. -/
def Tree.WrappedEach (D : Tree → Prop) (ts : List Tree) : List Tree → Prop
  | [] => ts = []
  | t' :: us' => ∃ t us, ts = t :: us ∧ Tree.Wrapped D t t' ∧ Tree.WrappedEach D us us'
/-- `t'` is an element around the trees `ts`. -/
def Tree.WrappedIn (D : Tree → Prop) (ts : List Tree) : Tree → Prop
  | .node _ k kids => k.isElement = true ∧ Tree.WrappedL D ts kids
end

mutual
/-- The condition is about the node itself, its tag, its attributes and its place among its siblings, not about its content. -/
def Match.Placed : Match → Prop
  | .attribute _ _ => True
  | .attributeCount _ => True
  | .typeRegex _ => True
  | .nthChild _ _ _ _ => True
  | .onlyChild _ => True
  | .negate ms => Match.PlacedL ms
  | _ => False
def Match.PlacedL : List (Option Match) → Prop
  | [] => True
  | none :: ms => Match.PlacedL ms
  | some m :: ms => m.Placed ∧ Match.PlacedL ms
end

/-- The conditions of the rule are about the node itself and its place, and what it captures are attributes. -/
def RuleInfo.Placed (i : RuleInfo) : Prop :=
  Match.PlacedL i.ms ∧ ∀ c, some c ∈ i.caps → ∃ attr name pipe, c = .attribute attr name pipe

mutual
/-- No rule has a child rule. Rules in braces are allowed. -/
def Rule.Childless : Rule → Prop
  | .mk _ c nx ns => c = none ∧ Rule.ChildlessO nx ∧ Rule.ChildlessL ns
def Rule.ChildlessO : Option Rule → Prop
  | none => True
  | some r => r.Childless
def Rule.ChildlessL : List Rule → Prop
  | [] => True
  | r :: rs => r.Childless ∧ Rule.ChildlessL rs
end

/-- The text names no function (`@text`, …) and no condition about the content of a node. -/
structure NoContent (s : Str) : Prop where
  functions : (64 : Byte) ∉ s
  empty : ¬ lit ":empty" <:+: s
  childCount : ¬ lit ":child-count(" <:+: s

/-- The text has no start tags with marks. -/
structure NoMarks (s : Str) : Prop where
  optional : ¬ lit "<?" <:+: s
  greedy : ¬ lit "<+" <:+: s

/-- None of the rules admits the node, wherever it stands. Nothing is said about what is in it. -/
def Tree.Unnoticed (rx : RxEngine) (h : Heap) (r : Rule) (t : Tree) : Prop := r.All fun i => ¬ i.Admits rx h t

end Hext
