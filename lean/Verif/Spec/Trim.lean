import Verif.Spec.Conditions
import Verif.Spec.Safe
import Verif.Spec.Similar
/-!
# Documents from which irrelevant parts have been removed
-/

namespace Hext

mutual
/-- The condition is about the node itself, its tag and its attributes, not about its content or its siblings. -/
def Match.Local : Match → Prop
  | .attribute _ _ => True
  | .attributeCount _ => True
  | .typeRegex _ => True
  | .negate ms => Match.LocalL ms
  | _ => False
def Match.LocalL : List (Option Match) → Prop
  | [] => True
  | none :: ms => Match.LocalL ms
  | some m :: ms => m.Local ∧ Match.LocalL ms
end

/-- The conditions of the rule are about the node itself, and what it captures are attributes. -/
def RuleInfo.Local (i : RuleInfo) : Prop :=
  Match.LocalL i.ms ∧ ∀ c, some c ∈ i.caps → ∃ attr name pipe, c = .attribute attr name pipe

/-- The tag and the conditions of the rule admit this node, wherever it stands. -/
def RuleInfo.Admits (rx : RxEngine) (h : Heap) (i : RuleInfo) (t : Tree) : Prop :=
  ∃ l : Loc, l.self = t ∧ TagMeans i l ∧ ∀ m, some m ∈ i.ms → m.Means rx h l

mutual
/-- None of the rules admits the node, or a node in it. -/
def Tree.Irrelevant (rx : RxEngine) (h : Heap) (r : Rule) : Tree → Prop
  | .node p k kids => (r.All fun i => ¬ i.Admits rx h (.node p k kids)) ∧ Tree.IrrelevantL rx h r kids
def Tree.IrrelevantL (rx : RxEngine) (h : Heap) (r : Rule) : List Tree → Prop
  | [] => True
  | t :: ts => t.Irrelevant rx h r ∧ Tree.IrrelevantL rx h r ts
end

mutual
/-- The second tree is the first one without some of the nodes in it that are `D` (and the content of these nodes). -/
def Tree.Trimmed (D : Tree → Prop) : Tree → Tree → Prop
  | .node _ k kids, t' => k = t'.kind ∧ Tree.TrimmedL D kids t'.kids
def Tree.TrimmedL (D : Tree → Prop) : List Tree → List Tree → Prop
  | [], ts' => ts' = []
  | t :: ts, ts' => (D t ∧ Tree.TrimmedL D ts ts') ∨ ∃ t' us, ts' = t' :: us ∧ Tree.Trimmed D t t' ∧ Tree.TrimmedL D ts us
end

end Hext
