import Verif.Spec.Links
import Verif.Spec.Extract
import Verif.Spec.Syntax
/-!
# Paths of tags

A hext in which each tag contains exactly one other tag, directly or in braces, selects like a path: `<ul><li>{<a href:x/>}</li></ul>`
like `ul/li//a/@href`.
-/

namespace Hext

mutual
/-- All nodes inside of a node: first its children, then what is inside of its first child, and so on. -/
def Tree.inside : Tree → List Tree
  | .node _ k kids =>
    match k with
    | .element _ => kids ++ insideL kids
    | _ => []
def insideL : List Tree → List Tree
  | [] => []
  | t :: ts => t.inside ++ insideL ts
end

/-- One step from a node: to its children, or (`deep`) to all nodes inside of it. -/
def Tree.step (deep : Bool) (t : Tree) : List Tree :=
  if deep then t.inside else match t.kind with
    | .element _ => t.kids
    | _ => []

/-- The node is an element with this tag. -/
def Tree.tagged (tag : Str) (t : Tree) : Bool :=
  match t.kind with
  | .element e => e.hasTag tag
  | _ => false

/-- The values of the attribute at the ends of all paths that begin at a node. The node has to have the tag `tag`. -/
def Tree.follow (attr : Str) : Str → List (Bool × Str) → Tree → List Str
  | tag, [], t => (t.valueAt tag attr).toList
  | tag, (deep, tag') :: path, t => if t.tagged tag then (t.step deep).flatMap (Tree.follow attr tag' path) else []

open Syn in
/-- The hext of a path. -/
def pathText (attr key : Str) : Str → List (Bool × Str) → Str
  | tag, [] => lit "<" ++ tag ++ lit " " ++ attr ++ lit ":" ++ key ++ lit "/>"
  | tag, (false, tag') :: path => lit "<" ++ tag ++ lit ">" ++ pathText attr key tag' path ++ lit "</" ++ tag ++ lit ">"
  | tag, (true, tag') :: path => lit "<" ++ tag ++ lit ">{" ++ pathText attr key tag' path ++ lit "}</" ++ tag ++ lit ">"

/-- `maps` are the maps made of the lists of captured values `vss`, one for each. -/
inductive MapsOf : List (List (Str × Str)) → List (List (Str × Str)) → Prop
  | nil : MapsOf [] []
  | cons {vs m vss maps} : IsMap vs m → MapsOf vss maps → MapsOf (vs :: vss) (m :: maps)

/-! ## Paths of rules with any conditions and captures -/

/-- A rule that contains at most one other rule, as child rule or (`deep`) as nested rule. -/
inductive Path
  | last (i : RuleInfo)
  | step (i : RuleInfo) (deep : Bool) (p : Path)

def Path.rule : Path → Rule
  | .last i => .mk i none none []
  | .step i false p => .mk i (some p.rule) none []
  | .step i true p => .mk i none none [p.rule]

def Path.infos : Path → List RuleInfo
  | .last i => [i]
  | .step i _ p => i :: p.infos

/-- One step from a node, to places in the document. -/
def Loc.step (deep : Bool) (x : Loc) : List Loc :=
  if deep then x.self.under.flatten else match x.self.kind with
    | .element _ => locs x.self.kids
    | _ => []

/-- What a path finds at a node. `val i x` is what the rule `i` itself captures at `x`, if its tag and conditions hold there. The values
from inside come first; there has to be at least one match inside. -/
def Path.values (val : RuleInfo → Loc → Option (List (Str × Str))) : Path → Loc → Option (List (Str × Str))
  | .last i, x => val i x
  | .step i deep p, x =>
    match val i x with
    | none => none
    | some own =>
      let inner := (x.step deep).filterMap (p.values val)
      if inner = [] then none else some (inner.flatten ++ own)

/-- Neither optional nor greedy. -/
def Unmarked (i : RuleInfo) : Prop := i.optional = false ∧ i.greedy = false

/-- `val` is what the rules capture where their tags and conditions hold. -/
def IsVal (rx : RxEngine) (h : Heap) (n : Nat) (val : RuleInfo → Loc → Option (List (Str × Str))) (is : List RuleInfo) : Prop :=
  ∀ i ∈ is, ∀ x : Loc, x.Stored h n → ∀ vs, val i x = some vs ↔ Holds rx h i x ∧ ruleCapture rx h x.ptr i.caps = pure vs

/-- What a rule itself captures at a place, if its tag and conditions hold there. -/
def ownValues (rx : RxEngine) (h : Heap) (i : RuleInfo) (x : Loc) : Option (List (Str × Str)) :=
  match ruleMatches rx h i x.ptr, ruleCapture rx h x.ptr i.caps with
  | some (.ok true), some (.ok vs) => some vs
  | _, _ => none

end Hext
