import Verif.Spec.Extract
import Verif.Model.Matching
/-!
# What rules inside of a rule contribute

A rule that is nested in another one contributes to a match of the outer rule what it extracts when it is started at the first child of
the matched element. A child rule contributes the captures of its groups among the children of that element.
-/

namespace Hext

/-- A node that the outer rule matches: the map of this match `before` a rule was added, and `after`, if there still is a match. -/
structure MatchChange where
  node : Loc
  before : List (Str × Str)
  after : Option (List (Str × Str))

/-- The outcomes of two extractions, `res` before a rule was added to the sole rule `r`, and `res'` after that. There is one entry for
each node that `r` matches, in the order of the search. Maps without values are not part of a result. -/
structure Compared (rx : RxEngine) (h : Heap) (r : Rule) (l : Loc) (res res' : List (List (Str × Str))) (es : List MatchChange) : Prop where
  order : (es.map (·.node)).Sublist l.searched.flatten
  nodes : ∀ x ∈ l.searched.flatten, x ∈ es.map (·.node) ↔ Sat (Holds rx h) r x
  before : res = (es.map (·.before)).filter (· ≠ [])
  after : res' = (es.filterMap (·.after)).filter (· ≠ [])

/-- What the nested rule `d` changes. There still is a match exactly if the node is an element with children and the rules of `d` occur
somewhere below. The values that `d` extracts, started at the first child, then come behind the values of the rules inside of `r` that
were there before, and in front of the values that `r` itself captures. -/
def AddsNested (rx : RxEngine) (h : Heap) (r d : Rule) (e : MatchChange) : Prop :=
  (e.after.isSome = true ↔ e.node.self.kind.isElement = true ∧ e.node.self.kids ≠ [] ∧
    ∃ ks ∈ e.node.self.under, Embeds (Holds rx h) d.siblings ks) ∧
  ∃ inside own, ruleCapture rx h e.node.ptr r.info.caps = pure own ∧ IsMap (inside ++ own) e.before ∧
    ∀ m, e.after = some m → ∃ first dres, e.node.self.kids.head? = some first ∧ extract rx h d first.ptr 0 = pure dres ∧
      IsMap (inside ++ dres.flatten ++ own) m

/-- What the first child rule `c` changes. There still is a match exactly if the node is an element with children and the rules of
`c` occur among the children. The values of the groups of `c` then come in front of the values that were there before. -/
def AddsChild (rx : RxEngine) (h : Heap) (c : Rule) (e : MatchChange) : Prop :=
  (e.after.isSome = true ↔ e.node.self.kind.isElement = true ∧ e.node.self.kids ≠ [] ∧
    Embeds (Holds rx h) c.siblings (locs e.node.self.kids)) ∧
  ∃ vs, IsMap vs e.before ∧ ∀ m, e.after = some m → ∃ gs cs, Groups (Holds rx h) c.siblings (locs e.node.self.kids) gs ∧
    Captured rx h gs.flatten cs ∧ IsMap (cs ++ vs) m

end Hext
