import Verif.Spec.Reorder
/-!
# The conditions and the captures that the patterns of a tag stand for
-/

namespace Hext.Syn

/-- The condition that a pattern demands: `attr:name` demands the attribute, other captures demand nothing, and a
test is a condition by itself. -/
def Pat.condition : Pat → Option Pat
  | .capFn _ _ _ => none
  | .capAttr a _ _ optional => if optional then none else some (.hasAttr a false)
  | p => some p

/-- What a pattern captures; whether it demands the attribute is left aside. -/
def Pat.captured : Pat → Option Pat
  | .capFn fn ps n => some (.capFn fn ps n)
  | .capAttr a ps n _ => some (.capAttr a ps n true)
  | _ => none

/-- The captures of the patterns whose names are in `N`. -/
def capturedInto (N : Str → Bool) (ps : List Pat) : List Pat :=
  (ps.filterMap Pat.captured).filter fun p => p.captureName.any N

/-- The same tag with the same options and conditions; under the names `N` the same is captured. -/
structure Head.SameUpTo (N : Str → Bool) (h h' : Head) : Prop where
  tag : h.tag = h'.tag
  options : h.options = h'.options
  conds : h.conds = h'.conds
  pats : (h.pats.map (·.2)).filterMap Pat.condition = (h'.pats.map (·.2)).filterMap Pat.condition
  captures : capturedInto N (h.pats.map (·.2)) = capturedInto N (h'.pats.map (·.2))

/-- The same item, or an open tag that differs only in what it captures under names that are not in `N`. -/
def Item.SameUpTo (N : Str → Bool) (i i' : Item) : Prop :=
  i = i' ∨ ∃ h h' sc, i = .start h sc ∧ i' = .start h' sc ∧ h.SameUpTo N h'

/-- All patterns have a meaning, that is, all regular expressions in them are valid. -/
def Item.Valid (rx : RxEngine) : Item → Prop
  | .start h _ => ∀ p ∈ h.pats, ∃ x, p.2.meaning rx {} = some x
  | _ => True

/-- An open tag without captures. -/
def Item.NoCaptures : Item → Prop
  | .start h _ => ∀ p ∈ h.pats, p.2.captured = none
  | _ => True

end Hext.Syn
