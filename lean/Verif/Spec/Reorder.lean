import Verif.Spec.Similar
import Verif.Spec.Syntax
/-!
# Conditions and captures in another order
-/

namespace Hext

mutual
/-- The conditions are the same, except that what is listed in a `:not` may come in another order and repeatedly. -/
def Match.SameAs : Match → Match → Prop
  | .negate ms, m' => ∃ ms', m' = .negate ms' ∧ Match.EachIn ms ms' ∧ ∀ c, some c ∈ ms' → Match.OneOf ms c
  | m, m' => m = m'
/-- Each condition of the first list is the same as one of the second list. -/
def Match.EachIn : List (Option Match) → List (Option Match) → Prop
  | [], _ => True
  | none :: ms, ms' => Match.EachIn ms ms'
  | some m :: ms, ms' => (∃ c, some c ∈ ms' ∧ m.SameAs c) ∧ Match.EachIn ms ms'
/-- One of the conditions of the list is the same as `c`. -/
def Match.OneOf : List (Option Match) → Match → Prop
  | [], _ => False
  | none :: ms, c => Match.OneOf ms c
  | some m :: ms, c => m.SameAs c ∨ Match.OneOf ms c
end

/-- The same conditions, in any order, and each of them any number of times. -/
def SameConditions (ms ms' : List (Option Match)) : Prop := Match.EachIn ms ms' ∧ ∀ c, some c ∈ ms' → Match.OneOf ms c

/-- The same captures, in any order, except that captures with the same name keep their order. -/
def SameCaptures (cs cs' : List (Option Capture)) : Prop :=
  ∀ name, capturesInto (· = name) cs = capturesInto (· = name) cs'

/-- The rules differ only in the order of their conditions and captures. -/
def RuleInfo.Rearranged (i i' : RuleInfo) : Prop :=
  i' = { i with ms := i'.ms, caps := i'.caps } ∧ SameConditions i.ms i'.ms ∧ SameCaptures i.caps i'.caps

end Hext

namespace Hext.Syn

/-- The members of the one list are those of the other one, in any order and number. -/
def SameMembers {α : Type} (xs ys : List α) : Prop := ∀ x, x ∈ xs ↔ x ∈ ys

/-- The traits in a `:not` may come in another order. -/
def Cond.Rearranged (c c' : Cond) : Prop := c = c' ∨ ∃ ts ts', c = .not ts ∧ c' = .not ts' ∧ SameMembers ts ts'

/-- The name under which a pattern captures something. -/
def Pat.captureName : Pat → Option Str
  | .capFn _ _ n => some n.meaning
  | .capAttr _ _ n _ => some n.meaning
  | _ => none

/-- The same tag with the same options, conditions and patterns, each in any order and number; only the captures with the same name keep
their order. The whitespace may differ as well. -/
structure Head.Rearranged (h h' : Head) : Prop where
  tag : h.tag = h'.tag
  options : SameMembers h.options h'.options
  conds : ∀ c ∈ h.conds, ∃ c' ∈ h'.conds, c.Rearranged c'
  conds' : ∀ c' ∈ h'.conds, ∃ c ∈ h.conds, c.Rearranged c'
  pats : SameMembers (h.pats.map (·.2)) (h'.pats.map (·.2))
  captures : ∀ name, (h.pats.map (·.2)).filter (·.captureName = some name) = (h'.pats.map (·.2)).filter (·.captureName = some name)

/-- The same item, or an open tag that is written in another order. -/
def Item.Rearranged (i i' : Item) : Prop := i = i' ∨ ∃ h h' sc, i = .start h sc ∧ i' = .start h' sc ∧ h.Rearranged h'

/-- The trait is not a `:type-matches` with options. -/
def Trait.NoOptions : Trait → Prop
  | .typeMatches r => r.mods = []
  | _ => True

def Cond.NoOptions : Cond → Prop
  | .trait t => t.NoOptions
  | .not ts => ∀ t ∈ ts, t.NoOptions

/-- There is no `:type-matches` with options, which would apply to what follows (C41). -/
def Item.NoOptions : Item → Prop
  | .start h _ => ∀ c ∈ h.conds, c.NoOptions
  | _ => True

end Hext.Syn
