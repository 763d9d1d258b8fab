import Verif.Spec.Size
/-!
# Rules that try each node once
-/

namespace Hext.Work

/-- Neither `?` nor `+`: the rule must match, exactly once. -/
def InfoOnce (i : RuleInfo) : Prop := i.optional = false ∧ i.greedy = false

end Hext.Work
