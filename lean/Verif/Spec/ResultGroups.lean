import Verif.Spec.Extract
/-!
# Which groups a result stands for

A result of `Rule::extract` is a list of maps. It stands for a list of groups, each a list of pairs (rule,
node): the maps are those of the groups, without the empty ones.
-/

namespace Hext

/-- `res` are the maps of the groups `gs`, without the empty ones: every pair of a group contributes what its
rule captures from its node. -/
def StandsFor (rx : RxEngine) (h : Heap) (res : List (List (Str × Str))) (gs : List Found) : Prop :=
  ∃ maps, Maps rx h gs maps ∧ res = maps.filter (· ≠ [])

end Hext
