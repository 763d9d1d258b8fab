import Verif.Model.ParserMemory
import Verif.Spec.Failing
/-!
# How `ParseHext` can end
-/

namespace Hext.Mem

/-- The outcomes that are not exceptions: undefined behaviour (as the overflow of an `int`) and assertions that fail. -/
def faultOf : PErr → Option Err
  | .ub | .overflow => some .ub
  | .assertFail => some .assertFail
  | _ => none

/-- Memory `m'` is memory `m` and the objects `S`, which are where no object has been before. -/
def Gained (m m' : Mem) (S : List Nat) : Prop :=
  m.fresh ≤ m'.fresh ∧ S.Nodup ∧ ∀ x, (x ∈ S → (m'.cell x).isSome ∧ m.cell x = none ∧ m.fresh ≤ x) ∧ (x ∉ S → m'.cell x = m.cell x)

end Hext.Mem
