import Verif.Model.Throwing
/-!
# What C67 is stated with
-/

namespace Hext.Throwing

/-- Some call throws. -/
def Throws.Any (t : Throws) : Prop :=
  (∃ r s, t.search r s = true) ∨ (∃ r s f, t.replace r s f = true) ∨ (∃ f h n, t.matchFn f h n = true) ∨
    ∃ f h n, t.captureFn f h n = true

/-- Two engines that give the same answers where the calls do not throw. -/
def SameAnswers (t : Throws) (rx rx' : RxEngine) : Prop :=
  (∀ r s, t.search r s = false → rx.search r s = rx'.search r s) ∧
  ∀ r s f, t.replace r s f = false → rx.replace r s f = rx'.replace r s f

end Hext.Throwing
