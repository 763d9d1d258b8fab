import Verif.Spec.Utf8
import Verif.Spec.Similar
import Verif.Spec.Scripts
/-!
# Files with which all scripts agree
-/

namespace Hext.Script

open Binding

/-- The file `f` has a hext and the file `g` has HTML. Both are UTF-8 without carriage returns. The hext has no NUL, no ten digits in
a row, only pipes that do not take characters apart, and every name in it has a byte that is no digit and is not `__proto__`. The
document of the HTML is UTF-8 without NUL, and none of its nodes has more than 1147483648 children. -/
def CleanInputs (rx : RxEngine) (gumbo : Str → Heap × Ptr) (files : Str → Option Str) (f g : Str) : Prop :=
  ∃ hext html r t, files f = some hext ∧ files g = some html ∧ Utf8 hext ∧ Utf8 html ∧ (13 : Byte) ∉ hext ∧ (13 : Byte) ∉ html ∧
    (0 : Byte) ∉ hext ∧ NoLong hext ∧ Syn.Means rx hext r ∧ r.Whole rx ∧
    (r.All fun i => ∀ c, some c ∈ i.caps → c.resultName ≠ lit "__proto__" ∧ ∃ b ∈ c.resultName, ¬ (48 ≤ b ∧ b ≤ 57)) ∧
    IsDocument (gumbo html).1 1147483648 t ∧ t.ptr = (gumbo html).2 ∧ (gumbo html).1.Utf8 ∧ (gumbo html).1.NoNul

end Hext.Script
