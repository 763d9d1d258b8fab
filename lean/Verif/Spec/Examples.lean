import Verif.Model.Examples
import Verif.Spec.Extract
/-!
# What the example programs chaining and mixed print
-/

namespace Hext.Examples

/-- The rule of chaining.cpp as a hext. -/
def chainingHext : Str := lit "<div:attribute-count(0)><ul:attribute-count(0)><li><a href:link/></li></ul></div>"

/-- The comment in mixed.cpp:61-66. -/
def mixedHext : Str :=
  lit "<a href:href>\n  <img src:img />\n  <p @text:par>\n    <?span @text:span />\n  </p>\n</a>"

/-- The pairs `number: k + 1` to `number: k + c`. -/
def numbers (k c : Nat) : List (Str × Str) := (List.range' (k + 1) c).map fun i => (lit "number", decimal i)

/-- The maps `ms'` are the maps `ms` with one number for each pair that is named `span`; the numbers go on from map to map, after `k`. -/
inductive Numbered : Nat → List (List (Str × Str)) → List (List (Str × Str)) → Prop
  | nil {k} : Numbered k [] []
  | cons {k c m m' ms ms'} : (m.filter fun p => p.1 = lit "span").length = c → IsMap (m ++ numbers k c) m' → Numbered (k + c) ms ms' →
      Numbered k (m :: ms) (m' :: ms')

/-- How a pair is shown: its name, a colon, a space, its value and a line break. -/
def shown (p : Str × Str) : Str := p.1 ++ [58, 32] ++ p.2 ++ [10]

end Hext.Examples
