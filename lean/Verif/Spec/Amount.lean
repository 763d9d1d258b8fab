import Verif.Spec.Size
import Verif.Spec.Similar
/-!
# How much a result can contain
-/

namespace Hext

/-- How many values the result has under the names `N`. -/
def valuesInto (N : Str → Bool) (res : List (List (Str × Str))) : Nat := (res.map fun m => (m.filter fun p => N p.1).length).sum

mutual
/-- The number of captures under the names `N` in the rule, its siblings and the rules below. A capture in braces counts `k`
times; one in two pairs of braces, `k * k` times; and so on. -/
def Rule.captures (N : Str → Bool) (k : Nat) : Rule → Nat
  | .mk i c nx ns => (capturesInto N i.caps).length + Rule.capturesO N k c + Rule.capturesO N k nx + k * Rule.capturesL N k ns
def Rule.capturesO (N : Str → Bool) (k : Nat) : Option Rule → Nat
  | none => 0
  | some r => r.captures N k
def Rule.capturesL (N : Str → Bool) (k : Nat) : List Rule → Nat
  | [] => 0
  | r :: rs => r.captures N k + Rule.capturesL N k rs
end

end Hext
