import Verif.Spec.Similar
/-!
# Renaming what is captured
-/

namespace Hext

/-- The capture with another name. -/
def Capture.rename (f : Str → Str) : Capture → Capture
  | .attribute attr name pipe => .attribute attr (f name) pipe
  | .function fn name pipe => .function fn (f name) pipe

def RuleInfo.rename (f : Str → Str) (i : RuleInfo) : RuleInfo := { i with caps := i.caps.map (Option.map (Capture.rename f)) }

mutual
/-- The rule with other names for all that it captures. -/
def Rule.rename (f : Str → Str) : Rule → Rule
  | .mk i c nx ns => .mk (i.rename f) (Rule.renameO f c) (Rule.renameO f nx) (Rule.renameL f ns)
def Rule.renameO (f : Str → Str) : Option Rule → Option Rule
  | none => none
  | some r => some (r.rename f)
def Rule.renameL (f : Str → Str) : List Rule → List Rule
  | [] => []
  | r :: rs => r.rename f :: Rule.renameL f rs
end

/-- Captured pairs with other names. -/
def renamePairs (f : Str → Str) (vs : List (Str × Str)) : List (Str × Str) := vs.map fun p => (f p.1, p.2)

/-- The values of a name, in order. -/
def valuesUnder (name : Str) (m : List (Str × Str)) : List Str := (m.filter (·.1 = name)).map (·.2)

end Hext
