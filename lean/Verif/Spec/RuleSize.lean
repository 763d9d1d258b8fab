import Verif.Model.Rule
/-!
# How many objects a rule consists of, and how deep they are nested

A rule owns its child, its next sibling, its nested rules, its matches and its captures.
-/

namespace Hext

/-- The largest of the numbers. -/
def deepest {α} (f : α → Nat) : List α → Nat
  | [] => 0
  | a :: as => max (f a) (deepest f as)

/-- The sum of the numbers. -/
def total {α} (f : α → Nat) : List α → Nat
  | [] => 0
  | a :: as => f a + total f as

/-! ## Depth: the number of objects on the longest chain of owners -/

def Pipe.depth : Pipe → Nat
  | .last _ => 1
  | .cons _ p => 1 + p.depth

def ValueTest.depth : ValueTest → Nat
  | .negate t => 1 + t.depth
  | _ => 1

def Capture.depth : Capture → Nat
  | .attribute _ _ p | .function _ _ p => 1 + (p.map Pipe.depth).getD 0

mutual
def Match.depth : Match → Nat
  | .attribute _ t | .functionValue _ t => 1 + (t.map ValueTest.depth).getD 0
  | .negate ms => 1 + Match.depthL ms
  | _ => 1
def Match.depthO : Option Match → Nat
  | none => 0
  | some m => m.depth
def Match.depthL : List (Option Match) → Nat
  | [] => 0
  | m :: ms => max (Match.depthO m) (Match.depthL ms)
end

/-- The matches and captures of a rule. -/
def RuleInfo.depth (i : RuleInfo) : Nat :=
  max (deepest Match.depthO i.ms) (deepest (fun c => (c.map Capture.depth).getD 0) i.caps)

mutual
def Rule.depth : Rule → Nat
  | .mk i c nx ns => 1 + max i.depth (max (Rule.depthO c) (max (Rule.depthO nx) (Rule.depthL ns)))
def Rule.depthO : Option Rule → Nat
  | none => 0
  | some r => r.depth
def Rule.depthL : List Rule → Nat
  | [] => 0
  | r :: rs => max r.depth (Rule.depthL rs)
end

/-! ## The number of objects -/

def Pipe.objects : Pipe → Nat
  | .last _ => 1
  | .cons _ p => 1 + p.objects

def ValueTest.objects : ValueTest → Nat
  | .negate t => 1 + t.objects
  | _ => 1

def Capture.objects : Capture → Nat
  | .attribute _ _ p | .function _ _ p => 1 + (p.map Pipe.objects).getD 0

mutual
def Match.objects : Match → Nat
  | .attribute _ t | .functionValue _ t => 1 + (t.map ValueTest.objects).getD 0
  | .negate ms => 1 + Match.objectsL ms
  | _ => 1
def Match.objectsO : Option Match → Nat
  | none => 0
  | some m => m.objects
def Match.objectsL : List (Option Match) → Nat
  | [] => 0
  | m :: ms => Match.objectsO m + Match.objectsL ms
end

/-- The matches and captures of a rule. -/
def RuleInfo.objects (i : RuleInfo) : Nat :=
  total Match.objectsO i.ms + total (fun c => (c.map Capture.objects).getD 0) i.caps

mutual
def Rule.objects : Rule → Nat
  | .mk i c nx ns => 1 + i.objects + Rule.objectsO c + Rule.objectsO nx + Rule.objectsL ns
def Rule.objectsO : Option Rule → Nat
  | none => 0
  | some r => r.objects
def Rule.objectsL : List Rule → Nat
  | [] => 0
  | r :: rs => r.objects + Rule.objectsL rs
end

end Hext
