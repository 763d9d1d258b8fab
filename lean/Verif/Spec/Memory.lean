import Verif.Model.RuleMemory
/-!
# What it means that memory holds a rule

`HoldsRule c a r S`: the object at address `a` and the objects it owns form the rule `r`, and `S` lists
the addresses of all these objects. If `S` has no duplicates, every object has one owner.
-/

namespace Hext.Mem

/-- A null pointer is nothing, any other pointer leads to a `v`. -/
def HoldsPtr {α} (R : Addr → α → List Addr → Prop) : Option Addr → Option α → List Addr → Prop
  | none, none, S => S = []
  | some a, some v, S => R a v S
  | _, _, _ => False

/-- The elements of a vector, one after the other. -/
def HoldsVec {α β} (R : β → α → List Addr → Prop) : List β → List α → List Addr → Prop
  | [], [], S => S = []
  | b :: bs, v :: vs, S => ∃ S₁ S₂, R b v S₁ ∧ HoldsVec R bs vs S₂ ∧ S = S₁ ++ S₂
  | _, _, _ => False

def HoldsPipe (c : Cells) : Addr → Pipe → List Addr → Prop
  | a, .last t, S => c a = some (.pipe t none) ∧ S = [a]
  | a, .cons t p, S => ∃ b S', c a = some (.pipe t (some b)) ∧ HoldsPipe c b p S' ∧ S = a :: S'

def HoldsTest (c : Cells) : Addr → ValueTest → List Addr → Prop
  | a, .negateNull, S => c a = some (.negateTest none) ∧ S = [a]
  | a, .negate t, S => ∃ b S', c a = some (.negateTest (some b)) ∧ HoldsTest c b t S' ∧ S = a :: S'
  | a, t, S => c a = some (.test t) ∧ S = [a]

def HoldsCapture (c : Cells) : Addr → Capture → List Addr → Prop
  | a, .attribute attr name p, S => ∃ q S', c a = some (.attributeCapture attr name q) ∧
      HoldsPtr (HoldsPipe c) q p S' ∧ S = a :: S'
  | a, .function f name p, S => ∃ q S', c a = some (.functionCapture f name q) ∧
      HoldsPtr (HoldsPipe c) q p S' ∧ S = a :: S'

mutual
def HoldsMatch (c : Cells) : Addr → Match → List Addr → Prop
  | a, .attribute name t, S => ∃ q S', c a = some (.attributeMatch name q) ∧
      HoldsPtr (HoldsTest c) q t S' ∧ S = a :: S'
  | a, .functionValue f t, S => ∃ q S', c a = some (.functionValueMatch f q) ∧
      HoldsPtr (HoldsTest c) q t S' ∧ S = a :: S'
  | a, .negate ms, S => ∃ qs S', c a = some (.negateMatch qs) ∧ HoldsMatches c qs ms S' ∧ S = a :: S'
  | a, m, S => c a = some (.match_ m) ∧ S = [a]

def HoldsMatchPtr (c : Cells) : Option Addr → Option Match → List Addr → Prop
  | none, none, S => S = []
  | some a, some v, S => HoldsMatch c a v S
  | _, _, _ => False

def HoldsMatches (c : Cells) : List (Option Addr) → List (Option Match) → List Addr → Prop
  | [], [], S => S = []
  | b :: bs, v :: vs, S => ∃ S₁ S₂, HoldsMatchPtr c b v S₁ ∧ HoldsMatches c bs vs S₂ ∧ S = S₁ ++ S₂
  | _, _, _ => False
end

mutual
def HoldsRule (c : Cells) : Addr → Rule → List Addr → Prop
  | a, .mk i ch nx ns, S => ∃ o S₁ S₂ S₃ S₄ S₅, c a = some (.rule o) ∧
      (o.tag = i.tag ∧ o.optional = i.optional ∧ o.greedy = i.greedy ∧ o.tagname = i.tagname) ∧
      HoldsRulePtr c o.child ch S₁ ∧ HoldsRulePtr c o.next nx S₂ ∧ HoldsRules c o.nested ns S₃ ∧
      HoldsVec (HoldsPtr (HoldsMatch c)) o.ms i.ms S₄ ∧
      HoldsVec (HoldsPtr (HoldsCapture c)) o.caps i.caps S₅ ∧
      S = a :: (S₁ ++ (S₂ ++ (S₃ ++ (S₄ ++ S₅))))

def HoldsRulePtr (c : Cells) : Option Addr → Option Rule → List Addr → Prop
  | none, none, S => S = []
  | some a, some v, S => HoldsRule c a v S
  | _, _, _ => False

def HoldsRules (c : Cells) : List Addr → List Rule → List Addr → Prop
  | [], [], S => S = []
  | b :: bs, v :: vs, S => ∃ S₁ S₂, HoldsRule c b v S₁ ∧ HoldsRules c bs vs S₂ ∧ S = S₁ ++ S₂
  | _, _, _ => False
end

end Hext.Mem
