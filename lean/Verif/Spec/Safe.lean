import Verif.Spec.Doc
import Verif.Model.Rule
/-!
# Rules on which extraction is safe

A user can build a rule whose evaluation is undefined: a match or capture holding an empty
`std::function`, or an nth-child match whose numbers overflow `int`. Everything else is safe.
-/

namespace Hext

/-- The arguments of an nth-child match fit: they are `int`s, `-step` is an `int`, and so is the
distance between `shift` and any position (`0 .. n`) in a list of `n` siblings. -/
def NthSafe (n : Nat) (step shift : Int) : Prop :=
  intMin < step ∧ step ≤ intMax ∧ intMin ≤ shift ∧ shift ≤ intMax ∧ (0 < step → n - shift ≤ intMax)

mutual
def Match.Safe (n : Nat) : Match → Prop
  | .function f => f.isSome
  | .functionValue f _ => f.isSome
  | .negate ms => Match.SafeL n ms
  | .nthChild step shift _ _ => NthSafe n step shift
  | _ => True
def Match.SafeL (n : Nat) : List (Option Match) → Prop
  | [] => True
  | m :: ms => Match.SafeO n m ∧ Match.SafeL n ms
def Match.SafeO (n : Nat) : Option Match → Prop
  | none => True
  | some m => m.Safe n
end

def Capture.Safe : Capture → Prop
  | .attribute _ _ _ => True
  | .function f _ _ => f.isSome

def RuleInfo.Safe (n : Nat) (i : RuleInfo) : Prop :=
  Match.SafeL n i.ms ∧ ∀ c, some c ∈ i.caps → c.Safe

mutual
/-- A condition on every rule of a rule tree. -/
def Rule.All (P : RuleInfo → Prop) : Rule → Prop
  | .mk i c nx ns => P i ∧ Rule.AllO P c ∧ Rule.AllO P nx ∧ Rule.AllL P ns
def Rule.AllO (P : RuleInfo → Prop) : Option Rule → Prop
  | none => True
  | some r => r.All P
def Rule.AllL (P : RuleInfo → Prop) : List Rule → Prop
  | [] => True
  | r :: rs => r.All P ∧ Rule.AllL P rs
end

/-- Every rule of the tree is safe for documents with at most `n` children per node. -/
def Rule.Safe (n : Nat) (r : Rule) : Prop := r.All (RuleInfo.Safe n)

/-- There are no ten digits in a row. -/
def NoLong (s : Str) : Prop := ∀ d, d <:+: s → (∀ x ∈ d, 48 ≤ x ∧ x ≤ 57) → d.length < 10

end Hext
