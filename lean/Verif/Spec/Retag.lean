import Verif.Spec.Similar
import Verif.Spec.Text
/-!
# Elements of types that a hext does not name
-/

namespace Hext

/-- The same kind of node, except that an element may have another tag. No rule is for the type of either element, nor for any node. All custom
elements are of one type. -/
def Kind.Retagged (r : Rule) (k k' : Kind) : Prop :=
  k = k' ∨ ∃ e tag name, k = .element e ∧ k' = .element { e with tag := tag, origName := name } ∧
    r.All fun i => i.tag ≠ .any ∧ i.tag ≠ .tag e.tag ∧ i.tag ≠ .tag tag

/-- The same, where an inline element is exchanged for an inline element only, and a block for a block. -/
def Kind.RetaggedInline (r : Rule) (k k' : Kind) : Prop := k.Retagged r k' ∧ wrapsText k = wrapsText k'

/-- The same kind of node, except that a standard element may be another standard element. The names of both do not occur in the text `s`, in
any case. -/
def Kind.OtherTag (s : Str) (k k' : Kind) : Prop :=
  k = k' ∨ ∃ e n n' name, e.tag = .known n ∧ k = .element e ∧ k' = .element { e with tag := .known n', origName := name } ∧
    ¬ n <:+: s.map toLowerB ∧ ¬ n' <:+: s.map toLowerB

/-- A hext in which no tag is written as `*`, with or without marks. -/
def NoStar (s : Str) : Prop := ¬ lit "<*" <:+: s ∧ ¬ lit "?*" <:+: s ∧ ¬ lit "+*" <:+: s

end Hext
