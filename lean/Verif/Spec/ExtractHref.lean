import Verif.Model.ExtractHref
import Verif.Spec.Links
/-!
# What extract-href prints
-/

namespace Hext.ExtractHref

open scoped List

/-- Not empty, and it begins neither with `#` nor with `javascript:`. -/
def Useful (v : Str) : Prop := v ≠ [] ∧ ¬ lit "#" <+: v ∧ ¬ lit "javascript:" <+: v

instance (v : Str) : Decidable (Useful v) := inferInstanceAs (Decidable (_ ∧ _ ∧ _))

/-- The base: the argument, or else the `href` of the first `base` element that has one, or else the empty text. -/
def baseOf (arg : Option Str) (t : Tree) : Str := arg.getD ((t.values (lit "base") (lit "href")).head?.getD [])

/-- The useful links of a document. -/
def links (t : Tree) : List Str := (t.values (lit "a") (lit "href")).filter fun v => decide (Useful v)

/-- Each link resolved, one per line. If one URI is malformed then there is no output at all. -/
def expected (u : Uris) (arg : Option Str) (t : Tree) : End :=
  match u.parse (baseOf arg t) with
  | none => .terminate
  | some b =>
    if ∃ v ∈ links t, (u.resolve b v).isNone then .terminate
    else .exit ((links t).flatMap fun v => ((u.resolve b v).map u.text).getD [] ++ [10])

end Hext.ExtractHref
