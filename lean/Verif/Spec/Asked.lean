import Verif.Spec.Links
import Verif.Spec.Synonyms
/-!
# Asking for a text

What a hext asks for that compares an attribute with a text in quotes, and which texts can stand in quotes.
-/

namespace Hext.Syn

/-- The text `v` can stand between two quotes `q`: each `q` inside of it follows a backslash, and it does not end in a backslash. -/
def FitsQuotes (q : Byte) (v : Str) : Prop :=
  (q = 34 ∨ q = 39) ∧ (∀ u w, v = u ++ q :: w → ∃ u', u = u' ++ [92]) ∧ ∀ u, v ≠ u ++ [92]

/-- What the value `s` of an attribute has to be like: `==` asks for the same text, `^=`, `*=` and `$=` for a text that begins with `v`,
contains it or ends in it, and `=` for one that has all words of `v`. -/
def Op.Fits (v s : Str) : Op → Prop
  | .equals => s = v
  | .beginsWith => ∃ t, s = v ++ t
  | .contains => ∃ t u, s = t ++ v ++ u
  | .endsWith => ∃ t, s = t ++ v
  | .words => ∀ w ∈ wordsOf v, w ≠ [] ∧ Spec.OccursAsWord w s

end Hext.Syn

namespace Hext

/-- The value of `attr2` of an element with this tag, if the value of its attribute `attr` is one that is asked for. -/
def Tree.askedAt (tag attr : Str) (p : Str → Prop) [DecidablePred p] (attr2 : Str) (t : Tree) : Option Str :=
  match t.kind with
  | .element e => if e.hasTag tag = true ∧ (e.valueOf attr).any (fun s => decide (p s)) = true then e.valueOf attr2 else none
  | _ => none

mutual
/-- What `f` finds below a node: first at its children, then below its first child, and so on. -/
def Tree.foundBelow (f : Tree → Option Str) : Tree → List Str
  | .node _ k kids =>
    match k with
    | .element _ => kids.filterMap f ++ foundBelowL f kids
    | _ => []
def foundBelowL (f : Tree → Option Str) : List Tree → List Str
  | [] => []
  | t :: ts => t.foundBelow f ++ foundBelowL f ts
end

/-- What `f` finds in a document. -/
def Tree.found (f : Tree → Option Str) (t : Tree) : List Str := (f t).toList ++ t.foundBelow f

end Hext
