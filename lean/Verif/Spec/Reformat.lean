import Verif.Spec.Similar
import Verif.Spec.Text
/-!
# Documents that differ in their layout

C104: the whitespace in texts. C105: whitespace between tags. C106: everything but elements and their attributes.
-/

namespace Hext

/-- Whitespace, at least one byte. -/
def IsGap (w : Str) : Prop := w ≠ [] ∧ ∀ c ∈ w, Spec.Ws c

/-- The texts differ only in what the gaps between words are made of: a gap of the one is a gap of the other, perhaps shorter
or longer. -/
inductive Respaced : Str → Str → Prop
  | nil : Respaced [] []
  | byte {c : Byte} {s s' : Str} : Respaced s s' → Respaced (c :: s) (c :: s')
  | gap {w w' s s' : Str} : IsGap w → IsGap w' → Respaced s s' → Respaced (w ++ s) (w' ++ s')

/-- The text of a text node. Gumbo tells text that consists of whitespace from other text. -/
def Kind.IsTextWith (k : Kind) (s : Str) : Prop := k = .text s ∨ k = .whitespace s

/-- The same kind of node, except that the gaps of a text may differ. -/
def Kind.Respaced (k k' : Kind) : Prop := k = k' ∨ ∃ s s', k.IsTextWith s ∧ k'.IsTextWith s' ∧ Hext.Respaced s s'

/-- A text node that consists of whitespace. -/
def Tree.IsSpace (t : Tree) : Prop := ∃ s, t.kind.IsTextWith s ∧ ∀ c ∈ s, Spec.Ws c

/-- Is there the boundary of a block in front of these siblings? If there are none, it is up to the end of the parent: `e` says
whether the parent is a block. -/
def blockAhead (e : Bool) : List Tree → Bool
  | [] => e
  | t :: _ => wrapsText t.kind

mutual
/-- The second tree is the first without some of the whitespace that is next to the boundary of a block: next to a block, or at
the beginning or the end of a block. The gaps in the texts may differ. -/
def Tree.Unindented : Tree → Tree → Prop
  | .node _ k kids, t' => k.Respaced t'.kind ∧ Tree.UnindentedL (wrapsText k) (wrapsText k) kids t'.kids
/-- For siblings; `b` says whether they are behind the boundary of a block, and `e` whether the end of their parent is one. -/
def Tree.UnindentedL (b e : Bool) : List Tree → List Tree → Prop
  | [], ts' => ts' = []
  | t :: ts, ts' =>
    (t.IsSpace ∧ (b = true ∨ blockAhead e ts = true) ∧ Tree.UnindentedL b e ts ts') ∨
    ∃ t' us, ts' = t' :: us ∧ t.Unindented t' ∧ Tree.UnindentedL (wrapsText t.kind) e ts us
end

mutual
/-- The tree without everything below its root that is not an element: without texts, whitespace, comments, CDATA sections and
templates. -/
def Tree.bare : Tree → Tree
  | .node p k kids => .node p k (bareL kids)
def bareL : List Tree → List Tree
  | [] => []
  | t :: ts => if t.kind.isElement then t.bare :: bareL ts else bareL ts
end

/-- The same element, or two nodes that are not elements. -/
def Kind.SameElement (k k' : Kind) : Prop := k = k' ∨ ((∀ e, k ≠ .element e) ∧ ∀ e, k' ≠ .element e)

end Hext
