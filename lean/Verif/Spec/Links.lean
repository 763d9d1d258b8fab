import Verif.Spec.Conditions
/-!
# What `<tag attr:key/>` stands for
-/

namespace Hext

/-- The element has this tag. The name is compared without regard to case: for names that HTML knows with the name of the element,
for other names with the name in the source. -/
def Elem.hasTag (tag : Str) (e : Elem) : Bool :=
  if tag.map toLowerB ∈ knownTagNames.map lit then decide (e.tag = .known (tag.map toLowerB))
  else decide (e.tag = .unknown) && e.origName.any fun o => decide (tag.map toLowerB = o.map toLowerB)

/-- The value of the first attribute with this name, compared without regard to case. -/
def Elem.valueOf (attr : Str) (e : Elem) : Option Str :=
  (e.attrs.find? fun a => decide (a.name.map toLowerB = attr.map toLowerB)).bind (·.value)

/-- The value of the attribute of an element with this tag. -/
def Tree.valueAt (tag attr : Str) (t : Tree) : Option Str :=
  match t.kind with
  | .element e => if e.hasTag tag then e.valueOf attr else none
  | _ => none

mutual
/-- The values below a node: first those of its children, then those below its first child, and so on. -/
def Tree.valuesBelow (tag attr : Str) : Tree → List Str
  | .node _ k kids =>
    match k with
    | .element _ => kids.filterMap (Tree.valueAt tag attr) ++ valuesBelowL tag attr kids
    | _ => []
def valuesBelowL (tag attr : Str) : List Tree → List Str
  | [] => []
  | t :: ts => t.valuesBelow tag attr ++ valuesBelowL tag attr ts
end

/-- The values in a document. -/
def Tree.values (tag attr : Str) (t : Tree) : List Str := (t.valueAt tag attr).toList ++ t.valuesBelow tag attr

end Hext
