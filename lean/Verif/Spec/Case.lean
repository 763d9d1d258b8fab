import Verif.Spec.Syntax
import Verif.Spec.Conditions
/-!
# Hexts with the names of tags and attributes in other case
-/

namespace Hext.Syn

/-- `f` changes the case of ASCII letters only. -/
def Recasing (f : Str → Str) : Prop := ∀ s, SameName (f s) s

/-- Write the name of the attribute in another way. -/
def Pat.rename (f : Str → Str) : Pat → Pat
  | .capFn fn ps n => .capFn fn ps n
  | .capAttr a ps n o => .capAttr (f a) ps n o
  | .testFn fn t neg => .testFn fn t neg
  | .testAttr a t neg => .testAttr (f a) t neg
  | .hasAttr a neg => .hasAttr (f a) neg

/-- Write the names of the tag and of the attributes in another way. -/
def Head.rename (f : Str → Str) (h : Head) : Head := { h with tag := f h.tag, pats := h.pats.map fun p => (p.1, p.2.rename f) }

def Item.rename (f : Str → Str) : Item → Item
  | .start h sc => .start (h.rename f) sc
  | .stop t => .stop (f t)
  | i => i

/-- ASCII letters in lower case. -/
def lowerCase (s : Str) : Str := s.map toLowerB

/-- ASCII letters in upper case. -/
def upperCase (s : Str) : Str := s.map toUpperB

/-- The items are the same, up to the case of the names of tags and attributes. -/
def SameUpToCase (is is' : List Item) : Prop := is.map (Item.rename lowerCase) = is'.map (Item.rename lowerCase)

end Hext.Syn
