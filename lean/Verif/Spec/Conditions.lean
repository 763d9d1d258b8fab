import Verif.Spec.Doc
import Verif.Spec.Text
import Verif.Model.Rule
/-!
# What the conditions of a rule mean

A declarative meaning of value tests, conditions ("matches") and tags, on documents as trees.
-/

namespace Hext

/-- The computation returns a truth value, which says whether `P` holds. -/
def Decides (x : E Bool) (P : Prop) : Prop := ∃ b, x = pure b ∧ (b = true ↔ P)

/-- What a value test accepts. The subject is `none` if there is no value (a missing attribute). -/
def ValueTest.Accepts (rx : RxEngine) : ValueTest → Option Str → Prop
  | .beginsWith l, s => ∃ t, s = some (l ++ t)
  | .endsWith l, s => ∃ t, s = some (t ++ l)
  | .contains l, s => ∃ t u, s = some (t ++ l ++ u)
  | .equals l, s => s = some l
  | .containsWords ws, s => ws ≠ [] ∧ ∃ v, s = some v ∧ ∀ w ∈ ws, w ≠ [] ∧ Spec.OccursAsWord w v
  | .regex r, s => ∃ v, s = some v ∧ (rx.search r v).isSome = true
  | .negateNull, s => s = none
  | .negate t, s => ¬ t.Accepts rx s

/-- No word of a word list contains a space (true of all lists made from a string). -/
def ValueTest.WordsOk : ValueTest → Prop
  | .containsWords ws => ∀ w ∈ ws, 32 ∉ w
  | .negate t => t.WordsOk
  | _ => True

/-- `pos` is one of `step * 0 + shift`, `step * 1 + shift`, `step * 2 + shift`, ... -/
def OnStep (step shift : Int) (pos : Nat) : Prop := ∃ k : Nat, (pos : Int) = step * k + shift

/-- An element; if a tag is given, an element with that tag. -/
def isCounted (ofType : Option Tag) (t : Tree) : Bool :=
  match t.kind with
  | .element e => ofType.all (· == e.tag)
  | _ => false

/-- The 1-based position of a node among its counted siblings, from the first or from the last one. The
root element has no siblings; its position is 0. -/
def Loc.position (first : Bool) (ofType : Option Tag) (l : Loc) : Nat :=
  if l.inElem then ((if first then l.before else l.after).filter (isCounted ofType)).length + 1 else 0

/-- The names are equal up to ASCII case. -/
def SameName (a b : Str) : Prop := a.map toLowerB = b.map toLowerB

/-- The attribute that a name selects: the first one with this name, up to ASCII case. The name ends at
its first NUL byte. -/
def IsAttr (e : Elem) (name : Str) (a : Attr) : Prop :=
  ∃ before after, e.attrs = before ++ a :: after ∧ SameName a.name (cstr name) ∧
    ∀ b ∈ before, ¬ SameName b.name (cstr name)

/-- The element has no attribute of this name. -/
def NoAttr (e : Elem) (name : Str) : Prop := ∀ a ∈ e.attrs, ¬ SameName a.name (cstr name)

section
variable (rx : RxEngine) (h : Heap)

mutual
/-- When a condition holds for a node. `CaptureFn.val` is the value of a builtin function. -/
def Match.Means (l : Loc) : Match → Prop
  | .attribute name none => ∃ e a, l.self.kind = .element e ∧ IsAttr e name a
  | .attribute name (some t) => ∃ e, l.self.kind = .element e ∧
      ((NoAttr e name ∧ t.Accepts rx none) ∨
       ∃ a v, IsAttr e name a ∧ a.value = some v ∧ t.Accepts rx (some v))
  | .attributeCount k => ∃ e, l.self.kind = .element e ∧ e.attrs.length = k
  | .childCount k => ∃ e, l.self.kind = .element e ∧ (l.self.kids.filter (·.kind.isElement)).length = k
  | .function f => ∃ g, f = some g ∧ g h l.ptr = true
  | .functionValue f t => ∃ g u, f = some g ∧ t = some u ∧ u.Accepts rx (some (cstr (g.val h l.self)))
  | .negate ms => Match.NoneMeans l ms
  | .nthChild step shift first ofType => ∃ e, l.self.kind = .element e ∧
      OnStep step shift (l.position first (if ofType then some e.tag else none))
  | .onlyChild ofType => ∃ e, l.self.kind = .element e ∧ l.inElem = true ∧
      ∀ t ∈ l.before ++ l.after, isCounted (if ofType then some e.tag else none) t = false
  | .typeRegex r => (rx.search r (match l.self.kind with
      | .element ⟨.known n, _, _⟩ => n
      | .element ⟨.unknown, o, _⟩ => o.getD []
      | _ => [])).isSome = true
/-- None of the conditions holds. -/
def Match.NoneMeans (l : Loc) : List (Option Match) → Prop
  | [] => True
  | none :: ms => Match.NoneMeans l ms
  | some m :: ms => ¬ m.Means l ∧ Match.NoneMeans l ms
end

end

/-- When the tag of a rule agrees with a node: `any` agrees with every node; a known tag with the elements
of that tag; an unknown tag with the elements of unknown tag whose name in the source is the same up to
ASCII case. -/
def TagMeans (i : RuleInfo) (l : Loc) : Prop :=
  i.tag = .any ∨
  (∃ n e, i.tag = .tag (.known n) ∧ l.self.kind = .element e ∧ e.tag = .known n) ∨
  (∃ e name orig, i.tag = .tag .unknown ∧ l.self.kind = .element e ∧ e.tag = .unknown ∧
    i.tagname = some name ∧ e.origName = some orig ∧ SameName name orig)

mutual
/-- All word lists of the condition are made of words without spaces. -/
def Match.WordsOk : Match → Prop
  | .attribute _ (some t) => t.WordsOk
  | .functionValue _ (some t) => t.WordsOk
  | .negate ms => Match.WordsOkL ms
  | _ => True
def Match.WordsOkL : List (Option Match) → Prop
  | [] => True
  | none :: ms => Match.WordsOkL ms
  | some m :: ms => m.WordsOk ∧ Match.WordsOkL ms
end

end Hext
