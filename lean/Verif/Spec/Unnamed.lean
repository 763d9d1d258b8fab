import Verif.Spec.Similar
/-!
# Attributes that a hext does not name
-/

namespace Hext

mutual
/-- The attributes that the condition asks for are among `N`; it does not count attributes. -/
def Match.Names (N : Str → Prop) : Match → Prop
  | .attribute name _ => N name
  | .attributeCount _ => False
  | .negate ms => Match.NamesL N ms
  | _ => True
def Match.NamesL (N : Str → Prop) : List (Option Match) → Prop
  | [] => True
  | none :: ms => Match.NamesL N ms
  | some m :: ms => m.Names N ∧ Match.NamesL N ms
end

/-- The attributes that the rule asks for or captures are among `N`. -/
def RuleInfo.Names (N : Str → Prop) (i : RuleInfo) : Prop :=
  Match.NamesL N i.ms ∧ ∀ attr name pipe, some (.attribute attr name pipe) ∈ i.caps → N attr

/-- The same kind of node, except that an element may have other attributes, as long as each name of `N` selects the same one, or none. -/
def Kind.SameNamed (N : Str → Prop) (k k' : Kind) : Prop :=
  k = k' ∨ ∃ e as, k = .element e ∧ k' = .element { e with attrs := as } ∧
    ∀ name, N name → ∀ a, IsAttr e name a ↔ IsAttr { e with attrs := as } name a

/-- The same kind of node, except that some of the attributes of an element are missing. None of these has a name of `N`, up to case. -/
def Kind.Dropped (N : Str → Prop) (k k' : Kind) : Prop :=
  k = k' ∨ ∃ e keep, k = .element e ∧ k' = .element { e with attrs := e.attrs.filter keep } ∧
    ∀ a ∈ e.attrs, keep a = false → ∀ name, N name → ¬ SameName a.name (cstr name)

end Hext
