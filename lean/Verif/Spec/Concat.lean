import Verif.Spec.Syntax
/-!
# Putting hexts together

A hext that is put together from the texts of other hexts means the rule that is put together from their rules.
-/

namespace Hext.Syn

/-- The text has no rules, only whitespace and comments. -/
def BlankHext (s : Str) : Prop := ∃ is, (∀ i ∈ is, i.Ok ∧ i.IsFiller) ∧ s = itemsText is

/-- The text does not contain `:type-matches(`, whose options apply to what follows (C41). -/
def NoTypeMatches (s : Str) : Prop := ¬ lit ":type-matches(" <:+: s

/-- Something between an open tag and its close tag: a hext for child rules, or one in braces for rules at any depth. -/
structure Inner where
  braces : Bool
  hext : Str
  rule : Rule

def Inner.text (p : Inner) : Str := if p.braces then lit "{" ++ p.hext ++ lit "}" else p.hext

/-- What an inner hext does to the rule around it. -/
def Inner.addTo (r : Rule) (p : Inner) : Rule := if p.braces then r.appendNested p.rule else r.appendChild p.rule

end Hext.Syn
