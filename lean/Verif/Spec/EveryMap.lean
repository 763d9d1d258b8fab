import Verif.Spec.Json
/-!
# What becomes of maps with NUL bytes
A name or a value can contain a NUL byte, since quoted strings of a hext can.
-/

namespace Hext

/-- The bytes before the first NUL byte. -/
def beforeNul (s : Str) : Str := s.takeWhile (· != 0)

/-- Names and values are cut off before their first NUL byte. -/
def cutOff (m : List (Str × Str)) : List (Str × Str) := m.map fun p => (beforeNul p.1, beforeNul p.2)

/-- All values of an entry are cut off. -/
def Entry.cutAll : Entry Str → Entry Str
  | .one v => .one (beforeNul v)
  | .many vs => .many (vs.map beforeNul)

/-- A sole value is cut off, several ones are not. -/
def Entry.cutSole : Entry Str → Entry Str
  | .one v => .one (beforeNul v)
  | .many vs => .many vs

/-- `d` has the names of `o`, each once and in bytewise order; if a name is in `o` more than once, then its last entry counts. -/
def LastCounts (o d : List (Str × Entry Str)) : Prop :=
  (d.map (·.1)).Pairwise (· < ·) ∧
  ∀ name e, (name, e) ∈ d ↔ ∃ before after, o = before ++ (name, e) :: after ∧ ∀ x ∈ after, x.1 ≠ name

end Hext
