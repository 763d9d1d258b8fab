import Verif.Props.Calls
import Verif.Props.Number
import Verif.Props.ParserSigned
/-!
# C55: all that can happen when a rule is constructed
-/

namespace Hext.Props

open Syn Msg Binding

/-- The hext has a number that does not fit into an `int`, and no mistake before it (see `C35_out_of_range_iff`). -/
def EndsAtNumber (rx : RxEngine) (s : Str) : Prop :=
  ∃ a d b t, NumberAt s a d b t ∧ TooLarge a d ∧ ∃ u r, Means rx (a ++ lit "1" ++ b :: u) r

/-- `char` is signed, and the first mistake in the hext is a byte from 128 to 254 (see `C34_unsafe_iff`). -/
def EndsAtByte (rx : RxEngine) (charSigned : Bool) (s : Str) : Prop :=
  charSigned = true ∧ ∃ n m, 128 ≤ n ∧ n < 255 ∧ Complains n m ∧ parseHext rx false s = .error (.syntax m)

/-- Everything that parsing a hext can end with, and when. -/
theorem parse_all (rx : RxEngine) (charSigned : Bool) (s : Str) (hl : s.length ≤ 2147483645) :
    (∃ r, parseHext rx charSigned s = .ok r ∧ Means rx s r) ∨
    (parseHext rx charSigned s = .error .outOfRange ∧ EndsAtNumber rx s) ∨
    (parseHext rx charSigned s = .error .ub ∧ EndsAtByte rx charSigned s) ∨
    (∃ m, parseHext rx charSigned s = .error (.syntax m)) := by
  cases h : parseHext rx charSigned s with
  | ok r => exact .inl ⟨r, rfl, (C36_parse_iff rx charSigned s r).1 h⟩
  | error e =>
    rcases parse_error h with hsoft | ⟨rfl, rfl, p, b, h2, h3, h4, h5, h6⟩
    · cases hsoft with
      | «syntax» m => exact .inr (.inr (.inr ⟨m, rfl⟩))
      | outOfRange =>
        have := (C35_out_of_range_iff rx charSigned s).1 h
        simp only [C36_parse_iff rx charSigned] at this
        exact .inr (.inl ⟨rfl, this⟩)
      | overflow => exact absurd (parse_explained h) (by simp only [Explained]; omega)
    · exact .inr (.inr (.inl ⟨rfl, rfl, (C34_unsafe_iff rx s hl).1 h⟩))

theorem ends_number {rx : RxEngine} {charSigned : Bool} {s : Str} (h : EndsAtNumber rx s) : parseHext rx charSigned s = .error .outOfRange := by
  rw [C35_out_of_range_iff]
  simp only [C36_parse_iff rx charSigned]
  exact h

theorem ends_byte {rx : RxEngine} {charSigned : Bool} {s : Str} (hl : s.length ≤ 2147483645) (h : EndsAtByte rx charSigned s) :
    parseHext rx charSigned s = .error .ub := by
  obtain ⟨rfl, h⟩ := h
  exact (C34_unsafe_iff rx s hl).2 h

/-- C55, rules: what constructing a rule does in Python, Ruby and PHP, for every hext of up to 2147483645 bytes. It returns the
rule that the hext means; it ends the process exactly for a number that is too large; it is undefined exactly for a byte from 128
to 254 as the first mistake where `char` is signed; for all other hexts it raises `ValueError`. -/
theorem C55_rule_iff (rx : RxEngine) (charSigned : Bool) (hext : Str) (hl : hext.length ≤ 2147483645) :
    (∀ r, wrapperRule rx charSigned hext = .value r ↔ Means rx hext r) ∧
    (wrapperRule rx charSigned hext = .terminates ↔ EndsAtNumber rx hext) ∧
    (wrapperRule rx charSigned hext = .crash ↔ EndsAtByte rx charSigned hext) ∧
    ((∃ what, wrapperRule rx charSigned hext = .raises (lit "ValueError") what) ↔
      (¬ ∃ r, Means rx hext r) ∧ ¬ EndsAtNumber rx hext ∧ ¬ EndsAtByte rx charSigned hext) := by
  have hm : ∀ {r}, Means rx hext r → parseHext rx charSigned hext = .ok r := fun h => (C36_parse_iff rx charSigned hext _).2 h
  unfold wrapperRule
  rcases parse_all rx charSigned hext hl with ⟨r, h, h1⟩ | ⟨h, h1⟩ | ⟨h, h1⟩ | ⟨m, h⟩
  · have n1 : ¬ EndsAtNumber rx hext := fun k => by have := h.symm.trans (ends_number k); cases this
    have n2 : ¬ EndsAtByte rx charSigned hext := fun k => by have := h.symm.trans (ends_byte hl k); cases this
    simp only [h, n1, n2, reduceCtorEq, exists_false, not_false_eq_true, and_self, and_true, false_iff, true_and]
    refine ⟨fun q => ⟨fun e => ?_, fun k => ?_⟩, fun k => k ⟨r, h1⟩⟩
    · injection e with e; exact e ▸ h1
    · have := h.symm.trans (hm k); cases this; rfl
  · have n0 : ∀ r, ¬ Means rx hext r := fun r k => by have := h.symm.trans (hm k); cases this
    have n2 : ¬ EndsAtByte rx charSigned hext := fun k => by have := h.symm.trans (ends_byte hl k); cases this
    simp [h, n0, h1, n2]
  · have n0 : ∀ r, ¬ Means rx hext r := fun r k => by have := h.symm.trans (hm k); cases this
    have n1 : ¬ EndsAtNumber rx hext := fun k => by have := h.symm.trans (ends_number k); cases this
    simp [h, n0, h1, n1]
  · have n0 : ∀ r, ¬ Means rx hext r := fun r k => by have := h.symm.trans (hm k); cases this
    have n1 : ¬ EndsAtNumber rx hext := fun k => by have := h.symm.trans (ends_number k); cases this
    have n2 : ¬ EndsAtByte rx charSigned hext := fun k => by have := h.symm.trans (ends_byte hl k); cases this
    simp [h, n0, n1, n2]

/-- The same for Node, which raises `Error`, and uses the hext up to the first NUL byte. -/
theorem C55_node_rule_iff (rx : RxEngine) (charSigned : Bool) (hext : Str) (hl : (cstr hext).length ≤ 2147483645) :
    (∀ r, nodeRule rx charSigned hext = .value r ↔ Means rx (cstr hext) r) ∧
    (nodeRule rx charSigned hext = .terminates ↔ EndsAtNumber rx (cstr hext)) ∧
    (nodeRule rx charSigned hext = .crash ↔ EndsAtByte rx charSigned (cstr hext)) ∧
    ((∃ what, nodeRule rx charSigned hext = .raises (lit "Error") what) ↔
      (¬ ∃ r, Means rx (cstr hext) r) ∧ ¬ EndsAtNumber rx (cstr hext) ∧ ¬ EndsAtByte rx charSigned (cstr hext)) := by
  have hm : ∀ {r}, Means rx (cstr hext) r → parseHext rx charSigned (cstr hext) = .ok r := fun h => (C36_parse_iff rx charSigned _ _).2 h
  unfold nodeRule parseHextC
  rcases parse_all rx charSigned (cstr hext) hl with ⟨r, h, h1⟩ | ⟨h, h1⟩ | ⟨h, h1⟩ | ⟨m, h⟩
  · have n1 : ¬ EndsAtNumber rx (cstr hext) := fun k => by have := h.symm.trans (ends_number k); cases this
    have n2 : ¬ EndsAtByte rx charSigned (cstr hext) := fun k => by have := h.symm.trans (ends_byte hl k); cases this
    simp only [h, n1, n2, reduceCtorEq, exists_false, not_false_eq_true, and_self, and_true, false_iff, true_and]
    refine ⟨fun q => ⟨fun e => ?_, fun k => ?_⟩, fun k => k ⟨r, h1⟩⟩
    · injection e with e; exact e ▸ h1
    · have := h.symm.trans (hm k); cases this; rfl
  · have n0 : ∀ r, ¬ Means rx (cstr hext) r := fun r k => by have := h.symm.trans (hm k); cases this
    have n2 : ¬ EndsAtByte rx charSigned (cstr hext) := fun k => by have := h.symm.trans (ends_byte hl k); cases this
    simp [h, n0, h1, n2]
  · have n0 : ∀ r, ¬ Means rx (cstr hext) r := fun r k => by have := h.symm.trans (hm k); cases this
    have n1 : ¬ EndsAtNumber rx (cstr hext) := fun k => by have := h.symm.trans (ends_number k); cases this
    simp [h, n0, h1, n1]
  · have n0 : ∀ r, ¬ Means rx (cstr hext) r := fun r k => by have := h.symm.trans (hm k); cases this
    have n1 : ¬ EndsAtNumber rx (cstr hext) := fun k => by have := h.symm.trans (ends_number k); cases this
    have n2 : ¬ EndsAtByte rx charSigned (cstr hext) := fun k => by have := h.symm.trans (ends_byte hl k); cases this
    simp [h, n0, n1, n2]

/-- Each of the four happens. -/
example (rx : RxEngine) : EndsAtNumber rx (lit "<a:child-count(99999999999)/>") ∧ EndsAtByte rx true [128] := by
  constructor
  · have := (C35_out_of_range_iff rx true _).1 (C35_out_of_range_big rx true)
    simp only [C36_parse_iff rx true] at this
    exact this
  · exact ⟨rfl, (C34_unsafe_iff rx [128] (by decide)).1 (C34_parse_unsafe_byte rx)⟩

end Hext.Props
