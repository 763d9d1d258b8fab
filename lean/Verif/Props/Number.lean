import Verif.Spec.Number
import Verif.Props.Parser
import Verif.Proofs.ParserRangeIff
/-!
# C35: exactly when `std::out_of_range` escapes from `ParseHext`
-/

namespace Hext.Props

open Syn

theorem tooLarge_iff (a d : Str) : intVal (minus a) d = none ↔ TooLarge a d := by
  unfold intVal TooLarge minus
  by_cases h : a.getLast? = some 45
  · simp only [h, beq_self_eq_true, if_true, intMin, intMax]
    split <;> simp <;> omega
  · have : (a.getLast? == some 45) = false := by simpa using h
    simp only [this, h, Bool.false_eq_true, if_false, intMin, intMax]
    split <;> simp <;> omega

/-- C35: `std::out_of_range` escapes from `ParseHext` if and only if the hext contains a number that does not fit into an `int`,
and everything up to the byte behind the number is the beginning of an accepted hext once the number is replaced by 1.

(So the exception is thrown for the first mistake in the hext, and only for a number.) -/
theorem C35_out_of_range_iff (rx : RxEngine) (charSigned : Bool) (s : Str) :
    parseHext rx charSigned s = .error .outOfRange ↔
      ∃ a d b t, NumberAt s a d b t ∧ TooLarge a d ∧ ∃ u r, parseHext rx charSigned (a ++ lit "1" ++ b :: u) = .ok r := by
  rw [parse_range_iff]
  constructor
  · rintro ⟨a, d, b, t, h1, h2, h3, h4, h5, h6, h7⟩
    exact ⟨a, d, b, t, ⟨h1, h2, h4, h3, h5⟩, (tooLarge_iff a d).1 h6, h7⟩
  · rintro ⟨a, d, b, t, ⟨h1, h2, h4, h3, h5⟩, h6, h7⟩
    exact ⟨a, d, b, t, h1, h2, h3, h4, h5, (tooLarge_iff a d).2 h6, h7⟩

/-- C35: `ParseHext` throws a `SyntaxError` if and only if the hext has no meaning and `std::out_of_range` is not thrown. -/
theorem C35_syntax_error_iff_partial (rx : RxEngine) (charSigned : Bool) (s : Str) (hs : CharSafe charSigned s)
    (hl : s.length ≤ 2147483645) : (∃ m, parseHext rx charSigned s = .error (.syntax m)) ↔ (¬ ∃ r, Means rx s r) ∧
      ¬ ∃ a d b t, NumberAt s a d b t ∧ TooLarge a d ∧ ∃ u r, Means rx (a ++ lit "1" ++ b :: u) r := by
  have key := C35_out_of_range_iff rx charSigned s
  simp only [C36_parse_iff rx charSigned] at key
  rw [← key]
  constructor
  · rintro ⟨m, hm⟩
    refine ⟨?_, by rw [hm]; nofun⟩
    rintro ⟨r, hr⟩
    rw [(C36_parse_iff rx charSigned s r).2 hr] at hm
    cases hm
  · rintro ⟨h1, h2⟩
    rcases C34_parse_safe_partial rx charSigned s hs hl with ⟨r, hr⟩ | hm | ho
    · exact absurd ⟨r, (C36_parse_iff rx charSigned s r).1 hr⟩ h1
    · exact hm
    · exact absurd ho h2

/-! ## Examples -/

/-- `<a:nth-child(-2147483649n+1)/>`: the smallest `int` is -2147483648. -/
example (rx : RxEngine) (charSigned : Bool) : parseHext rx charSigned (lit "<a:nth-child(-2147483649n+1)/>") = .error .outOfRange := by
  rw [C35_out_of_range_iff]
  refine ⟨lit "<a:nth-child(-", lit "2147483649", 110, lit "+1)/>", ⟨by decide, ⟨by decide, by decide⟩, ?_, by unfold Digit; decide, ?_⟩, by unfold TooLarge; decide, lit ")/>", ?_⟩
  · intro x hx
    rw [show (lit "<a:nth-child(-").getLast? = some 45 by decide] at hx
    cases hx
    unfold Digit; decide
  · rw [begins_iff]
    rintro ⟨x, hx⟩
    have : (walk hextStart (lit "<a:nth-child(-" ++ lit "x")).isSome = false := by decide +kernel
    rw [hx] at this
    cases this
  · rw [show lit "<a:nth-child(-" ++ lit "1" ++ 110 :: lit ")/>" =
      itemsText [.start (tagHead "a" [] [.trait (.nth true false (.step true (lit "1")))]) true] by decide]
    obtain ⟨x, hx⟩ : ∃ x, (tagHead "a" [] [.trait (.nth true false (.step true (lit "1")))]).meaning rx {} = some x := ⟨_, rfl⟩
    refine ⟨_, (parse_items ?_ _).2 ⟨x.2, [mkRule x.1 [] []], .elem (.selfClosing hx) .nil, rfl⟩⟩
    simp [Item.Ok, Head.Ok, tagHead, IsTag, IsName, Cond.Ok, Trait.Ok, Nth.Ok, IsDigits]
    exact ⟨.inr ⟨97, [], by decide, by simp [IsAlpha], by simp⟩, by decide⟩

end Hext.Props
