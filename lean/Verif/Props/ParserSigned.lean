import Verif.Proofs.ParserSigned
import Verif.Props.Parser
/-!
# Exactly when the sign of `char` matters (C34, C40)
-/

namespace Hext.Props

open Msg

theorem complains_iff {n : Nat} {e : PErr} : Unprintable n e ↔ ∃ m, e = .syntax m ∧ Complains n m := by
  have e1 : ∀ loc, asciiHead ++ (decimal n ++ 93 :: (lit "' " ++ loc)) = lit "Unexpected character '[ascii: " ++ dec n ++ lit "]' " ++ loc := by
    intro loc
    have e2 : lit "]' " = 93 :: lit "' " := by decide
    rw [e2, decimal_eq, asciiHead]
    simp
  constructor
  · rintro ⟨loc, rfl⟩
    exact ⟨_, rfl, loc, e1 loc⟩
  · rintro ⟨m, rfl, loc, rfl⟩
    exact ⟨loc, by rw [e1]⟩

/-- C34: where `char` is signed, parsing has undefined behaviour for exactly those hexts that, where `char` is unsigned, are rejected
with a complaint about a byte from 128 to 254. -/
theorem C34_unsafe_iff (rx : RxEngine) (s : Str) (hl : s.length ≤ 2147483645) :
    parseHext rx true s = .error .ub ↔
      ∃ n m, 128 ≤ n ∧ n < 255 ∧ Complains n m ∧ parseHext rx false s = .error (.syntax m) := by
  have hu : parseHext rx false s ≠ .error .ub := by
    intro h
    rcases C34_parse_safe_unsigned rx s hl with ⟨r, hr⟩ | ⟨m, hm⟩ | ho <;> simp_all
  have hp := parse_pair rx hl
  constructor
  · intro h
    rw [h] at hp
    generalize parseHext rx false s = y at hp hu
    cases hp with
    | same h => exact absurd rfl hu
    | ub h1 h2 h3 =>
      obtain ⟨m, rfl, hm⟩ := complains_iff.1 h3
      exact ⟨_, m, h1, h2, hm, rfl⟩
  · rintro ⟨n, m, h1, h2, h3, h4⟩
    have h5 : Unprintable n (.syntax m) := complains_iff.2 ⟨m, rfl, h3⟩
    rw [h4] at hp
    generalize parseHext rx true s = x at hp
    generalize he : PErr.syntax m = e at hp h5
    cases hp with
    | same h => exact absurd h5 (h e rfl n h1)
    | ub => rfl
    | last loc =>
      exfalso
      obtain ⟨l, hl⟩ := h5
      injection hl with hl
      have e1 : lit "255]' " = decimal 255 ++ 93 :: lit "' " := by decide +kernel
      have : asciiHead ++ (decimal 255 ++ 93 :: (lit "' " ++ loc)) = asciiHead ++ (decimal n ++ 93 :: (lit "' " ++ l)) := by
        rw [← hl, e1]; simp
      have := ascii_inj this
      omega

/-- C40: the sign of `char` matters only for what happens after a complaint about a byte from 128 to 255. Otherwise the rule or the
error is the same, with the same message. A byte from 128 to 254 makes the behaviour undefined where `char` is signed, and 255 is
called -1 there. -/
theorem C40_exact (rx : RxEngine) (s : Str) (hl : s.length ≤ 2147483645) :
    parseHext rx true s = parseHext rx false s ∨
    (∃ n m, 128 ≤ n ∧ n < 255 ∧ Complains n m ∧ parseHext rx false s = .error (.syntax m) ∧ parseHext rx true s = .error .ub) ∨
    (∃ loc, parseHext rx false s = .error (.syntax (lit "Unexpected character '[ascii: 255]' " ++ loc)) ∧
      parseHext rx true s = .error (.syntax (lit "Unexpected character '[ascii: -1]' " ++ loc))) := by
  have hp := parse_pair rx hl
  generalize parseHext rx true s = x at hp
  generalize parseHext rx false s = y at hp
  cases hp with
  | same h => exact .inl rfl
  | ub h1 h2 h3 =>
    obtain ⟨m, rfl, hm⟩ := complains_iff.1 h3
    exact .inr (.inl ⟨_, m, h1, h2, hm, rfl, rfl⟩)
  | last loc =>
    refine .inr (.inr ⟨loc, ?_, ?_⟩)
    · have : lit "Unexpected character '[ascii: 255]' " = asciiHead ++ lit "255]' " := by decide
      rw [this, List.append_assoc]
    · have : lit "Unexpected character '[ascii: -1]' " = asciiHead ++ lit "-1]' " := by decide
      rw [this, List.append_assoc]

/-- A hext that consists of the byte 128 is such a hext. -/
example (rx : RxEngine) : ∃ n m, 128 ≤ n ∧ n < 255 ∧ Complains n m ∧ parseHext rx false [128] = .error (.syntax m) :=
  (C34_unsafe_iff rx [128] (by decide)).1 (C34_parse_unsafe_byte rx)

/-- And one in ASCII is not. -/
example (rx : RxEngine) (s : Str) (hs : ∀ b ∈ s, b < 128) (hl : s.length ≤ 2147483645) : parseHext rx true s ≠ .error .ub := by
  rw [(C40_signedness rx s).2 hs]
  intro h
  rcases C34_parse_safe_unsigned rx s hl with ⟨r, hr⟩ | ⟨m, hm⟩ | ho <;> simp_all

end Hext.Props
