import Verif.Spec.Json
import Verif.Proofs.ParserMessage
/-!
# The keys of PHP arrays
-/

namespace Hext.Binding

open Msg

theorem decimalVal_concat (ds : Str) (d : Byte) : decimalVal (ds ++ [d]) = decimalVal ds * 10 + (d.toNat - 48) := by
  simp [decimalVal]

theorem isDecimal_concat {ds : Str} {d : Byte} (h : ds ≠ []) : isDecimal (ds ++ [d]) = true ↔
    (isDecimal ds = true ∧ ds ≠ [48]) ∧ 48 ≤ d ∧ d ≤ 57 := by
  cases ds with
  | nil => exact absurd rfl h
  | cons c ds =>
    cases ds with
    | nil => simp [isDecimal]; grind
    | cons e ds => simp [isDecimal]; grind

theorem digit_val {d : Byte} (h : 48 ≤ d ∧ d ≤ 57) : (48 : Byte) + UInt8.ofNat (d.toNat - 48) = d ∧ d.toNat - 48 < 10 := by
  obtain ⟨h1, h2⟩ := h
  rw [UInt8.le_iff_toNat_le] at h1 h2
  have e1 : (48 : Byte).toNat = 48 := rfl
  have e2 : (57 : Byte).toNat = 57 := rfl
  rw [e1] at h1
  rw [e2] at h2
  refine ⟨?_, by omega⟩
  apply UInt8.toNat_inj.1
  rw [UInt8.toNat_add, e1, UInt8.toNat_ofNat']
  omega

theorem val_digit {n : Nat} (h : n < 10) : (48 ≤ (48 : Byte) + UInt8.ofNat n ∧ (48 : Byte) + UInt8.ofNat n ≤ 57) ∧
    ((48 : Byte) + UInt8.ofNat n).toNat - 48 = n := by
  have : ((48 : Byte) + UInt8.ofNat n).toNat = 48 + n := by
    rw [UInt8.toNat_add, UInt8.toNat_ofNat']
    have e1 : (48 : Byte).toNat = 48 := rfl
    rw [e1]; omega
  refine ⟨⟨?_, ?_⟩, by omega⟩
  · rw [UInt8.le_iff_toNat_le, this]; exact Nat.le_add_right _ _
  · rw [UInt8.le_iff_toNat_le, this]
    have e2 : (57 : Byte).toNat = 57 := rfl
    omega

theorem decimal_form (n : Nat) : isDecimal (decimal n) = true ∧ decimalVal (decimal n) = n ∧ (decimal n = [48] ↔ n = 0) ∧ decimal n ≠ [] := by
  induction n using Nat.strongRecOn with
  | ind n ih =>
    rw [decimal]
    split
    · next h =>
      have key : ∀ n, n < 10 → isDecimal [48 + UInt8.ofNat n] = true ∧ decimalVal [48 + UInt8.ofNat n] = n ∧
        (([48 + UInt8.ofNat n] : Str) = [48] ↔ n = 0) ∧ ([48 + UInt8.ofNat n] : Str) ≠ [] := by decide
      exact key n h
    · next h =>
      obtain ⟨h1, h2, h3, h4⟩ := ih (n / 10) (by omega)
      obtain ⟨h5, h6⟩ := val_digit (n := n % 10) (by omega)
      refine ⟨(isDecimal_concat h4).2 ⟨⟨h1, fun e => ?_⟩, h5⟩, ?_, ?_, by simp⟩
      · have := h3.1 e; omega
      · rw [decimalVal_concat, h2, h6]; omega
      · constructor
        · intro e
          have e := congrArg List.length e
          have := List.length_pos_iff.2 h4
          rw [List.length_append, List.length_singleton, List.length_singleton] at e; omega
        · omega

theorem decimal_of_form : ∀ (n : Nat) (ds : Str), ds.length = n → isDecimal ds = true → decimal (decimalVal ds) = ds := by
  intro n
  induction n with
  | zero => intro ds hl h; rw [List.length_eq_zero_iff.1 hl] at h; cases h
  | succ n ih =>
    intro ds hl h
    have hne : ds ≠ [] := fun e => by rw [e] at hl; cases hl
    rw [← List.dropLast_concat_getLast hne] at h hl ⊢
    generalize ds.dropLast = es at *
    generalize ds.getLast hne = d at *
    cases hes : es with
    | nil =>
      subst hes
      have hd : 48 ≤ d ∧ d ≤ 57 := by simp [isDecimal] at h; exact h
      have := digit_val hd
      rw [decimalVal_concat, decimal, if_pos (by simp [decimalVal]; omega)]
      simp [decimalVal, this.1]
    | cons c cs =>
      have hne : es ≠ [] := by rw [hes]; simp
      rw [← hes]
      obtain ⟨⟨h1, h2⟩, h3⟩ := (isDecimal_concat hne).1 h
      have e := ih es (by simp at hl; exact hl) h1
      have hd := digit_val h3
      have hpos : decimalVal es ≠ 0 := fun e0 => h2 (by rw [← e]; exact (decimal_form _).2.2.1.2 e0)
      rw [decimalVal_concat, decimal, if_neg (by omega), show (decimalVal es * 10 + (d.toNat - 48)) / 10 = decimalVal es by omega,
        show (decimalVal es * 10 + (d.toNat - 48)) % 10 = d.toNat - 48 by omega, e, hd.1]

theorem lit_nat (n : Nat) : lit (toString (n : Int)) = decimal n := by
  rw [decimal_eq]; rfl

theorem lit_neg (n : Nat) (h : n ≠ 0) : lit (toString (-(n : Int))) = 45 :: decimal n := by
  obtain ⟨m, rfl⟩ : ∃ m, n = m + 1 := ⟨n - 1, by omega⟩
  rw [decimal_eq, show (-((m + 1 : Nat) : Int)) = Int.negSucc m from rfl]
  show lit ("-" ++ toString (m + 1)) = _
  simp [lit, dec]

theorem isDecimal_head {c : Byte} {ds : Str} (h : isDecimal (c :: ds) = true) : c ≠ 45 := by
  rintro rfl
  simp [isDecimal] at h

/-- The integers of 64 bits in decimal form are integer keys; everything else is a string key. -/
theorem phpKey_int {s : Str} {n : Int} : phpKey s = .int n ↔
    s = lit (toString n) ∧ -9223372036854775808 ≤ n ∧ n ≤ 9223372036854775807 := by
  constructor
  · intro h
    unfold phpKey at h
    split at h
    · cases h
    · next c ds =>
      split at h
      · next hc =>
        split at h
        · next hd =>
          injection h with h
          subst h hc
          simp only [Bool.and_eq_true, bne_iff_ne, ne_eq, decide_eq_true_eq] at hd
          have e := decimal_of_form _ ds rfl hd.1.1
          rw [lit_neg _ fun e0 => hd.1.2 (by rw [← e]; exact (decimal_form _).2.2.1.2 e0), e]
          refine ⟨rfl, ?_, ?_⟩ <;> omega
        · cases h
      · split at h
        · next hd =>
          injection h with h
          subst h
          simp only [Bool.and_eq_true, decide_eq_true_eq] at hd
          rw [lit_nat, decimal_of_form _ _ rfl hd.1]
          refine ⟨rfl, ?_, ?_⟩ <;> omega
        · cases h
  · rintro ⟨rfl, h1, h2⟩
    rcases Int.lt_or_le n 0 with hn | hn
    · obtain ⟨k, rfl⟩ : ∃ k : Nat, n = -(k : Int) := ⟨n.natAbs, by omega⟩
      have hk : k ≠ 0 := by omega
      obtain ⟨d1, d2, d3, d4⟩ := decimal_form k
      rw [lit_neg k hk, phpKey, if_pos rfl, if_pos, d2]
      simp only [Bool.and_eq_true, bne_iff_ne, ne_eq, decide_eq_true_eq]
      exact ⟨⟨d1, fun e => hk (d3.1 e)⟩, by rw [d2]; omega⟩
    · obtain ⟨k, rfl⟩ : ∃ k : Nat, n = (k : Int) := ⟨n.natAbs, by omega⟩
      obtain ⟨d1, d2, d3, d4⟩ := decimal_form k
      rw [lit_nat]
      generalize decimal k = ds at *
      cases ds with
      | nil => exact absurd rfl d4
      | cons c ds =>
        rw [phpKey, if_neg (isDecimal_head d1), if_pos, d2]
        simp only [Bool.and_eq_true, decide_eq_true_eq]
        exact ⟨d1, by rw [d2]; omega⟩

theorem phpKey_name (s : Str) : (phpKey s).name = s := by
  cases h : phpKey s with
  | int n => exact (phpKey_int.1 h).1.symm
  | str t =>
    show t = s
    unfold phpKey at h
    split at h
    · cases h; rfl
    · split at h <;> split at h <;> cases h <;> rfl

theorem phpKey_inj {s t : Str} (h : phpKey s = phpKey t) : s = t := by
  rw [← phpKey_name s, h, phpKey_name]

theorem isPhpArray_map (o : List (Str × Entry Str)) : IsPhpArray o (o.map fun x => (phpKey x.1, x.2)) := by
  refine ⟨?_, ?_⟩
  · rw [List.map_map]
    conv => rhs; rw [← List.map_id o]
    apply List.map_congr_left
    intro x _
    exact Prod.ext (phpKey_name x.1) rfl
  · intro y hy
    obtain ⟨x, _, rfl⟩ := List.mem_map.1 hy
    have hn := phpKey_name x.1
    cases h : phpKey x.1 with
    | int n => exact (phpKey_int.1 h).2
    | str s =>
      intro n h1 h2 hs
      rw [h] at hn
      have hn : s = x.1 := hn
      rw [phpKey_int.2 ⟨hn ▸ hs, h1, h2⟩] at h
      cases h

/-- There is one such array. -/
theorem isPhpArray_eq {o : List (Str × Entry Str)} {a : List (PhpKey × Entry Str)} (h : IsPhpArray o a) :
    a = o.map fun x => (phpKey x.1, x.2) := by
  obtain ⟨rfl, h⟩ := h
  rw [List.map_map]
  conv => lhs; rw [← List.map_id a]
  apply List.map_congr_left
  intro x hx
  have hk := h x hx
  obtain ⟨k, e⟩ := x
  refine Prod.ext ?_ rfl
  cases k with
  | int n => exact (phpKey_int.2 ⟨rfl, hk⟩).symm
  | str s =>
    show PhpKey.str s = phpKey s
    cases hp : phpKey s with
    | int n => exact absurd (phpKey_int.1 hp).1 (hk n (phpKey_int.1 hp).2.1 (phpKey_int.1 hp).2.2)
    | str t => have := phpKey_name s; rw [hp] at this; exact congrArg _ this.symm

end Hext.Binding
