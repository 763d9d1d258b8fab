import Verif.Proofs.Bindings
/-!
# UTF-8 keeps the order of texts
-/

namespace Hext.Binding

theorem ofNat_lt {a b : Nat} (ha : a < 256) (hb : b < 256) : UInt8.ofNat a < UInt8.ofNat b ↔ a < b := by
  rw [UInt8.lt_iff_toNat_lt, ofNat_toNat ha, ofNat_toNat hb]

theorem ofNat_eq {a b : Nat} (ha : a < 256) (hb : b < 256) : UInt8.ofNat a = UInt8.ofNat b ↔ a = b := by
  rw [← UInt8.toNat_inj, ofNat_toNat ha, ofNat_toNat hb]

theorem enc_lt {c c' : Nat} (h : c < c') (hc : c' < 0x110000) (x y : Str) : enc c ++ x < enc c' ++ y := by
  have key : ∀ {a b : Nat} {s t : Str}, a < 256 → b < 256 → (a < b ∨ (a = b ∧ s < t)) → UInt8.ofNat a :: s < UInt8.ofNat b :: t := by
    intro a b s t ha hb h
    rw [List.cons_lt_cons_iff, ofNat_lt ha hb, ofNat_eq ha hb]
    exact h
  unfold enc
  split <;> split <;> (try split) <;> (try split) <;> (try split) <;> (try split) <;>
    simp only [List.cons_append, List.nil_append] <;> (try (exfalso; omega)) <;>
    refine key (by omega) (by omega) ?_
  all_goals first
    | (left; omega)
    | (rcases Nat.lt_or_ge (c / 64) (c' / 64) with g | g
       · left; omega
       · right; refine ⟨by omega, key (by omega) (by omega) (.inl (by omega))⟩)
    | (rcases Nat.lt_or_ge (c / 4096) (c' / 4096) with g | g
       · left; omega
       · right
         refine ⟨by omega, key (by omega) (by omega) ?_⟩
         rcases Nat.lt_or_ge (c / 64) (c' / 64) with g | g
         · left; omega
         · right; refine ⟨by omega, key (by omega) (by omega) (.inl (by omega))⟩)
    | (rcases Nat.lt_or_ge (c / 262144) (c' / 262144) with g | g
       · left; omega
       · right
         refine ⟨by omega, key (by omega) (by omega) ?_⟩
         rcases Nat.lt_or_ge (c / 4096) (c' / 4096) with g | g
         · left; omega
         · right
           refine ⟨by omega, key (by omega) (by omega) ?_⟩
           rcases Nat.lt_or_ge (c / 64) (c' / 64) with g | g
           · left; omega
           · right; refine ⟨by omega, key (by omega) (by omega) (.inl (by omega))⟩)

theorem enc_ne (c : Nat) : enc c ≠ [] := by
  unfold enc; split <;> (try split) <;> (try split) <;> simp

theorem append_lt (a : Str) {x y : Str} (h : x < y) : a ++ x < a ++ y := by
  induction a with
  | nil => exact h
  | cons b a ih => exact List.cons_lt_cons_iff.2 (.inr ⟨rfl, ih⟩)

theorem flatMap_enc_lt : ∀ {t t' : Text}, (∀ c ∈ t', IsScalar c) → t < t' → t.flatMap enc < t'.flatMap enc
  | [], [], _, h => absurd h (List.lt_irrefl _)
  | [], c :: t', _, _ => by
    rw [List.flatMap_cons]
    cases he : enc c with
    | nil => exact absurd he (enc_ne c)
    | cons b bs => exact List.nil_lt_cons _ _
  | _ :: _, [], _, h => by cases h
  | c :: t, c' :: t', hs, h => by
    rw [List.flatMap_cons, List.flatMap_cons]
    rcases List.cons_lt_cons_iff.1 h with hlt | ⟨rfl, hlt⟩
    · refine enc_lt hlt ?_ _ _
      have := hs c' (by simp)
      unfold IsScalar at this; omega
    · exact append_lt _ (flatMap_enc_lt (fun c hc => hs c (by simp [hc])) hlt)

theorem text_total : ∀ (t t' : Text), t < t' ∨ t = t' ∨ t' < t
  | [], [] => .inr (.inl rfl)
  | [], _ :: _ => .inl (List.nil_lt_cons _ _)
  | _ :: _, [] => .inr (.inr (List.nil_lt_cons _ _))
  | c :: t, c' :: t' => by
    rw [List.cons_lt_cons_iff, List.cons_lt_cons_iff]
    rcases Nat.lt_trichotomy c c' with h | rfl | h
    · exact .inl (.inl h)
    · rcases text_total t t' with h | rfl | h
      · exact .inl (.inr ⟨rfl, h⟩)
      · exact .inr (.inl rfl)
      · exact .inr (.inr (.inr ⟨rfl, h⟩))
    · exact .inr (.inr (.inl h))

/-- The order of bytes is the order of code points. -/
theorem text_lt_iff {s s' : Str} {t t' : Text} (h : IsUtf8Of s t) (h' : IsUtf8Of s' t') : t < t' ↔ s < s' := by
  obtain ⟨h1, rfl⟩ := h
  obtain ⟨h2, rfl⟩ := h'
  refine ⟨flatMap_enc_lt h2, fun hlt => ?_⟩
  rcases text_total t t' with h | rfl | h
  · exact h
  · exact absurd hlt (List.lt_irrefl _)
  · exact absurd (List.lt_trans hlt (flatMap_enc_lt h1 h)) (List.lt_irrefl _)

end Hext.Binding
