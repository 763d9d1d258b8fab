import Verif.Proofs.Present
import Verif.Proofs.PhpKey
/-!
# The objects of the bindings
-/

namespace Hext

open Binding

/-! ## UTF-8 -/

theorem byteEq_of_toNat {a : Byte} {n : Nat} (h : a.toNat = n) : a = UInt8.ofNat n := by
  rw [← h]; simp

theorem isCont_range {b : Byte} (h : isCont b = true) : 0x80 ≤ b.toNat ∧ b.toNat ≤ 0xBF := by
  simp only [isCont, Bool.and_eq_true, decide_eq_true_eq, UInt8.le_iff_toNat_le] at h
  exact h

theorem isSecond_range {a b : Byte} (h : isSecond a b = true) : 0x80 ≤ b.toNat ∧ b.toNat ≤ 0xBF ∧
    (a.toNat = 0xE0 → 0xA0 ≤ b.toNat) ∧ (a.toNat = 0xF0 → 0x90 ≤ b.toNat) ∧ (a.toNat = 0xF4 → b.toNat ≤ 0x8F) ∧
    (a.toNat = 0xED → b.toNat ≤ 0x9F) := by
  simp only [isSecond, Bool.and_eq_true, Bool.or_eq_true, bne_iff_ne, ne_eq, decide_eq_true_eq, UInt8.le_iff_toNat_le] at h
  obtain ⟨⟨⟨⟨h1, h2⟩, h3⟩, h4⟩, h5⟩ := h
  obtain ⟨h6, h7⟩ := isCont_range h1
  refine ⟨h6, h7, fun e => ?_, fun e => ?_, fun e => ?_, fun e => ?_⟩
  · exact h2.resolve_left fun hn => hn (byteEq_of_toNat e)
  · exact h4.resolve_left fun hn => hn (byteEq_of_toNat e)
  · exact h5.resolve_left fun hn => hn (byteEq_of_toNat e)
  · exact h3.resolve_left fun hn => hn (byteEq_of_toNat e)

theorem nextCode_enc {a : Byte} {s : Str} {x : Nat × Str} (h : nextCode a s = some x) : a :: s = enc x.1 ++ x.2 := by
  unfold nextCode at h
  split at h
  · rename_i h1
    simp only [UInt8.lt_iff_toNat_lt] at h1
    have h1 : a.toNat < 128 := h1
    simp only [Option.some.injEq] at h
    subst h
    simp [enc, h1]
  split at h
  · rename_i h1 h2
    simp only [Bool.and_eq_true, decide_eq_true_eq, UInt8.le_iff_toNat_le] at h2
    have h2 : 194 ≤ a.toNat ∧ a.toNat ≤ 223 := h2
    unfold nextTwo at h
    split at h
    · rename_i b s
      split at h
      · rename_i h3
        obtain ⟨h4, h5⟩ := isCont_range h3
        simp only [Option.some.injEq] at h
        subst h
        simp only
        have e1 : ¬ ((a.toNat - 0xC0) * 64 + (b.toNat - 0x80) < 0x80) := by omega
        have e2 : (a.toNat - 0xC0) * 64 + (b.toNat - 0x80) < 0x800 := by omega
        rw [enc, if_neg e1, if_pos e2]
        rw [← byteEq_of_toNat (a := a) (by omega), ← byteEq_of_toNat (a := b) (by omega)]
        rfl
      · contradiction
    · contradiction
  split at h
  · rename_i h1 _ h2
    simp only [Bool.and_eq_true, decide_eq_true_eq, UInt8.le_iff_toNat_le] at h2
    have h2 : 224 ≤ a.toNat ∧ a.toNat ≤ 239 := h2
    unfold nextThree at h
    split at h
    · rename_i b c s
      split at h
      · rename_i h3
        rw [Bool.and_eq_true] at h3
        obtain ⟨h4, h5, h6, _, _⟩ := isSecond_range h3.1
        obtain ⟨h7, h8⟩ := isCont_range h3.2
        simp only [Option.some.injEq] at h
        subst h
        simp only
        generalize hn : (a.toNat - 0xE0) * 4096 + (b.toNat - 0x80) * 64 + (c.toNat - 0x80) = n
        have e1 : ¬ (n < 0x80) := by omega
        have e2 : ¬ (n < 0x800) := by omega
        have e3 : n < 0x10000 := by omega
        rw [enc, if_neg e1, if_neg e2, if_pos e3]
        rw [← byteEq_of_toNat (a := a) (by omega), ← byteEq_of_toNat (a := b) (by omega), ← byteEq_of_toNat (a := c) (by omega)]
        rfl
      · contradiction
    · contradiction
  split at h
  · rename_i h1 _ _ h2
    simp only [Bool.and_eq_true, decide_eq_true_eq, UInt8.le_iff_toNat_le] at h2
    have h2 : 240 ≤ a.toNat ∧ a.toNat ≤ 244 := h2
    unfold nextFour at h
    split at h
    · rename_i b c d s
      split at h
      · rename_i h3
        rw [Bool.and_eq_true, Bool.and_eq_true] at h3
        obtain ⟨h4, h5, _, h6, _⟩ := isSecond_range h3.1.1
        obtain ⟨h7, h8⟩ := isCont_range h3.1.2
        obtain ⟨h9, h10⟩ := isCont_range h3.2
        simp only [Option.some.injEq] at h
        subst h
        simp only
        generalize hn : (a.toNat - 0xF0) * 262144 + (b.toNat - 0x80) * 4096 + (c.toNat - 0x80) * 64 + (d.toNat - 0x80) = n
        have e1 : ¬ (n < 0x80) := by omega
        have e2 : ¬ (n < 0x800) := by omega
        have e3 : ¬ (n < 0x10000) := by omega
        rw [enc, if_neg e1, if_neg e2, if_neg e3]
        rw [← byteEq_of_toNat (a := a) (by omega), ← byteEq_of_toNat (a := b) (by omega), ← byteEq_of_toNat (a := c) (by omega),
          ← byteEq_of_toNat (a := d) (by omega)]
        rfl
      · contradiction
    · contradiction
  · contradiction

theorem utf8_enc : ∀ (n : Nat) (s : Str) (t : Text), s.length ≤ n → utf8 s = some t → s = t.flatMap enc
  | _, [], t, _, h => by
    rw [utf8] at h
    simp only [Option.some.injEq] at h
    subst h; rfl
  | 0, _ :: _, _, hn, _ => by simp at hn
  | n + 1, a :: s, t, hn, h => by
    rw [utf8] at h
    split at h
    · contradiction
    · rename_i x hx
      split at h
      · contradiction
      · rename_i t' ht
        simp only [Option.some.injEq] at h
        subst h
        have hl := nextCode_length hx
        have := utf8_enc n x.2 t' (by simp at hn; omega) ht
        rw [nextCode_enc hx, this, List.flatMap_cons]

/-- Different strings have different texts. -/
theorem utf8_inj {s s' : Str} {t : Text} (h : utf8 s = some t) (h' : utf8 s' = some t) : s = s' := by
  rw [utf8_enc _ s t (Nat.le_refl _) h, utf8_enc _ s' t (Nat.le_refl _) h']

theorem ofNat_toNat {n : Nat} (h : n < 256) : (UInt8.ofNat n).toNat = n := by
  rw [UInt8.toNat_ofNat']; omega

theorem ofNat_le {n m : Nat} (hn : n < 256) (hm : m < 256) : UInt8.ofNat n ≤ UInt8.ofNat m ↔ n ≤ m := by
  rw [UInt8.le_iff_toNat_le, ofNat_toNat hn, ofNat_toNat hm]

theorem isCont_ofNat {n : Nat} (h : n < 64) : isCont (UInt8.ofNat (0x80 + n)) = true := by
  simp only [isCont, Bool.and_eq_true, decide_eq_true_eq]
  exact ⟨(ofNat_le (n := 0x80) (by omega) (by omega)).2 (by omega), (ofNat_le (m := 0xBF) (by omega) (by omega)).2 (by omega)⟩

theorem ofNat_bne {n m : Nat} (hn : n < 256) (hm : m < 256) : (UInt8.ofNat n != UInt8.ofNat m) = decide (n ≠ m) := by
  by_cases h : n = m
  · subst h; simp
  · have : UInt8.ofNat n ≠ UInt8.ofNat m := fun e => h (by rw [← ofNat_toNat hn, ← ofNat_toNat hm, e])
    simp [h, this]

theorem isSecond_ofNat {a n : Nat} (ha : a < 256) (h : n < 64) (h1 : a = 0xE0 → 0x20 ≤ n) (h2 : a = 0xED → n ≤ 0x1F)
    (h3 : a = 0xF0 → 0x10 ≤ n) (h4 : a = 0xF4 → n ≤ 0x0F) : isSecond (UInt8.ofNat a) (UInt8.ofNat (0x80 + n)) = true := by
  unfold isSecond
  rw [isCont_ofNat h]
  have e1 := ofNat_bne (n := a) (m := 0xE0) ha (by omega)
  have e2 := ofNat_bne (n := a) (m := 0xED) ha (by omega)
  have e3 := ofNat_bne (n := a) (m := 0xF0) ha (by omega)
  have e4 := ofNat_bne (n := a) (m := 0xF4) ha (by omega)
  have l1 := ofNat_le (n := 0xA0) (m := 0x80 + n) (by omega) (by omega)
  have l2 := ofNat_le (n := 0x80 + n) (m := 0x9F) (by omega) (by omega)
  have l3 := ofNat_le (n := 0x90) (m := 0x80 + n) (by omega) (by omega)
  have l4 := ofNat_le (n := 0x80 + n) (m := 0x8F) (by omega) (by omega)
  simp only [Bool.true_and, Bool.and_eq_true, Bool.or_eq_true, decide_eq_true_eq]
  refine ⟨⟨⟨?_, ?_⟩, ?_⟩, ?_⟩
  · by_cases h : a = 0xE0
    · exact .inr (l1.2 (by have := h1 h; omega))
    · exact .inl (by rw [show (0xE0 : UInt8) = UInt8.ofNat 0xE0 from rfl, e1]; simpa using h)
  · by_cases h : a = 0xED
    · exact .inr (l2.2 (by have := h2 h; omega))
    · exact .inl (by rw [show (0xED : UInt8) = UInt8.ofNat 0xED from rfl, e2]; simpa using h)
  · by_cases h : a = 0xF0
    · exact .inr (l3.2 (by have := h3 h; omega))
    · exact .inl (by rw [show (0xF0 : UInt8) = UInt8.ofNat 0xF0 from rfl, e3]; simpa using h)
  · by_cases h : a = 0xF4
    · exact .inr (l4.2 (by have := h4 h; omega))
    · exact .inl (by rw [show (0xF4 : UInt8) = UInt8.ofNat 0xF4 from rfl, e4]; simpa using h)

/-- Decoding gives back an encoded code point. -/
theorem nextCode_of_enc {c : Nat} (hc : IsScalar c) (r : Str) : ∃ a s, enc c ++ r = a :: s ∧ nextCode a s = some (c, r) := by
  unfold IsScalar at hc
  unfold enc
  split
  · rename_i h1
    refine ⟨_, _, by simp only [List.cons_append, List.nil_append]; rfl, ?_⟩
    unfold nextCode
    rw [if_pos (by rw [UInt8.lt_iff_toNat_lt, ofNat_toNat (by omega)]; exact h1), ofNat_toNat (by omega)]
  · rename_i h1
    have nlt : ∀ n, 0x80 ≤ n → n < 256 → ¬ UInt8.ofNat n < 0x80 := by
      intro n hn1 hn2
      rw [UInt8.lt_iff_toNat_lt, ofNat_toNat hn2]
      show ¬ n < 128
      omega
    split
    · rename_i h2
      refine ⟨_, _, by simp only [List.cons_append, List.nil_append]; rfl, ?_⟩
      unfold nextCode
      rw [if_neg (nlt _ (by omega) (by omega)), if_pos, nextTwo]
      · rw [if_pos (isCont_ofNat (by omega)), ofNat_toNat (by omega), ofNat_toNat (by omega)]
        rw [Option.some.injEq, Prod.mk.injEq]; exact ⟨by omega, rfl⟩
      · simp only [Bool.and_eq_true, decide_eq_true_eq]
        exact ⟨(ofNat_le (n := 0xC2) (by omega) (by omega)).2 (by omega),
          (ofNat_le (m := 0xDF) (by omega) (by omega)).2 (by omega)⟩
    · rename_i h2
      split
      · rename_i h3
        refine ⟨_, _, by simp only [List.cons_append, List.nil_append]; rfl, ?_⟩
        unfold nextCode
        rw [if_neg (nlt _ (by omega) (by omega)), if_neg, if_pos, nextThree]
        · rw [if_pos, ofNat_toNat (by omega), ofNat_toNat (by omega), ofNat_toNat (by omega)]
          · rw [Option.some.injEq, Prod.mk.injEq]; exact ⟨by omega, rfl⟩
          · rw [Bool.and_eq_true]
            refine ⟨isSecond_ofNat (by omega) (by omega) ?_ ?_ ?_ ?_, isCont_ofNat (by omega)⟩ <;> intro h <;> omega
        · simp only [Bool.and_eq_true, decide_eq_true_eq]
          exact ⟨(ofNat_le (n := 0xE0) (by omega) (by omega)).2 (by omega),
            (ofNat_le (m := 0xEF) (by omega) (by omega)).2 (by omega)⟩
        · simp only [Bool.and_eq_true, decide_eq_true_eq]
          rintro ⟨_, h⟩
          have := (ofNat_le (m := 0xDF) (by omega) (by omega)).1 h
          omega
      · rename_i h3
        refine ⟨_, _, by simp only [List.cons_append, List.nil_append]; rfl, ?_⟩
        unfold nextCode
        rw [if_neg (nlt _ (by omega) (by omega)), if_neg, if_neg, if_pos, nextFour]
        · rw [if_pos, ofNat_toNat (by omega), ofNat_toNat (by omega), ofNat_toNat (by omega), ofNat_toNat (by omega)]
          · rw [Option.some.injEq, Prod.mk.injEq]; exact ⟨by omega, rfl⟩
          · rw [Bool.and_eq_true, Bool.and_eq_true]
            refine ⟨⟨isSecond_ofNat (by omega) (by omega) ?_ ?_ ?_ ?_, isCont_ofNat (by omega)⟩, isCont_ofNat (by omega)⟩ <;>
              intro h <;> omega
        · simp only [Bool.and_eq_true, decide_eq_true_eq]
          exact ⟨(ofNat_le (n := 0xF0) (by omega) (by omega)).2 (by omega),
            (ofNat_le (m := 0xF4) (by omega) (by omega)).2 (by omega)⟩
        · simp only [Bool.and_eq_true, decide_eq_true_eq]
          rintro ⟨_, h⟩
          have := (ofNat_le (m := 0xEF) (by omega) (by omega)).1 h
          omega
        · simp only [Bool.and_eq_true, decide_eq_true_eq]
          rintro ⟨_, h⟩
          have := (ofNat_le (m := 0xDF) (by omega) (by omega)).1 h
          omega

theorem utf8_of_enc : ∀ (t : Text), (∀ c ∈ t, IsScalar c) → utf8 (t.flatMap enc) = some t
  | [], _ => by rw [List.flatMap_nil, utf8]
  | c :: t, h => by
    obtain ⟨a, s, h1, h2⟩ := nextCode_of_enc (h c (by simp)) (t.flatMap enc)
    rw [List.flatMap_cons, h1, utf8]
    split
    · rename_i h3; rw [h2] at h3; cases h3
    · rename_i x h3
      rw [h2] at h3
      cases h3
      simp only
      rw [utf8_of_enc t fun x hx => h x (by simp [hx])]

theorem nextCode_scalar {a : Byte} {s : Str} {x : Nat × Str} (h : nextCode a s = some x) : IsScalar x.1 := by
  unfold IsScalar
  unfold nextCode at h
  split at h
  · rename_i h1
    simp only [UInt8.lt_iff_toNat_lt] at h1
    have h1 : a.toNat < 128 := h1
    simp only [Option.some.injEq] at h
    subst h
    simp only
    omega
  split at h
  · rename_i h1 h2
    simp only [Bool.and_eq_true, decide_eq_true_eq, UInt8.le_iff_toNat_le] at h2
    have h2 : 194 ≤ a.toNat ∧ a.toNat ≤ 223 := h2
    unfold nextTwo at h
    split at h
    · rename_i b s
      split at h
      · rename_i h3
        obtain ⟨h4, h5⟩ := isCont_range h3
        simp only [Option.some.injEq] at h
        subst h
        simp only
        omega
      · contradiction
    · contradiction
  split at h
  · rename_i h1 _ h2
    simp only [Bool.and_eq_true, decide_eq_true_eq, UInt8.le_iff_toNat_le] at h2
    have h2 : 224 ≤ a.toNat ∧ a.toNat ≤ 239 := h2
    unfold nextThree at h
    split at h
    · rename_i b c s
      split at h
      · rename_i h3
        rw [Bool.and_eq_true] at h3
        obtain ⟨h4, h5, h6, _, _, h9⟩ := isSecond_range h3.1
        obtain ⟨h7, h8⟩ := isCont_range h3.2
        simp only [Option.some.injEq] at h
        subst h
        simp only
        omega
      · contradiction
    · contradiction
  split at h
  · rename_i h1 _ _ h2
    simp only [Bool.and_eq_true, decide_eq_true_eq, UInt8.le_iff_toNat_le] at h2
    have h2 : 240 ≤ a.toNat ∧ a.toNat ≤ 244 := h2
    unfold nextFour at h
    split at h
    · rename_i b c d s
      split at h
      · rename_i h3
        rw [Bool.and_eq_true, Bool.and_eq_true] at h3
        obtain ⟨h4, h5, _, h6, h11, _⟩ := isSecond_range h3.1.1
        obtain ⟨h7, h8⟩ := isCont_range h3.1.2
        obtain ⟨h9, h10⟩ := isCont_range h3.2
        simp only [Option.some.injEq] at h
        subst h
        simp only
        omega
      · contradiction
    · contradiction
  · contradiction

theorem utf8_scalar : ∀ (n : Nat) (s : Str) (t : Text), s.length ≤ n → utf8 s = some t → ∀ c ∈ t, IsScalar c
  | _, [], t, _, h => by
    rw [utf8] at h
    simp only [Option.some.injEq] at h
    subst h; simp
  | 0, _ :: _, _, hn, _ => by simp at hn
  | n + 1, a :: s, t, hn, h => by
    rw [utf8] at h
    split at h
    · contradiction
    · rename_i x hx
      split at h
      · contradiction
      · rename_i t' ht
        simp only [Option.some.injEq] at h
        subst h
        have hl := nextCode_length hx
        have := utf8_scalar n x.2 t' (by simp at hn; omega) ht
        intro c hc
        rcases List.mem_cons.1 hc with rfl | hc
        · exact nextCode_scalar hx
        · exact this c hc

/-- The decoder decodes UTF-8. -/
theorem utf8_iff {s : Str} {t : Text} : utf8 s = some t ↔ IsUtf8Of s t := by
  constructor
  · intro h; exact ⟨utf8_scalar _ s t (Nat.le_refl _) h, utf8_enc _ s t (Nat.le_refl _) h⟩
  · rintro ⟨h, rfl⟩; exact utf8_of_enc t h

theorem IsUtf8.ne_none {m : List (Str × Str)} (h : IsUtf8 m) : ∀ p ∈ m, utf8 p.1 ≠ none ∧ utf8 p.2 ≠ none := by
  intro p hp
  obtain ⟨⟨t, ht⟩, u, hu⟩ := h p hp
  rw [utf8_iff.2 ht, utf8_iff.2 hu]
  simp

/-! ## Names and values that are UTF-8 -/

/-- The text of a UTF-8 string. -/
def textOf (s : Str) : Text := (utf8 s).getD []

/-- Entries with texts instead of bytes. -/
def textEntries (o : List (Str × Entry Str)) : List (Text × Entry Text) := o.map fun x => (textOf x.1, x.2.map textOf)


theorem textOf_eq {s : Str} (h : utf8 s ≠ none) : utf8 s = some (textOf s) := by
  unfold textOf
  cases hs : utf8 s with
  | none => exact absurd hs h
  | some t => rfl

theorem Nodup.map_on {α β : Type} {f : α → β} : ∀ {l : List α}, (∀ a ∈ l, ∀ b ∈ l, f a = f b → a = b) → l.Nodup →
    (l.map f).Nodup
  | [], _, _ => by simp
  | a :: l, hf, h => by
    rw [List.nodup_cons] at h
    rw [List.map_cons, List.nodup_cons]
    refine ⟨?_, Nodup.map_on (fun x hx y hy => hf x (by simp [hx]) y (by simp [hy])) h.2⟩
    intro hm
    obtain ⟨b, hb, e⟩ := List.mem_map.1 hm
    have := hf b (by simp [hb]) a (by simp) e
    exact h.1 (this ▸ hb)

theorem entsOf_keys (m : List (Str × Str)) : (entsOf m).map (·.1) = keysOf m := by
  unfold entsOf
  rw [List.map_map]
  have : ((fun x : Str × Entry Str => x.1) ∘ fun k => (k, entryOf (valuesOf m k))) = id := rfl
  rw [this, List.map_id]

theorem keys_text_nodup {m : List (Str × Str)} (hu : IsUtf8 m) : ((entsOf m).map fun x => textOf x.1).Nodup := by
  rw [show ((entsOf m).map fun x => textOf x.1) = ((entsOf m).map (·.1)).map textOf by rw [List.map_map]; rfl, entsOf_keys]
  refine Nodup.map_on ?_ (keysOf_nodup m)
  intro a ha b hb e
  obtain ⟨v, hv⟩ := mem_keysOf.1 ha
  obtain ⟨w, hw⟩ := mem_keysOf.1 hb
  have h1 := textOf_eq (hu.ne_none _ hv).1
  have h2 := textOf_eq (hu.ne_none _ hw).1
  simp only at h1 h2
  rw [← e] at h2
  exact utf8_inj h1 h2

/-! ## The four bindings -/

theorem pyString_eq {s : Str} (hn : (0 : Byte) ∉ s) (hu : utf8 s ≠ none) : pyString s = pure (textOf s) := by
  rw [pyString, cstr_eq hn, textOf_eq hu]

theorem pyDict_presents {m : List (Str × Str)} (hm : KeySorted m) (hn : NoNul m) (hu : IsUtf8 m)
    {o : List (Str × Entry Str)} (ho : Presents m o) : pyDict m = pure (textEntries o) := by
  rw [ho.unique (entsOf_presents hm), pyDict,
    mapLoop_ents (cv := textOf) (step := fun d x => dictSet d (textOf x.1) (x.2.map textOf)) hm]
  · rw [foldl_dictSet (fun x : Str × Entry Str => textOf x.1)]
    · rfl
    · simpa using keys_text_nodup hu
  · intro p hp
    exact pyString_eq (hn p hp).2 (hu.ne_none p hp).2
  · rintro d k e ⟨p, hp, rfl⟩ _
    rw [pyPut, pyString_eq (hn p hp).1 (hu.ne_none p hp).1, pure_bind]

theorem Entry.map_id (e : Entry Str) : e.map id = e := by cases e <;> simp [Entry.map]

theorem rubyHash_presents {m : List (Str × Str)} (hm : KeySorted m) {o : List (Str × Entry Str)} (ho : Presents m o) :
    rubyHash m = pure o := by
  rw [ho.unique (entsOf_presents hm), rubyHash, mapLoop_ents (cv := id) (step := fun d x => dictSet d x.1 x.2) hm]
  · rw [foldl_dictSet (fun x : Str × Entry Str => x.1)]
    · simp
    · rw [entsOf_keys]; simpa using keysOf_nodup m
  · intro p hp; rfl
  · intro d k e _ _
    rw [Entry.map_id]; rfl

theorem phpArray_presents {m : List (Str × Str)} (hm : KeySorted m) (hn : NoNul m) {o : List (Str × Entry Str)}
    (ho : Presents m o) : phpArray m = pure (o.map fun x => (phpKey x.1, x.2)) := by
  rw [ho.unique (entsOf_presents hm), phpArray, mapLoop_ents (cv := id) (step := fun d x => dictSet d (phpKey x.1) x.2) hm]
  · rw [foldl_dictSet (fun x : Str × Entry Str => phpKey x.1)]
    · simp
    · have e : ((entsOf m).map fun x => phpKey x.1) = (keysOf m).map phpKey := by rw [← entsOf_keys, List.map_map]; rfl
      rw [List.map_nil, List.nil_append, e, List.nodup_iff_pairwise_ne, List.pairwise_map]
      exact (List.nodup_iff_pairwise_ne.1 (keysOf_nodup m)).imp fun h e => h (phpKey_inj e)
  · intro p hp; rfl
  · rintro d k e ⟨p, hp, rfl⟩ hv
    rw [Entry.map_id]
    cases e with
    | one v =>
      obtain ⟨q, hq, rfl⟩ := hv v rfl
      rw [phpPut, cstr_eq (hn p hp).1, cstr_eq (hn q hq).2]
    | many vs => rw [phpPut, cstr_eq (hn p hp).1]

/-- What the object of the Node binding is before its properties are enumerated: all entries but `__proto__`. -/
theorem nodeObject_eq {js : Js} {m : List (Str × Str)} (hm : KeySorted m) (hu : IsUtf8 m) {o : List (Str × Entry Str)}
    (ho : Presents m o) : nodeObject js m = pure (jsOrder ((textEntries o).filter fun x => x.1 ≠ protoKey)) := by
  rw [ho.unique (entsOf_presents hm), nodeObject,
    mapLoop_ents (cv := textOf) (step := fun d x => jsSet d (textOf x.1) (x.2.map textOf)) hm]
  · rw [pure_bind]
    congr 1
    have key : ∀ (es : List (Str × Entry Str)) (d : List (Text × Entry Text)),
        (d.map (·.1) ++ es.map fun x => textOf x.1).Nodup →
        es.foldl (fun d x => jsSet d (textOf x.1) (x.2.map textOf)) d =
          d ++ (textEntries es).filter fun x => x.1 ≠ protoKey := by
      intro es
      induction es with
      | nil => intro d _; simp [textEntries]
      | cons x es ih =>
        intro d hd
        rw [List.foldl_cons]
        by_cases hx : textOf x.1 = protoKey
        · rw [jsSet, if_pos hx, ih]
          · simp [textEntries, hx]
          · refine hd.sublist ?_
            exact List.Sublist.append_left (by rw [List.map_cons]; exact List.sublist_cons_self _ _) _
        · rw [jsSet, if_neg hx, dictSet_new, ih]
          · simp [textEntries, hx]
          · simpa using hd
          · rw [List.nodup_append] at hd
            intro hk
            exact hd.2.2 _ hk _ (by simp) rfl
    rw [key]
    · simp
    · simpa using keys_text_nodup hu
  · intro p hp
    rw [js.strict _ _ (textOf_eq (hu.ne_none p hp).2)]
  · rintro d k e ⟨p, hp, rfl⟩ _
    rw [jsPut, js.strict _ _ (textOf_eq (hu.ne_none p hp).1)]

theorem insertIndex_perm {ν : Type} (x : Nat × ν) : ∀ l : List (Nat × ν), (insertIndex x l).Perm (x :: l)
  | [] => .refl _
  | y :: l => by
    rw [insertIndex]
    split
    · exact .refl _
    · exact ((insertIndex_perm x l).cons y).trans (.swap x y l)

theorem foldl_insert_perm {ν : Type} : ∀ (xs l : List (Nat × ν)),
    (xs.foldl (fun l x => insertIndex x l) l).Perm (xs ++ l)
  | [], _ => .refl _
  | x :: xs, l => by
    rw [List.foldl_cons]
    refine (foldl_insert_perm xs _).trans ?_
    refine ((insertIndex_perm x l).append_left xs).trans ?_
    exact List.perm_middle

/-- The order of enumeration changes nothing else. -/
theorem jsOrder_perm {ν : Type} (d : List (Text × ν)) : (jsOrder d).Perm d := by
  unfold jsOrder
  refine (((foldl_insert_perm _ []).map (·.2)).append_right _).trans ?_
  rw [List.append_nil, List.map_filterMap]
  have : (d.filterMap fun q => Option.map (fun x : Nat × (Text × ν) => x.2) ((arrayIndex q.1).map fun n => (n, q))) =
      d.filter fun q => !(arrayIndex q.1).isNone := by
    induction d with
    | nil => rfl
    | cons q d ih =>
      rw [List.filterMap_cons, List.filter_cons, ih]
      cases arrayIndex q.1 <;> rfl
  rw [this]
  have h := List.filter_append_perm (fun q : Text × ν => (arrayIndex q.1).isNone) d
  exact List.perm_append_comm.trans h

/-- Without array indices the order is that of creation. -/
theorem jsOrder_eq {ν : Type} {d : List (Text × ν)} (h : ∀ x ∈ d, arrayIndex x.1 = none) : jsOrder d = d := by
  unfold jsOrder
  have h1 : (d.filterMap fun q => (arrayIndex q.1).map fun n => (n, q)) = [] := by
    rw [List.filterMap_eq_nil_iff]
    intro q hq
    rw [h q hq]; rfl
  have h2 : d.filter (fun q => (arrayIndex q.1).isNone) = d := by
    rw [List.filter_eq_self]
    intro q hq
    rw [h q hq]; rfl
  rw [h1, h2]; rfl

/-! ## Texts -/

theorem textOf_isUtf8 {s : Str} (h : ∃ t, IsUtf8Of s t) : IsUtf8Of s (textOf s) := by
  obtain ⟨t, ht⟩ := h
  have := utf8_iff.2 ht
  exact utf8_iff.1 (textOf_eq (by rw [this]; simp))

theorem textEntries_isText : ∀ {o : List (Str × Entry Str)}, (∀ x ∈ o, (∃ t, IsUtf8Of x.1 t) ∧
    match x.2 with
    | .one v => ∃ t, IsUtf8Of v t
    | .many vs => ∀ v ∈ vs, ∃ t, IsUtf8Of v t) → IsTextOf o (textEntries o)
  | [], _ => .nil
  | (k, e) :: o, h => by
    have h1 := h (k, e) (by simp)
    refine .cons (textOf_isUtf8 h1.1) ?_ (textEntries_isText fun x hx => h x (by simp [hx]))
    cases e with
    | one v => exact .one (textOf_isUtf8 h1.2)
    | many vs =>
      refine .many (by simp) ?_
      have h2 : ∀ v ∈ vs, ∃ t, IsUtf8Of v t := h1.2
      clear h1 h
      intro x hx
      induction vs with
      | nil => simp at hx
      | cons v vs ih =>
        simp only [List.map_cons, List.zip_cons_cons, List.mem_cons] at hx
        rcases hx with rfl | hx
        · exact textOf_isUtf8 (h2 v (by simp))
        · exact ih (fun v hv => h2 v (by simp [hv])) hx

theorem presents_isText {m : List (Str × Str)} {o : List (Str × Entry Str)} (ho : Presents m o) (hu : IsUtf8 m) :
    IsTextOf o (textEntries o) := by
  apply textEntries_isText
  rintro ⟨k, e⟩ hx
  have key : ∀ v ∈ valuesOf m k, (∃ t, IsUtf8Of k t) ∧ ∃ t, IsUtf8Of v t := by
    intro v hv
    simp only [valuesOf, List.mem_map, List.mem_filter, decide_eq_true_eq] at hv
    obtain ⟨⟨k', v'⟩, ⟨h1, rfl⟩, rfl⟩ := hv
    exact hu _ h1
  have h1 := (ho.2 k e).1 hx
  cases e with
  | one v =>
    have h1 : valuesOf m k = [v] := h1
    exact key v (by rw [h1]; simp)
  | many vs =>
    have h1 : valuesOf m k = vs ∧ 2 ≤ vs.length := h1
    obtain ⟨rfl, h2⟩ := h1
    refine ⟨?_, fun v hv => (key v hv).2⟩
    match hv : valuesOf m k, h2 with
    | v :: _, _ => exact (key v (by rw [hv]; simp)).1

theorem IsTextOf.unique {o : List (Str × Entry Str)} {d d' : List (Text × Entry Text)} (h : IsTextOf o d)
    (h' : IsTextOf o d') : d = d' := by
  have key : ∀ {s t t'}, IsUtf8Of s t → IsUtf8Of s t' → t = t' := by
    intro s t t' h1 h2
    have := (utf8_iff.2 h1).symm.trans (utf8_iff.2 h2)
    simpa using this
  induction h generalizing d' with
  | nil => cases h'; rfl
  | cons h1 h2 _ ih =>
    cases h' with
    | cons h1' h2' h3' =>
      rw [key h1 h1', ih h3']
      congr 2
      cases h2 with
      | one h => cases h2' with | one h' => rw [key h h']
      | @many ss ts hl h =>
        cases h2' with
        | @many _ ts' hl' h' =>
          congr 1
          clear ih h1 h1' h3'
          induction ss generalizing ts ts' with
          | nil =>
            cases ts with
            | nil => cases ts' with
              | nil => rfl
              | cons _ _ => simp at hl'
            | cons _ _ => simp at hl
          | cons s ss ih =>
            cases ts with
            | nil => simp at hl
            | cons t ts => cases ts' with
              | nil => simp at hl'
              | cons t' ts' =>
                have e : t = t' := key (h (s, t) (by simp)) (h' (s, t') (by simp))
                rw [e]
                congr 1
                exact ih (by simpa using hl) (fun x hx => h x (by simp [hx])) (by simpa using hl')
                  (fun x hx => h' x (by simp [hx]))

end Hext
