import Verif.Proofs.ParserCheck
/-!
# The transition of a byte

The binary searches of the automaton find the transition that `Check.edges` lists.
-/

namespace Hext.Check

open Data

/-! ## Packed tables -/

theorem packed_succ (t i : Nat) : packed t (i + 1) = packed (t >>> 16) i := by
  show (t >>> (16 * (i + 1))) % 65536 = ((t >>> 16) >>> (16 * i)) % 65536
  rw [← Nat.shiftRight_add]; congr 2; omega

theorem unpacks_get {xs : List Nat} : ∀ {t : Nat}, unpacks t xs = true →
    ∀ {i x : Nat}, xs[i]? = some x → packed t i = x := by
  induction xs with
  | nil => intro t _ i x h; simp at h
  | cons y ys ih =>
    intro t h i x hx
    simp only [unpacks] at h
    cases hy : Nat.beq (Nat.mod t 65536) y with
    | false => rw [hy] at h; simp at h
    | true =>
      rw [hy] at h
      cases i with
      | zero => simp at hx; subst hx; exact Nat.eq_of_beq_eq_true hy
      | succ i => rw [packed_succ]; exact ih h (by simpa using hx)

theorem tbl_of {xs : List Nat} {t i : Nat} (h : unpacks t xs = true) (hi : i < xs.length) :
    tbl xs i = pure (packed t i) := by
  have hx := List.getElem?_eq_getElem hi
  rw [tbl, hx, unpacks_get h hx]

theorem length_actions : Tables.actions.length = 371 := by decide +kernel
theorem length_keyOffsets : Tables.keyOffsets.length = 820 := by decide +kernel
theorem length_transKeys : Tables.transKeys.length = 2853 := by decide +kernel
theorem length_singleLengths : Tables.singleLengths.length = 820 := by decide +kernel
theorem length_rangeLengths : Tables.rangeLengths.length = 820 := by decide +kernel
theorem length_indexOffsets : Tables.indexOffsets.length = 820 := by decide +kernel
theorem length_indicies : Tables.indicies.length = 3125 := by decide +kernel
theorem length_transTargs : Tables.transTargs.length = 1381 := by decide +kernel
theorem length_transActions : Tables.transActions.length = 1381 := by decide +kernel
theorem length_eofActions : Tables.eofActions.length = 820 := by decide +kernel

theorem tbl_actions {i} (h : i < 371) : tbl Tables.actions i = pure (packed actions i) :=
  tbl_of unpack_actions (by rw [length_actions]; exact h)
theorem tbl_keyOffsets {i} (h : i < 820) : tbl Tables.keyOffsets i = pure (packed keyOffsets i) :=
  tbl_of unpack_keyOffsets (by rw [length_keyOffsets]; exact h)
theorem tbl_transKeys {i} (h : i < 2853) : tbl Tables.transKeys i = pure (packed transKeys i) :=
  tbl_of unpack_transKeys (by rw [length_transKeys]; exact h)
theorem tbl_singleLengths {i} (h : i < 820) : tbl Tables.singleLengths i = pure (packed singleLengths i) :=
  tbl_of unpack_singleLengths (by rw [length_singleLengths]; exact h)
theorem tbl_rangeLengths {i} (h : i < 820) : tbl Tables.rangeLengths i = pure (packed rangeLengths i) :=
  tbl_of unpack_rangeLengths (by rw [length_rangeLengths]; exact h)
theorem tbl_indexOffsets {i} (h : i < 820) : tbl Tables.indexOffsets i = pure (packed indexOffsets i) :=
  tbl_of unpack_indexOffsets (by rw [length_indexOffsets]; exact h)
theorem tbl_indicies {i} (h : i < 3125) : tbl Tables.indicies i = pure (packed indicies i) :=
  tbl_of unpack_indicies (by rw [length_indicies]; exact h)
theorem tbl_transTargs {i} (h : i < 1381) : tbl Tables.transTargs i = pure (packed transTargs i) :=
  tbl_of unpack_transTargs (by rw [length_transTargs]; exact h)
theorem tbl_transActions {i} (h : i < 1381) : tbl Tables.transActions i = pure (packed transActions i) :=
  tbl_of unpack_transActions (by rw [length_transActions]; exact h)
theorem tbl_eofActions {i} (h : i < 820) : tbl Tables.eofActions i = pure (packed eofActions i) :=
  tbl_of unpack_eofActions (by rw [length_eofActions]; exact h)

/-- The key at an offset. -/
def key (i : Nat) : Nat := packed transKeys i

theorem keyAt_eq {i : Int} (h0 : 0 ≤ i) (h : i < 2853) : keyAt i = pure (key i.toNat : Int) := by
  rw [keyAt, if_neg (by omega), tbl_transKeys (by omega)]; rfl

/-! ## Binary search -/

theorem searchSingle_spec (ch : Int) : ∀ (n : Nat) (lower upper : Int), (upper + 1 - lower).toNat = n → 0 ≤ lower →
    upper < 2853 → (∀ i j : Nat, lower ≤ i → i < j → (j : Int) ≤ upper → key i < key j) →
    (∃ m : Nat, searchSingle ch lower upper = pure (some (m : Int)) ∧ lower ≤ m ∧ (m : Int) ≤ upper ∧ (key m : Int) = ch) ∨
    (searchSingle ch lower upper = pure none ∧ ∀ m : Nat, lower ≤ m → (m : Int) ≤ upper → (key m : Int) ≠ ch) := by
  intro n
  induction n using Nat.strongRecOn with
  | ind n ih =>
    intro lower upper hn h0 hu hs
    rw [searchSingle]
    split
    · right; exact ⟨rfl, fun m h1 h2 => by omega⟩
    · rename_i hlu
      have hmid : ∃ mid : Nat, (mid : Int) = lower + (upper - lower) / 2 ∧ lower ≤ mid ∧ (mid : Int) ≤ upper :=
        ⟨(lower + (upper - lower) / 2).toNat, by omega, by omega, by omega⟩
      obtain ⟨mid, hm, hm1, hm2⟩ := hmid
      simp only [← hm]
      rw [keyAt_eq (by omega) (by omega)]
      simp only [Int.toNat_natCast, pure_bind]
      split
      · rename_i hlt
        rcases ih _ (by omega) lower (mid - 1) rfl h0 (by omega) (fun i j a b c => hs i j a b (by omega)) with
          ⟨m, h1, h2, h3, h4⟩ | ⟨h1, h2⟩
        · exact .inl ⟨m, h1, h2, by omega, h4⟩
        · refine .inr ⟨h1, fun m a b hk => ?_⟩
          by_cases hc : (m : Int) ≤ mid - 1
          · exact h2 m a hc hk
          · by_cases he : m = mid
            · subst he; omega
            · have := hs mid m hm1 (by omega) b; omega
      · split
        · rename_i hlt
          rcases ih _ (by omega) (mid + 1) upper rfl (by omega) hu (fun i j a b c => hs i j (by omega) b c) with
            ⟨m, h1, h2, h3, h4⟩ | ⟨h1, h2⟩
          · exact .inl ⟨m, h1, by omega, h3, h4⟩
          · refine .inr ⟨h1, fun m a b hk => ?_⟩
            by_cases hc : (mid : Int) + 1 ≤ m
            · exact h2 m hc b hk
            · by_cases he : m = mid
              · subst he; omega
              · have := hs m mid a (by omega) hm2; omega
        · exact .inl ⟨mid, rfl, hm1, hm2, by omega⟩

/-- Ranges `n` of them, starting at the offset `k`. -/
theorem searchRange_spec (ch : Int) (k : Nat) : ∀ (n : Nat) (lo hi : Nat), hi - lo = n → lo ≤ hi → k + 2 * hi ≤ 2853 →
    (∀ i : Nat, lo ≤ i → i < hi → key (k + 2 * i) ≤ key (k + 2 * i + 1)) →
    (∀ i j : Nat, lo ≤ i → i < j → j < hi → key (k + 2 * i + 1) < key (k + 2 * j)) →
    (∃ m : Nat, searchRange ch ((k + 2 * lo : Nat) : Int) ((k + 2 * hi : Nat) - 2 : Int) = pure (some ((k + 2 * m : Nat) : Int)) ∧
      lo ≤ m ∧ m < hi ∧ (key (k + 2 * m) : Int) ≤ ch ∧ ch ≤ (key (k + 2 * m + 1) : Int)) ∨
    (searchRange ch ((k + 2 * lo : Nat) : Int) ((k + 2 * hi : Nat) - 2 : Int) = pure none ∧
      ∀ m : Nat, lo ≤ m → m < hi → ¬ ((key (k + 2 * m) : Int) ≤ ch ∧ ch ≤ (key (k + 2 * m + 1) : Int))) := by
  intro n
  induction n using Nat.strongRecOn with
  | ind n ih =>
    intro lo hi hn hle hb hw hs
    rw [searchRange]
    split
    · right; exact ⟨rfl, fun m h1 h2 => by omega⟩
    · rename_i hlu
      have hmid : ∃ mid : Nat, ((k + 2 * mid : Nat) : Int) =
          ((k + 2 * lo : Nat) : Int) + (((k + 2 * hi : Nat) - 2 : Int) - ((k + 2 * lo : Nat) : Int)) / 2 / 2 * 2 ∧
          lo ≤ mid ∧ mid < hi :=
        ⟨lo + (hi - 1 - lo) / 2, by omega, by omega, by omega⟩
      obtain ⟨mid, hm, hm1, hm2⟩ := hmid
      simp only [← hm]
      have hkey : (((k + 2 * mid : Nat) : Int) + 1) = ((k + 2 * mid + 1 : Nat) : Int) := by omega
      rw [hkey, keyAt_eq (by omega) (by omega), keyAt_eq (by omega) (by omega)]
      simp only [Int.toNat_natCast, pure_bind]
      split
      · rename_i hlt
        have e : ((k + 2 * mid : Nat) : Int) - 2 = ((k + 2 * mid : Nat) - 2 : Int) := rfl
        rcases ih _ (by omega) lo mid rfl hm1 (by omega) (fun i a b => hw i a (by omega)) (fun i j a b c => hs i j a b (by omega)) with
          ⟨m, h1, h2, h3, h4⟩ | ⟨h1, h2⟩
        · exact .inl ⟨m, h1, h2, by omega, h4⟩
        · refine .inr ⟨h1, fun m a b hk => ?_⟩
          by_cases hc : m < mid
          · exact h2 m a hc hk
          · by_cases he : m = mid
            · subst he; omega
            · have := hs mid m hm1 (by omega) b
              have := hw mid hm1 hm2; omega
      · split
        · rename_i hlt
          have e : ((k + 2 * mid : Nat) : Int) + 2 = ((k + 2 * (mid + 1) : Nat) : Int) := by omega
          rw [e]
          rcases ih _ (by omega) (mid + 1) hi rfl (by omega) (by omega) (fun i a b => hw i (by omega) b)
              (fun i j a b c => hs i j (by omega) b c) with ⟨m, h1, h2, h3, h4⟩ | ⟨h1, h2⟩
          · exact .inl ⟨m, h1, by omega, h3, h4⟩
          · refine .inr ⟨h1, fun m a b hk => ?_⟩
            by_cases hc : mid + 1 ≤ m
            · exact h2 m hc b hk
            · by_cases he : m = mid
              · subst he; omega
              · have := hs m mid a (by omega) hm2
                have := hw mid hm1 hm2; omega
        · exact .inl ⟨mid, rfl, hm1, hm2, by omega, by omega⟩

/-! ## The sorted keys -/

theorem sortedSingle_spec : ∀ {n k : Nat}, sortedSingle k n = true →
    (∀ i, k ≤ i → i < k + n → key i < 128) ∧ (∀ i j, k ≤ i → i < j → j < k + n → key i < key j) := by
  intro n
  induction n with
  | zero => intro k _; exact ⟨fun i a b => by omega, fun i j a b c => by omega⟩
  | succ n ih =>
    intro k h
    cases n with
    | zero =>
      have : key k < 128 := by simpa [sortedSingle, Nat.blt_eq, key] using h
      refine ⟨fun i a b => ?_, fun i j a b c => by omega⟩
      have : i = k := by omega
      subst this; assumption
    | succ n =>
      simp only [sortedSingle] at h
      cases hb : Nat.blt (packed transKeys k) (packed transKeys (k + 1)) with
      | false => rw [hb] at h; simp at h
      | true =>
        rw [hb] at h
        have hlt : key k < key (k + 1) := by simpa [Nat.blt_eq, key] using hb
        obtain ⟨h1, h2⟩ := ih h
        have hk : ∀ j, k + 1 ≤ j → j < k + (n + 1 + 1) → key k < key j := by
          intro j a b
          by_cases e : j = k + 1
          · subst e; exact hlt
          · exact Nat.lt_trans hlt (h2 (k + 1) j (Nat.le_refl _) (by omega) (by omega))
        refine ⟨fun i a b => ?_, fun i j a b c => ?_⟩
        · by_cases e : i = k
          · subst e; exact Nat.lt_trans hlt (h1 _ (Nat.le_refl _) (by omega))
          · exact h1 i (by omega) (by omega)
        · by_cases e : i = k
          · subst e; exact hk j (by omega) c
          · exact h2 i j (by omega) b (by omega)

theorem sortedRange_spec : ∀ {n k : Nat}, sortedRange k n = true →
    (∀ i, i < n → key (k + 2 * i) ≤ key (k + 2 * i + 1) ∧ key (k + 2 * i + 1) < 128) ∧
    (∀ i j, i < j → j < n → key (k + 2 * i + 1) < key (k + 2 * j)) := by
  intro n
  induction n with
  | zero => intro k _; exact ⟨fun i a => by omega, fun i j a b => by omega⟩
  | succ n ih =>
    intro k h
    cases n with
    | zero =>
      simp only [sortedRange] at h
      cases hb : Nat.ble (packed transKeys k) (packed transKeys (k + 1)) with
      | false => rw [hb] at h; simp at h
      | true =>
        rw [hb] at h
        have : key (k + 1) < 128 := by simpa [Nat.blt_eq, key] using h
        have : key k ≤ key (k + 1) := by simpa [key] using hb
        refine ⟨fun i a => ?_, fun i j a b => by omega⟩
        have : i = 0 := by omega
        subst this; exact ⟨by simpa, by simpa⟩
    | succ n =>
      simp only [sortedRange] at h
      cases hb : Nat.ble (packed transKeys k) (packed transKeys (k + 1)) with
      | false => rw [hb] at h; simp at h
      | true =>
        cases hb' : Nat.blt (packed transKeys (k + 1)) (packed transKeys (k + 2)) with
        | false => rw [hb, hb'] at h; simp at h
        | true =>
          rw [hb, hb'] at h
          have hle : key k ≤ key (k + 1) := by simpa [key] using hb
          have hlt : key (k + 1) < key (k + 2) := by simpa [Nat.blt_eq, key] using hb'
          obtain ⟨h1, h2⟩ := ih h
          have h1' : ∀ i, i < n + 1 → key (k + 2 * (i + 1)) ≤ key (k + 2 * (i + 1) + 1) ∧ key (k + 2 * (i + 1) + 1) < 128 := by
            intro i a
            have := h1 i a
            rw [show k + 2 + 2 * i = k + 2 * (i + 1) from by omega] at this
            exact this
          have h2' : ∀ i j, i < j → j < n + 1 → key (k + 2 * (i + 1) + 1) < key (k + 2 * (j + 1)) := by
            intro i j a b
            have := h2 i j a b
            rw [show k + 2 + 2 * i = k + 2 * (i + 1) from by omega, show k + 2 + 2 * j = k + 2 * (j + 1) from by omega] at this
            exact this
          have hk : ∀ j, j < n + 1 → key (k + 1) < key (k + 2 * (j + 1)) := by
            intro j a
            cases j with
            | zero => exact hlt
            | succ j =>
              have a1 := h1' 0 (by omega)
              have a2 := h2' 0 (j + 1) (by omega) a
              have a3 : key (k + 1) < key (k + 2 * (0 + 1)) := hlt
              omega
          refine ⟨fun i a => ?_, fun i j a b => ?_⟩
          · cases i with
            | zero =>
              have a1 := h1' 0 (by omega)
              have a3 : key (k + 1) < key (k + 2 * (0 + 1)) := hlt
              exact ⟨hle, by show key (k + 1) < 128; omega⟩
            | succ i => exact h1' i (by omega)
          · cases j with
            | zero => omega
            | succ j =>
              cases i with
              | zero => exact hk j (by omega)
              | succ i => exact h2' i j (by omega) (by omega)

/-! ## The transition -/

/-- The first set that contains `b`. -/
def pick (d : Nat) (b : Nat) : List (Nat × Nat) → Nat
  | [] => d
  | e :: es => if e.1.testBit b then e.2 else pick d b es

theorem testBit_single (k b : Nat) : (Nat.shiftLeft 1 k).testBit b = decide (k = b) := by
  show (1 <<< k).testBit b = _
  rw [Nat.one_shiftLeft, Nat.testBit_two_pow]

theorem testBit_range {lo hi : Nat} (h : lo ≤ hi) (b : Nat) :
    (Nat.sub (Nat.shiftLeft 1 (hi + 1)) (Nat.shiftLeft 1 lo)).testBit b = decide (lo ≤ b ∧ b ≤ hi) := by
  show ((1 <<< (hi + 1)) - (1 <<< lo)).testBit b = _
  have e : (1 <<< (hi + 1)) - (1 <<< lo) = 2 ^ lo * (2 ^ (hi + 1 - lo) - 1) := by
    rw [Nat.one_shiftLeft, Nat.one_shiftLeft, Nat.mul_sub, ← Nat.pow_add, Nat.mul_one,
      show lo + (hi + 1 - lo) = hi + 1 from by omega]
  rw [e, Nat.testBit_two_pow_mul, Nat.testBit_two_pow_sub_one, ← Bool.decide_and]
  exact decide_eq_decide.mpr (by omega)

theorem firstWins_pick (d b : Nat) (hb : b < 256) : ∀ (es : List (Nat × Nat)) (seen : Nat), seen.testBit b = false →
    ∃ e ∈ firstWins d seen es, e.1.testBit b = true ∧ e.2 = pick d b es := by
  intro es
  induction es with
  | nil =>
    intro seen hs
    refine ⟨_, .head _, ?_, rfl⟩
    show (allBytes ^^^ seen).testBit b = true
    rw [Nat.testBit_xor, hs, allBytes, Nat.testBit_two_pow_sub_one]
    simp [hb]
  | cons e es ih =>
    intro seen hs
    by_cases he : e.1.testBit b
    · refine ⟨_, .head _, ?_, ?_⟩
      · show (e.1 ^^^ (e.1 &&& seen)).testBit b = true
        rw [Nat.testBit_xor, Nat.testBit_and, hs, he]; rfl
      · simp [pick, he]
    · obtain ⟨e', h1, h2, h3⟩ := ih (Nat.lor seen e.1) (by
        show (seen ||| e.1).testBit b = false
        rw [Nat.testBit_or, hs]; simpa using he)
      exact ⟨e', .tail _ h1, h2, by simp only [pick]; rw [if_neg he]; exact h3⟩

theorem pick_single_hit (d b : Nat) (rest) : ∀ (n k i j : Nat), j < n → key (k + j) = b →
    (∀ i' j', k ≤ i' → i' < j' → j' < k + n → key i' < key j') →
    pick d b (singleEdges k i n ++ rest) = packed indicies (i + j) := by
  intro n
  induction n with
  | zero => intro k i j h; omega
  | succ n ih =>
    intro k i j hj hk hs
    simp only [singleEdges, List.cons_append, pick, testBit_single]
    cases j with
    | zero => rw [if_pos (by simpa [key] using hk)]; rfl
    | succ j =>
      have := hs k (k + (j + 1)) (Nat.le_refl _) (by omega) (by omega)
      rw [if_neg (by show ¬ decide (key k = b) = true; simp; omega)]
      rw [ih (k + 1) (i + 1) j (by omega) (by rw [← hk]; congr 1; omega) (fun a c x y z => hs a c (by omega) y (by omega))]
      congr 1; omega

theorem pick_single_miss (d b : Nat) (rest) : ∀ (n k i : Nat), (∀ m, k ≤ m → m < k + n → key m ≠ b) →
    pick d b (singleEdges k i n ++ rest) = pick d b rest := by
  intro n
  induction n with
  | zero => intro k i h; rfl
  | succ n ih =>
    intro k i h
    simp only [singleEdges, List.cons_append, pick, testBit_single]
    rw [if_neg (by have := h k (Nat.le_refl _) (by omega); simpa [key] using this)]
    exact ih _ _ (fun m a c => h m (by omega) (by omega))

theorem pick_range_hit (d b : Nat) : ∀ (n k i j : Nat), j < n → key (k + 2 * j) ≤ b → b ≤ key (k + 2 * j + 1) →
    (∀ i', i' < n → key (k + 2 * i') ≤ key (k + 2 * i' + 1)) →
    (∀ i' j', i' < j' → j' < n → key (k + 2 * i' + 1) < key (k + 2 * j')) →
    pick d b (rangeEdges k i n) = packed indicies (i + j) := by
  intro n
  induction n with
  | zero => intro k i j h; omega
  | succ n ih =>
    intro k i j hj hk1 hk2 hw hs
    simp only [rangeEdges, pick]
    rw [testBit_range (by exact hw 0 (by omega))]
    cases j with
    | zero => rw [if_pos (by simpa using ⟨hk1, hk2⟩)]; rfl
    | succ j =>
      have := hs 0 (j + 1) (by omega) (by omega)
      rw [if_neg (by
        show ¬ decide (key k ≤ b ∧ b ≤ key (k + 1)) = true
        have e : key (k + 2 * 0 + 1) = key (k + 1) := rfl
        simp; omega)]
      have e : ∀ x, k + 2 + 2 * x = k + 2 * (x + 1) := by intro x; omega
      rw [ih (k + 2) (i + 1) j (by omega) (by rw [e]; exact hk1) (by rw [e]; exact hk2)
        (fun a x => by rw [e]; exact hw _ (by omega)) (fun a c x y => by rw [e, e]; exact hs _ _ (by omega) (by omega))]
      congr 1; omega

theorem pick_range_miss (d b : Nat) : ∀ (n k i : Nat),
    (∀ i', i' < n → key (k + 2 * i') ≤ key (k + 2 * i' + 1)) →
    (∀ m, m < n → ¬ (key (k + 2 * m) ≤ b ∧ b ≤ key (k + 2 * m + 1))) →
    pick d b (rangeEdges k i n) = d := by
  intro n
  induction n with
  | zero => intro k i _ _; rfl
  | succ n ih =>
    intro k i hw h
    simp only [rangeEdges, pick]
    rw [testBit_range (by exact hw 0 (by omega)), if_neg (by have := h 0 (by omega); simpa [key] using this)]
    have e : ∀ x, k + 2 + 2 * x = k + 2 * (x + 1) := by intro x; omega
    exact ih _ _ (fun a x => by rw [e]; exact hw _ (by omega)) (fun a x => by rw [e]; exact h _ (by omega))

/-- The transition of the state `q` for the byte `b`. -/
def trans (q : Nat) (b : Byte) : Nat :=
  let k := packed keyOffsets q
  let i := packed indexOffsets q
  let s := packed singleLengths q
  let r := packed rangeLengths q
  pick (packed indicies (i + s + r)) b.toNat (singleEdges k i s ++ rangeEdges (k + s) (i + s) r)

theorem trans_mem (q : Nat) (b : Byte) : ∃ e ∈ edges q, e.1.testBit b.toNat = true ∧ e.2 = trans q b :=
  firstWins_pick _ _ (UInt8.toNat_lt b) _ 0 (Nat.zero_testBit _)

theorem charVal_eq {cs : Bool} {b : Byte} {k : Nat} (h : k < 128) : (k : Int) = charVal cs b ↔ k = b.toNat := by
  have := UInt8.toNat_lt b
  unfold charVal
  split
  · rename_i hc
    have : 128 ≤ b.toNat := by
      simp at hc; exact UInt8.le_iff_toNat_le.mp hc.2
    omega
  · omega

theorem charVal_between {cs : Bool} {b : Byte} {l u : Nat} (h : u < 128) :
    ((l : Int) ≤ charVal cs b ∧ charVal cs b ≤ u) ↔ (l ≤ b.toNat ∧ b.toNat ≤ u) := by
  have := UInt8.toNat_lt b
  unfold charVal
  split
  · rename_i hc
    have : 128 ≤ b.toNat := by
      simp at hc; exact UInt8.le_iff_toNat_le.mp hc.2
    omega
  · omega

/-- The search of the automaton finds the transition; whether `char` is signed does not matter. -/
theorem transIndex_eq {q : Nat} (hq : q < 820) (hok : okState q = true) (cs : Bool) (b : Byte) :
    ∃ i, transIndex cs q b = pure i ∧ tbl Tables.indicies i = pure (trans q b) := by
  have hok' := hok
  simp only [okState, Bool.and_eq_true] at hok'
  obtain ⟨⟨⟨h1, h2⟩, h3⟩, h4⟩ := hok'
  have h3 : packed keyOffsets q + packed singleLengths q + 2 * packed rangeLengths q ≤ 2853 := Nat.le_of_ble_eq_true h3
  have h4 : packed indexOffsets q + packed singleLengths q + packed rangeLengths q < 3125 := by
    simpa [Nat.blt_eq] using h4
  obtain ⟨s1, s2⟩ := sortedSingle_spec h1
  obtain ⟨r1, r2⟩ := sortedRange_spec h2
  unfold transIndex trans
  simp only [tbl_keyOffsets hq, tbl_indexOffsets hq, tbl_singleLengths hq, tbl_rangeLengths hq, pure_bind]
  generalize packed keyOffsets q = k at *
  generalize packed indexOffsets q = i at *
  generalize packed singleLengths q = n at *
  generalize packed rangeLengths q = r at *
  have hsingle : (∃ m, findSingle (charVal cs b) k n =
        pure (some ((k + m : Nat) : Int)) ∧ m < n ∧ key (k + m) = b.toNat) ∨
      (findSingle (charVal cs b) k n = pure none ∧
        ∀ m, k ≤ m → m < k + n → key m ≠ b.toNat) := by
    unfold findSingle
    by_cases hn : n > 0
    · rw [if_pos hn]
      rcases searchSingle_spec (charVal cs b) _ k (k + n - 1) rfl (by omega) (by omega)
        (fun i j a c d => s2 i j (by omega) c (by omega)) with ⟨m, e1, e2, e3, e4⟩ | ⟨e1, e2⟩
      · left
        refine ⟨m - k, ?_, by omega, ?_⟩
        · rw [e1]; congr 2; omega
        · rw [show k + (m - k) = m from by omega]
          exact (charVal_eq (s1 m (by omega) (by omega))).mp e4
      · right
        exact ⟨e1, fun m a c he => e2 m (by omega) (by omega) ((charVal_eq (s1 m a c)).mpr he)⟩
    · right
      rw [if_neg hn]
      exact ⟨rfl, fun m a c => by omega⟩
  rcases hsingle with ⟨m, e1, e2, e3⟩ | ⟨e1, e2⟩
  · refine ⟨i + m, ?_, ?_⟩
    · rw [e1]
      simp only [pure_bind]
      congr 1; omega
    · rw [tbl_indicies (by omega), pick_single_hit _ _ _ n k i m e2 e3 s2]
  · rw [e1]
    simp only [pure_bind]
    rw [pick_single_miss _ _ _ n k i e2]
    unfold findRange
    by_cases hr : r > 0
    · rw [if_pos hr]
      have key := searchRange_spec (charVal cs b) (k + n) _ 0 r rfl (by omega) (by omega)
        (fun i _ a => (r1 i a).1) (fun i j _ a c => r2 i j a c)
      rw [show ((k + n + 2 * 0 : Nat) : Int) = (k : Int) + n from by omega,
        show (((k + n + 2 * r : Nat) : Int) - 2) = (k : Int) + n + 2 * r - 2 from by omega] at key
      have cast : ((k + n : Nat) : Int) = (k : Int) + n := by omega
      rw [cast]
      rcases key with ⟨m, f1, _, f2, f3⟩ | ⟨f1, f2⟩
      · refine ⟨i + n + m, ?_, ?_⟩
        · rw [f1]
          simp only [pure_bind]
          congr 1; omega
        · have := (charVal_between (r1 m f2).2).mp f3
          rw [tbl_indicies (by omega), pick_range_hit _ _ r (k + n) (i + n) m f2 this.1 this.2 (fun j a => (r1 j a).1) r2]
      · refine ⟨i + n + r, ?_, ?_⟩
        · rw [f1]; rfl
        · rw [tbl_indicies (by omega), pick_range_miss _ _ r (k + n) (i + n) (fun j a => (r1 j a).1)]
          intro m a hc
          exact f2 m (by omega) a ((charVal_between (r1 m a).2).mpr hc)
    · rw [if_neg hr]
      refine ⟨i + n + r, rfl, ?_⟩
      rw [tbl_indicies (by omega), pick_range_miss _ _ r (k + n) (i + n) (fun j a => (r1 j a).1)]
      intro m a; omega

end Hext.Check
