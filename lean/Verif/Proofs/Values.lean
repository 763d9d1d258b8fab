import Verif.Model.Values
import Verif.Proofs.StringUtil
set_option linter.unusedSimpArgs false
/-!
# Helper lemmas for value tests and pipes
-/

namespace Hext

open Spec

/-- `w` occurs in `s` at index `k`. -/
def OccAt (s w : Str) (k : Nat) : Prop := k + w.length ≤ s.length ∧ (s.drop k).take w.length = w

theorem findFrom_some {s w : Str} {pos b : Nat} (h : findFrom s w pos = some b) :
    pos ≤ b ∧ OccAt s w b ∧ ∀ j, pos ≤ j → j < b → ¬ OccAt s w j := by
  fun_induction findFrom s w pos with
  | case1 pos h1 h2 =>
    cases h
    exact ⟨Nat.le_refl _, ⟨h1, h2⟩, fun j h3 h4 => by omega⟩
  | case2 pos h1 h2 ih =>
    obtain ⟨a, b', c⟩ := ih h
    refine ⟨by omega, b', fun j h3 h4 hj => ?_⟩
    by_cases hjp : j = pos
    · subst hjp; exact h2 hj.2
    · exact c j (by omega) h4 hj
  | case3 pos h1 => cases h

theorem findFrom_none {s w : Str} {pos : Nat} (h : findFrom s w pos = none) :
    ∀ j, pos ≤ j → ¬ OccAt s w j := by
  fun_induction findFrom s w pos with
  | case1 pos h1 h2 => cases h
  | case2 pos h1 h2 ih =>
    intro j hj hocc
    by_cases hjp : j = pos
    · subst hjp; exact h2 hocc.2
    · exact ih h j (by omega) hocc
  | case3 pos h1 =>
    intro j hj hocc
    have := hocc.1
    omega

/-- A delimited occurrence at index `k`. -/
def BoundedAt (s w : Str) (k : Nat) : Prop :=
  OccAt s w k ∧ (k = 0 ∨ s[k-1]? = some 32) ∧ (k + w.length = s.length ∨ s[k + w.length]? = some 32)

theorem occAt_split {s w : Str} {k : Nat} (h : OccAt s w k) :
    s = s.take k ++ w ++ s.drop (k + w.length) := by
  have h1 : s = s.take k ++ s.drop k := (List.take_append_drop k s).symm
  have h2 : s.drop k = (s.drop k).take w.length ++ (s.drop k).drop w.length :=
    (List.take_append_drop _ _).symm
  rw [h.2, List.drop_drop] at h2
  rw [List.append_assoc, ← h2]; exact h1

theorem occAt_of_split {pre w post : Str} : OccAt (pre ++ w ++ post) w pre.length := by
  refine ⟨by simp, ?_⟩
  simp

theorem occursAsWord_iff (s w : Str) : OccursAsWord w s ↔ ∃ k, BoundedAt s w k := by
  constructor
  · rintro ⟨pre, post, rfl, h1, h2⟩
    refine ⟨pre.length, occAt_of_split, ?_, ?_⟩
    · rcases h1 with rfl | ⟨p, rfl⟩
      · exact Or.inl rfl
      · right; simp [List.getElem?_append]
    · rcases h2 with rfl | ⟨p, rfl⟩
      · left; simp
      · right; simp [List.getElem?_append]
  · rintro ⟨k, hocc, h1, h2⟩
    refine ⟨s.take k, s.drop (k + w.length), occAt_split hocc, ?_, ?_⟩
    · rcases h1 with rfl | h1
      · left; simp
      · by_cases hk : k = 0
        · left; simp [hk]
        · right
          obtain ⟨j, rfl⟩ : ∃ j, k = j + 1 := ⟨k - 1, by omega⟩
          refine ⟨s.take j, ?_⟩
          rw [List.take_add_one]
          simp at h1
          simp [h1]
    · rcases h2 with h2 | h2
      · left; simp [h2]
      · right
        obtain ⟨hlt, hx⟩ := List.getElem?_eq_some_iff.1 h2
        refine ⟨s.drop (k + w.length + 1), ?_⟩
        rw [List.drop_eq_getElem_cons hlt, hx]

theorem containsWordLoop_sound {s w : Str} {b : Nat} (h : containsWordLoop s w b = true) :
    ∃ k, BoundedAt s w k := by
  fun_induction containsWordLoop s w b with
  | case1 => cases h
  | case2 begin_ b hb e start end_ hse =>
    obtain ⟨_, hocc, _⟩ := findFrom_some hb
    simp only [Bool.and_eq_true] at hse
    refine ⟨b, hocc, ?_, ?_⟩
    · have := hse.1; simp [start] at this; exact this
    · have := hse.2; simp [end_, e] at this; exact this
  | case3 _ _ _ _ _ _ _ _ ih => exact ih h
  | case4 => cases h

theorem occAt_getElem {s w : Str} {k i : Nat} (h : OccAt s w k) (hi : i < w.length) :
    s[k + i]? = w[i]? := by
  have h2 := congrArg (fun l => l[i]?) h.2
  simp only [List.getElem?_take, List.getElem?_drop, hi, if_true] at h2
  exact h2

theorem containsWordLoop_complete {s w : Str} (hw : w ≠ []) (hsp : (32 : Byte) ∉ w) {b k : Nat}
    (hk : BoundedAt s w k) (hbk : b ≤ k) : containsWordLoop s w b = true := by
  have hwl : 0 < w.length := List.length_pos_iff.2 hw
  fun_induction containsWordLoop s w b with
  | case1 begin_ hb => exact absurd hk.1 (findFrom_none hb k hbk)
  | case2 => rfl
  | case3 begin_ b hb e start end_ hse hlt ih =>
    obtain ⟨h1, h2, h3⟩ := findFrom_some hb
    apply ih
    -- the found occurrence is not the bounded one, so the bounded one starts after its end
    have hbk' : b ≤ k := by
      by_cases hle : b ≤ k
      · exact hle
      · exact absurd hk.1 (h3 k hbk (by omega))
    have hne : b ≠ k := by
      rintro rfl
      apply hse
      obtain ⟨_, hs, he⟩ := hk
      simp only [Bool.and_eq_true]
      constructor
      · simpa [start] using hs
      · simpa [end_, e] using he
    by_cases hek : e ≤ k
    · exact hek
    · exfalso
      have hk0 : k ≠ 0 := by omega
      have hsp' : s[k-1]? = some 32 := by
        rcases hk.2.1 with h | h
        · exact absurd h hk0
        · exact h
      have hidx : k - 1 - b < w.length := by omega
      have := occAt_getElem h2 hidx
      have he' : b + (k - 1 - b) = k - 1 := by omega
      rw [he', hsp'] at this
      exact hsp (List.mem_of_getElem? this.symm)
  | case4 begin_ b hb e start end_ hse hlt =>
    exfalso
    obtain ⟨h1, h2, h3⟩ := findFrom_some hb
    have := h2.1
    omega

theorem containsWord_sound {s w : Str} (h : containsWord s w = true) : OccursAsWord w s := by
  unfold containsWord at h
  split at h
  · cases h
  · exact (occursAsWord_iff s w).2 (containsWordLoop_sound h)

theorem containsWord_iff {s w : Str} (hw : w ≠ []) (hsp : (32 : Byte) ∉ w) :
    containsWord s w = true ↔ OccursAsWord w s := by
  refine ⟨containsWord_sound, fun h => ?_⟩
  obtain ⟨k, hk⟩ := (occursAsWord_iff s w).1 h
  unfold containsWord
  have hwl : 0 < w.length := List.length_pos_iff.2 hw
  have hl := hk.1.1
  rw [if_neg]
  · exact containsWordLoop_complete hw hsp hk (Nat.zero_le _)
  · have : s ≠ [] := by intro h; subst h; simp only [List.length_nil] at hl; omega
    simp [this, hw]; omega

theorem stdEqual_eq (a b : Str) (h : a.length ≤ b.length) :
    stdEqual a b = some (decide (a <+: b)) := by
  induction a generalizing b with
  | nil => simp [stdEqual]
  | cons x a ih =>
    cases b with
    | nil => simp at h
    | cons y b =>
      simp only [stdEqual]
      have := ih b (by simpa using h)
      by_cases hxy : x = y
      · subst hxy; simp [this, List.cons_prefix_cons]
      · simp [hxy, List.cons_prefix_cons]

/-- Splitting a trimmed string at runs of separators gives its words. -/
theorem splitCompress_eq (seps : Str) (s : Str) : ∀ cur : Str,
    (∀ c ∈ cur, seps.contains c = false) →
    (cur ≠ [] ∨ headIs (seps.contains ·) s = false) →
    headIs (seps.contains ·) s.reverse = false →
    (cur ≠ [] ∨ s ≠ []) →
    splitCompress seps cur s = wordsBy (seps.contains ·) (cur ++ s) := by
  induction s with
  | nil =>
    intro cur hcur _ _ hne
    have hc : cur ≠ [] := by simpa using hne
    have := wordsBy_word_append (seps.contains ·) cur [] ⟨hc, hcur⟩ (Or.inl rfl)
    simp only [splitCompress, this, wordsBy]
  | cons c s ih =>
    intro cur hcur hhead hlast hne
    unfold splitCompress
    by_cases hc : seps.contains c = true
    · have hcn : cur ≠ [] := by
        rcases hhead with h | h
        · exact h
        · simp only [headIs] at h; rw [hc] at h; cases h
      simp only [hc, if_true]
      cases s with
      | nil => simp [headIs] at hlast; simp at hc; exact absurd hc hlast
      | cons d s =>
        simp only
        have hlast' : headIs (seps.contains ·) (d :: s).reverse = false := by
          have : (c :: d :: s).reverse = (d :: s).reverse ++ [c] := by simp
          rw [this] at hlast
          generalize hr : (d :: s).reverse = r at *
          cases r with
          | nil => simp at hr
          | cons x r => simpa [headIs] using hlast
        rw [wordsBy_word_append (seps.contains ·) cur _ ⟨hcn, hcur⟩ (Or.inr ⟨c, _, rfl, hc⟩),
          wordsBy_cons_sep hc]
        by_cases hd : seps.contains d = true
        · simp only [hd, if_true]
          rw [ih cur hcur (Or.inl hcn) hlast' (Or.inl hcn)]
          rw [wordsBy_word_append (seps.contains ·) cur _ ⟨hcn, hcur⟩ (Or.inr ⟨d, _, rfl, hd⟩)]
        · simp only [hd, Bool.false_eq_true, if_false]
          rw [ih [] (by simp) (Or.inr (by simpa [headIs] using hd)) hlast' (Or.inr (by simp))]
          simp only [List.nil_append]
    · have hc' : seps.contains c = false := by simpa using hc
      simp only [hc', Bool.false_eq_true, if_false]
      by_cases hs : s = []
      · subst hs
        rw [ih (cur ++ [c]) ?_ (Or.inl (by simp)) (by simp [headIs]) (Or.inl (by simp))]
        · simp
        · intro x hx
          rcases List.mem_append.1 hx with h | h
          · exact hcur x h
          · rw [List.mem_singleton.1 h]; exact hc'
      · rw [ih (cur ++ [c]) ?_ (Or.inl (by simp)) ?_ (Or.inl (by simp))]
        · simp
        · intro x hx
          rcases List.mem_append.1 hx with h | h
          · exact hcur x h
          · rw [List.mem_singleton.1 h]; exact hc'
        · simp only [List.reverse_cons] at hlast
          generalize hr : s.reverse = r at *
          cases r with
          | nil => simp at hr; exact absurd hr hs
          | cons x r => simpa [headIs] using hlast

/-! ## Trimming -/

theorem dropWhile_head {p : Byte → Bool} (s : Str) : headIs p (s.dropWhile p) = false := by
  induction s with
  | nil => rfl
  | cons c s ih =>
    by_cases h : p c = true
    · simp [List.dropWhile_cons, h, ih]
    · simp [List.dropWhile_cons, h, headIs]

theorem mem_takeWhile {p : Byte → Bool} {s : Str} {c : Byte} (h : c ∈ s.takeWhile p) :
    p c = true := by
  induction s with
  | nil => simp at h
  | cons x s ih =>
    by_cases hx : p x = true
    · rw [List.takeWhile_cons_of_pos hx] at h
      rcases List.mem_cons.1 h with rfl | h
      · exact hx
      · exact ih h
    · rw [List.takeWhile_cons_of_neg hx] at h; cases h

theorem dropWhile_split (p : Byte → Bool) (s : Str) :
    ∃ pre, s = pre ++ s.dropWhile p ∧ ∀ c ∈ pre, p c = true := by
  refine ⟨s.takeWhile p, (List.takeWhile_append_dropWhile).symm, fun c hc => ?_⟩
  exact mem_takeWhile hc

/-- The middle part left by trimming, with the two removed ends. -/
theorem trimAnyOf_split (chars s : Str) :
    ∃ pre post, s = pre ++ trimAnyOf chars s ++ post ∧
      (∀ c ∈ pre, c ∈ chars) ∧ (∀ c ∈ post, c ∈ chars) ∧
      headIs (chars.contains ·) (trimAnyOf chars s) = false ∧
      headIs (chars.contains ·) (trimAnyOf chars s).reverse = false := by
  obtain ⟨pre, h1, h2⟩ := dropWhile_split (chars.contains ·) s
  obtain ⟨post, h3, h4⟩ := dropWhile_split (chars.contains ·) (s.dropWhile (chars.contains ·)).reverse
  have h5 : s.dropWhile (chars.contains ·) = trimAnyOf chars s ++ post.reverse := by
    have := congrArg List.reverse h3
    simpa [trimAnyOf] using this
  refine ⟨pre, post.reverse, ?_, ?_, ?_, ?_, ?_⟩
  · rw [List.append_assoc, ← h5]; exact h1
  · intro c hc; simpa using h2 c hc
  · intro c hc; simpa using h4 c (by simpa using hc)
  · have h6 := dropWhile_head (p := (chars.contains ·)) s
    rw [h5] at h6
    cases ht : trimAnyOf chars s with
    | nil => rfl
    | cons x t => rw [ht] at h6; simpa [headIs] using h6
  · have h7 : (trimAnyOf chars s).reverse =
        (s.dropWhile (chars.contains ·)).reverse.dropWhile (chars.contains ·) := by
      simp [trimAnyOf]
    rw [h7]
    exact dropWhile_head _

theorem wordsBy_append_sep (sep : Byte → Bool) (pre s : Str) (h : ∀ c ∈ pre, sep c = true) :
    wordsBy sep (pre ++ s) = wordsBy sep s := by
  induction pre with
  | nil => rfl
  | cons c pre ih =>
    rw [List.cons_append, wordsBy_cons_sep (h c (by simp))]
    exact ih fun x hx => h x (by simp [hx])

theorem wordsBy_all_sep (sep : Byte → Bool) (s : Str) (h : ∀ c ∈ s, sep c = true) :
    wordsBy sep s = [] := by
  have := wordsBy_append_sep sep s [] h
  simpa [wordsBy] using this

theorem wordsBy_append_right (sep : Byte → Bool) (s post : Str) (h : ∀ c ∈ post, sep c = true) :
    wordsBy sep (s ++ post) = wordsBy sep s := by
  induction s with
  | nil => simpa [wordsBy] using wordsBy_all_sep sep post h
  | cons c s ih =>
    by_cases hc : sep c = true
    · rw [List.cons_append, wordsBy_cons_sep hc, wordsBy_cons_sep hc, ih]
    · have hc' : sep c = false := by simpa using hc
      cases s with
      | nil =>
        cases post with
        | nil => rfl
        | cons d post =>
          have hd := h d (by simp)
          have hp := wordsBy_all_sep sep (d :: post) h
          simp only [List.cons_append, List.nil_append]
          rw [wordsBy_cons_nonsep hc', if_pos hd, hp]
          simp [wordsBy, hc']
      | cons d s =>
        simp only [List.cons_append] at ih ⊢
        rw [wordsBy_cons_nonsep hc', wordsBy_cons_nonsep hc', ih]

theorem wordsBy_trim (chars s : Str) :
    wordsBy (chars.contains ·) (trimAnyOf chars s) = wordsBy (chars.contains ·) s := by
  obtain ⟨pre, post, h, h1, h2, _⟩ := trimAnyOf_split chars s
  conv => rhs; rw [h]
  rw [wordsBy_append_right _ _ _ (by simpa using h2), wordsBy_append_sep _ _ _ (by simpa using h1)]

theorem dropWhile_of_head {p : Byte → Bool} {s : Str} (h : headIs p s = false) :
    s.dropWhile p = s := by
  cases s with
  | nil => rfl
  | cons c s => simp only [headIs] at h; simp [h]

theorem trimAnyOf_fixed {chars s : Str} (h1 : headIs (chars.contains ·) s = false)
    (h2 : headIs (chars.contains ·) s.reverse = false) : trimAnyOf chars s = s := by
  unfold trimAnyOf
  rw [dropWhile_of_head h1, dropWhile_of_head h2, List.reverse_reverse]

theorem wordsBy_ne_nil_of_headIs {sep : Byte → Bool} {s : Str} (hs : s ≠ [])
    (h : headIs sep s = false) : wordsBy sep s ≠ [] := by
  cases s with
  | nil => exact absurd rfl hs
  | cons c s => exact wordsBy_ne_nil (by simpa [headIs] using h)

end Hext
