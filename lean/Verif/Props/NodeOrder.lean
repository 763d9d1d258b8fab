import Verif.Props.Bindings
import Verif.Proofs.PhpKey
/-!
# C42: the objects of Node in full
-/

namespace Hext.Props

open Binding

/-- The decimal text of a number. -/
def indexText (n : Nat) : Text := (lit (toString n)).map (·.toNat)

/-- `d` are the properties of a JavaScript object with the entries `t`, in the order in which they are enumerated: first the names that
are array indices, the numbers below 2^32 - 1 in decimal, in ascending order, then the others in the order of `t`. The name `__proto__` is
missing. -/
def IsNodeObject (t d : List (Text × Entry Text)) : Prop :=
  ∃ (is : List (Nat × Entry Text)) (others : List (Text × Entry Text)),
    d = (is.map fun x => (indexText x.1, x.2)) ++ others ∧
    (is.map (·.1)).Pairwise (· < ·) ∧ (∀ n e, (n, e) ∈ is ↔ n < 4294967295 ∧ (indexText n, e) ∈ t) ∧
    others.Sublist t ∧ ∀ k e, (k, e) ∈ others ↔ (k, e) ∈ t ∧ (∀ n < 4294967295, k ≠ indexText n) ∧ k ≠ (lit "__proto__").map (·.toNat)

theorem indexText_eq (n : Nat) : indexText n = (decimal n).map (·.toNat) := by
  rw [decimal_eq]; rfl

theorem digitsVal_cons (c : Nat) (k : Text) : digitsVal (c :: k) =
    (c :: k).foldl (fun a c => a.bind fun n => if 48 ≤ c ∧ c ≤ 57 then some (10 * n + (c - 48)) else none) (some 0) := rfl

theorem foldl_digits : ∀ (k : Text) (a n : Nat),
    k.foldl (fun a c => a.bind fun n => if 48 ≤ c ∧ c ≤ 57 then some (10 * n + (c - 48)) else none) (some a) = some n ↔
      ∃ s : Str, k = s.map (·.toNat) ∧ (∀ b ∈ s, 48 ≤ b ∧ b ≤ 57) ∧ s.foldl (fun n d => n * 10 + (d.toNat - 48)) a = n
  | [], a, n => by
    constructor
    · intro h; injection h with h; exact ⟨[], rfl, by simp, h⟩
    · rintro ⟨s, h1, _, h2⟩
      cases s with
      | nil => exact congrArg some h2
      | cons _ _ => cases h1
  | c :: k, a, n => by
    rw [List.foldl_cons]
    simp only [Option.bind_some]
    by_cases hc : 48 ≤ c ∧ c ≤ 57
    · rw [if_pos hc, foldl_digits k]
      have hb : (UInt8.ofNat c).toNat = c := by rw [UInt8.toNat_ofNat']; omega
      constructor
      · rintro ⟨s, rfl, h1, h2⟩
        refine ⟨UInt8.ofNat c :: s, by rw [List.map_cons, hb], ?_, ?_⟩
        · intro b hbm
          rcases List.mem_cons.1 hbm with rfl | hbm
          · rw [UInt8.le_iff_toNat_le, UInt8.le_iff_toNat_le, hb]; exact hc
          · exact h1 b hbm
        · rw [List.foldl_cons, hb, Nat.mul_comm]; exact h2
      · rintro ⟨s, h1, h2, h3⟩
        cases s with
        | nil => cases h1
        | cons b s =>
          injection h1 with h1 h4
          subst h1 h4
          exact ⟨s, rfl, fun b hb => h2 b (.tail _ hb), by rw [List.foldl_cons] at h3; rw [Nat.mul_comm]; exact h3⟩
    · rw [if_neg hc]
      have hn : ∀ k : Text, k.foldl (fun a c => a.bind fun n => if 48 ≤ c ∧ c ≤ 57 then some (10 * n + (c - 48)) else none) none =
          (none : Option Nat) := by
        intro k
        induction k with
        | nil => rfl
        | cons _ _ ih => rw [List.foldl_cons]; exact ih
      rw [hn]
      constructor
      · intro h; cases h
      · rintro ⟨s, h1, h2, _⟩
        cases s with
        | nil => cases h1
        | cons b s =>
          injection h1 with h1 _
          have := h2 b (.head _)
          rw [UInt8.le_iff_toNat_le, UInt8.le_iff_toNat_le] at this
          rw [h1] at hc
          exact absurd this hc

theorem map_toNat_inj {s t : Str} (h : s.map (·.toNat) = t.map (·.toNat)) : s = t :=
  (List.map_inj_right fun _ _ h => UInt8.toNat_inj.1 h).1 h

theorem arrayIndex_iff {k : Text} {n : Nat} : arrayIndex k = some n ↔ k = indexText n ∧ n < 4294967295 := by
  rw [indexText_eq]
  cases k with
  | nil =>
    simp only [arrayIndex, reduceCtorEq, false_iff, not_and]
    intro h
    have h2 := (decimal_form n).2.2.2
    exact absurd (List.map_eq_nil_iff.1 h.symm) h2
  | cons c k =>
    unfold arrayIndex
    simp only
    constructor
    · intro h
      split at h
      · cases h
      · rename_i hz
        split at h
        · rename_i m hm
          split at h
          · rename_i hlt
            cases h
            rw [digitsVal_cons, foldl_digits] at hm
            obtain ⟨s, h1, h2, h3⟩ := hm
            have hd : isDecimal s = true := by
              cases s with
              | nil => cases h1
              | cons b s =>
                injection h1 with h1 h4
                simp only [isDecimal, ne_eq, reduceCtorEq, not_false_eq_true, decide_true, Bool.true_and, List.head?_cons,
                  Bool.and_eq_true, List.all_eq_true, Bool.or_eq_true, bne_iff_ne, Option.some.injEq, beq_iff_eq, decide_eq_true_eq]
                refine ⟨h2, ?_⟩
                by_cases hb : b = 48
                · refine .inr ?_
                  subst hb
                  have : k = [] := by
                    by_cases hk : k = []
                    · exact hk
                    · exact absurd ⟨h1, hk⟩ hz
                  rw [this] at h4
                  rw [List.map_eq_nil_iff.1 h4.symm]; rfl
                · exact .inl hb
            have := decimal_of_form _ s rfl hd
            rw [show decimalVal s = n from h3] at this
            rw [this]
            exact ⟨h1, hlt⟩
          · cases h
        · cases h
    · rintro ⟨h1, hlt⟩
      obtain ⟨d1, d2, d3, d4⟩ := decimal_form n
      rw [if_neg, digitsVal_cons, (foldl_digits _ _ n).2 ⟨decimal n, h1, ?_, d2⟩]
      · simp only
        rw [if_pos hlt]
      · simp only [isDecimal, Bool.and_eq_true, List.all_eq_true, decide_eq_true_eq] at d1
        exact d1.1.2
      · rintro ⟨rfl, hk⟩
        generalize decimal n = s at *
        cases s with
        | nil => cases h1
        | cons b s =>
          injection h1 with h1 h2
          have hb : b = 48 := UInt8.toNat_inj.1 h1.symm
          subst hb
          simp [isDecimal] at d1
          exact hk (by rw [h2, d1.2]; rfl)

theorem insertIndex_sorted {ν : Type} (x : Nat × ν) : ∀ l : List (Nat × ν), (l.map (·.1)).Pairwise (· < ·) → x.1 ∉ l.map (·.1) →
    ((insertIndex x l).map (·.1)).Pairwise (· < ·)
  | [], _, _ => by simp [insertIndex]
  | y :: l, h, hx => by
    rw [insertIndex]
    simp only [List.map_cons, List.pairwise_cons, List.mem_cons, not_or] at h hx
    split
    · rename_i hlt
      simp only [List.map_cons, List.pairwise_cons, List.mem_cons]
      refine ⟨?_, h⟩
      rintro a (rfl | ha)
      · exact hlt
      · exact Nat.lt_trans hlt (h.1 a ha)
    · rename_i hlt
      simp only [List.map_cons, List.pairwise_cons]
      refine ⟨?_, insertIndex_sorted x l h.2 hx.2⟩
      intro a ha
      have := ((insertIndex_perm x l).map (·.1)).mem_iff.1 ha
      simp only [List.map_cons, List.mem_cons] at this
      rcases this with rfl | ha
      · have := hx.1; omega
      · exact h.1 a ha

theorem foldl_insert_sorted {ν : Type} : ∀ (xs l : List (Nat × ν)), (l.map (·.1)).Pairwise (· < ·) → ((xs ++ l).map (·.1)).Nodup →
    ((xs.foldl (fun l x => insertIndex x l) l).map (·.1)).Pairwise (· < ·)
  | [], _, h, _ => h
  | x :: xs, l, h, hn => by
    rw [List.foldl_cons]
    simp only [List.cons_append, List.map_cons, List.nodup_cons, List.map_append, List.mem_append, not_or] at hn
    refine foldl_insert_sorted xs _ (insertIndex_sorted x l h hn.1.2) ?_
    have hp : ((xs ++ insertIndex x l).map (·.1)).Perm (x.1 :: (xs ++ l).map (·.1)) := by
      have h1 := ((insertIndex_perm x l).append_left xs).trans (List.perm_middle)
      exact h1.map (·.1)
    rw [hp.nodup_iff, List.nodup_cons, List.map_append, List.mem_append, not_or]
    exact ⟨hn.1, hn.2⟩

theorem jsOrder_object {t : List (Text × Entry Text)} (hk : (t.map (·.1)).Nodup) :
    IsNodeObject t (jsOrder (t.filter fun x => x.1 ≠ protoKey)) := by
  let d := t.filter fun x => x.1 ≠ protoKey
  let q : List (Nat × (Text × Entry Text)) := d.filterMap fun q => (arrayIndex q.1).map fun n => (n, q)
  let is := q.foldl (fun l x => insertIndex x l) []
  have hp : is.Perm q := by have := foldl_insert_perm q []; rwa [List.append_nil] at this
  have hq : ∀ x, x ∈ q ↔ x.2 ∈ t ∧ x.2.1 = indexText x.1 ∧ x.1 < 4294967295 := by
    intro x
    simp only [q, d, List.mem_filterMap, List.mem_filter, Option.map_eq_some_iff, decide_eq_true_eq]
    constructor
    · rintro ⟨a, ⟨h1, h2⟩, n, h3, rfl⟩
      exact ⟨h1, arrayIndex_iff.1 h3⟩
    · rintro ⟨h1, h2, h3⟩
      refine ⟨x.2, ⟨h1, fun h => ?_⟩, x.1, arrayIndex_iff.2 ⟨h2, h3⟩, rfl⟩
      have : arrayIndex protoKey = some x.1 := arrayIndex_iff.2 ⟨h ▸ h2, h3⟩
      rw [show arrayIndex protoKey = none by decide] at this
      cases this
  have hd : (d.map (·.1)).Nodup := hk.sublist (List.filter_sublist.map _)
  have hqn : (q.map (·.1)).Nodup := by
    have key : ∀ d : List (Text × Entry Text), (d.map (·.1)).Nodup →
        ((d.filterMap fun q => (arrayIndex q.1).map fun n => (n, q)).map (·.1)).Nodup := by
      intro d
      induction d with
      | nil => intro _; simp
      | cons x d ih =>
        intro h
        rw [List.map_cons, List.nodup_cons] at h
        rw [List.filterMap_cons]
        cases hx : arrayIndex x.1 with
        | none => exact ih h.2
        | some n =>
          simp only [Option.map_some, List.map_cons, List.nodup_cons]
          refine ⟨?_, ih h.2⟩
          intro hm
          obtain ⟨y, hy, hyn⟩ := List.mem_map.1 hm
          simp only [List.mem_filterMap, Option.map_eq_some_iff] at hy
          obtain ⟨a, ha, k, h1, rfl⟩ := hy
          have hyn : k = n := hyn
          subst hyn
          refine h.1 (List.mem_map.2 ⟨a, ha, ?_⟩)
          rw [(arrayIndex_iff.1 h1).1, (arrayIndex_iff.1 hx).1]
    exact key d hd
  have hmem : ∀ x, x ∈ is ↔ x.2 ∈ t ∧ x.2.1 = indexText x.1 ∧ x.1 < 4294967295 := fun x => hp.mem_iff.trans (hq x)
  refine ⟨is.map fun x => (x.1, x.2.2), d.filter fun q => (arrayIndex q.1).isNone, ?_, ?_, ?_, ?_, ?_⟩
  · show is.map (·.2) ++ _ = _
    rw [List.map_map]
    congr 1
    apply List.map_congr_left
    intro x hx
    exact Prod.ext ((hmem x).1 hx).2.1 rfl
  · rw [List.map_map]
    exact foldl_insert_sorted q [] (by simp) (by rw [List.append_nil]; exact hqn)
  · intro n e
    rw [List.mem_map]
    constructor
    · rintro ⟨x, hx, h⟩
      cases h
      obtain ⟨h1, h2, h3⟩ := (hmem x).1 hx
      exact ⟨h3, by rw [← h2]; exact h1⟩
    · rintro ⟨h1, h2⟩
      exact ⟨(n, (indexText n, e)), (hmem _).2 ⟨h2, rfl, h1⟩, rfl⟩
  · exact List.filter_sublist.trans List.filter_sublist
  · intro k e
    simp only [d, List.mem_filter, Option.isNone_iff_eq_none, decide_eq_true_eq]
    have hproto : protoKey = (lit "__proto__").map (·.toNat) := by decide
    rw [← hproto]
    constructor
    · rintro ⟨⟨h1, h2⟩, h3⟩
      refine ⟨h1, fun n hn h => ?_, h2⟩
      rw [arrayIndex_iff.2 ⟨h, hn⟩] at h3
      cases h3
    · rintro ⟨h1, h2, h3⟩
      refine ⟨⟨h1, h3⟩, ?_⟩
      cases h : arrayIndex k with
      | none => rfl
      | some n => exact absurd (arrayIndex_iff.1 h).1 (h2 n (arrayIndex_iff.1 h).2)

/-- C42. What Node makes of every map of a result in UTF-8, also with the name `__proto__` and names that are numbers: the entries that
the other languages get, without `__proto__`, and the array indices first. -/
theorem C42_node_object {vs m : List (Str × Str)} (hm : IsMap vs m) (hu : IsUtf8 m) (js : Js) : ∃ o t d, Presents m o ∧ IsTextOf o t ∧
    nodeObject js m = pure d ∧ IsNodeObject t d := by
  have ho := entsOf_presents hm.1
  refine ⟨entsOf m, textEntries (entsOf m), _, ho, presents_isText ho hu, nodeObject_eq hm.1 hu ho, jsOrder_object ?_⟩
  have := keys_text_nodup hu
  rwa [textEntries, List.map_map]

/-- The hypotheses are met, by a map with all three kinds of names. -/
example (js : Js) : nodeObject js [(lit "10", lit "a"), (lit "4294967295", lit "b"), (lit "9", lit "c"), (lit "__proto__", lit "d"),
      (lit "x", lit "e")] =
    pure [(indexText 9, .one [99]), (indexText 10, .one [97]), (indexText 4294967295, .one [98]), ([120], .one [101])] := by
  have hs : KeySorted [(lit "10", lit "a"), (lit "4294967295", lit "b"), (lit "9", lit "c"), (lit "__proto__", lit "d"),
      (lit "x", lit "e")] := by unfold KeySorted; decide
  have hu : IsUtf8 [(lit "10", lit "a"), (lit "4294967295", lit "b"), (lit "9", lit "c"), (lit "__proto__", lit "d"),
      (lit "x", lit "e")] := isUtf8_ascii (by decide +kernel)
  rw [nodeObject_eq hs hu (entsOf_presents hs)]
  exact congrArg pure (by decide +kernel)

end Hext.Props
