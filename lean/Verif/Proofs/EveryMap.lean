import Verif.Spec.EveryMap
import Verif.Proofs.Bindings
import Verif.Proofs.NoNul
/-!
# Dicts in which names can become equal
-/

namespace Hext

open Binding

theorem beforeNul_eq (s : Str) : beforeNul s = cstr s := rfl

theorem cstr_cstr (s : Str) : cstr (cstr s) = cstr s := cstr_eq (cstr_nf s)

/-! ## Order -/

theorem cstr_cons (c : Byte) (s : Str) : cstr (c :: s) = if c = 0 then [] else c :: cstr s := by
  unfold cstr
  rw [List.takeWhile_cons]
  by_cases h : c = 0 <;> simp [h]

theorem str_eq_of_not_lt {a b : Str} (h1 : ¬ a < b) (h2 : ¬ b < a) : a = b := List.le_antisymm h2 h1

/-- Cutting off keeps the order. -/
theorem cstr_mono : ∀ (s t : Str), s < t → ¬ cstr t < cstr s
  | [], t, _ => by
    show ¬ cstr t < []
    exact List.not_lt_nil _
  | a :: s, [], h => absurd h (List.not_lt_nil _)
  | a :: s, b :: t, h => by
    rw [cstr_cons, cstr_cons]
    rcases List.cons_lt_cons_iff.1 h with h | ⟨rfl, hlt⟩
    · have hb : b ≠ 0 := by rintro rfl; exact absurd h (by simp)
      rw [if_neg hb]
      split
      · exact List.not_lt_nil _
      · intro h'
        rcases List.cons_lt_cons_iff.1 h' with h' | ⟨h', _⟩
        · exact absurd (UInt8.lt_trans h h') (UInt8.lt_irrefl _)
        · exact absurd (h' ▸ h) (UInt8.lt_irrefl _)
    · split
      · exact List.not_lt_nil _
      · intro h'
        rcases List.cons_lt_cons_iff.1 h' with h' | ⟨_, h'⟩
        · exact absurd h' (UInt8.lt_irrefl _)
        · exact cstr_mono s t hlt h'

/-! ## Setting an item -/

theorem dictSet_keys {κ ν : Type} [DecidableEq κ] (k : κ) (v : ν) : ∀ d : List (κ × ν),
    (dictSet d k v).map (·.1) = if k ∈ d.map (·.1) then d.map (·.1) else d.map (·.1) ++ [k]
  | [] => rfl
  | q :: d => by
    rw [dictSet]
    by_cases h : q.1 = k
    · simp [h]
    · rw [if_neg h, List.map_cons, dictSet_keys k v d, List.map_cons]
      have : ¬ k = q.1 := fun e => h e.symm
      by_cases h' : k ∈ d.map (·.1)
      · rw [if_pos h', if_pos (.tail _ h')]
      · rw [if_neg h', if_neg (by rw [List.mem_cons, not_or]; exact ⟨this, h'⟩)]
        rfl

theorem mem_dictSet {κ ν : Type} [DecidableEq κ] (k : κ) (v : ν) : ∀ {d : List (κ × ν)}, (d.map (·.1)).Nodup → ∀ x : κ × ν,
    x ∈ dictSet d k v ↔ x = (k, v) ∨ (x.1 ≠ k ∧ x ∈ d)
  | [], _, x => by simp [dictSet]
  | q :: d, hd, x => by
    rw [List.map_cons, List.nodup_cons] at hd
    rw [dictSet]
    split
    · rename_i h
      simp only [List.mem_cons]
      constructor
      · rintro (rfl | hx)
        · exact .inl rfl
        · refine .inr ⟨fun e => hd.1 ?_, .inr hx⟩
          rw [h, ← e]
          exact List.mem_map_of_mem hx
      · rintro (rfl | ⟨h1, rfl | h2⟩)
        · exact .inl rfl
        · exact absurd h h1
        · exact .inr h2
    · rename_i h
      rw [List.mem_cons, mem_dictSet k v hd.2, List.mem_cons]
      constructor
      · rintro (rfl | h1 | ⟨h1, h2⟩)
        · exact .inr ⟨h, .inl rfl⟩
        · exact .inl h1
        · exact .inr ⟨h1, .inr h2⟩
      · rintro (h1 | ⟨h1, rfl | h2⟩)
        · exact .inr (.inl h1)
        · exact .inl rfl
        · exact .inr (.inr ⟨h1, h2⟩)

/-- The dict with the items of `o`, set one after the other. -/
def setAll (o : List (Str × Entry Str)) : List (Str × Entry Str) := o.foldl (fun d x => dictSet d x.1 x.2) []

theorem setAll_keys (o : List (Str × Entry Str)) : ∀ k : Str, k ∈ (setAll o).map (·.1) ↔ k ∈ o.map (·.1) := by
  induction o using concat_induction with
  | h0 => simp [setAll]
  | h1 o x ih =>
    intro k
    have : setAll (o ++ [x]) = dictSet (setAll o) x.1 x.2 := by simp [setAll]
    rw [this, dictSet_keys]
    by_cases h : x.1 ∈ (setAll o).map (·.1)
    · rw [if_pos h, ih, List.map_append, List.mem_append]
      constructor
      · exact .inl
      · rintro (h' | h')
        · exact h'
        · simp only [List.map_cons, List.map_nil, List.mem_singleton] at h'
          rw [h']
          exact (ih _).1 h
    · rw [if_neg h, List.mem_append, ih, List.map_append, List.mem_append]
      rfl

theorem nodup_of_sorted {l : List Str} (h : l.Pairwise (· < ·)) : l.Nodup :=
  List.nodup_iff_pairwise_ne.2 (h.imp fun {a b} h e => by subst e; exact str_lt_irrefl _ h)

/-- If the names come in order, then the last entry of a name counts. -/
theorem setAll_lastCounts {o : List (Str × Entry Str)} (h : (o.map (·.1)).Pairwise fun a b => ¬ b < a) : LastCounts o (setAll o) := by
  induction o using concat_induction with
  | h0 => exact ⟨.nil, fun name e => by simp [setAll]⟩
  | h1 o x ih =>
    have e : setAll (o ++ [x]) = dictSet (setAll o) x.1 x.2 := by simp [setAll]
    rw [List.map_append, List.pairwise_append] at h
    obtain ⟨i1, i2⟩ := ih h.1
    rw [e]
    refine ⟨?_, fun name v => ?_⟩
    · rw [dictSet_keys]
      split
      · exact i1
      · rename_i hx
        rw [List.pairwise_append]
        refine ⟨i1, by simp, fun a ha b hb => ?_⟩
        simp only [List.mem_singleton] at hb
        subst hb
        have h1 := h.2.2 a ((setAll_keys o a).1 ha) x.1 (by simp)
        rcases Classical.em (a < x.1) with h2 | h2
        · exact h2
        · have : a = x.1 := str_eq_of_not_lt h2 h1
          exact absurd (this ▸ ha) hx
    · rw [mem_dictSet _ _ (nodup_of_sorted i1)]
      constructor
      · rintro (h1 | ⟨h1, h2⟩)
        · cases h1
          exact ⟨o, [], rfl, by simp⟩
        · obtain ⟨before, after, rfl, h3⟩ := (i2 name v).1 h2
          refine ⟨before, after ++ [x], by simp, fun y hy => ?_⟩
          rcases List.mem_append.1 hy with hy | hy
          · exact h3 y hy
          · simp only [List.mem_singleton] at hy
            subst hy
            exact fun e => h1 e.symm
      · rintro ⟨before, after, h1, h2⟩
        rcases List.eq_nil_or_concat after with rfl | ⟨after', y, rfl⟩
        · obtain ⟨_, h3⟩ := List.append_inj' h1 rfl
          simp only [List.cons.injEq, and_true] at h3
          exact .inl h3.symm
        · rw [List.concat_eq_append, ← List.cons_append, ← List.append_assoc] at h1
          obtain ⟨rfl, h3⟩ := List.append_inj' h1 rfl
          simp only [List.cons.injEq, and_true] at h3
          subst h3
          refine .inr ⟨fun e => h2 x (by simp) e.symm, (i2 name v).2 ⟨before, after', rfl, fun z hz => h2 z (by simp [hz])⟩⟩

/-- Renaming the keys of a dict, without making different ones equal. -/
theorem dictSet_map {κ ν : Type} [DecidableEq κ] {f : Str → κ} {g : Entry Str → ν} {k : Str} {v : Entry Str} :
    ∀ {d : List (Str × Entry Str)}, (∀ x ∈ d, f x.1 = f k → x.1 = k) →
    dictSet (d.map fun x => (f x.1, g x.2)) (f k) (g v) = (dictSet d k v).map fun x => (f x.1, g x.2)
  | [], _ => rfl
  | q :: d, h => by
    rw [List.map_cons, dictSet, dictSet]
    by_cases e : q.1 = k
    · simp [e]
    · rw [if_neg (fun e' => e (h q (by simp) e')), if_neg e, dictSet_map fun x hx => h x (by simp [hx])]
      rfl

theorem setAll_map {κ ν : Type} [DecidableEq κ] {f : Str → κ} {g : Entry Str → ν} {o : List (Str × Entry Str)}
    (h : ∀ x ∈ o, ∀ y ∈ o, f x.1 = f y.1 → x.1 = y.1) :
    o.foldl (fun d x => dictSet d (f x.1) (g x.2)) [] = (setAll o).map fun x => (f x.1, g x.2) := by
  induction o using concat_induction with
  | h0 => rfl
  | h1 o x ih =>
    rw [List.foldl_append, ih fun x hx y hy => h x (by simp [hx]) y (by simp [hy])]
    have : setAll (o ++ [x]) = dictSet (setAll o) x.1 x.2 := by simp [setAll]
    rw [this, ← dictSet_map]
    · rfl
    · intro y hy e
      have := (setAll_keys o y.1).1 (List.mem_map_of_mem hy)
      obtain ⟨z, hz, hzy⟩ := List.mem_map.1 this
      rw [← hzy] at e ⊢
      exact h z (by simp [hz]) x (by simp) e

/-! ## The entries of a map -/

/-- The names of the entries, cut off, are still in order. -/
theorem cut_sorted {m : List (Str × Str)} (hm : KeySorted m) {g : Entry Str → Entry Str} :
    ((((entsOf m).map fun x => (cstr x.1, g x.2))).map (·.1)).Pairwise fun a b => ¬ b < a := by
  rw [List.map_map, List.pairwise_map]
  have := (entsOf_presents hm).1
  rw [List.pairwise_map] at this
  exact this.imp fun h => cstr_mono _ _ h

theorem keySorted_cutOff {m : List (Str × Str)} (hm : KeySorted m) : KeySorted (cutOff m) := by
  unfold KeySorted cutOff at *
  rw [List.pairwise_map]
  refine hm.imp fun {a b} h => ?_
  rcases Classical.em (a.1 < b.1) with h1 | h1
  · exact cstr_mono _ _ h1
  · have : a.1 = b.1 := str_eq_of_not_lt h1 h
    simp only [this]
    exact str_lt_irrefl _

theorem noNul_cutOff (m : List (Str × Str)) : NoNul (cutOff m) := by
  intro p hp
  obtain ⟨q, _, rfl⟩ := List.mem_map.1 hp
  exact ⟨cstr_nf _, cstr_nf _⟩

theorem groupObject_cutOff (m : List (Str × Str)) : Cli.groupObject m = Cli.groupObject (cutOff m) := by
  unfold Cli.groupObject cutOff
  rw [List.foldl_map]
  congr 1
  funext obj p
  unfold Cli.addPair
  simp only [beforeNul_eq, cstr_cstr]

end Hext
