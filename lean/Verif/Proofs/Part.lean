import Verif.Proofs.Once
import Verif.Proofs.Unique
set_option linter.unusedSimpArgs false
/-!
# Extracting from a part of a document: lemmas
-/

namespace Hext.Part

open Hext
open scoped List

section
variable {cs : List (CR RulePtr Loc)}

theorem descend_locs {p : Ptr} {e : Elem} {kids : List Tree} (hk : kids ≠ []) :
    descend cs (.node p (.element e) kids) = save cs (locs kids) := by
  unfold descend save
  rw [locs_map_self]
  cases kids with
  | nil => exact absurd rfl hk
  | cons t ts => rfl

/-- `b` is a part of `a`. -/
def PartOf (a b : W (List (Pairs RulePtr Loc))) : Prop := b.val <:+: a.val ∧ b.cost ≤ a.cost

theorem infix_left {α : Type} {b a : List α} (c : List α) (h : b <:+: a) : b <:+: c ++ a := h.trans (List.suffix_append c a).isInfix
theorem infix_right {α : Type} {b a : List α} (c : List α) (h : b <:+: a) : b <:+: a ++ c := h.trans (List.prefix_append a c).isInfix

mutual
theorem descend_part : ∀ (t : Tree) {ks : List Loc}, ks ∈ t.under → PartOf (descend cs t) (save cs ks)
  | .node p k kids, ks, h => by
    unfold Tree.under at h
    cases k with
    | element e =>
      simp only at h
      split at h
      · cases h
      · next hne =>
        have hne : kids ≠ [] := by simpa using hne
        rcases List.mem_cons.1 h with rfl | h
        · rw [descend_locs hne]
          exact ⟨List.infix_refl _, Nat.le_refl _⟩
        · obtain ⟨h1, h2⟩ := descendL_part kids h
          rw [descend_locs hne]
          refine ⟨?_, ?_⟩
          · simp only [save, locs_map_self]
            exact infix_left _ h1
          · simp only [save, locs_map_self] at h2 ⊢
            omega
    | _ => cases h
theorem descendL_part : ∀ (ts : List Tree) {ks : List Loc}, ks ∈ underL ts → PartOf (descendL cs ts) (save cs ks)
  | [], ks, h => by simp [underL] at h
  | t :: ts, ks, h => by
    simp only [underL, List.mem_append] at h
    rcases h with h | h
    · obtain ⟨h1, h2⟩ := descend_part t h
      exact ⟨infix_right _ h1, Nat.le_trans h2 (Nat.le_add_right _ _)⟩
    · obtain ⟨h1, h2⟩ := descendL_part ts h
      exact ⟨infix_left _ h1, Nat.le_trans h2 (Nat.le_add_left _ _)⟩
end

theorem save_part {l : Loc} {ks : List Loc} (h : ks ∈ l.searched) : PartOf (save cs l.onward) (save cs ks) := by
  rcases List.mem_cons.1 h with rfl | h
  · exact ⟨List.infix_refl _, Nat.le_refl _⟩
  · obtain ⟨h1, h2⟩ := descendL_part (cs := cs) _ h
    exact ⟨infix_left _ h1, Nat.le_trans h2 (Nat.le_add_left _ _)⟩

end

/-! ## The searched nodes of a part -/

theorem under_append : ∀ a b : List Tree, underL (a ++ b) = underL a ++ underL b
  | [], b => rfl
  | t :: a, b => by simp [underL, under_append a b]

theorem locsAux_onward {x : Loc} : ∀ {b ts : List Tree}, x ∈ locsAux b ts → x.onward <:+ locsAux b ts
  | b, [], h => by simp [locsAux] at h
  | b, t :: ts, h => by
    simp only [locsAux, List.mem_cons] at h ⊢
    rcases h with rfl | h
    · exact List.suffix_refl _
    · exact (locsAux_onward h).trans (List.suffix_cons _ _)

/-- What is searched from some siblings on. -/
def listed (ks : List Loc) : List Loc := ks ++ (underL (ks.map (·.self))).flatten

theorem listed_suffix {a b : List Loc} (h : a <:+ b) : listed a <+ listed b := by
  obtain ⟨c, rfl⟩ := h
  unfold listed
  rw [List.map_append, under_append, List.flatten_append]
  exact (List.sublist_append_right c a).append (List.sublist_append_right _ _)

mutual
theorem listed_under : ∀ (t : Tree) {ks : List Loc}, ks ∈ t.under → listed ks <+ t.under.flatten
  | .node p k kids, ks, h => by
    unfold Tree.under at h ⊢
    cases k with
    | element e =>
      simp only at h ⊢
      split at h
      · cases h
      · next hne =>
        rw [if_neg hne, List.flatten_cons]
        rcases List.mem_cons.1 h with rfl | h
        · unfold listed
          rw [locs_map_self]
          exact List.Sublist.refl _
        · exact (listed_underL kids h).trans (List.sublist_append_right _ _)
    | _ => cases h
theorem listed_underL : ∀ (ts : List Tree) {ks : List Loc}, ks ∈ underL ts → listed ks <+ (underL ts).flatten
  | [], ks, h => by simp [underL] at h
  | t :: ts, ks, h => by
    simp only [underL, List.mem_append, List.flatten_append] at h ⊢
    rcases h with h | h
    · exact (listed_under t h).trans (List.sublist_append_left _ _)
    · exact (listed_underL ts h).trans (List.sublist_append_right _ _)
end

theorem listed_searched {l : Loc} {ks : List Loc} (h : ks ∈ l.searched) : listed ks <+ l.searched.flatten := by
  unfold Loc.searched at h ⊢
  rw [List.flatten_cons]
  rcases List.mem_cons.1 h with rfl | h
  · exact List.Sublist.refl _
  · exact (listed_underL _ h).trans (List.sublist_append_right _ _)

theorem onward_searched {l x : Loc} (h : l.Reach x) : x.onward ∈ l.searched ∨ ∃ ks ∈ l.searched, x.onward <:+ ks := by
  cases h with
  | start h =>
    right
    refine ⟨l.onward, by simp [Loc.searched], ?_⟩
    unfold Loc.onward at h
    rcases List.mem_cons.1 h with rfl | h
    · exact List.suffix_refl _
    · split at h
      · next he =>
        have := locsAux_onward h
        conv => rhs; unfold Loc.onward
        rw [if_pos he]
        exact this.trans (List.suffix_cons _ _)
      · cases h
  | @child y x hy he hx =>
    right
    obtain ⟨ks, hks, hyk⟩ : ∃ ks ∈ l.searched, y ∈ ks := by
      have := searched_iff.2 hy
      rw [List.mem_flatten] at this
      exact this
    exact ⟨locs y.self.kids, searched_trans hks hyk (locs_mem_under he hx), locsAux_onward hx⟩

theorem onward_listed {l x : Loc} (h : l.Reach x) : x.searched.flatten <+ l.searched.flatten := by
  have e : x.searched.flatten = listed x.onward := rfl
  rw [e]
  rcases onward_searched h with h | ⟨ks, h1, h2⟩
  · exact listed_searched h
  · exact (listed_suffix h2).trans (listed_searched h1)

/-! ## Maps -/

section
variable {rx : RxEngine} {h : Heap}

theorem maps_sublist {gs gs' : List Found} (hs : gs' <+ gs) {ms ms' : List (List (Str × Str))} (hm : Maps rx h gs ms)
    (hm' : Maps rx h gs' ms') : ms' <+ ms := by
  induction hs generalizing ms ms' with
  | slnil => cases hm; cases hm'; exact List.Sublist.refl _
  | cons _ _ ih =>
    cases hm with
    | cons _ _ hm => exact (ih hm hm').trans (List.sublist_cons_self _ _)
  | cons_cons _ _ ih =>
    cases hm with
    | cons c i hm =>
      cases hm' with
      | cons c' i' hm' =>
        have := c.unique c'
        subst this
        rw [i.unique i']
        exact (ih hm hm').cons_cons _

theorem maps_append {a b : List Found} {ms : List (List (Str × Str))} (hm : Maps rx h (a ++ b) ms) :
    ∃ ma mb, ms = ma ++ mb ∧ Maps rx h a ma ∧ Maps rx h b mb := by
  induction a generalizing ms with
  | nil => exact ⟨[], ms, rfl, .nil, hm⟩
  | cons g a ih =>
    cases hm with
    | cons c i hm =>
      obtain ⟨ma, mb, rfl, h1, h2⟩ := ih hm
      exact ⟨_ :: ma, mb, rfl, .cons c i h1, h2⟩

theorem maps_infix {gs gs' : List Found} (hs : gs' <:+: gs) {ms ms' : List (List (Str × Str))} (hm : Maps rx h gs ms)
    (hm' : Maps rx h gs' ms') : ms' <:+: ms := by
  obtain ⟨a, b, rfl⟩ := hs
  obtain ⟨m1, m2, rfl, h1, h2⟩ := maps_append hm
  obtain ⟨m3, m4, rfl, h3, h4⟩ := maps_append h1
  rw [hm'.unique h4]
  exact ⟨m3, m2, rfl⟩

end

end Hext.Part
