import Verif.Spec.Doc
/-!
# Lemmas about stored documents
-/

namespace Hext

theorem load_eq {h : Heap} {p : Ptr} {n : GNode} (hp : h p = some n) : load h p = pure n := by
  simp [load, hp]

theorem Rep.ptr_eq {h : Heap} {parent idx} {t : Tree} (hr : Rep h parent idx t) :
    h t.ptr = some ⟨t.kind, t.kids.map Tree.ptr, parent, idx⟩ := by
  cases t; simp only [Rep] at hr; exact hr.1

theorem Rep.kids {h : Heap} {parent idx} {t : Tree} (hr : Rep h parent idx t) :
    RepL h t.ptr 0 t.kids := by
  cases t; simp only [Rep] at hr; exact hr.2

theorem RepL.append {h : Heap} {p : Ptr} {ts us : List Tree} {i : Nat} :
    RepL h p i (ts ++ us) ↔ RepL h p i ts ∧ RepL h p (i + ts.length) us := by
  induction ts generalizing i with
  | nil => simp [RepL]
  | cons t ts ih => simp [RepL, ih, and_assoc, Nat.add_assoc, Nat.add_comm 1]

theorem RepL.mem {h : Heap} {p : Ptr} {ts : List Tree} {i : Nat} (hr : RepL h p i ts) {t : Tree}
    (ht : t ∈ ts) : ∃ j, i ≤ j ∧ Rep h (some p) j t := by
  induction ts generalizing i with
  | nil => simp at ht
  | cons u us ih =>
    simp only [RepL] at hr
    rcases List.mem_cons.1 ht with rfl | ht
    · exact ⟨i, Nat.le_refl _, hr.1⟩
    · obtain ⟨j, hj, hr⟩ := ih hr.2 ht; exact ⟨j, by omega, hr⟩

theorem RepL.nodup {h : Heap} {p : Ptr} {ts : List Tree} {i : Nat} (hr : RepL h p i ts) :
    (ts.map Tree.ptr).Nodup := by
  induction ts generalizing i with
  | nil => simp
  | cons t ts ih =>
    simp only [RepL] at hr
    simp only [List.map_cons, List.nodup_cons]
    refine ⟨?_, ih hr.2⟩
    intro hm
    obtain ⟨u, hu, he⟩ := List.mem_map.1 hm
    obtain ⟨j, hj, hu⟩ := hr.2.mem hu
    have h1 := hr.1.ptr_eq
    have h2 := hu.ptr_eq
    rw [he, h1] at h2
    simp at h2
    omega

theorem FanoutLeL.append {n : Nat} {ts us : List Tree} :
    FanoutLeL n (ts ++ us) ↔ FanoutLeL n ts ∧ FanoutLeL n us := by
  induction ts with
  | nil => simp [FanoutLeL]
  | cons t ts ih => simp [FanoutLeL, ih, and_assoc]

theorem FanoutLe.kids {n : Nat} {t : Tree} (hf : FanoutLe n t) : t.kids.length ≤ n ∧ FanoutLeL n t.kids := by
  cases t; simpa [FanoutLe, Tree.kids] using hf

/-- The facts about one location that the engine uses. -/
theorem Loc.Stored.self {h : Heap} {n : Nat} {l : Loc} (hs : l.Stored h n) :
    ∃ pp pn i, h pp = some pn ∧ pn.kind.isElement = l.inElem ∧ Rep h (some pp) i l.self ∧
      FanoutLe n l.self := by
  unfold Loc.Stored at hs
  split at hs
  · rename_i he
    obtain ⟨pp, pn, h1, h2, h3, h4, h5, h6⟩ := hs
    rw [RepL.append] at h4
    rw [FanoutLeL.append] at h5
    simp only [RepL, FanoutLeL] at h4 h5
    exact ⟨pp, pn, _, h1, by rw [h2, he], h4.2.1, h5.2.1⟩
  · rename_i he
    obtain ⟨_, _, pp, pn, i, h1, h2, h3, h4⟩ := hs
    exact ⟨pp, pn, i, h1, by simp [h2, he], h3, h4⟩

theorem Loc.Stored.load {h : Heap} {n : Nat} {l : Loc} (hs : l.Stored h n) :
    ∃ pp i, h l.ptr = some ⟨l.self.kind, l.self.kids.map Tree.ptr, some pp, i⟩ := by
  obtain ⟨pp, pn, i, _, _, hr, _⟩ := hs.self
  exact ⟨pp, i, hr.ptr_eq⟩

/-- A list of consecutive siblings, up to the last one. -/
inductive Sibs (h : Heap) (n : Nat) : List Loc → Prop
  | nil : Sibs h n []
  | cons {l ls} : l.Stored h n → nextNode h (some l.ptr) = pure (ls.head?.map Loc.ptr) →
      (∀ m ∈ ls, m.ptr ≠ l.ptr) → Sibs h n ls → Sibs h n (l :: ls)

theorem Sibs.stored {h : Heap} {n : Nat} {ls : List Loc} (hs : Sibs h n ls) {l : Loc} (hl : l ∈ ls) :
    l.Stored h n := by
  induction hs with
  | nil => simp at hl
  | cons h1 _ _ _ ih => 
    rcases List.mem_cons.1 hl with rfl | hl
    · exact h1
    · exact ih hl

theorem Sibs.suffix {h : Heap} {n : Nat} {ls ms : List Loc} (hs : Sibs h n ls) (hm : ms <:+ ls) :
    Sibs h n ms := by
  induction hs with
  | nil => simp at hm; subst hm; exact .nil
  | cons h1 h2 h3 h4 ih =>
    rcases List.suffix_cons_iff.1 hm with rfl | hm
    · exact .cons h1 h2 h3 h4
    · exact ih hm

theorem Sibs.tail {h : Heap} {n : Nat} {l : Loc} {ls : List Loc} (hs : Sibs h n (l :: ls)) :
    l.Stored h n ∧ nextNode h (some l.ptr) = pure (ls.head?.map Loc.ptr) ∧
      (∀ m ∈ ls, m.ptr ≠ l.ptr) ∧ Sibs h n ls := by
  cases hs; exact ⟨by assumption, by assumption, by assumption, by assumption⟩

theorem mem_locsAux {before ts : List Tree} {l : Loc} (hl : l ∈ locsAux before ts) :
    l.inElem = true ∧ l.before ++ l.self :: l.after = before ++ ts ∧ l.self ∈ ts := by
  induction ts generalizing before with
  | nil => simp [locsAux] at hl
  | cons t ts ih =>
    simp only [locsAux, List.mem_cons] at hl
    rcases hl with rfl | hl
    · simp
    · obtain ⟨h1, h2, h3⟩ := ih hl
      refine ⟨h1, by rw [h2]; simp, by simp [h3]⟩

theorem locsAux_head (before ts : List Tree) :
    (locsAux before ts).head?.map Loc.ptr = ts.head?.map Tree.ptr := by
  cases ts <;> simp [locsAux, Loc.ptr]

theorem locsAux_self (before ts : List Tree) : (locsAux before ts).map (·.self) = ts := by
  induction ts generalizing before with
  | nil => rfl
  | cons t ts ih => simp [locsAux, ih]

theorem locs_self (ts : List Tree) : (locs ts).map (·.self) = ts := locsAux_self [] ts

theorem sibs_locsAux {h : Heap} {n : Nat} {pp : Ptr} {pn : GNode} (before ts : List Tree)
    (hp : h pp = some pn) (he : pn.kind.isElement = true)
    (hc : pn.children = (before ++ ts).map Tree.ptr) (hr : RepL h pp 0 (before ++ ts))
    (hf : FanoutLeL n (before ++ ts)) (hn : (before ++ ts).length ≤ n) :
    Sibs h n (locsAux before ts) := by
  induction ts generalizing before with
  | nil => exact .nil
  | cons t ts ih =>
    simp only [locsAux]
    have hr' := hr
    rw [RepL.append] at hr'
    simp only [RepL] at hr'
    refine .cons ?_ ?_ ?_ ?_
    · simp only [Loc.Stored, if_true]
      exact ⟨pp, pn, hp, he, hc, hr, hf, hn⟩
    · have := hr'.2.1.ptr_eq
      simp only [nextNode, Loc.ptr, load_eq this, load_eq hp, pure_bind]
      rw [locsAux_head]
      simp [he, hc, List.getElem?_append_right, List.head?_eq_getElem?]
    · intro m hm
      have hnd := hr'.2.2
      have h2 : RepL h pp (0 + before.length) (t :: ts) := by simpa only [RepL] using hr'.2
      have := h2.nodup
      simp only [List.map_cons, List.nodup_cons] at this
      intro hme
      obtain ⟨_, _, hms⟩ := mem_locsAux hm
      exact this.1 (by rw [← show m.ptr = t.ptr from hme]; exact List.mem_map_of_mem hms)
    · have e : before ++ [t] ++ ts = before ++ t :: ts := by simp
      exact ih (before ++ [t]) (by rwa [e]) (by rwa [e]) (by rwa [e]) (by rwa [e])

theorem sibs_locs {h : Heap} {n : Nat} {l : Loc} (hs : l.Stored h n)
    (he : l.self.kind.isElement = true) : Sibs h n (locs l.self.kids) := by
  obtain ⟨pp, pn, i, _, _, hr, hf⟩ := hs.self
  exact sibs_locsAux [] _ hr.ptr_eq he rfl hr.kids hf.kids.2 hf.kids.1

/-- The location from which `extract` starts, with its following siblings. -/
theorem sibs_onward {h : Heap} {n : Nat} {l : Loc} (hs : l.Stored h n) : Sibs h n l.onward := by
  unfold Loc.onward
  have hs0 := hs
  unfold Loc.Stored at hs
  split at hs
  · rename_i he
    obtain ⟨pp, pn, h1, h2, h3, h4, h5, h6⟩ := hs
    have := sibs_locsAux l.before (l.self :: l.after) h1 h2 h3 h4 h5 h6
    simp only [he, if_true]
    cases l
    simp only [locsAux] at this
    simp only at he
    subst he
    exact this
  · rename_i he
    obtain ⟨_, _, pp, pn, i, h1, h2, h3, h4⟩ := hs
    simp only [he]
    refine .cons hs0 ?_ (by simp) .nil
    have := h3.ptr_eq
    simp [nextNode, Loc.ptr, load_eq this, load_eq h1, h2]

end Hext
