import Verif.Proofs.Complete
set_option linter.unusedSimpArgs false
/-!
# No node is searched twice
-/

namespace Hext

/-- `u` is `t` or a node below it. -/
inductive Sub : Tree → Tree → Prop
  | refl (t) : Sub t t
  | child {t y u} : Sub t y → u ∈ y.kids → Sub t u

theorem Tree.kid_lt {t u : Tree} (h : u ∈ t.kids) : sizeOf u < sizeOf t := by
  obtain ⟨p, k, kids⟩ := t
  simp only [Tree.kids] at h
  have := List.sizeOf_lt_of_mem h
  simp only [Tree.node.sizeOf_spec]
  omega

theorem Sub.size {t u : Tree} (h : Sub t u) : sizeOf u ≤ sizeOf t := by
  induction h with
  | refl => exact Nat.le_refl _
  | child _ hu ih => have := Tree.kid_lt hu; omega

theorem Sub.trans {t u v : Tree} (h : Sub t u) (k : Sub u v) : Sub t v := by
  induction k with
  | refl => exact h
  | child _ hu ih => exact .child ih hu

theorem Sub.rep {h : Heap} {par : Option Ptr} {i : Nat} {t u : Tree} (hs : Sub t u) (hr : Rep h par i t) :
    ∃ par i, Rep h par i u := by
  induction hs with
  | refl => exact ⟨_, _, hr⟩
  | child _ hu ih =>
    obtain ⟨_, _, hr⟩ := ih
    obtain ⟨j, hj⟩ := hr.kids.mem hu
    exact ⟨_, _, hj.2⟩

mutual
/-- A stored tree is determined by its address. -/
theorem Rep.unique {h : Heap} : ∀ (t u : Tree) {p q : Option Ptr} {i j : Nat}, Rep h p i t → Rep h q j u → t.ptr = u.ptr →
    t = u ∧ p = q ∧ i = j
  | .node a k kids, .node b k' kids', p, q, i, j, h1, h2, e => by
    simp only [Tree.ptr] at e
    subst e
    simp only [Rep] at h1 h2
    have := h1.1.symm.trans h2.1
    simp only [Option.some.injEq, GNode.mk.injEq] at this
    obtain ⟨rfl, e2, rfl, rfl⟩ := this
    rw [RepL.unique kids kids' h1.2 h2.2 e2]
    exact ⟨rfl, rfl, rfl⟩
theorem RepL.unique {h : Heap} : ∀ (ts us : List Tree) {p q : Ptr} {i j : Nat}, RepL h p i ts → RepL h q j us →
    ts.map Tree.ptr = us.map Tree.ptr → ts = us
  | [], [], _, _, _, _, _, _, _ => rfl
  | [], _ :: _, _, _, _, _, _, _, e => by simp at e
  | _ :: _, [], _, _, _, _, _, _, e => by simp at e
  | t :: ts, u :: us, _, _, _, _, h1, h2, e => by
    simp only [List.map_cons, List.cons.injEq] at e
    rw [(Rep.unique t u h1.1 h2.1 e.1).1, RepL.unique ts us h1.2 h2.2 e.2]
end

/-- A node of `under` is a child of some node of the tree. -/
theorem mem_under_sub : ∀ (t : Tree) {ks : List Loc} {x : Loc}, ks ∈ t.under → x ∈ ks → ∃ y, Sub t y ∧ x.self ∈ y.kids
  | .node p k kids, ks, x, hks, hx => by
    unfold Tree.under at hks
    cases k with
    | element e =>
      simp only at hks
      split at hks
      · simp at hks
      · rcases List.mem_cons.1 hks with rfl | hks
        · refine ⟨_, .refl _, ?_⟩
          simp only [Tree.kids]
          rw [← locs_map_self kids]
          exact List.mem_map.2 ⟨x, hx, rfl⟩
        · obtain ⟨t', ht', hks⟩ := underL_mem hks
          obtain ⟨y, h1, h2⟩ := mem_under_sub t' hks hx
          refine ⟨y, Sub.trans (.child (.refl _) (by simpa [Tree.kids] using ht')) h1, h2⟩
    | _ => simp at hks
termination_by t => sizeOf t
decreasing_by
  have := List.sizeOf_lt_of_mem ht'
  simp only [Tree.node.sizeOf_spec]
  omega

section
variable {h : Heap} {pp : Ptr} {pn : GNode} {kids : List Tree}

/-- The parent of a forest does not occur in the forest. -/
theorem parent_not_sub (hp : h pp = some pn) (hc : pn.children = kids.map Tree.ptr) (hr : RepL h pp 0 kids) {a y : Tree}
    (ha : a ∈ kids) (hs : Sub a y) : y.ptr ≠ pp := by
  intro e
  obtain ⟨i, hi⟩ := hr.mem ha
  obtain ⟨par, j, hy⟩ := hs.rep hi.2
  have h1 := hy.ptr_eq
  rw [e, hp] at h1
  simp only [Option.some.injEq] at h1
  have h2 : y.kids.map Tree.ptr = kids.map Tree.ptr := by rw [← hc, h1]
  have h3 := RepL.unique _ _ hy.kids hr h2
  have h4 : a ∈ y.kids := h3 ▸ ha
  have := Tree.kid_lt h4
  have := hs.size
  omega

/-- Different trees of a forest have no address in common. -/
theorem forest_disjoint (hp : h pp = some pn) (hc : pn.children = kids.map Tree.ptr) (hr : RepL h pp 0 kids) {a b u v : Tree}
    (ha : a ∈ kids) (hb : b ∈ kids) (hu : Sub a u) (hv : Sub b v) (e : u.ptr = v.ptr) : a = b := by
  obtain ⟨i, hi⟩ := hr.mem ha
  obtain ⟨j, hj⟩ := hr.mem hb
  induction hu generalizing v with
  | refl =>
    cases hv with
    | refl => exact (Rep.unique _ _ hi.2 hj.2 e).1
    | child hy hv =>
      exfalso
      obtain ⟨_, _, hyr⟩ := hy.rep hj.2
      obtain ⟨_, hvr⟩ := hyr.kids.mem hv
      have := (Rep.unique _ _ hi.2 hvr.2 e).2.1
      exact parent_not_sub hp hc hr hb hy (by simpa using this.symm)
  | @child y u hy hu ih =>
    obtain ⟨_, _, hyr⟩ := hy.rep hi.2
    obtain ⟨_, hur⟩ := hyr.kids.mem hu
    cases hv with
    | refl =>
      exfalso
      have := (Rep.unique _ _ hur.2 hj.2 e).2.1
      exact parent_not_sub hp hc hr ha hy (by simpa using this)
    | child hy' hv =>
      obtain ⟨_, _, hyr'⟩ := hy'.rep hj.2
      obtain ⟨_, hvr⟩ := hyr'.kids.mem hv
      have := (Rep.unique _ _ hur.2 hvr.2 e).2.1
      exact ih hy' (by simpa using this)

theorem underL_eq (ts : List Tree) : underL ts = ts.flatMap Tree.under := by
  induction ts with
  | nil => rfl
  | cons t ts ih => simp [underL, ih]

theorem underFlat_eq (ts : List Tree) : ((ts.flatMap Tree.under).flatten.map Loc.ptr) =
    (ts.map fun a => a.under.flatten.map Loc.ptr).flatten := by
  induction ts with
  | nil => rfl
  | cons a as ih => simp only [List.flatMap_cons, List.flatten_append, List.map_append, ih, List.map_cons, List.flatten_cons]

theorem mem_underFlat {t : Tree} {p : Ptr} (hp : p ∈ t.under.flatten.map Loc.ptr) :
    ∃ y u, Sub t y ∧ u ∈ y.kids ∧ u.ptr = p := by
  obtain ⟨x, hx, rfl⟩ := List.mem_map.1 hp
  obtain ⟨ks, hks, hx⟩ := List.mem_flatten.1 hx
  obtain ⟨y, h1, h2⟩ := mem_under_sub t hks hx
  exact ⟨y, x.self, h1, h2, rfl⟩

theorem forest_nodup (hpn : h pp = some pn) (hc : pn.children = kids.map Tree.ptr) (hk : RepL h pp 0 kids)
    (hrec : ∀ a ∈ kids, (a.under.flatten.map Loc.ptr).Nodup) :
    (kids.map Tree.ptr ++ (underL kids).flatten.map Loc.ptr).Nodup := by
  have hnd : (kids.map Tree.ptr).Nodup := RepL.nodup hk
  rw [List.nodup_append]
  refine ⟨hnd, ?_, ?_⟩
  · rw [underL_eq, underFlat_eq, List.nodup_iff_pairwise_ne, List.pairwise_flatten]
    refine ⟨?_, ?_⟩
    · intro l hl
      obtain ⟨a, ha, rfl⟩ := List.mem_map.1 hl
      exact hrec a ha
    · rw [List.pairwise_map]
      rw [List.nodup_iff_pairwise_ne, List.pairwise_map] at hnd
      refine List.Pairwise.imp_of_mem ?_ hnd
      intro a b ha hb hne x hx y hy exy
      obtain ⟨w, u, h1, h2, rfl⟩ := mem_underFlat hx
      obtain ⟨w', v, h3, h4, rfl⟩ := mem_underFlat hy
      exact hne (congrArg Tree.ptr (forest_disjoint hpn hc hk ha hb (.child h1 h2) (.child h3 h4) exy))
  · intro x hx y hy exy
    subst exy
    obtain ⟨a, ha, rfl⟩ := List.mem_map.1 hx
    obtain ⟨l, hl, e2⟩ := List.mem_map.1 hy
    obtain ⟨ks, hks, hl⟩ := List.mem_flatten.1 hl
    obtain ⟨b, hb, hks⟩ := underL_mem hks
    obtain ⟨w, h1, h2⟩ := mem_under_sub b hks hl
    have hab := forest_disjoint hpn hc hk ha hb (.refl _) (.child h1 h2) e2.symm
    subst hab
    obtain ⟨_, hra⟩ := hk.mem ha
    obtain ⟨_, _, hw⟩ := h1.rep hra.2
    obtain ⟨_, hl'⟩ := hw.kids.mem h2
    have := (Rep.unique _ _ hra.2 hl'.2 e2.symm).1
    have h5 := Tree.kid_lt h2
    have h6 := h1.size
    rw [← this] at h5
    omega

theorem under_nodup : ∀ (t : Tree) {par : Option Ptr} {i : Nat}, Rep h par i t → (t.under.flatten.map Loc.ptr).Nodup
  | .node p k kids, par, i, hr => by
    unfold Tree.under
    cases k with
    | element e =>
      simp only
      split
      · simp
      · have hlocs : (locs kids).map Loc.ptr = kids.map Tree.ptr := by
          rw [← locs_map_self kids, List.map_map, locs_map_self]; rfl
        simp only [List.flatten_cons, List.map_append]
        rw [hlocs]
        exact forest_nodup hr.ptr_eq rfl hr.kids fun a ha =>
          (hr.kids.mem ha).elim fun _ hra => under_nodup a hra.2
    | _ => simp
termination_by t => sizeOf t
decreasing_by
  have := List.sizeOf_lt_of_mem ha
  simp only [Tree.node.sizeOf_spec]
  omega

end

theorem locsAux_map_ptr (b ts : List Tree) : (locsAux b ts).map Loc.ptr = ts.map Tree.ptr := by
  induction ts generalizing b with
  | nil => rfl
  | cons t ts ih => simp [locsAux, ih, Loc.ptr]

/-- No node occurs twice in the searched sibling lists. -/
theorem searched_nodup {h : Heap} {n : Nat} {l : Loc} (hl : l.Stored h n) :
    (l.searched.flatten.map Loc.ptr).Nodup := by
  unfold Loc.Stored at hl
  unfold Loc.searched Loc.onward
  split at hl
  · rename_i he
    obtain ⟨pp, pn, h1, _, h3, h4, _⟩ := hl
    have := forest_nodup h1 h3 h4 fun a ha => (h4.mem ha).elim fun _ hra => under_nodup a hra.2
    refine this.sublist ?_
    simp only [he, if_true, List.flatten_cons, List.map_append, List.map_cons, locsAux_map_ptr, locsAux_map_self]
    rw [underL_eq, underL_eq]
    simp only [List.flatMap_append, List.flatten_append, List.map_append]
    refine List.Sublist.append ?_ (List.sublist_append_right _ _)
    exact List.sublist_append_right _ _
  · rename_i he
    obtain ⟨_, _, pp, pn, i, _, _, h3, _⟩ := hl
    simp only [he]
    simp only [Bool.false_eq_true, if_false, List.flatten_cons, List.map_append, List.map_cons, List.map_nil, underL, List.append_nil]
    simp only [List.cons_append, List.nil_append, List.nodup_cons]
    refine ⟨?_, under_nodup _ h3⟩
    intro hm
    obtain ⟨y, u, h4, h5, h6⟩ := mem_underFlat hm
    obtain ⟨_, _, h7⟩ := h4.rep h3
    obtain ⟨_, h8⟩ := h7.kids.mem h5
    have := (Rep.unique _ _ h3 h8.2 h6.symm).1
    have h9 := Tree.kid_lt h5
    have := h4.size
    simp_all
    omega

theorem under_mem_elem {t : Tree} {x : Loc} (hx : x ∈ locs t.kids) (he : t.kind.isElement = true) : x ∈ t.under.flatten := by
  obtain ⟨p, k, kids⟩ := t
  unfold Tree.under
  simp only [Tree.kind, Tree.kids] at hx he
  cases k with
  | element e =>
    simp only
    split
    · rename_i hk
      rw [List.isEmpty_iff] at hk
      subst hk
      exact absurd hx (by simp [locs, locsAux])
    · rw [List.flatten_cons]
      exact List.mem_append_left _ hx
  | _ => simp [Kind.isElement] at he

theorem underL_of_mem {ts : List Tree} {t : Tree} (ht : t ∈ ts) {x : Loc} (hx : x ∈ t.under.flatten) : x ∈ (underL ts).flatten := by
  obtain ⟨ks, h1, h2⟩ := List.mem_flatten.1 hx
  rw [underL_eq]
  exact List.mem_flatten.2 ⟨ks, List.mem_flatMap.2 ⟨t, ht, h1⟩, h2⟩

theorem under_closed : ∀ (t : Tree) {x y : Loc}, y ∈ t.under.flatten → y.self.kind.isElement = true → x ∈ locs y.self.kids →
    x ∈ t.under.flatten
  | .node p k kids, x, y, hy, he, hx => by
    unfold Tree.under at hy ⊢
    cases k with
    | element e =>
      simp only at hy ⊢
      split at hy
      · simp at hy
      · rename_i hk
        rw [if_neg hk]
        rw [List.flatten_cons] at hy ⊢
        refine List.mem_append_right _ ?_
        rcases List.mem_append.1 hy with hy | hy
        · have : y.self ∈ kids := by
            rw [← locs_map_self kids]; exact List.mem_map.2 ⟨y, hy, rfl⟩
          exact underL_of_mem this (under_mem_elem hx he)
        · obtain ⟨ks, h1, h2⟩ := List.mem_flatten.1 hy
          obtain ⟨t, h3, h4⟩ := underL_mem h1
          exact underL_of_mem h3 (under_closed t (List.mem_flatten.2 ⟨ks, h4, h2⟩) he hx)
    | _ => simp at hy
termination_by t => sizeOf t
decreasing_by
  have := List.sizeOf_lt_of_mem h3
  simp only [Tree.node.sizeOf_spec]
  omega

theorem under_reach : ∀ (t : Tree) {l y : Loc}, y.self = t → Loc.Reach l y → ∀ {x}, x ∈ t.under.flatten → Loc.Reach l x
  | .node p k kids, l, y, e, hy, x, hx => by
    unfold Tree.under at hx
    cases k with
    | element e' =>
      have hkid : ∀ z ∈ locs kids, Loc.Reach l z := fun z hz =>
        .child hy (by rw [e]; rfl) (by rw [e]; exact hz)
      simp only at hx
      split at hx
      · simp at hx
      · rw [List.flatten_cons] at hx
        rcases List.mem_append.1 hx with hx | hx
        · exact hkid x hx
        · obtain ⟨ks, h1, h2⟩ := List.mem_flatten.1 hx
          obtain ⟨t, h3, h4⟩ := underL_mem h1
          have h3' := h3
          rw [← locs_map_self kids] at h3
          obtain ⟨z, hz, hzt⟩ := List.mem_map.1 h3
          exact under_reach t hzt (hkid z hz) (List.mem_flatten.2 ⟨ks, h4, h2⟩)
    | _ => simp at hx
termination_by t => sizeOf t
decreasing_by
  have := List.sizeOf_lt_of_mem h3'
  simp only [Tree.node.sizeOf_spec]
  omega

theorem searched_iff {l x : Loc} : x ∈ l.searched.flatten ↔ Loc.Reach l x := by
  unfold Loc.searched
  rw [List.flatten_cons]
  constructor
  · intro hx
    rcases List.mem_append.1 hx with hx | hx
    · exact .start hx
    · obtain ⟨ks, h1, h2⟩ := List.mem_flatten.1 hx
      obtain ⟨t, h3, h4⟩ := underL_mem h1
      obtain ⟨z, hz, hzt⟩ := List.mem_map.1 h3
      exact under_reach t hzt (.start hz) (List.mem_flatten.2 ⟨ks, h4, h2⟩)
  · intro hx
    induction hx with
    | start hx => exact List.mem_append_left _ hx
    | @child y x _ he hx ih =>
      refine List.mem_append_right _ ?_
      rcases List.mem_append.1 ih with ih | ih
      · exact underL_of_mem (List.mem_map.2 ⟨y, ih, rfl⟩) (under_mem_elem hx he)
      · obtain ⟨ks, h1, h2⟩ := List.mem_flatten.1 ih
        obtain ⟨t, h3, h4⟩ := underL_mem h1
        exact underL_of_mem h3 (under_closed t (List.mem_flatten.2 ⟨ks, h4, h2⟩) he hx)

end Hext
