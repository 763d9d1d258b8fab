import Verif.Spec.Order
import Verif.Props.EndToEnd
import Verif.Proofs.Once
/-!
# C96: when results come in the order of the document
-/

namespace Hext.Props

open Hext

/-- Siblings in the order of the search. -/
def bySearch (b ts : List Tree) : List Loc := locsAux b ts ++ (underL ts).flatten

theorem under_bySearch (t : Tree) : t.under.flatten = if t.kind.isElement then bySearch [] t.kids else [] := by
  obtain ⟨p, k, kids⟩ := t
  unfold Tree.under
  cases k with
  | element e =>
    cases kids with
    | nil => rfl
    | cons t ts => rfl
  | _ => rfl

theorem inOrder_eq (t : Tree) : t.inOrder = if t.kind.isElement then inOrderL [] t.kids else [] := by
  obtain ⟨p, k, kids⟩ := t
  unfold Tree.inOrder
  cases k <;> rfl

theorem bySearch_cons (b : List Tree) (t : Tree) (ts : List Tree) :
    bySearch b (t :: ts) = ⟨true, b, t, ts⟩ :: (locsAux (b ++ [t]) ts ++ (t.under.flatten ++ (underL ts).flatten)) := by
  simp [bySearch, locsAux, underL]

mutual
theorem under_perm : ∀ t : Tree, t.under.flatten.Perm t.inOrder
  | .node p k kids => by
    rw [under_bySearch, inOrder_eq]
    split
    · exact bySearch_perm [] kids
    · exact .refl _
theorem bySearch_perm : ∀ (b ts : List Tree), (bySearch b ts).Perm (inOrderL b ts)
  | b, [] => by
    rw [bySearch, inOrderL]
    exact .refl _
  | b, t :: ts => by
    rw [bySearch_cons, inOrderL]
    refine .cons _ ?_
    refine List.Perm.trans ?_ ((under_perm t).append (bySearch_perm (b ++ [t]) ts))
    unfold bySearch
    rw [← List.append_assoc, ← List.append_assoc]
    exact List.perm_append_comm.append_right _
end

theorem inside_iff (y z : Loc) : y.Inside z ↔ z ∈ y.self.under.flatten := by
  constructor
  · intro h
    induction h with
    | child he hx => exact List.mem_flatten.2 ⟨_, locs_mem_under he hx, hx⟩
    | deeper _ he hx ih =>
      obtain ⟨ks, hks, hz⟩ := List.mem_flatten.1 ih
      exact List.mem_flatten.2 ⟨_, under_trans _ ks hks _ hz _ (locs_mem_under he hx), hx⟩
  · generalize ht : y.self = t
    intro h
    have key : ∀ t : Tree, t.kind = t.kind → ∀ z ∈ t.under.flatten, (∀ x, t.kind.isElement = true → x ∈ locs t.kids → y.Inside x) → y.Inside z := by
      intro t
      induction hs : sizeOf t using Nat.strongRecOn generalizing t with
      | _ s ih =>
        intro _ z hz hc
        rw [under_bySearch] at hz
        split at hz
        · next he =>
          rcases List.mem_append.1 hz with hz | hz
          · exact hc z he hz
          · obtain ⟨ks, hks, hz⟩ := List.mem_flatten.1 hz
            obtain ⟨u, hu, hks⟩ := underL_mem hks
            have hlt : sizeOf u < s := by
              rw [← hs]
              cases t with
              | node p k kids =>
                have := List.sizeOf_lt_of_mem (a := u) (as := kids) hu
                simp only [Tree.node.sizeOf_spec]
                omega
            refine ih _ hlt u rfl rfl z (List.mem_flatten.2 ⟨ks, hks, hz⟩) fun x hx1 hx2 => ?_
            rw [← locs_map_self t.kids] at hu
            obtain ⟨w, hw, rfl⟩ := List.mem_map.1 hu
            exact .deeper (hc w he hw) hx1 hx2
        · cases hz
    refine key t rfl z h fun x h1 h2 => ?_
    subst ht
    exact .child h1 h2

section
variable (P : Loc → Bool)

/-- Among these nodes there is one that is overtaken. -/
def OvertakenIn (xs : List Loc) : Prop := ∃ y ∈ xs, ∃ x ∈ y.onward.tail, ∃ z ∈ y.self.under.flatten, P x = true ∧ P z = true

theorem overtakenIn_cons (b : List Tree) (t : Tree) (ts : List Tree) :
    OvertakenIn P (bySearch b (t :: ts)) ↔
      ((locsAux (b ++ [t]) ts).filter P ≠ [] ∧ t.under.flatten.filter P ≠ []) ∨ OvertakenIn P t.under.flatten ∨
        OvertakenIn P (bySearch (b ++ [t]) ts) := by
  have hhead : (∃ x ∈ (Loc.mk true b t ts).onward.tail, ∃ z ∈ t.under.flatten, P x = true ∧ P z = true) ↔
      ((locsAux (b ++ [t]) ts).filter P ≠ [] ∧ t.under.flatten.filter P ≠ []) := by
    simp only [Loc.onward, if_true, List.tail_cons, ne_eq, List.filter_eq_nil_iff, Classical.not_forall, Classical.not_not]
    constructor
    · rintro ⟨x, hx, z, hz, h1, h2⟩
      exact ⟨⟨x, hx, h1⟩, ⟨z, hz, h2⟩⟩
    · rintro ⟨⟨x, hx, h1⟩, ⟨z, hz, h2⟩⟩
      exact ⟨x, hx, z, hz, h1, h2⟩
  rw [← hhead]
  unfold OvertakenIn
  rw [bySearch_cons]
  constructor
  · rintro ⟨y, hy, hb⟩
    rcases List.mem_cons.1 hy with rfl | hy
    · exact .inl hb
    · rcases List.mem_append.1 hy with hy | hy
      · exact .inr (.inr ⟨y, List.mem_append_left _ hy, hb⟩)
      · rcases List.mem_append.1 hy with hy | hy
        · exact .inr (.inl ⟨y, hy, hb⟩)
        · exact .inr (.inr ⟨y, List.mem_append_right _ hy, hb⟩)
  · rintro (hb | ⟨y, hy, hb⟩ | ⟨y, hy, hb⟩)
    · exact ⟨_, List.mem_cons_self, hb⟩
    · exact ⟨y, List.mem_cons_of_mem _ (List.mem_append_right _ (List.mem_append_left _ hy)), hb⟩
    · rcases List.mem_append.1 hy with hy | hy
      · exact ⟨y, List.mem_cons_of_mem _ (List.mem_append_left _ hy), hb⟩
      · exact ⟨y, List.mem_cons_of_mem _ (List.mem_append_right _ (List.mem_append_right _ hy)), hb⟩

theorem append_inj_perm {α : Type} {a b c d : List α} (h : a ++ b = c ++ d) (hp : a.Perm c) : a = c ∧ b = d :=
  List.append_inj h hp.length_eq

mutual
theorem under_order : ∀ (t : Tree), (t.under.flatten.map Loc.ptr).Nodup →
    (t.under.flatten.filter P = t.inOrder.filter P ↔ ¬ OvertakenIn P t.under.flatten)
  | .node p k kids, hn => by
    rw [under_bySearch] at hn ⊢
    rw [inOrder_eq]
    split
    · next he =>
      rw [if_pos he] at hn
      exact bySearch_order [] kids hn
    · simp [OvertakenIn]
theorem bySearch_order : ∀ (b ts : List Tree), ((bySearch b ts).map Loc.ptr).Nodup →
    ((bySearch b ts).filter P = (inOrderL b ts).filter P ↔ ¬ OvertakenIn P (bySearch b ts))
  | b, [], _ => by simp [bySearch, inOrderL, OvertakenIn, locsAux, underL]
  | b, t :: ts, hn => by
    rw [overtakenIn_cons]
    rw [bySearch_cons] at hn ⊢
    rw [inOrderL]
    simp only [List.map_cons, List.map_append, List.nodup_cons, List.nodup_append] at hn
    obtain ⟨_, hn1, ⟨hn2, hn3, hn4⟩, hn5⟩ := hn
    have ht := under_order t hn2
    have hts := bySearch_order (b ++ [t]) ts (by
      simp only [bySearch, List.map_append, List.nodup_append]
      exact ⟨hn1, hn3, fun x hx y hy => hn5 x hx y (List.mem_append_right _ hy)⟩)
    have pt := (under_perm t).filter P
    have hcut : ∀ (x : Loc) (u v : List Loc), ((x :: u).filter P = (x :: v).filter P ↔ u.filter P = v.filter P) := by
      intro x u v
      rw [List.filter_cons, List.filter_cons]
      split
      · simp
      · exact Iff.rfl
    rw [hcut]
    simp only [List.filter_append, not_or, ← ht, ← hts]
    unfold bySearch
    simp only [List.filter_append]
    generalize hA : (locsAux (b ++ [t]) ts).filter P = A
    generalize hB : t.under.flatten.filter P = B at pt ⊢
    constructor
    · intro he
      have hor : A = [] ∨ B = [] := by
        cases A with
        | nil => exact .inl rfl
        | cons x A =>
          cases B with
          | nil => exact .inr rfl
          | cons z B =>
            exfalso
            have hd : ∃ w ws, t.inOrder.filter P = w :: ws := by
              cases hw : t.inOrder.filter P with
              | nil => rw [hw] at pt; exact absurd pt.length_eq (by simp)
              | cons w ws => exact ⟨w, ws, rfl⟩
            obtain ⟨w, ws, hw⟩ := hd
            rw [hw] at he pt
            have hxw : x = w := by simpa using congrArg List.head? he
            have hx : x ∈ locsAux (b ++ [t]) ts := (List.mem_filter.1 (hA ▸ List.mem_cons_self)).1
            have hx' : x ∈ t.under.flatten := by
              have : x ∈ z :: B := pt.mem_iff.2 (hxw ▸ List.mem_cons_self)
              exact (List.mem_filter.1 (hB ▸ this)).1
            exact hn5 _ (List.mem_map.2 ⟨x, hx, rfl⟩) _ (List.mem_append_left _ (List.mem_map.2 ⟨x, hx', rfl⟩)) rfl
      have he' : B ++ (A ++ (underL ts).flatten.filter P) = t.inOrder.filter P ++ (inOrderL (b ++ [t]) ts).filter P := by
        rw [← he]
        rcases hor with rfl | rfl <;> simp
      obtain ⟨h1, h2⟩ := append_inj_perm he' pt
      refine ⟨?_, h1, h2⟩
      rintro ⟨h3, h4⟩
      exact hor.elim h3 h4
    · rintro ⟨h1, h2, h3⟩
      rw [← h2, ← h3]
      by_cases hA' : A = []
      · subst hA'; simp
      · have hB' : B = [] := Classical.not_not.1 fun hB' => h1 ⟨hA', hB'⟩
        subst hB'; simp
end

end

variable {rx : RxEngine} {h : Heap} {n : Nat} {l : Loc} {r : Rule}

theorem searched_flatten (l : Loc) : l.searched.flatten = l.onward ++ (underL (l.onward.map (·.self))).flatten := rfl

theorem onward_inElem {b a : List Tree} {t : Tree} : (Loc.mk true b t a).onward = locsAux b (t :: a) := rfl

theorem locsAux_self (b ts : List Tree) : (locsAux b ts).map (·.self) = ts := by
  induction ts generalizing b with
  | nil => rfl
  | cons t ts ih => simp [locsAux, ih]

theorem overtaken_iff (l : Loc) (P : Loc → Bool) : Overtaken l (fun x => P x = true) ↔ OvertakenIn P l.searched.flatten := by
  unfold Overtaken OvertakenIn
  constructor
  · rintro ⟨y, x, z, hy, hx, hz, h1, h2⟩
    exact ⟨y, searched_iff.2 hy, x, hx, z, (inside_iff y z).1 hz, h1, h2⟩
  · rintro ⟨y, hy, x, hx, z, hz, h1, h2⟩
    exact ⟨y, x, z, searched_iff.1 hy, hx, (inside_iff y z).2 hz, h1, h2⟩

open Classical in
/-- C96. A search passes by the same nodes as one that keeps to the order of the document, each once. -/
theorem C96_same_nodes (l : Loc) : l.searched.flatten.Perm l.inOrder := by
  obtain ⟨e, b, t, a⟩ := l
  cases e with
  | true =>
    rw [searched_flatten, onward_inElem, locsAux_self]
    exact bySearch_perm b (t :: a)
  | false =>
    have := (under_perm t).cons ⟨false, b, t, a⟩
    simpa [searched_flatten, Loc.onward, Loc.inOrder, underL] using this

open Classical in
/-- C96. Whatever is looked for, it is found in the order of the document exactly if nothing is overtaken. -/
theorem C96_order_iff (hl : l.Stored h n) (P : Loc → Prop) :
    l.searched.flatten.filter (fun x => decide (P x)) = l.inOrder.filter (fun x => decide (P x)) ↔ ¬ Overtaken l P := by
  have hn := searched_nodup hl
  have hP := overtaken_iff l fun x => decide (P x)
  simp only [decide_eq_true_eq] at hP
  rw [hP]
  clear hP
  obtain ⟨e, b, t, a⟩ := l
  cases e with
  | true =>
    rw [searched_flatten, onward_inElem, locsAux_self] at hn ⊢
    exact bySearch_order _ b (t :: a) hn
  | false =>
    have hs : (Loc.mk false b t a).searched.flatten = ⟨false, b, t, a⟩ :: t.under.flatten := by
      simp [searched_flatten, Loc.onward, underL]
    have ho : (Loc.mk false b t a).inOrder = ⟨false, b, t, a⟩ :: t.inOrder := by simp [Loc.inOrder]
    rw [hs] at hn ⊢
    rw [ho]
    have hn' : (t.under.flatten.map Loc.ptr).Nodup := (List.nodup_cons.1 hn).2
    have hov : OvertakenIn (fun x => decide (P x)) (⟨false, b, t, a⟩ :: t.under.flatten) ↔ OvertakenIn (fun x => decide (P x)) t.under.flatten := by
      unfold OvertakenIn
      constructor
      · rintro ⟨y, hy, x, hx, hb⟩
        rcases List.mem_cons.1 hy with rfl | hy
        · cases hx
        · exact ⟨y, hy, x, hx, hb⟩
      · rintro ⟨y, hy, hb⟩
        exact ⟨y, List.mem_cons_of_mem _ hy, hb⟩
    rw [hov, ← under_order _ t hn', List.filter_cons, List.filter_cons]
    split
    · simp
    · exact Iff.rfl

open Classical in
/-- C96, in part: the maps that a sole rule that is not greedy extracts come in the order in which the nodes that it matches stand in
the document, if none of these nodes is overtaken. What is missing: this is not so otherwise (`C96_order_iff`, `C96_overtaken`). -/
theorem C96_document_order_partial (hn : n ≤ 2147483647) (hr : r.Safe n) (hl : l.Stored h n) (hnx : r.next = none) (hg : r.isGreedy = false)
    (ho : ¬ Overtaken l (Sat (Holds rx h) r)) {ms : UInt64} {res : List (List (Str × Str))} (he : extract rx h r l.ptr ms = pure res) :
    ∃ (subs : List Found) (maps : List (List (Str × Str))),
      let nodes := l.inOrder.filter fun x => decide (Sat (Holds rx h) r x)
      subs.length = nodes.length ∧
      (∀ p ∈ nodes.zip subs, Matched (Holds rx h) r p.1 p.2) ∧
      Maps rx h (List.zipWith (fun x sub => sub ++ [(r, x)]) nodes subs) maps ∧
      res = maps.filter (· ≠ []) := by
  rw [← (C96_order_iff hl _).2 ho]
  exact single_rule_complete hn hr hl hnx hg he

/-- C96 fails: of two links the second is found first if the first one is inside of an element. -/
theorem C96_overtaken : IsDocument (docHeap 0 nestedLinks) 2147483647 nestedLinks ∧ parseHext Ex.rx true (lit "<a href:x/>") = .ok hrefRule ∧
    extract Ex.rx (docHeap 0 nestedLinks) hrefRule nestedLinks.ptr 0 = pure [[(lit "x", lit "2")], [(lit "x", lit "1")]] ∧
    (Loc.root nestedLinks).inOrder.filterMap (fun x => x.self.valueAt (lit "a") (lit "href")) = [lit "1", lit "2"] :=
  ⟨isDocument_of_ok (by decide +kernel), C62_order.1, C62_order.2, by decide +kernel⟩

/-! ## Examples -/

/-- `<html><a href="1"></a><p><a href="2"></a></p></html>` -/
def flatLinks : Tree := Ex.el 1 "html" [] [Ex.el 2 "a" [("href", "1")] [], Ex.el 3 "p" [] [Ex.el 4 "a" [("href", "2")] []]]

/-- In `flatLinks` no link is overtaken, in `nestedLinks` one is. -/
example : ¬ Overtaken (Loc.root flatLinks) (fun x => (x.self.valueAt (lit "a") (lit "href")).isSome = true) ∧
    Overtaken (Loc.root nestedLinks) (fun x => (x.self.valueAt (lit "a") (lit "href")).isSome = true) := by
  rw [overtaken_iff, overtaken_iff]
  unfold OvertakenIn
  decide +kernel

theorem reached_stored (hl : l.Stored h n) {x : Loc} (hx : l.Reach x) : x.Stored h n := by
  obtain ⟨ks, hks, hx⟩ := List.mem_flatten.1 (searched_iff.2 hx)
  exact searched_stored hl ks hks x hx

theorem inside_reached {y z : Loc} (hy : l.Reach y) (hz : y.Inside z) : l.Reach z := by
  induction hz with
  | child he hx => exact .child hy he hx
  | deeper _ he hx ih => exact .child ih he hx

/-- The hypotheses of `C96_document_order_partial` are met by the links of `flatLinks`. -/
example : ¬ Overtaken (Loc.root flatLinks) (Sat (Holds Ex.rx (docHeap 0 flatLinks)) hrefRule) := by
  have hd : IsDocument (docHeap 0 flatLinks) 2147483647 flatLinks := isDocument_of_ok (by decide +kernel)
  have hsat : ∀ x : Loc, x.Stored (docHeap 0 flatLinks) 2147483647 → Sat (Holds Ex.rx (docHeap 0 flatLinks)) hrefRule x →
      x.self.kind.elem?.any (·.hasTag (lit "a")) = true := by
    intro x hx hs
    have ho : Holds Ex.rx (docHeap 0 flatLinks) (linkInfo (lit "a") (lit "href") (lit "x")) x := by
      generalize hr : hrefRule = r at hs
      cases hs with
      | leaf h1 => subst hr; exact h1
      | inner h1 => subst hr; exact h1
    obtain ⟨e, a, h1, h2, _⟩ := (link_holds hx (by decide) ⟨97, [], by decide, by simp [Syn.IsAlpha], by simp⟩).1 ho
    simp [h1, Kind.elem?, h2]
  rintro ⟨y, x, z, hy, hx, hz, h1, h2⟩
  have : ¬ Overtaken (Loc.root flatLinks) (fun x => x.self.kind.elem?.any (·.hasTag (lit "a")) = true) := by
    rw [overtaken_iff]
    unfold OvertakenIn
    decide +kernel
  exact this ⟨y, x, z, hy, hx, hz, hsat x ((sibs_onward (reached_stored hd hy)).stored (List.mem_of_mem_tail hx)) h1,
    hsat z (reached_stored hd (inside_reached hy hz)) h2⟩

end Hext.Props
