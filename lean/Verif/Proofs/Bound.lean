import Verif.Proofs.Pure
import Verif.Spec.Size
/-!
# How many searches there can be
-/

namespace Hext.Bound

section
variable {ρ α : Type}

theorem once_cost {c : CR ρ α} {B : Nat} : ∀ {ns : List α}, (∀ x ∈ ns, (c.run x).cost ≤ B) →
    (once c ns).cost ≤ ns.length * B ∧
    ∀ b x s r, (once c ns).val = some (b, x, s, r) → (once c ns).cost ≤ (b.length + 1) * B
  | [], _ => by simp [once]
  | y :: ys, h => by
    have hy := h y (by simp)
    obtain ⟨i1, i2⟩ := once_cost (c := c) (ns := ys) fun x hx => h x (by simp [hx])
    unfold once
    split
    · refine ⟨?_, ?_⟩
      · simp only [List.length_cons, Nat.add_mul, Nat.one_mul]; omega
      · rintro b x s r e
        simp only [Option.some.injEq, Prod.mk.injEq] at e
        obtain ⟨rfl, -⟩ := e
        simp [hy]
    · split
      · refine ⟨?_, fun _ _ _ _ e => by simp at e⟩
        simp only [List.length_cons, Nat.add_mul, Nat.one_mul]; omega
      · rename_i b' y' s' r' heq
        refine ⟨?_, ?_⟩
        · simp only [List.length_cons, Nat.add_mul, Nat.one_mul]; omega
        · rintro b x s r e
          simp only [Option.some.injEq, Prod.mk.injEq] at e
          obtain ⟨rfl, -⟩ := e
          have := i2 _ _ _ _ heq
          simp only [List.length_cons, Nat.add_mul, Nat.one_mul] at this ⊢; omega

theorem rangeGreedy_cost {c : CR ρ α} {B : Nat} (ns : List α) (h : ∀ x ∈ ns, (c.run x).cost ≤ B) :
    (rangeGreedy c ns).cost ≤ ns.length * B := by
  fun_induction rangeGreedy c ns with
  | case1 ns hn => exact (once_cost h).1
  | case2 ns b x s r hs _ t ih =>
    have e := once_some hs
    have h1 := (once_cost h).2 _ _ _ _ hs
    have h2 := ih fun y hy => h y (by rw [e]; simp [hy])
    have h3 : ns.length = b.length + 1 + r.length := by rw [e]; simp; omega
    simp only [h3, Nat.add_mul _ r.length]
    simp only [t]
    omega

theorem range_cost {B : Nat} : ∀ {cs : List (CR ρ α)} {ns : List α}, (∀ c ∈ cs, ∀ x ∈ ns, (c.run x).cost ≤ B) →
    (range cs ns).cost ≤ cs.length * (ns.length * B)
  | [], _, _ => by simp [range]
  | c :: cs, ns, h => by
    have hc := h c (by simp)
    have hs : ∀ {r : List α}, r <:+ ns → (range cs r).cost ≤ cs.length * (ns.length * B) := by
      intro r hr
      have := range_cost (B := B) (cs := cs) (ns := r) fun c' hc' x hx => h c' (by simp [hc']) x (hr.subset hx)
      refine Nat.le_trans this (Nat.mul_le_mul_left _ (Nat.mul_le_mul_right _ hr.length_le))
    unfold range
    simp only [List.length_cons, Nat.add_mul, Nat.one_mul]
    split
    · have h1 := rangeGreedy_cost ns hc
      have h2 := hs (rangeGreedy_suffix c ns)
      simp only
      omega
    · have h1 := (once_cost hc).1
      split
      · have h2 := hs (List.suffix_refl ns)
        simp only
        omega
      · rename_i b x s r heq
        have h2 := hs (r := r) (by rw [once_some heq]; exact ⟨b ++ [x], by simp⟩)
        simp only
        omega

theorem splitMand_app : ∀ {cs : List (CR ρ α)} {o m r}, splitMand cs = some (o, m, r) → cs = o ++ m :: r
  | [], _, _, _, h => by simp [splitMand] at h
  | c :: cs, o, m, r, h => by
    unfold splitMand at h
    split at h
    · cases hs : splitMand cs with
      | none => simp [hs] at h
      | some v =>
        obtain ⟨o', m', r'⟩ := v
        simp only [hs, Option.some.injEq, Prod.mk.injEq] at h
        obtain ⟨rfl, rfl, rfl⟩ := h
        rw [splitMand_app hs]
        rfl
    · simp only [Option.some.injEq, Prod.mk.injEq] at h
      obtain ⟨rfl, rfl, rfl⟩ := h
      rfl

theorem firstMand_in {cs : List (CR ρ α)} {c} (h : firstMand cs = some c) : c ∈ cs := List.mem_of_find?_eq_some h

theorem group_cost {B : Nat} (pre cs : List (CR ρ α)) (again : Bool) (ns : List α) (sub : Pairs ρ α)
    (h : ∀ c ∈ pre ++ cs, ∀ x ∈ ns, (c.run x).cost ≤ B) :
    (group pre cs again ns sub).cost ≤ (cs.length + 1) * (ns.length * B) := by
  fun_induction group pre cs again ns sub with
  | case1 => simp
  | case2 => simp
  | case3 => simp
  | case4 pre again sub c cs n ns hc opts stop rest hs hn =>
    have e := splitMand_app hs
    have := (once_cost (h stop (by simp [e]))).1
    simp only [Nat.add_mul, Nat.one_mul]
    omega
  | case5 pre again sub c cs n ns hc opts stop rest hs b x s r hsm _ m t ih =>
    have e := splitMand_app hs
    have en := once_some hsm
    have h1 := (once_cost (h stop (by simp [e]))).2 _ _ _ _ hsm
    have h2 : m.cost ≤ (c :: opts).length * (b.length * B) :=
      range_cost fun c' hc' y hy => h c' (by rw [e]; simp at hc' ⊢; rcases hc' with hc' | hc' <;> simp [hc'])
        y (by rw [en]; simp [hy])
    have h3 : t.cost ≤ (rest.length + 1) * (r.length * B) :=
      ih fun c' hc' y hy => h c' (by rw [e]; simpa using hc') y (by rw [en]; simp [hy])
    have h4 : (n :: ns).length = b.length + 1 + r.length := by rw [en]; simp; omega
    have h5 : (c :: cs).length = 1 + opts.length + 1 + rest.length := by rw [e]; simp; omega
    rw [h4, h5]
    simp only [List.length_cons] at h2
    calc (once stop (n :: ns)).cost + m.cost + t.cost
        ≤ (b.length + 1) * B + (opts.length + 1) * (b.length * B) + (rest.length + 1) * (r.length * B) := by omega
      _ ≤ (opts.length + 2) * ((b.length + 1) * B) + (rest.length + 1) * (r.length * B) := by
          have : (opts.length + 1) * (b.length * B) ≤ (opts.length + 1) * ((b.length + 1) * B) :=
            Nat.mul_le_mul_left _ (Nat.mul_le_mul_right _ (by omega))
          rw [show opts.length + 2 = opts.length + 1 + 1 by omega, Nat.add_mul (opts.length + 1) 1, Nat.one_mul]
          omega
      _ ≤ (1 + opts.length + 1 + rest.length + 1) * ((b.length + 1) * B) +
          (1 + opts.length + 1 + rest.length + 1) * (r.length * B) :=
          Nat.add_le_add (Nat.mul_le_mul_right _ (by omega)) (Nat.mul_le_mul_right _ (by omega))
      _ = _ := by rw [← Nat.mul_add, ← Nat.add_mul]
  | case6 pre again sub c cs n ns hc hs hf m =>
    have h2 : m.cost ≤ (c :: cs).length * ((n :: ns).length * B) :=
      range_cost fun c' hc' y hy => h c' (by simp at hc' ⊢; exact .inr hc') y hy
    rw [show ∀ k X : Nat, (k + 1) * X = k * X + X from fun k X => by rw [Nat.add_mul, Nat.one_mul]]
    simp only
    omega
  | case7 pre again sub c cs n ns hc hs stop hf o ho m =>
    have h1 : o.cost ≤ _ := (once_cost (h stop (by simp [firstMand_in hf]))).1
    have h2 : m.cost ≤ (c :: cs).length * ((n :: ns).length * B) :=
      range_cost fun c' hc' y hy => h c' (by simp at hc' ⊢; exact .inr hc') y hy
    rw [show ∀ k X : Nat, (k + 1) * X = k * X + X from fun k X => by rw [Nat.add_mul, Nat.one_mul]]
    simp only
    omega
  | case8 pre again sub c cs n ns hc hs stop hf o b x s r ho m =>
    have en := once_some (c := stop) ho
    have h1 : o.cost ≤ _ := (once_cost (h stop (by simp [firstMand_in hf]))).1
    have h2 : m.cost ≤ (c :: cs).length * (b.length * B) :=
      range_cost fun c' hc' y hy => h c' (by simp at hc' ⊢; exact .inr hc') y (by rw [en]; simp [hy])
    have h3 : (c :: cs).length * (b.length * B) ≤ (c :: cs).length * ((n :: ns).length * B) :=
      Nat.mul_le_mul_left _ (Nat.mul_le_mul_right _ (by rw [en]; simp))
    rw [show ∀ k X : Nat, (k + 1) * X = k * X + X from fun k X => by rw [Nat.add_mul, Nat.one_mul]]
    simp only
    omega
  | case9 pre again sub c cs n ns hc hn =>
    have := (once_cost (h c (by simp))).1
    simp only [Nat.add_mul, Nat.one_mul]
    omega
  | case10 pre again sub c cs n ns hc b x s r hsm _ sub' t ih1 ih2 =>
    have en := once_some hsm
    have h1 := (once_cost (h c (by simp))).2 _ _ _ _ hsm
    have h3 : t.cost ≤ ((c :: cs).length + 1) * (r.length * B) := by
      simp only [t]
      split
      · exact ih1 fun c' hc' y hy => h c' hc' y (by rw [en]; simp [hy])
      · refine Nat.le_trans (ih2 fun c' hc' y hy => h c' (by simpa using hc') y (by rw [en]; simp [hy])) ?_
        exact Nat.mul_le_mul_right _ (by simp)
    have h4 : (n :: ns).length = b.length + 1 + r.length := by rw [en]; simp; omega
    rw [h4, Nat.add_mul (b.length + 1), Nat.mul_add]
    have h5 : (b.length + 1) * B ≤ ((c :: cs).length + 1) * ((b.length + 1) * B) := Nat.le_mul_of_pos_left _ (by omega)
    simp only
    omega

theorem groups_cost {B : Nat} (cs : List (CR ρ α)) (ns : List α) (h : ∀ c ∈ cs, ∀ x ∈ ns, (c.run x).cost ≤ B) :
    (groups cs ns).cost ≤ ns.length * ((cs.length + 1) * (ns.length * B)) := by
  fun_induction groups cs ns with
  | case1 => simp
  | case2 => simp
  | case3 c cs n ns g hlt t ih =>
    have h1 : g.cost ≤ _ := group_cost [] (c :: cs) false (n :: ns) [] (by simpa using h)
    have hsf : g.val.2 <:+ n :: ns := group_suffix ..
    have h2 : t.cost ≤ _ := ih fun c' hc' y hy => h c' hc' y (hsf.subset hy)
    have h3 : g.val.2.length ≤ ns.length := by simpa [Nat.lt_succ_iff] using hlt
    have h4 : g.val.2.length * (((c :: cs).length + 1) * (g.val.2.length * B)) ≤
        ns.length * (((c :: cs).length + 1) * ((n :: ns).length * B)) :=
      Nat.mul_le_mul h3 (Nat.mul_le_mul_left _ (Nat.mul_le_mul_right _ (by simp; omega)))
    rw [show (n :: ns).length * (((c :: cs).length + 1) * ((n :: ns).length * B)) =
      ns.length * (((c :: cs).length + 1) * ((n :: ns).length * B)) + ((c :: cs).length + 1) * ((n :: ns).length * B) by
        rw [List.length_cons (as := ns), Nat.add_mul ns.length 1, Nat.one_mul]]
    simp only
    omega

end

/-! ## Trees -/

section
variable {ρ : Type}

theorem locsAux_self1 {l : Loc} : ∀ {ts before}, l ∈ locsAux before ts → l.self ∈ ts
  | [], _, h => by simp [locsAux] at h
  | t :: ts, _, h => by
    simp only [locsAux, List.mem_cons] at h
    rcases h with rfl | h
    · simp
    · simp [locsAux_self1 h]

theorem locsAux_len : ∀ {ts before}, (locsAux before ts).length = ts.length
  | [], _ => rfl
  | t :: ts, _ => by simp [locsAux, locsAux_len (ts := ts)]

theorem size_le_of_mem {t : Tree} : ∀ {ts : List Tree}, t ∈ ts → t.size ≤ Tree.sizeL ts
  | [], h => by simp at h
  | u :: us, h => by
    simp only [List.mem_cons] at h
    simp only [Tree.sizeL]
    rcases h with rfl | h
    · omega
    · have := size_le_of_mem h; omega

theorem length_le_sizeL : ∀ {ts : List Tree}, ts.length ≤ Tree.sizeL ts
  | [] => by simp [Tree.sizeL]
  | .node _ _ ks :: ts => by
    have := length_le_sizeL (ts := ts)
    simp only [List.length_cons, Tree.sizeL, Tree.size]
    omega

theorem sq_add_le (a b : Nat) : a * a + b * b ≤ (a + b) * (a + b) := by
  rw [Nat.add_mul, Nat.mul_add, Nat.mul_add]
  have := Nat.zero_le (a * b)
  have := Nat.zero_le (b * a)
  omega

/-- The cost of `groups` in the form that is summed up. -/
theorem groups_cost' {B n : Nat} {cs : List (CR ρ Loc)} (hne : cs ≠ []) {ls : List Loc}
    (h : ∀ c ∈ cs, ∀ l : Loc, l.self.size ≤ n → (c.run l).cost ≤ B) (hl : ∀ l ∈ ls, l.self.size ≤ n) :
    (groups cs ls).cost ≤ 2 * cs.length * B * (ls.length * ls.length) := by
  refine Nat.le_trans (groups_cost cs ls fun c hc x hx => h c hc x (hl x hx)) ?_
  have hpos : 1 ≤ cs.length := List.length_pos_iff.mpr hne
  have : (cs.length + 1) ≤ 2 * cs.length := by omega
  calc ls.length * ((cs.length + 1) * (ls.length * B)) ≤ ls.length * (2 * cs.length * (ls.length * B)) :=
        Nat.mul_le_mul_left _ (Nat.mul_le_mul_right _ this)
    _ = _ := by ac_rfl

mutual
theorem descend_cost {B n : Nat} {cs : List (CR ρ Loc)} (hne : cs ≠ [])
    (h : ∀ c ∈ cs, ∀ l : Loc, l.self.size ≤ n → (c.run l).cost ≤ B) : ∀ (t : Tree), t.size ≤ n →
    (descend cs t).cost + 1 ≤ t.size + 2 * cs.length * B * ((t.size - 1) * (t.size - 1))
  | .node p k kids, ht => by
    simp only [Tree.size] at ht
    have hl := descendL_cost hne h kids (by omega)
    unfold descend
    cases k with
    | element e =>
      simp only
      split
      · simp only [Tree.size]; omega
      · rename_i hk
        have hm : 1 ≤ kids.length := by
          cases kids with
          | nil => simp at hk
          | cons => simp
        have hg := groups_cost' (n := n) hne (ls := locs kids) h fun l hl' => by
          have := size_le_of_mem (locsAux_self1 hl')
          omega
        rw [locs, locsAux_len] at hg
        have hle := length_le_sizeL (ts := kids)
        have hsq := Nat.mul_le_mul_left (2 * cs.length * B) (sq_add_le kids.length (Tree.sizeL kids - kids.length))
        rw [Nat.mul_add, show kids.length + (Tree.sizeL kids - kids.length) = Tree.sizeL kids by omega] at hsq
        simp only [Tree.size, Nat.add_sub_cancel_left]
        simp only [locs]
        omega
    | _ => simp only [Tree.size]; omega
theorem descendL_cost {B n : Nat} {cs : List (CR ρ Loc)} (hne : cs ≠ [])
    (h : ∀ c ∈ cs, ∀ l : Loc, l.self.size ≤ n → (c.run l).cost ≤ B) : ∀ (ts : List Tree), Tree.sizeL ts ≤ n →
    (descendL cs ts).cost + ts.length ≤ Tree.sizeL ts +
      2 * cs.length * B * ((Tree.sizeL ts - ts.length) * (Tree.sizeL ts - ts.length))
  | [], _ => by simp [descendL, Tree.sizeL]
  | t :: ts, ht => by
    simp only [Tree.sizeL] at ht ⊢
    have h1 := descend_cost hne h t (by omega)
    have h2 := descendL_cost hne h ts (by omega)
    have h3 := length_le_sizeL (ts := ts)
    have h4 : 1 ≤ t.size := by cases t; simp only [Tree.size]; omega
    have hsq := Nat.mul_le_mul_left (2 * cs.length * B) (sq_add_le (t.size - 1) (Tree.sizeL ts - ts.length))
    rw [Nat.mul_add, show t.size - 1 + (Tree.sizeL ts - ts.length) = t.size + Tree.sizeL ts - (t :: ts).length by
      simp only [List.length_cons]; omega] at hsq
    simp only [descendL, List.length_cons] at hsq ⊢
    omega
end

/-- A search on sibling nodes that have `n` nodes in total. -/
theorem save_cost_le {B n : Nat} {cs : List (CR ρ Loc)} (hne : cs ≠ [])
    (h : ∀ c ∈ cs, ∀ l : Loc, l.self.size ≤ n → (c.run l).cost ≤ B) {ls : List Loc} (hls : ls ≠ [])
    (hn : Tree.sizeL (ls.map (·.self)) ≤ n) : (save cs ls).cost ≤ n + 2 * cs.length * B * (n * n) := by
  have h1 := groups_cost' (n := n) hne (ls := ls) h fun l hl =>
    Nat.le_trans (size_le_of_mem (List.mem_map_of_mem hl)) hn
  have h2 := descendL_cost hne h (ls.map (·.self)) hn
  have h3 := length_le_sizeL (ts := ls.map (·.self))
  rw [List.length_map] at h2 h3
  have hpos : 1 ≤ ls.length := List.length_pos_iff.mpr hls
  have hsq := Nat.mul_le_mul_left (2 * cs.length * B) (sq_add_le ls.length (Tree.sizeL (ls.map (·.self)) - ls.length))
  rw [Nat.mul_add, show ls.length + (Tree.sizeL (ls.map (·.self)) - ls.length) = Tree.sizeL (ls.map (·.self)) by omega] at hsq
  have hmono := Nat.mul_le_mul_left (2 * cs.length * B) (Nat.mul_le_mul hn hn)
  unfold save
  simp only
  omega

theorem locsAux_selfs : ∀ {ts before}, (locsAux before ts).map (·.self) = ts
  | [], _ => rfl
  | t :: ts, _ => by simp [locsAux, locsAux_selfs (ts := ts)]

theorem nestedRun_cost {B n : Nat} {kids : List Tree} (hk : kids ≠ []) (hn : Tree.sizeL kids ≤ n) :
    ∀ {css : List (List (CR ρ Loc))}, (∀ cs ∈ css, cs ≠ []) →
    (∀ cs ∈ css, ∀ c ∈ cs, ∀ l : Loc, l.self.size ≤ n → (c.run l).cost ≤ B) →
    (nestedRun kids css).cost ≤ (css.map (fun cs => n + 2 * cs.length * B * (n * n))).sum
  | [], _, _ => by simp [nestedRun]
  | cs :: css, hne, h => by
    have h1 := save_cost_le (B := B) (n := n) (hne cs (by simp)) (h cs (by simp)) (ls := locs kids)
      (by intro e; apply hk; have := congrArg List.length e; rw [locs, locsAux_len] at this; simpa using this)
      (by rw [locs, locsAux_selfs]; exact hn)
    have h2 := nestedRun_cost hk hn (css := css) (fun c hc => hne c (by simp [hc])) fun c hc => h c (by simp [hc])
    unfold nestedRun
    simp only [List.map_cons, List.sum_cons]
    split
    · simp only; omega
    · split <;> simp only <;> omega

theorem runRule_cost {B n : Nat} {own : Loc → Bool} {child : List (CR ρ Loc)} {nested : List (List (CR ρ Loc))}
    (hne : ∀ cs ∈ nested, cs ≠ []) (hc : ∀ c ∈ child, ∀ l : Loc, l.self.size ≤ n → (c.run l).cost ≤ B)
    (hs : ∀ cs ∈ nested, ∀ c ∈ cs, ∀ l : Loc, l.self.size ≤ n → (c.run l).cost ≤ B) (l : Loc) (hl : l.self.size ≤ n) :
    (runRule own child nested l).cost ≤ 2 * child.length * B * (n * n) +
      (nested.map (fun cs => n + 2 * cs.length * B * (n * n))).sum := by
  have hk : Tree.sizeL l.self.kids ≤ n := by
    cases hs : l.self with
    | node p k kids => rw [hs] at hl; simp only [Tree.size] at hl; simp only [Tree.kids]; omega
  unfold runRule
  split
  · simp
  · split
    · simp
    · split
      · simp
      · rename_i hkk
        have hkids : l.self.kids ≠ [] := by
          intro e
          simp [e] at hkk
        have h1 : (if child.isEmpty then (⟨[], 0⟩ : W (List (Pairs ρ Loc))) else groups child (locs l.self.kids)).cost ≤
            2 * child.length * B * (n * n) := by
          split
          · simp
          · rename_i hce
            refine Nat.le_trans (groups_cost' (n := n) (by intro e; simp [e] at hce) hc fun x hx => ?_) ?_
            · have := size_le_of_mem (locsAux_self1 hx); omega
            · rw [locs, locsAux_len]
              have := length_le_sizeL (ts := l.self.kids)
              exact Nat.mul_le_mul_left _ (Nat.mul_le_mul (by omega) (by omega))
        have h2 := nestedRun_cost hkids hk hne hs
        generalize (if child.isEmpty then (⟨[], 0⟩ : W (List (Pairs ρ Loc))) else groups child (locs l.self.kids)) = g at h1 ⊢
        simp only
        split
        · split <;> simp only <;> omega
        · simp only; omega

end

/-! ## Rules -/

/-- A bound for what it costs to try a rule with `j` levels below it on a node. -/
def tryBound (R n : Nat) : Nat → Nat
  | 0 => 0
  | j + 1 => R * (n + 2 * tryBound R n j * (n * n))

theorem tryBound_mono {R n : Nat} : ∀ {i j : Nat}, i ≤ j → tryBound R n i ≤ tryBound R n j
  | 0, _, _ => Nat.zero_le _
  | i + 1, 0, h => by omega
  | i + 1, j + 1, h => by
    have := tryBound_mono (R := R) (n := n) (i := i) (j := j) (by omega)
    exact Nat.mul_le_mul_left _ (Nat.add_le_add_left (Nat.mul_le_mul_right _ (Nat.mul_le_mul_left _ this)) _)

theorem levels_pos (r : Rule) : 1 ≤ r.levels := by
  cases r
  simp only [Rule.levels]
  omega

theorem size_pos (r : Rule) : 1 ≤ r.size := by
  cases r
  simp only [Rule.size]
  omega

theorem chain_ne {own addr} (r : Rule) : chain own addr r ≠ [] := by
  cases r
  simp [chain]

mutual
theorem chain_length {own} : ∀ (r : Rule) (addr), (chain own addr r).length ≤ r.size
  | .mk _ _ nx _, addr => by
    have := chainO_length (own := own) nx (addr ++ [.next])
    simp only [chain, List.length_cons, Rule.size]
    omega
theorem chainO_length {own} : ∀ (r : Option Rule) (addr), (chainO own addr r).length ≤ Rule.sizeO r
  | none, _ => by simp [chainO]
  | some r, addr => chain_length r addr
end

theorem chainN_sum {own n X} : ∀ (rs : List Rule) (addr : List Step) (i : Nat),
    ((chainN own addr i rs).map (fun cs => n + 2 * cs.length * X)).sum ≤ Rule.sizeL rs * (n + 2 * X)
  | [], _, _ => by simp [chainN]
  | r :: rs, addr, i => by
    have h1 := chainN_sum (own := own) (n := n) (X := X) rs addr (i + 1)
    have h2 := chain_length (own := own) r (addr ++ [.nested i])
    have h3 := size_pos r
    have h4 : (chain own (addr ++ [.nested i]) r).length * (2 * X) ≤ r.size * (2 * X) := Nat.mul_le_mul_right _ h2
    have h5 : n ≤ r.size * n := Nat.le_mul_of_pos_left _ h3
    simp only [chainN, List.map_cons, List.sum_cons, Rule.sizeL, Nat.add_mul, Nat.mul_add] at h1 h4 ⊢
    have e : 2 * (chain own (addr ++ [.nested i]) r).length * X = (chain own (addr ++ [.nested i]) r).length * (2 * X) := by ac_rfl
    omega

theorem chainN_ne {own} : ∀ (rs : List Rule) (addr : List Step) (i : Nat), ∀ cs ∈ chainN own addr i rs, cs ≠ []
  | [], _, _, _, h => by simp [chainN] at h
  | r :: rs, addr, i, cs, h => by
    simp only [chainN, List.mem_cons] at h
    rcases h with rfl | h
    · exact chain_ne r
    · exact chainN_ne rs addr (i + 1) cs h

mutual
theorem chain_cost {own : RuleInfo → Loc → Bool} {R n : Nat} : ∀ (r : Rule) (addr : List Step) (j : Nat), r.size ≤ R → r.levels ≤ j + 1 →
    ∀ c ∈ chain own addr r, ∀ l : Loc, l.self.size ≤ n → (c.run l).cost ≤ tryBound R n j
  | .mk info ch nx ns, addr, j, hR, hj, c, hc, l, hl => by
    simp only [Rule.size] at hR
    simp only [Rule.levels] at hj
    simp only [chain, List.mem_cons] at hc
    rcases hc with rfl | hc
    · simp only
      cases j with
      | zero =>
        have h1 : ch = none := by
          cases ch with
          | none => rfl
          | some r => have := levels_pos r; simp only [Rule.levelsO] at hj; omega
        have h2 : ns = [] := by
          cases ns with
          | nil => rfl
          | cons r rs => have := levels_pos r; simp only [Rule.levelsL] at hj; omega
        subst h1 h2
        refine Nat.le_trans (runRule_cost (B := 0) (n := n) ?_ ?_ ?_ l hl) ?_ <;> simp [chainN, chainO]
      | succ j =>
        refine Nat.le_trans (runRule_cost (B := tryBound R n j) (n := n) (chainN_ne ns addr 0)
          (chainO_cost ch (addr ++ [.child]) j (by omega) (by omega))
          (chainN_cost ns addr 0 j (by omega) (by omega)) l hl) ?_
        have h1 := chainO_length (own := own) ch (addr ++ [.child])
        have h2 := chainN_sum (own := own) (n := n) (X := tryBound R n j * (n * n)) ns addr 0
        have e1 : ∀ k : Nat, 2 * k * tryBound R n j * (n * n) = 2 * k * (tryBound R n j * (n * n)) := fun k => by ac_rfl
        simp only [e1]
        have e2 : 2 * (chainO own (addr ++ [.child]) ch).length * (tryBound R n j * (n * n)) ≤
            Rule.sizeO ch * (2 * (tryBound R n j * (n * n))) := by
          calc _ = (chainO own (addr ++ [.child]) ch).length * (2 * (tryBound R n j * (n * n))) := by ac_rfl
            _ ≤ _ := Nat.mul_le_mul_right _ h1
        have e3 : (Rule.sizeO ch + Rule.sizeL ns) * (n + 2 * (tryBound R n j * (n * n))) ≤
            R * (n + 2 * (tryBound R n j * (n * n))) := Nat.mul_le_mul_right _ (by omega)
        have e4 : tryBound R n (j + 1) = R * (n + 2 * (tryBound R n j * (n * n))) := by
          rw [tryBound, Nat.mul_assoc 2]
        rw [e4]
        rw [Nat.add_mul, Nat.mul_add (Rule.sizeO ch)] at e3
        omega
    · exact chainO_cost nx (addr ++ [.next]) j (by omega) (by omega) c hc l hl
theorem chainO_cost {own : RuleInfo → Loc → Bool} {R n : Nat} : ∀ (r : Option Rule) (addr : List Step) (j : Nat), Rule.sizeO r ≤ R →
    Rule.levelsO r ≤ j + 1 → ∀ c ∈ chainO own addr r, ∀ l : Loc, l.self.size ≤ n → (c.run l).cost ≤ tryBound R n j
  | none, _, _, _, _, _, hc, _, _ => by simp [chainO] at hc
  | some r, addr, j, hR, hj, c, hc, l, hl => chain_cost r addr j hR hj c hc l hl
theorem chainN_cost {own : RuleInfo → Loc → Bool} {R n : Nat} : ∀ (rs : List Rule) (addr : List Step) (i j : Nat), Rule.sizeL rs ≤ R →
    Rule.levelsL rs ≤ j + 1 → ∀ cs ∈ chainN own addr i rs, ∀ c ∈ cs, ∀ l : Loc, l.self.size ≤ n → (c.run l).cost ≤ tryBound R n j
  | [], _, _, _, _, _, _, hc, _, _, _, _ => by simp [chainN] at hc
  | r :: rs, addr, i, j, hR, hj, cs, hcs, c, hc, l, hl => by
    simp only [Rule.sizeL] at hR
    simp only [Rule.levelsL] at hj
    simp only [chainN, List.mem_cons] at hcs
    rcases hcs with rfl | hcs
    · exact chain_cost r _ j (by omega) (by omega) c hc l hl
    · exact chainN_cost rs addr (i + 1) j (by omega) (by omega) cs hcs c hc l hl
end

theorem tryBound_le {R n : Nat} (hR : 1 ≤ R) (hn : 1 ≤ n) : ∀ j, tryBound R n j ≤ (3 * R * (n * n)) ^ j
  | 0 => by simp [tryBound]
  | j + 1 => by
    have ih := tryBound_le hR hn j
    have hp : 1 ≤ (3 * R * (n * n)) ^ j := Nat.one_le_pow _ _ (Nat.mul_pos (by omega) (Nat.mul_pos hn hn))
    have h1 : n ≤ (3 * R * (n * n)) ^ j * (n * n) :=
      Nat.le_trans (Nat.le_mul_of_pos_left n hn) (Nat.le_mul_of_pos_left _ hp)
    have h2 : 2 * tryBound R n j * (n * n) ≤ 2 * ((3 * R * (n * n)) ^ j * (n * n)) := by
      rw [Nat.mul_assoc]
      exact Nat.mul_le_mul_left _ (Nat.mul_le_mul_right _ ih)
    calc R * (n + 2 * tryBound R n j * (n * n)) ≤ R * (3 * ((3 * R * (n * n)) ^ j * (n * n))) :=
          Nat.mul_le_mul_left _ (by omega)
      _ = _ := by rw [Nat.pow_succ]; ac_rfl

/-- The number of searches on sibling nodes that have `n` nodes in total. -/
theorem search_cost_le {own : RuleInfo → Loc → Bool} (r : Rule) (addr : List Step) {n : Nat} {ls : List Loc} (hls : ls ≠ [])
    (hn : Tree.sizeL (ls.map (·.self)) ≤ n) :
    (save (chain own addr r) ls).cost ≤ (3 * r.size * (n * n)) ^ r.levels := by
  obtain ⟨j, hj⟩ : ∃ j, r.levels = j + 1 := ⟨r.levels - 1, by have := levels_pos r; omega⟩
  have h1 := save_cost_le (chain_ne r) (chain_cost (own := own) (n := n) r addr j (Nat.le_refl _) (by omega)) hls hn
  have hn1 : 1 ≤ n := by
    have := length_le_sizeL (ts := ls.map (·.self))
    have := List.length_pos_iff.mpr hls
    rw [List.length_map] at *
    omega
  refine Nat.le_trans h1 ?_
  refine Nat.le_trans ?_ (hj ▸ tryBound_le (size_pos r) hn1 (j + 1) : tryBound r.size n (j + 1) ≤ (3 * r.size * (n * n)) ^ r.levels)
  rw [tryBound, Nat.mul_add]
  have h2 := chain_length (own := own) r addr
  have h3 : n ≤ r.size * n := Nat.le_mul_of_pos_left _ (size_pos r)
  have h4 : 2 * (chain own addr r).length * tryBound r.size n j * (n * n) ≤ r.size * (2 * tryBound r.size n j * (n * n)) := by
    calc _ = (chain own addr r).length * (2 * tryBound r.size n j * (n * n)) := by ac_rfl
      _ ≤ _ := Nat.mul_le_mul_right _ h2
  omega

end Hext.Bound
