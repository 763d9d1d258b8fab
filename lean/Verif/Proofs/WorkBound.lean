import Verif.Proofs.WorkCost
import Verif.Proofs.Complete
import Verif.Spec.Work
set_option linter.unusedSimpArgs false
/-!
# How many steps there can be
-/

namespace Hext.Work

open Bound

/-- A bound for what it costs to try a rule with `j` levels below it on a node. -/
def tryBound (R n : Nat) : Nat → Nat
  | 0 => 1
  | j + 1 => 1 + R * (n + 2 * tryBound R n j * (n * n))

theorem chain_ne {own addr} (r : Rule) : chain own addr r ≠ [] := by
  cases r
  simp [chain]

mutual
theorem chain_length {own} : ∀ (r : Rule) (addr), (chain own addr r).length ≤ r.size
  | .mk _ _ nx _, addr => by
    have := chainO_length (own := own) nx (addr ++ [.next])
    simp only [chain, List.length_cons, Rule.size]
    omega
theorem chainO_length {own} : ∀ (r : Option Rule) (addr), (chainO own addr r).length ≤ Rule.sizeO r
  | none, _ => by simp [chainO]
  | some r, addr => chain_length r addr
end

theorem chainN_sum {own n X} : ∀ (rs : List Rule) (addr : List Step) (i : Nat),
    ((chainN own addr i rs).map (fun cs => n + 2 * cs.length * X)).sum ≤ Rule.sizeL rs * (n + 2 * X)
  | [], _, _ => by simp [chainN]
  | r :: rs, addr, i => by
    have h1 := chainN_sum (own := own) (n := n) (X := X) rs addr (i + 1)
    have h2 := chain_length (own := own) r (addr ++ [.nested i])
    have h3 := size_pos r
    have h4 : (chain own (addr ++ [.nested i]) r).length * (2 * X) ≤ r.size * (2 * X) := Nat.mul_le_mul_right _ h2
    have h5 : n ≤ r.size * n := Nat.le_mul_of_pos_left _ h3
    simp only [chainN, List.map_cons, List.sum_cons, Rule.sizeL, Nat.add_mul, Nat.mul_add] at h1 h4 ⊢
    have e : 2 * (chain own (addr ++ [.nested i]) r).length * X = (chain own (addr ++ [.nested i]) r).length * (2 * X) := by ac_rfl
    omega

theorem chainN_ne {own} : ∀ (rs : List Rule) (addr : List Step) (i : Nat), ∀ cs ∈ chainN own addr i rs, cs ≠ []
  | [], _, _, _, h => by simp [chainN] at h
  | r :: rs, addr, i, cs, h => by
    simp only [chainN, List.mem_cons] at h
    rcases h with rfl | h
    · exact chain_ne r
    · exact chainN_ne rs addr (i + 1) cs h

mutual
theorem chain_cost {own : RuleInfo → Loc → Bool} {R n : Nat} : ∀ (r : Rule) (addr : List Step) (j : Nat), r.size ≤ R → r.levels ≤ j + 1 →
    ∀ c ∈ chain own addr r, ∀ l : Loc, l.self.size ≤ n → (c.run l).cost ≤ tryBound R n j
  | .mk info ch nx ns, addr, j, hR, hj, c, hc, l, hl => by
    simp only [Rule.size] at hR
    simp only [Rule.levels] at hj
    simp only [chain, List.mem_cons] at hc
    rcases hc with rfl | hc
    · simp only [runRule]
      cases j with
      | zero =>
        have h1 : ch = none := by
          cases ch with
          | none => rfl
          | some r => have := levels_pos r; simp only [Rule.levelsO] at hj; omega
        have h2 : ns = [] := by
          cases ns with
          | nil => rfl
          | cons r rs => have := levels_pos r; simp only [Rule.levelsL] at hj; omega
        subst h1 h2
        have := Bound.runRule_cost (B := 0) (n := n) (own := own info) (child := chainO own (addr ++ [.child]) none)
          (nested := chainN own addr 0 []) (by simp [chainN]) (by simp [chainO]) (by simp [chainN]) l hl
        simp [chainN, chainO] at this
        simp [tryBound, chainN, chainO, this]
      | succ j =>
        rw [tryBound]
        refine Nat.add_le_add_left (Nat.le_trans (Bound.runRule_cost (B := tryBound R n j) (n := n) (chainN_ne ns addr 0)
          (chainO_cost ch (addr ++ [.child]) j (by omega) (by omega))
          (chainN_cost ns addr 0 j (by omega) (by omega)) l hl) ?_) _
        have h1 := chainO_length (own := own) ch (addr ++ [.child])
        have h2 := chainN_sum (own := own) (n := n) (X := tryBound R n j * (n * n)) ns addr 0
        have e1 : ∀ k : Nat, 2 * k * tryBound R n j * (n * n) = 2 * k * (tryBound R n j * (n * n)) := fun k => by ac_rfl
        simp only [e1]
        have e2 : 2 * (chainO own (addr ++ [.child]) ch).length * (tryBound R n j * (n * n)) ≤
            Rule.sizeO ch * (2 * (tryBound R n j * (n * n))) := by
          calc _ = (chainO own (addr ++ [.child]) ch).length * (2 * (tryBound R n j * (n * n))) := by ac_rfl
            _ ≤ _ := Nat.mul_le_mul_right _ h1
        have e3 : (Rule.sizeO ch + Rule.sizeL ns) * (n + 2 * (tryBound R n j * (n * n))) ≤
            R * (n + 2 * (tryBound R n j * (n * n))) := Nat.mul_le_mul_right _ (by omega)
        have e4 : R * (n + 2 * tryBound R n j * (n * n)) = R * (n + 2 * (tryBound R n j * (n * n))) := by rw [Nat.mul_assoc 2]
        rw [e4]
        rw [Nat.add_mul, Nat.mul_add (Rule.sizeO ch)] at e3
        omega
    · exact chainO_cost nx (addr ++ [.next]) j (by omega) (by omega) c hc l hl
theorem chainO_cost {own : RuleInfo → Loc → Bool} {R n : Nat} : ∀ (r : Option Rule) (addr : List Step) (j : Nat), Rule.sizeO r ≤ R →
    Rule.levelsO r ≤ j + 1 → ∀ c ∈ chainO own addr r, ∀ l : Loc, l.self.size ≤ n → (c.run l).cost ≤ tryBound R n j
  | none, _, _, _, _, _, hc, _, _ => by simp [chainO] at hc
  | some r, addr, j, hR, hj, c, hc, l, hl => chain_cost r addr j hR hj c hc l hl
theorem chainN_cost {own : RuleInfo → Loc → Bool} {R n : Nat} : ∀ (rs : List Rule) (addr : List Step) (i j : Nat), Rule.sizeL rs ≤ R →
    Rule.levelsL rs ≤ j + 1 → ∀ cs ∈ chainN own addr i rs, ∀ c ∈ cs, ∀ l : Loc, l.self.size ≤ n → (c.run l).cost ≤ tryBound R n j
  | [], _, _, _, _, _, _, hc, _, _, _, _ => by simp [chainN] at hc
  | r :: rs, addr, i, j, hR, hj, cs, hcs, c, hc, l, hl => by
    simp only [Rule.sizeL] at hR
    simp only [Rule.levelsL] at hj
    simp only [chainN, List.mem_cons] at hcs
    rcases hcs with rfl | hcs
    · exact chain_cost r _ j (by omega) (by omega) c hc l hl
    · exact chainN_cost rs addr (i + 1) j (by omega) (by omega) cs hcs c hc l hl
end

theorem tryBound_le {R n : Nat} (hR : 1 ≤ R) (hn : 1 ≤ n) : ∀ j, tryBound R n j ≤ (4 * R * (n * n)) ^ j
  | 0 => by simp [tryBound]
  | j + 1 => by
    have ih := tryBound_le hR hn j
    have hX : 1 ≤ n * n := Nat.mul_pos hn hn
    have hp : 1 ≤ (4 * R * (n * n)) ^ j := Nat.one_le_pow _ _ (Nat.mul_pos (by omega) hX)
    have h0 : 1 ≤ R * ((4 * R * (n * n)) ^ j * (n * n)) := Nat.mul_pos hR (Nat.mul_pos hp hX)
    have h1 : n ≤ (4 * R * (n * n)) ^ j * (n * n) :=
      Nat.le_trans (Nat.le_mul_of_pos_left n hn) (Nat.le_mul_of_pos_left _ hp)
    have h2 : 2 * tryBound R n j * (n * n) ≤ 2 * ((4 * R * (n * n)) ^ j * (n * n)) := by
      rw [Nat.mul_assoc]
      exact Nat.mul_le_mul_left _ (Nat.mul_le_mul_right _ ih)
    have h3 : R * (n + 2 * tryBound R n j * (n * n)) ≤ R * (3 * ((4 * R * (n * n)) ^ j * (n * n))) :=
      Nat.mul_le_mul_left _ (by omega)
    calc 1 + R * (n + 2 * tryBound R n j * (n * n)) ≤ R * ((4 * R * (n * n)) ^ j * (n * n)) + R * (3 * ((4 * R * (n * n)) ^ j * (n * n))) :=
          Nat.add_le_add h0 h3
      _ = R * (4 * ((4 * R * (n * n)) ^ j * (n * n))) := by rw [← Nat.mul_add]; congr 1; omega
      _ = _ := by rw [Nat.pow_succ]; ac_rfl

/-- The number of steps on sibling nodes that have `n` nodes in total. -/
theorem search_cost_le {own : RuleInfo → Loc → Bool} (r : Rule) (addr : List Step) {n : Nat} {ls : List Loc} (hls : ls ≠ [])
    (hn : Tree.sizeL (ls.map (·.self)) ≤ n) :
    (save (chain own addr r) ls).cost ≤ (4 * r.size * (n * n)) ^ r.levels := by
  obtain ⟨j, hj⟩ : ∃ j, r.levels = j + 1 := ⟨r.levels - 1, by have := levels_pos r; omega⟩
  have h1 := save_cost_le (chain_ne r) (chain_cost (own := own) (n := n) r addr j (Nat.le_refl _) (by omega)) hls hn
  have hn1 : 1 ≤ n := by
    have := length_le_sizeL (ts := ls.map (·.self))
    have := List.length_pos_iff.mpr hls
    rw [List.length_map] at *
    omega
  refine Nat.le_trans h1 ?_
  refine Nat.le_trans ?_ (hj ▸ tryBound_le (size_pos r) hn1 (j + 1) : tryBound r.size n (j + 1) ≤ (4 * r.size * (n * n)) ^ r.levels)
  rw [tryBound, Nat.mul_add]
  have h2 := chain_length (own := own) r addr
  have h3 : n ≤ r.size * n := Nat.le_mul_of_pos_left _ (size_pos r)
  have h4 : 2 * (chain own addr r).length * tryBound r.size n j * (n * n) ≤ r.size * (2 * tryBound r.size n j * (n * n)) := by
    calc _ = (chain own addr r).length * (2 * tryBound r.size n j * (n * n)) := by ac_rfl
      _ ≤ _ := Nat.mul_le_mul_right _ h2
  omega

/-! ## Rules that are all mandatory and not greedy -/

section
variable {ρ α : Type}

theorem once_weight {c : CR ρ α} {w : α → Nat} : ∀ {ns : List α}, (∀ x ∈ ns, (c.run x).cost ≤ w x) →
    (once c ns).cost ≤ (ns.map w).sum ∧
    ∀ b x s r, (once c ns).val = some (b, x, s, r) → (once c ns).cost + (r.map w).sum ≤ (ns.map w).sum
  | [], _ => by simp [once]
  | y :: ys, h => by
    have hy := h y (by simp)
    obtain ⟨i1, i2⟩ := once_weight (c := c) (ns := ys) fun x hx => h x (by simp [hx])
    unfold once
    split
    · refine ⟨by simp; omega, ?_⟩
      rintro b x s r e
      simp only [Option.some.injEq, Prod.mk.injEq] at e
      obtain ⟨-, -, -, rfl⟩ := e
      simp; omega
    · split
      · exact ⟨by simp; omega, fun _ _ _ _ e => by simp at e⟩
      · rename_i b' y' s' r' heq
        refine ⟨by simp; omega, ?_⟩
        rintro b x s r e
        simp only [Option.some.injEq, Prod.mk.injEq] at e
        obtain ⟨-, -, -, rfl⟩ := e
        have := i2 _ _ _ _ heq
        simp; omega

theorem group_weight {w : α → Nat} (pre cs : List (CR ρ α)) (again : Bool) (ns : List α) (sub : Pairs ρ α) (ha : again = false)
    (hm : ∀ c ∈ cs, c.optional = false ∧ c.greedy = false) (h : ∀ c ∈ cs, ∀ x ∈ ns, (c.run x).cost ≤ w x) :
    (group pre cs again ns sub).cost + ((group pre cs again ns sub).val.2.map w).sum ≤ (ns.map w).sum := by
  fun_induction group pre cs again ns sub with
  | case1 => simp
  | case2 => simp
  | case3 => simp
  | case4 pre again sub c cs n ns hc => simp [ha, (hm c (by simp)).1] at hc
  | case5 pre again sub c cs n ns hc => simp [ha, (hm c (by simp)).1] at hc
  | case6 pre again sub c cs n ns hc => simp [ha, (hm c (by simp)).1] at hc
  | case7 pre again sub c cs n ns hc => simp [ha, (hm c (by simp)).1] at hc
  | case8 pre again sub c cs n ns hc => simp [ha, (hm c (by simp)).1] at hc
  | case9 pre again sub c cs n ns hc hn => simpa using (once_weight (h c (by simp))).1
  | case10 pre again sub c cs n ns hc b x s r hsm _ sub' t ih1 ih2 =>
    have en := once_some hsm
    have h1 := (once_weight (h c (by simp))).2 _ _ _ _ hsm
    have h2 := ih2 rfl (fun c' hc' => hm c' (by simp [hc'])) fun c' hc' y hy => h c' (by simp [hc']) y (by rw [en]; simp [hy])
    simp only [t, (hm c (by simp)).2, Bool.false_eq_true, if_false, dif_neg, not_false_eq_true]
    omega

theorem groups_weight {w : α → Nat} (cs : List (CR ρ α)) (ns : List α) (hm : ∀ c ∈ cs, c.optional = false ∧ c.greedy = false)
    (h : ∀ c ∈ cs, ∀ x ∈ ns, (c.run x).cost ≤ w x) : (groups cs ns).cost ≤ (ns.map w).sum := by
  fun_induction groups cs ns with
  | case1 => simp
  | case2 => simp
  | case3 c cs n ns g hlt t ih =>
    have h1 : g.cost + (g.val.2.map w).sum ≤ _ := group_weight [] (c :: cs) false (n :: ns) [] rfl hm h
    have hsf : g.val.2 <:+ n :: ns := group_suffix ..
    have h2 : t.cost ≤ _ := ih hm fun c' hc' y hy => h c' hc' y (hsf.subset hy)
    simp only
    omega
end

/-- The number of nodes of the first `j` levels of a tree. -/
def near : Nat → Tree → Nat
  | 0, _ => 0
  | j + 1, .node _ _ kids => 1 + (kids.map (near j)).sum

mutual
/-- The sum over all nodes of a tree. -/
def total (w : Tree → Nat) : Tree → Nat
  | .node p k kids => w (.node p k kids) + totalL w kids
def totalL (w : Tree → Nat) : List Tree → Nat
  | [] => 0
  | t :: ts => total w t + totalL w ts
end

mutual
theorem total_near (j : Nat) : ∀ t, total (near (j + 1)) t + near j t = t.size + total (near j) t
  | .node p k kids => by
    have := totalL_near j kids
    simp only [total, near, Tree.size]
    omega
theorem totalL_near (j : Nat) : ∀ ts : List Tree, totalL (near (j + 1)) ts + (ts.map (near j)).sum = Tree.sizeL ts + totalL (near j) ts
  | [] => by simp [totalL, Tree.sizeL]
  | t :: ts => by
    have h1 := total_near j t
    have h2 := totalL_near j ts
    simp only [totalL, Tree.sizeL, List.map_cons, List.sum_cons]
    omega
end

mutual
theorem total_zero : ∀ t, total (near 0) t = 0
  | .node p k kids => by rw [total, totalL_zero kids]; rfl
theorem totalL_zero : ∀ ts, totalL (near 0) ts = 0
  | [] => rfl
  | t :: ts => by simp [totalL, total_zero t, totalL_zero ts]
end

theorem totalL_le (ts : List Tree) : ∀ j, totalL (near j) ts ≤ j * Tree.sizeL ts
  | 0 => by simp [totalL_zero]
  | j + 1 => by
    have h1 := totalL_near j ts
    have h2 := totalL_le ts j
    rw [Nat.add_mul, Nat.one_mul]
    omega

section
variable {ρ : Type}

theorem locs_sum (w : Tree → Nat) (ts : List Tree) : ((locs ts).map fun l => w l.self).sum = (ts.map w).sum := by
  have : (locs ts).map (fun l => w l.self) = ((locs ts).map (·.self)).map w := by rw [List.map_map]; rfl
  rw [this, Param.locs_self]

mutual
theorem descend_weight {w : Tree → Nat} {cs : List (CR ρ Loc)} (hm : ∀ c ∈ cs, c.optional = false ∧ c.greedy = false)
    (h : ∀ c ∈ cs, ∀ l : Loc, (c.run l).cost ≤ w l.self) : ∀ t, (descend cs t).cost + w t + 1 ≤ t.size + total w t
  | .node p k kids => by
    have hl := descendL_weight hm h kids
    have hg := groups_weight (w := fun l => w l.self) cs (locs kids) hm fun c hc x _ => h c hc x
    rw [locs_sum] at hg
    simp only [total, Tree.size]
    unfold descend
    cases k with
    | element e =>
      simp only
      split
      · simp only; omega
      · rename_i hk
        have : 1 ≤ kids.length := by
          cases kids with
          | nil => simp at hk
          | cons => simp
        simp only
        omega
    | _ => simp only; omega
theorem descendL_weight {w : Tree → Nat} {cs : List (CR ρ Loc)} (hm : ∀ c ∈ cs, c.optional = false ∧ c.greedy = false)
    (h : ∀ c ∈ cs, ∀ l : Loc, (c.run l).cost ≤ w l.self) : ∀ ts : List Tree,
    (descendL cs ts).cost + (ts.map w).sum + ts.length ≤ Tree.sizeL ts + totalL w ts
  | [] => by simp [descendL]
  | t :: ts => by
    have h1 := descend_weight hm h t
    have h2 := descendL_weight hm h ts
    simp only [descendL, Tree.sizeL, totalL, List.map_cons, List.sum_cons, List.length_cons]
    omega
end

theorem save_weight {w : Tree → Nat} {cs : List (CR ρ Loc)} (hm : ∀ c ∈ cs, c.optional = false ∧ c.greedy = false)
    (h : ∀ c ∈ cs, ∀ l : Loc, (c.run l).cost ≤ w l.self) {ls : List Loc} (hls : ls ≠ []) :
    (save cs ls).cost ≤ Tree.sizeL (ls.map (·.self)) + totalL w (ls.map (·.self)) := by
  have hl := descendL_weight hm h (ls.map (·.self))
  have hg := groups_weight (w := fun l => w l.self) cs ls hm fun c hc x _ => h c hc x
  have : ls.map (fun l => w l.self) = (ls.map (·.self)).map w := by rw [List.map_map]; rfl
  rw [this] at hg
  have : 1 ≤ ls.length := List.length_pos_iff.mpr hls
  rw [List.length_map] at hl
  simp only [save]
  omega
end

mutual
theorem chain_once {own : RuleInfo → Loc → Bool} : ∀ (r : Rule) (addr : List Step), r.All InfoOnce →
    ∀ c ∈ chain own addr r, c.optional = false ∧ c.greedy = false
  | .mk info ch nx ns, addr, hr, c, hc => by
    simp only [Rule.All] at hr
    simp only [chain, List.mem_cons] at hc
    rcases hc with rfl | hc
    · exact hr.1
    · exact chainO_once nx _ hr.2.2.1 c hc
theorem chainO_once {own : RuleInfo → Loc → Bool} : ∀ (r : Option Rule) (addr : List Step), Rule.AllO InfoOnce r →
    ∀ c ∈ chainO own addr r, c.optional = false ∧ c.greedy = false
  | none, _, _, c, hc => by simp [chainO] at hc
  | some r, addr, hr, c, hc => chain_once r addr hr c hc
end

mutual
theorem chain_near {own : RuleInfo → Loc → Bool} : ∀ (r : Rule) (addr : List Step) (j : Nat), r.All InfoOnce → r.Flat →
    r.levels ≤ j → ∀ c ∈ chain own addr r, ∀ l : Loc, (c.run l).cost ≤ near j l.self
  | .mk info ch nx ns, addr, j, hr, hf, hj, c, hc, l => by
    simp only [Rule.All] at hr
    simp only [Rule.Flat] at hf
    simp only [Rule.levels] at hj
    simp only [chain, List.mem_cons] at hc
    rcases hc with rfl | hc
    · obtain ⟨j, rfl⟩ : ∃ i, j = i + 1 := ⟨j - 1, by omega⟩
      have ih := chainO_near (own := own) ch (addr ++ [.child]) j hr.2.1 hf.2.1 (by omega)
      have ho := chainO_once (own := own) ch (addr ++ [.child]) hr.2.1
      obtain ⟨rfl, -⟩ := hf
      simp only [runRule, chainN]
      generalize chainO own (addr ++ [.child]) ch = cs at ih ho
      have hg := groups_weight (w := fun l => near j l.self) cs (locs l.self.kids) ho fun c hc x _ => ih c hc x
      rw [locs_sum] at hg
      have hn : near (j + 1) l.self = 1 + (l.self.kids.map (near j)).sum := by
        cases l.self; rfl
      rw [hn]
      unfold Hext.runRule
      split
      · simp only; omega
      · split
        · simp only; omega
        · split
          · simp only; omega
          · have h0 : (if cs.isEmpty = true then (⟨[], 0⟩ : W (List (Pairs RulePtr Loc))) else groups cs (locs l.self.kids)).cost ≤
                (l.self.kids.map (near j)).sum := by
              split
              · simp
              · exact hg
            generalize (if cs.isEmpty = true then (⟨[], 0⟩ : W (List (Pairs RulePtr Loc))) else groups cs (locs l.self.kids)) = g at h0 ⊢
            simp only [nestedRun]
            split
            · simp only; omega
            · simp only; omega
    · exact chainO_near nx (addr ++ [.next]) j hr.2.2.1 hf.2.2 (by omega) c hc l
theorem chainO_near {own : RuleInfo → Loc → Bool} : ∀ (r : Option Rule) (addr : List Step) (j : Nat), Rule.AllO InfoOnce r →
    Rule.FlatO r → Rule.levelsO r ≤ j → ∀ c ∈ chainO own addr r, ∀ l : Loc, (c.run l).cost ≤ near j l.self
  | none, _, _, _, _, _, c, hc, _ => by simp [chainO] at hc
  | some r, addr, j, hr, hf, hj, c, hc, l => chain_near r addr j hr hf hj c hc l
end

theorem search_once_le {own : RuleInfo → Loc → Bool} {r : Rule} (addr : List Step) (hr : r.All InfoOnce) (hf : r.Flat)
    {ls : List Loc} (hls : ls ≠ []) :
    (save (chain own addr r) ls).cost ≤ (r.levels + 1) * Tree.sizeL (ls.map (·.self)) := by
  have h1 := save_weight (chain_once (own := own) r addr hr) (chain_near r addr r.levels hr hf (Nat.le_refl _)) hls
  have h2 := totalL_le (ls.map (·.self)) r.levels
  rw [Nat.add_mul, Nat.one_mul]
  omega

end Hext.Work
