import Verif.Proofs.WorkRefine
import Verif.Proofs.Bound
import Verif.Proofs.Param
import Verif.Proofs.Result
set_option linter.unusedSimpArgs false
/-!
# What is found does not depend on what it costs
-/

namespace Hext.Work

section
variable {ρ α : Type}

/-- The rule at no cost. -/
def free (c : CR ρ α) : CR ρ α := { c with run := fun x => ⟨(c.run x).val, 0⟩ }

theorem once_free (c : CR ρ α) : ∀ ns, (once (free c) ns).val = (once c ns).val
  | [] => rfl
  | x :: xs => by
    have ih := once_free c xs
    unfold once
    simp only [ih, show ((free c).run x).val = (c.run x).val from rfl]
    cases (c.run x).val with
    | some s => rfl
    | none => cases (once c xs).val <;> rfl

theorem rangeGreedy_free (c : CR ρ α) (ns : List α) : (rangeGreedy (free c) ns).val = (rangeGreedy c ns).val := by
  fun_induction rangeGreedy c ns with
  | case1 ns h => rw [Param.rangeGreedy_none (by rw [once_free]; exact h)]
  | case2 ns b x s r h _ t ih =>
    rw [Param.rangeGreedy_some (by rw [once_free]; exact h), ih]
    rfl

theorem range_free : ∀ (cs : List (CR ρ α)) (ns : List α), (range (cs.map free) ns).val = (range cs ns).val
  | [], _ => rfl
  | c :: cs, ns => by
    simp only [List.map_cons, range, show (free c).greedy = c.greedy from rfl, show (free c).id = c.id from rfl]
    split
    · simp only [rangeGreedy_free, range_free cs]
    · simp only [once_free]
      split <;> simp [range_free cs]

theorem splitMand_free : ∀ cs : List (CR ρ α), splitMand (cs.map free) =
    (splitMand cs).map fun p => (p.1.map free, free p.2.1, p.2.2.map free)
  | [] => rfl
  | c :: cs => by
    simp only [List.map_cons, splitMand, show (free c).optional = c.optional from rfl, splitMand_free cs]
    split
    · cases splitMand cs <;> rfl
    · rfl

theorem firstMand_free (cs : List (CR ρ α)) : firstMand (cs.map free) = (firstMand cs).map free := by
  simp only [firstMand, List.find?_map]
  rfl

theorem all_free (cs : List (CR ρ α)) : (cs.map free).all (·.optional) = cs.all (·.optional) := by
  simp only [List.all_map]
  rfl

theorem group_free (pre cs : List (CR ρ α)) (again : Bool) (ns : List α) (sub : Pairs ρ α) :
    (group (pre.map free) (cs.map free) again ns sub).val = (group pre cs again ns sub).val := by
  fun_induction group pre cs again ns sub with
  | case1 => simp [group]
  | case2 pre again sub c cs hall =>
    have h1 := all_free (c :: cs)
    have h2 := all_free cs
    rw [List.map_cons] at h1
    rw [List.map_cons, group.eq_def]
    cases again <;> simp_all
  | case3 pre again sub c cs hall =>
    have h1 := all_free (c :: cs)
    have h2 := all_free cs
    rw [List.map_cons] at h1
    rw [List.map_cons, group.eq_def]
    cases again
    · simp only [Bool.false_eq_true, if_false, dif_neg, not_false_eq_true] at hall ⊢
      rw [h1, if_neg hall]
    · simp only [if_true, dif_pos] at hall ⊢
      rw [h2, if_neg hall]
  | case4 pre again sub c cs n ns hc opts stop rest hs h =>
    rw [List.map_cons, group.eq_def]
    simp only [show (free c).optional = c.optional from rfl, hc, if_true, splitMand_free, hs, Option.map_some]
    split
    · rfl
    · rename_i h2; rw [once_free, h] at h2; simp at h2
  | case5 pre again sub c cs n ns hc opts stop rest hs b x s r h _ m t ih =>
    rw [List.map_cons, group.eq_def]
    simp only [show (free c).optional = c.optional from rfl, hc, if_true, splitMand_free, hs, Option.map_some]
    split
    · rename_i h2; rw [once_free, h] at h2; simp at h2
    · rename_i h2
      rw [once_free, h] at h2
      simp only [Option.some.injEq, Prod.mk.injEq] at h2
      obtain ⟨rfl, rfl, rfl, rfl⟩ := h2
      have hr := range_free (c :: opts) b
      simp only [List.map_cons] at hr
      simp only [hr]
      simpa [show ∀ c : CR ρ α, (free c).id = c.id from fun _ => rfl, t, m] using ih
  | case6 pre again sub c cs n ns hc hs hf m =>
    rw [List.map_cons, group.eq_def]
    have hr := range_free (c :: cs) (n :: ns)
    simp only [List.map_cons] at hr
    simp only [show (free c).optional = c.optional from rfl, hc, if_true, splitMand_free, hs, Option.map_none, firstMand_free, hf, hr, m]
  | case7 pre again sub c cs n ns hc hs stop hf o ho m =>
    rw [List.map_cons, group.eq_def]
    have hr := range_free (c :: cs) (n :: ns)
    simp only [List.map_cons] at hr
    simp only [o] at ho
    simp only [show (free c).optional = c.optional from rfl, hc, if_true, splitMand_free, hs, Option.map_none, Option.map_some,
      firstMand_free, hf, once_free, ho, hr, m]
  | case8 pre again sub c cs n ns hc hs stop hf o b x s r ho m =>
    rw [List.map_cons, group.eq_def]
    have hr := range_free (c :: cs) b
    simp only [List.map_cons] at hr
    simp only [o] at ho
    simp only [show (free c).optional = c.optional from rfl, hc, if_true, splitMand_free, hs, Option.map_none, Option.map_some,
      firstMand_free, hf, once_free, ho, hr, m]
  | case9 pre again sub c cs n ns hc h =>
    rw [List.map_cons, group.eq_def]
    simp only [show (free c).optional = c.optional from rfl, hc, if_false, Bool.false_eq_true]
    split
    · rfl
    · rename_i h2; rw [once_free, h] at h2; simp at h2
  | case10 pre again sub c cs n ns hc b x s r h _ sub' t ih1 ih2 =>
    rw [List.map_cons, group.eq_def]
    simp only [show (free c).optional = c.optional from rfl, hc, if_false, Bool.false_eq_true]
    split
    · rename_i h2; rw [once_free, h] at h2; simp at h2
    · rename_i h2
      rw [once_free, h] at h2
      simp only [Option.some.injEq, Prod.mk.injEq] at h2
      obtain ⟨rfl, rfl, rfl, rfl⟩ := h2
      simp only [show (free c).greedy = c.greedy from rfl, show (free c).id = c.id from rfl, t]
      cases hg : c.greedy with
      | true => simpa [sub'] using ih1
      | false => simpa [sub'] using ih2

theorem groups_free (cs : List (CR ρ α)) (ns : List α) : (groups (cs.map free) ns).val = (groups cs ns).val := by
  fun_induction groups cs ns with
  | case1 => simp [groups]
  | case2 cs => rw [Param.groups_nil_right]
  | case3 c cs n ns g hlt t ih =>
    have hg := group_free [] (c :: cs) false (n :: ns) []
    simp only [List.map_cons, List.map_nil] at hg ih
    rw [List.map_cons, groups]
    simp only [hg]
    rw [ih]
end

section
variable {ρ : Type}

mutual
theorem descend_free (cs : List (CR ρ Loc)) : ∀ t, (descend (cs.map free) t).val = (descend cs t).val
  | .node p k kids => by
    have := descendL_free cs kids
    unfold descend
    cases k <;> simp only
    split <;> simp [groups_free, this]
theorem descendL_free (cs : List (CR ρ Loc)) : ∀ ts, (descendL (cs.map free) ts).val = (descendL cs ts).val
  | [] => rfl
  | t :: ts => by simp only [descendL, descend_free cs t, descendL_free cs ts]
end

theorem save_free (cs : List (CR ρ Loc)) (ls : List Loc) : (save (cs.map free) ls).val = (save cs ls).val := by
  simp only [save, groups_free, descendL_free]

theorem nestedRun_free (kids : List Tree) : ∀ css : List (List (CR ρ Loc)),
    (nestedRun kids (css.map (List.map free))).val = (nestedRun kids css).val
  | [] => rfl
  | cs :: css => by
    have ih := nestedRun_free kids css
    simp only [List.map_cons, nestedRun, save_free, firstMand_free, Option.isSome_map, ih]
    split
    · rfl
    · split <;> rfl

theorem runRule_free (own : Loc → Bool) (child : List (CR ρ Loc)) (nested : List (List (CR ρ Loc))) (l : Loc) :
    (Hext.runRule own (child.map free) (nested.map (List.map free)) l).val = (Hext.runRule own child nested l).val := by
  unfold Hext.runRule
  have hg : (if child.isEmpty = true then (⟨[], 0⟩ : W (List (Pairs ρ Loc))) else groups (child.map free) (locs l.self.kids)).val =
      (if child.isEmpty = true then (⟨[], 0⟩ : W (List (Pairs ρ Loc))) else groups child (locs l.self.kids)).val := by
    split
    · rfl
    · exact groups_free ..
  simp only [List.isEmpty_map, firstMand_free, Option.isNone_map, nestedRun_free, hg]
  split
  · rfl
  · split
    · rfl
    · split
      · rfl
      · generalize (if child.isEmpty = true then (⟨[], 0⟩ : W (List (Pairs ρ Loc))) else groups child (locs l.self.kids)) = g
        generalize (if child.isEmpty = true then (⟨[], 0⟩ : W (List (Pairs ρ Loc))) else groups (child.map free) (locs l.self.kids)) = g'
        split
        · split <;> rfl
        · rfl
end

mutual
theorem chain_free (own : RuleInfo → Loc → Bool) : ∀ (r : Rule) (addr : List Step),
    (chain own addr r).map free = (Hext.chain own addr r).map free
  | .mk i c nx ns, addr => by
    have h1 := chainO_free own c (addr ++ [.child])
    have h2 := chainO_free own nx (addr ++ [.next])
    have h3 := chainN_free own ns addr 0
    simp only [chain, Hext.chain, List.map_cons, h2]
    congr 1
    simp only [free]
    congr 1
    funext l
    congr 1
    simp only [runRule]
    rw [← runRule_free, ← runRule_free (child := Hext.chainO ..), h1, h3]
theorem chainO_free (own : RuleInfo → Loc → Bool) : ∀ (r : Option Rule) (addr : List Step),
    (chainO own addr r).map free = (Hext.chainO own addr r).map free
  | none, _ => rfl
  | some r, addr => chain_free own r addr
theorem chainN_free (own : RuleInfo → Loc → Bool) : ∀ (rs : List Rule) (addr : List Step) (i : Nat),
    (chainN own addr i rs).map (List.map free) = (Hext.chainN own addr i rs).map (List.map free)
  | [], _, _ => rfl
  | r :: rs, addr, i => by
    simp only [chainN, Hext.chainN, List.map_cons, chain_free own r, chainN_free own rs addr (i + 1)]
end

variable {rx : RxEngine} {h : Heap} {n : Nat}

/-- The search of the counting engine finds what the search of the engine finds. -/
theorem searchAt_val (r : Rule) (l : Loc) : (searchAt rx h r l).val = (Hext.searchAt rx h r l).val := by
  unfold searchAt Hext.searchAt
  rw [← save_free, chain_free, save_free]

/-- The counting engine returns the result of `extract` without limit and the cost. -/
theorem extract_count (hn : n ≤ 2147483647) {r : Rule} (hr : r.Safe n) {l : Loc} (hl : l.Stored h n) :
    ∃ res, Hext.extract rx h r l.ptr 0 = pure res ∧ extract rx h r l.ptr = pure (res, (searchAt rx h r l).cost) := by
  obtain ⟨res, h1, _, h2⟩ := extract_result (rx := rx) hn hr hl
  refine ⟨res, by rw [h2]; simp, ?_⟩
  unfold extract
  rw [search_eq hn r hr l hl, searchAt_val]
  simp only [ret, charge, StateT.run, bind, StateT.bind, pure, StateT.pure]
  have : groupsToResult rx h (List.map conv (Hext.searchAt rx h r l).val) = pure res := h1
  simp only [ExceptT.bind, ExceptT.mk, ExceptT.pure, pure, Option.bind, ExceptT.bindCont, Nat.zero_add, bind] at this ⊢
  rw [this]
  rfl

end Hext.Work
