import Verif.Spec.Size
import Verif.Proofs.Result
set_option linter.unusedSimpArgs false
/-!
# Completeness for single rules, search counts, and facts about chains
-/

namespace Hext

section
variable {ρ α : Type}

/-- The group made by one match of a single rule. -/
def oneGroup (c : CR ρ α) (x : α) : Option (Pairs ρ α) := (c.run x).val.map fun s => s ++ [(c.id, x)]

theorem once_filterMap (c : CR ρ α) (ns : List α) :
    ns.filterMap (oneGroup c) = match (once c ns).val with
      | none => []
      | some (_, x, s, r) => (s ++ [(c.id, x)]) :: r.filterMap (oneGroup c) := by
  induction ns with
  | nil => simp [once]
  | cons y ys ih =>
    unfold once
    cases hy : (c.run y).val with
    | some s => simp [oneGroup, hy]
    | none =>
      rw [List.filterMap_cons]
      simp only [oneGroup, hy, Option.map_none]
      rw [ih]
      cases (once c ys).val with
      | none => rfl
      | some q => rfl

/-- A single rule that is not greedy makes one group for every node it matches. -/
theorem groups_single (c : CR ρ α) (hg : c.greedy = false) (ns : List α) :
    (groups [c] ns).val = ns.filterMap (oneGroup c) := by
  generalize hk : ns.length = k
  induction k using Nat.strongRecOn generalizing ns with
  | _ k ih =>
    cases ns with
    | nil => unfold groups; simp
    | cons n ns =>
      have hg1 : (group [] [c] false (n :: ns) []).val = match (once c (n :: ns)).val with
          | none => ([], [])
          | some (_, x, s, r) => (s ++ [(c.id, x)], r) := by
        unfold group
        cases ho : c.optional with
        | true =>
          simp only [splitMand, firstMand, List.find?_nil, Bool.or_false, if_true, range, hg,
            Bool.false_eq_true, if_false]
          cases (once c (n :: ns)).val with
          | none => simp
          | some q => simp
        | false =>
          simp only [Bool.or_false, Bool.false_eq_true, if_false]
          split
          · rename_i h; simp [h]
          · rename_i b x s r h
            simp only [h, hg, Bool.false_eq_true, if_false]
            unfold group
            simp
      rw [once_filterMap]
      unfold groups
      simp only [hg1]
      cases ho : (once c (n :: ns)).val with
      | none => simp only [List.isEmpty_nil, if_true]; unfold groups; rfl
      | some q =>
        obtain ⟨b, x, s, r⟩ := q
        have hlt := once_rest_lt ho
        simp only
        rw [ih r.length (by omega) r rfl]
        simp

end

mutual
theorem descend_single {ρ : Type} (c : CR ρ Loc) (hg : c.greedy = false) : ∀ t : Tree,
    (descend [c] t).val = t.under.flatten.filterMap (oneGroup c)
  | .node p k kids => by
    unfold descend Tree.under
    cases k with
    | element e =>
      simp only
      split
      · rfl
      · simp only [List.flatten_cons, List.filterMap_append, groups_single c hg, descendL_single c hg kids]
    | _ => rfl
theorem descendL_single {ρ : Type} (c : CR ρ Loc) (hg : c.greedy = false) : ∀ ts : List Tree,
    (descendL [c] ts).val = (underL ts).flatten.filterMap (oneGroup c)
  | [] => by simp [descendL, underL]
  | t :: ts => by
    simp only [descendL, underL, List.flatten_append, List.filterMap_append, descend_single c hg t,
      descendL_single c hg ts]
end

theorem save_single {ρ : Type} (c : CR ρ Loc) (hg : c.greedy = false) (ls : List Loc) :
    (save [c] ls).val = (ls :: underL (ls.map (·.self))).flatten.filterMap (oneGroup c) := by
  simp only [save, List.flatten_cons, List.filterMap_append, groups_single c hg, descendL_single c hg]

/-! ## Counting searches -/

theorem once_cost {ρ α : Type} {c : CR ρ α} (hc : ∀ x, (c.run x).cost = 0) (ns : List α) :
    (once c ns).cost = 0 := by
  induction ns with
  | nil => rfl
  | cons y ys ih =>
    unfold once
    split
    · exact hc _
    · split <;> simp [hc, ih]

theorem rangeGreedy_cost {ρ α : Type} {c : CR ρ α} (hc : ∀ x, (c.run x).cost = 0) (ns : List α) :
    (rangeGreedy c ns).cost = 0 := by
  fun_induction rangeGreedy c ns with
  | case1 ns h => simp [once_cost hc]
  | case2 ns b x s r h _ t ih => simp [once_cost hc, t, ih]

theorem range_cost {ρ α : Type} {cs : List (CR ρ α)} (hc : ∀ c ∈ cs, ∀ x, (c.run x).cost = 0) (ns : List α) :
    (range cs ns).cost = 0 := by
  induction cs generalizing ns with
  | nil => rfl
  | cons c cs ih =>
    have ih := ih (fun d hd => hc d (by simp [hd]))
    have hc := hc c (by simp)
    unfold range
    split
    · simp [rangeGreedy_cost hc, ih]
    · simp only
      split <;> simp [once_cost hc, ih]

theorem group_cost {ρ α : Type} (pre cs : List (CR ρ α)) (again : Bool) (ns : List α) (sub : Pairs ρ α)
    (hp : ∀ c ∈ pre, ∀ x, (c.run x).cost = 0) (hc : ∀ c ∈ cs, ∀ x, (c.run x).cost = 0) :
    (group pre cs again ns sub).cost = 0 := by
  fun_induction group pre cs again ns sub with
  | case1 => rfl
  | case2 => rfl
  | case3 => rfl
  | case4 pre again sub c cs n ns _ opts stop rest hs h =>
    have e := (splitMand_eq hs).1
    exact once_cost (hc stop (by simp [e])) _
  | case5 pre again sub c cs n ns _ opts stop rest hs b x s r h _ m t ih =>
    have e := (splitMand_eq hs).1
    have h1 := once_cost (hc stop (by simp [e])) (n :: ns)
    have h2 : m.cost = 0 := range_cost (fun d hd => hc d (by
      rcases List.mem_cons.1 hd with rfl | hd
      · simp
      · simp [e, hd])) b
    have h3 := ih (fun d hd => by
      simp only [List.append_assoc, List.mem_append, List.mem_cons, List.mem_singleton] at hd
      rcases hd with hd | (rfl | hd) | hd
      · exact hp d hd
      · exact hc d (by simp)
      · exact hc d (by simp [e, hd])
      · simp at hd; exact hc d (by simp [e, hd])) (fun d hd => hc d (by simp [e, hd]))
    show (once stop (n :: ns)).cost + m.cost + t.cost = 0
    have h3' : t.cost = 0 := h3
    omega
  | case6 pre again sub c cs n ns _ hs hf m => exact range_cost hc _
  | case7 pre again sub c cs n ns _ hs stop hf o h m =>
    have h1 := once_cost (hp stop (List.mem_of_find?_eq_some hf)) (n :: ns)
    have h2 : m.cost = 0 := range_cost hc _
    simp [o, h1, h2]
  | case8 pre again sub c cs n ns _ hs stop hf o b x s r h m =>
    have h1 := once_cost (hp stop (List.mem_of_find?_eq_some hf)) (n :: ns)
    have h2 : m.cost = 0 := range_cost hc _
    simp [o, h1, h2]
  | case9 pre again sub c cs n ns _ h => exact once_cost (hc c (by simp)) _
  | case10 pre again sub c cs n ns _ b x s r h _ sub' t ih1 ih2 =>
    have h1 := once_cost (hc c (by simp)) (n :: ns)
    have h2 : t.cost = 0 := by
      simp only [t]
      split
      · exact ih1 hp hc
      · refine ih2 (fun d hd => ?_) (fun d hd => hc d (by simp [hd]))
        rcases List.mem_append.1 hd with hd | hd
        · exact hp d hd
        · simp at hd; subst hd; exact hc d (by simp)
    simp [h1, h2]

theorem groups_cost {ρ α : Type} {cs : List (CR ρ α)} (hc : ∀ c ∈ cs, ∀ x, (c.run x).cost = 0) (ns : List α) :
    (groups cs ns).cost = 0 := by
  fun_induction groups cs ns with
  | case1 => rfl
  | case2 => rfl
  | case3 c cs n ns g _ t ih =>
    have := group_cost [] (c :: cs) false (n :: ns) [] (by simp) hc
    simp [g, this, t, ih hc]

mutual
theorem descend_cost {ρ : Type} {cs : List (CR ρ Loc)} (hc : ∀ c ∈ cs, ∀ x, (c.run x).cost = 0) :
    ∀ t : Tree, (descend cs t).cost = t.under.length
  | .node p k kids => by
    unfold descend Tree.under
    cases k with
    | element e =>
      simp only
      split
      · rfl
      · simp [groups_cost hc, descendL_cost hc kids]; omega
    | _ => rfl
theorem descendL_cost {ρ : Type} {cs : List (CR ρ Loc)} (hc : ∀ c ∈ cs, ∀ x, (c.run x).cost = 0) :
    ∀ ts : List Tree, (descendL cs ts).cost = (underL ts).length
  | [] => rfl
  | t :: ts => by simp [descendL, underL, descend_cost hc t, descendL_cost hc ts]
end

theorem save_cost {ρ : Type} {cs : List (CR ρ Loc)} (hc : ∀ c ∈ cs, ∀ x, (c.run x).cost = 0) (ls : List Loc) :
    (save cs ls).cost = (ls :: underL (ls.map (·.self))).length := by
  simp [save, groups_cost hc, descendL_cost hc]; omega

theorem runRule_cost {ρ : Type} {own : Loc → Bool} {ch : List (CR ρ Loc)}
    (hc : ∀ c ∈ ch, ∀ x, (c.run x).cost = 0) (l : Loc) : (runRule own ch [] l).cost = 0 := by
  unfold runRule
  have h1 : (if ch.isEmpty = true then (⟨[], 0⟩ : W (List (Pairs ρ Loc))) else groups ch (locs l.self.kids)).cost = 0 := by
    split
    · rfl
    · exact groups_cost hc _
  split
  · rfl
  · split
    · rfl
    · split
      · rfl
      · generalize (if ch.isEmpty = true then (⟨[], 0⟩ : W (List (Pairs ρ Loc)))
          else groups ch (locs l.self.kids)) = g at h1
        simp only [nestedRun]
        split <;> simp [h1]

mutual
theorem chain_flat (own : RuleInfo → Loc → Bool) : ∀ (r : Rule), r.Flat → ∀ (addr : List Step),
    ∀ c ∈ chain own addr r, ∀ x, (c.run x).cost = 0
  | .mk i ch nx ns, hf, addr => by
    simp only [Rule.Flat] at hf
    obtain ⟨rfl, h1, h2⟩ := hf
    intro c hc x
    simp only [chain, chainN, List.mem_cons] at hc
    rcases hc with rfl | hc
    · exact runRule_cost (chainO_flat own ch h1 _) x
    · exact chainO_flat own nx h2 _ c hc x
theorem chainO_flat (own : RuleInfo → Loc → Bool) : ∀ (r : Option Rule), Rule.FlatO r → ∀ (addr : List Step),
    ∀ c ∈ chainO own addr r, ∀ x, (c.run x).cost = 0
  | none, _, _ => by simp [chainO]
  | some r, h, addr => by simp only [chainO]; exact chain_flat own r h addr
end

/-! ## Chains -/

theorem siblings_ne_nil (r : Rule) : r.siblings ≠ [] := by
  cases r with
  | mk i c nx ns => cases nx <;> simp [Rule.siblings]

/-- The number of rules in a chain determines its first rule's place, so the rules are all different. -/
theorem siblings_suffix : ∀ (r q : Rule), q ∈ r.siblings → q.siblings <:+ r.siblings
  | .mk i c none ns, q, h => by
    simp only [Rule.siblings, List.mem_singleton] at h; subst h
    simp [Rule.siblings]
  | .mk i c (some nx) ns, q, h => by
    simp only [Rule.siblings, List.mem_cons] at h
    rcases h with rfl | h
    · simp only [Rule.siblings]; exact List.suffix_refl _
    · simp only [Rule.siblings]
      exact (siblings_suffix nx q h).trans (List.suffix_cons _ _)

theorem siblings_nodup : ∀ (r : Rule), r.siblings.Nodup
  | .mk i c none ns => by simp [Rule.siblings]
  | .mk i c (some nx) ns => by
    simp only [Rule.siblings, List.nodup_cons]
    refine ⟨fun h => ?_, siblings_nodup nx⟩
    have := (siblings_suffix nx _ h).length_le
    simp only [Rule.siblings, List.length_cons] at this
    omega

theorem Covers.mandatory {ι : Type} {o g : ι → Bool} {cs w : List ι} (h : Covers o g cs w) :
    ∀ c ∈ cs, o c = false → c ∈ w := by
  induction h with
  | done => simp
  | skip h0 _ ih =>
    intro c hc ho
    rcases List.mem_cons.1 hc with rfl | hc
    · simp [h0] at ho
    · exact ih c hc ho
  | once _ ih =>
    intro c hc ho
    rcases List.mem_cons.1 hc with rfl | hc
    · simp
    · simp [ih c hc ho]
  | more _ _ ih => intro c hc ho; exact List.mem_cons_of_mem _ (ih c hc ho)

/-- In a word of a chain of different rules, two uses of one rule mean that it is greedy. -/
theorem Covers.nongreedy {ι : Type} {o g : ι → Bool} {cs w : List ι} (h : Covers o g cs w) (hn : cs.Nodup) :
    w.Pairwise fun a b => a = b → g a = true := by
  induction h with
  | done => exact .nil
  | skip _ _ ih => exact ih (List.nodup_cons.1 hn).2
  | once h' ih =>
    refine List.pairwise_cons.2 ⟨?_, ih (List.nodup_cons.1 hn).2⟩
    rintro b hb rfl
    exact absurd (h'.mem _ hb) (List.nodup_cons.1 hn).1
  | more hg _ ih =>
    refine List.pairwise_cons.2 ⟨?_, ih hn⟩
    intro b _ _; exact hg

/-- The word lists the rules in the order of the chain. -/
theorem Covers.order {ι : Type} {o g : ι → Bool} {cs w : List ι} (h : Covers o g cs w) :
    ∃ ks : List Nat, ks.length = cs.length ∧ w = (List.zipWith (fun k c => List.replicate k c) ks cs).flatten ∧
      ∀ p ∈ ks.zip cs, (p.1 = 0 → o p.2 = true) ∧ (2 ≤ p.1 → g p.2 = true) := by
  induction h with
  | done => exact ⟨[], rfl, rfl, by simp⟩
  | skip h0 _ ih =>
    obtain ⟨ks, h1, h2, h3⟩ := ih
    refine ⟨0 :: ks, by simp [h1], by simp [← h2], ?_⟩
    simp only [List.zip_cons_cons, List.mem_cons]
    rintro p (rfl | hp)
    · simp [h0]
    · exact h3 p hp
  | once _ ih =>
    obtain ⟨ks, h1, h2, h3⟩ := ih
    refine ⟨1 :: ks, by simp [h1], by simp [← h2], ?_⟩
    simp only [List.zip_cons_cons, List.mem_cons]
    rintro p (rfl | hp)
    · simp
    · exact h3 p hp
  | more hg _ ih =>
    obtain ⟨ks, h1, h2, h3⟩ := ih
    cases ks with
    | nil => simp at h1
    | cons k ks =>
      refine ⟨(k + 1) :: ks, by simpa using h1, ?_, ?_⟩
      · rw [h2]; simp [List.replicate_succ]
      · simp only [List.zip_cons_cons, List.mem_cons] at h3 ⊢
        rintro p (rfl | hp)
        · simp [hg]
        · exact h3 p (.inr hp)

/-! ## The searched lists are closed under going down -/

mutual
theorem under_trans : ∀ (t : Tree) (ks : List Loc), ks ∈ t.under → ∀ x ∈ ks, ∀ js ∈ x.self.under, js ∈ t.under
  | .node p k kids, ks, hks, x, hx, js, hjs => by
    unfold Tree.under at hks ⊢
    cases k with
    | element e =>
      simp only at hks ⊢
      split at hks
      · simp at hks
      · rename_i hne
        simp only [hne]
        refine List.mem_cons_of_mem _ ?_
        rcases List.mem_cons.1 hks with rfl | hks
        · have : x.self ∈ kids := by
            rw [← locs_map_self kids]; exact List.mem_map.2 ⟨x, hx, rfl⟩
          exact mem_underL this hjs
        · exact underL_trans kids ks hks x hx js hjs
    | _ => simp at hks
theorem underL_trans : ∀ (ts : List Tree) (ks : List Loc), ks ∈ underL ts → ∀ x ∈ ks, ∀ js ∈ x.self.under,
    js ∈ underL ts
  | [], ks, hks, _, _, _, _ => by simp [underL] at hks
  | t :: ts, ks, hks, x, hx, js, hjs => by
    simp only [underL, List.mem_append] at hks ⊢
    rcases hks with hks | hks
    · exact .inl (under_trans t ks hks x hx js hjs)
    · exact .inr (underL_trans ts ks hks x hx js hjs)
theorem mem_underL : ∀ {ts : List Tree} {t : Tree} {js : List Loc}, t ∈ ts → js ∈ t.under → js ∈ underL ts
  | u :: us, t, js, ht, hj => by
    simp only [underL, List.mem_append]
    rcases List.mem_cons.1 ht with rfl | ht
    · exact .inl hj
    · exact .inr (mem_underL ht hj)
end

theorem locs_mem_under {t : Tree} (he : t.kind.isElement = true) {x : Loc} (hx : x ∈ locs t.kids) :
    locs t.kids ∈ t.under := by
  have : t.kids ≠ [] := by intro h; rw [h] at hx; simp [locs, locsAux] at hx
  rw [under_eq he this]; simp

theorem searched_trans {l : Loc} {ks : List Loc} (hks : ks ∈ l.searched) {x : Loc} (hx : x ∈ ks)
    {js : List Loc} (hjs : js ∈ x.self.under) : js ∈ l.searched := by
  rcases List.mem_cons.1 hks with rfl | hks
  · exact List.mem_cons_of_mem _ (mem_underL (List.mem_map.2 ⟨x, hx, rfl⟩) hjs)
  · exact List.mem_cons_of_mem _ (underL_trans _ ks hks x hx js hjs)

theorem Below.searched {p q : Rule} {y x l : Loc} (hb : Below p y q x) (hy : ∃ ks ∈ l.searched, y ∈ ks) :
    ∃ ks ∈ l.searched, x ∈ ks := by
  obtain ⟨ks, hks, hy⟩ := hy
  rcases hb with ⟨_, he, hx⟩ | ⟨_, _, _, js, hjs, hx⟩
  · exact ⟨_, searched_trans hks hy (locs_mem_under he hx), hx⟩
  · exact ⟨_, searched_trans hks hy hjs, hx⟩

theorem siblings_subRule : ∀ (r q : Rule), q ∈ r.siblings → SubRule q r
  | .mk i c none ns, q, h => by
    simp only [Rule.siblings, List.mem_singleton] at h; subst h; exact .refl
  | .mk i c (some nx) ns, q, h => by
    simp only [Rule.siblings, List.mem_cons] at h
    rcases h with rfl | h
    · exact .refl
    · exact .next rfl (siblings_subRule nx q h)

theorem SubRule.trans {a b c : Rule} (h1 : SubRule a b) (h2 : SubRule b c) : SubRule a c := by
  induction h2 with
  | refl => exact h1
  | child h _ ih => exact .child h (ih h1)
  | next h _ ih => exact .next h (ih h1)
  | nested h _ ih => exact .nested h (ih h1)

theorem Below.subRule {p q : Rule} {y x : Loc} (hb : Below p y q x) : SubRule q p := by
  rcases hb with ⟨hq, _, _⟩ | ⟨n, hn, hq, _⟩
  · cases hc : p.child with
    | none => rw [hc] at hq; simp [chainOf] at hq
    | some c => rw [hc] at hq; exact .child hc (siblings_subRule c q hq)
  · exact .nested hn (siblings_subRule n q hq)

/-! ## Groups as assignments -/

/-- One assignment per group: together they run through the siblings from left to right. -/
theorem Groups.assign {own : RuleInfo → Loc → Prop} {chain : List Rule} {ks : List Loc} {gs : List Found}
    (h : Groups own chain ks gs) :
    ∃ asgs : List (List Assigned), asgs.length = gs.length ∧
      (asgs.flatten.map (·.loc)).Sublist ks ∧
      ∀ p ∈ asgs.zip gs, ∃ seg, seg.Sublist ks ∧
        Covers Rule.isOptional Rule.isGreedy chain (p.1.map (·.rule)) ∧
        (p.1.map (·.loc)).Sublist seg ∧ AllMatched own p.1 ∧ p.1 ≠ [] ∧
        p.2.Perm (p.1.flatMap fun a => a.found ++ [(a.rule, a.loc)]) ∧
        (p.1.map fun a => (a.rule, a.loc)).Sublist p.2 := by
  generalize hk : gs.length = k
  induction k generalizing gs ks with
  | zero =>
    have : gs = [] := by simpa using hk
    subst this
    exact ⟨[], rfl, by simp, by simp⟩
  | succ k ih =>
    cases h with
    | stop => simp at hk
    | stopOptional => simp at hk
    | @cons _ ns rest g gs hg h' =>
        obtain ⟨asgs, h1, h2, h3⟩ := ih h' (by simpa using hk)
        obtain ⟨asg, seg, rfl, a1, a2, a3, a4, a5, a6, a7⟩ := hg.shape
        refine ⟨asg :: asgs, by simp [h1], ?_, ?_⟩
        · simp only [List.flatten_cons, List.map_append]; exact a2.append h2
        · simp only [List.zip_cons_cons, List.mem_cons]
          rintro p (rfl | hp)
          · exact ⟨seg, List.sublist_append_left _ _, a1, a2, a3, a4, a5, a6⟩
          · obtain ⟨s, hs, k⟩ := h3 p hp
            exact ⟨s, hs.trans (List.sublist_append_right _ _), k⟩

theorem Groups.mem {own : RuleInfo → Loc → Prop} {chain : List Rule} : ∀ {gs : List Found} {ks : List Loc},
    Groups own chain ks gs → ∀ g ∈ gs, ∃ ns rest, ns <:+ ks ∧ Group own chain ns g rest
  | [], _, _, g, hg => by simp at hg
  | g1 :: gs, ks, h, g, hg => by
    cases h with
    | @cons _ ns rest _ _ h1 h' =>
      rcases List.mem_cons.1 hg with rfl | hg
      · exact ⟨_, rest, List.suffix_refl _, h1⟩
      · obtain ⟨s, r, hs, k⟩ := Groups.mem h' g hg
        obtain ⟨_, seg, rfl, _⟩ := h1.shape
        exact ⟨s, r, hs.trans (List.suffix_append _ _), k⟩

theorem Search.mem {own : RuleInfo → Loc → Prop} {chain : List Rule} {kss : List (List Loc)} {gs : List Found}
    (h : Search own chain kss gs) : ∀ g ∈ gs, ∃ ks ∈ kss, ∃ ns rest, ns <:+ ks ∧ Group own chain ns g rest := by
  induction kss generalizing gs with
  | nil => cases h; simp
  | cons ks kss ih =>
    cases h with
    | cons hg hs =>
      intro g hgm
      rcases List.mem_append.1 hgm with hgm | hgm
      · exact ⟨ks, by simp, Groups.mem hg g hgm⟩
      · obtain ⟨ks', h1, h2⟩ := ih hs g hgm
        exact ⟨ks', by simp [h1], h2⟩

theorem Sibs.nodup {h : Heap} {n : Nat} {ls : List Loc} (hs : Sibs h n ls) : (ls.map Loc.ptr).Nodup := by
  induction hs with
  | nil => simp
  | cons _ _ h3 _ ih =>
    simp only [List.map_cons, List.nodup_cons]
    refine ⟨fun hm => ?_, ih⟩
    obtain ⟨m, hm, e⟩ := List.mem_map.1 hm
    exact h3 m hm e

mutual
theorem under_sibs {h : Heap} {n : Nat} : ∀ (t : Tree) (pp : Option Ptr) (i : Nat), Rep h pp i t → FanoutLe n t →
    ∀ ks ∈ t.under, Sibs h n ks
  | .node p k kids, pp, i, hr, hf => by
    intro ks hks
    unfold Tree.under at hks
    cases k with
    | element e =>
      simp only at hks
      split at hks
      · simp at hks
      · have hk := hr.kids
        have hf' := hf.kids
        have hp := hr.ptr_eq
        rcases List.mem_cons.1 hks with rfl | hks
        · exact sibs_locsAux (n := n) [] kids hp rfl rfl hk hf'.2 hf'.1
        · exact underL_sibs kids _ 0 hk hf'.2 ks hks
    | _ => simp at hks
theorem underL_sibs {h : Heap} {n : Nat} : ∀ (ts : List Tree) (p : Ptr) (i : Nat), RepL h p i ts → FanoutLeL n ts →
    ∀ ks ∈ underL ts, Sibs h n ks
  | [], _, _, _, _ => by simp [underL]
  | t :: ts, p, i, hr, hf => by
    simp only [RepL] at hr
    simp only [FanoutLeL] at hf
    intro ks hks
    simp only [underL, List.mem_append] at hks
    rcases hks with hks | hks
    · exact under_sibs t _ _ hr.1 hf.1 ks hks
    · exact underL_sibs ts _ _ hr.2 hf.2 ks hks
end

theorem searched_sibs {h : Heap} {n : Nat} {l : Loc} (hl : l.Stored h n) : ∀ ks ∈ l.searched, Sibs h n ks := by
  intro ks hks
  have hs := sibs_onward hl
  rcases List.mem_cons.1 hks with rfl | hks
  · exact hs
  · obtain ⟨t, ht, hks⟩ := underL_mem hks
    obtain ⟨y, hy, rfl⟩ := List.mem_map.1 ht
    obtain ⟨pp, pn, i, _, _, hr, hf⟩ := (hs.stored hy).self
    exact under_sibs _ _ _ hr hf ks hks

theorem Captured.mem {rx : RxEngine} {h : Heap} {g : Found} {vs : List (Str × Str)} (hc : Captured rx h g vs) {v : Str × Str}
    (hv : v ∈ vs) : ∃ p ∈ g, ∃ ws, ruleCapture rx h p.2.ptr p.1.info.caps = pure ws ∧ v ∈ ws := by
  induction hc with
  | nil => simp at hv
  | @cons r l g vs ws h1 _ ih =>
    rcases List.mem_append.1 hv with hv | hv
    · exact ⟨(r, l), by simp, vs, h1, hv⟩
    · obtain ⟨p, hp, k⟩ := ih hv
      exact ⟨p, by simp [hp], k⟩

theorem Maps.mem {rx : RxEngine} {h : Heap} {gs : List Found} {ms : List (List (Str × Str))} (hm : Maps rx h gs ms) {m : List (Str × Str)}
    (h0 : m ∈ ms) : ∃ g ∈ gs, ∃ vs, Captured rx h g vs ∧ IsMap vs m := by
  induction hm with
  | nil => simp at h0
  | @cons g gs vs m' ms h1 h2 _ ih =>
    rcases List.mem_cons.1 h0 with rfl | h0
    · exact ⟨g, by simp, vs, h1, h2⟩
    · obtain ⟨g', hg, k⟩ := ih h0
      exact ⟨g', by simp [hg], k⟩

theorem Search.empty {own : RuleInfo → Loc → Prop} {chain : List Rule} {kss : List (List Loc)} {gs : List Found}
    (hs : Search own chain kss gs) (hno : ∀ ks ∈ kss, ∀ g ns rest, ns <:+ ks → ¬ Group own chain ns g rest) :
    gs = [] := by
  cases gs with
  | nil => rfl
  | cons g gs =>
    obtain ⟨ks, hks, ns, rest, h1, h2⟩ := hs.mem g (by simp)
    exact absurd h2 (hno ks hks g ns rest h1)

theorem Matched.sat {own : RuleInfo → Loc → Prop} {r : Rule} {l : Loc} {g : Found} (h : Matched own r l g) :
    Sat own r l := by
  cases h with
  | leaf h => exact h
  | inner h => exact h

theorem AllMatched.embeds {own : RuleInfo → Loc → Prop} {asg : List Assigned} (h : AllMatched own asg) :
    ∀ a ∈ asg, Sat own a.rule a.loc := by
  intro a ha
  induction asg with
  | nil => simp at ha
  | cons b asg ih =>
    cases h with
    | cons h1 h2 =>
      rcases List.mem_cons.1 ha with rfl | ha
      · exact h1.sat
      · exact ih h2 ha

theorem Embeds.prepend {own : RuleInfo → Loc → Prop} {cs : List Rule} {ls : List Loc} (h : Embeds own cs ls)
    (x : Loc) : Embeds own cs (x :: ls) := by
  cases cs with
  | nil => exact .nil
  | cons c cs => exact .later h

theorem Embeds.of_sublist {own : RuleInfo → Loc → Prop} {cs : List Rule} {ls ks : List Loc}
    (hs : ls.Sublist ks) : Embeds own cs ls → Embeds own cs ks := by
  induction hs generalizing cs with
  | slnil => exact id
  | cons a _ ih => intro h; exact (ih h).prepend a
  | cons_cons a hs ih =>
    intro h
    induction cs with
    | nil => exact .nil
    | cons c cs ihc =>
      cases h with
      | optional h0 h => exact .optional h0 (ihc h)
      | here h0 h1 h => exact .here h0 h1 (ih h)
      | later h => exact .later (ih h)

theorem Embeds.of_covers {own : RuleInfo → Loc → Prop} {cs w : List Rule}
    (hc : Covers Rule.isOptional Rule.isGreedy cs w) : ∀ ls : List Loc, ls.length = w.length →
    (∀ p ∈ w.zip ls, Sat own p.1 p.2) → Embeds own cs ls := by
  induction hc with
  | done => intro ls _ _; exact .nil
  | skip h0 _ ih => intro ls h1 h2; exact .optional h0 (ih ls h1 h2)
  | @once c cs w _ ih =>
    intro ls h1 h2
    cases ls with
    | nil => simp at h1
    | cons x ls =>
      have hs := h2 (c, x) (by simp)
      have := ih ls (by simpa using h1) (fun p hp => h2 p (by simp [hp]))
      cases ho : c.isOptional with
      | true => exact .optional ho (this.prepend x)
      | false => exact .here ho hs this
  | more hg _ ih =>
    intro ls h1 h2
    cases ls with
    | nil => simp at h1
    | cons x ls => exact (ih ls (by simpa using h1) (fun p hp => h2 p (by simp [hp]))).prepend x

/-- A group can only be found where the chain embeds. -/
theorem Group.embeds {own : RuleInfo → Loc → Prop} {chain : List Rule} {ns rest : List Loc} {g : Found}
    (h : Group own chain ns g rest) : Embeds own chain ns := by
  obtain ⟨asg, seg, rfl, a1, a2, a3, a4, a5, a6, a7⟩ := h.shape
  refine Embeds.of_sublist (a2.trans (List.sublist_append_left _ _)) (Embeds.of_covers a1 _ (by simp) ?_)
  intro p hp
  rw [List.zip_map'] at hp
  obtain ⟨a, ha, rfl⟩ := List.mem_map.1 hp
  exact AllMatched.embeds a3 a ha

end Hext
