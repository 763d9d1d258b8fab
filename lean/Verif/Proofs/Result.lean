import Verif.Proofs.Sound
import Verif.Proofs.Refine
set_option linter.unusedSimpArgs false
/-!
# From the groups to the result of `extract`
-/

namespace Hext

theorem holds_eq (rx : RxEngine) (h : Heap) : (fun i l => ownVal rx h i l = true) = Holds rx h := by
  funext i l
  simp [ownVal, Holds]

/-! ## The multimap -/

theorem bytesLt_iff (a b : Str) : bytesLt a b = true ↔ a < b := by
  induction a generalizing b with
  | nil => cases b <;> simp [bytesLt]
  | cons x xs ih =>
    cases b with
    | nil => simp [bytesLt]
    | cons y ys =>
      simp only [bytesLt, List.cons_lt_cons_iff]
      split
      · rename_i h; simp [h]
      · rename_i h
        split
        · rename_i h2
          simp only [Bool.false_eq_true, false_iff]
          rintro (h3 | ⟨rfl, _⟩)
          · exact h h3
          · exact h h2
        · rename_i h2
          rw [ih]
          have : x = y := UInt8.le_antisymm (UInt8.not_lt.1 h2) (UInt8.not_lt.1 h)
          subst this
          simp [h]

theorem str_lt_trans {a b c : Str} (h1 : a < b) (h2 : b < c) : a < c := List.lt_trans h1 h2
theorem str_lt_irrefl (a : Str) : ¬ a < a := List.lt_irrefl a
theorem str_not_lt_trans {a b c : Str} (h1 : ¬ b < a) (h2 : ¬ c < b) : ¬ c < a := by
  have h1' : a ≤ b := h1
  have h2' : b ≤ c := h2
  exact (List.le_trans h1' h2' : a ≤ c)

abbrev KeySorted (m : List (Str × Str)) : Prop := m.Pairwise (fun a b => ¬ b.1 < a.1)

theorem multimapInsert_mem {p q : Str × Str} {m : List (Str × Str)} (h : q ∈ multimapInsert p m) :
    q = p ∨ q ∈ m := by
  induction m with
  | nil => simpa [multimapInsert] using h
  | cons x m ih =>
    unfold multimapInsert at h
    split at h
    · simpa using h
    · rcases List.mem_cons.1 h with h | h
      · simp [h]
      · rcases ih h with h | h <;> simp [h]

theorem multimapInsert_sorted (p : Str × Str) {m : List (Str × Str)} (h : KeySorted m) :
    KeySorted (multimapInsert p m) := by
  induction m with
  | nil => simp [multimapInsert]
  | cons q m ih =>
    have h' := List.pairwise_cons.1 h
    unfold multimapInsert
    split
    · rename_i hlt
      rw [bytesLt_iff] at hlt
      refine List.pairwise_cons.2 ⟨?_, h⟩
      intro x hx
      rcases List.mem_cons.1 hx with rfl | hx
      · exact fun h2 => str_lt_irrefl _ (str_lt_trans hlt h2)
      · exact fun h2 => h'.1 x hx (str_lt_trans h2 hlt)
    · rename_i hlt
      rw [bytesLt_iff] at hlt
      refine List.pairwise_cons.2 ⟨?_, ih h'.2⟩
      intro x hx
      rcases multimapInsert_mem hx with rfl | hx
      · exact hlt
      · exact h'.1 x hx

theorem multimapInsert_filter (p : Str × Str) {m : List (Str × Str)} (h : KeySorted m) (name : Str) :
    (multimapInsert p m).filter (·.1 = name) = m.filter (·.1 = name) ++ [p].filter (·.1 = name) := by
  induction m with
  | nil => simp [multimapInsert]
  | cons q m ih =>
    have h' := List.pairwise_cons.1 h
    unfold multimapInsert
    split
    · rename_i hlt
      rw [bytesLt_iff] at hlt
      by_cases hp : p.1 = name
      · have : (q :: m).filter (·.1 = name) = [] := by
          rw [List.filter_eq_nil_iff]
          intro x hx
          simp only [decide_eq_true_eq]
          intro hxn
          rcases List.mem_cons.1 hx with rfl | hx
          · exact str_lt_irrefl _ (by rw [hxn, ← hp] at hlt; exact hlt)
          · exact h'.1 x hx (by rw [hxn, ← hp]; exact hlt)
        rw [List.filter_cons, this]
        simp [hp]
      · rw [List.filter_cons]; simp [hp]
    · rw [List.filter_cons, ih h'.2, List.filter_cons (x := q)]
      split <;> simp

theorem foldl_isMap (vs : List (Str × Str)) : ∀ (ws m : List (Str × Str)), IsMap ws m →
    IsMap (ws ++ vs) (vs.foldl (fun m p => multimapInsert p m) m) := by
  induction vs with
  | nil => intro ws m h; simpa using h
  | cons v vs ih =>
    intro ws m h
    have := ih (ws ++ [v]) (multimapInsert v m) ⟨multimapInsert_sorted v h.1, fun name => by
      rw [multimapInsert_filter v h.1, h.2, List.filter_append]⟩
    simpa using this

/-- The map is determined by the pairs. -/
theorem IsMap.unique {vs m m' : List (Str × Str)} (h : IsMap vs m) (h' : IsMap vs m') : m = m' := by
  have hf : ∀ name, m.filter (·.1 = name) = m'.filter (·.1 = name) := fun name => by rw [h.2, h'.2]
  obtain ⟨h, hx⟩ := h
  clear hx
  replace h' := h'.1
  induction m generalizing m' with
  | nil =>
    cases m' with
    | nil => rfl
    | cons q m' => have := hf q.1; simp at this
  | cons p m ih =>
    cases m' with
    | nil => have := hf p.1; simp at this
    | cons q m' =>
      have g := List.pairwise_cons.1 h
      have g' := List.pairwise_cons.1 h'
      have hpq : p.1 = q.1 := by
        have a : p ∈ q :: m' := by
          have : p ∈ (q :: m').filter (·.1 = p.1) := by rw [← hf]; simp
          exact (List.mem_filter.1 this).1
        have b : q ∈ p :: m := by
          have : q ∈ (p :: m).filter (·.1 = q.1) := by rw [hf]; simp
          exact (List.mem_filter.1 this).1
        rcases List.mem_cons.1 a with rfl | a
        · rfl
        rcases List.mem_cons.1 b with rfl | b
        · rfl
        have c1 : q.1 ≤ p.1 := g'.1 p a
        have c2 : p.1 ≤ q.1 := g.1 q b
        exact List.le_antisymm c2 c1
      have hpe : p = q := by
        have := hf p.1
        simp only [List.filter_cons, decide_true, if_true, hpq.symm] at this
        exact (List.cons.inj this).1
      subst hpe
      rw [ih ?_ g.2 g'.2]
      intro name
      have := hf name
      simp only [List.filter_cons] at this
      split at this
      · exact (List.cons.inj this).2
      · exact this

theorem Captured.unique {rx : RxEngine} {h : Heap} {g : Found} {vs ws} (h1 : Captured rx h g vs)
    (h2 : Captured rx h g ws) : vs = ws := by
  induction h1 generalizing ws with
  | nil => cases h2; rfl
  | cons k _ ih =>
    cases h2 with
    | cons k' h2 =>
      rw [k] at k'
      rw [ih h2, E.pure_inj k']

section
variable {rx : RxEngine} {h : Heap}

theorem groupMap_eq (ps : Pairs RulePtr Loc)
    (hc : ∀ p ∈ ps, ∃ vs, ruleCapture rx h p.2.ptr p.1.val.info.caps = pure vs) (m : List (Str × Str)) :
    ∃ vs, Captured rx h (found ps) vs ∧
      groupMap rx h (conv ps) m = pure (vs.foldl (fun m p => multimapInsert p m) m) := by
  induction ps generalizing m with
  | nil => exact ⟨[], .nil, rfl⟩
  | cons p ps ih =>
    obtain ⟨r, l⟩ := p
    obtain ⟨vs, hv⟩ := hc (r, l) (by simp)
    obtain ⟨ws, hw, hm⟩ := ih (fun q hq => hc q (by simp [hq])) (vs.foldl (fun m p => multimapInsert p m) m)
    refine ⟨vs ++ ws, .cons hv hw, ?_⟩
    rw [conv_cons]
    unfold groupMap
    rw [List.foldl_append, ← hm]
    by_cases hcap : r.val.info.caps.length > 0
    · simp only [hcap, if_true, hv, pure_bind]
    · have he : r.val.info.caps = [] := by
        cases hcs : r.val.info.caps with
        | nil => rfl
        | cons => simp [hcs] at hcap
      have : vs = [] := by
        rw [he] at hv
        exact (E.pure_inj (hv : (pure [] : E _) = _)).symm
      subst this
      simp only [hcap, if_false, pure_bind, List.foldl_nil]

theorem groupsToResult_eq (gs : List (Pairs RulePtr Loc))
    (hc : ∀ g ∈ gs, ∀ p ∈ g, ∃ vs, ruleCapture rx h p.2.ptr p.1.val.info.caps = pure vs) :
    ∃ ms, Maps rx h (gs.map found) ms ∧
      groupsToResult rx h (gs.map conv) = pure (ms.filter (· ≠ [])) := by
  induction gs with
  | nil => exact ⟨[], .nil, rfl⟩
  | cons g gs ih =>
    obtain ⟨ms, h1, h2⟩ := ih (fun g hg => hc g (by simp [hg]))
    obtain ⟨vs, h3, h4⟩ := groupMap_eq g (hc g (by simp)) []
    refine ⟨vs.foldl (fun m p => multimapInsert p m) [] :: ms, .cons h3 ?_ h1, ?_⟩
    · simpa using foldl_isMap vs [] [] ⟨by simp, by simp⟩
    · simp only [List.map_cons, groupsToResult, h4, h2, pure_bind]
      congr 1
      cases hm : vs.foldl (fun m p => multimapInsert p m) [] with
      | nil => simp [List.filter_cons, hm]
      | cons => simp [List.filter_cons, hm]

end

/-! ## Reachable rules and nodes -/

theorem mem_siblings_all {P : RuleInfo → Prop} : ∀ {r : Rule}, r.All P → ∀ q ∈ r.siblings, q.All P
  | .mk i c none ns, h, q, hq => by
    simp only [Rule.siblings, List.mem_singleton] at hq
    subst hq; exact h
  | .mk i c (some nx) ns, h, q, hq => by
    simp only [Rule.siblings, List.mem_cons] at hq
    rcases hq with rfl | hq
    · exact h
    · simp only [Rule.All, Rule.AllO] at h
      exact mem_siblings_all h.2.2.1 q hq

theorem Rule.AllL.mem {P : RuleInfo → Prop} {rs : List Rule} (h : Rule.AllL P rs) : ∀ r ∈ rs, r.All P := by
  induction rs with
  | nil => simp
  | cons x xs ih =>
    simp only [Rule.AllL] at h
    intro r hr
    rcases List.mem_cons.1 hr with rfl | hr
    · exact h.1
    · exact ih h.2 r hr

theorem Below.all {P : RuleInfo → Prop} {p q : Rule} {y x : Loc} (hb : Below p y q x) (h : p.All P) : q.All P := by
  cases p with
  | mk i c nx ns =>
    simp only [Rule.All] at h
    rcases hb with ⟨hq, _, _⟩ | ⟨n, hn, hq, _⟩
    · cases c with
      | none => simp [Rule.child, chainOf] at hq
      | some c => exact mem_siblings_all (by simpa [Rule.AllO] using h.2.1) q hq
    · exact mem_siblings_all (h.2.2.2.mem n hn) q hq

mutual
theorem under_stored {h : Heap} {n : Nat} : ∀ (t : Tree) (pp : Option Ptr) (i : Nat), Rep h pp i t → FanoutLe n t →
    ∀ ks ∈ t.under, ∀ x ∈ ks, x.Stored h n
  | .node p k kids, pp, i, hr, hf => by
    intro ks hks x hx
    unfold Tree.under at hks
    cases k with
    | element e =>
      simp only at hks
      split at hks
      · simp at hks
      · have hk := hr.kids
        have hf' := hf.kids
        have hp := hr.ptr_eq
        rcases List.mem_cons.1 hks with rfl | hks
        · exact (sibs_locsAux (n := n) [] kids hp rfl rfl hk hf'.2 hf'.1).stored hx
        · exact underL_stored kids _ 0 hk hf'.2 ks hks x hx
    | _ => simp at hks
theorem underL_stored {h : Heap} {n : Nat} : ∀ (ts : List Tree) (p : Ptr) (i : Nat), RepL h p i ts → FanoutLeL n ts →
    ∀ ks ∈ underL ts, ∀ x ∈ ks, x.Stored h n
  | [], _, _, _, _ => by simp [underL]
  | t :: ts, p, i, hr, hf => by
    simp only [RepL] at hr
    simp only [FanoutLeL] at hf
    intro ks hks
    simp only [underL, List.mem_append] at hks
    rcases hks with hks | hks
    · exact under_stored t _ _ hr.1 hf.1 ks hks
    · exact underL_stored ts _ _ hr.2 hf.2 ks hks
end

theorem underL_mem {ts : List Tree} {ks : List Loc} (h : ks ∈ underL ts) : ∃ t ∈ ts, ks ∈ t.under := by
  induction ts with
  | nil => simp [underL] at h
  | cons t ts ih =>
    simp only [underL, List.mem_append] at h
    rcases h with h | h
    · exact ⟨t, by simp, h⟩
    · obtain ⟨u, hu, h⟩ := ih h
      exact ⟨u, by simp [hu], h⟩

theorem under_ne_element {t : Tree} {ks : List Loc} (h : ks ∈ t.under) : t.kind.isElement = true := by
  cases t with
  | node p k kids =>
    cases k with
    | element e => rfl
    | _ => simp [Tree.under] at h

theorem searched_stored {h : Heap} {n : Nat} {l : Loc} (hl : l.Stored h n) :
    ∀ ks ∈ l.searched, ∀ x ∈ ks, x.Stored h n := by
  intro ks hks x hx
  have hs := sibs_onward hl
  rcases List.mem_cons.1 hks with rfl | hks
  · exact hs.stored hx
  · obtain ⟨t, ht, hks⟩ := underL_mem hks
    obtain ⟨y, hy, rfl⟩ := List.mem_map.1 ht
    obtain ⟨pp, pn, i, _, _, hr, hf⟩ := (hs.stored hy).self
    exact under_stored _ _ _ hr hf ks hks x hx

theorem Below.stored {h : Heap} {n : Nat} {p q : Rule} {y x : Loc} (hb : Below p y q x) (hy : y.Stored h n) :
    x.Stored h n := by
  rcases hb with ⟨_, he, hx⟩ | ⟨_, _, _, ks, hks, hx⟩
  · exact (sibs_locs hy he).stored hx
  · obtain ⟨pp, pn, i, _, _, hr, hf⟩ := hy.self
    exact under_stored _ _ _ hr hf ks hks x hx

/-! ## `extract` -/

section
variable {rx : RxEngine} {h : Heap} {n : Nat}

theorem extract_eq (hn : n ≤ 2147483647) {r : Rule} (hr : r.Safe n) {l : Loc} (hl : l.Stored h n)
    (ms : UInt64) :
    extract rx h r l.ptr ms =
      if ms ≠ 0 ∧ ms.toNat ≤ (searchAt rx h r l).cost then throw .maxSearch
      else groupsToResult rx h ((searchAt rx h r l).val.map conv) := by
  unfold extract
  rw [search_eq hn r hr l hl]
  by_cases h0 : ms = 0
  · subst h0
    simp only [ret, charge, StateT.run, bind, StateT.bind, pure, StateT.pure, ne_eq, not_true_eq_false,
      false_and, if_false]
    rfl
  · by_cases h1 : (searchAt rx h r l).cost < ms.toNat
    · have h2 : ¬ (ms ≠ 0 ∧ ms.toNat ≤ (searchAt rx h r l).cost) := by omega
      rw [if_neg h2]
      show (((charge _) ms >>= fun p => _) >>= fun p => _) = _
      simp only [charge, h0, h1, if_true, if_false, pure_bind]
      rfl
    · have h2 : ms ≠ 0 ∧ ms.toNat ≤ (searchAt rx h r l).cost := ⟨h0, by omega⟩
      rw [if_pos h2]
      show (((charge _) ms >>= fun p => _) >>= fun p => _) = _
      simp only [charge, h0, h1, if_false]
      rfl

theorem searchAt_search (r : Rule) (l : Loc) :
    Search (Holds rx h) r.siblings l.searched ((searchAt rx h r l).val.map found) := by
  have hg := chain_good (ownVal rx h) [] r
  have := save_lift hg.1 l.onward
  rw [hg.2, holds_eq] at this
  exact this

/-- Rules and nodes of the pairs found are safe. -/
theorem searchAt_safe {r : Rule} (hr : r.Safe n) {l : Loc} (hl : l.Stored h n) :
    ∀ g ∈ (searchAt rx h r l).val, ∀ p ∈ g, p.1.val.Safe n ∧ p.2.Stored h n := by
  have := (searchAt_search (rx := rx) (h := h) r l).closed
    (P := fun q x => q.Safe n ∧ x.Stored h n)
    (fun p y q x hp hb => ⟨hb.all hp.1, hb.stored hp.2⟩)
    (fun q hq ks hks x hx => ⟨mem_siblings_all hr q hq, searched_stored hl ks hks x hx⟩)
  intro g hg p hp
  exact this (found g) (List.mem_map.2 ⟨g, hg, rfl⟩) (p.1.val, p.2) (List.mem_map.2 ⟨p, hp, rfl⟩)

theorem searchAt_captures {r : Rule} (hr : r.Safe n) {l : Loc} (hl : l.Stored h n) :
    ∀ g ∈ (searchAt rx h r l).val, ∀ p ∈ g, ∃ vs, ruleCapture rx h p.2.ptr p.1.val.info.caps = pure vs := by
  intro g hg p hp
  obtain ⟨h1, h2⟩ := searchAt_safe (rx := rx) hr hl g hg p hp
  refine ruleCapture_total rx h2 _ ?_
  cases hv : p.1.val with
  | mk i c nx ns =>
    rw [hv] at h1
    simp only [Rule.Safe, Rule.All] at h1
    exact h1.1.2

/-- The result of the search is a result in the sense of the specification, and `extract` returns it
unless the budget is too small. -/
theorem extract_result (hn : n ≤ 2147483647) {r : Rule} (hr : r.Safe n) {l : Loc} (hl : l.Stored h n) :
    ∃ res, groupsToResult rx h ((searchAt rx h r l).val.map conv) = pure res ∧
      (∃ ms, Maps rx h ((searchAt rx h r l).val.map found) ms ∧ res = ms.filter (· ≠ [])) ∧
      ∀ ms, extract rx h r l.ptr ms =
        if ms ≠ 0 ∧ ms.toNat ≤ (searchAt rx h r l).cost then throw .maxSearch else pure res := by
  obtain ⟨ms, h1, h2⟩ := groupsToResult_eq (rx := rx) (h := h) (searchAt rx h r l).val (searchAt_captures hr hl)
  refine ⟨_, h2, ⟨ms, h1, rfl⟩, fun m => ?_⟩
  rw [extract_eq hn hr hl, h2]

end
end Hext
