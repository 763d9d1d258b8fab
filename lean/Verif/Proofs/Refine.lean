import Verif.Proofs.Pure
import Verif.Proofs.Eval
set_option linter.unusedSimpArgs false
/-!
# The literal engine computes the pure engine
-/

namespace Hext

/-! ## Charging searches against the budget -/

/-- Make `n` searches: 0 is an unlimited budget, otherwise the budget must stay positive. -/
def charge (n : Nat) : M Unit := fun s =>
  if s = 0 then pure ((), s)
  else if n < s.toNat then pure ((), s - UInt64.ofNat n)
  else throw .maxSearch

/-- A result after `n` searches. -/
def ret {α} (n : Nat) (a : α) : M α := do charge n; pure a

theorem charge_zero : charge 0 = pure () := by
  funext s
  simp only [charge]
  split
  · rfl
  · rename_i h
    have : 0 < s.toNat := by
      rcases Nat.eq_zero_or_pos s.toNat with h0 | h0
      · exact absurd (UInt64.toNat_inj.1 (by simpa using h0)) h
      · exact h0
    simp [this]; rfl

theorem charge_add (n m : Nat) : (do charge n; charge m) = charge (n + m) := by
  funext s
  show (charge n s >>= fun p => charge m p.2) = _
  simp only [charge]
  by_cases h : s = 0
  · subst h; rfl
  · simp only [h, if_false]
    by_cases h1 : n < s.toNat
    · simp only [h1, if_true, pure_bind]
      have hlt := s.toNat_lt
      have e : (s - UInt64.ofNat n).toNat = s.toNat - n := by
        rw [UInt64.toNat_sub_of_le]
        · simp; omega
        · rw [UInt64.le_iff_toNat_le]; simp; omega
      have hne : s - UInt64.ofNat n ≠ 0 := by
        intro h0; rw [h0] at e; simp at e; omega
      simp only [hne, if_false, e]
      by_cases h2 : n + m < s.toNat
      · simp only [h2, show m < s.toNat - n by omega, if_true]
        congr 2
        rw [UInt64.ofNat_add]
        simp only [UInt64.sub_eq_add_neg, UInt64.neg_add, UInt64.add_assoc]
      · simp only [h2, show ¬ m < s.toNat - n by omega, if_false]
    · simp only [h1, show ¬ n + m < s.toNat by omega, if_false]
      rfl

theorem pure_eq_ret {α} (a : α) : (pure a : M α) = ret 0 a := by
  simp [ret, charge_zero]

theorem ret_bind {α β} (n m : Nat) (a : α) (f : α → M β) (b : β) (hf : f a = ret m b) :
    (ret n a >>= f) = ret (n + m) b := by
  simp only [ret, bind_assoc, pure_bind, hf]
  rw [← charge_add]
  simp

theorem ret_bind_eq {α β} {n k : Nat} (m : Nat) {a : α} {f : α → M β} {b : β} (hk : k = n + m)
    (hf : f a = ret m b) : (ret n a >>= f) = ret k b := by
  rw [ret_bind n m a f b hf, hk]

theorem lift_pure {α} (a : α) : (liftM (pure a : E α) : M α) = pure a := rfl

/-! ## Pairs -/

/-- Pairs with locations replaced by node pointers. -/
def conv (ps : Pairs RulePtr Loc) : MatchingNodes := ps.map fun p => (p.1, p.2.ptr)

@[simp] theorem conv_nil : conv [] = [] := rfl
@[simp] theorem conv_append (a b : Pairs RulePtr Loc) : conv (a ++ b) = conv a ++ conv b := by simp [conv]
@[simp] theorem conv_cons (r : RulePtr) (l : Loc) (b : Pairs RulePtr Loc) : conv ((r, l) :: b) = (r, l.ptr) :: conv b := rfl

theorem conv_flatten (ss : List (Pairs RulePtr Loc)) : conv ss.flatten = (ss.map conv).flatten := by
  induction ss with
  | nil => rfl
  | cons s ss ih => simp [ih]

variable (rx : RxEngine) (h : Heap) (n : Nat)

/-- `run` is what `RuleMatchesNodeRecursive` computes. -/
def RunOK (c : CR RulePtr Loc) : Prop := ∀ l : Loc, l.Stored h n → ∀ res,
  ruleMatchesNodeRecursive rx h c.id l.ptr res =
    ret (c.run l).cost (match (c.run l).val with
      | none => (false, res)
      | some s => (true, res ++ conv s))

/-- The list describes a rule and its `next()` siblings in memory. -/
def ChainOK : List (CR RulePtr Loc) → Prop
  | [] => True
  | c :: cs => c.id.next = cs.head?.map (·.id) ∧ c.id.val.isOptional = c.optional ∧
      c.id.val.isGreedy = c.greedy ∧ (∀ d ∈ cs, c.id.addr ≠ d.id.addr) ∧ RunOK rx h n c ∧ ChainOK cs

abbrev hd (cs : List (CR RulePtr Loc)) : Option RulePtr := cs.head?.map (·.id)
abbrev hp (ls : List Loc) : Option Ptr := ls.head?.map Loc.ptr

@[simp] theorem hd_nil : hd [] = none := rfl
@[simp] theorem hd_cons (c : CR RulePtr Loc) (cs) : hd (c :: cs) = some c.id := rfl
@[simp] theorem hp_nil : hp [] = none := rfl
@[simp] theorem hp_cons (l : Loc) (ls) : hp (l :: ls) = some l.ptr := rfl

variable {rx h n}

theorem ChainOK.append {cs ds : List (CR RulePtr Loc)} (hc : ChainOK rx h n (cs ++ ds)) : ChainOK rx h n ds := by
  induction cs with
  | nil => exact hc
  | cons c cs ih => simp only [List.cons_append, ChainOK] at hc; exact ih hc.2.2.2.2.2

theorem ChainOK.ne {cs ds : List (CR RulePtr Loc)} (hc : ChainOK rx h n (cs ++ ds)) {c d}
    (h1 : c ∈ cs) (h2 : d ∈ ds) : c.id.addr ≠ d.id.addr := by
  induction cs with
  | nil => simp at h1
  | cons a cs ih =>
    simp only [List.cons_append, ChainOK] at hc
    rcases List.mem_cons.1 h1 with rfl | h1
    · exact hc.2.2.2.1 d (by simp [h2])
    · exact ih hc.2.2.2.2.2 h1

theorem same_self (r : RulePtr) : r.same r = true := by simp [RulePtr.same]
theorem same_false {a b : RulePtr} (hne : a.addr ≠ b.addr) : a.same b = false := by
  simp [RulePtr.same, hne]

/-! ## FindMandatoryRule -/

theorem findMandatory_none {cs : List (CR RulePtr Loc)} (hc : ChainOK rx h n cs) :
    findMandatoryRule (hd cs) none = pure ((firstMand cs).map (·.id)) := by
  induction cs with
  | nil => rw [findMandatoryRule.eq_def]; rfl
  | cons c cs ih =>
    simp only [ChainOK] at hc
    obtain ⟨h1, h2, h3, h4, h5, h6⟩ := hc
    rw [findMandatoryRule.eq_def]
    simp only [hd, List.head?_cons, Option.map_some, sameRule, Bool.false_eq_true, if_false, h2, h1]
    cases ho : c.optional
    · simp [firstMand, ho]
    · simpa [firstMand, ho] using ih h6

theorem findMandatory_some {pre cs : List (CR RulePtr Loc)} {c : CR RulePtr Loc}
    (hc : ChainOK rx h n (pre ++ c :: cs)) :
    findMandatoryRule (hd (pre ++ c :: cs)) (some c.id) =
      pure (some (match firstMand pre with | none => c.id | some m => m.id)) := by
  induction pre with
  | nil => rw [findMandatoryRule.eq_def]; simp [hd, sameRule, same_self, firstMand]
  | cons p pre ih =>
    have hne := hc.ne (c := p) (d := c) (by simp) (by simp)
    simp only [List.cons_append, ChainOK] at hc
    obtain ⟨h1, h2, h3, h4, h5, h6⟩ := hc
    rw [findMandatoryRule.eq_def]
    simp only [hd, List.cons_append, List.head?_cons, Option.map_some, sameRule, same_false hne,
      Bool.false_eq_true, if_false, h2, h1]
    cases ho : p.optional
    · simp [firstMand, ho]
    · have := ih h6
      simp only [hd] at this
      simp only [Bool.not_true, Bool.false_eq_true, if_false, this, firstMand, List.find?_cons, ho]

theorem skipOptional_eq {cs : List (CR RulePtr Loc)} (hc : ChainOK rx h n cs) :
    ∃ r, skipOptional (hd cs) = pure r ∧ r.isNone = cs.all (·.optional) := by
  induction cs with
  | nil => exact ⟨none, by rw [skipOptional.eq_def]; rfl, rfl⟩
  | cons c cs ih =>
    simp only [ChainOK] at hc
    obtain ⟨h1, h2, h3, h4, h5, h6⟩ := hc
    rw [skipOptional.eq_def]
    simp only [hd, List.head?_cons, Option.map_some, h2, h1]
    cases ho : c.optional
    · exact ⟨some c.id, by simp, by simp [ho]⟩
    · simpa [ho] using ih h6

/-! ## MatchRuleOnce, MatchRange -/

theorem matchRuleOnce_eq {c : CR RulePtr Loc} (hc : RunOK rx h n c) (ls es : List Loc)
    (hs : Sibs h n (ls ++ es)) (res : MatchingNodes) :
    matchRuleOnce rx h c.id (hp (ls ++ es)) (hp es) res =
      ret (once c ls).cost (match (once c ls).val with
        | none => (hp es, res)
        | some (_, x, s, _) => (some x.ptr, res ++ conv s)) := by
  induction ls with
  | nil =>
    rw [matchRuleOnce.eq_def]
    cases es with
    | nil => simp [once, hp, pure_eq_ret]
    | cons e es => simp [once, hp, pure_eq_ret]
  | cons l ls ih =>
    obtain ⟨hst, hnx, hne, htl⟩ := hs.tail
    rw [matchRuleOnce.eq_def]
    have hend : (some l.ptr == hp es) = false := by
      cases es with
      | nil => rfl
      | cons e es =>
        have := hne e (by simp)
        simp [hp]; exact fun h => this h.symm
    simp only [hp, List.cons_append, List.head?_cons, Option.map_some] at *
    simp only [hend, Bool.false_eq_true, if_false, hc l hst res]
    simp only [once]
    cases hv : (c.run l).val with
    | some s =>
      refine ret_bind_eq 0 (by simp) ?_
      simp [pure_eq_ret]
    | none =>
      have ih := ih htl
      refine ret_bind_eq (once c ls).cost ?_ ?_
      · cases ho : (once c ls).val with
        | none => simp
        | some q => obtain ⟨b, x, s, r⟩ := q; simp
      · simp only [Bool.false_eq_true, if_false, hnx, lift_pure, pure_bind]
        refine ih.trans ?_
        cases ho : (once c ls).val with
        | none => simp
        | some q => obtain ⟨b, x, s, r⟩ := q; simp

theorem Sibs.at {b r : List Loc} {x : Loc} (hs : Sibs h n (b ++ x :: r)) :
    x.Stored h n ∧ nextNode h (some x.ptr) = pure (hp r) ∧ (∀ m ∈ r, m.ptr ≠ x.ptr) ∧ Sibs h n r :=
  (hs.suffix ⟨b, rfl⟩).tail

theorem ne_end {b r es : List Loc} {x : Loc} (hs : Sibs h n (b ++ x :: (r ++ es))) :
    (some x.ptr != hp es) = true := by
  cases es with
  | nil => rfl
  | cons e es =>
    have := hs.at.2.2.1 e (by simp)
    simp [hp]; exact fun h => this h.symm

theorem rangeLoop_greedy {c : CR RulePtr Loc} {opts rest : List (CR RulePtr Loc)}
    (hc : ChainOK rx h n (c :: opts ++ rest)) (hg : c.greedy = true) (es : List Loc)
    (ls : List Loc) (mn : Option Ptr) (hs : Sibs h n (ls ++ es)) (res : MatchingNodes) :
    rangeLoop rx h (some c.id) (hd rest) (hp (ls ++ es)) (hp es) mn res =
      (ret (rangeGreedy c ls).cost () >>= fun _ =>
        rangeLoop rx h (hd (opts ++ rest)) (hd rest) (hp ((rangeGreedy c ls).val.2 ++ es)) (hp es) (hp es)
          (res ++ conv (rangeGreedy c ls).val.1)) := by
  have hne : sameRule (some c.id) (hd rest) = false := by
    cases rest with
    | nil => rfl
    | cons d ds => simp only [hd, List.head?_cons, Option.map_some, sameRule]; exact same_false (hc.ne (by simp) (by simp))
  have hc' := hc
  simp only [List.cons_append, ChainOK] at hc'
  obtain ⟨h1, h2, h3, h4, h5, h6⟩ := hc'
  fun_induction rangeGreedy c ls generalizing mn res with
  | case1 ls heq =>
    rw [rangeLoop.eq_def]
    simp only [hne, Bool.false_eq_true, if_false, matchRuleOnce_eq h5 ls es hs, heq, h1]
    simp only [ret, bind_assoc, pure_bind, bne_self_eq_false, Bool.false_eq_true, if_false, conv_nil, List.append_nil]
    congr 1; funext _
    split
    · rename_i q; rw [q]
    · rename_i q; rw [q]
  | case2 ls b x s r heq _ t ih =>
    have hls := once_some heq
    have hs' : Sibs h n (b ++ x :: (r ++ es)) := by rw [hls] at hs; simpa using hs
    rw [rangeLoop.eq_def]
    simp only [hne, Bool.false_eq_true, if_false, matchRuleOnce_eq h5 ls es hs, heq]
    simp only [ret, bind_assoc, pure_bind, ne_end hs', if_true, hs'.at.2.1, lift_pure, h3, hg]
    have ih' := ih (some x.ptr) hs'.at.2.2.2 (res ++ conv s ++ [(c.id, x.ptr)])
    simp only [ih']
    simp only [ret, bind_assoc, pure_bind]
    rw [← charge_add]
    simp [t]

theorem rangeLoop_eq {opts rest : List (CR RulePtr Loc)} (hc : ChainOK rx h n (opts ++ rest)) (es : List Loc)
    (ls : List Loc) (mn : Option Ptr) (hs : Sibs h n (ls ++ es)) (res : MatchingNodes) :
    ∃ q, rangeLoop rx h (hd (opts ++ rest)) (hd rest) (hp (ls ++ es)) (hp es) mn res =
        ret (range opts ls).cost (q, res ++ conv (range opts ls).val.1) ∧
      (opts = [] → q = mn) ∧
      (es = [] → opts ≠ [] → match (range opts ls).val.2 with
        | none => q = none
        | some r => ∃ x : Loc, q = some x.ptr ∧ nextNode h (some x.ptr) = pure (hp r)) := by
  induction opts generalizing ls mn res with
  | nil =>
    refine ⟨mn, ?_, fun _ => rfl, fun _ h => absurd rfl h⟩
    rw [rangeLoop.eq_def]
    cases rest with
    | nil => simp [range, hd, pure_eq_ret]
    | cons d ds => simp [range, hd, pure_eq_ret, sameRule, same_self]
  | cons c opts ih =>
    have hne : sameRule (some c.id) (hd rest) = false := by
      cases rest with
      | nil => rfl
      | cons d ds => simp only [hd, List.head?_cons, Option.map_some, sameRule]; exact same_false (hc.ne (by simp) (by simp))
    have hc' := hc
    simp only [List.cons_append, ChainOK] at hc'
    obtain ⟨h1, h2, h3, h4, h5, h6⟩ := hc'
    have hd_eq : hd (c :: opts ++ rest) = some c.id := rfl
    rw [hd_eq]
    unfold range
    cases hg : c.greedy
    · simp only [Bool.false_eq_true, if_false]
      rw [rangeLoop.eq_def]
      simp only [hne, Bool.false_eq_true, if_false, matchRuleOnce_eq h5 ls es hs]
      cases ho : (once c ls).val with
      | none =>
        obtain ⟨q, e1, e2, e3⟩ := ih h6 ls (hp es) hs res
        refine ⟨q, ?_, by simp, ?_⟩
        · refine ret_bind_eq _ rfl ?_
          simp only [h1, bne_self_eq_false, Bool.false_eq_true, if_false]
          refine Eq.trans ?_ e1
          split
          · rename_i q; rw [q]
          · rename_i q; rw [q]
        · intro hes _
          by_cases hopt : opts = []
          · subst hopt; subst hes
            simp only [range]
            exact e2 rfl
          · exact e3 hes hopt
      | some w =>
        obtain ⟨b, x, s, r⟩ := w
        have hls := once_some ho
        have hs' : Sibs h n (b ++ x :: (r ++ es)) := by rw [hls] at hs; simpa using hs
        obtain ⟨q, e1, e2, e3⟩ := ih h6 r (some x.ptr) hs'.at.2.2.2 (res ++ conv s ++ [(c.id, x.ptr)])
        refine ⟨q, ?_, by simp, ?_⟩
        · refine ret_bind_eq _ rfl ?_
          simp only [ne_end hs', if_true, hs'.at.2.1, lift_pure, pure_bind, h3, hg, Bool.false_eq_true, if_false, h1]
          refine e1.trans ?_
          simp
        · intro hes _
          simp only
          by_cases hopt : opts = []
          · subst hopt; subst hes
            simp only [List.isEmpty_nil, if_true]
            exact ⟨x, e2 rfl, by simpa using hs'.at.2.1⟩
          · have : opts.isEmpty = false := by simpa using hopt
            simp only [this, Bool.false_eq_true, if_false]
            exact e3 hes hopt
    · simp only [if_true]
      rw [rangeLoop_greedy hc hg es ls mn hs res]
      have hsg : Sibs h n ((rangeGreedy c ls).val.2 ++ es) := by
        obtain ⟨t, ht⟩ := rangeGreedy_suffix c ls
        exact hs.suffix ⟨t, by rw [← List.append_assoc, ht]⟩
      obtain ⟨q, e1, e2, e3⟩ := ih h6 (rangeGreedy c ls).val.2 (hp es) hsg (res ++ conv (rangeGreedy c ls).val.1)
      refine ⟨q, ?_, by simp, ?_⟩
      · refine ret_bind_eq _ rfl ?_
        refine e1.trans ?_
        simp
      · intro hes _
        by_cases hopt : opts = []
        · subst hopt; subst hes
          simp only [range]
          exact e2 rfl
        · exact e3 hes hopt

/-! ## MatchRuleGroup -/

theorem splitMand_some {ρ α} {cs opts rest : List (CR ρ α)} {stop : CR ρ α}
    (hm : splitMand cs = some (opts, stop, rest)) :
    cs = opts ++ stop :: rest ∧ (∀ c ∈ opts, c.optional = true) ∧ stop.optional = false ∧
      firstMand cs = some stop := by
  induction cs generalizing opts with
  | nil => simp [splitMand] at hm
  | cons c cs ih =>
    unfold splitMand at hm
    split at hm
    · rename_i ho
      split at hm
      · simp at hm
      · rename_i o m r heq
        simp at hm
        obtain ⟨rfl, rfl, rfl⟩ := hm
        obtain ⟨h1, h2, h3, h4⟩ := ih heq
        exact ⟨by rw [h1]; rfl, by simpa [ho] using h2, h3, by simpa [firstMand, ho] using h4⟩
    · rename_i ho
      simp at hm
      obtain ⟨rfl, rfl, rfl⟩ := hm
      exact ⟨rfl, by simp, by simpa using ho, by simp [firstMand, ho]⟩

theorem splitMand_none {ρ α} {cs : List (CR ρ α)} (hm : splitMand cs = none) :
    firstMand cs = none ∧ ∀ c ∈ cs, c.optional = true := by
  induction cs with
  | nil => simp [firstMand]
  | cons c cs ih =>
    unfold splitMand at hm
    split at hm
    · rename_i ho
      split at hm
      · rename_i heq
        obtain ⟨h1, h2⟩ := ih heq
        exact ⟨by simpa [firstMand, ho] using h1, by simpa [ho] using h2⟩
      · simp at hm
    · simp at hm

/-- What is known about the last pair collected. -/
def BackOK (pre cs : List (CR RulePtr Loc)) (again : Bool) (sub : Pairs RulePtr Loc) : Prop :=
  match again with
  | true => ∃ c cs' s x, cs = c :: cs' ∧ c.greedy = true ∧ sub = s ++ [(c.id, x)]
  | false => sub = [] ∨ ∃ s d x, sub = s ++ [(d.id, x)] ∧ d ∈ pre

theorem backIs_append (s : Pairs RulePtr Loc) (d r : RulePtr) (x : Loc) :
    backIs (conv (s ++ [(d, x)])) r = r.same d := by
  simp [backIs]

theorem again_eq {pre cs : List (CR RulePtr Loc)} {c : CR RulePtr Loc} {again : Bool} {sub}
    (hc : ChainOK rx h n (pre ++ c :: cs)) (hb : BackOK pre (c :: cs) again sub) :
    (c.id.val.isGreedy && backIs (conv sub) c.id) = again := by
  have hg := hc.append
  simp only [ChainOK] at hg
  rw [hg.2.2.1]
  cases again with
  | true =>
    obtain ⟨c', cs', s, x, he, h1, rfl⟩ := hb
    injection he with he1 he2
    subst he1
    rw [backIs_append, same_self, h1]; rfl
  | false =>
    rcases hb with rfl | ⟨s, d, x, rfl, hd⟩
    · simp [backIs]
    · rw [backIs_append, same_false (hc.ne hd (by simp)).symm]; simp

theorem firstMand_mem {ρ α} {cs : List (CR ρ α)} {c} (hm : firstMand cs = some c) : c ∈ cs :=
  List.mem_of_find?_eq_some hm

theorem ChainOK.run {cs : List (CR RulePtr Loc)} (hc : ChainOK rx h n cs) {c} (hm : c ∈ cs) : RunOK rx h n c := by
  induction cs with
  | nil => simp at hm
  | cons a cs ih =>
    simp only [ChainOK] at hc
    rcases List.mem_cons.1 hm with rfl | hm
    · exact hc.2.2.2.2.1
    · exact ih hc.2.2.2.2.2 hm

theorem matchRuleOnce_all {c : CR RulePtr Loc} (hc : RunOK rx h n c) (ls : List Loc)
    (hs : Sibs h n ls) (res : MatchingNodes) :
    matchRuleOnce rx h c.id (hp ls) none res =
      ret (once c ls).cost (match (once c ls).val with
        | none => (none, res)
        | some (_, x, s, _) => (some x.ptr, res ++ conv s)) := by
  have := matchRuleOnce_eq hc ls [] (by simpa using hs) res
  simpa [hp] using this

theorem groupLoop_stop (f : RulePtr) {rule : Option RulePtr} {node : Option Ptr} (sub res : MatchingNodes)
    (hn : rule = none ∨ node = none) :
    groupLoop rx h f rule node sub res = (do
      let rule ← (liftM (skipOptional (match rule with
        | some r => if r.val.isGreedy && backIs sub r then r.next else some r
        | none => none)) : M _)
      match rule with
      | none => pure (node, res ++ sub)
      | some _ => pure (none, res)) := by
  rw [groupLoop.eq_def]
  rcases hn with rfl | rfl
  · cases node <;> rfl
  · cases rule <;> rfl

theorem groupLoop_eq (f : RulePtr) (pre cs : List (CR RulePtr Loc)) (again : Bool) (ns : List Loc)
    (sub : Pairs RulePtr Loc) (res : MatchingNodes) (hc : ChainOK rx h n (pre ++ cs))
    (hf : hd (pre ++ cs) = some f) (hs : Sibs h n ns) (hb : BackOK pre cs again sub) :
    groupLoop rx h f (hd cs) (hp ns) (conv sub) res =
      ret (group pre cs again ns sub).cost
        (hp (group pre cs again ns sub).val.2, res ++ conv (group pre cs again ns sub).val.1) := by
  fun_induction group pre cs again ns sub generalizing res with
  | case1 pre again sub ns =>
    simp only [hd_nil]
    rw [groupLoop_stop f _ _ (Or.inl rfl)]
    simp only
    rw [skipOptional.eq_def]
    simp [lift_pure, pure_eq_ret]
    exact ret_bind_eq 0 rfl rfl
  | case2 pre again sub c cs hall =>
    simp only [hd_cons, hp_nil]
    rw [groupLoop_stop f _ _ (Or.inr rfl)]
    have ha := again_eq hc hb
    have hcc := hc.append
    simp only [ChainOK] at hcc
    simp only [ha, hcc.1]
    obtain ⟨r, hr1, hr2⟩ : ∃ r, skipOptional (if again then hd cs else some c.id) = pure r ∧ r.isNone = true := by
      cases again with
      | true =>
        obtain ⟨r, h1, h2⟩ := skipOptional_eq hcc.2.2.2.2.2
        exact ⟨r, by simpa using h1, by rw [h2]; simpa using hall⟩
      | false =>
        obtain ⟨r, h1, h2⟩ := skipOptional_eq hc.append
        exact ⟨r, by simpa using h1, by rw [h2]; simpa using hall⟩
    rw [hr1]
    cases r with
    | none => simp only [lift_pure, pure_bind]; exact pure_eq_ret _
    | some r => simp at hr2
  | case3 pre again sub c cs hall =>
    simp only [hd_cons, hp_nil]
    rw [groupLoop_stop f _ _ (Or.inr rfl)]
    have ha := again_eq hc hb
    have hcc := hc.append
    simp only [ChainOK] at hcc
    simp only [ha, hcc.1]
    obtain ⟨r, hr1, hr2⟩ : ∃ r, skipOptional (if again then hd cs else some c.id) = pure r ∧ r.isNone = false := by
      cases again with
      | true =>
        obtain ⟨r, h1, h2⟩ := skipOptional_eq hcc.2.2.2.2.2
        exact ⟨r, by simpa using h1, by rw [h2]; simpa using hall⟩
      | false =>
        obtain ⟨r, h1, h2⟩ := skipOptional_eq hc.append
        exact ⟨r, by simpa using h1, by rw [h2]; simpa using hall⟩
    rw [hr1]
    cases r with
    | none => simp at hr2
    | some r => simp only [lift_pure, pure_bind]; simp [pure_eq_ret]
  | case4 pre again sub c cs nd ns hca opts stop rest hsp heq =>
    have ha := again_eq hc hb
    have hcc := hc.append
    simp only [ChainOK] at hcc
    obtain ⟨e1, e2, e3, e4⟩ := splitMand_some hsp
    have hstop : RunOK rx h n stop := hcc.2.2.2.2.2.run (firstMand_mem e4)
    rw [groupLoop.eq_def]
    simp only [hd_cons, hp_cons, ha, hcc.2.1, hca, if_true, hcc.1, findMandatory_none hcc.2.2.2.2.2, e4,
      lift_pure, pure_bind, Option.map_some]
    have := matchRuleOnce_all hstop (nd :: ns) hs (conv sub)
    simp only [heq, hp_cons] at this
    rw [this]
    exact ret_bind_eq 0 rfl (by simp [pure_eq_ret])
  | case5 pre again sub c cs nd ns hca opts stop rest hsp b x s r heq _ m t ih =>
    have ha := again_eq hc hb
    have hcc := hc.append
    simp only [ChainOK] at hcc
    obtain ⟨e1, e2, e3, e4⟩ := splitMand_some hsp
    have hstop : RunOK rx h n stop := hcc.2.2.2.2.2.run (firstMand_mem e4)
    rw [groupLoop.eq_def]
    simp only [hd_cons, hp_cons, ha, hcc.2.1, hca, if_true, hcc.1, findMandatory_none hcc.2.2.2.2.2, e4,
      lift_pure, pure_bind, Option.map_some]
    have hm := matchRuleOnce_all hstop (nd :: ns) hs (conv sub)
    simp only [heq, hp_cons] at hm
    rw [hm]
    have hns := once_some heq
    have hs' : Sibs h n (b ++ x :: r) := by rwa [hns] at hs
    refine ret_bind_eq (m.cost + t.cost) (by simp only [m, t]; omega) ?_
    simp only [matchRange]
    have hch : ChainOK rx h n ((c :: opts) ++ stop :: rest) := by
      have := hc.append; rw [e1] at this; exact this
    obtain ⟨q, r1, _, _⟩ := rangeLoop_eq hch (x :: r) b (some x.ptr) hs' (conv sub ++ conv s)
    simp only [List.cons_append, hd_cons, ← hns, hp_cons] at r1
    rw [r1]
    refine ret_bind_eq t.cost rfl ?_
    simp only [hs'.at.2.1, lift_pure, pure_bind]
    have hc2 : ChainOK rx h n (pre ++ c :: opts ++ [stop] ++ rest) := by
      rw [e1] at hc; simpa using hc
    have hst : ChainOK rx h n (stop :: rest) := by
      have : pre ++ c :: opts ++ [stop] ++ rest = (pre ++ c :: opts) ++ (stop :: rest) := by simp
      rw [this] at hc2; exact hc2.append
    simp only [ChainOK] at hst
    have ih' := ih res hc2 (by rw [e1] at hf; simpa [hd] using hf) hs'.at.2.2.2
      (Or.inr ⟨_, stop, x, rfl, by simp⟩)
    rw [hst.1]
    refine Eq.trans ?_ ih'
    simp [m]
  | case6 pre again sub c cs nd ns hca hsp hfm m =>
    have ha := again_eq hc hb
    have hcc := hc.append
    simp only [ChainOK] at hcc
    obtain ⟨e1, e2⟩ := splitMand_none hsp
    have hfs := findMandatory_some hc
    rw [hf, hfm] at hfs
    rw [groupLoop.eq_def]
    simp only [hd_cons, hp_cons, ha, hcc.2.1, hca, if_true, hcc.1, findMandatory_none hcc.2.2.2.2.2, e1,
      lift_pure, pure_bind, Option.map_none, hfs, sameRule, same_self, matchRange]
    have hch : ChainOK rx h n ((c :: cs) ++ []) := by simpa using hc.append
    obtain ⟨q, r1, _, r3⟩ := rangeLoop_eq hch [] (nd :: ns) none (by simpa using hs) (conv sub)
    simp only [List.append_nil, hd_cons, hd_nil, hp_cons, hp_nil] at r1
    rw [r1]
    refine ret_bind_eq 0 rfl ?_
    have r3 := r3 rfl (by simp)
    simp only [m]
    cases hv : (range (c :: cs) (nd :: ns)).val.2 with
    | none =>
      rw [hv] at r3
      simp only at r3
      subst r3
      simp [pure_eq_ret]
    | some r =>
      rw [hv] at r3
      obtain ⟨x, rfl, hx⟩ := r3
      simp [hx, lift_pure, pure_eq_ret]
      exact ret_bind_eq 0 rfl rfl
  | case7 pre again sub c cs nd ns hca hsp stop hfm o heq m =>
    have ha := again_eq hc hb
    have hcc := hc.append
    simp only [ChainOK] at hcc
    obtain ⟨e1, e2⟩ := splitMand_none hsp
    have hfs := findMandatory_some hc
    rw [hf, hfm] at hfs
    have hstop : RunOK rx h n stop := hc.run (by simp [firstMand_mem hfm])
    have hne := hc.ne (firstMand_mem hfm) (d := c) (by simp)
    rw [groupLoop.eq_def]
    simp only [hd_cons, hp_cons, ha, hcc.2.1, hca, if_true, hcc.1, findMandatory_none hcc.2.2.2.2.2, e1,
      lift_pure, pure_bind, Option.map_none, hfs, sameRule, same_false hne, matchRange, Bool.false_eq_true,
      if_false]
    have hm := matchRuleOnce_all hstop (nd :: ns) hs []
    simp only [o] at heq
    simp only [heq, hp_cons] at hm
    rw [hm]
    refine ret_bind_eq m.cost rfl ?_
    have hch : ChainOK rx h n ((c :: cs) ++ []) := by simpa using hc.append
    obtain ⟨q, r1, _, r3⟩ := rangeLoop_eq hch [] (nd :: ns) none (by simpa using hs) (conv sub)
    simp only [List.append_nil, hd_cons, hd_nil, hp_cons, hp_nil] at r1
    simp only
    rw [r1]
    refine ret_bind_eq 0 rfl ?_
    simp [pure_eq_ret, m]
  | case8 pre again sub c cs nd ns hca hsp stop hfm o b x s r heq m =>
    have ha := again_eq hc hb
    have hcc := hc.append
    simp only [ChainOK] at hcc
    obtain ⟨e1, e2⟩ := splitMand_none hsp
    have hfs := findMandatory_some hc
    rw [hf, hfm] at hfs
    have hstop : RunOK rx h n stop := hc.run (by simp [firstMand_mem hfm])
    have hne := hc.ne (firstMand_mem hfm) (d := c) (by simp)
    rw [groupLoop.eq_def]
    simp only [hd_cons, hp_cons, ha, hcc.2.1, hca, if_true, hcc.1, findMandatory_none hcc.2.2.2.2.2, e1,
      lift_pure, pure_bind, Option.map_none, hfs, sameRule, same_false hne, matchRange, Bool.false_eq_true,
      if_false]
    have hm := matchRuleOnce_all hstop (nd :: ns) hs []
    simp only [o] at heq
    have hns := once_some heq
    have hs' : Sibs h n (b ++ x :: r) := by rwa [hns] at hs
    simp only [heq, hp_cons] at hm
    rw [hm]
    refine ret_bind_eq m.cost rfl ?_
    have hch : ChainOK rx h n ((c :: cs) ++ []) := by simpa using hc.append
    obtain ⟨q, r1, _, r3⟩ := rangeLoop_eq hch (x :: r) b (some x.ptr) hs' (conv sub)
    simp only [← hns, List.append_nil, hd_cons, hd_nil, hp_cons, hp_nil] at r1
    simp only
    rw [r1]
    refine ret_bind_eq 0 rfl ?_
    simp [pure_eq_ret, m]
  | case9 pre again sub c cs nd ns hca heq =>
    have ha := again_eq hc hb
    have hcc := hc.append
    simp only [ChainOK] at hcc
    rw [groupLoop.eq_def]
    simp only [hd_cons, hp_cons, ha, hcc.2.1, hca, Bool.false_eq_true, if_false]
    have hm := matchRuleOnce_all hcc.2.2.2.2.1 (nd :: ns) hs (conv sub)
    simp only [heq, hp_cons] at hm
    rw [hm]
    exact ret_bind_eq 0 rfl (by simp [pure_eq_ret])
  | case10 pre again sub c cs nd ns hca b x s r heq _ sub' t ih1 ih2 =>
    have ha := again_eq hc hb
    have hcc := hc.append
    simp only [ChainOK] at hcc
    rw [groupLoop.eq_def]
    simp only [hd_cons, hp_cons, ha, hcc.2.1, hca, Bool.false_eq_true, if_false]
    have hm := matchRuleOnce_all hcc.2.2.2.2.1 (nd :: ns) hs (conv sub)
    simp only [heq, hp_cons] at hm
    rw [hm]
    have hns := once_some heq
    have hs' : Sibs h n (b ++ x :: r) := by rwa [hns] at hs
    refine ret_bind_eq t.cost rfl ?_
    simp only [hs'.at.2.1, lift_pure, pure_bind, hcc.2.2.1]
    cases hg : c.greedy with
    | true =>
      have ih' := ih1 res hc hf hs'.at.2.2.2 ⟨c, cs, _, x, rfl, hg, rfl⟩
      simp only [t, hg, if_true]
      refine Eq.trans ?_ ih'
      simp [sub']
    | false =>
      have ih' := ih2 res (by simpa using hc) (by simpa [hd] using hf) hs'.at.2.2.2
        (Or.inr ⟨_, c, x, rfl, by simp⟩)
      simp only [t, hg, Bool.false_eq_true, if_false, hcc.1]
      refine Eq.trans ?_ ih'
      simp [sub']

/-! ## Groups -/

theorem matchRuleGroup_eq {c : CR RulePtr Loc} {cs : List (CR RulePtr Loc)} {l : Loc} {ls : List Loc}
    (hc : ChainOK rx h n (c :: cs)) (hs : Sibs h n (l :: ls)) :
    matchRuleGroup rx h (some c.id) (some l.ptr) [] =
      ret (group [] (c :: cs) false (l :: ls) []).cost
        (hp (group [] (c :: cs) false (l :: ls) []).val.2, conv (group [] (c :: cs) false (l :: ls) []).val.1) := by
  rw [matchRuleGroup.eq_def]
  have := groupLoop_eq c.id [] (c :: cs) false (l :: ls) [] [] (by simpa using hc) (by simp) hs (Or.inl rfl)
  simpa using this

theorem isEmpty_conv (p : Pairs RulePtr Loc) : (conv p).length > 0 ↔ p.isEmpty = false := by
  simp [conv, List.length_pos_iff]

theorem saveLoop_eq {c : CR RulePtr Loc} {cs : List (CR RulePtr Loc)} (hc : ChainOK rx h n (c :: cs))
    (k : Nat) (ls : List Loc) (hk : ls.length ≤ k) (hs : Sibs h n ls) (res : List MatchingNodes) :
    saveLoop rx h c.id (hp ls) res =
      ret (groups (c :: cs) ls).cost (res ++ (groups (c :: cs) ls).val.map conv) := by
  induction k generalizing ls res with
  | zero =>
    have : ls = [] := by cases ls <;> simp at hk ⊢
    subst this
    rw [saveLoop.eq_def]
    simp [groups, pure_eq_ret]
  | succ k ih =>
    cases ls with
    | nil =>
      rw [saveLoop.eq_def]
      simp [groups, pure_eq_ret]
    | cons l ls =>
      rw [saveLoop.eq_def]
      simp only [hp_cons, matchRuleGroup_eq hc hs]
      rw [groups]
      have hlt := group_lt c cs false l ls []
      have hsf := group_suffix [] (c :: cs) false (l :: ls) []
      have hsg := hs.suffix hsf
      generalize group [] (c :: cs) false (l :: ls) [] = g at *
      have ih := ih g.val.2 (by simp at hk hlt; omega) hsg
      refine ret_bind_eq (groups (c :: cs) g.val.2).cost rfl ?_
      simp only [ih]
      by_cases he : g.val.1.isEmpty = true
      · have : ¬ (conv g.val.1).length > 0 := by rw [isEmpty_conv]; simp [he]
        simp only [this, if_false, he, if_true]
      · have : (conv g.val.1).length > 0 := by rw [isEmpty_conv]; simpa using he
        simp only [this, if_true, he, if_false]
        simp

theorem childLoop_eq {c : CR RulePtr Loc} {cs : List (CR RulePtr Loc)} (hc : ChainOK rx h n (c :: cs))
    (k : Nat) (l : Loc) (ls : List Loc) (hk : (l :: ls).length ≤ k) (hs : Sibs h n (l :: ls)) (m : Bool)
    (res : MatchingNodes) :
    childLoop rx h c.id l.ptr m res =
      ret (groups (c :: cs) (l :: ls)).cost
        (m || !(groups (c :: cs) (l :: ls)).val.isEmpty || (firstMand (c :: cs)).isNone,
          res ++ conv (groups (c :: cs) (l :: ls)).val.flatten) := by
  induction k generalizing l ls m res with
  | zero => simp at hk
  | succ k ih =>
    rw [childLoop.eq_def]
    have hfm := findMandatory_none hc
    simp only [hd_cons] at hfm
    simp only [matchRuleGroup_eq hc hs, hfm, lift_pure, pure_bind]
    rw [groups]
    have hlt := group_lt c cs false l ls []
    have hsf := group_suffix [] (c :: cs) false (l :: ls) []
    have hsg := hs.suffix hsf
    generalize group [] (c :: cs) false (l :: ls) [] = g at *
    refine ret_bind_eq (groups (c :: cs) g.val.2).cost rfl ?_
    have hif : ((conv g.val.1).length > 0) = (g.val.1.isEmpty = false) := propext (isEmpty_conv _)
    simp only [hif]
    cases hg : g.val.2 with
    | nil =>
      simp only [hp_nil, groups, pure_eq_ret]
      congr 1
      cases he : g.val.1.isEmpty <;> cases hm : firstMand (c :: cs) <;> cases m <;> simp
    | cons l' ls' =>
      have hlen : (l' :: ls').length ≤ k := by rw [hg] at hlt; simp at hk hlt ⊢; omega
      rw [hg] at hsg
      have ih := ih l' ls' hlen hsg
      simp only [hp_cons, ih]
      congr 1
      cases he : g.val.1.isEmpty <;> cases hm : firstMand (c :: cs) <;> cases m <;> simp

/-! ## Descending -/

theorem tick_eq (k : M (List MatchingNodes)) :
    (do
      let ms ← get
      if ms != 0 then
        let ms := ms - 1
        set ms
        if ms == 0 then throw .maxSearch
      k : M (List MatchingNodes)) = (ret 1 () >>= fun _ => k) := by
  funext s
  by_cases h0 : s = 0
  · subst h0
    rfl
  · have h1 : (s != 0) = true := by simpa using h0
    show (if (s != 0) = true then _ else _ : M (List MatchingNodes)) s = _
    rw [if_pos h1]
    have hlhs : ∀ (a b : M (List MatchingNodes)), (if (s - 1 == 0) = true then a else b) (s - 1)
        = (if (s - 1 == 0) = true then a (s - 1) else b (s - 1)) := by intros; split <;> rfl
    have hrhs : (ret 1 () >>= fun _ => k) s = (charge 1 s >>= fun p => k p.2) := by
      simp only [ret, bind_assoc, pure_bind]; rfl
    rw [hrhs]
    simp only [charge, h0, if_false]
    by_cases h2 : s = 1
    · subst h2
      rfl
    · have h3 : 1 < s.toNat := by
        have a : s.toNat ≠ 0 := fun h => h0 (UInt64.toNat_inj.1 (by simpa using h))
        have b : s.toNat ≠ 1 := fun h => h2 (UInt64.toNat_inj.1 (by simpa using h))
        omega
      have h4 : (s - 1 == 0) = false := by
        simp only [beq_eq_false_iff_ne]
        intro h
        apply h2
        have := congrArg (· + 1) h
        simpa using this
      rw [if_pos h3]
      show (if (s - 1 == 0) = true then _ else _ : M (List MatchingNodes)) (s - 1) = _
      rw [if_neg (by simp [h4])]
      rfl

theorem saveMatchingNodes_unfold (r : RulePtr) (node : Ptr) (res : List MatchingNodes) :
    saveMatchingNodesRecursive rx h r node res = (ret 1 () >>= fun _ => do
      let res ← saveLoop rx h r (some node) res
      saveDescend rx h r node res) := by
  rw [saveMatchingNodesRecursive.eq_def]
  exact tick_eq _

mutual
theorem descend_eq {c : CR RulePtr Loc} {cs : List (CR RulePtr Loc)} (hc : ChainOK rx h n (c :: cs))
    (t : Tree) (l : Loc) (hl : l.self = t) (hst : l.Stored h n) (res : List MatchingNodes) (k : Ptr)
    (ks : List Ptr) (hk : t.kids.map Tree.ptr = k :: ks) (he : t.kind.isElement = true) :
    saveMatchingNodesRecursive rx h c.id k res =
      ret (descend (c :: cs) t).cost (res ++ (descend (c :: cs) t).val.map conv) := by
  match t, hl with
  | .node p kd kids, hl =>
    simp only [Tree.kids, Tree.kind] at hk he
    cases kids with
    | nil => simp at hk
    | cons kid kids =>
      simp only [List.map_cons, List.cons.injEq] at hk
      have hs := sibs_locs hst (by rw [hl]; exact he)
      simp only [hl, Tree.kids] at hs
      have e1 := saveLoop_eq hc _ (locs (kid :: kids)) (Nat.le_refl _) hs res
      have e2 := descendL_eq hc (kid :: kids) (locs (kid :: kids)) (locs_self _) hs ⟨true, [], kid, kids⟩
        (locsAux [kid] kids) rfl (res ++ (groups (c :: cs) (locs (kid :: kids))).val.map conv)
      have hk1 : k = kid.ptr := hk.1.symm
      subst hk1
      rw [saveMatchingNodes_unfold]
      cases kd <;> simp [Kind.isElement] at he
      simp only [descend, List.isEmpty_cons, Bool.false_eq_true, if_false]
      refine ret_bind_eq ((groups (c :: cs) (locs (kid :: kids))).cost + (descendL (c :: cs) (kid :: kids)).cost) (by omega) ?_
      have : hp (locs (kid :: kids)) = some kid.ptr := rfl
      rw [this] at e1
      rw [e1]
      refine ret_bind_eq _ rfl ?_
      refine e2.trans ?_
      simp
theorem descendL_eq {c : CR RulePtr Loc} {cs : List (CR RulePtr Loc)} (hc : ChainOK rx h n (c :: cs))
    (ts : List Tree) (ls : List Loc) (hls : ls.map (·.self) = ts) (hs : Sibs h n ls) (l : Loc) (ls' : List Loc)
    (hl : ls = l :: ls') (res : List MatchingNodes) :
    saveDescend rx h c.id l.ptr res =
      ret (descendL (c :: cs) ts).cost (res ++ (descendL (c :: cs) ts).val.map conv) := by
  match ts with
  | [] => subst hl; simp at hls
  | t :: ts =>
    subst hl
    simp only [List.map_cons, List.cons.injEq] at hls
    obtain ⟨hst, hnx, _, htl⟩ := hs.tail
    obtain ⟨pp, i, hld⟩ := hst.load
    rw [saveDescend.eq_def]
    simp only [load_eq hld, lift_pure, pure_bind, hnx]
    have step : (if l.self.kind.isElement && (l.self.kids.map Tree.ptr).length != 0 then do
          let k ← (liftM (getAt (l.self.kids.map Tree.ptr) 0) : M _)
          saveMatchingNodesRecursive rx h c.id k res
        else pure res) = ret (descend (c :: cs) t).cost (res ++ (descend (c :: cs) t).val.map conv) := by
      split
      · rename_i hcond
        simp only [Bool.and_eq_true] at hcond
        cases hkids : l.self.kids.map Tree.ptr with
        | nil => simp [hkids] at hcond
        | cons k ks =>
          simp only [getAt, List.getElem?_cons_zero, lift_pure, pure_bind]
          exact descend_eq hc t l hls.1 hst res k ks (by rw [← hls.1]; exact hkids) (by rw [← hls.1]; exact hcond.1)
      · rename_i hcond
        have : descend (c :: cs) t = ⟨[], 0⟩ := by
          rw [← hls.1]
          revert hcond
          generalize l.self = u
          intro hcond
          cases u with
          | node p kd kids =>
            simp only [Tree.kind, Tree.kids] at hcond
            cases kd <;> simp [Kind.isElement] at hcond <;> simp [descend, hcond]
        rw [this]; simp [pure_eq_ret]
    have tail : ∀ res : List MatchingNodes, (match hp ls' with
        | none => (pure res : M _)
        | some nx => saveDescend rx h c.id nx res) =
        ret (descendL (c :: cs) ts).cost (res ++ (descendL (c :: cs) ts).val.map conv) := by
      intro res
      cases hls' : ls' with
      | nil =>
        rw [hls'] at hls
        simp at hls
        rw [hls.2]
        simp [descendL, pure_eq_ret]
      | cons l2 ls2 =>
        simp only [hp_cons]
        exact descendL_eq hc ts ls' hls.2 htl l2 ls2 hls' res
    have : (ret (descend (c :: cs) t).cost (res ++ (descend (c :: cs) t).val.map conv) >>= fun res =>
        (match hp ls' with
        | none => (pure res : M _)
        | some nx => saveDescend rx h c.id nx res)) =
        ret (descendL (c :: cs) (t :: ts)).cost (res ++ (descendL (c :: cs) (t :: ts)).val.map conv) := by
      refine ret_bind_eq (descendL (c :: cs) ts).cost (by simp [descendL]) ?_
      rw [tail]
      simp [descendL]
    rw [← step] at this
    refine Eq.trans ?_ this
    split
    · rw [bind_assoc]; rfl
    · rw [pure_bind]; rfl
end

theorem save_eq {c : CR RulePtr Loc} {cs : List (CR RulePtr Loc)} (hc : ChainOK rx h n (c :: cs))
    (l : Loc) (ls : List Loc) (hs : Sibs h n (l :: ls)) (res : List MatchingNodes) :
    saveMatchingNodesRecursive rx h c.id l.ptr res =
      ret (save (c :: cs) (l :: ls)).cost (res ++ (save (c :: cs) (l :: ls)).val.map conv) := by
  rw [saveMatchingNodes_unfold]
  refine ret_bind_eq ((groups (c :: cs) (l :: ls)).cost + (descendL (c :: cs) ((l :: ls).map (·.self))).cost)
    (by simp [save]; omega) ?_
  have e1 := saveLoop_eq hc _ (l :: ls) (Nat.le_refl _) hs res
  simp only [hp_cons] at e1
  rw [e1]
  refine ret_bind_eq _ rfl ?_
  refine (descendL_eq hc _ (l :: ls) rfl hs l ls rfl _).trans ?_
  simp [save]

/-! ## Rules -/

/-- The nested rules as chains in memory. -/
def NestedOK (rx : RxEngine) (h : Heap) (n : Nat) : List RulePtr → List (List (CR RulePtr Loc)) → Prop
  | [], [] => True
  | r :: rs, cs :: css => hd cs = some r ∧ ChainOK rx h n cs ∧ NestedOK rx h n rs css
  | _, _ => False

theorem nestedLoop_eq {rs : List RulePtr} {css : List (List (CR RulePtr Loc))} (hn : NestedOK rx h n rs css)
    (kid : Tree) (kids : List Tree) (hs : Sibs h n (locs (kid :: kids))) (res : MatchingNodes) :
    nestedLoop rx h rs kid.ptr res =
      ret (nestedRun (kid :: kids) css).cost ((nestedRun (kid :: kids) css).val.map fun ps => res ++ conv ps) := by
  induction rs generalizing css res with
  | nil =>
    cases css with
    | nil => rw [nestedLoop.eq_def]; simp [nestedRun, pure_eq_ret]
    | cons cs css => simp [NestedOK] at hn
  | cons r rs ih =>
    cases css with
    | nil => simp [NestedOK] at hn
    | cons cs css =>
      simp only [NestedOK] at hn
      obtain ⟨hh, hc, hn⟩ := hn
      cases cs with
      | nil => simp at hh
      | cons c cs =>
        simp only [hd_cons, Option.some.injEq] at hh
        subst hh
        rw [nestedLoop.eq_def]
        have e1 := save_eq hc ⟨true, [], kid, kids⟩ (locsAux [kid] kids) hs []
        have : (⟨true, [], kid, kids⟩ : Loc).ptr = kid.ptr := rfl
        rw [this] at e1
        have hfm := findMandatory_none hc
        simp only [hd_cons] at hfm
        simp only [e1, List.nil_append, hfm, lift_pure, pure_bind]
        have hl : (⟨true, [], kid, kids⟩ : Loc) :: locsAux [kid] kids = locs (kid :: kids) := rfl
        rw [hl]
        simp only [nestedRun]
        generalize save (c :: cs) (locs (kid :: kids)) = s
        have he : (s.val.map conv).isEmpty = s.val.isEmpty := by simp
        by_cases hx : (s.val.isEmpty && (firstMand (c :: cs)).isSome) = true
        · simp only [hx, if_true]
          refine ret_bind_eq 0 rfl ?_
          simp only [he, Option.isSome_map, hx, if_true, pure_eq_ret]
          rfl
        · simp only [hx, if_false]
          refine (ret_bind_eq (nestedRun (kid :: kids) css).cost (k := s.cost + (nestedRun (kid :: kids) css).cost) rfl
            (b := (nestedRun (kid :: kids) css).val.map fun ps => res ++ (s.val.map conv).flatten ++ conv ps) ?_).trans ?_
          · simp only [he, Option.isSome_map, hx, if_false]
            exact ih hn (res ++ (s.val.map conv).flatten)
          · cases hv : (nestedRun (kid :: kids) css).val with
            | none => rfl
            | some ps => simp [conv_flatten]

/-- The value of a rule's own tag and conditions on a node. -/
def ownVal (rx : RxEngine) (h : Heap) (i : RuleInfo) (l : Loc) : Bool :=
  decide (ruleMatches rx h i l.ptr = pure true)

theorem ownVal_eq (hn : n ≤ 2147483647) {i : RuleInfo} (hi : i.Safe n) {l : Loc} (hs : l.Stored h n) :
    ruleMatches rx h i l.ptr = pure (ownVal rx h i l) := by
  obtain ⟨b, hb⟩ := ruleMatches_total rx hs hn i hi
  unfold ownVal
  rw [hb]
  cases b with
  | true => simp
  | false =>
    have : (pure false : E Bool) ≠ pure true := by intro h; exact absurd (E.pure_inj h) (by simp)
    simp [this]

theorem run_eq (hn : n ≤ 2147483647) {p : RulePtr} (hi : p.val.info.Safe n)
    {child : List (CR RulePtr Loc)} {nested : List (List (CR RulePtr Loc))}
    (h1 : p.child = hd child) (h2 : ChainOK rx h n child) (h3 : NestedOK rx h n p.nested nested)
    (l : Loc) (hl : l.Stored h n) (res : MatchingNodes) :
    ruleMatchesNodeRecursive rx h p l.ptr res =
      ret (runRule (ownVal rx h p.val.info) child nested l).cost
        (match (runRule (ownVal rx h p.val.info) child nested l).val with
          | none => (false, res)
          | some s => (true, res ++ conv s)) := by
  rw [ruleMatchesNodeRecursive.eq_def]
  simp only [ownVal_eq hn hi hl, lift_pure, pure_bind]
  unfold runRule
  cases ho : ownVal rx h p.val.info l with
  | false => simp [pure_eq_ret]
  | true =>
    simp only [Bool.not_true, Bool.false_eq_true, if_false]
    have hce : p.child.isNone = child.isEmpty := by rw [h1]; cases child <;> simp
    have hne : p.nested.isEmpty = nested.isEmpty := by
      cases hp : p.nested <;> cases nested <;> rw [hp] at h3 <;> simp [NestedOK] at h3 ⊢
    rw [hce, hne]
    by_cases he : (child.isEmpty && nested.isEmpty) = true
    · simp [he, pure_eq_ret]
    · simp only [he, if_false]
      obtain ⟨pp, i, hld⟩ := hl.load
      simp only [load_eq hld, lift_pure, pure_bind]
      have hlen : ((l.self.kids.map Tree.ptr).length == 0) = l.self.kids.isEmpty := by
        cases l.self.kids <;> simp
      rw [hlen]
      by_cases hk : (!l.self.kind.isElement || l.self.kids.isEmpty) = true
      · simp [hk, pure_eq_ret]
      · simp only [hk, if_false]
        simp only [Bool.or_eq_true, Bool.not_eq_true', not_or, Bool.not_eq_false, Bool.not_eq_true] at hk
        have hs := sibs_locs hl hk.1
        cases hkids : l.self.kids with
        | nil => simp [hkids] at hk
        | cons kid kids =>
          rw [hkids] at hs
          simp only [getAt, List.map_cons, List.getElem?_cons_zero, lift_pure, pure_bind]
          have tail : ∀ sub : Pairs RulePtr Loc, (do
              match ← nestedLoop rx h p.nested kid.ptr (conv sub) with
              | none => pure (false, res)
              | some subresult => pure (true, res ++ subresult) : M _) =
              ret (nestedRun (kid :: kids) nested).cost
                (match (nestedRun (kid :: kids) nested).val with
                  | none => (false, res)
                  | some ps => (true, res ++ conv (sub ++ ps))) := by
            intro sub
            rw [nestedLoop_eq h3 kid kids hs]
            refine ret_bind_eq 0 rfl ?_
            cases (nestedRun (kid :: kids) nested).val <;> simp [pure_eq_ret]
          cases child with
          | nil =>
            simp only [hd_nil] at h1
            simp only [h1, pure_bind, List.isEmpty_nil, if_true, Bool.not_true, Bool.false_eq_true, if_false,
              Bool.true_or]
            have := tail []
            simp only [conv_nil] at this
            refine Eq.trans this ?_
            cases (nestedRun (kid :: kids) nested).val <;> simp
          | cons c cs =>
            simp only [hd_cons] at h1
            simp only [h1, List.isEmpty_cons, Bool.false_eq_true, if_false, Bool.false_or]
            have e1 := childLoop_eq h2 _ ⟨true, [], kid, kids⟩ (locsAux [kid] kids) (Nat.le_refl _) hs false []
            have : (⟨true, [], kid, kids⟩ : Loc).ptr = kid.ptr := rfl
            rw [this] at e1
            rw [e1]
            have hlc : (⟨true, [], kid, kids⟩ : Loc) :: locsAux [kid] kids = locs (kid :: kids) := rfl
            rw [hlc]
            generalize groups (c :: cs) (locs (kid :: kids)) = g
            simp only [Bool.false_or, List.nil_append]
            by_cases hm : (!g.val.isEmpty || (firstMand (c :: cs)).isNone) = true
            · simp only [hm, if_true]
              refine ret_bind_eq (nestedRun (kid :: kids) nested).cost ?_ ?_
              · cases (nestedRun (kid :: kids) nested).val <;> rfl
              · simp only [Bool.not_true, Bool.false_eq_true, if_false]
                refine (tail g.val.flatten).trans ?_
                cases (nestedRun (kid :: kids) nested).val <;> simp
            · simp only [hm, if_false]
              refine ret_bind_eq 0 rfl ?_
              simp only [Bool.not_eq_true] at hm
              simp [hm, pure_eq_ret]

theorem chain_addr_length (own : RuleInfo → Loc → Bool) (r : Rule) (addr : List Step) :
    ∀ c ∈ chain own addr r, addr.length ≤ c.id.addr.length := by
  match r with
  | .mk i ch nx ns =>
    intro c hc
    simp only [chain, List.mem_cons] at hc
    rcases hc with rfl | hc
    · simp
    · cases nx with
      | none => simp [chainO] at hc
      | some nx =>
        simp only [chainO] at hc
        have := chain_addr_length own nx (addr ++ [.next]) c hc
        simp at this; omega

theorem hd_chain (own : RuleInfo → Loc → Bool) (r : Rule) (addr : List Step) :
    hd (chain own addr r) = some ⟨addr, r⟩ := by
  cases r; simp [chain]

mutual
theorem chain_ok (hn : n ≤ 2147483647) (r : Rule) (hr : r.All (RuleInfo.Safe n)) (addr : List Step) :
    ChainOK rx h n (chain (ownVal rx h) addr r) := by
  match r with
  | .mk i ch nx ns =>
    simp only [Rule.All] at hr
    simp only [chain, ChainOK]
    have hnx := chainO_ok hn nx hr.2.2.1 (addr ++ [.next])
    have hch := chainO_ok hn ch hr.2.1 (addr ++ [.child])
    have hns := chainN_ok hn ns hr.2.2.2 addr 0
    refine ⟨?_, rfl, rfl, ?_, ?_, hnx⟩
    · cases nx with
      | none => rfl
      | some nx => simp only [chainO]; exact (hd_chain _ nx _).symm
    · intro d hd
      cases nx with
      | none => simp [chainO] at hd
      | some nx =>
        simp only [chainO] at hd
        have := chain_addr_length _ nx _ d hd
        intro he
        simp at he this
        rw [← he] at this
        omega
    · intro l hl res
      refine run_eq (p := ⟨addr, .mk i ch nx ns⟩) hn hr.1 ?_ hch ?_ l hl res
      · cases ch with
        | none => rfl
        | some ch => simp only [chainO]; exact (hd_chain _ ch _).symm
      · exact hns
theorem chainO_ok (hn : n ≤ 2147483647) (r : Option Rule) (hr : Rule.AllO (RuleInfo.Safe n) r) (addr : List Step) :
    ChainOK rx h n (chainO (ownVal rx h) addr r) := by
  match r with
  | none => simp [chainO, ChainOK]
  | some r => simp only [Rule.AllO] at hr; simp only [chainO]; exact chain_ok hn r hr addr
theorem chainN_ok (hn : n ≤ 2147483647) (rs : List Rule) (hr : Rule.AllL (RuleInfo.Safe n) rs) (addr : List Step)
    (k : Nat) :
    NestedOK rx h n ((rs.zipIdx k).map fun (r, i) => ⟨addr ++ [.nested i], r⟩) (chainN (ownVal rx h) addr k rs) := by
  match rs with
  | [] => simp [chainN, NestedOK]
  | r :: rs =>
    simp only [Rule.AllL] at hr
    simp only [chainN, List.zipIdx_cons, List.map_cons, NestedOK]
    exact ⟨hd_chain _ r _, chain_ok hn r hr.1 _, chainN_ok hn rs hr.2 addr (k + 1)⟩
end

/-- The pure search started by `extract` at a location. -/
def searchAt (rx : RxEngine) (h : Heap) (r : Rule) (l : Loc) : W (List (Pairs RulePtr Loc)) :=
  save (chain (ownVal rx h) [] r) l.onward

theorem search_eq (hn : n ≤ 2147483647) (r : Rule) (hr : r.Safe n) (l : Loc) (hl : l.Stored h n) :
    saveMatchingNodesRecursive rx h ⟨[], r⟩ l.ptr [] =
      ret (searchAt rx h r l).cost ((searchAt rx h r l).val.map conv) := by
  have hc := chain_ok (rx := rx) (h := h) hn r hr []
  have hs := sibs_onward hl
  unfold searchAt
  cases hcc : chain (ownVal rx h) [] r with
  | nil => have := hd_chain (ownVal rx h) r []; rw [hcc] at this; simp at this
  | cons c cs =>
    have h1 := hd_chain (ownVal rx h) r []
    rw [hcc] at hc h1
    simp only [hd_cons, Option.some.injEq] at h1
    rw [← h1]
    have := save_eq hc l _ hs []
    simpa [Loc.onward] using this

end Hext
