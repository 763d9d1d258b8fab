import Verif.Spec.Amount
import Verif.Proofs.Result
import Verif.Proofs.Similar
set_option linter.unusedSimpArgs false
/-!
# How much a result can contain: lemmas
-/

namespace Hext.Amount

section
variable {ρ α : Type} (f : ρ → Nat) (M : α → Nat)

/-- The weight of pairs. -/
def weight (ps : Pairs ρ α) : Nat := (ps.map fun p => f p.1).sum

@[simp] theorem weight_nil : weight f ([] : Pairs ρ α) = 0 := rfl
@[simp] theorem weight_cons (p : ρ × α) (ps : Pairs ρ α) : weight f (p :: ps) = f p.1 + weight f ps := by simp [weight]
@[simp] theorem weight_append (ps qs : Pairs ρ α) : weight f (ps ++ qs) = weight f ps + weight f qs := by simp [weight]

def total (ns : List α) : Nat := (ns.map M).sum

@[simp] theorem total_nil : total M [] = 0 := rfl
@[simp] theorem total_cons (x : α) (ns : List α) : total M (x :: ns) = M x + total M ns := by simp [total]
@[simp] theorem total_append (a b : List α) : total M (a ++ b) = total M a + total M b := by simp [total]

/-- A match of the rule on a node weighs at most what the node allows. -/
def Within (c : CR ρ α) : Prop := ∀ x s, (c.run x).val = some s → weight f s + f c.id ≤ M x

variable {f M}

theorem once_run {c : CR ρ α} : ∀ {ns : List α} {b x s r}, (once c ns).val = some (b, x, s, r) → (c.run x).val = some s
  | [], _, _, _, _, h => by simp [once] at h
  | y :: ys, b, x, s, r, h => by
    unfold once at h
    split at h
    · next hs => simp at h; obtain ⟨_, rfl, rfl, _⟩ := h; exact hs
    · split at h
      · simp at h
      · next heq =>
        simp at h
        obtain ⟨_, rfl, rfl, _⟩ := h
        exact once_run heq

theorem once_total {c : CR ρ α} (hc : Within f M c) {ns b x s r} (h : (once c ns).val = some (b, x, s, r)) :
    total M b + (weight f s + f c.id) + total M r ≤ total M ns := by
  rw [once_some h, total_append, total_cons]
  have := hc x s (once_run h)
  omega

theorem rangeGreedy_total {c : CR ρ α} (hc : Within f M c) (ns : List α) :
    weight f (rangeGreedy c ns).val.1 + total M (rangeGreedy c ns).val.2 ≤ total M ns := by
  fun_induction rangeGreedy c ns with
  | case1 ns h => simp
  | case2 ns b x s r h _ t ih =>
    have := once_total hc h
    simp only [weight_append, weight_cons]
    simp only [t] at *
    omega

theorem range_total : ∀ {cs : List (CR ρ α)}, (∀ c ∈ cs, Within f M c) → ∀ (ns : List α),
    weight f (range cs ns).val.1 + total M ((range cs ns).val.2.getD []) ≤ total M ns
  | [], _, ns => by simp [range]
  | c :: cs, h, ns => by
    have hc := h c (by simp)
    have hcs : ∀ c ∈ cs, Within f M c := fun c hc => h c (by simp [hc])
    unfold range
    split
    · have h1 := rangeGreedy_total hc ns
      have h2 := range_total hcs (rangeGreedy c ns).val.2
      simp only [weight_append]
      omega
    · simp only
      split
      · exact range_total hcs ns
      · next b x s r heq =>
        have h1 := once_total hc heq
        have h2 := range_total hcs r
        simp only [weight_append, weight_cons]
        split
        · next he =>
          have : cs = [] := by simpa using he
          subst this
          simp only [range, weight_nil, Option.getD_some]
          omega
        · omega

theorem splitMand_mem : ∀ {cs : List (CR ρ α)} {o m r}, splitMand cs = some (o, m, r) →
    (∀ c ∈ o, c ∈ cs) ∧ m ∈ cs ∧ ∀ c ∈ r, c ∈ cs
  | [], _, _, _, h => by simp [splitMand] at h
  | c :: cs, o, m, r, h => by
    unfold splitMand at h
    split at h
    · split at h
      · cases h
      · next o' m' r' heq =>
        simp only [Option.some.injEq, Prod.mk.injEq] at h
        obtain ⟨rfl, rfl, rfl⟩ := h
        obtain ⟨h1, h2, h3⟩ := splitMand_mem heq
        refine ⟨fun c hc => ?_, by simp [h2], fun c hc => by simp [h3 c hc]⟩
        rcases List.mem_cons.1 hc with rfl | hc
        · simp
        · simp [h1 c hc]
    · simp only [Option.some.injEq, Prod.mk.injEq] at h
      obtain ⟨rfl, rfl, rfl⟩ := h
      exact ⟨by simp, by simp, fun c hc => by simp [hc]⟩

theorem group_total (pre cs : List (CR ρ α)) (again : Bool) (ns : List α) (sub : Pairs ρ α)
    (hcs : ∀ c ∈ cs, Within f M c) :
    weight f (group pre cs again ns sub).val.1 + total M (group pre cs again ns sub).val.2 ≤ weight f sub + total M ns := by
  fun_induction group pre cs again ns sub with
  | case1 => simp
  | case2 => simp
  | case3 => simp
  | case4 => simp
  | case5 pre again sub c cs n ns hc opts stop rest hs b x s r h _ m t ih =>
    obtain ⟨k1, k2, k3⟩ := splitMand_mem hs
    have h1 := once_total (hcs stop (by simp [k2])) h
    have h2 := range_total (cs := c :: opts) (fun c' hc' => by
      rcases List.mem_cons.1 hc' with rfl | hc'
      · exact hcs _ (by simp)
      · exact hcs _ (by simp [k1 _ hc'])) b
    have h3 := ih fun c' hc' => hcs c' (by simp [k3 c' hc'])
    simp only [weight_append, weight_cons, weight_nil, t, m] at h3 ⊢
    omega
  | case6 pre again sub c cs n ns hc hs hf m =>
    have h2 := range_total (cs := c :: cs) hcs (n :: ns)
    simp only [weight_append]
    simp only [m]
    omega
  | case7 pre again sub c cs n ns hc hs stop hf o h m =>
    have h2 := range_total (cs := c :: cs) hcs (n :: ns)
    simp only [weight_append, total_nil]
    simp only [m]
    omega
  | case8 pre again sub c cs n ns hc hs stop hf o b x s r h m =>
    have h2 := range_total (cs := c :: cs) hcs b
    have e := once_some (c := stop) h
    rw [e, total_append]
    simp only [weight_append]
    simp only [m]
    omega
  | case9 => simp
  | case10 pre again sub c cs n ns hc b x s r h _ sub' t ih1 ih2 =>
    have h1 := once_total (hcs c (by simp)) h
    have h2 : weight f t.val.1 + total M t.val.2 ≤ weight f sub' + total M r := by
      simp only [t]
      split
      · exact ih1 hcs
      · exact ih2 fun c' hc' => hcs c' (by simp [hc'])
    simp only [sub', weight_append, weight_cons, weight_nil] at h2
    show weight f t.val.1 + total M t.val.2 ≤ _
    omega

/-- The weight of groups. -/
def weights (f : ρ → Nat) (gs : List (Pairs ρ α)) : Nat := (gs.map (weight f)).sum

@[simp] theorem weights_nil : weights f ([] : List (Pairs ρ α)) = 0 := rfl
@[simp] theorem weights_cons (g : Pairs ρ α) (gs) : weights f (g :: gs) = weight f g + weights f gs := by simp [weights]
@[simp] theorem weights_append (a b : List (Pairs ρ α)) : weights f (a ++ b) = weights f a + weights f b := by simp [weights]
theorem weight_flatten (gs : List (Pairs ρ α)) : weight f gs.flatten = weights f gs := by
  induction gs with
  | nil => rfl
  | cons g gs ih => simp [ih]

theorem groups_total (cs : List (CR ρ α)) (hcs : ∀ c ∈ cs, Within f M c) (ns : List α) :
    weights f (groups cs ns).val ≤ total M ns := by
  fun_induction groups cs ns with
  | case1 => simp
  | case2 => simp
  | case3 c cs n ns g _ t ih =>
    have h1 := group_total [] (c :: cs) false (n :: ns) [] hcs
    have h2 := ih hcs
    simp only [weight_nil] at h1
    simp only [g, t] at *
    split
    · omega
    · rw [weights_cons]; omega

theorem groups_length (cs : List (CR ρ α)) (ns : List α) : (groups cs ns).val.length ≤ ns.length := by
  fun_induction groups cs ns with
  | case1 => simp
  | case2 => simp
  | case3 c cs n ns g h t ih =>
    simp only [t, g] at *
    split
    · omega
    · rw [List.length_cons]; omega

end

/-! ## Trees -/

mutual
/-- The sum over all nodes of a tree. -/
def sumT (g : Tree → Nat) : Tree → Nat
  | .node p k kids => g (.node p k kids) + sumL g kids
def sumL (g : Tree → Nat) : List Tree → Nat
  | [] => 0
  | t :: ts => sumT g t + sumL g ts
end

/-- The sum over all nodes strictly below. -/
def below (g : Tree → Nat) (t : Tree) : Nat := sumL g t.kids

theorem sumT_eq (g : Tree → Nat) (t : Tree) : sumT g t = g t + below g t := by cases t; rfl

mutual
theorem sumT_one : ∀ t : Tree, sumT (fun _ => 1) t = t.size
  | .node _ _ kids => by rw [sumT, sumL_one kids, Tree.size]
theorem sumL_one : ∀ ts : List Tree, sumL (fun _ => 1) ts = Tree.sizeL ts
  | [] => rfl
  | t :: ts => by rw [sumL, sumT_one t, sumL_one ts, Tree.sizeL]
end

mutual
theorem sumT_add (g g' : Tree → Nat) : ∀ t : Tree, sumT (fun x => g x + g' x) t = sumT g t + sumT g' t
  | .node _ _ kids => by simp only [sumT, sumL_add g g' kids]; omega
theorem sumL_add (g g' : Tree → Nat) : ∀ ts : List Tree, sumL (fun x => g x + g' x) ts = sumL g ts + sumL g' ts
  | [] => rfl
  | t :: ts => by simp only [sumL, sumT_add g g' t, sumL_add g g' ts]; omega
end

mutual
theorem sumT_mul (g : Tree → Nat) (k : Nat) : ∀ t : Tree, sumT (fun x => k * g x) t = k * sumT g t
  | .node _ _ kids => by simp only [sumT, sumL_mul g k kids, Nat.mul_add]
theorem sumL_mul (g : Tree → Nat) (k : Nat) : ∀ ts : List Tree, sumL (fun x => k * g x) ts = k * sumL g ts
  | [] => rfl
  | t :: ts => by simp only [sumL, sumT_mul g k t, sumL_mul g k ts, Nat.mul_add]
end

mutual
/-- Every node is the child of at most one node. -/
theorem sumT_kids (g : Tree → Nat) : ∀ t : Tree, sumT (fun x => (x.kids.map g).sum) t ≤ below g t
  | .node p k kids => by
    have := sumL_kids g kids
    simp only [sumT, below, Tree.kids] at *
    omega
theorem sumL_kids (g : Tree → Nat) : ∀ ts : List Tree, sumL (fun x => (x.kids.map g).sum) ts + (ts.map g).sum ≤ sumL g ts
  | [] => by simp [sumL]
  | t :: ts => by
    have h1 := sumT_kids g t
    have h2 := sumL_kids g ts
    have h3 := sumT_eq g t
    simp only [sumL, List.map_cons, List.sum_cons]
    omega
end

mutual
/-- A node has at most so many ancestors as the tree is high. -/
theorem sumT_below (g : Tree → Nat) : ∀ (t : Tree) (k : Nat), t.height ≤ k → sumT (below g) t ≤ k * sumT g t
  | .node p kd kids, k, h => by
    rw [Tree.height] at h
    obtain ⟨k, rfl⟩ : ∃ j, k = j + 1 := ⟨k - 1, by omega⟩
    have := sumL_below g kids k (by omega)
    rw [sumT, below, Tree.kids]
    have e : (k + 1) * sumT g (.node p kd kids) = k * sumL g kids + sumL g kids + (k + 1) * g (.node p kd kids) := by
      rw [sumT, Nat.mul_add, Nat.add_mul k 1 (sumL g kids)]; omega
    omega
theorem sumL_below (g : Tree → Nat) : ∀ (ts : List Tree) (k : Nat), Tree.heightL ts ≤ k → sumL (below g) ts ≤ k * sumL g ts
  | [], k, _ => by simp [sumL]
  | t :: ts, k, h => by
    rw [Tree.heightL] at h
    have h1 := sumT_below g t k (by omega)
    have h2 := sumL_below g ts k (by omega)
    simp only [sumL, Nat.mul_add]
    omega
end

section
variable {f : RulePtr → Nat} {m : Tree → Nat}

theorem locsAux_self : ∀ (b ts : List Tree), (locsAux b ts).map (·.self) = ts
  | _, [] => rfl
  | b, t :: ts => by simp [locsAux, locsAux_self]

theorem total_locs (ts : List Tree) : total (fun l : Loc => m l.self) (locs ts) = (ts.map m).sum := by
  have := locsAux_self [] ts
  unfold total locs
  conv => rhs; rw [← this, List.map_map]
  rfl

variable {cs : List (CR RulePtr Loc)}

mutual
theorem descend_total (hcs : ∀ c ∈ cs, Within f (fun l : Loc => m l.self) c) :
    ∀ t : Tree, weights f (descend cs t).val ≤ below m t
  | .node p k kids => by
    unfold descend
    split
    · split
      · simp
      · have h1 := groups_total cs hcs (locs kids)
        have h2 := descendL_total hcs kids
        rw [total_locs] at h1
        rw [weights_append, below, Tree.kids]
        omega
    · simp
theorem descendL_total (hcs : ∀ c ∈ cs, Within f (fun l : Loc => m l.self) c) :
    ∀ ts : List Tree, weights f (descendL cs ts).val + (ts.map m).sum ≤ sumL m ts
  | [] => by simp [descendL, sumL]
  | t :: ts => by
    have h1 := descend_total hcs t
    have h2 := descendL_total hcs ts
    have h3 := sumT_eq m t
    simp only [descendL, weights_append, sumL, List.map_cons, List.sum_cons]
    omega
end

theorem save_total (hcs : ∀ c ∈ cs, Within f (fun l : Loc => m l.self) c) (ls : List Loc) :
    weights f (save cs ls).val ≤ sumL m (ls.map (·.self)) := by
  have h1 := groups_total cs hcs ls
  have h2 := descendL_total hcs (ls.map (·.self))
  rw [List.map_map] at h2
  unfold save
  rw [weights_append]
  have e : total (fun l : Loc => m l.self) ls = (ls.map (m ∘ (·.self))).sum := rfl
  omega

mutual
theorem descend_length : ∀ t : Tree, (descend cs t).val.length + 1 ≤ t.size
  | .node p k kids => by
    unfold descend
    rw [Tree.size]
    split
    · split
      · simp
      · have h1 := groups_length cs (locs kids)
        have h2 := descendL_length kids
        have e : (locs kids).length = kids.length := by
          have := congrArg List.length (locsAux_self [] kids)
          simpa [locs] using this
        rw [List.length_append]
        omega
    · simp
theorem descendL_length : ∀ ts : List Tree, (descendL cs ts).val.length + ts.length ≤ Tree.sizeL ts
  | [] => by simp [descendL, Tree.sizeL]
  | t :: ts => by
    have h1 := descend_length t
    have h2 := descendL_length ts
    simp only [descendL, Tree.sizeL, List.length_append, List.length_cons]
    omega
end

theorem save_length (ls : List Loc) : (save cs ls).val.length ≤ Tree.sizeL (ls.map (·.self)) := by
  have h1 := groups_length cs ls
  have h2 := descendL_length (cs := cs) (ls.map (·.self))
  unfold save
  rw [List.length_append]
  rw [List.length_map] at h2
  omega

end

/-! ## Rules -/

section
variable (w : RuleInfo → Nat)

mutual
/-- What a chain can weigh on a node. -/
def allow : Rule → Tree → Nat
  | .mk i c nx ns, t => w i + (t.kids.map (allowO c)).sum + allowO nx t + allowL ns t
def allowO : Option Rule → Tree → Nat
  | none, _ => 0
  | some r, t => allow r t
def allowL : List Rule → Tree → Nat
  | [], _ => 0
  | r :: rs, t => below (allow r) t + allowL rs t
end

mutual
/-- The sum of it over all nodes, divided by the number of nodes. -/
def rate (k : Nat) : Rule → Nat
  | .mk i c nx ns => w i + rateO k c + rateO k nx + k * rateL k ns
def rateO (k : Nat) : Option Rule → Nat
  | none => 0
  | some r => rate k r
def rateL (k : Nat) : List Rule → Nat
  | [] => 0
  | r :: rs => rate k r + rateL k rs
end

theorem sumT_const (a : Nat) (t : Tree) : sumT (fun _ => a) t = a * t.size := by
  rw [← sumT_one t, ← sumT_mul]
  simp

mutual
theorem allow_sum {k : Nat} {t : Tree} (hk : t.height ≤ k) : ∀ r : Rule, sumT (allow w r) t ≤ rate w k r * t.size
  | .mk i c nx ns => by
    have h1 := allowO_sum hk c
    have h2 := allowO_sum hk nx
    have h3 := allowL_sum hk ns
    have e : allow w (.mk i c nx ns) =
        fun t => ((w i + (t.kids.map (allowO w c)).sum) + allowO w nx t) + allowL w ns t := by
      funext t; rw [allow]
    have h4 := sumT_kids (allowO w c) t
    have h5 := sumT_eq (allowO w c) t
    rw [e, sumT_add, sumT_add, sumT_add, sumT_const, rate, Nat.add_mul, Nat.add_mul, Nat.add_mul]
    omega
theorem allowO_sum {k : Nat} {t : Tree} (hk : t.height ≤ k) : ∀ r : Option Rule, sumT (allowO w r) t ≤ rateO w k r * t.size
  | none => by
    have : allowO w none = fun _ => 0 := by funext t; rw [allowO]
    rw [this, sumT_const]; simp
  | some r => by
    have : allowO w (some r) = allow w r := by funext t; rw [allowO]
    rw [this, rateO]
    exact allow_sum hk r
theorem allowL_sum {k : Nat} {t : Tree} (hk : t.height ≤ k) : ∀ rs : List Rule, sumT (allowL w rs) t ≤ k * rateL w k rs * t.size
  | [] => by
    have : allowL w [] = fun _ => 0 := by funext t; rw [allowL]
    rw [this, sumT_const]; simp
  | r :: rs => by
    have e : allowL w (r :: rs) = fun t => below (allow w r) t + allowL w rs t := by funext t; rw [allowL]
    have h1 := allow_sum hk r
    have h2 := allowL_sum hk rs
    have h3 := sumT_below (allow w r) t k hk
    have h4 := Nat.mul_le_mul_left k h1
    rw [e, sumT_add, rateL, Nat.mul_add, Nat.add_mul, Nat.mul_assoc k (rate w k r)]
    omega
end

/-- The weight of a rule in a pair. -/
def ruleWeight (p : RulePtr) : Nat := w p.val.info

variable {own : RuleInfo → Loc → Bool}

mutual
theorem chain_within : ∀ (r : Rule) (addr : List Step), ∀ c ∈ chain own addr r,
    Within (ruleWeight w) (fun l : Loc => allow w r l.self) c
  | .mk i ch nx ns, addr, c, hc, x, s, hs => by
    simp only [chain, List.mem_cons] at hc
    rcases hc with rfl | hc
    · simp only [ruleWeight, RulePtr.val, Rule.info]
      simp only [runRule] at hs
      have hg : weights (ruleWeight w) (if (chainO own (addr ++ [.child]) ch).isEmpty then (⟨[], 0⟩ : W _)
          else groups (chainO own (addr ++ [.child]) ch) (locs x.self.kids)).val ≤ (x.self.kids.map (allowO w ch)).sum := by
        split
        · simp
        · have := groups_total (f := ruleWeight w) (M := fun l : Loc => allowO w ch l.self) _
            (chainO_within ch (addr ++ [.child])) (locs x.self.kids)
          rwa [total_locs] at this
      rw [allow]
      generalize (if (chainO own (addr ++ [.child]) ch).isEmpty then (⟨[], 0⟩ : W _)
          else groups (chainO own (addr ++ [.child]) ch) (locs x.self.kids)) = g at hs hg
      split at hs
      · cases hs
      split at hs
      · cases hs; simp; omega
      split at hs
      · cases hs
      split at hs
      · split at hs
        · cases hs
        · next ps hps =>
          simp only [Option.some.injEq] at hs
          subst hs
          have hn := chainN_within ns addr 0 x.self.kids ps hps
          rw [weight_append, weight_flatten]
          have hb := hn x.self rfl
          omega
      · cases hs
    · have := chainO_within nx (addr ++ [.next]) c hc x s hs
      simp only at this ⊢
      rw [allow]
      omega
theorem chainO_within : ∀ (r : Option Rule) (addr : List Step), ∀ c ∈ chainO own addr r,
    Within (ruleWeight w) (fun l : Loc => allowO w r l.self) c
  | none, addr, c, hc => by simp [chainO] at hc
  | some r, addr, c, hc => by
    intro x s hs
    have := chain_within r addr c hc x s hs
    simp only [allowO]
    exact this
theorem chainN_within : ∀ (rs : List Rule) (addr : List Step) (i : Nat) (kids : List Tree) (ps : Pairs RulePtr Loc),
    (nestedRun kids (chainN own addr i rs)).val = some ps → ∀ t : Tree, t.kids = kids → weight (ruleWeight w) ps ≤ allowL w rs t
  | [], addr, i, kids, ps, h, t, _ => by
    simp only [chainN, nestedRun, Option.some.injEq] at h
    subst h
    simp
  | r :: rs, addr, i, kids, ps, h, t, ht => by
    simp only [chainN, nestedRun] at h
    split at h
    · cases h
    · split at h
      · cases h
      · next qs hqs =>
        simp only [Option.some.injEq] at h
        subst h
        have h1 := save_total (f := ruleWeight w) (m := allow w r) (chain_within r (addr ++ [.nested i])) (locs kids)
        have h2 := chainN_within rs addr (i + 1) kids qs hqs t ht
        rw [show (locs kids).map (·.self) = kids from locsAux_self [] kids] at h1
        rw [weight_append, weight_flatten, allowL, below, ht]
        omega
end

/-- The weight of everything that a search finds. -/
theorem search_weight {rx : RxEngine} {h : Heap} (r : Rule) (t : Tree) {k : Nat} (hk : t.height ≤ k) :
    weights (ruleWeight w) (searchAt rx h r (Loc.root t)).val ≤ rate w k r * t.size := by
  have h1 := save_total (f := ruleWeight w) (m := allow w r) (chain_within (own := ownVal rx h) w r []) (Loc.root t).onward
  have e : (Loc.root t).onward.map (·.self) = [t] := rfl
  rw [e] at h1
  have h2 := allow_sum w hk r
  simp only [sumL] at h1
  unfold searchAt
  omega

end

theorem search_length {rx : RxEngine} {h : Heap} (r : Rule) (t : Tree) :
    (searchAt rx h r (Loc.root t)).val.length ≤ t.size := by
  have h1 := save_length (cs := chain (ownVal rx h) [] r) (Loc.root t).onward
  have e : (Loc.root t).onward.map (·.self) = [t] := rfl
  rw [e] at h1
  unfold searchAt
  simpa [Tree.sizeL] using h1

end Hext.Amount
