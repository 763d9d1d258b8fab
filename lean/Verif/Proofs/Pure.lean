import Verif.Model.Matching
import Verif.Spec.Doc
/-!
# Pure form of the matching engine

Structural functions over sibling lists and rule chains that count searches instead of charging a
budget. `Verif/Proofs/Refine.lean` shows that the literal model computes exactly these functions.
-/

namespace Hext

/-- A value together with the number of searches (calls of `SaveMatchingNodesRecursive`) made. -/
structure W (α : Type) where
  val : α
  cost : Nat

namespace W
def map {α β} (f : α → β) (x : W α) : W β := ⟨f x.val, x.cost⟩
def bind {α β} (x : W α) (f : α → W β) : W β := ⟨(f x.val).val, x.cost + (f x.val).cost⟩
instance : Monad W where
  pure a := ⟨a, 0⟩
  bind := W.bind
@[simp] theorem pure_val {α} (a : α) : (pure a : W α).val = a := rfl
@[simp] theorem pure_cost {α} (a : α) : (pure a : W α).cost = 0 := rfl
@[simp] theorem bind_val {α β} (x : W α) (f : α → W β) : (x >>= f).val = (f x.val).val := rfl
@[simp] theorem bind_cost {α β} (x : W α) (f : α → W β) : (x >>= f).cost = x.cost + (f x.val).cost := rfl
def tick : W Unit := ⟨(), 1⟩
end W

section
variable {ρ α : Type}

/-- Matched pairs. -/
abbrev Pairs (ρ α : Type) := List (ρ × α)

/-- A rule of a sibling chain as the engine sees it: an identity, two flags, and a function that tries
it on a node and returns the pairs matched below that node. -/
structure CR (ρ α : Type) where
  id : ρ
  optional : Bool
  greedy : Bool
  run : α → W (Option (Pairs ρ α))

/-- First node that the rule matches: the nodes before it, the node, the pairs below it, the rest. -/
def once (c : CR ρ α) : List α → W (Option (List α × α × Pairs ρ α × List α))
  | [] => ⟨none, 0⟩
  | x :: xs =>
    match (c.run x).val with
    | some sub => ⟨some ([], x, sub, xs), (c.run x).cost⟩
    | none =>
      match (once c xs).val with
      | none => ⟨none, (c.run x).cost + (once c xs).cost⟩
      | some (b, y, s, r) => ⟨some (x :: b, y, s, r), (c.run x).cost + (once c xs).cost⟩

theorem once_some {c : CR ρ α} {ns : List α} {b : List α} {x : α} {s : Pairs ρ α} {r : List α}
    (h : (once c ns).val = some (b, x, s, r)) : ns = b ++ x :: r := by
  induction ns generalizing b with
  | nil => simp [once] at h
  | cons y ys ih =>
    unfold once at h
    split at h
    · simp at h; obtain ⟨rfl, rfl, _, rfl⟩ := h; rfl
    · split at h
      · simp at h
      · rename_i b' y' s' r' heq
        simp at h
        obtain ⟨rfl, rfl, rfl, rfl⟩ := h
        simp [← ih heq]

theorem once_rest_lt {c : CR ρ α} {ns : List α} {b : List α} {x : α} {s : Pairs ρ α} {r : List α}
    (h : (once c ns).val = some (b, x, s, r)) : r.length < ns.length := by
  rw [once_some h]; simp; omega

/-- All repetitions of a greedy rule: the pairs and the nodes left after the last match. -/
def rangeGreedy (c : CR ρ α) (ns : List α) : W (Pairs ρ α × List α) :=
  match h : (once c ns).val with
  | none => ⟨([], ns), (once c ns).cost⟩
  | some (_, x, s, r) =>
    have := once_rest_lt h
    let t := rangeGreedy c r
    ⟨(s ++ (c.id, x) :: t.val.1, t.val.2), (once c ns).cost + t.cost⟩
termination_by ns.length

/-- Match a run of rules, each optional, against a run of nodes. The second component is the node list
after the match of the last rule, if that rule's last attempt matched. -/
def range : List (CR ρ α) → List α → W (Pairs ρ α × Option (List α))
  | [], _ => ⟨([], none), 0⟩
  | c :: cs, ns =>
    if c.greedy then
      let g := rangeGreedy c ns
      let t := range cs g.val.2
      ⟨(g.val.1 ++ t.val.1, t.val.2), g.cost + t.cost⟩
    else
      let o := once c ns
      match o.val with
      | none =>
        let t := range cs ns
        ⟨(t.val.1, t.val.2), o.cost + t.cost⟩
      | some (_, x, s, r) =>
        let t := range cs r
        ⟨(s ++ (c.id, x) :: t.val.1, if cs.isEmpty then some r else t.val.2), o.cost + t.cost⟩

/-- Split a chain at its first mandatory rule. -/
def splitMand : List (CR ρ α) → Option (List (CR ρ α) × CR ρ α × List (CR ρ α))
  | [] => none
  | c :: cs =>
    if c.optional then
      match splitMand cs with
      | none => none
      | some (o, m, r) => some (c :: o, m, r)
    else some ([], c, cs)

/-- First mandatory rule of a chain. -/
def firstMand (cs : List (CR ρ α)) : Option (CR ρ α) := cs.find? (!·.optional)

/-- One group: `pre` are the rules already passed, `cs` the rules left, `again` tells that the first rule
left is greedy and was just matched. Returns the pairs (empty if the group fails) and the nodes left. -/
def group (pre cs : List (CR ρ α)) (again : Bool) (ns : List α) (sub : Pairs ρ α) :
    W (Pairs ρ α × List α) :=
  match cs, ns with
  | [], ns => ⟨(sub, ns), 0⟩
  | c :: cs, [] =>
    if (if again then cs else c :: cs).all (·.optional) then ⟨(sub, []), 0⟩ else ⟨([], []), 0⟩
  | c :: cs, n :: ns =>
    if c.optional || again then
      match splitMand cs with
      | some (opts, stop, rest) =>
        match h : (once stop (n :: ns)).val with
        | none => ⟨([], []), (once stop (n :: ns)).cost⟩
        | some (b, x, s, r) =>
          have := once_rest_lt h
          let m := range (c :: opts) b
          let t := group (pre ++ c :: opts ++ [stop]) rest false r (sub ++ s ++ m.val.1 ++ [(stop.id, x)])
          ⟨t.val, (once stop (n :: ns)).cost + m.cost + t.cost⟩
      | none =>
        match firstMand pre with
        | none =>
          let m := range (c :: cs) (n :: ns)
          ⟨(sub ++ m.val.1, m.val.2.getD []), m.cost⟩
        | some stop =>
          let o := once stop (n :: ns)
          match o.val with
          | none =>
            let m := range (c :: cs) (n :: ns)
            ⟨(sub ++ m.val.1, []), o.cost + m.cost⟩
          | some (b, x, _, r) =>
            let m := range (c :: cs) b
            ⟨(sub ++ m.val.1, x :: r), o.cost + m.cost⟩
    else
      match h : (once c (n :: ns)).val with
      | none => ⟨([], []), (once c (n :: ns)).cost⟩
      | some (_, x, s, r) =>
        have := once_rest_lt h
        let sub' := sub ++ s ++ [(c.id, x)]
        let t := if c.greedy then group pre (c :: cs) true r sub'
                 else group (pre ++ [c]) cs false r sub'
        ⟨t.val, (once c (n :: ns)).cost + t.cost⟩
termination_by ns.length

theorem rangeGreedy_suffix (c : CR ρ α) (ns : List α) : (rangeGreedy c ns).val.2 <:+ ns := by
  fun_induction rangeGreedy c ns with
  | case1 ns h => exact List.suffix_refl _
  | case2 ns b x s r h _ t ih =>
    rw [once_some h]
    refine ih.trans ⟨b ++ [x], by simp⟩

/-- The nodes left after `range` are a proper suffix. -/
theorem range_rest {cs : List (CR ρ α)} {ns r : List α} (h : (range cs ns).val.2 = some r) :
    r <:+ ns ∧ r.length < ns.length := by
  induction cs generalizing ns with
  | nil => simp [range] at h
  | cons c cs ih =>
    unfold range at h
    split at h
    · have hs := rangeGreedy_suffix c ns
      obtain ⟨h1, h2⟩ := ih h
      have := hs.length_le
      exact ⟨h1.trans hs, by omega⟩
    · simp only at h
      split at h
      · exact ih h
      · rename_i b x s r' heq
        have hlt := once_rest_lt heq
        have hsf : r' <:+ ns := by rw [once_some heq]; exact ⟨b ++ [x], by simp⟩
        simp only at h
        split at h
        · cases h; exact ⟨hsf, hlt⟩
        · obtain ⟨h1, h2⟩ := ih h
          exact ⟨h1.trans hsf, by omega⟩

theorem group_suffix (pre cs : List (CR ρ α)) (again : Bool) (ns : List α) (sub : Pairs ρ α) :
    (group pre cs again ns sub).val.2 <:+ ns := by
  fun_induction group pre cs again ns sub with
  | case1 => exact List.suffix_refl _
  | case2 => simp
  | case3 => simp
  | case4 => simp
  | case5 pre again sub c cs n ns hc opts stop rest hs b x s r h _ m t ih =>
    rw [once_some h]
    exact ih.trans ⟨b ++ [x], by simp⟩
  | case6 pre again sub c cs n ns hc hs hf m =>
    simp only
    cases hm : m.val.2 with
    | none => simp
    | some r => exact (range_rest hm).1
  | case7 => simp
  | case8 pre again sub c cs n ns hc hs stop hf o b x s r h m =>
    simp only
    have := once_some (c := stop) h
    rw [this]
    exact ⟨b, rfl⟩
  | case9 => simp
  | case10 pre again sub c cs n ns hc b x s r h _ sub' t ih1 ih2 =>
    rw [once_some h]
    have : t.val.2 <:+ r := by
      simp only [t]; split
      · rename_i hg; exact ih1
      · rename_i hg; exact ih2
    exact this.trans ⟨b ++ [x], by simp⟩

/-- A group entered at its first rule consumes at least one node. -/
theorem group_lt (c : CR ρ α) (cs : List (CR ρ α)) (again : Bool) (n : α) (ns : List α)
    (sub : Pairs ρ α) :
    (group [] (c :: cs) again (n :: ns) sub).val.2.length < (n :: ns).length := by
  unfold group
  split
  · split
    · split
      · simp
      · rename_i b x s r h
        have h1 := once_rest_lt h
        exact Nat.lt_of_le_of_lt (group_suffix ..).length_le h1
    · simp only [firstMand, List.find?_nil]
      cases hm : (range (c :: cs) (n :: ns)).val.2 with
      | none => simp
      | some r => exact (range_rest hm).2
  · split
    · simp
    · rename_i b x s r h
      have h1 := once_rest_lt h
      simp only
      split
      · exact Nat.lt_of_le_of_lt (group_suffix ..).length_le h1
      · exact Nat.lt_of_le_of_lt (group_suffix ..).length_le h1

/-- All groups of a chain on a list of siblings, empty ones dropped. -/
def groups (cs : List (CR ρ α)) (ns : List α) : W (List (Pairs ρ α)) :=
  match cs, ns with
  | [], _ => ⟨[], 0⟩
  | _, [] => ⟨[], 0⟩
  | c :: cs, n :: ns =>
    let g := group [] (c :: cs) false (n :: ns) []
    have := group_lt c cs false n ns []
    let t := groups (c :: cs) g.val.2
    ⟨if g.val.1.isEmpty then t.val else g.val.1 :: t.val, g.cost + t.cost⟩
termination_by ns.length

end

/-! ## Trees -/

section
variable {ρ : Type}

mutual
/-- Search below a tree. -/
def descend (cs : List (CR ρ Loc)) : Tree → W (List (Pairs ρ Loc))
  | .node _ k kids =>
    match k with
    | .element _ =>
      if kids.isEmpty then ⟨[], 0⟩
      else
        let g := groups cs (locs kids)
        let d := descendL cs kids
        ⟨g.val ++ d.val, 1 + g.cost + d.cost⟩
    | _ => ⟨[], 0⟩
/-- Search below each tree of a list. -/
def descendL (cs : List (CR ρ Loc)) : List Tree → W (List (Pairs ρ Loc))
  | [] => ⟨[], 0⟩
  | t :: ts =>
    let a := descend cs t
    let b := descendL cs ts
    ⟨a.val ++ b.val, a.cost + b.cost⟩
end

/-- A search: the groups on this list of siblings, then the search below each of them. -/
def save (cs : List (CR ρ Loc)) (ls : List Loc) : W (List (Pairs ρ Loc)) :=
  let g := groups cs ls
  let d := descendL cs (ls.map (·.self))
  ⟨g.val ++ d.val, 1 + g.cost + d.cost⟩

/-- Nested rules: each must match somewhere below (if it has a mandatory rule). -/
def nestedRun (kids : List Tree) : List (List (CR ρ Loc)) → W (Option (Pairs ρ Loc))
  | [] => ⟨some [], 0⟩
  | cs :: css =>
    let s := save cs (locs kids)
    if s.val.isEmpty && (firstMand cs).isSome then ⟨none, s.cost⟩
    else
      let t := nestedRun kids css
      match t.val with
      | none => ⟨none, s.cost + t.cost⟩
      | some ps => ⟨some (s.val.flatten ++ ps), s.cost + t.cost⟩

/-- A rule on a node, given its own conditions `own`, its child chain and its nested chains. -/
def runRule (own : Loc → Bool) (child : List (CR ρ Loc)) (nested : List (List (CR ρ Loc))) (l : Loc) :
    W (Option (Pairs ρ Loc)) :=
  if !own l then ⟨none, 0⟩
  else if child.isEmpty && nested.isEmpty then ⟨some [], 0⟩
  else if !l.self.kind.isElement || l.self.kids.isEmpty then ⟨none, 0⟩
  else
    let g := if child.isEmpty then ⟨[], 0⟩ else groups child (locs l.self.kids)
    if child.isEmpty || !g.val.isEmpty || (firstMand child).isNone then
      let t := nestedRun l.self.kids nested
      match t.val with
      | none => ⟨none, g.cost + t.cost⟩
      | some ps => ⟨some (g.val.flatten ++ ps), g.cost + t.cost⟩
    else ⟨none, g.cost⟩

end

mutual
/-- A rule and its `next` siblings as the engine sees them. -/
def chain (own : RuleInfo → Loc → Bool) (addr : List Step) : Rule → List (CR RulePtr Loc)
  | .mk info child next nested =>
    { id := ⟨addr, .mk info child next nested⟩
      optional := info.optional
      greedy := info.greedy
      run := runRule (own info) (chainO own (addr ++ [.child]) child) (chainN own addr 0 nested) }
    :: chainO own (addr ++ [.next]) next
def chainO (own : RuleInfo → Loc → Bool) (addr : List Step) : Option Rule → List (CR RulePtr Loc)
  | none => []
  | some r => chain own addr r
def chainN (own : RuleInfo → Loc → Bool) (addr : List Step) (i : Nat) : List Rule → List (List (CR RulePtr Loc))
  | [] => []
  | r :: rs => chain own (addr ++ [.nested i]) r :: chainN own addr (i + 1) rs
end

end Hext
