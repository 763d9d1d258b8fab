import Verif.Proofs.MemoryRule
import Verif.Spec.History
/-!
# Assigning, moving and appending: lemmas
-/

namespace Hext.Mem

/-- From `m` to `m'` only the objects `old` were touched; those among them that are still alive, and all
new objects, are in `new`. -/
structure Changed (m m' : Mem) (old new : List Addr) : Prop where
  le : m.fresh ≤ m'.fresh
  wf : m'.Wf
  others : ∀ x, x < m.fresh → x ∉ old → m'.cell x = m.cell x
  nodup : new.Nodup
  sub : ∀ x ∈ new, x ∈ old ∨ m.fresh ≤ x
  noLeak : ∀ x, (m'.cell x).isSome → x ∈ new ∨ (x < m.fresh ∧ x ∉ old)

theorem Changed.perm {m m' : Mem} {old new new' : List Addr} (h : Changed m m' old new)
    (p : new.Perm new') : Changed m m' old new' :=
  ⟨h.le, h.wf, h.others, p.nodup_iff.mp h.nodup, fun x hx => h.sub x (p.mem_iff.mpr hx),
    fun x hx => (h.noLeak x hx).imp_left p.mem_iff.mp⟩

theorem Changed.old {m m' : Mem} {old old' new : List Addr} (h : Changed m m' old new)
    (e : ∀ x, x ∈ old ↔ x ∈ old') : Changed m m' old' new := by
  refine ⟨h.le, h.wf, fun x hx hx' => h.others x hx fun k => hx' ((e x).mp k), h.nodup,
    fun x hx => (h.sub x hx).imp_left (e x).mp, fun x hx => (h.noLeak x hx).imp_right fun k => ?_⟩
  exact ⟨k.1, fun hk => k.2 ((e x).mpr hk)⟩

/-- Untouched objects beside those that are touched. -/
theorem Changed.beside {m m' : Mem} {old new rest : List Addr} (h : Changed m m' old new)
    (hr : rest.Nodup) (hl : ∀ x ∈ rest, x < m.fresh) (hd : ∀ x ∈ rest, x ∉ old) :
    Changed m m' (old ++ rest) (new ++ rest) := by
  refine ⟨h.le, h.wf, fun x hx hx' => h.others x hx fun k => hx' (List.mem_append_left _ k), ?_, ?_, ?_⟩
  · rw [List.nodup_append]
    refine ⟨h.nodup, hr, fun a ha b hb hab => ?_⟩
    subst hab
    rcases h.sub a ha with k | k
    · exact hd a hb k
    · have := hl a hb; omega
  · intro x hx
    rcases List.mem_append.mp hx with hx | hx
    · exact (h.sub x hx).imp_left (List.mem_append_left _)
    · exact .inl (List.mem_append_right _ hx)
  · intro x hx
    rcases h.noLeak x hx with k | k
    · exact .inl (List.mem_append_left _ k)
    · by_cases hxr : x ∈ rest
      · exact .inl (List.mem_append_right _ hxr)
      · refine .inr ⟨k.1, fun hk => ?_⟩
        rcases List.mem_append.mp hk with hk | hk
        · exact k.2 hk
        · exact hxr hk

theorem Changed.trans {m₁ m₂ m₃ : Mem} {a b c : List Addr} (h : Changed m₁ m₂ a b)
    (k : Changed m₂ m₃ b c) : Changed m₁ m₃ a c := by
  refine ⟨Nat.le_trans h.le k.le, k.wf, fun x hx hx' => ?_, k.nodup, fun x hx => ?_, fun x hx => ?_⟩
  · rw [k.others x (Nat.lt_of_lt_of_le hx h.le), h.others x hx hx']
    intro hb
    rcases h.sub x hb with q | q
    · exact hx' q
    · omega
  · rcases k.sub x hx with q | q
    · exact h.sub x q
    · have := h.le
      exact .inr (by omega)
  · rcases k.noLeak x hx with q | q
    · exact .inl q
    · by_cases hl : x < m₁.fresh
      · by_cases ha : x ∈ a
        · -- touched by the first step, not in `b`: not alive
          have := k.others x q.1 q.2
          rw [this] at hx
          rcases h.noLeak x hx with r | r
          · exact absurd r q.2
          · exact absurd ha r.2
        · exact .inr ⟨hl, ha⟩
      · have := k.others x q.1 q.2
        rw [this] at hx
        rcases h.noLeak x hx with r | r
        · exact absurd r q.2
        · exact absurd r.1 hl

theorem Grown.changed {m m' : Mem} {S : List Addr} (h : Grown m m' S) : Changed m m' [] S := by
  refine ⟨h.le, h.wf, fun x hx _ => h.same x hx, h.nodup, fun x hx => .inr ((h.mem x).mp hx).1,
    fun x hx => ?_⟩
  by_cases hl : x < m.fresh
  · exact .inr ⟨hl, by simp⟩
  · exact .inl ((h.mem x).mpr ⟨by omega, h.wf x hx⟩)

theorem Shrunk.changed {m m' : Mem} {S : List Addr} (h : Shrunk m m' S) (w : m.Wf) :
    Changed m m' S [] := by
  refine ⟨Nat.le_of_eq h.fresh.symm, h.wf w, fun x _ hx => by rw [h.cell, if_neg hx], .nil,
    fun x hx => (nomatch hx), fun x hx => ?_⟩
  rw [h.cell] at hx
  split at hx
  · cases hx
  · exact .inr ⟨w x hx, by assumption⟩

theorem changed_put {m : Mem} (w : m.Wf) {a : Addr} (h : (m.cell a).isSome) (o : Obj) :
    Changed m (m.put a o) [a] [a] := by
  refine ⟨Nat.le_refl _, fun x hx => ?_, fun x _ hx => ?_, by simp, fun x hx => .inl hx, fun x hx => ?_⟩
  · simp only [Mem.put] at hx ⊢
    split at hx
    · next e => subst e; exact w _ h
    · exact w x hx
  · simp only [List.mem_singleton] at hx
    simp [Mem.put, hx]
  · simp only [Mem.put] at hx
    simp only [List.mem_singleton]
    split at hx
    · exact .inl ‹_›
    · exact .inr ⟨w x hx, ‹_›⟩

theorem holds_head {c a r S} (h : HoldsRule c a r S) : ∃ o rest, c a = some (.rule o) ∧ S = a :: rest := by
  cases r
  obtain ⟨o, S₁, S₂, S₃, S₄, S₅, hb, _, rfl⟩ := holds_rule.mp h
  exact ⟨o, _, hb, rfl⟩

/-- The same members at another address make the same rule. -/
theorem reroot {c c' : Cells} {a b : Addr} {r : Rule} {rest : List Addr}
    (h : HoldsRule c a r (a :: rest)) (hb : c' b = c a) (hr : ∀ x ∈ rest, c' x = c x) :
    HoldsRule c' b r (b :: rest) := by
  cases r with
  | mk i ch nx ns =>
    obtain ⟨o, S₁, S₂, S₃, S₄, S₅, ha, p, e⟩ := holds_rule.mp h
    injection e with _ e
    subst e
    refine holds_rule.mpr ⟨o, S₁, S₂, S₃, S₄, S₅, by rw [hb, ha],
      ⟨p.tag, p.optional, p.greedy, p.tagname,
        framed_ptr (fun x _ => framed_rule x) _ _ _ _ p.child fun x hx => hr x ?_,
        framed_ptr (fun x _ => framed_rule x) _ _ _ _ p.next fun x hx => hr x ?_,
        framed_vec (fun x _ => framed_rule x) _ _ _ _ p.nested fun x hx => hr x ?_,
        framed_matches _ _ _ _ _ p.ms fun x hx => hr x ?_,
        framed_captures _ _ _ _ _ p.caps fun x hx => hr x ?_⟩, rfl⟩
    all_goals simp [hx]

/-- `Rule::operator=(const Rule&)`: afterwards the rule at `a` is what the rule at `b` was, wherever `b`
is: the same rule, a rule inside of it, a rule around it. -/
theorem assign_ok {m : Mem} (w : m.Wf) {a b : Addr} {r r' : Rule} {S S' : List Addr}
    (ha : HoldsRule m.cell a r S) (hb : HoldsRule m.cell b r' S') (hS : S.Nodup) :
    ∃ m' T, assignRule a b m = pure ((), m') ∧ HoldsRule m'.cell a r' T ∧ Changed m m' S T := by
  obtain ⟨t, T, m₁, e₁, r₁, g₁⟩ := copies_rule r' b S' m w hb
  obtain ⟨oa, Sr, hoa, rfl⟩ := holds_head ha
  obtain ⟨ot, Tr, hot, rfl⟩ := holds_head r₁
  have hlt : ∀ x ∈ a :: Sr, x < m.fresh := fun x hx => w x (alive_rule r a _ _ ha x hx)
  have ha₁ := keep_grown (framed_rule r) (alive_rule r) w g₁ ha
  have hta := ((g₁.mem t).mp (.head _)).1
  have hat : a ≠ t := by have := hlt a (.head _); omega
  have hoa₁ : m₁.cell a = some (.rule oa) := by rw [g₁.same a (hlt a (.head _)), hoa]
  obtain ⟨haS, hSr⟩ := List.nodup_cons.mp hS
  obtain ⟨htT, hTr⟩ := List.nodup_cons.mp g₁.nodup
  have hTf : ∀ x ∈ Tr, m.fresh ≤ x ∧ x < m₁.fresh := fun x hx => (g₁.mem x).mp (.tail _ hx)
  have hSl : ∀ x ∈ Sr, x < m.fresh := fun x hx => hlt x (.tail _ hx)
  -- after the swap
  have e₂ : swapRule a t m₁ = pure ((), (m₁.put a (.rule ot)).put t (.rule oa)) := by
    unfold swapRule
    rw [if_neg hat]
    rw [bind_ok (loadRule_ok hoa₁), bind_ok (loadRule_ok hot),
      bind_ok (store_ok (by rw [hoa₁]; rfl) (.rule ot)),
      store_ok (by simp [Mem.put, Ne.symm hat, hot]) (.rule oa)]
  have hT₂ : HoldsRule ((m₁.put a (.rule ot)).put t (.rule oa)).cell a r' (a :: Tr) := by
    refine reroot r₁ (by simp [Mem.put, hat, hot]) fun x hx => ?_
    have := hTf x hx
    have := hlt a (.head _)
    have hxt : x ≠ t := fun k => htT (k ▸ hx)
    have hxa : x ≠ a := by omega
    simp [Mem.put, hxt, hxa]
  have hS₂ : HoldsRule ((m₁.put a (.rule ot)).put t (.rule oa)).cell t r (t :: Sr) := by
    refine reroot ha₁ (by simp [Mem.put, hoa₁]) fun x hx => ?_
    have := hSl x hx
    have hxt : x ≠ t := by omega
    have hxa : x ≠ a := fun k => haS (k ▸ hx)
    simp [Mem.put, hxt, hxa]
  have hnd : (t :: Sr).Nodup := List.nodup_cons.mpr ⟨fun k => by have := hSl t k; omega, hSr⟩
  obtain ⟨m₃, e₃, g₃⟩ := destroys_rule r t (t :: Sr) _ hS₂ hnd
  refine ⟨m₃, a :: Tr, ?_, ?_, ?_⟩
  · unfold assignRule
    rw [bind_ok e₁, bind_ok e₂, e₃]
  · refine keep_shrunk (framed_rule r') g₃ hT₂ fun x hx hx' => ?_
    have hax := hlt a (.head _)
    cases hx with
    | head =>
      rcases List.mem_cons.mp hx' with k | k
      · exact hat k
      · exact haS k
    | tail _ hx =>
      rcases List.mem_cons.mp hx' with k | k
      · exact htT (k ▸ hx)
      · have := hTf x hx; have := hSl x k; omega
  · have hcell : ∀ x, m₃.cell x = if x ∈ t :: Sr then none else
        if x = t then some (.rule oa) else if x = a then some (.rule ot) else m₁.cell x := fun x => g₃.cell x
    have hfr : m₃.fresh = m₁.fresh := g₃.fresh
    refine ⟨by rw [hfr]; exact g₁.le, fun x hx => ?_, fun x hx hx' => ?_, ?_, fun x hx => ?_, fun x hx => ?_⟩
    · rw [hfr]
      rw [hcell] at hx
      split at hx
      · cases hx
      · split at hx
        · next e => subst e; exact ((g₁.mem _).mp (.head _)).2
        · split at hx
          · next e => subst e; have := hlt x (.head _); have := g₁.le; omega
          · exact g₁.wf x hx
    · rw [hcell]
      simp only [List.mem_cons, not_or] at hx' ⊢
      rw [if_neg (by intro k; rcases k with k | k; omega; exact hx'.2 k), if_neg (by omega), if_neg hx'.1,
        g₁.same x hx]
    · exact List.nodup_cons.mpr ⟨fun k => by have := hTf a k; have := hlt a (.head _); omega, hTr⟩
    · rcases List.mem_cons.mp hx with k | k
      · exact .inl (k ▸ .head _)
      · exact .inr (hTf x k).1
    · rw [hcell] at hx
      split at hx
      · cases hx
      · next hn =>
        simp only [List.mem_cons, not_or] at hn
        rw [if_neg hn.1] at hx
        split at hx
        · next e => exact .inl (e ▸ .head _)
        · next hxa =>
          by_cases hl : x < m.fresh
          · refine .inr ⟨hl, ?_⟩
            simp only [List.mem_cons, not_or]
            exact ⟨hxa, hn.2⟩
          · have := (g₁.mem x).mpr ⟨by omega, g₁.wf x hx⟩
            rcases List.mem_cons.mp this with k | k
            · exact absurd k hn.1
            · exact .inl (.tail _ k)

open Hist (movedFrom)

/-- `Rule(Rule&&)`: the rule is now at a new address. -/
theorem move_ok {m : Mem} (w : m.Wf) {a : Addr} {r : Rule} {rest : List Addr}
    (h : HoldsRule m.cell a r (a :: rest)) (hS : (a :: rest).Nodup) :
    ∃ m', moveRule a m = pure (m.fresh, m') ∧ HoldsRule m'.cell m.fresh r (m.fresh :: rest) ∧
      HoldsRule m'.cell a (movedFrom r) [a] ∧
      Changed m m' (a :: rest) (a :: m.fresh :: rest) ∧ m'.fresh = m.fresh + 1 ∧
      (∀ x, x ≠ a → x ≠ m.fresh → m'.cell x = m.cell x) := by
  cases r with
  | mk i ch nx ns =>
    obtain ⟨o, S₁, S₂, S₃, S₄, S₅, ha, p, e⟩ := holds_rule.mp h
    have hlt : ∀ x ∈ a :: rest, x < m.fresh := fun x hx => w x (alive_rule _ a _ _ h x hx)
    have hla := hlt a (.head _)
    obtain ⟨hn, hr⟩ := List.nodup_cons.mp hS
    refine ⟨(m.put a (.rule ⟨none, none, [], [], [], o.tag, o.optional, o.greedy, o.tagname.map fun _ => []⟩)).push (.rule o), ?_, ?_, ?_,
      ?_, rfl, ?_⟩
    · unfold moveRule
      rw [bind_ok (loadRule_ok ha), bind_ok (store_ok (by rw [ha]; rfl) _)]
      rfl
    · refine reroot h (by simp [Mem.push, Mem.put, ha]) fun x hx => ?_
      have h₁ : x ≠ m.fresh := by have := hlt x (.tail _ hx); omega
      have h₂ : x ≠ a := fun k => hn (k ▸ hx)
      simp [Mem.push, Mem.put, h₁, h₂]
    · refine holds_rule.mpr ⟨⟨none, none, [], [], [], o.tag, o.optional, o.greedy, o.tagname.map fun _ => []⟩, [], [], [], [], [], ?_,
        ⟨p.tag, p.optional, p.greedy, by show o.tagname.map _ = _; rw [p.tagname], rfl, rfl, rfl, rfl,
          rfl⟩, rfl⟩
      simp [Mem.push, Mem.put, Nat.ne_of_lt hla]
    · have c₁ := changed_put w (by rw [ha]; rfl : (m.cell a).isSome) (.rule ⟨none, none, [], [], [], o.tag, o.optional, o.greedy, o.tagname.map fun _ => []⟩)
      have c₂ := (grown_push c₁.wf (.rule o)).changed
      have c₁' := c₁.beside hr (fun x hx => hlt x (.tail _ hx)) (fun x hx k =>
        hn (by rw [List.mem_singleton.mp k] at hx; exact hx))
      have c₂' := c₂.beside (rest := a :: rest) hS (fun x hx => hlt x hx) (fun x _ => by simp)
      refine (c₁'.trans (c₂'.old fun x => by simp)).perm ?_
      show (m.fresh :: a :: rest).Perm _
      exact List.Perm.swap _ _ _
    · intro x h₁ h₂
      simp [Mem.push, Mem.put, h₁, h₂]

/-- Permutations of concatenations. -/
macro "perm" : tactic => `(tactic| (
  rw [List.perm_iff_count]; intro x
  simp only [List.count_append, List.count_cons, List.count_nil]; omega))

theorem lt_fresh {m : Mem} (w : m.Wf) {a r S} (h : HoldsRule m.cell a r S) : ∀ x ∈ S, x < m.fresh :=
  fun x hx => w x (alive_rule r a S _ h x hx)

/-- Parts of a rule stay what they are if memory changes elsewhere. -/
theorem Parts.frame {c c' : Cells} {o i ch nx ns S₁ S₂ S₃ S₄ S₅} (p : Parts c o i ch nx ns S₁ S₂ S₃ S₄ S₅)
    (h : ∀ x, x ∈ S₁ ++ (S₂ ++ (S₃ ++ (S₄ ++ S₅))) → c' x = c x) :
    Parts c' o i ch nx ns S₁ S₂ S₃ S₄ S₅ := by
  refine ⟨p.tag, p.optional, p.greedy, p.tagname,
    framed_ptr (fun x _ => framed_rule x) _ _ _ _ p.child fun x hx => h x ?_,
    framed_ptr (fun x _ => framed_rule x) _ _ _ _ p.next fun x hx => h x ?_,
    framed_vec (fun x _ => framed_rule x) _ _ _ _ p.nested fun x hx => h x ?_,
    framed_matches _ _ _ _ _ p.ms fun x hx => h x ?_,
    framed_captures _ _ _ _ _ p.caps fun x hx => h x ?_⟩
  all_goals simp [hx]

/-- The loop of `append_next`. -/
theorem appendNextLoop_ok (r : Rule) : ∀ {m : Mem}, m.Wf → ∀ {a s : Addr} {r₂ : Rule} {S rest : List Addr},
    HoldsRule m.cell a r S → HoldsRule m.cell s r₂ (s :: rest) → (S ++ s :: rest).Nodup →
    ∃ m' S', appendNextLoop a s m = pure ((), m') ∧ HoldsRule m'.cell a (r.appendNext r₂) S' ∧
      HoldsRule m'.cell s (movedFrom r₂) [s] ∧ Changed m m' (S ++ s :: rest) (s :: S') := by
  induction r using rule_induct with
  | mk i ch nx ns hc hn hns =>
    intro m w a s r₂ S rest h hs hS
    obtain ⟨o, S₁, S₂, S₃, S₄, S₅, ha, p, rfl⟩ := holds_rule.mp h
    obtain ⟨n₁, n₂, d⟩ := List.nodup_append.mp hS
    have hl := lt_fresh w h
    have hls := lt_fresh w hs
    obtain ⟨nb, nd, d₁, d₂, d₃, d₄⟩ := nodup_parts n₁
    cases nx with
    | none =>
      have hnx : o.next = none ∧ S₂ = [] := by
        have := p.next
        cases hq : o.next with
        | none => rw [hq] at this; exact ⟨rfl, this⟩
        | some q => rw [hq] at this; exact this.elim
      obtain ⟨m₁, e₁, r₁, r₁', c₁, hf₁, fr₁⟩ := move_ok w hs n₂
      have hal := hl a (.head _)
      have hsl := hls s (.head _)
      have has : a ≠ s := fun k => d a (.head _) s (.head _) k
      have ha₁ : m₁.cell a = some (.rule o) := by rw [fr₁ a has (by omega), ha]
      have c₂ := changed_put c₁.wf (by rw [ha₁]; rfl : (m₁.cell a).isSome)
        (.rule { o with next := some m.fresh })
      refine ⟨m₁.put a (.rule { o with next := some m.fresh }),
        a :: (S₁ ++ ((m.fresh :: rest) ++ (S₃ ++ (S₄ ++ S₅)))), ?_, ?_, ?_, ?_⟩
      · rw [appendNextLoop, bind_ok (loadRule_ok ha)]
        show (match o.next with
          | some n => appendNextLoop n s
          | none => do
            let s ← moveRule s
            let o ← loadRule a
            store a (.rule { o with next := some s })) m = _
        rw [hnx.1]
        show (moveRule s >>= fun s => loadRule a >>= fun o => store a (.rule { o with next := some s })) m = _
        rw [bind_ok e₁, bind_ok (loadRule_ok ha₁)]
        exact store_ok (by rw [ha₁]; rfl) _
      · have fr : ∀ x ∈ S₁ ++ (S₂ ++ (S₃ ++ (S₄ ++ S₅))),
            (m₁.put a (.rule { o with next := some m.fresh })).cell x = m.cell x := by
          intro x hx
          have h₁ : x ≠ a := fun k => (List.nodup_cons.mp n₁).1 (k ▸ hx)
          have h₂ : x ≠ s := fun k => d x (.tail _ hx) s (.head _) k
          have h₃ : x ≠ m.fresh := by have := hl x (.tail _ hx); omega
          simp only [Mem.put, h₁, if_false]
          exact fr₁ x h₂ h₃
        have p' := p.frame fr
        refine holds_rule.mpr ⟨{ o with next := some m.fresh }, S₁, m.fresh :: rest, S₃, S₄, S₅,
          by simp [Mem.put], ⟨p'.tag, p'.optional, p'.greedy, p'.tagname, p'.child, ?_, p'.nested, p'.ms,
            p'.caps⟩, rfl⟩
        refine framed_rule r₂ _ _ m₁.cell _ r₁ fun x hx => ?_
        have h₁ : x ≠ a := by
          rintro rfl
          rcases List.mem_cons.mp hx with k | k
          · omega
          · exact d x (.head _) x (.tail _ k) rfl
        simp [Mem.put, h₁]
      · refine framed_rule _ _ _ m₁.cell _ r₁' fun x hx => ?_
        rw [List.mem_singleton.mp hx]
        simp [Mem.put, Ne.symm has]
      · rw [hnx.2] at d n₁ hl hS ⊢
        have c₁' := c₁.beside (rest := a :: (S₁ ++ ([] ++ (S₃ ++ (S₄ ++ S₅))))) n₁ hl
          (fun x hx k => d x hx x k rfl)
        have hnd : (s :: m.fresh :: rest ++ (S₁ ++ ([] ++ (S₃ ++ (S₄ ++ S₅))))).Nodup ∧
            a ∉ (s :: m.fresh :: rest ++ (S₁ ++ ([] ++ (S₃ ++ (S₄ ++ S₅))))) := by
          have := c₁'.nodup
          have hp : (s :: m.fresh :: rest ++ a :: (S₁ ++ ([] ++ (S₃ ++ (S₄ ++ S₅))))).Perm
            (a :: (s :: m.fresh :: rest ++ (S₁ ++ ([] ++ (S₃ ++ (S₄ ++ S₅)))))) := by perm
          have := hp.nodup_iff.mp this
          exact ⟨(List.nodup_cons.mp this).2, (List.nodup_cons.mp this).1⟩
        have hlive : ∀ x ∈ (s :: m.fresh :: rest ++ (S₁ ++ ([] ++ (S₃ ++ (S₄ ++ S₅))))), x < m₁.fresh := by
          intro x hx
          rw [hf₁]
          simp only [List.cons_append, List.mem_cons, List.mem_append] at hx
          rcases hx with rfl | rfl | hx | hx
          · omega
          · omega
          · have := hls x (.tail _ hx); omega
          · have := hl x (List.mem_cons_of_mem _ (by simpa using hx)); omega
        have c₂' := c₂.beside hnd.1 hlive (fun x hx k => hnd.2 (by
          rw [List.mem_singleton.mp k] at hx; exact hx))
        refine ((c₁'.old fun x => ?_).trans (c₂'.old fun x => ?_)).perm ?_
        · simp only [List.mem_append, List.mem_cons]; grind
        · simp only [List.mem_append, List.mem_cons]; grind
        · perm
    | some r' =>
      obtain ⟨q, hq, hq'⟩ : ∃ q, o.next = some q ∧ HoldsRule m.cell q r' S₂ := by
        have := p.next
        cases hq : o.next with
        | none => rw [hq] at this; exact this.elim
        | some q => rw [hq] at this; exact ⟨q, rfl, this⟩
      have hS' : (S₂ ++ s :: rest).Nodup := by
        refine List.nodup_append.mpr ⟨nd.2.1, n₂, fun x hx y hy => d x ?_ y hy⟩
        simp [hx]
      obtain ⟨m', T, e, h₁, h₂, c⟩ := hn r' rfl w hq' hs hS'
      refine ⟨m', a :: (S₁ ++ (T ++ (S₃ ++ (S₄ ++ S₅)))), ?_, ?_, h₂, ?_⟩
      · rw [appendNextLoop, bind_ok (loadRule_ok ha)]
        show (match o.next with
          | some n => appendNextLoop n s
          | none => do
            let s ← moveRule s
            let o ← loadRule a
            store a (.rule { o with next := some s })) m = _
        rw [hq]
        exact e
      · have fr : ∀ x, (x = a ∨ x ∈ S₁ ∨ x ∈ S₃ ∨ x ∈ S₄ ∨ x ∈ S₅) → m'.cell x = m.cell x := by
          intro x hx
          have hxS : x ∈ a :: (S₁ ++ (S₂ ++ (S₃ ++ (S₄ ++ S₅)))) := by
            simp only [List.mem_cons, List.mem_append]; grind
          refine c.others x (hl x hxS) fun k => ?_
          rcases List.mem_append.mp k with k | k
          · rcases hx with rfl | hx | hx | hx | hx
            · exact nb.2.1 k
            · exact (d₁ x hx).1 k
            · exact (d₂ x k).1 hx
            · exact (d₂ x k).2.1 hx
            · exact (d₂ x k).2.2 hx
          · exact d x hxS x k rfl
        refine holds_rule.mpr ⟨o, S₁, T, S₃, S₄, S₅, by rw [fr a (.inl rfl), ha],
          ⟨p.tag, p.optional, p.greedy, p.tagname,
            framed_ptr (fun x _ => framed_rule x) _ _ _ _ p.child fun x hx => fr x (by grind), ?_,
            framed_vec (fun x _ => framed_rule x) _ _ _ _ p.nested fun x hx => fr x (by grind),
            framed_matches _ _ _ _ _ p.ms fun x hx => fr x (by grind),
            framed_captures _ _ _ _ _ p.caps fun x hx => fr x (by grind)⟩, rfl⟩
        rw [hq]; exact h₁
      · have hp : (a :: (S₁ ++ (S₂ ++ (S₃ ++ (S₄ ++ S₅))))).Perm
            (S₂ ++ (a :: (S₁ ++ (S₃ ++ (S₄ ++ S₅))))) := by perm
        have hnd := List.nodup_append.mp (hp.nodup_iff.mp n₁)
        have c' := c.beside (rest := a :: (S₁ ++ (S₃ ++ (S₄ ++ S₅)))) hnd.2.1
          (fun x hx => hl x (hp.mem_iff.mpr (List.mem_append_right _ hx)))
          (fun x hx k => by
            rcases List.mem_append.mp k with k | k
            · exact hnd.2.2 x k x hx rfl
            · exact d x (hp.mem_iff.mpr (List.mem_append_right _ hx)) x k rfl)
        refine (c'.old fun x => ?_).perm ?_
        · simp only [List.mem_append, List.mem_cons]; grind
        · perm

end Hext.Mem
