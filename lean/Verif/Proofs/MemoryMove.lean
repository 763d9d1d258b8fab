import Verif.Proofs.MemoryAppend
/-!
# Move assignment: lemmas
-/

namespace Hext.Mem

open Hist (movedFrom)

/-- Memory `m` in which the rules at `a` and `b` became `t` and `u`, and the objects `D` are gone. -/
structure St (m : Mem) (a b : Addr) (m' : Mem) (t u : RuleObj) (D : List Addr) : Prop where
  fresh : m'.fresh = m.fresh
  cell : ∀ x, m'.cell x = if x = a then some (.rule t) else if x = b then some (.rule u) else
    if x ∈ D then none else m.cell x

section
variable {m m' : Mem} {a b : Addr} {t u : RuleObj} {D : List Addr}

theorem St.cellA (h : St m a b m' t u D) : m'.cell a = some (.rule t) := by rw [h.cell, if_pos rfl]

theorem St.cellB (h : St m a b m' t u D) (hab : a ≠ b) : m'.cell b = some (.rule u) := by
  rw [h.cell, if_neg (Ne.symm hab), if_pos rfl]

theorem St.storeA (h : St m a b m' t u D) (t' : RuleObj) :
    ∃ m₂, store a (.rule t') m' = pure ((), m₂) ∧ St m a b m₂ t' u D := by
  refine ⟨_, store_ok (by rw [h.cellA]; rfl) _, h.fresh, fun x => ?_⟩
  simp only [Mem.put, h.cell]
  split <;> rfl

theorem St.storeB (h : St m a b m' t u D) (hab : a ≠ b) (u' : RuleObj) :
    ∃ m₂, store b (.rule u') m' = pure ((), m₂) ∧ St m a b m₂ t u' D := by
  refine ⟨_, store_ok (by rw [h.cellB hab]; rfl) _, h.fresh, fun x => ?_⟩
  simp only [Mem.put, h.cell]
  by_cases h₁ : x = b
  · simp [h₁, Ne.symm hab]
  · simp [h₁]

theorem St.destroy {α β} {R : Cells → β → α → List Addr → Prop} {f : β → P Unit} {v : α} {q : β}
    {S : List Addr} (h : St m a b m' t u D) (hf : Framed R v) (hd : Destroys R f v) (hR : R m.cell q v S)
    (hS : S.Nodup) (ha : a ∉ S) (hb : b ∉ S) (hD : ∀ x ∈ S, x ∉ D) :
    ∃ m₂, f q m' = pure ((), m₂) ∧ St m a b m₂ t u (D ++ S) := by
  obtain ⟨m₂, e, s⟩ := hd q S m' (hf _ _ _ _ hR fun x hx => by
    have h₁ : x ≠ a := fun k => ha (k ▸ hx)
    have h₂ : x ≠ b := fun k => hb (k ▸ hx)
    rw [h.cell, if_neg h₁, if_neg h₂, if_neg (hD x hx)]) hS
  refine ⟨m₂, e, s.fresh.trans h.fresh, fun x => ?_⟩
  rw [s.cell, h.cell]
  simp only [List.mem_append]
  by_cases h₁ : x = a
  · subst h₁; simp [ha]
  · by_cases h₂ : x = b
    · subst h₂; simp [hb]
    · by_cases h₃ : x ∈ D <;> by_cases h₄ : x ∈ S <;> simp [h₁, h₂, h₃, h₄]

end

/-- The steps of `Rule::operator=(Rule&&)`, if the rule that is moved is not part of the target. -/
theorem moveAssign_steps {m : Mem} {a b : Addr} {r : Rule} {rest : List Addr} {u : RuleObj}
    (h : HoldsRule m.cell a r (a :: rest)) (hb : m.cell b = some (.rule u)) (hS : (a :: rest).Nodup)
    (hbr : b ∉ a :: rest) :
    ∃ m', moveAssignRule a b m = pure ((), m') ∧
      St m a b m' u ⟨none, none, [], [], [], u.tag, u.optional, u.greedy, u.tagname.map fun _ => []⟩ rest := by
  cases r with
  | mk i ch nx ns =>
    obtain ⟨t, S₁, S₂, S₃, S₄, S₅, ha, p, e⟩ := holds_rule.mp h
    injection e with _ e
    subst e
    obtain ⟨naS, nr⟩ := List.nodup_cons.mp hS
    obtain ⟨hab', hbS⟩ : b ≠ a ∧ b ∉ S₁ ++ (S₂ ++ (S₃ ++ (S₄ ++ S₅))) :=
      ⟨fun k => hbr (k ▸ .head _), fun k => hbr (.tail _ k)⟩
    have hab := Ne.symm hab'
    have ha2 := naS
    have hb2 := hbS
    simp only [List.mem_append, not_or] at ha2 hb2
    obtain ⟨q₁, q₂, e₁⟩ := append_split nr
    obtain ⟨q₂, q₃, e₂⟩ := append_split q₂
    obtain ⟨q₃, q₄, e₃⟩ := append_split q₃
    obtain ⟨q₄, q₅, e₄⟩ := append_split q₄
    simp only [List.mem_append, not_or] at e₁ e₂ e₃
    have s₀ : St m a b m t u [] := ⟨rfl, fun x => by
      by_cases h₁ : x = a
      · subst h₁; simp [ha]
      · by_cases h₂ : x = b
        · subst h₂; simp [h₁, hb]
        · simp [h₁, h₂]⟩
    -- first_child_
    obtain ⟨m₁, k₁, s₁⟩ := s₀.storeB hab { u with child := none }
    obtain ⟨m₂, k₂, s₂⟩ := s₁.storeA { t with child := u.child }
    obtain ⟨m₃, k₃, s₃⟩ := s₂.destroy (framed_ptr fun x _ => framed_rule x)
      (destroys_ptr fun x _ => destroys_rule x) p.child q₁ ha2.1 hb2.1 (by simp)
    -- next_
    obtain ⟨m₄, k₄, s₄⟩ := s₃.storeB hab { u with child := none, next := none }
    obtain ⟨m₅, k₅, s₅⟩ := s₄.storeA { t with child := u.child, next := u.next }
    obtain ⟨m₆, k₆, s₆⟩ := s₅.destroy (framed_ptr fun x _ => framed_rule x)
      (destroys_ptr fun x _ => destroys_rule x) p.next q₂ ha2.2.1 hb2.2.1
      (fun x hx k => by
        simp only [List.nil_append] at k
        exact (e₁ x k).1 hx)
    -- nested_
    obtain ⟨m₇, k₇, s₇⟩ := s₆.storeA { t with child := u.child, next := u.next, nested := [] }
    obtain ⟨m₈, k₈, s₈⟩ := s₇.storeB hab { u with child := none, next := none, nested := [] }
    obtain ⟨m₉, k₉, s₉⟩ := s₈.storeA { t with child := u.child, next := u.next, nested := u.nested }
    obtain ⟨m₁₀, k₁₀, s₁₀⟩ := s₉.destroy (framed_vec fun x _ => framed_rule x)
      (destroys_vec (fun x _ => framed_rule x) (fun x _ => destroys_rule x)) p.nested q₃ ha2.2.2.1 hb2.2.2.1
      (fun x hx k => by
        simp only [List.nil_append, List.mem_append] at k
        rcases k with k | k
        · exact (e₁ x k).2.1 hx
        · exact (e₂ x k).1 hx)
    -- matches_
    obtain ⟨m₁₁, k₁₁, s₁₁⟩ := s₁₀.storeA
      { t with child := u.child, next := u.next, nested := u.nested, ms := [] }
    obtain ⟨m₁₂, k₁₂, s₁₂⟩ := s₁₁.storeB hab { u with child := none, next := none, nested := [], ms := [] }
    obtain ⟨m₁₃, k₁₃, s₁₃⟩ := s₁₂.storeA
      { t with child := u.child, next := u.next, nested := u.nested, ms := u.ms }
    obtain ⟨m₁₄, k₁₄, s₁₄⟩ := s₁₃.destroy (framed_vec fun x _ => framed_ptr fun y _ => framed_match y)
      (destroys_vec (fun x _ => framed_ptr fun y _ => framed_match y)
        (fun x _ => destroys_ptr fun y _ => destroys_match y)) p.ms q₄ ha2.2.2.2.1 hb2.2.2.2.1
      (fun x hx k => by
        simp only [List.nil_append, List.mem_append] at k
        rcases k with (k | k) | k
        · exact (e₁ x k).2.2.1 hx
        · exact (e₂ x k).2.1 hx
        · exact (e₃ x k).1 hx)
    -- captures_
    obtain ⟨m₁₅, k₁₅, s₁₅⟩ := s₁₄.storeA
      { t with child := u.child, next := u.next, nested := u.nested, ms := u.ms, caps := [] }
    obtain ⟨m₁₆, k₁₆, s₁₆⟩ := s₁₅.storeB hab
      { u with child := none, next := none, nested := [], ms := [], caps := [] }
    obtain ⟨m₁₇, k₁₇, s₁₇⟩ := s₁₆.storeA
      { t with child := u.child, next := u.next, nested := u.nested, ms := u.ms, caps := u.caps }
    obtain ⟨m₁₈, k₁₈, s₁₈⟩ := s₁₇.destroy (framed_vec fun x _ => framed_ptr fun y _ => framed_capture y)
      (destroys_vec (fun x _ => framed_ptr fun y _ => framed_capture y)
        (fun x _ => destroys_ptr fun y _ => destroys_capture y)) p.caps q₅ ha2.2.2.2.2 hb2.2.2.2.2
      (fun x hx k => by
        simp only [List.nil_append, List.mem_append] at k
        rcases k with ((k | k) | k) | k
        · exact (e₁ x k).2.2.2 hx
        · exact (e₂ x k).2.2 hx
        · exact (e₃ x k).2 hx
        · exact e₄ x k hx)
    -- the rest
    obtain ⟨m₁₉, k₁₉, s₁₉⟩ := s₁₈.storeB hab
      ⟨none, none, [], [], [], u.tag, u.optional, u.greedy, u.tagname.map fun _ => []⟩
    obtain ⟨m₂₀, k₂₀, s₂₀⟩ := s₁₉.storeA u
    refine ⟨m₂₀, ?_, s₂₀.fresh, fun x => ?_⟩
    · unfold moveAssignRule
      rw [bind_ok (loadRule_ok (s₀.cellB hab)), bind_ok k₁, bind_ok (loadRule_ok s₁.cellA), bind_ok k₂, bind_ok k₃,
        bind_ok (loadRule_ok (s₃.cellB hab)), bind_ok k₄, bind_ok (loadRule_ok s₄.cellA), bind_ok k₅, bind_ok k₆,
        bind_ok (loadRule_ok s₆.cellA), bind_ok k₇, bind_ok (loadRule_ok (s₇.cellB hab)), bind_ok k₈,
        bind_ok (loadRule_ok s₈.cellA), bind_ok k₉, bind_ok k₁₀,
        bind_ok (loadRule_ok s₁₀.cellA), bind_ok k₁₁, bind_ok (loadRule_ok (s₁₁.cellB hab)), bind_ok k₁₂,
        bind_ok (loadRule_ok s₁₂.cellA), bind_ok k₁₃, bind_ok k₁₄,
        bind_ok (loadRule_ok s₁₄.cellA), bind_ok k₁₅, bind_ok (loadRule_ok (s₁₅.cellB hab)), bind_ok k₁₆,
        bind_ok (loadRule_ok s₁₆.cellA), bind_ok k₁₇, bind_ok k₁₈,
        bind_ok (loadRule_ok (s₁₈.cellB hab)), bind_ok k₁₉, bind_ok (loadRule_ok s₁₉.cellA)]
      exact k₂₀
    · rw [s₂₀.cell]
      simp only [List.nil_append, List.append_assoc]

/-- `Rule::operator=(Rule&&)`: the rule at `b` is now at `a`; the old parts of `a` are destroyed. -/
theorem moveAssign_ok {m : Mem} (w : m.Wf) {a b : Addr} {r r₂ : Rule} {S rest : List Addr}
    (h : HoldsRule m.cell a r S) (hs : HoldsRule m.cell b r₂ (b :: rest)) (hS : (S ++ (b :: rest)).Nodup) :
    ∃ m', moveAssignRule a b m = pure ((), m') ∧ HoldsRule m'.cell a r₂ (a :: rest) ∧
      HoldsRule m'.cell b (movedFrom r₂) [b] ∧ Changed m m' (S ++ (b :: rest)) (a :: rest ++ [b]) := by
  cases r with
  | mk i ch nx ns =>
  cases r₂ with
  | mk j ch₂ nx₂ ns₂ =>
    have hl := lt_fresh w h
    have hls := lt_fresh w hs
    obtain ⟨t, S₁, S₂, S₃, S₄, S₅, ha, p, rfl⟩ := holds_rule.mp h
    obtain ⟨u, U₁, U₂, U₃, U₄, U₅, hb, p₂, e⟩ := holds_rule.mp hs
    injection e with _ e
    subst e
    obtain ⟨n₁, n₂, d⟩ := append_split hS
    obtain ⟨naS, nr⟩ := List.nodup_cons.mp n₁
    obtain ⟨nbU, nU⟩ := List.nodup_cons.mp n₂
    have hab : a ≠ b := fun k => d a (.head _) (k ▸ .head _)
    have hbS : b ∉ S₁ ++ (S₂ ++ (S₃ ++ (S₄ ++ S₅))) := fun k => d b (.tail _ k) (.head _)
    obtain ⟨m₂₀, k₂₀, s₂₀⟩ := moveAssign_steps h hb n₁ (fun k => d b k (.head _))
    have hcell := s₂₀.cell
    have hU : ∀ x ∈ U₁ ++ (U₂ ++ (U₃ ++ (U₄ ++ U₅))), m₂₀.cell x = m.cell x := by
      intro x hx
      have h₁ : x ≠ a := fun k => d a (.head _) (k ▸ .tail _ hx)
      have h₂ : x ≠ b := fun k => nbU (k ▸ hx)
      have h₃ : x ∉ S₁ ++ (S₂ ++ (S₃ ++ (S₄ ++ S₅))) := fun k => d x (.tail _ k) (.tail _ hx)
      rw [hcell, if_neg h₁, if_neg h₂, if_neg h₃]
    refine ⟨m₂₀, ?_, ?_, ?_, ?_⟩
    · exact k₂₀
    · exact reroot hs (by rw [s₂₀.cellA, hb]) hU
    · exact holds_rule.mpr ⟨_, [], [], [], [], [], s₂₀.cellB hab, ⟨p₂.tag, p₂.optional, p₂.greedy,
        by show u.tagname.map _ = _; rw [p₂.tagname], rfl, rfl, rfl, rfl, rfl⟩, rfl⟩
    · have hal := hl a (.head _)
      have hbl := hls b (.head _)
      refine ⟨Nat.le_of_eq s₂₀.fresh.symm, fun x hx => ?_, fun x _ hx => ?_, ?_, fun x hx => ?_, fun x hx => ?_⟩
      · rw [s₂₀.fresh]
        rw [hcell] at hx
        by_cases h₁ : x = a
        · omega
        · by_cases h₂ : x = b
          · omega
          · rw [if_neg h₁, if_neg h₂] at hx
            split at hx
            · cases hx
            · exact w x hx
      · simp only [List.mem_append, List.mem_cons, not_or] at hx
        rw [hcell, if_neg hx.1.1, if_neg hx.2.1, if_neg (by simp only [List.mem_append, not_or]; exact hx.1.2)]
      · refine List.nodup_append.mpr ⟨List.nodup_cons.mpr ⟨fun k => d a (.head _) (.tail _ k), nU⟩, by simp, ?_⟩
        intro x hx y hy hxy
        rw [List.mem_singleton] at hy
        subst hy; subst hxy
        rcases List.mem_cons.mp hx with k | k
        · exact hab k.symm
        · exact nbU k
      · refine .inl ?_
        simp only [List.mem_append, List.mem_cons] at hx ⊢
        grind
      · rw [hcell] at hx
        by_cases h₁ : x = a
        · exact .inl (by simp [h₁])
        · by_cases h₂ : x = b
          · exact .inl (by simp [h₂])
          · rw [if_neg h₁, if_neg h₂] at hx
            split at hx
            · cases hx
            · next hn =>
              by_cases h₃ : x ∈ U₁ ++ (U₂ ++ (U₃ ++ (U₄ ++ U₅)))
              · exact .inl (List.mem_append_left _ (.tail _ h₃))
              · refine .inr ⟨w x hx, fun k => ?_⟩
                rcases List.mem_append.mp k with k | k
                · rcases List.mem_cons.mp k with k | k
                  · exact h₁ k
                  · exact hn k
                · rcases List.mem_cons.mp k with k | k
                  · exact h₂ k
                  · exact h₃ k

end Hext.Mem
