import Verif.Proofs.MemoryOps
/-!
# The appending functions and the setters: lemmas
-/

namespace Hext.Mem

open Hist (movedFrom)

theorem holds_changed {m m' : Mem} {old new : List Addr} (w : m.Wf) (c : Changed m m' old new)
    {a r S} (h : HoldsRule m.cell a r S) (d : ∀ x ∈ S, x ∉ old) : HoldsRule m'.cell a r S :=
  framed_rule r a S _ _ h fun x hx => c.others x (lt_fresh w h x hx) (d x hx)

/-- Destroying a part of what was changed. -/
theorem Changed.destroy {m m₁ m₂ : Mem} {old new T : List Addr} (c : Changed m m₁ old (T ++ new))
    (h : Shrunk m₁ m₂ T) : Changed m m₂ old new := by
  obtain ⟨_, n₂, d⟩ := List.nodup_append.mp c.nodup
  refine ⟨by rw [h.fresh]; exact c.le, h.wf c.wf, fun x hx hx' => ?_, n₂,
    fun x hx => c.sub x (List.mem_append_right _ hx), fun x hx => ?_⟩
  · rw [h.cell]
    split
    · next k =>
      rcases c.sub x (List.mem_append_left _ k) with q | q
      · exact absurd q hx'
      · omega
    · exact c.others x hx hx'
  · rw [h.cell] at hx
    split at hx
    · cases hx
    · next k =>
      rcases c.noLeak x hx with q | q
      · rcases List.mem_append.mp q with q | q
        · exact absurd q k
        · exact .inl q
      · exact .inr q

theorem append_split {S T : List Addr} (h : (S ++ T).Nodup) : S.Nodup ∧ T.Nodup ∧ ∀ x ∈ S, x ∉ T := by
  obtain ⟨h₁, h₂, d⟩ := List.nodup_append.mp h
  exact ⟨h₁, h₂, fun x hx k => d x hx x k rfl⟩

/-- `Rule::append_next`. -/
theorem appendNext_ok {r r₂ : Rule} {m : Mem} (w : m.Wf) {a s : Addr} {S S₂ : List Addr}
    (h : HoldsRule m.cell a r S) (hs : HoldsRule m.cell s r₂ S₂) (hS : (S ++ S₂).Nodup) :
    ∃ m' S', appendNext a s m = pure ((), m') ∧ HoldsRule m'.cell a (r.appendNext r₂) S' ∧
      Changed m m' (S ++ S₂) S' := by
  obtain ⟨o, rest, _, rfl⟩ := holds_head hs
  obtain ⟨m₁, S', e₁, h₁, h₂, c₁⟩ := appendNextLoop_ok r w h hs hS
  obtain ⟨m₂, e₂, g₂⟩ := destroys_rule _ s [s] m₁ h₂ (by simp)
  refine ⟨m₂, S', ?_, ?_, Changed.destroy (T := [s]) c₁ g₂⟩
  · unfold appendNext
    rw [bind_ok e₁, e₂]
  · refine keep_shrunk (framed_rule _) g₂ h₁ fun x hx k => ?_
    rw [List.mem_singleton.mp k] at hx
    exact (List.nodup_cons.mp c₁.nodup).1 hx

/-- Write a rule object whose parts are known. -/
theorem put_rule {m : Mem} (w : m.Wf) {a : Addr} {o : RuleObj} {i ch nx ns S₁ S₂ S₃ S₄ S₅}
    (ha : (m.cell a).isSome) (p : Parts m.cell o i ch nx ns S₁ S₂ S₃ S₄ S₅)
    (hn : (a :: (S₁ ++ (S₂ ++ (S₃ ++ (S₄ ++ S₅))))).Nodup) :
    HoldsRule (m.put a (.rule o)).cell a (.mk i ch nx ns) (a :: (S₁ ++ (S₂ ++ (S₃ ++ (S₄ ++ S₅))))) ∧
    Changed m (m.put a (.rule o)) (a :: (S₁ ++ (S₂ ++ (S₃ ++ (S₄ ++ S₅)))))
      (a :: (S₁ ++ (S₂ ++ (S₃ ++ (S₄ ++ S₅))))) := by
  obtain ⟨ha', hn'⟩ := List.nodup_cons.mp hn
  have fr : ∀ x ∈ S₁ ++ (S₂ ++ (S₃ ++ (S₄ ++ S₅))), (m.put a (.rule o)).cell x = m.cell x := by
    intro x hx
    have : x ≠ a := fun k => ha' (k ▸ hx)
    simp [Mem.put, this]
  have alive : ∀ x ∈ S₁ ++ (S₂ ++ (S₃ ++ (S₄ ++ S₅))), x < m.fresh := by
    intro x hx
    refine w x ?_
    simp only [List.mem_append] at hx
    rcases hx with hx | hx | hx | hx | hx
    · exact alive_ptr (fun y _ => alive_rule y) _ _ _ p.child x hx
    · exact alive_ptr (fun y _ => alive_rule y) _ _ _ p.next x hx
    · exact alive_vec (fun y _ => alive_rule y) _ _ _ p.nested x hx
    · exact alive_matches _ _ _ _ p.ms x hx
    · exact alive_captures _ _ _ _ p.caps x hx
  refine ⟨holds_rule.mpr ⟨o, S₁, S₂, S₃, S₄, S₅, by simp [Mem.put], p.frame fr, rfl⟩, ?_⟩
  exact (changed_put w ha (.rule o)).beside hn' alive
    (fun x hx k => ha' (by rw [List.mem_singleton.mp k] at hx; exact hx))

/-- `Rule::append_child`. -/
theorem appendChild_ok {r r₂ : Rule} {m : Mem} (w : m.Wf) {a s : Addr} {S S₂ : List Addr}
    (h : HoldsRule m.cell a r S) (hs : HoldsRule m.cell s r₂ S₂) (hS : (S ++ S₂).Nodup) :
    ∃ m' S', appendChild a s m = pure ((), m') ∧ HoldsRule m'.cell a (r.appendChild r₂) S' ∧
      Changed m m' (S ++ S₂) S' := by
  obtain ⟨_, rest, _, rfl⟩ := holds_head hs
  obtain ⟨n₁, n₂, d⟩ := append_split hS
  have hl := lt_fresh w h
  have hls := lt_fresh w hs
  obtain ⟨m₁, e₁, r₁, r₁', c₁, hf₁, fr₁⟩ := move_ok w hs n₂
  cases r with
  | mk i ch nx ns =>
    obtain ⟨o, S₁, S₂, S₃, S₄, S₅, ha, p, rfl⟩ := holds_rule.mp h
    have hal := hl a (.head _)
    have has : a ≠ s := fun k => d a (.head _) (k ▸ .head _)
    have ha₁ : m₁.cell a = some (.rule o) := by rw [fr₁ a has (by omega), ha]
    have fr : ∀ x ∈ S₁ ++ (S₂ ++ (S₃ ++ (S₄ ++ S₅))), m₁.cell x = m.cell x := by
      intro x hx
      have h₂ : x ≠ s := fun k => d x (.tail _ hx) (k ▸ .head _)
      have h₃ : x ≠ m.fresh := by have := hl x (.tail _ hx); omega
      exact fr₁ x h₂ h₃
    have p₁ := p.frame fr
    have c₁' := c₁.beside (rest := a :: (S₁ ++ (S₂ ++ (S₃ ++ (S₄ ++ S₅))))) n₁ hl (fun x hx => d x hx)
    have hnd₁ := c₁'.nodup
    cases ch with
    | none =>
      obtain ⟨hch, hS₁⟩ : o.child = none ∧ S₁ = [] := by
        have := p.child
        cases hq : o.child with
        | none => rw [hq] at this; exact ⟨rfl, this⟩
        | some q => rw [hq] at this; exact this.elim
      have p₂ : Parts m₁.cell { o with child := some m.fresh } i (some r₂) nx ns (m.fresh :: rest) S₂ S₃ S₄
          S₅ := ⟨p₁.tag, p₁.optional, p₁.greedy, p₁.tagname, r₁, p₁.next, p₁.nested, p₁.ms, p₁.caps⟩
      have hp : (s :: m.fresh :: rest ++ a :: (S₁ ++ (S₂ ++ (S₃ ++ (S₄ ++ S₅))))).Perm
          ((a :: ((m.fresh :: rest) ++ (S₂ ++ (S₃ ++ (S₄ ++ S₅))))) ++ [s]) := by
        rw [hS₁]; perm
      have hnd := append_split (hp.nodup_iff.mp hnd₁)
      obtain ⟨h₂, c₂⟩ := put_rule c₁.wf (by rw [ha₁]; rfl : (m₁.cell a).isSome) p₂ hnd.1
      have hs₂ : HoldsRule (m₁.put a (.rule { o with child := some m.fresh })).cell s (movedFrom r₂) [s] :=
        holds_changed c₁.wf c₂ r₁' fun x hx k => hnd.2.2 x k hx
      have c₂' := c₂.beside (rest := [s]) (by simp)
        (fun x hx => by rw [List.mem_singleton.mp hx]; exact lt_fresh c₁.wf r₁' s (.head _))
        (fun x hx k => hnd.2.2 x k hx)
      have c := (c₁'.perm hp).trans c₂'
      obtain ⟨m₃, e₃, g₃⟩ := destroys_rule _ s [s] _ hs₂ (by simp)
      refine ⟨m₃, a :: ((m.fresh :: rest) ++ (S₂ ++ (S₃ ++ (S₄ ++ S₅)))), ?_, ?_, ?_⟩
      · unfold appendChild
        rw [bind_ok (loadRule_ok ha)]
        show ((match o.child with
          | some c => do
            let s ← moveRule s
            appendNext c s
            destroyRule _
          | none => do
            let s ← moveRule s
            let o ← loadRule a
            store a (.rule { o with child := some s })
            destroyRule _) : P Unit) m = _
        rw [hch]
        show (moveRule s >>= fun n => loadRule a >>= fun o =>
          store a (.rule { o with child := some n }) >>= fun _ => destroyRule s) m = _
        rw [bind_ok e₁, bind_ok (loadRule_ok ha₁),
          bind_ok (store_ok (by rw [ha₁]; rfl) _), e₃]
      · exact keep_shrunk (framed_rule _) g₃ h₂ fun x hx k => hnd.2.2 x hx k
      · refine Changed.old ?_ (old := s :: rest ++ a :: (S₁ ++ (S₂ ++ (S₃ ++ (S₄ ++ S₅))))) ?_
        · exact Changed.destroy (T := [s]) (c.perm (by perm)) g₃
        · intro x
          rw [List.mem_append, List.mem_append, or_comm]
    | some rc =>
      obtain ⟨q, hq, hqc⟩ : ∃ q, o.child = some q ∧ HoldsRule m₁.cell q rc S₁ := by
        have := p₁.child
        cases hq : o.child with
        | none => rw [hq] at this; exact this.elim
        | some q => rw [hq] at this; exact ⟨q, rfl, this⟩
      have hp : (s :: m.fresh :: rest ++ a :: (S₁ ++ (S₂ ++ (S₃ ++ (S₄ ++ S₅))))).Perm
          ((S₁ ++ (m.fresh :: rest)) ++ (s :: a :: (S₂ ++ (S₃ ++ (S₄ ++ S₅))))) := by perm
      obtain ⟨hn₁, hn₂, hd⟩ := append_split (hp.nodup_iff.mp hnd₁)
      obtain ⟨m₂, T, e₂, h₂, c₂⟩ := appendNext_ok c₁.wf hqc r₁ hn₁
      have hlt₁ : ∀ x ∈ s :: a :: (S₂ ++ (S₃ ++ (S₄ ++ S₅))), x < m₁.fresh := by
        intro x hx
        rw [hf₁]
        rcases List.mem_cons.mp hx with k | k
        · have := hls s (.head _); omega
        · rcases List.mem_cons.mp k with k | k
          · omega
          · have := hl x (by simp only [List.mem_cons, List.mem_append] at k ⊢; grind); omega
      have c₂' := c₂.beside hn₂ hlt₁ (fun x hx k => hd x k hx)
      have c := (c₁'.perm hp).trans c₂'
      have fr₂ : ∀ x ∈ s :: a :: (S₂ ++ (S₃ ++ (S₄ ++ S₅))), m₂.cell x = m₁.cell x :=
        fun x hx => c₂.others x (hlt₁ x hx) fun k => hd x k hx
      have hs₂ : HoldsRule m₂.cell s (movedFrom r₂) [s] :=
        framed_rule _ _ _ _ _ r₁' fun x hx => fr₂ x (by rw [List.mem_singleton.mp hx]; exact .head _)
      obtain ⟨m₃, e₃, g₃⟩ := destroys_rule _ s [s] _ hs₂ (by simp)
      have hT : HoldsRule m₂.cell a (.mk i (some (rc.appendNext r₂)) nx ns)
          (a :: (T ++ (S₂ ++ (S₃ ++ (S₄ ++ S₅))))) := by
        refine holds_rule.mpr ⟨o, T, S₂, S₃, S₄, S₅, by rw [fr₂ a (.tail _ (.head _)), ha₁],
          ⟨p₁.tag, p₁.optional, p₁.greedy, p₁.tagname, by rw [hq]; exact h₂,
            framed_ptr (fun x _ => framed_rule x) _ _ _ _ p₁.next fun x hx => fr₂ x ?_,
            framed_vec (fun x _ => framed_rule x) _ _ _ _ p₁.nested fun x hx => fr₂ x ?_,
            framed_matches _ _ _ _ _ p₁.ms fun x hx => fr₂ x ?_,
            framed_captures _ _ _ _ _ p₁.caps fun x hx => fr₂ x ?_⟩, rfl⟩
        all_goals simp [hx]
      have hp₃ : (T ++ s :: a :: (S₂ ++ (S₃ ++ (S₄ ++ S₅)))).Perm
        ([s] ++ (a :: (T ++ (S₂ ++ (S₃ ++ (S₄ ++ S₅)))))) := by perm
      have cp := c.perm hp₃
      refine ⟨m₃, a :: (T ++ (S₂ ++ (S₃ ++ (S₄ ++ S₅)))), ?_, ?_, ?_⟩
      · unfold appendChild
        rw [bind_ok (loadRule_ok ha)]
        show ((match o.child with
          | some c => do
            let s ← moveRule s
            appendNext c s
            destroyRule _
          | none => do
            let s ← moveRule s
            let o ← loadRule a
            store a (.rule { o with child := some s })
            destroyRule _) : P Unit) m = _
        rw [hq]
        show (moveRule s >>= fun n => appendNext q n >>= fun _ => destroyRule s) m = _
        rw [bind_ok e₁, bind_ok e₂, e₃]
      · refine keep_shrunk (framed_rule _) g₃ hT fun x hx k => ?_
        rw [List.mem_singleton.mp k] at hx
        exact (List.nodup_cons.mp cp.nodup).1 hx
      · refine Changed.old ?_ (old := s :: rest ++ a :: (S₁ ++ (S₂ ++ (S₃ ++ (S₄ ++ S₅))))) ?_
        · exact Changed.destroy (T := [s]) cp g₃
        · intro x
          rw [List.mem_append, List.mem_append, or_comm]

/-- Moving the elements of a vector into a new buffer. -/
theorem relocate_ok {rs : List Rule} : ∀ {m : Mem}, m.Wf → ∀ {as S : List Addr},
    HoldsVec (HoldsRule m.cell) as rs S → S.Nodup →
    ∃ m' as' S', relocate as m = pure (as', m') ∧ HoldsVec (HoldsRule m'.cell) as' rs S' ∧
      Changed m m' S S' := by
  induction rs with
  | nil =>
    intro m w as S h _
    cases as with
    | nil => exact ⟨m, [], [], rfl, rfl, by have : S = [] := h; rw [this]; exact (Grown.refl w).changed⟩
    | cons => exact h.elim
  | cons r rs ih =>
    intro m w as S h hS
    cases as with
    | nil => exact h.elim
    | cons a as =>
      obtain ⟨S₁, S₂, h₁, h₂, rfl⟩ := h
      obtain ⟨n₁, n₂, d⟩ := append_split hS
      obtain ⟨o, rest, _, rfl⟩ := holds_head h₁
      have hl₂ : ∀ x ∈ S₂, x < m.fresh := fun x hx => w x
        (alive_vec (fun y _ => alive_rule y) _ _ _ h₂ x hx)
      obtain ⟨m₁, e₁, r₁, r₁', c₁, hf₁, fr₁⟩ := move_ok w h₁ n₁
      obtain ⟨m₂, e₂, g₂⟩ := destroys_rule _ a [a] _ r₁' (by simp)
      have c₂ : Changed m m₂ (a :: rest) (m.fresh :: rest) := Changed.destroy (T := [a]) c₁ g₂
      have r₂ : HoldsRule m₂.cell m.fresh r (m.fresh :: rest) := by
        refine keep_shrunk (framed_rule r) g₂ r₁ fun x hx k => ?_
        rw [List.mem_singleton.mp k] at hx
        exact (List.nodup_cons.mp c₁.nodup).1 hx
      have h₂' : HoldsVec (HoldsRule m₂.cell) as rs S₂ :=
        framed_vec (fun x _ => framed_rule x) _ _ _ _ h₂ fun x hx =>
          c₂.others x (hl₂ x hx) fun k => d x k hx
      obtain ⟨m₃, as', T, e₃, r₃, c₃⟩ := ih c₂.wf h₂' n₂
      have c₂' := c₂.beside n₂ hl₂ (fun x hx k => d x k hx)
      obtain ⟨k₁, _, kd⟩ := append_split c₂'.nodup
      have c₃' := c₃.beside (rest := m.fresh :: rest) k₁ (lt_fresh c₂.wf r₂) (fun x hx => kd x hx)
      refine ⟨m₃, m.fresh :: as', (m.fresh :: rest) ++ T, ?_, ⟨m.fresh :: rest, T, ?_, r₃, rfl⟩, ?_⟩
      · show ((moveRule a >>= fun b => destroyRule a >>= fun _ => pure b) >>= fun b =>
          relocate as >>= fun bs => pure (b :: bs)) m = _
        rw [bind_ok (a := m.fresh) (m' := m₂) (by rw [bind_ok e₁, bind_ok e₂]; rfl), bind_ok e₃]
        rfl
      · exact holds_changed c₂.wf c₃ r₂ fun x hx => kd x hx
      · exact ((c₂'.perm List.perm_append_comm).trans c₃').perm List.perm_append_comm

theorem vec_snoc {α β} {R : β → α → List Addr → Prop} {bs : List β} {vs : List α} {S : List Addr}
    (h : HoldsVec R bs vs S) {b : β} {v : α} {T : List Addr} (hb : R b v T) :
    HoldsVec R (bs ++ [b]) (vs ++ [v]) (S ++ T) := by
  induction bs generalizing vs S with
  | nil =>
    cases vs with
    | nil =>
      have hS : S = [] := h
      subst hS
      exact ⟨T, [], hb, rfl, by simp⟩
    | cons => exact h.elim
  | cons x xs ih =>
    cases vs with
    | nil => exact h.elim
    | cons y ys =>
      obtain ⟨S₁, S₂, h₁, h₂, rfl⟩ := h
      exact ⟨S₁, S₂ ++ T, h₁, ih h₂, List.append_assoc _ _ _⟩

/-- `Rule::append_nested`. -/
theorem appendNested_ok (realloc : Bool) {r r₂ : Rule} {m : Mem} (w : m.Wf) {a s : Addr}
    {S S₂ : List Addr} (h : HoldsRule m.cell a r S) (hs : HoldsRule m.cell s r₂ S₂)
    (hS : (S ++ S₂).Nodup) :
    ∃ m' S', appendNested realloc a s m = pure ((), m') ∧ HoldsRule m'.cell a (r.appendNested r₂) S' ∧
      Changed m m' (S ++ S₂) S' := by
  obtain ⟨_, rest, _, rfl⟩ := holds_head hs
  obtain ⟨n₁, n₂, d⟩ := append_split hS
  have hl := lt_fresh w h
  have hls := lt_fresh w hs
  obtain ⟨m₁, e₁, r₁, r₁', c₁, hf₁, fr₁⟩ := move_ok w hs n₂
  cases r with
  | mk i ch nx ns =>
    obtain ⟨o, S₁, S₂, S₃, S₄, S₅, ha, p, rfl⟩ := holds_rule.mp h
    have hal := hl a (.head _)
    have has : a ≠ s := fun k => d a (.head _) (k ▸ .head _)
    have ha₁ : m₁.cell a = some (.rule o) := by rw [fr₁ a has (by omega), ha]
    have fr : ∀ x ∈ S₁ ++ (S₂ ++ (S₃ ++ (S₄ ++ S₅))), m₁.cell x = m.cell x := by
      intro x hx
      have h₂ : x ≠ s := fun k => d x (.tail _ hx) (k ▸ .head _)
      have h₃ : x ≠ m.fresh := by have := hl x (.tail _ hx); omega
      exact fr₁ x h₂ h₃
    have p₁ := p.frame fr
    have c₁' := c₁.beside (rest := a :: (S₁ ++ (S₂ ++ (S₃ ++ (S₄ ++ S₅))))) n₁ hl (fun x hx => d x hx)
    have hp : (s :: m.fresh :: rest ++ a :: (S₁ ++ (S₂ ++ (S₃ ++ (S₄ ++ S₅))))).Perm
        (S₃ ++ (s :: a :: ((m.fresh :: rest) ++ (S₁ ++ (S₂ ++ (S₄ ++ S₅)))))) := by perm
    have c₁'' := c₁'.perm hp
    obtain ⟨k₁, k₂, kd⟩ := append_split c₁''.nodup
    have hlt₁ : ∀ x ∈ s :: a :: ((m.fresh :: rest) ++ (S₁ ++ (S₂ ++ (S₄ ++ S₅)))), x < m₁.fresh := by
      intro x hx
      rw [hf₁]
      simp only [List.mem_cons, List.mem_append] at hx
      rcases hx with k | k | (k | k) | k
      · have := hls s (.head _); omega
      · omega
      · omega
      · have := hls x (.tail _ k); omega
      · have := hl x (by simp only [List.mem_cons, List.mem_append]; grind); omega
    -- the elements, moved or not
    obtain ⟨m₂, elems, T, e₂, r₂', c₂⟩ : ∃ m₂ elems T,
        makeRoom realloc o.nested m₁ = pure (elems, m₂) ∧
        HoldsVec (HoldsRule m₂.cell) elems ns T ∧ Changed m₁ m₂ S₃ T := by
      cases realloc with
      | true => exact relocate_ok c₁.wf p₁.nested k₁
      | false =>
        refine ⟨m₁, o.nested, S₃, rfl, p₁.nested, ?_⟩
        exact (Grown.refl c₁.wf).changed.beside k₁ (fun x hx => c₁.wf x
          (alive_vec (fun y _ => alive_rule y) _ _ _ p₁.nested x hx)) (fun x _ => by simp)
    have fr₂ : ∀ x ∈ s :: a :: ((m.fresh :: rest) ++ (S₁ ++ (S₂ ++ (S₄ ++ S₅)))),
        m₂.cell x = m₁.cell x := fun x hx => c₂.others x (hlt₁ x hx) fun k => kd x k hx
    have c₂' := c₂.beside k₂ hlt₁ (fun x hx k => kd x k hx)
    have ha₂ : m₂.cell a = some (.rule o) := by rw [fr₂ a (.tail _ (.head _)), ha₁]
    have p₂ : Parts m₂.cell { o with nested := elems ++ [m.fresh] } i ch nx (ns ++ [r₂]) S₁ S₂
        (T ++ (m.fresh :: rest)) S₄ S₅ := by
      refine ⟨p₁.tag, p₁.optional, p₁.greedy, p₁.tagname,
            framed_ptr (fun x _ => framed_rule x) _ _ _ _ p₁.child fun x hx => fr₂ x ?_,
            framed_ptr (fun x _ => framed_rule x) _ _ _ _ p₁.next fun x hx => fr₂ x ?_,
            vec_snoc r₂' (framed_rule _ _ _ _ _ r₁ fun x hx => fr₂ x ?_),
            framed_matches _ _ _ _ _ p₁.ms fun x hx => fr₂ x ?_,
            framed_captures _ _ _ _ _ p₁.caps fun x hx => fr₂ x ?_⟩
      case refine_3 =>
        simp only [List.mem_cons, List.mem_append] at hx ⊢
        grind
      all_goals simp [hx]
    have hp₃ : (T ++ (s :: a :: ((m.fresh :: rest) ++ (S₁ ++ (S₂ ++ (S₄ ++ S₅)))))).Perm
        ((a :: (S₁ ++ (S₂ ++ ((T ++ (m.fresh :: rest)) ++ (S₄ ++ S₅))))) ++ [s]) := by perm
    have c := (c₁''.trans c₂').perm hp₃
    obtain ⟨j₁, _, jd⟩ := append_split c.nodup
    obtain ⟨h₃, c₃⟩ := put_rule c₂.wf (by rw [ha₂]; rfl : (m₂.cell a).isSome) p₂ j₁
    have hs₂ : HoldsRule m₂.cell s (movedFrom r₂) [s] :=
      framed_rule _ _ _ _ _ r₁' fun x hx => fr₂ x (by rw [List.mem_singleton.mp hx]; exact .head _)
    have hs₃ := holds_changed c₂.wf c₃ hs₂ fun x hx k => jd x k hx
    obtain ⟨m₄, e₄, g₄⟩ := destroys_rule _ s [s] _ hs₃ (by simp)
    have c₃' := c₃.beside (rest := [s]) (by simp)
      (fun x hx => by rw [List.mem_singleton.mp hx]; exact lt_fresh c₂.wf hs₂ s (.head _))
      (fun x hx k => jd x k hx)
    refine ⟨m₄, _, ?_, keep_shrunk (framed_rule _) g₄ h₃ fun x hx k => jd x hx k, ?_⟩
    · unfold appendNested
      rw [bind_ok e₁, bind_ok (loadRule_ok ha₁), bind_ok e₂, bind_ok (loadRule_ok ha₂),
        bind_ok (store_ok (by rw [ha₂]; rfl) _), e₄]
    · refine Changed.old ?_ (old := s :: rest ++ a :: (S₁ ++ (S₂ ++ (S₃ ++ (S₄ ++ S₅))))) ?_
      · exact Changed.destroy (T := [s]) ((c.trans c₃').perm List.perm_append_comm) g₄
      · intro x
        rw [List.mem_append, List.mem_append, or_comm]

/-- Writing members that are not pointers. -/
theorem update_ok {m : Mem} (w : m.Wf) {a : Addr} {i : RuleInfo} {ch nx ns} {S : List Addr}
    (h : HoldsRule m.cell a (.mk i ch nx ns) S) (hS : S.Nodup) (f : RuleObj → RuleObj) (g : RuleInfo → RuleInfo)
    (hf : ∀ o, (f o).child = o.child ∧ (f o).next = o.next ∧ (f o).nested = o.nested ∧ (f o).ms = o.ms ∧
      (f o).caps = o.caps)
    (hg : ∀ i, (g i).ms = i.ms ∧ (g i).caps = i.caps)
    (hfg : ∀ o i, o.tag = i.tag ∧ o.optional = i.optional ∧ o.greedy = i.greedy ∧ o.tagname = i.tagname →
      (f o).tag = (g i).tag ∧ (f o).optional = (g i).optional ∧ (f o).greedy = (g i).greedy ∧
      (f o).tagname = (g i).tagname) :
    ∃ m', (loadRule a >>= fun o => store a (.rule (f o))) m = pure ((), m') ∧
      HoldsRule m'.cell a (.mk (g i) ch nx ns) S ∧ Changed m m' S S := by
  obtain ⟨o, S₁, S₂, S₃, S₄, S₅, ha, p, rfl⟩ := holds_rule.mp h
  obtain ⟨q₁, q₂, q₃, q₄⟩ := hfg o i ⟨p.tag, p.optional, p.greedy, p.tagname⟩
  obtain ⟨f₁, f₂, f₃, f₄, f₅⟩ := hf o
  obtain ⟨k₁, k₂⟩ := hg i
  have p' : Parts m.cell (f o) (g i) ch nx ns S₁ S₂ S₃ S₄ S₅ :=
    ⟨q₁, q₂, q₃, q₄, f₁ ▸ p.child, f₂ ▸ p.next, f₃ ▸ p.nested, f₄ ▸ k₁ ▸ p.ms, f₅ ▸ k₂ ▸ p.caps⟩
  obtain ⟨h₁, c₁⟩ := put_rule w (by rw [ha]; rfl : (m.cell a).isSome) p' hS
  refine ⟨_, ?_, h₁, c₁⟩
  rw [bind_ok (loadRule_ok ha), store_ok (by rw [ha]; rfl)]

/-- `Rule::append_match`. -/
theorem appendMatch_ok {m : Mem} (w : m.Wf) {a : Addr} {r : Rule} {S T : List Addr}
    {q : Option Addr} {v : Option Match} (h : HoldsRule m.cell a r S)
    (hv : HoldsPtr (HoldsMatch m.cell) q v T) (hS : (S ++ T).Nodup) :
    ∃ m' S', appendMatch a q m = pure ((), m') ∧ HoldsRule m'.cell a (r.appendMatch v) S' ∧
      Changed m m' (S ++ T) S' := by
  cases r with
  | mk i ch nx ns =>
    obtain ⟨o, S₁, S₂, S₃, S₄, S₅, ha, p, rfl⟩ := holds_rule.mp h
    have p' : Parts m.cell { o with ms := o.ms ++ [q] } { i with ms := i.ms ++ [v] } ch nx ns S₁ S₂ S₃
        (S₄ ++ T) S₅ :=
      ⟨p.tag, p.optional, p.greedy, p.tagname, p.child, p.next, p.nested, vec_snoc p.ms hv, p.caps⟩
    have hp : (a :: (S₁ ++ (S₂ ++ (S₃ ++ (S₄ ++ S₅)))) ++ T).Perm
      (a :: (S₁ ++ (S₂ ++ (S₃ ++ ((S₄ ++ T) ++ S₅))))) := by perm
    obtain ⟨h₁, c₁⟩ := put_rule w (by rw [ha]; rfl : (m.cell a).isSome) p' (hp.nodup_iff.mp hS)
    refine ⟨_, _, ?_, h₁, c₁.old fun x => hp.mem_iff.symm⟩
    unfold appendMatch
    rw [bind_ok (loadRule_ok ha), store_ok (by rw [ha]; rfl)]

/-- `Rule::append_capture`. -/
theorem appendCapture_ok {m : Mem} (w : m.Wf) {a : Addr} {r : Rule} {S T : List Addr}
    {q : Option Addr} {v : Option Capture} (h : HoldsRule m.cell a r S)
    (hv : HoldsPtr (HoldsCapture m.cell) q v T) (hS : (S ++ T).Nodup) :
    ∃ m' S', appendCapture a q m = pure ((), m') ∧ HoldsRule m'.cell a (r.appendCapture v) S' ∧
      Changed m m' (S ++ T) S' := by
  cases r with
  | mk i ch nx ns =>
    obtain ⟨o, S₁, S₂, S₃, S₄, S₅, ha, p, rfl⟩ := holds_rule.mp h
    have p' : Parts m.cell { o with caps := o.caps ++ [q] } { i with caps := i.caps ++ [v] } ch nx ns S₁ S₂
        S₃ S₄ (S₅ ++ T) :=
      ⟨p.tag, p.optional, p.greedy, p.tagname, p.child, p.next, p.nested, p.ms, vec_snoc p.caps hv⟩
    have hp : (a :: (S₁ ++ (S₂ ++ (S₃ ++ (S₄ ++ S₅)))) ++ T).Perm
      (a :: (S₁ ++ (S₂ ++ (S₃ ++ (S₄ ++ (S₅ ++ T)))))) := by perm
    obtain ⟨h₁, c₁⟩ := put_rule w (by rw [ha]; rfl : (m.cell a).isSome) p' (hp.nodup_iff.mp hS)
    refine ⟨_, _, ?_, h₁, c₁.old fun x => hp.mem_iff.symm⟩
    unfold appendCapture
    rw [bind_ok (loadRule_ok ha), store_ok (by rw [ha]; rfl)]

end Hext.Mem
