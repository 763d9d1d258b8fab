import Verif.Proofs.History
/-!
# Moving a part of a rule to the rule: lemmas
-/

namespace Hext.Hist

open Mem

theorem loadRule_gone {m : Mem} {a : Nat} (h : m.cell a = none) : loadRule a m = throw .ub := by
  show (((match m.cell a with | some o => pure o | none => throw .ub : P Obj) m) >>= _) = _
  rw [h]; rfl

theorem bind_ub {α β} {x : P α} {f : α → P β} {m : Mem} (h : x m = throw .ub) : (x >>= f) m = throw .ub := by
  show (x m >>= fun p => f p.1 p.2) = _
  rw [h]; rfl

/-- A tree is destroyed, with one of its objects. -/
theorem dies {α β} {R : Cells → β → α → List Nat → Prop} {f : β → P Unit} {v : α} (hd : Destroys R f v)
    {m : Mem} {p : β} {S : List Nat} {a b : Nat} (h : R m.cell p v S) (n : S.Nodup) (hb : b ∈ S) (ha : a ∉ S) :
    ∃ m₂, f p m = pure ((), m₂) ∧ m₂.cell b = none ∧ m₂.cell a = m.cell a := by
  obtain ⟨m₂, e, s⟩ := hd p S m h n
  exact ⟨m₂, e, by rw [s.cell, if_pos hb], by rw [s.cell, if_neg ha]⟩

theorem HoldsPtr.trim {c : Cells} {b b' : Option Nat} {v : Option Rule} {S : List Nat}
    (h : HoldsPtr (HoldsRule c) b v S) (hb : b' = none ∨ b' = b) :
    ∃ v' S', HoldsPtr (HoldsRule c) b' v' S' ∧ S'.Sublist S := by
  rcases hb with rfl | rfl
  · exact ⟨none, [], rfl, List.nil_sublist _⟩
  · exact ⟨v, S, h, .refl _⟩

theorem HoldsVec.trim {c : Cells} {b b' : List Nat} {v : List Rule} {S : List Nat}
    (h : HoldsVec (HoldsRule c) b v S) (hb : b' = [] ∨ b' = b) :
    ∃ v' S', HoldsVec (HoldsRule c) b' v' S' ∧ S'.Sublist S := by
  rcases hb with rfl | rfl
  · exact ⟨[], [], rfl, List.nil_sublist _⟩
  · exact ⟨v, S, h, .refl _⟩

/-- A rule without some of its parts. -/
theorem trimmed {c c' : Cells} {b : Nat} {q : Rule} {T : List Nat} {u u' : RuleObj} (h : HoldsRule c b q T)
    (hb : c b = some (.rule u)) (hn : T.Nodup) (hc : u'.child = none ∨ u'.child = u.child)
    (hx : u'.next = none ∨ u'.next = u.next) (hs : u'.nested = [] ∨ u'.nested = u.nested)
    (hms : u'.ms = u.ms) (hcaps : u'.caps = u.caps) (hb' : c' b = some (.rule u'))
    (same : ∀ x ∈ T, x ≠ b → c' x = c x) : ∃ q' T', HoldsRule c' b q' T' ∧ T'.Sublist T := by
  cases q with
  | mk i ch nx ns =>
    obtain ⟨o, S₁, S₂, S₃, S₄, S₅, ha, pt, rfl⟩ := holds_rule.mp h
    obtain rfl : o = u := by rw [ha] at hb; injection hb with hb; injection hb
    obtain ⟨nb, _⟩ := List.nodup_cons.mp hn
    have same : ∀ x ∈ S₁ ++ (S₂ ++ (S₃ ++ (S₄ ++ S₅))), c' x = c x := fun x hx =>
      same x (.tail _ hx) fun k => nb (k ▸ hx)
    obtain ⟨v₁, T₁, h₁, l₁⟩ := HoldsPtr.trim pt.child hc
    obtain ⟨v₂, T₂, h₂, l₂⟩ := HoldsPtr.trim pt.next hx
    obtain ⟨v₃, T₃, h₃, l₃⟩ := HoldsVec.trim pt.nested hs
    refine ⟨.mk ⟨u'.tag, u'.optional, u'.greedy, u'.tagname, i.ms, i.caps⟩ v₁ v₂ v₃, _,
      holds_rule.mpr ⟨u', T₁, T₂, T₃, S₄, S₅, hb', ⟨rfl, rfl, rfl, rfl, ?_, ?_, ?_, ?_, ?_⟩, rfl⟩, ?_⟩
    · exact framed_ptr (fun x _ => framed_rule x) _ _ _ _ h₁ fun x hx => same x (by simp [l₁.subset hx])
    · exact framed_ptr (fun x _ => framed_rule x) _ _ _ _ h₂ fun x hx => same x (by simp [l₂.subset hx])
    · exact framed_vec (fun x _ => framed_rule x) _ _ _ _ h₃ fun x hx => same x (by simp [l₃.subset hx])
    · rw [hms]; exact framed_matches _ _ _ _ _ pt.ms fun x hx => same x (by simp [hx])
    · rw [hcaps]; exact framed_captures _ _ _ _ _ pt.caps fun x hx => same x (by simp [hx])
    · exact (l₁.append (l₂.append (l₃.append (.refl _)))).cons_cons b

/-- A tree of which one rule was trimmed. -/
theorem trimmed_tree {m : Mem} {a s x : Nat} {m' : Mem} {t u u' : RuleObj} {D : List Nat} {r q : Rule}
    {S : List Nat} {p : List Way} (st : St m a s m' t u' D) (has : a ≠ s) (h : HoldsRule m.cell x r S) (hn : S.Nodup)
    (ha : a ∉ S) (hD : ∀ y ∈ S, y ∉ D) (hq : r.at? p = some q) (hs : resolve x p m = pure (s, m))
    (hu : m.cell s = some (.rule u)) (hc : u'.child = none ∨ u'.child = u.child)
    (hx : u'.next = none ∨ u'.next = u.next) (hns : u'.nested = [] ∨ u'.nested = u.nested)
    (hms : u'.ms = u.ms) (hcaps : u'.caps = u.caps) :
    ∃ r' S', HoldsRule m'.cell x r' S' ∧ S'.Nodup ∧ s ∈ S' ∧ ∀ y ∈ S', y ∈ S := by
  obtain ⟨s', T, rest, e, f, _⟩ := focus h hq
  obtain rfl : s' = s := by
    have := e m fun _ _ => rfl
    rw [hs] at this
    have := E.pure_inj this
    injection this with k
    exact k.symm
  have hp := f.perm.nodup_iff.mp hn
  obtain ⟨hT, hr, d⟩ := append_split hp
  have hmem : ∀ y, y ∈ T ∨ y ∈ rest → y ∈ S := fun y hy => f.perm.mem_iff.mpr (List.mem_append.mpr hy)
  have same : ∀ y, y ∈ S → y ≠ s' → m'.cell y = m.cell y := by
    intro y hy k
    have : y ≠ a := fun k => ha (k ▸ hy)
    rw [st.cell, if_neg this, if_neg k, if_neg (hD y hy)]
  obtain ⟨_, own, _, hTo⟩ := holds_head f.holds
  obtain ⟨q', T', hq', l⟩ := trimmed f.holds hu hT hc hx hns hms hcaps (st.cellB has)
    fun y hy k => same y (hmem y (.inl hy)) k
  obtain ⟨S', hS', pS⟩ := f.refill m'.cell q' T' hq' fun y hy => same y (hmem y (.inr hy)) (by
    rintro rfl
    exact d _ (hTo ▸ .head _) hy)
  obtain ⟨_, own', _, hT'⟩ := holds_head hq'
  refine ⟨_, S', hS', pS.nodup_iff.mpr (List.nodup_append.mpr ⟨l.nodup hT, hr, fun y hy z hz k =>
    d y (l.subset hy) (k ▸ hz)⟩), pS.mem_iff.mpr (List.mem_append_left _ (hT' ▸ .head _)), fun y hy => ?_⟩
  rcases List.mem_append.mp (pS.mem_iff.mp hy) with k | k
  · exact hmem y (.inl (l.subset k))
  · exact hmem y (.inr k)

/-- `Rule::operator=(Rule&&)` reads the rule that is moved after it was destroyed with the old parts of the target, if
it is one of them. -/
theorem moveAssign_part_ub {m : Mem} {a : Nat} {r : Rule} {S : List Nat} (h : HoldsRule m.cell a r S) (hS : S.Nodup)
    {w : Way} {p : List Way} {q : Rule} (hq : r.at? (w :: p) = some q) {s : Nat}
    (hs : resolve a (w :: p) m = pure (s, m)) : moveAssignRule a s m = throw .ub := by
  cases r with
  | mk i ch nx ns =>
    obtain ⟨s', T, rest, e, f, _⟩ := focus h hq
    obtain rfl : s' = s := by
      have := e m fun _ _ => rfl
      rw [hs] at this
      have := E.pure_inj this
      injection this with k
      exact k.symm
    obtain ⟨u, own, hu, rfl⟩ := holds_head f.holds
    obtain ⟨t, S₁, S₂, S₃, S₄, S₅, ha, pt, rfl⟩ := holds_rule.mp h
    obtain ⟨t', b, ht', hb, hsb⟩ := resolve_cons_iff.mp hs
    obtain rfl : t = t' := by rw [ha] at ht'; injection ht' with k; injection k
    obtain ⟨naS, nr⟩ := List.nodup_cons.mp hS
    obtain ⟨q₁, q₂, d₁⟩ := append_split nr
    obtain ⟨q₂, q₃, d₂⟩ := append_split q₂
    obtain ⟨q₃, q₄, d₃⟩ := append_split q₃
    simp only [List.mem_append, not_or] at naS d₁ d₂ d₃
    -- the part that contains the rule
    obtain ⟨rb, Sb, hrb, hSb, hqb⟩ : ∃ rb Sb, HoldsRule m.cell b rb Sb ∧ Sb.Nodup ∧ rb.at? p = some q ∧
        (match w with | .child => ch = some rb ∧ Sb = S₁ | .next => nx = some rb ∧ Sb = S₂ | .nested k => ns[k]? = some rb ∧
          ∃ rest, S₃.Perm (Sb ++ rest) ∧ ∀ c' v' T', HoldsRule c' b v' T' → (∀ y ∈ rest, c' y = m.cell y) →
        ∃ S', HoldsVec (HoldsRule c') t.nested (ns.set k v') S' ∧ S'.Perm (T' ++ rest)) := by
      cases w with
      | child =>
        have hc := pt.child
        rw [show t.child = some b from hb] at hc
        cases ch with
        | none => exact hc.elim
        | some rb => exact ⟨rb, S₁, hc, q₁, hq, rfl, rfl⟩
      | next =>
        have hc := pt.next
        rw [show t.next = some b from hb] at hc
        cases nx with
        | none => exact hc.elim
        | some rb => exact ⟨rb, S₂, hc, q₂, hq, rfl, rfl⟩
      | nested k =>
        cases hk : ns[k]? with
        | none => simp [Rule.at?, Rule.nested, hk] at hq
        | some rb =>
          obtain ⟨b', Tb, rbs, hb', hT, hp, _, kb⟩ := vec_focus pt.nested hk
          obtain rfl : b = b' := by rw [show t.nested[k]? = some b from hb] at hb'; injection hb'
          exact ⟨rb, Tb, hT, (append_split (hp.nodup_iff.mp q₃)).1, by simpa [Rule.at?, Rule.nested, hk] using hq,
            hk, rbs, hp, kb⟩
    obtain ⟨hqb, hw⟩ := hqb
    have hsm : s' ∈ Sb := resolved_mem hrb hsb
    have hsub : ∀ y ∈ Sb, y ∈ S₁ ∨ y ∈ S₂ ∨ y ∈ S₃ := by
      intro y hy
      cases w with
      | child => exact .inl (hw.2 ▸ hy)
      | next => exact .inr (.inl (hw.2 ▸ hy))
      | nested k =>
        obtain ⟨_, rs, hp, _⟩ := hw
        exact .inr (.inr (hp.mem_iff.mpr (List.mem_append_left _ hy)))
    have haSb : a ∉ Sb := by
      intro k
      rcases hsub a k with k | k | k
      · exact naS.1 k
      · exact naS.2.1 k
      · exact naS.2.2.1 k
    have has : a ≠ s' := fun k => haSb (k ▸ hsm)
    have s₀ : St m a s' m t u [] := ⟨rfl, fun x => by
      by_cases h₁ : x = a
      · subst h₁; simp [ha]
      · by_cases h₂ : x = s'
        · subst h₂; simp [h₁, hu]
        · simp [h₁, h₂]⟩
    -- first_child_
    obtain ⟨m₁, k₁, s₁⟩ := s₀.storeB has { u with child := none }
    obtain ⟨m₂, k₂, s₂⟩ := s₁.storeA { t with child := u.child }
    unfold moveAssignRule
    rw [bind_ok (loadRule_ok (s₀.cellB has)), bind_ok k₁, bind_ok (loadRule_ok s₁.cellA), bind_ok k₂]
    by_cases hwc : w = .child
    · subst hwc
      obtain ⟨r', S', h', n', hm', hs'⟩ := trimmed_tree s₂ has hrb hSb haSb (by simp) hqb hsb hu (.inl rfl) (.inr rfl)
        (.inr rfl) rfl rfl
      obtain ⟨m₃, k₃, gone, _⟩ := dies (destroys_rule r') h' n' hm' (fun k => haSb (hs' a k))
      rw [show t.child = some b from hb, bind_ok (show onPtr destroyRule (some b) m₂ = _ from k₃)]
      exact bind_ub (loadRule_gone gone)
    have hs₁ : s' ∉ S₁ := by
      intro k
      cases w with
      | child => exact hwc rfl
      | next => rw [hw.2] at hsm; exact (d₁ _ k).1 hsm
      | nested j =>
        obtain ⟨_, rs, hp, _⟩ := hw
        exact (d₁ _ k).2.1 (hp.mem_iff.mpr (List.mem_append_left _ hsm))
    obtain ⟨m₃, k₃, s₃⟩ := s₂.destroy (framed_ptr fun x _ => framed_rule x)
      (destroys_ptr fun x _ => destroys_rule x) pt.child q₁ naS.1 hs₁ (by simp)
    -- next_
    obtain ⟨m₄, k₄, s₄⟩ := s₃.storeB has { u with child := none, next := none }
    obtain ⟨m₅, k₅, s₅⟩ := s₄.storeA { t with child := u.child, next := u.next }
    rw [bind_ok k₃, bind_ok (loadRule_ok (s₃.cellB has)), bind_ok k₄, bind_ok (loadRule_ok s₄.cellA), bind_ok k₅]
    by_cases hwn : w = .next
    · subst hwn
      obtain ⟨r', S', h', n', hm', hs'⟩ := trimmed_tree s₅ has hrb hSb haSb (fun y hy k => by
        rw [hw.2] at hy
        simp only [List.nil_append] at k
        exact (d₁ y k).1 hy) hqb hsb hu (.inl rfl) (.inl rfl) (.inr rfl) rfl rfl
      obtain ⟨m₆, k₆, gone, alive⟩ := dies (destroys_rule r') h' n' hm' (fun k => haSb (hs' a k))
      rw [show t.next = some b from hb, bind_ok (show onPtr destroyRule (some b) m₅ = _ from k₆)]
      have hA := alive.trans s₅.cellA
      rw [bind_ok (loadRule_ok hA), bind_ok (store_ok (by rw [hA]; rfl) _)]
      exact bind_ub (loadRule_gone (by simp [Mem.put, Ne.symm has, gone]))
    have hs₂ : s' ∉ S₂ := by
      intro k
      cases w with
      | child => exact hwc rfl
      | next => exact hwn rfl
      | nested j =>
        obtain ⟨_, rs, hp, _⟩ := hw
        exact (d₂ _ k).1 (hp.mem_iff.mpr (List.mem_append_left _ hsm))
    obtain ⟨m₆, k₆, s₆⟩ := s₅.destroy (framed_ptr fun x _ => framed_rule x)
      (destroys_ptr fun x _ => destroys_rule x) pt.next q₂ naS.2.1 hs₂
      (fun x hx k => by
        simp only [List.nil_append] at k
        exact (d₁ x k).1 hx)
    -- nested_
    obtain ⟨m₇, k₇, s₇⟩ := s₆.storeA { t with child := u.child, next := u.next, nested := [] }
    obtain ⟨m₈, k₈, s₈⟩ := s₇.storeB has { u with child := none, next := none, nested := [] }
    obtain ⟨m₉, k₉, s₉⟩ := s₈.storeA { t with child := u.child, next := u.next, nested := u.nested }
    rw [bind_ok k₆, bind_ok (loadRule_ok s₆.cellA), bind_ok k₇, bind_ok (loadRule_ok (s₇.cellB has)), bind_ok k₈,
      bind_ok (loadRule_ok s₈.cellA), bind_ok k₉]
    cases w with
    | child => exact absurd rfl hwc
    | next => exact absurd rfl hwn
    | nested k =>
      obtain ⟨hk, rs, hp, refill⟩ := hw
      have hin : ∀ y, y ∈ Sb ∨ y ∈ rs → y ∈ S₃ := fun y hy => hp.mem_iff.mpr (List.mem_append.mpr hy)
      have hD : ∀ y ∈ S₃, y ∉ [] ++ S₁ ++ S₂ := by
        intro y hy j
        simp only [List.nil_append, List.mem_append] at j
        rcases j with j | j
        · exact (d₁ y j).2.1 hy
        · exact (d₂ y j).1 hy
      obtain ⟨r', S', h', n', hm', hs'⟩ := trimmed_tree s₉ has hrb hSb haSb (fun y hy => hD y (hin y (.inl hy))) hqb hsb hu
        (.inl rfl) (.inl rfl) (.inl rfl) rfl rfl
      obtain ⟨_, hrs, dis⟩ := append_split (hp.nodup_iff.mp q₃)
      obtain ⟨S'', h'', p''⟩ := refill m₉.cell r' S' h' fun y hy => by
        have hy3 := hin y (.inr hy)
        have h₁ : y ≠ a := fun k => naS.2.2.1 (k ▸ hy3)
        have h₂ : y ≠ s' := fun k => dis s' hsm (k ▸ hy)
        rw [s₉.cell, if_neg h₁, if_neg h₂, if_neg (hD y hy3)]
      have n'' : S''.Nodup := p''.nodup_iff.mpr (List.nodup_append.mpr ⟨n', hrs, fun y hy z hz e =>
        dis y (hs' y hy) (e ▸ hz)⟩)
      have ha'' : a ∉ S'' := by
        intro j
        rcases List.mem_append.mp (p''.mem_iff.mp j) with j | j
        · exact haSb (hs' a j)
        · exact naS.2.2.1 (hin a (.inr j))
      obtain ⟨m₁₀, k₁₀, gone, alive⟩ := dies (destroys_vec (fun x _ => framed_rule x) (fun x _ => destroys_rule x)) h'' n''
        (p''.mem_iff.mpr (List.mem_append_left _ hm')) ha''
      rw [bind_ok k₁₀]
      have hA := alive.trans s₉.cellA
      rw [bind_ok (loadRule_ok hA), bind_ok (store_ok (by rw [hA]; rfl) _)]
      exact bind_ub (loadRule_gone (by simp [Mem.put, Ne.symm has, gone]))

theorem resolve_append {m : Mem} {p p₂ : List Way} : ∀ {a x : Nat}, resolve a p m = pure (x, m) →
    resolve a (p ++ p₂) m = resolve x p₂ m := by
  induction p with
  | nil =>
    intro a x h
    rw [resolve_nil h]; rfl
  | cons w p ih =>
    intro a x h
    obtain ⟨o, b, ho, hb, h⟩ := resolve_cons_iff.mp h
    rw [List.cons_append, resolve_cons, bind_ok (loadRule_ok ho), hb]
    exact ih h

theorem at_append {r : Rule} {p p₂ : List Way} : r.at? (p ++ p₂) = (r.at? p).bind fun q => q.at? p₂ := by
  induction p generalizing r with
  | nil => rfl
  | cons w p ih =>
    cases w with
    | child =>
      simp only [List.cons_append, Rule.at?]
      cases r.child with
      | none => rfl
      | some c => exact ih
    | next =>
      simp only [List.cons_append, Rule.at?]
      cases r.next with
      | none => rfl
      | some c => exact ih
    | nested k =>
      simp only [List.cons_append, Rule.at?]
      cases r.nested[k]? with
      | none => rfl
      | some c => exact ih

/-- A place strictly below another one. -/
theorem below {p p₂ : Place} (h : p.contains p₂ = true) (hne : p₂.contains p = false) :
    ∃ w t, p₂ = ⟨p.var, p.path ++ w :: t⟩ := by
  obtain ⟨hv, t, ht⟩ := contains_iff.mp h
  cases t with
  | nil =>
    have : p₂.contains p = true := contains_iff.mpr ⟨hv.symm, by rw [← ht]; simp⟩
    rw [this] at hne; cases hne
  | cons w t => exact ⟨w, t, by rw [hv, ht]⟩

theorem place_below {vars : Vars} {m : Mem} {p : Place} {x : Nat} (h : Vars.place vars p m = pure (x, m))
    (t : List Way) : Vars.place vars ⟨p.var, p.path ++ t⟩ m = resolve x t m := by
  cases hv : vars p.var with
  | none =>
    have h : (Vars.addr vars p.var m >>= fun a => resolve a.1 p.path a.2) = pure (x, m) := h
    unfold Vars.addr at h
    rw [hv] at h
    cases h
  | some root =>
    have h : (Vars.addr vars p.var >>= fun a => resolve a p.path) m = pure (x, m) := h
    rw [bind_ok (addr_ok hv)] at h
    show (Vars.addr vars p.var >>= fun a => resolve a (p.path ++ t)) m = _
    rw [bind_ok (addr_ok hv)]
    exact resolve_append h

theorem Inv.fromPart {m vars env F} (h : Inv m vars env F []) {dst src : Place} {q : Rule}
    (hq : Env.get env src = some q) (hc : dst.contains src = true) (hne : src.contains dst = false) :
    (Op.moveAssign dst src).run vars m = throw .ub := by
  obtain ⟨w, t, rfl⟩ := below hc hne
  obtain ⟨_, _, s, _, _, _, _, es, _⟩ := h.place hq
  have es := es m fun _ _ => rfl
  obtain ⟨r, hr, hq⟩ := Option.bind_eq_some_iff.mp hq
  rw [at_append] at hq
  obtain ⟨d, hd, hq⟩ := Option.bind_eq_some_iff.mp hq
  have hd : Env.get env dst = some d := by
    show (env dst.var).bind _ = _
    rw [hr]; exact hd
  obtain ⟨root, r', x, Td, rest, hv, hr', ex, f⟩ := h.place hd
  have ex := ex m fun _ _ => rfl
  have hn : Td.Nodup := (append_split (f.perm.nodup_iff.mp (append_split (h.nodup dst.var)).1)).1
  rw [Op.run, bind_ok ex, bind_ok es]
  rw [place_below ex] at es
  exact bind_ub (moveAssign_part_ub f.holds hn hq es)

theorem Inv.toPart {m vars env F} (h : Inv m vars env F []) {dst src : Place} {d : Rule}
    (hd : Env.get env dst = some d) (hc : src.contains dst = true) (hne : dst.contains src = false) :
    ∃ m' x, Vars.place vars dst m = pure (x, m) ∧ (Op.moveAssign dst src).run vars m = pure (vars, m') ∧
      (m'.cell x).isSome ∧ ∀ p, Vars.place vars p m' ≠ pure (x, m') := by
  obtain ⟨w, t, rfl⟩ := below hc hne
  have hd₀ := hd
  obtain ⟨r, hr, hd⟩ := Option.bind_eq_some_iff.mp hd
  rw [at_append] at hd
  obtain ⟨q, hq, hd⟩ := Option.bind_eq_some_iff.mp hd
  have hq : Env.get env src = some q := by
    show (env src.var).bind _ = _
    rw [hr]; exact hq
  obtain ⟨root, r', s, Tq, rest, hv, hr', es, f⟩ := h.place hq
  have es := es m fun _ _ => rfl
  obtain ⟨u, own, hu, rfl⟩ := holds_head f.holds
  have hn : (s :: own).Nodup := (append_split (f.perm.nodup_iff.mp (append_split (h.nodup src.var)).1)).1
  obtain ⟨hso, hno⟩ := List.nodup_cons.mp hn
  obtain ⟨x, Td, rd, ex, fd, ins⟩ := focus f.holds hd
  have ex := ex m fun _ _ => rfl
  obtain ⟨_, od, _, rfl⟩ := holds_head fd.holds
  have hsd : s ∉ x :: od := fun k => by
    have := ins hn [] s rfl k
    simp at this
  have hnd : (x :: od).Nodup := (append_split (fd.perm.nodup_iff.mp hn)).1
  have hin : ∀ y ∈ x :: od, y ∈ own := by
    intro y hy
    rcases List.mem_cons.mp (fd.perm.mem_iff.mpr (List.mem_append_left _ hy)) with k | k
    · exact absurd hy (k ▸ hsd)
    · exact k
  have hxd := (List.nodup_cons.mp hnd).1
  have hxs : x ≠ s := fun k => hsd (k ▸ .head _)
  have lt := lt_fresh h.wf f.holds
  obtain ⟨m', e, st⟩ := moveAssign_steps fd.holds hu hnd hsd
  have hemp : HoldsRule m'.cell s (movedFrom q) [s] := by
    refine holds_movedFrom.mpr ⟨?_, rfl⟩
    rw [st.cellB hxs]
    have hh := f.holds
    cases q with
    | mk i ch nx ns =>
      obtain ⟨u', _, _, _, _, _, hu', pt, _⟩ := holds_rule.mp hh
      obtain rfl : u = u' := by rw [hu] at hu'; injection hu' with k; injection k
      simp only [emptied, pt.tag, pt.optional, pt.greedy, pt.tagname]
  have c : Changed m m' (s :: own) ([s] ++ own.filter fun y => decide (y ∉ od)) := by
    refine ⟨Nat.le_of_eq st.fresh.symm, fun y hy => ?_, fun y hy hy' => ?_, ?_, fun y hy => ?_, fun y hy => ?_⟩
    · rw [st.fresh]
      rw [st.cell] at hy
      split at hy
      · next k => subst k; exact lt _ (.tail _ (hin _ (.head _)))
      · split at hy
        · next k => subst k; exact lt _ (.head _)
        · split at hy
          · cases hy
          · exact h.wf y hy
    · have h₁ : y ≠ x := fun k => hy' (.tail _ (hin y (k ▸ .head _)))
      have h₂ : y ≠ s := fun k => hy' (k ▸ .head _)
      have h₃ : y ∉ od := fun k => hy' (.tail _ (hin y (.tail _ k)))
      rw [st.cell, if_neg h₁, if_neg h₂, if_neg h₃]
    · rw [List.singleton_append, List.nodup_cons]
      exact ⟨fun k => hso (List.mem_filter.mp k).1, List.filter_sublist.nodup hno⟩
    · rcases List.mem_cons.mp hy with k | k
      · exact .inl (k ▸ .head _)
      · exact .inl (.tail _ (List.mem_filter.mp k).1)
    · by_cases h₂ : y = s
      · exact .inl (h₂ ▸ .head _)
      · by_cases h₁ : y = x
        · subst h₁
          exact .inl (.tail _ (List.mem_filter.mpr ⟨hin y (.head _), by simpa using hxd⟩))
        · rw [st.cell, if_neg h₁, if_neg h₂] at hy
          split at hy
          · cases hy
          · next h₃ =>
            by_cases h₄ : y ∈ own
            · exact .inl (.tail _ (List.mem_filter.mpr ⟨h₄, by simpa using h₃⟩))
            · exact .inr ⟨h.wf y hy, by simp [h₂, h₄]⟩
  obtain ⟨F', h'⟩ := h.at' hv hr' f (Tq' := [s]) (by simpa using c) hemp fun y hy => by
    rw [st.fresh]; exact lt y (.tail _ (List.mem_filter.mp hy).1)
  have exd : Vars.place vars ⟨src.var, src.path ++ w :: t⟩ m = pure (x, m) := by rw [place_below es, ex]
  refine ⟨m', x, exd, ?_, by rw [st.cellA]; rfl, fun p hp => ?_⟩
  · rw [Op.run, bind_ok exd, bind_ok es, bind_ok e]
    rfl
  · cases hv : vars p.var with
    | none =>
      have hp : (Vars.addr vars p.var m' >>= fun a => resolve a.1 p.path a.2) = pure (x, m') := hp
      unfold Vars.addr at hp
      rw [hv] at hp
      cases hp
    | some root =>
      have hp : (Vars.addr vars p.var >>= fun a => resolve a p.path) m' = pure (x, m') := hp
      rw [bind_ok (addr_ok hv)] at hp
      have hh := h'.holds p.var
      rw [hv] at hh
      obtain ⟨_, hh⟩ := ptr_some hh
      exact (append_split (h'.nodup p.var)).2.2 x (resolved_mem hh hp)
        (List.mem_filter.mpr ⟨hin x (.head _), by simpa using hxd⟩)

/-- `Rule::operator=(Rule&&)` of a rule to itself. -/
theorem moveAssign_self {m : Mem} (w : m.Wf) {a : Nat} {i : RuleInfo} {ch nx : Option Rule} {ns : List Rule}
    {S : List Nat} (h : HoldsRule m.cell a (.mk i ch nx ns) S) (hS : S.Nodup) :
    ∃ m' S', moveAssignRule a a m = pure ((), m') ∧
      HoldsRule m'.cell a (.mk { i with ms := [], caps := [] } ch nx []) S' ∧ Changed m m' S S' := by
  have lt := lt_fresh w h
  obtain ⟨t, S₁, S₂, S₃, S₄, S₅, ha, p, rfl⟩ := holds_rule.mp h
  obtain ⟨naS, nr⟩ := List.nodup_cons.mp hS
  obtain ⟨q₁, q₂, d₁⟩ := append_split nr
  obtain ⟨q₂, q₃, d₂⟩ := append_split q₂
  obtain ⟨q₃, q₄, d₃⟩ := append_split q₃
  obtain ⟨q₄, q₅, d₄⟩ := append_split q₄
  have na2 := naS
  simp only [List.mem_append, not_or] at na2 d₁ d₂ d₃
  have s₀ : St m a a m t t [] := ⟨rfl, fun x => by
    by_cases h₁ : x = a
    · subst h₁; simp [ha]
    · simp [h₁]⟩
  obtain ⟨m₁, k₁, s₁⟩ := s₀.storeA { t with child := none }
  obtain ⟨m₂, k₂, s₂⟩ := s₁.storeA t
  obtain ⟨m₃, k₃, s₃⟩ := s₂.storeA { t with next := none }
  obtain ⟨m₄, k₄, s₄⟩ := s₃.storeA t
  -- nested_
  obtain ⟨m₅, k₅, s₅⟩ := s₄.storeA { t with nested := [] }
  obtain ⟨m₆, k₆, s₆⟩ := s₅.storeA { t with nested := [] }
  obtain ⟨m₇, k₇, s₇⟩ := s₆.storeA { t with nested := [] }
  obtain ⟨m₈, k₈, s₈⟩ := s₇.destroy (framed_vec fun x _ => framed_rule x)
    (destroys_vec (fun x _ => framed_rule x) (fun x _ => destroys_rule x)) p.nested q₃ na2.2.2.1 na2.2.2.1 (by simp)
  -- matches_
  obtain ⟨m₉, k₉, s₉⟩ := s₈.storeA { t with nested := [], ms := [] }
  obtain ⟨m₁₀, k₁₀, s₁₀⟩ := s₉.storeA { t with nested := [], ms := [] }
  obtain ⟨m₁₁, k₁₁, s₁₁⟩ := s₁₀.storeA { t with nested := [], ms := [] }
  obtain ⟨m₁₂, k₁₂, s₁₂⟩ := s₁₁.destroy (framed_vec fun x _ => framed_ptr fun y _ => framed_match y)
    (destroys_vec (fun x _ => framed_ptr fun y _ => framed_match y)
      (fun x _ => destroys_ptr fun y _ => destroys_match y)) p.ms q₄ na2.2.2.2.1 na2.2.2.2.1
    (fun x hx k => by
      simp only [List.nil_append] at k
      exact (d₃ x k).1 hx)
  -- captures_
  obtain ⟨m₁₃, k₁₃, s₁₃⟩ := s₁₂.storeA { t with nested := [], ms := [], caps := [] }
  obtain ⟨m₁₄, k₁₄, s₁₄⟩ := s₁₃.storeA { t with nested := [], ms := [], caps := [] }
  obtain ⟨m₁₅, k₁₅, s₁₅⟩ := s₁₄.storeA { t with nested := [], ms := [], caps := [] }
  obtain ⟨m₁₆, k₁₆, s₁₆⟩ := s₁₅.destroy (framed_vec fun x _ => framed_ptr fun y _ => framed_capture y)
    (destroys_vec (fun x _ => framed_ptr fun y _ => framed_capture y)
      (fun x _ => destroys_ptr fun y _ => destroys_capture y)) p.caps q₅ na2.2.2.2.2 na2.2.2.2.2
    (fun x hx k => by
      simp only [List.nil_append, List.mem_append] at k
      rcases k with k | k
      · exact (d₃ x k).2 hx
      · exact d₄ x k hx)
  -- the rest
  obtain ⟨m₁₇, k₁₇, s₁₇⟩ := s₁₆.storeA
    { t with nested := [], ms := [], caps := [], tagname := t.tagname.map fun _ => [] }
  obtain ⟨m₁₈, k₁₈, s₁₈⟩ := s₁₇.storeA { t with nested := [], ms := [], caps := [] }
  have hcell : ∀ x, m₁₈.cell x = if x = a then some (.rule { t with nested := [], ms := [], caps := [] }) else
      if x ∈ S₃ ++ (S₄ ++ S₅) then none else m.cell x := by
    intro x
    rw [s₁₈.cell]
    simp only [List.nil_append, List.append_assoc]
    split <;> rfl
  have keep : ∀ x ∈ S₁ ++ S₂, m₁₈.cell x = m.cell x := by
    intro x hx
    have h₁ : x ≠ a := fun k => naS (k ▸ by
      simp only [List.mem_append] at hx ⊢
      rcases hx with hx | hx <;> simp [hx])
    have h₂ : x ∉ S₃ ++ (S₄ ++ S₅) := by
      intro k
      simp only [List.mem_append] at hx k
      rcases hx with hx | hx
      · have := d₁ x hx
        rcases k with k | k | k
        · exact this.2.1 k
        · exact this.2.2.1 k
        · exact this.2.2.2 k
      · have := d₂ x hx
        rcases k with k | k | k
        · exact this.1 k
        · exact this.2.1 k
        · exact this.2.2 k
    rw [hcell, if_neg h₁, if_neg h₂]
  refine ⟨m₁₈, a :: (S₁ ++ (S₂ ++ ([] ++ ([] ++ [])))), ?_, ?_, ?_⟩
  · unfold moveAssignRule
    rw [bind_ok (loadRule_ok s₀.cellA), bind_ok k₁, bind_ok (loadRule_ok s₁.cellA), bind_ok k₂,
      bind_ok (show onPtr destroyRule none m₂ = pure ((), m₂) from rfl),
      bind_ok (loadRule_ok s₂.cellA), bind_ok k₃, bind_ok (loadRule_ok s₃.cellA), bind_ok k₄,
      bind_ok (show onPtr destroyRule none m₄ = pure ((), m₄) from rfl),
      bind_ok (loadRule_ok s₄.cellA), bind_ok k₅, bind_ok (loadRule_ok s₅.cellA), bind_ok k₆,
      bind_ok (loadRule_ok s₆.cellA), bind_ok k₇, bind_ok k₈,
      bind_ok (loadRule_ok s₈.cellA), bind_ok k₉, bind_ok (loadRule_ok s₉.cellA), bind_ok k₁₀,
      bind_ok (loadRule_ok s₁₀.cellA), bind_ok k₁₁, bind_ok k₁₂,
      bind_ok (loadRule_ok s₁₂.cellA), bind_ok k₁₃, bind_ok (loadRule_ok s₁₃.cellA), bind_ok k₁₄,
      bind_ok (loadRule_ok s₁₄.cellA), bind_ok k₁₅, bind_ok k₁₆,
      bind_ok (loadRule_ok s₁₆.cellA), bind_ok k₁₇, bind_ok (loadRule_ok s₁₇.cellA)]
    exact k₁₈
  · refine holds_rule.mpr ⟨_, S₁, S₂, [], [], [], s₁₈.cellA,
      ⟨p.tag, p.optional, p.greedy, p.tagname, ?_, ?_, rfl, rfl, rfl⟩, rfl⟩
    · exact framed_ptr (fun x _ => framed_rule x) _ _ _ _ p.child fun x hx => keep x (by simp [hx])
    · exact framed_ptr (fun x _ => framed_rule x) _ _ _ _ p.next fun x hx => keep x (by simp [hx])
  · simp only [List.append_nil]
    refine ⟨Nat.le_of_eq s₁₈.fresh.symm, fun x hx => ?_, fun x _ hx => ?_, ?_, fun x hx => ?_, fun x hx => ?_⟩
    · rw [s₁₈.fresh]
      rw [hcell] at hx
      split at hx
      · next k => subst k; exact lt _ (.head _)
      · split at hx
        · cases hx
        · exact w x hx
    · simp only [List.mem_cons, List.mem_append, not_or] at hx
      rw [hcell, if_neg hx.1, if_neg]
      simp only [List.mem_append, not_or]
      exact hx.2.2.2
    · refine List.nodup_cons.mpr ⟨fun k => naS (by
        simp only [List.mem_append] at k ⊢
        rcases k with k | k <;> simp [k]), List.nodup_append.mpr ⟨q₁, q₂, fun x hx y hy e => ?_⟩⟩
      exact (d₁ x hx).1 (e ▸ hy)
    · refine .inl ?_
      simp only [List.mem_cons, List.mem_append] at hx ⊢
      rcases hx with hx | hx | hx <;> simp [hx]
    · rw [hcell] at hx
      by_cases k : x = a
      · exact .inl (k ▸ .head _)
      · rw [if_neg k] at hx
        split at hx
        · cases hx
        · next k₂ =>
          by_cases k₃ : x ∈ S₁ ++ S₂
          · exact .inl (.tail _ k₃)
          · refine .inr ⟨w x hx, ?_⟩
            simp only [List.mem_cons, List.mem_append, not_or] at k₂ k₃ ⊢
            exact ⟨k, k₃.1, k₃.2, k₂⟩

end Hext.Hist
