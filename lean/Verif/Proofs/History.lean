import Verif.Proofs.MemoryMove
/-!
# Programs in memory do what they mean on values: lemmas
-/

namespace Hext

theorem Rule.at_replace : ∀ {p : List Way} {r q₀ : Rule}, r.at? p = some q₀ → ∀ q : Rule,
    (r.replace p q).at? p = some q
  | [], _, _, _, _ => by simp [Rule.at?, Rule.replace]
  | .child :: p, .mk i c n ns, q₀, h, q => by
    cases c with
    | none => simp [Rule.at?, Rule.child] at h
    | some c =>
      have := Rule.at_replace (p := p) (r := c) (q₀ := q₀) (by simpa [Rule.at?, Rule.child] using h) q
      simpa [Rule.at?, Rule.replace, Rule.child] using this
  | .next :: p, .mk i c n ns, q₀, h, q => by
    cases n with
    | none => simp [Rule.at?, Rule.next] at h
    | some n =>
      have := Rule.at_replace (p := p) (r := n) (q₀ := q₀) (by simpa [Rule.at?, Rule.next] using h) q
      simpa [Rule.at?, Rule.replace, Rule.next] using this
  | .nested k :: p, .mk i c n ns, q₀, h, q => by
    cases hk : ns[k]? with
    | none => simp [Rule.at?, Rule.nested, hk] at h
    | some x =>
      have := Rule.at_replace (p := p) (r := x) (q₀ := q₀) (by simpa [Rule.at?, Rule.nested, hk] using h) q
      have hlt : k < ns.length := (List.getElem?_eq_some_iff.mp hk).1
      simp only [Rule.at?, Rule.replace, Rule.nested, hk]
      simpa [hlt] using this

end Hext

namespace Hext.Hist

open Mem

/-! ## Building objects -/

/-- `f` builds an object that holds the value. -/
def Builds {α β} (R : Cells → β → α → List Nat → Prop) (f : α → P β) (v : α) : Prop :=
  ∀ m : Mem, m.Wf → ∃ b S m', f v m = pure (b, m') ∧ R m'.cell b v S ∧ Grown m m' S

theorem builds_leaf {α} {R : Cells → Nat → α → List Nat → Prop} {f : α → P Nat} {v : α} (o : Obj)
    (hf : f v = alloc o) (hR : ∀ c a, c a = some o → R c a v [a]) : Builds R f v := by
  intro m w
  exact ⟨m.fresh, [m.fresh], m.push o, by rw [hf]; rfl, hR _ _ (push_self _ _), grown_push w _⟩

theorem builds_ptr {α} {R : Cells → Nat → α → List Nat → Prop} {f : α → P Nat} {v : Option α}
    (h : ∀ x ∈ v, Builds R f x) : Builds (PtrR R) (buildPtr f) v := by
  intro m w
  cases v with
  | none => exact ⟨none, [], m, rfl, rfl, .refl w⟩
  | some v =>
    obtain ⟨b, S, m', e, r, g⟩ := h v rfl m w
    exact ⟨some b, S, m', by show (f v >>= fun a => pure (some a)) m = _; rw [bind_ok e]; rfl, r, g⟩

theorem builds_pipe (v : Pipe) : Builds HoldsPipe buildPipe v := by
  induction v with
  | last t => exact builds_leaf (.pipe t none) rfl fun c a h => ⟨h, rfl⟩
  | cons t p ih =>
    intro m w
    obtain ⟨b, S, m₁, e, r, g⟩ := ih m w
    refine ⟨m₁.fresh, m₁.fresh :: S, m₁.push (.pipe t (some b)), ?_, ⟨b, S, push_self _ _, ?_, rfl⟩,
      grown_top g _⟩
    · show (buildPipe p >>= fun n => alloc (.pipe t (some n))) m = _
      rw [bind_ok e]; rfl
    · exact keep_grown (framed_pipe p) (alive_pipe p) g.wf (grown_push g.wf _) r

theorem builds_test (v : ValueTest) : Builds HoldsTest buildTest v := by
  induction v with
  | negate t ih =>
    intro m w
    obtain ⟨b, S, m₁, e, r, g⟩ := ih m w
    refine ⟨m₁.fresh, m₁.fresh :: S, m₁.push (.negateTest (some b)), ?_, ⟨b, S, push_self _ _, ?_, rfl⟩,
      grown_top g _⟩
    · show (buildTest t >>= fun n => alloc (.negateTest (some n))) m = _
      rw [bind_ok e]; rfl
    · exact keep_grown (framed_test t) (alive_test t) g.wf (grown_push g.wf _) r
  | negateNull => exact builds_leaf (.negateTest none) rfl fun c a h => ⟨h, rfl⟩
  | _ => exact builds_leaf (.test _) rfl fun c a h => ⟨h, rfl⟩

theorem builds_capture (v : Capture) : Builds HoldsCapture buildCapture v := by
  cases v with
  | «attribute» attr name p =>
    intro m w
    obtain ⟨b, S, m₁, e, r, g⟩ := builds_ptr (fun x _ => builds_pipe x) (v := p) m w
    refine ⟨m₁.fresh, m₁.fresh :: S, m₁.push (.attributeCapture attr name b), ?_,
      ⟨b, S, push_self _ _, ?_, rfl⟩, grown_top g _⟩
    · show (buildPtr buildPipe p >>= fun n => alloc (.attributeCapture attr name n)) m = _
      rw [bind_ok e]; rfl
    · exact keep_grown (framed_ptr fun x _ => framed_pipe x) (alive_ptr fun x _ => alive_pipe x) g.wf
        (grown_push g.wf _) r
  | function f name p =>
    intro m w
    obtain ⟨b, S, m₁, e, r, g⟩ := builds_ptr (fun x _ => builds_pipe x) (v := p) m w
    refine ⟨m₁.fresh, m₁.fresh :: S, m₁.push (.functionCapture f name b), ?_,
      ⟨b, S, push_self _ _, ?_, rfl⟩, grown_top g _⟩
    · show (buildPtr buildPipe p >>= fun n => alloc (.functionCapture f name n)) m = _
      rw [bind_ok e]; rfl
    · exact keep_grown (framed_ptr fun x _ => framed_pipe x) (alive_ptr fun x _ => alive_pipe x) g.wf
        (grown_push g.wf _) r

theorem buildMatchPtr_eq : buildMatchPtr = buildPtr buildMatch := by
  funext v; cases v <;> simp [buildMatchPtr, buildPtr]

theorem builds_matches {vs : List (Option Match)} (h : ∀ m ∈ vs, ∀ x ∈ m, Builds HoldsMatch buildMatch x) :
    Builds (VecR (PtrR HoldsMatch)) buildMatches vs := by
  induction vs with
  | nil => exact fun m w => ⟨[], [], m, by simp [buildMatches]; rfl, rfl, .refl w⟩
  | cons v vs ih =>
    intro m w
    obtain ⟨b, S, m₁, e, r, g⟩ := builds_ptr (h v (.head _)) m w
    obtain ⟨bs, T, m₂, e₂, r₂, g₂⟩ := ih (fun m hm => h m (.tail _ hm)) m₁ g.wf
    refine ⟨b :: bs, S ++ T, m₂, ?_, ⟨S, T, ?_, r₂, rfl⟩, g.trans g₂⟩
    · rw [buildMatches, buildMatchPtr_eq, bind_ok e, bind_ok e₂]; rfl
    · exact keep_grown (framed_ptr fun x _ => framed_match x) (alive_ptr fun x _ => alive_match x) g.wf g₂ r

theorem builds_match (v : Match) : Builds HoldsMatch buildMatch v := by
  induction v using match_cases with
  | attr name t =>
    intro m w
    obtain ⟨b, S, m₁, e, r, g⟩ := builds_ptr (fun x _ => builds_test x) (v := t) m w
    refine ⟨m₁.fresh, m₁.fresh :: S, m₁.push (.attributeMatch name b), ?_,
      holds_attribute.mpr ⟨b, S, push_self _ _, ?_, rfl⟩, grown_top g _⟩
    · rw [buildMatch, bind_ok e]; rfl
    · exact keep_grown (framed_ptr fun x _ => framed_test x) (alive_ptr fun x _ => alive_test x) g.wf
        (grown_push g.wf _) r
  | functionValue f t =>
    intro m w
    obtain ⟨b, S, m₁, e, r, g⟩ := builds_ptr (fun x _ => builds_test x) (v := t) m w
    refine ⟨m₁.fresh, m₁.fresh :: S, m₁.push (.functionValueMatch f b), ?_,
      holds_functionValue.mpr ⟨b, S, push_self _ _, ?_, rfl⟩, grown_top g _⟩
    · rw [buildMatch, bind_ok e]; rfl
    · exact keep_grown (framed_ptr fun x _ => framed_test x) (alive_ptr fun x _ => alive_test x) g.wf
        (grown_push g.wf _) r
  | negate ms ih =>
    intro m w
    obtain ⟨b, S, m₁, e, r, g⟩ := builds_matches ih m w
    refine ⟨m₁.fresh, m₁.fresh :: S, m₁.push (.negateMatch b), ?_,
      holds_negate.mpr ⟨b, S, push_self _ _, ?_, rfl⟩, grown_top g _⟩
    · rw [buildMatch, bind_ok e]; rfl
    · exact keep_grown (framed_matches _) (alive_matches _) g.wf (grown_push g.wf _) r
  | plain m hm =>
    refine builds_leaf (.match_ m) ?_ fun c a h => (holds_plain hm).mpr ⟨h, rfl⟩
    cases m <;> simp_all [Plain, buildMatch]

/-! ## Reaching a sub-rule -/

/-- A sub-rule in memory, and what becomes of the whole if only the sub-rule changes. -/
structure Focus (c : Cells) (root : Nat) (r : Rule) (S : List Nat) (p : List Way) (q : Rule) (x : Nat)
    (T rest : List Nat) : Prop where
  holds : HoldsRule c x q T
  perm : S.Perm (T ++ rest)
  refill : ∀ c' q' T', HoldsRule c' x q' T' → (∀ y ∈ rest, c' y = c y) →
    ∃ S', HoldsRule c' root (r.replace p q') S' ∧ S'.Perm (T' ++ rest)

/-- The sub-rule one step away from a rule object. -/
def sub (o : RuleObj) : Way → Option Nat
  | .child => o.child
  | .next => o.next
  | .nested i => o.nested[i]?

theorem resolve_cons (a : Nat) (w : Way) (p : List Way) :
    resolve a (w :: p) = loadRule a >>= fun o => match sub o w with
      | some b => resolve b p
      | none => throw .ub := by
  cases w <;> rfl

theorem resolve_cons_iff {m : Mem} {a : Nat} {w : Way} {p : List Way} {x : Nat} :
    resolve a (w :: p) m = pure (x, m) ↔
      ∃ o b, m.cell a = some (.rule o) ∧ sub o w = some b ∧ resolve b p m = pure (x, m) := by
  rw [resolve_cons]
  constructor
  · intro h
    have hbad : ∀ {y : P RuleObj} {f : RuleObj → P Nat}, y m = throw .ub → (y >>= f) m ≠ pure (x, m) := by
      intro y f hy h
      have : (y m >>= fun q => f q.1 q.2) = pure (x, m) := h
      rw [hy] at this
      cases this
    cases hc : m.cell a with
    | none =>
      refine absurd h (hbad ?_)
      show (match m.cell a with | some o => pure o | none => throw .ub : P Obj) m >>= _ = _
      rw [hc]; rfl
    | some c =>
      cases c with
      | rule o =>
        rw [bind_ok (loadRule_ok hc)] at h
        cases hs : sub o w with
        | none => rw [hs] at h; cases h
        | some b => rw [hs] at h; exact ⟨o, b, rfl, hs, h⟩
      | _ =>
        refine absurd h (hbad ?_)
        unfold loadRule
        rw [bind_ok (load_ok hc)]; rfl
  · rintro ⟨o, b, hc, hs, h⟩
    rw [bind_ok (loadRule_ok hc), hs]
    exact h

theorem resolve_nil {m : Mem} {a x : Nat} (h : resolve a [] m = pure (x, m)) : x = a := by
  have := E.pure_inj h
  injection this with h
  exact h.symm

theorem vec_some {c : Cells} {bs : List Nat} {vs : List Rule} {S : List Nat}
    (h : HoldsVec (HoldsRule c) bs vs S) {i b : Nat} (hb : bs[i]? = some b) :
    ∃ v T, HoldsRule c b v T ∧ ∀ y ∈ T, y ∈ S := by
  induction bs generalizing vs S i with
  | nil => cases hb
  | cons b₀ bs ih =>
    cases vs with
    | nil => exact h.elim
    | cons w ws =>
      obtain ⟨S₁, S₂, h₁, h₂, rfl⟩ := h
      cases i with
      | zero =>
        obtain rfl : b₀ = b := by simpa using hb
        exact ⟨w, S₁, h₁, fun y hy => List.mem_append_left _ hy⟩
      | succ i =>
        obtain ⟨v, T, hv, hT⟩ := ih h₂ (by simpa using hb)
        exact ⟨v, T, hv, fun y hy => List.mem_append_right _ (hT y hy)⟩

theorem ptr_some {c : Cells} {b : Nat} {v : Option Rule} {S : List Nat}
    (h : HoldsPtr (HoldsRule c) (some b) v S) : ∃ v', HoldsRule c b v' S := by
  cases v with
  | none => exact h.elim
  | some v => exact ⟨v, h⟩

/-- A rule holds its sub-rules. -/
theorem holds_sub {c : Cells} {a : Nat} {r : Rule} {S : List Nat} (h : HoldsRule c a r S) {o : RuleObj}
    (ho : c a = some (.rule o)) {w : Way} {b : Nat} (hb : sub o w = some b) :
    ∃ r' S', HoldsRule c b r' S' ∧ ∀ y ∈ S', y ∈ S := by
  cases r with
  | mk i ch nx ns =>
    obtain ⟨o', S₁, S₂, S₃, S₄, S₅, ha, pt, rfl⟩ := holds_rule.mp h
    obtain rfl : o' = o := by rw [ha] at ho; injection ho with ho; injection ho
    cases w with
    | child =>
      have := pt.child
      rw [show o'.child = some b from hb] at this
      obtain ⟨v, hv⟩ := ptr_some this
      exact ⟨v, S₁, hv, fun y hy => by simp [hy]⟩
    | next =>
      have := pt.next
      rw [show o'.next = some b from hb] at this
      obtain ⟨v, hv⟩ := ptr_some this
      exact ⟨v, S₂, hv, fun y hy => by simp [hy]⟩
    | nested k =>
      obtain ⟨v, T, hv, hT⟩ := vec_some pt.nested hb
      exact ⟨v, T, hv, fun y hy => by simp [hT y hy]⟩

/-- A rule that is reached belongs to the whole. -/
theorem resolved_mem {m : Mem} {p : List Way} : ∀ {a : Nat} {r : Rule} {S : List Nat} {x : Nat},
    HoldsRule m.cell a r S → resolve a p m = pure (x, m) → x ∈ S := by
  induction p with
  | nil =>
    intro a r S x h hx
    obtain ⟨_, rest, _, rfl⟩ := holds_head h
    rw [resolve_nil hx]; exact .head _
  | cons w p ih =>
    intro a r S x h hx
    obtain ⟨o, b, ho, hb, hx⟩ := resolve_cons_iff.mp hx
    obtain ⟨r', S', h', hS⟩ := holds_sub h ho hb
    exact hS x (ih h' hx)

/-- If objects were only emptied, then what is reached now was reached there before. -/
theorem resolve_before {m m' : Mem} {p : List Way} : ∀ {a : Nat} {r : Rule} {S : List Nat} {x : Nat},
    HoldsRule m.cell a r S →
    (∀ y ∈ S, m'.cell y = m.cell y ∨ ∃ o, m'.cell y = some (.rule o) ∧ ∀ w, sub o w = none) →
    resolve a p m' = pure (x, m') → resolve a p m = pure (x, m) := by
  induction p with
  | nil =>
    intro a r S x h hS hx
    rw [resolve_nil hx]; rfl
  | cons w p ih =>
    intro a r S x h hS hx
    obtain ⟨o, b, ho, hb, hx⟩ := resolve_cons_iff.mp hx
    obtain ⟨_, rest, _, rfl⟩ := holds_head h
    rcases hS a (.head _) with k | ⟨o', k, k₂⟩
    · rw [k] at ho
      obtain ⟨r', S', h', hS'⟩ := holds_sub h ho hb
      exact resolve_cons_iff.mpr ⟨o, b, ho, hb, ih h' (fun y hy => hS y (hS' y hy)) hx⟩
    · rw [k] at ho
      obtain rfl : o' = o := by injection ho with ho; injection ho
      rw [k₂] at hb; cases hb

/-- What is reached inside of a sub-rule is reached by its way. -/
theorem reached_inside {m : Mem} {root : Nat} {o : RuleObj} {w : Way} {b : Nat} {p : List Way} {T : List Nat}
    (ha : m.cell root = some (.rule o)) (hb : sub o w = some b) (hroot : root ∉ T)
    (hoth : ∀ w' b', w' ≠ w → sub o w' = some b' → ∃ r' T', HoldsRule m.cell b' r' T' ∧ ∀ y ∈ T', y ∉ T)
    (ih : ∀ p₂ x₂, resolve b p₂ m = pure (x₂, m) → x₂ ∈ T → p <+: p₂) :
    ∀ p₂ x₂, resolve root p₂ m = pure (x₂, m) → x₂ ∈ T → w :: p <+: p₂ := by
  intro p₂ x₂ hx hT
  cases p₂ with
  | nil => rw [resolve_nil hx] at hT; exact absurd hT hroot
  | cons w' p₂ =>
    obtain ⟨o', b', ho, hb', hx⟩ := resolve_cons_iff.mp hx
    obtain rfl : o = o' := by rw [ha] at ho; injection ho with ho; injection ho
    by_cases hw : w' = w
    · subst hw
      obtain rfl : b = b' := by rw [hb] at hb'; injection hb'
      obtain ⟨t, rfl⟩ := ih p₂ x₂ hx hT
      exact ⟨t, rfl⟩
    · obtain ⟨r', T', h', hd⟩ := hoth w' b' hw hb'
      exact absurd hT (hd x₂ (resolved_mem h' hx))

theorem vec_focus {c : Cells} {bs : List Nat} {vs : List Rule} {S : List Nat}
    (h : HoldsVec (HoldsRule c) bs vs S) {i : Nat} {v : Rule} (hv : vs[i]? = some v) :
    ∃ b T rest, bs[i]? = some b ∧ HoldsRule c b v T ∧ S.Perm (T ++ rest) ∧
      (∀ j b', j ≠ i → bs[j]? = some b' → ∃ v' T', HoldsRule c b' v' T' ∧ ∀ y ∈ T', y ∈ rest) ∧
      ∀ c' v' T', HoldsRule c' b v' T' → (∀ y ∈ rest, c' y = c y) →
        ∃ S', HoldsVec (HoldsRule c') bs (vs.set i v') S' ∧ S'.Perm (T' ++ rest) := by
  induction bs generalizing vs S i with
  | nil =>
    cases vs with
    | nil => cases hv
    | cons => exact h.elim
  | cons b bs ih =>
    cases vs with
    | nil => exact h.elim
    | cons w ws =>
      obtain ⟨S₁, S₂, h₁, h₂, rfl⟩ := h
      cases i with
      | zero =>
        have : w = v := by simpa using hv
        subst this
        refine ⟨b, S₁, S₂, rfl, h₁, .refl _, fun j b' hj hb' => ?_,
          fun c' v' T' h' hy => ⟨T' ++ S₂, ⟨T', S₂, h', ?_, rfl⟩, .refl _⟩⟩
        · cases j with
          | zero => exact absurd rfl hj
          | succ j => exact vec_some h₂ (by simpa using hb')
        · exact framed_vec (fun x _ => framed_rule x) _ _ _ _ h₂ hy
      | succ i =>
        obtain ⟨b', T, rest, hb, hT, hp, ko, k⟩ := ih h₂ (by simpa using hv)
        refine ⟨b', T, S₁ ++ rest, hb, hT, ?_, fun j b₂ hj hb₂ => ?_, fun c' v' T' h' hy => ?_⟩
        · exact (List.Perm.append_left S₁ hp).trans (List.perm_append_comm_assoc S₁ T rest)
        · cases j with
          | zero =>
            obtain rfl : b = b₂ := by simpa using hb₂
            exact ⟨w, S₁, h₁, fun y hy => List.mem_append_left _ hy⟩
          | succ j =>
            obtain ⟨v', T', hv', hT'⟩ := ko j b₂ (fun e => hj (by rw [e])) (by simpa using hb₂)
            exact ⟨v', T', hv', fun y hy => List.mem_append_right _ (hT' y hy)⟩
        · obtain ⟨S', h₃, hp'⟩ := k c' v' T' h' fun y hy' => hy y (List.mem_append_right _ hy')
          refine ⟨S₁ ++ S', ⟨S₁, S', ?_, h₃, rfl⟩, ?_⟩
          · exact framed_rule _ _ _ _ _ h₁ fun y hy' => hy y (List.mem_append_left _ hy')
          · exact (List.Perm.append_left S₁ hp').trans (List.perm_append_comm_assoc S₁ T' rest)

theorem focus {m : Mem} {p : List Way} : ∀ {root : Nat} {r q : Rule} {S : List Nat},
    HoldsRule m.cell root r S → r.at? p = some q →
    ∃ x T rest, (∀ m' : Mem, (∀ y ∈ S, m'.cell y = m.cell y) → resolve root p m' = pure (x, m')) ∧
      Focus m.cell root r S p q x T rest ∧
      (S.Nodup → ∀ p₂ x₂, resolve root p₂ m = pure (x₂, m) → x₂ ∈ T → p <+: p₂) := by
  induction p with
  | nil =>
    intro root r q S h hq
    have : r = q := by simpa [Rule.at?] using hq
    subst this
    refine ⟨root, S, [], fun _ _ => rfl, ⟨h, by simp, fun c' q' T' h' _ => ⟨T', ?_, by simp⟩⟩,
      fun _ p₂ _ _ _ => List.nil_prefix⟩
    simpa [Rule.replace] using h'
  | cons w p ih =>
    intro root r q S h hq
    cases r with
    | mk i ch nx ns =>
      obtain ⟨o, S₁, S₂, S₃, S₄, S₅, ha, pt, rfl⟩ := holds_rule.mp h
      cases w with
      | child =>
        cases ch with
        | none => simp [Rule.at?, Rule.child] at hq
        | some rc =>
          have hq : rc.at? p = some q := by simpa [Rule.at?, Rule.child] using hq
          obtain ⟨b, hb, hbc⟩ : ∃ b, o.child = some b ∧ HoldsRule m.cell b rc S₁ := by
            have := pt.child
            cases hx : o.child with
            | none => rw [hx] at this; exact this.elim
            | some x => rw [hx] at this; exact ⟨x, rfl, this⟩
          obtain ⟨x, T, rest, e, f, ins⟩ := ih hbc hq
          refine ⟨x, T, rest ++ (root :: (S₂ ++ (S₃ ++ (S₄ ++ S₅)))), ?_, ⟨f.holds, ?_, ?_⟩, ?_⟩
          · intro m' hm'
            show (loadRule root >>= fun o => match o.child with
              | some c => resolve c p
              | none => throw .ub) m' = _
            rw [bind_ok (loadRule_ok ((hm' root (.head _)).trans ha)), hb]
            exact e m' fun y hy => hm' y (by simp [hy])
          · refine (List.Perm.cons root (List.Perm.append_right _ f.perm)).trans ?_
            perm
          · intro c' q' T' h' hy
            obtain ⟨S', h₃, hp⟩ := f.refill c' q' T' h' fun y hy' => hy y (List.mem_append_left _ hy')
            have hy' : ∀ y, y = root ∨ y ∈ S₂ ∨ y ∈ S₃ ∨ y ∈ S₄ ∨ y ∈ S₅ → c' y = m.cell y := by
              intro y hk
              refine hy y ?_
              simp only [List.mem_append, List.mem_cons]
              exact .inr hk
            refine ⟨root :: (S' ++ (S₂ ++ (S₃ ++ (S₄ ++ S₅)))),
              holds_rule.mpr ⟨o, S', S₂, S₃, S₄, S₅, by rw [hy' root (.inl rfl), ha],
              ⟨pt.tag, pt.optional, pt.greedy, pt.tagname, by rw [hb]; exact h₃,
              framed_ptr (fun x _ => framed_rule x) _ _ _ _ pt.next fun y hk => hy' y (.inr (.inl hk)),
              framed_vec (fun x _ => framed_rule x) _ _ _ _ pt.nested fun y hk => hy' y (.inr (.inr (.inl hk))),
              framed_matches _ _ _ _ _ pt.ms fun y hk => hy' y (.inr (.inr (.inr (.inl hk)))),
              framed_captures _ _ _ _ _ pt.caps fun y hk => hy' y (.inr (.inr (.inr (.inr hk))))⟩, rfl⟩, ?_⟩
            refine (List.Perm.cons root (List.Perm.append_right _ hp)).trans ?_
            perm
          · intro hS
            obtain ⟨hr, hS⟩ := List.nodup_cons.mp hS
            obtain ⟨n₁, n₂, d₁⟩ := append_split hS
            obtain ⟨n₂, n₃, d₂⟩ := append_split n₂
            obtain ⟨n₃, _, d₃⟩ := append_split n₃
            simp only [List.mem_append, not_or] at hr d₁ d₂ d₃
            have hsub : ∀ y ∈ T, y ∈ S₁ := fun y hy => f.perm.mem_iff.mpr (List.mem_append_left _ hy)
            refine reached_inside ha hb (fun k => hr.1 (hsub _ k)) (fun w' b' hw hb' => ?_) (ins n₁)
            cases w' with
            | child =>
              exact absurd rfl hw
            | next =>
              have := pt.next
              rw [show o.next = some b' from hb'] at this
              obtain ⟨v, hv⟩ := ptr_some this
              exact ⟨v, S₂, hv, fun y hy k => (d₁ y (hsub y k)).1 hy⟩
            | nested j =>
              obtain ⟨v, T', hv, hT'⟩ := vec_some pt.nested hb'
              exact ⟨v, T', hv, fun y hy k => (d₁ y (hsub y k)).2.1 (hT' y hy)⟩
      | next =>
        cases nx with
        | none => simp [Rule.at?, Rule.next] at hq
        | some rn =>
          have hq : rn.at? p = some q := by simpa [Rule.at?, Rule.next] using hq
          obtain ⟨b, hb, hbc⟩ : ∃ b, o.next = some b ∧ HoldsRule m.cell b rn S₂ := by
            have := pt.next
            cases hx : o.next with
            | none => rw [hx] at this; exact this.elim
            | some x => rw [hx] at this; exact ⟨x, rfl, this⟩
          obtain ⟨x, T, rest, e, f, ins⟩ := ih hbc hq
          refine ⟨x, T, rest ++ (root :: (S₁ ++ (S₃ ++ (S₄ ++ S₅)))), ?_, ⟨f.holds, ?_, ?_⟩, ?_⟩
          · intro m' hm'
            show (loadRule root >>= fun o => match o.next with
              | some c => resolve c p
              | none => throw .ub) m' = _
            rw [bind_ok (loadRule_ok ((hm' root (.head _)).trans ha)), hb]
            exact e m' fun y hy => hm' y (by simp [hy])
          · refine (List.Perm.cons root (List.Perm.append_left _ (List.Perm.append_right _ f.perm))).trans ?_
            perm
          · intro c' q' T' h' hy
            obtain ⟨S', h₃, hp⟩ := f.refill c' q' T' h' fun y hy' => hy y (List.mem_append_left _ hy')
            have hy' : ∀ y, y = root ∨ y ∈ S₁ ∨ y ∈ S₃ ∨ y ∈ S₄ ∨ y ∈ S₅ → c' y = m.cell y := by
              intro y hk
              refine hy y ?_
              simp only [List.mem_append, List.mem_cons]
              exact .inr hk
            refine ⟨root :: (S₁ ++ (S' ++ (S₃ ++ (S₄ ++ S₅)))),
              holds_rule.mpr ⟨o, S₁, S', S₃, S₄, S₅, by rw [hy' root (.inl rfl), ha],
              ⟨pt.tag, pt.optional, pt.greedy, pt.tagname,
              framed_ptr (fun x _ => framed_rule x) _ _ _ _ pt.child fun y hk => hy' y (.inr (.inl hk)),
              by rw [hb]; exact h₃,
              framed_vec (fun x _ => framed_rule x) _ _ _ _ pt.nested fun y hk => hy' y (.inr (.inr (.inl hk))),
              framed_matches _ _ _ _ _ pt.ms fun y hk => hy' y (.inr (.inr (.inr (.inl hk)))),
              framed_captures _ _ _ _ _ pt.caps fun y hk => hy' y (.inr (.inr (.inr (.inr hk))))⟩, rfl⟩, ?_⟩
            refine (List.Perm.cons root (List.Perm.append_left _ (List.Perm.append_right _ hp))).trans ?_
            perm
          · intro hS
            obtain ⟨hr, hS⟩ := List.nodup_cons.mp hS
            obtain ⟨n₁, n₂, d₁⟩ := append_split hS
            obtain ⟨n₂, n₃, d₂⟩ := append_split n₂
            obtain ⟨n₃, _, d₃⟩ := append_split n₃
            simp only [List.mem_append, not_or] at hr d₁ d₂ d₃
            have hsub : ∀ y ∈ T, y ∈ S₂ := fun y hy => f.perm.mem_iff.mpr (List.mem_append_left _ hy)
            refine reached_inside ha hb (fun k => hr.2.1 (hsub _ k)) (fun w' b' hw hb' => ?_) (ins n₂)
            cases w' with
            | child =>
              have := pt.child
              rw [show o.child = some b' from hb'] at this
              obtain ⟨v, hv⟩ := ptr_some this
              exact ⟨v, S₁, hv, fun y hy k => (d₁ y hy).1 (hsub y k)⟩
            | next =>
              exact absurd rfl hw
            | nested j =>
              obtain ⟨v, T', hv, hT'⟩ := vec_some pt.nested hb'
              exact ⟨v, T', hv, fun y hy k => (d₂ y (hsub y k)).1 (hT' y hy)⟩
      | nested k =>
        cases hk : ns[k]? with
        | none => simp [Rule.at?, Rule.nested, hk] at hq
        | some rn =>
          have hq : rn.at? p = some q := by simpa [Rule.at?, Rule.nested, hk] using hq
          obtain ⟨b, Tb, rb, hb, hbn, hpb, ob, kb⟩ := vec_focus pt.nested hk
          obtain ⟨x, T, rest, e, f, ins⟩ := ih hbn hq
          refine ⟨x, T, rest ++ (rb ++ (root :: (S₁ ++ (S₂ ++ (S₄ ++ S₅))))), ?_, ⟨f.holds, ?_, ?_⟩, ?_⟩
          · intro m' hm'
            show (loadRule root >>= fun o => match o.nested[k]? with
              | some c => resolve c p
              | none => throw .ub) m' = _
            rw [bind_ok (loadRule_ok ((hm' root (.head _)).trans ha)), hb]
            exact e m' fun y hy => hm' y (by
              have := hpb.mem_iff.mpr (List.mem_append_left rb hy)
              simp [this])
          · refine (List.Perm.cons root (List.Perm.append_left _ (List.Perm.append_left _
              (List.Perm.append_right _ (hpb.trans (List.Perm.append_right _ f.perm)))))).trans ?_
            perm
          · intro c' q' T' h' hy
            obtain ⟨S', h₃, hp⟩ := f.refill c' q' T' h' fun y hy' => hy y (List.mem_append_left _ hy')
            obtain ⟨S'', h₄, hp₂⟩ := kb c' _ S' h₃ fun y hy' =>
              hy y (List.mem_append_right _ (List.mem_append_left _ hy'))
            have hy' : ∀ y, y = root ∨ y ∈ S₁ ∨ y ∈ S₂ ∨ y ∈ S₄ ∨ y ∈ S₅ → c' y = m.cell y := by
              intro y hk
              refine hy y ?_
              simp only [List.mem_append, List.mem_cons]
              exact .inr (.inr hk)
            refine ⟨root :: (S₁ ++ (S₂ ++ (S'' ++ (S₄ ++ S₅)))), ?_, ?_⟩
            · simp only [Rule.replace, hk]
              exact holds_rule.mpr ⟨o, S₁, S₂, S'', S₄, S₅, by rw [hy' root (.inl rfl), ha],
                ⟨pt.tag, pt.optional, pt.greedy, pt.tagname,
                framed_ptr (fun x _ => framed_rule x) _ _ _ _ pt.child fun y hk => hy' y (.inr (.inl hk)),
                framed_ptr (fun x _ => framed_rule x) _ _ _ _ pt.next fun y hk => hy' y (.inr (.inr (.inl hk))),
                h₄,
                framed_matches _ _ _ _ _ pt.ms fun y hk => hy' y (.inr (.inr (.inr (.inl hk)))),
                framed_captures _ _ _ _ _ pt.caps fun y hk => hy' y (.inr (.inr (.inr (.inr hk))))⟩, rfl⟩
            · refine (List.Perm.cons root (List.Perm.append_left _ (List.Perm.append_left _
                (List.Perm.append_right _ (hp₂.trans (List.Perm.append_right _ hp)))))).trans ?_
              perm
          · intro hS
            obtain ⟨hr, hS⟩ := List.nodup_cons.mp hS
            obtain ⟨n₁, n₂, d₁⟩ := append_split hS
            obtain ⟨n₂, n₃, d₂⟩ := append_split n₂
            obtain ⟨n₃, _, d₃⟩ := append_split n₃
            simp only [List.mem_append, not_or] at hr d₁ d₂ d₃
            have hsub : ∀ y ∈ T, y ∈ Tb := fun y hy => f.perm.mem_iff.mpr (List.mem_append_left _ hy)
            have hsub₃ : ∀ y ∈ T, y ∈ S₃ := fun y hy => hpb.mem_iff.mpr (List.mem_append_left _ (hsub y hy))
            refine reached_inside ha hb (fun k => hr.2.2.1 (hsub₃ _ k)) (fun w' b' hw hb' => ?_) (ins (append_split (hpb.nodup_iff.mp n₃)).1)
            cases w' with
            | child =>
              have := pt.child
              rw [show o.child = some b' from hb'] at this
              obtain ⟨v, hv⟩ := ptr_some this
              exact ⟨v, S₁, hv, fun y hy k => (d₁ y hy).2.1 (hsub₃ y k)⟩
            | next =>
              have := pt.next
              rw [show o.next = some b' from hb'] at this
              obtain ⟨v, hv⟩ := ptr_some this
              exact ⟨v, S₂, hv, fun y hy k => (d₂ y hy).1 (hsub₃ y k)⟩
            | nested j =>
              obtain ⟨v, T', hv, hT'⟩ := ob j b' (fun e => hw (by rw [e])) hb'
              exact ⟨v, T', hv, fun y hy k => (append_split (hpb.nodup_iff.mp n₃)).2.2 y (hsub y k) (hT' y hy)⟩

/-! ## The state of a program -/

/-- The variables hold the values `env`; `F v` are the objects of variable `v`, `T` those of temporaries.
Every living object has exactly one owner. -/
structure Inv (m : Mem) (vars : Vars) (env : Env) (F : Nat → List Nat) (T : List Nat) : Prop where
  wf : m.Wf
  holds : ∀ v, HoldsPtr (HoldsRule m.cell) (vars v) (env v) (F v)
  nodup : ∀ v, (F v ++ T).Nodup
  disj : ∀ v w, v ≠ w → ∀ x ∈ F v, x ∉ F w
  alive : ∀ x ∈ T, x < m.fresh
  noLeak : ∀ x, (m.cell x).isSome → x ∈ T ∨ ∃ v, x ∈ F v

theorem Inv.lt {m vars env F T} (h : Inv m vars env F T) {v x} (hx : x ∈ F v) : x < m.fresh :=
  h.wf x (alive_ptr (fun r _ => alive_rule r) _ _ _ (h.holds v) x hx)

def updateF (F : Nat → List Nat) (v : Nat) (S : List Nat) : Nat → List Nat :=
  fun x => if x = v then S else F x

/-- One variable (and the temporaries) changed. -/
theorem Inv.step {m m' vars env F T} (h : Inv m vars env F T) {v : Nat} {S T' : List Nat}
    {a : Option Nat} {r : Option Rule} (c : Changed m m' (F v ++ T) (S ++ T'))
    (hr : HoldsPtr (HoldsRule m'.cell) a r S) (hT : ∀ x ∈ T', x < m'.fresh) :
    Inv m' (update vars v a) (update env v r) (updateF F v S) T' := by
  have keep : ∀ w, w ≠ v → ∀ x ∈ F w, x < m.fresh ∧ x ∉ F v ++ T := by
    intro w hw x hx
    refine ⟨h.lt hx, fun k => ?_⟩
    rcases List.mem_append.mp k with k | k
    · exact h.disj w v hw x hx k
    · exact (append_split (h.nodup w)).2.2 x hx k
  have fresh : ∀ w, w ≠ v → ∀ x ∈ F w, x ∉ S ++ T' := by
    intro w hw x hx k
    rcases c.sub x k with q | q
    · exact (keep w hw x hx).2 q
    · have := (keep w hw x hx).1; omega
  refine ⟨c.wf, fun w => ?_, fun w => ?_, fun w u hwu x hx hx' => ?_, hT, fun x hx => ?_⟩
  · by_cases hw : w = v
    · subst hw; simpa [update, updateF] using hr
    · simp only [update, updateF, if_neg hw]
      exact framed_ptr (fun r _ => framed_rule r) _ _ _ _ (h.holds w) fun x hx =>
        c.others x (keep w hw x hx).1 (keep w hw x hx).2
  · by_cases hw : w = v
    · subst hw; simpa [updateF] using c.nodup
    · simp only [updateF, if_neg hw]
      refine List.nodup_append.mpr ⟨(append_split (h.nodup w)).1, (append_split c.nodup).2.1,
        fun x hx y hy hxy => fresh w hw x hx (List.mem_append_right _ (hxy ▸ hy))⟩
  · simp only [updateF] at hx hx'
    split at hx <;> split at hx'
    · subst_vars; exact hwu rfl
    · next h₁ h₂ => exact fresh u h₂ x hx' (List.mem_append_left _ hx)
    · next h₁ h₂ => exact fresh w h₁ x hx (List.mem_append_left _ hx')
    · exact h.disj w u hwu x hx hx'
  · rcases c.noLeak x hx with k | k
    · rcases List.mem_append.mp k with k | k
      · exact .inr ⟨v, by simpa [updateF] using k⟩
      · exact .inl k
    · have := c.others x k.1 k.2
      rw [this] at hx
      rcases h.noLeak x hx with q | ⟨w, q⟩
      · exact absurd (List.mem_append_right _ q) k.2
      · have hw : w ≠ v := fun e => k.2 (List.mem_append_left _ (e ▸ q))
        exact .inr ⟨w, by simpa [updateF, hw] using q⟩

theorem update_self {α} {e : Nat → Option α} {v : Nat} {r : Option α} (h : e v = r) : update e v r = e := by
  funext x; simp only [update]; split
  · next k => rw [k, h]
  · rfl

theorem addr_ok {vars : Vars} {v root : Nat} (h : vars v = some root) {m : Mem} :
    Vars.addr vars v m = pure (root, m) := by
  unfold Vars.addr; rw [h]; rfl

/-- The rule at a place. -/
theorem Inv.place' {m vars env F T} (h : Inv m vars env F T) {p : Place} {q : Rule}
    (hq : Env.get env p = some q) : ∃ root r x Tq rest, vars p.var = some root ∧ env p.var = some r ∧
      (∀ m' : Mem, (∀ y ∈ F p.var, m'.cell y = m.cell y) → Vars.place vars p m' = pure (x, m')) ∧
      Focus m.cell root r (F p.var) p.path q x Tq rest ∧
      ∀ p₂ x₂, resolve root p₂ m = pure (x₂, m) → x₂ ∈ Tq → p.path <+: p₂ := by
  obtain ⟨r, hr, hq⟩ := Option.bind_eq_some_iff.mp hq
  have hh := h.holds p.var
  rw [hr] at hh
  cases hv : vars p.var with
  | none => rw [hv] at hh; exact hh.elim
  | some root =>
    rw [hv] at hh
    obtain ⟨x, Tq, rest, e, f, ins⟩ := focus hh hq
    refine ⟨root, r, x, Tq, rest, rfl, hr, fun m' hm' => ?_, f, ins (append_split (h.nodup p.var)).1⟩
    show (Vars.addr vars p.var >>= fun a => resolve a p.path) m' = _
    rw [bind_ok (addr_ok hv), e m' hm']

theorem Inv.place {m vars env F T} (h : Inv m vars env F T) {p : Place} {q : Rule}
    (hq : Env.get env p = some q) : ∃ root r x Tq rest, vars p.var = some root ∧ env p.var = some r ∧
      (∀ m' : Mem, (∀ y ∈ F p.var, m'.cell y = m.cell y) → Vars.place vars p m' = pure (x, m')) ∧
      Focus m.cell root r (F p.var) p.path q x Tq rest := by
  obtain ⟨root, r, x, Tq, rest, h₁, h₂, h₃, h₄, _⟩ := h.place' hq
  exact ⟨root, r, x, Tq, rest, h₁, h₂, h₃, h₄⟩

theorem get_put {e : Env} {p : Place} {q₀ : Rule} (h : e.get p = some q₀) (q : Rule) :
    (e.put p q).get p = some q := by
  obtain ⟨r, hr, hq⟩ := Option.bind_eq_some_iff.mp h
  simp [Env.get, Env.put, update, hr, Rule.at_replace hq q]

/-- What is in places beside the one that is emptied. -/
theorem at_replace_empty : ∀ {p p₂ : List Way} {r q : Rule}, r.at? p = some q → ¬ p₂ <+: p →
    (((r.replace p (movedFrom q)).at? p₂).isSome ↔ (r.at? p₂).isSome ∧ ¬ p <+: p₂)
  | [], p₂, r, q, h, hp => by
    obtain rfl : r = q := by simpa [Rule.at?] using h
    cases p₂ with
    | nil => exact absurd List.nil_prefix hp
    | cons w p₂ =>
      simp only [Rule.replace, List.nil_prefix, not_true_eq_false, and_false, iff_false]
      cases r
      cases w <;> simp [movedFrom, Rule.at?, Rule.child, Rule.next, Rule.nested]
  | w :: p, [], r, q, h, hp => absurd List.nil_prefix hp
  | w :: p, w₂ :: p₂, .mk i c n ns, q, h, hp => by
    have sp : w₂ = w → ¬ p₂ <+: p := fun k k₂ => hp (List.cons_prefix_cons.mpr ⟨k, k₂⟩)
    rw [List.cons_prefix_cons]
    cases w with
    | child =>
      cases c with
      | none => cases h
      | some c =>
        have ih := at_replace_empty (p := p) (p₂ := p₂) (r := c) (q := q) h
        cases w₂ with
        | child => simpa [Rule.replace, Rule.at?, Rule.child] using ih (sp rfl)
        | next => simp [Rule.replace, Rule.at?, Rule.next]
        | nested j => simp [Rule.replace, Rule.at?, Rule.nested]
    | next =>
      cases n with
      | none => cases h
      | some c =>
        have ih := at_replace_empty (p := p) (p₂ := p₂) (r := c) (q := q) h
        cases w₂ with
        | child => simp [Rule.replace, Rule.at?, Rule.child]
        | next => simpa [Rule.replace, Rule.at?, Rule.next] using ih (sp rfl)
        | nested j => simp [Rule.replace, Rule.at?, Rule.nested]
    | nested k =>
      cases hk : ns[k]? with
      | none => simp [Rule.at?, Rule.nested, hk] at h
      | some c =>
        have hlt : k < ns.length := (List.getElem?_eq_some_iff.mp hk).1
        have ih := at_replace_empty (p := p) (p₂ := p₂) (r := c) (q := q)
          (by simpa [Rule.at?, Rule.nested, hk] using h)
        cases w₂ with
        | child => simp [Rule.replace, Rule.at?, Rule.child, hk]
        | next => simp [Rule.replace, Rule.at?, Rule.next, hk]
        | nested j =>
          by_cases hj : j = k
          · subst hj
            simp only [Rule.replace, Rule.at?, Rule.nested, hk, List.getElem?_set_self hlt, Option.bind_some,
              true_and]
            exact ih (sp rfl)
          · simp [Rule.replace, Rule.at?, Rule.nested, hk, List.getElem?_set_ne (Ne.symm hj), Ne.symm hj]

theorem contains_iff {p p₂ : Place} : p.contains p₂ = true ↔ p.var = p₂.var ∧ p.path <+: p₂.path := by
  simp [Place.contains]

theorem get_put_part {e : Env} {src dst : Place} {q : Rule} (hq : e.get src = some q)
    (hc : dst.contains src = false) :
    ((e.put src (movedFrom q)).get dst).isSome ↔ (e.get dst).isSome ∧ src.contains dst = false := by
  obtain ⟨r, hr, hq⟩ := Option.bind_eq_some_iff.mp hq
  have hc : ¬ (dst.var = src.var ∧ dst.path <+: src.path) := by rw [← contains_iff, hc]; simp
  rw [show src.contains dst = false ↔ ¬ (src.var = dst.var ∧ src.path <+: dst.path) by
    rw [← contains_iff]; simp]
  by_cases hv : dst.var = src.var
  · have h := at_replace_empty hq fun k => hc ⟨hv, k⟩
    simpa [Env.get, Env.put, update, hv, hr] using h
  · simp [Env.get, Env.put, update, hv, Ne.symm hv]

theorem at_above {r q : Rule} {p p₂ : List Way} (h : r.at? p = some q) (hp : p₂ <+: p) : (r.at? p₂).isSome := by
  obtain ⟨t, rfl⟩ := hp
  induction p₂ generalizing r with
  | nil => rfl
  | cons w p₂ ih =>
    cases w with
    | child =>
      obtain ⟨c, hc, h⟩ := Option.bind_eq_some_iff.mp (show (r.child.bind fun c => c.at? (p₂ ++ t)) = some q from h)
      simp only [Rule.at?, hc, Option.bind_some]; exact ih h
    | next =>
      obtain ⟨c, hc, h⟩ := Option.bind_eq_some_iff.mp (show (r.next.bind fun c => c.at? (p₂ ++ t)) = some q from h)
      simp only [Rule.at?, hc, Option.bind_some]; exact ih h
    | nested k =>
      obtain ⟨c, hc, h⟩ := Option.bind_eq_some_iff.mp
        (show (r.nested[k]?.bind fun c => c.at? (p₂ ++ t)) = some q from h)
      simp only [Rule.at?, hc, Option.bind_some]; exact ih h

theorem get_above {e : Env} {src dst : Place} {q : Rule} (hq : e.get src = some q) (hc : dst.contains src = true) :
    (e.get dst).isSome := by
  obtain ⟨r, hr, hq⟩ := Option.bind_eq_some_iff.mp hq
  obtain ⟨hv, hp⟩ := contains_iff.mp hc
  simpa [Env.get, hv, hr] using at_above hq hp

theorem get_put_above {e : Env} {src dst : Place} {q q' : Rule} (hq : e.get src = some q)
    (hc : dst.contains src = true) : ((e.put src q').get dst).isSome :=
  get_above (get_put hq q') hc

/-- A change at a place. -/
theorem Inv.at' {m m' vars env F T} (h : Inv m vars env F T) {p : Place} {q q' : Rule} {root r x Tq rest}
    (hv : vars p.var = some root) (hr : env p.var = some r)
    (f : Focus m.cell root r (F p.var) p.path q x Tq rest) {Tq' T'}
    (c : Changed m m' (Tq ++ T) (Tq' ++ T')) (hq' : HoldsRule m'.cell x q' Tq')
    (hT : ∀ x ∈ T', x < m'.fresh) :
    ∃ F', Inv m' vars (Env.put env p q') F' T' := by
  have hn := h.nodup p.var
  have hnf := (append_split hn).1
  have hpn := f.perm.nodup_iff.mp hnf
  obtain ⟨_, hrest, hd⟩ := append_split hpn
  have hmem : ∀ y ∈ rest, y ∈ F p.var := fun y hy => f.perm.mem_iff.mpr (List.mem_append_right _ hy)
  have hro : ∀ y ∈ rest, y ∉ Tq ++ T := by
    intro y hy k
    rcases List.mem_append.mp k with k | k
    · exact hd y k hy
    · exact (append_split hn).2.2 y (hmem y hy) k
  obtain ⟨S', hS', hp'⟩ := f.refill m'.cell q' Tq' hq' fun y hy => c.others y (h.lt (hmem y hy)) (hro y hy)
  have c' := c.beside hrest (fun y hy => h.lt (hmem y hy)) hro
  have c'' : Changed m m' (F p.var ++ T) (S' ++ T') := by
    refine (c'.old fun y => ?_).perm ?_
    · rw [List.mem_append (s := F p.var), f.perm.mem_iff]
      simp only [List.mem_append]
      grind
    · refine List.Perm.trans ?_ (List.Perm.append_right T' hp'.symm)
      perm
  have := h.step (v := p.var) (a := some root) (r := some (r.replace p.path q')) c'' hS' hT
  rw [update_self hv] at this
  refine ⟨updateF F p.var S', ?_⟩
  show Inv m' vars (update env p.var ((env p.var).map fun r => r.replace p.path q')) _ _
  rw [hr]
  exact this

theorem Inv.at {m m' vars env F T} (h : Inv m vars env F T) {p : Place} {q q' : Rule} {root r x Tq rest}
    (hv : vars p.var = some root) (hr : env p.var = some r)
    (f : Focus m.cell root r (F p.var) p.path q x Tq rest) {Tq'} (c : Changed m m' (Tq ++ T) Tq')
    (hq' : HoldsRule m'.cell x q' Tq') :
    ∃ F', Inv m' vars (Env.put env p q') F' [] :=
  h.at' hv hr f (by simpa using c) hq' (fun x hx => nomatch hx)

/-- A change of the parts that are no pointers. -/
theorem setter_ok {m : Mem} (w : m.Wf) {a : Nat} {r : Rule} {S : List Nat}
    (h : HoldsRule m.cell a r S) (hS : S.Nodup) (op : Nat → P Unit) (rf : Rule → Rule)
    (f : RuleObj → RuleObj) (g : RuleInfo → RuleInfo)
    (hop : op a = loadRule a >>= fun o => store a (.rule (f o)))
    (hrf : ∀ i c n ns, rf (.mk i c n ns) = .mk (g i) c n ns)
    (hf : ∀ o, (f o).child = o.child ∧ (f o).next = o.next ∧ (f o).nested = o.nested ∧ (f o).ms = o.ms ∧
      (f o).caps = o.caps)
    (hg : ∀ i, (g i).ms = i.ms ∧ (g i).caps = i.caps)
    (hfg : ∀ o i, o.tag = i.tag ∧ o.optional = i.optional ∧ o.greedy = i.greedy ∧ o.tagname = i.tagname →
      (f o).tag = (g i).tag ∧ (f o).optional = (g i).optional ∧ (f o).greedy = (g i).greedy ∧
      (f o).tagname = (g i).tagname) :
    ∃ m', op a m = pure ((), m') ∧ HoldsRule m'.cell a (rf r) S ∧ Changed m m' S S := by
  cases r with
  | mk i ch nx ns =>
    obtain ⟨m', e, h', c⟩ := update_ok w h hS f g hf hg hfg
    exact ⟨m', by rw [hop, e], by rw [hrf]; exact h', c⟩

/-- The object of a rule that was moved from. -/
def emptied : Rule → RuleObj
  | .mk i _ _ _ => ⟨none, none, [], [], [], i.tag, i.optional, i.greedy, i.tagname.map fun _ => []⟩

theorem holds_movedFrom {c : Cells} {a : Nat} {r : Rule} {S : List Nat} :
    HoldsRule c a (movedFrom r) S ↔ c a = some (.rule (emptied r)) ∧ S = [a] := by
  cases r with
  | mk i ch nx ns =>
    have vec : ∀ {α β} {R : β → α → List Nat → Prop} {bs : List β} {T : List Nat}, HoldsVec R bs [] T →
        bs = [] ∧ T = [] := by
      intro α β R bs T h
      cases bs with
      | nil => exact ⟨rfl, h⟩
      | cons => exact h.elim
    have ptr : ∀ {α} {R : Nat → α → List Nat → Prop} {b : Option Nat} {T : List Nat}, HoldsPtr R b none T →
        b = none ∧ T = [] := by
      intro α R b T h
      cases b with
      | none => exact ⟨rfl, h⟩
      | some => exact h.elim
    constructor
    · intro h
      obtain ⟨o, S₁, S₂, S₃, S₄, S₅, ha, pt, rfl⟩ := holds_rule.mp h
      obtain ⟨k₁, rfl⟩ := ptr pt.child
      obtain ⟨k₂, rfl⟩ := ptr pt.next
      obtain ⟨k₃, rfl⟩ := vec pt.nested
      obtain ⟨k₄, rfl⟩ := vec pt.ms
      obtain ⟨k₅, rfl⟩ := vec pt.caps
      refine ⟨?_, rfl⟩
      rw [ha]
      cases o
      simp only [emptied, Option.some.injEq, Obj.rule.injEq, RuleObj.mk.injEq]
      exact ⟨k₁, k₂, k₃, k₄, k₅, pt.tag, pt.optional, pt.greedy, pt.tagname⟩
    · rintro ⟨ha, rfl⟩
      exact holds_rule.mpr ⟨_, [], [], [], [], [], ha, ⟨rfl, rfl, rfl, rfl, rfl, rfl, rfl, rfl, rfl⟩, rfl⟩

theorem emptied_sub (r : Rule) (w : Way) : sub (emptied r) w = none := by
  cases r; cases w <;> rfl

/-- If objects were only emptied, then what is at a place now was there before. -/
theorem Inv.placeBefore {m m' vars env F T} (h : Inv m vars env F T)
    (hm : ∀ v, ∀ y ∈ F v, m'.cell y = m.cell y ∨ ∃ r, m'.cell y = some (.rule (emptied r)))
    {p : Place} {x : Nat} (hx : Vars.place vars p m' = pure (x, m')) : Vars.place vars p m = pure (x, m) := by
  cases hv : vars p.var with
  | none =>
    have hx : (Vars.addr vars p.var m' >>= fun a => resolve a.1 p.path a.2) = pure (x, m') := hx
    unfold Vars.addr at hx
    rw [hv] at hx
    cases hx
  | some root =>
    have hx : (Vars.addr vars p.var >>= fun a => resolve a p.path) m' = pure (x, m') := hx
    rw [bind_ok (addr_ok hv)] at hx
    show (Vars.addr vars p.var >>= fun a => resolve a p.path) m = _
    rw [bind_ok (addr_ok hv)]
    have hh := h.holds p.var
    rw [hv] at hh
    obtain ⟨r, hr⟩ := ptr_some hh
    exact resolve_before hr (fun y hy => (hm _ y hy).imp_right fun ⟨r, k⟩ => ⟨_, k, emptied_sub r⟩) hx

theorem place_unique {vars : Vars} {p : Place} {m : Mem} {x y : Nat} (hx : Vars.place vars p m = pure (x, m))
    (hy : Vars.place vars p m = pure (y, m)) : x = y := by
  rw [hx] at hy
  have := E.pure_inj hy
  injection this

/-- Initializing a parameter. -/
theorem Inv.arg {m vars env env' F} (h : Inv m vars env F []) {arg : Arg} {q : Rule}
    (hq : arg.val env = some (q, env')) :
    ∃ s m' F' T, arg.run vars m = pure (s, m') ∧ HoldsRule m'.cell s q T ∧ Inv m' vars env' F' T ∧
      ∀ p x, Vars.place vars p m' = pure (x, m') → Vars.place vars p m = pure (x, m) := by
  cases arg with
  | copy src =>
    simp only [Arg.val, Option.bind_eq_bind, Option.bind_eq_some_iff, Option.pure_def,
      Option.some.injEq, Prod.mk.injEq] at hq
    obtain ⟨q', hq', rfl, rfl⟩ := hq
    obtain ⟨root, r, x, Tq, rest, hv, hr, e, f⟩ := h.place hq'
    obtain ⟨s, T, m₁, e₁, r₁, g₁⟩ := copies_rule q' x Tq m h.wf f.holds
    have same : ∀ w, ∀ x ∈ F w, m₁.cell x = m.cell x := fun w x hx => g₁.same x (h.lt hx)
    refine ⟨s, m₁, F, T, ?_, r₁, ?_, fun p x hx => h.placeBefore (fun v y hy => .inl (same v y hy)) hx⟩
    · show (Vars.place vars src >>= fun a => copyRule a) m = _
      rw [bind_ok (e m fun _ _ => rfl), e₁]
    · refine ⟨g₁.wf, fun w => ?_, fun w => ?_, h.disj, fun x hx => ((g₁.mem x).mp hx).2, fun x hx => ?_⟩
      · exact framed_ptr (fun r _ => framed_rule r) _ _ _ _ (h.holds w) (same w)
      · refine List.nodup_append.mpr ⟨by simpa using h.nodup w, g₁.nodup, fun x hx y hy hxy => ?_⟩
        subst hxy
        have := (g₁.mem x).mp hy
        have := h.lt hx
        omega
      · rcases g₁.changed.noLeak x hx with k | k
        · exact .inl k
        · rw [g₁.same x k.1] at hx
          rcases h.noLeak x hx with k | k
          · cases k
          · exact .inr k
  | move src =>
    simp only [Arg.val, Option.bind_eq_bind, Option.bind_eq_some_iff, Option.pure_def,
      Option.some.injEq, Prod.mk.injEq] at hq
    obtain ⟨q', hq', rfl, rfl⟩ := hq
    obtain ⟨root, r, x, Tq, rest, hv, hr, e, f⟩ := h.place hq'
    obtain ⟨_, own, _, rfl⟩ := holds_head f.holds
    have hnd : (x :: own).Nodup := (append_split (f.perm.nodup_iff.mp (append_split (h.nodup src.var)).1)).1
    obtain ⟨m₁, e₁, r₁, r₁', c₁, hf₁, fr₁⟩ := move_ok h.wf f.holds hnd
    obtain ⟨F₁, h₁⟩ := h.at' hv hr f (Tq' := [x]) (T' := m.fresh :: own) (by simpa using c₁) r₁'
      (fun y hy => lt_fresh c₁.wf r₁ y hy)
    refine ⟨m.fresh, m₁, F₁, m.fresh :: own, ?_, r₁, h₁, fun p z hz => h.placeBefore (fun v y hy => ?_) hz⟩
    · show (Vars.place vars src >>= fun a => moveRule a) m = _
      rw [bind_ok (e m fun _ _ => rfl), e₁]
    · by_cases k : y = x
      · exact .inr ⟨q', by rw [k]; exact (holds_movedFrom.mp r₁').1⟩
      · exact .inl (fr₁ y k (by have := h.lt hy; omega))

/-- Appending. -/
theorem Inv.append {m vars env env' F} (h : Inv m vars env F []) {p : Place} {arg : Arg}
    {rf : Rule → Rule → Rule} (app : Nat → Nat → P Unit)
    (happ : ∀ {r r₂ : Rule} {m : Mem}, m.Wf → ∀ {a s : Nat} {S S₂ : List Nat},
      HoldsRule m.cell a r S → HoldsRule m.cell s r₂ S₂ → (S ++ S₂).Nodup →
      ∃ m' S', app a s m = pure ((), m') ∧ HoldsRule m'.cell a (rf r r₂) S' ∧ Changed m m' (S ++ S₂) S')
    (hv : Env.append env p arg rf = some env') :
    ∃ m' F', (Vars.place vars p >>= fun d => arg.run vars >>= fun s => app d s >>= fun _ => pure vars) m =
      pure (vars, m') ∧ Inv m' vars env' F' [] := by
  unfold Env.append at hv
  simp only [Option.bind_eq_bind, Option.bind_eq_some_iff, Prod.exists] at hv
  obtain ⟨q, e₀, hq, hm⟩ := hv
  simp only [Env.modify, Option.bind_eq_bind, Option.bind_eq_some_iff, Option.pure_def,
    Option.some.injEq] at hm
  obtain ⟨d, hd, rfl⟩ := hm
  obtain ⟨s, m₁, F₁, T, e₁, hs, h₁, before⟩ := h.arg hq
  obtain ⟨root, r, x, Tq, rest, hvv, hrr, ep, f⟩ := h₁.place hd
  have hTq : ∀ y ∈ Tq, y ∈ F₁ p.var := fun y hy => f.perm.mem_iff.mpr (List.mem_append_left _ hy)
  have hn := append_split (h₁.nodup p.var)
  have hnd : (Tq ++ T).Nodup := by
    refine List.nodup_append.mpr ⟨(append_split (f.perm.nodup_iff.mp hn.1)).1, hn.2.1, ?_⟩
    intro y hy z hz hyz
    exact hn.2.2 y (hTq y hy) (hyz ▸ hz)
  obtain ⟨m₂, S', e₂, hS', c₂⟩ := happ h₁.wf f.holds hs hnd
  obtain ⟨F', hF'⟩ := h₁.at hvv hrr f c₂ hS'
  refine ⟨m₂, F', ?_, hF'⟩
  -- the place is the same before the parameter was initialized
  rw [bind_ok (before p x (ep m₁ fun _ _ => rfl)), bind_ok e₁, bind_ok e₂]
  rfl

theorem changed_refl {m : Mem} (w : m.Wf) {S S' : List Nat} (p : S.Perm S') (n : S.Nodup) :
    Changed m m S S' := by
  refine Changed.perm ⟨Nat.le_refl _, w, fun _ _ _ => rfl, n, fun x hx => .inl hx, fun x hx => ?_⟩ p
  by_cases k : x ∈ S
  · exact .inl k
  · exact .inr ⟨w x hx, k⟩

theorem Inv.gone {m vars env F T} (h : Inv m vars env F T) {v : Nat} (e : env v = none) :
    vars v = none ∧ F v = [] := by
  have := h.holds v
  rw [e] at this
  cases hv : vars v with
  | none => rw [hv] at this; exact ⟨rfl, this⟩
  | some => rw [hv] at this; exact this.elim

theorem create_iff {env env' : Env} {v : Nat} {r : Rule} :
    Env.create env v r = some env' ↔ env v = none ∧ env' = update env v (some r) := by
  unfold Env.create
  cases env v <;> simp [eq_comm]

/-- A new variable for a new object. -/
theorem Inv.new {m m' vars env F} (h : Inv m vars env F []) {v a : Nat} {r : Rule} {S : List Nat}
    (e : env v = none) (g : Grown m m' S) (hr : HoldsRule m'.cell a r S) :
    ∃ F', Inv m' (update vars v (some a)) (update env v (some r)) F' [] := by
  refine ⟨_, h.step (S := S) (T' := []) ?_ hr (fun x hx => nomatch hx)⟩
  rw [(h.gone e).2]
  simpa using g.changed

theorem newRule_ok {m : Mem} (w : m.Wf) (t : RTag) (o g : Bool) :
    ∃ a S m', newRule t o g m = pure (a, m') ∧ HoldsRule m'.cell a (Rule.ofTag t o g) S ∧ Grown m m' S :=
  ⟨m.fresh, _, _, rfl, holds_rule.mpr ⟨_, [], [], [], [], [], push_self _ _,
    ⟨rfl, rfl, rfl, rfl, rfl, rfl, rfl, rfl, rfl⟩, rfl⟩, grown_push w _⟩

theorem newRuleNamed_ok {m : Mem} (w : m.Wf) (n : Str) (o g : Bool) :
    ∃ a S m', newRuleNamed n o g m = pure (a, m') ∧ HoldsRule m'.cell a (Rule.ofName n o g) S ∧ Grown m m' S :=
  ⟨m.fresh, _, _, rfl, holds_rule.mpr ⟨_, [], [], [], [], [], push_self _ _,
    ⟨rfl, rfl, rfl, rfl, rfl, rfl, rfl, rfl, rfl⟩, rfl⟩, grown_push w _⟩

theorem modify_iff {env env' : Env} {p : Place} {f : Rule → Rule} :
    Env.modify env p f = some env' ↔ ∃ q, Env.get env p = some q ∧ env' = Env.put env p (f q) := by
  unfold Env.modify
  cases Env.get env p <;> simp [eq_comm]

/-- A statement that changes the rule at a place. -/
theorem Inv.modify {m vars env env' F} (h : Inv m vars env F []) {p : Place} {rf : Rule → Rule}
    (op : Nat → P Unit)
    (hop : ∀ {r : Rule} {a : Nat} {S : List Nat}, HoldsRule m.cell a r S → S.Nodup →
      ∃ m' S', op a m = pure ((), m') ∧ HoldsRule m'.cell a (rf r) S' ∧ Changed m m' S S')
    (hv : Env.modify env p rf = some env') :
    ∃ m' F', (Vars.place vars p >>= fun d => op d >>= fun _ => pure vars) m = pure (vars, m') ∧
      Inv m' vars env' F' [] := by
  obtain ⟨q, hq, rfl⟩ := modify_iff.mp hv
  obtain ⟨root, r, x, Tq, rest, hvv, hrr, ep, f⟩ := h.place hq
  have hn : Tq.Nodup := (append_split (f.perm.nodup_iff.mp (append_split (h.nodup p.var)).1)).1
  obtain ⟨m', S', e, h', c⟩ := hop f.holds hn
  obtain ⟨F', hF'⟩ := h.at hvv hrr f (by simpa using c) h'
  refine ⟨m', F', ?_, hF'⟩
  rw [bind_ok (ep m fun _ _ => rfl), bind_ok e]
  rfl

/-- Temporary objects come to life. -/
theorem Inv.temp {m m' vars env F T} (h : Inv m vars env F []) (g : Grown m m' T) :
    Inv m' vars env F T ∧ ∀ v, ∀ x ∈ F v, m'.cell x = m.cell x := by
  have same : ∀ w, ∀ x ∈ F w, m'.cell x = m.cell x := fun w x hx => g.same x (h.lt hx)
  refine ⟨⟨g.wf, fun w => ?_, fun w => ?_, h.disj, fun x hx => ((g.mem x).mp hx).2, fun x hx => ?_⟩, same⟩
  · exact framed_ptr (fun r _ => framed_rule r) _ _ _ _ (h.holds w) (same w)
  · refine List.nodup_append.mpr ⟨by simpa using h.nodup w, g.nodup, fun x hx y hy hxy => ?_⟩
    subst hxy
    have := (g.mem x).mp hy
    have := h.lt hx
    omega
  · rcases g.changed.noLeak x hx with k | k
    · exact .inl k
    · rw [g.same x k.1] at hx
      rcases h.noLeak x hx with k | k
      · cases k
      · exact .inr k

/-- A statement that builds an object and gives it to the rule at a place. -/
theorem Inv.give {m vars env env' F} {β γ : Type} (h : Inv m vars env F []) {p : Place} {rf : Rule → Rule}
    {R : Cells → β → γ → List Nat → Prop} {v : γ} (build : γ → P β) (hb : Builds R build v)
    (op : Nat → β → P Unit)
    (hop : ∀ {m : Mem}, m.Wf → ∀ {r : Rule} {a : Nat} {b : β} {S T : List Nat}, HoldsRule m.cell a r S →
      R m.cell b v T → (S ++ T).Nodup →
      ∃ m' S', op a b m = pure ((), m') ∧ HoldsRule m'.cell a (rf r) S' ∧ Changed m m' (S ++ T) S')
    (hv : Env.modify env p rf = some env') :
    ∃ m' F', (Vars.place vars p >>= fun d => build v >>= fun b => op d b >>= fun _ => pure vars) m =
      pure (vars, m') ∧ Inv m' vars env' F' [] := by
  obtain ⟨q, hq, rfl⟩ := modify_iff.mp hv
  obtain ⟨root₀, r₀, x₀, Tq₀, rest₀, hvv₀, hrr₀, ep₀, f₀⟩ := h.place hq
  obtain ⟨b, T, m₁, e₁, r₁, g₁⟩ := hb m h.wf
  obtain ⟨h₁, same⟩ := h.temp g₁
  obtain ⟨root, r, x, Tq, rest, hvv, hrr, ep, f⟩ := h₁.place hq
  have hx : x = x₀ := by
    have k₁ := ep m₁ fun _ _ => rfl
    have k₂ := ep₀ m₁ (same _)
    rw [k₁] at k₂
    have := E.pure_inj k₂
    injection this
  subst hx
  have hTq : ∀ y ∈ Tq, y ∈ F p.var := fun y hy => f.perm.mem_iff.mpr (List.mem_append_left _ hy)
  have hn := append_split (h₁.nodup p.var)
  have hnd : (Tq ++ T).Nodup := by
    refine List.nodup_append.mpr ⟨(append_split (f.perm.nodup_iff.mp hn.1)).1, hn.2.1, ?_⟩
    intro y hy z hz hyz
    exact hn.2.2 y (hTq y hy) (hyz ▸ hz)
  obtain ⟨m₂, S', e₂, hS', c₂⟩ := hop h₁.wf f.holds r₁ hnd
  obtain ⟨F', hF'⟩ := h₁.at hvv hrr f c₂ hS'
  refine ⟨m₂, F', ?_, hF'⟩
  rw [bind_ok (ep₀ m fun _ _ => rfl), bind_ok e₁, bind_ok e₂]
  rfl

theorem changed_put {m : Mem} (w : m.Wf) {a : Nat} {rest : List Nat} (n : (a :: rest).Nodup) (h : a < m.fresh)
    (o : Obj) : Changed m (m.put a o) (a :: rest) (a :: rest) := by
  refine ⟨Nat.le_refl _, fun x hx => ?_, fun x _ hx => ?_, n, fun x hx => .inl hx, fun x hx => ?_⟩
  · by_cases k : x = a
    · subst k; exact h
    · simp only [Mem.put, if_neg k] at hx; exact w x hx
  · simp only [Mem.put, if_neg (List.ne_of_not_mem_cons hx)]
  · by_cases k : x ∈ a :: rest
    · exact .inl k
    · simp only [Mem.put, if_neg (List.ne_of_not_mem_cons k)] at hx
      exact .inr ⟨w x hx, k⟩

/-- Moving a rule to a rule that does not contain it. -/
theorem Inv.moveAssign {m vars env F} (h : Inv m vars env F []) {dst src : Place} {q d : Rule}
    (hne : ¬ dst.contains src = true) (hq : Env.get env src = some q)
    (hd : Env.get (Env.put env src (movedFrom q)) dst = some d) :
    ∃ m' F' x s, Vars.place vars dst m = pure (x, m) ∧ Vars.place vars src m = pure (s, m) ∧
      moveAssignRule x s m = pure ((), m') ∧
      Inv m' vars (Env.put (Env.put env src (movedFrom q)) dst q) F' [] := by
  obtain ⟨root, r, s, Tq, rest, hv, hr, e, f⟩ := h.place hq
  obtain ⟨_, own, _, rfl⟩ := holds_head f.holds
  have hnd : (s :: own).Nodup := (append_split (f.perm.nodup_iff.mp (append_split (h.nodup src.var)).1)).1
  have hs := lt_fresh h.wf f.holds
  -- the source is emptied
  have hemp : HoldsRule (m.put s (.rule (emptied q))).cell s (movedFrom q) [s] :=
    holds_movedFrom.mpr ⟨by simp [Mem.put], rfl⟩
  obtain ⟨F₁, h₁⟩ := h.at' hv hr f (Tq' := [s]) (T' := own)
    (by simpa using changed_put h.wf hnd (hs s (.head _)) (.rule (emptied q))) hemp
    (fun y hy => hs y (.tail _ hy))
  have before : ∀ p x, Vars.place vars p (m.put s (.rule (emptied q))) = pure (x, m.put s (.rule (emptied q))) →
      Vars.place vars p m = pure (x, m) := by
    intro p x hx
    refine h.placeBefore (fun v y hy => ?_) hx
    by_cases k : y = s
    · exact .inr ⟨q, by simp [k, Mem.put]⟩
    · exact .inl (by simp [k, Mem.put])
  obtain ⟨root₂, r₂, x, Td, rest₂, hv₂, hr₂, e₂, f₂, ins⟩ := h₁.place' hd
  have hx := before dst x (e₂ _ fun _ _ => rfl)
  -- the source does not belong to the target
  have hsx : s ∉ Td := by
    intro k
    refine hne ?_
    have hF : s ∈ F₁ dst.var := f₂.perm.mem_iff.mpr (List.mem_append_left _ k)
    have hsrc : Env.get (Env.put env src (movedFrom q)) src = some (movedFrom q) := get_put hq _
    obtain ⟨root₃, r₃, x₃, T₃, rest₃, hv₃, hr₃, e₃, f₃⟩ := h₁.place hsrc
    have hx₃ := place_unique (before src x₃ (e₃ _ fun _ _ => rfl)) (e m fun _ _ => rfl)
    subst hx₃
    obtain ⟨_, own₃, _, rfl⟩ := holds_head f₃.holds
    have hF₃ : x₃ ∈ F₁ src.var := f₃.perm.mem_iff.mpr (.head _)
    have hvar : dst.var = src.var := by
      by_cases g : dst.var = src.var
      · exact g
      · exact absurd hF₃ (h₁.disj _ _ g _ hF)
    have hres : resolve root₂ src.path (m.put x₃ (.rule (emptied q))) = pure (x₃, m.put x₃ (.rule (emptied q))) := by
      have := e₃ _ fun _ _ => rfl
      rwa [Vars.place, ← hvar, bind_ok (addr_ok hv₂)] at this
    have := ins src.path x₃ hres k
    simp [Place.contains, hvar, this]
  have hTd : ∀ y ∈ Td, y ∈ F₁ dst.var := fun y hy => f₂.perm.mem_iff.mpr (List.mem_append_left _ hy)
  have hn := append_split (h₁.nodup dst.var)
  have hnd₂ : (Td ++ (s :: own)).Nodup := by
    refine List.nodup_append.mpr ⟨(append_split (f₂.perm.nodup_iff.mp hn.1)).1, hnd, ?_⟩
    intro y hy z hz hyz
    subst hyz
    rcases List.mem_cons.mp hz with k | k
    · exact hsx (k ▸ hy)
    · exact hn.2.2 y (hTd y hy) k
  have hdm : HoldsRule m.cell x d Td := by
    refine framed_rule _ _ _ _ _ f₂.holds fun y hy => ?_
    have : y ≠ s := fun k => hsx (k ▸ hy)
    simp [Mem.put, this]
  obtain ⟨m₂, k₂, r₂, r₂', c₂⟩ := moveAssign_ok h.wf hdm f.holds hnd₂
  have hcs := (holds_movedFrom.mp r₂').1
  have hso := (List.nodup_cons.mp hnd).1
  have c₃ : Changed (m.put s (.rule (emptied q))) m₂ (Td ++ own) (x :: own) := by
    refine ⟨c₂.le, c₂.wf, fun y hy hy' => ?_, (append_split c₂.nodup).1, fun y hy => ?_, fun y hy => ?_⟩
    · by_cases k : y = s
      · subst k; rw [hcs]; simp [Mem.put]
      · rw [c₂.others y hy (by simp only [List.mem_append, List.mem_cons, not_or] at hy' ⊢; exact ⟨hy'.1, k, hy'.2⟩)]
        simp [Mem.put, k]
    · have hys : y ≠ s := fun k => (append_split c₂.nodup).2.2 y hy (by simp [k])
      refine (c₂.sub y (List.mem_append_left _ hy)).imp_left fun k => ?_
      simp only [List.mem_append, List.mem_cons] at k ⊢
      rcases k with k | k | k
      · exact .inl k
      · exact absurd k hys
      · exact .inr k
    · rcases c₂.noLeak y hy with k | k
      · rcases List.mem_append.mp k with k | k
        · exact .inl k
        · obtain rfl : y = s := by simpa using k
          exact .inr ⟨hs y (.head _), by simp only [List.mem_append, not_or]; exact ⟨hsx, hso⟩⟩
      · refine .inr ⟨k.1, fun q => k.2 ?_⟩
        simp only [List.mem_append, List.mem_cons] at q ⊢
        exact q.imp_right .inr
  obtain ⟨F₂, h₂⟩ := h₁.at hv₂ hr₂ f₂ c₃ r₂
  exact ⟨m₂, F₂, x, s, hx, e m fun _ _ => rfl, k₂, h₂⟩

/-- Every statement that has a meaning on values is executed without undefined behaviour, and afterwards
the variables hold what it means. -/
theorem run_ok {m vars env env' F} (h : Inv m vars env F []) (op : Op) (hv : op.val env = some env') :
    ∃ m' vars' F', op.run vars m = pure (vars', m') ∧ Inv m' vars' env' F' [] := by
  cases op with
  | ofTag v t o g =>
    obtain ⟨e, rfl⟩ := create_iff.mp hv
    obtain ⟨a, S, m', e₁, r, g₁⟩ := newRule_ok h.wf t o g
    obtain ⟨F', h'⟩ := h.new e g₁ r
    exact ⟨m', _, F', by rw [Op.run, bind_ok e₁]; rfl, h'⟩
  | ofName v n o g =>
    obtain ⟨e, rfl⟩ := create_iff.mp hv
    obtain ⟨a, S, m', e₁, r, g₁⟩ := newRuleNamed_ok h.wf n o g
    obtain ⟨F', h'⟩ := h.new e g₁ r
    exact ⟨m', _, F', by rw [Op.run, bind_ok e₁]; rfl, h'⟩
  | copy v src =>
    simp only [Op.val, Option.bind_eq_bind, Option.bind_eq_some_iff] at hv
    obtain ⟨q, hq, hc⟩ := hv
    obtain ⟨e, rfl⟩ := create_iff.mp hc
    obtain ⟨root, r, x, Tq, rest, hvv, hrr, ep, f⟩ := h.place hq
    obtain ⟨s, T, m₁, e₁, r₁, g₁⟩ := copies_rule q x Tq m h.wf f.holds
    obtain ⟨F', h'⟩ := h.new e g₁ r₁
    exact ⟨m₁, _, F', by rw [Op.run, bind_ok (ep m fun _ _ => rfl), bind_ok e₁]; rfl, h'⟩
  | move v src =>
    simp only [Op.val, Option.bind_eq_bind, Option.bind_eq_some_iff] at hv
    obtain ⟨q, hq, hc⟩ := hv
    obtain ⟨e, rfl⟩ := create_iff.mp hc
    obtain ⟨s, m₁, F₁, T, e₁, hs, h₁, _⟩ := h.arg (arg := .move src) (q := q) (by simp [Arg.val, hq]; rfl)
    have hF := h₁.gone e
    have h₂ := h₁.step (v := v) (a := some s) (r := some q) (S := T) (T' := [])
      (changed_refl h₁.wf (by rw [hF.2]; simp) (h₁.nodup v)) hs (fun x hx => nomatch hx)
    refine ⟨m₁, update vars v (some s), updateF F₁ v T, ?_, h₂⟩
    have e₁ : (Vars.place vars src >>= fun a => moveRule a) m = pure (s, m₁) := e₁
    show (Vars.place vars src >>= fun a => moveRule a >>= fun a => pure (update vars v (some a))) m = _
    rw [← bind_assoc, bind_ok e₁]
    rfl
  | assign dst src =>
    simp only [Op.val, Option.bind_eq_bind, Option.bind_eq_some_iff] at hv
    obtain ⟨q, hq, hm⟩ := hv
    obtain ⟨root, r, x, Tq, rest, hvv, hrr, ep, f⟩ := h.place hq
    obtain ⟨m', F', e, h'⟩ := h.modify (fun d => assignRule d x)
      (fun ha hS => assign_ok h.wf ha f.holds hS) hm
    refine ⟨m', vars, F', ?_, h'⟩
    obtain ⟨q₂, hq₂, _⟩ := modify_iff.mp hm
    obtain ⟨_, _, x₂, _, _, _, _, ep₂, _⟩ := h.place hq₂
    rw [bind_ok (ep₂ m fun _ _ => rfl)] at e
    rw [Op.run, bind_ok (ep₂ m fun _ _ => rfl), bind_ok (ep m fun _ _ => rfl)]
    exact e
  | moveAssign dst src =>
    simp only [Op.val] at hv
    split at hv
    · cases hv
    · next hne =>
      simp only [Option.bind_eq_bind, Option.bind_eq_some_iff] at hv
      obtain ⟨q, hq, hm⟩ := hv
      obtain ⟨d, hd, rfl⟩ := modify_iff.mp hm
      obtain ⟨m', F', x, s, e₁, e₂, e, h'⟩ := h.moveAssign hne hq hd
      refine ⟨m', vars, F', ?_, h'⟩
      rw [Op.run, bind_ok e₁, bind_ok e₂, bind_ok e]
      rfl
  | appendChild dst arg =>
    obtain ⟨m', F', e, h'⟩ := h.append Mem.appendChild (fun w => appendChild_ok w) hv
    exact ⟨m', vars, F', e, h'⟩
  | appendNext dst arg =>
    obtain ⟨m', F', e, h'⟩ := h.append Mem.appendNext (fun w => appendNext_ok w) hv
    exact ⟨m', vars, F', e, h'⟩
  | appendNested b dst arg =>
    obtain ⟨m', F', e, h'⟩ := h.append (Mem.appendNested b) (fun w => appendNested_ok b w) hv
    exact ⟨m', vars, F', e, h'⟩
  | appendMatch dst v =>
    obtain ⟨m', F', e, h'⟩ := h.give (R := PtrR HoldsMatch) buildMatchPtr
      (by rw [buildMatchPtr_eq]; exact builds_ptr fun x _ => builds_match x) Mem.appendMatch
      (fun w => appendMatch_ok w) hv
    exact ⟨m', vars, F', e, h'⟩
  | appendCapture dst v =>
    obtain ⟨m', F', e, h'⟩ := h.give (R := PtrR HoldsCapture) (buildPtr buildCapture)
      (builds_ptr fun x _ => builds_capture x) Mem.appendCapture (fun w => appendCapture_ok w) hv
    exact ⟨m', vars, F', e, h'⟩
  | setTag dst t =>
    obtain ⟨m', F', e, h'⟩ := h.modify (fun d => Mem.setTag d t) (fun {r a S} ha hS => by
      obtain ⟨m', k₁, k₂, k₃⟩ := setter_ok h.wf ha hS (fun d => Mem.setTag d t) (·.setTag t)
        (fun o => { o with tag := t }) (fun i => { i with tag := t }) rfl (fun _ _ _ _ => rfl)
        (fun o => ⟨rfl, rfl, rfl, rfl, rfl⟩) (fun i => ⟨rfl, rfl⟩)
        (fun o i k => ⟨rfl, k.2.1, k.2.2.1, k.2.2.2⟩)
      exact ⟨m', S, k₁, k₂, k₃⟩) hv
    exact ⟨m', vars, F', e, h'⟩
  | setOptional dst b =>
    obtain ⟨m', F', e, h'⟩ := h.modify (fun d => Mem.setOptional d b) (fun {r a S} ha hS => by
      obtain ⟨m', k₁, k₂, k₃⟩ := setter_ok h.wf ha hS (fun d => Mem.setOptional d b) (·.setOptional b)
        (fun o => { o with optional := b }) (fun i => { i with optional := b }) rfl (fun _ _ _ _ => rfl)
        (fun o => ⟨rfl, rfl, rfl, rfl, rfl⟩) (fun i => ⟨rfl, rfl⟩)
        (fun o i k => ⟨k.1, rfl, k.2.2.1, k.2.2.2⟩)
      exact ⟨m', S, k₁, k₂, k₃⟩) hv
    exact ⟨m', vars, F', e, h'⟩
  | setGreedy dst b =>
    obtain ⟨m', F', e, h'⟩ := h.modify (fun d => Mem.setGreedy d b) (fun {r a S} ha hS => by
      obtain ⟨m', k₁, k₂, k₃⟩ := setter_ok h.wf ha hS (fun d => Mem.setGreedy d b) (·.setGreedy b)
        (fun o => { o with greedy := b }) (fun i => { i with greedy := b }) rfl (fun _ _ _ _ => rfl)
        (fun o => ⟨rfl, rfl, rfl, rfl, rfl⟩) (fun i => ⟨rfl, rfl⟩)
        (fun o i k => ⟨k.1, k.2.1, rfl, k.2.2.2⟩)
      exact ⟨m', S, k₁, k₂, k₃⟩) hv
    exact ⟨m', vars, F', e, h'⟩
  | setTagname dst s =>
    obtain ⟨m', F', e, h'⟩ := h.modify (fun d => Mem.setTagname d s) (fun {r a S} ha hS => by
      obtain ⟨m', k₁, k₂, k₃⟩ := setter_ok h.wf ha hS (fun d => Mem.setTagname d s) (·.setTagname s)
        (fun o => { o with tagname := some s }) (fun i => { i with tagname := some s }) rfl
        (fun _ _ _ _ => rfl)
        (fun o => ⟨rfl, rfl, rfl, rfl, rfl⟩) (fun i => ⟨rfl, rfl⟩)
        (fun o i k => ⟨k.1, k.2.1, k.2.2.1, rfl⟩)
      exact ⟨m', S, k₁, k₂, k₃⟩) hv
    exact ⟨m', vars, F', e, h'⟩
  | destroy v =>
    simp only [Op.val, Option.map_eq_some_iff] at hv
    obtain ⟨r, hr, rfl⟩ := hv
    have hh := h.holds v
    rw [hr] at hh
    cases hvv : vars v with
    | none => rw [hvv] at hh; exact hh.elim
    | some root =>
      rw [hvv] at hh
      have hn : (F v).Nodup := (append_split (h.nodup v)).1
      obtain ⟨m', e, s⟩ := destroys_rule r root (F v) m hh hn
      refine ⟨m', update vars v none, updateF F v [], ?_, ?_⟩
      · rw [Op.run, bind_ok (addr_ok hvv), bind_ok e]; rfl
      · exact h.step (v := v) (a := none) (r := none) (S := []) (T' := []) (by simpa using s.changed h.wf) rfl
          (fun x hx => nomatch hx)

theorem runs_ok {m vars env env' F} (h : Inv m vars env F []) (ops : List Op)
    (hv : vals env ops = some env') :
    ∃ m' vars' F', runs vars ops m = pure (vars', m') ∧ Inv m' vars' env' F' [] := by
  induction ops generalizing m vars env F with
  | nil =>
    have : env = env' := by simpa [vals] using hv
    exact ⟨m, vars, F, rfl, this ▸ h⟩
  | cons op ops ih =>
    simp only [vals, Option.bind_eq_bind, Option.bind_eq_some_iff] at hv
    obtain ⟨env₁, h₁, h₂⟩ := hv
    obtain ⟨m₁, vars₁, F₁, e₁, i₁⟩ := run_ok h op h₁
    obtain ⟨m₂, vars₂, F₂, e₂, i₂⟩ := ih i₁ h₂
    exact ⟨m₂, vars₂, F₂, by rw [runs, bind_ok e₁, e₂], i₂⟩

end Hext.Hist
