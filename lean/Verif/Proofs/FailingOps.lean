import Verif.Proofs.Failing
import Verif.Proofs.History
/-!
# Assigning and appending when memory runs out: lemmas
-/

namespace Hext.Mem

/-! ## Copy and swap -/

theorem kind_rule : Kind_ HoldsRule destroyRule where
  framed := framed_rule
  alive := alive_rule
  destroys := destroys_rule
  head := fun _ _ _ _ h => by obtain ⟨_, rest, _, e⟩ := holds_head h; exact ⟨rest, e⟩
  reroot := fun _ _ _ _ _ _ h k k' => reroot h k k'

/-- `this` is now what `b` was. -/
abbrev Becomes {α} (R : Cells → Addr → α → List Addr → Prop) (m : Mem) (a : Addr) (S : List Addr) (v : α) (m' : Mem) : Prop :=
  ∃ T, R m'.cell a v T ∧ Changed m m' S T

theorem assignRuleQ_ends (r' : Rule) : ∃ N, ∀ {m : Mem} (n : Nat), m.Wf → ∀ {a b : Addr} {r : Rule} {S S' : List Addr},
    HoldsRule m.cell a r S → HoldsRule m.cell b r' S' → S.Nodup →
    Ends N (assignRuleQ a b) m n (fun _ m' => Becomes HoldsRule m a S r' m') (Untouched m) := by
  obtain ⟨N, h⟩ := copiesQ_rule r'
  refine ⟨N + 0, fun {m} n w {a b r S S'} ha hb hS => ?_⟩
  refine Ends.bind (h b S' m n w hb) ?_
  rintro t m₁ ⟨T, r₁, g₁⟩
  obtain ⟨oa, _, hoa, _⟩ := holds_head ha
  obtain ⟨ot, _, hot, hT⟩ := holds_head r₁
  have hal := w a (by rw [hoa]; rfl)
  have hat : a ≠ t := by
    have := ((g₁.mem t).mp (by rw [hT]; exact .head _)).1
    omega
  have hoa₁ : m₁.cell a = some (.rule oa) := by rw [g₁.same a hal, hoa]
  have e₂ : swapRule a t m₁ = pure ((), (m₁.put a (.rule ot)).put t (.rule oa)) := by
    unfold swapRule
    rw [if_neg hat]
    rw [bind_ok (loadRule_ok hoa₁), bind_ok (loadRule_ok hot),
      bind_ok (store_ok (by rw [hoa₁]; rfl) (.rule ot)),
      store_ok (by simp [Mem.put, Ne.symm hat, hot]) (.rule oa)]
  obtain ⟨m₃, T', e₃, r₃, c₃⟩ := swap_die kind_rule (m₂ := (m₁.put a (.rule ot)).put t (.rule oa)) w ha hS g₁ r₁
    (fun x => by rw [put_cell, put_cell, hoa₁, hot]) (Nat.le_refl _)
  exact ends_lift (by rw [bind_ok e₂, e₃]) ⟨T', r₃, c₃⟩

/-! ## Value tests -/

/-- What a `NegateTest` owns. -/
def negated : ValueTest → Option ValueTest
  | .negate t => some t
  | _ => none

theorem negate_cell {c : Cells} {x : Addr} {v : ValueTest} {S : List Addr} (h : HoldsTest c x v S) (hv : IsNegate v) :
    ∃ t o S', c x = some (.negateTest t) ∧ HoldsPtr (HoldsTest c) t o S' ∧ S = x :: S' ∧
      (∀ c' x' t' S', c' x' = some (.negateTest t') → HoldsPtr (HoldsTest c') t' o S' → HoldsTest c' x' v (x' :: S')) ∧
      o = negated v := by
  cases v with
  | negate t =>
    obtain ⟨q, S', h, h', rfl⟩ := h
    refine ⟨some q, some t, S', h, h', rfl, fun c' x' t' S' k k' => ?_, rfl⟩
    cases t' with
    | none => exact k'.elim
    | some q' => exact ⟨q', S', k, k', rfl⟩
  | negateNull =>
    refine ⟨none, none, [], h.1, rfl, h.2, fun c' x' t' S' k k' => ?_, rfl⟩
    cases t' with
    | none => cases (show S' = [] from k'); exact ⟨k, rfl⟩
    | some q' => exact k'.elim
  | _ => exact hv.elim

theorem assignTestQ_negate (v' : ValueTest) (hv' : IsNegate v') : ∃ N, ∀ (room : Bool) {m : Mem} (n : Nat), m.Wf →
    ∀ {a b : Addr} {v : ValueTest} {S S' : List Addr}, HoldsTest m.cell a v S → HoldsTest m.cell b v' S' → S.Nodup →
    IsNegate v →
    Ends N (assignTestQ room a b) m n (fun _ m' => Becomes HoldsTest m a S v' m') (Untouched m) := by
  obtain ⟨N, h⟩ := copiesQ_ptr (v := negated v') (R := HoldsTest)
    fun x _ => copiesQ_test x
  refine ⟨N + 0, fun room {m} n w {a b v S S'} ha hb hS hv => ?_⟩
  obtain ⟨qb, ob, Sb, hqb, kb, rfl, mk, rfl⟩ := negate_cell hb hv'
  obtain ⟨qa, _, _, hqa, _, _, _, _⟩ := negate_cell ha hv
  unfold assignTestQ
  refine Ends.read (load_ok hqb) (Ends.bind (h qb Sb m n w kb) ?_)
  rintro q' m₁ ⟨T, r, g⟩
  have hal := w a (by rw [hqa]; rfl)
  have r₁ : HoldsTest (m₁.push (.negateTest q')).cell m₁.fresh v' (m₁.fresh :: T) := by
    refine mk _ _ _ _ (push_self _ _) ?_
    exact keep_grown (framed_ptr fun x _ => framed_test x) (alive_ptr fun x _ => alive_test x) g.wf (grown_push g.wf _) r
  have g₁ := grown_top g (.negateTest q')
  have hat : a ≠ m₁.fresh := by have := g.le; omega
  obtain ⟨m₂, e₂, hf₂, hc₂⟩ := swapNegateTest_ok g₁.wf hat (s := qa) (t := q')
    (by rw [g₁.same a hal, hqa]) (push_self _ _)
  obtain ⟨m₃, T', e₃, r₃, c₃⟩ := swap_die kind_test w ha hS g₁ r₁ hc₂ hf₂
  exact ends_lift (by rw [bind_ok (alloc_ok m₁ _), bind_ok e₂, e₃]) ⟨T', r₃, c₃⟩

theorem plain_cell {c : Cells} {x : Addr} {v : ValueTest} {S : List Addr} (hv : ¬ IsNegate v) :
    HoldsTest c x v S ↔ c x = some (.test v) ∧ S = [x] := by
  cases v with
  | negate t => exact (hv trivial).elim
  | negateNull => exact (hv trivial).elim
  | _ => exact Iff.rfl

theorem becomes_put_test {m : Mem} (w : m.Wf) {a : Addr} {v v' : ValueTest} (hv' : ¬ IsNegate v')
    (ka : m.cell a = some (.test v)) : Becomes HoldsTest m a [a] v' (m.put a (.test v')) :=
  ⟨[a], (plain_cell hv').mpr ⟨by simp [Mem.put], rfl⟩, changed_put w (by rw [ka]; rfl) _⟩

/-- The loop of `std::vector::operator=`. -/
theorem assignWordsQ_ends (new : List Str) : ∀ (old done : List Str) {m : Mem} (n : Nat) {a : Addr},
    m.cell a = some (.test (.containsWords (done ++ old))) →
    Ends new.length (assignWordsQ a done new old) m n (fun _ m' => m' = m.put a (.test (.containsWords (done ++ new))))
      (fun m' => ∃ k, k ≤ new.length ∧ k ≤ old.length ∧
        m' = m.put a (.test (.containsWords (done ++ (new.take k ++ old.drop k))))) := by
  have rest : ∀ (k : List Str) {m : Mem} (n : Nat) {T : Mem → Prop}, T m →
      Ends k.length (k.forM fun _ => request) m n (fun _ m' => m' = m) T := by
    intro k
    induction k with
    | nil => intro m n T _; exact ends_pure rfl
    | cons x k ih =>
      intro m n T hT
      show Ends (k.length + 1) (request >>= fun _ => k.forM fun _ => request) m n _ _
      rw [Nat.add_comm]
      exact Ends.after hT (ih _ hT)
  have self : ∀ {m : Mem} {a : Addr} {o : Obj}, m.cell a = some o → m = m.put a o := by
    intro m a o h
    cases m with
    | mk c f =>
      simp only [Mem.put, Mem.mk.injEq, and_true]
      funext x
      split
      · next e => rw [e]; exact h
      · rfl
  induction new with
  | nil =>
    intro old done m n a ha
    refine Ends.bind (N₁ := 0) (N₂ := 0) (P₁ := fun _ m' => m' = m) (ends_pure rfl) ?_
    rintro _ _ rfl
    exact ends_lift (store_ok (by rw [ha]; rfl) _) rfl
  | cons x new ih =>
    intro old done m n a ha
    cases old with
    | nil =>
      refine Ends.bind (N₁ := (x :: new).length) (N₂ := 0) (rest (x :: new) n ⟨0, by simp, by simp, ?_⟩) ?_
      · simpa using self ha
      · rintro _ _ rfl
        exact ends_lift (store_ok (by rw [ha]; rfl) _) rfl
    | cons y old =>
      have e : (x :: new).length = 1 + (0 + new.length) := by simp; omega
      rw [e]
      refine Ends.after ⟨0, by simp, by simp, by simpa using self ha⟩ ?_
      refine Ends.bind (P₁ := fun _ m' => m' = m.put a (.test (.containsWords (done ++ x :: old))))
        (ends_lift (store_ok (by rw [ha]; rfl) _) rfl) ?_
      rintro _ _ rfl
      refine (ih old (done ++ [x]) _ (by simp [Mem.put])).imp ?_ ?_
      · rintro _ _ rfl
        rw [put_put]
        simp
      · rintro _ ⟨k, h₁, h₂, rfl⟩
        refine ⟨k + 1, by simp; omega, by simp; omega, ?_⟩
        rw [put_put]
        simp

/-- Two tests of the same class that is not `ContainsWordsTest` or `NegateTest`, or whose vector needs a new buffer. -/
theorem assignTestQ_plain (room : Bool) {m : Mem} (n : Nat) (w : m.Wf) {a b : Addr} {v v' : ValueTest} {S S' : List Addr}
    (ha : HoldsTest m.cell a v S) (hb : HoldsTest m.cell b v' S') (hv : ¬ IsNegate v) (hv' : ¬ IsNegate v')
    (hr : room = true → ∀ o k, v = .containsWords o → v' ≠ .containsWords k) :
    Ends 1 (assignTestQ room a b) m n (fun _ m' => Becomes HoldsTest m a S v' m') (Untouched m) := by
  obtain ⟨ka, rfl⟩ := (plain_cell hv).mp ha
  obtain ⟨kb, rfl⟩ := (plain_cell hv').mp hb
  have fin : Ends 1 (do request; lift (store a (.test v')) : Q Unit) m n (fun _ m' => Becomes HoldsTest m a [a] v' m')
      (Untouched m) :=
    Ends.after (N := 0) (Untouched.refl m)
      (ends_lift (store_ok (by rw [ka]; rfl) _) (becomes_put_test w hv' ka))
  unfold assignTestQ
  refine Ends.read (load_ok kb) (Ends.read (load_ok ka) ?_)
  cases hw : (match v, v' with | .containsWords _, .containsWords _ => true | _, _ => false) with
  | true =>
    cases v <;> cases v' <;> first | (simp at hw; done) | skip
    cases room with
    | true => exact absurd rfl (hr rfl _ _ rfl)
    | false => exact fin
  | false =>
    cases v <;> first | exact fin | (cases v' <;> first | exact fin | (simp at hw))

/-- Two `ContainsWordsTest`s. -/
theorem assignTestQ_words {m : Mem} (n : Nat) (w : m.Wf) {a b : Addr} {old new : List Str} {S S' : List Addr}
    (ha : HoldsTest m.cell a (.containsWords old) S) (hb : HoldsTest m.cell b (.containsWords new) S') :
    Ends new.length (assignTestQ true a b) m n (fun _ m' => Becomes HoldsTest m a S (.containsWords new) m')
      (fun m' => ∃ k, k ≤ new.length ∧ k ≤ old.length ∧
        Becomes HoldsTest m a S (.containsWords (new.take k ++ old.drop k)) m') := by
  obtain ⟨ka, rfl⟩ := ha
  obtain ⟨kb, rfl⟩ := hb
  unfold assignTestQ
  refine Ends.read (load_ok kb) (Ends.read (load_ok ka) ?_)
  refine (assignWordsQ_ends new old [] n ka).imp ?_ ?_
  · rintro _ _ rfl
    exact becomes_put_test w (v' := .containsWords new) (fun h => h) ka
  · rintro _ ⟨k, h₁, h₂, rfl⟩
    exact ⟨k, h₁, h₂, becomes_put_test w (v' := .containsWords _) (fun h => h) ka⟩

/-! ## Matches -/

theorem assignMatchQ_owner (v' : Match) : ∃ N, ∀ (sp : Spent) {m : Mem} (n : Nat), m.Wf → ∀ {a b : Addr} {v : Match}
    {S S' : List Addr}, HoldsMatch m.cell a v S → HoldsMatch m.cell b v' S' → S.Nodup → BothOwn v v' →
    Ends N (assignMatchQ sp a b) m n (fun _ m' => Becomes HoldsMatch m a S v' m') (Untouched m) := by
  obtain ⟨N, h⟩ := copiesQ_match v'
  refine ⟨N + 0, fun sp {m} n w {a b v S S'} ha hb hS hv => ?_⟩
  obtain ⟨oa, ob, hoa, hob, k⟩ := sameOwner_of hv ha hb
  have hal := w a (by rw [hoa]; rfl)
  have fin : Ends (N + 0) (cloneMatchQ b >>= fun tmp => lift (do swapMatch sp a tmp; destroyMatch tmp) : Q Unit) m n
      (fun _ m' => Becomes HoldsMatch m a S v' m') (Untouched m) := by
    refine Ends.bind (h b S' m n w hb) ?_
    rintro t m₁ ⟨T, r₁, g₁⟩
    have htf : m.fresh ≤ t := by
      obtain ⟨rest, rfl⟩ := kind_match.head _ _ _ _ r₁
      exact ((g₁.mem t).mp (.head _)).1
    have hat : a ≠ t := by omega
    obtain ⟨ob', ot, hob', hot, k'⟩ := sameOwner_of hv.refl hb r₁
    have : ob = ob' := by rw [hob] at hob'; injection hob'
    subst this
    obtain ⟨m₂, e₂, hf₂, hc₂⟩ := swapMatch_ok sp g₁.wf hat (k.trans k') (by rw [g₁.same a hal, hoa]) hot
    obtain ⟨m₃, T', e₃, r₃, c₃⟩ := swap_die kind_match w ha hS g₁ r₁ hc₂ hf₂
    exact ends_lift (by rw [bind_ok e₂, e₃]) ⟨T', r₃, c₃⟩
  unfold assignMatchQ
  refine Ends.read (load_ok hob) ?_
  cases k <;> exact fin

theorem assignMatchQ_plain (sp : Spent) {m : Mem} (n : Nat) (w : m.Wf) {a b : Addr} {v v' : Match} {S S' : List Addr}
    (ha : HoldsMatch m.cell a v S) (hb : HoldsMatch m.cell b v' S') (hv : Plain v) (hv' : Plain v') :
    Ends 1 (assignMatchQ sp a b) m n (fun _ m' => Becomes HoldsMatch m a S v' m') (Untouched m) := by
  obtain ⟨ka, rfl⟩ := (holds_plain hv).mp ha
  obtain ⟨kb, rfl⟩ := (holds_plain hv').mp hb
  unfold assignMatchQ
  refine Ends.read (load_ok kb) (Ends.after (N := 0) (Untouched.refl m) ?_)
  refine ends_lift (m' := m.put a (.match_ v')) (a := ()) ?_ ⟨[a], (holds_plain hv').mpr ⟨by simp [Mem.put], rfl⟩,
    changed_put w (by rw [ka]; rfl) _⟩
  show (load a >>= fun o => match o with | .match_ _ => store a (.match_ v') | _ => throw .ub) m = _
  rw [bind_ok (load_ok ka)]
  exact store_ok (by rw [ka]; rfl) _

/-! ## Transformations -/

theorem Changed.after_put {m m₁ : Mem} {S T : List Addr} {a : Addr} (c : Changed m m₁ S T) (ha : a ∈ T)
    (k : (m₁.cell a).isSome) (hT : ∀ x ∈ T, x < m₁.fresh) (o : Obj) : Changed m (m₁.put a o) S T := by
  refine ⟨c.le, fun x hx => ?_, fun x hx hx' => ?_, c.nodup, c.sub, fun x hx => ?_⟩
  · rw [put_cell] at hx
    split at hx
    · next e => rw [e]; exact hT a ha
    · exact c.wf x hx
  · rw [put_cell, if_neg, c.others x hx hx']
    rintro rfl
    rcases c.sub _ ha with q | q
    · exact hx' q
    · omega
  · rw [put_cell] at hx
    split at hx
    · next e => exact .inl (e ▸ ha)
    · exact c.noLeak x hx

theorem Changed.untouched {m m₁ m₂ : Mem} {S T : List Addr} (c : Changed m m₁ S T) (u : Untouched m₁ m₂) :
    Changed m m₂ S T :=
  ⟨Nat.le_trans c.le u.1, u.wf c.wf, fun x hx hx' => (u.2 x).trans (c.others x hx hx'), c.nodup, c.sub,
    fun x hx => c.noLeak x (by rw [← u.2]; exact hx)⟩

/-- A chain of which only the first transformation is given. -/
def Pipe.withRest (t : Transform) : Option Pipe → Pipe
  | none => .last t
  | some p => .cons t p

theorem holds_withRest {c : Cells} {a : Addr} {t : Transform} {o : Option Pipe} {n : Option Addr} {S : List Addr}
    (h : c a = some (.pipe t n)) (k : HoldsPtr (HoldsPipe c) n o S) : HoldsPipe c a (Pipe.withRest t o) (a :: S) := by
  cases o with
  | none =>
    cases n with
    | none => cases (show S = [] from k); exact ⟨h, rfl⟩
    | some => exact k.elim
  | some p =>
    cases n with
    | none => exact k.elim
    | some x => exact ⟨x, S, h, k, rfl⟩

/-- `StringPipe::operator=` for chains without a common object. -/
theorem assignPipeQ_ends (v' : Pipe) : ∃ N, ∀ {m : Mem} (n : Nat), m.Wf → ∀ {a b : Addr} {v : Pipe} {S S' : List Addr},
    HoldsPipe m.cell a v S → HoldsPipe m.cell b v' S' → S.Nodup → (∀ x ∈ S', x ∉ S) →
    Ends N (assignPipeQ a b) m n (fun _ m' => Becomes HoldsPipe m a S v' m')
      (fun m' => Becomes HoldsPipe m a S (.last v.first) m' ∨
        (v'.rest ≠ none ∧ Becomes HoldsPipe m a S (Pipe.withRest v.first v'.rest) m')) := by
  obtain ⟨N, h⟩ : ∃ N, ∀ p, v'.rest = some p → ∀ b S m n, m.Wf → HoldsPipe m.cell b p S →
      MakesCopy HoldsPipe p N (clonePipeQ b) m n := by
    cases hv : v'.rest with
    | none => exact ⟨0, fun p hp => by cases hp⟩
    | some p => obtain ⟨N, h⟩ := copiesQ_pipe p; exact ⟨N, fun q hq => by cases hq; exact h⟩
  refine ⟨(if v'.rest = none then 0 else N) + (1 + 0), fun {m} n w {a b v S S'} ha hb hS hd => ?_⟩
  obtain ⟨m₂, So, rfl, e, hf, hc⟩ := setNext_ok ha hS none
  obtain ⟨na, nS⟩ := List.nodup_cons.mp hS
  have hal := w a (alive_pipe v a _ _ ha a (.head _))
  have c₂ := setNext_changed w hS hal hf hc
  obtain ⟨nb, Sb, hbc, kb, rfl⟩ := holds_pipe.mp hb
  have hab : a ≠ b := fun k => hd b (.head _) (k ▸ .head _)
  have ha₂ : m₂.cell a = some (.pipe v.first none) := by rw [hc, if_neg na, if_pos rfl]
  have keep : ∀ x ∈ b :: Sb, m₂.cell x = m.cell x := by
    intro x hx
    have := hd x hx
    simp only [List.mem_cons, not_or] at this
    rw [hc, if_neg this.2, if_neg this.1]
  have hb₂ : m₂.cell b = some (.pipe v'.first nb) := by rw [keep b (.head _), hbc]
  have kb₂ := framed_pipes _ _ _ _ m₂.cell kb fun x hx => keep x (.tail _ hx)
  have hbl := c₂.wf b (by rw [hb₂]; rfl)
  have lost : Becomes HoldsPipe m a (a :: So) (.last v.first) m₂ := ⟨[a], ⟨ha₂, rfl⟩, c₂⟩
  -- what the members do
  have members : ∀ {m₃ : Mem} {k : Nat} {y : Option Addr} {T : List Addr}, m₃.cell b = some (.pipe v'.first nb) →
      m₃.cell a = some (.pipe v.first y) → HoldsPtr (HoldsPipe m₃.cell) y v'.rest T → (a :: T).Nodup →
      (∀ x ∈ a :: T, x < m₃.fresh) →
      Changed m m₃ (a :: So) (a :: T) →
      Ends (1 + 0) (do
        request
        lift (do
          let (t', _) ← loadPipe b
          let (_, next) ← loadPipe a
          store a (.pipe t' next)) : Q Unit) m₃ k (fun _ m' => Becomes HoldsPipe m a (a :: So) v' m')
        (fun m' => Becomes HoldsPipe m a (a :: So) (.last v.first) m' ∨
          (v'.rest ≠ none ∧ Becomes HoldsPipe m a (a :: So) (Pipe.withRest v.first v'.rest) m')) := by
    intro m₃ k y T hb₃ ha₃ hy hn hl c₃
    obtain ⟨naT, nT⟩ := List.nodup_cons.mp hn
    refine Ends.after ?_ ?_
    · have := holds_withRest ha₃ hy
      by_cases hr : v'.rest = none
      · rw [hr] at this
        exact .inl ⟨a :: T, this, c₃⟩
      · exact .inr ⟨hr, a :: T, this, c₃⟩
    · refine ends_lift (m' := m₃.put a (.pipe v'.first y)) (a := ()) ?_ ⟨a :: T, holds_pipe.mpr ⟨y, T, by simp [Mem.put], ?_, rfl⟩, ?_⟩
      · rw [bind_ok (loadPipe_ok hb₃)]
        dsimp only
        rw [bind_ok (loadPipe_ok ha₃)]
        exact store_ok (by rw [ha₃]; rfl) _
      · refine framed_pipes _ _ _ _ _ hy fun x hx => ?_
        have : x ≠ a := fun k => naT (k ▸ hx)
        simp [Mem.put, this]
      · exact c₃.after_put (.head _) (by rw [ha₃]; rfl) hl _
  unfold assignPipeQ assignPipeBaseQ
  rw [if_neg hab]
  cases hr : v'.rest with
  | none =>
    rw [hr] at kb₂
    rw [if_pos rfl]
    have hnb : nb = none := by
      cases nb with
      | none => rfl
      | some => exact kb₂.elim
    subst hnb
    refine Ends.bind (P₁ := fun _ m' => m' = m₂) (N₁ := 0) ?_ ?_
    · refine Ends.bind (N₁ := 0) (N₂ := 0) (P₁ := fun _ m' => m' = m₂) (ends_lift e rfl) ?_
      rintro _ _ rfl
      refine Ends.read (loadPipe_ok hb₂) ?_
      exact ends_pure rfl
    · rintro _ _ rfl
      have := members (k := n - 0) (y := none) (T := []) hb₂ ha₂ (by rw [hr]; rfl) (by simp)
        (by simpa using c₂.wf a (by rw [ha₂]; rfl)) c₂
      rw [hr] at this
      exact this
  | some p =>
    rw [hr] at kb₂
    rw [if_neg (by simp)]
    cases nb with
    | none => exact kb₂.elim
    | some x =>
      refine Ends.bind (N₁ := N) (P₁ := fun _ m₃ => ∃ y T, m₃.cell b = some (.pipe v'.first (some x)) ∧
        m₃.cell a = some (.pipe v.first (some y)) ∧ HoldsPipe m₃.cell y p T ∧ (a :: T).Nodup ∧
        (∀ x ∈ a :: T, x < m₃.fresh) ∧ Changed m m₃ (a :: So) (a :: T)) ?_ ?_
      · have : N = 0 + (N + 0) := by omega
        rw [this]
        refine Ends.bind (P₁ := fun _ m' => m' = m₂) (ends_lift e rfl) ?_
        rintro _ _ hm
        rw [hm]
        refine Ends.read (loadPipe_ok hb₂) ?_
        refine Ends.bind ((h p hr x Sb m₂ _ c₂.wf kb₂).imp (fun _ _ k => k)
          (fun m' u => .inl ⟨[a], ⟨by rw [u.2, ha₂], rfl⟩, c₂.untouched u⟩)) ?_
        rintro x' m₁ ⟨T, r₁, g₁⟩
        have hal₂ := c₂.wf a (by rw [ha₂]; rfl)
        have hT : ∀ y ∈ T, m₂.fresh ≤ y := fun y hy => ((g₁.mem y).mp hy).1
        have naT : a ∉ T := fun k => by have := hT a k; omega
        have ha₁ : m₁.cell a = some (.pipe v.first none) := by rw [g₁.same a hal₂, ha₂]
        refine ends_lift (m' := m₁.put a (.pipe v.first (some x'))) (a := ()) ?_ ⟨x', T, ?_, by simp [Mem.put], ?_,
          List.nodup_cons.mpr ⟨naT, g₁.nodup⟩, ?_, ?_⟩
        · unfold setNext
          rw [bind_ok (loadPipe_ok ha₁)]
          dsimp only
          rw [bind_ok (store_ok (by rw [ha₁]; rfl) _)]
          rfl
        · rw [put_cell, if_neg (Ne.symm hab), g₁.same b hbl, hb₂]
        · refine framed_pipe p _ _ _ _ r₁ fun y hy => ?_
          have : y ≠ a := fun k => naT (k ▸ hy)
          simp [Mem.put, this]
        · intro y hy
          show y < m₁.fresh
          rcases List.mem_cons.mp hy with rfl | hy
          · have := g₁.le; omega
          · exact ((g₁.mem y).mp hy).2
        · have c₁ := g₁.changed.beside (rest := [a]) (by simp) (by simpa using hal₂) (by simp)
          have c₃ := c₂.trans ((c₁.perm (List.perm_append_comm (l₂ := [a]))).old (old' := [a]) (by simp))
          refine Changed.after_put (a := a) c₃ (by simp) (by rw [ha₁]; rfl) (fun y hy => ?_) _
          rcases List.mem_cons.mp hy with rfl | hy
          · have := g₁.le; omega
          · exact ((g₁.mem y).mp hy).2
      · rintro _ m₃ ⟨y, T, q₁, q₂, q₃, q₄, q₅, q₆⟩
        have := members (k := n - N) (y := some y) (T := T) q₁ q₂ (by rw [hr]; exact q₃) q₄ q₅ q₆
        rw [hr] at this
        exact this

/-! ## Captures -/

theorem pipe_cells (v : Pipe) : ∀ {c : Cells} {a : Addr} {S : List Addr}, HoldsPipe c a v S → ∀ x ∈ S,
    ∃ t n, c x = some (.pipe t n) := by
  induction v with
  | last t =>
    rintro c a S ⟨h, rfl⟩ x hx
    rw [List.mem_singleton.mp hx]
    exact ⟨_, _, h⟩
  | cons t p ih =>
    rintro c a S ⟨b, S', h, h', rfl⟩ x hx
    rcases List.mem_cons.mp hx with rfl | hx
    · exact ⟨_, _, h⟩
    · exact ih h' x hx

/-- The steps of `AttributeCapture::operator=` and `FunctionCapture::operator=` after both objects were read: `mk` is
the object with the new members, `mk₁` and `mk₂` are the ones in between. -/
theorem assignCaptureQ_steps (p' : Pipe) : ∃ N, ∀ {m : Mem} (n : Nat), m.Wf → ∀ {a x : Addr} {q : Option Addr}
    {qv : Option Pipe} {So Sp : List Addr} (mk₁ mk₂ : Obj) (mk : Addr → Obj) {T : Mem → Prop}, (m.cell a).isSome →
    HoldsPtr (HoldsPipe m.cell) q qv So → (a :: So).Nodup → HoldsPipe m.cell x p' Sp → a ∉ Sp → T m →
    T (m.put a mk₁) → (∀ m', Untouched (m.put a mk₂) m' → T m') →
    Ends N (do
        request
        lift (store a mk₁)
        request
        lift (store a mk₂)
        let y ← clonePipeQ x
        lift (do
          store a (mk y)
          onPtr destroyPipe q) : Q Unit) m n
      (fun _ m' => ∃ y R, m'.cell a = some (mk y) ∧ HoldsPipe m'.cell y p' R ∧ Changed m m' (a :: So) (a :: R)) T := by
  obtain ⟨N, h⟩ := copiesQ_pipe p'
  refine ⟨1 + (0 + (1 + (0 + (N + 0)))), fun {m} n w {a x q qv So Sp} mk₁ mk₂ mk {T} ha hq hS hp naS' t₀ t₁ t₂ => ?_⟩
  have hal := w a ha
  refine Ends.after t₀ (Ends.bind (P₁ := fun _ m' => m' = m.put a mk₁) (ends_lift (store_ok ha _) rfl) ?_)
  rintro _ _ rfl
  refine Ends.after t₁ (Ends.bind (P₁ := fun _ m' => m' = m.put a mk₂)
    (ends_lift (store_ok (by simp [Mem.put]) _) (put_put _ _ _ _)) ?_)
  rintro _ _ rfl
  have c₀ := changed_put w ha mk₂
  have hp₀ : HoldsPipe (m.put a mk₂).cell x p' Sp := framed_pipe p' _ _ _ _ hp fun y hy => by
    rw [put_cell, if_neg (show y ≠ a from fun k => naS' (k ▸ hy))]
  refine Ends.bind ((h x Sp (m.put a mk₂) _ c₀.wf hp₀).imp (fun _ _ k => k) t₂) ?_
  rintro y m₁ ⟨R, r₁, g₁⟩
  obtain ⟨naS, nS⟩ := List.nodup_cons.mp hS
  have hSol : ∀ x ∈ So, x < m.fresh := fun x hx => w x (alive_ptr (fun y _ => alive_pipe y) _ _ _ hq x hx)
  have hR : ∀ x ∈ R, m.fresh ≤ x := fun x hx => ((g₁.mem x).mp hx).1
  have hgle : m.fresh ≤ m₁.fresh := g₁.le
  have ha₁ : (m₁.cell a).isSome := by rw [g₁.same a hal, put_cell, if_pos rfl]; rfl
  have naR : a ∉ R := fun k => by have := hR a k; omega
  have q₁ : HoldsPtr (HoldsPipe (m₁.put a (mk y)).cell) q qv So := by
    refine framed_ptr (fun y _ => framed_pipe y) _ _ _ _ hq fun x hx => ?_
    have : x ≠ a := fun k => naS (k ▸ hx)
    rw [put_cell, if_neg this, g₁.same x (hSol x hx), put_cell, if_neg this]
  obtain ⟨m₂, e₂, s₂⟩ := destroys_ptr (fun y _ => destroys_pipe y) q So _ q₁ nS
  refine ends_lift (m' := m₂) (a := ()) ?_ ⟨y, R, ?_, ?_, ?_⟩
  · rw [bind_ok (store_ok ha₁ _)]
    exact e₂
  · rw [s₂.cell, if_neg naS]; simp [Mem.put]
  · refine framed_pipe p' _ _ _ _ r₁ fun x hx => ?_
    have h₁ : x ≠ a := fun k => naR (k ▸ hx)
    have h₂ : x ∉ So := fun k => by have := hSol x k; have := hR x hx; omega
    rw [s₂.cell, if_neg h₂]; simp [Mem.put, h₁]
  · have c₁ := g₁.changed.beside (rest := a :: So) hS
      (fun x hx => by
        show x < m.fresh
        rcases List.mem_cons.mp hx with k | k
        · omega
        · exact hSol x k) (fun _ _ => by simp)
    have c₀' := c₀.beside (rest := So) nS hSol (fun x hx k => naS (by rw [List.mem_singleton.mp k] at hx; exact hx))
    have c₂ : Changed m m₁ (a :: So) (R ++ a :: So) := c₀'.trans (c₁.old (by simp))
    have c₃ := c₂.after_put (a := a) (by simp) ha₁ (fun z hz => by
      rcases List.mem_append.mp hz with k | k
      · exact ((g₁.mem z).mp k).2
      · rcases List.mem_cons.mp k with k | k
        · omega
        · have := hSol z k; omega) (mk y)
    exact Changed.destroy (T := So) (c₃.perm (by perm)) s₂

/-- `AttributeCapture::operator=`. -/
theorem assignCaptureQ_attribute (p' : Pipe) : ∃ N, ∀ {m : Mem} (n : Nat), m.Wf → ∀ {a b : Addr}
    {attr name attr' name' : Str} {p : Option Pipe} {S S' : List Addr},
    HoldsCapture m.cell a (.attribute attr name p) S → HoldsCapture m.cell b (.attribute attr' name' (some p')) S' →
    S.Nodup → a ≠ b →
    Ends N (assignCaptureQ a b) m n (fun _ m' => Becomes HoldsCapture m a S (.attribute attr' name' (some p')) m')
      (fun m' => Untouched m m' ∨ Becomes HoldsCapture m a S (.attribute attr' name p) m' ∨
        Becomes HoldsCapture m a S (.attribute attr' name' p) m') := by
  obtain ⟨N, h⟩ := assignCaptureQ_steps p'
  refine ⟨N, fun {m} n w {a b attr name attr' name' p S S'} ha hb hS hab => ?_⟩
  obtain ⟨q, So, hoa, hq, rfl⟩ := ha
  obtain ⟨q', Sp, hob, hq', rfl⟩ := hb
  cases q' with
  | none => exact hq'.elim
  | some x =>
    have hp : HoldsPipe m.cell x p' Sp := hq'
    obtain ⟨naS, nS⟩ := List.nodup_cons.mp hS
    have hSol : ∀ x ∈ So, x < m.fresh := fun x hx => w x (alive_ptr (fun y _ => alive_pipe y) _ _ _ hq x hx)
    have naSp : a ∉ Sp := by
      intro k
      obtain ⟨t, nx, e⟩ := pipe_cells p' hp a k
      rw [hoa] at e
      cases e
    have keep : ∀ o, HoldsPtr (HoldsPipe (m.put a o).cell) q p So := fun o => by
      refine framed_ptr (fun y _ => framed_pipe y) _ _ _ _ hq fun x hx => ?_
      rw [put_cell, if_neg (show x ≠ a from fun k => naS (k ▸ hx))]
    have chg : ∀ o, Changed m (m.put a o) (a :: So) (a :: So) := fun o =>
      (changed_put w (by rw [hoa]; rfl) o).beside (rest := So) nS hSol
        (fun x hx k => naS (by rw [List.mem_singleton.mp k] at hx; exact hx))
    unfold assignCaptureQ
    rw [if_neg hab]
    refine Ends.read (load_ok hoa) (Ends.read (load_ok hob) ?_)
    refine (h n w (.attributeCapture attr' name q) (.attributeCapture attr' name' q)
      (fun y => .attributeCapture attr' name' (some y)) (by rw [hoa]; rfl) hq hS hp naSp (.inl (.refl m))
      (.inr (.inl ⟨a :: So, ⟨q, So, by simp [Mem.put], keep _, rfl⟩, chg _⟩))
      (fun m' u => .inr (.inr ⟨a :: So, ⟨q, So, by rw [u.2]; simp [Mem.put], by rw [u.cell]; exact keep _, rfl⟩,
        (chg _).untouched u⟩))).imp ?_ (fun _ k => k)
    rintro _ m' ⟨y, R, k₁, k₂, k₃⟩
    exact ⟨a :: R, ⟨some y, R, k₁, k₂, rfl⟩, k₃⟩

/-- `FunctionCapture::operator=`. -/
theorem assignCaptureQ_function (p' : Pipe) : ∃ N, ∀ {m : Mem} (n : Nat), m.Wf → ∀ {a b : Addr}
    {f f' : Option CaptureFn} {name name' : Str} {p : Option Pipe} {S S' : List Addr},
    HoldsCapture m.cell a (.function f name p) S → HoldsCapture m.cell b (.function f' name' (some p')) S' →
    S.Nodup → a ≠ b →
    Ends N (assignCaptureQ a b) m n (fun _ m' => Becomes HoldsCapture m a S (.function f' name' (some p')) m')
      (fun m' => Untouched m m' ∨ Becomes HoldsCapture m a S (.function f' name p) m' ∨
        Becomes HoldsCapture m a S (.function f' name' p) m') := by
  obtain ⟨N, h⟩ := assignCaptureQ_steps p'
  refine ⟨N, fun {m} n w {a b f f' name name' p S S'} ha hb hS hab => ?_⟩
  obtain ⟨q, So, hoa, hq, rfl⟩ := ha
  obtain ⟨q', Sp, hob, hq', rfl⟩ := hb
  cases q' with
  | none => exact hq'.elim
  | some x =>
    have hp : HoldsPipe m.cell x p' Sp := hq'
    obtain ⟨naS, nS⟩ := List.nodup_cons.mp hS
    have hSol : ∀ x ∈ So, x < m.fresh := fun x hx => w x (alive_ptr (fun y _ => alive_pipe y) _ _ _ hq x hx)
    have naSp : a ∉ Sp := by
      intro k
      obtain ⟨t, nx, e⟩ := pipe_cells p' hp a k
      rw [hoa] at e
      cases e
    have keep : ∀ o, HoldsPtr (HoldsPipe (m.put a o).cell) q p So := fun o => by
      refine framed_ptr (fun y _ => framed_pipe y) _ _ _ _ hq fun x hx => ?_
      rw [put_cell, if_neg (show x ≠ a from fun k => naS (k ▸ hx))]
    have chg : ∀ o, Changed m (m.put a o) (a :: So) (a :: So) := fun o =>
      (changed_put w (by rw [hoa]; rfl) o).beside (rest := So) nS hSol
        (fun x hx k => naS (by rw [List.mem_singleton.mp k] at hx; exact hx))
    unfold assignCaptureQ
    rw [if_neg hab]
    refine Ends.read (load_ok hoa) (Ends.read (load_ok hob) ?_)
    refine (h n w (.functionCapture f' name q) (.functionCapture f' name' q)
      (fun y => .functionCapture f' name' (some y)) (by rw [hoa]; rfl) hq hS hp naSp (.inl (.refl m))
      (.inr (.inl ⟨a :: So, ⟨q, So, by simp [Mem.put], keep _, rfl⟩, chg _⟩))
      (fun m' u => .inr (.inr ⟨a :: So, ⟨q, So, by rw [u.2]; simp [Mem.put], by rw [u.cell]; exact keep _, rfl⟩,
        (chg _).untouched u⟩))).imp ?_ (fun _ k => k)
    rintro _ m' ⟨y, R, k₁, k₂, k₃⟩
    exact ⟨a :: R, ⟨some y, R, k₁, k₂, rfl⟩, k₃⟩

end Hext.Mem
