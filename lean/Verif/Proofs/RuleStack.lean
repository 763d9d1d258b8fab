import Verif.Proofs.MemoryRule
import Verif.Model.RuleStack
import Verif.Spec.RuleSize
/-!
# Copying and destroying rules needs as many frames as the rule is deep
-/

namespace Hext.Mem.Stack

/-- With `k` frames or more `x` does what `y` does, with fewer the stack overflows. -/
def Cut {α} (k d : Nat) (x y : E α) : Prop := x = if k ≤ d then y else throw .ub

theorem cut_zero {α} (d : Nat) (x : E α) : Cut 0 d x x := by simp [Cut]

theorem Cut.eq {α} {k k' d : Nat} {x y : E α} (h : Cut k d x y) (e : k = k') : Cut k' d x y := e ▸ h

theorem cut_succ {α} {k d : Nat} {x y : E α} (h : Cut k d x y) : Cut (1 + k) (d + 1) x y := by
  unfold Cut at *
  rw [h]
  by_cases hk : k ≤ d
  · rw [if_pos hk, if_pos (by omega)]
  · rw [if_neg hk, if_neg (by omega)]

theorem cut_overflow {α} {k : Nat} (y : E α) : Cut (1 + k) 0 (throw .ub) y := by
  unfold Cut
  rw [if_neg (by omega)]

theorem cut_bind {α β} {k k' d : Nat} {x y : P α} {p q : α → P β} {m m' : Mem} {a : α} (h : Cut k d (x m) (y m))
    (e : y m = pure (a, m')) (h' : Cut k' d (p a m') (q a m')) : Cut (max k k') d ((x >>= p) m) ((y >>= q) m) := by
  unfold Cut at *
  rw [bind_ok e]
  by_cases hk : k ≤ d
  · rw [if_pos hk, e] at h
    rw [bind_ok h, h']
    by_cases hk' : k' ≤ d
    · rw [if_pos hk', if_pos (by omega)]
    · rw [if_neg hk', if_neg (by omega)]
  · rw [if_neg hk] at h
    rw [if_neg (by omega)]
    show (x m >>= fun r => p r.1 r.2) = _
    rw [h]; rfl

/-- The same where nothing follows that needs a frame. -/
theorem cut_last {α β} {k d : Nat} {x y : P α} {p : α → P β} {m m' : Mem} {a : α} (h : Cut k d (x m) (y m))
    (e : y m = pure (a, m')) : Cut k d ((x >>= p) m) ((y >>= p) m) :=
  (cut_bind h e (cut_zero d _)).eq (Nat.max_zero k)

/-- `g` destroys like `f` if there are `k` frames. -/
def CutD {α β} (R : Cells → β → α → List Addr → Prop) (g f : β → P Unit) (v : α) (k d : Nat) : Prop :=
  ∀ b S m, R m.cell b v S → S.Nodup → Cut k d (g b m) (f b m)

/-- `g` copies like `f` if there are `k` frames. -/
def CutC {α β} (R : Cells → β → α → List Addr → Prop) (g f : β → P β) (v : α) (k d : Nat) : Prop :=
  ∀ b S m, m.Wf → R m.cell b v S → Cut k d (g b m) (f b m)

variable {α β : Type} {R : Cells → Addr → α → List Addr → Prop} {Q : Cells → β → α → List Addr → Prop}

theorem cutD_ptr {v : Option α} {g f : Addr → P Unit} {k : α → Nat} {d : Nat} (h : ∀ x ∈ v, CutD R g f x (k x) d) :
    CutD (PtrR R) (onPtr g) (onPtr f) v ((v.map k).getD 0) d := by
  intro b S m hR hS
  match b, v, hR with
  | none, none, hR => exact cut_zero _ _
  | some a, some v, hR => exact h v rfl a S m hR hS

theorem cutC_ptr {v : Option α} {g f : Addr → P Addr} {k : α → Nat} {d : Nat} (h : ∀ x ∈ v, CutC R g f x (k x) d)
    (hc : ∀ x ∈ v, Copies R f x) : CutC (PtrR R) (mapPtr g) (mapPtr f) v ((v.map k).getD 0) d := by
  intro b S m w hR
  match b, v, hR with
  | none, none, hR => exact cut_zero _ _
  | some a, some v, hR =>
    obtain ⟨b', S', m', e, _⟩ := hc v rfl a S m w hR
    exact cut_last (p := fun x => pure (some x)) (h v rfl a S m w hR) e

theorem cutD_vec {vs : List α} {g f : β → P Unit} {k : α → Nat} {d : Nat} (hf : ∀ x ∈ vs, Framed Q x)
    (hd : ∀ x ∈ vs, Destroys Q f x) (h : ∀ x ∈ vs, CutD Q g f x (k x) d) :
    CutD (VecR Q) (forVec g) (forVec f) vs (deepest k vs) d := by
  induction vs with
  | nil =>
    intro b S m hR hS
    cases b with
    | nil => exact cut_zero _ _
    | cons => exact hR.elim
  | cons v vs ih =>
    intro b S m hR hS
    cases b with
    | nil => exact hR.elim
    | cons b bs =>
      obtain ⟨S₁, S₂, h₁, h₂, rfl⟩ := hR
      obtain ⟨n₁, n₂, dj⟩ := List.nodup_append.mp hS
      obtain ⟨m₁, e₁, g₁⟩ := hd v (.head _) b S₁ m h₁ n₁
      refine cut_bind (x := g b) (y := f b) (h v (.head _) b S₁ m h₁ n₁) e₁ ?_
      exact ih (fun x hx => hf x (.tail _ hx)) (fun x hx => hd x (.tail _ hx)) (fun x hx => h x (.tail _ hx)) bs S₂ m₁
        (keep_shrunk (framed_vec fun x hx => hf x (.tail v hx)) g₁ h₂ fun x hx hx' => dj x hx' x hx rfl) n₂

theorem cutC_vec {vs : List α} {g f : β → P β} {k : α → Nat} {d : Nat} (hf : ∀ x ∈ vs, Framed Q x) (ha : ∀ x ∈ vs, Alive Q x)
    (hc : ∀ x ∈ vs, Copies Q f x) (h : ∀ x ∈ vs, CutC Q g f x (k x) d) :
    CutC (VecR Q) (mapVec g) (mapVec f) vs (deepest k vs) d := by
  induction vs with
  | nil =>
    intro b S m w hR
    cases b with
    | nil => exact cut_zero _ _
    | cons => exact hR.elim
  | cons v vs ih =>
    intro b S m w hR
    cases b with
    | nil => exact hR.elim
    | cons b bs =>
      obtain ⟨S₁, S₂, h₁, h₂, rfl⟩ := hR
      obtain ⟨b', S₁', m₁, e₁, r₁, g₁⟩ := hc v (.head _) b S₁ m w h₁
      have h₂' := keep_grown (framed_vec fun x hx => hf x (.tail v hx)) (alive_vec fun x hx => ha x (.tail v hx)) w g₁ h₂
      obtain ⟨bs', S₂', m₂, e₂, r₂, g₂⟩ := copies_vec (fun x hx => hf x (.tail _ hx))
        (fun x hx => ha x (.tail _ hx)) (fun x hx => hc x (.tail _ hx)) bs S₂ m₁ g₁.wf h₂'
      refine cut_bind (x := g b) (y := f b) (p := fun b' => mapVec g bs >>= fun bs' => pure (b' :: bs'))
        (q := fun b' => mapVec f bs >>= fun bs' => pure (b' :: bs')) (h v (.head _) b S₁ m w h₁) e₁ ?_
      exact cut_last (ih (fun x hx => hf x (.tail _ hx)) (fun x hx => ha x (.tail _ hx)) (fun x hx => hc x (.tail _ hx))
        (fun x hx => h x (.tail _ hx)) bs S₂ m₁ g₁.wf h₂') e₂

/-! ## Pipes, tests, captures -/

theorem cutD_pipe : ∀ (v : Pipe) (d : Nat), CutD HoldsPipe (destroyPipe d) Mem.destroyPipe v v.depth d
  | v, 0 => fun b S m _ _ => (cut_overflow (k := v.depth - 1) _).eq (by cases v <;> simp [Pipe.depth] <;> omega)
  | .last t, d + 1 => by
    intro b S m h _
    obtain ⟨h, rfl⟩ := h
    refine cut_succ (k := 0) ?_
    rw [destroyPipe, Mem.destroyPipe, bind_ok (load_ok h), bind_ok (load_ok h)]
    exact cut_zero _ _
  | .cons t p, d + 1 => by
    intro b S m h hS
    obtain ⟨q, S', h, h', rfl⟩ := h
    obtain ⟨hb, hS⟩ := List.nodup_cons.mp hS
    obtain ⟨m₁, e₁, g₁⟩ := destroys_pipe p q S' m h' hS
    refine cut_succ (k := p.depth) ?_
    rw [destroyPipe, Mem.destroyPipe, bind_ok (load_ok h), bind_ok (load_ok h)]
    exact cut_last (x := destroyPipe d q) (y := Mem.destroyPipe q) (p := fun _ => free b) (cutD_pipe p d q S' m h' hS) e₁

theorem cutC_pipe : ∀ (v : Pipe) (d : Nat), CutC HoldsPipe (clonePipe d) Mem.clonePipe v v.depth d
  | v, 0 => fun b S m _ _ => (cut_overflow (k := v.depth - 1) _).eq (by cases v <;> simp [Pipe.depth] <;> omega)
  | .last t, d + 1 => by
    intro b S m w h
    obtain ⟨h, rfl⟩ := h
    refine cut_succ (k := 0) ?_
    rw [clonePipe, Mem.clonePipe, bind_ok (load_ok h), bind_ok (load_ok h)]
    exact cut_zero _ _
  | .cons t p, d + 1 => by
    intro b S m w h
    obtain ⟨q, S', h, h', rfl⟩ := h
    obtain ⟨q', S₁, m₁, e₁, r₁, g₁⟩ := copies_pipe p q S' m w h'
    refine cut_succ (k := p.depth) ?_
    rw [clonePipe, Mem.clonePipe, bind_ok (load_ok h), bind_ok (load_ok h)]
    refine cut_last (x := mapPtr (clonePipe d) (some q)) (y := mapPtr Mem.clonePipe (some q)) (p := fun n => alloc (.pipe t n))
      (a := some q') (m' := m₁) ?_ ?_
    · exact cut_last (p := fun x => pure (some x)) (cutC_pipe p d q S' m w h') e₁
    · show (Mem.clonePipe q >>= fun x => pure (some x)) m = _
      rw [bind_ok e₁]; rfl

theorem test_depth (v : ValueTest) : v.depth = 1 + (v.depth - 1) := by cases v <;> simp [ValueTest.depth] <;> omega

theorem cutD_test (v : ValueTest) : ∀ d : Nat, CutD HoldsTest (destroyTest d) Mem.destroyTest v v.depth d := by
  induction v with
  | negate t ih =>
    intro d b S m h hS
    cases d with
    | zero => exact cut_overflow _
    | succ d =>
      obtain ⟨q, S', h, h', rfl⟩ := h
      obtain ⟨hb, hS⟩ := List.nodup_cons.mp hS
      obtain ⟨m₁, e₁, g₁⟩ := destroys_test t q S' m h' hS
      refine cut_succ (k := t.depth) ?_
      rw [destroyTest, Mem.destroyTest, bind_ok (load_ok h), bind_ok (load_ok h)]
      exact cut_last (x := destroyTest d q) (y := Mem.destroyTest q) (p := fun _ => free b) (ih d q S' m h' hS) e₁
  | _ =>
    intro d b S m h hS
    cases d with
    | zero => exact cut_overflow (k := 0) _
    | succ d =>
      obtain ⟨h, rfl⟩ := h
      refine cut_succ (k := 0) ?_
      rw [destroyTest, Mem.destroyTest, bind_ok (load_ok h), bind_ok (load_ok h)]
      exact cut_zero _ _

theorem cutC_test (v : ValueTest) : ∀ d : Nat, CutC HoldsTest (cloneTest d) Mem.cloneTest v v.depth d := by
  induction v with
  | negate t ih =>
    intro d b S m w h
    cases d with
    | zero => exact cut_overflow _
    | succ d =>
      obtain ⟨q, S', h, h', rfl⟩ := h
      obtain ⟨q', S₁, m₁, e₁, r₁, g₁⟩ := copies_test t q S' m w h'
      refine cut_succ (k := t.depth) ?_
      rw [cloneTest, Mem.cloneTest, bind_ok (load_ok h), bind_ok (load_ok h)]
      refine cut_last (x := mapPtr (cloneTest d) (some q)) (y := mapPtr Mem.cloneTest (some q))
        (p := fun n => alloc (.negateTest n)) (a := some q') (m' := m₁) ?_ ?_
      · exact cut_last (p := fun x => pure (some x)) (ih d q S' m w h') e₁
      · show (Mem.cloneTest q >>= fun x => pure (some x)) m = _
        rw [bind_ok e₁]; rfl
  | _ =>
    intro d b S m w h
    cases d with
    | zero => exact cut_overflow (k := 0) _
    | succ d =>
      obtain ⟨h, rfl⟩ := h
      refine cut_succ (k := 0) ?_
      rw [cloneTest, Mem.cloneTest, bind_ok (load_ok h), bind_ok (load_ok h)]
      exact cut_zero _ _

theorem cutD_capture (v : Capture) (d : Nat) : CutD HoldsCapture (destroyCapture d) Mem.destroyCapture v v.depth d := by
  cases v with
  | _ =>
    intro b S m h hS
    cases d with
    | zero => exact cut_overflow _
    | succ d =>
      obtain ⟨q, S', h, h', rfl⟩ := h
      obtain ⟨hb, hS⟩ := List.nodup_cons.mp hS
      obtain ⟨m₁, e₁, g₁⟩ := destroys_ptr (fun x _ => destroys_pipe x) q S' m h' hS
      refine cut_succ ?_
      rw [destroyCapture, Mem.destroyCapture, bind_ok (load_ok h), bind_ok (load_ok h)]
      exact cut_last (x := onPtr (destroyPipe d) q) (y := onPtr Mem.destroyPipe q) (p := fun _ => free b)
        (cutD_ptr (fun x _ => cutD_pipe x d) q S' m h' hS) e₁

theorem cutC_capture (v : Capture) (d : Nat) : CutC HoldsCapture (cloneCapture d) Mem.cloneCapture v v.depth d := by
  cases v with
  | _ =>
    intro b S m w h
    cases d with
    | zero => exact cut_overflow _
    | succ d =>
      obtain ⟨q, S', h, h', rfl⟩ := h
      obtain ⟨q', S₁, m₁, e₁, r₁, g₁⟩ := copies_ptr (fun x _ => copies_pipe x) q S' m w h'
      refine cut_succ ?_
      rw [cloneCapture, Mem.cloneCapture, bind_ok (load_ok h), bind_ok (load_ok h)]
      exact cut_last (x := mapPtr (clonePipe d) q) (y := mapPtr Mem.clonePipe q) 
        (cutC_ptr (fun x _ => cutC_pipe x d) (fun x _ => copies_pipe x) q S' m w h') e₁

/-! ## Matches -/

theorem match_depthO (m : Option Match) : Match.depthO m = (m.map Match.depth).getD 0 := by cases m <;> simp [Match.depthO]

theorem match_depthL (ms : List (Option Match)) : Match.depthL ms = deepest Match.depthO ms := by
  induction ms with
  | nil => simp [Match.depthL, deepest]
  | cons m ms ih => simp [Match.depthL, deepest, ih]

theorem plain_depth {v : Match} (h : Plain v) : v.depth = 1 := by cases v <;> simp_all [Plain, Match.depth]

theorem match_depthO_fun : Match.depthO = fun m => (m.map Match.depth).getD 0 := funext match_depthO

theorem cutD_match (v : Match) : ∀ d : Nat, CutD HoldsMatch (destroyMatch d) Mem.destroyMatch v v.depth d := by
  induction v using match_cases with
  | attr n t =>
    intro d b S m h₀ hS
    rw [Match.depth]
    cases d with
    | zero => exact cut_overflow _
    | succ d =>
      obtain ⟨q, S', h, h', rfl⟩ := holds_attribute.mp h₀
      obtain ⟨hb, hS⟩ := List.nodup_cons.mp hS
      obtain ⟨m₁, e₁, g₁⟩ := destroys_ptr (fun x _ => destroys_test x) q S' m h' hS
      refine cut_succ ?_
      rw [destroyMatch, Mem.destroyMatch, bind_ok (load_ok h), bind_ok (load_ok h)]
      exact cut_last (x := onPtr (destroyTest d) q) (y := onPtr Mem.destroyTest q) (p := fun _ => free b)
        (cutD_ptr (fun x _ => cutD_test x d) q S' m h' hS) e₁
  | functionValue n t =>
    intro d b S m h₀ hS
    rw [Match.depth]
    cases d with
    | zero => exact cut_overflow _
    | succ d =>
      obtain ⟨q, S', h, h', rfl⟩ := holds_functionValue.mp h₀
      obtain ⟨hb, hS⟩ := List.nodup_cons.mp hS
      obtain ⟨m₁, e₁, g₁⟩ := destroys_ptr (fun x _ => destroys_test x) q S' m h' hS
      refine cut_succ ?_
      rw [destroyMatch, Mem.destroyMatch, bind_ok (load_ok h), bind_ok (load_ok h)]
      exact cut_last (x := onPtr (destroyTest d) q) (y := onPtr Mem.destroyTest q) (p := fun _ => free b)
        (cutD_ptr (fun x _ => cutD_test x d) q S' m h' hS) e₁
  | negate ms ih =>
    intro d b S m h₀ hS
    rw [Match.depth, match_depthL, match_depthO_fun]
    cases d with
    | zero => exact cut_overflow _
    | succ d =>
      obtain ⟨q, S', h, h', rfl⟩ := holds_negate.mp h₀
      obtain ⟨hb, hS⟩ := List.nodup_cons.mp hS
      have hf : ∀ x ∈ ms, Framed (PtrR HoldsMatch) x := fun x _ => framed_ptr fun y _ => framed_match y
      have hd : ∀ x ∈ ms, Destroys (PtrR HoldsMatch) (onPtr Mem.destroyMatch) x := fun x _ => destroys_ptr fun y _ => destroys_match y
      obtain ⟨m₁, e₁, g₁⟩ := destroys_vec hf hd q S' m h' hS
      refine cut_succ ?_
      rw [destroyMatch, Mem.destroyMatch, bind_ok (load_ok h), bind_ok (load_ok h)]
      exact cut_last (x := forVec (onPtr (destroyMatch d)) q) (y := forVec (onPtr Mem.destroyMatch) q) (p := fun _ => free b)
        (cutD_vec hf hd (fun x hx => cutD_ptr fun y hy => ih x hx y hy d) q S' m h' hS) e₁
  | plain v hm =>
    intro d b S m h₀ hS
    rw [plain_depth hm]
    cases d with
    | zero => exact cut_overflow (k := 0) _
    | succ d =>
      obtain ⟨h, rfl⟩ := (holds_plain hm).mp h₀
      refine cut_succ (k := 0) ?_
      rw [destroyMatch, Mem.destroyMatch, bind_ok (load_ok h), bind_ok (load_ok h)]
      exact cut_zero _ _

theorem cutC_match (v : Match) : ∀ d : Nat, CutC HoldsMatch (cloneMatch d) Mem.cloneMatch v v.depth d := by
  induction v using match_cases with
  | attr n t =>
    intro d b S m w h₀
    rw [Match.depth]
    cases d with
    | zero => exact cut_overflow _
    | succ d =>
      obtain ⟨q, S', h, h', rfl⟩ := holds_attribute.mp h₀
      obtain ⟨q', S₁, m₁, e₁, r₁, g₁⟩ := copies_ptr (fun x _ => copies_test x) q S' m w h'
      refine cut_succ ?_
      rw [cloneMatch, Mem.cloneMatch, bind_ok (load_ok h), bind_ok (load_ok h)]
      exact cut_last (x := mapPtr (cloneTest d) q) (y := mapPtr Mem.cloneTest q)
        (cutC_ptr (fun x _ => cutC_test x d) (fun x _ => copies_test x) q S' m w h') e₁
  | functionValue n t =>
    intro d b S m w h₀
    rw [Match.depth]
    cases d with
    | zero => exact cut_overflow _
    | succ d =>
      obtain ⟨q, S', h, h', rfl⟩ := holds_functionValue.mp h₀
      obtain ⟨q', S₁, m₁, e₁, r₁, g₁⟩ := copies_ptr (fun x _ => copies_test x) q S' m w h'
      refine cut_succ ?_
      rw [cloneMatch, Mem.cloneMatch, bind_ok (load_ok h), bind_ok (load_ok h)]
      exact cut_last (x := mapPtr (cloneTest d) q) (y := mapPtr Mem.cloneTest q)
        (cutC_ptr (fun x _ => cutC_test x d) (fun x _ => copies_test x) q S' m w h') e₁
  | negate ms ih =>
    intro d b S m w h₀
    rw [Match.depth, match_depthL, match_depthO_fun]
    cases d with
    | zero => exact cut_overflow _
    | succ d =>
      obtain ⟨q, S', h, h', rfl⟩ := holds_negate.mp h₀
      have hf : ∀ x ∈ ms, Framed (PtrR HoldsMatch) x := fun x _ => framed_ptr fun y _ => framed_match y
      have ha : ∀ x ∈ ms, Alive (PtrR HoldsMatch) x := fun x _ => alive_ptr fun y _ => alive_match y
      have hc : ∀ x ∈ ms, Copies (PtrR HoldsMatch) (mapPtr Mem.cloneMatch) x := fun x _ => copies_ptr fun y _ => copies_match y
      obtain ⟨q', S₁, m₁, e₁, r₁, g₁⟩ := copies_vec hf ha hc q S' m w h'
      refine cut_succ ?_
      rw [cloneMatch, Mem.cloneMatch, bind_ok (load_ok h), bind_ok (load_ok h)]
      exact cut_last (x := mapVec (mapPtr (cloneMatch d)) q) (y := mapVec (mapPtr Mem.cloneMatch) q)
        (cutC_vec hf ha hc (fun x hx => cutC_ptr (fun y hy => ih x hx y hy d) fun y _ => copies_match y) q S' m w h') e₁
  | plain v hm =>
    intro d b S m w h₀
    rw [plain_depth hm]
    cases d with
    | zero => exact cut_overflow (k := 0) _
    | succ d =>
      obtain ⟨h, rfl⟩ := (holds_plain hm).mp h₀
      refine cut_succ (k := 0) ?_
      rw [cloneMatch, Mem.cloneMatch, bind_ok (load_ok h), bind_ok (load_ok h)]
      exact cut_zero _ _

/-! ## Rules -/

theorem rule_depthO (r : Option Rule) : Rule.depthO r = (r.map Rule.depth).getD 0 := by cases r <;> simp [Rule.depthO]
theorem rule_depthL (rs : List Rule) : Rule.depthL rs = deepest Rule.depth rs := by
  induction rs with
  | nil => simp [Rule.depthL, deepest]
  | cons m ms ih => simp [Rule.depthL, deepest, ih]

theorem cutD_rule (r : Rule) : ∀ d : Nat, CutD HoldsRule (destroyRule d) Mem.destroyRule r r.depth d := by
  induction r using rule_induct with
  | mk i ch nx ns hc hn hns =>
    intro d b S m h hS
    rw [Rule.depth]
    cases d with
    | zero => exact cut_overflow _
    | succ d =>
      obtain ⟨o, S₁, S₂, S₃, S₄, S₅, hb, p, rfl⟩ := holds_rule.mp h
      obtain ⟨nb, nd, d₁, d₂, d₃, d₄⟩ := nodup_parts hS
      have fc : Framed (PtrR HoldsRule) ch := framed_ptr fun x _ => framed_rule x
      have fn : Framed (PtrR HoldsRule) nx := framed_ptr fun x _ => framed_rule x
      have fs : Framed (VecR HoldsRule) ns := framed_vec fun x _ => framed_rule x
      have hk : ∀ x ∈ i.caps, Framed (PtrR HoldsCapture) x := fun _ _ => framed_ptr fun y _ => framed_capture y
      have hk' : ∀ x ∈ i.caps, Destroys (PtrR HoldsCapture) (onPtr Mem.destroyCapture) x :=
        fun _ _ => destroys_ptr fun y _ => destroys_capture y
      have hm : ∀ x ∈ i.ms, Framed (PtrR HoldsMatch) x := fun _ _ => framed_ptr fun y _ => framed_match y
      have hm' : ∀ x ∈ i.ms, Destroys (PtrR HoldsMatch) (onPtr Mem.destroyMatch) x :=
        fun _ _ => destroys_ptr fun y _ => destroys_match y
      obtain ⟨m₁, e₁, g₁⟩ := destroys_vec hk hk' o.caps S₅ m p.caps nd.2.2.2.2
      have h₂ := keep_shrunk (framed_matches _) g₁ p.ms d₄
      obtain ⟨m₂, e₂, g₂⟩ := destroys_vec hm hm' o.ms S₄ m₁ h₂ nd.2.2.2.1
      have g₁₂ := g₁.trans g₂
      have h₃ := keep_shrunk fs g₁₂ p.nested fun x hx k => by
        have := d₃ x hx; simp only [List.mem_append] at k; rcases k with k | k <;> simp_all
      obtain ⟨m₃, e₃, g₃⟩ := destroys_vec (fun x _ => framed_rule x) (fun x _ => destroys_rule x) o.nested S₃ m₂ h₃ nd.2.2.1
      have g₁₃ := g₁₂.trans g₃
      have h₄ := keep_shrunk fn g₁₃ p.next fun x hx k => by
        have := d₂ x hx; simp only [List.mem_append] at k; rcases k with (k | k) | k <;> simp_all
      obtain ⟨m₄, e₄, g₄⟩ := destroys_ptr (fun x _ => destroys_rule x) o.next S₂ m₃ h₄ nd.2.1
      have g₁₄ := g₁₃.trans g₄
      have h₅ := keep_shrunk fc g₁₄ p.child fun x hx k => by
        have := d₁ x hx; simp only [List.mem_append] at k
        rcases k with ((k | k) | k) | k <;> simp_all
      obtain ⟨m₅, e₅, g₅⟩ := destroys_ptr (fun x _ => destroys_rule x) o.child S₁ m₄ h₅ nd.1
      refine cut_succ ?_
      rw [destroyRule, Mem.destroyRule, bind_ok (loadRule_ok hb), bind_ok (loadRule_ok hb)]
      have c₁ := cutD_vec hk hk' (fun x _ => cutD_ptr fun y _ => cutD_capture y d) o.caps S₅ m p.caps nd.2.2.2.2
      have c₂ := cutD_vec hm hm' (fun x _ => cutD_ptr fun y _ => cutD_match y d) o.ms S₄ m₁ h₂ nd.2.2.2.1
      have c₃ := cutD_vec (fun x _ => framed_rule x) (fun x _ => destroys_rule x) (fun x hx => hns x hx d) o.nested S₃ m₂ h₃ nd.2.2.1
      have c₄ := cutD_ptr (fun x hx => hn x hx d) o.next S₂ m₃ h₄ nd.2.1
      have c₅ := cutD_ptr (fun x hx => hc x hx d) o.child S₁ m₄ h₅ nd.1
      refine (cut_bind c₁ e₁ (cut_bind c₂ e₂ (cut_bind c₃ e₃ (cut_bind c₄ e₄ (cut_last c₅ e₅))))).eq ?_
      rw [RuleInfo.depth, rule_depthO, rule_depthO, rule_depthL, match_depthO_fun]
      omega

theorem cutC_rule (r : Rule) : ∀ d : Nat, CutC HoldsRule (copyRule d) Mem.copyRule r r.depth d := by
  induction r using rule_induct with
  | mk i ch nx ns hc hn hns =>
    intro d b S m w h
    rw [Rule.depth]
    cases d with
    | zero => exact cut_overflow _
    | succ d =>
      obtain ⟨o, S₁, S₂, S₃, S₄, S₅, hb, p, rfl⟩ := holds_rule.mp h
      have fc : Framed (PtrR HoldsRule) ch := framed_ptr fun x _ => framed_rule x
      have fn : Framed (PtrR HoldsRule) nx := framed_ptr fun x _ => framed_rule x
      have ac : Alive (PtrR HoldsRule) ch := alive_ptr fun x _ => alive_rule x
      have an : Alive (PtrR HoldsRule) nx := alive_ptr fun x _ => alive_rule x
      have hk : ∀ x ∈ i.caps, Framed (PtrR HoldsCapture) x := fun _ _ => framed_ptr fun y _ => framed_capture y
      have ak : ∀ x ∈ i.caps, Alive (PtrR HoldsCapture) x := fun _ _ => alive_ptr fun y _ => alive_capture y
      have hk' : ∀ x ∈ i.caps, Copies (PtrR HoldsCapture) (mapPtr Mem.cloneCapture) x :=
        fun _ _ => copies_ptr fun y _ => copies_capture y
      have hm : ∀ x ∈ i.ms, Framed (PtrR HoldsMatch) x := fun _ _ => framed_ptr fun y _ => framed_match y
      have am : ∀ x ∈ i.ms, Alive (PtrR HoldsMatch) x := fun _ _ => alive_ptr fun y _ => alive_match y
      have hm' : ∀ x ∈ i.ms, Copies (PtrR HoldsMatch) (mapPtr Mem.cloneMatch) x :=
        fun _ _ => copies_ptr fun y _ => copies_match y
      obtain ⟨b₃, T₃, m₁, e₁, r₁, g₁⟩ := copies_vec (fun x _ => framed_rule x) (fun x _ => alive_rule x)
        (fun x _ => copies_rule x) o.nested S₃ m w p.nested
      have h₂ := keep_grown fc ac w g₁ p.child
      obtain ⟨b₁, T₁, m₂, e₂, r₂, g₂⟩ := copies_ptr (fun x _ => copies_rule x) o.child S₁ m₁ g₁.wf h₂
      have g₁₂ := g₁.trans g₂
      have h₃ := keep_grown fn an w g₁₂ p.next
      obtain ⟨b₂, T₂, m₃, e₃, r₃, g₃⟩ := copies_ptr (fun x _ => copies_rule x) o.next S₂ m₂ g₂.wf h₃
      have g₁₃ := g₁₂.trans g₃
      have h₄ := keep_grown (framed_matches _) (alive_matches _) w g₁₃ p.ms
      obtain ⟨b₄, T₄, m₄, e₄, r₄, g₄⟩ := copies_vec hm am hm' o.ms S₄ m₃ g₃.wf h₄
      have g₁₄ := g₁₃.trans g₄
      have h₅ := keep_grown (framed_captures _) (alive_captures _) w g₁₄ p.caps
      obtain ⟨b₅, T₅, m₅, e₅, r₅, g₅⟩ := copies_vec hk ak hk' o.caps S₅ m₄ g₄.wf h₅
      refine cut_succ ?_
      rw [copyRule, Mem.copyRule, bind_ok (loadRule_ok hb), bind_ok (loadRule_ok hb)]
      have c₁ := cutC_vec (fun x _ => framed_rule x) (fun x _ => alive_rule x) (fun x _ => copies_rule x)
        (fun x hx => hns x hx d) o.nested S₃ m w p.nested
      have c₂ := cutC_ptr (fun x hx => hc x hx d) (fun x _ => copies_rule x) o.child S₁ m₁ g₁.wf h₂
      have c₃ := cutC_ptr (fun x hx => hn x hx d) (fun x _ => copies_rule x) o.next S₂ m₂ g₂.wf h₃
      have c₄ := cutC_vec hm am hm' (fun x _ => cutC_ptr (fun y _ => cutC_match y d) fun y _ => copies_match y) o.ms S₄ m₃ g₃.wf h₄
      have c₅ := cutC_vec hk ak hk' (fun x _ => cutC_ptr (fun y _ => cutC_capture y d) fun y _ => copies_capture y) o.caps S₅ m₄
        g₄.wf h₅
      refine (cut_bind c₁ e₁ (cut_bind c₂ e₂ (cut_bind c₃ e₃ (cut_bind c₄ e₄ (cut_last c₅ e₅))))).eq ?_
      rw [RuleInfo.depth, rule_depthO, rule_depthO, rule_depthL, match_depthO_fun]
      omega

end Hext.Mem.Stack
