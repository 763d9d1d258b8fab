import Verif.Proofs.Scarce
import Verif.Spec.Scarce
/-!
# What is in a result was paid for
-/

namespace Hext.Scarce

variable {c : Costs} {rx : RxEngine} {h : Heap}

/-- What `x` returns is worth `w`, which is no more than what it took. -/
def Paid {α} (w : α → Nat) (x : A α) : Prop := ∀ n a n', x n = some (.ok (a, n')) → w a + n' ≤ n

theorem Paid.bind {α β} {w : α → Nat} {v : β → Nat} {x : A α} {f : α → A β} (h1 : Paid w x)
    (h2 : ∀ a n b n', f a n = some (.ok (b, n')) → v b + n' ≤ w a + n) : Paid v (x >>= f) := by
  intro n b n' e
  have e : (x n >>= fun q => f q.1 q.2) = some (.ok (b, n')) := e
  match hx : x n with
  | none => rw [hx] at e; exact nomatch e
  | some (.error _) => rw [hx] at e; exact nomatch e
  | some (.ok (a, m)) =>
    rw [hx] at e
    have := h1 _ _ _ hx
    have := h2 a m b n' e
    omega

/-- It takes no memory back. -/
abbrev Mono {α} (x : A α) : Prop := Paid (fun _ => 0) x

theorem Mono.bind {α β} {v : β → Nat} {x : A α} {f : α → A β} (h1 : Mono x) (h2 : ∀ a, Paid v (f a)) : Paid v (x >>= f) :=
  Paid.bind h1 fun a n b n' e => by have := h2 a n b n' e; omega

theorem Mono.pure {α} (a : α) : Mono (Pure.pure a : A α) := by
  intro n b n' e
  injection e with e; injection e with e; injection e with _ e
  dsimp only; omega

theorem Mono.request (k : Nat) : Mono (request k) := by
  intro n b n' e
  rw [Scarce.request] at e
  split at e
  · exact nomatch e
  · injection e with e; injection e with e; injection e with _ e
    dsimp only; omega

theorem Mono.lift {α} (y : E α) : Mono (liftM y : A α) := by
  intro n b n' e
  have e : (y >>= fun a => Pure.pure (a, n)) = some (.ok (b, n')) := e
  match y with
  | none => exact nomatch e
  | some (.error _) => exact nomatch e
  | some (.ok a) =>
    injection e with e; injection e with e; injection e with _ e
    dsimp only; omega

theorem transform_mono (p : Transform) (s : Str) : Mono (transform c rx p s) := Mono.bind (Mono.request _) fun _ => Mono.lift _

theorem pipe_mono : ∀ (p : Pipe) (s : Str), Mono (pipe c rx p s)
  | .last f, s => transform_mono f s
  | .cons f p, s => Mono.bind (transform_mono f s) fun s => pipe_mono p s

theorem capture_mono (node : Ptr) (f : Capture) : Mono (capture c rx h node f) := by
  cases f with
  | «attribute» a name p =>
    refine Mono.bind (Mono.lift _) fun n => ?_
    cases n.kind with
    | element e =>
      simp only
      cases getAttribute e.attrs a with
      | none => exact Mono.pure _
      | some a =>
        simp only
        cases a.value with
        | none => exact Mono.pure _
        | some s =>
          cases p with
          | none => exact Mono.bind (Mono.request _) fun _ => Mono.pure _
          | some p => exact Mono.bind (Mono.request _) fun _ => Mono.bind (pipe_mono p s) fun _ => Mono.bind (Mono.request _) fun _ => Mono.pure _
    | _ => exact Mono.pure _
  | function f name p =>
    cases f with
    | none => exact nofun
    | some f =>
      refine Mono.bind (Mono.bind (Mono.request _) fun _ => Mono.lift _) fun s => ?_
      cases p with
      | none => exact Mono.bind (Mono.request _) fun _ => Mono.pure _
      | some p => exact Mono.bind (pipe_mono p s) fun _ => Mono.bind (Mono.request _) fun _ => Mono.pure _

theorem captureLoop_mono (node : Ptr) : ∀ cs : List (Option Capture), Mono (captureLoop c rx h node cs)
  | [] => Mono.pure _
  | none :: cs => captureLoop_mono node cs
  | some f :: cs => by
    rw [captureLoop]
    refine Mono.bind (capture_mono node f) fun p => ?_
    cases p with
    | none => exact captureLoop_mono node cs
    | some p => exact Mono.bind (Mono.request _) fun _ => Mono.bind (captureLoop_mono node cs) fun _ => Mono.pure _

theorem ruleCapture_mono (node : Ptr) (cs : List (Option Capture)) : Mono (ruleCapture c rx h node cs) :=
  Mono.bind (Mono.request _) fun _ => captureLoop_mono node cs

theorem insert_worth (p : Str × Str) : ∀ m : List (Str × Str),
    ((multimapInsert p m).map c.insert).sum = c.insert p + (m.map c.insert).sum
  | [] => by simp [multimapInsert]
  | q :: m => by
    rw [multimapInsert]
    split
    · simp
    · simp only [List.map_cons, List.sum_cons, insert_worth p m]
      omega

theorem insertAll_paid : ∀ (ps m : List (Str × Str)) n m' n', insertAll c m ps n = some (.ok (m', n')) →
    (m'.map c.insert).sum + n' ≤ (m.map c.insert).sum + n
  | [], m, n, m', n', e => by
    injection e with e; injection e with e; injection e with e1 e2
    subst e1; omega
  | p :: ps, m, n, m', n', e => by
    have e : (request (c.insert p) n >>= fun q => insertAll c (multimapInsert p m) ps q.2) = some (.ok (m', n')) := e
    rw [request] at e
    split at e
    · exact nomatch e
    · have := insertAll_paid ps (multimapInsert p m) (n - c.insert p) m' n' e
      rw [insert_worth] at this
      omega

theorem groupMap_paid : ∀ (g : MatchingNodes) (m : List (Str × Str)) n m' n', groupMap c rx h g m n = some (.ok (m', n')) →
    (m'.map c.insert).sum + n' ≤ (m.map c.insert).sum + n
  | [], m, n, m', n', e => by
    injection e with e; injection e with e; injection e with e1 e2
    subst e1; omega
  | (r, p) :: g, m, n, m', n', e => by
    rw [groupMap] at e
    split at e
    · have e : ((ruleCapture c rx h p r.val.info.caps >>= fun vs => insertAll c m vs) >>= fun map => groupMap c rx h g map) n =
          some (.ok (m', n')) := by rw [bind_assoc]; exact e
      have h1 : ∀ k b k', (ruleCapture c rx h p r.val.info.caps >>= fun vs => insertAll c m vs) k = some (.ok (b, k')) →
          (b.map c.insert).sum + k' ≤ (m.map c.insert).sum + k := by
        intro k b k' e
        have e : (ruleCapture c rx h p r.val.info.caps k >>= fun q => insertAll c m q.1 q.2) = some (.ok (b, k')) := e
        match hx : ruleCapture c rx h p r.val.info.caps k with
        | none => rw [hx] at e; exact nomatch e
        | some (.error _) => rw [hx] at e; exact nomatch e
        | some (.ok (a, l)) =>
          rw [hx] at e
          have := ruleCapture_mono p _ _ _ _ hx
          have := insertAll_paid a m l b k' e
          omega
      generalize (ruleCapture c rx h p r.val.info.caps >>= fun vs => insertAll c m vs) = x at e h1
      have e : (x n >>= fun q => groupMap c rx h g q.1 q.2) = some (.ok (m', n')) := e
      match hx : x n with
      | none => rw [hx] at e; exact nomatch e
      | some (.error _) => rw [hx] at e; exact nomatch e
      | some (.ok (a, l)) =>
        rw [hx] at e
        have := h1 _ _ _ hx
        have := groupMap_paid g a l m' n' e
        omega
    · exact groupMap_paid g m n m' n' e

theorem groupsToResult_paid : ∀ (gs : List MatchingNodes) (size : Nat), Paid (entryRequests c) (groupsToResult c rx h size gs)
  | [], _ => by
    intro n a n' e
    injection e with e; injection e with e; injection e with e1 e2
    subst e1; simp [entryRequests]; omega
  | g :: gs, size => by
    rw [groupsToResult]
    refine Paid.bind (w := fun m => (m.map c.insert).sum)
      (fun n m n' e => by have := groupMap_paid g [] n m n' e; simpa using this) fun m n res n' e => ?_
    split at e
    · have := groupsToResult_paid gs size n res n' e
      omega
    · have e : (request (c.append size 1) n >>= fun q => (groupsToResult c rx h (size + 1) gs >>= fun rest => pure (m :: rest)) q.2) =
          some (.ok (res, n')) := e
      rw [request] at e
      split at e
      · exact nomatch e
      · have e : (groupsToResult c rx h (size + 1) gs (n - c.append size 1) >>= fun q => pure (m :: q.1, q.2)) =
            some (.ok (res, n')) := e
        match hx : groupsToResult c rx h (size + 1) gs (n - c.append size 1) with
        | none => rw [hx] at e; exact nomatch e
        | some (.error _) => rw [hx] at e; exact nomatch e
        | some (.ok (a, l)) =>
          rw [hx] at e
          have := groupsToResult_paid gs _ _ _ _ hx
          injection e with e; injection e with e; injection e with e1 e2
          subst e1 e2
          simp only [entryRequests, List.map_cons, List.sum_cons] at this ⊢
          omega

theorem Sim.mono {α} {y : E α} {x : A α} (hs : Sim c y x) (hy : y ≠ none) : Mono x := by
  rcases hs with h | ⟨N, _, hs⟩
  · exact absurd h hy
  intro n a n' e
  by_cases hn : N ≤ n
  · rw [(hs n).1 hn] at e
    match y with
    | none => exact nomatch e
    | some (.error _) => exact nomatch e
    | some (.ok b) =>
      injection e with e; injection e with e; injection e with _ e
      dsimp only; omega
  · by_cases hm : y = throw .maxSearch ∧ N ≤ n + c.exception
    · rw [((hs n).2 (by omega)).1 hm] at e; exact nomatch e
    · rw [((hs n).2 (by omega)).2 hm] at e; exact nomatch e

theorem extract_paid (r : Rule) (p : Ptr) (ms : UInt64) (hy : Hext.extract rx h r p ms ≠ none) :
    Paid (entryRequests c) (extract c rx h r p ms) :=
  Mono.bind ((engine_sim.1 _ _ _ ms).mono fun e => hy (by
    show (Hext.saveMatchingNodesRecursive rx h ⟨[], r⟩ p [] ms >>= _) = none
    rw [e]; rfl)) fun _ => groupsToResult_paid _ _

end Hext.Scarce
