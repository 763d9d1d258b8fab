import Verif.Model.Scarce
import Verif.Proofs.NoMax
set_option linter.unusedSimpArgs false
/-!
# When memory runs out, the engine throws or does what it does with enough memory
-/

namespace Hext.Scarce

/-- `y` does not end, or there is a number `N` of requests. If that many succeed, `x` does what `y` does. Otherwise it throws
`std::bad_alloc`, or ends the program if the requests that fail are the last ones of a `MaxSearchError`. -/
def Sim (c : Costs) {α} (y : E α) (x : A α) : Prop := y = none ∨ ∃ N, (y = throw .maxSearch → c.exception ≤ N) ∧ ∀ n,
  (N ≤ n → x n = (do let a ← y; pure (a, n - N))) ∧
  (n < N → (y = throw .maxSearch ∧ N ≤ n + c.exception → x n = throw .assertFail) ∧
    (¬ (y = throw .maxSearch ∧ N ≤ n + c.exception) → x n = throw .thrown))

/-- The same, whatever the number of searches left is. -/
def SimM (c : Costs) {α} (y : M α) (x : MS α) : Prop := ∀ s, Sim c (y s) (x s)

variable {c : Costs} {rx : RxEngine} {h : Heap}

theorem Sim.lift {α} {y : E α} (hy : NoMax y) : Sim c y (liftM y : A α) := by
  refine .inr ⟨0, fun h => absurd h hy, fun n => ⟨fun _ => rfl, fun hn => absurd hn (by omega)⟩⟩

theorem Sim.pure {α} (a : α) : Sim c (Pure.pure a) (Pure.pure a : A α) := .lift (.pure a)

theorem Sim.raise {α} {e : Err} (he : e ≠ .maxSearch) : Sim c (throw e) (throw e : A α) := .lift (.throw he)

theorem Sim.bind {α β} {y : E α} {x : A α} {f : α → E β} {g : α → A β} (h1 : Sim c y x) (h2 : ∀ a, Sim c (f a) (g a)) :
    Sim c (y >>= f) (x >>= g) := by
  rcases h1 with rfl | ⟨N, hN, h1⟩
  · exact .inl rfl
  match y with
  | none => exact .inl rfl
  | some (.error e) =>
    refine .inr ⟨N, fun h => hN (by injection h with h; injection h with h; rw [h]; rfl), fun n => ⟨fun hn => ?_, fun hn => ⟨fun h => ?_, fun h => ?_⟩⟩⟩
    · show (x n >>= _) = _
      rw [(h1 n).1 hn]; rfl
    · show (x n >>= _) = _
      rw [((h1 n).2 hn).1 ⟨by have h := h.1; injection h with h; injection h with h; rw [h]; rfl, h.2⟩]; rfl
    · show (x n >>= _) = _
      rw [((h1 n).2 hn).2 (fun h' => h ⟨by have h := h'.1; injection h with h; injection h with h; rw [h]; rfl, h'.2⟩)]; rfl
  | some (.ok a) =>
    rcases h2 a with h | ⟨N2, hN2, h2⟩
    · exact .inl h
    refine .inr ⟨N + N2, fun h => Nat.le_trans (hN2 h) (by omega), fun n => ⟨fun hn => ?_, fun hn => ?_⟩⟩
    · show (x n >>= _) = _
      rw [(h1 n).1 (by omega)]
      show g a (n - N) = (f a >>= _)
      rw [(h2 _).1 (by omega), show n - N - N2 = n - (N + N2) by omega]
    · by_cases hn1 : n < N
      · have hx : x n = (throw .thrown) := ((h1 n).2 hn1).2 (by rintro ⟨h, _⟩; exact nomatch h)
        refine ⟨fun h => ?_, fun _ => ?_⟩
        · have := hN2 h.1
          have := h.2
          omega
        · show (x n >>= _) = _
          rw [hx]; rfl
      · have hx : (x >>= g) n = g a (n - N) := by
          show (x n >>= _) = _
          rw [(h1 n).1 (by omega)]; rfl
        rw [hx]
        have h3 := (h2 (n - N)).2 (by omega)
        exact ⟨fun h => h3.1 ⟨h.1, by have := h.2; omega⟩, fun h => h3.2 (fun h' => h ⟨h'.1, by have := h'.2; omega⟩)⟩

theorem Sim.request {α} {y : E α} {x : A α} (k : Nat) (h1 : Sim c y x) : Sim c y (request k >>= fun _ => x) := by
  rcases h1 with rfl | ⟨N, hN, h1⟩
  · exact .inl rfl
  have hlt : ∀ n, n < k → (Scarce.request k >>= fun _ => x) n = throw .thrown := by
    intro n hn
    show (Scarce.request k n >>= _) = _
    rw [Scarce.request, if_pos hn]; rfl
  have hge : ∀ n, k ≤ n → (Scarce.request k >>= fun _ => x) n = x (n - k) := by
    intro n hn
    show (Scarce.request k n >>= _) = _
    rw [Scarce.request, if_neg (by omega)]; rfl
  refine .inr ⟨N + k, fun h => Nat.le_trans (hN h) (by omega), fun n => ⟨fun hn => ?_, fun hn => ?_⟩⟩
  · rw [hge n (by omega), (h1 _).1 (by omega), show n - k - N = n - (N + k) by omega]
  · by_cases hk : n < k
    · rw [hlt n hk]
      refine ⟨fun h => ?_, fun _ => rfl⟩
      have := hN h.1
      have := h.2
      omega
    · rw [hge n (by omega)]
      have h3 := (h1 (n - k)).2 (by omega)
      exact ⟨fun h => h3.1 ⟨h.1, by have := h.2; omega⟩, fun h => h3.2 (fun h' => h ⟨h'.1, by have := h'.2; omega⟩)⟩

theorem Sim.ite {α} {p : Prop} [Decidable p] {y y' : E α} {x x' : A α} (h1 : Sim c y x) (h2 : Sim c y' x') :
    Sim c (if p then y else y') (if p then x else x') := by split <;> assumption

theorem Sim.maxSearchError : Sim c (throw .maxSearch) (maxSearchError c) := by
  refine .inr ⟨c.message + c.exception, fun _ => by omega, fun n => ⟨fun hn => ?_, fun hn => ⟨fun h => ?_, fun h => ?_⟩⟩⟩
  all_goals show (Scarce.request c.message n >>= _) = _
  · rw [Scarce.request, if_neg (by omega)]
    show (requestNoexcept c.exception _ >>= _) = _
    rw [requestNoexcept, if_neg (by omega)]; rfl
  · have := h.2
    rw [Scarce.request, if_neg (by omega)]
    show (requestNoexcept c.exception _ >>= _) = _
    rw [requestNoexcept, if_pos (by omega)]; rfl
  · rw [Scarce.request, if_pos (by
      by_cases h' : c.message + c.exception ≤ n + c.exception
      · exact absurd ⟨rfl, h'⟩ h
      · omega)]
    rfl

theorem SimM.pure {α} (a : α) : SimM c (Pure.pure a) (Pure.pure a : MS α) := fun _ => .pure _

theorem SimM.raise {α} {e : Err} (he : e ≠ .maxSearch) : SimM c (throw e) (throw e : MS α) := fun _ => .raise he

theorem SimM.get : SimM c (MonadState.get) (MonadState.get : MS UInt64) := fun _ => .pure _

theorem SimM.set (s : UInt64) : SimM c (MonadStateOf.set s) (MonadStateOf.set s : MS PUnit) := fun _ => .pure _

theorem SimM.bind {α β} {y : M α} {x : MS α} {f : α → M β} {g : α → MS β} (h1 : SimM c y x) (h2 : ∀ a, SimM c (f a) (g a)) :
    SimM c (y >>= f) (x >>= g) := fun s => Sim.bind (h1 s) fun a => h2 a.1 a.2

theorem SimM.ite {α} {p : Prop} [Decidable p] {y y' : M α} {x x' : MS α} (h1 : SimM c y x) (h2 : SimM c y' x') :
    SimM c (if p then y else y') (if p then x else x') := by split <;> assumption

theorem SimM.liftA {α} {y : E α} {x : A α} (h1 : Sim c y x) : SimM c (liftM y : M α) (liftM x : MS α) := fun _ =>
  Sim.bind h1 fun _ => .pure _

theorem SimM.lift {α} {y : E α} (hy : NoMax y) : SimM c (liftM y : M α) (liftM y : MS α) := fun _ =>
  Sim.bind (Sim.lift hy) fun _ => .pure _

theorem SimM.request {α} {y : M α} {x : MS α} (k : Nat) (h1 : SimM c y x) :
    SimM c y ((liftM (Scarce.request k) : MS Unit) >>= fun _ => x) := fun s => by
  have : ((liftM (Scarce.request k) : MS Unit) >>= fun _ => x) s = (Scarce.request k >>= fun _ => x s) := by
    funext n
    show ((Scarce.request k n >>= _) >>= _) = (Scarce.request k n >>= _)
    rw [Scarce.request]
    split <;> rfl
  rw [this]
  exact Sim.request k (h1 s)

theorem test_sim : ∀ (v : ValueTest) (s : Option Str), Sim c (v.test rx s) (test c rx v s)
  | .negate v, s => Sim.bind (test_sim v s) fun _ => .pure _
  | .regex _, s | .beginsWith _, s | .contains _, s | .containsWords _, s | .endsWith _, s | .equals _, s | .negateNull, s =>
    .request _ (.lift (.test _ s))

theorem transform_sim (p : Transform) (s : Str) : Sim c (p.transform rx s) (transform c rx p s) :=
  .request _ (.lift (.transform p s))

theorem pipe_sim : ∀ (p : Pipe) (s : Str), Sim c (p.pipe rx s) (pipe c rx p s)
  | .last f, s => transform_sim f s
  | .cons f p, s => Sim.bind (transform_sim f s) fun s => pipe_sim p s

theorem call_sim (node : Ptr) (f : CaptureFn) : Sim c (f.call h node) (call c h node f) := .request _ (.lift (.call node f))

theorem attributeMatches_sim (name : Str) (v : Option ValueTest) (node : Ptr) :
    Sim c (Hext.attributeMatches rx h name v node) (attributeMatches c rx h name v node) := by
  refine Sim.bind (.lift (.load _)) fun n => ?_
  cases hk : n.kind with
  | element e =>
    cases v with
    | none => exact .pure _
    | some v =>
      cases ha : getAttribute e.attrs name with
      | none => simp only [ha]; exact test_sim v none
      | some a =>
        cases hv : a.value with
        | none => simp only [ha, hv]; exact .pure _
        | some s => simp only [ha, hv]; exact test_sim v _
  | _ => exact .pure _

theorem typeRegexMatches_sim (r : Regex) (node : Ptr) :
    Sim c (Hext.typeRegexMatches rx h r node) (typeRegexMatches c rx h r node) := by
  refine Sim.bind (.lift (.load _)) fun n => ?_
  cases hk : n.kind with
  | element e =>
    simp only
    cases ht : e.tag <;> exact .request _ (.pure _)
  | _ => exact .request _ (.pure _)

theorem plain_sim {m : Match} {node : Ptr} (hm : NoMax (m.matches rx h node)) :
    Sim c (m.matches rx h node) (liftM (m.matches rx h node) : A Bool) := .lift hm

mutual
theorem matches_sim (node : Ptr) : ∀ m : Match, Sim c (m.matches rx h node) (matches_ c rx h node m)
  | .attribute name v => attributeMatches_sim name v node
  | .function none => .raise (by decide)
  | .function (some f) => .request _ (.pure _)
  | .functionValue none _ => .raise (by decide)
  | .functionValue (some f) none => .pure _
  | .functionValue (some f) (some v) => Sim.bind (call_sim node f) fun s => test_sim v _
  | .negate ms => by
    rw [Match.matches, matches_]
    exact negateLoop_sim node ms
  | .typeRegex r => typeRegexMatches_sim r node
  | .attributeCount k => plain_sim (by rw [Match.matches]; nomax [NoMax.load])
  | .childCount k => plain_sim (by rw [Match.matches]; nomax [NoMax.load, NoMax.countChildElements])
  | .nthChild s t b d => plain_sim (by rw [Match.matches]; exact .nthChild _ _ _ _ _)
  | .onlyChild b => plain_sim (by rw [Match.matches]; exact .onlyChild _ _)
theorem negateLoop_sim (node : Ptr) : ∀ ms : List (Option Match), Sim c (Hext.negateLoop rx h node ms) (negateLoop c rx h node ms)
  | [] => .pure _
  | m :: ms => by
    rw [Hext.negateLoop, negateLoop]
    exact Sim.bind (optMatches_sim node m) fun b => .ite (.pure _) (negateLoop_sim node ms)
theorem optMatches_sim (node : Ptr) : ∀ m : Option Match, Sim c (Hext.optMatches rx h node m) (optMatches c rx h node m)
  | none => .pure _
  | some m => by
    rw [Hext.optMatches, optMatches]
    exact matches_sim node m
end

theorem capture_sim (node : Ptr) (f : Capture) : Sim c (f.capture rx h node) (capture c rx h node f) := by
  cases f with
  | «attribute» a name p =>
    refine Sim.bind (.lift (.load _)) fun n => ?_
    cases hk : n.kind with
    | element e =>
      simp only
      cases getAttribute e.attrs a with
      | none => exact .pure _
      | some a =>
        simp only
        cases a.value with
        | none => exact .pure _
        | some s =>
          cases p with
          | none => exact .request _ (.pure _)
          | some p => exact .request _ (Sim.bind (pipe_sim p s) fun _ => .request _ (.pure _))
    | _ => exact .pure _
  | function f name p =>
    cases f with
    | none => exact .raise (by decide)
    | some f =>
      refine Sim.bind (call_sim node f) fun s => ?_
      cases p with
      | none => exact .request _ (.pure _)
      | some p => exact Sim.bind (pipe_sim p s) fun _ => .request _ (.pure _)

theorem allMatch_sim (node : Ptr) : ∀ ms : List (Option Match), Sim c (Hext.allMatch rx h node ms) (allMatch c rx h node ms)
  | [] => .pure _
  | none :: ms => allMatch_sim node ms
  | some m :: ms => by
    rw [Hext.allMatch, allMatch]
    simp only [bind_assoc, pure_bind]
    exact Sim.bind (matches_sim node m) fun b => .ite (.pure _) (allMatch_sim node ms)

theorem ruleMatches_sim (info : RuleInfo) (node : Ptr) : Sim c (Hext.ruleMatches rx h info node) (ruleMatches c rx h info node) :=
  Sim.bind (.lift (.load _)) fun _ => .ite (.pure _) (allMatch_sim node _)

theorem captureLoop_sim (node : Ptr) : ∀ cs : List (Option Capture), Sim c (Hext.ruleCapture rx h node cs) (captureLoop c rx h node cs)
  | [] => .pure _
  | none :: cs => captureLoop_sim node cs
  | some f :: cs => by
    rw [Hext.ruleCapture, captureLoop]
    refine Sim.bind (capture_sim node f) fun p => ?_
    cases p with
    | none =>
      simp only [bind_pure]
      exact captureLoop_sim node cs
    | some p => exact .request _ (Sim.bind (captureLoop_sim node cs) fun _ => .pure _)

theorem ruleCapture_sim (node : Ptr) (cs : List (Option Capture)) : Sim c (Hext.ruleCapture rx h node cs) (ruleCapture c rx h node cs) :=
  .request _ (captureLoop_sim node cs)

open Lean.Order in
theorem adm0 {β} (x : MS β) : admissible (fun y : M β => SimM c y x) := by
  refine admissible_pi_apply (fun s (y : E (β × UInt64)) => Sim c y (x s)) fun s => ?_
  exact admissible_flatOrder (α := Option (Except Err (β × UInt64))) (b := none) (fun y => Sim c y (x s)) (Or.inl rfl)

open Lean.Order in
theorem adm {A : Type} {B : Type} [CCPO B] {R : A → B → Prop} (hR : ∀ a, admissible (R a)) :
    admissible (fun f : A → B => ∀ a, R a (f a)) := admissible_pi_apply R hR

set_option synthInstance.maxHeartbeats 200000 in
set_option synthInstance.maxSize 1000 in
/-- The induction over the steps of the engine. -/
theorem engine_sim :
    (∀ r n res, SimM c (Hext.saveMatchingNodesRecursive rx h r n res) (saveMatchingNodesRecursive c rx h r n res)) ∧
    (∀ r n res, SimM c (Hext.saveDescend rx h r n res) (saveDescend c rx h r n res)) ∧
    (∀ r n res, SimM c (Hext.saveLoop rx h r n res) (saveLoop c rx h r n res)) ∧
    (∀ r n res, SimM c (Hext.matchRuleGroup rx h r n res) (matchRuleGroup c rx h r n res)) ∧
    (∀ f r n sub res, SimM c (Hext.groupLoop rx h f r n sub res) (groupLoop c rx h f r n sub res)) ∧
    (∀ a b nb d res, SimM c (Hext.matchRange rx h a b nb d res) (matchRange c rx h a b nb d res)) ∧
    (∀ a b nb d e res, SimM c (Hext.rangeLoop rx h a b nb d e res) (rangeLoop c rx h a b nb d e res)) ∧
    (∀ r a b res, SimM c (Hext.matchRuleOnce rx h r a b res) (matchRuleOnce c rx h r a b res)) ∧
    (∀ r n res, SimM c (Hext.ruleMatchesNodeRecursive rx h r n res) (ruleMatchesNodeRecursive c rx h r n res)) ∧
    (∀ ch n m res, SimM c (Hext.childLoop rx h ch n m res) (childLoop c rx h ch n m res)) ∧
    (∀ ns n res, SimM c (Hext.nestedLoop rx h ns n res) (nestedLoop c rx h ns n res)) := by
  apply Hext.saveMatchingNodesRecursive.mutual_fixpoint_induct rx h
    (fun F => ∀ r n res, SimM c (F r n res) (saveMatchingNodesRecursive c rx h r n res))
    (fun F => ∀ r n res, SimM c (F r n res) (saveDescend c rx h r n res))
    (fun F => ∀ r n res, SimM c (F r n res) (saveLoop c rx h r n res))
    (fun F => ∀ r n res, SimM c (F r n res) (matchRuleGroup c rx h r n res))
    (fun F => ∀ f r n sub res, SimM c (F f r n sub res) (groupLoop c rx h f r n sub res))
    (fun F => ∀ a b nb d res, SimM c (F a b nb d res) (matchRange c rx h a b nb d res))
    (fun F => ∀ a b nb d e res, SimM c (F a b nb d e res) (rangeLoop c rx h a b nb d e res))
    (fun F => ∀ r a b res, SimM c (F r a b res) (matchRuleOnce c rx h r a b res))
    (fun F => ∀ r n res, SimM c (F r n res) (ruleMatchesNodeRecursive c rx h r n res))
    (fun F => ∀ ch n m res, SimM c (F ch n m res) (childLoop c rx h ch n m res))
    (fun F => ∀ ns n res, SimM c (F ns n res) (nestedLoop c rx h ns n res))
  case _ => exact adm fun _ => adm fun _ => adm fun _ => adm0 _
  case _ => exact adm fun _ => adm fun _ => adm fun _ => adm0 _
  case _ => exact adm fun _ => adm fun _ => adm fun _ => adm0 _
  case _ => exact adm fun _ => adm fun _ => adm fun _ => adm0 _
  case _ => exact adm fun _ => adm fun _ => adm fun _ => adm fun _ => adm fun _ => adm0 _
  case _ => exact adm fun _ => adm fun _ => adm fun _ => adm fun _ => adm fun _ => adm0 _
  case _ => exact adm fun _ => adm fun _ => adm fun _ => adm fun _ => adm fun _ => adm fun _ => adm0 _
  case _ => exact adm fun _ => adm fun _ => adm fun _ => adm fun _ => adm0 _
  case _ => exact adm fun _ => adm fun _ => adm fun _ => adm0 _
  case _ => exact adm fun _ => adm fun _ => adm fun _ => adm fun _ => adm0 _
  case _ => exact adm fun _ => adm fun _ => adm fun _ => adm0 _
  case _ =>
    intro D L hD hL r n res
    rw [saveMatchingNodesRecursive.eq_def]
    refine SimM.bind .get fun ms => ?_
    have jp : ∀ _ : Unit, SimM c (do let result ← L r (some n) res; D r n result)
        (do let result ← saveLoop c rx h r (some n) res; saveDescend c rx h r n result) :=
      fun _ => SimM.bind (hL _ _ _) fun _ => hD _ _ _
    refine .ite (SimM.bind (.set _) fun _ => .ite ?_ (jp ⟨⟩)) (jp ⟨⟩)
    exact SimM.bind (SimM.liftA Sim.maxSearchError) fun _ => jp ⟨⟩
  case _ =>
    intro S D hS hD r n res
    rw [saveDescend.eq_def]
    refine SimM.bind (.lift (.load _)) fun nd => ?_
    have jp : ∀ res, SimM c (do
          match ← (liftM (nextNode h (some n)) : M _) with
          | none => pure res
          | some nx => D r nx res) (do
          match ← (liftM (nextNode h (some n)) : MS _) with
          | none => pure res
          | some nx => saveDescend c rx h r nx res) := by
      intro res
      refine SimM.bind (.lift (.nextNode _)) fun o => ?_
      cases o with
      | none => exact .pure _
      | some x => exact hD _ _ _
    exact .ite (SimM.bind (.lift (.getAt _ _)) fun c => SimM.bind (hS _ _ _) fun res => jp res) (SimM.bind (.pure _) fun res => jp res)
  case _ =>
    intro L G hL hG r n res
    rw [saveLoop.eq_def]
    cases n with
    | none => exact .pure _
    | some n =>
      refine SimM.bind (hG _ _ _) fun p => ?_
      obtain ⟨nx, sub⟩ := p
      by_cases hs : sub.length > 0
      · simp only [hs, if_true]
        exact .request _ (hL _ _ _)
      · simp only [hs, if_false]
        exact hL _ _ _
  case _ =>
    intro G hG r n res
    rw [matchRuleGroup.eq_def]
    cases r <;> cases n <;> first | exact .pure _ | exact hG _ _ _ _ _
  case _ =>
    intro G R O hG hR hO f r n sub res
    have fin : ∀ r : Option RulePtr, ∀ n : Option Ptr, SimM c (do
          let rule := match r with
            | some r => if r.val.isGreedy && backIs sub r then r.next else some r
            | none => none
          let rule ← (liftM (skipOptional rule) : M _)
          match rule with
          | none => pure (n, res ++ sub)
          | some _ => pure (none, res)) (do
          let rule := match r with
            | some r => if r.val.isGreedy && backIs sub r then r.next else some r
            | none => none
          let rule ← (liftM (skipOptional rule) : MS _)
          match rule with
          | none => do
            request (c.append res.length sub.length)
            pure (n, res ++ sub)
          | some _ => pure (none, res)) := by
      intro r n
      refine SimM.bind (.lift (.skipOptional _)) fun o => ?_
      cases o with
      | none => exact .request _ (.pure _)
      | some x => exact .pure _
    rw [groupLoop.eq_def]
    cases r with
    | none => cases n <;> exact fin none _
    | some r =>
      cases n with
      | none => exact fin (some r) none
      | some n =>
        refine .ite ?_ ?_
        · refine SimM.bind (.lift (.findMandatoryRule _ _)) fun stop1 => ?_
          cases stop1 with
          | some sr =>
            refine SimM.bind (hO _ _ _ _) fun p => ?_
            obtain ⟨sn, sub⟩ := p
            cases sn with
            | none => exact .pure _
            | some sn =>
              exact SimM.bind (hR _ _ _ _ _) fun p => .request _ (SimM.bind (.lift (.nextNode _)) fun nx => hG _ _ _ _ _)
          | none =>
            refine SimM.bind (.lift (.findMandatoryRule _ _)) fun stop2 => ?_
            refine .ite ?_ ?_
            · refine SimM.bind (hR _ _ _ _ _) fun p => ?_
              obtain ⟨nd, sub⟩ := p
              refine .request _ ?_
              cases nd with
              | none => exact .pure _
              | some q => exact SimM.bind (.lift (.nextNode _)) fun _ => .pure _
            · cases stop2 with
              | none => exact .raise (by decide)
              | some sr => exact SimM.bind (hO _ _ _ _) fun p => SimM.bind (hR _ _ _ _ _) fun q => .request _ (.pure _)
        · refine SimM.bind (hO _ _ _ _) fun p => ?_
          obtain ⟨nd, sub⟩ := p
          cases nd with
          | none => exact .pure _
          | some q => exact .request _ (SimM.bind (.lift (.nextNode _)) fun nx => hG _ _ _ _ _)
  case _ =>
    intro L hL a b nb d res
    rw [matchRange.eq_def]
    exact hL _ _ _ _ _ _
  case _ =>
    intro L O hL hO a b nb d e res
    rw [rangeLoop.eq_def]
    cases a with
    | none => exact .pure _
    | some r =>
      refine .ite (.pure _) (SimM.bind (hO _ _ _ _) fun p => ?_)
      obtain ⟨mn, res⟩ := p
      cases mn with
      | none => exact hL _ _ _ _ _ _
      | some q => exact .ite (.request _ (SimM.bind (.lift (.nextNode _)) fun nx => hL _ _ _ _ _ _)) (hL _ _ _ _ _ _)
  case _ =>
    intro O N hO hN r a b res
    rw [matchRuleOnce.eq_def]
    cases a with
    | none => exact .pure _
    | some a =>
      exact .ite (.pure _) (SimM.bind (hN _ _ _) fun p => .ite (.pure _) (SimM.bind (.lift (.nextNode _)) fun nx => hO _ _ _ _))
  case _ =>
    intro C N hC hN r n res
    rw [ruleMatchesNodeRecursive.eq_def]
    refine SimM.bind (.liftA (ruleMatches_sim _ _)) fun b => .ite (.pure _) (.ite (.pure _) (SimM.bind (.lift (.load _)) fun nd =>
      .ite (.pure _) (SimM.bind (.lift (.getAt _ _)) fun fc => ?_)))
    have jp : ∀ p : Bool × MatchingNodes, SimM c (if (!p.1) = true then pure (false, res) else do
          match ← N r.nested fc p.2 with
          | none => pure (false, res)
          | some sub => pure (true, res ++ sub)) (if (!p.1) = true then pure (false, res) else do
          match ← nestedLoop c rx h r.nested fc p.2 with
          | none => pure (false, res)
          | some sub => do
            request (c.append res.length sub.length)
            pure (true, res ++ sub)) :=
      fun p => .ite (.pure _) (SimM.bind (hN _ _ _) fun o => by
        cases o with
        | none => exact .pure _
        | some sub => exact .request _ (.pure _))
    cases hc : r.child with
    | none => exact SimM.bind (.pure _) jp
    | some c' => exact SimM.bind (hC _ _ _ _) jp
  case _ =>
    intro G C hG hC ch n m res
    rw [childLoop.eq_def]
    refine SimM.bind (hG _ _ _) fun p => SimM.bind (.lift (.findMandatoryRule _ _)) fun md => ?_
    obtain ⟨nx, sub⟩ := p
    have jp : ∀ (m' : Bool) (res' : MatchingNodes), SimM c
        (match nx with
          | none => pure (m', res')
          | some n => C ch n m' res')
        (match nx with
          | none => pure (m', res')
          | some n => childLoop c rx h ch n m' res') := by
      intro m' res'
      cases nx with
      | none => exact .pure _
      | some nx => exact hC _ _ _ _
    by_cases hs : sub.length > 0
    · simp only [hs, if_true]
      exact .request _ (jp _ _)
    · simp only [hs, if_false]
      exact jp _ _
  case _ =>
    intro S N hS hN ns n res
    rw [nestedLoop.eq_def]
    cases ns with
    | nil => exact .pure _
    | cons r rs =>
      exact SimM.bind (hS _ _ _) fun mn => SimM.bind (.lift (.findMandatoryRule _ _)) fun md =>
        .ite (.pure _) (.request _ (hN _ _ _))

theorem insertAll_sim : ∀ (ps m : List (Str × Str)), Sim c (pure (ps.foldl (fun m p => multimapInsert p m) m)) (insertAll c m ps)
  | [], _ => .pure _
  | _ :: ps, _ => .request _ (insertAll_sim ps _)

theorem groupMap_sim : ∀ (g : MatchingNodes) (m : List (Str × Str)), Sim c (Hext.groupMap rx h g m) (groupMap c rx h g m)
  | [], m => .pure _
  | (r, n) :: g, m => by
    rw [Hext.groupMap, groupMap]
    exact Sim.ite (Sim.bind (ruleCapture_sim n _) fun vs => Sim.bind (insertAll_sim _ _) fun m => groupMap_sim g m)
      (Sim.bind (.pure _) fun m => groupMap_sim g m)

theorem groupsToResult_sim : ∀ (gs : List MatchingNodes) (size : Nat),
    Sim c (Hext.groupsToResult rx h gs) (groupsToResult c rx h size gs)
  | [], _ => .pure _
  | g :: gs, size => by
    rw [Hext.groupsToResult, groupsToResult]
    refine Sim.bind (groupMap_sim g []) fun m => ?_
    cases hm : m.isEmpty with
    | true =>
      simp only [if_true, bind_pure]
      exact groupsToResult_sim gs size
    | false => exact .request _ (Sim.bind (groupsToResult_sim gs _) fun _ => .pure _)

/-- Extraction with little memory. -/
theorem extract_sim (r : Rule) (n : Ptr) (ms : UInt64) : Sim c (Hext.extract rx h r n ms) (extract c rx h r n ms) :=
  Sim.bind (engine_sim.1 _ _ _ ms) fun p => groupsToResult_sim p.1 0

end Hext.Scarce
