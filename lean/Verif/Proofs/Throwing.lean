import Verif.Spec.Throwing
set_option linter.unusedSimpArgs false
/-!
# With functions that throw, the engine throws or does what it does without
-/

namespace Hext.Throwing

/-- `y` does not end, or `x` throws, or both are the same. -/
def Rel (t : Throws) {α} (y x : E α) : Prop := y = none ∨ (x = throw .thrown ∧ t.Any) ∨ x = y

/-- The same, whatever the number of searches left is. -/
def RelM (t : Throws) {α} (y x : M α) : Prop := ∀ s, Rel t (y s) (x s)

variable {t : Throws} {rx : RxEngine} {h : Heap}

theorem Rel.refl {α} (x : E α) : Rel t x x := .inr (.inr rfl)

theorem Rel.bind {α β} {y x : E α} {f g : α → E β} (h1 : Rel t y x) (h2 : ∀ a, Rel t (f a) (g a)) :
    Rel t (y >>= f) (x >>= g) := by
  rcases h1 with rfl | ⟨rfl, ha⟩ | rfl
  · exact .inl rfl
  · exact .inr (.inl ⟨rfl, ha⟩)
  · match x with
    | none => exact .inl rfl
    | some (.error e) => exact .inr (.inr rfl)
    | some (.ok a) => exact h2 a

theorem Rel.ite {α} {c : Prop} [Decidable c] {y x y' x' : E α} (h1 : Rel t y x) (h2 : Rel t y' x') :
    Rel t (if c then y else y') (if c then x else x') := by split <;> assumption

theorem Rel.answer {α} {b : Bool} (a : α) (hb : b = true → t.Any) : Rel t (pure a) (answer b a) := by
  cases b
  · exact .refl _
  · exact .inr (.inl ⟨rfl, hb rfl⟩)

theorem RelM.refl {α} (x : M α) : RelM t x x := fun _ => .refl _

theorem RelM.bind {α β} {y x : M α} {f g : α → M β} (h1 : RelM t y x) (h2 : ∀ a, RelM t (f a) (g a)) :
    RelM t (y >>= f) (x >>= g) := fun s => Rel.bind (h1 s) fun a => h2 a.1 a.2

theorem RelM.ite {α} {c : Prop} [Decidable c] {y x y' x' : M α} (h1 : RelM t y x) (h2 : RelM t y' x') :
    RelM t (if c then y else y') (if c then x else x') := by split <;> assumption

theorem RelM.lift {α} {y x : E α} (h1 : Rel t y x) : RelM t (liftM y : M α) (liftM x) := fun _ =>
  Rel.bind h1 fun _ => .refl _

theorem test_rel : ∀ (v : ValueTest) (s : Option Str), Rel t (v.test rx s) (test t rx v s)
  | .regex r, some s => .answer _ fun hs => .inl ⟨_, _, hs⟩
  | .negate v, s => Rel.bind (test_rel v s) fun _ => .refl _
  | .regex _, none => .refl _
  | .beginsWith _, s => by cases s <;> exact .refl _
  | .contains _, s => by cases s <;> exact .refl _
  | .containsWords _, s => by cases s <;> exact .refl _
  | .endsWith _, s => by cases s <;> exact .refl _
  | .equals _, s => by cases s <;> exact .refl _
  | .negateNull, s => by cases s <;> exact .refl _

theorem transform_rel (p : Transform) (s : Str) : Rel t (p.transform rx s) (transform t rx p s) := by
  cases p with
  | regex r =>
    have h1 : Rel t (pure (rx.search r (cstr s))) (answer (t.search r (cstr s)) (rx.search r (cstr s))) :=
      .answer _ fun hs => .inl ⟨_, _, hs⟩
    rw [transform]
    refine Rel.bind (f := fun a => match a with
      | some mr => if mr.length > 1 then pure (mr.getD 1 []) else pure (mr.getD 0 [])
      | none => pure []) h1 fun a => ?_
    cases a <;> exact .refl _
  | regexReplace r f => exact .answer _ fun hs => .inr (.inl ⟨_, _, _, hs⟩)
  | _ => exact .refl _

theorem pipe_rel : ∀ (p : Pipe) (s : Str), Rel t (p.pipe rx s) (pipe t rx p s)
  | .last f, s => transform_rel f s
  | .cons f p, s => Rel.bind (transform_rel f s) fun s => pipe_rel p s

theorem call_rel (node : Ptr) (f : CaptureFn) : Rel t (f.call h node) (call t h node f) := by
  cases f with
  | user f => exact .answer _ fun hs => .inr (.inr (.inr ⟨_, _, _, hs⟩))
  | _ => exact .refl _

theorem attributeMatches_rel (name : Str) (v : Option ValueTest) (node : Ptr) :
    Rel t (Hext.attributeMatches rx h name v node) (attributeMatches t rx h name v node) := by
  refine Rel.bind (.refl _) fun n => ?_
  cases hk : n.kind with
  | element e =>
    cases v with
    | none => exact .refl _
    | some v =>
      cases ha : getAttribute e.attrs name with
      | none => simp only [ha]; exact test_rel v none
      | some a =>
        cases hv : a.value with
        | none => simp only [ha, hv]; exact .refl _
        | some s => simp only [ha, hv]; exact test_rel v _
  | _ => exact .refl _

theorem typeRegexMatches_rel (r : Regex) (node : Ptr) :
    Rel t (Hext.typeRegexMatches rx h r node) (typeRegexMatches t rx h r node) := by
  refine Rel.bind (.refl _) fun n => ?_
  cases hk : n.kind with
  | element e =>
    simp only
    cases ht : e.tag <;> exact .answer _ fun hs => .inl ⟨_, _, hs⟩
  | _ => exact .answer _ fun hs => .inl ⟨_, _, hs⟩

mutual
theorem matches_rel (node : Ptr) : ∀ m : Match, Rel t (m.matches rx h node) (matches_ t rx h node m)
  | .attribute name v => attributeMatches_rel name v node
  | .function none => .refl _
  | .function (some f) => .answer _ fun hs => .inr (.inr (.inl ⟨_, _, _, hs⟩))
  | .functionValue none _ => .refl _
  | .functionValue (some f) none => .refl _
  | .functionValue (some f) (some v) => Rel.bind (call_rel node f) fun s => test_rel v _
  | .negate ms => by
    rw [Match.matches, matches_]
    exact negateLoop_rel node ms
  | .typeRegex r => typeRegexMatches_rel r node
  | .attributeCount k => .refl _
  | .childCount k => .refl _
  | .nthChild a b c d => .refl _
  | .onlyChild b => .refl _
theorem negateLoop_rel (node : Ptr) : ∀ ms : List (Option Match), Rel t (Hext.negateLoop rx h node ms) (negateLoop t rx h node ms)
  | [] => .refl _
  | m :: ms => by
    rw [Hext.negateLoop, negateLoop]
    exact Rel.bind (optMatches_rel node m) fun b => .ite (.refl _) (negateLoop_rel node ms)
theorem optMatches_rel (node : Ptr) : ∀ m : Option Match, Rel t (Hext.optMatches rx h node m) (optMatches t rx h node m)
  | none => .refl _
  | some m => by
    rw [Hext.optMatches, optMatches]
    exact matches_rel node m
end

theorem applyPipe_rel (p : Option Pipe) (s : Str) : Rel t (Hext.applyPipe rx p s) (applyPipe t rx p s) := by
  cases p with
  | none => exact .refl _
  | some p => exact pipe_rel p s

theorem capture_rel (node : Ptr) (c : Capture) : Rel t (c.capture rx h node) (capture t rx h node c) := by
  cases c with
  | «attribute» a name p =>
    refine Rel.bind (.refl _) fun n => ?_
    cases hk : n.kind with
    | element e =>
      simp only
      cases getAttribute e.attrs a with
      | none => exact .refl _
      | some a =>
        simp only
        cases a.value with
        | none => exact .refl _
        | some s => exact Rel.bind (applyPipe_rel p s) fun _ => .refl _
    | _ => exact .refl _
  | function f name p =>
    cases f with
    | none => exact .refl _
    | some f => exact Rel.bind (call_rel node f) fun s => Rel.bind (applyPipe_rel p s) fun _ => .refl _

theorem allMatch_rel (node : Ptr) : ∀ ms : List (Option Match), Rel t (Hext.allMatch rx h node ms) (allMatch t rx h node ms)
  | [] => .refl _
  | none :: ms => allMatch_rel node ms
  | some m :: ms => by
    rw [Hext.allMatch, allMatch]
    simp only [bind_assoc, pure_bind]
    exact Rel.bind (matches_rel node m) fun b => .ite (.refl _) (allMatch_rel node ms)

theorem ruleMatches_rel (info : RuleInfo) (node : Ptr) : Rel t (Hext.ruleMatches rx h info node) (ruleMatches t rx h info node) :=
  Rel.bind (.refl _) fun _ => .ite (.refl _) (allMatch_rel node _)

theorem ruleCapture_rel (node : Ptr) : ∀ cs : List (Option Capture), Rel t (Hext.ruleCapture rx h node cs) (ruleCapture t rx h node cs)
  | [] => .refl _
  | none :: cs => ruleCapture_rel node cs
  | some c :: cs => by
    rw [Hext.ruleCapture, ruleCapture]
    exact Rel.bind (capture_rel node c) fun p => Rel.bind (ruleCapture_rel node cs) fun rest => by cases p <;> exact .refl _

open Lean.Order in
theorem adm0 {β} (x : M β) : admissible (fun y : M β => RelM t y x) := by
  refine admissible_pi_apply (fun s (y : E (β × UInt64)) => Rel t y (x s)) fun s => ?_
  exact admissible_flatOrder (α := Option (Except Err (β × UInt64))) (b := none) (fun y => Rel t y (x s)) (Or.inl rfl)

open Lean.Order in
theorem adm {A : Type} {B : Type} [CCPO B] {R : A → B → Prop} (hR : ∀ a, admissible (R a)) :
    admissible (fun f : A → B => ∀ a, R a (f a)) := admissible_pi_apply R hR

set_option synthInstance.maxHeartbeats 200000 in
set_option synthInstance.maxSize 1000 in
/-- The induction over the steps of the engine. -/
theorem engine_rel :
    (∀ r n res, RelM t (Hext.saveMatchingNodesRecursive rx h r n res) (saveMatchingNodesRecursive (ruleMatches t rx h) h r n res)) ∧
    (∀ r n res, RelM t (Hext.saveDescend rx h r n res) (saveDescend (ruleMatches t rx h) h r n res)) ∧
    (∀ r n res, RelM t (Hext.saveLoop rx h r n res) (saveLoop (ruleMatches t rx h) h r n res)) ∧
    (∀ r n res, RelM t (Hext.matchRuleGroup rx h r n res) (matchRuleGroup (ruleMatches t rx h) h r n res)) ∧
    (∀ f r n sub res, RelM t (Hext.groupLoop rx h f r n sub res) (groupLoop (ruleMatches t rx h) h f r n sub res)) ∧
    (∀ a b c d res, RelM t (Hext.matchRange rx h a b c d res) (matchRange (ruleMatches t rx h) h a b c d res)) ∧
    (∀ a b c d e res, RelM t (Hext.rangeLoop rx h a b c d e res) (rangeLoop (ruleMatches t rx h) h a b c d e res)) ∧
    (∀ r a b res, RelM t (Hext.matchRuleOnce rx h r a b res) (matchRuleOnce (ruleMatches t rx h) h r a b res)) ∧
    (∀ r n res, RelM t (Hext.ruleMatchesNodeRecursive rx h r n res) (ruleMatchesNodeRecursive (ruleMatches t rx h) h r n res)) ∧
    (∀ c n m res, RelM t (Hext.childLoop rx h c n m res) (childLoop (ruleMatches t rx h) h c n m res)) ∧
    (∀ ns n res, RelM t (Hext.nestedLoop rx h ns n res) (nestedLoop (ruleMatches t rx h) h ns n res)) := by
  apply Hext.saveMatchingNodesRecursive.mutual_fixpoint_induct rx h
    (fun F => ∀ r n res, RelM t (F r n res) (saveMatchingNodesRecursive (ruleMatches t rx h) h r n res))
    (fun F => ∀ r n res, RelM t (F r n res) (saveDescend (ruleMatches t rx h) h r n res))
    (fun F => ∀ r n res, RelM t (F r n res) (saveLoop (ruleMatches t rx h) h r n res))
    (fun F => ∀ r n res, RelM t (F r n res) (matchRuleGroup (ruleMatches t rx h) h r n res))
    (fun F => ∀ f r n sub res, RelM t (F f r n sub res) (groupLoop (ruleMatches t rx h) h f r n sub res))
    (fun F => ∀ a b c d res, RelM t (F a b c d res) (matchRange (ruleMatches t rx h) h a b c d res))
    (fun F => ∀ a b c d e res, RelM t (F a b c d e res) (rangeLoop (ruleMatches t rx h) h a b c d e res))
    (fun F => ∀ r a b res, RelM t (F r a b res) (matchRuleOnce (ruleMatches t rx h) h r a b res))
    (fun F => ∀ r n res, RelM t (F r n res) (ruleMatchesNodeRecursive (ruleMatches t rx h) h r n res))
    (fun F => ∀ c n m res, RelM t (F c n m res) (childLoop (ruleMatches t rx h) h c n m res))
    (fun F => ∀ ns n res, RelM t (F ns n res) (nestedLoop (ruleMatches t rx h) h ns n res))
  case _ => exact adm fun _ => adm fun _ => adm fun _ => adm0 _
  case _ => exact adm fun _ => adm fun _ => adm fun _ => adm0 _
  case _ => exact adm fun _ => adm fun _ => adm fun _ => adm0 _
  case _ => exact adm fun _ => adm fun _ => adm fun _ => adm0 _
  case _ => exact adm fun _ => adm fun _ => adm fun _ => adm fun _ => adm fun _ => adm0 _
  case _ => exact adm fun _ => adm fun _ => adm fun _ => adm fun _ => adm fun _ => adm0 _
  case _ => exact adm fun _ => adm fun _ => adm fun _ => adm fun _ => adm fun _ => adm fun _ => adm0 _
  case _ => exact adm fun _ => adm fun _ => adm fun _ => adm fun _ => adm0 _
  case _ => exact adm fun _ => adm fun _ => adm fun _ => adm0 _
  case _ => exact adm fun _ => adm fun _ => adm fun _ => adm fun _ => adm0 _
  case _ => exact adm fun _ => adm fun _ => adm fun _ => adm0 _
  case _ =>
    intro D L hD hL r n res
    rw [saveMatchingNodesRecursive.eq_def]
    refine RelM.bind (.refl _) fun ms => ?_
    have jp : ∀ _ : Unit, RelM t (do let result ← L r (some n) res; D r n result)
        (do let result ← saveLoop (ruleMatches t rx h) h r (some n) res; saveDescend (ruleMatches t rx h) h r n result) :=
      fun _ => RelM.bind (hL _ _ _) fun _ => hD _ _ _
    refine .ite (RelM.bind (.refl _) fun _ => .ite (RelM.bind (.refl _) fun _ => jp ()) (jp ())) (jp ())
  case _ =>
    intro S D hS hD r n res
    rw [saveDescend.eq_def]
    refine RelM.bind (.refl _) fun nd => ?_
    have jp : ∀ res, RelM t (do
          match ← (liftM (nextNode h (some n)) : M _) with
          | none => pure res
          | some nx => D r nx res) (do
          match ← (liftM (nextNode h (some n)) : M _) with
          | none => pure res
          | some nx => saveDescend (ruleMatches t rx h) h r nx res) := by
      intro res
      refine RelM.bind (.refl _) fun o => ?_
      cases o with
      | none => exact .refl _
      | some x => exact hD _ _ _
    exact .ite (RelM.bind (.refl _) fun c => RelM.bind (hS _ _ _) fun res => jp res) (RelM.bind (.refl _) fun res => jp res)
  case _ =>
    intro L G hL hG r n res
    rw [saveLoop.eq_def]
    cases n with
    | none => exact .refl _
    | some n => exact RelM.bind (hG _ _ _) fun p => hL _ _ _
  case _ =>
    intro G hG r n res
    rw [matchRuleGroup.eq_def]
    cases r <;> cases n <;> first | exact .refl _ | exact hG _ _ _ _ _
  case _ =>
    intro G R O hG hR hO f r n sub res
    rw [groupLoop.eq_def]
    cases r with
    | none => cases n <;> exact .refl _
    | some r =>
      cases n with
      | none => exact .refl _
      | some n =>
        refine .ite ?_ ?_
        · refine RelM.bind (.refl _) fun stop1 => ?_
          cases stop1 with
          | some sr =>
            refine RelM.bind (hO _ _ _ _) fun p => ?_
            obtain ⟨sn, sub⟩ := p
            cases sn with
            | none => exact .refl _
            | some sn =>
              exact RelM.bind (hR _ _ _ _ _) fun p => RelM.bind (.refl _) fun nx => hG _ _ _ _ _
          | none =>
            refine RelM.bind (.refl _) fun stop2 => ?_
            refine .ite ?_ ?_
            · refine RelM.bind (hR _ _ _ _ _) fun p => ?_
              exact .refl _
            · cases stop2 with
              | none => exact .refl _
              | some sr => exact RelM.bind (hO _ _ _ _) fun p => RelM.bind (hR _ _ _ _ _) fun q => .refl _
        · refine RelM.bind (hO _ _ _ _) fun p => ?_
          obtain ⟨nd, sub⟩ := p
          cases nd with
          | none => exact .refl _
          | some q => exact RelM.bind (.refl _) fun nx => hG _ _ _ _ _
  case _ =>
    intro L hL a b c d res
    rw [matchRange.eq_def]
    exact hL _ _ _ _ _ _
  case _ =>
    intro L O hL hO a b c d e res
    rw [rangeLoop.eq_def]
    cases a with
    | none => exact .refl _
    | some r =>
      refine .ite (.refl _) (RelM.bind (hO _ _ _ _) fun p => ?_)
      obtain ⟨mn, res⟩ := p
      cases mn with
      | none => exact hL _ _ _ _ _ _
      | some q => exact .ite (RelM.bind (.refl _) fun nx => hL _ _ _ _ _ _) (hL _ _ _ _ _ _)
  case _ =>
    intro O N hO hN r a b res
    rw [matchRuleOnce.eq_def]
    cases a with
    | none => exact .refl _
    | some a =>
      exact .ite (.refl _) (RelM.bind (hN _ _ _) fun p => .ite (.refl _) (RelM.bind (.refl _) fun nx => hO _ _ _ _))
  case _ =>
    intro C N hC hN r n res
    rw [ruleMatchesNodeRecursive.eq_def]
    refine RelM.bind (.lift (ruleMatches_rel _ _)) fun b => .ite (.refl _) (.ite (.refl _) (RelM.bind (.refl _) fun nd =>
      .ite (.refl _) (RelM.bind (.refl _) fun c => ?_)))
    have jp : ∀ p : Bool × MatchingNodes, RelM t (if (!p.1) = true then pure (false, res) else do
          match ← N r.nested c p.2 with
          | none => pure (false, res)
          | some sub => pure (true, res ++ sub)) (if (!p.1) = true then pure (false, res) else do
          match ← nestedLoop (ruleMatches t rx h) h r.nested c p.2 with
          | none => pure (false, res)
          | some sub => pure (true, res ++ sub)) :=
      fun p => .ite (.refl _) (RelM.bind (hN _ _ _) fun o => by cases o <;> exact .refl _)
    cases hc : r.child with
    | none => exact RelM.bind (.refl _) jp
    | some c' => exact RelM.bind (hC _ _ _ _) jp
  case _ =>
    intro G C hG hC c n m res
    rw [childLoop.eq_def]
    refine RelM.bind (hG _ _ _) fun p => RelM.bind (.refl _) fun md => ?_
    obtain ⟨nx, sub⟩ := p
    cases nx with
    | none => exact .refl _
    | some nx => exact hC _ _ _ _
  case _ =>
    intro S N hS hN ns n res
    rw [nestedLoop.eq_def]
    cases ns with
    | nil => exact .refl _
    | cons r rs =>
      exact RelM.bind (hS _ _ _) fun mn => RelM.bind (.refl _) fun md => .ite (.refl _) (hN _ _ _)

theorem groupMap_rel : ∀ (g : MatchingNodes) (m : List (Str × Str)), Rel t (Hext.groupMap rx h g m) (groupMap t rx h g m)
  | [], m => .refl _
  | (r, n) :: g, m => by
    rw [Hext.groupMap, groupMap]
    exact Rel.ite (Rel.bind (ruleCapture_rel n _) fun vs => Rel.bind (.refl _) fun m => groupMap_rel g m)
      (Rel.bind (.refl _) fun m => groupMap_rel g m)

theorem groupsToResult_rel : ∀ gs : List MatchingNodes, Rel t (Hext.groupsToResult rx h gs) (groupsToResult t rx h gs)
  | [] => .refl _
  | g :: gs => by
    rw [Hext.groupsToResult, groupsToResult]
    exact Rel.bind (groupMap_rel g []) fun m => Rel.bind (groupsToResult_rel gs) fun _ => .refl _

/-- Extraction with functions that throw throws or is extraction, if that ends. -/
theorem extract_rel (r : Rule) (n : Ptr) (ms : UInt64) : Rel t (Hext.extract rx h r n ms) (extract t rx h r n ms) :=
  Rel.bind (engine_rel.1 _ _ _ ms) fun p => groupsToResult_rel p.1

/-! ## Answers that are not given do not matter -/

theorem answer_congr {α} {b : Bool} {a a' : α} (hb : b = false → a = a') : answer b a = answer b a' := by
  cases b
  · rw [hb rfl]
  · rfl

variable {rx' : RxEngine}

theorem test_agree (ha : SameAnswers t rx rx') : ∀ (v : ValueTest) (s : Option Str), test t rx v s = test t rx' v s
  | .regex r, some s => answer_congr fun hs => by rw [ha.1 r s hs]
  | .negate v, s => by rw [test, test, test_agree ha v s]
  | .regex _, none => rfl
  | .beginsWith _, s => by cases s <;> rfl
  | .contains _, s => by cases s <;> rfl
  | .containsWords _, s => by cases s <;> rfl
  | .endsWith _, s => by cases s <;> rfl
  | .equals _, s => by cases s <;> rfl
  | .negateNull, s => by cases s <;> rfl

theorem transform_agree (ha : SameAnswers t rx rx') (p : Transform) (s : Str) : transform t rx p s = transform t rx' p s := by
  cases p with
  | regex r => rw [transform, transform, answer_congr fun hs => ha.1 r _ hs]
  | regexReplace r f => exact answer_congr fun hs => ha.2 r s f hs
  | _ => rfl

theorem pipe_agree (ha : SameAnswers t rx rx') : ∀ (p : Pipe) (s : Str), pipe t rx p s = pipe t rx' p s
  | .last f, s => transform_agree ha f s
  | .cons f p, s => by
    rw [pipe, pipe, transform_agree ha f s]
    congr 1
    funext s
    exact pipe_agree ha p s

theorem attributeMatches_agree (ha : SameAnswers t rx rx') (name : Str) (v : Option ValueTest) (node : Ptr) :
    attributeMatches t rx h name v node = attributeMatches t rx' h name v node := by
  rw [attributeMatches, attributeMatches]
  simp only [test_agree ha]

theorem typeRegexMatches_agree (ha : SameAnswers t rx rx') (r : Regex) (node : Ptr) :
    typeRegexMatches t rx h r node = typeRegexMatches t rx' h r node := by
  rw [typeRegexMatches, typeRegexMatches]
  congr 1
  funext n
  exact answer_congr fun hs => by rw [ha.1 r _ hs]

mutual
theorem matches_agree (ha : SameAnswers t rx rx') (node : Ptr) : ∀ m : Match, matches_ t rx h node m = matches_ t rx' h node m
  | .attribute name v => attributeMatches_agree ha name v node
  | .function none => rfl
  | .function (some f) => rfl
  | .functionValue none _ => rfl
  | .functionValue (some f) none => rfl
  | .functionValue (some f) (some v) => by
    rw [matches_, matches_]
    simp only [test_agree ha]
  | .negate ms => by
    rw [matches_, matches_]
    exact negateLoop_agree ha node ms
  | .typeRegex r => typeRegexMatches_agree ha r node
  | .attributeCount k => rfl
  | .childCount k => rfl
  | .nthChild a b c d => rfl
  | .onlyChild b => rfl
theorem negateLoop_agree (ha : SameAnswers t rx rx') (node : Ptr) : ∀ ms : List (Option Match),
    negateLoop t rx h node ms = negateLoop t rx' h node ms
  | [] => rfl
  | m :: ms => by rw [negateLoop, negateLoop, optMatches_agree ha node m, negateLoop_agree ha node ms]
theorem optMatches_agree (ha : SameAnswers t rx rx') (node : Ptr) : ∀ m : Option Match,
    optMatches t rx h node m = optMatches t rx' h node m
  | none => rfl
  | some m => by rw [optMatches, optMatches, matches_agree ha node m]
end

theorem applyPipe_agree (ha : SameAnswers t rx rx') (p : Option Pipe) (s : Str) : applyPipe t rx p s = applyPipe t rx' p s := by
  cases p with
  | none => rfl
  | some p => exact pipe_agree ha p s

theorem capture_agree (ha : SameAnswers t rx rx') (node : Ptr) (c : Capture) : capture t rx h node c = capture t rx' h node c := by
  cases c <;> simp only [capture, applyPipe_agree ha]

theorem allMatch_agree (ha : SameAnswers t rx rx') (node : Ptr) : ∀ ms : List (Option Match),
    allMatch t rx h node ms = allMatch t rx' h node ms
  | [] => rfl
  | none :: ms => by rw [allMatch, allMatch, allMatch_agree ha node ms]
  | some m :: ms => by rw [allMatch, allMatch, allMatch_agree ha node ms, matches_agree ha]

theorem ruleMatches_agree (ha : SameAnswers t rx rx') : ruleMatches t rx h = ruleMatches t rx' h := by
  funext info node
  simp only [ruleMatches, allMatch_agree ha]

theorem ruleCapture_agree (ha : SameAnswers t rx rx') (node : Ptr) : ∀ cs : List (Option Capture),
    ruleCapture t rx h node cs = ruleCapture t rx' h node cs
  | [] => rfl
  | none :: cs => ruleCapture_agree ha node cs
  | some c :: cs => by rw [ruleCapture, ruleCapture, capture_agree ha, ruleCapture_agree ha node cs]

theorem groupMap_agree (ha : SameAnswers t rx rx') : ∀ (g : MatchingNodes) (m : List (Str × Str)),
    groupMap t rx h g m = groupMap t rx' h g m
  | [], m => rfl
  | (r, n) :: g, m => by
    rw [groupMap, groupMap]
    simp only [ruleCapture_agree ha, groupMap_agree ha g]

theorem groupsToResult_agree (ha : SameAnswers t rx rx') : ∀ gs : List MatchingNodes,
    groupsToResult t rx h gs = groupsToResult t rx' h gs
  | [] => rfl
  | g :: gs => by rw [groupsToResult, groupsToResult, groupMap_agree ha, groupsToResult_agree ha gs]

theorem extract_agree (ha : SameAnswers t rx rx') (r : Rule) (n : Ptr) (ms : UInt64) :
    extract t rx h r n ms = extract t rx' h r n ms := by
  rw [extract, extract, ruleMatches_agree ha]
  simp only [groupsToResult_agree ha]

end Hext.Throwing
