import Verif.Spec.Threads
set_option linter.unusedSimpArgs false
set_option linter.unusedSectionVars false
/-!
# A thread does what it does alone

As long as nobody else writes to the nodes of the document, whatever the turns of the threads are; and it needs the same number of
turns in all of them.
-/

namespace Hext.Threads

/-- Some threads, of which one is meant. -/
structure Member where
  ι : Type
  dec : DecidableEq ι
  S : System ι
  i : ι

attribute [instance] Member.dec

/-- The moments, from `m` to before `m'`, at which it has its turn. -/
def Member.turns (s : Member) (m m' : Nat) : Nat := Threads.turns s.S.turn s.i m m'

/-- From moment `m` on it has at least `k` turns. -/
def Member.enough (s : Member) (m k : Nat) : Prop := ∃ m', k ≤ s.turns m m'

variable {P : Member → Prop} {rx : RxEngine} {h : Heap} {acc : Member → Access}

/-- `y` does not end or is undefined, or it takes some number of turns in all runs with `P`, and with so many turns `x` comes to what
`y` comes to. -/
def Rel (P : Member → Prop) {α} (y : E α) (x : Member → C α) : Prop :=
  y = none ∨ y = throw .ub ∨ ∃ k, ∀ s, P s → ∀ m, (x s m = none ∧ ¬ s.enough m k) ∨
    ∃ m', m ≤ m' ∧ s.turns m m' = k ∧ x s m = y >>= fun a => pure (a, m')

/-- The same, whatever the number of searches left is. -/
def RelM (P : Member → Prop) {α} (y : M α) (x : Member → CM α) : Prop := ∀ n, Rel P (y n) fun s => x s n

/-- What is seen of the memory is `h`. -/
structure Sees (P : Member → Prop) (acc : Member → Access) (h : Heap) : Prop where
  load : ∀ p, Rel P (load h p) fun s => (acc s).load p
  look : Rel P (pure h) fun s => (acc s).look

theorem turns_self (s : Member) (m : Nat) : s.turns m m = 0 := by simp [Member.turns, Threads.turns]

theorem turns_add (s : Member) {m m' m'' : Nat} (h1 : m ≤ m') (h2 : m' ≤ m'') : s.turns m m' + s.turns m' m'' = s.turns m m'' := by
  have : List.range' m (m'' - m) = List.range' m (m' - m) ++ List.range' m' (m'' - m') := by
    have := List.range'_append_1 (s := m) (m := m' - m) (n := m'' - m')
    rw [show m + (m' - m) = m' by omega, show m' - m + (m'' - m') = m'' - m by omega] at this
    exact this.symm
  simp only [Member.turns, Threads.turns, this, List.countP_append]

theorem turns_mono (s : Member) (m : Nat) {m' m'' : Nat} (h : m' ≤ m'') : s.turns m m' ≤ s.turns m m'' := by
  rcases Nat.le_total m m' with h1 | h1
  · have := turns_add s h1 h; omega
  · simp [Member.turns, Threads.turns, Nat.sub_eq_zero_of_le h1]

theorem enough_le {s : Member} {m k k' : Nat} (hk : k ≤ k') (h : s.enough m k') : s.enough m k := by
  obtain ⟨m', h⟩ := h
  exact ⟨m', Nat.le_trans hk h⟩

theorem enough_after {s : Member} {m m' k k' : Nat} (hm : m ≤ m') (hk : s.turns m m' = k) (h : s.enough m (k + k')) : s.enough m' k' := by
  obtain ⟨m'', h⟩ := h
  rcases Nat.le_total m' m'' with h1 | h1
  · exact ⟨m'', by have := turns_add s hm h1; omega⟩
  · refine ⟨m', ?_⟩
    have := turns_mono s m h1
    omega

theorem Rel.congr {α} {y : E α} {x x' : Member → C α} (e : ∀ s, x s = x' s) (h : Rel P y x') : Rel P y x := by
  rwa [show x = x' from funext e]

theorem RelM.congr {α} {y : M α} {x x' : Member → CM α} (e : ∀ s, x s = x' s) (h : RelM P y x') : RelM P y x := by
  rwa [show x = x' from funext e]

theorem Rel.pure {α} (a : α) : Rel P (pure a) fun _ => pure a := .inr (.inr ⟨0, fun s _ m => .inr ⟨m, Nat.le_refl _, turns_self s m, rfl⟩⟩)

theorem Rel.throw {α} (e : Err) : Rel P (α := α) (throw e) fun _ => throw e :=
  .inr (.inr ⟨0, fun s _ m => .inr ⟨m, Nat.le_refl _, turns_self s m, rfl⟩⟩)

theorem Rel.liftE {α} (x : E α) : Rel P x fun _ => liftM x :=
  .inr (.inr ⟨0, fun s _ m => .inr ⟨m, Nat.le_refl _, turns_self s m, rfl⟩⟩)

theorem Rel.bind {α β} {y : E α} {x : Member → C α} {f : α → E β} {g : Member → α → C β} (h1 : Rel P y x)
    (h2 : ∀ a, Rel P (f a) fun s => g s a) : Rel P (y >>= f) fun s => x s >>= g s := by
  rcases h1 with rfl | rfl | ⟨k, h1⟩
  · exact .inl rfl
  · exact .inr (.inl rfl)
  · match y, h1 with
    | none, _ => exact .inl rfl
    | some (.error e), h1 =>
      refine .inr (.inr ⟨k, fun s hs m => ?_⟩)
      rcases h1 s hs m with ⟨h1, hh⟩ | ⟨m', hm, ht, h1⟩
      · exact .inl ⟨by show (x s m >>= fun p => g s p.1 p.2) = none; rw [h1]; rfl, hh⟩
      · exact .inr ⟨m', hm, ht, by show (x s m >>= fun p => g s p.1 p.2) = _; rw [h1]; rfl⟩
    | some (.ok a), h1 =>
      rcases h2 a with h2 | h2 | ⟨k', h2⟩
      · exact .inl h2
      · exact .inr (.inl h2)
      · refine .inr (.inr ⟨k + k', fun s hs m => ?_⟩)
        rcases h1 s hs m with ⟨h1, hh⟩ | ⟨m', hm, ht, h1⟩
        · exact .inl ⟨by show (x s m >>= fun p => g s p.1 p.2) = none; rw [h1]; rfl, fun he => hh (enough_le (by omega) he)⟩
        · rcases h2 s hs m' with ⟨h2, hh⟩ | ⟨m'', hm', ht', h2⟩
          · exact .inl ⟨by show (x s m >>= fun p => g s p.1 p.2) = none; rw [h1]; exact h2, fun he => hh (enough_after hm ht he)⟩
          · exact .inr ⟨m'', by omega, by rw [← turns_add s hm hm', ht, ht'],
              by show (x s m >>= fun p => g s p.1 p.2) = _; rw [h1]; exact h2⟩

theorem Rel.ite {α} {c : Prop} [Decidable c] {y y' : E α} {x x' : Member → C α} (h1 : Rel P y x) (h2 : Rel P y' x') :
    Rel P (if c then y else y') fun s => if c then x s else x' s := by split <;> assumption

theorem RelM.pure {α} (a : α) : RelM P (pure a) fun _ => pure a := fun n => .pure (a, n)

theorem RelM.throw {α} (e : Err) : RelM P (α := α) (throw e) fun _ => throw e := fun _ => .throw e

theorem RelM.get : RelM P get fun _ => get := fun n => .pure (n, n)

theorem RelM.set (k : UInt64) : RelM P (set k) fun _ => set k := fun _ => .pure (_, k)

theorem RelM.bind {α β} {y : M α} {x : Member → CM α} {f : α → M β} {g : Member → α → CM β} (h1 : RelM P y x)
    (h2 : ∀ a, RelM P (f a) fun s => g s a) : RelM P (y >>= f) fun s => x s >>= g s :=
  fun n => Rel.bind (g := fun s p => g s p.1 p.2) (h1 n) fun a => h2 a.1 a.2

theorem RelM.ite {α} {c : Prop} [Decidable c] {y y' : M α} {x x' : Member → CM α} (h1 : RelM P y x) (h2 : RelM P y' x') :
    RelM P (if c then y else y') fun s => if c then x s else x' s := by split <;> assumption

theorem RelM.lift {α} {y : E α} {x : Member → C α} (h1 : Rel P y x) : RelM P (liftM y : M α) fun s => (liftM (x s) : CM α) := fun n =>
  Rel.bind (g := fun _ a => Pure.pure (a, n)) h1 fun _ => .pure _

theorem RelM.liftE {α} (y : E α) : RelM P (liftM y : M α) fun _ => (liftM y : CM α) := fun n =>
  Rel.bind (x := fun _ => liftM y) (g := fun _ a => Pure.pure (a, n)) (.liftE y) fun _ => .pure _

open Lean.Order in
theorem admE {β} (x : Member → C β) : admissible (fun y : E β => Rel P y x) :=
  admissible_flatOrder (α := Option (Except Err β)) (b := none) (fun y => Rel P y x) (Or.inl rfl)

open Lean.Order in
theorem adm0 {β} (x : Member → CM β) : admissible (fun y : M β => RelM P y x) := by
  refine admissible_pi_apply (fun n (y : E (β × UInt64)) => Rel P y fun s => x s n) fun n => ?_
  exact admissible_flatOrder (α := Option (Except Err (β × UInt64))) (b := none) (fun y => Rel P y fun s => x s n) (Or.inl rfl)

open Lean.Order in
theorem adm {A : Type} {B : Type} [CCPO B] {R : A → B → Prop} (hR : ∀ a, admissible (R a)) :
    admissible (fun f : A → B => ∀ a, R a (f a)) := admissible_pi_apply R hR

section
variable (hs : Sees P acc h)
include hs

theorem nextNode_rel (o : Option Ptr) : Rel P (Hext.nextNode h o) (fun s => nextNode (acc s) o) := by
  cases o with
  | none => exact .pure _
  | some p =>
    refine Rel.bind (hs.load p) fun n => ?_
    cases n.parent with
    | none => exact .throw _
    | some pp => exact Rel.bind (hs.load pp) fun q => .ite (.pure _) (.pure _)

theorem strip_rel (b : Bool) :
    (∀ p, Rel P (Hext.stripTags h b p) (fun s => stripTags (acc s) b p)) ∧
    (∀ cs t, Rel P (Hext.stripTagsLoop h b cs t) (fun s => stripTagsLoop (acc s) b cs t)) := by
  apply Hext.stripTags.mutual_fixpoint_induct h b
    (fun F => ∀ p, Rel P (F p) (fun s => stripTags (acc s) b p))
    (fun F => ∀ cs t, Rel P (F cs t) (fun s => stripTagsLoop (acc s) b cs t))
  case _ => exact adm fun _ => admE _
  case _ => exact adm fun _ => adm fun _ => admE _
  case _ =>
    intro L hL p
    refine Rel.congr (fun s => stripTags.eq_def (acc s) b p) ?_
    refine Rel.bind (hs.load p) fun n => ?_
    cases n.kind <;> first | exact .pure _ | exact hL _ _
  case _ =>
    intro T L hT hL cs t
    refine Rel.congr (fun s => stripTagsLoop.eq_def (acc s) b cs t) ?_
    cases cs with
    | nil => exact .pure _
    | cons c cs =>
      refine Rel.bind (hs.load c) fun n => ?_
      cases b <;> cases n.kind <;> exact Rel.bind (hT _) fun s => hL _ _

theorem nodeText_rel (p : Ptr) : Rel P (Hext.nodeText h p) (fun s => nodeText (acc s) p) :=
  Rel.bind ((strip_rel hs _).1 _) fun _ => .liftE _

theorem serialize_rel :
    (∀ p, Rel P (Hext.serializeNode h p) (fun s => serializeNode (acc s) p)) ∧
    (∀ e cs, Rel P (Hext.serializeElement h e cs) (fun s => serializeElement (acc s) e cs)) ∧
    (∀ cs, Rel P (Hext.serializeChildren h cs) (fun s => serializeChildren (acc s) cs)) := by
  apply Hext.serializeNode.mutual_fixpoint_induct h
    (fun F => ∀ p, Rel P (F p) (fun s => serializeNode (acc s) p))
    (fun F => ∀ e cs, Rel P (F e cs) (fun s => serializeElement (acc s) e cs))
    (fun F => ∀ cs, Rel P (F cs) (fun s => serializeChildren (acc s) cs))
  case _ => exact adm fun _ => admE _
  case _ => exact adm fun _ => adm fun _ => admE _
  case _ => exact adm fun _ => admE _
  case _ =>
    intro L hL p
    refine Rel.congr (fun s => serializeNode.eq_def (acc s) p) ?_
    refine Rel.bind (hs.load p) fun n => ?_
    cases n.kind <;> first | exact .pure _ | exact hL _ _
  case _ =>
    intro L hL e cs
    refine Rel.congr (fun s => serializeElement.eq_def (acc s) e cs) ?_
    exact .ite (Rel.bind (hL _) fun _ => .pure _) (.pure _)
  case _ =>
    intro N L hN hL cs
    refine Rel.congr (fun s => serializeChildren.eq_def (acc s) cs) ?_
    cases cs with
    | nil => exact .pure _
    | cons c cs => exact Rel.bind (hN _) fun _ => Rel.bind (hL _) fun _ => .pure _

theorem nodeInnerHtml_rel (p : Ptr) : Rel P (Hext.nodeInnerHtml h p) (fun s => nodeInnerHtml (acc s) p) := by
  refine Rel.bind (hs.load p) fun n => ?_
  cases n.kind <;> first | exact .pure _ | exact (serialize_rel hs).2.2 _

theorem call_rel (node : Ptr) (f : CaptureFn) : Rel P (f.call h node) (fun s => call (acc s) node f) := by
  cases f with
  | text => exact nodeText_rel hs node
  | innerHtml => exact nodeInnerHtml_rel hs node
  | stripTags => exact (strip_rel hs _).1 _
  | user f => exact Rel.bind (f := fun x => Pure.pure (f x node)) hs.look fun _ => .pure _

theorem countPrecedingLoop_rel (cs : List Ptr) (node : Ptr) (t : Option Tag) : ∀ (fuel i : Nat) (k : Int),
    Rel P (Hext.countPrecedingLoop h cs node t i k fuel) (fun s => countPrecedingLoop (acc s) cs node t i k fuel)
  | 0, _, _ => .pure _
  | fuel + 1, i, k => by
    simp only [Hext.countPrecedingLoop, countPrecedingLoop]
    refine Rel.bind (.liftE _) fun _ => Rel.bind (.liftE _) fun c => Rel.bind (hs.load c) fun n => ?_
    refine .ite (Rel.bind (.liftE _) fun k => ?_) (Rel.bind (.pure _) fun k => ?_)
    · exact .ite (.pure _) (countPrecedingLoop_rel cs node t fuel (i + 1) k)
    · exact .ite (.pure _) (countPrecedingLoop_rel cs node t fuel (i + 1) k)

theorem countPreceding_rel (node : Ptr) (t : Option Tag) : Rel P (Hext.countPreceding h node t) (fun s => countPreceding (acc s) node t) := by
  refine Rel.bind (hs.load node) fun n => ?_
  cases n.parent with
  | none => exact .pure _
  | some pp =>
    exact Rel.bind (hs.load pp) fun q => .ite (.pure _) (Rel.bind (.liftE _) fun _ => countPrecedingLoop_rel hs _ _ _ _ _ _)

theorem countFollowingLoop_rel (cs : List Ptr) (node : Ptr) (index : Nat) (t : Option Tag) : ∀ (i : Nat) (k : Int),
    Rel P (Hext.countFollowingLoop h cs node index t k i) (fun s => countFollowingLoop (acc s) cs node index t k i)
  | 0, _ => .pure _
  | i + 1, k => by
    simp only [Hext.countFollowingLoop, countFollowingLoop]
    refine .ite ?_ (.pure _)
    refine Rel.bind (.liftE _) fun _ => Rel.bind (.liftE _) fun c => Rel.bind (hs.load c) fun n => ?_
    refine .ite (Rel.bind (.liftE _) fun k => ?_) (Rel.bind (.pure _) fun k => ?_)
    · exact .ite (.pure _) (countFollowingLoop_rel cs node index t i k)
    · exact .ite (.pure _) (countFollowingLoop_rel cs node index t i k)

theorem countFollowing_rel (node : Ptr) (t : Option Tag) : Rel P (Hext.countFollowing h node t) (fun s => countFollowing (acc s) node t) := by
  refine Rel.bind (hs.load node) fun n => ?_
  cases n.parent with
  | none => exact .pure _
  | some pp =>
    exact Rel.bind (hs.load pp) fun q => .ite (.pure _) (.ite (.pure _)
      (Rel.bind (.liftE _) fun _ => countFollowingLoop_rel hs _ _ _ _ _ _))

theorem nthChildMatches_rel (step shift : Int) (first ofType : Bool) (node : Ptr) :
    Rel P (Hext.nthChildMatches h step shift first ofType node) (fun s => nthChildMatches (acc s) step shift first ofType node) := by
  refine Rel.bind (hs.load node) fun n => ?_
  cases n.kind with
  | element e =>
    refine .ite (Rel.bind (countPreceding_rel hs _ _) fun k => ?_) (Rel.bind (countFollowing_rel hs _ _) fun k => ?_) <;>
    exact .ite (.pure _) (.ite (.ite (.pure _) (Rel.bind (.liftE _) fun _ => .pure _))
      (.ite (.pure _) (Rel.bind (.liftE _) fun _ => Rel.bind (.liftE _) fun _ => .pure _)))
  | _ => exact .pure _

theorem countChildElements_rel : ∀ (cs : List Ptr) (k : Nat),
    Rel P (Hext.countChildElements h cs k) (fun s => countChildElements (acc s) cs k)
  | [], _ => .pure _
  | c :: cs, _ => Rel.bind (hs.load c) fun _ => countChildElements_rel cs _

theorem onlyChildLoop_rel (node : Ptr) (t : Option Tag) : ∀ cs : List Ptr,
    Rel P (Hext.onlyChildLoop h node t cs) (fun s => onlyChildLoop (acc s) node t cs)
  | [] => .pure _
  | c :: cs => Rel.bind (hs.load c) fun _ => .ite (.pure _) (onlyChildLoop_rel node t cs)

theorem onlyChildMatches_rel (ofType : Bool) (node : Ptr) :
    Rel P (Hext.onlyChildMatches h ofType node) (fun s => onlyChildMatches (acc s) ofType node) := by
  refine Rel.bind (hs.load node) fun n => ?_
  cases n.kind with
  | element e =>
    simp only
    cases n.parent with
    | none => exact .pure _
    | some pp => exact Rel.bind (hs.load pp) fun q => .ite (.pure _) (onlyChildLoop_rel hs _ _ _)
  | _ => exact .pure _

theorem attributeMatches_rel (name : Str) (v : Option ValueTest) (node : Ptr) :
    Rel P (Hext.attributeMatches rx h name v node) (fun s => attributeMatches rx (acc s) name v node) := by
  refine Rel.bind (hs.load node) fun n => ?_
  cases n.kind with
  | element e =>
    simp only
    cases v with
    | none => exact .pure _
    | some v =>
      simp only
      cases getAttribute e.attrs name with
      | none => exact .liftE _
      | some a =>
        simp only
        cases a.value with
        | none => exact .pure _
        | some s => exact .liftE _
  | _ => exact .pure _

theorem typeRegexMatches_rel (r : Regex) (node : Ptr) :
    Rel P (Hext.typeRegexMatches rx h r node) (fun s => typeRegexMatches rx (acc s) r node) := by
  refine Rel.bind (hs.load node) fun n => ?_
  cases n.kind with
  | element e => simp only; cases e.tag <;> exact .pure _
  | _ => exact .pure _

mutual
theorem matches_rel (node : Ptr) : ∀ m : Match, Rel P (m.matches rx h node) (fun s => matches_ rx (acc s) node m)
  | .attribute name v => attributeMatches_rel hs name v node
  | .function none => .throw _
  | .function (some f) => Rel.bind (f := fun x => Pure.pure (f x node)) hs.look fun _ => .pure _
  | .functionValue none _ => .throw _
  | .functionValue (some f) none => .pure _
  | .functionValue (some f) (some v) => Rel.bind (call_rel hs node f) fun s => .liftE _
  | .negate ms => by
    simp only [Match.matches, matches_]
    exact negateLoop_rel node ms
  | .typeRegex r => typeRegexMatches_rel hs r node
  | .attributeCount k => by
    simp only [Match.matches, matches_]
    refine Rel.bind (hs.load node) fun n => ?_
    cases n.kind <;> exact .pure _
  | .childCount k => by
    simp only [Match.matches, matches_]
    refine Rel.bind (hs.load node) fun n => ?_
    cases n.kind <;> first | exact .pure _ | exact Rel.bind (countChildElements_rel hs _ _) fun _ => .pure _
  | .nthChild a b c d => nthChildMatches_rel hs a b c d node
  | .onlyChild b => onlyChildMatches_rel hs b node
theorem negateLoop_rel (node : Ptr) : ∀ ms : List (Option Match), Rel P (Hext.negateLoop rx h node ms) (fun s => negateLoop rx (acc s) node ms)
  | [] => .pure _
  | m :: ms => by
    simp only [Hext.negateLoop, negateLoop]
    exact Rel.bind (optMatches_rel node m) fun b => .ite (.pure _) (negateLoop_rel node ms)
theorem optMatches_rel (node : Ptr) : ∀ m : Option Match, Rel P (Hext.optMatches rx h node m) (fun s => optMatches rx (acc s) node m)
  | none => .pure _
  | some m => by
    simp only [Hext.optMatches, optMatches]
    exact matches_rel node m
end

theorem capture_rel (node : Ptr) (c : Capture) : Rel P (c.capture rx h node) (fun s => capture rx (acc s) node c) := by
  cases c with
  | «attribute» a name p =>
    refine Rel.bind (hs.load node) fun n => ?_
    cases n.kind with
    | element e =>
      simp only
      cases getAttribute e.attrs a with
      | none => exact .pure _
      | some a =>
        simp only
        cases a.value with
        | none => exact .pure _
        | some s => exact Rel.bind (.liftE _) fun _ => .pure _
    | _ => exact .pure _
  | function f name p =>
    cases f with
    | none => exact .throw _
    | some f => exact Rel.bind (call_rel hs node f) fun s => Rel.bind (.liftE _) fun _ => .pure _

theorem allMatch_rel (node : Ptr) : ∀ ms : List (Option Match), Rel P (Hext.allMatch rx h node ms) (fun s => allMatch rx (acc s) node ms)
  | [] => .pure _
  | none :: ms => by
    simp only [Hext.allMatch, allMatch]
    exact Rel.bind (.pure _) fun b => .ite (.pure _) (allMatch_rel node ms)
  | some m :: ms => by
    simp only [Hext.allMatch, allMatch]
    simp only [bind_assoc, pure_bind]
    exact Rel.bind (matches_rel hs node m) fun b => .ite (.pure _) (allMatch_rel node ms)

theorem ruleMatches_rel (info : RuleInfo) (node : Ptr) : Rel P (Hext.ruleMatches rx h info node) (fun s => ruleMatches rx (acc s) info node) :=
  Rel.bind (hs.load node) fun _ => .ite (.pure _) (allMatch_rel hs node _)

theorem ruleCapture_rel (node : Ptr) : ∀ cs : List (Option Capture), Rel P (Hext.ruleCapture rx h node cs) (fun s => ruleCapture rx (acc s) node cs)
  | [] => .pure _
  | none :: cs => ruleCapture_rel node cs
  | some c :: cs => by
    simp only [Hext.ruleCapture, ruleCapture]
    exact Rel.bind (capture_rel hs node c) fun p => Rel.bind (ruleCapture_rel node cs) fun rest => by cases p <;> exact .pure _

set_option synthInstance.maxHeartbeats 200000 in
set_option synthInstance.maxSize 1000 in
/-- The induction over the steps of the engine. -/
theorem engine_rel :
    (∀ r n res, RelM P (Hext.saveMatchingNodesRecursive rx h r n res) (fun s => saveMatchingNodesRecursive rx (acc s) r n res)) ∧
    (∀ r n res, RelM P (Hext.saveDescend rx h r n res) (fun s => saveDescend rx (acc s) r n res)) ∧
    (∀ r n res, RelM P (Hext.saveLoop rx h r n res) (fun s => saveLoop rx (acc s) r n res)) ∧
    (∀ r n res, RelM P (Hext.matchRuleGroup rx h r n res) (fun s => matchRuleGroup rx (acc s) r n res)) ∧
    (∀ f r n sub res, RelM P (Hext.groupLoop rx h f r n sub res) (fun s => groupLoop rx (acc s) f r n sub res)) ∧
    (∀ a b c d res, RelM P (Hext.matchRange rx h a b c d res) (fun s => matchRange rx (acc s) a b c d res)) ∧
    (∀ a b c d e res, RelM P (Hext.rangeLoop rx h a b c d e res) (fun s => rangeLoop rx (acc s) a b c d e res)) ∧
    (∀ r a b res, RelM P (Hext.matchRuleOnce rx h r a b res) (fun s => matchRuleOnce rx (acc s) r a b res)) ∧
    (∀ r n res, RelM P (Hext.ruleMatchesNodeRecursive rx h r n res) (fun s => ruleMatchesNodeRecursive rx (acc s) r n res)) ∧
    (∀ c n m res, RelM P (Hext.childLoop rx h c n m res) (fun s => childLoop rx (acc s) c n m res)) ∧
    (∀ ns n res, RelM P (Hext.nestedLoop rx h ns n res) (fun s => nestedLoop rx (acc s) ns n res)) := by
  apply Hext.saveMatchingNodesRecursive.mutual_fixpoint_induct rx h
    (fun F => ∀ r n res, RelM P (F r n res) (fun s => saveMatchingNodesRecursive rx (acc s) r n res))
    (fun F => ∀ r n res, RelM P (F r n res) (fun s => saveDescend rx (acc s) r n res))
    (fun F => ∀ r n res, RelM P (F r n res) (fun s => saveLoop rx (acc s) r n res))
    (fun F => ∀ r n res, RelM P (F r n res) (fun s => matchRuleGroup rx (acc s) r n res))
    (fun F => ∀ f r n sub res, RelM P (F f r n sub res) (fun s => groupLoop rx (acc s) f r n sub res))
    (fun F => ∀ a b c d res, RelM P (F a b c d res) (fun s => matchRange rx (acc s) a b c d res))
    (fun F => ∀ a b c d e res, RelM P (F a b c d e res) (fun s => rangeLoop rx (acc s) a b c d e res))
    (fun F => ∀ r a b res, RelM P (F r a b res) (fun s => matchRuleOnce rx (acc s) r a b res))
    (fun F => ∀ r n res, RelM P (F r n res) (fun s => ruleMatchesNodeRecursive rx (acc s) r n res))
    (fun F => ∀ c n m res, RelM P (F c n m res) (fun s => childLoop rx (acc s) c n m res))
    (fun F => ∀ ns n res, RelM P (F ns n res) (fun s => nestedLoop rx (acc s) ns n res))
  case _ => exact adm fun _ => adm fun _ => adm fun _ => adm0 _
  case _ => exact adm fun _ => adm fun _ => adm fun _ => adm0 _
  case _ => exact adm fun _ => adm fun _ => adm fun _ => adm0 _
  case _ => exact adm fun _ => adm fun _ => adm fun _ => adm0 _
  case _ => exact adm fun _ => adm fun _ => adm fun _ => adm fun _ => adm fun _ => adm0 _
  case _ => exact adm fun _ => adm fun _ => adm fun _ => adm fun _ => adm fun _ => adm0 _
  case _ => exact adm fun _ => adm fun _ => adm fun _ => adm fun _ => adm fun _ => adm fun _ => adm0 _
  case _ => exact adm fun _ => adm fun _ => adm fun _ => adm fun _ => adm0 _
  case _ => exact adm fun _ => adm fun _ => adm fun _ => adm0 _
  case _ => exact adm fun _ => adm fun _ => adm fun _ => adm fun _ => adm0 _
  case _ => exact adm fun _ => adm fun _ => adm fun _ => adm0 _
  case _ =>
    intro D L hD hL r n res
    refine RelM.congr (fun s => saveMatchingNodesRecursive.eq_def rx (acc s) r n res) ?_
    refine RelM.bind .get fun ms => ?_
    have jp : ∀ _ : Unit, RelM P (do let result ← L r (some n) res; D r n result)
        (fun s => do let result ← saveLoop rx (acc s) r (some n) res; saveDescend rx (acc s) r n result) :=
      fun _ => RelM.bind (hL _ _ _) fun _ => hD _ _ _
    refine .ite (RelM.bind (.set _) fun _ => .ite (RelM.bind (.throw _) fun _ => jp ()) (jp ())) (jp ())
  case _ =>
    intro S D hS hD r n res
    refine RelM.congr (fun s => saveDescend.eq_def rx (acc s) r n res) ?_
    refine RelM.bind (.lift (hs.load n)) fun nd => ?_
    have jp : ∀ res, RelM P (do
          match ← (liftM (Hext.nextNode h (some n)) : M _) with
          | none => pure res
          | some nx => D r nx res) (fun s => do
          match ← (liftM (nextNode (acc s) (some n)) : CM _) with
          | none => pure res
          | some nx => saveDescend rx (acc s) r nx res) := by
      intro res
      refine RelM.bind (.lift (nextNode_rel hs _)) fun o => ?_
      cases o with
      | none => exact .pure _
      | some x => exact hD _ _ _
    exact .ite (RelM.bind (.liftE _) fun c => RelM.bind (hS _ _ _) fun res => jp res) (RelM.bind (.pure _) fun res => jp res)
  case _ =>
    intro L G hL hG r n res
    refine RelM.congr (fun s => saveLoop.eq_def rx (acc s) r n res) ?_
    cases n with
    | none => exact .pure _
    | some n => exact RelM.bind (hG _ _ _) fun p => hL _ _ _
  case _ =>
    intro G hG r n res
    refine RelM.congr (fun s => matchRuleGroup.eq_def rx (acc s) r n res) ?_
    cases r <;> cases n <;> first | exact .pure _ | exact hG _ _ _ _ _
  case _ =>
    intro G R O hG hR hO f r n sub res
    refine RelM.congr (fun s => groupLoop.eq_def rx (acc s) f r n sub res) ?_
    cases r with
    | none => cases n <;> exact RelM.bind (.liftE _) fun r => by cases r <;> exact .pure _
    | some r =>
      cases n with
      | none => exact RelM.bind (.liftE _) fun r => by cases r <;> exact .pure _
      | some n =>
        refine .ite ?_ ?_
        · refine RelM.bind (.liftE _) fun stop1 => ?_
          cases stop1 with
          | some sr =>
            refine RelM.bind (hO _ _ _ _) fun p => ?_
            obtain ⟨sn, sub⟩ := p
            cases sn with
            | none => exact .pure _
            | some sn =>
              exact RelM.bind (hR _ _ _ _ _) fun p => RelM.bind (.lift (nextNode_rel hs _)) fun nx => hG _ _ _ _ _
          | none =>
            refine RelM.bind (.liftE _) fun stop2 => ?_
            refine .ite ?_ ?_
            · refine RelM.bind (hR _ _ _ _ _) fun p => ?_
              obtain ⟨nd, sub⟩ := p
              cases nd with
              | none => exact .pure _
              | some q => exact RelM.bind (.lift (nextNode_rel hs _)) fun nx => .pure _
            · cases stop2 with
              | none => exact .throw _
              | some sr => exact RelM.bind (hO _ _ _ _) fun p => RelM.bind (hR _ _ _ _ _) fun q => .pure _
        · refine RelM.bind (hO _ _ _ _) fun p => ?_
          obtain ⟨nd, sub⟩ := p
          cases nd with
          | none => exact .pure _
          | some q => exact RelM.bind (.lift (nextNode_rel hs _)) fun nx => hG _ _ _ _ _
  case _ =>
    intro L hL a b c d res
    refine RelM.congr (fun s => matchRange.eq_def rx (acc s) a b c d res) ?_
    exact hL _ _ _ _ _ _
  case _ =>
    intro L O hL hO a b c d e res
    refine RelM.congr (fun s => rangeLoop.eq_def rx (acc s) a b c d e res) ?_
    cases a with
    | none => exact .pure _
    | some r =>
      refine .ite (.pure _) (RelM.bind (hO _ _ _ _) fun p => ?_)
      obtain ⟨mn, res⟩ := p
      cases mn with
      | none => exact hL _ _ _ _ _ _
      | some q => exact .ite (RelM.bind (.lift (nextNode_rel hs _)) fun nx => hL _ _ _ _ _ _) (hL _ _ _ _ _ _)
  case _ =>
    intro O N hO hN r a b res
    refine RelM.congr (fun s => matchRuleOnce.eq_def rx (acc s) r a b res) ?_
    cases a with
    | none => exact .pure _
    | some a =>
      exact .ite (.pure _) (RelM.bind (hN _ _ _) fun p => .ite (.pure _) (RelM.bind (.lift (nextNode_rel hs _)) fun nx => hO _ _ _ _))
  case _ =>
    intro C N hC hN r n res
    refine RelM.congr (fun s => ruleMatchesNodeRecursive.eq_def rx (acc s) r n res) ?_
    refine RelM.bind (.lift (ruleMatches_rel hs _ _)) fun b => .ite (.pure _) (.ite (.pure _) (RelM.bind (.lift (hs.load n)) fun nd =>
      .ite (.pure _) (RelM.bind (.liftE _) fun c => ?_)))
    have jp : ∀ p : Bool × MatchingNodes, RelM P (if (!p.1) = true then pure (false, res) else do
          match ← N r.nested c p.2 with
          | none => pure (false, res)
          | some sub => pure (true, res ++ sub)) (fun s => if (!p.1) = true then pure (false, res) else do
          match ← nestedLoop rx (acc s) r.nested c p.2 with
          | none => pure (false, res)
          | some sub => pure (true, res ++ sub)) :=
      fun p => .ite (.pure _) (RelM.bind (hN _ _ _) fun o => by cases o <;> exact .pure _)
    cases hc : r.child with
    | none => exact RelM.bind (.pure _) jp
    | some c' => exact RelM.bind (hC _ _ _ _) jp
  case _ =>
    intro G C hG hC c n m res
    refine RelM.congr (fun s => childLoop.eq_def rx (acc s) c n m res) ?_
    refine RelM.bind (hG _ _ _) fun p => RelM.bind (.liftE _) fun md => ?_
    obtain ⟨nx, sub⟩ := p
    cases nx with
    | none => exact .pure _
    | some nx => exact hC _ _ _ _
  case _ =>
    intro S N hS hN ns n res
    refine RelM.congr (fun s => nestedLoop.eq_def rx (acc s) ns n res) ?_
    cases ns with
    | nil => exact .pure _
    | cons r rs =>
      exact RelM.bind (hS _ _ _) fun mn => RelM.bind (.liftE _) fun md => .ite (.pure _) (hN _ _ _)

theorem groupMap_rel : ∀ (g : MatchingNodes) (m : List (Str × Str)), Rel P (Hext.groupMap rx h g m) (fun s => groupMap rx (acc s) g m)
  | [], m => .pure _
  | (r, n) :: g, m => by
    simp only [Hext.groupMap, groupMap]
    exact Rel.ite (Rel.bind (ruleCapture_rel hs n _) fun vs => Rel.bind (.pure _) fun m => groupMap_rel g m)
      (Rel.bind (.pure _) fun m => groupMap_rel g m)

theorem groupsToResult_rel : ∀ gs : List MatchingNodes, Rel P (Hext.groupsToResult rx h gs) (fun s => groupsToResult rx (acc s) gs)
  | [] => .pure _
  | g :: gs => by
    simp only [Hext.groupsToResult, groupsToResult]
    exact Rel.bind (groupMap_rel hs g []) fun m => Rel.bind (groupsToResult_rel gs) fun _ => .pure _

/-- An extraction of a thread is the extraction. -/
theorem extract_rel (r : Rule) (n : Ptr) (ms : UInt64) : Rel P (Hext.extract rx h r n ms) (fun s => extract rx (acc s) r n ms) :=
  Rel.bind ((engine_rel hs).1 _ _ _ ms) fun p => groupsToResult_rel hs p.1

end

/-! ## The memory of the document -/

variable {ι : Type} [DecidableEq ι] {S : System ι} {i : ι} {doc : Heap}

theorem write_other {h : Heap} {ws : List (Ptr × Option GNode)} {p : Ptr} (hw : ∀ w ∈ ws, w.1 ≠ p) : ws.foldl write h p = h p := by
  induction ws generalizing h with
  | nil => rfl
  | cons w ws ih =>
    rw [List.foldl_cons, ih fun w hm => hw w (.tail _ hm), write, if_neg fun h => hw w (.head _) h.symm]

theorem mem_doc (hd : ∀ p n, doc p = some n → S.start p = some n) (hw : ∀ j m h w, w ∈ S.writes j m h → doc w.1 = none) :
    ∀ (m : Nat) (p : Ptr) (n : GNode), doc p = some n → S.mem m p = some n
  | 0, p, n, hp => hd p n hp
  | m + 1, p, n, hp => by
    rw [System.mem, write_other]
    · exact mem_doc hd hw m p n hp
    · rintro w hm rfl
      rw [hw _ _ _ _ hm] at hp
      cases hp

open Lean.Order in
theorem wait_ends {turn : Nat → ι} (m : Nat) : wait turn i m = none ∨ ∃ m', wait turn i m = pure m' := by
  revert m
  apply wait.fixpoint_induct turn i (fun F => ∀ m, F m = none ∨ ∃ m', F m = pure m')
  · exact adm (R := fun _ (y : E Nat) => y = none ∨ ∃ m', y = pure m') fun _ =>
      admissible_flatOrder (α := Option (Except Err Nat)) (b := none) (fun y => y = none ∨ ∃ m', y = some (.ok m')) (Or.inl rfl)
  · intro F hF m
    simp only
    split
    · exact .inr ⟨m, rfl⟩
    · exact hF _

open Lean.Order in
theorem wait_done {turn : Nat → ι} {m m' : Nat} : wait turn i m = pure m' → ∃ k, turn (m + k) = i := by
  revert m m'
  suffices h : ∀ m, wait turn i m = none ∨ ∃ k, turn (m + k) = i by
    intro m m' e
    rcases h m with h | h
    · rw [h] at e; cases e
    · exact h
  apply wait.fixpoint_induct turn i (fun F => ∀ m, F m = none ∨ ∃ k, turn (m + k) = i)
  · exact adm (R := fun m (y : E Nat) => y = none ∨ ∃ k, turn (m + k) = i) fun m =>
      admissible_flatOrder (α := Option (Except Err Nat)) (b := none) (fun y => y = none ∨ ∃ k, turn (m + k) = i) (Or.inl rfl)
  · intro F hF m
    simp only
    split
    · exact .inr ⟨0, by assumption⟩
    · rcases hF (m + 1) with h | ⟨k, h⟩
      · exact .inl h
      · exact .inr ⟨k + 1, by rw [← h]; congr 1; omega⟩

theorem wait_self {turn : Nat → ι} {m : Nat} (h : turn m = i) : wait turn i m = pure m := by rw [wait, if_pos h]

/-- A turn comes, or there is no more turn. -/
theorem wait_turns (turn : Nat → ι) (i : ι) (m : Nat) :
    (∃ m', m < m' ∧ turns turn i m m' = 1 ∧ wait turn i m = pure (m' - 1)) ∨ (wait turn i m = none ∧ ∀ m', turns turn i m m' = 0) := by
  have ends := wait_ends (turn := turn) (i := i) m
  have first : ∀ k m, turn (m + k) = i → ∃ m', m < m' ∧ turns turn i m m' = 1 ∧ wait turn i m = pure (m' - 1) := by
    intro k
    induction k with
    | zero =>
      intro m hk
      exact ⟨m + 1, by omega, by simp [turns, show turn m = i from hk], by rw [wait_self (show turn m = i from hk)]; rfl⟩
    | succ k ih =>
      intro m hk
      by_cases hm : turn m = i
      · exact ⟨m + 1, by omega, by simp [turns, hm], by rw [wait_self hm]; rfl⟩
      · obtain ⟨m', h1, h2, h3⟩ := ih (m + 1) (by rw [← hk]; congr 1; omega)
        refine ⟨m', by omega, ?_, by rw [wait, if_neg hm]; exact h3⟩
        rw [← h2, turns, turns, show m' - m = (m' - (m + 1)) + 1 by omega, List.range'_succ, List.countP_cons_of_neg (by simpa using hm)]
  by_cases he : ∃ k, turn (m + k) = i
  · obtain ⟨k, hk⟩ := he
    exact .inl (first k m hk)
  · refine .inr ⟨?_, fun m' => ?_⟩
    · rcases ends with h | ⟨m', h⟩
      · exact h
      · exact absurd (wait_done h) he
    · rw [turns, List.countP_eq_zero]
      intro k hk
      have := List.mem_range'_1.1 hk
      have h2 : ¬ turn k = i := fun h => he ⟨k - m, by rw [← h]; congr 1; omega⟩
      simpa using h2

/-- Runs in which the nodes `doc` are in the memory and nobody writes to them. -/
def Keeps (doc : Heap) (s : Member) : Prop :=
  (∀ p n, doc p = some n → s.S.start p = some n) ∧ ∀ j m h w, w ∈ s.S.writes j m h → doc w.1 = none

/-- How it sees the memory. -/
def Member.access (doc : Heap) (s : Member) : Access := s.S.access s.i doc

/-- A thread that shares the document with threads that do not write to it sees the document, and needs one turn for each access. -/
theorem sees (doc : Heap) : Sees (Keeps doc) (Member.access doc) doc where
  load p := by
    cases hp : doc p with
    | none => exact .inr (.inl (by rw [Hext.load, hp]))
    | some n =>
      refine .inr (.inr ⟨1, fun s hs m => ?_⟩)
      rcases wait_turns s.S.turn s.i m with ⟨m', h1, h2, h3⟩ | ⟨h1, h2⟩
      · refine .inr ⟨m', Nat.le_of_lt h1, h2, ?_⟩
        have h4 : m' - 1 + 1 = m' := by omega
        simp only [Member.access, System.access, h3, Hext.load, hp, pure_bind, mem_doc hs.1 hs.2 _ p n hp, h4]
      · refine .inl ⟨by simp only [Member.access, System.access, h1]; rfl, ?_⟩
        rintro ⟨m', h⟩
        have := h2 m'
        simp only [Member.turns] at h
        omega
  look := by
    refine .inr (.inr ⟨1, fun s hs m => ?_⟩)
    rcases wait_turns s.S.turn s.i m with ⟨m', h1, h2, h3⟩ | ⟨h1, h2⟩
    · refine .inr ⟨m', Nat.le_of_lt h1, h2, ?_⟩
      have h4 : m' - 1 + 1 = m' := by omega
      simp only [Member.access, System.access, h3, pure_bind, h4]
      congr 2
      funext p
      cases hp : doc p with
      | none => rfl
      | some n => simp [mem_doc hs.1 hs.2 _ p n hp]
    · refine .inl ⟨by simp only [Member.access, System.access, h1]; rfl, ?_⟩
      rintro ⟨m', h⟩
      have := h2 m'
      simp only [Member.turns] at h
      omega

end Hext.Threads
