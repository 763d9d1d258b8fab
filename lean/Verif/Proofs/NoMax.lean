import Verif.Model.Matching
/-!
# Only the engine throws `MaxSearchError`
-/

namespace Hext

/-- Does not throw `MaxSearchError`. -/
def NoMax {α} (y : E α) : Prop := y ≠ throw .maxSearch

namespace NoMax

variable {rx : RxEngine} {h : Heap}

theorem pure {α} (a : α) : NoMax (Pure.pure a : E α) := nofun

theorem throw {α} {e : Err} (he : e ≠ .maxSearch) : NoMax (throw e : E α) := by
  intro h
  exact he (Except.error.inj (Option.some.inj h))

theorem bind {α β} {y : E α} {f : α → E β} (h1 : NoMax y) (h2 : ∀ a, NoMax (f a)) : NoMax (y >>= f) := by
  match y, h1 with
  | none, _ => exact nofun
  | some (.error e), h1 => exact fun h => h1 (by injection h with h; injection h with h; rw [h]; rfl)
  | some (.ok a), _ => exact h2 a

theorem ite {α} {c : Prop} [Decidable c] {y y' : E α} (h1 : NoMax y) (h2 : NoMax y') : NoMax (if c then y else y') := by
  split <;> assumption

/-- Closes the goals that are about `pure`, `throw`, and steps for which a hypothesis is given. -/
macro "nomax" "[" ts:term,* "]" : tactic =>
  `(tactic| (repeat' first | exact NoMax.pure _ | exact NoMax.throw (by decide) $[| apply $ts]* | refine NoMax.bind ?_ fun _ => ?_ | split | dsimp only))

theorem load (p : Ptr) : NoMax (load h p) := by unfold Hext.load; nomax []

theorem getAt {α} (l : List α) (i : Nat) : NoMax (getAt l i) := by unfold Hext.getAt; nomax []

theorem nextNode (p : Option Ptr) : NoMax (nextNode h p) := by unfold Hext.nextNode; nomax [NoMax.load]

theorem assert (b : Bool) : NoMax (E.assert b) := by unfold E.assert; nomax []

theorem mkInt (x : Int) : NoMax (mkInt x) := by unfold Hext.mkInt; nomax []

theorem adm {α} : Lean.Order.admissible (fun y : E α => NoMax y) :=
  Lean.Order.admissible_flatOrder (α := Option (Except Err α)) (b := none) _ nofun

theorem findMandatoryRule (a b : Option RulePtr) : NoMax (findMandatoryRule a b) := by
  revert a
  apply Hext.findMandatoryRule.fixpoint_induct b (fun F => ∀ a, NoMax (F a))
  · exact Lean.Order.admissible_pi_apply _ fun _ => adm
  · intro F hF a
    dsimp only
    nomax [hF]

theorem skipOptional (a : Option RulePtr) : NoMax (skipOptional a) := by
  revert a
  apply Hext.skipOptional.fixpoint_induct (fun F => ∀ a, NoMax (F a))
  · exact Lean.Order.admissible_pi_apply _ fun _ => adm
  · intro F hF a
    dsimp only
    nomax [hF]

theorem trimCollapseLoop (str : Str) (c endp : Nat) (b : Bool) : NoMax (trimCollapseLoop str c endp b) := by
  fun_induction Hext.trimCollapseLoop with
  | case1 str c endp b hlt ih3 ih2 ih1 =>
    refine NoMax.bind (NoMax.getAt _ _) fun ch => ite (ih3) ?_
    split
    · split
      · refine NoMax.bind (NoMax.getAt _ _) fun ch1 => ?_
        split
        · exact ih2 _ (by assumption)
        · exact .throw (by decide)
      · exact .throw (by decide)
    · split
      · exact ih1 _
      · exact .throw (by decide)
  | case2 => exact .pure _

theorem trimAndCollapseWs (s : Str) : NoMax (trimAndCollapseWs s) := by
  unfold Hext.trimAndCollapseWs
  nomax [NoMax.trimCollapseLoop]

theorem stripTags (b : Bool) (p : Ptr) : NoMax (stripTags h b p) := by
  revert p
  refine (Hext.stripTags.mutual_fixpoint_induct h b (fun F => ∀ p, NoMax (F p)) (fun F => ∀ cs t, NoMax (F cs t)) ?_ ?_ ?_ ?_).1
  · exact Lean.Order.admissible_pi_apply _ fun _ => adm
  · exact Lean.Order.admissible_pi_apply _ fun _ => Lean.Order.admissible_pi_apply _ fun _ => adm
  · intro L hL p
    dsimp only
    nomax [NoMax.load, hL]
  · intro S L hS hL cs t
    dsimp only
    nomax [NoMax.load, hS, hL]

theorem serializeChildren (cs : List Ptr) : NoMax (serializeChildren h cs) := by
  revert cs
  refine (Hext.serializeNode.mutual_fixpoint_induct h (fun F => ∀ p, NoMax (F p)) (fun F => ∀ e cs, NoMax (F e cs))
    (fun F => ∀ cs, NoMax (F cs)) ?_ ?_ ?_ ?_ ?_ ?_).2.2
  · exact Lean.Order.admissible_pi_apply _ fun _ => adm
  · exact Lean.Order.admissible_pi_apply _ fun _ => Lean.Order.admissible_pi_apply _ fun _ => adm
  · exact Lean.Order.admissible_pi_apply _ fun _ => adm
  · intro E hE p
    dsimp only
    nomax [NoMax.load, hE]
  · intro C hC e cs
    dsimp only
    nomax [hC]
  · intro N C hN hC cs
    dsimp only
    nomax [hN, hC]

theorem call (p : Ptr) (f : CaptureFn) : NoMax (f.call h p) := by
  cases f <;> simp only [CaptureFn.call, nodeText, nodeInnerHtml]
  all_goals nomax [NoMax.load, NoMax.stripTags, NoMax.trimAndCollapseWs, NoMax.serializeChildren]

theorem test (v : ValueTest) (s : Option Str) : NoMax (v.test rx s) := by
  induction v with
  | negate v ih => simp only [ValueTest.test]; nomax [ih]
  | _ => cases s <;> simp only [ValueTest.test] <;> nomax []

theorem transform (p : Transform) (s : Str) : NoMax (p.transform rx s) := by
  cases p <;> simp only [Transform.transform] <;> nomax [NoMax.trimAndCollapseWs]

theorem countPrecedingLoop (cs : List Ptr) (p : Ptr) (t : Option Tag) : ∀ (fuel i : Nat) (count : Int),
    NoMax (countPrecedingLoop h cs p t i count fuel)
  | 0, _, _ => .pure _
  | fuel + 1, i, count => by
    have ih := countPrecedingLoop cs p t fuel
    unfold Hext.countPrecedingLoop
    nomax [NoMax.load, NoMax.assert, NoMax.getAt, NoMax.mkInt, ih]

theorem countFollowingLoop (cs : List Ptr) (p : Ptr) (index : Nat) (t : Option Tag) : ∀ (i : Nat) (count : Int),
    NoMax (countFollowingLoop h cs p index t count i)
  | 0, _ => .pure _
  | i + 1, count => by
    have ih := countFollowingLoop cs p index t i
    unfold Hext.countFollowingLoop
    nomax [NoMax.load, NoMax.assert, NoMax.getAt, NoMax.mkInt, ih]

theorem nthChild (a b : Int) (c d : Bool) (p : Ptr) : NoMax (nthChildMatches h a b c d p) := by
  unfold nthChildMatches countPreceding countFollowing
  nomax [NoMax.load, NoMax.assert, NoMax.mkInt, NoMax.countPrecedingLoop, NoMax.countFollowingLoop]

theorem countChildElements : ∀ (cs : List Ptr) (n : Nat), NoMax (countChildElements h cs n)
  | [], _ => .pure _
  | c :: cs, _ => bind (.load c) fun _ => countChildElements cs _

theorem onlyChildLoop (p : Ptr) (t : Option Tag) : ∀ cs : List Ptr, NoMax (onlyChildLoop h p t cs)
  | [] => .pure _
  | c :: cs => bind (.load c) fun _ => ite (.pure _) (onlyChildLoop p t cs)

theorem onlyChild (b : Bool) (p : Ptr) : NoMax (onlyChildMatches h b p) := by
  unfold onlyChildMatches
  nomax [NoMax.load, NoMax.onlyChildLoop]

end NoMax

end Hext
