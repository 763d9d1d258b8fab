import Verif.Proofs.Part
import Verif.Props.Part
set_option linter.unusedSimpArgs false
/-!
# C82: conditions filter
-/

namespace Hext.Props

open Hext Part
open scoped List

section
variable {rx : RxEngine} {h : Heap} {n : Nat} {l : Loc}

theorem allMatch_append {m : Match} {p : Ptr} {c b : Bool} (hm : m.matches rx h p = pure c) :
    ∀ {ms : List (Option Match)}, allMatch rx h p ms = pure b → allMatch rx h p (ms ++ [some m]) = pure (b && c)
  | [], hb => by
    have := E.pure_inj (hb : (pure true : E _) = _)
    subst this
    simp only [List.nil_append, allMatch, hm, pure_bind]
    cases c <;> rfl
  | o :: ms, hb => by
    simp only [allMatch, List.cons_append] at hb ⊢
    cases o with
    | none => exact allMatch_append (ms := ms) hm hb
    | some q =>
      obtain ⟨x, h1, hb⟩ := bind_eq_pure hb
      simp only [h1, pure_bind] at hb ⊢
      cases x with
      | false =>
        have := E.pure_inj (hb : (pure false : E _) = _)
        subst this
        rfl
      | true => exact allMatch_append (ms := ms) hm hb

theorem negate_one {m : Match} {p : Ptr} {c : Bool} (hm : m.matches rx h p = pure c) :
    (Match.negate [some m]).matches rx h p = pure !c := by
  simp only [Match.matches, negateLoop, optMatches, hm, pure_bind]
  cases c <;> rfl

/-- The info with a further condition. -/
def withMatch (i : RuleInfo) (m : Match) : RuleInfo := { i with ms := i.ms ++ [some m] }

theorem ownVal_with (hn : n ≤ 2147483647) {i : RuleInfo} (hi : i.Safe n) (hs : l.Stored h n) {m : Match} {c : Bool}
    (hm : m.matches rx h l.ptr = pure c) : ownVal rx h (withMatch i m) l = (ownVal rx h i l && c) := by
  obtain ⟨pp, idx, hl⟩ := hs.load
  obtain ⟨b, hb⟩ := allMatch_total rx hs hn i.ms hi.1
  have h1 : ∀ j : RuleInfo, j.tag = i.tag → j.tagname = i.tagname → ruleMatches rx h j l.ptr =
      if !tagAgrees i l.self.kind then pure false else allMatch rx h l.ptr j.ms := by
    intro j e1 e2
    simp only [ruleMatches, load_eq hl, pure_bind, tagAgrees, e1, e2]
    rfl
  unfold ownVal
  rw [h1 (withMatch i m) rfl rfl, h1 i rfl rfl]
  cases tagAgrees i l.self.kind
  · cases c <;> rfl
  · simp only [withMatch, allMatch_append hm hb, hb, Bool.not_true, Bool.false_eq_true, if_false]
    cases b <;> cases c <;> rfl

/-- What a sole rule finds. -/
def soleRun (rx : RxEngine) (h : Heap) (i : RuleInfo) (c : Option Rule) (ns : List Rule) (x : Loc) : Option Found :=
  (runRule (ownVal rx h i) (chainO (ownVal rx h) [.child] c) (chainN (ownVal rx h) [] 0 ns) x).val.map fun s =>
    found s ++ [(.mk i c none ns, x)]

theorem sole_search {i : RuleInfo} {c : Option Rule} {ns : List Rule} (hg : i.greedy = false) (l : Loc) :
    (searchAt rx h (.mk i c none ns) l).val.map found = l.searched.flatten.filterMap (soleRun rx h i c ns) := by
  unfold searchAt
  rw [show chain (ownVal rx h) [] (.mk i c none ns) = [_] from rfl, save_single _ hg]
  rw [show (l.onward :: underL (l.onward.map (·.self))).flatten = l.searched.flatten from rfl, List.map_filterMap]
  congr 1
  funext x
  simp only [oneGroup, soleRun, Option.map_map]
  congr 1
  funext s
  simp [found]

theorem soleRun_with (hn : n ≤ 2147483647) {i : RuleInfo} (hi : i.Safe n) {ch : Option Rule} {ns : List Rule} {x : Loc}
    (hs : x.Stored h n) {m : Match} {c : Bool} (hm : m.matches rx h x.ptr = pure c) :
    soleRun rx h (withMatch i m) ch ns x =
      if c then (runRule (ownVal rx h i) (chainO (ownVal rx h) [.child] ch) (chainN (ownVal rx h) [] 0 ns) x).val.map fun s =>
        found s ++ [(.mk (withMatch i m) ch none ns, x)] else none := by
  unfold soleRun
  have := ownVal_with (rx := rx) hn hi hs hm
  unfold runRule
  rw [this]
  cases c
  · simp
  · simp only [Bool.and_true]
    rfl

theorem captured_last {r r' : Rule} {g : Found} {x : Loc} (hc : r.info.caps = r'.info.caps) {vs : List (Str × Str)}
    (hv : Captured rx h (g ++ [(r, x)]) vs) : Captured rx h (g ++ [(r', x)]) vs := by
  induction g generalizing vs with
  | nil =>
    cases hv with
    | cons k hv =>
      cases hv
      exact .cons (hc ▸ k) .nil
  | cons p g ih =>
    cases hv with
    | cons k hv => exact .cons k (ih hv)

theorem maps_filter (hn : n ≤ 2147483647) {i : RuleInfo} (hi : i.Safe n) {ch : Option Rule} {ns : List Rule} {m : Match}
    (hm : m.Safe n) : ∀ {xs : List Loc}, (∀ x ∈ xs, x.Stored h n) → ∀ {ms m1 m2 : List (List (Str × Str))},
    Maps rx h (xs.filterMap (soleRun rx h i ch ns)) ms →
    Maps rx h (xs.filterMap (soleRun rx h (withMatch i m) ch ns)) m1 →
    Maps rx h (xs.filterMap (soleRun rx h (withMatch i (.negate [some m])) ch ns)) m2 → m1 <+ ms ∧ m2 <+ ms ∧ (m1 ++ m2).Perm ms
  | [], _, ms, m1, m2, h0, h1, h2 => by
    cases h0; cases h1; cases h2
    exact ⟨.slnil, .slnil, .nil⟩
  | x :: xs, hx, ms, m1, m2, h0, h1, h2 => by
    have hxs : ∀ x ∈ xs, x.Stored h n := fun y hy => hx y (by simp [hy])
    have hst := hx x (by simp)
    obtain ⟨c, hc⟩ := Match.matches_total rx hst hn m hm
    rw [List.filterMap_cons] at h0 h1 h2
    rw [soleRun_with hn hi hst hc] at h1
    rw [soleRun_with hn hi hst (negate_one hc)] at h2
    unfold soleRun at h0
    cases hr : (runRule (ownVal rx h i) (chainO (ownVal rx h) [.child] ch) (chainN (ownVal rx h) [] 0 ns) x).val with
    | none =>
      rw [hr] at h0 h1 h2
      have e : ∀ b : Bool, (if b = true then (none : Option Found) else none) = none := by intro b; cases b <;> rfl
      simp only [Option.map_none, e] at h0 h1 h2
      exact maps_filter hn hi hm hxs h0 h1 h2
    | some s =>
      rw [hr] at h0 h1 h2
      simp only [Option.map_some] at h0 h1 h2
      cases h0 with
      | cons k0 j0 h0 =>
        cases c with
        | true =>
          simp only [if_true, Bool.not_true, Bool.false_eq_true, if_false] at h1 h2
          cases h1 with
          | cons k1 j1 h1 =>
            obtain ⟨p, p', q⟩ := maps_filter hn hi hm hxs h0 h1 h2
            have := (captured_last (r := .mk i ch none ns) (r' := .mk (withMatch i m) ch none ns) rfl k0).unique k1
            subst this
            rw [j1.unique j0]
            exact ⟨p.cons_cons _, p'.cons _, q.cons _⟩
        | false =>
          simp only [if_true, Bool.not_false, Bool.false_eq_true, if_false] at h1 h2
          cases h2 with
          | cons k2 j2 h2 =>
            obtain ⟨p, p', q⟩ := maps_filter hn hi hm hxs h0 h1 h2
            have := (captured_last (r := .mk i ch none ns) (r' := .mk (withMatch i (.negate [some m])) ch none ns) rfl k0).unique k2
            subst this
            rw [j2.unique j0]
            exact ⟨p.cons _, p'.cons_cons _, (List.perm_middle).trans (q.cons _)⟩

variable {r : Rule}

theorem appendMatch_safe {m : Match} (hs : r.Safe n) (hm : m.Safe n) : (r.appendMatch (some m)).Safe n := by
  obtain ⟨i, c, nx, ns⟩ := r
  simp only [Rule.appendMatch, Rule.Safe, Rule.All] at hs ⊢
  refine ⟨⟨?_, hs.1.2⟩, hs.2⟩
  have : ∀ ms : List (Option Match), Match.SafeL n ms → Match.SafeL n (ms ++ [some m]) := by
    intro ms
    induction ms with
    | nil => intro _; simpa [Match.SafeL, Match.SafeO] using hm
    | cons o ms ih => intro hs; exact ⟨hs.1, ih hs.2⟩
  exact this _ hs.1.1

/-- C82. A further condition can only remove something from the result of a sole rule that is not greedy: what is left keeps its
order. And what the condition removes is what its negation leaves. -/
theorem conditions_filter (hn : n ≤ 2147483647) (hs : r.Safe n) (hnx : r.next = none) (hg : r.isGreedy = false) {m : Match}
    (hm : m.Safe n) (hl : l.Stored h n) {ms ms₁ ms₂ : UInt64} {res res₁ res₂ : List (List (Str × Str))}
    (h0 : extract rx h r l.ptr ms = pure res) (h1 : extract rx h (r.appendMatch (some m)) l.ptr ms₁ = pure res₁)
    (h2 : extract rx h (r.appendMatch (some (.negate [some m]))) l.ptr ms₂ = pure res₂) :
    res₁ <+ res ∧ res₂ <+ res ∧ (res₁ ++ res₂).Perm res := by
  have hm' : (Match.negate [some m]).Safe n := ⟨hm, trivial⟩
  obtain ⟨⟨maps, k0, rfl⟩, _⟩ := result_of hn hs hl h0
  obtain ⟨⟨maps₁, k1, rfl⟩, _⟩ := result_of hn (appendMatch_safe hs hm) hl h1
  obtain ⟨⟨maps₂, k2, rfl⟩, _⟩ := result_of hn (appendMatch_safe hs hm') hl h2
  have hi : r.info.Safe n := by cases r; exact hs.1
  obtain ⟨i, c, nx, ns⟩ := r
  simp only [Rule.next] at hnx
  subst hnx
  have hst : ∀ x ∈ l.searched.flatten, x.Stored h n := fun x hx => reach_stored hl (searched_iff.1 hx)
  rw [sole_search (i := i) hg] at k0
  rw [show Rule.appendMatch (some m) (.mk i c none ns) = .mk (withMatch i m) c none ns from rfl,
    sole_search (i := withMatch i m) hg] at k1
  rw [show Rule.appendMatch (some (.negate [some m])) (.mk i c none ns) = .mk (withMatch i (.negate [some m])) c none ns from rfl,
    sole_search (i := withMatch i (.negate [some m])) hg] at k2
  obtain ⟨p, p', q⟩ := maps_filter hn hi hm hst k0 k1 k2
  refine ⟨p.filter _, p'.filter _, ?_⟩
  rw [← List.filter_append]
  exact q.filter _

/-- C82, when each of the extractions has no limit: all three return. -/
theorem C82_unlimited (hn : n ≤ 2147483647) (hs : r.Safe n) (hnx : r.next = none) (hg : r.isGreedy = false) {m : Match}
    (hm : m.Safe n) (hl : l.Stored h n) : ∃ res res₁ res₂, extract rx h r l.ptr 0 = pure res ∧
      extract rx h (r.appendMatch (some m)) l.ptr 0 = pure res₁ ∧
      extract rx h (r.appendMatch (some (.negate [some m]))) l.ptr 0 = pure res₂ ∧
      res₁ <+ res ∧ res₂ <+ res ∧ (res₁ ++ res₂).Perm res := by
  have hm' : (Match.negate [some m]).Safe n := ⟨hm, trivial⟩
  obtain ⟨res, _, _, h0⟩ := extract_result (rx := rx) hn hs hl
  obtain ⟨res₁, _, _, h1⟩ := extract_result (rx := rx) hn (appendMatch_safe hs hm) hl
  obtain ⟨res₂, _, _, h2⟩ := extract_result (rx := rx) hn (appendMatch_safe hs hm') hl
  have h0 := h0 0
  have h1 := h1 0
  have h2 := h2 0
  rw [if_neg (by simp)] at h0 h1 h2
  exact ⟨res, res₁, res₂, h0, h1, h2, conditions_filter hn hs hnx hg hm hl h0 h1 h2⟩

end

/-! ## Examples -/

/-- The condition `href="3"`. -/
def isThree : Match := .attribute (lit "href") (some (.equals (lit "3")))

example : ∃ res res₁ res₂, extract Ex.rx (docHeap 0 docDeep) hrefRule docDeep.ptr 0 = pure res ∧
    extract Ex.rx (docHeap 0 docDeep) (hrefRule.appendMatch (some isThree)) docDeep.ptr 0 = pure res₁ ∧
    extract Ex.rx (docHeap 0 docDeep) (hrefRule.appendMatch (some (.negate [some isThree]))) docDeep.ptr 0 = pure res₂ ∧
    res₁ <+ res ∧ res₂ <+ res ∧ (res₁ ++ res₂).Perm res :=
  C82_unlimited (l := Loc.root docDeep) (by decide) href_safe rfl rfl (by simp [isThree, Match.Safe]) docDeep_ok

theorem deep_three : extract Ex.rx (docHeap 0 docDeep) (hrefRule.appendMatch (some isThree)) docDeep.ptr 0 =
    pure [[(lit "x", lit "3")]] := by
  rw [show docDeep.ptr = (Loc.root docDeep).ptr from rfl,
    extract_eq (by decide) (appendMatch_safe href_safe (by simp [isThree, Match.Safe])) docDeep_ok]
  decide +kernel

theorem deep_others : extract Ex.rx (docHeap 0 docDeep) (hrefRule.appendMatch (some (.negate [some isThree]))) docDeep.ptr 0 =
    pure [[(lit "x", lit "1")], [(lit "x", lit "2")], [(lit "x", lit "4")]] := by
  rw [show docDeep.ptr = (Loc.root docDeep).ptr from rfl,
    extract_eq (by decide) (appendMatch_safe href_safe (by simp [isThree, Match.Safe, Match.SafeL, Match.SafeO])) docDeep_ok]
  decide +kernel

example : [[(lit "x", lit "3")]] <+ [[(lit "x", lit "1")], [(lit "x", lit "2")], [(lit "x", lit "3")], [(lit "x", lit "4")]] :=
  (conditions_filter (l := Loc.root docDeep) (by decide) href_safe rfl rfl (by simp [isThree, Match.Safe]) docDeep_ok deep_links deep_three
    deep_others).1

/-- C82 is about sole rules. With sibling rules, a further condition can give new results: of the links 1, 2, 3, 4, two rules pair up
1 and 2, and 3 and 4; if the first must not be link 1, then they pair up 2 and 3. -/
theorem C82_siblings : ∃ m : Match, m.Safe 1147483648 ∧
    extract Ex.rx (docHeap 0 docDeep) pairRule docDeep.ptr 0 =
      pure [[(lit "x", lit "1"), (lit "y", lit "2")], [(lit "x", lit "3"), (lit "y", lit "4")]] ∧
    extract Ex.rx (docHeap 0 docDeep) (pairRule.appendMatch (some m)) docDeep.ptr 0 = pure [[(lit "x", lit "2"), (lit "y", lit "3")]] := by
  have hm : (Match.negate [some (.attribute (lit "href") (some (.equals (lit "1"))))]).Safe 1147483648 := by
    simp [Match.Safe, Match.SafeL, Match.SafeO]
  refine ⟨_, hm, C80_from_the_middle.2.1, ?_⟩
  rw [show docDeep.ptr = (Loc.root docDeep).ptr from rfl, extract_eq (by decide) (appendMatch_safe pairRule_safe hm) docDeep_ok]
  decide +kernel

end Hext.Props
