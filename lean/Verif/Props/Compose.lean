import Verif.Spec.Compose
import Verif.Proofs.Similar
import Verif.Props.Filter
import Verif.Props.SimilarHext
set_option linter.unusedSimpArgs false
/-!
# C87: what rules inside of a rule contribute
-/

namespace Hext.Props

open Hext Part Param
open scoped List

section
variable {rx : RxEngine} {h : Heap} {n : Nat} {l : Loc}

/-! ## One more rule inside -/

theorem nestedRun_append (kids : List Tree) (cs : List (CR RulePtr Loc)) : ∀ css : List (List (CR RulePtr Loc)),
    (nestedRun kids (css ++ [cs])).val = (nestedRun kids css).val.bind fun ps =>
      if (save cs (locs kids)).val.isEmpty && (firstMand cs).isSome then none
      else some (ps ++ (save cs (locs kids)).val.flatten)
  | [] => by
    simp only [List.nil_append, nestedRun, Option.bind_some]
    split <;> simp
  | d :: css => by
    have ih := nestedRun_append kids cs css
    simp only [List.cons_append, nestedRun]
    split
    · rfl
    · rw [ih]
      cases (nestedRun kids css).val with
      | none => rfl
      | some ps =>
        simp only [Option.bind_some]
        by_cases hb : ((save cs (locs kids)).val.isEmpty && (firstMand cs).isSome) = true
        · simp [hb]
        · simp [hb]

/-- An element with children. -/
def HasKids (x : Loc) : Prop := x.self.kind.isElement = true ∧ x.self.kids ≠ []

theorem not_hasKids {x : Loc} (hk : ¬ HasKids x) : (!x.self.kind.isElement || x.self.kids.isEmpty) = true := by
  unfold HasKids at hk
  cases he : x.self.kind.isElement <;> cases hx : x.self.kids <;> simp_all

theorem hasKids_eq {x : Loc} (hk : HasKids x) : (!x.self.kind.isElement || x.self.kids.isEmpty) = false := by
  obtain ⟨h1, h2⟩ := hk
  cases hx : x.self.kids <;> simp_all

/-- With a further nested rule, a match is one without it, and what the nested rule finds is appended. -/
theorem runRule_nested {own : Loc → Bool} {ch cs : List (CR RulePtr Loc)} {css : List (List (CR RulePtr Loc))} {x : Loc}
    {s : Pairs RulePtr Loc} (hr : (runRule own ch (css ++ [cs]) x).val = some s) :
    ∃ t, (runRule own ch css x).val = some t ∧ s = t ++ (save cs (locs x.self.kids)).val.flatten := by
  unfold runRule at hr ⊢
  cases ho : own x with
  | false => simp [ho] at hr
  | true =>
    simp only [ho, Bool.not_true, Bool.false_eq_true, if_false] at hr ⊢
    rw [show (css ++ [cs]).isEmpty = false by cases css <;> rfl] at hr
    simp only [Bool.and_false, Bool.false_eq_true, if_false] at hr
    by_cases hk : HasKids x
    · rw [hasKids_eq hk] at hr ⊢
      simp only [Bool.false_eq_true, if_false] at hr ⊢
      rw [nestedRun_append] at hr
      cases hc : ch.isEmpty with
      | true =>
        simp only [hc, Bool.true_or, if_true, Bool.true_and, List.flatten_nil, List.nil_append] at hr ⊢
        cases css with
        | nil =>
          simp only [nestedRun, Option.bind_some, List.nil_append, List.isEmpty_nil, if_true] at hr ⊢
          refine ⟨[], rfl, ?_⟩
          split at hr
          · next he => split at he <;> simp_all
          · next he => split at he <;> simp_all
        | cons d css =>
          simp only [List.isEmpty_cons, Bool.false_eq_true, if_false]
          cases hn : (nestedRun x.self.kids (d :: css)).val with
          | none => rw [hn] at hr; simp at hr
          | some ps =>
            rw [hn] at hr
            simp only [Option.bind_some] at hr
            refine ⟨ps, rfl, ?_⟩
            by_cases hb : ((save cs (locs x.self.kids)).val.isEmpty && (firstMand cs).isSome) = true
            · simp [hb] at hr
            · simp [hb] at hr
              exact hr.symm
      | false =>
        simp only [hc, Bool.false_or, Bool.false_and, Bool.false_eq_true, if_false] at hr ⊢
        split at hr
        · next hg =>
          rw [if_pos hg]
          cases hn : (nestedRun x.self.kids css).val with
          | none => rw [hn] at hr; simp at hr
          | some ps =>
            rw [hn] at hr
            simp only [Option.bind_some] at hr
            refine ⟨_, rfl, ?_⟩
            by_cases hb : ((save cs (locs x.self.kids)).val.isEmpty && (firstMand cs).isSome) = true
            · simp [hb] at hr
            · simp [hb] at hr
              rw [← hr]; simp
        · cases hr
    · rw [not_hasKids hk] at hr
      simp at hr

/-- With a first child rule, a match is one without it, and what the child rule finds comes first. -/
theorem runRule_child {own : Loc → Bool} {cs : List (CR RulePtr Loc)} {css : List (List (CR RulePtr Loc))} {x : Loc}
    {s : Pairs RulePtr Loc} (hcs : cs ≠ []) (hr : (runRule own cs css x).val = some s) :
    ∃ t, (runRule own [] css x).val = some t ∧ s = (groups cs (locs x.self.kids)).val.flatten ++ t := by
  unfold runRule at hr ⊢
  cases ho : own x with
  | false => simp [ho] at hr
  | true =>
    have hc : cs.isEmpty = false := by cases cs <;> simp_all
    simp only [ho, hc, Bool.not_true, Bool.false_eq_true, if_false, Bool.false_and, List.isEmpty_nil, Bool.true_and, Bool.true_or,
      if_true, List.flatten_nil, List.nil_append, Bool.false_or] at hr ⊢
    by_cases hk : HasKids x
    · rw [hasKids_eq hk] at hr ⊢
      simp only [Bool.false_eq_true, if_false] at hr ⊢
      split at hr
      · cases hn : (nestedRun x.self.kids css).val with
        | none => rw [hn] at hr; simp at hr
        | some ps =>
          rw [hn] at hr
          simp only [Option.some.injEq] at hr
          cases css with
          | nil =>
            simp only [nestedRun, Option.some.injEq] at hn
            subst hn
            exact ⟨[], rfl, hr.symm⟩
          | cons d css => exact ⟨ps, rfl, hr.symm⟩
      · cases hr
    · rw [not_hasKids hk] at hr
      simp at hr

theorem sole_sat (i : RuleInfo) (c : Option Rule) (ns : List Rule) (x : Loc) :
    (soleRun rx h i c ns x).isSome = true ↔ Sat (Holds rx h) (.mk i c none ns) x := by
  obtain ⟨c1, c2, c3⟩ := chainO_good (ownVal rx h) [.child] c
  have hn := chainN_good (ownVal rx h) [] 0 ns
  have := (runRule_lift (i := i) (nx := none) c1 c2 hn c3 x).1
  rw [← holds_eq, ← this, soleRun, Option.isSome_map]

variable {own : RuleInfo → Loc → Prop}

theorem nestedSat_append {d : Rule} {t : Tree} : ∀ {ns : List Rule},
    NestedSat own (ns ++ [d]) t ↔ NestedSat own ns t ∧ ∃ ks ∈ t.under, Embeds own d.siblings ks
  | [] => by
    constructor
    · intro hs
      cases hs with
      | cons h1 h2 _ => exact ⟨.nil, _, h1, h2⟩
    · rintro ⟨_, ks, h1, h2⟩
      exact .cons h1 h2 .nil
  | q :: ns => by
    constructor
    · intro hs
      cases hs with
      | cons h1 h2 h3 => exact ⟨.cons h1 h2 (nestedSat_append.1 h3).1, (nestedSat_append.1 h3).2⟩
    · rintro ⟨h1, h2⟩
      cases h1 with
      | cons k1 k2 k3 => exact .cons k1 k2 (nestedSat_append.2 ⟨k3, h2⟩)

theorem sat_nested {i : RuleInfo} {c : Option Rule} {ns : List Rule} {d : Rule} {x : Loc} :
    Sat own (.mk i c none (ns ++ [d])) x ↔ Sat own (.mk i c none ns) x ∧ x.self.kind.isElement = true ∧ x.self.kids ≠ [] ∧
      ∃ ks ∈ x.self.under, Embeds own d.siblings ks := by
  constructor
  · intro hs
    cases hs with
    | leaf _ _ h => simp [Rule.nested] at h
    | inner h1 h2 h3 h4 h5 =>
      have := nestedSat_append.1 h5
      exact ⟨.inner h1 h2 h3 h4 this.1, h2, h3, this.2⟩
  · rintro ⟨hs, h2, h3, h6⟩
    cases hs with
    | leaf h1 hc hn =>
      simp only [Rule.child, Rule.nested] at hc hn
      subst hc hn
      exact .inner h1 h2 h3 .nil (nestedSat_append.2 ⟨.nil, h6⟩)
    | inner h1 _ _ h4 h5 => exact .inner h1 h2 h3 h4 (nestedSat_append.2 ⟨h5, h6⟩)

theorem sat_child {i : RuleInfo} {ns : List Rule} {c : Rule} {x : Loc} :
    Sat own (.mk i (some c) none ns) x ↔ Sat own (.mk i none none ns) x ∧ x.self.kind.isElement = true ∧ x.self.kids ≠ [] ∧
      Embeds own c.siblings (locs x.self.kids) := by
  constructor
  · intro hs
    cases hs with
    | leaf _ h _ => cases h
    | inner h1 h2 h3 h4 h5 => exact ⟨.inner h1 h2 h3 .nil h5, h2, h3, h4⟩
  · rintro ⟨hs, h2, h3, h6⟩
    cases hs with
    | leaf h1 hc hn =>
      simp only [Rule.child, Rule.nested] at hc hn
      subst hn
      exact .inner h1 h2 h3 h6 .nil
    | inner h1 _ _ h4 h5 => exact .inner h1 h2 h3 h6 h5

/-! ## Captured values -/

theorem captured_split : ∀ {a b : Found} {vs : List (Str × Str)}, Captured rx h (a ++ b) vs →
    ∃ v w, vs = v ++ w ∧ Captured rx h a v ∧ Captured rx h b w
  | [], b, vs, hc => ⟨[], vs, rfl, .nil, hc⟩
  | p :: a, b, _, hc => by
    cases hc with
    | cons k hc =>
      obtain ⟨v, w, rfl, h1, h2⟩ := captured_split (a := a) hc
      exact ⟨_, w, (List.append_assoc ..).symm, .cons k h1, h2⟩

theorem captured_own {r : Rule} {x : Loc} {vs : List (Str × Str)} (hc : Captured rx h [(r, x)] vs) :
    ruleCapture rx h x.ptr r.info.caps = pure vs := by
  cases hc with
  | cons k hc => cases hc; simpa using k

/-- All values of the maps of some groups are those of the pairs in them. -/
theorem maps_values : ∀ {gs : List Found} {ms : List (List (Str × Str))} {vs : List (Str × Str)}, Maps rx h gs ms →
    Captured rx h gs.flatten vs → ∀ name, (ms.filter (· ≠ [])).flatten.filter (·.1 = name) = vs.filter (·.1 = name)
  | _, _, _, .nil, hc, name => by cases hc; rfl
  | _, _, vs, .cons (g := g) (gs := gs) (m := m) (ms := ms) k1 k2 k3, hc, name => by
    rw [List.flatten_cons] at hc
    obtain ⟨v, w, rfl, h1, h2⟩ := captured_split hc
    have ih := maps_values k3 h2 name
    rw [k1.unique h1] at k2
    rw [List.filter_append, ← k2.2 name, ← ih]
    by_cases hm : m = []
    · simp [hm]
    · simp [hm, List.filter_cons]

theorem captured_same {ps qs : Pairs RulePtr Loc} (hp : All2 (Pair2 (PRel (· = ·)) (Same (Loc.Stored h n))) ps qs)
    {vs : List (Str × Str)} (hc : Captured rx h (found ps) vs) : Captured rx h (found qs) vs := by
  induction hp generalizing vs with
  | nil => exact hc
  | cons hpq _ ih =>
    cases hc with
    | cons k hc =>
      refine .cons ?_ (ih hc)
      have h1 : _ = _ := hpq.1
      rw [← h1, ← lrel_eq hpq.2.1]
      exact k

mutual
theorem alike_refl : ∀ r : Rule, r.Alike (· = ·) r
  | .mk i c nx ns => by
    simp only [Rule.Alike, Rule.info, Rule.child, Rule.next, Rule.nested]
    exact ⟨trivial, alikeO_refl c, alikeO_refl nx, alikeL_refl ns⟩
theorem alikeO_refl : ∀ o : Option Rule, Rule.AlikeO (· = ·) o o
  | none => by simp [Rule.AlikeO]
  | some r => by simp only [Rule.AlikeO]; exact ⟨r, rfl, alike_refl r⟩
theorem alikeL_refl : ∀ rs : List Rule, Rule.AlikeL (· = ·) rs rs
  | [] => by simp [Rule.AlikeL]
  | r :: rs => by simp only [Rule.AlikeL]; exact ⟨r, rs, rfl, alike_refl r, alikeL_refl rs⟩
end

/-- Where a rule is stored makes no difference to what it finds. -/
theorem save_addr {r : Rule} {ls : List Loc} (hl : ∀ x ∈ ls, x.Stored h n) (a b : List Step) :
    All2 (All2 (Pair2 (PRel (· = ·)) (Same (Loc.Stored h n)))) (save (chain (ownVal rx h) a r) ls).val
      (save (chain (ownVal rx h) b r) ls).val := by
  have hrules : GoodRules (· = ·) (fun _ => False) (Loc.Stored h n) (Loc.Stored h n) (ownVal rx h) (ownVal rx h) (· = ·) := by
    refine ⟨fun i i' hi => by rw [hi], fun i i' hi => by rw [hi], ?_, fun _ _ x _ hd => absurd hd (never x)⟩
    intro i i' l l' hi hll
    rw [lrel_eq hll.1, hi]
  have hc := chain_rel (stored_good h n) hrules r r a b (alike_refl r) (.inl never)
  exact (save_rel (stored_good h n) hc (same_sib hl)).1

/-! ## Entries -/

theorem entries {f g : Loc → Option Found} : ∀ {xs : List Loc}, (∀ x ∈ xs, f x = none → g x = none) →
    ∀ {ms ms' : List (List (Str × Str))}, Maps rx h (xs.filterMap f) ms → Maps rx h (xs.filterMap g) ms' →
    ∃ es : List MatchChange, (es.map (·.node)) <+ xs ∧ (∀ x ∈ xs, x ∈ es.map (·.node) ↔ (f x).isSome = true) ∧
      ms = es.map (·.before) ∧ ms' = es.filterMap (·.after) ∧
      ∀ e ∈ es, (∃ p vs, f e.node = some p ∧ Captured rx h p vs ∧ IsMap vs e.before) ∧
        (e.after.isSome = true ↔ (g e.node).isSome = true) ∧
        ∀ m, e.after = some m → ∃ p vs, g e.node = some p ∧ Captured rx h p vs ∧ IsMap vs m
  | [], _, ms, ms', h0, h1 => by
    cases h0; cases h1
    exact ⟨[], .slnil, by simp, rfl, rfl, by simp⟩
  | x :: xs, hx, ms, ms', h0, h1 => by
    have hxs : ∀ y ∈ xs, f y = none → g y = none := fun y hy => hx y (by simp [hy])
    rw [List.filterMap_cons] at h0 h1
    cases hf : f x with
    | none =>
      rw [hf] at h0
      rw [hx x (by simp) hf] at h1
      obtain ⟨es, k1, k2, k3, k4, k5⟩ := entries hxs h0 h1
      refine ⟨es, k1.cons _, ?_, k3, k4, k5⟩
      intro y hy
      rcases List.mem_cons.1 hy with rfl | hy
      · rw [hf]
        by_cases hm : y ∈ xs
        · rw [k2 y hm, hf]
        · simp only [Option.isSome_none, Bool.false_eq_true, iff_false]
          exact fun hc => hm (k1.subset hc)
      · exact k2 y hy
    | some p =>
      rw [hf] at h0
      cases h0 with
      | @cons _ _ vs m ms c0 j0 h0 =>
        have hall : ∀ (es : List MatchChange) (b : List (Str × Str)) (a : Option (List (Str × Str))), (es.map (·.node)) <+ xs →
            (∀ y ∈ xs, y ∈ es.map (·.node) ↔ (f y).isSome = true) →
            ∀ y ∈ x :: xs, y ∈ ((⟨x, b, a⟩ : MatchChange) :: es).map (·.node) ↔ (f y).isSome = true := by
          intro es b a k1 k2 y hy
          simp only [List.map_cons, List.mem_cons]
          rcases List.mem_cons.1 hy with rfl | hy
          · simp [hf]
          · rw [k2 y hy]
            constructor
            · rintro (rfl | h)
              · simp [hf]
              · exact h
            · exact .inr
        cases hg : g x with
        | none =>
          rw [hg] at h1
          obtain ⟨es, k1, k2, k3, k4, k5⟩ := entries hxs h0 h1
          refine ⟨⟨x, m, none⟩ :: es, k1.cons_cons _, hall es _ _ k1 k2, by simp [k3], by simp [k4], ?_⟩
          intro e he
          rcases List.mem_cons.1 he with rfl | he
          · exact ⟨⟨p, vs, hf, c0, j0⟩, by simp [hg], by simp⟩
          · exact k5 e he
        | some q =>
          rw [hg] at h1
          cases h1 with
          | @cons _ _ ws m' ms' c1 j1 h1 =>
            obtain ⟨es, k1, k2, k3, k4, k5⟩ := entries hxs h0 h1
            refine ⟨⟨x, m, some m'⟩ :: es, k1.cons_cons _, hall es _ _ k1 k2, by simp [k3], by simp [k4], ?_⟩
            intro e he
            rcases List.mem_cons.1 he with rfl | he
            · exact ⟨⟨p, vs, hf, c0, j0⟩, by simp [hg], fun m hm => by
                simp only [Option.some.injEq] at hm; subst hm; exact ⟨q, ws, hg, c1, j1⟩⟩
            · exact k5 e he

/-! ## The theorems -/

variable {r d c : Rule}

theorem appendNested_safe (hs : r.Safe n) (hd : d.Safe n) : (r.appendNested d).Safe n := by
  obtain ⟨i, c, nx, ns⟩ := r
  simp only [Rule.appendNested, Rule.Safe, Rule.All] at hs ⊢
  refine ⟨hs.1, hs.2.1, hs.2.2.1, ?_⟩
  have hn := hs.2.2.2
  clear hs
  induction ns with
  | nil => exact ⟨hd, trivial⟩
  | cons q ns ih => exact ⟨hn.1, ih hn.2⟩

theorem appendChild_safe (hs : r.Safe n) (hc : r.child = none) (hd : c.Safe n) : (r.appendChild c).Safe n := by
  obtain ⟨i, c, nx, ns⟩ := r
  simp only [Rule.child] at hc
  subst hc
  simp only [Rule.appendChild, Rule.Safe, Rule.All, Rule.AllO] at hs ⊢
  exact ⟨hs.1, hd, hs.2.2⟩

theorem chainN_append (own : RuleInfo → Loc → Bool) (a : List Step) (d : Rule) : ∀ (k : Nat) (ns : List Rule),
    chainN own a k (ns ++ [d]) = chainN own a k ns ++ [chain own (a ++ [.nested (k + ns.length)]) d]
  | k, [] => rfl
  | k, r :: ns => by
    simp only [List.cons_append, chainN, chainN_append own a d (k + 1) ns, List.length_cons]
    rw [show k + 1 + ns.length = k + (ns.length + 1) by omega]

theorem chain_ne (own : RuleInfo → Loc → Bool) (a : List Step) (r : Rule) : chain own a r ≠ [] := by
  cases r; simp [chain]

/-- C87. A rule that is nested in a sole rule contributes to each match what it extracts from below the matched node. -/
theorem C87_nested (hn : n ≤ 2147483647) (hs : r.Safe n) (hd : d.Safe n) (hnx : r.next = none) (hg : r.isGreedy = false)
    (hl : l.Stored h n) {ms ms' : UInt64} {res res' : List (List (Str × Str))} (h0 : extract rx h r l.ptr ms = pure res)
    (h1 : extract rx h (r.appendNested d) l.ptr ms' = pure res') :
    ∃ es, Compared rx h r l res res' es ∧ ∀ e ∈ es, AddsNested rx h r d e := by
  obtain ⟨⟨maps, k0, rfl⟩, _⟩ := result_of hn hs hl h0
  obtain ⟨⟨maps', k1, rfl⟩, _⟩ := result_of hn (appendNested_safe hs hd) hl h1
  obtain ⟨i, c, nx, ns⟩ := r
  simp only [Rule.next] at hnx
  subst hnx
  have hst : ∀ x ∈ l.searched.flatten, x.Stored h n := fun x hx => reach_stored hl (searched_iff.1 hx)
  rw [sole_search (i := i) hg] at k0
  rw [show Rule.appendNested (.mk i c none ns) d = .mk i c none (ns ++ [d]) from rfl, sole_search (i := i) hg] at k1
  obtain ⟨es, j1, j2, rfl, rfl, j5⟩ := entries (fun x _ hx => by
    have a := sole_sat (rx := rx) (h := h) i c ns x
    have b := sole_sat (rx := rx) (h := h) i c (ns ++ [d]) x
    rw [sat_nested, ← a, hx] at b
    cases hq : soleRun rx h i c (ns ++ [d]) x with
    | none => rfl
    | some q => rw [hq] at b; simp at b) k0 k1
  refine ⟨es, ⟨j1, fun x hx => by rw [j2 x hx, sole_sat], rfl, rfl⟩, ?_⟩
  intro e he
  have hen : e.node ∈ l.searched.flatten := j1.subset (List.mem_map_of_mem he)
  have hes := hst _ hen
  obtain ⟨⟨p, vs, hp, hc, hm⟩, ha, hb⟩ := j5 e he
  have hsat0 : Sat (Holds rx h) (.mk i c none ns) e.node := (sole_sat i c ns e.node).1 (by rw [hp]; rfl)
  refine ⟨?_, ?_⟩
  · rw [ha, sole_sat, sat_nested]
    exact ⟨fun hh => hh.2, fun hh => ⟨hsat0, hh⟩⟩
  · obtain ⟨t, ht, rfl⟩ := Option.map_eq_some_iff.1 hp
    obtain ⟨inside, own, rfl, hin, hown⟩ := captured_split hc
    refine ⟨inside, own, captured_own hown, hm, ?_⟩
    intro m hm'
    obtain ⟨q, ws, hq, hcw, hmw⟩ := hb m hm'
    obtain ⟨s, hs1, rfl⟩ := Option.map_eq_some_iff.1 hq
    rw [chainN_append] at hs1
    obtain ⟨t', ht', rfl⟩ := runRule_nested hs1
    rw [ht] at ht'
    cases ht'
    rw [found_append] at hcw
    obtain ⟨w, own', rfl, hw, hown'⟩ := captured_split hcw
    obtain ⟨inside', D, rfl, hin', hD⟩ := captured_split hw
    have hsat1 : Sat (Holds rx h) (.mk i c none (ns ++ [d])) e.node := (sole_sat i c _ e.node).1 (by rw [hq]; rfl)
    obtain ⟨_, hel, hkids, _⟩ := sat_nested.1 hsat1
    have e1 := hin'.unique hin
    have o1 : ruleCapture rx h e.node.ptr i.caps = pure own := captured_own (r := .mk i c none ns) hown
    have o2 : ruleCapture rx h e.node.ptr i.caps = pure own' := captured_own (r := .mk i c none (ns ++ [d])) hown'
    have e2 := E.pure_inj (o2.symm.trans o1)
    subst e1 e2
    cases hk : e.node.self.kids with
    | nil => exact absurd hk hkids
    | cons first rest =>
      let f : Loc := ⟨true, [], first, rest⟩
      have hlocs : f.onward = locs e.node.self.kids := by rw [hk]; rfl
      have hf : f ∈ locs e.node.self.kids := by rw [hk]; exact List.mem_cons_self
      have hfs : f.Stored h n := (sibs_locs hes hel).stored hf
      obtain ⟨dres, _, ⟨dm, d1, d2⟩, d3⟩ := extract_result (rx := rx) hn hd hfs
      refine ⟨first, dres, rfl, ?_, ?_⟩
      · have := d3 0
        rw [if_neg (by simp)] at this
        exact this
      · refine ⟨hmw.1, fun name => ?_⟩
        rw [hmw.2 name]
        simp only [List.filter_append]
        congr 2
        have hsame := save_addr (rx := rx) (r := d) (ls := locs e.node.self.kids) (fun x hx => (sibs_locs hes hel).stored hx)
          ([] ++ [.nested (0 + ns.length)]) []
        have hD' := captured_same hsame.flatten hD
        rw [found_flatten] at hD'
        rw [d2]
        refine (maps_values ?_ hD' name).symm
        unfold searchAt at d1
        rw [hlocs] at d1
        exact d1

/-- C87. The first child rule of a sole rule contributes to each match the values of its groups among the children of the node. -/
theorem C87_child (hn : n ≤ 2147483647) (hs : r.Safe n) (hd : c.Safe n) (hnx : r.next = none) (hch : r.child = none)
    (hg : r.isGreedy = false) (hl : l.Stored h n) {ms ms' : UInt64} {res res' : List (List (Str × Str))}
    (h0 : extract rx h r l.ptr ms = pure res) (h1 : extract rx h (r.appendChild c) l.ptr ms' = pure res') :
    ∃ es, Compared rx h r l res res' es ∧ ∀ e ∈ es, AddsChild rx h c e := by
  obtain ⟨⟨maps, k0, rfl⟩, _⟩ := result_of hn hs hl h0
  obtain ⟨⟨maps', k1, rfl⟩, _⟩ := result_of hn (appendChild_safe hs hch hd) hl h1
  obtain ⟨i, c', nx, ns⟩ := r
  simp only [Rule.next, Rule.child] at hnx hch
  subst hnx hch
  rw [sole_search (i := i) hg] at k0
  rw [show Rule.appendChild (.mk i none none ns) c = .mk i (some c) none ns from rfl, sole_search (i := i) hg] at k1
  obtain ⟨es, j1, j2, rfl, rfl, j5⟩ := entries (fun x _ hx => by
    have a := sole_sat (rx := rx) (h := h) i none ns x
    have b := sole_sat (rx := rx) (h := h) i (some c) ns x
    rw [sat_child, ← a, hx] at b
    cases hq : soleRun rx h i (some c) ns x with
    | none => rfl
    | some q => rw [hq] at b; simp at b) k0 k1
  refine ⟨es, ⟨j1, fun x hx => by rw [j2 x hx, sole_sat], rfl, rfl⟩, ?_⟩
  intro e he
  obtain ⟨⟨p, vs, hp, hc, hm⟩, ha, hb⟩ := j5 e he
  have hsat0 : Sat (Holds rx h) (.mk i none none ns) e.node := (sole_sat i none ns e.node).1 (by rw [hp]; rfl)
  refine ⟨?_, ?_⟩
  · rw [ha, sole_sat, sat_child]
    exact ⟨fun hh => hh.2, fun hh => ⟨hsat0, hh⟩⟩
  · refine ⟨vs, hm, ?_⟩
    intro m hm'
    obtain ⟨t, ht, rfl⟩ := Option.map_eq_some_iff.1 hp
    obtain ⟨q, ws, hq, hcw, hmw⟩ := hb m hm'
    obtain ⟨s, hs1, rfl⟩ := Option.map_eq_some_iff.1 hq
    obtain ⟨g1, g2⟩ := chain_good (ownVal rx h) [.child] c
    obtain ⟨t', ht', rfl⟩ := runRule_child (chain_ne _ _ c) hs1
    rw [show chainO (ownVal rx h) [.child] none = [] from rfl, ht'] at ht
    cases ht
    rw [found_append, List.append_assoc] at hcw
    obtain ⟨cs, rest, rfl, hcs, hrest⟩ := captured_split hcw
    have := (captured_last (r' := .mk i none none ns) (by rfl) hrest).unique hc
    subst this
    have hgr := groups_lift g1 (locs e.node.self.kids)
    rw [g2, holds_eq] at hgr
    rw [found_flatten] at hcs
    exact ⟨_, cs, hgr, hcs, hmw⟩

theorem kept_sublist : ∀ {es : List MatchChange}, (∀ e ∈ es, ∀ m, e.after = some m → m = e.before) →
    es.filterMap (·.after) <+ es.map (·.before)
  | [], _ => .slnil
  | e :: es, he => by
    have ih := kept_sublist (es := es) fun e hx => he e (by simp [hx])
    cases ha : e.after with
    | none => simp only [List.filterMap_cons, ha, List.map_cons]; exact ih.cons _
    | some m =>
      have := he e (by simp) m ha
      subst this
      simp only [List.filterMap_cons, ha, List.map_cons]
      exact ih.cons_cons _

theorem captured_nothing {g : Found} {vs : List (Str × Str)} (hg : ∀ p ∈ g, p.1.info.caps = []) (hc : Captured rx h g vs) :
    vs = [] := by
  induction hc with
  | nil => rfl
  | @cons q x g vs ws k _ ih =>
    have hq : q.info.caps = [] := hg (q, x) (by simp)
    rw [hq] at k
    have := E.pure_inj (k : (pure [] : E _) = _)
    rw [← this, ih fun p hp => hg p (by simp [hp])]
    rfl

/-- C87. A nested rule without captures only filters: what is left of the result keeps its order. -/
theorem C87_nested_filter (hn : n ≤ 2147483647) (hs : r.Safe n) (hd : d.Safe n) (hnx : r.next = none) (hg : r.isGreedy = false)
    (hl : l.Stored h n) (hcap : d.All fun i => i.caps = []) {ms ms' : UInt64} {res res' : List (List (Str × Str))}
    (h0 : extract rx h r l.ptr ms = pure res) (h1 : extract rx h (r.appendNested d) l.ptr ms' = pure res') : res' <+ res := by
  obtain ⟨es, hc, ha⟩ := C87_nested hn hs hd hnx hg hl h0 h1
  rw [hc.before, hc.after]
  refine List.Sublist.filter _ (kept_sublist fun e he m hm => ?_)
  have hen : e.node ∈ l.searched.flatten := hc.order.subset (List.mem_map_of_mem he)
  have hes : e.node.Stored h n := reach_stored hl (searched_iff.1 hen)
  obtain ⟨h1, inside, own, h2, h3, h4⟩ := ha e he
  obtain ⟨hel, hk, _⟩ := h1.1 (by rw [hm]; rfl)
  obtain ⟨first, dres, k1, k2, k3⟩ := h4 m hm
  cases hkk : e.node.self.kids with
  | nil => exact absurd hkk hk
  | cons t rest =>
    rw [hkk] at k1
    have k1 : t = first := by simpa using k1
    subst k1
    have hfs : Loc.Stored h n ⟨true, [], t, rest⟩ := (sibs_locs hes hel).stored (by rw [hkk]; exact List.mem_cons_self)
    have := E.pure_inj ((no_captures_no_results (rx := rx) hn hd hcap hfs).symm.trans k2)
    subst this
    exact (IsMap.unique h3 (by simpa using k3)).symm

/-- C87. A first child rule without captures only filters: what is left of the result keeps its order. -/
theorem C87_child_filter (hn : n ≤ 2147483647) (hs : r.Safe n) (hd : c.Safe n) (hnx : r.next = none) (hch : r.child = none)
    (hg : r.isGreedy = false) (hl : l.Stored h n) (hcap : c.All fun i => i.caps = []) {ms ms' : UInt64}
    {res res' : List (List (Str × Str))} (h0 : extract rx h r l.ptr ms = pure res)
    (h1 : extract rx h (r.appendChild c) l.ptr ms' = pure res') : res' <+ res := by
  obtain ⟨es, hc, ha⟩ := C87_child hn hs hd hnx hch hg hl h0 h1
  rw [hc.before, hc.after]
  refine List.Sublist.filter _ (kept_sublist fun e he m hm => ?_)
  obtain ⟨_, vs, h3, h4⟩ := ha e he
  obtain ⟨gs, cs, k1, k2, k3⟩ := h4 m hm
  have hsr : Search (Holds rx h) c.siblings [locs e.node.self.kids] (gs ++ []) := .cons k1 .nil
  have hcl := hsr.closed (P := fun q _ => q.All fun i => i.caps = []) (fun p y q x hp hb => hb.all hp)
    (fun q hq ks hks x hx => mem_siblings_all hcap q hq)
  have : cs = [] := by
    refine captured_nothing (g := gs.flatten) (fun p hp => ?_) k2
    obtain ⟨g, hg1, hg2⟩ := List.mem_flatten.1 hp
    have := hcl g (by simpa using hg1) p hg2
    obtain ⟨⟨i, c, nx, ns⟩, x⟩ := p
    simp only [Rule.All] at this
    exact this.1
  subst this
  exact (IsMap.unique h3 (by simpa using k3)).symm

end

/-! ## Examples -/

/-- Three boxes. The first contains the links 1 and 2, at different depths. The second is empty. The third contains the link 3. -/
def docBoxes : Tree :=
  Ex.el 1 "body" [] [
    Ex.el 2 "div" [("href", "A")] [Ex.el 3 "a" [("href", "1")] [], Ex.el 4 "p" [] [Ex.el 5 "a" [("href", "2")] []]],
    Ex.el 6 "div" [("href", "B")] [],
    Ex.el 7 "div" [("href", "C")] [Ex.el 8 "a" [("href", "3")] []]]

theorem docBoxes_ok : IsDocument (docHeap 0 docBoxes) 1147483648 docBoxes := isDocument_of_ok (by decide +kernel)

/-- `<div href:box/>` -/
def boxRule : Rule := Ex.rule "div" (caps := [Ex.capHref "box"])

/-- `<p/>` -/
def paraRule : Rule := Ex.rule "p"

theorem boxRule_safe : boxRule.Safe 1147483648 := by
  simp [boxRule, Ex.rule, Rule.Safe, Rule.All, Rule.AllO, Rule.AllL, RuleInfo.Safe, Match.SafeL, Match.SafeO, Match.Safe,
    Capture.Safe, Ex.capHref]

theorem paraRule_safe : paraRule.Safe 1147483648 := by
  simp [paraRule, Ex.rule, Rule.Safe, Rule.All, Rule.AllO, Rule.AllL, RuleInfo.Safe, Match.SafeL, Match.SafeO, Match.Safe]

theorem boxes_found : extract Ex.rx (docHeap 0 docBoxes) boxRule docBoxes.ptr 0 =
    pure [[(lit "box", lit "A")], [(lit "box", lit "B")], [(lit "box", lit "C")]] := by
  rw [show docBoxes.ptr = (Loc.root docBoxes).ptr from rfl, extract_eq (by decide) boxRule_safe docBoxes_ok]
  decide +kernel

theorem boxes_links : extract Ex.rx (docHeap 0 docBoxes) (boxRule.appendNested hrefRule) docBoxes.ptr 0 =
    pure [[(lit "box", lit "A"), (lit "x", lit "1"), (lit "x", lit "2")], [(lit "box", lit "C"), (lit "x", lit "3")]] := by
  rw [show docBoxes.ptr = (Loc.root docBoxes).ptr from rfl,
    extract_eq (by decide) (appendNested_safe boxRule_safe href_safe) docBoxes_ok]
  decide +kernel

theorem boxes_para : extract Ex.rx (docHeap 0 docBoxes) (boxRule.appendChild paraRule) docBoxes.ptr 0 =
    pure [[(lit "box", lit "A")]] := by
  rw [show docBoxes.ptr = (Loc.root docBoxes).ptr from rfl,
    extract_eq (by decide) (appendChild_safe boxRule_safe rfl paraRule_safe) docBoxes_ok]
  decide +kernel

example : ∃ es, Compared Ex.rx (docHeap 0 docBoxes) boxRule (Loc.root docBoxes)
      [[(lit "box", lit "A")], [(lit "box", lit "B")], [(lit "box", lit "C")]]
      [[(lit "box", lit "A"), (lit "x", lit "1"), (lit "x", lit "2")], [(lit "box", lit "C"), (lit "x", lit "3")]] es ∧
    ∀ e ∈ es, AddsNested Ex.rx (docHeap 0 docBoxes) boxRule hrefRule e :=
  C87_nested (l := Loc.root docBoxes) (by decide) boxRule_safe href_safe rfl rfl docBoxes_ok boxes_found boxes_links

example : [[(lit "box", lit "A")]] <+ [[(lit "box", lit "A")], [(lit "box", lit "B")], [(lit "box", lit "C")]] :=
  C87_child_filter (l := Loc.root docBoxes) (by decide) boxRule_safe paraRule_safe rfl rfl rfl docBoxes_ok
    (by simp [paraRule, Ex.rule, Rule.All, Rule.AllO, Rule.AllL]) boxes_found boxes_para

example {res : List (List (Str × Str))}
    (h1 : extract Ex.rx (docHeap 0 docBoxes) (boxRule.appendNested paraRule) docBoxes.ptr 0 = pure res) :
    res <+ [[(lit "box", lit "A")], [(lit "box", lit "B")], [(lit "box", lit "C")]] :=
  C87_nested_filter (l := Loc.root docBoxes) (by decide) boxRule_safe paraRule_safe rfl rfl docBoxes_ok
    (by simp [paraRule, Ex.rule, Rule.All, Rule.AllO, Rule.AllL]) boxes_found h1

end Hext.Props
