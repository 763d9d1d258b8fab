import Verif.Proofs.Similar
import Verif.Spec.Trim
set_option linter.unusedSimpArgs false
/-!
# Extractions from documents with and without irrelevant parts
-/

namespace Hext.Param

section
variable {K : Tree → Tree → Prop} {dead : Tree → Prop} {rx : RxEngine} {h h' : Heap} {n n' : Nat}
  {I : RuleInfo → RuleInfo → Prop}

/-- Like `search_rel`, for any relations. -/
theorem search_gen (hgood : Good K dead (Loc.Stored h n) (Loc.Stored h' n'))
    (hrules : GoodRules K dead (Loc.Stored h n) (Loc.Stored h' n') (ownVal rx h) (ownVal rx h') I) {r r' : Rule}
    (hr : r.Alike I r') (ha : (∀ t, ¬ dead t) ∨ r.Anchored) {l l' : Loc} (hl : l.Stored h n)
    (hl' : l'.Stored h' n') (hll : LRel K dead l l') :
    All2 (All2 (Pair2 (PRel I) (LR K dead (Loc.Stored h n) (Loc.Stored h' n'))))
      (searchAt rx h r l).val (searchAt rx h' r' l').val ∧
    CostRel dead (searchAt rx h r l).cost (searchAt rx h' r' l').cost := by
  have hno : (∀ t, ¬ dead t) → ∀ x, ¬ LD dead (Loc.Stored h n) x := fun hd x hx => hd _ hx.1
  have hc := chain_rel hgood hrules r r' [] [] hr (ha.imp hno id)
  have hs : Sib (LD dead (Loc.Stored h n)) (LR K dead (Loc.Stored h n) (Loc.Stored h' n')) l.onward l'.onward := by
    have h1 := fun x hx => (sibs_onward hl).stored (l := x) hx
    have h2 := fun x hx => (sibs_onward hl').stored (l := x) hx
    refine .cons ⟨hll, hl, hl'⟩ ?_
    have he := hll.inElem
    cases hie : l.inElem with
    | false =>
      rw [hie] at he
      simp only [← he, Bool.false_eq_true, if_false]
      exact .nil
    | true =>
      rw [hie] at he
      simp only [← he, if_true]
      refine locsAux_rel hll.after ?_ (fun x hx => h1 x ?_) (fun x hx => h2 x ?_)
      · exact hll.before.append (b := [l.self]) (b' := [l'.self]) (by simp [TRelL, hll.self])
      · simp only [Loc.onward, hie, if_true]; exact List.mem_cons_of_mem _ hx
      · simp only [Loc.onward, ← he, if_true]; exact List.mem_cons_of_mem _ hx
  have := save_rel hgood hc hs
  exact ⟨this.1, this.2.1, fun hd => this.2.2 (hno hd)⟩

/-- Two extractions that correspond to each other: the same without a limit, and what the first returns under a limit is
what the second returns under that limit. -/
theorem extract_gen (hn : n ≤ 2147483647) (hn' : n' ≤ 2147483647)
    (hgood : Good K dead (Loc.Stored h n) (Loc.Stored h' n'))
    (hrules : GoodRules K dead (Loc.Stored h n) (Loc.Stored h' n') (ownVal rx h) (ownVal rx h') I)
    (hcap : ∀ i i' l l', I i i' → LR K dead (Loc.Stored h n) (Loc.Stored h' n') l l' →
      ruleCapture rx h l.ptr i.caps = ruleCapture rx h' l'.ptr i'.caps) {r r' : Rule}
    (hs : r.Safe n) (hs' : r'.Safe n') (hr : r.Alike I r') (ha : (∀ t, ¬ dead t) ∨ r.Anchored) {l l' : Loc}
    (hl : l.Stored h n) (hl' : l'.Stored h' n') (hll : LRel K dead l l') :
    extract rx h r l.ptr 0 = extract rx h' r' l'.ptr 0 ∧
    ∀ ms res, extract rx h r l.ptr ms = pure res → extract rx h' r' l'.ptr ms = pure res := by
  have hsearch := search_gen hgood hrules hr ha hl hl' hll
  have hres : groupsToResult rx h ((searchAt rx h r l).val.map conv) =
      groupsToResult rx h' ((searchAt rx h' r' l').val.map conv) :=
    groupsToResult_rel (fun p q x y hpq hxy => hcap _ _ _ _ hpq hxy) hsearch.1
  refine ⟨?_, fun ms res he => ?_⟩
  · rw [extract_eq hn hs hl, extract_eq hn' hs' hl', hres]; simp
  · rw [extract_eq hn hs hl, hres] at he
    rw [extract_eq hn' hs' hl']
    split at he
    · injection he with he; injection he
    · rename_i hlim
      rw [if_neg]
      · exact he
      · exact fun hlim' => hlim ⟨hlim'.1, Nat.le_trans hlim'.2 hsearch.2.1⟩

end

/-! ## Conditions about the node itself -/

section
variable {rx : RxEngine} {h h' : Heap} {n n' : Nat} {l l' : Loc}

mutual
theorem matches_local (hl : l.Stored h n) (hl' : l'.Stored h' n') (hk : l.self.kind = l'.self.kind) (m : Match)
    (hm : m.Local) : m.matches rx h l.ptr = m.matches rx h' l'.ptr := by
  obtain ⟨pp, i, hld⟩ := hl.load
  obtain ⟨pp', i', hld'⟩ := hl'.load
  match m with
  | .attribute name test => simp only [Match.matches, attributeMatches, load_eq hld, load_eq hld', pure_bind, hk]
  | .attributeCount k => simp only [Match.matches, load_eq hld, load_eq hld', pure_bind, hk]
  | .childCount k => simp [Match.Local] at hm
  | .function f => simp [Match.Local] at hm
  | .functionValue f test => simp [Match.Local] at hm
  | .negate ms =>
    simp only [Match.Local] at hm
    simp only [Match.matches]
    exact negateLoop_local hl hl' hk ms hm
  | .nthChild step shift first ofType => simp [Match.Local] at hm
  | .onlyChild ofType => simp [Match.Local] at hm
  | .typeRegex r => simp only [Match.matches, typeRegexMatches, load_eq hld, load_eq hld', pure_bind, hk]
theorem negateLoop_local (hl : l.Stored h n) (hl' : l'.Stored h' n') (hk : l.self.kind = l'.self.kind)
    (ms : List (Option Match)) (hm : Match.LocalL ms) : negateLoop rx h l.ptr ms = negateLoop rx h' l'.ptr ms := by
  match ms with
  | [] => simp only [negateLoop]
  | none :: ms =>
    simp only [Match.LocalL] at hm
    simp only [negateLoop, optMatches, negateLoop_local hl hl' hk ms hm]
  | some m :: ms =>
    simp only [Match.LocalL] at hm
    simp only [negateLoop, optMatches, matches_local hl hl' hk m hm.1, negateLoop_local hl hl' hk ms hm.2]
end

theorem allMatch_local (hl : l.Stored h n) (hl' : l'.Stored h' n') (hk : l.self.kind = l'.self.kind)
    (ms : List (Option Match)) (hm : Match.LocalL ms) : allMatch rx h l.ptr ms = allMatch rx h' l'.ptr ms := by
  induction ms with
  | nil => rfl
  | cons m ms ih =>
    cases m with
    | none =>
      simp only [Match.LocalL] at hm
      simp only [allMatch, ih hm]
    | some m =>
      simp only [Match.LocalL] at hm
      simp only [allMatch, matches_local hl hl' hk m hm.1, ih hm.2]

theorem ruleMatches_local (hl : l.Stored h n) (hl' : l'.Stored h' n') (hk : l.self.kind = l'.self.kind)
    {i : RuleInfo} (hm : Match.LocalL i.ms) : ruleMatches rx h i l.ptr = ruleMatches rx h' i l'.ptr := by
  obtain ⟨pp, j, hld⟩ := hl.load
  obtain ⟨pp', j', hld'⟩ := hl'.load
  simp only [ruleMatches, load_eq hld, load_eq hld', pure_bind, hk, allMatch_local hl hl' hk i.ms hm]

theorem ruleCapture_local (hl : l.Stored h n) (hl' : l'.Stored h' n') (hk : l.self.kind = l'.self.kind)
    (cs : List (Option Capture)) (hc : ∀ c, some c ∈ cs → ∃ attr name pipe, c = .attribute attr name pipe) :
    ruleCapture rx h l.ptr cs = ruleCapture rx h' l'.ptr cs := by
  obtain ⟨pp, j, hld⟩ := hl.load
  obtain ⟨pp', j', hld'⟩ := hl'.load
  induction cs with
  | nil => rfl
  | cons c cs ih =>
    have ih := ih fun c hm => hc c (by simp [hm])
    cases c with
    | none => simpa only [ruleCapture] using ih
    | some c =>
      obtain ⟨a, nm, pipe, rfl⟩ := hc c (by simp)
      simp only [ruleCapture, Capture.capture, load_eq hld, load_eq hld', pure_bind, hk, ih]

end

/-! ## Trimmed documents -/

mutual
theorem trel_of_trimmed {D : Tree → Prop} : ∀ (t t' : Tree), t.Trimmed D t' → TRel (onKind (· = ·)) D t t'
  | .node p k kids, t', h => by
    simp only [Tree.Trimmed] at h
    simp only [TRel]
    exact ⟨h.1, trelL_of_trimmed kids t'.kids h.2⟩
theorem trelL_of_trimmed {D : Tree → Prop} : ∀ (ts ts' : List Tree), Tree.TrimmedL D ts ts' →
    TRelL (onKind (· = ·)) D ts ts'
  | [], ts', h => by simpa only [Tree.TrimmedL, TRelL] using h
  | t :: ts, ts', h => by
    simp only [Tree.TrimmedL] at h
    simp only [TRelL]
    rcases h with ⟨h1, h2⟩ | ⟨t', us, rfl, h1, h2⟩
    · exact .inl ⟨h1, trelL_of_trimmed ts ts' h2⟩
    · exact .inr ⟨t', us, rfl, trel_of_trimmed t t' h1, trelL_of_trimmed ts us h2⟩
end

theorem irrelevantL_mem {rx : RxEngine} {h : Heap} {r : Rule} {ts : List Tree} (hi : Tree.IrrelevantL rx h r ts) :
    ∀ t ∈ ts, t.Irrelevant rx h r := by
  induction ts with
  | nil => simp
  | cons t ts ih =>
    simp only [Tree.IrrelevantL] at hi
    intro u hu
    rcases List.mem_cons.1 hu with rfl | hu
    · exact hi.1
    · exact ih hi.2 u hu

theorem irrelevant_kids {rx : RxEngine} {h : Heap} {r : Rule} {t : Tree} (hi : t.Irrelevant rx h r) :
    (r.All fun i => ¬ i.Admits rx h t) ∧ ∀ u ∈ t.kids, u.Irrelevant rx h r := by
  cases t with
  | node p k kids =>
    simp only [Tree.Irrelevant] at hi
    exact ⟨hi.1, irrelevantL_mem hi.2⟩

mutual
/-- The rules of a rule, as a list. -/
def infosOf : Rule → List RuleInfo
  | .mk i c nx ns => i :: (infosOfO c ++ infosOfO nx ++ infosOfL ns)
def infosOfO : Option Rule → List RuleInfo
  | none => []
  | some r => infosOf r
def infosOfL : List Rule → List RuleInfo
  | [] => []
  | r :: rs => infosOf r ++ infosOfL rs
end

mutual
theorem all_iff_infos {P : RuleInfo → Prop} : ∀ (r : Rule), r.All P ↔ ∀ i ∈ infosOf r, P i
  | .mk i c nx ns => by
    simp only [Rule.All, infosOf, List.mem_cons, List.mem_append, allO_iff_infos c, allO_iff_infos nx, allL_iff_infos ns]
    grind
theorem allO_iff_infos {P : RuleInfo → Prop} : ∀ (r : Option Rule), Rule.AllO P r ↔ ∀ i ∈ infosOfO r, P i
  | none => by simp [Rule.AllO, infosOfO]
  | some r => by simp only [Rule.AllO, infosOfO, all_iff_infos r]
theorem allL_iff_infos {P : RuleInfo → Prop} : ∀ (rs : List Rule), Rule.AllL P rs ↔ ∀ i ∈ infosOfL rs, P i
  | [] => by simp [Rule.AllL, infosOfL]
  | r :: rs => by
    simp only [Rule.AllL, infosOfL, List.mem_append, all_iff_infos r, allL_iff_infos rs]
    grind
end

section
variable {rx : RxEngine} {h h' : Heap} {n n' : Nat}

/-- Without the irrelevant parts of the document, an extraction returns the same. -/
theorem extract_trimmed (hn : n ≤ 2147483647) (hn' : n' ≤ 2147483647) {r : Rule} (hs : r.Safe n) (hs' : r.Safe n')
    (hw : r.All fun i => Match.WordsOkL i.ms) (hloc : r.All RuleInfo.Local) (ha : r.Anchored) {t t' : Tree}
    (ht : IsDocument h n t) (ht' : IsDocument h' n' t') (hsame : t.Trimmed (Tree.Irrelevant rx h r) t') :
    extract rx h r t.ptr 0 = extract rx h' r t'.ptr 0 ∧
    ∀ ms res, extract rx h r t.ptr ms = pure res → extract rx h' r t'.ptr ms = pure res := by
  have hgood : Good (onKind (· = ·)) (Tree.Irrelevant rx h r) (Loc.Stored h n) (Loc.Stored h' n') :=
    ⟨fun t t' hkk => by rw [show t.kind = t'.kind from hkk], fun t hd _ u hu => (irrelevant_kids hd).2 u hu,
     fun l hl he x hx => (sibs_locs hl he).stored hx, fun l hl he x hx => (sibs_locs hl he).stored hx⟩
  let I : RuleInfo → RuleInfo → Prop := fun i i' => i = i' ∧ i ∈ infosOf r
  have hkind : ∀ {l l' : Loc}, LR (onKind (· = ·)) (Tree.Irrelevant rx h r) (Loc.Stored h n) (Loc.Stored h' n') l l' →
      l.self.kind = l'.self.kind := fun hll => ((TRel.iff _ _ _ _).1 hll.1.self).1
  have hL := (all_iff_infos r).1 hloc
  have hS := (all_iff_infos r).1 hs
  have hW := (all_iff_infos r).1 hw
  have hrules : GoodRules (onKind (· = ·)) (Tree.Irrelevant rx h r) (Loc.Stored h n) (Loc.Stored h' n') (ownVal rx h) (ownVal rx h') I := by
    refine ⟨fun i i' hi => by rw [hi.1], fun i i' hi => by rw [hi.1], ?_, ?_⟩
    · rintro i i' l l' ⟨rfl, hi⟩ hll
      simp only [ownVal, ruleMatches_local (rx := rx) hll.2.1 hll.2.2 (hkind hll) (hL i hi).1]
    · rintro i i' l ⟨rfl, hi⟩ hd
      have hno := (all_iff_infos r).1 (irrelevant_kids hd.1).1 i hi
      have hdec := ruleMatches_decides rx hd.2 hn i (hS i hi) (hW i hi)
      simp only [ownVal, decide_eq_false_iff_not]
      intro h0
      exact hno ⟨l, rfl, hdec.true_iff.1 h0⟩
  refine extract_gen (l := Loc.root t) (l' := Loc.root t') hn hn' hgood hrules ?_ hs hs' ?_ (.inr ha) ht ht'
    (root_rel (trel_of_trimmed _ _ hsame))
  · rintro i i' l l' ⟨rfl, hi⟩ hll
    exact ruleCapture_local hll.2.1 hll.2.2 (hkind hll) _ (hL i hi).2
  · exact alike_of_all (P := fun i => i ∈ infosOf r) (fun i hi => ⟨rfl, hi⟩) r ((all_iff_infos r).2 fun i hi => hi)

end

end Hext.Param
