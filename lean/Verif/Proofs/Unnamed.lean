import Verif.Proofs.Trim
import Verif.Spec.Unnamed
set_option linter.unusedSimpArgs false
set_option linter.unusedSectionVars false
/-!
# Conditions and captures that name certain attributes

As `Verif.Proofs.Similar`, for documents that may differ in the other attributes.
-/

namespace Hext.Unnamed

open Hext Param

/-- Nodes that conditions and captures (except `@inner-html`) that name attributes of `N` only cannot tell apart. -/
def SameKind (N : Str → Prop) (k k' : Kind) : Prop :=
  k = k' ∨ ∃ e e', k = .element e ∧ k' = .element e' ∧ e.tag = e'.tag ∧ e.origName = e'.origName ∧
    True ∧ ∀ name, N name → getAttribute e.attrs name = getAttribute e'.attrs name

/-- Nodes that conditions and captures that call no function cannot tell apart. -/
def AlikeKind (N : Str → Prop) (k k' : Kind) : Prop := SameKind N k k' ∨ (k.isElement = false ∧ k'.isElement = false)

theorem SameKind.countsAs {N : Str → Prop} {k k' : Kind} (h : SameKind N k k') (ct : Option Tag) : countsAs ct k = countsAs ct k' := by
  rcases h with rfl | ⟨e, e', rfl, rfl, h1, -⟩
  · rfl
  · simp [Hext.countsAs, Kind.elem?, h1]

theorem SameKind.isElement {N : Str → Prop} {k k' : Kind} (h : SameKind N k k') : k.isElement = k'.isElement := by
  rcases h with rfl | ⟨e, e', rfl, rfl, -⟩ <;> rfl

theorem SameKind.wrapsText {N : Str → Prop} {k k' : Kind} (h : SameKind N k k') : wrapsText k = wrapsText k' := by
  rcases h with rfl | ⟨e, e', rfl, rfl, h1, -⟩
  · rfl
  · simp [Hext.wrapsText, h1]

theorem SameKind.tagAgrees {N : Str → Prop} {k k' : Kind} (h : SameKind N k k') (i : RuleInfo) : tagAgrees i k = tagAgrees i k' := by
  rcases h with rfl | ⟨e, e', rfl, rfl, h1, h2, -⟩
  · rfl
  · simp [Hext.tagAgrees, h1, h2]

theorem AlikeKind.countsAs {N : Str → Prop} {k k' : Kind} (h : AlikeKind N k k') (ct : Option Tag) : countsAs ct k = countsAs ct k' := by
  rcases h with h | ⟨h1, h2⟩
  · exact h.countsAs ct
  · cases k <;> cases k' <;> first | rfl | (simp [Kind.isElement] at h1; done) | (simp [Kind.isElement] at h2; done)

theorem AlikeKind.isElement {N : Str → Prop} {k k' : Kind} (h : AlikeKind N k k') : k.isElement = k'.isElement := by
  rcases h with h | ⟨h1, h2⟩
  · exact h.isElement
  · rw [h1, h2]

theorem AlikeKind.tagAgrees {N : Str → Prop} {k k' : Kind} (h : AlikeKind N k k') (i : RuleInfo) : tagAgrees i k = tagAgrees i k' := by
  rcases h with h | ⟨h1, h2⟩
  · exact h.tagAgrees i
  · simp only [Hext.tagAgrees]
    cases k <;> cases k' <;> first | rfl | (simp [Kind.isElement] at h1; done) | (simp [Kind.isElement] at h2; done)

/-- What is needed of the relation between nodes. -/
structure KGood (N : Str → Prop) (R : Tree → Tree → Prop) (dead : Tree → Prop) : Prop where
  alike : ∀ t t', R t t' → AlikeKind N t.kind t'.kind
  notElem : ∀ t, dead t → t.kind.isElement = false

/-- What is needed for functions that return text. -/
structure KText (N : Str → Prop) (R : Tree → Tree → Prop) (dead : Tree → Prop) : Prop where
  same : ∀ t t', R t t' → SameKind N t.kind t'.kind
  dead : ∀ t, dead t → IsComment t

theorem KText.good {N : Str → Prop} {R : Tree → Tree → Prop} {dead : Tree → Prop} (hk : KText N R dead) : KGood N R dead :=
  ⟨fun t t' h => .inl (hk.same t t' h), fun t h => by obtain ⟨c, h⟩ := hk.dead t h; rw [h]; rfl⟩

section
variable {N : Str → Prop} {R : Tree → Tree → Prop} {dead : Tree → Prop}

theorem countP_rel (hk : KGood N R dead) (p : Kind → Bool) (hp : ∀ k k', AlikeKind N k k' → p k = p k')
    (hd : ∀ k, k.isElement = false → p k = false) : ∀ {ts ts' : List Tree}, TRelL R dead ts ts' →
    ts.countP (fun t => p t.kind) = ts'.countP (fun t => p t.kind)
  | [], ts', h => by simp only [TRelL] at h; subst h; rfl
  | t :: ts, ts', h => by
    simp only [TRelL] at h
    rcases h with ⟨h1, h2⟩ | ⟨t', us, rfl, h1, h2⟩
    · rw [List.countP_cons, hd _ (hk.notElem _ h1), countP_rel hk p hp hd h2]; simp
    · have := hp _ _ (hk.alike _ _ ((TRel.iff R dead t t').1 h1).1)
      rw [List.countP_cons, List.countP_cons, this, countP_rel hk p hp hd h2]

theorem countTrees_rel (hk : KGood N R dead) (ct : Option Tag) {ts ts' : List Tree} (h : TRelL R dead ts ts') :
    countTrees ct ts = countTrees ct ts' :=
  countP_rel hk (countsAs ct) (fun _ _ h => h.countsAs ct)
    (fun k h => by cases k <;> simp [Kind.isElement] at h <;> rfl) h

mutual
theorem stripVal_rel (hk : KText N R dead) (sw : Bool) : ∀ (t t' : Tree), TRel R dead t t' → stripVal sw t = stripVal sw t'
  | .node p k kids, .node p' k' kids', h => by
    simp only [TRel, Tree.kids] at h
    have hl := stripValL_rel hk sw kids kids' h.2
    have hs := hk.same _ _ h.1
    simp only [Tree.kind] at hs
    clear h
    rcases hs with rfl | ⟨e, e', rfl, rfl, -⟩
    · cases k <;> simp [stripVal, hl]
    · simp [stripVal, hl]
theorem stripValL_rel (hk : KText N R dead) (sw : Bool) : ∀ (ts ts' : List Tree), TRelL R dead ts ts' →
    stripValL sw ts = stripValL sw ts'
  | [], ts', h => by simp only [TRelL] at h; subst h; rfl
  | t :: ts, ts', h => by
    simp only [TRelL] at h
    rcases h with ⟨h1, h2⟩ | ⟨t', us, rfl, h1, h2⟩
    · obtain ⟨c, hc⟩ := hk.dead t h1
      have : stripVal sw t = [] := by
        cases t with
        | node p k kids => simp only [Tree.kind] at hc; subst hc; rfl
      simp only [stripValL, this, hc, wrapsText, Bool.and_false, Bool.false_eq_true, if_false, List.nil_append]
      exact stripValL_rel hk sw ts ts' h2
    · have hw := (hk.same _ _ ((TRel.iff R dead t t').1 h1).1).wrapsText
      simp only [stripValL, stripVal_rel hk sw t t' h1, hw, stripValL_rel hk sw ts us h2]
end

theorem textual_good (hk : KText N R dead) (h h' : Heap) : FGood R dead h h' CaptureFn.Textual := by
  rintro f (rfl | rfl) t t' ht
  · simp only [CaptureFn.val, stripVal_rel hk true t t' ht]
  · simp only [CaptureFn.val, stripVal_rel hk false t t' ht]

variable {rx : RxEngine} {h h' : Heap} {n n' : Nat} {F : CaptureFn → Prop}

section
variable (hn : n ≤ 2147483647) (hn' : n' ≤ 2147483647) (hk : KGood N R dead) (hF : FGood R dead h h' F)
include hn hn' hk hF

mutual
theorem matches_rel {l l' : Loc} (hl : l.Stored h n) (hl' : l'.Stored h' n') (hr : LRel R dead l l') (m : Match)
    (hm : m.Safe n) (hm' : m.Safe n') (hc : m.Calls F) (hnm : m.Names N) : m.matches rx h l.ptr = m.matches rx h' l'.ptr := by
  obtain ⟨pp, i, hld⟩ := hl.load
  obtain ⟨pp', i', hld'⟩ := hl'.load
  have ht := (TRel.iff R dead _ _).1 hr.self
  have hsk := hk.alike _ _ ht.1
  match m with
  | .attribute name test =>
    simp only [Match.Names] at hnm
    simp only [Match.matches, attributeMatches, load_eq hld, load_eq hld', pure_bind]
    rcases hsk with (h1 | ⟨e, e', h1, h2, h3, h4, h5, h6⟩) | ⟨h1, h2⟩
    · rw [h1]
    · simp only [h1, h2, h6 _ hnm]
    · revert h1 h2
      generalize l.self.kind = k
      generalize l'.self.kind = k'
      intro h1 h2
      cases k <;> cases k' <;> first | rfl | (simp [Kind.isElement] at h1; done) | (simp [Kind.isElement] at h2; done)
  | .attributeCount k => simp [Match.Names] at hnm
  | .childCount k =>
    obtain ⟨_, _, _, _, _, hrep, _⟩ := hl.self
    obtain ⟨_, _, _, _, _, hrep', _⟩ := hl'.self
    have hcnt : l.self.kids.countP (fun t => t.kind.isElement) = l'.self.kids.countP (fun t => t.kind.isElement) :=
      countP_rel hk Kind.isElement (fun _ _ h => h.isElement) (fun _ h => h) ht.2
    simp only [Match.matches, load_eq hld, load_eq hld', pure_bind]
    rcases hsk with (h1 | ⟨e, e', h1, h2, -⟩) | ⟨h1, h2⟩
    · rw [h1]
      cases l'.self.kind <;> simp [countChildElements_eq _ hrep.kids, countChildElements_eq _ hrep'.kids, hcnt]
    · simp [h1, h2, countChildElements_eq _ hrep.kids, countChildElements_eq _ hrep'.kids, hcnt]
    · revert h1 h2
      generalize l.self.kind = k
      generalize l'.self.kind = k'
      intro h1 h2
      cases k <;> cases k' <;> first | rfl | (simp [Kind.isElement] at h1; done) | (simp [Kind.isElement] at h2; done)
  | .function f => simp [Match.Calls] at hc
  | .functionValue f test =>
    obtain ⟨_, _, _, _, _, hrep, _⟩ := hl.self
    obtain ⟨_, _, _, _, _, hrep', _⟩ := hl'.self
    cases f with
    | none => simp only [Match.matches]
    | some f =>
      cases test with
      | none => simp only [Match.matches]
      | some t =>
        simp only [Match.matches]
        have h1 : f.call h l.ptr = pure (f.val h l.self) := f.call_eq _ hrep
        have h2 : f.call h' l'.ptr = pure (f.val h' l'.self) := f.call_eq _ hrep'
        simp only [Match.Calls] at hc
        rw [h1, h2, hF f (hc f rfl) _ _ hr.self]
  | .negate ms =>
    simp only [Match.Safe] at hm hm'
    simp only [Match.Calls] at hc
    simp only [Match.Names] at hnm
    simp only [Match.matches]
    exact negateLoop_rel hl hl' hr ms hm hm' hc hnm
  | .nthChild step shift first ofType =>
    simp only [Match.Safe] at hm hm'
    simp only [Match.matches, nthChildMatches_eq hl hn hm, nthChildMatches_eq hl' hn' hm']
    have hpos : ∀ ct, l.posFirst ct = l'.posFirst ct ∧ l.posLast ct = l'.posLast ct := by
      intro ct
      simp only [Loc.posFirst, Loc.posLast, hr.inElem]
      have hb := countTrees_rel hk ct (hr.before.append (b := [l.self]) (b' := [l'.self]) (by simp [TRelL, hr.self]))
      have ha := countTrees_rel hk ct (ts := l.self :: l.after) (ts' := l'.self :: l'.after)
        (by rw [TRelL]; exact .inr ⟨_, _, rfl, hr.self, hr.after⟩)
      rw [hb, ha]
      simp
    have key : ∀ e, l.pos first ofType e = l'.pos first ofType e := by
      intro e; simp only [Loc.pos, hpos]
    rcases hsk with (h1 | ⟨e, e', h1, h2, h3, -⟩) | ⟨h1, h2⟩
    · rw [h1]
      cases l'.self.kind <;> simp [key]
    · simp only [h1, h2]
      have : l.pos first ofType e = l'.pos first ofType e' := by rw [key]; simp only [Loc.pos, h3]
      rw [this]
    · revert h1 h2
      generalize l.self.kind = k
      generalize l'.self.kind = k'
      intro h1 h2
      cases k <;> cases k' <;> first | rfl | (simp [Kind.isElement] at h1; done) | (simp [Kind.isElement] at h2; done)
  | .onlyChild ofType =>
    simp only [Match.matches]
    refine decides_eq (onlyChild_decides hl ofType) (onlyChild_decides hl' ofType) ?_
    have hcnt : ∀ ct, (∀ t ∈ l.before ++ l.after, isCounted ct t = false) ↔
        ∀ t ∈ l'.before ++ l'.after, isCounted ct t = false := by
      intro ct
      have := countTrees_rel hk ct (hr.before.append hr.after)
      have hz : ∀ ts : List Tree, (∀ t ∈ ts, isCounted ct t = false) ↔ countTrees ct ts = 0 := by
        intro ts
        simp [countTrees, List.countP_eq_zero, countsAs_iff]
      rw [hz, hz, this]
    rw [hr.inElem]
    rcases hsk with (h1 | ⟨e, e', h1, h2, h3, -⟩) | ⟨h1, h2⟩
    · rw [h1]; simp only [hcnt]
    · simp only [h1, h2, Kind.element.injEq, exists_eq_left', h3, hcnt]
    · have g1 := notElement_iff h1
      have g2 := notElement_iff h2
      simp only [g1, g2, false_and, exists_false]
  | .typeRegex r =>
    simp only [Match.matches, typeRegexMatches, load_eq hld, load_eq hld', pure_bind]
    rcases hsk with (h1 | ⟨e, e', h1, h2, h3, h4, -⟩) | ⟨h1, h2⟩
    · rw [h1]
    · simp only [h1, h2, h3, h4]
    · revert h1 h2
      generalize l.self.kind = k
      generalize l'.self.kind = k'
      intro h1 h2
      cases k <;> cases k' <;> first | rfl | (simp [Kind.isElement] at h1; done) | (simp [Kind.isElement] at h2; done)
theorem negateLoop_rel {l l' : Loc} (hl : l.Stored h n) (hl' : l'.Stored h' n') (hr : LRel R dead l l')
    (ms : List (Option Match)) (hm : Match.SafeL n ms) (hm' : Match.SafeL n' ms) (hc : Match.CallsL F ms) (hnm : Match.NamesL N ms) :
    negateLoop rx h l.ptr ms = negateLoop rx h' l'.ptr ms := by
  match ms with
  | [] => simp only [negateLoop]
  | none :: ms =>
    simp only [Match.SafeL] at hm hm'
    simp only [Match.CallsL] at hc
    simp only [Match.NamesL] at hnm
    simp only [negateLoop, optMatches, negateLoop_rel hl hl' hr ms hm.2 hm'.2 hc hnm]
  | some m :: ms =>
    simp only [Match.SafeL, Match.SafeO] at hm hm'
    simp only [Match.CallsL] at hc
    simp only [Match.NamesL] at hnm
    simp only [negateLoop, optMatches, matches_rel hl hl' hr m hm.1 hm'.1 hc.1 hnm.1,
      negateLoop_rel hl hl' hr ms hm.2 hm'.2 hc.2 hnm.2]
end

theorem allMatch_rel {l l' : Loc} (hl : l.Stored h n) (hl' : l'.Stored h' n') (hr : LRel R dead l l')
    (ms : List (Option Match)) (hm : Match.SafeL n ms) (hm' : Match.SafeL n' ms) (hc : Match.CallsL F ms) (hnm : Match.NamesL N ms) :
    allMatch rx h l.ptr ms = allMatch rx h' l'.ptr ms := by
  induction ms with
  | nil => rfl
  | cons m ms ih =>
    cases m with
    | none =>
      simp only [Match.SafeL] at hm hm'
      simp only [Match.CallsL] at hc
      simp only [Match.NamesL] at hnm
      simp only [allMatch, ih hm.2 hm'.2 hc hnm]
    | some m =>
      simp only [Match.SafeL, Match.SafeO] at hm hm'
      simp only [Match.CallsL] at hc
      simp only [Match.NamesL] at hnm
      simp only [allMatch, matches_rel hn hn' hk hF hl hl' hr m hm.1 hm'.1 hc.1 hnm.1, ih hm.2 hm'.2 hc.2 hnm.2]

theorem ruleMatches_rel {l l' : Loc} (hl : l.Stored h n) (hl' : l'.Stored h' n') (hr : LRel R dead l l')
    {i i' : RuleInfo} (hi : i.tag = i'.tag ∧ i.tagname = i'.tagname ∧ i.ms = i'.ms) (hm : Match.SafeL n i.ms)
    (hm' : Match.SafeL n' i.ms) (hc : Match.CallsL F i.ms) (hnm : Match.NamesL N i.ms) : ruleMatches rx h i l.ptr = ruleMatches rx h' i' l'.ptr := by
  obtain ⟨pp, j, hld⟩ := hl.load
  obtain ⟨pp', j', hld'⟩ := hl'.load
  have hsk := hk.alike _ _ ((TRel.iff R dead _ _).1 hr.self).1
  have htag : tagAgrees i l.self.kind = tagAgrees i' l'.self.kind := by
    rw [hsk.tagAgrees]; simp only [tagAgrees, hi.1, hi.2.1]
  simp only [ruleMatches, load_eq hld, load_eq hld', pure_bind, htag,
    allMatch_rel hn hn' hk hF hl hl' hr i.ms hm hm' hc hnm, ← hi.2.2]

theorem capture_rel {l l' : Loc} (hl : l.Stored h n) (hl' : l'.Stored h' n') (hr : LRel R dead l l') (c : Capture)
    (hc : c.Calls F) (hnm : ∀ attr name pipe, c = .attribute attr name pipe → N attr) : c.capture rx h l.ptr = c.capture rx h' l'.ptr := by
  obtain ⟨pp, j, hld⟩ := hl.load
  obtain ⟨pp', j', hld'⟩ := hl'.load
  obtain ⟨_, _, _, _, _, hrep, _⟩ := hl.self
  obtain ⟨_, _, _, _, _, hrep', _⟩ := hl'.self
  have hsk := hk.alike _ _ ((TRel.iff R dead _ _).1 hr.self).1
  cases c with
  | «attribute» a name pipe =>
    simp only [Capture.capture, load_eq hld, load_eq hld', pure_bind]
    rcases hsk with (h1 | ⟨e, e', h1, h2, h3, h4, h5, h6⟩) | ⟨h1, h2⟩
    · rw [h1]
    · simp only [h1, h2, h6 _ (hnm _ _ _ rfl)]
    · revert h1 h2
      generalize l.self.kind = k
      generalize l'.self.kind = k'
      intro h1 h2
      cases k <;> cases k' <;> first | rfl | (simp [Kind.isElement] at h1; done) | (simp [Kind.isElement] at h2; done)
  | function f name pipe =>
    cases f with
    | none => rfl
    | some f =>
      have h1 : f.call h l.ptr = pure (f.val h l.self) := f.call_eq _ hrep
      have h2 : f.call h' l'.ptr = pure (f.val h' l'.self) := f.call_eq _ hrep'
      simp only [Capture.Calls] at hc
      simp only [Capture.capture, h1, h2, hF f (hc f rfl) _ _ hr.self]

theorem ruleCapture_rel {l l' : Loc} (hl : l.Stored h n) (hl' : l'.Stored h' n') (hr : LRel R dead l l')
    (cs : List (Option Capture)) (hc : ∀ c, some c ∈ cs → c.Calls F)
    (hnm : ∀ attr name pipe, some (.attribute attr name pipe) ∈ cs → N attr) :
    ruleCapture rx h l.ptr cs = ruleCapture rx h' l'.ptr cs := by
  induction cs with
  | nil => rfl
  | cons c cs ih =>
    have ih := ih (fun c hm => hc c (by simp [hm])) fun a b c hm => hnm a b c (by simp [hm])
    cases c with
    | none => simpa only [ruleCapture] using ih
    | some c => simp only [ruleCapture, capture_rel hn hn' hk hF hl hl' hr c (hc c (by simp)) (fun a b p e => hnm a b p (by simp [e])), ih]

end

/-! ## The extraction -/

/-- The same rule, which names attributes of `N` only. -/
structure IRel (N : Str → Prop) (n n' : Nat) (F : CaptureFn → Prop) (i i' : RuleInfo) : Prop where
  same : i = i'
  safe : i.Safe n
  safe' : i.Safe n'
  calls : i.Calls F
  names : i.Names N

theorem extract_named (hn : n ≤ 2147483647) (hn' : n' ≤ 2147483647) (hk : KGood N R fun _ => False) (hF : FGood R (fun _ => False) h h' F)
    {r : Rule} (hs : r.Safe n) (hs' : r.Safe n') (hc : r.All (RuleInfo.Calls F)) (hnm : r.All (RuleInfo.Names N)) {l l' : Loc}
    (hl : l.Stored h n) (hl' : l'.Stored h' n') (hll : LRel R (fun _ => False) l l') (ms : UInt64) :
    extract rx h r l.ptr ms = extract rx h' r l'.ptr ms := by
  have hgood : Good R (fun _ => False) (Loc.Stored h n) (Loc.Stored h' n') :=
    ⟨fun t t' hkk => (hk.alike _ _ hkk).isElement, fun t ht => ht.elim,
     fun l hl he x hx => (sibs_locs hl he).stored hx, fun l hl he x hx => (sibs_locs hl he).stored hx⟩
  have hrules : GoodRules R (fun _ => False) (Loc.Stored h n) (Loc.Stored h' n') (ownVal rx h) (ownVal rx h') (IRel N n n' F) := by
    refine ⟨fun i i' hi => by rw [hi.same], fun i i' hi => by rw [hi.same], ?_, fun i i' l hi hd => hd.1.elim⟩
    intro i i' l l' hi hll
    obtain ⟨rfl, h1, h2, h3, h4⟩ := hi
    have := ruleMatches_rel (rx := rx) hn hn' hk hF hll.2.1 hll.2.2 hll.1 (i := i) (i' := i) ⟨rfl, rfl, rfl⟩ h1.1 h2.1 h3.1 h4.1
    simp only [ownVal, this]
  have hr : r.Alike (IRel N n n' F) r := by
    refine alike_of_all (P := fun i => i ∈ infosOf r) (fun i hi => ?_) r ((all_iff_infos r).2 fun i hi => hi)
    exact ⟨rfl, (all_iff_infos r).1 hs i hi, (all_iff_infos r).1 hs' i hi, (all_iff_infos r).1 hc i hi, (all_iff_infos r).1 hnm i hi⟩
  have hsearch := search_gen (rx := rx) hgood hrules hr (.inl fun _ hd => hd) hl hl' hll
  have hres : groupsToResult rx h ((searchAt rx h r l).val.map conv) =
      groupsToResult rx h' ((searchAt rx h' r l').val.map conv) :=
    groupsToResult_rel (fun p q x y hpq hxy => by
      have hpq : IRel N n n' F p.val.info q.val.info := hpq
      rw [← hpq.same]
      exact ruleCapture_rel hn hn' hk hF hxy.2.1 hxy.2.2 hxy.1 _ hpq.calls.2 hpq.names.2) hsearch.1
  rw [extract_eq hn hs hl, extract_eq hn' hs' hl', hres, hsearch.2.2 fun _ hd => hd]

end

end Hext.Unnamed
