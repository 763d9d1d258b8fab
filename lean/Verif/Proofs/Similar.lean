import Verif.Proofs.Param
import Verif.Proofs.Conditions
import Verif.Proofs.Result
set_option linter.unusedSimpArgs false
set_option linter.unusedSectionVars false
/-!
# Conditions and captures on similar documents
-/

namespace Hext.Param

/-- Nodes that conditions and captures (except `@inner-html`) cannot tell apart. -/
def SameKind (k k' : Kind) : Prop :=
  k = k' ∨ ∃ e e', k = .element e ∧ k' = .element e' ∧ e.tag = e'.tag ∧ e.origName = e'.origName ∧
    e.attrs.length = e'.attrs.length ∧ ∀ name, getAttribute e.attrs name = getAttribute e'.attrs name

/-- Nodes that conditions and captures that call no function cannot tell apart. -/
def AlikeKind (k k' : Kind) : Prop := SameKind k k' ∨ (k.isElement = false ∧ k'.isElement = false)

theorem notElement_iff {k : Kind} (h : k.isElement = false) : ∀ e, k ≠ .element e := by rintro e rfl; cases h

theorem SameKind.countsAs {k k' : Kind} (h : SameKind k k') (ct : Option Tag) : countsAs ct k = countsAs ct k' := by
  rcases h with rfl | ⟨e, e', rfl, rfl, h1, -⟩
  · rfl
  · simp [Hext.countsAs, Kind.elem?, h1]

theorem SameKind.isElement {k k' : Kind} (h : SameKind k k') : k.isElement = k'.isElement := by
  rcases h with rfl | ⟨e, e', rfl, rfl, -⟩ <;> rfl

theorem SameKind.wrapsText {k k' : Kind} (h : SameKind k k') : wrapsText k = wrapsText k' := by
  rcases h with rfl | ⟨e, e', rfl, rfl, h1, -⟩
  · rfl
  · simp [Hext.wrapsText, h1]

theorem SameKind.tagAgrees {k k' : Kind} (h : SameKind k k') (i : RuleInfo) : tagAgrees i k = tagAgrees i k' := by
  rcases h with rfl | ⟨e, e', rfl, rfl, h1, h2, -⟩
  · rfl
  · simp [Hext.tagAgrees, h1, h2]

theorem AlikeKind.countsAs {k k' : Kind} (h : AlikeKind k k') (ct : Option Tag) : countsAs ct k = countsAs ct k' := by
  rcases h with h | ⟨h1, h2⟩
  · exact h.countsAs ct
  · cases k <;> cases k' <;> first | rfl | (simp [Kind.isElement] at h1; done) | (simp [Kind.isElement] at h2; done)

theorem AlikeKind.isElement {k k' : Kind} (h : AlikeKind k k') : k.isElement = k'.isElement := by
  rcases h with h | ⟨h1, h2⟩
  · exact h.isElement
  · rw [h1, h2]

theorem AlikeKind.tagAgrees {k k' : Kind} (h : AlikeKind k k') (i : RuleInfo) : tagAgrees i k = tagAgrees i k' := by
  rcases h with h | ⟨h1, h2⟩
  · exact h.tagAgrees i
  · simp only [Hext.tagAgrees]
    cases k <;> cases k' <;> first | rfl | (simp [Kind.isElement] at h1; done) | (simp [Kind.isElement] at h2; done)

/-- A relation between the kinds of two nodes. -/
def onKind (K : Kind → Kind → Prop) (t t' : Tree) : Prop := K t.kind t'.kind

/-- Additional nodes are comments. -/
def IsComment (t : Tree) : Prop := ∃ c, t.kind = .comment c

/-- What is needed of the relation between nodes. -/
structure KGood (R : Tree → Tree → Prop) (dead : Tree → Prop) : Prop where
  alike : ∀ t t', R t t' → AlikeKind t.kind t'.kind
  notElem : ∀ t, dead t → t.kind.isElement = false

/-- What is needed for functions that return text. -/
structure KText (R : Tree → Tree → Prop) (dead : Tree → Prop) : Prop where
  same : ∀ t t', R t t' → SameKind t.kind t'.kind
  dead : ∀ t, dead t → IsComment t

theorem KText.good {R : Tree → Tree → Prop} {dead : Tree → Prop} (hk : KText R dead) : KGood R dead :=
  ⟨fun t t' h => .inl (hk.same t t' h), fun t h => by obtain ⟨c, h⟩ := hk.dead t h; rw [h]; rfl⟩

section
variable {R : Tree → Tree → Prop} {dead : Tree → Prop}

theorem countP_rel (hk : KGood R dead) (p : Kind → Bool) (hp : ∀ k k', AlikeKind k k' → p k = p k')
    (hd : ∀ k, k.isElement = false → p k = false) : ∀ {ts ts' : List Tree}, TRelL R dead ts ts' →
    ts.countP (fun t => p t.kind) = ts'.countP (fun t => p t.kind)
  | [], ts', h => by simp only [TRelL] at h; subst h; rfl
  | t :: ts, ts', h => by
    simp only [TRelL] at h
    rcases h with ⟨h1, h2⟩ | ⟨t', us, rfl, h1, h2⟩
    · rw [List.countP_cons, hd _ (hk.notElem _ h1), countP_rel hk p hp hd h2]; simp
    · have := hp _ _ (hk.alike _ _ ((TRel.iff R dead t t').1 h1).1)
      rw [List.countP_cons, List.countP_cons, this, countP_rel hk p hp hd h2]

theorem countTrees_rel (hk : KGood R dead) (ct : Option Tag) {ts ts' : List Tree} (h : TRelL R dead ts ts') :
    countTrees ct ts = countTrees ct ts' :=
  countP_rel hk (countsAs ct) (fun _ _ h => h.countsAs ct)
    (fun k h => by cases k <;> simp [Kind.isElement] at h <;> rfl) h

mutual
theorem stripVal_rel (hk : KText R dead) (sw : Bool) : ∀ (t t' : Tree), TRel R dead t t' → stripVal sw t = stripVal sw t'
  | .node p k kids, .node p' k' kids', h => by
    simp only [TRel, Tree.kids] at h
    have hl := stripValL_rel hk sw kids kids' h.2
    have hs := hk.same _ _ h.1
    simp only [Tree.kind] at hs
    clear h
    rcases hs with rfl | ⟨e, e', rfl, rfl, -⟩
    · cases k <;> simp [stripVal, hl]
    · simp [stripVal, hl]
theorem stripValL_rel (hk : KText R dead) (sw : Bool) : ∀ (ts ts' : List Tree), TRelL R dead ts ts' →
    stripValL sw ts = stripValL sw ts'
  | [], ts', h => by simp only [TRelL] at h; subst h; rfl
  | t :: ts, ts', h => by
    simp only [TRelL] at h
    rcases h with ⟨h1, h2⟩ | ⟨t', us, rfl, h1, h2⟩
    · obtain ⟨c, hc⟩ := hk.dead t h1
      have : stripVal sw t = [] := by
        cases t with
        | node p k kids => simp only [Tree.kind] at hc; subst hc; rfl
      simp only [stripValL, this, hc, wrapsText, Bool.and_false, Bool.false_eq_true, if_false, List.nil_append]
      exact stripValL_rel hk sw ts ts' h2
    · have hw := (hk.same _ _ ((TRel.iff R dead t t').1 h1).1).wrapsText
      simp only [stripValL, stripVal_rel hk sw t t' h1, hw, stripValL_rel hk sw ts us h2]
end

mutual
theorem serialVal_rel : ∀ (t t' : Tree), TRel (onKind (· = ·)) (fun _ => False) t t' → serialVal t = serialVal t'
  | .node p k kids, .node p' k' kids', h => by
    simp only [TRel, onKind, Tree.kind, Tree.kids] at h
    obtain ⟨rfl, h⟩ := h
    have hl := serialValL_rel kids kids' h
    cases k <;> simp [serialVal, hl]
theorem serialValL_rel : ∀ (ts ts' : List Tree), TRelL (onKind (· = ·)) (fun _ => False) ts ts' → serialValL ts = serialValL ts'
  | [], ts', h => by simp only [TRelL] at h; subst h; rfl
  | t :: ts, ts', h => by
    simp only [TRelL] at h
    rcases h with ⟨h1, h2⟩ | ⟨t', us, rfl, h1, h2⟩
    · exact h1.elim
    · simp only [serialValL, serialVal_rel t t' h1, serialValL_rel ts us h2]
end

/-- The functions give the same on related nodes. -/
def FGood (R : Tree → Tree → Prop) (dead : Tree → Prop) (h h' : Heap) (F : CaptureFn → Prop) : Prop :=
  ∀ f, F f → ∀ t t', TRel R dead t t' → f.val h t = f.val h' t'

theorem textual_good (hk : KText R dead) (h h' : Heap) : FGood R dead h h' CaptureFn.Textual := by
  rintro f (rfl | rfl) t t' ht
  · simp only [CaptureFn.val, stripVal_rel hk true t t' ht]
  · simp only [CaptureFn.val, stripVal_rel hk false t t' ht]

theorem eq_good : KText (onKind (· = ·)) (fun _ => False) := ⟨fun _ _ h => .inl h, fun _ h => h.elim⟩

theorem builtin_good (h h' : Heap) : FGood (onKind (· = ·)) (fun _ => False) h h' CaptureFn.Builtin := by
  rintro f (rfl | rfl | rfl) t t' ht
  · exact textual_good eq_good h h' _ (.inl rfl) t t' ht
  · have := (TRel.iff _ _ t t').1 ht
    have hkind : t.kind = t'.kind := this.1
    simp only [CaptureFn.val, serialValL_rel _ _ this.2, hkind]
  · exact textual_good eq_good h h' _ (.inr rfl) t t' ht

variable {rx : RxEngine} {h h' : Heap} {n n' : Nat} {F : CaptureFn → Prop}

theorem decides_eq {x y : E Bool} {P Q : Prop} (hx : Decides x P) (hy : Decides y Q) (h : P ↔ Q) : x = y := by
  obtain ⟨b, rfl, hb⟩ := hx
  obtain ⟨c, rfl, hc⟩ := hy
  congr 1
  cases b <;> cases c <;> simp_all

section
variable (hn : n ≤ 2147483647) (hn' : n' ≤ 2147483647) (hk : KGood R dead) (hF : FGood R dead h h' F)
include hn hn' hk hF

mutual
theorem matches_rel {l l' : Loc} (hl : l.Stored h n) (hl' : l'.Stored h' n') (hr : LRel R dead l l') (m : Match)
    (hm : m.Safe n) (hm' : m.Safe n') (hc : m.Calls F) : m.matches rx h l.ptr = m.matches rx h' l'.ptr := by
  obtain ⟨pp, i, hld⟩ := hl.load
  obtain ⟨pp', i', hld'⟩ := hl'.load
  have ht := (TRel.iff R dead _ _).1 hr.self
  have hsk := hk.alike _ _ ht.1
  match m with
  | .attribute name test =>
    simp only [Match.matches, attributeMatches, load_eq hld, load_eq hld', pure_bind]
    rcases hsk with (h1 | ⟨e, e', h1, h2, h3, h4, h5, h6⟩) | ⟨h1, h2⟩
    · rw [h1]
    · simp only [h1, h2, h6]
    · revert h1 h2
      generalize l.self.kind = k
      generalize l'.self.kind = k'
      intro h1 h2
      cases k <;> cases k' <;> first | rfl | (simp [Kind.isElement] at h1; done) | (simp [Kind.isElement] at h2; done)
  | .attributeCount k =>
    simp only [Match.matches, load_eq hld, load_eq hld', pure_bind]
    rcases hsk with (h1 | ⟨e, e', h1, h2, h3, h4, h5, h6⟩) | ⟨h1, h2⟩
    · rw [h1]
    · simp only [h1, h2, h5]
    · revert h1 h2
      generalize l.self.kind = k
      generalize l'.self.kind = k'
      intro h1 h2
      cases k <;> cases k' <;> first | rfl | (simp [Kind.isElement] at h1; done) | (simp [Kind.isElement] at h2; done)
  | .childCount k =>
    obtain ⟨_, _, _, _, _, hrep, _⟩ := hl.self
    obtain ⟨_, _, _, _, _, hrep', _⟩ := hl'.self
    have hcnt : l.self.kids.countP (fun t => t.kind.isElement) = l'.self.kids.countP (fun t => t.kind.isElement) :=
      countP_rel hk Kind.isElement (fun _ _ h => h.isElement) (fun _ h => h) ht.2
    simp only [Match.matches, load_eq hld, load_eq hld', pure_bind]
    rcases hsk with (h1 | ⟨e, e', h1, h2, -⟩) | ⟨h1, h2⟩
    · rw [h1]
      cases l'.self.kind <;> simp [countChildElements_eq _ hrep.kids, countChildElements_eq _ hrep'.kids, hcnt]
    · simp [h1, h2, countChildElements_eq _ hrep.kids, countChildElements_eq _ hrep'.kids, hcnt]
    · revert h1 h2
      generalize l.self.kind = k
      generalize l'.self.kind = k'
      intro h1 h2
      cases k <;> cases k' <;> first | rfl | (simp [Kind.isElement] at h1; done) | (simp [Kind.isElement] at h2; done)
  | .function f => simp [Match.Calls] at hc
  | .functionValue f test =>
    obtain ⟨_, _, _, _, _, hrep, _⟩ := hl.self
    obtain ⟨_, _, _, _, _, hrep', _⟩ := hl'.self
    cases f with
    | none => simp only [Match.matches]
    | some f =>
      cases test with
      | none => simp only [Match.matches]
      | some t =>
        simp only [Match.matches]
        have h1 : f.call h l.ptr = pure (f.val h l.self) := f.call_eq _ hrep
        have h2 : f.call h' l'.ptr = pure (f.val h' l'.self) := f.call_eq _ hrep'
        simp only [Match.Calls] at hc
        rw [h1, h2, hF f (hc f rfl) _ _ hr.self]
  | .negate ms =>
    simp only [Match.Safe] at hm hm'
    simp only [Match.Calls] at hc
    simp only [Match.matches]
    exact negateLoop_rel hl hl' hr ms hm hm' hc
  | .nthChild step shift first ofType =>
    simp only [Match.Safe] at hm hm'
    simp only [Match.matches, nthChildMatches_eq hl hn hm, nthChildMatches_eq hl' hn' hm']
    have hpos : ∀ ct, l.posFirst ct = l'.posFirst ct ∧ l.posLast ct = l'.posLast ct := by
      intro ct
      simp only [Loc.posFirst, Loc.posLast, hr.inElem]
      have hb := countTrees_rel hk ct (hr.before.append (b := [l.self]) (b' := [l'.self]) (by simp [TRelL, hr.self]))
      have ha := countTrees_rel hk ct (ts := l.self :: l.after) (ts' := l'.self :: l'.after)
        (by rw [TRelL]; exact .inr ⟨_, _, rfl, hr.self, hr.after⟩)
      rw [hb, ha]
      simp
    have key : ∀ e, l.pos first ofType e = l'.pos first ofType e := by
      intro e; simp only [Loc.pos, hpos]
    rcases hsk with (h1 | ⟨e, e', h1, h2, h3, -⟩) | ⟨h1, h2⟩
    · rw [h1]
      cases l'.self.kind <;> simp [key]
    · simp only [h1, h2]
      have : l.pos first ofType e = l'.pos first ofType e' := by rw [key]; simp only [Loc.pos, h3]
      rw [this]
    · revert h1 h2
      generalize l.self.kind = k
      generalize l'.self.kind = k'
      intro h1 h2
      cases k <;> cases k' <;> first | rfl | (simp [Kind.isElement] at h1; done) | (simp [Kind.isElement] at h2; done)
  | .onlyChild ofType =>
    simp only [Match.matches]
    refine decides_eq (onlyChild_decides hl ofType) (onlyChild_decides hl' ofType) ?_
    have hcnt : ∀ ct, (∀ t ∈ l.before ++ l.after, isCounted ct t = false) ↔
        ∀ t ∈ l'.before ++ l'.after, isCounted ct t = false := by
      intro ct
      have := countTrees_rel hk ct (hr.before.append hr.after)
      have hz : ∀ ts : List Tree, (∀ t ∈ ts, isCounted ct t = false) ↔ countTrees ct ts = 0 := by
        intro ts
        simp [countTrees, List.countP_eq_zero, countsAs_iff]
      rw [hz, hz, this]
    rw [hr.inElem]
    rcases hsk with (h1 | ⟨e, e', h1, h2, h3, -⟩) | ⟨h1, h2⟩
    · rw [h1]; simp only [hcnt]
    · simp only [h1, h2, Kind.element.injEq, exists_eq_left', h3, hcnt]
    · have g1 := notElement_iff h1
      have g2 := notElement_iff h2
      simp only [g1, g2, false_and, exists_false]
  | .typeRegex r =>
    simp only [Match.matches, typeRegexMatches, load_eq hld, load_eq hld', pure_bind]
    rcases hsk with (h1 | ⟨e, e', h1, h2, h3, h4, -⟩) | ⟨h1, h2⟩
    · rw [h1]
    · simp only [h1, h2, h3, h4]
    · revert h1 h2
      generalize l.self.kind = k
      generalize l'.self.kind = k'
      intro h1 h2
      cases k <;> cases k' <;> first | rfl | (simp [Kind.isElement] at h1; done) | (simp [Kind.isElement] at h2; done)
theorem negateLoop_rel {l l' : Loc} (hl : l.Stored h n) (hl' : l'.Stored h' n') (hr : LRel R dead l l')
    (ms : List (Option Match)) (hm : Match.SafeL n ms) (hm' : Match.SafeL n' ms) (hc : Match.CallsL F ms) :
    negateLoop rx h l.ptr ms = negateLoop rx h' l'.ptr ms := by
  match ms with
  | [] => simp only [negateLoop]
  | none :: ms =>
    simp only [Match.SafeL] at hm hm'
    simp only [Match.CallsL] at hc
    simp only [negateLoop, optMatches, negateLoop_rel hl hl' hr ms hm.2 hm'.2 hc]
  | some m :: ms =>
    simp only [Match.SafeL, Match.SafeO] at hm hm'
    simp only [Match.CallsL] at hc
    simp only [negateLoop, optMatches, matches_rel hl hl' hr m hm.1 hm'.1 hc.1,
      negateLoop_rel hl hl' hr ms hm.2 hm'.2 hc.2]
end

theorem allMatch_rel {l l' : Loc} (hl : l.Stored h n) (hl' : l'.Stored h' n') (hr : LRel R dead l l')
    (ms : List (Option Match)) (hm : Match.SafeL n ms) (hm' : Match.SafeL n' ms) (hc : Match.CallsL F ms) :
    allMatch rx h l.ptr ms = allMatch rx h' l'.ptr ms := by
  induction ms with
  | nil => rfl
  | cons m ms ih =>
    cases m with
    | none =>
      simp only [Match.SafeL] at hm hm'
      simp only [Match.CallsL] at hc
      simp only [allMatch, ih hm.2 hm'.2 hc]
    | some m =>
      simp only [Match.SafeL, Match.SafeO] at hm hm'
      simp only [Match.CallsL] at hc
      simp only [allMatch, matches_rel hn hn' hk hF hl hl' hr m hm.1 hm'.1 hc.1, ih hm.2 hm'.2 hc.2]

theorem ruleMatches_rel {l l' : Loc} (hl : l.Stored h n) (hl' : l'.Stored h' n') (hr : LRel R dead l l')
    {i i' : RuleInfo} (hi : i.tag = i'.tag ∧ i.tagname = i'.tagname ∧ i.ms = i'.ms) (hm : Match.SafeL n i.ms)
    (hm' : Match.SafeL n' i.ms) (hc : Match.CallsL F i.ms) : ruleMatches rx h i l.ptr = ruleMatches rx h' i' l'.ptr := by
  obtain ⟨pp, j, hld⟩ := hl.load
  obtain ⟨pp', j', hld'⟩ := hl'.load
  have hsk := hk.alike _ _ ((TRel.iff R dead _ _).1 hr.self).1
  have htag : tagAgrees i l.self.kind = tagAgrees i' l'.self.kind := by
    rw [hsk.tagAgrees]; simp only [tagAgrees, hi.1, hi.2.1]
  simp only [ruleMatches, load_eq hld, load_eq hld', pure_bind, htag,
    allMatch_rel hn hn' hk hF hl hl' hr i.ms hm hm' hc, ← hi.2.2]

theorem capture_rel {l l' : Loc} (hl : l.Stored h n) (hl' : l'.Stored h' n') (hr : LRel R dead l l') (c : Capture)
    (hc : c.Calls F) : c.capture rx h l.ptr = c.capture rx h' l'.ptr := by
  obtain ⟨pp, j, hld⟩ := hl.load
  obtain ⟨pp', j', hld'⟩ := hl'.load
  obtain ⟨_, _, _, _, _, hrep, _⟩ := hl.self
  obtain ⟨_, _, _, _, _, hrep', _⟩ := hl'.self
  have hsk := hk.alike _ _ ((TRel.iff R dead _ _).1 hr.self).1
  cases c with
  | «attribute» a name pipe =>
    simp only [Capture.capture, load_eq hld, load_eq hld', pure_bind]
    rcases hsk with (h1 | ⟨e, e', h1, h2, h3, h4, h5, h6⟩) | ⟨h1, h2⟩
    · rw [h1]
    · simp only [h1, h2, h6]
    · revert h1 h2
      generalize l.self.kind = k
      generalize l'.self.kind = k'
      intro h1 h2
      cases k <;> cases k' <;> first | rfl | (simp [Kind.isElement] at h1; done) | (simp [Kind.isElement] at h2; done)
  | function f name pipe =>
    cases f with
    | none => rfl
    | some f =>
      have h1 : f.call h l.ptr = pure (f.val h l.self) := f.call_eq _ hrep
      have h2 : f.call h' l'.ptr = pure (f.val h' l'.self) := f.call_eq _ hrep'
      simp only [Capture.Calls] at hc
      simp only [Capture.capture, h1, h2, hF f (hc f rfl) _ _ hr.self]

theorem ruleCapture_rel {l l' : Loc} (hl : l.Stored h n) (hl' : l'.Stored h' n') (hr : LRel R dead l l')
    (cs : List (Option Capture)) (hc : ∀ c, some c ∈ cs → c.Calls F) :
    ruleCapture rx h l.ptr cs = ruleCapture rx h' l'.ptr cs := by
  induction cs with
  | nil => rfl
  | cons c cs ih =>
    have ih := ih fun c hm => hc c (by simp [hm])
    cases c with
    | none => simpa only [ruleCapture] using ih
    | some c => simp only [ruleCapture, capture_rel hn hn' hk hF hl hl' hr c (hc c (by simp)), ih]

end

/-! ## The search -/

/-- The rules agree in all but their captures, and everything they call is fine. -/
structure IRel (C : List (Option Capture) → List (Option Capture) → Prop) (dead : Tree → Prop) (n n' : Nat)
    (F : CaptureFn → Prop) (i i' : RuleInfo) : Prop where
  tag : i.tag = i'.tag
  optional : i.optional = i'.optional
  greedy : i.greedy = i'.greedy
  tagname : i.tagname = i'.tagname
  ms : i.ms = i'.ms
  safe : i.Safe n
  safe' : i'.Safe n'
  calls : Match.CallsL F i.ms
  caps : C i.caps i'.caps
  dead : (∃ t, dead t) → i.tag ≠ .any

theorem search_rel {C : List (Option Capture) → List (Option Capture) → Prop}
    (hn : n ≤ 2147483647) (hn' : n' ≤ 2147483647) (hk : KGood R dead) (hF : FGood R dead h h' F) {r r' : Rule}
    (hr : r.Alike (IRel C dead n n' F) r') (ha : (∀ t, ¬ dead t) ∨ r.Anchored) {l l' : Loc} (hl : l.Stored h n)
    (hl' : l'.Stored h' n') (hll : LRel R dead l l') :
    All2 (All2 (Pair2 (PRel (IRel C dead n n' F)) (LR R dead (Loc.Stored h n) (Loc.Stored h' n'))))
      (searchAt rx h r l).val (searchAt rx h' r' l').val ∧
    CostRel dead (searchAt rx h r l).cost (searchAt rx h' r' l').cost := by
  have hgood : Good R dead (Loc.Stored h n) (Loc.Stored h' n') :=
    ⟨fun t t' hkk => (hk.alike _ _ hkk).isElement, fun t ht he => absurd he (by rw [hk.notElem _ ht]; simp),
     fun l hl he x hx => (sibs_locs hl he).stored hx, fun l hl he x hx => (sibs_locs hl he).stored hx⟩
  have hrules : GoodRules R dead (Loc.Stored h n) (Loc.Stored h' n') (ownVal rx h) (ownVal rx h') (IRel C dead n n' F) := by
    refine ⟨fun i i' hi => hi.optional, fun i i' hi => hi.greedy, ?_, ?_⟩
    · intro i i' l l' hi hll
      have := ruleMatches_rel (rx := rx) hn hn' hk hF hll.2.1 hll.2.2 hll.1 (i := i) (i' := i') ⟨hi.tag, hi.tagname, hi.ms⟩
        hi.safe.1 (by rw [hi.ms]; exact hi.safe'.1) hi.calls
      simp only [ownVal, this]
    · intro i i' l hi hd
      have hc := hk.notElem _ hd.1
      obtain ⟨pp, j, hld⟩ := hd.2.load
      have hne := hi.dead ⟨_, hd.1⟩
      have htag : tagAgrees i l.self.kind = false := by
        simp only [tagAgrees]
        cases ht : i.tag with
        | any => exact absurd ht hne
        | tag t =>
          revert hc
          cases l.self.kind <;> intro hc <;> first | rfl | (simp [Kind.isElement] at hc; done)
      have : ruleMatches rx h i l.ptr = pure false := by
        simp only [ruleMatches, load_eq hld, pure_bind, htag]
        rfl
      simp only [ownVal, this, decide_eq_false_iff_not]
      intro h0
      exact absurd (E.pure_inj h0) (by simp)
  have hno : (∀ t, ¬ dead t) → ∀ x, ¬ LD dead (Loc.Stored h n) x := fun hd x hx => hd _ hx.1
  have hc := chain_rel hgood hrules r r' [] [] hr (ha.imp hno id)
  have hs : Sib (LD dead (Loc.Stored h n)) (LR R dead (Loc.Stored h n) (Loc.Stored h' n')) l.onward l'.onward := by
    have h1 := fun x hx => (sibs_onward hl).stored (l := x) hx
    have h2 := fun x hx => (sibs_onward hl').stored (l := x) hx
    refine .cons ⟨hll, hl, hl'⟩ ?_
    have he := hll.inElem
    cases hie : l.inElem with
    | false =>
      rw [hie] at he
      simp only [← he, Bool.false_eq_true, if_false]
      exact .nil
    | true =>
      rw [hie] at he
      simp only [← he, if_true]
      refine locsAux_rel hll.after ?_ (fun x hx => h1 x ?_) (fun x hx => h2 x ?_)
      · exact hll.before.append (b := [l.self]) (b' := [l'.self]) (by simp [TRelL, hll.self])
      · simp only [Loc.onward, hie, if_true]; exact List.mem_cons_of_mem _ hx
      · simp only [Loc.onward, ← he, if_true]; exact List.mem_cons_of_mem _ hx
  have := save_rel hgood hc hs
  exact ⟨this.1, this.2.1, fun hd => this.2.2 (hno hd)⟩

/-! ## The result -/

theorem groupMap_cons (r : RulePtr) (x : Ptr) (g : MatchingNodes) (m : List (Str × Str)) :
    groupMap rx h ((r, x) :: g) m =
      ruleCapture rx h x r.val.info.caps >>= fun vs => groupMap rx h g (vs.foldl (fun m p => multimapInsert p m) m) := by
  rw [groupMap]
  cases hc : r.val.info.caps with
  | nil => simp [ruleCapture]
  | cons c cs => simp

theorem groupMap_rel {P : RulePtr → RulePtr → Prop} {R : Loc → Loc → Prop}
    (hcap : ∀ p q x y, P p q → R x y → ruleCapture rx h x.ptr p.val.info.caps = ruleCapture rx h' y.ptr q.val.info.caps)
    {g g' : Pairs RulePtr Loc} (hg : All2 (Pair2 P R) g g') (m : List (Str × Str)) :
    groupMap rx h (conv g) m = groupMap rx h' (conv g') m := by
  induction hg generalizing m with
  | nil => rfl
  | @cons p q g g' hpq _ ih =>
    obtain ⟨r, x⟩ := p
    obtain ⟨r', x'⟩ := q
    simp only [conv_cons, groupMap_cons, hcap r r' x x' hpq.1 hpq.2, ih]

theorem groupsToResult_rel {P : RulePtr → RulePtr → Prop} {R : Loc → Loc → Prop}
    (hcap : ∀ p q x y, P p q → R x y → ruleCapture rx h x.ptr p.val.info.caps = ruleCapture rx h' y.ptr q.val.info.caps)
    {gs gs' : List (Pairs RulePtr Loc)} (hg : All2 (All2 (Pair2 P R)) gs gs') :
    groupsToResult rx h (gs.map conv) = groupsToResult rx h' (gs'.map conv) := by
  induction hg with
  | nil => rfl
  | cons hg _ ih => simp only [List.map_cons, groupsToResult, groupMap_rel hcap hg, ih]

/-- Rules as they are needed for `extract_rel`. -/
def SameCaps (F : CaptureFn → Prop) (cs cs' : List (Option Capture)) : Prop := cs = cs' ∧ ∀ c, some c ∈ cs → c.Calls F

mutual
theorem alike_of_all {I : RuleInfo → RuleInfo → Prop} {P : RuleInfo → Prop} (hI : ∀ i, P i → I i i) :
    ∀ (r : Rule), r.All P → r.Alike I r
  | .mk i c nx ns, h => by
    simp only [Rule.All] at h
    simp only [Rule.Alike, Rule.info, Rule.child, Rule.next, Rule.nested]
    exact ⟨hI i h.1, alikeO_of_all hI c h.2.1, alikeO_of_all hI nx h.2.2.1, alikeL_of_all hI ns h.2.2.2⟩
theorem alikeO_of_all {I : RuleInfo → RuleInfo → Prop} {P : RuleInfo → Prop} (hI : ∀ i, P i → I i i) :
    ∀ (r : Option Rule), Rule.AllO P r → Rule.AlikeO I r r
  | none, _ => by simp [Rule.AlikeO]
  | some r, h => by
    simp only [Rule.AllO] at h
    simp only [Rule.AlikeO]
    exact ⟨r, rfl, alike_of_all hI r h⟩
theorem alikeL_of_all {I : RuleInfo → RuleInfo → Prop} {P : RuleInfo → Prop} (hI : ∀ i, P i → I i i) :
    ∀ (rs : List Rule), Rule.AllL P rs → Rule.AlikeL I rs rs
  | [], _ => by simp [Rule.AlikeL]
  | r :: rs, h => by
    simp only [Rule.AllL] at h
    simp only [Rule.AlikeL]
    exact ⟨r, rs, rfl, alike_of_all hI r h.1, alikeL_of_all hI rs h.2⟩
end

mutual
theorem _root_.Hext.Rule.All.mono {P Q : RuleInfo → Prop} : ∀ {r : Rule}, r.All P → (∀ i, P i → Q i) → r.All Q
  | .mk i c nx ns, h, hpq => by
    simp only [Rule.All] at h ⊢
    exact ⟨hpq _ h.1, Rule.AllO.mono h.2.1 hpq, Rule.AllO.mono h.2.2.1 hpq, Rule.AllL.mono h.2.2.2 hpq⟩
theorem _root_.Hext.Rule.AllO.mono {P Q : RuleInfo → Prop} : ∀ {r : Option Rule}, Rule.AllO P r → (∀ i, P i → Q i) →
    Rule.AllO Q r
  | none, _, _ => by simp [Rule.AllO]
  | some r, h, hpq => by simp only [Rule.AllO] at h ⊢; exact Rule.All.mono h hpq
theorem _root_.Hext.Rule.AllL.mono {P Q : RuleInfo → Prop} : ∀ {rs : List Rule}, Rule.AllL P rs → (∀ i, P i → Q i) →
    Rule.AllL Q rs
  | [], _, _ => by simp [Rule.AllL]
  | r :: rs, h, hpq => by
    simp only [Rule.AllL] at h ⊢
    exact ⟨Rule.All.mono h.1 hpq, Rule.AllL.mono h.2 hpq⟩
end

mutual
theorem all_and {P Q : RuleInfo → Prop} : ∀ (r : Rule), r.All P → r.All Q → r.All fun i => P i ∧ Q i
  | .mk i c nx ns, h, h' => by
    simp only [Rule.All] at h h' ⊢
    exact ⟨⟨h.1, h'.1⟩, allO_and c h.2.1 h'.2.1, allO_and nx h.2.2.1 h'.2.2.1, allL_and ns h.2.2.2 h'.2.2.2⟩
theorem allO_and {P Q : RuleInfo → Prop} : ∀ (r : Option Rule), Rule.AllO P r → Rule.AllO Q r →
    Rule.AllO (fun i => P i ∧ Q i) r
  | none, _, _ => by simp [Rule.AllO]
  | some r, h, h' => by simp only [Rule.AllO] at h h' ⊢; exact all_and r h h'
theorem allL_and {P Q : RuleInfo → Prop} : ∀ (rs : List Rule), Rule.AllL P rs → Rule.AllL Q rs →
    Rule.AllL (fun i => P i ∧ Q i) rs
  | [], _, _ => by simp [Rule.AllL]
  | r :: rs, h, h' => by
    simp only [Rule.AllL] at h h' ⊢
    exact ⟨all_and r h.1 h'.1, allL_and rs h.2 h'.2⟩
end

/-- The same rule on similar documents: the same groups, up to where they are, and no more searches. -/
theorem search_alike (hn : n ≤ 2147483647) (hn' : n' ≤ 2147483647) (hk : KGood R dead) (hF : FGood R dead h h' F)
    {r : Rule} (hs : r.Safe n) (hs' : r.Safe n') (hc : r.All (RuleInfo.Calls F))
    (ha : (∀ t, ¬ dead t) ∨ (r.Anchored ∧ r.All fun i => i.tag ≠ .any)) {l l' : Loc} (hl : l.Stored h n)
    (hl' : l'.Stored h' n') (hll : LRel R dead l l') :
    groupsToResult rx h ((searchAt rx h r l).val.map conv) = groupsToResult rx h' ((searchAt rx h' r l').val.map conv) ∧
    CostRel dead (searchAt rx h r l).cost (searchAt rx h' r l').cost := by
  have hr : r.Alike (IRel (SameCaps F) dead n n' F) r := by
    have hall : r.All fun i => (∃ t, dead t) → i.tag ≠ .any := by
      rcases ha with hd | ⟨_, ha⟩
      · have := all_and r hs hs
        exact this.mono fun i _ ⟨t, ht⟩ => absurd ht (hd t)
      · exact ha.mono fun i hi _ => hi
    refine alike_of_all (P := fun i => (i.Safe n ∧ i.Safe n') ∧ i.Calls F ∧ ((∃ t, dead t) → i.tag ≠ .any)) ?_ r
      (all_and r (all_and r hs hs') (all_and r hc hall))
    rintro i ⟨⟨h1, h2⟩, h3, h4⟩
    exact ⟨rfl, rfl, rfl, rfl, rfl, h1, h2, h3.1, ⟨rfl, h3.2⟩, h4⟩
  have hsearch := search_rel (rx := rx) hn hn' hk hF hr (ha.imp id (·.1)) hl hl' hll
  refine ⟨groupsToResult_rel ?_ hsearch.1, hsearch.2⟩
  intro p q x y hpq hxy
  have hp : IRel (SameCaps F) dead n n' F p.val.info q.val.info := hpq
  rw [← hp.caps.1]
  exact ruleCapture_rel hn hn' hk hF hxy.2.1 hxy.2.2 hxy.1 _ hp.caps.2

/-- The same rule gives the same on similar documents. -/
theorem extract_rel (hn : n ≤ 2147483647) (hn' : n' ≤ 2147483647) (hk : KGood R dead) (hF : FGood R dead h h' F)
    {r : Rule} (hs : r.Safe n) (hs' : r.Safe n') (hc : r.All (RuleInfo.Calls F))
    (ha : (∀ t, ¬ dead t) ∨ (r.Anchored ∧ r.All fun i => i.tag ≠ .any)) {l l' : Loc} (hl : l.Stored h n)
    (hl' : l'.Stored h' n') (hll : LRel R dead l l') (ms : UInt64) (hms : (∀ t, ¬ dead t) ∨ ms = 0) :
    extract rx h r l.ptr ms = extract rx h' r l'.ptr ms := by
  have hsearch := search_alike (rx := rx) hn hn' hk hF hs hs' hc ha hl hl' hll
  rw [extract_eq hn hs hl, extract_eq hn' hs' hl', hsearch.1]
  rcases hms with hd | rfl
  · rw [hsearch.2.2 hd]
  · simp

/-- What the first extraction returns under a limit, the second returns under that limit. -/
theorem extract_within (hn : n ≤ 2147483647) (hn' : n' ≤ 2147483647) (hk : KGood R dead) (hF : FGood R dead h h' F)
    {r : Rule} (hs : r.Safe n) (hs' : r.Safe n') (hc : r.All (RuleInfo.Calls F))
    (ha : (∀ t, ¬ dead t) ∨ (r.Anchored ∧ r.All fun i => i.tag ≠ .any)) {l l' : Loc} (hl : l.Stored h n)
    (hl' : l'.Stored h' n') (hll : LRel R dead l l') (ms : UInt64) {res : List (List (Str × Str))}
    (he : extract rx h r l.ptr ms = pure res) : extract rx h' r l'.ptr ms = pure res := by
  have hsearch := search_alike (rx := rx) hn hn' hk hF hs hs' hc ha hl hl' hll
  rw [extract_eq hn hs hl, hsearch.1] at he
  rw [extract_eq hn' hs' hl']
  split at he
  · injection he with he; injection he
  · rename_i hlim
    rw [if_neg]
    · exact he
    · exact fun hlim' => hlim ⟨hlim'.1, Nat.le_trans hlim'.2 hsearch.2.1⟩

/-! ## Kinds of similarity -/

mutual
theorem trel_of_alike {K : Kind → Kind → Prop} {dead : Tree → Prop} : ∀ (t t' : Tree), t.Alike K t' → TRel (onKind K) dead t t'
  | .node p k kids, t', h => by
    simp only [Tree.Alike] at h
    simp only [TRel]
    exact ⟨h.1, trelL_of_alike kids t'.kids h.2⟩
theorem trelL_of_alike {K : Kind → Kind → Prop} {dead : Tree → Prop} : ∀ (ts ts' : List Tree), Tree.AlikeL K ts ts' →
    TRelL (onKind K) dead ts ts'
  | [], ts', h => by simpa only [Tree.AlikeL, TRelL] using h
  | t :: ts, ts', h => by
    simp only [Tree.AlikeL] at h
    obtain ⟨t', us, rfl, h1, h2⟩ := h
    simp only [TRelL]
    exact .inr ⟨t', us, rfl, trel_of_alike t t' h1, trelL_of_alike ts us h2⟩
end

mutual
theorem trel_of_uncomment {K : Kind → Kind → Prop} : ∀ (t t' : Tree), t.uncomment.Alike K t' → TRel (onKind K) IsComment t t'
  | .node p k kids, t', h => by
    simp only [Tree.uncomment, Tree.Alike] at h
    simp only [TRel]
    exact ⟨h.1, trelL_of_uncomment kids t'.kids h.2⟩
theorem trelL_of_uncomment {K : Kind → Kind → Prop} : ∀ (ts ts' : List Tree), Tree.AlikeL K (uncommentL ts) ts' →
    TRelL (onKind K) IsComment ts ts'
  | [], ts', h => by simpa only [uncommentL, Tree.AlikeL, TRelL] using h
  | t :: ts, ts', h => by
    simp only [TRelL]
    simp only [uncommentL] at h
    cases hk : t.isComment with
    | true =>
      simp only [hk, if_true] at h
      have hc : IsComment t := by
        unfold Tree.isComment at hk
        split at hk
        · exact ⟨_, by assumption⟩
        · cases hk
      exact .inl ⟨hc, trelL_of_uncomment ts ts' h⟩
    | false =>
      simp only [hk, Bool.false_eq_true, if_false, Tree.AlikeL] at h
      obtain ⟨t', us, rfl, h1, h2⟩ := h
      exact .inr ⟨t', us, rfl, trel_of_uncomment t t' h1, trelL_of_uncomment ts us h2⟩
end

theorem comment_good : KText (onKind (· = ·)) IsComment := ⟨fun _ _ h => .inl h, fun _ h => h⟩

theorem getAttribute_perm {as bs : List Attr} (hp : as.Perm bs) (hd : DistinctNames as) (name : Str) :
    getAttribute as name = getAttribute bs name := by
  have hsym : ∀ {a b : Attr}, ¬ SameName a.name b.name → ¬ SameName b.name a.name := fun h h' => h (Eq.symm h')
  unfold getAttribute
  induction hp with
  | nil => rfl
  | cons a _ ih =>
    rw [List.find?_cons, List.find?_cons, ih (List.pairwise_cons.1 hd).2]
  | swap a b l =>
    rw [List.find?_cons, List.find?_cons, List.find?_cons, List.find?_cons]
    have hab := (List.pairwise_cons.1 hd).1 a (by simp)
    cases ha : eqIgnoreCase a.name (cstr name) <;> cases hb : eqIgnoreCase b.name (cstr name) <;> try rfl
    simp only [eqIgnoreCase, beq_iff_eq] at ha hb
    exact absurd (hb.trans ha.symm) hab
  | trans h1 h2 ih1 ih2 =>
    rw [ih1 hd, ih2 ((h1.pairwise_iff hsym).1 hd)]

theorem reordered_good : KText (onKind Kind.Reordered) (fun _ => False) := by
  refine ⟨?_, fun _ h => h.elim⟩
  rintro t t' (h | ⟨e, as, h1, h2, hp, hd⟩)
  · exact .inl h
  · exact .inr ⟨e, _, h1, h2, rfl, rfl, hp.length_eq, fun name => getAttribute_perm hp hd name⟩

theorem root_rel {R : Tree → Tree → Prop} {dead : Tree → Prop} {t t' : Tree} (h : TRel R dead t t') :
    LRel R dead (Loc.root t) (Loc.root t') :=
  ⟨rfl, by simp [Loc.root, TRelL], h, by simp [Loc.root, TRelL]⟩

end

/-! ## The same document -/

mutual
theorem trel_refl : ∀ (t : Tree), TRel (· = ·) (fun _ => False) t t
  | .node p k kids => by simp only [TRel]; exact ⟨trivial, trelL_refl kids⟩
theorem trelL_refl : ∀ (ts : List Tree), TRelL (· = ·) (fun _ => False) ts ts
  | [] => by simp [TRelL]
  | t :: ts => by simp only [TRelL]; exact .inr ⟨t, ts, rfl, trel_refl t, trelL_refl ts⟩
end

theorem trel_eq {t t' : Tree} (h : TRel (· = ·) (fun _ => False) t t') : t = t' :=
  ((TRel.iff _ _ t t').1 h).1

theorem trelL_eq : ∀ {ts ts' : List Tree}, TRelL (· = ·) (fun _ => False) ts ts' → ts = ts'
  | [], ts', h => by simp only [TRelL] at h; exact h.symm
  | t :: ts, ts', h => by
    simp only [TRelL] at h
    rcases h with ⟨h, _⟩ | ⟨t', us, rfl, h1, h2⟩
    · exact h.elim
    · rw [trel_eq h1, trelL_eq h2]

theorem lrel_eq {l l' : Loc} (h : LRel (· = ·) (fun _ => False) l l') : l = l' := by
  cases l; cases l'
  have h1 := h.inElem
  have h2 := trelL_eq h.before
  have h3 := trel_eq h.self
  have h4 := trelL_eq h.after
  simp only at h1 h2 h3 h4
  subst h1 h2 h3 h4
  rfl

theorem lrel_refl (l : Loc) : LRel (· = ·) (fun _ => False) l l :=
  ⟨rfl, trelL_refl _, trel_refl _, trelL_refl _⟩

/-- The same node; what holds of it is `Ok`. -/
abbrev Same (Ok : Loc → Prop) : Loc → Loc → Prop := LR (· = ·) (fun _ => False) Ok Ok
abbrev Never (Ok : Loc → Prop) : Loc → Prop := LD (fun _ => False) Ok

theorem same_sib {Ok : Loc → Prop} {ls : List Loc} (h : ∀ l ∈ ls, Ok l) : Sib (Never Ok) (Same Ok) ls ls := by
  induction ls with
  | nil => exact .nil
  | cons l ls ih =>
    exact .cons ⟨lrel_refl l, h l (by simp), h l (by simp)⟩ (ih fun l hl => h l (by simp [hl]))

theorem stored_good (h : Heap) (n : Nat) : Good (· = ·) (fun _ => False) (Loc.Stored h n) (Loc.Stored h n) :=
  ⟨fun _ _ h => by rw [h], fun _ h => h.elim, fun _ hl he _ hx => (sibs_locs hl he).stored hx,
   fun _ hl he _ hx => (sibs_locs hl he).stored hx⟩

theorem never {Ok : Loc → Prop} (x : Loc) : ¬ Never Ok x := fun h => h.1

/-- Rules that agree in all but their captures find the same nodes in the same document. -/
theorem search_same {rx : RxEngine} {h : Heap} {n : Nat} {I : RuleInfo → RuleInfo → Prop}
    (hI : ∀ i i', I i i' → i = { i' with caps := i.caps }) {r r' : Rule} (hr : r.Alike I r') {l : Loc}
    (hl : l.Stored h n) :
    All2 (All2 (Pair2 (PRel I) (Same (Loc.Stored h n)))) (searchAt rx h r l).val (searchAt rx h r' l).val ∧
    (searchAt rx h r l).cost = (searchAt rx h r' l).cost := by
  have hrules : GoodRules (· = ·) (fun _ => False) (Loc.Stored h n) (Loc.Stored h n) (ownVal rx h) (ownVal rx h) I := by
    refine ⟨fun i i' hi => by rw [hI i i' hi], fun i i' hi => by rw [hI i i' hi], ?_, fun _ _ x _ hd => absurd hd (never x)⟩
    intro i i' l l' hi hll
    rw [lrel_eq hll.1]
    rw [hI i i' hi]
    rfl
  have hc := chain_rel (stored_good h n) hrules r r' [] [] hr (.inl never)
  have := save_rel (stored_good h n) hc (same_sib fun x hx => (sibs_onward hl).stored hx)
  exact ⟨this.1, this.2.2 never⟩

/-! ## A chain of one rule -/

theorem once_optional {ρ α : Type} (c : CR ρ α) (b : Bool) (ms : List α) : once { c with optional := b } ms = once c ms := by
  induction ms with
  | nil => rfl
  | cons m ms ih => rw [once, once, ih]

theorem rangeGreedy_optional {ρ α : Type} (c : CR ρ α) (b : Bool) : ∀ (k : Nat) (ms : List α), ms.length ≤ k →
    rangeGreedy { c with optional := b } ms = rangeGreedy c ms := by
  intro k
  induction k with
  | zero =>
    intro ms hk
    have : ms = [] := List.length_eq_zero_iff.1 (by omega)
    subst this
    rw [rangeGreedy_none (by rfl), rangeGreedy_none (by rfl), once_optional]
  | succ k ih =>
    intro ms hk
    cases ho : (once c ms).val with
    | none => rw [rangeGreedy_none (by rw [once_optional]; exact ho), rangeGreedy_none ho, once_optional]
    | some q =>
      obtain ⟨b', x, s, r⟩ := q
      have := once_rest_lt ho
      rw [rangeGreedy_some (by rw [once_optional]; exact ho), rangeGreedy_some ho, once_optional, ih r (by omega)]

/-- What `range` does with one rule. -/
theorem range_single {ρ α : Type} (c : CR ρ α) (b : Bool) (ms : List α) :
    range [{ c with optional := b }] ms =
      if c.greedy then ⟨((rangeGreedy c ms).val.1, none), (rangeGreedy c ms).cost⟩
      else match (once c ms).val with
        | none => ⟨([], none), (once c ms).cost⟩
        | some (_, x, s, r) => ⟨(s ++ [(c.id, x)], some r), (once c ms).cost⟩ := by
  have hr := rangeGreedy_optional c b _ ms (Nat.le_refl _)
  have ho := once_optional c b ms
  obtain ⟨id, o, g, run⟩ := c
  simp only at hr ho
  cases g with
  | true => simp [range, hr]
  | false =>
    simp only [range, ho]
    generalize (once ⟨id, o, false, run⟩ ms) = w
    cases hw : w.val with
    | none => simp
    | some q => simp

theorem group_single_optional {ρ α : Type} (c : CR ρ α) (b : Bool) (n : α) (ns : List α) :
    group [] [{ c with optional := b }] false (n :: ns) [] = group [] [{ c with optional := true }] false (n :: ns) [] := by
  cases b with
  | true => rfl
  | false =>
    have hopt : group [] [{ c with optional := true }] false (n :: ns) [] =
        ⟨((range [{ c with optional := true }] (n :: ns)).val.1, (range [{ c with optional := true }] (n :: ns)).val.2.getD []),
          (range [{ c with optional := true }] (n :: ns)).cost⟩ := by
      rw [group]; simp [splitMand, firstMand]
    rw [hopt, range_single]
    have hoa : ¬ (({ c with optional := false } : CR ρ α).optional || false) = true := by simp
    have hof := once_optional c false
    have hrf := fun ms => range_single c false ms
    cases ho : (once c (n :: ns)).val with
    | none =>
      rw [group_first_none hoa (by rw [hof]; exact ho), hof]
      cases hg : c.greedy with
      | true => rw [rangeGreedy_none ho]; simp
      | false => simp
    | some q =>
      obtain ⟨b', x, s, r⟩ := q
      rw [group_first_some hoa (by rw [hof]; exact ho), hof]
      obtain ⟨id, o, g, run⟩ := c
      simp only at hof hrf ho ⊢
      cases g with
      | false => simp [group_done]
      | true =>
        simp only [if_true]
        rw [rangeGreedy_some ho]
        cases r with
        | nil => rw [group_nil, rangeGreedy_none (by rfl)]; simp [once]
        | cons m r =>
          rw [group]
          simp [splitMand, firstMand, hrf]

theorem groups_single_optional {ρ α : Type} (c : CR ρ α) (b : Bool) : ∀ (k : Nat) (ns : List α), ns.length ≤ k →
    groups [{ c with optional := b }] ns = groups [{ c with optional := true }] ns := by
  intro k
  induction k with
  | zero =>
    intro ns hk
    have : ns = [] := List.length_eq_zero_iff.1 (by omega)
    subst this
    rw [groups_nil_right, groups_nil_right]
  | succ k ih =>
    intro ns hk
    cases ns with
    | nil => rw [groups_nil_right, groups_nil_right]
    | cons n ns =>
      rw [groups, groups, group_single_optional c b n ns]
      have hlt := group_lt { c with optional := true } [] false n ns []
      rw [ih _ (by simp at hk hlt; omega)]

mutual
theorem descend_single_optional {ρ : Type} (c : CR ρ Loc) (b : Bool) : ∀ (t : Tree),
    descend [{ c with optional := b }] t = descend [{ c with optional := true }] t
  | .node p k kids => by
    cases k with
    | element e =>
      simp only [descend, groups_single_optional c b _ _ (Nat.le_refl _), descendL_single_optional c b kids]
    | _ => rfl
theorem descendL_single_optional {ρ : Type} (c : CR ρ Loc) (b : Bool) : ∀ (ts : List Tree),
    descendL [{ c with optional := b }] ts = descendL [{ c with optional := true }] ts
  | [] => rfl
  | t :: ts => by simp only [descendL, descend_single_optional c b t, descendL_single_optional c b ts]
end

theorem save_single_optional {ρ : Type} (c : CR ρ Loc) (b : Bool) (ls : List Loc) :
    save [{ c with optional := b }] ls = save [{ c with optional := true }] ls := by
  simp only [save, groups_single_optional c b _ _ (Nat.le_refl _), descendL_single_optional]

theorem pair2_refl {P : RulePtr → RulePtr → Prop} (hP : ∀ p, P p p) {Ok : Loc → Prop} {ps : Pairs RulePtr Loc}
    (h : ∀ p ∈ ps, Ok p.2) : All2 (Pair2 P (Same Ok)) ps ps := by
  induction ps with
  | nil => exact .nil
  | cons p ps ih =>
    exact .cons ⟨hP _, lrel_refl _, h p (by simp), h p (by simp)⟩ (ih fun q hq => h q (by simp [hq]))

end Hext.Param
