import Verif.Proofs.ParserActs
/-!
# Parsing in memory: lemmas
-/

namespace Hext.Mem

open Hext (PSt PErr Act)

section
variable {m₀ m : Mem} {s : PSt} {t : PMem}

/-! ## Tags -/

theorem tkStop_cases (c : Ctx) (p : Nat) (s : PSt) :
    (∃ w, Hext.tkStop c p s = .ok { s with tok := w } ∧ Hext.tkStop c p (PSt.forget s) = .ok (PSt.forget { s with tok := w })) ∨
    (∃ e, Hext.tkStop c p s = .error e ∧ Hext.tkStop c p (PSt.forget s) = .error e) := by
  unfold Hext.tkStop
  obtain ⟨ss, pv, tb, tok⟩ := s
  cases tb with
  | none => exact .inr ⟨_, rfl, rfl⟩
  | some b =>
    simp only [PSt.forget]
    split
    · exact .inl ⟨_, rfl, rfl⟩
    · exact .inr ⟨_, rfl, rfl⟩

theorem sim_tkStop {c p} (h : Rep m₀ s t m) :
    Sim (Bad m₀) (tkStopR c p) t m (Hext.tkStop c p s) (fun s' tok t' m' => Rep m₀ s' t' m' ∧ tok = s'.tok ∧ s'.pv = s.pv) := by
  unfold tkStopR
  refine sim_request h.bad (sim_get ?_)
  rw [h.1]
  rcases tkStop_cases c p s with ⟨w, e₁, e₂⟩ | ⟨e, e₁, e₂⟩
  · rw [e₁, e₂]
    refine sim_parse (x := .ok (PSt.forget { s with tok := w })) (g := fun _ => pure { s with tok := w }) h.bad ?_
    rintro _ ⟨⟩
    exact sim_set (sim_pure ⟨⟨rfl, h.2⟩, rfl, rfl⟩)
  · rw [e₁, e₂]
    exact sim_parse (x := .error e) (g := fun _ => .error e) h.bad fun _ hc => nomatch hc

theorem sim_onCur {α β : Type} {a as ats r rs rts} {op : P Unit} {r' : Rule} {f : Unit → R α} {ref : Hext.P β} {good}
    (hop : ∀ {m F}, Own m₀ (ruleA a r ∗ F) m → ∃ m', op m = pure ((), m') ∧ Own m₀ (ruleA a r' ∗ F) m')
    (ht : t.stacks = (a :: as) :: ats) (hs : s.stacks = (r :: rs) :: rts) (h : Own m₀ (stA t s) m)
    (k : ∀ m', Own m₀ (stA t { s with stacks := (r' :: rs) :: rts }) m' → Sim (Bad m₀) (f ()) t m' ref good) :
    Sim (Bad m₀) (R.mem op >>= f) t m ref good := by
  rw [stA_eq, ht, hs, stacksA_rule, sep_assoc] at h
  obtain ⟨m', e, o⟩ := hop h
  refine sim_mem e (k m' (o.mono ?_))
  rw [stA_eq, ht, stacksA_rule]
  simp only [pvA]
  ac_rfl

theorem sim_setOpenTag {name} (h : Rep m₀ s t m) :
    Sim (Bad m₀) (setOpenTagR name) t m (Hext.setOpenTag name s) (Post m₀) := by
  unfold setOpenTagR Hext.setOpenTag
  split
  · rw [← bind_pure (modifyCur _ s)]
    refine sim_cur h.2 ?_
    intro a as ats r rs rts ht hs
    exact sim_last (sim_onCur (own_setTag · .any) ht hs h.2 fun m' o => sim_pure ⟨h.1, o⟩)
  · simp only
    split
    · rw [← bind_pure (modifyCur _ s)]
      refine sim_cur h.2 ?_
      intro a as ats r rs rts ht hs
      refine sim_onCur (own_setTag · _) ht hs h.2 fun m' o => ?_
      refine sim_request ⟨_, o⟩ (sim_last ?_)
      exact sim_onCur (own_setTagname · _) ht rfl o fun m' o => sim_pure ⟨h.1, o⟩
    · rw [← bind_pure (modifyCur _ s)]
      refine sim_cur h.2 ?_
      intro a as ats r rs rts ht hs
      exact sim_onCur (own_setTag · _) ht hs h.2 fun m' o => sim_pure ⟨h.1, o⟩

theorem sim_validateCloseTag {c p name} (h : Rep m₀ s t m) :
    Sim (Bad m₀) (validateCloseTagR c p name) t m (Hext.validateCloseTag c p name s) (fun _ _ t' m' => Rep m₀ s t' m') := by
  unfold validateCloseTagR
  refine sim_get ?_
  have parse : ∀ x : Hext.P Unit, Sim (Bad m₀) (R.parse x) t m x (fun _ _ t' m' => Rep m₀ s t' m') := by
    intro x
    have := sim_last (sim_parse (x := x) (f := pure) (g := pure)
      (good := fun _ _ t' m' => Rep m₀ s t' m') h.bad fun _ _ => sim_pure h)
    rwa [bind_pure] at this
  rcases stacks_cases h.2 with ⟨h₁, h₂⟩ | ⟨_, _, h₁, h₂⟩ | ⟨a, as, ats, r, rs, rts, h₁, h₂⟩
  · unfold Hext.validateCloseTag
    rw [h₁, h₂]; exact sim_fault_last rfl fun _ => rfl
  · unfold Hext.validateCloseTag
    rw [h₁, h₂]
    exact parse _
  · rw [h₁]
    have ho := h.2
    rw [stA_eq, h₁, h₂, stacksA_rule, sep_assoc] at ho
    obtain ⟨o, e, e₁, e₂⟩ := own_loadRule ho
    refine sim_mem e (sim_request h.bad ?_)
    have : Hext.validateCloseTag c p name s =
        Hext.validateCloseTag c p name { stacks := [[.mk { tag := o.tag, tagname := o.tagname } none none []]] } := by
      unfold Hext.validateCloseTag
      rw [h₂, e₁, e₂]
      rfl
    rw [this]
    exact parse _

/-! ## Code blocks without pointers -/

theorem plain_exec {a : Act} (ha : Act.isPlain a) (c : Ctx) (p : Nat) (s : PSt) :
    (∃ s', a.exec c p s = .ok s' ∧ a.exec c p (PSt.forget s) = .ok (PSt.forget s') ∧ ∀ t, stA t s' = stA t s) ∨
    (∃ e, a.exec c p s = .error e ∧ a.exec c p (PSt.forget s) = .error e) := by
  cases a with
  | optional | tkStart | nthEven | nthOdd | nthStep | icase | collate | builtinText | builtinInnerHtml | builtinStripTags |
    capVarLiteral => exact .inl ⟨_, rfl, rfl, fun _ => rfl⟩
  | attrName =>
    rcases tkStop_cases c p s with ⟨w, e₁, e₂⟩ | ⟨e, e₁, e₂⟩
    · exact .inl ⟨{ s with tok := w, pv := { s.pv with attrName := w } }, by simp only [Act.exec]; rw [e₁]; rfl, by simp only [Act.exec]; rw [e₂]; rfl, fun _ => rfl⟩
    · exact .inr ⟨e, by simp only [Act.exec]; rw [e₁]; rfl, by simp only [Act.exec]; rw [e₂]; rfl⟩
  | literal =>
    rcases tkStop_cases c p s with ⟨w, e₁, e₂⟩ | ⟨e, e₁, e₂⟩
    · exact .inl ⟨{ s with tok := w, pv := { s.pv with literal := w } }, by simp only [Act.exec]; rw [e₁]; rfl, by simp only [Act.exec]; rw [e₂]; rfl, fun _ => rfl⟩
    · exact .inr ⟨e, by simp only [Act.exec]; rw [e₁]; rfl, by simp only [Act.exec]; rw [e₂]; rfl⟩
  | tkStop =>
    rcases tkStop_cases c p s with ⟨w, e₁, e₂⟩ | ⟨e, e₁, e₂⟩
    · exact .inl ⟨{ s with tok := w }, by simp only [Act.exec]; rw [e₁], by simp only [Act.exec]; rw [e₂], fun _ => rfl⟩
    · exact .inr ⟨e, by simp only [Act.exec]; rw [e₁], by simp only [Act.exec]; rw [e₂]⟩
  | capVarToken =>
    rcases tkStop_cases c p s with ⟨w, e₁, e₂⟩ | ⟨e, e₁, e₂⟩
    · exact .inl ⟨{ s with tok := w, pv := { s.pv with capVar := w } }, by simp only [Act.exec]; rw [e₁]; rfl, by simp only [Act.exec]; rw [e₂]; rfl, fun _ => rfl⟩
    · exact .inr ⟨e, by simp only [Act.exec]; rw [e₁]; rfl, by simp only [Act.exec]; rw [e₂]; rfl⟩
  | nthNumber =>
    rcases tkStop_cases c p s with ⟨w, e₁, e₂⟩ | ⟨e, e₁, e₂⟩
    · cases hw : stoi w with
      | ok v =>
        refine .inl ⟨{ s with tok := w, pv := { s.pv with nth := (0, v) } }, ?_, ?_, fun _ => rfl⟩
        · simp only [Act.exec]
          rw [e₁]
          show (stoi w >>= _) = _
          rw [hw]; rfl
        · simp only [Act.exec]
          rw [e₂]
          show (stoi w >>= _) = _
          rw [hw]; rfl
      | error e =>
        refine .inr ⟨e, ?_, ?_⟩
        · simp only [Act.exec]
          rw [e₁]
          show (stoi w >>= _) = _
          rw [hw]; rfl
        · simp only [Act.exec]
          rw [e₂]
          show (stoi w >>= _) = _
          rw [hw]; rfl
    · exact .inr ⟨e, by simp only [Act.exec]; rw [e₁]; rfl, by simp only [Act.exec]; rw [e₂]; rfl⟩
  | nthShift =>
    rcases tkStop_cases c p s with ⟨w, e₁, e₂⟩ | ⟨e, e₁, e₂⟩
    · cases hw : stoi w with
      | ok v =>
        refine .inl ⟨{ s with tok := w, pv := { s.pv with nth := (s.pv.nth.1, v) } }, ?_, ?_, fun _ => rfl⟩
        · simp only [Act.exec]
          rw [e₁]
          show (stoi w >>= _) = _
          rw [hw]; rfl
        · simp only [Act.exec]
          rw [e₂]
          show (stoi w >>= _) = _
          rw [hw]; rfl
      | error e =>
        refine .inr ⟨e, ?_, ?_⟩
        · simp only [Act.exec]
          rw [e₁]
          show (stoi w >>= _) = _
          rw [hw]; rfl
        · simp only [Act.exec]
          rw [e₂]
          show (stoi w >>= _) = _
          rw [hw]; rfl
    · exact .inr ⟨e, by simp only [Act.exec]; rw [e₁]; rfl, by simp only [Act.exec]; rw [e₂]; rfl⟩
  | regex =>
    obtain ⟨ss, pv, tb, tok⟩ := s
    simp only [Act.exec, PSt.forget]
    cases c.rx.compile { src := tok, icase := pv.icase, collate := pv.collate } with
    | none => exact .inl ⟨_, rfl, rfl, fun _ => rfl⟩
    | some what =>
      right
      cases tb with
      | none => exact ⟨_, rfl, rfl⟩
      | some b =>
        simp only
        split
        · cases hx : (throwRegexError c p (p - b + 1) what : Hext.P PSt) with
          | error e => exact ⟨e, rfl, rfl⟩
          | ok s' =>
            exfalso
            unfold throwRegexError at hx
            cases h₁ : pMinus1 p with
            | error e => rw [h₁] at hx; cases hx
            | ok u =>
              rw [h₁] at hx
              have hx : (printErrorLocation c u (p - b + 1) >>= _) = _ := hx
              cases h₂ : printErrorLocation c u (p - b + 1) with
              | error e => rw [h₂] at hx; cases hx
              | ok l => rw [h₂] at hx; cases hx
        · exact ⟨_, rfl, rfl⟩
  | unexpected =>
    right
    simp only [Act.exec]
    cases hx : (throwUnexpected c p : Hext.P PSt) with
    | error e => exact ⟨e, rfl, rfl⟩
    | ok s' =>
      exfalso
      unfold throwUnexpected at hx
      cases h₁ : Hext.P.assert (p ≤ c.input.length) with
      | error e => rw [h₁] at hx; cases hx
      | ok u =>
        rw [h₁] at hx
        have hx : (unexpectedHead c p >>= _) = _ := hx
        cases h₂ : unexpectedHead c p with
        | error e => rw [h₂] at hx; cases hx
        | ok l =>
          rw [h₂] at hx
          have hx : (printErrorLocation c p 1 >>= _) = _ := hx
          cases h₃ : printErrorLocation c p 1 with
          | error e => rw [h₃] at hx; cases hx
          | ok l => rw [h₃] at hx; cases hx
  | _ => cases ha

theorem sim_plain {a : Act} (ha : Act.isPlain a) {c p} (h : Rep m₀ s t m) :
    Sim (Bad m₀) (do
      R.request
      let t ← R.get
      let s ← R.parse (a.exec c p t.rest)
      R.set { t with rest := s }) t m (a.exec c p s) (Post m₀) := by
  refine sim_request h.bad (sim_get ?_)
  rw [h.1]
  rcases plain_exec ha c p s with ⟨s', e₁, e₂, e₃⟩ | ⟨e, e₁, e₂⟩
  · rw [e₁, e₂]
    refine sim_parse (x := .ok (PSt.forget s')) (g := fun _ => pure s') h.bad ?_
    rintro _ ⟨⟩
    exact sim_last (sim_set (sim_pure ⟨rfl, by rw [e₃]; exact h.2⟩))
  · rw [e₁, e₂]
    exact sim_parse (x := .error e) (g := fun _ => .error e) h.bad fun _ hc => nomatch hc

/-! ## All code blocks -/

theorem modifyCur_pv {g : Rule → Rule} {s s' : PSt} (h : modifyCur g s = .ok s') : s'.pv = s.pv := by
  unfold modifyCur at h
  split at h
  · cases h; rfl
  · cases h

theorem sim_exec (c : Ctx) (p : Nat) (g : Growth) (a : Act) (h : Rep m₀ s t m) :
    Sim (Bad m₀) (Act.execR c p g a) t m (a.exec c p s) (Post m₀) := by
  unfold Act.execR
  refine sim_get ?_
  have hr := h.1
  cases a with
  | optional | tkStart | nthEven | nthOdd | nthStep | icase | collate | builtinText | builtinInnerHtml | builtinStripTags |
    capVarLiteral | attrName | literal | tkStop | capVarToken | nthNumber | nthShift | regex | unexpected => exact sim_plain rfl h
  | negateTest => exact sim_negateTest h
  | regexTest =>
    rw [hr]
    show Sim _ (match s.pv.regex with | none => _ | some r => _) _ _ (match s.pv.regex with | none => _ | some r => _) _
    cases s.pv.regex with
    | none => exact sim_fault_last rfl fun _ => rfl
    | some r => exact sim_setTest (fun c a h => ⟨h, rfl⟩) h
  | traitEmpty => exact sim_setTrait trivial h
  | traitChildCount | traitAttributeCount =>
    refine sim_bind (sim_tkStop h) ?_
    rintro s' _ t' m' _ ⟨h', rfl, _⟩
    refine sim_parse h'.bad ?_
    intro v _
    exact sim_setTrait trivial h'
  | traitNth f o => rw [hr]; exact sim_setTrait trivial h
  | traitEnd f o => exact sim_setTrait trivial h
  | traitOnly o => exact sim_setTrait trivial h
  | traitTypeRegex =>
    rw [hr]
    refine sim_parse (x := derefRegex s.pv) h.bad ?_
    intro v _
    exact sim_setTrait trivial h
  | negateNew => exact sim_negateNew h
  | negateAppend => exact sim_negateAppend h
  | pipeTrim | pipeCollapseWs | pipeToLower | pipeToUpper => exact sim_addPipe h
  | pipeTrimLiteral | pipePrepend | pipeAppend => rw [hr]; exact sim_addPipe h
  | pipeFilter =>
    rw [hr]
    refine sim_parse (x := derefRegex s.pv) h.bad ?_
    intro v _
    exact sim_addPipe h
  | pipeReplace =>
    rw [hr]
    refine sim_parse (x := derefRegex s.pv) h.bad ?_
    intro v _
    exact sim_addPipe h
  | testWords | testEquals | testBeginsWith | testContains | testEndsWith =>
    rw [hr]
    exact sim_setTest (fun c a h => ⟨h, rfl⟩) h
  | captureFunction =>
    rw [hr]
    exact sim_capture (mv := .function s.pv.builtin s.pv.capVar) (own_allocFunctionCapture _ _ ·) h
  | matchFunction =>
    rw [hr]
    exact sim_match (mv := .functionValue s.pv.builtin) (own_allocFunctionValueMatch _ ·) h
  | matchAttribute =>
    rw [hr]
    exact sim_match (mv := .attribute s.pv.attrName) (own_allocAttributeMatch _ ·) h
  | captureAttribute =>
    rw [hr]
    have e : Act.exec c p .captureAttribute s = (do
        let s ← modifyCur (·.appendCapture (some (.attribute s.pv.attrName s.pv.capVar s.pv.pipe))) s
        pure { s with pv := { s.pv with pipe := none } }) >>= fun s' =>
          if s'.pv.optional then pure s' else modifyCur (·.appendMatch (some (.attribute s'.pv.attrName none))) s' := by
      rw [bind_assoc]; rfl
    rw [e]
    refine sim_bind (sim_capture (mv := .attribute s.pv.attrName s.pv.capVar) (own_allocAttributeCapture _ _ ·) h) ?_
    intro s' _ t' m' hs' h'
    have hp : s'.pv = { s.pv with pipe := none } := by
      cases hm : modifyCur (·.appendCapture (some (.attribute s.pv.attrName s.pv.capVar s.pv.pipe))) s with
      | error e => rw [hm] at hs'; cases hs'
      | ok s₁ =>
        rw [hm] at hs'
        cases hs'
        simp only [modifyCur_pv hm]
    show Sim _ (if s.pv.optional then _ else _) _ _ _ _
    rw [hp]
    show Sim _ (if s.pv.optional then _ else _) _ _ (if s.pv.optional then _ else _) _
    split
    · exact sim_pure h'
    · rw [← bind_pure (modifyCur _ s')]
      refine sim_cur h'.2 ?_
      intro a as ats r rs rts ht hs
      refine sim_request h'.bad (sim_request h'.bad ?_)
      obtain ⟨a, m'', e, o⟩ := own_allocAttributeMatch s.pv.attrName (q := none) (v := none) (F := stA t' s')
        (h'.2.mono (by simp only [testA, ptrA_none, emp_sep]))
      exact sim_mem e (sim_appendMatch ht hs h'.1 o)
  | testNull => exact sim_putTest hr (h.2.mono (by simp only [testA, ptrA_none, emp_sep]))
  | reset => exact sim_reset h
  | pushRule => exact sim_pushRule h
  | ruleOptional =>
    show Sim _ _ _ _ (modifyCur _ s) _
    rw [← bind_pure (modifyCur _ s)]
    refine sim_cur h.2 ?_
    intro a as ats r rs rts ht hs
    exact sim_last (sim_onCur (own_setOptional · true) ht hs h.2 fun m' o => sim_pure ⟨hr, o⟩)
  | ruleGreedy =>
    show Sim _ _ _ _ (modifyCur _ s) _
    rw [← bind_pure (modifyCur _ s)]
    refine sim_cur h.2 ?_
    intro a as ats r rs rts ht hs
    exact sim_last (sim_onCur (own_setGreedy · true) ht hs h.2 fun m' o => sim_pure ⟨hr, o⟩)
  | openTag =>
    refine sim_bind (sim_tkStop h) ?_
    rintro s' _ t' m' _ ⟨h', rfl, _⟩
    exact sim_setOpenTag h'
  | appendNegate =>
    refine sim_cur h.2 ?_
    intro a as ats r rs rts ht hs
    refine sim_get (sim_set ?_)
    exact sim_appendMatch (s := { s with pv := { s.pv with negate := none } }) ht hs hr
      (h.2.mono (by simp only [stA, Option.map_none, ptrA_none, sep_emp]; ac_rfl))
  | appendTrait =>
    refine sim_cur h.2 ?_
    intro a as ats r rs rts ht hs
    refine sim_get (sim_set ?_)
    exact sim_appendMatch (s := { s with pv := { s.pv with trait := none } }) ht hs hr
      (h.2.mono (by simp only [stA, ptrA_none, emp_sep]; ac_rfl))
  | popRule => exact sim_popRule h
  | closeTag =>
    refine sim_bind (sim_tkStop h) ?_
    rintro s' _ t' m' _ ⟨h', rfl, _⟩
    refine sim_bind (sim_validateCloseTag h') ?_
    intro _ _ t'' m'' _ h''
    exact sim_popRule h''
  | pushNested => exact sim_pushNested h
  | popNested => exact sim_popNested h

/-! ## The automaton -/

theorem sim_runActs (c : Ctx) (g : Nat → Nat → Growth) (p : Nat) : ∀ (n acts : Nat) {s t m}, Rep m₀ s t m →
    Sim (Bad m₀) (runActsR c g p acts n) t m (runActs c p acts n s) (Post m₀)
  | 0, _, _, _, _, h => sim_pure h
  | n + 1, acts, s, t, m, h => by
    unfold runActsR runActs
    refine sim_parse h.bad ?_
    intro a _
    cases Act.ofNat a with
    | none => exact sim_runActs c g p n (acts + 1) h
    | some a =>
      refine sim_bind (sim_exec c p (g p acts) a h) ?_
      intro s' _ t' m' _ h'
      exact sim_runActs c g p n (acts + 1) h'

theorem sim_runEofActs (c : Ctx) (g : Nat → Nat → Growth) (p : Nat) : ∀ (n acts : Nat) {s t m}, Rep m₀ s t m →
    Sim (Bad m₀) (runEofActsR c g p acts n) t m (runEofActs c p acts n s) (Post m₀)
  | 0, _, _, _, _, h => sim_pure h
  | n + 1, acts, s, t, m, h => by
    unfold runEofActsR runEofActs
    refine sim_parse h.bad ?_
    intro a _
    cases Act.ofNatEof a with
    | none => exact sim_runEofActs c g p n (acts + 1) h
    | some a =>
      refine sim_bind (sim_exec c p (g p acts) a h) ?_
      intro s' _ t' m' _ h'
      exact sim_runEofActs c g p n (acts + 1) h'

theorem sim_runTrans (c : Ctx) (g : Nat → Nat → Growth) (p trans : Nat) (h : Rep m₀ s t m) :
    Sim (Bad m₀) (runTransR c g p trans) t m (runTrans c p trans s) (Post m₀) := by
  unfold runTransR runTrans
  refine sim_parse h.bad ?_
  intro off _
  split
  · exact sim_pure h
  · refine sim_parse h.bad ?_
    intro n _
    exact sim_runActs c g p n _ h

theorem sim_runMachine (c : Ctx) (g : Nat → Nat → Growth) : ∀ (rest : Str) (cs p : Nat) {s t m}, Rep m₀ s t m →
    Sim (Bad m₀) (runMachineR c g cs p rest) t m (runMachine c cs p rest s) (Post m₀)
  | [], cs, p, s, t, m, h => by
    unfold runMachineR runMachine
    refine sim_parse h.bad fun off _ => sim_parse h.bad fun n _ => ?_
    exact sim_runEofActs c g p n _ h
  | b :: rest, cs, p, s, t, m, h => by
    unfold runMachineR runMachine
    refine sim_parse h.bad fun i _ => sim_parse h.bad fun trans _ => sim_parse h.bad fun cs' _ => ?_
    refine sim_bind (sim_runTrans c g p trans h) ?_
    intro s' _ t' m' _ h'
    split
    · exact sim_pure h'
    · exact sim_runMachine c g rest cs' (p + 1) h'

theorem own_dropEmpty {F : Asrt} : ∀ {as : List (List Nat)} {rs : List (List Rule)}, Own m₀ (stacksA as rs ∗ F) m →
    Own m₀ (stacksA (dropEmptyR as) (dropEmptyStacks rs) ∗ F) m := by
  intro as
  induction as with
  | nil =>
    intro rs h
    rcases stacks_cases h with ⟨_, rfl⟩ | ⟨_, _, h₁, _⟩ | ⟨_, _, _, _, _, _, h₁, _⟩
    · exact h
    · cases h₁
    · cases h₁
  | cons b bs ih =>
    intro rs h
    rcases stacks_cases h with ⟨h₁, _⟩ | ⟨_, rs, h₁, rfl⟩ | ⟨_, _, _, _, _, _, h₁, rfl⟩
    · cases h₁
    · cases h₁
      rw [stacksA_empty] at h
      have := ih h
      exact this
    · cases h₁
      exact h

theorem stacks_length {F : Asrt} : ∀ {as : List (List Nat)} {rs : List (List Rule)}, Own m₀ (stacksA as rs ∗ F) m →
    as.length = rs.length := by
  intro as rs h
  obtain ⟨S, T, hT, _⟩ := h.exists_left
  clear h
  induction as generalizing rs T S with
  | nil => cases rs with
    | nil => rfl
    | cons => exact hT.elim
  | cons a as ih => cases rs with
    | nil => exact hT.elim
    | cons r rs =>
      obtain ⟨S₁, S₂, _, h₂, _⟩ := hT
      simp only [List.length_cons]
      rw [ih S₂ S₂ h₂ (.refl _)]

theorem rules_length {F : Asrt} : ∀ {as : List Nat} {rs : List Rule}, Own m₀ (rulesA as rs ∗ F) m →
    as.length = rs.length := by
  intro as rs h
  obtain ⟨S, T, hT, _⟩ := h.exists_left
  clear h
  induction as generalizing rs T S with
  | nil => cases rs with
    | nil => rfl
    | cons => exact hT.elim
  | cons a as ih => cases rs with
    | nil => exact hT.elim
    | cons r rs =>
      obtain ⟨S₁, S₂, _, h₂, _⟩ := hT
      simp only [List.length_cons]
      rw [ih S₂ S₂ h₂ (.refl _)]

theorem throwMissingTag_error (c : Ctx) (t : RTag) (n : Option Str) : ∃ e, ∀ α : Type, (throwMissingTag c t n : Hext.P α) = .error e := by
  unfold throwMissingTag
  cases h' : printErrorLocation c c.input.length 0 with
  | error e => exact ⟨e, fun _ => rfl⟩
  | ok l => exact ⟨_, fun _ => rfl⟩

theorem sim_finish (c : Ctx) (h : Rep m₀ s t m) :
    Sim (Bad m₀) (finishR c) t m (finishParse c s) (fun r a t' m' => ∃ s', Own m₀ (ruleA a r ∗ stA t' s') m') := by
  unfold finishR finishParse
  refine sim_get ?_
  obtain ⟨hr, h⟩ := h
  have hl := stacks_length h
  have he : t.stacks.isEmpty = s.stacks.isEmpty := by
    rcases stacks_cases h with ⟨h₁, h₂⟩ | ⟨_, _, h₁, h₂⟩ | ⟨_, _, _, _, _, _, h₁, h₂⟩ <;> rw [h₁, h₂] <;> rfl
  rw [he, hl]
  split
  · exact sim_fault_last rfl fun _ => rfl
  · split
    · exact sim_throwErrorMessage ⟨m, rfl, s, h⟩
    · refine sim_set ?_
      have h := own_dropEmpty h
      rcases stacks_cases h with ⟨h₁, h₂⟩ | ⟨_, _, h₁, h₂⟩ | ⟨a, as, ats, r, rs, rts, h₁, h₂⟩
      · rw [h₁, h₂]
        obtain ⟨a, m', e, o⟩ := own_newRule h
        refine sim_last (sim_mem e (sim_pure ⟨{ s with stacks := [] }, ?_⟩))
        rw [h₁, h₂] at o
        exact o
      · rw [h₁, h₂]
        exact sim_fault_last rfl fun _ => rfl
      · rw [h₁, h₂] at h ⊢
        have h' := h
        rw [stacksA_rule, sep_assoc] at h'
        have l₁ := rules_length (as := as) (rs := rs) (F := ruleA a r ∗ (stacksA ats rts ∗ pvA t s)) (h'.mono (by simp only [pvA]; ac_rfl))
        have l₂ := stacks_length (as := ats) (rs := rts) (F := ruleA a r ∗ (rulesA as rs ∗ pvA t s)) (h'.mono (by simp only [pvA]; ac_rfl))
        simp only [List.length_cons, l₁, l₂]
        split
        · obtain ⟨o, e, e₁, e₂⟩ := own_loadRule h'
          refine sim_mem e (sim_request ⟨{ s with stacks := (r :: rs) :: rts }, h⟩ ?_)
          rw [e₁, e₂]
          obtain ⟨e, hx⟩ := throwMissingTag_error c r.info.tag r.info.tagname
          rw [hx, hx]
          exact sim_parseError ⟨m, rfl, { s with stacks := (r :: rs) :: rts }, h⟩
        · obtain ⟨b, m', e, o⟩ := own_moveRule h'
          refine sim_last (sim_mem e (sim_pure ⟨{ s with stacks := (Hist.movedFrom r :: rs) :: rts }, o.mono ?_⟩))
          rw [stA_eq, stacksA_rule]
          simp only [pvA]
          ac_rfl

theorem sim_body (c : Ctx) (g : Nat → Nat → Growth) (w : m.Wf) :
    Sim (Bad m) (parseBodyR c g) {} m (Parser.parse c) (fun r a t' m' => ∃ s', Own m (ruleA a r ∗ stA t' s') m') := by
  unfold parseBodyR Parser.parse
  have h : Rep m {} {} m := by
    refine ⟨rfl, (own_start w).mono ?_⟩
    simp only [stA, stacksA_empty, stacksA_nil, Option.map_none, ptrA_none, emp_sep]
  refine sim_request h.bad ?_
  refine sim_bind (sim_runMachine c g c.input hextStart 0 h) ?_
  intro s' _ t' m' _ h'
  exact sim_finish c h'

theorem own_destroyParser {F : Asrt} (h : Own m₀ (stA t s ∗ F) m) :
    ∃ m', destroyParser t m = pure ((), m') ∧ Own m₀ F m' := by
  unfold destroyParser
  obtain ⟨m₁, e₁, o⟩ := own_destroyMatch (a := t.negate) (v := s.pv.negate.map .negate)
    (F := stacksA t.stacks s.stacks ∗ (pipeA t.pipe s.pv.pipe ∗ (testA t.test s.pv.test ∗ (matchA t.trait s.pv.trait ∗ F))))
    (h.mono (by simp only [stA]; ac_rfl))
  obtain ⟨m₂, e₂, o⟩ := own_destroyMatch (a := t.trait) (v := s.pv.trait)
    (F := stacksA t.stacks s.stacks ∗ (pipeA t.pipe s.pv.pipe ∗ (testA t.test s.pv.test ∗ F))) (o.mono (by ac_rfl))
  obtain ⟨m₃, e₃, o⟩ := own_destroyTest (a := t.test) (v := s.pv.test)
    (F := stacksA t.stacks s.stacks ∗ (pipeA t.pipe s.pv.pipe ∗ F)) (o.mono (by ac_rfl))
  obtain ⟨m₄, e₄, o⟩ := own_destroyPipe (a := t.pipe) (v := s.pv.pipe) (F := stacksA t.stacks s.stacks ∗ F) (o.mono (by ac_rfl))
  obtain ⟨m₅, e₅, o⟩ := own_destroyStacks o
  exact ⟨m₅, by rw [bind_ok e₁, bind_ok e₂, bind_ok e₃, bind_ok e₄, e₅], o⟩

end

end Hext.Mem
