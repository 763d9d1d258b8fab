import Verif.Proofs.ParserExec
/-!
# Running the heads of tags

The effect of the actions in the words of conditions, patterns and heads.
-/

namespace Hext

open Syn

/-! ## Traits -/

theorem runs_nth {c w st pv Q} {n : Nth} (hok : n.Ok) (h : ∀ v, n.meaning = some v → Runs c w (st, { pv with nth := v }) Q)
    (hn : n.meaning = none → Q = none) : Runs c (nthWord n ++ w) (st, pv) Q := by
  cases n with
  | even =>
    simp only [nthWord, List.append_assoc, List.cons_append, List.nil_append]
    exact .chs _ (.pv (fun pv => { pv with nth := (2, 0) }) (fun _ _ => rfl) (h _ rfl))
  | odd =>
    simp only [nthWord, List.append_assoc, List.cons_append, List.nil_append]
    exact .chs _ (.pv (fun pv => { pv with nth := (2, 1) }) (fun _ _ => rfl) (h _ rfl))
  | number n d =>
    simp only [nthWord, List.append_assoc, List.cons_append, List.nil_append]
    refine .tokenInt (fun v pv => { pv with nth := (0, v) }) _ (fun _ _ => rfl) (stoi_sign hok) ?_ ?_
    · intro v hv; exact h _ (by simp [Nth.meaning, hv])
    · intro hv; exact hn (by simp [Nth.meaning, hv])
  | step n d =>
    simp only [nthWord, List.append_assoc, List.cons_append, List.nil_append]
    refine .tokenInt (fun v pv => { pv with nth := (0, v) }) _ (fun _ _ => rfl) (stoi_sign hok) ?_ ?_
    · intro v hv
      refine .ch (.pv (fun pv => { pv with nth := (pv.nth.2, 0) }) (fun _ _ => rfl) ?_)
      exact h _ (by simp [Nth.meaning, hv])
    · intro hv; exact hn (by simp [Nth.meaning, hv])
  | linear n d m e =>
    simp only [nthWord, List.append_assoc, List.cons_append, List.nil_append]
    refine .tokenInt (fun v pv => { pv with nth := (0, v) }) _ (fun _ _ => rfl) (stoi_sign hok.1) ?_ ?_
    · intro v hv
      refine .ch (.pv (fun pv => { pv with nth := (pv.nth.2, 0) }) (fun _ _ => rfl) ?_)
      refine .tokenInt (fun v pv => { pv with nth := (pv.nth.1, v) }) _ (fun _ _ => rfl) (stoi_shift hok.2) ?_ ?_
      · intro v' hv'; exact h _ (by simp [Nth.meaning, hv, hv'])
      · intro hv'; exact hn (by simp [Nth.meaning, hv, hv'])
    · intro hv; exact hn (by simp [Nth.meaning, hv])

/-- The pattern values behind a trait. -/
def PV.withTrait (pv : PV) (m : Match) (f : Flags) (nth : Int × Int) (re : Option Regex) : PV :=
  { pv with trait := some m, icase := f.icase, collate := f.collate, nth := nth, regex := re }

theorem runs_trait {c w st pv Q} {t : Trait} (hok : t.Ok)
    (h : ∀ m f nth re, t.meaning c.rx pv.flags = some (m, f) → Runs c w (st, pv.withTrait m f nth re) Q)
    (hn : t.meaning c.rx pv.flags = none → Q = none) : Runs c (traitWord t ++ w) (st, pv) Q := by
  have h0 : ∀ m, t.meaning c.rx pv.flags = some (m, pv.flags) → Runs c w (st, { pv with trait := some m }) Q :=
    fun m hm => h m pv.flags pv.nth pv.regex hm
  have hN : ∀ first ofType n (a : Str), t = .nth first ofType n →
      Runs c (chs a ++ (nthWord n ++ .ch 41 :: .act (.traitNth first ofType) :: w)) (st, pv) Q := by
    rintro first ofType n a rfl
    refine .chs _ (runs_nth hok (fun v hv => .ch ?_) fun hv => hn (by simp [Trait.meaning, hv]))
    exact .pv (fun pv => { pv with trait := some (.nthChild pv.nth.1 pv.nth.2 first ofType) }) (fun _ _ => rfl)
      (h _ pv.flags v pv.regex (by simp [Trait.meaning, hv]))
  cases t with
  | empty =>
    simp only [traitWord, List.append_assoc, List.cons_append, List.nil_append]
    exact .chs _ (.pv (fun pv => { pv with trait := some (.childCount 0) }) (fun _ _ => rfl) (h0 _ rfl))
  | childCount d =>
    simp only [traitWord, List.append_assoc, List.cons_append, List.nil_append]
    refine .chs _ (.tokenInt (fun v pv => { pv with trait := some (.childCount v.toNat) }) _ (fun _ _ => rfl) (stoi_digits hok) ?_ ?_)
    · intro v hv; exact .ch (h0 _ (by simp [Trait.meaning, hv]))
    · intro hv; exact hn (by simp [Trait.meaning, hv])
  | attributeCount d =>
    simp only [traitWord, List.append_assoc, List.cons_append, List.nil_append]
    refine .chs _ (.tokenInt (fun v pv => { pv with trait := some (.attributeCount v.toNat) }) _ (fun _ _ => rfl) (stoi_digits hok) ?_ ?_)
    · intro v hv; exact .ch (h0 _ (by simp [Trait.meaning, hv]))
    · intro hv; exact hn (by simp [Trait.meaning, hv])
  | nth first ofType n =>
    cases first <;> cases ofType <;> simp only [traitWord, List.append_assoc, List.cons_append, List.nil_append] <;>
      exact hN _ _ _ _ rfl
  | endmost first ofType =>
    cases first <;> cases ofType <;> simp only [traitWord, List.append_assoc, List.cons_append, List.nil_append] <;>
      exact .chs _ (.pv (fun pv => { pv with trait := some (.nthChild 0 1 _ _) }) (fun _ _ => rfl) (h0 _ rfl))
  | only ofType =>
    cases ofType <;> simp only [traitWord, List.append_assoc, List.cons_append, List.nil_append] <;>
      exact .chs _ (.pv (fun pv => { pv with trait := some (.onlyChild _) }) (fun _ _ => rfl) (h0 _ rfl))
  | typeMatches r =>
    simp only [traitWord, List.append_assoc, List.cons_append, List.nil_append]
    refine .chs _ (runs_rx r (fun re f hr => .ch ?_) fun hr => hn (by simp [Trait.meaning, hr]))
    refine .act (fun p s hs => ⟨{ s with pv := { s.pv with trait := some (.typeRegex re) } }, ?_, ?_⟩)
      (h (.typeRegex re) f pv.nth (some re) (by simp [Trait.meaning, hr]))
    · simp only [view, Prod.mk.injEq] at hs
      simp only [Act.exec, derefRegex, hs.2]; rfl
    · simp only [view, Prod.mk.injEq] at hs ⊢
      refine ⟨hs.1, ?_⟩
      rw [hs.2]; rfl

/-- Nothing is left over from an earlier pattern but the options of regular expressions. -/
structure Base (f : Flags) (pv : PV) : Prop where
  pipe : pv.pipe = none
  test : pv.test = none
  trait : pv.trait = none
  negate : pv.negate = none
  optional : pv.optional = false
  flags : pv.flags = f

theorem modifyCur_eq {s : PSt} {f : Rule → Rule} {r rs st} (h : s.stacks = (r :: rs) :: st) :
    modifyCur f s = .ok { s with stacks := (f r :: rs) :: st } := by
  simp only [modifyCur, h]; rfl

theorem runs_negated {c w st Q} : ∀ {ts : List Trait}, (∀ t ∈ ts, t.Ok) → ∀ {pv : PV} {ms : List (Option Match)} (_ : pv.negate = some ms)
    (_ : pv.trait = none) (_ : pv.pipe = none) (_ : pv.test = none) (_ : pv.optional = false),
    (∀ xs f pv', traitsMeaning c.rx pv.flags ts = some (xs, f) → pv'.negate = some (ms ++ xs.map some) → pv'.trait = none →
      pv'.pipe = none → pv'.test = none → pv'.optional = false → pv'.flags = f → Runs c w (st, pv') Q) →
    (traitsMeaning c.rx pv.flags ts = none → Q = none) →
    Runs c (ts.flatMap (fun t => traitWord t ++ [.act .negateAppend]) ++ w) (st, pv) Q := by
  intro ts
  induction ts with
  | nil =>
    intro _ pv ms h1 h2 h3 h4 h5 h _
    exact h [] _ pv rfl (by simp [h1]) h2 h3 h4 h5 rfl
  | cons t ts ih =>
    intro hok pv ms h1 h2 h3 h4 h5 h hn
    simp only [List.mem_cons, forall_eq_or_imp] at hok
    simp only [List.flatMap_cons, List.append_assoc, List.cons_append, List.nil_append]
    refine runs_trait hok.1 (fun m f nth re hm => ?_) fun hm => hn (by simp [traitsMeaning, hm])
    refine .act (y := (st, { pv.withTrait m f nth re with negate := some (ms ++ [some m]), trait := none })) (fun p s hs => ?_) ?_
    · simp only [view, Prod.mk.injEq] at hs
      refine ⟨{ s with pv := { s.pv with negate := some (ms ++ [s.pv.trait]), trait := none } }, ?_, ?_⟩
      · simp only [Act.exec, hs.2, PV.withTrait, h1]; rfl
      · simp only [view, Prod.mk.injEq]
        exact ⟨hs.1, by rw [hs.2]; rfl⟩
    · refine ih hok.2 (ms := ms ++ [some m]) rfl rfl h3 h4 h5 (fun xs f' pv' hx => ?_) fun hx => hn ?_
      · intro g1 g2 g3 g4 g5 g6
        refine h (m :: xs) f' pv' ?_ (by simpa using g1) g2 g3 g4 g5 g6
        have hx' : traitsMeaning c.rx f ts = some (xs, f') := hx
        simp [traitsMeaning, hm, hx']
      · have hx' : traitsMeaning c.rx f ts = none := hx
        simp [traitsMeaning, hm, hx']

theorem runs_cond {c : Ctx} {w r rs st pv f Q} {t : Cond} (hok : t.Ok) (hb : Base f pv)
    (h : ∀ m f' pv', t.meaning c.rx f = some (m, f') → Base f' pv' → Runs c w ((r.appendMatch (some m) :: rs) :: st, pv') Q)
    (hn : t.meaning c.rx f = none → Q = none) : Runs c (condWord t ++ w) ((r :: rs) :: st, pv) Q := by
  obtain ⟨b1, b2, b3, b4, b5, rfl⟩ := hb
  cases t with
  | trait t =>
    simp only [condWord, List.append_assoc, List.cons_append, List.nil_append]
    refine runs_trait hok (fun m f nth re hm => ?_) hn
    refine .act (y := ((r.appendMatch (some m) :: rs) :: st, { pv.withTrait m f nth re with trait := none })) (fun p s hs => ?_)
      (h m f _ hm ⟨b1, b2, rfl, b4, b5, rfl⟩)
    simp only [view, Prod.mk.injEq] at hs
    refine ⟨{ s with stacks := (r.appendMatch s.pv.trait :: rs) :: st, pv := { s.pv with trait := none } }, ?_, ?_⟩
    · simp only [Act.exec, modifyCur_eq hs.1]; rfl
    · simp only [view, Prod.mk.injEq]; rw [hs.2]; exact ⟨rfl, rfl⟩
  | not ts =>
    simp only [condWord, List.append_assoc, List.cons_append, List.nil_append]
    refine .chs _ (.pv (fun pv => { pv with negate := some [] }) (fun _ _ => rfl) ?_)
    refine runs_negated hok.2 (ms := []) rfl b3 b1 b2 b5 (fun xs f pv' hx g1 g2 g3 g4 g5 g6 => .ch ?_) fun hx => hn ?_
    · have hx' : traitsMeaning c.rx pv.flags ts = some (xs, f) := hx
      refine .act (y := ((r.appendMatch (some (.negate (xs.map some))) :: rs) :: st, { pv' with negate := none })) (fun p s hs => ?_)
        (h (.negate (xs.map some)) f _ (by simp [Cond.meaning, hx']) ⟨g3, g4, g2, rfl, g5, g6⟩)
      simp only [view, Prod.mk.injEq] at hs
      refine ⟨{ s with stacks := (r.appendMatch (s.pv.negate.map .negate) :: rs) :: st, pv := { s.pv with negate := none } }, ?_, ?_⟩
      · simp only [Act.exec, modifyCur_eq hs.1]; rfl
      · simp only [view, Prod.mk.injEq]; rw [hs.2, g1]; exact ⟨rfl, rfl⟩
    · have hx' : traitsMeaning c.rx pv.flags ts = none := hx
      simp [Cond.meaning, hx']

theorem runs_conds {c : Ctx} {w rs st Q} : ∀ {ts : List Cond}, (∀ t ∈ ts, t.Ok) → ∀ {info : RuleInfo} {pv f}, Base f pv →
    (∀ ms f' pv', condsMeaning c.rx f ts = some (ms, f') → Base f' pv' →
      Runs c w ((.mk { info with ms := info.ms ++ ms.map some } none none [] :: rs) :: st, pv') Q) →
    (condsMeaning c.rx f ts = none → Q = none) → Runs c (ts.flatMap condWord ++ w) ((.mk info none none [] :: rs) :: st, pv) Q := by
  intro ts
  induction ts with
  | nil =>
    intro _ info pv f hb h _
    have := h [] f pv rfl hb
    simpa using this
  | cons t ts ih =>
    intro hok info pv f hb h hn
    simp only [List.mem_cons, forall_eq_or_imp] at hok
    simp only [List.flatMap_cons, List.append_assoc]
    refine runs_cond hok.1 hb (fun m f' pv' hm hb' => ?_) fun hm => hn (by simp [condsMeaning, hm])
    refine ih hok.2 hb' (fun ms f'' pv'' hms hb'' => ?_) fun hms => hn (by simp [condsMeaning, hm, hms])
    have := h (m :: ms) f'' pv'' (by simp [condsMeaning, hm, hms]) hb''
    simpa using this

/-! ## Patterns -/

theorem chainPipes_cons_ne (t : Transform) (ts : List Transform) : ∃ p, chainPipes (t :: ts) = some p := by
  simp only [chainPipes]
  split <;> exact ⟨_, rfl⟩

theorem chainPipes_snoc (t : Transform) : ∀ ts : List Transform,
    chainPipes (ts ++ [t]) = some (match chainPipes ts with | some p => p.append (.last t) | none => .last t)
  | [] => rfl
  | a :: ts => by
    have ih := chainPipes_snoc t ts
    simp only [List.cons_append, chainPipes, ih]
    cases h : chainPipes ts with
    | none => rfl
    | some p => rfl

/-- The pattern values behind a pipe. -/
def PV.withPipe (pv : PV) (p : Option Pipe) (f : Flags) (l : Str) (re : Option Regex) : PV :=
  { pv with pipe := p, icase := f.icase, collate := f.collate, literal := l, regex := re }

theorem runs_pipe {c w st Q} {pv : PV} {x : PipeS}
    (h : ∀ t f l re, x.meaning c.rx pv.flags = some (t, f) → Runs c w (st, pv.withPipe (pv.addPipe t).pipe f l re) Q)
    (hn : x.meaning c.rx pv.flags = none → Q = none) : Runs c (pipeWord x ++ w) (st, pv) Q := by
  have h0 : ∀ t, x.meaning c.rx pv.flags = some (t, pv.flags) → Runs c w (st, pv.addPipe t) Q :=
    fun t ht => h t pv.flags pv.literal pv.regex ht
  have hq : ∀ (a : Str) (q : Quoted) (act : Act) (T : Str → Transform), x.meaning c.rx pv.flags = some (T q.body, pv.flags) →
      (∀ p s, act.exec c p s = .ok { s with pv := s.pv.addPipe (T s.pv.literal) }) →
      Runs c (chs a ++ (quotedWord .literal q ++ .ch 41 :: .act act :: w)) (st, pv) Q := by
    intro a q act T hx ha
    refine .chs _ (runs_quoted q (.ch ?_))
    exact .pv (fun pv => pv.addPipe (T pv.literal)) ha (h _ pv.flags q.body pv.regex hx)
  simp only [pipeWord, List.cons_append]
  refine .ch (.tkStart ?_)
  cases x with
  | trim =>
    simp only [pipeTail, List.append_assoc, List.cons_append, List.nil_append]
    exact .chs _ (.pv (fun pv => pv.addPipe (.trim (lit " "))) (fun _ _ => rfl) (h0 _ rfl))
  | trimChars q =>
    simp only [pipeTail, List.append_assoc, List.cons_append, List.nil_append]
    exact hq _ _ _ .trim rfl fun _ _ => rfl
  | collapsews =>
    simp only [pipeTail, List.append_assoc, List.cons_append, List.nil_append]
    exact .chs _ (.pv (fun pv => pv.addPipe .collapseWs) (fun _ _ => rfl) (h0 _ rfl))
  | tolower =>
    simp only [pipeTail, List.append_assoc, List.cons_append, List.nil_append]
    exact .chs _ (.pv (fun pv => pv.addPipe .toLower) (fun _ _ => rfl) (h0 _ rfl))
  | toupper =>
    simp only [pipeTail, List.append_assoc, List.cons_append, List.nil_append]
    exact .chs _ (.pv (fun pv => pv.addPipe .toUpper) (fun _ _ => rfl) (h0 _ rfl))
  | prepend q =>
    simp only [pipeTail, List.append_assoc, List.cons_append, List.nil_append]
    exact hq _ _ _ .prepend rfl fun _ _ => rfl
  | append q =>
    simp only [pipeTail, List.append_assoc, List.cons_append, List.nil_append]
    exact hq _ _ _ .append rfl fun _ _ => rfl
  | filter r =>
    simp only [pipeTail, List.append_assoc, List.cons_append, List.nil_append]
    refine .chs _ (runs_rx r (fun re f hr => .ch ?_) fun hr => hn (by simp [PipeS.meaning, hr]))
    refine .act (fun p s hs => ⟨{ s with pv := s.pv.addPipe (.regex re) }, ?_, ?_⟩)
      (h (.regex re) f pv.literal (some re) (by simp [PipeS.meaning, hr]))
    · simp only [view, Prod.mk.injEq] at hs
      simp only [Act.exec, derefRegex, hs.2]; rfl
    · simp only [view, Prod.mk.injEq] at hs ⊢
      refine ⟨hs.1, ?_⟩
      rw [hs.2]; rfl
  | replace r ws1 ws2 q =>
    simp only [pipeTail, List.append_assoc, List.cons_append, List.nil_append]
    refine .chs _ (runs_rx r (fun re f hr => .chs _ (.ch (.chs _ (runs_quoted q (.ch ?_))))) fun hr => hn (by simp [PipeS.meaning, hr]))
    refine .act (fun p s hs => ⟨{ s with pv := s.pv.addPipe (.regexReplace re s.pv.literal) }, ?_, ?_⟩)
      (h (.regexReplace re q.body) f q.body (some re) (by simp [PipeS.meaning, hr]))
    · simp only [view, Prod.mk.injEq] at hs
      simp only [Act.exec, derefRegex, hs.2]; rfl
    · simp only [view, Prod.mk.injEq] at hs ⊢
      refine ⟨hs.1, ?_⟩
      rw [hs.2]; rfl

theorem runs_pipes {c w st Q} : ∀ {xs : List PipeS} {pv : PV} {ts0 : List Transform}, pv.pipe = chainPipes ts0 →
    (∀ ts f l re, pipesMeaning c.rx pv.flags xs = some (ts, f) → Runs c w (st, pv.withPipe (chainPipes (ts0 ++ ts)) f l re) Q) →
    (pipesMeaning c.rx pv.flags xs = none → Q = none) → Runs c (xs.flatMap pipeWord ++ w) (st, pv) Q := by
  intro xs
  induction xs with
  | nil =>
    intro pv ts0 h0 h _
    have := h [] pv.flags pv.literal pv.regex rfl
    rw [List.append_nil, ← h0] at this
    exact this
  | cons x xs ih =>
    intro pv ts0 h0 h hn
    simp only [List.flatMap_cons, List.append_assoc]
    refine runs_pipe (fun t f l re hx => ?_) fun hx => hn (by simp [pipesMeaning, hx])
    refine ih (ts0 := ts0 ++ [t]) ?_ (fun ts f' l' re' hts => ?_) fun hts => hn ?_
    · rw [chainPipes_snoc]
      simp only [PV.withPipe, PV.addPipe, h0]
      cases chainPipes ts0 <;> rfl
    · have hts' : pipesMeaning c.rx f xs = some (ts, f') := hts
      have := h (t :: ts) f' l' re' (by simp [pipesMeaning, hx, hts'])
      rw [List.append_assoc]
      exact this
    · have hts' : pipesMeaning c.rx f xs = none := hts
      simp [pipesMeaning, hx, hts']

theorem runs_fn {c w st Q} {pv : PV} (fn : Fn) (h : Runs c w (st, { pv with builtin := some fn.meaning }) Q) :
    Runs c (fnWord fn ++ w) (st, pv) Q := by
  cases fn
  · simp only [fnWord, List.append_assoc, List.cons_append, List.nil_append]
    exact .chs _ (.pv (fun pv => { pv with builtin := some .text }) (fun _ _ => rfl) h)
  · simp only [fnWord, List.append_assoc, List.cons_append, List.nil_append]
    exact .chs _ (.pv (fun pv => { pv with builtin := some .innerHtml }) (fun _ _ => rfl) h)
  · simp only [fnWord, List.append_assoc, List.cons_append, List.nil_append]
    exact .chs _ (.pv (fun pv => { pv with builtin := some .stripTags }) (fun _ _ => rfl) h)

theorem runs_attr {c w st Q} {pv : PV} (a : Str) (h : Runs c w (st, { pv with attrName := a }) Q) :
    Runs c (attrWord a ++ w) (st, pv) Q := by
  simp only [attrWord, List.append_assoc, List.cons_append, List.nil_append]
  exact .tokenPV (fun t pv => { pv with attrName := t }) (fun _ _ => rfl) h

theorem runs_capName {c w st Q} {pv : PV} {n : CapName}
    (h : ∀ l, Runs c w (st, { pv with capVar := n.meaning, literal := l }) Q) : Runs c (capNameWord n ++ w) (st, pv) Q := by
  cases n with
  | quoted q =>
    simp only [capNameWord, List.append_assoc, List.cons_append, List.nil_append]
    exact runs_quoted q (.pv (fun pv => { pv with capVar := pv.literal }) (fun _ _ => rfl) (h q.body))
  | plain s =>
    simp only [capNameWord, List.append_assoc, List.cons_append, List.nil_append]
    exact .tokenPV (fun t pv => { pv with capVar := t }) (fun _ _ => rfl) (h pv.literal)

theorem runs_capture {c w st Q} {pv : PV} (h0 : pv.pipe = none) {xs : List PipeS} {n : CapName}
    (h : ∀ ts f l re, pipesMeaning c.rx pv.flags xs = some (ts, f) →
      Runs c w (st, { pv.withPipe (chainPipes ts) f l re with capVar := n.meaning }) Q)
    (hn : pipesMeaning c.rx pv.flags xs = none → Q = none) : Runs c (captureWord xs n ++ w) (st, pv) Q := by
  simp only [captureWord, List.append_assoc, List.cons_append]
  refine runs_pipes (ts0 := []) h0 (fun ts f l re hts => .ch (runs_capName fun l' => ?_)) hn
  exact h ts f l' re hts

/-- The pattern values behind a test. -/
def PV.withTest (pv : PV) (t : Option ValueTest) (f : Flags) (l : Str) (re : Option Regex) : PV :=
  { pv with test := t, icase := f.icase, collate := f.collate, literal := l, regex := re }

theorem runs_test {c w st Q} {pv : PV} {x : Test}
    (h : ∀ t f l re, x.meaning c.rx pv.flags = some t → Runs c w (st, pv.withTest (some t) f l re) Q)
    (hn : x.meaning c.rx pv.flags = none → Q = none) : Runs c (testWord x ++ w) (st, pv) Q := by
  cases x with
  | op o q =>
    simp only [testWord, List.append_assoc, List.cons_append, List.nil_append]
    refine .chs _ (runs_quoted q ?_)
    cases o
    · exact .pv (fun pv => { pv with test := some (mkContainsWords pv.literal) }) (fun _ _ => rfl) (h _ pv.flags q.body pv.regex rfl)
    · exact .pv (fun pv => { pv with test := some (.equals pv.literal) }) (fun _ _ => rfl) (h _ pv.flags q.body pv.regex rfl)
    · exact .pv (fun pv => { pv with test := some (.beginsWith pv.literal) }) (fun _ _ => rfl) (h _ pv.flags q.body pv.regex rfl)
    · exact .pv (fun pv => { pv with test := some (.contains pv.literal) }) (fun _ _ => rfl) (h _ pv.flags q.body pv.regex rfl)
    · exact .pv (fun pv => { pv with test := some (.endsWith pv.literal) }) (fun _ _ => rfl) (h _ pv.flags q.body pv.regex rfl)
  | regex r =>
    simp only [testWord, List.append_assoc, List.cons_append, List.nil_append]
    refine .chs _ (runs_rx r (fun re f hr => ?_) fun hr => hn (by simp [Test.meaning, hr]))
    refine .act (fun p s hs => ⟨{ s with pv := { s.pv with test := some (.regex re) } }, ?_, ?_⟩)
      (h (.regex re) f pv.literal (some re) (by simp [Test.meaning, hr]))
    · simp only [view, Prod.mk.injEq] at hs
      simp only [Act.exec, hs.2]; rfl
    · simp only [view, Prod.mk.injEq] at hs ⊢
      refine ⟨hs.1, ?_⟩
      rw [hs.2]; rfl

/-- `!`. -/
def negatedTest (neg : Bool) (t : Option ValueTest) : Option ValueTest :=
  if neg then some (match t with | some t => .negate t | none => .negateNull) else t

theorem runs_neg {c w st Q} {pv : PV} (neg : Bool) (h : Runs c w (st, { pv with test := negatedTest neg pv.test }) Q) :
    Runs c (negWord neg ++ w) (st, pv) Q := by
  cases neg with
  | false => exact h
  | true =>
    exact .ch (.pv (fun pv => { pv with test := some (match pv.test with | some t => .negate t | none => .negateNull) })
      (fun _ _ => rfl) h)

theorem runs_opt {c w st Q} {pv : PV} (o : Bool) (h0 : pv.optional = false) (h : Runs c w (st, { pv with optional := o }) Q) :
    Runs c (optWord o ++ w) (st, pv) Q := by
  cases o with
  | false =>
    have : { pv with optional := false } = pv := by rw [← h0]
    rw [this] at h
    exact h
  | true => exact .ch (.pv (fun pv => { pv with optional := true }) (fun _ _ => rfl) h)

theorem runs_reset {c w st Q} {pv : PV} (h1 : pv.pipe = none) (h2 : pv.test = none) (h3 : pv.trait = none) (h4 : pv.negate = none)
    (h : Runs c w (st, {}) Q) : Runs c (.act .reset :: w) (st, pv) Q := by
  refine .act (fun p s hs => ⟨{ s with pv := {} }, ?_, ?_⟩) h
  · simp only [view, Prod.mk.injEq] at hs
    simp [Act.exec, PV.reset, P.assert, hs.2, h1, h2, h3, h4]; rfl
  · simp only [view, Prod.mk.injEq] at hs ⊢
    exact ⟨hs.1, trivial⟩

theorem base_empty : Base {} {} := ⟨rfl, rfl, rfl, rfl, rfl, rfl⟩

/-- The rule of an opening tag, while it is read. -/
def bare (info : RuleInfo) : Rule := .mk info none none []

theorem Runs.cur {c a w info rs st pv Q} (F : PV → RuleInfo → RuleInfo) (G : PV → PV)
    (ha : ∀ p s, s.stacks = (bare info :: rs) :: st →
      a.exec c p s = .ok { s with stacks := (bare (F s.pv info) :: rs) :: st, pv := G s.pv })
    (h : Runs c w ((bare (F pv info) :: rs) :: st, G pv) Q) : Runs c (.act a :: w) ((bare info :: rs) :: st, pv) Q := by
  refine .act (fun p s hs => ?_) h
  simp only [view, Prod.mk.injEq] at hs
  exact ⟨_, ha p s hs.1, by simp only [view, hs.2]⟩

theorem runs_pat {c : Ctx} {w rs st Q} {x : Pat} {info : RuleInfo} {pv f} (hb : Base f pv)
    (h : ∀ ms caps, x.meaning c.rx f = some (ms, caps) →
      Runs c w ((bare { info with ms := info.ms ++ ms.map some, caps := info.caps ++ caps.map some } :: rs) :: st, {}) Q)
    (hn : x.meaning c.rx f = none → Q = none) :
    Runs c (patWord x ++ .act .reset :: w) ((bare info :: rs) :: st, pv) Q := by
  obtain ⟨b1, b2, b3, b4, b5, rfl⟩ := hb
  cases x with
  | capFn fn ps n =>
    simp only [patWord, List.append_assoc, List.cons_append, List.nil_append]
    refine runs_fn fn (runs_capture (pv := { pv with builtin := some fn.meaning }) b1 (fun ts f l re hts => ?_) fun hts => hn ?_)
    · have hts' : pipesMeaning c.rx pv.flags ps = some (ts, f) := hts
      refine .cur (fun pv i => { i with caps := i.caps ++ [some (.function pv.builtin pv.capVar pv.pipe)] })
        (fun pv => { pv with pipe := none }) (fun p s hs => ?_) (runs_reset rfl b2 b3 b4 ?_)
      · simp only [Act.exec, modifyCur_eq hs]; rfl
      · have := h [] _ (by simp only [Pat.meaning, hts']; rfl)
        simp only [List.map_nil, List.append_nil, List.map_cons] at this
        exact this
    · have hts' : pipesMeaning c.rx pv.flags ps = none := hts
      simp [Pat.meaning, hts']
  | capAttr a ps n o =>
    simp only [patWord, List.append_assoc, List.cons_append, List.nil_append]
    refine runs_attr a (runs_capture (pv := { pv with attrName := a }) b1 (fun ts f l re hts => ?_) fun hts => hn ?_)
    · have hts' : pipesMeaning c.rx pv.flags ps = some (ts, f) := hts
      refine runs_opt o b5 ?_
      have := h _ _ (by simp only [Pat.meaning, hts']; rfl)
      cases o with
      | true =>
        refine .act (y := ((bare { info with caps := info.caps ++ [some (.attribute a n.meaning (chainPipes ts))] } :: rs) :: st,
            { pv.withPipe none f l re with attrName := a, capVar := n.meaning, optional := true })) (fun p s hs => ?_) (runs_reset rfl b2 b3 b4 ?_)
        · simp only [view, Prod.mk.injEq] at hs
          refine ⟨{ s with
            stacks := (bare { info with caps := info.caps ++ [some (.attribute a n.meaning (chainPipes ts))] } :: rs) :: st
            pv := { s.pv with pipe := none } }, ?_, ?_⟩
          · simp only [Act.exec, modifyCur_eq hs.1, hs.2]; rfl
          · simp only [view, hs.2]; rfl
        · simpa using this
      | false =>
        refine .act (y := ((bare { info with
              caps := info.caps ++ [some (.attribute a n.meaning (chainPipes ts))]
              ms := info.ms ++ [some (.attribute a none)] } :: rs) :: st,
            { pv.withPipe none f l re with attrName := a, capVar := n.meaning, optional := false })) (fun p s hs => ?_) (runs_reset rfl b2 b3 b4 ?_)
        · simp only [view, Prod.mk.injEq] at hs
          refine ⟨{ s with
            stacks := (bare { info with
              caps := info.caps ++ [some (.attribute a n.meaning (chainPipes ts))]
              ms := info.ms ++ [some (.attribute a none)] } :: rs) :: st
            pv := { s.pv with pipe := none } }, ?_, ?_⟩
          · simp only [Act.exec, modifyCur_eq hs.1, hs.2]; rfl
          · simp only [view, hs.2]; rfl
        · simpa using this
    · have hts' : pipesMeaning c.rx pv.flags ps = none := hts
      simp [Pat.meaning, hts']
  | testFn fn t neg =>
    simp only [patWord, List.append_assoc, List.cons_append, List.nil_append]
    refine runs_fn fn (runs_test (fun t' f l re ht => ?_) fun ht => hn ?_)
    · have ht' : t.meaning c.rx pv.flags = some t' := ht
      refine runs_neg neg (.cur (fun pv i => { i with ms := i.ms ++ [some (.functionValue pv.builtin pv.test)] })
        (fun pv => { pv with test := none }) (fun p s hs => ?_) (runs_reset b1 rfl b3 b4 ?_))
      · simp only [Act.exec, modifyCur_eq hs]; rfl
      · have := h _ [] (by simp only [Pat.meaning, ht']; rfl)
        simp only [List.map_nil, List.append_nil, List.map_cons] at this
        cases neg <;> exact this
    · have ht' : t.meaning c.rx pv.flags = none := ht
      simp [Pat.meaning, ht']
  | testAttr a t neg =>
    simp only [patWord, List.append_assoc, List.cons_append, List.nil_append]
    refine runs_attr a (runs_test (fun t' f l re ht => ?_) fun ht => hn ?_)
    · have ht' : t.meaning c.rx pv.flags = some t' := ht
      refine runs_neg neg (.cur (fun pv i => { i with ms := i.ms ++ [some (.attribute pv.attrName pv.test)] })
        (fun pv => { pv with test := none }) (fun p s hs => ?_) (runs_reset b1 rfl b3 b4 ?_))
      · simp only [Act.exec, modifyCur_eq hs]; rfl
      · have := h _ [] (by simp only [Pat.meaning, ht']; rfl)
        simp only [List.map_nil, List.append_nil, List.map_cons] at this
        cases neg <;> exact this
    · have ht' : t.meaning c.rx pv.flags = none := ht
      simp [Pat.meaning, ht']
  | hasAttr a neg =>
    simp only [patWord, List.append_assoc, List.cons_append, List.nil_append]
    refine runs_attr a (.pv (fun pv => { pv with test := none }) (fun _ _ => rfl) ?_)
    refine runs_neg neg (.cur (fun pv i => { i with ms := i.ms ++ [some (.attribute pv.attrName pv.test)] })
      (fun pv => { pv with test := none }) (fun p s hs => ?_) (runs_reset b1 rfl b3 b4 ?_))
    · simp only [Act.exec, modifyCur_eq hs]; rfl
    · have := h _ [] (by simp only [Pat.meaning]; rfl)
      simp only [List.map_nil, List.append_nil, List.map_cons] at this
      cases neg <;> exact this

theorem runs_pats {c : Ctx} {w rs st Q} : ∀ {ps : List (Str × Pat)} {info : RuleInfo} {pv f}, Base f pv →
    (∀ ms caps f' pv', patsMeaning c.rx f ps = some (ms, caps, f') → Base f' pv' →
      Runs c w ((bare { info with ms := info.ms ++ ms.map some, caps := info.caps ++ caps.map some } :: rs) :: st, pv') Q) →
    (patsMeaning c.rx f ps = none → Q = none) → Runs c (ps.flatMap wsPatWord ++ w) ((bare info :: rs) :: st, pv) Q := by
  intro ps
  induction ps with
  | nil =>
    intro info pv f hb h _
    have := h [] [] f pv rfl hb
    simpa using this
  | cons x ps ih =>
    intro info pv f hb h hn
    simp only [List.flatMap_cons, wsPatWord, List.append_assoc, List.cons_append, List.nil_append]
    refine .chs _ (runs_pat hb (fun ms caps hx => ?_) fun hx => hn (by simp [patsMeaning, hx]))
    refine ih base_empty (fun ms' caps' f' pv' hps hb' => ?_) fun hps => hn (by simp [patsMeaning, hx, hps])
    have := h (ms ++ ms') (caps ++ caps') f' pv' (by simp [patsMeaning, hx, hps]) hb'
    simpa using this

/-! ## Heads -/

theorem runs_options {c : Ctx} {w rs st pv Q} : ∀ {os : List Bool} {info : RuleInfo},
    Runs c w ((bare { info with optional := info.optional || os.contains true, greedy := info.greedy || os.contains false } :: rs) :: st, pv) Q →
    Runs c (os.flatMap optionWord ++ w) ((bare info :: rs) :: st, pv) Q := by
  intro os
  induction os with
  | nil => intro info h; simpa using h
  | cons o os ih =>
    intro info h
    rw [List.flatMap_cons, List.append_assoc]
    cases o with
    | true =>
      refine .ch (.cur (fun _ i => { i with optional := true }) id (fun p s hs => ?_) (ih ?_))
      · simp only [Act.exec, modifyCur_eq hs]; rfl
      · simpa using h
    | false =>
      refine .ch (.cur (fun _ i => { i with greedy := true }) id (fun p s hs => ?_) (ih ?_))
      · simp only [Act.exec, modifyCur_eq hs]; rfl
      · simpa using h

theorem runs_tag {c : Ctx} {w rs st pv Q} {t : Str} {info : RuleInfo} (h1 : info.tagname = none)
    (h : Runs c w ((bare { info with tag := (tagMeaning t).1, tagname := (tagMeaning t).2 } :: rs) :: st, pv) Q) :
    Runs c (.act .tkStart :: (chs t ++ .act .openTag :: w)) ((bare info :: rs) :: st, pv) Q := by
  refine Runs.token (fun p s => setOpenTag s.tok s) (fun _ _ => rfl) fun p s hp hw hs ht => ?_
  simp only [view, Prod.mk.injEq] at hs
  rw [ht]
  have e : setOpenTag t s = .ok { s with
      stacks := (bare { info with tag := (tagMeaning t).1, tagname := (tagMeaning t).2 } :: rs) :: st } := by
    unfold setOpenTag tagMeaning
    have hl : lit "*" = [42] := rfl
    rw [hl]
    by_cases h42 : t = [42]
    · rw [if_pos h42, if_pos h42, modifyCur_eq hs.1]
      simp [bare, Rule.setTag, h1]
    · rw [if_neg h42, if_neg h42]
      generalize gumboTagEnum (cstr t) = k
      by_cases hk : k = .unknown
      · subst hk
        simp only [if_true, modifyCur_eq hs.1]
        rfl
      · simp only [hk, if_false, modifyCur_eq hs.1]
        have : (match k with | .unknown => (RTag.tag .unknown, some t) | k => (RTag.tag k, none)) = (RTag.tag k, none) := by
          split
          · exact absurd rfl hk
          · rfl
        simp only [bare, Rule.setTag, h1]
  rw [e]
  exact h p _ hw (by simp only [view, hs.2])

theorem runs_head {c : Ctx} {w top st Q} {hd : Head} (hok : hd.Ok) {pv f} (hb : Base f pv)
    (h : ∀ info f' pv', hd.meaning c.rx f = some (info, f') → Base f' pv' → Runs c w ((bare info :: top) :: st, pv') Q)
    (hn : hd.meaning c.rx f = none → Q = none) :
    Runs c (headWord hd ++ w) (top :: st, pv) Q := by
  simp only [headWord, List.append_assoc, List.cons_append]
  refine .ch (.act (y := ((bare {} :: top) :: st, pv)) (fun p s hs => ?_) ?_)
  · simp only [view, Prod.mk.injEq] at hs
    refine ⟨{ s with stacks := (bare {} :: top) :: st }, ?_, by simp only [view, hs.2]⟩
    simp only [Act.exec, pushRule, hs.1]; rfl
  · refine runs_options (runs_tag rfl (runs_conds hok.2.1 hb (fun ms f1 pv1 hc hb1 => ?_) fun hc => hn ?_))
    · refine runs_pats hb1 (fun ms' caps f2 pv2 hp hb2 => .chs _ ?_) fun hp => hn ?_
      · refine h _ f2 pv2 ?_ hb2
        simp only [Head.meaning, hc, Option.bind_eq_bind, Option.bind_some, hp]
        simp
      · simp [Head.meaning, hc, hp]
    · simp [Head.meaning, hc]

end Hext
