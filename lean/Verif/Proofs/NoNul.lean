import Verif.Spec.NoNul
import Verif.Spec.Json
import Verif.Proofs.ParserRules
import Verif.Proofs.Result
import Verif.Proofs.Complete
import Verif.Props.Captures
/-!
# Captured values contain no NUL
-/

namespace Hext

theorem NF.append {s t : Str} (hs : NF s) (ht : NF t) : NF (s ++ t) := by
  simp only [NF, List.mem_append, not_or]; exact ⟨hs, ht⟩

theorem NF.cons {b : Byte} {t : Str} (hs : b ≠ 0) (ht : NF t) : NF (b :: t) := by
  simp only [NF, List.mem_cons, not_or]; exact ⟨Ne.symm hs, ht⟩

theorem NF.nil : NF [] := by simp [NF]

theorem NF.sub {s t : Str} (ht : NF t) (h : ∀ b ∈ s, b ∈ t) : NF s := fun hs => ht (h _ hs)

theorem NF.flatMap {α : Type} {f : α → Str} {l : List α} (h : ∀ x ∈ l, NF (f x)) : NF (l.flatMap f) := by
  intro hm
  obtain ⟨x, hx, hb⟩ := List.mem_flatMap.1 hm
  exact h x hx hb

/-! ## Documents -/

theorem quoted_nf {v : Str} (h : NF v) : NF (stdQuoted v) := by
  unfold stdQuoted
  refine NF.append (NF.cons (by decide) (NF.flatMap fun c hc => ?_)) (by simp only [NF]; decide)
  have h0 : c ≠ 0 := fun e => h (e ▸ hc)
  split
  · exact NF.cons (by decide) (NF.cons h0 .nil)
  · exact NF.cons h0 .nil

theorem serializeAttribute_nf {a : Attr} (h : a.NoNul) : NF (serializeAttribute a) := by
  unfold serializeAttribute
  refine NF.append (NF.append (NF.cons (by decide) ?_) h.1) ?_
  · cases a.ns <;> simp only [NF] <;> decide
  · split
    · rename_i v hv
      exact NF.cons (by decide) (quoted_nf (h.2 v hv))
    · exact .nil

theorem serializeElementTag_nf {e : Elem} (h : e.NoNul) : NF (serializeElementTag e) := by
  unfold serializeElementTag
  split
  · cases ho : e.origName with
    | none => exact .nil
    | some s => exact h.2.1 s ho
  · rename_i n hn
    exact h.1 n hn

theorem serializeDocument_nf {d : DocInfo} (h : (Kind.document d).NoNul) : NF (serializeDocument d) := by
  unfold serializeDocument
  have key : ∀ o : Option Str, (∀ s, o = some s → NF s) → NF (match o with | some s => 32 :: s | none => []) := by
    intro o ho
    cases o with
    | none => exact .nil
    | some s => exact NF.cons (by decide) (ho s rfl)
  refine NF.append (NF.append (NF.append (NF.append ?_ (key _ h.1)) (key _ h.2.1)) (key _ h.2.2)) ?_
  · simp only [NF]; decide
  · simp only [NF]; decide

theorem serialElem_nf {e : Elem} (h : e.NoNul) {inner : Str} (hi : NF inner) : NF (serialElemVal e inner) := by
  unfold serialElemVal
  have hn : NF e.name := serializeElementTag_eq e ▸ serializeElementTag_nf h
  have l0 : NF (lit "<") := by simp only [NF]; decide
  have hh : NF (lit "<" ++ e.name ++ e.attrs.flatMap Attr.html) :=
    NF.append (NF.append l0 hn)
      (NF.flatMap fun a ha => serializeAttribute_eq a ▸ serializeAttribute_nf (h.2.2 a ha))
  have l1 : NF (lit "</") := by simp only [NF]; decide
  have l2 : NF (lit "/>") := by simp only [NF]; decide
  have l3 : NF (lit ">") := by simp only [NF]; decide
  split
  · exact hh.append l2
  · exact ((((hh.append l3).append hi).append l1).append hn).append l3

mutual
theorem strip_nf {h : Heap} (hh : h.NoNul) (sw : Bool) : ∀ (t : Tree) (p : Option Ptr) (i : Nat), Rep h p i t → NF (stripVal sw t)
  | .node p k kids, _, _, hr => by
    simp only [Rep] at hr
    have hk := hh _ _ hr.1
    cases k with
    | element e => exact stripL_nf hh sw kids _ _ hr.2
    | text t => exact hk
    | whitespace t => exact hk
    | document d => exact .nil
    | template e => exact .nil
    | cdata t => exact .nil
    | comment t => exact .nil
theorem stripL_nf {h : Heap} (hh : h.NoNul) (sw : Bool) : ∀ (ts : List Tree) (p : Ptr) (i : Nat), RepL h p i ts → NF (stripValL sw ts)
  | [], _, _, _ => .nil
  | t :: ts, p, i, hr => by
    simp only [RepL] at hr
    have h1 := strip_nf hh sw t _ _ hr.1
    have h2 := stripL_nf hh sw ts _ _ hr.2
    have l : NF [10] := by simp only [NF]; decide
    rw [stripValL]
    split
    · exact ((l.append h1).append l).append h2
    · exact h1.append h2
end

mutual
theorem serial_nf {h : Heap} (hh : h.NoNul) : ∀ (t : Tree) (p : Option Ptr) (i : Nat), Rep h p i t → NF (serialVal t)
  | .node p k kids, _, _, hr => by
    simp only [Rep] at hr
    have hk := hh _ _ hr.1
    cases k with
    | element e => exact serialElem_nf hk (serialL_nf hh kids _ _ hr.2)
    | template e => exact serialElem_nf hk (serialL_nf hh kids _ _ hr.2)
    | text t => exact hk
    | whitespace t => exact hk
    | document d =>
      simp only [serialVal]
      split
      · exact serializeDocument_eq d ▸ serializeDocument_nf hk
      · exact .nil
    | cdata t => exact .nil
    | comment t =>
      refine NF.append (NF.append ?_ hk) ?_
      · simp only [NF]; decide
      · simp only [NF]; decide
theorem serialL_nf {h : Heap} (hh : h.NoNul) : ∀ (ts : List Tree) (p : Ptr) (i : Nat), RepL h p i ts → NF (serialValL ts)
  | [], _, _, _ => .nil
  | t :: ts, p, i, hr => by
    simp only [RepL] at hr
    exact (serial_nf hh t _ _ hr.1).append (serialL_nf hh ts _ _ hr.2)
end

theorem wordsBy_sub (sep : Byte → Bool) : ∀ (s : Str), ∀ w ∈ Spec.wordsBy sep s, ∀ b ∈ w, b ∈ s
  | [] => by simp [Spec.wordsBy]
  | c :: s => by
    have ih := wordsBy_sub sep s
    intro w hw b hb
    rw [Spec.wordsBy.eq_def] at hw
    simp only at hw
    split at hw
    · exact List.mem_cons_of_mem _ (ih w hw b hb)
    · split at hw
      · simp only [List.mem_singleton] at hw
        subst hw; simp at hb; simp [hb]
      · split at hw
        · rcases List.mem_cons.1 hw with rfl | hw
          · simp at hb; simp [hb]
          · exact List.mem_cons_of_mem _ (ih w hw b hb)
        · split at hw
          · simp only [List.mem_singleton] at hw
            subst hw; simp at hb; simp [hb]
          · rename_i w' ws hws
            rcases List.mem_cons.1 hw with rfl | hw
            · rcases List.mem_cons.1 hb with rfl | hb
              · simp
              · exact List.mem_cons_of_mem _ (ih w' (by rw [hws]; simp) b hb)
            · exact List.mem_cons_of_mem _ (ih w (by rw [hws]; simp [hw]) b hb)

theorem unwords_nf : ∀ {ws : List Str}, (∀ w ∈ ws, NF w) → NF (Spec.unwords ws)
  | [], _ => .nil
  | [w], h => h w (by simp)
  | w :: x :: ws, h => by
    rw [Spec.unwords]
    · exact (h w (by simp)).append (NF.cons (by decide) (unwords_nf fun y hy => h y (List.mem_cons_of_mem _ hy)))
    · simp

theorem collapse_nf {s : Str} (h : NF s) : NF (Spec.unwords (Spec.words s)) :=
  unwords_nf fun w hw => h.sub (wordsBy_sub _ s w hw)

theorem fn_nf {h : Heap} (hh : h.NoNul) {t : Tree} {p i} (hr : Rep h p i t) {f : CaptureFn} (hf : f.NoNul) : NF (f.val h t) := by
  cases f with
  | text => exact collapse_nf (strip_nf hh true t _ _ hr)
  | innerHtml =>
    simp only [CaptureFn.val]
    split
    · cases t with
      | node p k kids =>
        simp only [Rep] at hr
        exact serialL_nf hh kids _ _ hr.2
    · exact .nil
  | stripTags => exact strip_nf hh false t _ _ hr
  | user f => exact hf _ _

/-! ## Pipes -/

theorem toLowerB_zero {b : Byte} (h : toLowerB b = 0) : b = 0 := by
  unfold toLowerB at h
  split at h
  · rename_i hc
    simp only [Bool.and_eq_true, decide_eq_true_eq, UInt8.le_iff_toNat_le] at hc
    have hc : 65 ≤ b.toNat ∧ b.toNat ≤ 90 := hc
    have := congrArg UInt8.toNat h
    rw [UInt8.toNat_add] at this
    have : (b.toNat + 32) % 256 = 0 := this
    omega
  · exact h

theorem toUpperB_zero {b : Byte} (h : toUpperB b = 0) : b = 0 := by
  unfold toUpperB at h
  split at h
  · rename_i hc
    simp only [Bool.and_eq_true, decide_eq_true_eq, UInt8.le_iff_toNat_le] at hc
    have hc : 97 ≤ b.toNat ∧ b.toNat ≤ 122 := hc
    have := congrArg UInt8.toNat h
    rw [UInt8.toNat_sub] at this
    have : (256 - 32 + b.toNat) % 256 = 0 := this
    omega
  · exact h

theorem transform_nf {rx : RxEngine} (hx : rx.NoNul) {t : Transform} (ht : t.NoNul) {s u : Str} (hs : NF s)
    (h : t.transform rx s = pure u) : NF u := by
  cases t with
  | append x => cases E.pure_inj h; exact hs.append ht
  | prepend x => cases E.pure_inj h; exact NF.append ht hs
  | toLower =>
    cases E.pure_inj h
    intro hm
    obtain ⟨b, hb, h0⟩ := List.mem_map.1 hm
    exact hs (toLowerB_zero h0 ▸ hb)
  | toUpper =>
    cases E.pure_inj h
    intro hm
    obtain ⟨b, hb, h0⟩ := List.mem_map.1 hm
    exact hs (toUpperB_zero h0 ▸ hb)
  | collapseWs =>
    simp only [Transform.transform, trimAndCollapseWs_eq] at h
    cases E.pure_inj h
    exact collapse_nf hs
  | regex r =>
    simp only [Transform.transform] at h
    have hc : NF (cstr s) := hs.sub fun b hb => (List.takeWhile_sublist _).subset hb
    split at h
    · rename_i mr hmr
      have hg : ∀ i, NF (mr.getD i []) := by
        intro i
        rw [List.getD_eq_getElem?_getD]
        cases hi : mr[i]? with
        | none => exact .nil
        | some g => exact hx.1 _ _ _ hmr hc g (List.mem_of_getElem? hi)
      split at h
      · cases E.pure_inj h; exact hg 1
      · cases E.pure_inj h; exact hg 0
    · cases E.pure_inj h; exact .nil
  | regexReplace r t => cases E.pure_inj h; exact hx.2 _ _ _ hs ht
  | trim cs =>
    cases E.pure_inj h
    refine hs.sub fun b hb => ?_
    unfold trimAnyOf at hb
    rw [List.mem_reverse] at hb
    have := (List.dropWhile_sublist _).subset hb
    rw [List.mem_reverse] at this
    exact (List.dropWhile_sublist _).subset this

theorem pipe_nf {rx : RxEngine} (hx : rx.NoNul) : ∀ {p : Pipe}, p.NoNul → ∀ {s u : Str}, NF s → p.pipe rx s = pure u → NF u
  | .last t, hp, s, u, hs, h => transform_nf hx hp hs h
  | .cons t p, hp, s, u, hs, h => by
    simp only [Pipe.pipe] at h
    obtain ⟨v, hv⟩ := Props.pipe_total rx (.last t) s
    simp only [Pipe.pipe] at hv
    rw [hv, pure_bind] at h
    exact pipe_nf hx hp.2 (transform_nf hx hp.1 hs hv) h

theorem applyPipe_nf {rx : RxEngine} (hx : rx.NoNul) {p : Option Pipe} (hp : ∀ q, p = some q → q.NoNul) {s u : Str} (hs : NF s)
    (h : applyPipe rx p s = pure u) : NF u := by
  cases p with
  | none => cases E.pure_inj h; exact hs
  | some p => exact pipe_nf hx (hp p rfl) hs h

/-! ## Captures -/

theorem capture_nf {rx : RxEngine} (hx : rx.NoNul) {h : Heap} (hh : h.NoNul) {n : Nat} {l : Loc} (hs : l.Stored h n) {c : Capture}
    (hc : c.NoNul) {p : Str × Str} (he : c.capture rx h l.ptr = pure (some p)) : NF p.1 ∧ NF p.2 := by
  obtain ⟨pp, i, hl⟩ := hs.load
  obtain ⟨pp', pn, i', _, _, hr, _⟩ := hs.self
  have hpt : ∀ p s, ∃ u, applyPipe rx p s = pure u := by
    intro p s
    cases p with
    | none => exact ⟨s, rfl⟩
    | some p => exact Props.pipe_total rx p s
  match c, hc with
  | .attribute a name pi, hc =>
    simp only [Capture.capture, load_eq hl, pure_bind] at he
    have hk0 := hh _ _ hl
    cases hk : l.self.kind with
    | element e =>
      simp only [hk] at he hk0
      split at he
      · cases E.pure_inj he
      · rename_i at_ hat
        split at he
        · cases E.pure_inj he
        · rename_i v hv
          obtain ⟨u, hu⟩ := hpt pi v
          rw [hu, pure_bind] at he
          cases E.pure_inj he
          refine ⟨hc.1, applyPipe_nf hx hc.2 ?_ hu⟩
          have : at_ ∈ e.attrs := List.mem_of_find?_eq_some hat
          exact (hk0.2.2 _ this).2 v hv
    | _ => simp only [hk] at he; cases E.pure_inj he
  | .function f name pi, hc =>
    cases f with
    | none => simp only [Capture.capture] at he; cases he
    | some f =>
      simp only [Capture.capture, show l.ptr = l.self.ptr from rfl, CaptureFn.call_eq _ hr, pure_bind] at he
      obtain ⟨u, hu⟩ := hpt pi (f.val h l.self)
      rw [hu, pure_bind] at he
      cases E.pure_inj he
      exact ⟨hc.1, applyPipe_nf hx hc.2.2 (fn_nf hh hr (hc.2.1 f rfl)) hu⟩

theorem ruleCapture_nf {rx : RxEngine} (hx : rx.NoNul) {h : Heap} (hh : h.NoNul) {n : Nat} {l : Loc} (hs : l.Stored h n) :
    ∀ {cs : List (Option Capture)}, (∀ c, some c ∈ cs → c.NoNul) → (∀ c, some c ∈ cs → c.Safe) → ∀ {vs : List (Str × Str)},
      ruleCapture rx h l.ptr cs = pure vs → ∀ p ∈ vs, NF p.1 ∧ NF p.2
  | [], _, _, vs, he => by cases E.pure_inj he; simp
  | none :: cs, h1, h2, vs, he => by
    simp only [ruleCapture] at he
    exact ruleCapture_nf hx hh hs (fun c hc => h1 c (by simp [hc])) (fun c hc => h2 c (by simp [hc])) he
  | some c :: cs, h1, h2, vs, he => by
    obtain ⟨b, hb⟩ := c.capture_total rx hs (h2 c (by simp))
    obtain ⟨ws, hws⟩ := ruleCapture_total rx hs cs fun c hc => h2 c (by simp [hc])
    simp only [ruleCapture, hb, hws, pure_bind] at he
    have ih := ruleCapture_nf hx hh hs (fun c hc => h1 c (by simp [hc])) (fun c hc => h2 c (by simp [hc])) hws
    cases b with
    | none => cases E.pure_inj he; exact ih
    | some p =>
      cases E.pure_inj he
      intro q hq
      rcases List.mem_cons.1 hq with rfl | hq
      · exact capture_nf hx hh hs (h1 c (by simp)) hb
      · exact ih q hq

/-- The maps of a result contain no NUL. -/
theorem isResult_noNul {rx : RxEngine} (hx : rx.NoNul) {h : Heap} (hh : h.NoNul) {n : Nat} {l : Loc} (hs : l.Stored h n) {r : Rule}
    (hr : r.NoNul) (hsafe : r.Safe n) {res : List (List (Str × Str))} (he : IsResult rx h r l res) : ∀ m ∈ res, NoNul m := by
  obtain ⟨gs, ms, h1, h2, rfl⟩ := he
  intro m hm p hp
  obtain ⟨g, hg, vs, hc, him⟩ := h2.mem ((List.mem_filter.1 hm).1)
  have hpv : p ∈ vs := by
    have : p ∈ m.filter (·.1 = p.1) := List.mem_filter.2 ⟨hp, by simp⟩
    rw [him.2] at this
    exact (List.mem_filter.1 this).1
  obtain ⟨⟨q, x⟩, hqx, ws, hws, hpw⟩ := hc.mem hpv
  have hq := h1.closed (P := fun q x => SubRule q r ∧ ∃ ks ∈ l.searched, x ∈ ks)
      (fun p y q x hp hb => ⟨hb.subRule.trans hp.1, hb.searched hp.2⟩)
      (fun q hq ks hks x hx => ⟨siblings_subRule r q hq, ks, hks, hx⟩) g hg (q, x) hqx
  obtain ⟨hq, ks, hks, hxk⟩ := hq
  have hst := searched_stored hs ks hks x hxk
  have i1 : q.info.NoNul := by
    have := Props.SubRule.all hq hr
    obtain ⟨i, c, nx, ns⟩ := q
    exact this.1
  have i2 : q.info.Safe n := by
    have := Props.SubRule.all hq hsafe
    obtain ⟨i, c, nx, ns⟩ := q
    exact this.1
  exact ruleCapture_nf hx hh hst i1 i2.2 hws p hpw

/-! ## Parsed rules -/

open Syn

theorem quoted_body_nf {q : Quoted} (h : NF q.text) : NF q.body := by
  exact h.sub fun b hb => by simp [Quoted.text, hb]

theorem pipes_nf {rx : RxEngine} : ∀ {ps : List PipeS} {f : Flags} {x : List Transform × Flags}, NF (ps.flatMap PipeS.text) →
    pipesMeaning rx f ps = some x → ∀ t ∈ x.1, t.NoNul
  | [], _, _, _, h => by cases h; simp
  | p :: ps, f, x, hn, h => by
    simp only [pipesMeaning, Option.bind_eq_bind, Option.bind_eq_some_iff, Option.some.injEq] at h
    obtain ⟨y, h1, z, h2, rfl⟩ := h
    rw [List.flatMap_cons] at hn
    intro t ht
    rcases List.mem_cons.1 ht with rfl | ht
    · have hp : NF p.text := hn.sub fun b hb => List.mem_append_left _ hb
      cases p with
      | prepend q =>
        cases h1
        exact quoted_body_nf (hp.sub fun b hb => by simp [PipeS.text, hb])
      | append q =>
        cases h1
        exact quoted_body_nf (hp.sub fun b hb => by simp [PipeS.text, hb])
      | replace r w1 w2 q =>
        simp only [PipeS.meaning, Option.bind_eq_bind, Option.bind_eq_some_iff, Option.some.injEq] at h1
        obtain ⟨v, _, rfl⟩ := h1
        exact quoted_body_nf (hp.sub fun b hb => by simp [PipeS.text, hb])
      | filter r =>
        simp only [PipeS.meaning, Option.bind_eq_bind, Option.bind_eq_some_iff, Option.some.injEq] at h1
        obtain ⟨v, _, rfl⟩ := h1
        trivial
      | _ => cases h1; trivial
    · exact pipes_nf (hn.sub fun b hb => List.mem_append_right _ hb) h2 t ht

theorem chain_nf : ∀ {ts : List Transform}, (∀ t ∈ ts, t.NoNul) → ∀ p, chainPipes ts = some p → p.NoNul
  | [], _, p, h => by cases h
  | t :: ts, hn, p, h => by
    rw [chainPipes] at h
    split at h
    · cases h; exact hn t (by simp)
    · rename_i q hq
      cases h
      exact ⟨hn t (by simp), chain_nf (fun t ht => hn t (by simp [ht])) q hq⟩

theorem capName_nf {n : CapName} (h : NF n.text) : NF n.meaning := by
  cases n with
  | quoted q => exact quoted_body_nf h
  | plain s => exact h

theorem pats_nf {rx} : ∀ {ps : List (Str × Pat)} {f : Flags} {x : List Match × List Capture × Flags}, NF (patsText ps) →
    patsMeaning rx f ps = some x → ∀ c ∈ x.2.1, c.NoNul
  | [], _, _, _, h => by cases h; simp
  | p :: ps, f, x, hn, h => by
    simp only [patsMeaning, Option.bind_eq_bind, Option.bind_eq_some_iff, Option.some.injEq] at h
    obtain ⟨y, h1, z, h2, rfl⟩ := h
    have hn1 : NF p.2.text := hn.sub fun b hb => by simp [patsText, hb]
    have hn2 : NF (patsText ps) := hn.sub fun b hb => by
      rw [patsText, List.flatMap_cons]; exact List.mem_append_right _ hb
    intro c hc
    rcases List.mem_append.1 hc with hc | hc
    · obtain ⟨w, p⟩ := p
      cases p with
      | capFn fn ps n =>
        simp only [Pat.meaning, Option.bind_eq_bind, Option.bind_eq_some_iff, Option.some.injEq] at h1
        obtain ⟨u, hu, rfl⟩ := h1
        simp only [List.mem_singleton] at hc
        subst hc
        refine ⟨capName_nf (hn1.sub fun b hb => by simp [Pat.text, hb]), ?_, chain_nf (pipes_nf (hn1.sub fun b hb => ?_) hu)⟩
        · intro g hg
          cases hg
          cases fn <;> trivial
        · rw [Pat.text]; exact List.mem_append_left _ (List.mem_append_right _ hb)
      | capAttr a ps n o =>
        simp only [Pat.meaning, Option.bind_eq_bind, Option.bind_eq_some_iff, Option.some.injEq] at h1
        obtain ⟨u, hu, rfl⟩ := h1
        simp only [List.mem_singleton] at hc
        subst hc
        refine ⟨capName_nf (hn1.sub fun b hb => by simp [Pat.text, hb]), chain_nf (pipes_nf (hn1.sub fun b hb => ?_) hu)⟩
        rw [Pat.text]
        exact List.mem_append_left _ (List.mem_append_left _ (List.mem_append_right _ hb))
      | testFn fn t neg =>
        simp only [Pat.meaning, Option.bind_eq_bind, Option.bind_eq_some_iff, Option.some.injEq] at h1
        obtain ⟨u, _, rfl⟩ := h1
        simp at hc
      | testAttr a t neg =>
        simp only [Pat.meaning, Option.bind_eq_bind, Option.bind_eq_some_iff, Option.some.injEq] at h1
        obtain ⟨u, _, rfl⟩ := h1
        simp at hc
      | hasAttr a neg => cases h1; simp at hc
    · exact pats_nf hn2 h2 c hc

theorem head_nf {rx f f' info} {h : Head} (hs : NF h.text) (hm : h.meaning rx f = some (info, f')) : info.NoNul := by
  simp only [Head.meaning, Option.bind_eq_bind, Option.bind_eq_some_iff, Option.some.injEq, Prod.mk.injEq] at hm
  obtain ⟨x, h1, y, h2, rfl, _⟩ := hm
  intro c hc
  simp only [List.mem_map, Option.some.injEq] at hc
  obtain ⟨c, hc, rfl⟩ := hc
  exact pats_nf (hs.sub fun b hb => by simp [Head.text, hb]) h2 c hc

/-- The rule of a hext without NUL contains no NUL. -/
theorem parse_noNul {rx cs s r} (hs : NF s) (h : parseHext rx cs s = .ok r) : r.NoNul := by
  obtain ⟨is, f, rs, hok, rfl, hseq, rfl⟩ := (parse_iff rx cs s r).1 h
  refine ruleOf_all (fun _ => ?_) (seq_all hseq fun hd c hc f f' info hm => head_nf (hs.sub fun b hb => ?_) hm)
  · intro c hc; simp at hc
  · refine (infix_flatMap (g := Item.text) hc).subset ?_
    exact List.mem_append_left _ hb

theorem cstr_nf (s : Str) : NF (cstr s) := by
  intro h
  unfold cstr at h
  induction s with
  | nil => simp at h
  | cons b s ih =>
    rw [List.takeWhile_cons] at h
    split at h
    · rename_i hb
      rcases List.mem_cons.1 h with h | h
      · simp [← h] at hb
      · exact ih h
    · simp at h

end Hext
