import Verif.Proofs.Conditions
import Verif.Proofs.Complete
import Verif.Props.Conditions
import Verif.Props.Extract
set_option linter.unusedSimpArgs false
/-!
# Properties of captures (C16) and of the builtin functions (C30, C31)
-/

namespace Hext.Props

open Spec

variable {rx : RxEngine} {h : Heap} {n : Nat} {l : Loc}

/-! ## C16: captures -/

/-- An attribute capture returns the piped value of the attribute under the capture's name if the node is
an element with this attribute, and nothing otherwise. -/
theorem attribute_capture_iff (hl : l.Stored h n) (a name : Str) (pipe : Option Pipe) (res : Option (Str × Str)) :
    (Capture.attribute a name pipe).capture rx h l.ptr = pure res ↔
      (∃ e at_ v u, l.self.kind = .element e ∧ IsAttr e a at_ ∧ at_.value = some v ∧ applyPipe rx pipe v = pure u ∧
        res = some (name, u)) ∨
      ((¬ ∃ e at_ v, l.self.kind = .element e ∧ IsAttr e a at_ ∧ at_.value = some v) ∧ res = none) := by
  obtain ⟨pp, i, hld⟩ := hl.load
  simp only [Capture.capture, load_eq hld, pure_bind, isAttr_iff]
  have none_case : (¬ ∃ e at_ v, l.self.kind = .element e ∧ getAttribute e.attrs a = some at_ ∧ at_.value = some v) →
      ((pure none : E (Option (Str × Str))) = pure res ↔
        (∃ e at_ v u, l.self.kind = .element e ∧ getAttribute e.attrs a = some at_ ∧ at_.value = some v ∧
          applyPipe rx pipe v = pure u ∧ res = some (name, u)) ∨
        ((¬ ∃ e at_ v, l.self.kind = .element e ∧ getAttribute e.attrs a = some at_ ∧ at_.value = some v) ∧ res = none)) := by
    intro hno
    constructor
    · intro h; exact Or.inr ⟨hno, (E.pure_inj h).symm⟩
    · rintro (⟨e, b, v, u, h1, h2, h3, _⟩ | ⟨_, rfl⟩)
      · exact absurd ⟨e, b, v, h1, h2, h3⟩ hno
      · rfl
  cases hk : l.self.kind with
  | element e =>
    rw [hk] at none_case
    simp only
    cases hg : getAttribute e.attrs a with
    | none => exact none_case (by rintro ⟨e', b, v, h1, h2, _⟩; cases h1; rw [hg] at h2; cases h2)
    | some b =>
      simp only
      cases hv : b.value with
      | none => exact none_case (by rintro ⟨e', b', v, h1, h2, h3⟩; cases h1; rw [hg] at h2; cases h2; rw [hv] at h3; cases h3)
      | some v =>
        obtain ⟨u, hu⟩ : ∃ u, applyPipe rx pipe v = pure u := by
          cases pipe with
          | none => exact ⟨v, rfl⟩
          | some p => exact pipe_total rx p v
        simp only [hu, pure_bind]
        constructor
        · intro h; exact Or.inl ⟨e, b, v, u, rfl, hg, hv, hu, (E.pure_inj h).symm⟩
        · rintro (⟨e', b', v', u', h1, h2, h3, h4, rfl⟩ | ⟨hno, _⟩)
          · cases h1; rw [hg] at h2; cases h2; rw [hv] at h3; cases h3; rw [hu] at h4; rw [E.pure_inj h4]
          · exact absurd ⟨e, b, v, rfl, hg, hv⟩ hno
  | _ => rw [hk] at none_case; exact none_case (by simp)

/-- A function capture always returns a value: the piped value of the function. -/
theorem function_capture_iff (hl : l.Stored h n) (f : CaptureFn) (name : Str) (pipe : Option Pipe) (res : Option (Str × Str)) :
    (Capture.function (some f) name pipe).capture rx h l.ptr = pure res ↔
      ∃ u, applyPipe rx pipe (f.val h l.self) = pure u ∧ res = some (name, u) := by
  obtain ⟨pp', pn, i', _, _, hr, _⟩ := hl.self
  simp only [Capture.capture, show l.ptr = l.self.ptr from rfl, CaptureFn.call_eq _ hr, pure_bind]
  obtain ⟨u, hu⟩ : ∃ u, applyPipe rx pipe (f.val h l.self) = pure u := by
    cases pipe with
    | none => exact ⟨_, rfl⟩
    | some p => exact pipe_total rx p _
  simp only [hu, pure_bind]
  constructor
  · intro h; exact ⟨u, rfl, (E.pure_inj h).symm⟩
  · rintro ⟨w, h1, rfl⟩; rw [E.pure_inj h1]

private theorem map_pure_inj {α} : ∀ {as bs : List α}, (as.map (pure : α → E α)) = bs.map pure → as = bs
  | [], [], _ => rfl
  | [], _ :: _, h => by simp at h
  | _ :: _, [], h => by simp at h
  | a :: as, b :: bs, h => by
    simp only [List.map_cons, List.cons.injEq] at h
    rw [E.pure_inj h.1, map_pure_inj h.2]

/-- A rule captures what its captures return, in their order. -/
theorem rule_capture_iff (hl : l.Stored h n) (cs : List (Option Capture)) (hc : ∀ c, some c ∈ cs → c.Safe)
    (vs : List (Str × Str)) :
    ruleCapture rx h l.ptr cs = pure vs ↔
      ∃ rs : List (Option (Str × Str)), vs = rs.filterMap id ∧
        (cs.filterMap id).map (fun c => c.capture rx h l.ptr) = rs.map pure := by
  induction cs generalizing vs with
  | nil =>
    simp only [ruleCapture, List.filterMap_nil, List.map_nil]
    constructor
    · intro h; exact ⟨[], by rw [← E.pure_inj h]; rfl, rfl⟩
    · rintro ⟨rs, rfl, h⟩
      have : rs = [] := by simpa using h.symm
      subst this; rfl
  | cons c cs ih =>
    have ih := fun vs => ih (fun c h => hc c (by simp [h])) vs
    cases c with
    | none => simp only [ruleCapture, ih]; simp
    | some c =>
      obtain ⟨b, hb⟩ := c.capture_total rx hl (hc c (by simp))
      obtain ⟨ws, hws⟩ := ruleCapture_total rx hl cs fun c h => hc c (by simp [h])
      obtain ⟨rs, h1, h2⟩ := (ih ws).1 hws
      have hv : ruleCapture rx h l.ptr (some c :: cs) = pure ((b :: rs).filterMap id) := by
        simp only [ruleCapture, hb, pure_bind, hws]
        cases b <;> simp [h1]
      rw [hv]
      constructor
      · intro h
        refine ⟨b :: rs, (E.pure_inj h).symm, ?_⟩
        simp only [List.filterMap_cons, id, List.map_cons, hb, h2]
      · rintro ⟨rs', rfl, h3⟩
        have : rs' = b :: rs := by
          simp only [List.filterMap_cons, id, List.map_cons, hb, h2] at h3
          rw [show (pure b :: rs.map pure : List (E (Option (Str × Str)))) = (b :: rs).map pure from rfl] at h3
          exact (map_pure_inj h3).symm
        rw [this]

theorem SubRule.all {P : RuleInfo → Prop} {q r : Rule} (hq : SubRule q r) (hr : r.All P) : q.All P := by
  have mem : ∀ {c : Rule} {rs : List Rule}, Rule.AllL P rs → c ∈ rs → c.All P := by
    intro c rs
    induction rs with
    | nil => simp
    | cons r rs ih =>
      intro h hc
      rcases List.mem_cons.1 hc with rfl | hc
      · exact h.1
      · exact ih h.2 hc
  induction hq with
  | refl => exact hr
  | @child r c q h _ ih =>
    obtain ⟨i, c', nx, ns⟩ := r
    simp only [Rule.child] at h; subst h
    exact ih hr.2.1
  | @next r c q h _ ih =>
    obtain ⟨i, c', nx, ns⟩ := r
    simp only [Rule.next] at h; subst h
    exact ih hr.2.2.1
  | @nested r c q h _ ih =>
    obtain ⟨i, c', nx, ns⟩ := r
    exact ih (mem hr.2.2.2 h)

theorem Maps.nth {rx : RxEngine} {h : Heap} {gs : List Found} {ms : List (List (Str × Str))} (hm : Maps rx h gs ms)
    {i : Nat} {g : Found} {m : List (Str × Str)} (h1 : gs[i]? = some g) (h2 : ms[i]? = some m) :
    ∃ vs, Captured rx h g vs ∧ IsMap vs m := by
  induction hm generalizing i with
  | nil => simp at h1
  | @cons g' gs vs m' ms h3 h4 _ ih =>
    cases i with
    | zero => simp at h1 h2; subst h1; subst h2; exact ⟨vs, h3, h4⟩
    | succ i => exact ih (by simpa using h1) (by simpa using h2)

theorem Captured.of_mem {rx : RxEngine} {h : Heap} {g : Found} {vs : List (Str × Str)} (hc : Captured rx h g vs)
    {p : Rule × Loc} (hp : p ∈ g) : ∃ ws, ruleCapture rx h p.2.ptr p.1.info.caps = pure ws ∧ ∀ v ∈ ws, v ∈ vs := by
  induction hc with
  | nil => simp at hp
  | @cons r l g vs ws h1 _ ih =>
    rcases List.mem_cons.1 hp with rfl | hp
    · exact ⟨vs, h1, fun v hv => by simp [hv]⟩
    · obtain ⟨us, h2, h3⟩ := ih hp
      exact ⟨us, h2, fun v hv => by simp [h3 v hv]⟩

/-- C16. A rule that requires an attribute and captures it under a name, as `<a href:name/>` does, contributes
a value of that name to the map of every group in which it matched; in particular that map is not empty and
part of the result. (The attribute's value is a null pointer in no document that Gumbo makes.) -/
theorem mandatory_capture_present {r : Rule} (hn : n ≤ 2147483647) (hr : r.Safe n) (hl : l.Stored h n) {ms : UInt64}
    {res : List (List (Str × Str))} (he : extract rx h r l.ptr ms = pure res) :
    ∃ gs maps, Search (Holds rx h) r.siblings l.searched gs ∧ Maps rx h gs maps ∧ res = maps.filter (· ≠ []) ∧
      ∀ (i : Nat) g m, gs[i]? = some g → maps[i]? = some m → ∀ q x, (q, x) ∈ g →
        ∀ a name pipe, some (.attribute a none) ∈ q.info.ms → some (.attribute a name pipe) ∈ q.info.caps →
          (∀ e b, x.self.kind = .element e → b ∈ e.attrs → b.value ≠ none) →
          m ∈ res ∧ ∃ v, (name, v) ∈ m := by
  obtain ⟨gs, maps, h1, h2, h3⟩ := extract_isResult hn hr hl he
  refine ⟨gs, maps, h1, h2, h3, ?_⟩
  intro i g m hg hm q x hp a name pipe hma hca hval
  have hgm : g ∈ gs := List.mem_of_getElem? hg
  have hsat := (h1.placed g hgm (q, x) hp).1
  have hst : x.Stored h n ∧ q.Safe n := by
    have hcl := h1.closed (P := fun q x => SubRule q r ∧ ∃ ks ∈ l.searched, x ∈ ks)
      (fun p y q x hp hb => ⟨hb.subRule.trans hp.1, hb.searched hp.2⟩)
      (fun q hq ks hks x hx => ⟨siblings_subRule r q hq, ks, hks, hx⟩) g hgm (q, x) hp
    obtain ⟨hq, ks, hks, hx⟩ := hcl
    exact ⟨searched_stored hl ks hks x hx, SubRule.all hq hr⟩
  have hholds : Holds rx h q.info x := by
    cases hsat with
    | leaf h => exact h
    | inner h => exact h
  have hqs : q.info.Safe n := by obtain ⟨i, c, nx, ns⟩ := q; exact hst.2.1
  obtain ⟨e, at_, hk, hattr⟩ : ∃ e a', x.self.kind = .element e ∧ IsAttr e a a' := by
    have hall : allMatch rx h x.ptr q.info.ms = pure true := by
      obtain ⟨pp, j, hld⟩ := hst.1.load
      simp only [Holds, ruleMatches, load_eq hld, pure_bind] at hholds
      split at hholds
      · exact absurd (E.pure_inj hholds) (by decide)
      · exact hholds
    have key : ∀ ms : List (Option Match), Match.SafeL n ms → allMatch rx h x.ptr ms = pure true →
        ∀ m, some m ∈ ms → m.matches rx h x.ptr = pure true := by
      intro ms
      induction ms with
      | nil => simp
      | cons m ms ih =>
        intro hs ha m' hm'
        simp only [Match.SafeL] at hs
        cases m with
        | none =>
          simp only [allMatch, pure_bind] at ha
          exact ih hs.2 (by simpa using ha) m' (by simpa using hm')
        | some m =>
          obtain ⟨b, hb⟩ := m.matches_total rx hst.1 hn hs.1
          simp only [allMatch, hb, pure_bind] at ha
          cases b with
          | false => exact absurd (E.pure_inj ha) (by decide)
          | true =>
            rcases List.mem_cons.1 hm' with hm' | hm'
            · cases hm'; exact hb
            · exact ih hs.2 (by simpa using ha) m' hm'
    exact (attr_present_iff hst.1 hn a).true_iff.1 (key _ hqs.1 hall _ hma)
  obtain ⟨vs, hcap, hmap⟩ := Maps.nth h2 hg hm
  obtain ⟨ws, hws, hsub⟩ := Captured.of_mem hcap hp
  obtain ⟨rs, rfl, hrs⟩ := (rule_capture_iff hst.1 _ (fun c hc => hqs.2 c hc) ws).1 hws
  obtain ⟨o, ho, hoe⟩ : ∃ o ∈ rs, (Capture.attribute a name pipe).capture rx h x.ptr = pure o := by
    have : (Capture.attribute a name pipe).capture rx h x.ptr ∈
        (q.info.caps.filterMap id).map (fun c => c.capture rx h x.ptr) :=
      List.mem_map.2 ⟨_, List.mem_filterMap.2 ⟨_, hca, rfl⟩, rfl⟩
    rw [hrs] at this
    obtain ⟨o, ho, hoe⟩ := List.mem_map.1 this
    exact ⟨o, ho, hoe.symm⟩
  have hmemattr : at_ ∈ e.attrs := by obtain ⟨b, c, hbc, _⟩ := hattr; rw [hbc]; simp
  obtain ⟨v, hv⟩ := Option.ne_none_iff_exists'.1 (hval e at_ hk hmemattr)
  rcases (attribute_capture_iff hst.1 a name pipe o).1 hoe with ⟨_, _, _, u, _, _, _, _, rfl⟩ | ⟨hno, _⟩
  · have hin : (name, u) ∈ vs := hsub _ (List.mem_filterMap.2 ⟨_, ho, rfl⟩)
    have hin' : (name, u) ∈ m := by
      have : (name, u) ∈ vs.filter (·.1 = name) := List.mem_filter.2 ⟨hin, by simp⟩
      rw [← hmap.2] at this
      exact (List.mem_filter.1 this).1
    refine ⟨?_, u, hin'⟩
    rw [h3]
    refine List.mem_filter.2 ⟨List.mem_of_getElem? hm, ?_⟩
    simp
    intro hnil; rw [hnil] at hin'; simp at hin'
  · exact absurd ⟨e, at_, v, hk, hattr, hv⟩ hno

/-- The rule `<a href:x/>` requires the attribute that it captures. -/
example : ∃ q : Rule, q.Safe 2147483647 ∧ some (.attribute (lit "href") none) ∈ q.info.ms ∧
    some (.attribute (lit "href") (lit "x") none) ∈ q.info.caps ∧
    extract Ex.rx Ex.heap q (Loc.root Ex.doc).ptr 0 = pure [[(lit "x", lit "1")], [(lit "x", lit "2")]] := by
  have hs : ((Ex.rule "a" (caps := [Ex.capHref "x"])).appendMatch (some (.attribute (lit "href") none))).Safe 2147483647 := by
    simp [Rule.appendMatch, Ex.rule, Rule.Safe, Rule.All, Rule.AllO, Rule.AllL, RuleInfo.Safe, Match.SafeL, Match.SafeO, Match.Safe,
      Capture.Safe, Ex.capHref]
  refine ⟨(Ex.rule "a" (caps := [Ex.capHref "x"])).appendMatch (some (.attribute (lit "href") none)), hs, ?_, ?_, ?_⟩
  · simp [Rule.appendMatch, Ex.rule, Rule.info]
  · simp [Rule.appendMatch, Ex.rule, Rule.info, Ex.capHref]
  · rw [extract_eq (rx := Ex.rx) (h := Ex.heap) (n := 2147483647) (by decide) hs (l := Loc.root Ex.doc) Ex.doc_ok]
    decide +kernel

/-! ## C30: text -/

mutual
private theorem strip_leaves : ∀ t : Tree, stripVal false t = t.leaves.flatten
  | .node _ k kids => by
    cases k <;> simp [stripVal, Tree.leaves, stripL_leaves]
private theorem stripL_leaves : ∀ ts : List Tree, stripValL false ts = (leavesL ts).flatten
  | [] => rfl
  | t :: ts => by simp [stripValL, leavesL, strip_leaves t, stripL_leaves ts]
end

private theorem Spread.append {a b : List Str} {s t : Str} (h1 : Spread a s) (h2 : Spread b t) : Spread (a ++ b) (s ++ t) := by
  induction h1 with
  | nil => exact h2
  | leaf _ ih => rw [List.append_assoc]; exact .leaf ih
  | brk _ ih => exact .brk ih

mutual
private theorem strip_spread : ∀ (sw : Bool) (t : Tree), Spread t.leaves (stripVal sw t)
  | sw, .node _ k kids => by
    cases k <;> simp only [stripVal, Tree.leaves]
    case element => exact stripL_spread sw kids
    case text t => simpa using Spread.leaf (l := t) .nil
    case whitespace t => simpa using Spread.leaf (l := t) .nil
    all_goals exact .nil
private theorem stripL_spread : ∀ (sw : Bool) (ts : List Tree), Spread (leavesL ts) (stripValL sw ts)
  | sw, [] => .nil
  | sw, t :: ts => by
    simp only [stripValL, leavesL]
    refine Spread.append ?_ (stripL_spread sw ts)
    split
    · have := Spread.append (strip_spread sw t) (.brk .nil)
      simpa using Spread.brk this
    · exact strip_spread sw t
end

/-- C30. `@strip-tags` is the concatenation of the text and whitespace leaves below the node, in document
order, looking only into elements. -/
theorem strip_tags_correct (hl : l.Stored h n) : CaptureFn.stripTags.call h l.ptr = pure l.self.leaves.flatten := by
  obtain ⟨_, _, _, _, _, hr, _⟩ := hl.self
  rw [show l.ptr = l.self.ptr from rfl, CaptureFn.call_eq _ hr, CaptureFn.val, strip_leaves]

/-- C30. `@text` consists of the words of the same leaves, where only newlines are inserted between leaves. -/
theorem text_correct (hl : l.Stored h n) :
    ∃ s, Spread l.self.leaves s ∧ CaptureFn.text.call h l.ptr = pure (unwords (words s)) := by
  obtain ⟨_, _, _, _, _, hr, _⟩ := hl.self
  exact ⟨_, strip_spread true l.self, by rw [show l.ptr = l.self.ptr from rfl, CaptureFn.call_eq _ hr, CaptureFn.val]⟩

/-- C30. So the words of `@text`, put together, are the bytes of the leaves that are not whitespace. -/
theorem text_keeps_bytes (hl : l.Stored h n) {s : Str} (hs : CaptureFn.text.call h l.ptr = pure s) :
    (words s).flatten = l.self.leaves.flatten.filter fun c => !decide (Ws c) := by
  obtain ⟨u, h1, h2⟩ := text_correct hl
  rw [h2] at hs
  have := E.pure_inj hs
  subst this
  have hsp : (fun c => decide (Ws c)) 32 = true := by decide
  rw [show words (unwords (words u)) = words u from wordsBy_unwords _ hsp _ (wordsBy_isWord _ u), words_flatten]
  clear h2 hs
  generalize l.self.leaves = ls at h1
  induction h1 with
  | nil => rfl
  | leaf _ ih => simp [List.filter_append, ih]
  | brk _ ih =>
    rw [List.filter_cons, ih]
    simp [show Ws 10 by decide]

theorem words_append_nl (a b : Str) : words (a ++ 10 :: b) = words a ++ words b := by
  unfold words
  have hnl : (fun c => decide (Ws c)) 10 = true := by decide
  generalize (fun c : Byte => decide (Ws c)) = sep at hnl
  induction a with
  | nil => rw [List.nil_append, wordsBy_cons_sep hnl]; simp [wordsBy]
  | cons c a ih =>
    by_cases hc : sep c = true
    · rw [List.cons_append, wordsBy_cons_sep hc, wordsBy_cons_sep hc, ih]
    · have hc : sep c = false := by simpa using hc
      cases a with
      | nil =>
        rw [List.cons_append, List.nil_append, wordsBy_cons_nonsep hc, if_pos hnl, wordsBy_cons_sep hnl]
        simp [wordsBy, hc]
      | cons d a =>
        rw [List.cons_append, List.cons_append, wordsBy_cons_nonsep hc, wordsBy_cons_nonsep hc]
        rw [List.cons_append] at ih
        rw [ih]
        split
        · rfl
        · rename_i hd
          have := wordsBy_ne_nil (sep := sep) (c := d) (s := a) (by simpa using hd)
          cases hw : wordsBy sep (d :: a) with
          | nil => exact absurd hw this
          | cons w ws => rfl

private theorem stripValL_append (sw : Bool) (as bs : List Tree) : stripValL sw (as ++ bs) = stripValL sw as ++ stripValL sw bs := by
  induction as with
  | nil => rfl
  | cons a as ih => simp [stripValL, ih]

private theorem words_block {p : Ptr} {e : Elem} {as bs : List Tree} {t : Tree} (hw : wrapsText t.kind = true) :
    words (stripVal true (.node p (.element e) (as ++ t :: bs))) =
      words (stripValL true as) ++ words (stripVal true t) ++ words (stripValL true bs) := by
  simp only [stripVal, stripValL_append, stripValL, hw, Bool.and_self, if_true]
  rw [List.append_assoc, List.append_assoc, List.singleton_append, words_append_nl, List.append_assoc, List.singleton_append,
    words_append_nl]

/-- C30. A block-level child separates words: the words of `@text` of a node are words of what comes before
the child, those of `@text` of the child and words of what comes after it. -/
theorem text_block_breaks {p : Ptr} {e : Elem} {as bs : List Tree} {t : Tree} (hl : l.Stored h n)
    (hs : l.self = .node p (.element e) (as ++ t :: bs)) (hw : wrapsText t.kind = true) :
    ∃ s u a b, CaptureFn.text.call h l.ptr = pure s ∧ CaptureFn.text.call h t.ptr = pure u ∧
      Spread (leavesL as) a ∧ Spread (leavesL bs) b ∧ words s = words a ++ words u ++ words b := by
  obtain ⟨_, _, _, _, _, hr, _⟩ := hl.self
  have hrt : ∃ q j, Rep h (some q) j t := by
    rw [hs] at hr
    obtain ⟨j, _, hj⟩ := RepL.mem hr.2 (t := t) (by simp)
    exact ⟨p, j, hj⟩
  obtain ⟨q, j, hrt⟩ := hrt
  have hsp : (fun c => decide (Ws c)) 32 = true := by decide
  have hww : ∀ s, words (unwords (words s)) = words s := fun s => wordsBy_unwords _ hsp _ (wordsBy_isWord _ s)
  refine ⟨_, _, stripValL true as, stripValL true bs, CaptureFn.call_eq _ hr _, CaptureFn.call_eq _ hrt _,
    stripL_spread true as, stripL_spread true bs, ?_⟩
  rw [hs]; simp only [CaptureFn.val]; rw [hww, hww, words_block hw]

/-- No block-level element lies below. -/
def NoBlocks : List Tree → Prop
  | [] => True
  | .node _ k kids :: ts => wrapsText k = false ∧ NoBlocks kids ∧ NoBlocks ts

private theorem stripL_inline : ∀ ts : List Tree, NoBlocks ts → stripValL true ts = (leavesL ts).flatten
  | [], _ => rfl
  | .node p k kids :: ts, hb => by
    simp only [NoBlocks] at hb
    have h1 := stripL_inline kids hb.2.1
    have h2 := stripL_inline ts hb.2.2
    simp only [stripValL, Tree.kind, hb.1, Bool.and_false, Bool.false_eq_true, if_false, leavesL, List.flatten_append, h2]
    congr 1
    cases k <;> simp [stripVal, Tree.leaves, h1]

/-- C30. If only inline elements lie below, `@text` is `@strip-tags` with its whitespace collapsed. -/
theorem text_inline {p : Ptr} {e : Elem} {kids : List Tree} (hl : l.Stored h n) (hs : l.self = .node p (.element e) kids)
    (hb : NoBlocks kids) : CaptureFn.text.call h l.ptr = pure (unwords (words l.self.leaves.flatten)) := by
  obtain ⟨_, _, _, _, _, hr, _⟩ := hl.self
  rw [show l.ptr = l.self.ptr from rfl, CaptureFn.call_eq _ hr, CaptureFn.val, hs]
  simp only [stripVal, Tree.leaves, stripL_inline kids hb]

/-- `<div>a<b>b</b><p>c</p>d</div>` has the leaves a, b, c, d; its words are ab, c, d. -/
example : (Ex.el 1 "div" [] [Ex.txt 2 "a", Ex.el 3 "b" [] [Ex.txt 4 "b"], Ex.el 5 "p" [] [Ex.txt 6 "c"], Ex.txt 7 "d"]).leaves =
      [lit "a", lit "b", lit "c", lit "d"] ∧
    words (stripVal true (Ex.el 1 "div" [] [Ex.txt 2 "a", Ex.el 3 "b" [] [Ex.txt 4 "b"], Ex.el 5 "p" [] [Ex.txt 6 "c"], Ex.txt 7 "d"])) =
      [lit "ab", lit "c", lit "d"] ∧
    wrapsText (Ex.el 5 "p" [] []).kind = true ∧ wrapsText (Ex.el 3 "b" [] []).kind = false := by
  decide +kernel

/-! ## C31: HTML -/

mutual
private theorem serial_toks : ∀ t : Tree, noDocument [t] → serialVal t = t.toks.flatMap HtmlTok.render
  | .node p k kids, hd => by
    simp only [noDocument] at hd
    have ih := serialL_toks kids hd.2.1
    cases k with
    | element e =>
      simp only [serialVal, Tree.toks, serialElemVal, ih]
      cases e.isVoid <;> simp [HtmlTok.render, List.flatMap_append]
    | template e =>
      simp only [serialVal, Tree.toks, serialElemVal, ih]
      cases e.isVoid <;> simp [HtmlTok.render, List.flatMap_append]
    | document d => exact absurd rfl (hd.1 d)
    | _ => simp [serialVal, Tree.toks, HtmlTok.render]
private theorem serialL_toks : ∀ ts : List Tree, noDocument ts → serialValL ts = (toksL ts).flatMap HtmlTok.render
  | [], _ => rfl
  | t :: ts, hd => by
    have h2 : noDocument ts := by obtain ⟨p, k, kids⟩ := t; simp only [noDocument] at hd; exact hd.2.2
    have h1 : noDocument [t] := by obtain ⟨p, k, kids⟩ := t; simp only [noDocument] at hd ⊢; exact ⟨hd.1, hd.2.1, trivial⟩
    simp only [serialValL, toksL, serial_toks t h1, serialL_toks ts h2, List.flatMap_append]
end

private theorem Balanced.append {a b : List HtmlTok} (h1 : Balanced a) (h2 : Balanced b) : Balanced (a ++ b) := by
  induction h1 with
  | nil => exact h2
  | void _ ih => exact .void ih
  | comment _ ih => exact .comment ih
  | text _ ih => exact .text ih
  | elem h _ _ ih => rw [List.cons_append, List.append_assoc, List.cons_append]; exact .elem h ih

mutual
private theorem toks_balanced : ∀ t : Tree, Balanced t.toks
  | .node p k kids => by
    have ih := toksL_balanced kids
    cases k <;> simp only [Tree.toks]
    case element e => split; exact .void .nil; exact .elem ih .nil
    case template e => split; exact .void .nil; exact .elem ih .nil
    case comment => exact .comment .nil
    case text => exact .text .nil
    case whitespace => exact .text .nil
    all_goals exact .nil
private theorem toksL_balanced : ∀ ts : List Tree, Balanced (toksL ts)
  | [] => .nil
  | t :: ts => by simp only [toksL]; exact Balanced.append (toks_balanced t) (toksL_balanced ts)
end

/-- C31. `@inner-html` of an element is the rendering of the tags and texts of its children in document
order, and its tags are balanced. -/
theorem inner_html_correct (hl : l.Stored h n) (he : l.self.kind.isElement = true) (hd : noDocument l.self.kids) :
    CaptureFn.innerHtml.call h l.ptr = pure ((toksL l.self.kids).flatMap HtmlTok.render) ∧ Balanced (toksL l.self.kids) := by
  obtain ⟨_, _, _, _, _, hr, _⟩ := hl.self
  refine ⟨?_, toksL_balanced _⟩
  rw [show l.ptr = l.self.ptr from rfl, CaptureFn.call_eq _ hr, CaptureFn.val, if_pos he, serialL_toks _ hd]

private theorem unquote_inQuotes (v rest : Str) : unquote (inQuotes v ++ rest) = some (v, rest) := by
  have : ∀ v : Str, unquoteBody ((v.flatMap fun c => if c = 34 ∨ c = 92 then [92, c] else [c]) ++ 34 :: rest) = some (v, rest) := by
    intro v
    induction v with
    | nil => rw [unquoteBody.eq_def]; simp
    | cons c v ih =>
      rw [List.flatMap_cons]
      by_cases h1 : c = 34
      · subst h1
        rw [if_pos (by decide), List.append_assoc, List.cons_append, unquoteBody.eq_def]
        simp at ih ⊢; simp [ih]
      · by_cases h2 : c = 92
        · subst h2
          rw [if_pos (by decide), List.append_assoc, List.cons_append, unquoteBody.eq_def]
          simp at ih ⊢; simp [ih]
        · rw [if_neg (by simp [h1, h2]), List.append_assoc, List.cons_append, unquoteBody.eq_def]
          simp at ih ⊢; simp [ih, h1, h2]
  have h := this v
  simp only [inQuotes, show lit "\"" = [34] by decide, List.cons_append, unquote, List.append_assoc, List.nil_append]
  exact h

/-- C31. The value of an attribute can be read back from its HTML by undoing the quoting. -/
theorem attribute_readable (a : Attr) (v rest : Str) (hv : a.value = some v) :
    ∃ q, serializeAttribute a ++ rest = lit " " ++ a.fullName ++ lit "=" ++ (q ++ rest) ∧
      unquote (q ++ rest) = some (v, rest) := by
  refine ⟨inQuotes v, ?_, unquote_inQuotes v rest⟩
  simp [serializeAttribute_eq, Attr.html, hv]

example : serializeAttribute { name := lit "title", value := some (lit "a\"b\\") } = lit " title=\"a\\\"b\\\\\"" ∧
    serializeAttribute { name := lit "href", ns := .xlink, value := none } = lit " xlink:href" := by decide +kernel

/-- C31. The quoting is not that of HTML: to an HTML parser, for which a value ends at the next quote, the
value `a"b` comes out as `a\`. -/
theorem attribute_not_html_witness :
    (stdQuoted (lit "a\"b")).tail.takeWhile (· != 34) = lit "a\\" := by decide +kernel

/-- C31. The HTML of a node does not determine the node: text is not escaped. -/
theorem inner_html_not_injective_witness :
    serialVal (Ex.txt 1 "<b></b>") = serialVal (Ex.el 1 "b" [] []) := by decide +kernel

example : noDocument Ex.doc.kids ∧ Ex.doc.kind.isElement = true ∧
    (toksL Ex.doc.kids).flatMap HtmlTok.render =
      lit "<body><div><a href=\"1\">x</a><b>y</b><a href=\"2\">z</a><p></p></div></body>" := by
  refine ⟨by simp [noDocument, Ex.doc, Ex.el, Ex.txt, Tree.kids], rfl, by decide +kernel⟩

end Hext.Props
