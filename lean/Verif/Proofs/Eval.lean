import Verif.Proofs.Dom
import Verif.Spec.Safe
import Verif.Spec.Text
import Verif.Props.Strings
/-!
# Evaluation of matches and captures on stored documents
-/

namespace Hext

theorem mkInt_eq {x : Int} (h1 : intMin ≤ x) (h2 : x ≤ intMax) : mkInt x = pure x := by
  simp [mkInt, h1, h2]

/-- Number of trees that count as siblings. -/
def countTrees (ct : Option Tag) (ts : List Tree) : Nat := ts.countP fun t => countsAs ct t.kind

theorem getAt_append {α} (a b : List α) (x : α) : getAt (a ++ x :: b) a.length = pure x := by
  simp [getAt]

theorem countPrecedingLoop_eq {h : Heap} {p : Ptr} (ct : Option Tag) (done ts : List Tree) (self : Tree)
    (after : List Tree) (hr : RepL h p 0 (done ++ (ts ++ self :: after)))
    (hn : (done ++ (ts ++ self :: after)).length ≤ 2147483647) :
    countPrecedingLoop h ((done ++ (ts ++ self :: after)).map Tree.ptr) self.ptr ct done.length
      (countTrees ct done) (ts.length + 1) = pure (countTrees ct (done ++ ts ++ [self]) : Int) := by
  have hcnt : ∀ us : List Tree, us.length ≤ 2147483646 →
      mkInt ((countTrees ct us : Int) + 1) = pure ((countTrees ct us : Int) + 1) := by
    intro us hus
    have : countTrees ct us ≤ us.length := List.countP_le_length
    apply mkInt_eq <;> simp only [intMin, intMax] <;> omega
  induction ts generalizing done with
  | nil =>
    have hr' := hr
    rw [RepL.append] at hr'
    simp only [List.nil_append, RepL] at hr'
    have hl := load_eq hr'.2.1.ptr_eq
    simp only [List.length_nil, countPrecedingLoop, List.nil_append, List.map_append, List.map_cons]
    have := getAt_append (done.map Tree.ptr) (after.map Tree.ptr) self.ptr
    simp only [List.length_map] at this
    simp only [this, pure_bind, hl]
    simp only [E.assert, List.length_append, List.length_cons, List.length_map]
    simp only [show done.length < done.length + (after.length + 1) by omega, decide_true, if_true, pure_bind]
    simp only [List.nil_append, List.length_append, List.length_cons] at hn
    have h1 := hcnt done (by omega)
    split
    · rename_i hc
      rw [h1]
      simp [countTrees, hc]
    · rename_i hc
      simp [countTrees, hc]
  | cons t ts ih =>
    have hr' := hr
    rw [RepL.append] at hr'
    simp only [List.cons_append, RepL] at hr'
    have hl := load_eq hr'.2.1.ptr_eq
    rw [List.length_cons, countPrecedingLoop]
    have e : (done ++ (t :: ts ++ self :: after)).map Tree.ptr
        = done.map Tree.ptr ++ t.ptr :: (ts ++ self :: after).map Tree.ptr := by simp
    have := getAt_append (done.map Tree.ptr) ((ts ++ self :: after).map Tree.ptr) t.ptr
    simp only [List.length_map] at this
    have hnd := hr.nodup
    rw [e] at hnd ⊢
    simp only [this, pure_bind, hl]
    simp only [E.assert, List.length_append, List.length_cons, List.length_map]
    simp only [show done.length < done.length + (ts.length + (after.length + 1) + 1) by omega, decide_true, if_true, pure_bind]
    have hne : (self.ptr == t.ptr) = false := by
      simp only [List.nodup_append, List.nodup_cons] at hnd
      have := hnd.2.1.1
      simp at this
      simp; intro hc; exact this.2.1 hc.symm
    simp only [List.length_append, List.length_cons] at hn
    have h1 := hcnt done (by omega)
    have e2 : done ++ (t :: ts ++ self :: after) = (done ++ [t]) ++ (ts ++ self :: after) := by simp
    have ih' := ih (done ++ [t]) (by rwa [← e2]) (by simp; omega)
    have e3 : ((done ++ [t]) ++ (ts ++ self :: after)).map Tree.ptr
        = done.map Tree.ptr ++ t.ptr :: (ts ++ self :: after).map Tree.ptr := by simp
    rw [e3] at ih'
    simp only [hne, Bool.false_eq_true, if_false]
    split
    · rename_i hc
      rw [h1]
      have : (countTrees ct (done ++ [t]) : Int) = (countTrees ct done : Int) + 1 := by
        simp [countTrees, hc]
      rw [this] at ih'
      simp only [pure_bind]
      simpa using ih'
    · rename_i hc
      have : (countTrees ct (done ++ [t]) : Int) = (countTrees ct done : Int) := by
        simp [countTrees, hc]
      rw [this] at ih'
      simpa using ih'

/-- The counted position from the start: 1-based among the element siblings; 0 for the root. -/
def Loc.posFirst (ct : Option Tag) (l : Loc) : Nat :=
  if l.inElem then countTrees ct (l.before ++ [l.self]) else 0
def Loc.posLast (ct : Option Tag) (l : Loc) : Nat :=
  if l.inElem then countTrees ct (l.self :: l.after) else 0

theorem countPreceding_eq {h : Heap} {n : Nat} {l : Loc} (hs : l.Stored h n) (hn : n ≤ 2147483647)
    (ct : Option Tag) : countPreceding h l.ptr ct = pure (l.posFirst ct : Int) := by
  unfold Loc.Stored at hs
  split at hs
  · rename_i he
    obtain ⟨pp, pn, h1, h2, h3, h4, h5, h6⟩ := hs
    have hr := h4
    rw [RepL.append] at hr
    simp only [RepL] at hr
    have hl := load_eq hr.2.1.ptr_eq
    simp only [countPreceding, Loc.ptr, hl, pure_bind, load_eq h1, h2, Bool.not_true,
      Bool.false_eq_true, if_false, E.assert, h3]
    have := countPrecedingLoop_eq ct [] l.before l.self l.after (by simpa using h4) (by simpa using Nat.le_trans h6 hn)
    simp only [List.nil_append, List.length_nil, countTrees, List.countP_nil] at this
    simp only [Loc.posFirst, he, if_true, countTrees]
    simp only [List.length_map, List.length_append, List.length_cons, Nat.zero_add]
    simp only [show l.before.length < l.before.length + (l.after.length + 1) by omega, decide_true, if_true, pure_bind]
    exact this
  · rename_i he
    obtain ⟨_, _, pp, pn, i, h1, h2, h3, h4⟩ := hs
    simp [countPreceding, Loc.ptr, load_eq h3.ptr_eq, load_eq h1, h2, Loc.posFirst, he]

theorem countFollowingLoop_eq {h : Heap} {p : Ptr} (ct : Option Tag) (before : List Tree) (self : Tree)
    (ts done : List Tree) (hr : RepL h p 0 (before ++ self :: (ts ++ done)))
    (hn : (before ++ self :: (ts ++ done)).length ≤ 2147483647) :
    countFollowingLoop h ((before ++ self :: (ts ++ done)).map Tree.ptr) self.ptr before.length ct
      (countTrees ct done) (before.length + 1 + ts.length) = pure (countTrees ct (self :: (ts ++ done)) : Int) := by
  have hcnt : ∀ us : List Tree, us.length ≤ 2147483646 →
      mkInt ((countTrees ct us : Int) + 1) = pure ((countTrees ct us : Int) + 1) := by
    intro us hus
    have : countTrees ct us ≤ us.length := List.countP_le_length
    apply mkInt_eq <;> simp only [intMin, intMax] <;> omega
  induction hk : ts.length generalizing ts done with
  | zero =>
    have : ts = [] := List.length_eq_zero_iff.1 hk
    subst this
    have hr' := hr
    rw [RepL.append] at hr'
    simp only [List.nil_append, RepL] at hr'
    have hl := load_eq hr'.2.1.ptr_eq
    simp only [countFollowingLoop, List.nil_append, List.map_append, List.map_cons]
    have := getAt_append (before.map Tree.ptr) (done.map Tree.ptr) self.ptr
    simp only [List.length_map] at this
    simp only [this, pure_bind, hl]
    simp only [E.assert, List.length_append, List.length_cons, List.length_map]
    simp only [show before.length < before.length + (done.length + 1) by omega, decide_true, if_true, pure_bind,
      show before.length + 1 > before.length by omega]
    simp only [List.nil_append, List.length_append, List.length_cons] at hn
    have h1 := hcnt done (by omega)
    split
    · rename_i hc
      rw [h1]
      simp [countTrees, hc]
    · rename_i hc
      simp [countTrees, hc]
  | succ k ih =>
    have hne0 : ts ≠ [] := by intro h0; rw [h0] at hk; simp at hk
    obtain ⟨ts, t, rfl⟩ : ∃ us u, ts = us ++ [u] :=
      ⟨ts.dropLast, ts.getLast hne0, (List.dropLast_concat_getLast hne0).symm⟩
    simp at hk
    have e : (before ++ self :: (ts ++ [t] ++ done)) = (before ++ self :: ts) ++ t :: done := by simp
    have hr' := hr
    rw [e, RepL.append] at hr'
    simp only [RepL] at hr'
    have hl := load_eq hr'.2.1.ptr_eq
    have hnd := hr.nodup
    have hne : (self.ptr == t.ptr) = false := by
      simp only [List.map_append, List.map_cons, List.nodup_append, List.nodup_cons] at hnd
      have := hnd.2.1.1
      simp at this
      simp; intro hc; exact this.2.1 hc
    rw [show before.length + 1 + (k + 1) = (before.length + 1 + k) + 1 by omega, countFollowingLoop]
    have hg := getAt_append ((before ++ self :: ts).map Tree.ptr) (done.map Tree.ptr) t.ptr
    simp only [List.length_map, List.length_append, List.length_cons, hk] at hg
    have ha : ((before ++ self :: (ts ++ [t] ++ done)).map Tree.ptr)
      = (before ++ self :: ts).map Tree.ptr ++ t.ptr :: done.map Tree.ptr := by simp
    rw [ha]
    simp only [show before.length + (k + 1) = before.length + 1 + k by omega] at hg
    simp only [show before.length + 1 + k + 1 > before.length by omega, if_true, hg, pure_bind, hl, hne,
      Bool.false_eq_true, if_false, E.assert, List.length_append, List.length_map, List.length_cons, hk]
    simp only [show before.length + 1 + k < before.length + (k + 1) + (done.length + 1) by omega, decide_true, if_true, pure_bind]
    have e2 : (before ++ self :: (ts ++ [t] ++ done)) = before ++ self :: (ts ++ (t :: done)) := by simp
    have ih' := ih ts (t :: done) (by rwa [← e2]) (by rwa [← e2]) hk
    rw [show (before ++ self :: (ts ++ (t :: done))).map Tree.ptr
      = (before ++ self :: ts).map Tree.ptr ++ t.ptr :: done.map Tree.ptr by simp] at ih'
    simp only [List.length_append, List.length_cons] at hn
    have h1 := hcnt done (by simp at hn; omega)
    split
    · rename_i hc
      rw [h1]
      have : (countTrees ct (t :: done) : Int) = (countTrees ct done : Int) + 1 := by
        simp [countTrees, hc]
      rw [this] at ih'
      simpa using ih'
    · rename_i hc
      have : (countTrees ct (t :: done) : Int) = (countTrees ct done : Int) := by
        simp [countTrees, hc]
      rw [this] at ih'
      simpa using ih'

theorem countFollowing_eq {h : Heap} {n : Nat} {l : Loc} (hs : l.Stored h n) (hn : n ≤ 2147483647)
    (ct : Option Tag) : countFollowing h l.ptr ct = pure (l.posLast ct : Int) := by
  unfold Loc.Stored at hs
  split at hs
  · rename_i he
    obtain ⟨pp, pn, h1, h2, h3, h4, h5, h6⟩ := hs
    have hr := h4
    rw [RepL.append] at hr
    simp only [RepL] at hr
    have hl := load_eq hr.2.1.ptr_eq
    simp only [countFollowing, Loc.ptr, hl, pure_bind, load_eq h1, h2, Bool.not_true,
      Bool.false_eq_true, if_false, E.assert, h3]
    have := countFollowingLoop_eq ct l.before l.self l.after [] (by simpa using h4) (by simpa using Nat.le_trans h6 hn)
    simp only [List.append_nil, countTrees, List.countP_nil] at this
    simp only [Loc.posLast, he, if_true, countTrees]
    simp only [List.length_map, List.length_append, List.length_cons, Nat.zero_add]
    simp only [show l.before.length < l.before.length + (l.after.length + 1) by omega, decide_true, if_true, pure_bind]
    rw [if_neg (by omega)]
    rw [show l.before.length + (l.after.length + 1) = l.before.length + 1 + l.after.length by omega]
    exact this
  · rename_i he
    obtain ⟨_, _, pp, pn, i, h1, h2, h3, h4⟩ := hs
    simp [countFollowing, Loc.ptr, load_eq h3.ptr_eq, load_eq h1, h2, Loc.posLast, he]

theorem countChildElements_eq {h : Heap} {p : Ptr} {i : Nat} (ts : List Tree) (hr : RepL h p i ts) (k : Nat) :
    countChildElements h (ts.map Tree.ptr) k = pure (k + ts.countP (·.kind.isElement)) := by
  induction ts generalizing i k with
  | nil => rfl
  | cons t ts ih =>
    simp only [RepL] at hr
    simp only [List.map_cons, countChildElements, load_eq hr.1.ptr_eq, pure_bind, ih hr.2]
    by_cases hk : t.kind.isElement = true <;> simp [hk, Nat.add_assoc, Nat.add_comm 1]

theorem onlyChildLoop_eq {h : Heap} {p : Ptr} {i : Nat} (self : Ptr) (ct : Option Tag) (ts : List Tree)
    (hr : RepL h p i ts) :
    onlyChildLoop h self ct (ts.map Tree.ptr) =
      pure (ts.all fun t => !(countsAs ct t.kind && self != t.ptr)) := by
  induction ts generalizing i with
  | nil => rfl
  | cons t ts ih =>
    simp only [RepL] at hr
    simp only [List.map_cons, onlyChildLoop, load_eq hr.1.ptr_eq, pure_bind, ih hr.2]
    have : ∀ ct (k : Kind), countsAs ct k = true → k.isElement = true := by
      intro ct k; cases k <;> simp [countsAs, Kind.elem?, Kind.isElement]
    simp only [List.all_cons]
    cases hc : countsAs ct t.kind with
    | false => simp
    | true => rw [this _ _ hc]; cases hp : (self != t.ptr) <;> simp

/-! ## Text and serialisation -/

theorem tagWrapsText_eq (e : Elem) : tagWrapsText e.tag = wrapsText (.element e) := by
  rw [Bool.eq_iff_iff]
  cases h : e.tag with
  | unknown => simp [tagWrapsText, wrapsText, h]
  | known n =>
    simp only [tagWrapsText, wrapsText, h, decide_eq_true_eq, Bool.not_eq_true', Tag.known.injEq, ne_eq,
      show inlineTagNames.map lit = inlineElements from rfl]
    rw [← Bool.not_eq_true, List.contains_iff_mem]
    exact ⟨fun h m hm e => h (e ▸ hm), fun h hm => h n hm rfl⟩

theorem tagIsSelfClosing_eq (e : Elem) : tagIsSelfClosing e.tag = e.isVoid := by
  rw [Bool.eq_iff_iff]
  cases h : e.tag with
  | unknown => simp [tagIsSelfClosing, Elem.isVoid, h]
  | known n =>
    simp only [tagIsSelfClosing, Elem.isVoid, h, decide_eq_true_eq, Tag.known.injEq, List.contains_iff_mem,
      show selfClosingTagNames.map lit = voidElements from rfl]
    exact ⟨fun h => ⟨n, h, rfl⟩, fun ⟨m, hm, e⟩ => e ▸ hm⟩

theorem serializeElementTag_eq (e : Elem) : serializeElementTag e = e.name := by
  obtain ⟨t, o, as⟩ := e
  cases t <;> cases o <;> rfl

theorem stdQuoted_eq (v : Str) : stdQuoted v = inQuotes v := by
  simp [stdQuoted, inQuotes, show lit "\"" = [34] by decide]

theorem serializeAttribute_eq (a : Attr) : serializeAttribute a = a.html := by
  obtain ⟨ns, name, v⟩ := a
  cases ns <;> cases v <;>
    simp [serializeAttribute, Attr.html, Attr.fullName, stdQuoted_eq, show lit " " = [32] by decide, show lit "=" = [61] by decide]

theorem serializeAttributes_eq (as : List Attr) : as.flatMap serializeAttribute = as.flatMap Attr.html := by
  rw [show serializeAttribute = Attr.html from funext serializeAttribute_eq]

theorem serializeDocument_eq (d : DocInfo) : serializeDocument d = d.html := by
  obtain ⟨b, n, p, s⟩ := d
  cases n <;> cases p <;> cases s <;> simp [serializeDocument, DocInfo.html, show lit " " = [32] by decide]

mutual
theorem stripTags_eq {h : Heap} (sw : Bool) {parent idx} (t : Tree) (hr : Rep h parent idx t) :
    stripTags h sw t.ptr = pure (stripVal sw t) := by
  match t with
  | .node p k kids =>
    simp only [Rep] at hr
    rw [stripTags]
    simp only [Tree.ptr, load_eq hr.1, pure_bind]
    cases k with
    | element e => simp only [stripVal]; simpa using stripTagsLoop_eq sw kids hr.2 []
    | _ => simp [stripVal]
theorem stripTagsLoop_eq {h : Heap} (sw : Bool) {p i} (ts : List Tree) (hr : RepL h p i ts) (acc : Str) :
    stripTagsLoop h sw (ts.map Tree.ptr) acc = pure (acc ++ stripValL sw ts) := by
  match ts with
  | [] => rw [stripTagsLoop.eq_def]; simp [stripValL]
  | t :: ts =>
    simp only [RepL] at hr
    rw [stripTagsLoop.eq_def]
    simp only [List.map_cons, load_eq hr.1.ptr_eq, pure_bind, stripTags_eq sw t hr.1]
    cases sw with
    | false => simp [stripTagsLoop_eq false ts hr.2, stripValL]
    | true =>
      cases hk : t.kind with
      | element e =>
        have hw : tagWrapsText e.tag = wrapsText t.kind := by rw [hk]; exact tagWrapsText_eq e
        rw [hk] at hw
        simp only [hw]
        cases hw' : wrapsText (.element e) <;>
          simp [stripTagsLoop_eq true ts hr.2, stripValL, hk, hw']
      | _ => simp [stripTagsLoop_eq true ts hr.2, stripValL, wrapsText, hk]
end

mutual
theorem serializeNode_eq {h : Heap} {parent idx} (t : Tree) (hr : Rep h parent idx t) :
    serializeNode h t.ptr = pure (serialVal t) := by
  match t with
  | .node p k kids =>
    simp only [Rep] at hr
    rw [serializeNode]
    simp only [Tree.ptr, load_eq hr.1, pure_bind]
    cases k with
    | element e =>
      simp only [serialVal]; rw [serializeElement]
      simp only [serializeChildren_eq kids hr.2, serialElemVal, pure_bind, tagIsSelfClosing_eq, serializeElementTag_eq,
        serializeAttributes_eq]
      cases e.isVoid <;> simp [show lit "<" = [60] by decide, show lit ">" = [62] by decide]
    | template e =>
      simp only [serialVal]; rw [serializeElement]
      simp only [serializeChildren_eq kids hr.2, serialElemVal, pure_bind, tagIsSelfClosing_eq, serializeElementTag_eq,
        serializeAttributes_eq]
      cases e.isVoid <;> simp [show lit "<" = [60] by decide, show lit ">" = [62] by decide]
    | document d => simp [serialVal, serializeDocument_eq]
    | _ => simp [serialVal]
theorem serializeChildren_eq {h : Heap} {p i} (ts : List Tree) (hr : RepL h p i ts) :
    serializeChildren h (ts.map Tree.ptr) = pure (serialValL ts) := by
  match ts with
  | [] => rw [serializeChildren.eq_def]; simp [serialValL]
  | t :: ts =>
    simp only [RepL] at hr
    rw [serializeChildren.eq_def]
    simp [serializeNode_eq t hr.1, serializeChildren_eq ts hr.2, serialValL]
end

theorem nodeText_eq {h : Heap} {parent idx} (t : Tree) (hr : Rep h parent idx t) :
    nodeText h t.ptr = pure (Spec.unwords (Spec.words (stripVal true t))) := by
  simp [nodeText, stripTags_eq true t hr, trimAndCollapseWs_eq]

theorem nodeInnerHtml_eq {h : Heap} {parent idx} (t : Tree) (hr : Rep h parent idx t) :
    nodeInnerHtml h t.ptr = pure (if t.kind.isElement then serialValL t.kids else []) := by
  simp only [nodeInnerHtml, load_eq hr.ptr_eq, pure_bind]
  cases hk : t.kind <;> simp [Kind.isElement, serializeChildren_eq t.kids hr.kids]

theorem CaptureFn.call_eq {h : Heap} {parent idx} (t : Tree) (hr : Rep h parent idx t) (f : CaptureFn) :
    f.call h t.ptr = pure (f.val h t) := by
  cases f with
  | text => exact nodeText_eq t hr
  | innerHtml => exact nodeInnerHtml_eq t hr
  | stripTags => exact stripTags_eq false t hr
  | user f => rfl

/-! ## Matches -/

/-- The position an nth-child match looks at. -/
def Loc.pos (first ofType : Bool) (e : Elem) (l : Loc) : Nat :=
  let ct := if ofType then some e.tag else none
  if first then l.posFirst ct else l.posLast ct

theorem Loc.pos_le {h : Heap} {n : Nat} {l : Loc} (hs : l.Stored h n) (first ofType : Bool) (e : Elem) :
    l.pos first ofType e ≤ n := by
  unfold Loc.Stored at hs
  unfold Loc.pos Loc.posFirst Loc.posLast
  split at hs
  · rename_i he
    obtain ⟨pp, pn, h1, h2, h3, h4, h5, h6⟩ := hs
    simp at h6
    simp only [he, if_true]
    generalize (if ofType then some e.tag else none) = ct
    split
    · exact Nat.le_trans List.countP_le_length (by simp; omega)
    · exact Nat.le_trans List.countP_le_length (by simp; omega)
  · rename_i he
    simp [he]

/-- Value of an nth-child match on an element. -/
def nthVal (step shift pos : Int) : Bool :=
  if step = 0 then pos == shift
  else if step > 0 then !(decide (pos < shift)) && ((pos - shift).tmod step == 0)
  else !(decide (pos > shift)) && ((shift - pos).tmod (-step) == 0)

theorem nthVal_key {n : Nat} {step shift : Int} (hsafe : NthSafe n step shift) (q : Nat) (hle : q ≤ n)
    (hn : n ≤ 2147483647) :
    (if step = 0 then pure ((q : Int) == shift)
      else if step > 0 then
        if (q : Int) < shift then pure false
        else do
          let d ← mkInt ((q : Int) - shift)
          pure (d.tmod step == 0)
      else
        if (q : Int) > shift then pure false
        else do
          let d ← mkInt (shift - (q : Int))
          let s ← mkInt (-1 * step)
          pure (d.tmod s == 0) : E Bool) = pure (nthVal step shift q) := by
  obtain ⟨s1, s2, s3, s4, s5⟩ := hsafe
  unfold nthVal
  by_cases h0 : step = 0
  · simp [h0]
  · simp only [h0, if_false]
    by_cases h1 : step > 0
    · simp only [h1, if_true]
      by_cases h2 : (q : Int) < shift
      · simp [h2]
      · have := s5 h1
        have : mkInt ((q : Int) - shift) = pure ((q : Int) - shift) := by
          apply mkInt_eq <;> simp only [intMin, intMax] at * <;> omega
        simp only [h2, if_false, this, pure_bind]
        simp
    · simp only [h1, if_false]
      by_cases h2 : (q : Int) > shift
      · simp [h2]
      · have e1 : mkInt (shift - (q : Int)) = pure (shift - (q : Int)) := by
          apply mkInt_eq <;> simp only [intMin, intMax] at * <;> omega
        have e2 : mkInt (-1 * step) = pure (-step) := by
          rw [show -1 * step = -step by omega]
          apply mkInt_eq <;> simp only [intMin, intMax] at * <;> omega
        simp only [h2, if_false, e1, e2, pure_bind]
        simp

theorem nthChildMatches_eq {h : Heap} {n : Nat} {l : Loc} (hs : l.Stored h n) (hn : n ≤ 2147483647)
    {step shift : Int} (hsafe : NthSafe n step shift) (first ofType : Bool) :
    nthChildMatches h step shift first ofType l.ptr =
      pure (match l.self.kind with
        | .element e => nthVal step shift (l.pos first ofType e)
        | _ => false) := by
  obtain ⟨pp, i, hl⟩ := hs.load
  simp only [nthChildMatches, load_eq hl, pure_bind]
  cases hk : l.self.kind with
  | element e =>
    simp only
    have key : ∀ q : Nat, q ≤ n → (if step = 0 then pure ((q : Int) == shift)
        else if step > 0 then
          if (q : Int) < shift then pure false
          else do
            let d ← mkInt ((q : Int) - shift)
            pure (d.tmod step == 0)
        else
          if (q : Int) > shift then pure false
          else do
            let d ← mkInt (shift - (q : Int))
            let s ← mkInt (-1 * step)
            pure (d.tmod s == 0) : E Bool) = pure (nthVal step shift q) :=
      fun q hq => nthVal_key hsafe q hq hn
    have hle := Loc.pos_le hs first ofType e
    have := key _ hle
    cases first <;> simp only [countPreceding_eq hs hn, countFollowing_eq hs hn, pure_bind, if_true,
      Bool.false_eq_true, if_false] <;> exact this
  | _ => rfl

theorem onlyChildMatches_total {h : Heap} {n : Nat} {l : Loc} (hs : l.Stored h n) (ofType : Bool) :
    ∃ b, onlyChildMatches h ofType l.ptr = pure b := by
  obtain ⟨pp, i, hl⟩ := hs.load
  simp only [onlyChildMatches, load_eq hl, pure_bind]
  cases hk : l.self.kind with
  | element e =>
    simp only
    unfold Loc.Stored at hs
    split at hs
    · rename_i he
      obtain ⟨pp', pn, h1, h2, h3, h4, h5, h6⟩ := hs
      have hr := h4
      rw [RepL.append] at hr
      simp only [RepL] at hr
      have := hr.2.1.ptr_eq
      rw [show l.self.ptr = l.ptr from rfl, hl] at this
      simp at this
      obtain ⟨rfl, _⟩ := this
      simp only [load_eq h1, pure_bind, h2, h3]
      exact ⟨_, by simpa using onlyChildLoop_eq l.ptr _ _ h4⟩
    · obtain ⟨_, _, pp', pn, j, h1, h2, h3, h4⟩ := hs
      have := h3.ptr_eq
      rw [show l.self.ptr = l.ptr from rfl, hl] at this
      simp at this
      obtain ⟨rfl, _⟩ := this
      exact ⟨false, by simp [load_eq h1, h2]⟩
  | _ => exact ⟨_, rfl⟩

mutual
theorem Match.matches_total (rx : RxEngine) {h : Heap} {n : Nat} {l : Loc} (hs : l.Stored h n)
    (hn : n ≤ 2147483647) (m : Match) (hm : m.Safe n) : ∃ b, m.matches rx h l.ptr = pure b := by
  obtain ⟨pp, i, hl⟩ := hs.load
  obtain ⟨pp', pn, i', _, _, hr, _⟩ := hs.self
  match m with
  | .attribute name test =>
    simp only [Match.matches, attributeMatches, load_eq hl, pure_bind]
    cases hk : l.self.kind with
    | element e =>
      cases test with
      | none => exact ⟨_, rfl⟩
      | some t =>
        simp only
        split
        · exact Props.test_total rx t _
        · split
          · exact Props.test_total rx t _
          · exact ⟨_, rfl⟩
    | _ => exact ⟨_, rfl⟩
  | .attributeCount k =>
    simp only [Match.matches, load_eq hl, pure_bind]
    cases hk : l.self.kind <;> exact ⟨_, rfl⟩
  | .childCount k =>
    simp only [Match.matches, load_eq hl, pure_bind]
    cases hk : l.self.kind with
    | element e => simp only [countChildElements_eq _ hr.kids, pure_bind]; exact ⟨_, rfl⟩
    | _ => exact ⟨_, rfl⟩
  | .function f =>
    simp only [Match.Safe] at hm
    obtain ⟨f, rfl⟩ := Option.isSome_iff_exists.1 hm
    exact ⟨_, rfl⟩
  | .functionValue f test =>
    simp only [Match.Safe] at hm
    obtain ⟨f, rfl⟩ := Option.isSome_iff_exists.1 hm
    cases test with
    | none => exact ⟨_, rfl⟩
    | some t =>
      simp only [Match.matches, show l.ptr = l.self.ptr from rfl, CaptureFn.call_eq _ hr, pure_bind]
      exact Props.test_total rx t _
  | .negate ms =>
    simp only [Match.Safe] at hm
    simp only [Match.matches]
    exact negateLoop_total rx hs hn ms hm
  | .nthChild step shift first ofType =>
    simp only [Match.Safe] at hm
    exact ⟨_, nthChildMatches_eq hs hn hm first ofType⟩
  | .onlyChild ofType => exact onlyChildMatches_total hs ofType
  | .typeRegex r =>
    simp only [Match.matches, typeRegexMatches, load_eq hl, pure_bind]
    cases hk : l.self.kind with
    | element e => simp only; split <;> exact ⟨_, rfl⟩
    | _ => exact ⟨_, rfl⟩
theorem negateLoop_total (rx : RxEngine) {h : Heap} {n : Nat} {l : Loc} (hs : l.Stored h n)
    (hn : n ≤ 2147483647) (ms : List (Option Match)) (hm : Match.SafeL n ms) :
    ∃ b, negateLoop rx h l.ptr ms = pure b := by
  match ms with
  | [] => exact ⟨_, by rw [negateLoop]⟩
  | m :: ms =>
    simp only [Match.SafeL] at hm
    obtain ⟨b, hb⟩ := optMatches_total rx hs hn m hm.1
    obtain ⟨c, hc⟩ := negateLoop_total rx hs hn ms hm.2
    rw [negateLoop]
    simp only [hb, hc, pure_bind]
    cases b <;> exact ⟨_, rfl⟩
theorem optMatches_total (rx : RxEngine) {h : Heap} {n : Nat} {l : Loc} (hs : l.Stored h n)
    (hn : n ≤ 2147483647) (m : Option Match) (hm : Match.SafeO n m) :
    ∃ b, optMatches rx h l.ptr m = pure b := by
  match m with
  | none => exact ⟨_, by rw [optMatches]⟩
  | some m =>
    simp only [Match.SafeO] at hm
    rw [optMatches]
    exact m.matches_total rx hs hn hm
end

theorem allMatch_total (rx : RxEngine) {h : Heap} {n : Nat} {l : Loc} (hs : l.Stored h n)
    (hn : n ≤ 2147483647) (ms : List (Option Match)) (hm : Match.SafeL n ms) :
    ∃ b, allMatch rx h l.ptr ms = pure b := by
  induction ms with
  | nil => exact ⟨_, rfl⟩
  | cons m ms ih =>
    simp only [Match.SafeL] at hm
    obtain ⟨c, hc⟩ := ih hm.2
    cases m with
    | none => exact ⟨c, by simp [allMatch, hc]⟩
    | some m =>
      obtain ⟨b, hb⟩ := m.matches_total rx hs hn hm.1
      simp only [allMatch, hb, pure_bind, hc]
      cases b <;> exact ⟨_, rfl⟩

theorem ruleMatches_total (rx : RxEngine) {h : Heap} {n : Nat} {l : Loc} (hs : l.Stored h n)
    (hn : n ≤ 2147483647) (i : RuleInfo) (hi : i.Safe n) : ∃ b, ruleMatches rx h i l.ptr = pure b := by
  obtain ⟨pp, j, hl⟩ := hs.load
  simp only [ruleMatches, load_eq hl, pure_bind]
  split
  · exact ⟨_, rfl⟩
  · exact allMatch_total rx hs hn _ hi.1

theorem Capture.capture_total (rx : RxEngine) {h : Heap} {n : Nat} {l : Loc} (hs : l.Stored h n)
    (c : Capture) (hc : c.Safe) : ∃ b, c.capture rx h l.ptr = pure b := by
  obtain ⟨pp, i, hl⟩ := hs.load
  obtain ⟨pp', pn, i', _, _, hr, _⟩ := hs.self
  have hp : ∀ p s, ∃ u, applyPipe rx p s = pure u := by
    intro p s
    cases p with
    | none => exact ⟨s, rfl⟩
    | some p => exact Props.pipe_total rx p s
  match c, hc with
  | .attribute a name p, hc =>
    simp only [Capture.capture, load_eq hl, pure_bind]
    cases hk : l.self.kind with
    | element e =>
      simp only
      split
      · exact ⟨_, rfl⟩
      · split
        · exact ⟨_, rfl⟩
        · rename_i v _
          obtain ⟨u, hu⟩ := hp p v
          exact ⟨_, by rw [hu]; rfl⟩
    | _ => exact ⟨_, rfl⟩
  | .function f name p, hc =>
    simp only [Capture.Safe] at hc
    obtain ⟨f, rfl⟩ := Option.isSome_iff_exists.1 hc
    simp only [Capture.capture, show l.ptr = l.self.ptr from rfl, CaptureFn.call_eq _ hr, pure_bind]
    obtain ⟨u, hu⟩ := hp p (f.val h l.self)
    exact ⟨_, by rw [hu]; rfl⟩

theorem ruleCapture_total (rx : RxEngine) {h : Heap} {n : Nat} {l : Loc} (hs : l.Stored h n)
    (cs : List (Option Capture)) (hc : ∀ c, some c ∈ cs → c.Safe) :
    ∃ b, ruleCapture rx h l.ptr cs = pure b := by
  induction cs with
  | nil => exact ⟨_, rfl⟩
  | cons c cs ih =>
    obtain ⟨r, hr⟩ := ih fun c h => hc c (by simp [h])
    cases c with
    | none => exact ⟨r, by simp [ruleCapture, hr]⟩
    | some c =>
      obtain ⟨b, hb⟩ := c.capture_total rx hs (hc c (by simp))
      simp only [ruleCapture, hb, pure_bind, hr]
      cases b <;> exact ⟨_, rfl⟩

end Hext
