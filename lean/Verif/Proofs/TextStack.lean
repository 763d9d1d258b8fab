import Verif.Model.TextStack
import Verif.Spec.TextStack
import Verif.Spec.Size
import Verif.Proofs.Eval
/-!
# The builtin functions need as many frames as they visit levels
-/

namespace Hext.TextStack

/-- The value, if there are `k` frames. -/
def Needs {α} (k d : Nat) (x : E α) (v : α) : Prop := x = if k ≤ d then pure v else throw .ub

theorem needs_zero {α} {d : Nat} {x : E α} {v : α} (h : x = pure v) : Needs 0 d x v := by simp [Needs, h]

theorem needs_pos {α} {k d : Nat} {x : E α} {v : α} (h : x = pure v) (hd : k ≤ d) : Needs k d x v := by simp [Needs, h, hd]

theorem needs_overflow {α} {k : Nat} (v : α) : Needs (1 + k) 0 (throw .ub : E α) v := by
  unfold Needs; rw [if_neg (by omega)]

theorem needs_lt {α} {k d : Nat} {x : E α} (h : x = throw .ub) (hd : d < k) (v : α) : Needs k d x v := by
  unfold Needs; rw [if_neg (by omega), h]

theorem needs_succ {α} {k d : Nat} {x : E α} {v : α} (h : Needs k d x v) : Needs (1 + k) (d + 1) x v := by
  unfold Needs at *
  rw [h]
  by_cases hk : k ≤ d
  · rw [if_pos hk, if_pos (by omega)]
  · rw [if_neg hk, if_neg (by omega)]

theorem needs_bind {α β} {k k' d : Nat} {x : E α} {v : α} {f : α → E β} {w : β} (h : Needs k d x v) (h' : Needs k' d (f v) w) :
    Needs (max k k') d (x >>= f) w := by
  unfold Needs at *
  rw [h]
  by_cases hk : k ≤ d
  · rw [if_pos hk, pure_bind, h']
    by_cases hk' : k' ≤ d
    · rw [if_pos hk', if_pos (by omega)]
    · rw [if_neg hk', if_neg (by omega)]
  · rw [if_neg hk, if_neg (by omega)]; rfl

theorem needs_last {α β} {k d : Nat} {x : E α} {v : α} {f : α → E β} {w : β} (h : Needs k d x v) (h' : f v = pure w) :
    Needs k d (x >>= f) w := by
  have := needs_bind h (needs_zero (d := d) h')
  rwa [Nat.max_zero] at this

theorem Needs.eq {α} {k k' d : Nat} {x : E α} {v : α} (h : Needs k d x v) (e : k = k') : Needs k' d x v := e ▸ h

mutual
theorem stripTags_needs {h : Heap} (sw : Bool) {parent idx} (t : Tree) (hr : Rep h parent idx t) (d : Nat) :
    Needs t.stripLevels d (stripTags h sw d t.ptr) (stripVal sw t) := by
  match t, d with
  | .node p k kids, 0 => rw [Tree.stripLevels]; exact needs_overflow _
  | .node p k kids, d + 1 =>
    simp only [Rep] at hr
    rw [Tree.stripLevels]
    refine needs_succ ?_
    rw [stripTags]
    simp only [Tree.ptr, load_eq hr.1, pure_bind]
    cases k with
    | element e => simpa [stripVal, Kind.isElement] using stripTagsLoop_needs sw kids hr.2 d []
    | _ => simp [stripVal, Kind.isElement, Needs]
theorem stripTagsLoop_needs {h : Heap} (sw : Bool) {p i} (ts : List Tree) (hr : RepL h p i ts) (d : Nat) (acc : Str) :
    Needs (Tree.stripLevelsL ts) d (stripTagsLoop h (stripTags h sw d) sw (ts.map Tree.ptr) acc) (acc ++ stripValL sw ts) := by
  match ts with
  | [] => simp [stripTagsLoop, stripValL, Tree.stripLevelsL, Needs]
  | t :: ts =>
    simp only [RepL] at hr
    have h1 := stripTags_needs sw t hr.1 d
    have h2 := stripTagsLoop_needs sw ts hr.2 d
    rw [Tree.stripLevelsL]
    simp only [List.map_cons, stripTagsLoop, load_eq hr.1.ptr_eq, pure_bind]
    cases sw with
    | false =>
      refine needs_bind h1 ?_
      have := h2 (acc ++ stripVal false t)
      simpa [stripValL] using this
    | true =>
      cases hk : t.kind with
      | element e =>
        have hw : tagWrapsText e.tag = wrapsText t.kind := by rw [hk]; exact tagWrapsText_eq e
        rw [hk] at hw
        simp only [hw]
        refine needs_bind h1 ?_
        cases hw' : wrapsText (.element e) with
        | false =>
          have := h2 (acc ++ stripVal true t)
          simpa [stripValL, hk, hw'] using this
        | true =>
          have := h2 (acc ++ [10] ++ stripVal true t ++ [10])
          simpa [stripValL, hk, hw'] using this
      | _ =>
        refine needs_bind h1 ?_
        have := h2 (acc ++ stripVal true t)
        simpa [stripValL, wrapsText, hk] using this
end

mutual
theorem serializeNode_needs {h : Heap} {parent idx} (t : Tree) (hr : Rep h parent idx t) (d : Nat) :
    Needs t.htmlFrames d (serializeNode h d t.ptr) (serialVal t) := by
  match t, d with
  | .node p k kids, 0 =>
    refine needs_lt (by rw [serializeNode]) ?_ _
    cases k <;> simp only [Tree.htmlFrames] <;> omega
  | .node p k kids, 1 =>
    simp only [Rep] at hr
    rw [serializeNode]
    simp only [Tree.ptr, load_eq hr.1, pure_bind]
    cases k with
    | element e =>
      refine needs_lt (by simp only [serializeElement]) ?_ _
      simp only [Tree.htmlFrames]; omega
    | template e =>
      refine needs_lt (by simp only [serializeElement]) ?_ _
      simp only [Tree.htmlFrames]; omega
    | document d => simp [serialVal, serializeDocument_eq, Tree.htmlFrames, Needs]
    | _ => simp [serialVal, Tree.htmlFrames, Needs]
  | .node p k kids, d + 2 =>
    simp only [Rep] at hr
    have hk := serializeChildren_needs kids hr.2 d
    rw [serializeNode]
    simp only [Tree.ptr, load_eq hr.1, pure_bind]
    have elem : ∀ e : Elem, Needs (2 + if e.isVoid then 0 else Tree.htmlFramesL kids) (d + 2)
        (serializeElement h (d + 1) e (kids.map Tree.ptr)) (serialElemVal e (serialValL kids)) := by
      intro e
      refine (needs_succ (needs_succ (k := if e.isVoid then 0 else Tree.htmlFramesL kids) ?_)).eq (by omega)
      rw [serializeElement]
      simp only [serialElemVal, tagIsSelfClosing_eq, serializeElementTag_eq, serializeAttributes_eq]
      cases e.isVoid with
      | true => simp [Needs, show lit "<" = [60] by decide]
      | false =>
        simp only [Bool.not_false, if_true]
        refine needs_last (by simpa using hk) ?_
        simp [show lit "<" = [60] by decide, show lit ">" = [62] by decide]
    cases k with
    | element e => simpa [serialVal, Tree.htmlFrames] using elem e
    | template e => simpa [serialVal, Tree.htmlFrames] using elem e
    | document d => simp [serialVal, serializeDocument_eq, Tree.htmlFrames, Needs]
    | _ => simp [serialVal, Tree.htmlFrames, Needs]
theorem serializeChildren_needs {h : Heap} {p i} (ts : List Tree) (hr : RepL h p i ts) (d : Nat) :
    Needs (Tree.htmlFramesL ts) d (serializeChildren (serializeNode h d) (ts.map Tree.ptr)) (serialValL ts) := by
  match ts with
  | [] => simp [serializeChildren, serialValL, Tree.htmlFramesL, Needs]
  | t :: ts =>
    simp only [RepL] at hr
    rw [Tree.htmlFramesL]
    simp only [List.map_cons, serializeChildren, serialValL]
    exact needs_bind (serializeNode_needs t hr.1 d) (needs_last (serializeChildren_needs ts hr.2 d) rfl)
end

theorem call_needs {h : Heap} {parent idx} (t : Tree) (hr : Rep h parent idx t) (d : Nat) (f : CaptureFn) :
    Needs (f.frames t) d (call h d t.ptr f) (f.val h t) := by
  cases f with
  | stripTags => exact stripTags_needs false t hr d
  | user f => exact needs_zero rfl
  | text =>
    cases d with
    | zero => exact needs_overflow _
    | succ d => exact needs_succ (needs_last (stripTags_needs true t hr d) (by simp [trimAndCollapseWs_eq]; rfl))
  | innerHtml =>
    cases d with
    | zero => exact needs_overflow _
    | succ d =>
      refine needs_succ ?_
      show Needs _ _ (nodeInnerHtml h (d + 1) t.ptr) _
      simp only [nodeInnerHtml, load_eq hr.ptr_eq, pure_bind]
      cases hk : t.kind with
      | element e => simpa [Kind.isElement, CaptureFn.val, hk] using serializeChildren_needs t.kids hr.kids d
      | _ => simp [Kind.isElement, CaptureFn.val, hk, Needs]

/-! ## Bounds -/

mutual
theorem strip_le : ∀ t : Tree, t.stripLevels ≤ t.height
  | .node p k kids => by
    have := strip_leL kids
    rw [Tree.stripLevels, Tree.height]
    split <;> omega
theorem strip_leL : ∀ ts : List Tree, Tree.stripLevelsL ts ≤ Tree.heightL ts
  | [] => by simp [Tree.stripLevelsL]
  | t :: ts => by
    have h1 := strip_le t
    have h2 := strip_leL ts
    rw [Tree.stripLevelsL, Tree.heightL]; omega
end

mutual
theorem html_le : ∀ t : Tree, t.htmlFrames ≤ 2 * t.height
  | .node p k kids => by
    have := html_leL kids
    cases k <;> simp only [Tree.htmlFrames, Tree.height] <;> (try split) <;> omega
theorem html_leL : ∀ ts : List Tree, Tree.htmlFramesL ts ≤ 2 * Tree.heightL ts
  | [] => by simp [Tree.htmlFramesL]
  | t :: ts => by
    have h1 := html_le t
    have h2 := html_leL ts
    rw [Tree.htmlFramesL, Tree.heightL]; omega
end

theorem frames_le (f : CaptureFn) (t : Tree) : f.frames t ≤ 2 * t.height := by
  have h0 : 1 ≤ t.height := by cases t; rw [Tree.height]; omega
  cases f with
  | text => have := strip_le t; simp only [CaptureFn.frames]; omega
  | stripTags => have := strip_le t; simp only [CaptureFn.frames]; omega
  | user => simp [CaptureFn.frames]
  | innerHtml =>
    obtain ⟨p, k, kids⟩ := t
    have := html_leL kids
    simp only [CaptureFn.frames, Tree.kids, Tree.height]
    split <;> omega

end Hext.TextStack
