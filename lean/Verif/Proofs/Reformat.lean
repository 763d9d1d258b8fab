import Verif.Spec.Reformat
import Verif.Proofs.Similar
import Verif.Proofs.Values
set_option linter.unusedSimpArgs false
/-!
# Words and whitespace
-/

namespace Hext.Param

open Spec

/-! ## Gaps -/

theorem words_gap {c : Byte} (hc : Ws c) (a b : Str) : words (a ++ c :: b) = words a ++ words b := by
  unfold words
  have hnl : (fun c => decide (Ws c)) c = true := by simpa using hc
  generalize (fun c : Byte => decide (Ws c)) = sep at hnl
  induction a with
  | nil => rw [List.nil_append, wordsBy_cons_sep hnl]; simp [wordsBy]
  | cons e a ih =>
    by_cases he : sep e = true
    · rw [List.cons_append, wordsBy_cons_sep he, wordsBy_cons_sep he, ih]
    · have he : sep e = false := by simpa using he
      cases a with
      | nil =>
        rw [List.cons_append, List.nil_append, wordsBy_cons_nonsep he, if_pos hnl, wordsBy_cons_sep hnl]
        simp [wordsBy, he]
      | cons d a =>
        rw [List.cons_append, List.cons_append, wordsBy_cons_nonsep he, wordsBy_cons_nonsep he]
        rw [List.cons_append] at ih
        rw [ih]
        split
        · rfl
        · rename_i hd
          have := wordsBy_ne_nil (sep := sep) (c := d) (s := a) (by simpa using hd)
          cases hw : wordsBy sep (d :: a) with
          | nil => exact absurd hw this
          | cons w ws => rfl

theorem words_space_left (w b : Str) (hw : ∀ c ∈ w, Ws c) : words (w ++ b) = words b :=
  wordsBy_append_sep _ w b (by simpa using hw)

theorem words_space_right (a w : Str) (hw : ∀ c ∈ w, Ws c) : words (a ++ w) = words a :=
  wordsBy_append_right _ a w (by simpa using hw)

theorem words_of_gap {w : Str} (hw : IsGap w) (a b : Str) : words (a ++ (w ++ b)) = words a ++ words b := by
  obtain ⟨hne, hall⟩ := hw
  cases w with
  | nil => exact absurd rfl hne
  | cons c w =>
    rw [List.cons_append, words_gap (hall c (by simp)), words_space_left w b fun d hd => hall d (by simp [hd])]

/-- Texts that differ in their gaps have the same words, wherever they stand. -/
theorem words_respaced {s s' : Str} (h : Respaced s s') : ∀ a b, words (a ++ (s ++ b)) = words (a ++ (s' ++ b)) := by
  induction h with
  | nil => intro a b; rfl
  | @byte c s s' _ ih =>
    intro a b
    have := ih (a ++ [c]) b
    simpa using this
  | gap hw hw' _ ih =>
    intro a b
    rw [List.append_assoc, List.append_assoc, words_of_gap hw, words_of_gap hw']
    have := ih [] b
    simp only [List.nil_append] at this
    rw [this]

/-- The text is empty or ends with whitespace. -/
def EndsOpen (a : Str) : Prop := a = [] ∨ ∃ a' c, a = a' ++ [c] ∧ Ws c

/-- The text is empty or begins with whitespace. -/
def StartsOpen (b : Str) : Prop := b = [] ∨ ∃ c b', b = c :: b' ∧ Ws c

theorem words_drop_after {a : Str} (ha : EndsOpen a) (w b : Str) (hw : ∀ c ∈ w, Ws c) : words (a ++ (w ++ b)) = words (a ++ b) := by
  rcases ha with rfl | ⟨a, c, rfl, hc⟩
  · exact words_space_left w b hw
  · rw [List.append_assoc, List.append_assoc, List.singleton_append, List.singleton_append, words_gap hc, words_gap hc,
      words_space_left w b hw]

theorem words_drop_before {b : Str} (hb : StartsOpen b) (a w : Str) (hw : ∀ c ∈ w, Ws c) : words (a ++ (w ++ b)) = words (a ++ b) := by
  rcases hb with rfl | ⟨c, b, rfl, hc⟩
  · rw [List.append_nil, List.append_nil]
    exact words_space_right a w hw
  · rw [← List.append_assoc, words_gap hc, words_gap hc, words_space_right a w hw]

/-! ## Texts of nodes -/

theorem _root_.Hext.Kind.Respaced.wrapsText {k k' : Kind} (h : k.Respaced k') : wrapsText k = wrapsText k' := by
  rcases h with rfl | ⟨s, s', rfl | rfl, rfl | rfl, -⟩ <;> rfl

theorem _root_.Hext.Kind.Respaced.alike {k k' : Kind} (h : k.Respaced k') : AlikeKind k k' := by
  rcases h with rfl | ⟨s, s', rfl | rfl, rfl | rfl, -⟩
  · exact .inl (.inl rfl)
  all_goals exact .inr ⟨rfl, rfl⟩

theorem stripVal_isText {sw : Bool} {t : Tree} {s : Str} (h : t.kind.IsTextWith s) : stripVal sw t = s := by
  cases t with
  | node p k kids =>
    rcases h with h | h <;> (simp only [Tree.kind] at h; subst h; rfl)

theorem isText_notBlock {k : Kind} {s : Str} (h : k.IsTextWith s) : wrapsText k = false := by
  rcases h with rfl | rfl <;> rfl

mutual
/-- Whitespace at the boundary of a block does not show in the words. -/
theorem words_unindented : ∀ (t t' : Tree), t.Unindented t' → ∀ a b, (wrapsText t.kind = true → a = [] ∧ b = []) →
    words (a ++ (stripVal true t ++ b)) = words (a ++ (stripVal true t' ++ b))
  | .node p k kids, .node p' k' kids', h, a, b, hab => by
    simp only [Tree.Unindented, Tree.kind, Tree.kids] at h hab
    obtain ⟨hk, hl⟩ := h
    have ih := words_unindentedL (wrapsText k) (wrapsText k) kids kids' hl a b (fun h => .inl (hab h).1) (fun h => .inl (hab h).2)
    rcases hk with rfl | ⟨s, s', h1, h2, hr⟩
    · cases k with
      | element e => simpa only [stripVal] using ih
      | _ => rfl
    · rw [stripVal_isText (t := .node p k kids) h1, stripVal_isText (t := .node p' k' kids') h2]
      exact words_respaced hr a b
theorem words_unindentedL (x e : Bool) : ∀ (ts ts' : List Tree), Tree.UnindentedL x e ts ts' → ∀ a b, (x = true → EndsOpen a) →
    (e = true → StartsOpen b) → words (a ++ (stripValL true ts ++ b)) = words (a ++ (stripValL true ts' ++ b))
  | [], ts', h, a, b, _, _ => by simp only [Tree.UnindentedL] at h; subst h; rfl
  | t :: ts, ts', h, a, b, ha, hb => by
    simp only [Tree.UnindentedL] at h
    rcases h with ⟨⟨s, hs, hws⟩, hx, h2⟩ | ⟨t', us, rfl, h1, h2⟩
    · rw [← words_unindentedL x e ts ts' h2 a b ha hb]
      simp only [stripValL, isText_notBlock hs, Bool.and_false, Bool.false_eq_true, if_false, stripVal_isText hs, List.append_assoc]
      rcases hx with hx | hx
      · exact words_drop_after (ha hx) _ _ hws
      · refine words_drop_before ?_ _ _ hws
        cases ts with
        | nil => simpa [stripValL] using hb (by simpa [blockAhead] using hx)
        | cons u us =>
          simp only [blockAhead] at hx
          simp only [stripValL, hx, Bool.and_true, if_true, List.append_assoc, List.singleton_append]
          exact .inr ⟨10, _, rfl, by decide⟩
    · have hw : wrapsText t.kind = wrapsText t'.kind := by
        cases t with
        | node p k kids => simp only [Tree.Unindented] at h1; exact h1.1.wrapsText
      cases hwt : wrapsText t.kind with
      | false =>
        rw [hwt] at h2
        simp only [stripValL, ← hw, hwt, Bool.and_false, Bool.false_eq_true, if_false, List.append_assoc]
        rw [words_unindented t t' h1 a (stripValL true ts ++ b) (by simp [hwt])]
        have := words_unindentedL false e ts us h2 (a ++ stripVal true t') b (by simp) hb
        simpa using this
      | true =>
        rw [hwt] at h2
        have e1 := words_unindented t t' h1 [] [] (fun _ => ⟨rfl, rfl⟩)
        have e2 := words_unindentedL true e ts us h2 [] b (fun _ => .inl rfl) hb
        simp only [List.nil_append, List.append_nil] at e1 e2
        have nl : ∀ a b, words (a ++ 10 :: b) = words a ++ words b := words_gap (by decide)
        simp only [stripValL, ← hw, hwt, Bool.and_true, if_true, List.append_assoc, List.singleton_append, List.cons_append,
          List.nil_append, nl, e1, e2]
end

/-! ## The relations -/

/-- Nodes that a rule cannot tell apart if it uses no function but `@text`. -/
def SameWords (t t' : Tree) : Prop := AlikeKind t.kind t'.kind ∧ words (stripVal true t) = words (stripVal true t')

theorem words_good {dead : Tree → Prop} (h h' : Heap) : FGood SameWords dead h h' (· = .text) := by
  rintro f rfl t t' ht
  simp only [CaptureFn.val, ((TRel.iff _ _ t t').1 ht).1.2]

theorem sameWords_good {dead : Tree → Prop} (hd : ∀ t, dead t → t.kind.isElement = false) : KGood SameWords dead :=
  ⟨fun _ _ h => h.1, hd⟩

theorem space_notElem (t : Tree) (h : t.IsSpace) : t.kind.isElement = false := by
  obtain ⟨s, h | h, -⟩ := h <;> rw [h] <;> rfl

theorem sameWords_of_unindented {t t' : Tree} (h : t.Unindented t') : SameWords t t' := by
  refine ⟨?_, ?_⟩
  · cases t with
    | node p k kids => simp only [Tree.Unindented] at h; exact h.1.alike
  · simpa using words_unindented t t' h [] [] (fun _ => ⟨rfl, rfl⟩)

mutual
theorem trel_of_unindented : ∀ (t t' : Tree), t.Unindented t' → TRel SameWords Tree.IsSpace t t'
  | .node p k kids, t', h => by
    have hw := sameWords_of_unindented h
    simp only [Tree.Unindented] at h
    simp only [TRel]
    exact ⟨hw, trelL_of_unindented _ _ kids t'.kids h.2⟩
theorem trelL_of_unindented (x e : Bool) : ∀ (ts ts' : List Tree), Tree.UnindentedL x e ts ts' → TRelL SameWords Tree.IsSpace ts ts'
  | [], ts', h => by simpa only [Tree.UnindentedL, TRelL] using h
  | t :: ts, ts', h => by
    simp only [Tree.UnindentedL] at h
    simp only [TRelL]
    rcases h with ⟨h1, -, h2⟩ | ⟨t', us, rfl, h1, h2⟩
    · exact .inl ⟨h1, trelL_of_unindented x e ts ts' h2⟩
    · exact .inr ⟨t', us, rfl, trel_of_unindented t t' h1, trelL_of_unindented _ e ts us h2⟩
end

mutual
theorem unindented_of_respaced : ∀ (t t' : Tree), t.Alike Kind.Respaced t' → t.Unindented t'
  | .node p k kids, t', h => by
    simp only [Tree.Alike] at h
    simp only [Tree.Unindented]
    exact ⟨h.1, unindentedL_of_respaced _ _ kids t'.kids h.2⟩
theorem unindentedL_of_respaced (x e : Bool) : ∀ (ts ts' : List Tree), Tree.AlikeL Kind.Respaced ts ts' → Tree.UnindentedL x e ts ts'
  | [], ts', h => by simpa only [Tree.UnindentedL, Tree.AlikeL] using h
  | t :: ts, ts', h => by
    simp only [Tree.AlikeL] at h
    simp only [Tree.UnindentedL]
    obtain ⟨t', us, rfl, h1, h2⟩ := h
    exact .inr ⟨t', us, rfl, unindented_of_respaced t t' h1, unindentedL_of_respaced _ e ts us h2⟩
end

mutual
theorem trel_of_respaced : ∀ (t t' : Tree), t.Alike Kind.Respaced t' → TRel SameWords (fun _ => False) t t'
  | .node p k kids, t', h => by
    have hw := sameWords_of_unindented (unindented_of_respaced _ _ h)
    simp only [Tree.Alike] at h
    simp only [TRel]
    exact ⟨hw, trelL_of_respaced kids t'.kids h.2⟩
theorem trelL_of_respaced : ∀ (ts ts' : List Tree), Tree.AlikeL Kind.Respaced ts ts' → TRelL SameWords (fun _ => False) ts ts'
  | [], ts', h => by simpa only [Tree.AlikeL, TRelL] using h
  | t :: ts, ts', h => by
    simp only [Tree.AlikeL] at h
    simp only [TRelL]
    obtain ⟨t', us, rfl, h1, h2⟩ := h
    exact .inr ⟨t', us, rfl, trel_of_respaced t t' h1, trelL_of_respaced ts us h2⟩
end

/-! ## Elements only -/

def NotElement (t : Tree) : Prop := t.kind.isElement = false

theorem sameElement_alike {k k' : Kind} (h : k.SameElement k') : AlikeKind k k' := by
  rcases h with rfl | ⟨h1, h2⟩
  · exact .inl (.inl rfl)
  · refine .inr ⟨?_, ?_⟩
    · cases k <;> first | rfl | exact absurd rfl (h1 _)
    · cases k' <;> first | rfl | exact absurd rfl (h2 _)

theorem sameElement_good {dead : Tree → Prop} (hd : ∀ t, dead t → t.kind.isElement = false) : KGood (onKind Kind.SameElement) dead :=
  ⟨fun _ _ h => sameElement_alike h, hd⟩

theorem none_good {R : Tree → Tree → Prop} {dead : Tree → Prop} (h h' : Heap) : FGood R dead h h' (fun _ => False) :=
  fun _ hf => hf.elim

mutual
theorem alike_mono {K K' : Kind → Kind → Prop} (hK : ∀ k k', K k k' → K' k k') : ∀ (t t' : Tree), t.Alike K t' → t.Alike K' t'
  | .node p k kids, t', h => by
    simp only [Tree.Alike] at h ⊢
    exact ⟨hK _ _ h.1, alikeL_mono hK kids t'.kids h.2⟩
theorem alikeL_mono {K K' : Kind → Kind → Prop} (hK : ∀ k k', K k k' → K' k k') : ∀ (ts ts' : List Tree), Tree.AlikeL K ts ts' →
    Tree.AlikeL K' ts ts'
  | [], ts', h => by simpa only [Tree.AlikeL] using h
  | t :: ts, ts', h => by
    simp only [Tree.AlikeL] at h ⊢
    obtain ⟨t', us, rfl, h1, h2⟩ := h
    exact ⟨t', us, rfl, alike_mono hK t t' h1, alikeL_mono hK ts us h2⟩
end

mutual
theorem trel_of_bare : ∀ (t t' : Tree), t.bare.Alike Kind.SameElement t' → TRel (onKind Kind.SameElement) NotElement t t'
  | .node p k kids, t', h => by
    simp only [Tree.bare, Tree.Alike] at h
    simp only [TRel]
    exact ⟨h.1, trelL_of_bare kids t'.kids h.2⟩
theorem trelL_of_bare : ∀ (ts ts' : List Tree), Tree.AlikeL Kind.SameElement (bareL ts) ts' →
    TRelL (onKind Kind.SameElement) NotElement ts ts'
  | [], ts', h => by simpa only [bareL, Tree.AlikeL, TRelL] using h
  | t :: ts, ts', h => by
    simp only [TRelL]
    simp only [bareL] at h
    cases hk : t.kind.isElement with
    | false =>
      simp only [hk, Bool.false_eq_true, if_false] at h
      exact .inl ⟨hk, trelL_of_bare ts ts' h⟩
    | true =>
      simp only [hk, if_true, Tree.AlikeL] at h
      obtain ⟨t', us, rfl, h1, h2⟩ := h
      exact .inr ⟨t', us, rfl, trel_of_bare t t' h1, trelL_of_bare ts us h2⟩
end

end Hext.Param
