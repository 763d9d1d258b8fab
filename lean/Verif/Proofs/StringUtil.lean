import Verif.Model.StringUtil
import Verif.Spec.Strings
/-!
# Helper lemmas for StringUtil
-/

namespace Hext

open Spec

theorem isSpace_iff (c : Byte) : isSpace c = true ↔ Ws c := by
  simp [isSpace, Ws, or_assoc]

theorem isSpace_eq (c : Byte) : isSpace c = decide (Ws c) := by
  by_cases h : Ws c
  · simp [h, (isSpace_iff c).2 h]
  · have : ¬ isSpace c = true := fun h' => h ((isSpace_iff c).1 h')
    simp [h, this]

/-- Functional form of the in-place loop. -/
def tcGo (out : Str) (need : Bool) : Str → Str
  | [] => out
  | x :: xs =>
    if isSpace x then tcGo out (if out.length > 0 then true else need) xs
    else tcGo (out ++ (if need then [32] else []) ++ [x]) false xs

theorem wordsBy_cons_sep {sep : Byte → Bool} {c : Byte} {s : Str} (h : sep c = true) :
    wordsBy sep (c :: s) = wordsBy sep s := by
  conv => lhs; unfold wordsBy
  simp [h]

theorem wordsBy_ne_nil {sep : Byte → Bool} {c : Byte} {s : Str} (h : sep c = false) :
    wordsBy sep (c :: s) ≠ [] := by
  cases s with
  | nil => unfold wordsBy; simp [h]
  | cons d s =>
    unfold wordsBy; simp [h]
    split
    · simp
    · split <;> simp

/-- Words after reading a non-separator. -/
theorem wordsBy_cons_nonsep {sep : Byte → Bool} {c d : Byte} {s : Str} (h : sep c = false) :
    wordsBy sep (c :: d :: s) =
      if sep d then [c] :: wordsBy sep (d :: s)
      else match wordsBy sep (d :: s) with
        | [] => [[c]]
        | w :: ws => (c :: w) :: ws := by
  conv => lhs; unfold wordsBy
  rw [if_neg (by simp [h])]
  rfl

/-- Does the string start with a separator? -/
def headIs (sep : Byte → Bool) : Str → Bool
  | [] => false
  | x :: _ => sep x

theorem tcGo_eq (rest : Str) : ∀ (out : Str) (need : Bool), (need = true → out ≠ []) →
    tcGo out need rest = out ++
      (if wordsBy isSpace rest = [] then [] else
        (if need || (!out.isEmpty && headIs isSpace rest) then [32] else [])
          ++ unwords (wordsBy isSpace rest)) := by
  induction rest with
  | nil => intro out need _; simp [tcGo, wordsBy]
  | cons x xs ih =>
    intro out need hneed
    unfold tcGo
    by_cases hx : isSpace x = true
    · rw [if_pos hx, wordsBy_cons_sep hx]
      have hn : (if out.length > 0 then true else need) = true → out ≠ [] := by
        cases out with
        | nil => simpa using hneed
        | cons a b => simp
      rw [ih out _ hn]
      cases out with
      | nil =>
        have : need = false := by
          cases need with
          | false => rfl
          | true => exact absurd rfl (hneed rfl)
        simp [this]
      | cons a b => simp [hx, headIs]
    · have hx' : isSpace x = false := by simpa using hx
      rw [if_neg hx]
      rw [ih _ false (by simp)]
      have hne := wordsBy_ne_nil (s := xs) hx'
      rw [if_neg hne]
      simp only [headIs, hx', Bool.and_false, Bool.or_false]
      cases xs with
      | nil => simp [wordsBy, hx', unwords]
      | cons d s =>
        rw [wordsBy_cons_nonsep hx']
        by_cases hd : isSpace d = true
        · rw [if_pos hd]
          by_cases hw : wordsBy isSpace (d :: s) = []
          · simp [hw, unwords]
          · obtain ⟨w, ws, hww⟩ := List.exists_cons_of_ne_nil hw
            simp [hww, unwords, hd]
        · have hd' : isSpace d = false := by simpa using hd
          rw [if_neg hd]
          have hne2 := wordsBy_ne_nil (s := s) hd'
          obtain ⟨w, ws, hww⟩ := List.exists_cons_of_ne_nil hne2
          rw [hww]
          cases ws <;> simp [unwords, hd']

/-- The in-place loop computes the functional form and stays in bounds. -/
theorem trimCollapseLoop_eq (str : Str) (c endp : Nat) (need : Bool)
    (hc : c ≤ str.length) (hend : endp + (if need then 1 else 0) ≤ c) :
    ∃ s, trimCollapseLoop str c endp need = pure (s, (tcGo (str.take endp) need (str.drop c)).length)
      ∧ s.take (tcGo (str.take endp) need (str.drop c)).length
          = tcGo (str.take endp) need (str.drop c)
      ∧ (tcGo (str.take endp) need (str.drop c)).length ≤ s.length := by
  induction hn : str.length - c generalizing str c endp need with
  | zero =>
    have : c = str.length := by omega
    subst this
    refine ⟨str, ?_, ?_, ?_⟩
    · unfold trimCollapseLoop
      have : min endp str.length = endp := by omega
      simp [tcGo, this]
    · simp [tcGo]
    · simp [tcGo]; omega
  | succ n ih =>
    have hlt : c < str.length := by omega
    have hdrop : str.drop c = str[c] :: str.drop (c+1) := List.drop_eq_getElem_cons hlt
    have hget : getAt str c = pure str[c] := by
      simp [getAt, List.getElem?_eq_getElem hlt]
    have htlen : (str.take endp).length = endp := by
      simp; omega
    unfold trimCollapseLoop
    simp only [hlt, dif_pos, hget, pure_bind]
    rw [hdrop]
    unfold tcGo
    by_cases hs : isSpace str[c] = true
    · simp only [hs, if_true, htlen]
      apply ih
      · omega
      · cases need <;> simp at hend <;> split <;> simp <;> omega
      · omega
    · have hs' : isSpace str[c] = false := by simpa using hs
      simp only [hs', Bool.false_eq_true, if_false]
      cases need with
      | false =>
        have hend' : endp ≤ c := by simpa using hend
        have hb : endp < str.length := by omega
        simp only [Bool.false_eq_true, if_false, hb, dif_pos, List.append_nil]
        have := ih (str.set endp str[c]) (c+1) (endp+1) false (by simp; omega) (by simp; omega)
          (by simp; omega)
        have h1 : (str.set endp str[c]).take (endp+1) = str.take endp ++ [str[c]] := by
          rw [List.take_add_one, List.take_set_of_le (by omega)]
          simp [hb]
        have h2 : (str.set endp str[c]).drop (c+1) = str.drop (c+1) := by
          rw [List.drop_set_of_lt (by omega)]
        rw [h1, h2] at this
        exact this
      | true =>
        have hend' : endp + 1 ≤ c := by simpa using hend
        have hb : endp < str.length := by omega
        have hb2 : endp + 1 < (str.set endp 32).length := by simp; omega
        have hg2 : getAt (str.set endp 32) c = pure str[c] := by
          have : (str.set endp 32)[c]? = some str[c] := by
            rw [List.getElem?_set_ne (by omega), List.getElem?_eq_getElem hlt]
          simp [getAt, this]
        simp only [if_true, hb, dif_pos, hg2, pure_bind, hb2]
        have := ih ((str.set endp 32).set (endp+1) str[c]) (c+1) (endp+2) false
          (by simp; omega) (by simp; omega) (by simp; omega)
        have h1 : ((str.set endp 32).set (endp+1) str[c]).take (endp+2)
            = str.take endp ++ [32] ++ [str[c]] := by
          rw [List.take_add_one, List.take_set_of_le (by omega), List.take_add_one,
            List.take_set_of_le (by omega)]
          have : endp + 1 < str.length := by omega
          simp [hb, this]
        have h2 : ((str.set endp 32).set (endp+1) str[c]).drop (c+1) = str.drop (c+1) := by
          rw [List.drop_set_of_lt (by omega), List.drop_set_of_lt (by omega)]
        rw [h1, h2] at this
        exact this

theorem wordsBy_congr {p q : Byte → Bool} (h : ∀ c, p c = q c) (s : Str) :
    wordsBy p s = wordsBy q s := by
  have : p = q := funext h
  rw [this]

theorem trimAndCollapseWs_eq (s : Str) : trimAndCollapseWs s = pure (unwords (words s)) := by
  obtain ⟨t, h1, h2, h3⟩ := trimCollapseLoop_eq s 0 0 false (by simp) (by simp)
  simp only [List.take_zero, List.drop_zero] at h1 h2 h3
  have hg : tcGo [] false s = unwords (words s) := by
    rw [tcGo_eq s [] false (by simp)]
    have : wordsBy isSpace s = words s := wordsBy_congr isSpace_eq s
    simp only [this]
    split
    · rename_i h; simp [h, unwords]
    · simp
  unfold trimAndCollapseWs
  rw [h1, pure_bind, hg]
  rw [hg] at h2 h3
  simp [h3, h2]

/-! ## Words of joined words -/

/-- A proper word: non-empty, no separator. -/
def IsWord (sep : Byte → Bool) (w : Str) : Prop := w ≠ [] ∧ ∀ c ∈ w, sep c = false

theorem wordsBy_isWord (sep : Byte → Bool) (s : Str) : ∀ w ∈ wordsBy sep s, IsWord sep w := by
  induction s with
  | nil => simp [wordsBy]
  | cons c s ih =>
    by_cases h : sep c = true
    · rw [wordsBy_cons_sep h]; exact ih
    · have h' : sep c = false := by simpa using h
      cases s with
      | nil => simp [wordsBy, h', IsWord]
      | cons d s =>
        rw [wordsBy_cons_nonsep h']
        split
        · intro w hw
          rcases List.mem_cons.1 hw with rfl | hw
          · simp [IsWord, h']
          · exact ih w hw
        · split
          · simp [IsWord, h']
          · rename_i w0 ws heq
            intro w hw
            rcases List.mem_cons.1 hw with rfl | hw
            · have := ih w0 (by simp [heq])
              refine ⟨by simp, ?_⟩
              intro x hx
              rcases List.mem_cons.1 hx with rfl | hx
              · exact h'
              · exact this.2 x hx
            · exact ih w (by simp [heq, hw])

/-- A word followed by the end or a separator is cut off as one word. -/
theorem wordsBy_word_append (sep : Byte → Bool) (w rest : Str) (hw : IsWord sep w)
    (hr : rest = [] ∨ ∃ x xs, rest = x :: xs ∧ sep x = true) :
    wordsBy sep (w ++ rest) = w :: wordsBy sep rest := by
  induction w with
  | nil => exact absurd rfl hw.1
  | cons c w ih =>
    have hc : sep c = false := hw.2 c (by simp)
    cases w with
    | nil =>
      rcases hr with rfl | ⟨x, xs, rfl, hx⟩
      · simp [wordsBy, hc]
      · simp only [List.cons_append, List.nil_append]
        rw [wordsBy_cons_nonsep hc, if_pos hx]
    | cons d w =>
      have hd : sep d = false := hw.2 d (by simp)
      have := ih ⟨by simp, fun x hx => hw.2 x (by simp [hx])⟩
      simp only [List.cons_append] at this ⊢
      rw [wordsBy_cons_nonsep hc, hd, this]
      simp

theorem wordsBy_unwords (sep : Byte → Bool) (hsp : sep 32 = true) (ws : List Str)
    (h : ∀ w ∈ ws, IsWord sep w) : wordsBy sep (unwords ws) = ws := by
  induction ws with
  | nil => simp [unwords, wordsBy]
  | cons w ws ih =>
    cases ws with
    | nil =>
      have := wordsBy_word_append sep w [] (h w (by simp)) (Or.inl rfl)
      simpa [unwords, wordsBy] using this
    | cons v ws =>
      have ih := ih (fun x hx => h x (by simp [hx]))
      simp only [unwords]
      rw [wordsBy_word_append sep w _ (h w (by simp)) (Or.inr ⟨32, _, rfl, hsp⟩),
        wordsBy_cons_sep hsp, ih]

end Hext
