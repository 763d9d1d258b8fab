import Verif.Proofs.TextStack
import Verif.Props.Stack
/-!
# How much stack the builtin functions need (C69)
-/

namespace Hext.Props

variable {h : Heap} {n : Nat} {l : Loc} {f : CaptureFn}

theorem stored_rep (hl : l.Stored h n) : ∃ parent idx, Rep h parent idx l.self := by
  obtain ⟨_, _, _, _, _, hr, _⟩ := hl.self
  exact ⟨_, _, hr⟩

/-- C69. `@text`, `@inner-html` and `@strip-tags` on a node of a document need exactly `f.frames` frames: with so many they
return what they return without a bound, with fewer the stack overflows. -/
theorem C69_exact (hl : l.Stored h n) (d : Nat) :
    TextStack.call h d l.ptr f = if f.frames l.self ≤ d then f.call h l.ptr else throw .ub := by
  obtain ⟨_, _, hr⟩ := stored_rep hl
  have h1 := TextStack.call_needs l.self hr d f
  have h2 := CaptureFn.call_eq l.self hr f
  unfold TextStack.Needs at h1
  show TextStack.call h d l.self.ptr f = if _ then f.call h l.self.ptr else _
  rw [h1, h2]

/-- C69. Two frames for each level below the node are enough. -/
theorem C69_enough (hl : l.Stored h n) (d : Nat) (hd : 2 * l.self.height ≤ d) :
    TextStack.call h d l.ptr f = f.call h l.ptr := by
  rw [C69_exact hl, if_pos (Nat.le_trans (TextStack.frames_le f l.self) hd)]

/-- C69. Each of the three functions overflows every stack on some document, and has a value there when there are more frames. -/
theorem C69_overflow (d : Nat) (hf : f = .text ∨ f = .innerHtml ∨ f = .stripTags) :
    ∃ (h : Heap) (t : Tree), IsDocument h 1147483648 t ∧ TextStack.call h d t.ptr f = throw .ub ∧
      ∃ v, TextStack.call h (2 * t.height) t.ptr f = pure v := by
  have hs : ∀ k, (tower k).stripLevels = k + 1 := by
    intro k
    induction k with
    | zero => rfl
    | succ k ih => simp [tower, Tree.stripLevels, Tree.stripLevelsL, Kind.isElement, ih]; omega
  have hh : ∀ k, k + 1 ≤ (tower k).htmlFrames := by
    intro k
    induction k with
    | zero => decide
    | succ k ih =>
      have hv : Elem.isVoid { tag := .known (lit "a") } = false := by decide +kernel
      simp [tower, Tree.htmlFrames, Tree.htmlFramesL, hv]; omega
  have hfr : d < f.frames (tower (d + 1)) := by
    rcases hf with rfl | rfl | rfl
    · have := hs (d + 1); simp only [CaptureFn.frames]; omega
    · have := hh d
      simp only [CaptureFn.frames, tower, Tree.kind, Kind.isElement, Tree.kids, if_true, Tree.htmlFramesL]; omega
    · have := hs (d + 1); simp only [CaptureFn.frames]; omega
  have hd := tower_document (d + 1)
  refine ⟨_, tower (d + 1), hd, ?_, ?_⟩
  · exact (C69_exact (l := Loc.root _) hd d).trans (if_neg (by show ¬ f.frames (tower (d + 1)) ≤ d; omega))
  · obtain ⟨_, _, hr⟩ := stored_rep (l := Loc.root _) hd
    exact ⟨_, (C69_enough (l := Loc.root _) hd _ (Nat.le_refl _)).trans (CaptureFn.call_eq _ hr f)⟩

/-- On the example document `@text` needs six frames. -/
example : CaptureFn.text.frames Ex.doc = 6 ∧ IsDocument Ex.heap 2147483647 Ex.doc := ⟨by decide +kernel, Ex.doc_ok⟩

end Hext.Props
