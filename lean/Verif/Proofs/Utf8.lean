import Verif.Spec.Utf8
import Verif.Proofs.NoNul
import Verif.Proofs.ScriptText
/-!
# Strings in UTF-8
-/

namespace Hext

open Props (enc_ascii isScalar_lt)

theorem Utf8.nil : Utf8 [] := ⟨[], by simp, rfl⟩

theorem Utf8.append {s t : Str} (hs : Utf8 s) (ht : Utf8 t) : Utf8 (s ++ t) := by
  obtain ⟨a, ha, rfl⟩ := hs
  obtain ⟨b, hb, rfl⟩ := ht
  refine ⟨a ++ b, fun c hc => ?_, by simp⟩
  rcases List.mem_append.1 hc with hc | hc
  · exact ha c hc
  · exact hb c hc

theorem Utf8.byte {c : Byte} (h : c < 128) : Utf8 [c] := by
  have h' : c.toNat < 128 := h
  refine ⟨[c.toNat], by simp [IsScalar]; omega, ?_⟩
  simp [enc, h']

theorem Utf8.ascii {s : Str} (h : ∀ c ∈ s, c < 128) : Utf8 s := by
  induction s with
  | nil => exact .nil
  | cons c s ih =>
    rw [← List.singleton_append]
    exact (Utf8.byte (h c (by simp))).append (ih fun d hd => h d (by simp [hd]))

theorem Utf8.cons {c : Byte} {t : Str} (h : c < 128) (ht : Utf8 t) : Utf8 (c :: t) := (Utf8.byte h).append ht

theorem Utf8.flatMap {α : Type} {f : α → Str} {l : List α} (h : ∀ x ∈ l, Utf8 (f x)) : Utf8 (l.flatMap f) := by
  induction l with
  | nil => exact .nil
  | cons x l ih => rw [List.flatMap_cons]; exact (h x (by simp)).append (ih fun y hy => h y (by simp [hy]))

theorem Utf8.enc {x : Nat} (h : IsScalar x) : Utf8 (enc x) := ⟨[x], by simpa using h, by simp⟩

/-- A text can be cut at a byte of ASCII. -/
theorem Utf8.cut : ∀ {a b : Str} {c : Byte}, Utf8 (a ++ c :: b) → c < 128 → Utf8 a ∧ Utf8 b := by
  intro a b c ⟨t, ht, he⟩ hc
  induction t generalizing a with
  | nil => simp at he
  | cons x t ih =>
    rw [List.flatMap_cons] at he
    have hx := ht x (by simp)
    have ht' : ∀ c ∈ t, IsScalar c := fun c hc => ht c (by simp [hc])
    rcases List.append_eq_append_iff.1 he with ⟨a', h1, h2⟩ | ⟨c', h1, h2⟩
    · -- enc x = a ++ a', c :: b = a' ++ rest
      cases a' with
      | nil =>
        simp only [List.append_nil] at h1
        simp only [List.nil_append] at h2
        subst h1
        obtain ⟨h3, h4⟩ := ih (a := []) ht' (by simpa using h2)
        exact ⟨.enc hx, h4⟩
      | cons d a' =>
        simp only [List.cons_append, List.cons.injEq] at h2
        obtain ⟨rfl, rfl⟩ := h2
        obtain ⟨h3, h4⟩ := enc_ascii (isScalar_lt hx) (b := c) (by rw [h1]; simp) hc
        rw [h4] at h1
        cases a with
        | nil =>
          simp only [List.nil_append, List.cons.injEq] at h1
          obtain ⟨_, rfl⟩ := h1
          exact ⟨.nil, t, ht', by simp⟩
        | cons _ a => simp at h1
    · -- a = enc x ++ c', rest = c' ++ c :: b
      obtain ⟨h3, h4⟩ := ih ht' h2.symm
      subst h1
      exact ⟨(Utf8.enc hx).append h3, h4⟩

theorem Utf8.dropAscii : ∀ {a b : Str}, (∀ c ∈ a, c < 128) → Utf8 (a ++ b) → Utf8 b
  | [], _, _, h => h
  | c :: a, b, ha, h => Utf8.dropAscii (a := a) (fun d hd => ha d (by simp [hd])) (Utf8.cut (a := []) (b := a ++ b) h (ha c (by simp))).2

theorem Utf8.takeAscii : ∀ {b a : Str}, (∀ c ∈ b, c < 128) → Utf8 (a ++ b) → Utf8 a
  | [], a, _, h => by simpa using h
  | c :: b, a, hb, h => (Utf8.cut h (hb c (by simp))).1

theorem Utf8.bytes {s : Str} {f : Byte → Str} (h : Utf8 s) (h1 : ∀ c < 128, Utf8 (f c)) (h2 : ∀ c, 128 ≤ c → f c = [c]) :
    Utf8 (s.flatMap f) := by
  obtain ⟨t, ht, rfl⟩ := h
  rw [List.flatMap_assoc]
  refine Utf8.flatMap fun x hx => ?_
  by_cases hb : ∃ b ∈ Hext.enc x, b < 128
  · obtain ⟨b, hb, hl⟩ := hb
    rw [(enc_ascii (isScalar_lt (ht x hx)) hb hl).2]
    simpa using h1 b hl
  · have : (Hext.enc x).flatMap f = Hext.enc x := by
      have : ∀ l : Str, (∀ b ∈ l, ¬ b < 128) → l.flatMap f = l := by
        intro l hl
        induction l with
        | nil => rfl
        | cons c l ih =>
          rw [List.flatMap_cons, h2 c (UInt8.not_lt.1 (hl c (by simp))), ih fun b hb => hl b (by simp [hb])]; rfl
      exact this _ fun b hb' hl => hb ⟨b, hb', hl⟩
    rw [this]
    exact .enc (ht x hx)

/-! ## Documents -/

theorem quoted_u8 {v : Str} (h : Utf8 v) : Utf8 (stdQuoted v) := by
  unfold stdQuoted
  refine Utf8.append (Utf8.cons (by decide) (Utf8.bytes h (fun c hc => ?_) fun c hc => ?_)) (.byte (by decide))
  · split
    · exact Utf8.cons (by decide) (.byte hc)
    · exact .byte hc
  · rw [if_neg]
    intro h
    simp only [Bool.or_eq_true, beq_iff_eq] at h
    rcases h with rfl | rfl <;> revert hc <;> decide

theorem serializeAttribute_u8 {a : Attr} (h : a.Utf8) : Utf8 (serializeAttribute a) := by
  unfold serializeAttribute
  refine Utf8.append (Utf8.append (Utf8.cons (by decide) ?_) h.1) ?_
  · cases a.ns <;> exact .ascii (by decide)
  · split
    · rename_i v hv
      exact Utf8.cons (by decide) (quoted_u8 (h.2 v hv))
    · exact .nil

theorem serializeElementTag_u8 {e : Elem} (h : e.Utf8) : Utf8 (serializeElementTag e) := by
  unfold serializeElementTag
  split
  · cases ho : e.origName with
    | none => exact .nil
    | some s => exact h.2.1 s ho
  · rename_i n hn
    exact h.1 n hn

theorem serializeDocument_u8 {d : DocInfo} (h : (Kind.document d).Utf8) : Utf8 (serializeDocument d) := by
  unfold serializeDocument
  have key : ∀ o : Option Str, (∀ s, o = some s → Utf8 s) → Utf8 (match o with | some s => 32 :: s | none => []) := by
    intro o ho
    cases o with
    | none => exact .nil
    | some s => exact Utf8.cons (by decide) (ho s rfl)
  refine Utf8.append (Utf8.append (Utf8.append (Utf8.append ?_ (key _ h.1)) (key _ h.2.1)) (key _ h.2.2)) ?_
  · exact .ascii (by decide)
  · exact .ascii (by decide)

theorem serialElem_u8 {e : Elem} (h : e.Utf8) {inner : Str} (hi : Utf8 inner) : Utf8 (serialElemVal e inner) := by
  unfold serialElemVal
  have hn : Utf8 e.name := serializeElementTag_eq e ▸ serializeElementTag_u8 h
  have l0 : Utf8 (lit "<") := .ascii (by decide)
  have hh : Utf8 (lit "<" ++ e.name ++ e.attrs.flatMap Attr.html) :=
    Utf8.append (Utf8.append l0 hn)
      (Utf8.flatMap fun a ha => serializeAttribute_eq a ▸ serializeAttribute_u8 (h.2.2 a ha))
  have l1 : Utf8 (lit "</") := .ascii (by decide)
  have l2 : Utf8 (lit "/>") := .ascii (by decide)
  have l3 : Utf8 (lit ">") := .ascii (by decide)
  split
  · exact hh.append l2
  · exact ((((hh.append l3).append hi).append l1).append hn).append l3

mutual
theorem strip_u8 {h : Heap} (hh : h.Utf8) (sw : Bool) : ∀ (t : Tree) (p : Option Ptr) (i : Nat), Rep h p i t → Utf8 (stripVal sw t)
  | .node p k kids, _, _, hr => by
    simp only [Rep] at hr
    have hk := hh _ _ hr.1
    cases k with
    | element e => exact stripL_u8 hh sw kids _ _ hr.2
    | text t => exact hk
    | whitespace t => exact hk
    | document d => exact .nil
    | template e => exact .nil
    | cdata t => exact .nil
    | comment t => exact .nil
theorem stripL_u8 {h : Heap} (hh : h.Utf8) (sw : Bool) : ∀ (ts : List Tree) (p : Ptr) (i : Nat), RepL h p i ts → Utf8 (stripValL sw ts)
  | [], _, _, _ => .nil
  | t :: ts, p, i, hr => by
    simp only [RepL] at hr
    have h1 := strip_u8 hh sw t _ _ hr.1
    have h2 := stripL_u8 hh sw ts _ _ hr.2
    have l : Utf8 [10] := .byte (by decide)
    rw [stripValL]
    split
    · exact ((l.append h1).append l).append h2
    · exact h1.append h2
end

mutual
theorem serial_u8 {h : Heap} (hh : h.Utf8) : ∀ (t : Tree) (p : Option Ptr) (i : Nat), Rep h p i t → Utf8 (serialVal t)
  | .node p k kids, _, _, hr => by
    simp only [Rep] at hr
    have hk := hh _ _ hr.1
    cases k with
    | element e => exact serialElem_u8 hk (serialL_u8 hh kids _ _ hr.2)
    | template e => exact serialElem_u8 hk (serialL_u8 hh kids _ _ hr.2)
    | text t => exact hk
    | whitespace t => exact hk
    | document d =>
      simp only [serialVal]
      split
      · exact serializeDocument_eq d ▸ serializeDocument_u8 hk
      · exact .nil
    | cdata t => exact .nil
    | comment t =>
      refine Utf8.append (Utf8.append ?_ hk) ?_
      · exact .ascii (by decide)
      · exact .ascii (by decide)
theorem serialL_u8 {h : Heap} (hh : h.Utf8) : ∀ (ts : List Tree) (p : Ptr) (i : Nat), RepL h p i ts → Utf8 (serialValL ts)
  | [], _, _, _ => .nil
  | t :: ts, p, i, hr => by
    simp only [RepL] at hr
    exact (serial_u8 hh t _ _ hr.1).append (serialL_u8 hh ts _ _ hr.2)
end

/-- The words of a string that starts with a word, and those of the rest. -/
theorem wordsBy_run (sep : Byte → Bool) : ∀ (w s : Str), (∀ c ∈ w, sep c = false) → w ≠ [] → (∀ c t, s = c :: t → sep c = true) →
    Spec.wordsBy sep (w ++ s) = w :: Spec.wordsBy sep s
  | [], _, _, h, _ => absurd rfl h
  | [c], s, hw, _, hs => by
    cases s with
    | nil => simp [Spec.wordsBy, hw c (by simp)]
    | cons d s =>
      rw [List.singleton_append, Spec.wordsBy.eq_def]
      simp [hw c (by simp), hs d s rfl]
  | c :: d :: w, s, hw, _, hs => by
    have ih := wordsBy_run sep (d :: w) s (fun x hx => hw x (by simp [hx])) (by simp) hs
    rw [List.cons_append, Spec.wordsBy.eq_def]
    simp only [hw c (by simp)]
    rw [ih]
    simp [hw d (by simp)]

theorem wordsBy_u8 {sep : Byte → Bool} (hsep : ∀ c, sep c = true → c < 128) : ∀ (n : Nat) (s : Str), s.length ≤ n → Utf8 s →
    ∀ w ∈ Spec.wordsBy sep s, Utf8 w
  | 0, s, hn, _ => by
    have : s = [] := List.length_eq_zero_iff.1 (by omega)
    subst this; simp [Spec.wordsBy]
  | n + 1, s, hn, hs => by
    cases s with
    | nil => simp [Spec.wordsBy]
    | cons c s =>
      cases hc : sep c with
      | true =>
        rw [Spec.wordsBy.eq_def]
        simp only [hc, if_true]
        exact wordsBy_u8 hsep n s (by simpa using hn) (Utf8.cut (a := []) hs (hsep c hc)).2
      | false =>
        have hsp : (c :: s) = (c :: s).takeWhile (fun c => !sep c) ++ (c :: s).dropWhile (fun c => !sep c) :=
          (List.takeWhile_append_dropWhile).symm
        have h1 : ∀ b ∈ (c :: s).takeWhile (fun c => !sep c), sep b = false := by
          intro b hb
          have := List.all_takeWhile (p := fun c => !sep c) (l := c :: s)
          rw [List.all_eq_true] at this
          simpa using this b hb
        have h2 : (c :: s).takeWhile (fun c => !sep c) ≠ [] := by simp [hc]
        have h3 : ∀ b t, (c :: s).dropWhile (fun c => !sep c) = b :: t → sep b = true := by
          intro b t hb
          have := List.head?_dropWhile_not (fun c => !sep c) (c :: s)
          rw [hb] at this
          simpa using this
        generalize (c :: s).takeWhile (fun c => !sep c) = w at *
        generalize (c :: s).dropWhile (fun c => !sep c) = u at *
        rw [hsp, wordsBy_run sep w u h1 h2 h3]
        rw [hsp] at hs hn
        cases u with
        | nil =>
          simp only [List.append_nil] at hs
          simpa [Spec.wordsBy] using hs
        | cons d u =>
          have hd := h3 d u rfl
          obtain ⟨h4, h5⟩ := hs.cut (hsep d hd)
          intro x hx
          rcases List.mem_cons.1 hx with rfl | hx
          · exact h4
          · rw [Spec.wordsBy.eq_def] at hx
            simp only [hd, if_true] at hx
            exact wordsBy_u8 hsep n u (by simp at hn; omega) h5 x hx

theorem unwords_u8 : ∀ {ws : List Str}, (∀ w ∈ ws, Utf8 w) → Utf8 (Spec.unwords ws)
  | [], _ => .nil
  | [w], h => h w (by simp)
  | w :: x :: ws, h => by
    rw [Spec.unwords]
    · exact (h w (by simp)).append (Utf8.cons (by decide) (unwords_u8 fun y hy => h y (List.mem_cons_of_mem _ hy)))
    · simp

theorem collapse_u8 {s : Str} (h : Utf8 s) : Utf8 (Spec.unwords (Spec.words s)) :=
  unwords_u8 fun w hw => wordsBy_u8 (fun c hc => by
    rcases (of_decide_eq_true hc : Spec.Ws c) with rfl | rfl | rfl | rfl | rfl <;> decide) _ s (Nat.le_refl _) h w hw

theorem fn_u8 {h : Heap} (hh : h.Utf8) {t : Tree} {p i} (hr : Rep h p i t) {f : CaptureFn}
    (hf : ∀ g, f = .user g → ∀ h p, Utf8 (g h p)) : Utf8 (f.val h t) := by
  cases f with
  | text => exact collapse_u8 (strip_u8 hh true t _ _ hr)
  | innerHtml =>
    simp only [CaptureFn.val]
    split
    · cases t with
      | node p k kids =>
        simp only [Rep] at hr
        exact serialL_u8 hh kids _ _ hr.2
    · exact .nil
  | stripTags => exact strip_u8 hh false t _ _ hr
  | user f => exact hf f rfl _ _

theorem cstr_u8 {s : Str} (h : Utf8 s) : Utf8 (cstr s) := by
  have hsp : s = cstr s ++ s.dropWhile (fun c => c != 0) := by
    unfold cstr; exact (List.takeWhile_append_dropWhile).symm
  generalize hu : s.dropWhile (fun c => c != 0) = u at hsp
  cases u with
  | nil => rw [List.append_nil] at hsp; rw [← hsp]; exact h
  | cons d u =>
    have := List.head?_dropWhile_not (fun c : Byte => c != 0) s
    rw [hu] at this
    have hd : d = 0 := by simpa using this
    rw [hsp, hd] at h
    exact (h.cut (by decide)).1

end Hext
