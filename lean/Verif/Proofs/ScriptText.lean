import Verif.Spec.Scripts
import Verif.Proofs.Bindings
import Verif.Proofs.PhpKey
import Verif.Proofs.Utf8Order
import Verif.Proofs.Present
/-!
# Line breaks in Python, lists in PHP: lemmas
-/

namespace Hext.Props

open Script Binding

theorem newlines_eq : ∀ {s : Str}, (13 : Byte) ∉ s → newlines s = s
  | [], _ => by rw [newlines]
  | c :: s, h => by
    rw [List.mem_cons, not_or] at h
    rw [newlines.eq_def]
    simp only
    rw [if_neg (fun e => h.1 e.symm), newlines_eq h.2]


theorem keysFrom_iff : ∀ (n : Nat) (l : List (PhpKey × Entry Str)),
    keysFrom n l = true ↔ l.map (·.1) = (List.range' n l.length).map fun i => .int (i : Int)
  | n, [] => by simp [keysFrom]
  | n, x :: l => by
    rw [keysFrom, Bool.and_eq_true, keysFrom_iff (n + 1) l, List.length_cons, List.range'_succ, List.map_cons, List.map_cons,
      List.cons.injEq, beq_iff_eq]

theorem sorted_ext : ∀ {l l' : List Str}, l.Pairwise (· < ·) → l'.Pairwise (· < ·) → (∀ x, x ∈ l ↔ x ∈ l') → l = l'
  | [], [], _, _, _ => rfl
  | [], y :: _, _, _, h => absurd ((h y).2 (by simp)) (by simp)
  | x :: _, [], _, _, h => absurd ((h x).1 (by simp)) (by simp)
  | x :: l, y :: l', h1, h2, h => by
    rw [List.pairwise_cons] at h1 h2
    have hxy : x = y := by
      rcases List.mem_cons.1 ((h x).1 (by simp)) with e | e
      · exact e
      · rcases List.mem_cons.1 ((h y).2 (by simp)) with e' | e'
        · exact e'.symm
        · exact absurd (h1.1 _ e') (List.lt_asymm (h2.1 _ e))
    subst hxy
    congr 1
    refine sorted_ext h1.2 h2.2 fun z => ?_
    have := h z
    simp only [List.mem_cons] at this
    constructor
    · intro hz
      rcases this.1 (.inr hz) with e | e
      · subst e; exact absurd (h1.1 _ hz) (List.lt_irrefl _)
      · exact e
    · intro hz
      rcases this.2 (.inr hz) with e | e
      · subst e; exact absurd (h2.1 _ hz) (List.lt_irrefl _)
      · exact e

/-- To PHP a group is a list if its names are 0, 1 and so on. -/
theorem keysFrom_listNames {m : List (Str × Str)} {o : List (Str × Entry Str)} {a : List (PhpKey × Entry Str)} (hm : KeySorted m)
    (ho : Presents m o) (hp : IsPhpArray o a) : keysFrom 0 a = true ↔ ListNames m := by
  have hs := keysOf_sorted hm
  have e : a.map (·.1) = (keysOf m).map phpKey := by
    rw [isPhpArray_eq hp, ho.unique (entsOf_presents hm), ← entsOf_keys, List.map_map, List.map_map]
    rfl
  have hl : a.length = (keysOf m).length := by simpa using congrArg List.length e
  rw [keysFrom_iff, e, hl]
  constructor
  · intro h
    have hk : keysOf m = (List.range' 0 (keysOf m).length).map fun i => lit (toString i) := by
      apply List.ext_getElem (by simp)
      intro i h1 h2
      have := congrArg (·[i]?) h
      simp only [List.getElem?_map, List.getElem?_eq_getElem h1, Option.map_some] at this
      rw [List.getElem?_range' h1] at this
      simp only [Option.map_some, Option.some.injEq] at this
      have := (phpKey_int.1 this).1
      simp only [List.getElem_map, List.getElem_range']
      rw [this]
      rfl
    refine ⟨(keysOf m).length, ?_, fun name => ?_⟩
    · refine Nat.le_of_not_lt fun hlt => ?_
      rw [hk] at hs
      have := List.pairwise_iff_getElem.1 hs 2 10 (by simp; omega) (by simp; omega) (by omega)
      simp only [List.getElem_map, List.getElem_range'] at this
      revert this
      decide
    · rw [← mem_keysOf, hk]
      simp only [List.mem_map, List.mem_range', List.length_map, List.length_range']
      constructor
      · rintro ⟨i, ⟨j, hj, rfl⟩, rfl⟩; exact ⟨_, by omega, rfl⟩
      · rintro ⟨i, hi, rfl⟩; exact ⟨i, ⟨i, hi, by omega⟩, rfl⟩
  · rintro ⟨k, hk, h⟩
    have hk' : keysOf m = (List.range' 0 k).map fun i => lit (toString i) := by
      refine sorted_ext hs ?_ fun x => ?_
      · have : ∀ k ∈ List.range 11, ((List.range' 0 k).map fun i => lit (toString i)).Pairwise (· < ·) := by decide
        exact this k (by simp; omega)
      · rw [mem_keysOf, h]
        simp only [List.mem_map, List.mem_range']
        constructor
        · rintro ⟨i, hi, rfl⟩; exact ⟨i, ⟨i, hi, by omega⟩, rfl⟩
        · rintro ⟨i, ⟨j, hj, rfl⟩, rfl⟩; exact ⟨_, by omega, rfl⟩
    rw [hk', List.map_map, List.length_map, List.length_range']
    refine List.map_congr_left fun i hi => ?_
    simp only [List.mem_range'] at hi
    obtain ⟨j, hj, rfl⟩ := hi
    exact phpKey_int.2 ⟨rfl, by omega, by omega⟩

theorem not_listNames {m : List (Str × Str)} (hm : m ≠ []) (h : ∀ p ∈ m, p.1 ≠ lit "0") : ¬ ListNames m := by
  rintro ⟨k, _, hk⟩
  obtain ⟨p, hp⟩ := List.exists_mem_of_ne_nil _ hm
  obtain ⟨i, hi, _⟩ := (hk p.1).1 ⟨p.2, hp⟩
  obtain ⟨v, hv⟩ := (hk (lit "0")).2 ⟨0, by omega, rfl⟩
  exact h _ hv rfl

theorem newlines_oneLineBreak : ∀ s, OneLineBreak s (newlines s)
  | [] => by rw [newlines]; exact .nil
  | c :: s => by
    rw [newlines.eq_def]
    simp only
    by_cases hc : c = 13
    · rw [if_pos hc, hc]
      cases s with
      | nil => exact .cr (by simp) .nil
      | cons d s =>
        simp only
        by_cases hd : d = 10
        · rw [if_pos hd, hd]; exact .crlf (newlines_oneLineBreak s)
        · rw [if_neg hd]; exact .cr (by simpa using hd) (newlines_oneLineBreak (d :: s))
    · rw [if_neg hc]
      by_cases hd : c = 10
      · rw [hd]; exact .lf (newlines_oneLineBreak s)
      · exact .other hd hc (newlines_oneLineBreak s)
termination_by s => s.length

theorem _root_.Hext.Script.OneLineBreak.unique {s t t' : Str} (h : OneLineBreak s t) (h' : OneLineBreak s t') : t = t' := by
  induction h generalizing t' with
  | nil => cases h'; rfl
  | other a b h ih =>
    cases h' with
    | other _ _ h' => rw [ih h']
    | lf => exact absurd rfl a
    | crlf => exact absurd rfl b
    | cr => exact absurd rfl b
  | lf h ih =>
    cases h' with
    | other a _ _ => exact absurd rfl a
    | lf h' => rw [ih h']
  | crlf h ih =>
    cases h' with
    | other _ b _ => exact absurd rfl b
    | crlf h' => rw [ih h']
    | cr a _ => exact absurd rfl a
  | cr a h ih =>
    cases h' with
    | other _ b _ => exact absurd rfl b
    | crlf h' => exact absurd rfl a
    | cr _ h' => rw [ih h']

theorem _root_.Hext.Script.OneLineBreak.no_cr {s t : Str} (h : OneLineBreak s t) : (13 : Byte) ∉ t := by
  induction h with
  | nil => simp
  | other a b _ ih => simp [ih, Ne.symm b]
  | _ => simp_all

/-- The bytes below 128 of a code point are the code point itself. -/
theorem enc_ascii {c : Nat} (hc : c < 0x110000) {b : Byte} (h : b ∈ enc c) (hb : b < 128) : c = b.toNat ∧ enc c = [b] := by
  have hb : b.toNat < 128 := hb
  have e : ∀ n, b = UInt8.ofNat n → b.toNat = n % 256 := fun n h => by rw [h]; simp
  unfold enc at *
  split at h
  · rw [List.mem_singleton] at h
    have := e _ h
    subst h
    exact ⟨by omega, by rw [if_pos (by assumption)]⟩
  · exfalso
    split at h
    · simp only [List.mem_cons, List.not_mem_nil, or_false] at h
      rcases h with h | h <;> have := e _ h <;> omega
    · split at h <;> simp only [List.mem_cons, List.not_mem_nil, or_false] at h
      · rcases h with h | h | h <;> have := e _ h <;> omega
      · rcases h with h | h | h | h <;> have := e _ h <;> omega

theorem newlines_append {s : Str} (h : (13 : Byte) ∉ s) (r : Str) : newlines (s ++ r) = s ++ newlines r := by
  induction s with
  | nil => rfl
  | cons c s ih =>
    rw [List.mem_cons, not_or] at h
    rw [List.cons_append, newlines.eq_def]
    simp only
    rw [if_neg (fun e => h.1 e.symm), ih h.2, List.cons_append]

theorem isScalar_lt {c : Nat} (h : IsScalar c) : c < 0x110000 := by
  unfold IsScalar at h; omega

/-- Reading line breaks keeps a text a text. -/
theorem newlines_utf8 : ∀ (n : Nat) {t : Text}, t.length ≤ n → (∀ c ∈ t, IsScalar c) → ∃ t', IsUtf8Of (newlines (t.flatMap enc)) t'
  | _, [], _, _ => ⟨[], by simp, by rw [List.flatMap_nil, newlines]⟩
  | 0, _ :: _, hn, _ => by simp at hn
  | n + 1, c :: t, hn, h => by
    have hn : t.length ≤ n := by simpa using hn
    have ht : ∀ c ∈ t, IsScalar c := fun x hx => h x (List.mem_cons_of_mem _ hx)
    rw [List.flatMap_cons]
    by_cases hc : c = 13
    · have he : enc c = [13] := by rw [hc]; decide
      have hten : IsScalar 10 := by unfold IsScalar; omega
      have key : ∀ {s : Str}, (∃ t', IsUtf8Of s t') → ∃ t', IsUtf8Of (10 :: s) t' := by
        rintro s ⟨t', h1, h2⟩
        refine ⟨10 :: t', ?_, by rw [List.flatMap_cons, ← h2]; rfl⟩
        intro c hc
        rcases List.mem_cons.1 hc with rfl | hc
        · exact hten
        · exact h1 c hc
      rw [he, List.singleton_append, newlines.eq_def]
      simp only [if_true]
      cases t with
      | nil => exact key ⟨[], by simp, rfl⟩
      | cons d t =>
        cases hd : (d :: t).flatMap enc with
        | nil => simp [enc_ne] at hd
        | cons b s =>
          simp only
          by_cases hb : b = 10
          · rw [if_pos hb]
            have hmem : b ∈ enc d := by
              rw [List.flatMap_cons] at hd
              cases hed : enc d with
              | nil => exact absurd hed (enc_ne d)
              | cons x xs => rw [hed] at hd; simp at hd; simp [hd.1]
            have he := (enc_ascii (isScalar_lt (ht d (by simp))) hmem (by rw [hb]; decide)).2
            have hs : s = t.flatMap enc := by
              rw [List.flatMap_cons, he] at hd
              simp at hd
              exact hd.symm
            rw [hs]
            exact key (newlines_utf8 n (by simp at hn; omega) fun x hx => ht x (by simp [hx]))
          · rw [if_neg hb, ← hd]
            exact key (newlines_utf8 n hn ht)
    · rw [newlines_append]
      · obtain ⟨t', h1, h2⟩ := newlines_utf8 n hn ht
        refine ⟨c :: t', ?_, by rw [List.flatMap_cons, ← h2]⟩
        intro x hx
        rcases List.mem_cons.1 hx with rfl | hx
        · exact h _ (by simp)
        · exact h1 x hx
      · intro hm
        exact hc (enc_ascii (isScalar_lt (h c (by simp))) hm (by decide)).1

theorem textFile_breaks {files files' : Str → Option Str} (h : SameButLineBreaks files files') {f : Str} (hu : TextFile files f) :
    TextFile files' f := by
  intro t ht
  have := h f
  rw [ht] at this
  cases hf : files f with
  | none => simp [hf] at this
  | some s =>
    simp only [hf] at this
    obtain ⟨x, hx⟩ := hu s hf
    have hx' := newlines_utf8 x.length (Nat.le_refl _) hx.1
    rw [← hx.2, (newlines_oneLineBreak s).unique this] at hx'
    exact hx'

theorem pyRead_breaks {files files' : Str → Option Str} (h : SameButLineBreaks files files') {f : Str} (hu : TextFile files f) :
    pyRead files f = pyRead files' f := by
  have := h f
  unfold pyRead
  cases hf : files f with
  | none => cases hf' : files' f with
    | none => rfl
    | some s => simp [hf, hf'] at this
  | some s => cases hf' : files' f with
    | none => simp [hf, hf'] at this
    | some t =>
      simp only [hf, hf'] at this
      obtain ⟨x, hx⟩ := hu s hf
      obtain ⟨x', hx'⟩ := textFile_breaks h hu t hf'
      simp only
      rw [utf8_iff.2 hx, utf8_iff.2 hx', (newlines_oneLineBreak s).unique this, newlines_eq this.no_cr]

end Hext.Props
