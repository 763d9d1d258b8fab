import Verif.Spec.Syntax
import Verif.Spec.Grammar
/-!
# The words of the grammar are the words of the items
-/

namespace Hext

set_option linter.unusedSimpArgs false

open Grammar Syn

/-! ## Inversion of `Lang` -/

theorem lang_eps {w} : Lang .eps w ↔ w = [] := by
  constructor
  · intro h; cases h; rfl
  · rintro rfl; exact .eps

theorem lang_act {a w} : Lang (.act a) w ↔ w = [.act a] := by
  constructor
  · intro h; cases h; rfl
  · rintro rfl; exact .act

theorem lang_cls {m w} : Lang (.cls m) w ↔ ∃ b : Byte, m.testBit b.toNat = true ∧ w = [.ch b] := by
  constructor
  · intro h; cases h with | cls h => exact ⟨_, h, rfl⟩
  · rintro ⟨b, h, rfl⟩; exact .cls h

theorem lang_seq {g h w} : Lang (g ⬝ h) w ↔ ∃ u v, Lang g u ∧ Lang h v ∧ w = u ++ v := by
  constructor
  · intro h; cases h with | seq h1 h2 => exact ⟨_, _, h1, h2, rfl⟩
  · rintro ⟨u, v, h1, h2, rfl⟩; exact .seq h1 h2

theorem lang_alt {g h w} : Lang (g ∣∣ h) w ↔ Lang g w ∨ Lang h w := by
  constructor
  · intro h; cases h with
    | altl h => exact .inl h
    | altr h => exact .inr h
  · rintro (h | h)
    · exact .altl h
    · exact .altr h

theorem lang_star {g w} : Lang (.star g) w ↔ ∃ ws : List (List Sym), (∀ u ∈ ws, Lang g u) ∧ w = ws.flatten := by
  constructor
  · intro h
    generalize hg : G.star g = g' at h
    induction h with
    | starNil => exact ⟨[], by simp, rfl⟩
    | starCons h1 _ _ ih =>
      cases hg
      obtain ⟨ws, h2, rfl⟩ := ih rfl
      exact ⟨_ :: ws, by simpa using ⟨h1, h2⟩, rfl⟩
    | _ => cases hg
  · rintro ⟨ws, h, rfl⟩
    induction ws with
    | nil => exact .starNil
    | cons u ws ih =>
      simp only [List.mem_cons, forall_eq_or_imp] at h
      exact .starCons h.1 (ih h.2)

/-- If the words of `g` are the words of certain things, the words of `g` repeated are the words of lists of
these things. -/
theorem lang_many {α : Type} {g : G} {Ok : α → Prop} {word : α → List Sym}
    (h : ∀ w, Lang g w ↔ ∃ x, Ok x ∧ w = word x) (w : List Sym) :
    Lang (many g) w ↔ ∃ xs : List α, (∀ x ∈ xs, Ok x) ∧ w = xs.flatMap word := by
  rw [many, lang_star]
  constructor
  · rintro ⟨ws, hws, rfl⟩
    induction ws with
    | nil => exact ⟨[], by simp, rfl⟩
    | cons u ws ih =>
      simp only [List.mem_cons, forall_eq_or_imp] at hws
      obtain ⟨xs, h1, h2⟩ := ih hws.2
      obtain ⟨x, h3, rfl⟩ := (h u).mp hws.1
      exact ⟨x :: xs, by simpa using ⟨h3, h1⟩, by simp [h2]⟩
  · rintro ⟨xs, hxs, rfl⟩
    refine ⟨xs.map word, ?_, by simp [List.flatMap]⟩
    intro u hu
    obtain ⟨x, hx, rfl⟩ := List.mem_map.mp hu
    exact (h _).mpr ⟨x, hxs x hx, rfl⟩

theorem lang_plus {α : Type} {g : G} {Ok : α → Prop} {word : α → List Sym}
    (h : ∀ w, Lang g w ↔ ∃ x, Ok x ∧ w = word x) (w : List Sym) :
    Lang (plus g) w ↔ ∃ xs : List α, xs ≠ [] ∧ (∀ x ∈ xs, Ok x) ∧ w = xs.flatMap word := by
  have hm := lang_many h
  rw [plus, lang_seq]
  constructor
  · rintro ⟨u, v, hu, hv, rfl⟩
    obtain ⟨x, hx, rfl⟩ := (h u).mp hu
    obtain ⟨xs, hxs, rfl⟩ := (hm v).mp hv
    exact ⟨x :: xs, by simp, by simpa using ⟨hx, hxs⟩, by simp⟩
  · rintro ⟨xs, hne, hxs, rfl⟩
    cases xs with
    | nil => exact absurd rfl hne
    | cons x xs =>
      simp only [List.mem_cons, forall_eq_or_imp] at hxs
      exact ⟨_, _, (h _).mpr ⟨x, hxs.1, rfl⟩, (hm _).mpr ⟨xs, hxs.2, rfl⟩, by simp⟩

theorem lang_opt {g w} : Lang (opt g) w ↔ w = [] ∨ Lang g w := by rw [opt, lang_alt, lang_eps]

/-! ## Sets and texts -/

/-- A text as a word. -/
def chs (s : Str) : List Sym := s.map .ch

theorem chars_chs (s : Str) : chars (chs s) = s := by
  induction s with
  | nil => rfl
  | cons b s ih => simp only [chs, List.map_cons, chars]; rw [← chs, ih]

theorem chs_append (s t : Str) : chs (s ++ t) = chs s ++ chs t := by simp [chs]
theorem chs_cons (b : Byte) (t : Str) : chs (b :: t) = .ch b :: chs t := rfl
theorem chs_nil : chs [] = [] := rfl

theorem testBit_fold (f : Nat → Bool) : ∀ (l : List Nat) (i : Nat),
    (l.foldr (fun b m => 2 * m + (f b).toNat) 0).testBit i = ((l[i]?).map f).getD false := by
  intro l
  induction l with
  | nil => intro i; simp
  | cons b l ih =>
    intro i
    simp only [List.foldr_cons]
    have hlt : (f b).toNat < 2 := by cases f b <;> decide
    cases i with
    | zero =>
      rw [Nat.testBit_zero]
      cases h : f b <;> simp [h]
    | succ i =>
      rw [Nat.testBit_succ, show (2 * l.foldr (fun b m => 2 * m + (f b).toNat) 0 + (f b).toNat) / 2 =
        l.foldr (fun b m => 2 * m + (f b).toNat) 0 from by omega, ih]
      simp

theorem testBit_maskOf (f : Nat → Bool) {i : Nat} (h : i < 256) : (maskOf f).testBit i = f i := by
  rw [maskOf, testBit_fold, List.getElem?_range h]; rfl

theorem lang_set {f : Nat → Bool} {w} : Lang (set f) w ↔ ∃ b : Byte, f b.toNat = true ∧ w = [.ch b] := by
  rw [Grammar.set, lang_cls]
  simp only [testBit_maskOf f (UInt8.toNat_lt _)]

/-- The byte of a character of the grammar. -/
def chB (c : Char) : Byte := UInt8.ofNat c.toNat

theorem lang_chr {c : Char} (h : c.toNat < 256) {w} : Lang (chr c) w ↔ w = [.ch (chB c)] := by
  rw [chr, lang_set]
  constructor
  · rintro ⟨b, hb, rfl⟩
    have : b = chB c := by
      apply UInt8.toNat_inj.mp
      rw [chB, UInt8.toNat_ofNat_of_lt' h]
      simpa using hb
    rw [this]
  · rintro rfl
    exact ⟨_, by rw [chB, UInt8.toNat_ofNat_of_lt' h]; simp, rfl⟩

theorem lang_str : ∀ {cs : List Char}, cs.all (fun c => c.toNat < 256) = true → ∀ {w},
    Lang (str cs) w ↔ w = chs (cs.map chB) := by
  intro cs
  induction cs with
  | nil => intro _ w; rw [str, lang_eps]; rfl
  | cons c cs ih =>
    intro h w
    simp only [List.all_cons, Bool.and_eq_true, decide_eq_true_eq] at h
    cases cs with
    | nil => rw [str, lang_chr h.1]; rfl
    | cons d ds =>
      rw [str, lang_seq]
      · simp only [lang_chr h.1, ih h.2]
        constructor
        · rintro ⟨u, v, rfl, rfl, rfl⟩; rfl
        · rintro rfl; exact ⟨_, _, rfl, rfl, rfl⟩
      · simp

theorem lang_text {s : String} (h : s.toList.all (fun c => c.toNat < 256) = true) {w} :
    Lang (text s) w ↔ w = chs (lit s) := lang_str h

theorem flatMap_chs (s : Str) : s.flatMap (fun b => [Sym.ch b]) = chs s := by
  induction s with
  | nil => rfl
  | cons b s ih => rw [List.flatMap_cons, ih]; rfl

theorem lang_many_set {f : Nat → Bool} (w) :
    Lang (many (set f)) w ↔ ∃ s : Str, (∀ b ∈ s, f b.toNat = true) ∧ w = chs s := by
  rw [lang_many (Ok := fun b : Byte => f b.toNat = true) (word := fun b => [.ch b]) (fun w => lang_set)]
  simp only [flatMap_chs]

theorem lang_plus_set {f : Nat → Bool} (w) :
    Lang (plus (set f)) w ↔ ∃ s : Str, s ≠ [] ∧ (∀ b ∈ s, f b.toNat = true) ∧ w = chs s := by
  rw [lang_plus (Ok := fun b : Byte => f b.toNat = true) (word := fun b => [.ch b]) (fun w => lang_set)]
  simp only [flatMap_chs]

theorem chs_inj {s t : Str} (h : chs s = chs t) : s = t := by
  rw [← chars_chs s, h, chars_chs]

/-! ## Byte classes -/

theorem byte_le {a b : Byte} : a ≤ b ↔ a.toNat ≤ b.toNat := UInt8.le_iff_toNat_le
theorem byte_eq {a b : Byte} : a = b ↔ a.toNat = b.toNat := UInt8.toNat_inj.symm

theorem isAlphaN_iff (b : Byte) : isAlphaN b.toNat = true ↔ IsAlpha b := by
  simp [isAlphaN, IsAlpha, byte_le]
theorem isSpaceN_iff (b : Byte) : isSpaceN b.toNat = true ↔ IsSpace b := by
  simp [isSpaceN, IsSpace, byte_le, byte_eq]
theorem isDigitN_iff (b : Byte) : isDigitN b.toNat = true ↔ 48 ≤ b ∧ b ≤ 57 := by
  simp [isDigitN, byte_le]
theorem isNameN_iff (b : Byte) : isNameN b.toNat = true ↔ IsNameByte b := by
  simp [isNameN, IsNameByte, ← isAlphaN_iff, isDigitN, byte_le, byte_eq, or_assoc]
theorem isVarN_iff (b : Byte) : isVarN b.toNat = true ↔ IsNameByte b ∨ b = 46 := by
  simp [isVarN, IsNameByte, ← isAlphaN_iff, isDigitN, byte_le, byte_eq, or_assoc]

theorem lang_digits {w} : Lang digits w ↔ ∃ s, IsDigits s ∧ w = chs s := by
  rw [digits, lang_plus_set]
  simp only [isDigitN_iff, IsDigits, and_assoc]

theorem lang_space {w} : Lang space w ↔ ∃ b, IsSpace b ∧ w = [.ch b] := by
  rw [space, lang_set]; simp only [isSpaceN_iff]

theorem lang_many_space {w} : Lang (many space) w ↔ ∃ s : Str, (∀ b ∈ s, IsSpace b) ∧ w = chs s := by
  rw [space, lang_many_set]; simp only [isSpaceN_iff]

theorem lang_plus_space {w} : Lang (plus space) w ↔ ∃ s : Str, s ≠ [] ∧ (∀ b ∈ s, IsSpace b) ∧ w = chs s := by
  rw [space, lang_plus_set]; simp only [isSpaceN_iff]

theorem lang_name {w} : Lang name w ↔ ∃ s, IsName s ∧ w = chs s := by
  rw [name, lang_seq]
  simp only [lang_set, lang_many_set, isAlphaN_iff, isNameN_iff]
  constructor
  · rintro ⟨_, _, ⟨b, hb, rfl⟩, ⟨t, ht, rfl⟩, rfl⟩
    exact ⟨b :: t, ⟨b, t, rfl, hb, ht⟩, rfl⟩
  · rintro ⟨_, ⟨b, t, rfl, hb, ht⟩, rfl⟩
    exact ⟨_, _, ⟨b, hb, rfl⟩, ⟨t, ht, rfl⟩, rfl⟩

theorem lang_tag {w} : Lang tag w ↔ ∃ s, IsTag s ∧ w = chs s := by
  rw [tag, lang_alt, lang_chr (by decide), lang_name]
  constructor
  · rintro (rfl | ⟨s, hs, rfl⟩)
    · exact ⟨[42], .inl rfl, rfl⟩
    · exact ⟨s, .inr hs, rfl⟩
  · rintro ⟨s, rfl | hs, rfl⟩
    · exact .inl rfl
    · exact .inr ⟨s, hs, rfl⟩

/-! ## Quoted texts -/

/-- The scan for the closing quote; `esc`: the previous byte is a backslash. -/
def bodyOkB (q : Byte) (esc : Bool) : Str → Bool
  | [] => !esc
  | x :: s => if x = 92 then bodyOkB q true s else (esc || x != q) && bodyOkB q false s

theorem bodyOkB_iff (q : Byte) (hq : q ≠ 92) : ∀ (s : Str) (esc : Bool), bodyOkB q esc s = true ↔
    (∀ u v, s = u ++ q :: v → (u = [] ∧ esc = true) ∨ ∃ u', u = u' ++ [92]) ∧
      (s = [] → esc = false) ∧ ∀ u, s ≠ u ++ [92] := by
  intro s
  induction s with
  | nil => intro esc; simp [bodyOkB]
  | cons x s ih =>
    intro esc
    have shift : (∀ u v, x :: s = u ++ q :: v → (u = [] ∧ esc = true) ∨ ∃ u', u = u' ++ [92]) ↔
        ((x = q → esc = true) ∧ ∀ u v, s = u ++ q :: v → (u = [] ∧ x = 92) ∨ ∃ u', u = u' ++ [92]) := by
      constructor
      · intro h
        refine ⟨fun e => ?_, fun u v e => ?_⟩
        · rcases h [] s (by rw [e]; rfl) with ⟨_, h⟩ | ⟨u', h⟩
          · exact h
          · simp at h
        · rcases h (x :: u) v (by rw [e]; rfl) with ⟨h, _⟩ | ⟨u', h⟩
          · cases h
          · cases u' with
            | nil => simp at h; exact .inl ⟨h.2, h.1⟩
            | cons y u' => simp at h; exact .inr ⟨u', h.2⟩
      · rintro ⟨h1, h2⟩ u v e
        cases u with
        | nil => simp at e; exact .inl ⟨rfl, h1 e.1⟩
        | cons y u =>
          simp at e
          obtain ⟨rfl, e⟩ := e
          rcases h2 u v e with ⟨rfl, rfl⟩ | ⟨u', rfl⟩
          · exact .inr ⟨[], rfl⟩
          · exact .inr ⟨x :: u', rfl⟩
    rw [shift]
    have tail : (∀ u, x :: s ≠ u ++ [92]) ↔ ((s = [] → x ≠ 92) ∧ ∀ u, s ≠ u ++ [92]) := by
      constructor
      · intro h
        refine ⟨fun e e' => h [] (by rw [e, e']; rfl), fun u e => h (x :: u) (by rw [e]; rfl)⟩
      · rintro ⟨h1, h2⟩ u e
        cases u with
        | nil => simp at e; exact h1 e.2 e.1
        | cons y u => simp at e; exact h2 u e.2
    rw [tail]
    simp only [bodyOkB]
    by_cases hx : x = 92
    · subst hx
      rw [if_pos rfl, ih true]
      simp only [and_true, reduceCtorEq, imp_false, false_implies, true_and, ne_eq, not_true]
      constructor
      · rintro ⟨h1, h2, h3⟩
        exact ⟨⟨fun e => absurd e.symm hq, h1⟩, h2, h3⟩
      · rintro ⟨⟨_, h1⟩, h2, h3⟩
        exact ⟨h1, h2, h3⟩
    · rw [if_neg hx, Bool.and_eq_true, ih false]
      simp only [hx, and_false, false_or, reduceCtorEq, imp_false, false_implies, true_and, ne_eq, not_false_eq_true,
        implies_true]
      constructor
      · rintro ⟨h0, h1, h3⟩
        refine ⟨⟨fun e => ?_, h1⟩, h3⟩
        subst e
        simpa using h0
      · rintro ⟨⟨h0, h1⟩, h3⟩
        refine ⟨?_, h1, h3⟩
        by_cases e : x = q
        · simp [h0 e]
        · simp [e]

theorem quoted_ok_iff {quotes : List Byte} (h92 : 92 ∉ quotes) (x : Quoted) :
    x.Ok quotes ↔ x.quote ∈ quotes ∧ bodyOkB x.quote false x.body = true := by
  unfold Quoted.Ok
  constructor
  · rintro ⟨h1, h2, h3⟩
    refine ⟨h1, (bodyOkB_iff _ (fun e => h92 (e ▸ h1)) _ _).mpr ⟨?_, by simp, h3⟩⟩
    intro u v e
    exact .inr (h2 u v e)
  · rintro ⟨h1, h2⟩
    obtain ⟨h2, _, h3⟩ := (bodyOkB_iff _ (fun e => h92 (e ▸ h1)) _ _).mp h2
    refine ⟨h1, fun u v e => ?_, h3⟩
    rcases h2 u v e with ⟨_, h⟩ | h
    · cases h
    · exact h

/-- What may follow a backslash in a quoted text. -/
def escTail (q : Nat) : G := many (chr '\\') ⬝ set (fun b => b < 256 && b != 92) ⬝ body q

theorem lang_many_cons {g : G} (hg : ∀ u, Lang g u → ∃ b u', u = Sym.ch b :: u') {b : Byte} {w : List Sym} :
    Lang (many g) (.ch b :: w) ↔ ∃ u v, Lang g (.ch b :: u) ∧ Lang (many g) v ∧ w = u ++ v := by
  constructor
  · intro h
    rw [many, lang_star] at h
    obtain ⟨ws, h1, h2⟩ := h
    cases ws with
    | nil => simp at h2
    | cons u ws =>
      simp only [List.mem_cons, forall_eq_or_imp] at h1
      obtain ⟨b', u', rfl⟩ := hg u h1.1
      simp only [List.flatten_cons, List.cons_append, List.cons.injEq, Sym.ch.injEq] at h2
      obtain ⟨rfl, rfl⟩ := h2
      exact ⟨u', ws.flatten, h1.1, lang_star.mpr ⟨ws, h1.2, rfl⟩, rfl⟩
  · rintro ⟨u, v, h1, h2, rfl⟩
    exact Lang.starCons h1 h2

theorem lang_many_nil {g : G} : Lang (many g) [] := .starNil

theorem lang_set_cons {f : Nat → Bool} {b : Byte} {u : List Sym} : Lang (set f) (.ch b :: u) ↔ f b.toNat = true ∧ u = [] := by
  rw [lang_set]
  constructor
  · rintro ⟨b', h, e⟩; simp at e; obtain ⟨rfl, rfl⟩ := e; exact ⟨h, rfl⟩
  · rintro ⟨h, rfl⟩; exact ⟨b, h, rfl⟩

theorem lang_bslash {w} : Lang (chr '\\') w ↔ w = [.ch 92] := lang_chr (by decide)

theorem lang_bodyItem_cons {q : Nat} {b : Byte} {u : List Sym} : Lang (bodyItem q) (.ch b :: u) ↔
    (b.toNat ≠ q ∧ b ≠ 92 ∧ u = []) ∨ (b = 92 ∧ Lang (many (chr '\\') ⬝ set (fun b => b < 256 && b != 92)) u) := by
  have h256 := UInt8.toNat_lt b
  have h92 : b.toNat ≠ 92 ↔ b ≠ 92 := by rw [ne_eq, ne_eq, byte_eq]; rfl
  rw [bodyItem, lang_alt, lang_set_cons, plus, lang_seq]
  constructor
  · rintro (⟨h, rfl⟩ | ⟨u', v, h1, h2, h3⟩)
    · simp at h
      exact .inl ⟨h.1.2, h92.mp h.2, rfl⟩
    · rw [lang_seq] at h1
      obtain ⟨x, y, h4, h5, rfl⟩ := h1
      rw [lang_bslash] at h4
      subst h4
      simp at h3
      obtain ⟨rfl, rfl⟩ := h3
      exact .inr ⟨rfl, lang_seq.mpr ⟨_, _, h5, h2, rfl⟩⟩
  · rintro (⟨h1, h2, rfl⟩ | ⟨rfl, h⟩)
    · left; simp; exact ⟨⟨h256, h1⟩, h92.mpr h2⟩
    · right
      obtain ⟨y, v, h5, h2, rfl⟩ := lang_seq.mp h
      exact ⟨_, v, lang_seq.mpr ⟨[.ch 92], y, lang_bslash.mpr rfl, h5, rfl⟩, h2, rfl⟩

theorem lang_bodyItem_head {q : Nat} {u : List Sym} (h : Lang (bodyItem q) u) : ∃ b u', u = Sym.ch b :: u' := by
  rw [bodyItem, lang_alt, lang_set] at h
  rcases h with ⟨b, _, rfl⟩ | h
  · exact ⟨_, _, rfl⟩
  · rw [plus, lang_seq] at h
    obtain ⟨u', v, h1, h2, rfl⟩ := h
    rw [lang_seq] at h1
    obtain ⟨x, y, h4, h5, rfl⟩ := h1
    rw [lang_bslash] at h4
    subst h4
    exact ⟨_, _, rfl⟩

theorem lang_body_cons {q : Nat} {b : Byte} {w : List Sym} : Lang (body q) (.ch b :: w) ↔
    (b.toNat ≠ q ∧ b ≠ 92 ∧ Lang (body q) w) ∨ (b = 92 ∧ Lang (escTail q) w) := by
  rw [body, lang_many_cons (fun u => lang_bodyItem_head)]
  simp only [lang_bodyItem_cons]
  constructor
  · rintro ⟨u, v, ⟨h1, h2, rfl⟩ | ⟨rfl, h⟩, hv, rfl⟩
    · exact .inl ⟨h1, h2, hv⟩
    · right
      obtain ⟨x, y, h5, h6, rfl⟩ := lang_seq.mp h
      exact ⟨rfl, lang_seq.mpr ⟨x, _, h5, lang_seq.mpr ⟨y, v, h6, hv, rfl⟩, by simp⟩⟩
  · rintro (⟨h1, h2, hv⟩ | ⟨rfl, h⟩)
    · exact ⟨[], w, .inl ⟨h1, h2, rfl⟩, hv, rfl⟩
    · obtain ⟨x, y, h5, h6, rfl⟩ := lang_seq.mp h
      obtain ⟨y, v, h7, hv, rfl⟩ := lang_seq.mp h6
      exact ⟨x ++ y, v, .inr ⟨rfl, lang_seq.mpr ⟨_, _, h5, h7, rfl⟩⟩, hv, by simp⟩

theorem lang_escTail_cons {q : Nat} {b : Byte} {w : List Sym} : Lang (escTail q) (.ch b :: w) ↔
    (b = 92 ∧ Lang (escTail q) w) ∨ (b ≠ 92 ∧ Lang (body q) w) := by
  have h256 := UInt8.toNat_lt b
  have h92 : b.toNat ≠ 92 ↔ b ≠ 92 := by rw [ne_eq, ne_eq, byte_eq]; rfl
  constructor
  · intro h
    obtain ⟨x, y, h5, h6, e⟩ := lang_seq.mp h
    cases x with
    | nil =>
      obtain ⟨y, v, h7, hv, rfl⟩ := lang_seq.mp h6
      obtain ⟨b', hb, rfl⟩ := lang_set.mp h7
      simp at e hb
      obtain ⟨rfl, rfl⟩ := e
      exact .inr ⟨h92.mp hb.2, hv⟩
    | cons a x =>
      simp at e
      obtain ⟨rfl, rfl⟩ := e
      obtain ⟨u, v, h1, h2, rfl⟩ := (lang_many_cons (fun u h => ⟨_, _, lang_bslash.mp h⟩)).mp h5
      have := lang_bslash.mp h1
      simp at this
      obtain ⟨rfl, rfl⟩ := this
      exact .inl ⟨rfl, lang_seq.mpr ⟨v, y, h2, h6, rfl⟩⟩
  · rintro (⟨rfl, h⟩ | ⟨h1, h2⟩)
    · obtain ⟨x, y, h5, h6, rfl⟩ := lang_seq.mp h
      exact lang_seq.mpr ⟨.ch 92 :: x, y, Lang.starCons (u := [.ch 92]) (lang_bslash.mpr rfl) h5, h6, rfl⟩
    · refine lang_seq.mpr ⟨[], _, .starNil, lang_seq.mpr ⟨[.ch b], w, lang_set.mpr ⟨b, ?_, rfl⟩, h2, rfl⟩, rfl⟩
      simp; exact ⟨h256, h92.mpr h1⟩

theorem lang_escTail_nil {q : Nat} : ¬ Lang (escTail q) [] := by
  intro h
  obtain ⟨x, y, h5, h6, e⟩ := lang_seq.mp h
  obtain ⟨y, v, h7, hv, rfl⟩ := lang_seq.mp h6
  obtain ⟨b', hb, rfl⟩ := lang_set.mp h7
  simp at e

theorem lang_body_iff {q : Byte} : ∀ (s : Str),
    (Lang (body q.toNat) (chs s) ↔ bodyOkB q false s = true) ∧ (Lang (escTail q.toNat) (chs s) ↔ bodyOkB q true s = true) := by
  intro s
  induction s with
  | nil =>
    exact ⟨by simp [bodyOkB, chs]; exact .starNil, by simp [bodyOkB, chs]; exact lang_escTail_nil⟩
  | cons x s ih =>
    have hq : x.toNat ≠ q.toNat ↔ x ≠ q := by rw [ne_eq, ne_eq, byte_eq]
    rw [chs_cons, lang_body_cons, lang_escTail_cons, ih.1, ih.2, hq]
    simp only [bodyOkB]
    by_cases hx : x = 92
    · simp [hx]
    · simp [hx]

theorem lang_many_isChs {g : G} (hg : ∀ u, Lang g u → ∃ s, u = chs s) {w : List Sym} (h : Lang (many g) w) :
    ∃ s, w = chs s := by
  rw [many, lang_star] at h
  obtain ⟨ws, h1, rfl⟩ := h
  induction ws with
  | nil => exact ⟨[], rfl⟩
  | cons u ws ih =>
    simp only [List.mem_cons, forall_eq_or_imp] at h1
    obtain ⟨s, rfl⟩ := hg u h1.1
    obtain ⟨t, ht⟩ := ih h1.2
    exact ⟨s ++ t, by simp [ht, chs_append]⟩

theorem lang_body {q : Byte} {w} : Lang (body q.toNat) w ↔ ∃ s, bodyOkB q false s = true ∧ w = chs s := by
  constructor
  · intro h
    have : ∃ s, w = chs s := by
      refine lang_many_isChs (fun u hu => ?_) h
      rw [bodyItem, lang_alt, lang_set] at hu
      rcases hu with ⟨b, _, rfl⟩ | hu
      · exact ⟨[b], rfl⟩
      · rw [plus, lang_seq] at hu
        obtain ⟨u', v, h1, h2, rfl⟩ := hu
        rw [lang_seq] at h1
        obtain ⟨x, y, h4, h5, rfl⟩ := h1
        rw [lang_bslash] at h4
        obtain ⟨b, _, rfl⟩ := lang_set.mp h2
        obtain ⟨t, rfl⟩ := lang_many_isChs (fun u hu => ⟨[92], lang_bslash.mp hu⟩) h5
        subst h4
        exact ⟨92 :: t ++ [b], by simp [chs]⟩
    obtain ⟨s, rfl⟩ := this
    exact ⟨s, (lang_body_iff s).1.mp h, rfl⟩
  · rintro ⟨s, h, rfl⟩
    exact (lang_body_iff s).1.mpr h

/-- The word of a quoted text. -/
def quotedWord (stop : Act) (x : Quoted) : List Sym :=
  .ch x.quote :: .act .tkStart :: (chs x.body ++ [.act stop, .ch x.quote])

theorem lang_delimited {q : Char} (hq : q.toNat < 256) {stop w} :
    Lang (delimited q stop) w ↔ ∃ s, bodyOkB (chB q) false s = true ∧ w = quotedWord stop ⟨chB q, s⟩ := by
  have hb : q.toNat = (chB q).toNat := by rw [chB, UInt8.toNat_ofNat_of_lt' hq]
  simp only [delimited, lang_seq, lang_chr hq, lang_act, hb, lang_body]
  constructor
  · rintro ⟨_, _, rfl, ⟨_, _, rfl, ⟨_, _, ⟨s, hs, rfl⟩, ⟨_, _, rfl, rfl, rfl⟩, rfl⟩, rfl⟩, rfl⟩
    exact ⟨s, hs, by simp [quotedWord]⟩
  · rintro ⟨s, hs, rfl⟩
    exact ⟨_, _, rfl, ⟨_, _, rfl, ⟨_, _, ⟨s, hs, rfl⟩, ⟨_, _, rfl, rfl, rfl⟩, rfl⟩, rfl⟩, by simp [quotedWord]⟩

theorem lang_quoted {w} : Lang quoted w ↔ ∃ x : Quoted, x.Ok stringQuotes ∧ w = quotedWord .literal x := by
  rw [quoted, lang_alt, lang_delimited (by decide), lang_delimited (by decide)]
  simp only [quoted_ok_iff (show (92 : Byte) ∉ stringQuotes by decide)]
  constructor
  · rintro (⟨s, hs, rfl⟩ | ⟨s, hs, rfl⟩)
    · exact ⟨⟨chB '"', s⟩, ⟨by simp [stringQuotes, regexQuotes]; decide, hs⟩, rfl⟩
    · exact ⟨⟨chB '\'', s⟩, ⟨by simp [stringQuotes, regexQuotes]; decide, hs⟩, rfl⟩
  · rintro ⟨⟨q, s⟩, ⟨h, hs⟩, rfl⟩
    simp only [stringQuotes, List.mem_cons, List.not_mem_nil, or_false] at h
    rcases h with rfl | rfl
    · exact .inl ⟨s, hs, rfl⟩
    · exact .inr ⟨s, hs, rfl⟩

def modWord (i : Bool) : List Sym := if i then [.ch 105, .act .icase] else [.ch 99, .act .collate]

def rxWord (r : Rx) : List Sym := quotedWord .tkStop r.lit ++ (r.mods.flatMap modWord ++ [.act .regex])

theorem lang_regexFlag (w) : Lang regexFlag w ↔ ∃ i : Bool, True ∧ w = modWord i := by
  simp only [regexFlag, lang_alt, lang_seq, lang_chr (show 'i'.toNat < 256 by decide),
    lang_chr (show 'c'.toNat < 256 by decide), lang_act]
  constructor
  · rintro (⟨_, _, rfl, rfl, rfl⟩ | ⟨_, _, rfl, rfl, rfl⟩)
    · exact ⟨true, trivial, rfl⟩
    · exact ⟨false, trivial, rfl⟩
  · rintro ⟨i, _, rfl⟩
    cases i
    · exact .inr ⟨_, _, rfl, rfl, rfl⟩
    · exact .inl ⟨_, _, rfl, rfl, rfl⟩

theorem lang_regex {w} : Lang regex w ↔ ∃ r : Rx, r.Ok ∧ w = rxWord r := by
  simp only [regex, lang_seq, lang_alt, lang_delimited (show '/'.toNat < 256 by decide),
    lang_delimited (show '"'.toNat < 256 by decide), lang_delimited (show '\''.toNat < 256 by decide), lang_act,
    lang_many lang_regexFlag, Rx.Ok, quoted_ok_iff (show (92 : Byte) ∉ regexQuotes by decide)]
  constructor
  · rintro ⟨_, _, h, ⟨_, _, ⟨ms, _, rfl⟩, rfl, rfl⟩, rfl⟩
    rcases h with ⟨s, hs, rfl⟩ | ⟨s, hs, rfl⟩ | ⟨s, hs, rfl⟩
    · exact ⟨⟨⟨chB '/', s⟩, ms⟩, ⟨by simp [stringQuotes, regexQuotes]; decide, hs⟩, rfl⟩
    · exact ⟨⟨⟨chB '\'', s⟩, ms⟩, ⟨by simp [stringQuotes, regexQuotes]; decide, hs⟩, rfl⟩
    · exact ⟨⟨⟨chB '"', s⟩, ms⟩, ⟨by simp [stringQuotes, regexQuotes]; decide, hs⟩, rfl⟩
  · rintro ⟨⟨⟨q, s⟩, ms⟩, ⟨h, hs⟩, rfl⟩
    refine ⟨_, _, ?_, ⟨_, _, ⟨ms, by simp, rfl⟩, rfl, rfl⟩, rfl⟩
    simp only [regexQuotes, List.mem_cons, List.not_mem_nil, or_false] at h
    rcases h with rfl | rfl | rfl
    · exact .inl ⟨s, hs, rfl⟩
    · exact .inr (.inl ⟨s, hs, rfl⟩)
    · exact .inr (.inr ⟨s, hs, rfl⟩)

/-! ## Traits -/

def nthWord : Nth → List Sym
  | .even => chs (lit "even") ++ [.act .nthEven]
  | .odd => chs (lit "odd") ++ [.act .nthOdd]
  | .number n d => .act .tkStart :: (chs (sign n ++ d) ++ [.act .nthNumber])
  | .step n d => .act .tkStart :: (chs (sign n ++ d) ++ [.act .nthNumber, .ch 110, .act .nthStep])
  | .linear n d m e => .act .tkStart :: (chs (sign n ++ d) ++ ([.act .nthNumber, .ch 110, .act .nthStep, .act .tkStart] ++
      (chs ((if m then 45 else 43) :: e) ++ [.act .nthShift])))

theorem lang_sign {w} : Lang (opt (chr '-')) w ↔ ∃ n, w = chs (sign n) := by
  rw [lang_opt, lang_chr (by decide)]
  constructor
  · rintro (rfl | rfl)
    · exact ⟨false, rfl⟩
    · exact ⟨true, rfl⟩
  · rintro ⟨n, rfl⟩
    cases n
    · exact .inl rfl
    · exact .inr rfl

theorem lang_nth {w} : Lang nth w ↔ ∃ n : Nth, n.Ok ∧ w = nthWord n := by
  simp (disch := decide) only [nth, nthStep, nthShift, lang_seq, lang_alt, lang_act, lang_text, ↓lang_sign, lang_digits,
    lang_chr, lang_opt]
  constructor
  · rintro (⟨_, _, rfl, rfl, rfl⟩ | ⟨_, _, rfl, rfl, rfl⟩ | ⟨_, _, rfl, ⟨_, _, ⟨n, rfl⟩, ⟨_, _, ⟨d, hd, rfl⟩, ⟨_, _, rfl, h, rfl⟩, rfl⟩, rfl⟩, rfl⟩)
    · exact ⟨.even, trivial, rfl⟩
    · exact ⟨.odd, trivial, rfl⟩
    · rcases h with rfl | ⟨_, _, rfl, ⟨_, _, rfl, h, rfl⟩, rfl⟩
      · exact ⟨.number n d, hd, by simp [nthWord, chs_append]⟩
      · rcases h with rfl | ⟨_, _, rfl, ⟨_, _, h, ⟨_, _, ⟨e, he, rfl⟩, rfl, rfl⟩, rfl⟩, rfl⟩
        · exact ⟨.step n d, hd, by simp [nthWord, chs_append]; rfl⟩
        · rcases h with rfl | rfl
          · exact ⟨.linear n d false e, ⟨hd, he⟩, by simp [nthWord, chs_append, chs_cons]; exact ⟨rfl, rfl⟩⟩
          · exact ⟨.linear n d true e, ⟨hd, he⟩, by simp [nthWord, chs_append, chs_cons]; exact ⟨rfl, rfl⟩⟩
  · rintro ⟨n, hn, rfl⟩
    cases n with
    | even => exact .inl ⟨_, _, rfl, rfl, rfl⟩
    | odd => exact .inr (.inl ⟨_, _, rfl, rfl, rfl⟩)
    | number n d =>
      exact .inr (.inr ⟨_, _, rfl, ⟨_, _, ⟨n, rfl⟩, ⟨_, _, ⟨d, hn, rfl⟩, ⟨_, _, rfl, .inl rfl, rfl⟩, rfl⟩, rfl⟩,
        by simp [nthWord, chs_append]⟩)
    | step n d =>
      refine .inr (.inr ⟨_, _, rfl, ⟨_, _, ⟨n, rfl⟩, ⟨_, _, ⟨d, hn, rfl⟩, ⟨_, _, rfl, .inr ⟨_, _, rfl, ⟨_, _, rfl, .inl rfl, rfl⟩, rfl⟩, rfl⟩, rfl⟩, rfl⟩,
        by simp [nthWord, chs_append]; rfl⟩)
    | linear n d m e =>
      have hm : chs [if m then 45 else 43] = [.ch (chB '+')] ∨ chs [if m then 45 else 43] = [.ch (chB '-')] := by
        cases m
        · exact .inl rfl
        · exact .inr rfl
      refine .inr (.inr ⟨_, _, rfl, ⟨_, _, ⟨n, rfl⟩, ⟨_, _, ⟨d, hn.1, rfl⟩, ⟨_, _, rfl, .inr ⟨_, _, rfl, ⟨_, _, rfl, .inr
        ⟨_, _, rfl, ⟨_, _, hm, ⟨_, _, ⟨e, hn.2, rfl⟩, rfl, rfl⟩, rfl⟩, rfl⟩, rfl⟩, rfl⟩, rfl⟩, rfl⟩, rfl⟩,
        by simp [nthWord, chs_append, chs_cons, chs_nil]; rfl⟩)

def traitWord : Trait → List Sym
  | .empty => chs (lit ":empty") ++ [.act .traitEmpty]
  | .childCount d => chs (lit ":child-count(") ++ (.act .tkStart :: (chs d ++ [.act .traitChildCount, .ch 41]))
  | .attributeCount d => chs (lit ":attribute-count(") ++ (.act .tkStart :: (chs d ++ [.act .traitAttributeCount, .ch 41]))
  | .nth true false n => chs (lit ":nth-child(") ++ (nthWord n ++ [.ch 41, .act (.traitNth true false)])
  | .nth false false n => chs (lit ":nth-last-child(") ++ (nthWord n ++ [.ch 41, .act (.traitNth false false)])
  | .nth true true n => chs (lit ":nth-of-type(") ++ (nthWord n ++ [.ch 41, .act (.traitNth true true)])
  | .nth false true n => chs (lit ":nth-last-of-type(") ++ (nthWord n ++ [.ch 41, .act (.traitNth false true)])
  | .endmost true false => chs (lit ":first-child") ++ [.act (.traitEnd true false)]
  | .endmost true true => chs (lit ":first-of-type") ++ [.act (.traitEnd true true)]
  | .endmost false false => chs (lit ":last-child") ++ [.act (.traitEnd false false)]
  | .endmost false true => chs (lit ":last-of-type") ++ [.act (.traitEnd false true)]
  | .only false => chs (lit ":only-child") ++ [.act (.traitOnly false)]
  | .only true => chs (lit ":only-of-type") ++ [.act (.traitOnly true)]
  | .typeMatches r => chs (lit ":type-matches(") ++ (rxWord r ++ [.ch 41, .act .traitTypeRegex])

theorem lang_trait (w) : Lang trait w ↔ ∃ t : Trait, t.Ok ∧ w = traitWord t := by
  simp (disch := decide) only [trait, traitBody, lang_seq, lang_alt, lang_act, lang_text, lang_digits, lang_nth, lang_regex,
    lang_chr]
  constructor
  · rintro ⟨_, _, rfl, h, rfl⟩
    rcases h with ⟨_, _, rfl, rfl, rfl⟩ | ⟨_, _, rfl, ⟨_, _, rfl, ⟨_, _, ⟨d, hd, rfl⟩, ⟨_, _, rfl, rfl, rfl⟩, rfl⟩, rfl⟩, rfl⟩ |
      ⟨_, _, rfl, ⟨_, _, rfl, ⟨_, _, ⟨d, hd, rfl⟩, ⟨_, _, rfl, rfl, rfl⟩, rfl⟩, rfl⟩, rfl⟩ |
      ⟨_, _, rfl, ⟨_, _, ⟨n, hn, rfl⟩, ⟨_, _, rfl, rfl, rfl⟩, rfl⟩, rfl⟩ |
      ⟨_, _, rfl, ⟨_, _, ⟨n, hn, rfl⟩, ⟨_, _, rfl, rfl, rfl⟩, rfl⟩, rfl⟩ |
      ⟨_, _, rfl, ⟨_, _, ⟨n, hn, rfl⟩, ⟨_, _, rfl, rfl, rfl⟩, rfl⟩, rfl⟩ |
      ⟨_, _, rfl, rfl, rfl⟩ | ⟨_, _, rfl, rfl, rfl⟩ | ⟨_, _, rfl, rfl, rfl⟩ | ⟨_, _, rfl, rfl, rfl⟩ |
      ⟨_, _, rfl, ⟨_, _, ⟨n, hn, rfl⟩, ⟨_, _, rfl, rfl, rfl⟩, rfl⟩, rfl⟩ |
      ⟨_, _, rfl, rfl, rfl⟩ | ⟨_, _, rfl, rfl, rfl⟩ |
      ⟨_, _, rfl, ⟨_, _, ⟨r, hr, rfl⟩, ⟨_, _, rfl, rfl, rfl⟩, rfl⟩, rfl⟩
    · exact ⟨.empty, trivial, rfl⟩
    · exact ⟨.childCount d, hd, rfl⟩
    · exact ⟨.attributeCount d, hd, rfl⟩
    · exact ⟨.nth true false n, hn, rfl⟩
    · exact ⟨.nth false false n, hn, rfl⟩
    · exact ⟨.nth true true n, hn, rfl⟩
    · exact ⟨.endmost true false, trivial, rfl⟩
    · exact ⟨.endmost true true, trivial, rfl⟩
    · exact ⟨.endmost false false, trivial, rfl⟩
    · exact ⟨.endmost false true, trivial, rfl⟩
    · exact ⟨.nth false true n, hn, rfl⟩
    · exact ⟨.only false, trivial, rfl⟩
    · exact ⟨.only true, trivial, rfl⟩
    · exact ⟨.typeMatches r, hr, rfl⟩
  · rintro ⟨t, ht, rfl⟩
    cases t with
    | empty => exact ⟨_, _, rfl, .inl ⟨_, _, rfl, rfl, rfl⟩, rfl⟩
    | childCount d =>
      exact ⟨_, _, rfl, .inr (.inl ⟨_, _, rfl, ⟨_, _, rfl, ⟨_, _, ⟨d, ht, rfl⟩, ⟨_, _, rfl, rfl, rfl⟩, rfl⟩, rfl⟩, rfl⟩), rfl⟩
    | attributeCount d =>
      exact ⟨_, _, rfl, .inr (.inr (.inl ⟨_, _, rfl, ⟨_, _, rfl, ⟨_, _, ⟨d, ht, rfl⟩, ⟨_, _, rfl, rfl, rfl⟩, rfl⟩, rfl⟩, rfl⟩)), rfl⟩
    | nth first ofType n =>
      have X : ∀ a, ∃ u v, (∃ n' : Nth, n'.Ok ∧ u = nthWord n') ∧
        (∃ u' v', u' = [Sym.ch (chB ')')] ∧ v' = [Sym.act a] ∧ v = u' ++ v') ∧ nthWord n ++ [.ch 41, .act a] = u ++ v :=
        fun a => ⟨_, _, ⟨n, ht, rfl⟩, ⟨_, _, rfl, rfl, rfl⟩, rfl⟩
      cases first <;> cases ofType
      · exact ⟨_, _, rfl, .inr (.inr (.inr (.inr (.inl ⟨_, _, rfl, X _, rfl⟩)))), rfl⟩
      · exact ⟨_, _, rfl, .inr (.inr (.inr (.inr (.inr (.inr (.inr (.inr (.inr (.inr (.inl ⟨_, _, rfl, X _, rfl⟩)))))))))), rfl⟩
      · exact ⟨_, _, rfl, .inr (.inr (.inr (.inl ⟨_, _, rfl, X _, rfl⟩))), rfl⟩
      · exact ⟨_, _, rfl, .inr (.inr (.inr (.inr (.inr (.inl ⟨_, _, rfl, X _, rfl⟩))))), rfl⟩
    | endmost first ofType =>
      cases first <;> cases ofType
      · exact ⟨_, _, rfl, .inr (.inr (.inr (.inr (.inr (.inr (.inr (.inr (.inl ⟨_, _, rfl, rfl, rfl⟩)))))))), rfl⟩
      · exact ⟨_, _, rfl, .inr (.inr (.inr (.inr (.inr (.inr (.inr (.inr (.inr (.inl ⟨_, _, rfl, rfl, rfl⟩))))))))), rfl⟩
      · exact ⟨_, _, rfl, .inr (.inr (.inr (.inr (.inr (.inr (.inl ⟨_, _, rfl, rfl, rfl⟩)))))), rfl⟩
      · exact ⟨_, _, rfl, .inr (.inr (.inr (.inr (.inr (.inr (.inr (.inl ⟨_, _, rfl, rfl, rfl⟩))))))), rfl⟩
    | only ofType =>
      cases ofType
      · exact ⟨_, _, rfl, .inr (.inr (.inr (.inr (.inr (.inr (.inr (.inr (.inr (.inr (.inr (.inl ⟨_, _, rfl, rfl, rfl⟩))))))))))), rfl⟩
      · exact ⟨_, _, rfl, .inr (.inr (.inr (.inr (.inr (.inr (.inr (.inr (.inr (.inr (.inr (.inr (.inl ⟨_, _, rfl, rfl, rfl⟩)))))))))))), rfl⟩
    | typeMatches r =>
      exact ⟨_, _, rfl, .inr (.inr (.inr (.inr (.inr (.inr (.inr (.inr (.inr (.inr (.inr (.inr (.inr
        ⟨_, _, rfl, ⟨_, _, ⟨r, ht, rfl⟩, ⟨_, _, rfl, rfl, rfl⟩, rfl⟩, rfl⟩)))))))))))), rfl⟩

def condWord : Cond → List Sym
  | .trait t => traitWord t ++ [.act .appendTrait]
  | .not ts => chs (lit ":not(") ++ (.act .negateNew :: (ts.flatMap (fun t => traitWord t ++ [.act .negateAppend]) ++
      [.ch 41, .act .appendNegate]))

theorem lang_ruleTrait (w) : Lang ruleTrait w ↔ ∃ c : Cond, c.Ok ∧ w = condWord c := by
  have h1 : ∀ w, Lang (trait ⬝ .act .negateAppend) w ↔ ∃ t : Trait, t.Ok ∧ w = traitWord t ++ [.act .negateAppend] := by
    intro w
    simp only [lang_seq, lang_trait, lang_act]
    constructor
    · rintro ⟨_, _, ⟨t, ht, rfl⟩, rfl, rfl⟩; exact ⟨t, ht, rfl⟩
    · rintro ⟨t, ht, rfl⟩; exact ⟨_, _, ⟨t, ht, rfl⟩, rfl, rfl⟩
  simp (disch := decide) only [ruleTrait, notTrait, lang_alt, lang_seq, lang_text, lang_act, lang_plus h1, lang_chr, lang_trait]
  constructor
  · rintro (⟨_, _, ⟨_, _, rfl, ⟨_, _, rfl, ⟨_, _, ⟨ts, h2, h3, rfl⟩, rfl, rfl⟩, rfl⟩, rfl⟩, rfl, rfl⟩ | ⟨_, _, ⟨t, ht, rfl⟩, rfl, rfl⟩)
    · exact ⟨.not ts, ⟨h2, h3⟩, by simp [condWord]; rfl⟩
    · exact ⟨.trait t, ht, rfl⟩
  · rintro ⟨c, hc, rfl⟩
    cases c with
    | trait t => exact .inr ⟨_, _, ⟨t, hc, rfl⟩, rfl, rfl⟩
    | not ts =>
      exact .inl ⟨_, _, ⟨_, _, rfl, ⟨_, _, rfl, ⟨_, _, ⟨ts, hc.1, hc.2, rfl⟩, rfl, rfl⟩, rfl⟩, rfl⟩, rfl, by simp [condWord]; rfl⟩

/-! ## Patterns -/

def fnWord : Fn → List Sym
  | .text => chs (lit "@text") ++ [.act .builtinText]
  | .innerHtml => chs (lit "@inner-html") ++ [.act .builtinInnerHtml]
  | .stripTags => chs (lit "@strip-tags") ++ [.act .builtinStripTags]

theorem lang_builtin {w} : Lang builtin w ↔ ∃ f : Fn, w = fnWord f := by
  simp (disch := decide) only [builtin, lang_alt, lang_seq, lang_text, lang_act, lang_chr]
  constructor
  · rintro ⟨_, _, rfl, ⟨_, _, rfl, rfl, rfl⟩ | ⟨_, _, rfl, rfl, rfl⟩ | ⟨_, _, rfl, rfl, rfl⟩, rfl⟩
    · exact ⟨.text, rfl⟩
    · exact ⟨.innerHtml, rfl⟩
    · exact ⟨.stripTags, rfl⟩
  · rintro ⟨f, rfl⟩
    cases f
    · exact ⟨_, _, rfl, .inl ⟨_, _, rfl, rfl, rfl⟩, rfl⟩
    · exact ⟨_, _, rfl, .inr (.inl ⟨_, _, rfl, rfl, rfl⟩), rfl⟩
    · exact ⟨_, _, rfl, .inr (.inr ⟨_, _, rfl, rfl, rfl⟩), rfl⟩

def pipeTail : PipeS → List Sym
  | .trim => chs (lit "trim") ++ [.act .pipeTrim]
  | .trimChars q => chs (lit "trim(") ++ (quotedWord .literal q ++ [.ch 41, .act .pipeTrimLiteral])
  | .collapsews => chs (lit "collapsews") ++ [.act .pipeCollapseWs]
  | .tolower => chs (lit "tolower") ++ [.act .pipeToLower]
  | .toupper => chs (lit "toupper") ++ [.act .pipeToUpper]
  | .prepend q => chs (lit "prepend(") ++ (quotedWord .literal q ++ [.ch 41, .act .pipePrepend])
  | .append q => chs (lit "append(") ++ (quotedWord .literal q ++ [.ch 41, .act .pipeAppend])
  | .filter r => chs (lit "filter(") ++ (rxWord r ++ [.ch 41, .act .pipeFilter])
  | .replace r ws1 ws2 q => chs (lit "replace(") ++ (rxWord r ++ (chs ws1 ++ (.ch 44 :: (chs ws2 ++
      (quotedWord .literal q ++ [.ch 41, .act .pipeReplace])))))

def pipeWord (p : PipeS) : List Sym := .ch 58 :: .act .tkStart :: pipeTail p

theorem lang_pipe (w) : Lang pipe w ↔ ∃ p : PipeS, p.Ok ∧ w = pipeWord p := by
  simp (disch := decide) only [pipe, lang_seq, lang_alt, lang_act, lang_text, lang_quoted, lang_regex, lang_chr, lang_many_space]
  constructor
  · rintro ⟨_, _, rfl, ⟨_, _, rfl, h, rfl⟩, rfl⟩
    rcases h with ⟨_, _, rfl, rfl, rfl⟩ | ⟨_, _, rfl, ⟨_, _, ⟨q, hq, rfl⟩, ⟨_, _, rfl, rfl, rfl⟩, rfl⟩, rfl⟩ |
      ⟨_, _, rfl, rfl, rfl⟩ | ⟨_, _, rfl, rfl, rfl⟩ | ⟨_, _, rfl, rfl, rfl⟩ |
      ⟨_, _, rfl, ⟨_, _, ⟨q, hq, rfl⟩, ⟨_, _, rfl, rfl, rfl⟩, rfl⟩, rfl⟩ |
      ⟨_, _, rfl, ⟨_, _, ⟨q, hq, rfl⟩, ⟨_, _, rfl, rfl, rfl⟩, rfl⟩, rfl⟩ |
      ⟨_, _, rfl, ⟨_, _, ⟨r, hr, rfl⟩, ⟨_, _, rfl, rfl, rfl⟩, rfl⟩, rfl⟩ |
      ⟨_, _, rfl, ⟨_, _, ⟨r, hr, rfl⟩, ⟨_, _, ⟨ws1, h1, rfl⟩, ⟨_, _, rfl, ⟨_, _, ⟨ws2, h2, rfl⟩, ⟨_, _, ⟨q, hq, rfl⟩,
        ⟨_, _, rfl, rfl, rfl⟩, rfl⟩, rfl⟩, rfl⟩, rfl⟩, rfl⟩, rfl⟩
    · exact ⟨.trim, trivial, rfl⟩
    · exact ⟨.trimChars q, hq, rfl⟩
    · exact ⟨.collapsews, trivial, rfl⟩
    · exact ⟨.tolower, trivial, rfl⟩
    · exact ⟨.toupper, trivial, rfl⟩
    · exact ⟨.prepend q, hq, rfl⟩
    · exact ⟨.append q, hq, rfl⟩
    · exact ⟨.filter r, hr, rfl⟩
    · exact ⟨.replace r ws1 ws2 q, ⟨hr, h1, h2, hq⟩, rfl⟩
  · rintro ⟨p, hp, rfl⟩
    refine ⟨_, pipeWord p |>.tail, rfl, ⟨_, pipeTail p, rfl, ?_, rfl⟩, rfl⟩
    cases p with
    | trim => exact .inl ⟨_, _, rfl, rfl, rfl⟩
    | trimChars q => exact .inr (.inl ⟨_, _, rfl, ⟨_, _, ⟨q, hp, rfl⟩, ⟨_, _, rfl, rfl, rfl⟩, rfl⟩, rfl⟩)
    | collapsews => exact .inr (.inr (.inl ⟨_, _, rfl, rfl, rfl⟩))
    | tolower => exact .inr (.inr (.inr (.inl ⟨_, _, rfl, rfl, rfl⟩)))
    | toupper => exact .inr (.inr (.inr (.inr (.inl ⟨_, _, rfl, rfl, rfl⟩))))
    | prepend q =>
      exact .inr (.inr (.inr (.inr (.inr (.inl ⟨_, _, rfl, ⟨_, _, ⟨q, hp, rfl⟩, ⟨_, _, rfl, rfl, rfl⟩, rfl⟩, rfl⟩)))))
    | append q =>
      exact .inr (.inr (.inr (.inr (.inr (.inr (.inl ⟨_, _, rfl, ⟨_, _, ⟨q, hp, rfl⟩, ⟨_, _, rfl, rfl, rfl⟩, rfl⟩, rfl⟩))))))
    | filter r =>
      exact .inr (.inr (.inr (.inr (.inr (.inr (.inr (.inl ⟨_, _, rfl, ⟨_, _, ⟨r, hp, rfl⟩, ⟨_, _, rfl, rfl, rfl⟩, rfl⟩, rfl⟩)))))))
    | replace r ws1 ws2 q =>
      exact .inr (.inr (.inr (.inr (.inr (.inr (.inr (.inr ⟨_, _, rfl, ⟨_, _, ⟨r, hp.1, rfl⟩, ⟨_, _, ⟨ws1, hp.2.1, rfl⟩,
        ⟨_, _, rfl, ⟨_, _, ⟨ws2, hp.2.2.1, rfl⟩, ⟨_, _, ⟨q, hp.2.2.2, rfl⟩, ⟨_, _, rfl, rfl, rfl⟩, rfl⟩, rfl⟩, rfl⟩, rfl⟩,
        rfl⟩, rfl⟩)))))))

def capNameWord : CapName → List Sym
  | .quoted q => quotedWord .literal q ++ [.act .capVarLiteral]
  | .plain s => .act .tkStart :: (chs s ++ [.act .capVarToken])

def captureWord (ps : List PipeS) (n : CapName) : List Sym := ps.flatMap pipeWord ++ (.ch 58 :: capNameWord n)

theorem lang_capture {w} : Lang capture w ↔ ∃ ps n, ((∀ p ∈ ps, PipeS.Ok p) ∧ n.Ok) ∧ w = captureWord ps n := by
  simp (disch := decide) only [capture, lang_seq, lang_alt, lang_act, lang_quoted, lang_chr, lang_many lang_pipe, lang_plus_set, isVarN_iff]
  constructor
  · rintro ⟨_, _, ⟨ps, hps, rfl⟩, ⟨_, _, rfl, h, rfl⟩, rfl⟩
    rcases h with ⟨_, _, ⟨q, hq, rfl⟩, rfl, rfl⟩ | ⟨_, _, rfl, ⟨_, _, ⟨s, h1, h2, rfl⟩, rfl, rfl⟩, rfl⟩
    · exact ⟨ps, .quoted q, ⟨hps, hq⟩, rfl⟩
    · exact ⟨ps, .plain s, ⟨hps, h1, h2⟩, rfl⟩
  · rintro ⟨ps, n, ⟨hps, hn⟩, rfl⟩
    refine ⟨_, _, ⟨ps, hps, rfl⟩, ⟨_, capNameWord n, rfl, ?_, rfl⟩, rfl⟩
    cases n with
    | quoted q => exact .inl ⟨_, _, ⟨q, hn, rfl⟩, rfl, rfl⟩
    | plain s => exact .inr ⟨_, _, rfl, ⟨_, _, ⟨s, hn.1, hn.2, rfl⟩, rfl, rfl⟩, rfl⟩

def opAct : Op → Act
  | .words => .testWords
  | .equals => .testEquals
  | .beginsWith => .testBeginsWith
  | .contains => .testContains
  | .endsWith => .testEndsWith

def testWord : Test → List Sym
  | .op o q => chs o.text ++ (quotedWord .literal q ++ [.act (opAct o)])
  | .regex r => chs (lit "=~") ++ (rxWord r ++ [.act .regexTest])

theorem lang_test {w} : (Lang regexTest w ∨ Lang matchArg w) ↔ ∃ t : Test, t.Ok ∧ w = testWord t := by
  simp (disch := decide) only [regexTest, matchArg, lang_seq, lang_alt, lang_act, lang_quoted, lang_text, lang_regex]
  constructor
  · rintro (⟨_, _, rfl, ⟨_, _, ⟨r, hr, rfl⟩, rfl, rfl⟩, rfl⟩ | ⟨_, _, rfl, ⟨_, _, ⟨q, hq, rfl⟩, rfl, rfl⟩, rfl⟩ |
      ⟨_, _, rfl, ⟨_, _, ⟨q, hq, rfl⟩, rfl, rfl⟩, rfl⟩ | ⟨_, _, rfl, ⟨_, _, ⟨q, hq, rfl⟩, rfl, rfl⟩, rfl⟩ |
      ⟨_, _, rfl, ⟨_, _, ⟨q, hq, rfl⟩, rfl, rfl⟩, rfl⟩ | ⟨_, _, rfl, ⟨_, _, ⟨q, hq, rfl⟩, rfl, rfl⟩, rfl⟩)
    · exact ⟨.regex r, hr, rfl⟩
    · exact ⟨.op .words q, hq, rfl⟩
    · exact ⟨.op .equals q, hq, rfl⟩
    · exact ⟨.op .beginsWith q, hq, rfl⟩
    · exact ⟨.op .contains q, hq, rfl⟩
    · exact ⟨.op .endsWith q, hq, rfl⟩
  · rintro ⟨t, ht, rfl⟩
    cases t with
    | regex r => exact .inl ⟨_, _, rfl, ⟨_, _, ⟨r, ht, rfl⟩, rfl, rfl⟩, rfl⟩
    | op o q =>
      right
      cases o
      · exact .inl ⟨_, _, rfl, ⟨_, _, ⟨q, ht, rfl⟩, rfl, rfl⟩, rfl⟩
      · exact .inr (.inl ⟨_, _, rfl, ⟨_, _, ⟨q, ht, rfl⟩, rfl, rfl⟩, rfl⟩)
      · exact .inr (.inr (.inl ⟨_, _, rfl, ⟨_, _, ⟨q, ht, rfl⟩, rfl, rfl⟩, rfl⟩))
      · exact .inr (.inr (.inr (.inl ⟨_, _, rfl, ⟨_, _, ⟨q, ht, rfl⟩, rfl, rfl⟩, rfl⟩)))
      · exact .inr (.inr (.inr (.inr ⟨_, _, rfl, ⟨_, _, ⟨q, ht, rfl⟩, rfl, rfl⟩, rfl⟩)))

def negWord (neg : Bool) : List Sym := if neg then [.ch 33, .act .negateTest] else []
def optWord (o : Bool) : List Sym := if o then [.ch 63, .act .optional] else []

theorem lang_negate {w} : Lang (opt negate) w ↔ ∃ n, w = negWord n := by
  simp (disch := decide) only [lang_opt, negate, lang_seq, lang_act, lang_chr]
  constructor
  · rintro (rfl | ⟨_, _, rfl, rfl, rfl⟩)
    · exact ⟨false, rfl⟩
    · exact ⟨true, rfl⟩
  · rintro ⟨n, rfl⟩
    cases n
    · exact .inl rfl
    · exact .inr ⟨_, _, rfl, rfl, rfl⟩

theorem lang_optional {w} : Lang (opt Grammar.optional) w ↔ ∃ n, w = optWord n := by
  simp (disch := decide) only [lang_opt, Grammar.optional, lang_seq, lang_act, lang_chr]
  constructor
  · rintro (rfl | ⟨_, _, rfl, rfl, rfl⟩)
    · exact ⟨false, rfl⟩
    · exact ⟨true, rfl⟩
  · rintro ⟨n, rfl⟩
    cases n
    · exact .inl rfl
    · exact .inr ⟨_, _, rfl, rfl, rfl⟩

def attrWord (a : Str) : List Sym := .act .tkStart :: (chs a ++ [.act .attrName])

theorem lang_attrName {w} : Lang Grammar.attrName w ↔ ∃ a, IsName a ∧ w = attrWord a := by
  simp only [Grammar.attrName, lang_seq, lang_act, lang_name]
  constructor
  · rintro ⟨_, _, rfl, ⟨_, _, ⟨a, ha, rfl⟩, rfl, rfl⟩, rfl⟩; exact ⟨a, ha, rfl⟩
  · rintro ⟨a, ha, rfl⟩; exact ⟨_, _, rfl, ⟨_, _, ⟨a, ha, rfl⟩, rfl, rfl⟩, rfl⟩

def patWord : Pat → List Sym
  | .capFn fn ps n => fnWord fn ++ (captureWord ps n ++ [.act .captureFunction])
  | .capAttr a ps n o => attrWord a ++ (captureWord ps n ++ (optWord o ++ [.act .captureAttribute]))
  | .testFn fn t neg => fnWord fn ++ (testWord t ++ (negWord neg ++ [.act .matchFunction]))
  | .testAttr a t neg => attrWord a ++ (testWord t ++ (negWord neg ++ [.act .matchAttribute]))
  | .hasAttr a neg => attrWord a ++ (.act .testNull :: (negWord neg ++ [.act .matchAttribute]))

def wsPatWord (p : Str × Pat) : List Sym := chs p.1 ++ (patWord p.2 ++ [.act .reset])

theorem lang_pattern (w) : Lang pattern w ↔
    ∃ p : Str × Pat, (p.1 ≠ [] ∧ (∀ b ∈ p.1, IsSpace b) ∧ p.2.Ok) ∧ w = wsPatWord p := by
  simp only [pattern, lang_seq, lang_alt, lang_act, lang_plus_space, lang_builtin, lang_capture, lang_negate, lang_optional, lang_attrName]
  constructor
  · rintro ⟨_, _, ⟨ws, h1, h2, rfl⟩, ⟨_, _, h, rfl, rfl⟩, rfl⟩
    rcases h with ⟨_, _, ⟨fn, rfl⟩, ⟨_, _, ⟨ps, n, h3, rfl⟩, rfl, rfl⟩, rfl⟩ | ⟨_, _, ⟨fn, rfl⟩, ⟨_, _, ht, ⟨_, _, ⟨neg, rfl⟩, rfl, rfl⟩, rfl⟩, rfl⟩ |
      ⟨_, _, ⟨fn, rfl⟩, ⟨_, _, ht, ⟨_, _, ⟨neg, rfl⟩, rfl, rfl⟩, rfl⟩, rfl⟩ |
      ⟨_, _, ⟨a, ha, rfl⟩, ⟨_, _, ⟨ps, n, h3, rfl⟩, ⟨_, _, ⟨o, rfl⟩, rfl, rfl⟩, rfl⟩, rfl⟩ |
      ⟨_, _, ⟨a, ha, rfl⟩, ⟨_, _, ht, ⟨_, _, ⟨neg, rfl⟩, rfl, rfl⟩, rfl⟩, rfl⟩ |
      ⟨_, _, ⟨a, ha, rfl⟩, ⟨_, _, ht, ⟨_, _, ⟨neg, rfl⟩, rfl, rfl⟩, rfl⟩, rfl⟩ |
      ⟨_, _, ⟨a, ha, rfl⟩, ⟨_, _, rfl, ⟨_, _, ⟨neg, rfl⟩, rfl, rfl⟩, rfl⟩, rfl⟩
    · exact ⟨(ws, .capFn fn ps n), ⟨h1, h2, h3⟩, by simp [wsPatWord, patWord]⟩
    · obtain ⟨t, ht', rfl⟩ := lang_test.mp (.inl ht)
      exact ⟨(ws, .testFn fn t neg), ⟨h1, h2, ht'⟩, by simp [wsPatWord, patWord]⟩
    · obtain ⟨t, ht', rfl⟩ := lang_test.mp (.inr ht)
      exact ⟨(ws, .testFn fn t neg), ⟨h1, h2, ht'⟩, by simp [wsPatWord, patWord]⟩
    · exact ⟨(ws, .capAttr a ps n o), ⟨h1, h2, ha, h3⟩, by simp [wsPatWord, patWord]⟩
    · obtain ⟨t, ht', rfl⟩ := lang_test.mp (.inl ht)
      exact ⟨(ws, .testAttr a t neg), ⟨h1, h2, ha, ht'⟩, by simp [wsPatWord, patWord]⟩
    · obtain ⟨t, ht', rfl⟩ := lang_test.mp (.inr ht)
      exact ⟨(ws, .testAttr a t neg), ⟨h1, h2, ha, ht'⟩, by simp [wsPatWord, patWord]⟩
    · exact ⟨(ws, .hasAttr a neg), ⟨h1, h2, ha⟩, by simp [wsPatWord, patWord]⟩
  · rintro ⟨⟨ws, p⟩, ⟨h1, h2, hp⟩, rfl⟩
    refine ⟨_, _, ⟨ws, h1, h2, rfl⟩, ⟨patWord p, _, ?_, rfl, rfl⟩, rfl⟩
    cases p with
    | capFn fn ps n => exact .inl ⟨_, _, ⟨fn, rfl⟩, ⟨_, _, ⟨ps, n, hp, rfl⟩, rfl, rfl⟩, rfl⟩
    | capAttr a ps n o =>
      exact .inr (.inr (.inr (.inl ⟨_, _, ⟨a, hp.1, rfl⟩, ⟨_, _, ⟨ps, n, hp.2, rfl⟩, ⟨_, _, ⟨o, rfl⟩, rfl, rfl⟩, rfl⟩, rfl⟩)))
    | testFn fn t neg =>
      rcases lang_test.mpr ⟨t, hp, rfl⟩ with ht | ht
      · exact .inr (.inl ⟨_, _, ⟨fn, rfl⟩, ⟨_, _, ht, ⟨_, _, ⟨neg, rfl⟩, rfl, rfl⟩, rfl⟩, rfl⟩)
      · exact .inr (.inr (.inl ⟨_, _, ⟨fn, rfl⟩, ⟨_, _, ht, ⟨_, _, ⟨neg, rfl⟩, rfl, rfl⟩, rfl⟩, rfl⟩))
    | testAttr a t neg =>
      rcases lang_test.mpr ⟨t, hp.2, rfl⟩ with ht | ht
      · exact .inr (.inr (.inr (.inr (.inl ⟨_, _, ⟨a, hp.1, rfl⟩, ⟨_, _, ht, ⟨_, _, ⟨neg, rfl⟩, rfl, rfl⟩, rfl⟩, rfl⟩))))
      · exact .inr (.inr (.inr (.inr (.inr (.inl ⟨_, _, ⟨a, hp.1, rfl⟩, ⟨_, _, ht, ⟨_, _, ⟨neg, rfl⟩, rfl, rfl⟩, rfl⟩, rfl⟩)))))
    | hasAttr a neg =>
      exact .inr (.inr (.inr (.inr (.inr (.inr ⟨_, _, ⟨a, hp, rfl⟩, ⟨_, _, rfl, ⟨_, _, ⟨neg, rfl⟩, rfl, rfl⟩, rfl⟩, rfl⟩)))))

/-! ## Items -/

def optionWord (o : Bool) : List Sym := if o then [.ch 63, .act .ruleOptional] else [.ch 43, .act .ruleGreedy]

theorem lang_ruleOption (w) : Lang ruleOption w ↔ ∃ o : Bool, True ∧ w = optionWord o := by
  simp (disch := decide) only [ruleOption, lang_alt, lang_seq, lang_chr, lang_act]
  constructor
  · rintro (⟨_, _, rfl, rfl, rfl⟩ | ⟨_, _, rfl, rfl, rfl⟩)
    · exact ⟨true, trivial, rfl⟩
    · exact ⟨false, trivial, rfl⟩
  · rintro ⟨i, _, rfl⟩
    cases i
    · exact .inr ⟨_, _, rfl, rfl, rfl⟩
    · exact .inl ⟨_, _, rfl, rfl, rfl⟩

def headWord (h : Head) : List Sym :=
  .ch 60 :: .act .pushRule :: (h.options.flatMap optionWord ++ (.act .tkStart :: (chs h.tag ++ (.act .openTag ::
    (h.conds.flatMap condWord ++ (h.pats.flatMap wsPatWord ++ chs h.ws))))))

def itemWord : Item → List Sym
  | .space b => [.ch b]
  | .comment s => chs (35 :: s ++ [10])
  | .lbrace => [.ch 123, .act .pushNested]
  | .rbrace => [.ch 125, .act .popNested]
  | .start h true => headWord h ++ [.ch 47, .ch 62, .act .popRule]
  | .start h false => headWord h ++ [.ch 62]
  | .stop t => chs (lit "</") ++ (.act .tkStart :: (chs t ++ [.act .closeTag, .ch 62]))

theorem not_newline (b : Byte) : (decide (b.toNat < 256) && b.toNat != 10) = true ↔ b ≠ 10 := by
  have := UInt8.toNat_lt b
  simp [byte_eq, this]

theorem lang_item (w) : Lang item w ↔ ∃ i : Item, i.Ok ∧ w = itemWord i := by
  simp (disch := decide) only [item, comment, openRule, closeRule, lang_alt, lang_seq, lang_act, lang_text, lang_chr, lang_space,
    lang_many_set, lang_many lang_ruleOption, lang_tag, lang_many lang_ruleTrait, lang_many lang_pattern, lang_many_space, not_newline]
  constructor
  · rintro (⟨b, hb, rfl⟩ | ⟨_, _, rfl, ⟨_, _, ⟨s, hs, rfl⟩, rfl, rfl⟩, rfl⟩ | ⟨_, _, rfl, rfl, rfl⟩ | ⟨_, _, rfl, rfl, rfl⟩ |
      ⟨_, _, rfl, ⟨_, _, rfl, ⟨_, _, ⟨os, _, rfl⟩, ⟨_, _, rfl, ⟨_, _, ⟨t, ht, rfl⟩, ⟨_, _, rfl, ⟨_, _, ⟨cs, hc, rfl⟩,
        ⟨_, _, ⟨ps, hps, rfl⟩, ⟨_, _, ⟨ws, hws, rfl⟩, h, rfl⟩, rfl⟩, rfl⟩, rfl⟩, rfl⟩, rfl⟩, rfl⟩, rfl⟩, rfl⟩ |
      ⟨_, _, rfl, ⟨_, _, rfl, ⟨_, _, ⟨t, ht, rfl⟩, ⟨_, _, rfl, rfl, rfl⟩, rfl⟩, rfl⟩, rfl⟩)
    · exact ⟨.space b, hb, rfl⟩
    · exact ⟨.comment s, fun h => hs 10 h rfl, by simp [itemWord, chs]; exact ⟨rfl, rfl⟩⟩
    · exact ⟨.lbrace, trivial, rfl⟩
    · exact ⟨.rbrace, trivial, rfl⟩
    · rcases h with ⟨_, _, rfl, rfl, rfl⟩ | rfl
      · exact ⟨.start ⟨os, t, cs, ps, ws⟩ true, ⟨ht, hc, hps, hws⟩, by simp [itemWord, headWord]; exact ⟨rfl, rfl⟩⟩
      · exact ⟨.start ⟨os, t, cs, ps, ws⟩ false, ⟨ht, hc, hps, hws⟩, by simp [itemWord, headWord]; exact ⟨rfl, rfl⟩⟩
    · exact ⟨.stop t, ht, rfl⟩
  · rintro ⟨i, hi, rfl⟩
    cases i with
    | space b => exact .inl ⟨b, hi, rfl⟩
    | comment s =>
      exact .inr (.inl ⟨_, _, rfl, ⟨_, _, ⟨s, fun b hb e => hi (e ▸ hb), rfl⟩, rfl, rfl⟩, by simp [itemWord, chs]; exact ⟨rfl, rfl⟩⟩)
    | lbrace => exact .inr (.inr (.inl ⟨_, _, rfl, rfl, rfl⟩))
    | rbrace => exact .inr (.inr (.inr (.inl ⟨_, _, rfl, rfl, rfl⟩)))
    | start h sc =>
      have hend : (∃ u v, u = chs (lit "/>") ∧ v = [Sym.act .popRule] ∧
          (if sc then [.ch 47, .ch 62, .act .popRule] else [.ch 62]) = u ++ v) ∨
          (if sc then [.ch 47, .ch 62, .act .popRule] else [.ch 62]) = [Sym.ch (chB '>')] := by
        cases sc
        · exact .inr rfl
        · exact .inl ⟨_, _, rfl, rfl, rfl⟩
      refine .inr (.inr (.inr (.inr (.inl ⟨_, _, rfl, ⟨_, _, rfl, ⟨_, _, ⟨h.options, by simp, rfl⟩, ⟨_, _, rfl, ⟨_, _, ⟨h.tag, hi.1, rfl⟩,
        ⟨_, _, rfl, ⟨_, _, ⟨h.conds, hi.2.1, rfl⟩, ⟨_, _, ⟨h.pats, hi.2.2.1, rfl⟩, ⟨_, _, ⟨h.ws, hi.2.2.2, rfl⟩, hend, rfl⟩, rfl⟩, rfl⟩,
        rfl⟩, rfl⟩, rfl⟩, rfl⟩, rfl⟩, ?_⟩))))
      cases sc <;> simp [itemWord, headWord] <;> rfl
    | stop t => exact .inr (.inr (.inr (.inr (.inr ⟨_, _, rfl, ⟨_, _, rfl, ⟨_, _, ⟨t, hi, rfl⟩, ⟨_, _, rfl, rfl, rfl⟩, rfl⟩, rfl⟩, rfl⟩))))

def itemsWord (is : List Item) : List Sym := is.flatMap itemWord

/-- The words of the grammar are the words of lists of items. -/
theorem lang_main (w) : Lang Grammar.main w ↔ ∃ is : List Item, (∀ i ∈ is, i.Ok) ∧ w = itemsWord is :=
  lang_many lang_item w

/-! ## The bytes of the words -/

theorem chars_append' (u v : List Sym) : chars (u ++ v) = chars u ++ chars v := by
  induction u with
  | nil => rfl
  | cons x u ih => cases x <;> simp [chars, ih]

theorem chars_flatMap {α} (f : α → List Sym) (l : List α) : chars (l.flatMap f) = l.flatMap fun x => chars (f x) := by
  induction l with
  | nil => rfl
  | cons x l ih => simp [chars_append', ih]

theorem chars_quotedWord (stop : Act) (x : Quoted) : chars (quotedWord stop x) = x.text := by
  simp [quotedWord, chars, chars_append', chars_chs, Quoted.text]

theorem chars_rxWord (r : Rx) : chars (rxWord r) = r.text := by
  have : chars (r.mods.flatMap modWord) = r.mods.map fun i => if i then 105 else 99 := by
    rw [chars_flatMap]
    induction r.mods with
    | nil => rfl
    | cons i l ih => cases i <;> simp only [List.flatMap_cons, ih] <;> rfl
  simp [rxWord, chars_append', chars_quotedWord, this, chars, Rx.text]

theorem chars_nthWord (n : Nth) : chars (nthWord n) = n.text := by
  cases n <;> simp [nthWord, chars, chars_append', chars_chs, Nth.text, lit]

theorem chars_traitWord (t : Trait) : chars (traitWord t) = t.text := by
  cases t with
  | nth first ofType n => cases first <;> cases ofType <;> simp [traitWord, chars, chars_append', chars_chs, Trait.text, lit, chars_nthWord]
  | endmost first ofType => cases first <;> cases ofType <;> simp [traitWord, chars, chars_append', chars_chs, Trait.text, lit]
  | only ofType => cases ofType <;> simp [traitWord, chars, chars_append', chars_chs, Trait.text, lit]
  | typeMatches r => simp [traitWord, chars, chars_append', chars_chs, Trait.text, lit, chars_rxWord]
  | _ => simp [traitWord, chars, chars_append', chars_chs, Trait.text, lit]

theorem chars_condWord (t : Cond) : chars (condWord t) = t.text := by
  cases t with
  | trait t => simp [condWord, chars, chars_append', Cond.text, chars_traitWord]
  | not ts => simp [condWord, chars, chars_append', chars_chs, Cond.text, chars_traitWord, chars_flatMap, lit]

theorem chars_fnWord (f : Fn) : chars (fnWord f) = f.name := by
  cases f <;> simp [fnWord, chars, chars_append', chars_chs, Fn.name]

theorem chars_pipeWord (t : PipeS) : chars (pipeWord t) = t.text := by
  cases t <;> simp [pipeWord, pipeTail, chars, chars_append', chars_chs, chars_quotedWord, chars_rxWord, PipeS.text, lit]

theorem chars_captureWord (ps : List PipeS) (n : CapName) : chars (captureWord ps n) = ps.flatMap PipeS.text ++ 58 :: n.text := by
  cases n <;> simp [captureWord, capNameWord, chars, chars_append', chars_flatMap, chars_pipeWord, chars_quotedWord, chars_chs, CapName.text]

theorem chars_testWord (t : Test) : chars (testWord t) = t.text := by
  cases t <;> simp [testWord, chars, chars_append', chars_chs, chars_quotedWord, chars_rxWord, Test.text]

theorem chars_attrWord (a : Str) : chars (attrWord a) = a := by
  simp [attrWord, chars, chars_append', chars_chs]

theorem chars_negWord (n : Bool) : chars (negWord n) = bang n := by cases n <;> rfl

theorem chars_patWord (p : Pat) : chars (patWord p) = p.text := by
  cases p with
  | capAttr a ps n o =>
    cases o <;> simp [patWord, optWord, chars, chars_append', chars_attrWord, chars_captureWord, Pat.text]
  | _ => simp [patWord, chars, chars_append', chars_fnWord, chars_attrWord, chars_captureWord, chars_testWord, chars_negWord, Pat.text]

theorem chars_headWord (h : Head) : chars (headWord h) = h.text := by
  have h1 : ∀ l : List Bool, l.flatMap (fun x => chars (optionWord x)) = l.map (fun o => if o then 63 else 43) := by
    intro l
    induction l with
    | nil => rfl
    | cons o l ih => cases o <;> simp only [List.flatMap_cons, ih] <;> rfl
  simp [headWord, chars, chars_append', chars_flatMap, h1, chars_chs, chars_condWord, wsPatWord, chars_patWord, Head.text, patsText]

theorem chars_itemWord (i : Item) : chars (itemWord i) = i.text := by
  cases i with
  | start h sc => cases sc <;> simp [itemWord, chars, chars_append', chars_headWord, Item.text, lit]
  | comment s => simp only [itemWord, chars_chs, Item.text]
  | _ => simp [itemWord, chars, chars_append', chars_chs, Item.text, lit]

theorem chars_itemsWord (is : List Item) : chars (itemsWord is) = itemsText is := by
  simp [itemsWord, chars_flatMap, chars_itemWord, itemsText]

end Hext
