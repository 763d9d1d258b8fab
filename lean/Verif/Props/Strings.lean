import Verif.Proofs.Values
/-!
# Properties of strings, value tests and pipes (C23, C24, C26, C27, C28, C29)
-/

namespace Hext.Props

open Hext Spec

/-! ## C26: whitespace collapsing -/

/-- C26. `TrimAndCollapseWs` (and so the `collapsews` pipe) never goes out of bounds and returns the
words of its argument joined by single spaces. -/
theorem collapseWs_correct (s : Str) : trimAndCollapseWs s = pure (unwords (words s)) :=
  trimAndCollapseWs_eq s

example : trimAndCollapseWs (lit " \t a  b\n c ") = pure (lit "a b c") := by
  rw [collapseWs_correct]; decide

theorem wordsBy_flatten (sep : Byte → Bool) (s : Str) :
    (wordsBy sep s).flatten = s.filter (fun c => !sep c) := by
  induction s with
  | nil => rfl
  | cons c s ih =>
    by_cases hc : sep c = true
    · rw [wordsBy_cons_sep hc, ih]; simp [hc]
    · have hc' : sep c = false := by simpa using hc
      cases s with
      | nil => simp [wordsBy, hc']
      | cons d s =>
        rw [wordsBy_cons_nonsep hc']
        split
        · simp only [List.flatten_cons, ih]; simp [hc']
        · rename_i hd
          have hne := wordsBy_ne_nil (s := s) (sep := sep) (c := d) (by simpa using hd)
          obtain ⟨w, ws, hww⟩ := List.exists_cons_of_ne_nil hne
          rw [hww] at ih ⊢
          simp only [List.flatten_cons, List.cons_append] at ih ⊢
          rw [ih]; simp [hc']

/-- What the words are: concatenating them gives the string without its whitespace... -/
theorem words_flatten (s : Str) : (words s).flatten = s.filter (fun c => !decide (Ws c)) :=
  wordsBy_flatten _ s

/-- ... and each word is non-empty and free of whitespace. -/
theorem words_are_words (s : Str) : ∀ w ∈ words s, w ≠ [] ∧ ∀ c ∈ w, ¬ Ws c := by
  intro w hw
  have := wordsBy_isWord _ s w hw
  exact ⟨this.1, fun c hc => by simpa using this.2 c hc⟩

/-- C26. Normal form: the result has the same words as the argument; it has no whitespace byte
other than the space, none at either end and no two in a row. -/
theorem collapseWs_normal_form (s t : Str) (h : trimAndCollapseWs s = pure t) :
    words t = words s ∧
    (∀ c ∈ t, Ws c → c = 32) ∧
    (∀ x, t ≠ 32 :: x) ∧
    (∀ x, t ≠ x ++ [32]) ∧
    (∀ x y, t ≠ x ++ 32 :: 32 :: y) := by
  rw [collapseWs_correct] at h
  have ht : t = unwords (words s) := (E.pure_inj h).symm
  have hw : ∀ w ∈ words s, IsWord (fun c => decide (Ws c)) w := wordsBy_isWord _ s
  subst ht
  have hsp : (fun c => decide (Ws c)) 32 = true := by decide
  have key : ∀ (ws : List Str), (∀ w ∈ ws, IsWord (fun c => decide (Ws c)) w) →
      (∀ c ∈ unwords ws, Ws c → c = 32) ∧ (∀ x, unwords ws ≠ 32 :: x) ∧
      (∀ x, unwords ws ≠ x ++ [32]) ∧ (∀ x y, unwords ws ≠ x ++ 32 :: 32 :: y) := by
    intro ws
    induction ws with
    | nil => intro _; simp [unwords]
    | cons w ws ih =>
      intro hws
      have hw0 := hws w (by simp)
      have hnws : ∀ c ∈ w, ¬ Ws c := fun c hc => by simpa using hw0.2 c hc
      have hn32 : (32 : Byte) ∉ w := fun h => hnws 32 h (by decide)
      obtain ⟨c0, w', rfl⟩ := List.exists_cons_of_ne_nil hw0.1
      have hc0 : c0 ≠ 32 := fun h => hn32 (by simp [h])
      have hlast : ∀ x, c0 :: w' ≠ x ++ [32] := by
        intro x h; exact hn32 (by rw [h]; simp)
      have hdbl : ∀ x y, c0 :: w' ≠ x ++ 32 :: 32 :: y := by
        intro x y h; exact hn32 (by rw [h]; simp)
      cases ws with
      | nil =>
        simp only [unwords]
        refine ⟨fun c hc h => absurd h (hnws c hc), ?_, hlast, hdbl⟩
        intro x h; injection h with h _; exact hc0 h
      | cons v ws =>
        obtain ⟨i1, i2, i3, i4⟩ := ih (fun x hx => hws x (by simp [hx]))
        have hne : unwords (v :: ws) ≠ [] := by
          have hv := (hws v (by simp)).1
          cases ws <;> simp [unwords, hv]
        rw [show unwords ((c0 :: w') :: v :: ws) = (c0 :: w') ++ 32 :: unwords (v :: ws) from rfl]
        generalize unwords (v :: ws) = u at *
        refine ⟨?_, ?_, ?_, ?_⟩
        · intro c hc h
          rcases List.mem_append.1 hc with h1 | h1
          · exact absurd h (hnws c h1)
          · rcases List.mem_cons.1 h1 with h1 | h1
            · exact h1
            · exact i1 c h1 h
        · intro x h
          simp only [List.cons_append] at h
          injection h with h _; exact hc0 h
        · intro x h
          obtain ⟨a, b, hu⟩ : ∃ a b, u = a ++ [b] := by
            refine ⟨u.dropLast, u.getLast hne, (List.dropLast_concat_getLast hne).symm⟩
          have h2 : (c0 :: w' ++ 32 :: a) ++ [b] = x ++ [32] := by
            rw [hu] at h; simpa using h
          have h3 := (List.append_inj' h2 rfl).2
          exact i3 a (by rw [hu, h3])
        · intro x y h
          have := List.append_eq_append_iff.1 h
          rcases this with ⟨a, h1, h2⟩ | ⟨a, h1, h2⟩
          · -- the double space lies in ` :: u`
            cases a with
            | nil =>
              simp at h2; exact i2 y h2
            | cons e a =>
              simp only [List.cons_append] at h2
              injection h2 with h3 h4
              exact i4 a y h4
          · cases a with
            | nil => simp at h2; exact i2 y h2.symm
            | cons e a =>
              simp only [List.cons_append] at h2
              injection h2 with h3 h4
              subst h3
              exact hn32 (by rw [h1]; simp)
  obtain ⟨k1, k2, k3, k4⟩ := key (words s) hw
  exact ⟨wordsBy_unwords _ hsp _ hw, k1, k2, k3, k4⟩

/-- C26. Collapsing twice changes nothing. -/
theorem collapseWs_idempotent (s t : Str) (h : trimAndCollapseWs s = pure t) :
    trimAndCollapseWs t = pure t := by
  rw [collapseWs_correct] at h
  have ht : t = unwords (words s) := (E.pure_inj h).symm
  subst ht
  have hsp : (fun c => decide (Ws c)) 32 = true := by decide
  have : words (unwords (words s)) = words s := wordsBy_unwords _ hsp _ (wordsBy_isWord _ s)
  rw [collapseWs_correct, this]

/-! ## C27: trim -/

/-- C27. `trim` removes a prefix and a suffix made of listed characters, and what remains neither
starts nor ends with a listed character. Together these say that the removed ends are maximal. -/
theorem trim_correct (rx : RxEngine) (chars s : Str) :
    ∃ pre t post, (Transform.trim chars).transform rx s = pure t ∧
      s = pre ++ t ++ post ∧ (∀ c ∈ pre, c ∈ chars) ∧ (∀ c ∈ post, c ∈ chars) ∧
      (∀ c u, t = c :: u → c ∉ chars) ∧ (∀ c u, t = u ++ [c] → c ∉ chars) := by
  obtain ⟨pre, post, h, h1, h2, h3, h4⟩ := trimAnyOf_split chars s
  refine ⟨pre, trimAnyOf chars s, post, rfl, h, h1, h2, ?_, ?_⟩
  · intro c u hc
    rw [hc] at h3; simpa [headIs] using h3
  · intro c u hc
    rw [hc] at h4; simpa [headIs] using h4

/-- C27. The result is determined: any way to cut listed characters off both ends until neither end
is listed gives the same string. -/
theorem trim_unique (rx : RxEngine) (chars s pre t post : Str)
    (hs : s = pre ++ t ++ post) (h1 : ∀ c ∈ pre, c ∈ chars) (h2 : ∀ c ∈ post, c ∈ chars)
    (h3 : ∀ c u, t = c :: u → c ∉ chars) (h4 : ∀ c u, t = u ++ [c] → c ∉ chars) :
    (Transform.trim chars).transform rx s = pure t := by
  have dropAll : ∀ (p s : Str), (∀ c ∈ p, c ∈ chars) →
      (p ++ s).dropWhile (chars.contains ·) = s.dropWhile (chars.contains ·) := by
    intro p s hp
    induction p with
    | nil => rfl
    | cons c p ih =>
      have hc : c ∈ chars := hp c (by simp)
      rw [List.cons_append, List.dropWhile_cons_of_pos (by simpa using hc)]
      exact ih (fun x hx => hp x (by simp [hx]))
  by_cases ht : t = []
  · subst ht
    have : (s.dropWhile (chars.contains ·)) = [] := by
      have h := dropAll (pre ++ [] ++ post) [] (by
        intro c hc
        simp at hc
        exact hc.elim (h1 c) (h2 c))
      rw [List.append_nil, ← hs] at h
      exact h
    simp only [Transform.transform, trimAnyOf, this]
    rfl
  · obtain ⟨c, u, rfl⟩ := List.exists_cons_of_ne_nil ht
    have e1 : s.dropWhile (chars.contains ·) = c :: u ++ post := by
      rw [hs, List.append_assoc, dropAll _ _ h1]
      have hc := h3 c u rfl
      simp [hc]
    have e2 : (c :: u ++ post).reverse.dropWhile (chars.contains ·) = (c :: u).reverse := by
      rw [List.reverse_append, dropAll _ _ (by simpa using h2)]
      apply dropWhile_of_head
      have hne : c :: u ≠ [] := by simp
      have hl := h4 ((c :: u).getLast hne) (c :: u).dropLast (List.dropLast_concat_getLast hne).symm
      have hrev : (c :: u).reverse = (c :: u).getLast hne :: (c :: u).dropLast.reverse := by
        conv => lhs; rw [← List.dropLast_concat_getLast hne]
        simp
      rw [hrev]
      simpa [headIs] using hl
    simp only [Transform.transform, trimAnyOf, e1, e2, List.reverse_reverse]

example (rx : RxEngine) : (Transform.trim (lit " ;")).transform rx (lit "; a b ;;") = pure (lit "a b") :=
  trim_unique rx _ _ (lit "; ") _ (lit " ;;") (by decide) (by decide) (by decide)
    (by intro c u h; cases h; decide)
    (by intro c u h
        have : (lit "a b").getLast? = some c := by rw [h]; simp
        have h2 : (lit "a b").getLast? = some 98 := by decide
        rw [h2] at this; injection this with this; subst this; decide)

/-- C27. Trimming twice changes nothing. -/
theorem trim_idempotent (rx : RxEngine) (chars s t : Str)
    (h : (Transform.trim chars).transform rx s = pure t) :
    (Transform.trim chars).transform rx t = pure t := by
  obtain ⟨pre, t', post, h1, h2, h3, h4, h5, h6⟩ := trim_correct rx chars s
  rw [h1] at h
  have := E.pure_inj h
  subst this
  exact trim_unique rx chars t' [] t' [] (by simp) (by simp) (by simp) h5 h6

/-! ## C23: string tests -/

theorem pure_true_iff {b : Bool} : (pure b : E Bool) = pure true ↔ b = true :=
  ⟨fun h => E.pure_inj h, fun h => by rw [h]⟩

/-- C23. `^=`: the literal is a prefix of the value. -/
theorem beginsWith_iff (rx : RxEngine) (l s : Str) :
    (ValueTest.beginsWith l).test rx (some s) = pure true ↔ ∃ t, s = l ++ t := by
  simp only [ValueTest.test, pure_true_iff, Bool.and_eq_true, decide_eq_true_eq, beq_iff_eq]
  constructor
  · rintro ⟨_, h⟩
    refine ⟨s.drop l.length, ?_⟩
    conv => rhs; lhs; rw [h]
    exact (List.take_append_drop _ _).symm
  · rintro ⟨t, rfl⟩; simp

example (rx : RxEngine) : (ValueTest.beginsWith (lit "ab")).test rx (some (lit "abc")) = pure true :=
  (beginsWith_iff ..).2 ⟨lit "c", by decide⟩

/-- C23. `$=`: the literal is a suffix of the value. -/
theorem endsWith_iff (rx : RxEngine) (l s : Str) :
    (ValueTest.endsWith l).test rx (some s) = pure true ↔ ∃ t, s = t ++ l := by
  simp only [ValueTest.test]
  split
  · rename_i h
    have : ¬ ∃ t, s = t ++ l := by rintro ⟨t, rfl⟩; simp at h; omega
    simp [this, pure_true_iff]
  · rename_i h
    rw [stdEqual_eq _ _ (by simp; omega)]
    simp only [List.reverse_prefix, pure_true_iff, decide_eq_true_eq]
    constructor
    · rintro ⟨t, h⟩; exact ⟨t, h.symm⟩
    · rintro ⟨t, h⟩; exact ⟨t, h.symm⟩

example (rx : RxEngine) : (ValueTest.endsWith (lit "bc")).test rx (some (lit "abc")) = pure true :=
  (endsWith_iff ..).2 ⟨lit "a", by decide⟩

/-- C23. `*=`: the literal occurs as a contiguous substring. -/
theorem contains_iff (rx : RxEngine) (l s : Str) :
    (ValueTest.contains l).test rx (some s) = pure true ↔ ∃ t u, s = t ++ l ++ u := by
  simp only [ValueTest.test, pure_true_iff]
  cases h : findFrom s l 0 with
  | none =>
    have : ¬ ∃ t u, s = t ++ l ++ u := by
      rintro ⟨t, u, rfl⟩
      exact findFrom_none h t.length (Nat.zero_le _) occAt_of_split
    simp only [Option.isSome_none, Bool.false_eq_true, false_iff]
    exact this
  | some b =>
    have : ∃ t u, s = t ++ l ++ u := ⟨_, _, occAt_split (findFrom_some h).2.1⟩
    exact ⟨fun _ => this, fun _ => rfl⟩

example (rx : RxEngine) : (ValueTest.contains (lit "b")).test rx (some (lit "abc")) = pure true :=
  (contains_iff ..).2 ⟨lit "a", lit "c", by decide⟩

/-- C23. `==`: the value is identical to the literal. -/
theorem equals_iff (rx : RxEngine) (l s : Str) :
    (ValueTest.equals l).test rx (some s) = pure true ↔ s = l := by
  simp only [ValueTest.test, pure_true_iff, beq_iff_eq]
  exact eq_comm

/-- C23. A missing value (null pointer) passes none of the tests. -/
theorem tests_of_null (rx : RxEngine) (l : Str) (ws : List Str) (r : Regex) :
    (ValueTest.beginsWith l).test rx none = pure false ∧
    (ValueTest.endsWith l).test rx none = pure false ∧
    (ValueTest.contains l).test rx none = pure false ∧
    (ValueTest.equals l).test rx none = pure false ∧
    (ValueTest.containsWords ws).test rx none = pure false ∧
    (ValueTest.regex r).test rx none = pure false := ⟨rfl, rfl, rfl, rfl, rfl, rfl⟩

/-! ## C24: word tests -/

/-- C24. `="..."`: with the literal cut at spaces into words, the test holds iff there is at least
one word and every word occurs in the value delimited by spaces or the ends of the value. -/
theorem containsWords_iff (rx : RxEngine) (l s : Str) :
    (mkContainsWords l).test rx (some s) = pure true ↔
      wordsBy (· == 32) l ≠ [] ∧ ∀ w ∈ wordsBy (· == 32) l, OccursAsWord w s := by
  have hsep : (fun c : Byte => [(32 : Byte)].contains c) = (· == 32) := by
    funext c
    by_cases h : c = 32
    · subst h; rfl
    · simp [h]
  obtain ⟨pre, post, hl, h1, h2, h3, h4⟩ := trimAnyOf_split [32] l
  have hw : wordsBy (· == 32) l = wordsBy (· == 32) (trimAnyOf [32] l) := by
    have := wordsBy_trim [32] l
    rw [hsep] at this; exact this.symm
  simp only [mkContainsWords, ValueTest.test]
  by_cases ht : trimAnyOf [32] l = []
  · rw [hw, ht]
    simp only [splitCompress, wordsBy]
    have : containsWord s [] = false := by simp [containsWord]
    constructor
    · intro h
      have := E.pure_inj h
      simp_all
    · rintro ⟨h, _⟩; exact absurd rfl h
  · have hsplit : splitCompress [32] [] (trimAnyOf [32] l) = wordsBy (· == 32) l := by
      rw [splitCompress_eq [32] _ [] (by simp) (Or.inr h3) h4 (Or.inr ht), List.nil_append, hw]
      exact wordsBy_congr (fun c => congrFun hsep c) _
    rw [hsplit]
    have hne : wordsBy (· == 32) l ≠ [] := by
      rw [hw]
      apply wordsBy_ne_nil_of_headIs ht
      rw [hsep] at h3; exact h3
    have hall : (wordsBy (· == 32) l).all (containsWord s ·) = true ↔
        ∀ w ∈ wordsBy (· == 32) l, OccursAsWord w s := by
      rw [List.all_eq_true]
      constructor
      · intro h w hw; exact containsWord_sound (h w hw)
      · intro h w hw
        have hword := wordsBy_isWord _ l w hw
        exact (containsWord_iff hword.1 (fun h32 => by simpa using hword.2 32 h32)).2 (h w hw)
    have hemp : (wordsBy (· == 32) l).isEmpty = false := by simpa using hne
    rw [hemp]
    constructor
    · intro h
      have := E.pure_inj h
      exact ⟨hne, hall.1 (by simpa using this)⟩
    · rintro ⟨_, h⟩
      rw [hall.2 h]; rfl

example (rx : RxEngine) : (mkContainsWords (lit " b  c ")).test rx (some (lit "a c bb b")) = pure true := by
  rw [containsWords_iff]
  refine ⟨by decide, ?_⟩
  have : wordsBy (· == 32) (lit " b  c ") = [lit "b", lit "c"] := by decide
  rw [this]
  intro w hw
  simp at hw
  rcases hw with rfl | rfl
  · exact ⟨lit "a c bb ", [], by decide, Or.inr ⟨lit "a c bb", by decide⟩, Or.inl rfl⟩
  · exact ⟨lit "a ", lit " bb b", by decide, Or.inr ⟨lit "a", by decide⟩, Or.inr ⟨lit "bb b", by decide⟩⟩

/-- C24, direct use of the class with a word list: a word that contains a space can be missed although
it occurs delimited (the scan skips overlapping occurrences). -/
theorem containsWords_overlap_witness (rx : RxEngine) :
    (ValueTest.containsWords [lit "b b"]).test rx (some (lit "xb b b")) = pure false ∧
      OccursAsWord (lit "b b") (lit "xb b b") := by
  refine ⟨by simp only [ValueTest.test]; decide +kernel,
    lit "xb ", [], by decide, Or.inr ⟨lit "xb", by decide⟩, Or.inl rfl⟩

/-- C24. Words in the value are delimited by the space character only: an element with
`class="a<newline>b"` does not pass `class="a"`, although HTML treats a newline as a separator. -/
theorem containsWords_newline_witness (rx : RxEngine) :
    (mkContainsWords (lit "a")).test rx (some (lit "a\nb")) = pure false := by
  simp only [mkContainsWords, ValueTest.test]; decide +kernel

/-! ## C28: pipes -/

/-- The transforms of a chain, first to last. -/
def Pipe.transforms : Pipe → List Transform
  | .last t => [t]
  | .cons t p => t :: Pipe.transforms p

/-- C28. A chain of pipes applies its transforms from left to right. -/
theorem pipe_compose (rx : RxEngine) (p : Pipe) (s : Str) :
    p.pipe rx s = (Pipe.transforms p).foldlM (fun s t => t.transform rx s) s := by
  induction p generalizing s with
  | last t => simp [Pipe.pipe, Pipe.transforms]
  | cons t p ih => simp [Pipe.pipe, Pipe.transforms, ih]

example (rx : RxEngine) :
    (Pipe.cons (.append (lit "x")) (.cons .toUpper (.last (.prepend (lit "p"))))).pipe rx (lit "ab")
      = pure (lit "pABX") := by
  rfl

/-- C28. Appending adds at the end of the chain. -/
theorem pipe_append_transforms (p q : Pipe) :
    Pipe.transforms (p.append q) = Pipe.transforms p ++ Pipe.transforms q := by
  induction p with
  | last t => rfl
  | cons t p ih => simp [Pipe.append, Pipe.transforms, ih]

/-- C28. ... so piping through an appended chain is piping through the first, then the second. -/
theorem pipe_append (rx : RxEngine) (p q : Pipe) (s : Str) :
    (p.append q).pipe rx s = (p.pipe rx s >>= fun t => q.pipe rx t) := by
  simp only [pipe_compose, pipe_append_transforms, List.foldlM_append]

/-- C28. `append` and `prepend`. -/
theorem append_prepend_correct (rx : RxEngine) (x s : Str) :
    (Transform.append x).transform rx s = pure (s ++ x) ∧
    (Transform.prepend x).transform rx s = pure (x ++ s) := ⟨rfl, rfl⟩

/-- C28. Case pipes keep the length and act on each byte: `A`-`Z` become `a`-`z` (and conversely),
every other byte is unchanged. -/
theorem case_correct (rx : RxEngine) (s : Str) :
    ∃ lo up, Transform.toLower.transform rx s = pure lo ∧ Transform.toUpper.transform rx s = pure up ∧
      lo.length = s.length ∧ up.length = s.length ∧
      ∀ (i : Nat) (h : i < s.length) (h1 : i < lo.length) (h2 : i < up.length),
        (65 ≤ s[i].toNat ∧ s[i].toNat ≤ 90 → lo[i].toNat = s[i].toNat + 32 ∧ up[i] = s[i]) ∧
        (97 ≤ s[i].toNat ∧ s[i].toNat ≤ 122 → up[i].toNat + 32 = s[i].toNat ∧ lo[i] = s[i]) ∧
        (s[i].toNat < 65 ∨ (90 < s[i].toNat ∧ s[i].toNat < 97) ∨ 122 < s[i].toNat →
          lo[i] = s[i] ∧ up[i] = s[i]) := by
  refine ⟨s.map toLowerB, s.map toUpperB, rfl, rfl, by simp, by simp, ?_⟩
  intro i h h1 h2
  simp only [List.getElem_map]
  have key : ∀ c : Byte,
      (65 ≤ c.toNat ∧ c.toNat ≤ 90 → (toLowerB c).toNat = c.toNat + 32 ∧ toUpperB c = c) ∧
      (97 ≤ c.toNat ∧ c.toNat ≤ 122 → (toUpperB c).toNat + 32 = c.toNat ∧ toLowerB c = c) ∧
      (c.toNat < 65 ∨ (90 < c.toNat ∧ c.toNat < 97) ∨ 122 < c.toNat →
          toLowerB c = c ∧ toUpperB c = c) := by
    intro c
    have all : ∀ n : Fin 256,
      (65 ≤ (UInt8.ofNat n).toNat ∧ (UInt8.ofNat n).toNat ≤ 90 → (toLowerB (UInt8.ofNat n)).toNat = (UInt8.ofNat n).toNat + 32 ∧ toUpperB (UInt8.ofNat n) = (UInt8.ofNat n)) ∧
      (97 ≤ (UInt8.ofNat n).toNat ∧ (UInt8.ofNat n).toNat ≤ 122 → (toUpperB (UInt8.ofNat n)).toNat + 32 = (UInt8.ofNat n).toNat ∧ toLowerB (UInt8.ofNat n) = (UInt8.ofNat n)) ∧
      ((UInt8.ofNat n).toNat < 65 ∨ (90 < (UInt8.ofNat n).toNat ∧ (UInt8.ofNat n).toNat < 97) ∨ 122 < (UInt8.ofNat n).toNat →
          toLowerB (UInt8.ofNat n) = (UInt8.ofNat n) ∧ toUpperB (UInt8.ofNat n) = (UInt8.ofNat n)) := by
      decide +kernel
    have := all ⟨c.toNat, c.toNat_lt⟩
    simpa using this
  exact key s[i]

/-! ## C29: regex pipes and tests -/

/-- C29. For any regex engine: a regex pipe yields the first group when the match has groups, else the
whole match, else the empty string; the regex test holds iff the engine finds a match. -/
theorem regex_pipe_correct (rx : RxEngine) (r : Regex) (s : Str) :
    (rx.search r (cstr s) = none → (Transform.regex r).transform rx s = pure []) ∧
    (∀ m, rx.search r (cstr s) = some [m] → (Transform.regex r).transform rx s = pure m) ∧
    (∀ m g gs, rx.search r (cstr s) = some (m :: g :: gs) → (Transform.regex r).transform rx s = pure g) := by
  refine ⟨?_, ?_, ?_⟩
  · intro h; simp [Transform.transform, h]
  · intro m h; simp [Transform.transform, h]
  · intro m g gs h; simp [Transform.transform, h]

theorem regex_test_correct (rx : RxEngine) (r : Regex) (s : Str) :
    (ValueTest.regex r).test rx (some s) = pure (rx.search r s).isSome := rfl

/-! ## C22 (tests): negation -/

/-- C22. A negated test is the complement of the test, for null and non-null subjects alike. -/
theorem negateTest_iff (rx : RxEngine) (t : ValueTest) (s : Option Str) (b : Bool) :
    (ValueTest.negate t).test rx s = pure b ↔ t.test rx s = pure (!b) := by
  simp only [ValueTest.test]
  constructor
  · intro h
    match ht : t.test rx s, h with
    | some (.ok c), h =>
      have h' : (pure (!c) : E Bool) = pure b := by rw [← h]; rfl
      have := E.pure_inj h'
      subst this
      simp; rfl
    | some (.error e), h => cases h
    | none, h => cases h
  · intro h; rw [h]; simp

/-- C22. Negating twice restores the meaning. -/
theorem negateTest_involutive (rx : RxEngine) (t : ValueTest) (s : Option Str) (b : Bool) :
    (ValueTest.negate (.negate t)).test rx s = pure b ↔ t.test rx s = pure b := by
  rw [negateTest_iff, negateTest_iff, Bool.not_not]

/-- Every value test returns a truth value: no UB, no divergence. -/
theorem test_total (rx : RxEngine) (t : ValueTest) (s : Option Str) : ∃ b, t.test rx s = pure b := by
  induction t with
  | negate t ih => obtain ⟨b, hb⟩ := ih; exact ⟨!b, by simp [ValueTest.test, hb]⟩
  | endsWith l =>
    cases s with
    | none => exact ⟨_, rfl⟩
    | some s =>
      simp only [ValueTest.test]
      split
      · exact ⟨_, rfl⟩
      · rw [stdEqual_eq _ _ (by simp; omega)]; exact ⟨_, rfl⟩
  | negateNull => exact ⟨_, rfl⟩
  | _ => cases s <;> exact ⟨_, rfl⟩

/-- Every transform and every chain of pipes returns a string. -/
theorem pipe_total (rx : RxEngine) (p : Pipe) (s : Str) : ∃ t, p.pipe rx s = pure t := by
  have tr : ∀ (t : Transform) (s : Str), ∃ u, t.transform rx s = pure u := by
    intro t s
    cases t with
    | collapseWs => exact ⟨_, collapseWs_correct s⟩
    | regex r =>
      simp only [Transform.transform]
      split
      · split <;> exact ⟨_, rfl⟩
      · exact ⟨_, rfl⟩
    | _ => exact ⟨_, rfl⟩
  induction p generalizing s with
  | last t => exact tr t s
  | cons t p ih =>
    obtain ⟨u, hu⟩ := tr t s
    obtain ⟨v, hv⟩ := ih u
    exact ⟨v, by simp [Pipe.pipe, hu, hv]⟩

end Hext.Props
