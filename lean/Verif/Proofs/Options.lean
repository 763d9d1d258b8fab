import Verif.Spec.Options
/-!
# The command line parser of htmlext accepts what is spelled
-/

namespace Hext.Cli

theorem usage_eq (k : Key) : k.usage = ⟨k.long, k.letter, k.takes⟩ := by cases k <;> decide

theorem long_eq (k : Key) : k.usage.name = k.long := by rw [usage_eq]
theorem letter_eq (k : Key) : k.usage.letter = k.letter := by rw [usage_eq]
theorem takes_eq (k : Key) : k.usage.valued = k.takes := by rw [usage_eq]

theorem mem_all (k : Key) : k ∈ Key.all := by cases k <;> decide

theorem filter_single {α : Type} {P : α → Bool} {k : α} : ∀ {l : List α}, l.Nodup →
    (l.filter P = [k] ↔ k ∈ l ∧ P k = true ∧ ∀ x ∈ l, P x = true → x = k)
  | [], _ => by simp
  | a :: l, h => by
    obtain ⟨h1, h2⟩ := List.nodup_cons.1 h
    by_cases ha : P a = true
    · rw [List.filter_cons_of_pos ha]
      constructor
      · intro e
        injection e with e1 e2
        subst e1
        refine ⟨by simp, ha, fun x hx hp => ?_⟩
        rcases List.mem_cons.1 hx with rfl | hx
        · rfl
        · exact absurd hp (by simpa using List.filter_eq_nil_iff.1 e2 x hx)
      · rintro ⟨-, -, h3⟩
        have e := h3 a (by simp) ha
        subst e
        congr 1
        refine List.filter_eq_nil_iff.2 fun x hx hp => ?_
        have := h3 x (List.mem_cons_of_mem _ hx) hp
        subst this
        exact h1 hx
    · rw [List.filter_cons_of_neg ha, filter_single h2]
      constructor
      · rintro ⟨h3, h4, h5⟩
        exact ⟨List.mem_cons_of_mem _ h3, h4, fun x hx hp => by
          rcases List.mem_cons.1 hx with rfl | hx
          · exact absurd hp ha
          · exact h5 x hx hp⟩
      · rintro ⟨h3, h4, h5⟩
        refine ⟨?_, h4, fun x hx => h5 x (List.mem_cons_of_mem _ hx)⟩
        rcases List.mem_cons.1 h3 with rfl | h3
        · exact absurd h4 ha
        · exact h3

theorem filter_all {P : Key → Bool} {k : Key} : Key.all.filter P = [k] ↔ P k = true ∧ ∀ x, P x = true → x = k := by
  rw [filter_single (by decide)]
  constructor
  · rintro ⟨-, h1, h2⟩; exact ⟨h1, fun x => h2 x (mem_all x)⟩
  · rintro ⟨h1, h2⟩; exact ⟨mem_all k, h1, fun x _ => h2 x⟩

theorem fullMatch_iff {name : Str} {k : Key} : k.fullMatch name = true ↔ name = k.long ∨ name = [45, k.letter] := by
  simp only [Key.fullMatch, Bool.or_eq_true, beq_iff_eq]
  constructor <;> rintro (h | h) <;> simp [h]

theorem full_unique {name : Str} {k k' : Key} (h : k.fullMatch name = true) (h' : k'.fullMatch name = true) : k' = k := by
  rw [fullMatch_iff] at h
  rcases h with rfl | rfl <;> revert h' <;> cases k <;> cases k' <;> decide

theorem find_full {name : Str} {k : Key} {approx : Bool} (h : k.fullMatch name = true) : findOption name approx = .ok (some k) := by
  have e : Key.all.filter (Key.fullMatch name) = [k] := filter_all.2 ⟨h, fun x hx => full_unique h hx⟩
  rw [findOption, e]; rfl

theorem find_not_full {name : Str} (h : ∀ k : Key, k.fullMatch name = false) : findOption name false = .ok none := by
  have e : Key.all.filter (Key.fullMatch name) = [] := List.filter_eq_nil_iff.2 fun k _ => by simp [h k]
  rw [findOption, e]; rfl

theorem find_names {name : Str} {k : Key} (hn : name ≠ []) : findOption name true = .ok (some k) ↔ Names name k := by
  simp only [Names, long_eq, letter_eq]
  by_cases hf : ∃ k' : Key, k'.fullMatch name = true
  · obtain ⟨k', hf⟩ := hf
    rw [find_full hf]
    constructor
    · intro e
      cases e
      rcases fullMatch_iff.1 hf with h | h
      · exact .inl h
      · exact .inr (.inl h)
    · intro h
      have : k.fullMatch name = true := by
        rcases h with h | h | ⟨-, h'', h⟩
        · exact fullMatch_iff.2 (.inl h)
        · exact fullMatch_iff.2 (.inr h)
        · rcases fullMatch_iff.1 hf with h' | h'
          · have := h k' (by rw [h']; exact List.prefix_refl _)
            subst this; exact hf
          · subst h'
            revert h''
            cases k <;> cases k' <;> decide
      rw [full_unique this hf]
  · have hf' : ∀ k' : Key, k'.fullMatch name = false := fun k' => by
      cases e : k'.fullMatch name
      · rfl
      · exact absurd ⟨k', e⟩ hf
    have e : Key.all.filter (Key.fullMatch name) = [] := List.filter_eq_nil_iff.2 fun k _ => by simp [hf' k]
    have e2 : ∀ k' : Key, k'.approxMatch name = true ↔ name <+: k'.long := fun k' => by
      simp [Key.approxMatch, hf' k']
    have e3 : Key.all.filter (Key.approxMatch name) = [k] ↔ name <+: k.long ∧ ∀ x : Key, name <+: x.long → x = k := by
      rw [filter_all]; simp only [e2]
    have e4 : findOption name true = .ok (some k) ↔ Key.all.filter (Key.approxMatch name) = [k] := by
      rw [findOption, e]
      simp only [if_true]
      split
      · rename_i h; rw [h]; simp [throw, throwThe, MonadExceptOf.throw]
      · rename_i h; rw [h]; simp [pure, Except.pure]
      · rename_i h; rw [h]; simp [pure, Except.pure]
    rw [e4, e3]
    constructor
    · rintro ⟨h1, h2⟩; exact .inr (.inr ⟨hn, h1, h2⟩)
    · rintro (h | h | h)
      · exact absurd (fullMatch_iff.2 (.inl h)) (by simp [hf' k])
      · exact absurd (fullMatch_iff.2 (.inr h)) (by simp [hf' k])
      · exact h.2

/-- A name that starts with a dash is only found if it is a dash and a letter. -/
theorem find_dash {s : Str} {approx : Bool} : findOption (45 :: s) approx =
    .ok (Key.all.find? fun k => s == [k.letter]) := by
  by_cases hf : ∃ k' : Key, s = [k'.letter]
  · obtain ⟨k', rfl⟩ := hf
    rw [find_full (k := k') (fullMatch_iff.2 (.inr rfl))]
    cases k' <;> rfl
  · have hf' : ∀ k' : Key, k'.fullMatch (45 :: s) = false := fun k' => by
      cases e : k'.fullMatch (45 :: s)
      · rfl
      · rcases fullMatch_iff.1 e with h | h
        · revert h; cases k' <;> simp [Key.long, lit]
        · injection h with _ h; exact absurd ⟨k', h⟩ hf
    have e : Key.all.filter (Key.fullMatch (45 :: s)) = [] := List.filter_eq_nil_iff.2 fun k _ => by simp [hf' k]
    have e1 : Key.all.find? (fun k => s == [k.letter]) = none := List.find?_eq_none.2 fun k _ => by
      simp only [beq_iff_eq]; exact fun h => hf ⟨k, h⟩
    have e2 : Key.all.filter (Key.approxMatch (45 :: s)) = [] := List.filter_eq_nil_iff.2 fun k _ => by
      have : List.isPrefixOf (45 :: s) k.long = false := by cases k <;> rfl
      simp [Key.approxMatch, this]
    rw [findOption, e, e1, e2]
    cases approx <;> rfl

theorem find_letter {k : Key} {approx : Bool} : findOption [45, k.letter] approx = .ok (some k) :=
  find_full (fullMatch_iff.2 (.inr rfl))

theorem find_letter_iff {c : Byte} {approx : Bool} {k : Key} : findOption [45, c] approx = .ok (some k) ↔ c = k.letter := by
  constructor
  · intro h
    rw [find_dash] at h
    have h := List.find?_some (Except.ok.inj h)
    simpa using h
  · rintro rfl; exact find_letter

theorem names_ne {w : Str} {k : Key} (h : Names w k) : w ≠ [] := by
  rcases h with h | h | h
  · rw [h]; cases k <;> decide
  · rw [h]; cases k <;> decide
  · exact h.1

theorem names_no_eq {w : Str} {k : Key} (h : Names w k) : (61 : Byte) ∉ w := by
  rcases h with h | h | h
  · rw [h]; cases k <;> decide
  · rw [h]; cases k <;> decide
  · intro hm
    have : (61 : Byte) ∈ k.usage.name := h.2.1.subset hm
    revert this
    cases k <;> decide

theorem names_find {w : Str} {k : Key} (h : Names w k) : findOption w true = .ok (some k) := (find_names (names_ne h)).2 h

def Item.parsed : Item → Parsed
  | .flag k => ⟨some k, none⟩
  | .value k v => ⟨some k, some v⟩
  | .argument v => ⟨none, some v⟩

theorem parsed_inj {i j : Item} (h : i.parsed = j.parsed) : i = j := by
  cases i <;> cases j <;> simp_all [Item.parsed]

theorem takeWhile_no {w v : Str} (h : (61 : Byte) ∉ w) : (w ++ 61 :: v).takeWhile (· != 61) = w := by
  rw [List.takeWhile_append_of_pos (fun b hb => by
    simp only [bne_iff_ne, ne_eq]; rintro rfl; exact h hb)]
  simp

theorem takeWhile_no' {w : Str} (h : (61 : Byte) ∉ w) : w.takeWhile (· != 61) = w :=
  by
    have := List.takeWhile_append_of_pos (p := fun b : Byte => b != 61) (l₁ := w) (l₂ := [])
      fun b hb => by simp only [bne_iff_ne, ne_eq]; rintro rfl; exact h hb
    simpa using this

theorem split_eq (w : Str) : (61 : Byte) ∉ w ∨ ∃ a b, (61 : Byte) ∉ a ∧ w = a ++ 61 :: b := by
  induction w with
  | nil => simp
  | cons c w ih =>
    by_cases hc : c = 61
    · exact .inr ⟨[], w, by simp, by simp [hc]⟩
    · rcases ih with h | ⟨a, b, h, rfl⟩
      · exact .inl (by simp [h, Ne.symm hc])
      · exact .inr ⟨c :: a, b, by simp [h, Ne.symm hc], rfl⟩

theorem parseLong_plain {w : Str} (hw : w ≠ []) (h : (61 : Byte) ∉ w) : parseLong (45 :: 45 :: w) = .ok (some ⟨w, none⟩) := by
  obtain ⟨c, r, rfl⟩ := List.exists_cons_of_ne_nil hw
  simp only [parseLong, takeWhile_no' h, List.drop_length]
  rfl

theorem parseLong_value {w v : Str} (h : (61 : Byte) ∉ w) : parseLong (45 :: 45 :: (w ++ 61 :: v)) =
    if v = [] then .error .emptyAdjacentParameter else .ok (some ⟨w, some v⟩) := by
  obtain ⟨c, r, e⟩ := List.exists_cons_of_ne_nil (l := w ++ 61 :: v) (by simp)
  have h1 : (c :: r).takeWhile (· != 61) = w := by rw [← e]; exact takeWhile_no h
  have h2 : (c :: r).drop w.length = 61 :: v := by rw [← e]; simp
  rw [e]
  simp only [parseLong, h1, h2]
  cases v <;> rfl

theorem parseLong_none {tok : Str} (h : ∀ c r, tok ≠ 45 :: 45 :: c :: r) : parseLong tok = .ok none := by
  unfold parseLong
  split
  · exact absurd rfl (h _ _)
  · rfl

theorem parseToken_short {tok : Str} (h : ∀ c r, tok ≠ 45 :: 45 :: c :: r) : parseToken tok = parseShort tok := by
  rw [parseToken, parseLong_none h]; rfl

theorem parseShort_none {tok : Str} (h : ∀ c r, tok ≠ 45 :: c :: r) : parseShort tok = .ok [] := by
  unfold parseShort
  split
  · exact absurd rfl (h _ _)
  · rfl

theorem shortLoop_ok : ∀ (c : Byte) (adj : Str), ∃ o os, shortLoop c adj = .ok (o :: os)
  | c, [] => ⟨_, _, rfl⟩
  | c, a :: adj => by
    rw [shortLoop, find_dash]
    obtain ⟨o, os, e⟩ := shortLoop_ok a adj
    rw [e]
    simp only [bind, Except.bind, pure, Except.pure]
    split
    · split
      · exact ⟨_, _, rfl⟩
      · exact ⟨_, _, rfl⟩
    · exact ⟨_, _, rfl⟩

/-- The forms of a token. -/
theorem token_cases (tok : Str) : ((tok.head? ≠ some 45 ∨ tok = [45]) ∧ parseToken tok = .ok []) ∨
    (tok = [45, 45] ∧ parseToken tok = .ok []) ∨
    (∃ w, w ≠ [] ∧ (61 : Byte) ∉ w ∧ tok = 45 :: 45 :: w ∧ parseToken tok = .ok [⟨w, none⟩]) ∨
    (∃ w v, (61 : Byte) ∉ w ∧ v ≠ [] ∧ tok = 45 :: 45 :: (w ++ 61 :: v) ∧ parseToken tok = .ok [⟨w, some v⟩]) ∨
    (∃ w, (61 : Byte) ∉ w ∧ tok = 45 :: 45 :: (w ++ [61]) ∧ parseToken tok = .error .emptyAdjacentParameter) ∨
    (∃ c adj, c ≠ 45 ∧ tok = 45 :: c :: adj ∧ parseToken tok = shortLoop c adj) := by
  match tok with
  | [] => exact .inl ⟨.inl (by simp), rfl⟩
  | [a] =>
    refine .inl ⟨?_, by rw [parseToken_short (by simp), parseShort_none (by simp)]⟩
    by_cases h : a = 45
    · exact .inr (by rw [h])
    · exact .inl (by simpa using h)
  | a :: b :: r =>
    by_cases ha : a = 45
    · subst ha
      by_cases hb : b = 45
      · subst hb
        match r with
        | [] => exact .inr (.inl ⟨rfl, rfl⟩)
        | c :: r =>
          rcases split_eq (c :: r) with h | ⟨w, v, h, e⟩
          · refine .inr (.inr (.inl ⟨c :: r, by simp, h, rfl, ?_⟩))
            rw [parseToken, parseLong_plain (by simp) h]; rfl
          · rw [e]
            by_cases hv : v = []
            · subst hv
              refine .inr (.inr (.inr (.inr (.inl ⟨w, h, rfl, ?_⟩))))
              rw [parseToken, parseLong_value h, if_pos rfl]; rfl
            · refine .inr (.inr (.inr (.inl ⟨w, v, h, hv, rfl, ?_⟩)))
              rw [parseToken, parseLong_value h, if_neg hv]; rfl
      · refine .inr (.inr (.inr (.inr (.inr ⟨b, r, hb, rfl, ?_⟩))))
        rw [parseToken_short (by rintro c r h; injection h with _ h; injection h with h _; exact hb h), parseShort, if_neg hb]
    · refine .inl ⟨.inl (by simpa using ha), ?_⟩
      rw [parseToken_short (by rintro c r h; injection h with h _; exact ha h),
        parseShort_none (by rintro c r h; injection h with h _; exact ha h)]

theorem finish_next {o : RawOption} {k : Key} {v : Str} {others rest : List Str} {p : Parsed} (hn : o.name ≠ [])
    (hk : findOption o.name true = .ok (some k)) (ht : k.takes = true) (hv : o.value = none) :
    finishOption o (v :: others) = .ok (p, rest) ↔ CanFollow v ∧ p = ⟨some k, some v⟩ ∧ rest = others := by
  have e0 : finishOption o (v :: others) = (do
      let followed ← parseToken v
      if followed.isEmpty then pure (⟨some k, some v⟩, others)
      else
        match ← findOption v true with
        | some _ => throw .missingParameter
        | none => pure (⟨some k, some v⟩, others)) := by
    rw [finishOption, if_neg (by simpa using hn), hk, hv]
    simp only [bind, Except.bind, ht, if_true]
    rfl
  rw [e0]
  have yes : CanFollow v → parseToken v = .ok [] ∨ (∃ o os, parseToken v = .ok (o :: os)) ∧ findOption v true = .ok none := by
    rintro ⟨h1, h2⟩
    rcases token_cases v with ⟨-, e⟩ | ⟨-, e⟩ | ⟨w, hw, -, rfl, e⟩ | ⟨w, v, -, -, rfl, e⟩ | ⟨w, hw, rfl, -⟩ | ⟨c, adj, -, rfl, e⟩
    · exact .inl e
    · exact .inl e
    · refine .inr ⟨⟨_, _, e⟩, ?_⟩
      rw [find_dash, List.find?_eq_none.2]
      intro k _
      simp only [beq_iff_eq]
      rintro h
      exact h1 k (by rw [h, letter_eq]; rfl)
    · refine .inr ⟨⟨_, _, e⟩, ?_⟩
      rw [find_dash, List.find?_eq_none.2]
      intro k _
      simp
    · exact absurd rfl (h2 w hw)
    · obtain ⟨o, os, e'⟩ := shortLoop_ok c adj
      refine .inr ⟨⟨o, os, e.trans e'⟩, ?_⟩
      rw [find_dash, List.find?_eq_none.2]
      intro k _
      simp only [beq_iff_eq]
      rintro h
      exact h1 k (by rw [h, letter_eq]; rfl)
  have no : ¬ CanFollow v → (∃ e, parseToken v = .error e) ∨
      (∃ o os, parseToken v = .ok (o :: os)) ∧ ∃ k, findOption v true = .ok (some k) := by
    intro h
    by_cases h1 : ∃ k : Key, v = lit "-" ++ [k.usage.letter]
    · obtain ⟨k, rfl⟩ := h1
      refine .inr ⟨?_, k, by rw [letter_eq]; exact find_letter⟩
      cases k <;> exact ⟨_, _, rfl⟩
    · have h2 : ∃ w : Str, (61 : Byte) ∉ w ∧ v = lit "--" ++ w ++ lit "=" := by
        by_cases h2 : ∃ w : Str, (61 : Byte) ∉ w ∧ v = lit "--" ++ w ++ lit "="
        · exact h2
        · exact absurd ⟨fun k hk => h1 ⟨k, hk⟩, fun w hw hv => h2 ⟨w, hw, hv⟩⟩ h
      obtain ⟨w, hw, rfl⟩ := h2
      refine .inl ⟨.emptyAdjacentParameter, ?_⟩
      show parseToken (45 :: 45 :: (w ++ [61])) = _
      rw [parseToken, parseLong_value hw, if_pos rfl]; rfl
  by_cases hc : CanFollow v
  · rcases yes hc with e | ⟨⟨o, os, e⟩, e'⟩
    · rw [e]
      simp only [bind, Except.bind, List.isEmpty_nil, if_true, pure, Except.pure, Except.ok.injEq, Prod.mk.injEq, hc, true_and]
      constructor <;> rintro ⟨h1, h2⟩ <;> exact ⟨h1.symm, h2.symm⟩
    · rw [e, e']
      simp only [bind, Except.bind, List.isEmpty_cons, pure, Except.pure, Bool.false_eq_true, if_false, Except.ok.injEq,
        Prod.mk.injEq, hc, true_and]
      constructor <;> rintro ⟨h1, h2⟩ <;> exact ⟨h1.symm, h2.symm⟩
  · refine ⟨fun h => ?_, fun h => absurd h.1 hc⟩
    rcases no hc with ⟨e, h'⟩ | ⟨⟨o, os, e⟩, k', e'⟩
    · rw [h'] at h; cases h
    · rw [e, e'] at h; cases h

theorem finish_flag {o : RawOption} {k : Key} {others : List Str} (hn : o.name ≠ [])
    (hk : findOption o.name true = .ok (some k)) (ht : k.takes = false) (hv : o.value = none) :
    finishOption o others = .ok (⟨some k, none⟩, others) := by
  rw [finishOption, if_neg (by simpa using hn), hk, hv]
  simp only [bind, Except.bind, ht]
  rfl

theorem finish_value {o : RawOption} {k : Key} {v : Str} {others : List Str} (hn : o.name ≠ [])
    (hk : findOption o.name true = .ok (some k)) (ht : k.takes = true) (hv : o.value = some v) :
    finishOption o others = .ok (⟨some k, some v⟩, others) := by
  rw [finishOption, if_neg (by simpa using hn), hk, hv]
  simp only [bind, Except.bind, ht]
  rfl

/-- What it means that `finish_option` accepts an option with a name. -/
theorem finish_inv {o : RawOption} {others rest : List Str} {p : Parsed} (hn : o.name ≠ [])
    (h : finishOption o others = .ok (p, rest)) : ∃ k, findOption o.name true = .ok (some k) ∧
      ((k.takes = false ∧ o.value = none ∧ p = ⟨some k, none⟩ ∧ rest = others) ∨
       (∃ v, k.takes = true ∧ o.value = some v ∧ p = ⟨some k, some v⟩ ∧ rest = others) ∨
       (∃ v, k.takes = true ∧ o.value = none ∧ others = v :: rest ∧ CanFollow v ∧ p = ⟨some k, some v⟩)) := by
  cases hf : findOption o.name true with
  | error e => rw [finishOption, if_neg (by simpa using hn), hf] at h; cases h
  | ok x =>
    cases x with
    | none => rw [finishOption, if_neg (by simpa using hn), hf] at h; cases h
    | some k =>
      refine ⟨k, rfl, ?_⟩
      cases ht : k.takes with
      | false =>
        cases hv : o.value with
        | none =>
          rw [finish_flag hn hf ht hv] at h
          cases h; exact .inl ⟨rfl, rfl, rfl, rfl⟩
        | some v =>
          rw [finishOption, if_neg (by simpa using hn), hf, hv] at h
          simp only [bind, Except.bind, ht] at h
          cases h
      | true =>
        cases hv : o.value with
        | some v =>
          rw [finish_value hn hf ht hv] at h
          cases h; exact .inr (.inl ⟨v, rfl, rfl, rfl, rfl⟩)
        | none =>
          cases others with
          | nil =>
            rw [finishOption, if_neg (by simpa using hn), hf, hv] at h
            simp only [bind, Except.bind, ht] at h
            cases h
          | cons v others =>
            obtain ⟨h1, h2, rfl⟩ := (finish_next hn hf ht hv).1 h
            exact .inr (.inr ⟨v, rfl, rfl, rfl, h1, h2⟩)

/-- One token with letters, and what it takes of the following ones. -/
def shortAll (c : Byte) (adj : Str) (others : List Str) : Except PoErr (List Parsed × List Str) := do
  let os ← shortLoop c adj
  finishAll os others

theorem shortAll_nil {c : Byte} {others : List Str} : shortAll c [] others =
    (finishOption ⟨[45, c], none⟩ others).map fun x => ([x.1], x.2) := by
  show finishAll [⟨[45, c], none⟩] others = _
  rw [finishAll]
  cases finishOption ⟨[45, c], none⟩ others <;> rfl

theorem shortAll_flag {k : Key} {a : Byte} {adj : Str} {others : List Str} (h : k.takes = false) :
    shortAll k.letter (a :: adj) others = (shortAll a adj others).map fun x => (⟨some k, none⟩ :: x.1, x.2) := by
  obtain ⟨o, os, e⟩ := shortLoop_ok a adj
  rw [shortAll, shortAll, shortLoop, find_letter, e]
  simp only [bind, Except.bind, h, pure, Except.pure, Bool.false_eq_true, if_false]
  rw [finishAll]
  rw [finish_flag (k := k) (by simp) find_letter h rfl]
  simp only [bind, Except.bind]
  cases finishAll (o :: os) others <;> rfl
  simp

theorem shortAll_value {k : Key} {a : Byte} {adj : Str} {others : List Str} (h : k.takes = true) :
    shortAll k.letter (a :: adj) others = .ok ([⟨some k, some (a :: adj)⟩], others) := by
  rw [shortAll, shortLoop, find_letter]
  simp only [bind, Except.bind, h, if_true, pure, Except.pure]
  rw [finishAll, finish_value (k := k) (by simp) find_letter h rfl]
  rfl

end Hext.Cli
