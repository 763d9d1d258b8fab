import Verif.Proofs.OptionsRun
/-!
# The command line parser of htmlext: storing the values
-/

namespace Hext.Cli

/-- Values are given for the options that take one, and for no others. -/
def Item.Good : Item → Prop
  | .flag k => k.takes = false
  | .value k _ => k.takes = true
  | .argument _ => True

def Item.key : Item → Option Key
  | .flag k => some k
  | .value k _ => some k
  | .argument _ => none

theorem spells_good {is : List Item} {as : List Str} (h : Spells is as) : ∀ i ∈ is, i.Good := by
  have flags : ∀ {ks : List Key} {is : List Item}, (∀ k ∈ ks, k.usage.valued = false) → (∀ i ∈ is, i.Good) →
      ∀ i ∈ ks.map Item.flag ++ is, i.Good := by
    intro ks is h1 h2 i hi
    rcases List.mem_append.1 hi with hi | hi
    · obtain ⟨k, hk, rfl⟩ := List.mem_map.1 hi
      have := h1 k hk
      rw [takes_eq] at this
      exact this
    · exact h2 i hi
  have cons : ∀ {j : Item} {is : List Item}, j.Good → (∀ i ∈ is, i.Good) → ∀ i ∈ j :: is, i.Good := by
    intro j is h1 h2 i hi
    rcases List.mem_cons.1 hi with rfl | hi
    · exact h1
    · exact h2 i hi
  induction h with
  | nil => simp
  | argument _ _ ih => exact cons trivial ih
  | arguments ps => intro i hi; obtain ⟨p, -, rfl⟩ := List.mem_map.1 hi; trivial
  | long hk _ _ ih => rw [takes_eq] at hk; exact cons hk ih
  | longNext hk _ _ _ ih => rw [takes_eq] at hk; exact cons hk ih
  | longValue hk _ _ _ ih => rw [takes_eq] at hk; exact cons hk ih
  | short _ hk _ ih => exact flags hk ih
  | shortNext hk ht _ _ ih => rw [takes_eq] at ht; exact flags hk (cons ht ih)
  | shortValue hk ht _ _ ih => rw [takes_eq] at ht; exact flags hk (cons ht ih)
  | argumentValue _ _ ih => exact cons trivial ih

theorem asHtml_good : ∀ {is : List Item}, (∀ i ∈ is, i.Good) → ∀ i ∈ asHtml is, i.Good
  | [], _ => by simp [asHtml]
  | .argument p :: is, h => by
    intro i hi
    rcases List.mem_cons.1 hi with rfl | hi
    · exact rfl
    · exact asHtml_good (fun i hi => h i (List.mem_cons_of_mem _ hi)) i hi
  | .flag k :: is, h => by
    intro i hi
    rcases List.mem_cons.1 hi with rfl | hi
    · exact h _ (by simp)
    · exact asHtml_good (fun i hi => h i (List.mem_cons_of_mem _ hi)) i hi
  | .value k v :: is, h => by
    intro i hi
    rcases List.mem_cons.1 hi with rfl | hi
    · exact h _ (by simp)
    · exact asHtml_good (fun i hi => h i (List.mem_cons_of_mem _ hi)) i hi

theorem asFiles_good : ∀ {is : List Item}, (∀ i ∈ is, i.Good) → ∀ i ∈ asFiles is, i.Good
  | [], _ => by simp [asFiles]
  | .argument p :: is, h => by
    intro i hi
    rcases List.mem_cons.1 hi with rfl | hi
    · exact rfl
    · exact asHtml_good (fun i hi => h i (List.mem_cons_of_mem _ hi)) i hi
  | .flag k :: is, h => by
    intro i hi
    rcases List.mem_cons.1 hi with rfl | hi
    · exact h _ (by simp)
    · exact asFiles_good (fun i hi => h i (List.mem_cons_of_mem _ hi)) i hi
  | .value k v :: is, h => by
    intro i hi
    rcases List.mem_cons.1 hi with rfl | hi
    · exact h _ (by simp)
    · exact asFiles_good (fun i hi => h i (List.mem_cons_of_mem _ hi)) i hi

theorem assign_html : ∀ is : List Item, assignPositions false (is.map Item.parsed) = (asHtml is).map Item.parsed
  | [] => rfl
  | .argument p :: is => by
    show _ :: assignPositions false (is.map Item.parsed) = _
    rw [assign_html is]; rfl
  | .flag k :: is => by
    show _ :: assignPositions false (is.map Item.parsed) = _
    rw [assign_html is]; rfl
  | .value k v :: is => by
    show _ :: assignPositions false (is.map Item.parsed) = _
    rw [assign_html is]; rfl

theorem assign_files : ∀ is : List Item, assignPositions true (is.map Item.parsed) = (asFiles is).map Item.parsed
  | [] => rfl
  | .argument p :: is => by
    show _ :: assignPositions false (is.map Item.parsed) = _
    rw [assign_html is]; rfl
  | .flag k :: is => by
    show _ :: assignPositions true (is.map Item.parsed) = _
    rw [assign_files is]; rfl
  | .value k v :: is => by
    show _ :: assignPositions true (is.map Item.parsed) = _
    rw [assign_files is]; rfl

theorem values_append (k : Key) (is js : List Item) : valuesGiven k (is ++ js) = valuesGiven k is ++ valuesGiven k js :=
  List.filterMap_append

/-- How often an option is given. -/
def given (k : Key) (is : List Item) : Nat := (is.filter (· = .flag k)).length + (valuesGiven k is).length

theorem given_append (k : Key) (is js : List Item) : given k (is ++ js) = given k is + given k js := by
  simp only [given, values_append, List.filter_append, List.length_append]; omega

theorem given_cons (k : Key) (i : Item) (is : List Item) : given k (i :: is) = (if i.key = some k then 1 else 0) + given k is := by
  rw [← List.singleton_append, given_append]
  congr 1
  cases i with
  | flag k' =>
    simp only [given, valuesGiven, Item.key]
    by_cases h : k' = k <;> simp [h]
  | value k' v =>
    simp only [given, valuesGiven, Item.key]
    by_cases h : k' = k <;> simp [h]
  | argument v => simp [given, valuesGiven, Item.key]

/-- Options that can be given once. -/
def Key.single (k : Key) : Prop := k ≠ .hext ∧ k ≠ .html ∧ k ≠ .str

theorem cast_iff {v : Str} {n : UInt64} : lexicalCast v = some n ↔ WritesLimit v n := by
  have digits : ∀ d : Str, (d.isEmpty || d.any (fun b => b < 48 || 57 < b) || decide (18446744073709551615 < Syn.digitsVal d)) = false ↔
      Syn.IsDigits d ∧ Syn.digitsVal d < 2 ^ 64 := by
    intro d
    simp only [Bool.or_eq_false_iff, List.isEmpty_eq_false_iff, List.any_eq_false, decide_eq_false_iff_not, Syn.IsDigits, Nat.not_lt,
      Bool.or_eq_true, decide_eq_true_eq, not_or, UInt8.not_lt]
    constructor
    · rintro ⟨⟨h1, h2⟩, h3⟩; exact ⟨⟨h1, h2⟩, by omega⟩
    · rintro ⟨⟨h1, h2⟩, h3⟩; exact ⟨⟨h1, h2⟩, by omega⟩
  have start : ∀ {d : Str} {b : Byte} {r : Str}, Syn.IsDigits d → d = b :: r → 48 ≤ b := by
    rintro d b r ⟨-, h⟩ rfl; exact (h b (by simp)).1
  have num : ∀ {d : Str}, Syn.digitsVal d < 2 ^ 64 → (UInt64.ofNat (Syn.digitsVal d)).toNat = Syn.digitsVal d := by
    intro d h; exact UInt64.toNat_ofNat_of_lt' h
  have key : ∀ d : Str, (∀ (neg : Bool), (if (d.isEmpty || d.any (fun b => b < 48 || 57 < b) ||
      decide (18446744073709551615 < Syn.digitsVal d)) = true then none
      else if neg = true then some (0 - UInt64.ofNat (Syn.digitsVal d)) else some (UInt64.ofNat (Syn.digitsVal d))) = some n ↔
      Syn.IsDigits d ∧ Syn.digitsVal d < 2 ^ 64 ∧
        (neg = false ∧ n.toNat = Syn.digitsVal d ∨ neg = true ∧ n = 0 - UInt64.ofNat (Syn.digitsVal d))) := by
    intro d neg
    by_cases h : Syn.IsDigits d ∧ Syn.digitsVal d < 2 ^ 64
    · rw [(digits d).2 h]
      simp only [Bool.false_eq_true, if_false, h, true_and]
      cases neg with
      | true => simp [eq_comm]
      | false =>
        simp only [Bool.false_eq_true, if_false, Option.some.injEq, true_and, false_and, or_false]
        constructor
        · rintro rfl; exact num h.2
        · intro e; exact UInt64.toNat.inj ((num h.2).trans e.symm)
    · have : (d.isEmpty || d.any (fun b => b < 48 || 57 < b) || decide (18446744073709551615 < Syn.digitsVal d)) = true := by
        cases e : (d.isEmpty || d.any (fun b => b < 48 || 57 < b) || decide (18446744073709551615 < Syn.digitsVal d))
        · exact absurd ((digits d).1 e) h
        · rfl
      rw [if_pos this]
      constructor
      · rintro ⟨⟩
      · rintro ⟨h1, h2, -⟩; exact absurd ⟨h1, h2⟩ h
  by_cases h43 : ∃ r, v = 43 :: r
  · obtain ⟨r, rfl⟩ := h43
    refine (key r false).trans ?_
    constructor
    · rintro ⟨h1, h2, h3⟩
      rcases h3 with h3 | ⟨⟨⟩, -⟩
      exact ⟨r, h1, h2, .inl ⟨.inr rfl, h3.2⟩⟩
    · rintro ⟨d, h1, h2, ⟨rfl | h3, h4⟩ | ⟨h3, -⟩⟩
      · exact absurd (start h1 rfl) (by decide)
      · cases h3; exact ⟨h1, h2, .inl ⟨rfl, h4⟩⟩
      · cases h3
  · by_cases h45 : ∃ r, v = 45 :: r
    · obtain ⟨r, rfl⟩ := h45
      refine (key r true).trans ?_
      constructor
      · rintro ⟨h1, h2, h3⟩
        rcases h3 with ⟨⟨⟩, -⟩ | h3
        exact ⟨r, h1, h2, .inr ⟨rfl, h3.2⟩⟩
      · rintro ⟨d, h1, h2, ⟨rfl | h3, h4⟩ | ⟨h3, h4⟩⟩
        · exact absurd (start h1 rfl) (by decide)
        · cases h3
        · cases h3; exact ⟨h1, h2, .inr ⟨rfl, h4⟩⟩
    · have e : lexicalCast v = if (v.isEmpty || v.any (fun b => b < 48 || 57 < b) ||
          decide (18446744073709551615 < Syn.digitsVal v)) = true then none
          else if false = true then some (0 - UInt64.ofNat (Syn.digitsVal v)) else some (UInt64.ofNat (Syn.digitsVal v)) := by
        unfold lexicalCast
        split
        · exact absurd ⟨_, rfl⟩ h43
        · exact absurd ⟨_, rfl⟩ h45
        · have : ¬ v.head? = some 45 := by
            intro h
            cases v with
            | nil => cases h
            | cons a r => cases h; exact h45 ⟨r, rfl⟩
          dsimp only
          rw [if_neg this]
          rfl
      rw [e]
      refine (key v false).trans ?_
      constructor
      · rintro ⟨h1, h2, h3⟩
        rcases h3 with h3 | ⟨⟨⟩, -⟩
        exact ⟨v, h1, h2, .inl ⟨.inl rfl, h3.2⟩⟩
      · rintro ⟨d, h1, h2, ⟨rfl | h3, h4⟩ | ⟨h3, -⟩⟩
        · exact ⟨h1, h2, .inl ⟨rfl, h4⟩⟩
        · exact absurd ⟨d, h3⟩ h43
        · exact absurd ⟨d, h3⟩ h45

theorem limit_unique {v : Str} {n m : UInt64} (h1 : WritesLimit v n) (h2 : WritesLimit v m) : n = m := by
  rw [← cast_iff] at h1 h2
  exact Option.some.inj (h1.symm.trans h2)

theorem gives_unique {is : List Item} {o o' : Opts} (h : Gives is o) (h' : Gives is o') : o = o' := by
  have bool : ∀ {a b : Bool} {p : Prop}, (a = true ↔ p) → (b = true ↔ p) → a = b := by
    intro a b p h1 h2
    rw [Bool.eq_iff_iff, h1, h2]
  have hm : o.maxSearches = o'.maxSearches := by
    cases e : valuesGiven .maxSearches is with
    | nil => rw [h.noLimit e, h'.noLimit e]
    | cons v vs => exact limit_unique (h.limit v (by rw [e]; simp)) (h'.limit v (by rw [e]; simp))
  have e1 := h.hext.trans h'.hext.symm
  have e2 := h.html.trans h'.html.symm
  have e3 := h.str.trans h'.str.symm
  have e4 := bool h.compact h'.compact
  have e5 := bool h.pretty h'.pretty
  have e6 := bool h.array h'.array
  have e7 := h.filter.trans h'.filter.symm
  have e8 := bool h.lint h'.lint
  have e9 := bool h.help h'.help
  have e10 := bool h.version h'.version
  cases o; cases o'
  simp_all

/-- The state of `store` after the items. -/
structure StoreInv (pre : List Item) (s : Stored) : Prop where
  gives : Gives pre s.opts
  seen : ∀ k : Key, k ∈ s.seen ↔ k.single ∧ 0 < given k pre

theorem inv_nil : StoreInv [] {} := by
  refine ⟨?_, by simp [given, valuesGiven]⟩
  constructor <;> simp [valuesGiven, AtMostOnce]

theorem first_ok {k : Key} {s : Stored} {u : Unit} (h : firstOccurrence k s = .ok u) : k ∉ s.seen := by
  unfold firstOccurrence at h
  split at h
  · cases h
  · rename_i hn; simpa using hn

theorem first_not {k : Key} {s : Stored} (h : k ∉ s.seen) : firstOccurrence k s = .ok () := by
  rw [firstOccurrence, if_neg (by simpa using h)]; rfl

theorem once_step {pre : List Item} {s : Stored} {i : Item} {k : Key} (h : StoreInv pre s) (hi : i.key = some k) (hs : k ∉ s.seen) :
    ∀ k' : Key, k' ≠ .hext → k' ≠ .html → k' ≠ .str → AtMostOnce k' (pre ++ [i]) := by
  intro k' h1 h2 h3
  show given k' (pre ++ [i]) ≤ 1
  have h0 : given k' pre ≤ 1 := h.gives.once k' h1 h2 h3
  rw [given_append, given_cons]
  have e : given k' [] = 0 := rfl
  rw [e]
  by_cases hk : k' = k
  · subst hk
    have : ¬ 0 < given k' pre := fun hp => hs ((h.seen k').2 ⟨⟨h1, h2, h3⟩, hp⟩)
    split <;> omega
  · rw [if_neg (by rw [hi]; simpa using Ne.symm hk)]
    omega

theorem once_multi {pre : List Item} {s : Stored} {i : Item} (h : StoreInv pre s) (hi : ∀ k, i.key = some k → ¬ k.single) :
    ∀ k' : Key, k' ≠ .hext → k' ≠ .html → k' ≠ .str → AtMostOnce k' (pre ++ [i]) := by
  intro k' h1 h2 h3
  show given k' (pre ++ [i]) ≤ 1
  have h0 : given k' pre ≤ 1 := h.gives.once k' h1 h2 h3
  rw [given_append, given_cons]
  have e : given k' [] = 0 := rfl
  rw [e, if_neg fun hk => hi k' hk ⟨h1, h2, h3⟩]
  exact h0

theorem seen_step {pre : List Item} {s : Stored} {i : Item} {k : Key} (h : StoreInv pre s) (hi : i.key = some k) (hk : k.single) :
    ∀ k' : Key, k' ∈ k :: s.seen ↔ k'.single ∧ 0 < given k' (pre ++ [i]) := by
  intro k'
  rw [given_append, given_cons, List.mem_cons, h.seen k']
  have e : given k' [] = 0 := rfl
  rw [e, hi]
  by_cases hkk : k' = k
  · subst hkk
    simp [hk]
  · have : ¬ some k = some k' := by simpa using Ne.symm hkk
    rw [if_neg this]
    simp [hkk]

theorem seen_multi {pre : List Item} {s : Stored} {i : Item} (h : StoreInv pre s) (hi : ∀ k, i.key = some k → ¬ k.single) :
    ∀ k' : Key, k' ∈ s.seen ↔ k'.single ∧ 0 < given k' (pre ++ [i]) := by
  intro k'
  rw [given_append, given_cons, h.seen k']
  have e : given k' [] = 0 := rfl
  rw [e]
  by_cases hk : i.key = some k'
  · have := hi k' hk
    constructor <;> rintro ⟨h1, -⟩ <;> exact absurd h1 this
  · rw [if_neg hk]; simp

theorem no_values {pre : List Item} {k : Key} (h : given k pre = 0) : valuesGiven k pre = [] := by
  unfold given at h
  exact List.length_eq_zero_iff.1 (by omega)

theorem first_bind {k : Key} {s s' : Stored} {f : Unit → Except PoErr Stored} (h : (firstOccurrence k s >>= f) = .ok s') :
    k ∉ s.seen ∧ f () = .ok s' := by
  cases e : firstOccurrence k s with
  | error e' => rw [e] at h; cases h
  | ok u => rw [e] at h; exact ⟨first_ok e, h⟩

theorem values_single (k : Key) (i : Item) : valuesGiven k [i] = match i with
    | .value k' v => if k' = k then [v] else []
    | _ => [] := by
  cases i with
  | flag k' => rfl
  | argument v => rfl
  | value k' v => by_cases h : k' = k <;> simp [valuesGiven, h]

theorem store_step {pre : List Item} {s s' : Stored} {i : Item} (h : StoreInv pre s) (hg : i.Good)
    (hs : storeOne s i.parsed = .ok s') : StoreInv (pre ++ [i]) s' := by
  have g := h.gives
  cases i with
  | argument v =>
    cases hs
    refine ⟨?_, seen_multi h (by simp [Item.key])⟩
    constructor
    case once => exact once_multi h (by simp [Item.key])
    all_goals simp only [values_append, values_single, List.append_nil, List.mem_append, List.mem_singleton, reduceCtorEq, or_false]
    · exact g.hext
    · exact g.html
    · exact g.str
    · exact g.compact
    · exact g.pretty
    · exact g.array
    · exact g.lint
    · exact g.help
    · exact g.version
    · exact g.filter
    · exact g.noLimit
    · exact g.limit
  | flag k =>
    have hk : k.single := by revert hg; cases k <;> simp [Item.Good, Key.takes, Key.single]
    have hns : k ∉ s.seen := by
      cases k <;> first | (cases hg; done) | exact (first_bind hs).1
    refine ⟨?_, ?_⟩
    · have ho := once_step (i := .flag k) h rfl hns
      revert hs ho
      cases k <;> (first | (cases hg; done) | skip) <;> intro hs ho <;> cases (first_bind hs).2 <;> constructor <;>
        (first | exact ho | skip) <;>
        simp only [values_append, values_single, List.append_nil, List.mem_append, List.mem_singleton, Item.flag.injEq, reduceCtorEq,
          or_false, or_true] <;>
        first | exact g.hext | exact g.html | exact g.str | exact g.compact | exact g.pretty | exact g.array | exact g.lint |
          exact g.help | exact g.version | exact g.filter | exact g.noLimit | exact g.limit
    · have hseen := seen_step (i := .flag k) h rfl hk
      revert hs hseen
      cases k <;> (first | (cases hg; done) | skip) <;> intro hs hseen <;> cases (first_bind hs).2 <;> exact hseen
  | value k v =>
    cases k with
    | compact | pretty | array | lint | help | version => cases hg
    | hext =>
      cases hs
      have hm : ∀ k, (Item.value .hext v).key = some k → ¬ k.single := by rintro k ⟨⟩ hk; exact hk.1 rfl
      refine ⟨?_, seen_multi (s := s) h hm⟩
      constructor
      case once => exact once_multi h hm
      all_goals simp only [values_append, values_single, List.append_nil, List.mem_append, List.mem_singleton, reduceCtorEq, or_false,
        if_true, if_false]
      · exact by rw [g.hext]
      · exact g.html
      · exact g.str
      · exact g.compact
      · exact g.pretty
      · exact g.array
      · exact g.lint
      · exact g.help
      · exact g.version
      · exact g.filter
      · exact g.noLimit
      · exact g.limit
    | html =>
      cases hs
      have hm : ∀ k, (Item.value .html v).key = some k → ¬ k.single := by rintro k ⟨⟩ hk; exact hk.2.1 rfl
      refine ⟨?_, seen_multi (s := s) h hm⟩
      constructor
      case once => exact once_multi h hm
      all_goals simp only [values_append, values_single, List.append_nil, List.mem_append, List.mem_singleton, reduceCtorEq, or_false,
        if_true, if_false]
      · exact g.hext
      · exact by rw [g.html]
      · exact g.str
      · exact g.compact
      · exact g.pretty
      · exact g.array
      · exact g.lint
      · exact g.help
      · exact g.version
      · exact g.filter
      · exact g.noLimit
      · exact g.limit
    | str =>
      cases hs
      have hm : ∀ k, (Item.value .str v).key = some k → ¬ k.single := by rintro k ⟨⟩ hk; exact hk.2.2 rfl
      refine ⟨?_, seen_multi (s := s) h hm⟩
      constructor
      case once => exact once_multi h hm
      all_goals simp only [values_append, values_single, List.append_nil, List.mem_append, List.mem_singleton, reduceCtorEq, or_false,
        if_true, if_false]
      · exact g.hext
      · exact g.html
      · exact by rw [g.str]
      · exact g.compact
      · exact g.pretty
      · exact g.array
      · exact g.lint
      · exact g.help
      · exact g.version
      · exact g.filter
      · exact g.noLimit
      · exact g.limit
    | filter =>
      obtain ⟨hns, hs⟩ := first_bind hs
      cases hs
      have hk : Key.filter.single := by simp [Key.single]
      have h0 : valuesGiven .filter pre = [] := no_values (by
        have : ¬ 0 < given .filter pre := fun hp => hns ((h.seen _).2 ⟨hk, hp⟩)
        omega)
      refine ⟨?_, seen_step h rfl hk⟩
      constructor
      case once => exact once_step h rfl hns
      all_goals simp only [values_append, values_single, List.append_nil, List.mem_append, List.mem_singleton, reduceCtorEq, or_false,
        if_true, if_false]
      · exact g.hext
      · exact g.html
      · exact g.str
      · exact g.compact
      · exact g.pretty
      · exact g.array
      · exact g.lint
      · exact g.help
      · exact g.version
      · exact by rw [h0]; rfl
      · exact g.noLimit
      · exact g.limit
    | maxSearches =>
      obtain ⟨hns, hs⟩ := first_bind hs
      have hk : Key.maxSearches.single := by simp [Key.single]
      have h0 : valuesGiven .maxSearches pre = [] := no_values (by
        have : ¬ 0 < given .maxSearches pre := fun hp => hns ((h.seen _).2 ⟨hk, hp⟩)
        omega)
      cases hc : lexicalCast v with
      | none => rw [hc] at hs; cases hs
      | some n =>
        rw [hc] at hs
        cases hs
        refine ⟨?_, seen_step h rfl hk⟩
        constructor
        case once => exact once_step h rfl hns
        all_goals simp only [values_append, values_single, List.append_nil, List.mem_append, List.mem_singleton, reduceCtorEq, or_false,
          if_true, if_false]
        · exact g.hext
        · exact g.html
        · exact g.str
        · exact g.compact
        · exact g.pretty
        · exact g.array
        · exact g.lint
        · exact g.help
        · exact g.version
        · exact g.filter
        · exact by simp
        · exact by simp [h0, cast_iff.1 hc]

theorem store_fails {pre rest : List Item} {s : Stored} {i : Item} {e : PoErr} (h : StoreInv pre s) (hg : i.Good)
    (hs : storeOne s i.parsed = .error e) (o : Opts) : ¬ Gives (pre ++ i :: rest) o := by
  intro g
  have twice : ∀ {k : Key}, k.single → i.key = some k → k ∈ s.seen → False := by
    intro k hk hi hm
    have h1 : given k (pre ++ i :: rest) ≤ 1 := g.once k hk.1 hk.2.1 hk.2.2
    rw [given_append, given_cons, if_pos hi] at h1
    have := ((h.seen k).1 hm).2
    omega
  have first : ∀ {k : Key} {f : Unit → Except PoErr Stored}, k.single → i.key = some k → (firstOccurrence k s >>= f) = .error e →
      f () = .error e := by
    intro k f hk hi h
    by_cases hm : k ∈ s.seen
    · exact (twice hk hi hm).elim
    · rw [first_not hm] at h; exact h
  cases i with
  | argument v => cases hs
  | flag k =>
    cases k with
    | hext | html | str | filter | maxSearches => cases hg
    | compact | pretty | array | lint | help | version => cases first (by simp [Key.single]) rfl hs
  | value k v =>
    cases k with
    | compact | pretty | array | lint | help | version => cases hg
    | hext | html | str => cases hs
    | filter => cases first (by simp [Key.single]) rfl hs
    | maxSearches =>
      have hs := first (by simp [Key.single]) rfl hs
      have := g.limit v (by rw [values_append]; simp [valuesGiven])
      rw [← cast_iff] at this
      rw [this] at hs
      cases hs

theorem storeAll_iff : ∀ {is : List Item} {pre : List Item} {s : Stored}, StoreInv pre s → (∀ i ∈ is, i.Good) → ∀ (o : Opts),
    ((storeAll s (is.map Item.parsed)).map Stored.opts = .ok o ↔ Gives (pre ++ is) o)
  | [], pre, s, h, _, o => by
    rw [List.append_nil]
    show Except.ok s.opts = Except.ok o ↔ _
    constructor
    · rintro ⟨⟩; exact h.gives
    · intro g; rw [gives_unique h.gives g]
  | i :: is, pre, s, h, hg, o => by
    rw [List.map_cons, storeAll]
    cases hs : storeOne s i.parsed with
    | error e =>
      constructor
      · rintro ⟨⟩
      · intro g; exact absurd g (store_fails h (hg i (by simp)) hs o)
    | ok s' =>
      have := storeAll_iff (store_step h (hg i (by simp)) hs) (fun j hj => hg j (List.mem_cons_of_mem _ hj)) o
      rw [List.append_assoc, List.singleton_append] at this
      exact this

theorem readOptions_iff {program : Str} {args : List Str} {o : Opts} : readOptions program args = .ok o ↔ Says program args o := by
  have key : ∀ {is : List Item}, Spells is args → (readOptions program args = .ok o ↔
      Gives (if lit "-l" ∈ program :: args ∨ lit "--lint" ∈ program :: args then is else asFiles is) o) := by
    intro is h
    rw [readOptions, spells_run h]
    simp only [bind, Except.bind]
    by_cases hl : lit "-l" ∈ program :: args ∨ lit "--lint" ∈ program :: args
    · rw [if_pos hl, if_neg (by
        simp only [Bool.and_eq_true, Bool.not_eq_true', List.contains_iff_mem, ← Bool.not_eq_true]
        rintro ⟨h1, h2⟩
        exact hl.elim h1 h2)]
      rw [← List.nil_append is, ← storeAll_iff inv_nil (spells_good h) o, List.nil_append]
      cases storeAll {} (is.map Item.parsed) <;> rfl
    · rw [if_neg hl, if_pos (by
        simp only [Bool.and_eq_true, Bool.not_eq_true', List.contains_iff_mem, ← Bool.not_eq_true]
        exact ⟨fun h1 => hl (.inl h1), fun h2 => hl (.inr h2)⟩)]
      rw [assign_files, ← List.nil_append (asFiles is), ← storeAll_iff inv_nil (asFiles_good (spells_good h)) o, List.nil_append]
      cases storeAll {} ((asFiles is).map Item.parsed) <;> rfl
  constructor
  · intro h
    cases hr : runParser args with
    | error e => rw [readOptions, hr] at h; cases h
    | ok ps =>
      obtain ⟨is, hi, -⟩ := run_iff.1 hr
      exact ⟨is, hi, (key hi).1 h⟩
  · rintro ⟨is, hi, hg⟩
    exact (key hi).2 hg

end Hext.Cli
