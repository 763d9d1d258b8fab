import Verif.Proofs.Options
/-!
# The command line parser of htmlext: whole command lines
-/

namespace Hext.Cli

theorem map_ok {ε α β : Type} {f : α → β} {x : Except ε α} {b : β} (h : x.map f = .ok b) : ∃ a, x = .ok a ∧ f a = b := by
  cases x with
  | error e => cases h
  | ok a => exact ⟨a, rfl, Except.ok.inj h⟩

/-- What a token with letters can be. -/
theorem shortAll_inv : ∀ {c : Byte} {adj : Str} {others rest : List Str} {ps : List Parsed},
    shortAll c adj others = .ok (ps, rest) →
    (∃ ks : List Key, ks ≠ [] ∧ (∀ k ∈ ks, k.takes = false) ∧ c :: adj = ks.map Key.letter ∧
      ps = ks.map (fun k => ⟨some k, none⟩) ∧ rest = others) ∨
    (∃ (ks : List Key) (k : Key) (v : Str), (∀ k ∈ ks, k.takes = false) ∧ k.takes = true ∧ CanFollow v ∧
      c :: adj = ks.map Key.letter ++ [k.letter] ∧ others = v :: rest ∧
      ps = ks.map (fun k => ⟨some k, none⟩) ++ [⟨some k, some v⟩]) ∨
    (∃ (ks : List Key) (k : Key) (v : Str), (∀ k ∈ ks, k.takes = false) ∧ k.takes = true ∧ v ≠ [] ∧
      c :: adj = ks.map Key.letter ++ [k.letter] ++ v ∧ rest = others ∧
      ps = ks.map (fun k => ⟨some k, none⟩) ++ [⟨some k, some v⟩])
  | c, [], others, rest, ps, h => by
    rw [shortAll_nil] at h
    obtain ⟨⟨p, r⟩, h', e⟩ := map_ok h
    clear h
    cases e
    obtain ⟨k, hk, h⟩ := finish_inv (by simp) h'
    have hc := find_letter_iff.1 hk
    subst hc
    rcases h with ⟨h1, -, h2, h3⟩ | ⟨v, -, h2, -⟩ | ⟨v, h1, -, h2, h3, h4⟩
    · exact .inl ⟨[k], by simp, by simpa using h1, rfl, by simp [h2], h3⟩
    · cases h2
    · exact .inr (.inl ⟨[], k, v, by simp, h1, h3, rfl, h2, by simp [h4]⟩)
  | c, a :: adj, others, rest, ps, h => by
    by_cases hc : ∃ k : Key, c = k.letter
    · obtain ⟨k, rfl⟩ := hc
      cases ht : k.takes with
      | true =>
        rw [shortAll_value ht] at h
        cases h
        exact .inr (.inr ⟨[], k, a :: adj, by simp, ht, by simp, rfl, rfl, rfl⟩)
      | false =>
        rw [shortAll_flag ht] at h
        obtain ⟨⟨ps', r⟩, h', e⟩ := map_ok h
        clear h
        cases e
        rcases shortAll_inv h' with ⟨ks, -, h1, h2, rfl, h3⟩ | ⟨ks, k', v, h1, h2, h3, h4, h5, rfl⟩ |
          ⟨ks, k', v, h1, h2, h3, h4, h5, rfl⟩
        · exact .inl ⟨k :: ks, by simp, by simpa [ht] using h1, by simp [h2], rfl, h3⟩
        · exact .inr (.inl ⟨k :: ks, k', v, by simpa [ht] using h1, h2, h3, by simp [h4], h5, rfl⟩)
        · exact .inr (.inr ⟨k :: ks, k', v, by simpa [ht] using h1, h2, h3, by simp [h4], h5, rfl⟩)
    · exfalso
      have e : ∀ approx, findOption [45, c] approx = .ok none := by
        intro approx
        rw [find_dash, List.find?_eq_none.2]
        intro k _
        simp only [beq_iff_eq, List.cons.injEq, and_true]
        exact fun h => hc ⟨k, h⟩
      rw [shortAll, shortLoop, e] at h
      simp only [bind, Except.bind, pure, Except.pure] at h
      rw [finishAll] at h
      cases h' : finishOption ⟨[45, c], some (a :: adj)⟩ others with
      | error e' => rw [h'] at h; cases h
      | ok x =>
        obtain ⟨k, hk, -⟩ := finish_inv (by simp) h'
        rw [e] at hk
        cases hk

theorem shortAll_flags {others : List Str} : ∀ {ks : List Key}, (∀ k ∈ ks, k.takes = false) → ∀ {c : Byte} {adj : Str}
    (t : Str), c :: adj = ks.map Key.letter ++ t → (t ≠ [] → ∃ b r, t = b :: r ∧
      shortAll c adj others = (shortAll b r others).map fun x => (ks.map (fun k => ⟨some k, none⟩) ++ x.1, x.2)) ∧
      (t = [] → shortAll c adj others = .ok (ks.map (fun k => ⟨some k, none⟩), others))
  | [], _, c, adj, t, h => by
    simp only [List.map_nil, List.nil_append] at h
    subst h
    refine ⟨fun _ => ⟨c, adj, rfl, ?_⟩, by simp⟩
    cases shortAll c adj others <;> rfl
  | k :: ks, hk, c, adj, t, h => by
    simp only [List.map_cons, List.cons_append, List.cons.injEq] at h
    obtain ⟨rfl, h⟩ := h
    have ht := hk k (by simp)
    cases adj with
    | nil =>
      have h1 : ks.map Key.letter = [] ∧ t = [] := List.append_eq_nil_iff.1 h.symm
      have h2 : ks = [] := List.map_eq_nil_iff.1 h1.1
      subst h2
      refine ⟨fun hn => absurd h1.2 hn, fun _ => ?_⟩
      rw [shortAll_nil, finish_flag (k := k) (by simp) find_letter ht rfl]
      rfl
    | cons a adj =>
      obtain ⟨i1, i2⟩ := shortAll_flags (fun k' hk' => hk k' (List.mem_cons_of_mem _ hk')) t h
      rw [shortAll_flag ht]
      refine ⟨fun hn => ?_, fun hn => ?_⟩
      · obtain ⟨b, r, e, i1⟩ := i1 hn
        refine ⟨b, r, e, ?_⟩
        rw [i1]
        cases shortAll b r others <;> rfl
      · rw [i2 hn]; rfl

theorem run_option {tok : Str} {o : RawOption} {os : List RawOption} {rest rest' : List Str} {ps : List Parsed}
    (h1 : parseToken tok = .ok (o :: os)) (h2 : finishAll (o :: os) rest = .ok (ps, rest')) :
    runParser (tok :: rest) = (runParser rest').map (ps ++ ·) := by
  rw [runParser]
  split
  · rename_i h; rw [h1] at h; cases h
  · rename_i h; rw [h1] at h; cases h
  · rename_i o' os' h
    rw [h1] at h
    cases h
    split
    · rename_i h; rw [h2] at h; cases h
    · rename_i h; rw [h2] at h; cases h
      cases runParser rest' <;> rfl

theorem run_argument {tok : Str} {rest : List Str} (h1 : parseToken tok = .ok []) (h2 : tok ≠ [45, 45]) :
    runParser (tok :: rest) = (runParser rest).map (⟨none, some tok⟩ :: ·) := by
  rw [runParser]
  split
  · rename_i h; rw [h1] at h; cases h
  · rw [if_neg h2]
    cases runParser rest <;> rfl
  · rename_i h; rw [h1] at h; cases h

theorem run_arguments {rest : List Str} : runParser ([45, 45] :: rest) = .ok (rest.map fun t => ⟨none, some t⟩) := by
  rw [runParser]
  have h1 : parseToken [45, 45] = .ok [] := rfl
  split
  · rename_i h; rw [h1] at h; cases h
  · rfl
  · rename_i h; rw [h1] at h; cases h

theorem run_error {tok : Str} {rest : List Str} {e : PoErr} (h1 : parseToken tok = .error e) :
    runParser (tok :: rest) = .error e := by
  rw [runParser]
  split
  · rename_i h; rw [h1] at h; cases h; rfl
  · rename_i h; rw [h1] at h; cases h
  · rename_i h; rw [h1] at h; cases h

theorem run_finish_error {tok : Str} {o : RawOption} {os : List RawOption} {rest : List Str} {e : PoErr}
    (h1 : parseToken tok = .ok (o :: os)) (h2 : finishAll (o :: os) rest = .error e) :
    runParser (tok :: rest) = .error e := by
  rw [runParser]
  split
  · rename_i h; rw [h1] at h; cases h
  · rename_i h; rw [h1] at h; cases h
  · rename_i o' os' h
    rw [h1] at h
    cases h
    split
    · rename_i h; rw [h2] at h; cases h; rfl
    · rename_i h; rw [h2] at h; cases h

theorem finishAll_one {o : RawOption} {others : List Str} :
    finishAll [o] others = (finishOption o others).map fun x => ([x.1], x.2) := by
  rw [finishAll]
  cases finishOption o others <;> rfl

theorem parseToken_plain {w : Str} (hw : w ≠ []) (h : (61 : Byte) ∉ w) : parseToken (45 :: 45 :: w) = .ok [⟨w, none⟩] := by
  rw [parseToken, parseLong_plain hw h]; rfl

theorem parseToken_value {w v : Str} (h : (61 : Byte) ∉ w) (hv : v ≠ []) :
    parseToken (45 :: 45 :: (w ++ 61 :: v)) = .ok [⟨w, some v⟩] := by
  rw [parseToken, parseLong_value h, if_neg hv]; rfl

theorem letter_ne (k : Key) : k.letter ≠ 45 := by cases k <;> decide

theorem letters_eq (ks : List Key) : letters ks = ks.map Key.letter := List.map_congr_left fun k _ => letter_eq k

theorem run_short {c : Byte} {adj : Str} {rest rest' : List Str} {ps : List Parsed} (hc : c ≠ 45)
    (h : shortAll c adj rest = .ok (ps, rest')) : runParser ((45 :: c :: adj) :: rest) = (runParser rest').map (ps ++ ·) := by
  obtain ⟨o, os, e⟩ := shortLoop_ok c adj
  refine run_option (o := o) (os := os) ?_ ?_
  · rw [parseToken_short (by rintro c r h; injection h with _ h; injection h with h _; exact hc h), parseShort, if_neg hc, e]
  · rw [shortAll, e] at h; exact h

theorem flags_parsed (ks : List Key) : (ks.map Item.flag).map Item.parsed = ks.map fun k => ⟨some k, none⟩ := by
  rw [List.map_map]; rfl

theorem spells_run {is : List Item} {as : List Str} (h : Spells is as) : runParser as = .ok (is.map Item.parsed) := by
  induction h with
  | nil => rw [runParser]; rfl
  | @argument p is as hp _ ih =>
    have h2 : p ≠ [45, 45] := by rcases hp with h | h <;> rintro rfl <;> revert h <;> decide
    have h1 : parseToken p = .ok [] := by
      rcases hp with h | h
      · rw [parseToken_short (by rintro c r rfl; exact h rfl), parseShort_none (by rintro c r rfl; exact h rfl)]
      · subst h; rfl
    rw [run_argument h1 h2, ih]; rfl
  | arguments ps =>
    refine run_arguments.trans ?_
    rw [List.map_map]; rfl
  | @long k w is as hk hw _ ih =>
    rw [takes_eq] at hk
    refine (run_option (rest' := as) (ps := [⟨some k, none⟩]) (parseToken_plain (names_ne hw) (names_no_eq hw)) ?_).trans ?_
    · rw [finishAll_one, finish_flag (names_ne hw) (names_find hw) hk rfl]; rfl
    · rw [ih]; rfl
  | @longNext k w v is as hk hw hv _ ih =>
    rw [takes_eq] at hk
    refine (run_option (rest' := as) (ps := [⟨some k, some v⟩]) (parseToken_plain (names_ne hw) (names_no_eq hw)) ?_).trans ?_
    · rw [finishAll_one, (finish_next (names_ne hw) (names_find hw) hk rfl).2 ⟨hv, rfl, rfl⟩]; rfl
    · rw [ih]; rfl
  | @longValue k w v is as hk hw hv _ ih =>
    rw [takes_eq] at hk
    have e : lit "--" ++ w ++ lit "=" ++ v = 45 :: 45 :: (w ++ 61 :: v) := by simp [lit]
    rw [e]
    refine (run_option (rest' := as) (ps := [⟨some k, some v⟩]) (parseToken_value (names_no_eq hw) hv) ?_).trans ?_
    · rw [finishAll_one, finish_value (names_ne hw) (names_find hw) hk rfl]; rfl
    · rw [ih]; rfl
  | @short ks is as hn hk _ ih =>
    simp only [takes_eq] at hk
    obtain ⟨k, ks', rfl⟩ := List.exists_cons_of_ne_nil hn
    have e := (shortAll_flags (others := as) hk (c := k.letter) (adj := ks'.map Key.letter) [] (by simp)).2 rfl
    rw [letters_eq]
    refine (run_short (letter_ne k) e).trans ?_
    rw [ih, List.map_append, flags_parsed]; rfl
  | @shortNext ks k v is as hk ht hv _ ih =>
    simp only [takes_eq] at hk ht
    rw [letters_eq, letter_eq]
    obtain ⟨c, adj, e⟩ := List.exists_cons_of_ne_nil (l := ks.map Key.letter ++ [k.letter]) (by simp)
    obtain ⟨b, r, e1, e2⟩ := (shortAll_flags (others := v :: as) hk [k.letter] e.symm).1 (by simp)
    cases e1
    rw [shortAll_nil, (finish_next (by simp) find_letter ht rfl).2 ⟨hv, rfl, rfl⟩] at e2
    have hc : c ≠ 45 := by
      have : c ∈ ks.map Key.letter ++ [k.letter] := by rw [e]; simp
      rcases List.mem_append.1 this with h | h
      · obtain ⟨k', -, rfl⟩ := List.mem_map.1 h
        exact letter_ne k'
      · rw [List.mem_singleton.1 h]; exact letter_ne k
    have e' : lit "-" ++ ks.map Key.letter ++ [k.letter] = 45 :: c :: adj := by rw [List.append_assoc, e]; rfl
    rw [e']
    refine (run_short hc e2).trans ?_
    rw [ih, List.map_append, flags_parsed]
    show Except.ok _ = Except.ok _
    simp [Item.parsed]
  | @shortValue ks k v is as hk ht hv _ ih =>
    simp only [takes_eq] at hk ht
    rw [letters_eq, letter_eq]
    obtain ⟨a, v', rfl⟩ := List.exists_cons_of_ne_nil hv
    obtain ⟨c, adj, e⟩ := List.exists_cons_of_ne_nil (l := ks.map Key.letter ++ (k.letter :: a :: v')) (by simp)
    obtain ⟨b, r, e1, e2⟩ := (shortAll_flags (others := as) hk (k.letter :: a :: v') e.symm).1 (by simp)
    cases e1
    rw [shortAll_value ht] at e2
    have hc : c ≠ 45 := by
      cases ks with
      | nil => cases e; exact letter_ne k
      | cons k' ks => cases e; exact letter_ne k'
    have e' : lit "-" ++ ks.map Key.letter ++ [k.letter] ++ a :: v' = 45 :: c :: adj := by
      rw [← e]; simp [lit]
    rw [e']
    refine (run_short hc e2).trans ?_
    rw [ih, List.map_append, flags_parsed]
    show Except.ok _ = Except.ok _
    simp [Item.parsed]
  | @argumentValue v is as hv _ ih =>
    refine (run_option (rest' := as) (ps := [⟨none, some v⟩]) (parseToken_value (w := []) (by simp) hv) ?_).trans ?_
    · rw [finishAll_one]; rfl
    · rw [ih]; rfl

theorem parsed_flags {ks : List Key} {ps : List Parsed} {is : List Item}
    (h : ps = is.map Item.parsed) : ks.map (fun k => (⟨some k, none⟩ : Parsed)) ++ ps = (ks.map Item.flag ++ is).map Item.parsed := by
  rw [List.map_append, flags_parsed, h]

theorem run_spells (n : Nat) : ∀ {as : List Str} {ps : List Parsed}, as.length ≤ n → runParser as = .ok ps →
    ∃ is, Spells is as ∧ ps = is.map Item.parsed := by
  induction n with
  | zero =>
    intro as ps hl h
    have : as = [] := List.length_eq_zero_iff.1 (Nat.le_zero.1 hl)
    subst this
    rw [runParser] at h
    cases h
    exact ⟨[], .nil, rfl⟩
  | succ n ih =>
    intro as ps hl h
    cases as with
    | nil =>
      rw [runParser] at h
      cases h
      exact ⟨[], .nil, rfl⟩
    | cons tok rest =>
      simp only [List.length_cons, Nat.add_le_add_iff_right] at hl
      rcases token_cases tok with ⟨hp, e⟩ | ⟨rfl, e⟩ | ⟨w, hw, hno, rfl, e⟩ | ⟨w, v, hno, hv, rfl, e⟩ | ⟨w, hno, rfl, e⟩ |
        ⟨c, adj, hc, rfl, e⟩
      · have h2 : tok ≠ [45, 45] := by rcases hp with h | h <;> rintro rfl <;> revert h <;> decide
        rw [run_argument e h2] at h
        obtain ⟨qs, hq, rfl⟩ := map_ok h
        obtain ⟨is, h1, rfl⟩ := ih hl hq
        exact ⟨.argument tok :: is, .argument hp h1, rfl⟩
      · rw [run_arguments] at h
        cases h
        refine ⟨rest.map .argument, .arguments rest, ?_⟩
        rw [List.map_map]; rfl
      · cases hf : finishAll [⟨w, none⟩] rest with
        | error e' => rw [run_finish_error e hf] at h; cases h
        | ok x =>
          obtain ⟨ps', rest'⟩ := x
          have hlen := finishAll_length hf
          rw [run_option e hf] at h
          obtain ⟨qs, hq, rfl⟩ := map_ok h
          obtain ⟨is, h1, rfl⟩ := ih (by omega) hq
          rw [finishAll_one] at hf
          obtain ⟨⟨p, r⟩, hf', e'⟩ := map_ok hf
          clear hf
          cases e'
          obtain ⟨k, hk, hf⟩ := finish_inv hw hf'
          have hn := (find_names hw).1 hk
          rcases hf with ⟨ht, -, rfl, rfl⟩ | ⟨v, -, h', -⟩ | ⟨v, ht, -, rfl, hv, rfl⟩
          · exact ⟨.flag k :: is, .long (by rw [takes_eq]; exact ht) hn h1, rfl⟩
          · cases h'
          · exact ⟨.value k v :: is, .longNext (by rw [takes_eq]; exact ht) hn hv h1, rfl⟩
      · cases hf : finishAll [⟨w, some v⟩] rest with
        | error e' => rw [run_finish_error e hf] at h; cases h
        | ok x =>
          obtain ⟨ps', rest'⟩ := x
          have hlen := finishAll_length hf
          rw [run_option e hf] at h
          obtain ⟨qs, hq, rfl⟩ := map_ok h
          obtain ⟨is, h1, rfl⟩ := ih (by omega) hq
          rw [finishAll_one] at hf
          obtain ⟨⟨p, r⟩, hf', e'⟩ := map_ok hf
          clear hf
          cases e'
          by_cases hw : w = []
          · subst hw
            cases hf'
            exact ⟨.argument v :: is, .argumentValue hv h1, rfl⟩
          · obtain ⟨k, hk, hf⟩ := finish_inv hw hf'
            have hn := (find_names hw).1 hk
            rcases hf with ⟨-, h', -⟩ | ⟨v', ht, h', rfl, rfl⟩ | ⟨v, -, h', -⟩
            · cases h'
            · cases h'
              refine ⟨.value k v :: is, ?_, rfl⟩
              have := Spells.longValue (k := k) (w := w) (v := v) (by rw [takes_eq]; exact ht) hn hv h1
              have e : lit "--" ++ w ++ lit "=" ++ v = 45 :: 45 :: (w ++ 61 :: v) := by simp [lit]
              rw [e] at this
              exact this
            · cases h'
      · rw [run_error e] at h; cases h
      · obtain ⟨o, os, e'⟩ := shortLoop_ok c adj
        rw [e'] at e
        cases hf : finishAll (o :: os) rest with
        | error e' => rw [run_finish_error e hf] at h; cases h
        | ok x =>
          obtain ⟨ps', rest'⟩ := x
          have hlen := finishAll_length hf
          rw [run_option e hf] at h
          obtain ⟨qs, hq, rfl⟩ := map_ok h
          obtain ⟨is, h1, rfl⟩ := ih (by omega) hq
          have hs : shortAll c adj rest = .ok (ps', rest') := by rw [shortAll, e']; exact hf
          rcases shortAll_inv hs with ⟨ks, hn, hk, hc', rfl, rfl⟩ | ⟨ks, k, v, hk, ht, hv, hc', rfl, rfl⟩ |
            ⟨ks, k, v, hk, ht, hv, hc', rfl, rfl⟩
          · refine ⟨ks.map .flag ++ is, ?_, parsed_flags rfl⟩
            have := Spells.short (ks := ks) hn (fun k hm => by rw [takes_eq]; exact hk k hm) h1
            rw [letters_eq, ← hc'] at this
            exact this
          · refine ⟨ks.map .flag ++ .value k v :: is, ?_, ?_⟩
            · have := Spells.shortNext (ks := ks) (k := k) (v := v) (fun k hm => by rw [takes_eq]; exact hk k hm)
                (by rw [takes_eq]; exact ht) hv h1
              rw [letters_eq, letter_eq, List.append_assoc, ← hc'] at this
              exact this
            · rw [List.append_assoc]; exact parsed_flags rfl
          · refine ⟨ks.map .flag ++ .value k v :: is, ?_, ?_⟩
            · have := Spells.shortValue (ks := ks) (k := k) (v := v) (fun k hm => by rw [takes_eq]; exact hk k hm)
                (by rw [takes_eq]; exact ht) hv h1
              rw [letters_eq, letter_eq, List.append_assoc (lit "-"), List.append_assoc (lit "-"), ← hc'] at this
              exact this
            · rw [List.append_assoc]; exact parsed_flags rfl

theorem run_iff {as : List Str} {ps : List Parsed} : runParser as = .ok ps ↔ ∃ is, Spells is as ∧ ps = is.map Item.parsed := by
  constructor
  · exact run_spells as.length (Nat.le_refl _)
  · rintro ⟨is, h, rfl⟩; exact spells_run h

theorem spells_unique {is js : List Item} {as : List Str} (h1 : Spells is as) (h2 : Spells js as) : is = js := by
  have e := (spells_run h1).symm.trans (spells_run h2)
  have e' := Except.ok.inj e
  revert e'
  clear e h1 h2
  induction is generalizing js with
  | nil => cases js <;> simp
  | cons i is ih =>
    cases js with
    | nil => simp
    | cons j js =>
      simp only [List.map_cons, List.cons.injEq]
      rintro ⟨h1, h2⟩
      exact ⟨parsed_inj h1, ih h2⟩

end Hext.Cli
