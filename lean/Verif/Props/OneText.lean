import Verif.Props.Cli
import Verif.Props.Asked
import Verif.Props.NodeObjects
import Verif.Proofs.ParserSplit
/-!
# A text is a hext for all programs or for none (C110)
-/

namespace Hext.Props

open Syn Binding
open Cli (World Contents)

variable {rx : RxEngine} {charSigned : Bool}

theorem wrapper_iff (s : Str) (r : Rule) : wrapperRule rx charSigned s = .value r ↔ Means rx s r := by
  rw [← C36_parse_iff rx charSigned]
  cases h : parseHext rx charSigned s with
  | ok r' => simp [wrapperRule, h]
  | error e => cases e <;> simp [wrapperRule, h]

theorem node_iff (s : Str) (r : Rule) : nodeRule rx charSigned s = .value r ↔ Means rx (cstr s) r := by
  rw [← C36_parse_iff rx charSigned]
  show _ ↔ parseHextC rx charSigned s = .ok r
  cases h : parseHextC rx charSigned s with
  | ok r' => simp [nodeRule, h]
  | error e => cases e <;> simp [nodeRule, h]

/-- C110, for texts without NUL bytes: for the library with and without a length, for Python, Ruby and PHP and for Node, a text is a hext if and
only if it is one by the grammar, and it means the same rule. For htmlext see `C110_lint`.

Missing: texts with NUL bytes, see `C110_one_meaning`, `C110_ignored` and `C110_refused`. -/
theorem C110_same_partial {s : Str} (hs : 0 ∉ s) (r : Rule) :
    (parseHext rx charSigned s = .ok r ↔ Means rx s r) ∧ (parseHextC rx charSigned s = .ok r ↔ Means rx s r) ∧
      (wrapperRule rx charSigned s = .value r ↔ Means rx s r) ∧ (nodeRule rx charSigned s = .value r ↔ Means rx s r) := by
  refine ⟨C36_parse_iff .., ?_, wrapper_iff s r, ?_⟩
  · rw [parseHextC, cstr_eq_self hs]
    exact C36_parse_iff ..
  · rw [node_iff, cstr_eq_self hs]

/-- No item begins with a NUL byte. -/
theorem not_isText_nul (s : Str) : ¬ IsText (0 :: s) := by
  rintro ⟨is, hok, h⟩
  cases is with
  | nil => simp [itemsText] at h
  | cons i is =>
    have hi := hok i (List.mem_cons_self ..)
    rw [itemsText, List.flatMap_cons] at h
    cases i with
    | space b =>
      simp only [Item.text, List.cons_append, List.cons.injEq] at h
      rw [← h.1] at hi
      simp [Item.Ok, IsSpace] at hi
    | comment t => simp [Item.text] at h
    | lbrace => exact absurd (List.cons.inj (show (0 : Byte) :: s = 123 :: _ from h)).1 (by decide)
    | rbrace => exact absurd (List.cons.inj (show (0 : Byte) :: s = 125 :: _ from h)).1 (by decide)
    | start hd sc => simp [Item.text, Head.text] at h
    | stop t => exact absurd (List.cons.inj (show (0 : Byte) :: s = 60 :: _ from h)).1 (by decide)

theorem means_isText {s : Str} {r : Rule} (h : Means rx s r) : IsText s := by
  obtain ⟨is, _, _, h1, h2, _, _⟩ := h
  exact ⟨is, h1, h2⟩

theorem cstr_split : ∀ {s : Str}, 0 ∈ s → ∃ rest, s = cstr s ++ 0 :: rest
  | c :: s, h => by
    by_cases hc : c = 0
    · subst hc
      exact ⟨s, by simp [cstr]⟩
    · obtain ⟨rest, hr⟩ := cstr_split (s := s) (by simpa [Ne.symm hc] using h)
      exact ⟨rest, by rw [show cstr (c :: s) = c :: cstr s by simp [cstr, hc], List.cons_append, ← hr]⟩

/-- C110, in full: no text has two meanings. If both a program that reads the whole text and one that reads it up to the first NUL byte accept
a text, it has no NUL byte, and the rules are the same. -/
theorem C110_one_meaning {s : Str} {r r' : Rule} (h : wrapperRule rx charSigned s = .value r) (h' : nodeRule rx charSigned s = .value r') :
    0 ∉ s ∧ r = r' := by
  rw [wrapper_iff] at h
  rw [node_iff] at h'
  have hs : 0 ∉ s := by
    intro h0
    obtain ⟨rest, hr⟩ := cstr_split h0
    have h1 := means_isText h
    rw [hr] at h1
    exact not_isText_nul _ (rest_items (means_isText h') h1)
  rw [cstr_eq_self hs] at h'
  exact ⟨hs, C36_meaning_unique rx s r r' h h'⟩

theorem cstr_append {s : Str} (hs : 0 ∉ s) (rest : Str) : cstr (s ++ 0 :: rest) = s := by
  induction s with
  | nil => simp [cstr]
  | cons c s ih =>
    simp only [List.mem_cons, not_or] at hs
    have := ih hs.2
    simp only [cstr] at this
    simp [cstr, Ne.symm hs.1, this]

/-- C110 is false of Node: everything behind a NUL byte is ignored, whatever it is. Python, Ruby and PHP refuse such a text. -/
theorem C110_ignored {s : Str} {r : Rule} (hs : 0 ∉ s) (hm : Means rx s r) (rest : Str) :
    nodeRule rx charSigned (s ++ 0 :: rest) = .value r ∧ ∀ r', wrapperRule rx charSigned (s ++ 0 :: rest) ≠ .value r' := by
  have h1 : nodeRule rx charSigned (s ++ 0 :: rest) = .value r := by rw [node_iff, cstr_append hs]; exact hm
  refine ⟨h1, fun r' h' => ?_⟩
  exact (C110_one_meaning h' h1).1 (by simp)

/-- C110. `htmlext --lint` accepts a hext file if and only if its bytes before the first NUL byte are a hext. -/
theorem C110_lint {σ : Type} {W : World σ} {path s : Str} {w w' : σ} (hc : Contents W path w s w') (out err : Str) :
    Cli.main W (.ok { hext := [path], lint := true }) w = some (.exit 0 out err) ↔ err = [] ∧ out = [] ∧ ∃ r, Means W.rx (cstr s) r := by
  rw [C52_lint rfl rfl rfl (.inl (by simp))]
  refine and_congr_right fun _ => and_congr_right fun _ => ⟨?_, ?_⟩
  · rintro ⟨hexts, w1, rules, hr, hp⟩
    cases hr with
    | cons h1 h2 =>
      cases h2
      have he := Cli.readFile_ok.2 hc
      rw [Cli.readFile_ok.2 h1] at he
      cases he
      cases rules with
      | nil => simp at hp
      | cons r rs =>
        simp only [List.append_nil, List.map_cons, List.map_nil, List.cons.injEq] at hp
        exact ⟨r, (C36_parse_iff ..).1 hp.1⟩
  · rintro ⟨r, hr⟩
    exact ⟨[s], w', [r], .cons hc .nil, by simpa [parseHextC] using (C36_parse_iff W.rx W.charSigned ..).2 hr⟩

/-- C110 is false of Node and htmlext in the other direction, too: a hext with a NUL byte, say within quotes, is one for Python, Ruby and PHP, and
Node and `htmlext --lint` refuse it. -/
theorem C110_refused {s : Str} {r : Rule} (h0 : 0 ∈ s) (hm : Means rx s r) :
    wrapperRule rx charSigned s = .value r ∧ (∀ r', nodeRule rx charSigned s ≠ .value r') ∧
      ∀ {σ : Type} {W : World σ} {path : Str} {w w' : σ} (out err : Str), W.rx = rx → Contents W path w s w' →
        Cli.main W (.ok { hext := [path], lint := true }) w ≠ some (.exit 0 out err) := by
  have h1 : wrapperRule rx charSigned s = .value r := (wrapper_iff s r).2 hm
  have h2 : ∀ r', nodeRule rx charSigned s ≠ .value r' := fun r' h' => (C110_one_meaning h1 h').1 h0
  refine ⟨h1, h2, fun out err hw hc he => ?_⟩
  obtain ⟨_, _, r', hr'⟩ := (C110_lint hc out err).1 he
  rw [hw] at hr'
  exact h2 r' ((node_iff s r').2 hr')

/-- `<a href:x/>` and a NUL byte with anything behind it is a hext for Node and for `htmlext --lint`. -/
theorem C110_ignored_example (rx : RxEngine) (charSigned : Bool) (rest : Str) :
    nodeRule rx charSigned (lit "<a href:x/>" ++ 0 :: rest) = .value hrefRule ∧
      ∀ r', wrapperRule rx charSigned (lit "<a href:x/>" ++ 0 :: rest) ≠ .value r' :=
  C110_ignored (by decide) ((C36_parse_iff rx charSigned ..).1 (href_parsed rx charSigned)) rest

example (rest : Str) : Cli.main { exWorld with files := fun _ w => (.bytes (lit "<a href:x/>" ++ 0 :: rest), w) }
    (.ok { hext := [lit "f"], lint := true }) () = some (.exit 0 [] []) :=
  (C110_lint (.inl rfl) _ _).2 ⟨rfl, rfl, hrefRule, by
    rw [cstr_append (by decide)]
    exact (C36_parse_iff _ true ..).1 (href_parsed ..)⟩

/-- `<a title=="NUL" href:x/>` is a hext, and has a NUL byte. -/
theorem C110_refused_example (rx : RxEngine) (charSigned : Bool) : ∃ s r, 0 ∈ s ∧ Means rx s r ∧ wrapperRule rx charSigned s = .value r ∧
    ∀ r', nodeRule rx charSigned s ≠ .value r' := by
  have hp := asked_parsed rx charSigned (tag := lit "a") (attr := lit "title") (attr2 := lit "href") (key := lit "x") (v := [0]) (q := 34) .equals
    (isName_check (by decide +kernel)) (isName_check (by decide +kernel)) (isName_check (by decide +kernel)) (isName_check (by decide +kernel))
    (fits_of_not_mem (.inl rfl) (by decide) (by decide))
  have hm := (C36_parse_iff rx charSigned ..).1 hp
  have h0 : 0 ∈ askedText (lit "a") (lit "title") .equals 34 [0] (lit "href") (lit "x") := by simp [askedText]
  obtain ⟨h1, h2, _⟩ := C110_refused (charSigned := charSigned) h0 hm
  exact ⟨_, _, h0, hm, h1, h2⟩

end Hext.Props
