import Verif.Props.Parser
import Verif.Proofs.ParserVerdict
import Verif.Proofs.ParserPlace
/-!
# C92: what the messages say

A rejected hext is rejected because of its first fault, and the message names it: the closing tag that was found and the one that was
expected, the closing tag that is missing, the brace that does not fit, the byte that cannot be there.
-/

namespace Hext.Props

open Syn Msg Check

section

variable {rx : RxEngine} {charSigned : Bool}

instance (b : Byte) : Decidable (IsAlpha b) := by unfold IsAlpha; infer_instance
instance (b : Byte) : Decidable (IsNameByte b) := by unfold IsNameByte; infer_instance

/-- Is it the name of a tag? For the examples. -/
def tagB (s : Str) : Bool := s == [42] || match s with | [] => false | b :: t => decide (IsAlpha b) && t.all (decide <| IsNameByte ·)

theorem isTag_of {s : Str} (h : tagB s = true) : IsTag s := by
  unfold tagB at h
  cases s with
  | nil => simp at h
  | cons b t =>
    simp at h
    rcases h with h | h
    · exact .inl (by simp [h])
    · exact .inr ⟨b, t, rfl, h⟩

/-- The items of the examples are well-formed. -/
macro "decide_items" : tactic => `(tactic| (
  simp only [List.mem_cons, List.not_mem_nil, or_false, forall_eq_or_imp, forall_eq, Item.Ok, Head.Ok, tagHead, List.map_nil, false_implies,
    implies_true, and_true]
  repeat' apply And.intro
  all_goals (exact isTag_of (by decide +kernel))))

/-- What the parser answers when the verdict on the hext `s` is `v`. -/
def Answers (rx : RxEngine) (s : Str) (x : P Rule) : Verdict → Prop
  | .fine => ∃ r, x = .ok r
  | .says r p k => ∃ place, Points s p k place ∧ x = .error (.syntax (r.text ++ place))
  | .head h p =>
    -- a number does not fit into an `int`
    x = .error .outOfRange ∨
    -- the engine does not compile a regular expression; the message quotes the hext up to a place in that tag
    ∃ q k place what, p ≤ q ∧ q < p + h.text.length ∧ Points s q k place ∧ (∃ r, rx.compile r = some what) ∧
      x = .error (.syntax (lit "In regular expression " ++ place ++ lit "\nError: " ++ what))

theorem answers_of {c : Ctx} {x : P Rule} {v : Verdict} (h : Judged (fun x => ∃ r, x = .ok r) c x v) : Answers c.rx c.input x v := by
  cases v with
  | fine => exact h
  | says r p k => exact h
  | head hd p =>
    obtain ⟨e, rfl, h | ⟨q, k, place, what, h1, h2, h3, h4, rfl⟩⟩ := h
    · exact .inl (by rw [h])
    · exact .inr ⟨q, k, place, what, h1, h2, h3, h4, rfl⟩

/-- C92: a hext of well-formed tags is answered as the verdict on it says. -/
theorem C92_verdict {is : List Item} (hok : ∀ i ∈ is, i.Ok) (hl : (itemsText is).length ≤ 2147483645) :
    Answers rx (itemsText is) (parseHext rx charSigned (itemsText is)) (verdict rx is) := by
  let c : Ctx := { input := itemsText is, charSigned, rx }
  refine answers_of (c := c) ?_
  have hat : At c 0 (itemsWord is ++ []) := ⟨by simp, by simp [c, chars_itemsWord]⟩
  have := scan_run (F := fun x => ∃ r, x = .ok r) (fin := atEnd) (c := c) hl (w := []) (n := 0) (k := finishParse c)
    (fun hp h0 hc _ hf _ hs => finish_run hl hp h0 hc hf hs) hok (by simp [c]) (by simp) (.base (rs := []) .nil) base_empty
    (.base (L := {}) trivial rfl) hat (s := {}) rfl
  rw [List.append_nil] at this
  rw [parse_items_eq hok]
  exact this

-- `<A><x-y></a>`: a message about the innermost open tag
example : ∃ place, Points (lit "<A><x-y></a>") 10 3 place ∧ parseHext rx charSigned (lit "<A><x-y></a>") =
    .error (.syntax (lit "Unexpected closing tag '</a>', expected '</x-y>' " ++ place)) :=
  C92_verdict (rx := rx) (charSigned := charSigned)
    (is := [.start (tagHead "A") false, .start (tagHead "x-y") false, .stop (lit "a")])
    (by decide_items) (by decide)

-- `<*></p>`
example : ∃ place, Points (lit "<*></p>") 5 3 place ∧ parseHext rx charSigned (lit "<*></p>") =
    .error (.syntax (lit "Unexpected closing tag '</p>', expected '</*>' " ++ place)) :=
  C92_verdict (rx := rx) (charSigned := charSigned) (is := [.start (tagHead "*") false, .stop (lit "p")])
    (by decide_items) (by decide)

-- `<DIV>`: the missing tag is written as Gumbo writes it
example : ∃ place, Points (lit "<DIV>") 5 0 place ∧ parseHext rx charSigned (lit "<DIV>") =
    .error (.syntax (lit "Missing closing tag '</div>' " ++ place)) :=
  C92_verdict (rx := rx) (charSigned := charSigned) (is := [.start (tagHead "DIV") false]) (by decide_items) (by decide)

/-- C92: what is wrong with the tags and braces at the beginning of a hext is answered, whatever follows. -/
theorem C92_fault {is : List Item} (hok : ∀ i ∈ is, i.Ok) {rest : Str} (hr : ∀ b t, rest = b :: t → CanBegin b)
    (hl : (itemsText is ++ rest).length ≤ 2147483645) (hf : fault rx is ≠ .fine) :
    Answers rx (itemsText is ++ rest) (parseHext rx charSigned (itemsText is ++ rest)) (fault rx is) := by
  let c : Ctx := { input := itemsText is ++ rest, charSigned, rx }
  refine answers_of (c := c) ?_
  obtain ⟨w, ⟨t, hw⟩, he⟩ := parse_begins (rx := rx) (cs := charSigned) hok hr
  have hat : At c 0 (itemsWord is ++ w) := ⟨by simp, t, by simp [c, chars_append, chars_itemsWord, ← hw]⟩
  have := scan_run (F := fun _ => True) (fin := fun _ _ _ => .fine) (c := c) hl (w := w) (n := rest.length) (k := finishParse c)
    (fun _ _ _ _ _ _ _ => trivial) hok (by simp [c]) (by simp) (.base (rs := []) .nil) base_empty
    (.base (L := {}) trivial rfl) hat (s := {}) rfl
  rw [he]
  change Judged _ c _ (fault rx is) at this
  generalize fault rx is = v at this hf
  cases v with
  | fine => exact absurd rfl hf
  | says r p k => exact this
  | head hd p => exact this

-- `<a>{} %`: there is no rule between the braces, and the percent sign does not matter
example : ∃ place, Points (lit "<a>{} %") 4 1 place ∧ parseHext rx charSigned (lit "<a>{} %") =
    .error (.syntax (lit "Nested rules cannot be empty " ++ place)) :=
  C92_fault (rx := rx) (charSigned := charSigned) (is := [.start (tagHead "a") false, .lbrace, .rbrace]) (by decide_items)
    (rest := lit " %") (fun b t h => by cases h; exact .inl (.inr rfl)) (by decide) (fun h => by cases h)

-- `</p> <p>`: nothing is open
example : ∃ place, Points (lit "</p> <p>") 2 3 place ∧ parseHext rx charSigned (lit "</p> <p>") =
    .error (.syntax (lit "Unexpected closing tag '</p>' " ++ place)) :=
  C92_fault (rx := rx) (charSigned := charSigned) (is := [.stop (lit "p")]) (by decide_items)
    (rest := lit " <p>") (fun b t h => by cases h; exact .inl (.inr rfl)) (by decide) (fun h => by cases h)

theorem charName_called {b : Byte} {n : Str} (h : charName charSigned b = .ok n) : n = called charSigned b := by
  unfold charName at h
  unfold called
  split at h
  · next hb => cases h; rw [if_pos hb]
  rename_i h1
  rw [if_neg h1]
  split at h
  · next hb => cases h; rw [if_pos hb]
  rename_i h2
  rw [if_neg h2]
  split at h
  · next hb => cases h; rw [if_pos hb]
  rename_i h3
  rw [if_neg h3]
  split at h
  · next hb => cases h; rw [if_pos hb]
  rename_i h4
  rw [if_neg h4]
  split at h
  · next hb => cases h; rw [if_pos hb]
  rename_i h5
  rw [if_neg h5]
  have hlt : b.toNat < 256 := b.toNat_lt
  have n4 : b.toNat ≠ 32 := fun h => h4 (byte_eq.mpr h)
  have hv : charVal charSigned b = if (charSigned && decide (128 ≤ b)) = true then (b.toNat : Int) - 256 else b.toNat := rfl
  generalize charVal charSigned b = v at h hv
  dsimp only at h
  simp only [byte_le, ← decimal_eq]
  have e33 : (33 : Byte).toNat = 33 := rfl
  have e126 : (126 : Byte).toNat = 126 := rfl
  have e128 : (128 : Byte).toNat = 128 := rfl
  rw [e33, e126, e128]
  by_cases hs : charSigned = true ∧ 128 ≤ b.toNat
  · have hs' : (charSigned && decide (128 ≤ b)) = true := by
      simp only [Bool.and_eq_true, decide_eq_true_eq, byte_le]
      exact hs
    rw [if_pos hs'] at hv
    rw [if_neg (by omega), if_pos hs]
    split at h
    · cases h
    · rw [if_neg (by omega), if_pos (by omega)] at h
      cases h
      rw [show v.natAbs = 256 - b.toNat by omega]
  · have hs' : ¬ (charSigned && decide (128 ≤ b)) = true := by
      simp only [Bool.and_eq_true, decide_eq_true_eq, byte_le]
      exact hs
    rw [if_neg hs'] at hv
    rw [if_neg (by omega)] at h
    rw [if_neg hs]
    split at h
    · rw [if_pos (by omega)]
      cases h
      rfl
    · rw [if_neg (by omega)] at h
      rw [if_neg (by omega)]
      cases h
      rw [show v.natAbs = b.toNat by omega]

/-- C92: if the first `p` bytes can be continued to an accepted hext, but no continuation of the first `p + 1` bytes
consists of well-formed tags, then the message names the byte at `p`. -/
theorem C92_surprise {s : Str} {p : Nat} (hp : p ≤ s.length) (hl : s.length ≤ 2147483645) (hs : CharSafe charSigned s)
    (hgood : ∃ t r, parseHext rx charSigned (s.take p ++ t) = .ok r)
    (hbad : if p = s.length then ¬ IsText s else ¬ Begins (s.take (p + 1))) :
    ∃ place, Points s p 1 place ∧ parseHext rx charSigned s = .error (.syntax (surprise charSigned s p ++ place)) := by
  obtain ⟨t, r, hg⟩ := hgood
  have he := parse_unexpected (cs := charSigned) hp ⟨t, r, (parse_iff rx charSigned _ _).1 hg⟩ hbad
  let c : Ctx := { input := s, charSigned, rx }
  have h1 : P.assert (decide (p ≤ c.input.length)) = .ok () := by simp [c, P.assert, hp]; rfl
  have hhead : unexpectedHead c p = .ok (surprise charSigned s p) := by
    unfold unexpectedHead surprise
    show (match s[p]? with | none => _ | some ch => _) = _
    cases hb : s[p]? with
    | none => rfl
    | some b =>
      cases hn : charName c.charSigned b with
      | ok name =>
        have e : called charSigned b = name := (charName_called hn).symm
        simp only [hn, e]; rfl
      | error e =>
        obtain ⟨_, h2, h3, h4⟩ := charName_error hn
        obtain ⟨hlt, _⟩ := List.getElem?_eq_some_iff.1 hb
        have hlt : p < s.length := hlt
        rw [if_neg (by omega)] at hbad
        obtain ⟨is, _, _, i1, i2, _⟩ := (parse_iff rx charSigned _ _).1 hg
        exact absurd (hs h2 p b hb h3 h4 ⟨t, is, i1, i2⟩) hbad
  obtain ⟨place, h2, h3⟩ := location_ok (c := c) hl hp 1
  refine ⟨place, h3, ?_⟩
  rw [he]
  show (P.assert (decide (p ≤ c.input.length)) >>= fun _ => unexpectedHead c p >>= fun head =>
    printErrorLocation c p 1 >>= fun loc => throw (PErr.syntax (head ++ loc))) = _
  rw [h1, hhead]
  show (printErrorLocation c p 1 >>= fun loc => throw (PErr.syntax (surprise charSigned s p ++ loc))) = _
  rw [h2]
  rfl

-- `<a/>%`
example : ∃ place, Points (lit "<a/>%") 4 1 place ∧ parseHext rx charSigned (lit "<a/>%") =
    .error (.syntax (lit "Unexpected character '%' " ++ place)) := by
  refine C92_surprise (by decide) (by decide) (charSafe_ascii fun _ => by decide) ⟨[], Ex.rule "a", ?_⟩ ?_
  · have hok : ∀ i ∈ [Item.start (tagHead "a") true], i.Ok := by decide_items
    have e : (lit "<a/>%").take 4 ++ [] = itemsText [Item.start (tagHead "a") true] := by decide
    rw [e]
    exact (parse_items hok _).2 ⟨_, _, .elem (.selfClosing rfl) .nil, rfl⟩
  · rw [if_neg (by decide)]
    exact not_begins (by decide +kernel)

end

end Hext.Props
