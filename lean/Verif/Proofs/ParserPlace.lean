import Verif.Proofs.ParserMessage

/-!
# The place of an unexpected byte
-/

namespace Hext

open Syn Check Msg

theorem not_accepts (rx : RxEngine) {s : Str} (h : ¬ IsText s) : accepts hextStart s = false := by
  cases ha : accepts hextStart s with
  | false => rfl
  | true =>
    obtain ⟨is, h1, h2, _⟩ := parse_accepted (c := { input := s, charSigned := false, rx }) ha
    exact absurd ⟨is, h1, h2⟩ h

theorem throwUnexpected_all (c : Ctx) (p : Nat) : ∃ e, ∀ {α}, (throwUnexpected c p : P α) = .error e := by
  unfold throwUnexpected
  cases P.assert (p ≤ c.input.length) with
  | error e => exact ⟨e, rfl⟩
  | ok _ =>
    cases unexpectedHead c p with
    | error e => exact ⟨e, rfl⟩
    | ok _ =>
      cases printErrorLocation c p 1 with
      | error e => exact ⟨e, rfl⟩
      | ok _ => exact ⟨_, rfl⟩

theorem remains_items {is : List Item} (h : ∀ i ∈ is, i.Ok) : Remains hextStart (itemsWord is) :=
  (remains_start _).mpr ((lang_main _).mpr ⟨is, h, rfl⟩)

/-- If the first `p` bytes can be continued to a hext that has a rule, and no hext begins with one byte more,
then the parser complains about the byte at `p`. -/
theorem parse_unexpected {rx : RxEngine} {cs : Bool} {s : Str} {p : Nat} (hp : p ≤ s.length)
    (hgood : ∃ t r, Means rx (s.take p ++ t) r)
    (hbad : if p = s.length then ¬ IsText s else ¬ Begins (s.take (p + 1))) :
    parseHext rx cs s = throwUnexpected { input := s, charSigned := cs, rx } p := by
  obtain ⟨t, r, is, f, rs, hok, htext, hseq, _⟩ := hgood
  let c : Ctx := { input := s, charSigned := cs, rx }
  have hnot : ¬ IsText s := by
    intro hi
    split at hbad
    · exact hbad hi
    · refine hbad ⟨s.drop (p + 1), ?_⟩
      rw [List.take_append_drop]
      exact hi
  obtain ⟨u, rest, h1, h2, ⟨v, h3⟩, h4, h5⟩ := reject_spec s hextStart (by decide) (by decide) (not_accepts rx hnot)
  have hW := remains_items hok
  have hcW : chars (itemsWord is) = s.take p ++ t := by rw [chars_itemsWord, htext]
  have hlen : (chars u).length = p := by
    rcases Nat.lt_trichotomy (chars u).length p with hlt | he | hgt
    · exfalso
      cases rest with
      | nil => rw [h1] at hp; simp at hp; omega
      | cons b rest' =>
        refine h4 b rest' rfl _ hW ?_
        rw [hcW, h1, List.take_append]
        have : p - (chars u).length = (p - (chars u).length - 1) + 1 := by omega
        rw [List.take_of_length_le (by omega), this, List.take_succ_cons, List.append_assoc]
        exact ⟨List.take (p - (chars u).length - 1) rest' ++ t, by simp⟩
    · exact he
    · exfalso
      have hlt : p < s.length := by rw [h1]; simp; omega
      rw [if_neg (by omega)] at hbad
      obtain ⟨is', hok', hw'⟩ := (lang_main _).mp ((remains_start _).mp h3)
      have e : itemsText is' = chars u ++ chars v := by rw [← chars_itemsWord, ← hw', chars_append]
      refine hbad ⟨(chars u).drop (p + 1) ++ chars v, is', hok', ?_⟩
      rw [e, h1, List.take_append_of_le_length (by omega), ← List.append_assoc, List.take_append_drop]
  have htake : s.take p = chars u := by rw [h1, ← hlen]; simp
  obtain ⟨v', hv'⟩ := h5 _ hW (by rw [hcW, htake]; exact List.prefix_append _ _)
  -- the word runs without an error
  have hex : ∃ s', execWord c 0 u {} = .ok s' := by
    let c' : Ctx := { c with input := itemsText is }
    have hav : Sym.act .unexpected ∉ u := by
      have := G.avoids_spec ((remains_start _).mp h3) main_avoids
      simp only [List.mem_append, not_or] at this
      exact this.1
    have hat : At c 0 u := ⟨by simp, rest, by simp [c, h1]⟩
    have hat' : At c' 0 u := ⟨by simp, t, by simp [c', ← htext, htake]⟩
    have hsim := execWord_sim (c := c) (c' := c') rfl u 0 {} hav rfl hat hat'
    have hok' : ∃ s', execWord c' 0 u {} = .ok s' := by
      rcases exec_items c' is hok rfl with ⟨f', rs', _, he⟩ | ⟨hn, _⟩
      · rw [← hv', execWord_append] at he
        cases hu : execWord c' 0 u {} with
        | ok s' => exact ⟨s', rfl⟩
        | error e => rw [hu] at he; cases he
      · exact absurd ⟨f, rs, hseq⟩ hn
    rcases hsim with e | ⟨_, e', _, he, _⟩
    · rw [e]; exact hok'
    · obtain ⟨s', hs'⟩ := hok'
      rw [hs'] at he
      cases he
  obtain ⟨s', hs'⟩ := hex
  show Parser.parse c = _
  rw [parse_eq, h2, execWord_append, hs']
  show (throwUnexpected c (0 + (chars u).length) >>= fun s => pure s) >>= finishParse c = _
  rw [Nat.zero_add, hlen]
  obtain ⟨e, he⟩ := throwUnexpected_all c p
  show _ = throwUnexpected c p
  rw [he, he]
  rfl

end Hext
