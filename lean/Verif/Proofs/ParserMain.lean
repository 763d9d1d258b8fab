import Verif.Proofs.ParserNest
import Verif.Proofs.ParserLang

/-!
# The parser returns the rule that the hext means
-/

namespace Hext

open Syn Check

theorem throwUnexpected_error (c : Ctx) (p : Nat) (s : PSt) : ∃ e, Act.exec c p .unexpected s = .error e := by
  show ∃ e, (throwUnexpected c p : P PSt) = .error e
  unfold throwUnexpected
  cases P.assert (p ≤ c.input.length) with
  | error e => exact ⟨e, rfl⟩
  | ok _ =>
    cases unexpectedHead c p with
    | error e => exact ⟨e, rfl⟩
    | ok _ =>
      cases printErrorLocation c p 1 with
      | error e => exact ⟨e, rfl⟩
      | ok _ => exact ⟨_, rfl⟩

theorem parse_eq (c : Ctx) : Parser.parse c = execWord c 0 (dfaWord hextStart c.input) {} >>= finishParse c := by
  simp only [Parser.parse]
  rw [runMachine_eq c c.input hextStart 0 {} (by decide) (by decide)]

theorem parse_rejected {c : Ctx} (h : accepts hextStart c.input = false) : ∃ e, Parser.parse c = .error e := by
  obtain ⟨u, rest, h1, h2, h3⟩ := reject_spec c.input hextStart (by decide) (by decide) h
  rw [parse_eq, h2, execWord_append]
  cases hu : execWord c 0 u {} with
  | error e => exact ⟨e, rfl⟩
  | ok s =>
    obtain ⟨e, he⟩ := throwUnexpected_error c (0 + (chars u).length) s
    refine ⟨e, ?_⟩
    show (execWord c (0 + (chars u).length) [.act .unexpected] s) >>= finishParse c = .error e
    simp only [execWord, he]
    rfl

theorem parse_accepted {c : Ctx} (h : accepts hextStart c.input = true) : ∃ is, (∀ i ∈ is, i.Ok) ∧
    c.input = itemsText is ∧ dfaWord hextStart c.input = itemsWord is := by
  obtain ⟨h1, h2⟩ := (grammar_iff _ _).mpr ⟨h, rfl⟩
  obtain ⟨is, h3, h4⟩ := (lang_main _).mp h1
  exact ⟨is, h3, by rw [← h2, h4, chars_itemsWord], h4⟩

/-- The parser returns a rule if and only if the hext means that rule. -/
theorem parse_iff (rx : RxEngine) (charSigned : Bool) (hext : Str) (r : Rule) :
    parseHext rx charSigned hext = .ok r ↔ Means rx hext r := by
  let c : Ctx := { input := hext, charSigned, rx }
  show Parser.parse c = .ok r ↔ _
  constructor
  · intro h
    cases ha : accepts hextStart c.input with
    | false =>
      obtain ⟨e, he⟩ := parse_rejected ha
      rw [he] at h
      cases h
    | true =>
      obtain ⟨is, h1, h2, h3⟩ := parse_accepted ha
      rw [parse_eq, h3] at h
      rcases exec_items c is h1 h2 with ⟨f, rs, hs, he⟩ | ⟨_, e, he, _⟩
      · rw [he] at h
        cases h
        exact ⟨is, f, rs, h1, h2, hs, rfl⟩
      · rw [he] at h
        cases h
  · rintro ⟨is, f, rs, h1, h2, hs, rfl⟩
    obtain ⟨_, h3⟩ := (grammar_iff _ _).mp ⟨(lang_main _).mpr ⟨is, h1, rfl⟩, chars_itemsWord is⟩
    rw [← h2] at h3
    rw [parse_eq, ← h3]
    rcases exec_items c is h1 h2 with ⟨f', rs', hs', he⟩ | ⟨hn, _⟩
    · rw [he, Seq.unique hs hs']
    · exact absurd ⟨f, rs, hs⟩ hn

end Hext
