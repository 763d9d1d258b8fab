import Verif.Proofs.ParserSafe
/-!
# Whitespace and comments between tags; signed and unsigned `char`
-/

namespace Hext

open Syn Check

/-! ## A text has one meaning, however it is cut into items -/

theorem dfaWord_items {is : List Item} (h : ∀ i ∈ is, i.Ok) : dfaWord hextStart (itemsText is) = itemsWord is :=
  ((grammar_iff _ _).mp ⟨(lang_main _).mpr ⟨is, h, rfl⟩, chars_itemsWord is⟩).2.symm

theorem parse_items {rx cs} {is : List Item} (h : ∀ i ∈ is, i.Ok) (r : Rule) :
    parseHext rx cs (itemsText is) = .ok r ↔ ∃ f rs, Syn.Seq rx {} is f rs ∧ r = ruleOf rs := by
  let c : Ctx := { input := itemsText is, charSigned := cs, rx }
  show Parser.parse c = .ok r ↔ _
  rw [parse_eq, dfaWord_items h]
  rcases exec_items c is h rfl with ⟨f, rs, hs, he⟩ | ⟨hn, e, he, _⟩
  · rw [he]
    constructor
    · intro h; cases h; exact ⟨f, rs, hs, rfl⟩
    · rintro ⟨f', rs', hs', rfl⟩; rw [Seq.unique hs' hs]
  · rw [he]
    constructor
    · intro h; cases h
    · rintro ⟨f', rs', hs', _⟩; exact absurd ⟨f', rs', hs'⟩ hn

/-! ## Fillers -/

/-- The text consists of whitespace and comments. -/
theorem steps_filler {rx} : ∀ {js : List Item} {f st}, (∀ i ∈ js, i.IsFiller) → steps rx f st js = some (st, f)
  | [], _, _, _ => rfl
  | i :: js, f, st, h => by
    have hi : step rx f st i = some (st, f) := by
      have := h i (by simp)
      cases i <;> first | rfl | exact this.elim
    simp only [steps, hi, Option.bind_eq_bind, Option.bind_some]
    exact steps_filler fun j hj => h j (by simp [hj])

theorem steps_insert {rx f st} {is js ks : List Item} (h : ∀ i ∈ js, i.IsFiller) :
    steps rx f st (is ++ js ++ ks) = steps rx f st (is ++ ks) := by
  rw [List.append_assoc, steps_append, steps_append]
  congr 1
  funext x
  rw [steps_append, steps_filler h]
  rfl

theorem seq_iff_steps {rx is r} : (∃ f rs, Syn.Seq rx {} is f rs ∧ r = ruleOf rs) ↔
    ∃ f rs, steps rx {} [[], []] is = some ([[], result rs], f) ∧ r = ruleOf rs := by
  constructor
  · rintro ⟨f, rs, h, rfl⟩
    exact ⟨f, rs, steps_of h [] [], rfl⟩
  · rintro ⟨f, rs, h, rfl⟩
    have hc := (Conf.base (rx := rx) .nil).steps h
    rcases hc.bottom with ⟨_, rs', hs, he⟩ | ⟨r, w, e⟩
    · refine ⟨f, rs', hs, ?_⟩
      cases rs <;> cases rs' <;> simp_all [result, ruleOf]
    · cases e

theorem parse_fill {rx cs} {is js ks : List Item} (h1 : ∀ i ∈ is, i.Ok) (h2 : ∀ i ∈ js, i.Ok) (h3 : ∀ i ∈ ks, i.Ok)
    (hf : ∀ i ∈ js, i.IsFiller) (r : Rule) :
    parseHext rx cs (itemsText is ++ itemsText js ++ itemsText ks) = .ok r ↔
    parseHext rx cs (itemsText is ++ itemsText ks) = .ok r := by
  have e1 : itemsText is ++ itemsText js ++ itemsText ks = itemsText (is ++ js ++ ks) := by simp [itemsText]
  have e2 : itemsText is ++ itemsText ks = itemsText (is ++ ks) := by simp [itemsText]
  rw [e1, e2, parse_items, parse_items, seq_iff_steps, seq_iff_steps, steps_insert hf]
  · intro i hi
    simp only [List.mem_append] at hi
    exact hi.elim (h1 i) (h3 i)
  · intro i hi
    simp only [List.mem_append] at hi
    rcases hi with (hi | hi) | hi
    · exact h1 i hi
    · exact h2 i hi
    · exact h3 i hi

/-! ## Signed and unsigned `char` -/

theorem exec_signed {rx input cs cs' p a s} (h : a ≠ .unexpected) :
    Act.exec { input, charSigned := cs, rx } p a s = Act.exec { input, charSigned := cs', rx } p a s := by
  cases a <;> first | rfl | exact absurd rfl h

theorem charName_ascii {b : Byte} (h : b < 128) (cs cs' : Bool) : charName cs b = charName cs' b := by
  have : ∀ cs, charVal cs b = b.toNat := by
    intro cs
    unfold charVal
    rw [if_neg]
    simp only [Bool.and_eq_true, decide_eq_true_eq, not_and]
    intro _ h2
    exact absurd (UInt8.lt_of_le_of_lt h2 h) (by simp)
  simp only [charName, this]

theorem exec_signed_ascii {rx input cs cs' p a s} (h : ∀ b ∈ input, b < 128) :
    Act.exec { input, charSigned := cs, rx } p a s = Act.exec { input, charSigned := cs', rx } p a s := by
  by_cases ha : a = .unexpected
  · subst ha
    show throwUnexpected { input, charSigned := cs, rx } p = throwUnexpected { input, charSigned := cs', rx } p
    unfold throwUnexpected
    have : unexpectedHead { input, charSigned := cs, rx } p = unexpectedHead { input, charSigned := cs', rx } p := by
      unfold unexpectedHead
      simp only
      cases hb : input[p]? with
      | none => rfl
      | some b => simp only [charName_ascii (h b (List.mem_of_getElem? hb)) cs cs']
    rw [this]
    rfl
  · exact exec_signed ha

theorem execWord_signed {rx input cs cs'} (h : ∀ b ∈ input, b < 128) : ∀ (w : List Sym) (p : Nat) (s : PSt),
    execWord { input, charSigned := cs, rx } p w s = execWord { input, charSigned := cs', rx } p w s
  | [], _, _ => rfl
  | .ch _ :: w, p, s => execWord_signed h w (p + 1) s
  | .act a :: w, p, s => by
    simp only [execWord, exec_signed_ascii (cs := cs) (cs' := cs') h]
    congr 1
    funext s'
    exact execWord_signed h w p s'

theorem parse_signed {rx cs cs' s} (h : ∀ b ∈ s, b < 128) : parseHext rx cs s = parseHext rx cs' s := by
  show Parser.parse { input := s, charSigned := cs, rx } = Parser.parse { input := s, charSigned := cs', rx }
  rw [parse_eq, parse_eq, execWord_signed (cs := cs) (cs' := cs') h]
  rfl

end Hext
