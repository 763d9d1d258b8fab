import Verif.Proofs.ParserOwn
import Verif.Proofs.ParserPlace
import Verif.Proofs.ParserMessage
import Verif.Proofs.ParserRules
import Verif.Proofs.PrintAll
import Verif.Spec.Example
/-!
# Properties of ParseHext (C34 to C41)

What a hext means is defined in `Verif.Spec.Syntax`, the position in an error message in `Verif.Spec.Message`, the
printer in `Verif.Spec.Print`, regular expressions with their own options only in `Verif.Spec.Own`.
-/

namespace Hext.Props

open Syn Msg Check

/-! ## Hexts for the examples -/

def tagHead (t : String) (pats : List Pat := []) (conds : List Cond := []) : Head :=
  { options := [], tag := lit t, conds, pats := pats.map ([32], ·), ws := [] }

/-- The error with which parsing a sequence of items ends, computed without the automaton's tables. -/
theorem parse_items_eq {rx cs} {is : List Item} (h : ∀ i ∈ is, i.Ok) : parseHext rx cs (itemsText is) =
    (execWord { input := itemsText is, charSigned := cs, rx } 0 (itemsWord is) {} >>=
      finishParse { input := itemsText is, charSigned := cs, rx }) := by
  show Parser.parse _ = _
  rw [parse_eq, dfaWord_items h]

/-! ## C34: totality and memory safety -/

/-- Where `char` is signed, the bytes for which `std::isprint` is not defined, 128 to 254, stand only at places where the
grammar allows them, such as within a literal or a comment. -/
def CharSafe (charSigned : Bool) (s : Str) : Prop :=
  charSigned = true → ∀ (p : Nat) (b : Byte), s[p]? = some b → 128 ≤ b → b ≠ 255 → Begins (s.take p) → Begins (s.take (p + 1))

/-- Texts without such bytes. -/
theorem charSafe_ascii {charSigned : Bool} {s : Str} (h : charSigned = true → ∀ b ∈ s, b < 128 ∨ b = 255) :
    CharSafe charSigned s := by
  intro h1 p b h2 h3 h4 _
  rcases h h1 b (List.mem_of_getElem? h2) with h | h
  · exact absurd (UInt8.lt_of_le_of_lt h3 h) (by simp)
  · exact absurd h h4

/-- Texts that follow the grammar, with whatever bytes. -/
theorem charSafe_text {charSigned : Bool} {s : Str} (h : IsText s) : CharSafe charSigned s := by
  intro _ p b _ _ _ _
  exact ⟨s.drop (p + 1), by rw [List.take_append_drop]; exact h⟩

/-- C34, partial: parsing ends with a rule, a `SyntaxError` or `std::out_of_range`, without undefined behaviour and
without a failed assertion, for hexts of at most 2^31 - 3 bytes. Where `char` is signed, bytes from 128 to 254 are
excluded unless the grammar allows them where they stand, see `C34_parse_unsafe`. (The automaton and every action are total functions; the model reports reads outside
the input, unset tokens, empty stacks and missing values as `ub` or `assertFail`.) -/
theorem C34_parse_safe_partial (rx : RxEngine) (charSigned : Bool) (s : Str) (hs : CharSafe charSigned s)
    (hl : s.length ≤ 2147483645) :
    (∃ r, parseHext rx charSigned s = .ok r) ∨ (∃ m, parseHext rx charSigned s = .error (.syntax m)) ∨
      parseHext rx charSigned s = .error .outOfRange := by
  cases h : parseHext rx charSigned s with
  | ok r => exact .inl ⟨r, rfl⟩
  | error e =>
    refine .inr ?_
    rcases parse_error h with hsoft | ⟨_, h1, p, b, h2, h3, h4, h5, h6⟩
    · cases hsoft with
      | «syntax» m => exact .inl ⟨m, rfl⟩
      | outOfRange => exact .inr rfl
      | overflow => exact absurd (parse_explained h) (by simp only [Explained]; omega)
    · exact absurd (hs h1 p b h2 h3 h4 h5) h6

/-- Where `char` is unsigned, every hext of at most 2^31 - 3 bytes is safe. -/
theorem C34_parse_safe_unsigned (rx : RxEngine) (s : Str) (hl : s.length ≤ 2147483645) :
    (∃ r, parseHext rx false s = .ok r) ∨ (∃ m, parseHext rx false s = .error (.syntax m)) ∨
      parseHext rx false s = .error .outOfRange :=
  C34_parse_safe_partial rx false s (fun h => by cases h) hl

example : CharSafe true (lit "<a href:x/>") := charSafe_ascii fun _ => by decide

/-- A comment is safe although it is not ASCII. -/
example : CharSafe true (lit "# für\n") :=
  charSafe_text ⟨[.comment (lit " für")], by simp only [List.mem_singleton]; rintro _ rfl; show (10 : Byte) ∉ _; decide, by decide⟩

theorem charName_ub {b : Byte} (h128 : 128 ≤ b) (h255 : b ≠ 255) : charName true b = .error .ub := by
  have h1 : 128 ≤ b.toNat := UInt8.le_iff_toNat_le.mp h128
  have h2 : b.toNat ≠ 255 := fun h => h255 (UInt8.toNat_inj.mp h)
  have h3 := b.toNat_lt
  have hne : ∀ n : Byte, n.toNat < 128 → b ≠ n := by rintro n hn rfl; omega
  have hv : charVal true b = (b.toNat : Int) - 256 := by simp [charVal, h128]
  unfold charName
  rw [if_neg (hne 10 (by decide)), if_neg (hne 9 (by decide)), if_neg (hne 13 (by decide)), if_neg (hne 32 (by decide)),
    if_neg (hne 0 (by decide))]
  simp only [hv]
  rw [if_pos (by omega)]
  rfl

/-- C34 fails where `char` is signed, at every place where the grammar does not allow a byte from 128 to 254: if the hext could
be continued to one that is accepted up to there, then the behaviour is undefined. -/
theorem C34_parse_unsafe (rx : RxEngine) (s : Str) (p : Nat) (b : Byte) (hb : s[p]? = some b) (h128 : 128 ≤ b) (h255 : b ≠ 255)
    (hgood : ∃ t r, parseHext rx true (s.take p ++ t) = .ok r) (hbad : ¬ Begins (s.take (p + 1))) :
    parseHext rx true s = .error .ub := by
  obtain ⟨hp, rfl⟩ := List.getElem?_eq_some_iff.1 hb
  obtain ⟨t, r, hr⟩ := hgood
  rw [parse_unexpected (by omega) ⟨t, r, (parse_iff rx true _ r).1 hr⟩ (by rw [if_neg (by omega)]; exact hbad)]
  have h1 : P.assert (decide (p ≤ s.length)) = .ok () := by simp [P.assert, Nat.le_of_lt hp]; rfl
  have h2 : charName true s[p] = .error .ub := charName_ub h128 h255
  unfold throwUnexpected
  simp only [h1, unexpectedHead, hb, h2]
  rfl

/-- For instance, the byte 0x80 alone makes the parser call `std::isprint(-128)`. -/
theorem C34_parse_unsafe_byte (rx : RxEngine) : parseHext rx true [128] = .error .ub := by
  have hb : ¬ Begins ([128] : Str) := by
    rintro ⟨t, is, hok, e⟩
    cases is with
    | nil => simp [itemsText] at e
    | cons i is =>
      have hi := hok i (by simp)
      have h0 : i.text.head? = some 128 := by
        have : (i.text ++ itemsText is).head? = some 128 := by
          have e' : i.text ++ itemsText is = itemsText (i :: is) := by simp [itemsText]
          rw [e', ← e]; rfl
        have hne := itemText_ne i
        cases ht : i.text with
        | nil => exact absurd ht hne
        | cons a as => rw [ht] at this; simpa using this
      cases i with
      | space b =>
        simp only [Item.text, List.head?_cons, Option.some.injEq] at h0
        subst h0
        simp only [Item.Ok, IsSpace] at hi
        exact absurd hi (by decide)
      | comment s => simp [Item.text] at h0
      | lbrace => exact absurd h0 (by decide)
      | rbrace => exact absurd h0 (by decide)
      | start h b => simp [Item.text, Head.text] at h0
      | stop t =>
        have e2 : (Item.stop t).text = 60 :: 47 :: (t ++ lit ">") := by simp [Item.text, List.append_assoc]; rfl
        rw [e2] at h0
        simp at h0
  have := parse_unexpected (rx := rx) (cs := true) (s := [128]) (p := 0) (by simp)
    ⟨[], ruleOf [], [], {}, [], by simp, rfl, .nil, rfl⟩ (by simpa using hb)
  rw [this]
  rfl

/-! ## C35: exceptions -/

/-- Every run of digits in the text stands for a number up to 2147483647. -/
def NumbersFit (s : Str) : Prop := ∀ a d b, s = a ++ d ++ b → (∀ x ∈ d, 48 ≤ x ∧ x ≤ 57) → digitsVal d ≤ 2147483647

/-- C35, partial: if all numbers in the hext fit into an `int`, then whatever is thrown is a `SyntaxError`. -/
theorem C35_only_syntax_error_partial (rx : RxEngine) (charSigned : Bool) (s : Str) (hs : CharSafe charSigned s)
    (hl : s.length ≤ 2147483645) (hd : NumbersFit s) (e : PErr) (h : parseHext rx charSigned s = .error e) : ∃ m, e = .syntax m := by
  rcases C34_parse_safe_partial rx charSigned s hs hl with ⟨r, hr⟩ | ⟨m, hm⟩ | ho
  · rw [hr] at h; cases h
  · rw [hm] at h; cases h; exact ⟨m, rfl⟩
  · obtain ⟨a, d, b, h1, h2, h3⟩ := show BigNumber s from parse_explained ho
    have := hd a d b h1 fun x hx => by simpa [isDigit] using h3 x hx
    omega

/-- Texts without ten digits in a row have only such numbers. -/
theorem numbersFit_of_noLong {s : Str} (h : NoLong s) : NumbersFit s := by
  intro a d b hs hd
  have h1 := digitsVal_lt hd
  have h2 : d.length ≤ 9 := by have := h d ⟨a, b, hs.symm⟩ hd; omega
  have h3 : digitsVal d < 10 ^ 9 := Nat.lt_of_lt_of_le h1 (Nat.pow_le_pow_right (by omega) h2)
  omega

/-- A hext that counts to 2147483647 meets the hypothesis. -/
example : NumbersFit (lit "<a:child-count(2147483647)/>") := by
  intro a d b h hd
  have key : ∀ i ≤ 28, ∀ j ≤ 28, (∀ x ∈ ((lit "<a:child-count(2147483647)/>").drop i).take j, 48 ≤ x ∧ x ≤ 57) →
      digitsVal (((lit "<a:child-count(2147483647)/>").drop i).take j) ≤ 2147483647 := by decide +kernel
  have hlen := congrArg List.length h
  have h28 : (lit "<a:child-count(2147483647)/>").length = 28 := by decide
  simp only [h28, List.length_append] at hlen
  have he : d = ((lit "<a:child-count(2147483647)/>").drop a.length).take d.length := by rw [h]; simp
  have := key a.length (by omega) d.length (by omega)
  rw [← he] at this
  exact this hd

/-- The head of `<a:child-count(d)/>` -/
def countHead (d : Str) : List Item := [.start (tagHead "a" [] [.trait (.childCount d)]) true]

/-- What the automaton does for `<a:child-count(`. -/
def countWord : List Sym := .ch 60 :: .act .pushRule :: .act .tkStart :: .ch 97 :: .act .openTag :: chs (lit ":child-count(")

/-- What it does behind the number. -/
def countRest : List Sym := [.ch 41, .act .appendTrait, .ch 47, .ch 62, .act .popRule]

/-- C35 fails: for every number that does not fit into an `int`, `std::out_of_range` escapes from `ParseHext`. -/
theorem C35_out_of_range (rx : RxEngine) (charSigned : Bool) (d : Str) (hne : d ≠ []) (hd : ∀ x ∈ d, 48 ≤ x ∧ x ≤ 57)
    (hbig : 2147483647 < digitsVal d) :
    parseHext rx charSigned (lit "<a:child-count(" ++ d ++ lit ")/>") = .error .outOfRange := by
  have hok : ∀ i ∈ countHead d, i.Ok := by
    simp [countHead, Item.Ok, Head.Ok, tagHead, IsTag, IsName, Cond.Ok, Trait.Ok, IsDigits]
    exact ⟨.inr ⟨97, [], by decide, by simp [IsAlpha], by simp⟩, hne, hd⟩
  have e : lit "<a:child-count(" ++ d ++ lit ")/>" = itemsText (countHead d) := by
    simp [countHead, itemsText, Item.text, Head.text, tagHead, Cond.text, Trait.text, patsText]
    rfl
  rw [e, parse_items_eq hok]
  have hw : itemsWord (countHead d) = countWord ++ (.act .tkStart :: (chs d ++ (.act .traitChildCount :: countRest))) := by
    simp [itemsWord, countHead, itemWord, headWord, tagHead, condWord, traitWord, countWord, countRest, chs]
    rfl
  let c : Ctx := { input := itemsText (countHead d), charSigned, rx }
  let c' : Ctx := { input := lit "<a:child-count(", charSigned, rx }
  have hat : At c 0 (itemsWord (countHead d)) := ⟨by simp, by simp [c, chars_itemsWord]⟩
  rw [hw] at hat ⊢
  have hat1 : At c 0 countWord := by
    obtain ⟨h3, t, h4⟩ := hat
    rw [chars_append, List.append_assoc] at h4
    exact ⟨h3, _, h4⟩
  have hat' : At c' 0 countWord := ⟨by simp, [], rfl⟩
  have hs := execWord_sim (c := c) (c' := c') rfl countWord 0 {} (by decide) rfl hat1 hat'
  have h1 : ∃ s, execWord c' 0 countWord {} = .ok s := ⟨_, rfl⟩
  obtain ⟨s, h1⟩ := h1
  rw [h1] at hs
  have hs : execWord c 0 countWord {} = .ok s := by
    rcases hs with h | ⟨_, _, _, h, _⟩
    · exact h
    · cases h
  show (execWord c 0 _ {} >>= finishParse c) = _
  rw [execWord_append, hs]
  show (execWord c _ (chs d ++ _) _ >>= _) = _
  rw [execWord_chs]
  have hat2 : At c (0 + (chars countWord).length) (chs d ++ (.act .traitChildCount :: countRest)) := by
    obtain ⟨h3, t, h4⟩ := hat
    rw [chars_append, List.drop_zero, List.append_assoc] at h4
    refine ⟨by rw [← h4]; simp, t, ?_⟩
    rw [← h4, Nat.zero_add, List.drop_left]
    rfl
  show ((tkStop c _ _ >>= fun s => stoi s.tok >>= fun n => _) >>= _) >>= _ = _
  rw [tkStop_eq hat2 _ rfl]
  show ((stoi d >>= fun n => _) >>= _) >>= _ = _
  rw [stoi_digits ⟨hne, hd⟩, show intVal false d = none by simp only [intVal, intMin, intMax, Bool.false_eq_true, if_false]; rw [if_neg]; omega]
  rfl

/-- For instance, `<a:child-count(99999999999)/>`. -/
theorem C35_out_of_range_big (rx : RxEngine) (charSigned : Bool) : parseHext rx charSigned (lit "<a:child-count(99999999999)/>") = .error .outOfRange :=
  C35_out_of_range rx charSigned (lit "99999999999") (by decide) (by decide) (by decide)

/-! ## C36: what is accepted -/

/-- C36: `ParseHext` returns the rule `r` if and only if the hext means `r`. -/
theorem C36_parse_iff (rx : RxEngine) (charSigned : Bool) (s : Str) (r : Rule) :
    parseHext rx charSigned s = .ok r ↔ Means rx s r := parse_iff rx charSigned s r

/-- A hext means at most one rule. -/
theorem C36_meaning_unique (rx : RxEngine) (s : Str) (r r' : Rule) (h : Means rx s r) (h' : Means rx s r') : r = r' := by
  have h1 := (parse_iff rx false s r).2 h
  have h2 := (parse_iff rx false s r').2 h'
  rw [h1] at h2
  cases h2
  rfl

/-- `</b>` closes `<a>`: both are `*`, both are the same tag in any case, or the same custom name. -/
def TagsFit (a b : Str) : Prop :=
  (a = [42] ∧ b = [42]) ∨ (a ≠ [42] ∧ b ≠ [42] ∧ gumboTagEnum (cstr a) ≠ .unknown ∧ gumboTagEnum (cstr a) = gumboTagEnum (cstr b)) ∨
  (a ≠ [42] ∧ gumboTagEnum (cstr a) = .unknown ∧ a = b)

/-- Every tag is closed in stack order by a tag that fits; every brace is closed; there is at least one rule
between braces. -/
inductive Balanced : (inTag : Bool) → List Item → Prop
  | nil {b} : Balanced b []
  | filler {b i is} : i.IsFiller → Balanced b is → Balanced b (i :: is)
  | selfClosing {b h is} : Balanced b is → Balanced b (.start h true :: is)
  | closed {b h is t js} : Balanced true is → TagsFit h.tag t → Balanced b js →
      Balanced b (.start h false :: is ++ .stop t :: js)
  | braces {is js} : Balanced false is → (∃ h c, .start h c ∈ is) → Balanced true js →
      Balanced true (.lbrace :: is ++ .rbrace :: js)

theorem tagsFit_of_closes {rx f f'} {h : Head} {info : RuleInfo} {t : Str} (hm : h.meaning rx f = some (info, f'))
    (hc : Closes info t) : TagsFit h.tag t := by
  obtain ⟨h1, h2⟩ := Head.tag_of hm
  unfold Closes at hc
  rw [h1, h2] at hc
  unfold TagsFit
  unfold tagMeaning at hc
  by_cases ha : h.tag = [42]
  · simp only [ha, if_true] at hc; exact .inl ⟨ha, hc⟩
  · simp only [ha, if_false] at hc
    cases hg : gumboTagEnum (cstr h.tag) with
    | unknown => simp only [hg] at hc; exact .inr (.inr ⟨ha, rfl, hc.symm⟩)
    | known n => simp only [hg] at hc; exact .inr (.inl ⟨ha, hc.1, by simp, hc.2.symm⟩)

theorem elem_start {rx f is f' r} (h : Syn.Elem rx f is f' r) : ∃ h c, Item.start h c ∈ is := by
  cases h with
  | selfClosing => exact ⟨_, _, .head _⟩
  | closed => exact ⟨_, _, .head _⟩

theorem seq_start {rx f is f' rs} (h : Syn.Seq rx f is f' rs) : rs ≠ [] → ∃ h c, Item.start h c ∈ is := by
  refine Syn.Seq.rec (rx := rx) (motive_1 := fun _ _ _ _ _ => True) (motive_2 := fun _ _ _ _ _ _ => True)
    (motive_3 := fun _ is _ rs _ => rs ≠ [] → ∃ h c, Item.start h c ∈ is) ?_ ?_ ?_ ?_ ?_ ?_ ?_ ?_ ?_ h
  · intros; trivial
  · intros; trivial
  · intros; trivial
  · intros; trivial
  · intros; trivial
  · intros; trivial
  · intro _ h; exact absurd rfl h
  · intro _ _ _ _ _ _ _ ih h
    obtain ⟨a, c, hm⟩ := ih h
    exact ⟨a, c, by simp [hm]⟩
  · intro _ _ _ _ _ _ _ he _ _ _ _
    obtain ⟨a, c, hm⟩ := elem_start he
    exact ⟨a, c, by simp [hm]⟩

theorem balanced_of_seq {rx f is f' rs} (h : Syn.Seq rx f is f' rs) : Balanced false is := by
  refine Syn.Seq.rec (rx := rx) (motive_1 := fun _ is _ _ _ => ∀ b js, Balanced b js → Balanced b (is ++ js))
    (motive_2 := fun _ is _ _ _ _ => Balanced true is) (motive_3 := fun _ is _ _ _ => Balanced false is) ?_ ?_ ?_ ?_ ?_ ?_ ?_ ?_ ?_ h
  · intro _ _ _ _ _ b js h; exact .selfClosing h
  · intro _ _ _ _ _ _ _ _ _ hm _ hc ih b js h
    have := Balanced.closed ih (tagsFit_of_closes hm hc) h
    simpa using this
  · intro _; exact .nil
  · intro _ _ _ _ _ _ hi _ ih; exact .filler hi ih
  · intro _ _ _ _ _ _ _ _ _ _ ih1 ih2; exact ih1 _ _ ih2
  · intro _ _ _ _ _ _ _ _ _ hs _ ih1 ih2; exact .braces ih1 (seq_start hs (by simp)) ih2
  · intro _; exact .nil
  · intro _ _ _ _ _ hi _ ih; exact .filler hi ih
  · intro _ _ _ _ _ _ _ _ _ ih1 ih2; exact ih1 _ _ ih2

/-- C36: an accepted hext is balanced. -/
theorem C36_accepted_balanced (rx : RxEngine) (charSigned : Bool) (s : Str) (r : Rule)
    (h : parseHext rx charSigned s = .ok r) : ∃ is, (∀ i ∈ is, i.Ok) ∧ s = itemsText is ∧ Balanced false is := by
  obtain ⟨is, f, rs, h1, h2, h3, _⟩ := (parse_iff rx charSigned s r).1 h
  exact ⟨is, h1, h2, balanced_of_seq h3⟩

/-- C36: a hext that is not balanced is rejected, even if every single tag is well-formed. -/
theorem C36_unbalanced_rejected (rx : RxEngine) (charSigned : Bool) (is : List Item) (hok : ∀ i ∈ is, i.Ok)
    (hb : ¬ Balanced false is) : ∃ e, parseHext rx charSigned (itemsText is) = .error e := by
  cases h : parseHext rx charSigned (itemsText is) with
  | error e => exact ⟨e, rfl⟩
  | ok r =>
    obtain ⟨f, rs, hs, _⟩ := (parse_items hok r).1 h
    exact absurd (balanced_of_seq hs) hb

/-- `<div><a href:x/><?b href:y/></div>` is accepted, and this is its rule. -/
example (rx : RxEngine) (charSigned : Bool) : parseHext rx charSigned (lit "<div><a href:\"x\"?></a><?b href:\"y\"?></b></div>") = .ok Ex.r :=
  (C36_parse_iff ..).2 (Print.hext_means (by rfl))

theorem not_balanced_open {h : Head} {is : List Item} (hn : ∀ t, Item.stop t ∉ is) : ¬ Balanced false (.start h false :: is) := by
  intro hb
  cases hb with
  | filler hf _ => exact hf
  | @closed _ _ _ t => exact hn t (by simp)

/-- `<a>` is not balanced. -/
example : ¬ Balanced false [.start (tagHead "a") false] := not_balanced_open (by simp)

/-! ## C37: printing and parsing -/

/-- C37: parsing what the printer writes for a rule gives the rule back. -/
theorem C37_parse_print (rx : RxEngine) (charSigned : Bool) (r : Rule) (s : Str) (h : Print.hext rx r = some s) :
    parseHext rx charSigned s = .ok r :=
  (parse_iff rx charSigned s r).2 (Print.hext_means h)

/-- C37: the printer writes every rule that some hext describes. -/
theorem C37_print_parse (rx : RxEngine) (charSigned : Bool) (s : Str) (r : Rule) (h : parseHext rx charSigned s = .ok r) :
    ∃ s', Print.hext rx r = some s' ∧ parseHext rx charSigned s' = .ok r := by
  obtain ⟨s', hs'⟩ := Print.hext_complete ((parse_iff rx charSigned s r).1 h)
  exact ⟨s', hs', C37_parse_print rx charSigned r s' hs'⟩

/-- A rule with a condition, a negation, a nested rule and pipes. -/
def printable : Rule :=
  .mk { tag := .tag (.known (lit "div")), greedy := true,
        ms := [some (.nthChild (-2) 1 true false), some (.negate [some (.childCount 3), some (.onlyChild true)]),
               some (.attribute (lit "class") (some (mkContainsWords (lit "a  b")))),
               some (.functionValue (some .text) (some (.negate (.beginsWith (lit "it's")))))],
        caps := [some (.attribute (lit "href") (lit "x") (some (.cons (.prepend (lit "http:")) (.last (.trim (lit "\"/"))))))] }
    (some (Ex.rule "a" (optional := true) (caps := [Ex.capText "t"]))) none [Ex.rule "b" (next := some (Ex.rule "i"))]

example : Print.hext Ex.rx printable = some (lit ("<+div:nth-child(-2n+1):not(:child-count(3):only-of-type) class=\"a b \"" ++
    " @text^=\"it's\"! href:prepend(\"http:\"):trim('\"/'):\"x\"?><?a @text:\"t\"></a>{<b></b><i></i>}</div>")) := by
  decide +kernel

/-! ## C38: whitespace and comments -/

/-- Whitespace and comments, each comment with the line break that ends it. -/
def IsFill (s : Str) : Prop := ∃ is, (∀ i ∈ is, i.Ok ∧ i.IsFiller) ∧ s = itemsText is

/-- C38: whitespace and comments between complete tags and braces can be added and removed. -/
theorem C38_fill (rx : RxEngine) (charSigned : Bool) (a w b : Str) (ha : IsText a) (hw : IsFill w) (hb : IsText b) (r : Rule) :
    parseHext rx charSigned (a ++ w ++ b) = .ok r ↔ parseHext rx charSigned (a ++ b) = .ok r := by
  obtain ⟨is, h1, rfl⟩ := ha
  obtain ⟨js, h2, rfl⟩ := hw
  obtain ⟨ks, h3, rfl⟩ := hb
  exact parse_fill h1 (fun i hi => (h2 i hi).1) h3 (fun i hi => (h2 i hi).2) r

/-- ` # x` and a line break. -/
example : IsFill (lit " # x\n") :=
  ⟨[.space 32, .comment (lit " x")], by simp [Item.Ok, IsSpace, Item.IsFiller]; decide, by decide⟩

example : IsText (lit "<a></b>") :=
  ⟨[.start (tagHead "a") false, .stop (lit "b")],
    by
      simp [Item.Ok, Head.Ok, tagHead, IsTag, IsName]
      exact ⟨.inr ⟨97, [], by decide, by simp [IsAlpha], by simp⟩, .inr ⟨98, [], by decide, by simp [IsAlpha], by simp⟩⟩, by decide⟩

/-! ## C39: error messages -/

/-- C39: every message contains the place of the error, and the place is in the input. -/
theorem C39_message_points (rx : RxEngine) (charSigned : Bool) (s m : Str) (h : parseHext rx charSigned s = .error (.syntax m)) :
    ∃ p k before place after, Points s p k place ∧ m = before ++ place ++ after := by
  obtain ⟨a, p, k, l, b, h1, h2⟩ := parse_explained h
  exact ⟨p, k, a, l, b, h1, h2⟩

/-- C39: in the message, the last caret is below the byte at which the message points. If that byte is a line break or
the end of the input, the caret is behind the end of the last line. -/
theorem C39_caret (s : Str) (p k : Nat) (m : Str) (h : Points s p k m) (hk : 0 < k) (hascii : ∀ b ∈ s, b < 128)
    (hq : quotedPart s p ≠ []) :
    ∃ pre line mark i, m = pre ++ line ++ [10] ++ mark ++ lit " here\n" ∧ pre.getLast? = some 10 ∧ 10 ∉ line ∧
      mark.getLast? = some 94 ∧ mark.length = i + 1 ∧
      (if p = s.length ∨ s[p]? = some 10 then line.length = i else line.length = i + 1 ∧ line[i]? = s[p]?) :=
  caret_below h hk hascii hq

/-- C39: if the first `p` bytes can be continued to an accepted hext, but no continuation of the first `p + 1` bytes
consists of well-formed tags, then the message points to the byte at `p`. -/
theorem C39_first_bad_byte (rx : RxEngine) (charSigned : Bool) (s : Str) (p : Nat) (hp : p ≤ s.length)
    (hl : s.length ≤ 2147483645) (hs : CharSafe charSigned s)
    (hgood : ∃ t r, parseHext rx charSigned (s.take p ++ t) = .ok r)
    (hbad : if p = s.length then ¬ IsText s else ¬ Begins (s.take (p + 1))) :
    ∃ before place, Points s p 1 place ∧ parseHext rx charSigned s = .error (.syntax (before ++ place)) := by
  obtain ⟨t, r, hg⟩ := hgood
  have he := parse_unexpected (cs := charSigned) hp ⟨t, r, (parse_iff rx charSigned _ _).1 hg⟩ hbad
  let c : Ctx := { input := s, charSigned, rx }
  have h1 : P.assert (decide (p ≤ c.input.length)) = .ok () := by simp [c, P.assert, hp]; rfl
  obtain ⟨head, hhead⟩ : ∃ head, unexpectedHead c p = .ok head := by
    unfold unexpectedHead
    cases hb : c.input[p]? with
    | none => exact ⟨_, rfl⟩
    | some b =>
      cases hn : charName c.charSigned b with
      | ok name => exact ⟨_, by simp only [hn]; rfl⟩
      | error e =>
        obtain ⟨_, h2, h3, h4⟩ := charName_error hn
        obtain ⟨hlt, _⟩ := List.getElem?_eq_some_iff.1 hb
        have hlt : p < s.length := hlt
        rw [if_neg (by omega)] at hbad
        obtain ⟨is, _, _, i1, i2, _⟩ := (parse_iff rx charSigned _ _).1 hg
        exact absurd (hs h2 p b hb h3 h4 ⟨t, is, i1, i2⟩) hbad
  have hthrow : (throwUnexpected c p : P Rule) = (printErrorLocation c p 1 >>= fun loc => throw (PErr.syntax (head ++ loc))) := by
    show (P.assert (decide (p ≤ c.input.length)) >>= fun _ => unexpectedHead c p >>= fun head =>
      printErrorLocation c p 1 >>= fun loc => throw (PErr.syntax (head ++ loc))) = _
    rw [h1, hhead]
    rfl
  have he' : parseHext rx charSigned s = throwUnexpected c p := he
  cases hloc : printErrorLocation c p 1 with
  | ok loc => exact ⟨head, loc, printErrorLocation_points hloc, by rw [he', hthrow, hloc]; rfl⟩
  | error e =>
    exfalso
    rcases printErrorLocation_written c hp 1 with ⟨l, hl'⟩ | hl'
    · rw [hl'] at hloc; cases hloc
    · have : parseHext rx charSigned s = .error .overflow := by
        rw [he', hthrow, hl']; rfl
      have := parse_explained this
      simp only [Explained] at this
      omega

/-- Does the automaton read all of the input? -/
def survives (q : Nat) : Str → Bool
  | [] => true
  | b :: rest => packed Data.transTargs (trans q b) != 0 && survives (packed Data.transTargs (trans q b)) rest

theorem survives_of_accepts : ∀ {s t : Str} {q : Nat}, accepts q (s ++ t) = true → survives q s = true
  | [], _, _, _ => rfl
  | b :: s, t, q, h => by
    simp only [List.cons_append, accepts, Bool.and_eq_true] at h
    simp only [survives, Bool.and_eq_true]
    exact ⟨h.1, survives_of_accepts h.2⟩

theorem not_begins {s : Str} (h : survives hextStart s = false) : ¬ Begins s := by
  rintro ⟨t, is, hok, e⟩
  have ha := ((grammar_iff (s ++ t) (itemsWord is)).mp ⟨(lang_main _).mpr ⟨is, hok, rfl⟩, by rw [chars_itemsWord, e]⟩).1
  rw [survives_of_accepts ha] at h
  cases h

/-- In `<a/>`, line break, `  x`, the message points to the `x`. -/
example (rx : RxEngine) (charSigned : Bool) : ∃ before place, Points (lit "<a/>\n  x") 7 1 place ∧
    parseHext rx charSigned (lit "<a/>\n  x") = .error (.syntax (before ++ place)) := by
  refine C39_first_bad_byte rx charSigned _ 7 (by decide) (by decide) (charSafe_ascii fun _ => by decide) ⟨[], Ex.rule "a", ?_⟩ ?_
  · have hok : ∀ i ∈ [Item.start (tagHead "a") true, .space 10, .space 32, .space 32], i.Ok := by
      simp [Item.Ok, Head.Ok, tagHead, IsTag, IsName, IsSpace]
      exact .inr ⟨97, [], by decide, by simp [IsAlpha], by simp⟩
    have e : (lit "<a/>\n  x").take 7 ++ [] = itemsText [Item.start (tagHead "a") true, .space 10, .space 32, .space 32] := by decide
    rw [e]
    exact (parse_items hok _).2 ⟨_, _, .elem (.selfClosing rfl) (.filler trivial (.filler trivial (.filler trivial .nil))), rfl⟩
  · rw [if_neg (by decide)]
    exact not_begins (by decide +kernel)

/-! ## C40: signed and unsigned `char` -/

/-- C40: whether `char` is signed does not matter for what is accepted and for the rule; for ASCII input it does not
matter for error messages either. -/
theorem C40_signedness (rx : RxEngine) (s : Str) :
    (∀ r, parseHext rx true s = .ok r ↔ parseHext rx false s = .ok r) ∧
    ((∀ b ∈ s, b < 128) → parseHext rx true s = parseHext rx false s) :=
  ⟨fun r => (parse_iff rx true s r).trans (parse_iff rx false s r).symm, fun h => parse_signed h⟩

/-- The states of the generated automaton on the input, up to the end or the error state. -/
def path (charSigned : Bool) (q : Nat) : Str → P (List Nat)
  | [] => pure [q]
  | b :: rest => do
    let i ← transIndex charSigned q b
    let t ← tbl Tables.indicies i
    let q' ← tbl Tables.transTargs t
    if q' = 0 then pure [q, 0]
    else do
      let qs ← path charSigned q' rest
      pure (q :: qs)

theorem path_ok : ∀ (s : Str) (q : Nat), q ≠ 0 → q < 820 → ∃ qs, ∀ charSigned, path charSigned q s = .ok qs
  | [], q, _, _ => ⟨[q], fun _ => rfl⟩
  | b :: rest, q, h0, hq => by
    obtain ⟨ks, es, hok⟩ := ok_of h0 hq
    obtain ⟨m, _, he⟩ := edgeOk_trans hok b
    have step : ∀ cs, path cs q (b :: rest) = (if packed Data.transTargs (trans q b) = 0 then pure [q, 0]
        else path cs (packed Data.transTargs (trans q b)) rest >>= fun qs => pure (q :: qs)) := by
      intro cs
      obtain ⟨i, h1, h2⟩ := transIndex_eq hq hok.search cs b
      simp only [path, h1, pure_bind, h2, tbl_transTargs he.tlt]
    by_cases hz : packed Data.transTargs (trans q b) = 0
    · exact ⟨[q, 0], fun cs => by rw [step, if_pos hz]; rfl⟩
    · obtain ⟨qs, h⟩ := path_ok rest _ hz he.qlt
      exact ⟨q :: qs, fun cs => by rw [step, if_neg hz, h cs]; rfl⟩

/-- C40: the automaton goes through the same states, whether `char` is signed or not, and never reads outside its tables. -/
theorem C40_same_path (s : Str) : ∃ qs, path true hextStart s = .ok qs ∧ path false hextStart s = .ok qs := by
  obtain ⟨qs, h⟩ := path_ok s hextStart (by decide) (by decide)
  exact ⟨qs, h true, h false⟩

/-! ## C41: options of regular expressions -/

/-- C41, partial: if no `:type-matches` has options and in a pattern only the last pipe has, then each regular expression
of the rule has the options that are written on it, and no others. -/
theorem C41_own_options_partial (rx : RxEngine) (charSigned : Bool) (is : List Item) (hok : ∀ i ∈ is, i.Ok)
    (hp : ∀ i ∈ is, Own.ItemPlain i) (r : Rule) :
    parseHext rx charSigned (itemsText is) = .ok r ↔ Own.Means rx is r :=
  Own.parse_own hok hp r

def rxLit (s : String) (icase : Bool) : Rx := { lit := ⟨47, lit s⟩, mods := if icase then [true] else [] }

/-- `<a href=~/x/i/><b href=~/y//>` satisfies the hypotheses. -/
example : ∀ i ∈ [Item.start (tagHead "a" [.testAttr (lit "href") (.regex (rxLit "x" true)) false]) true,
    .start (tagHead "b" [.testAttr (lit "href") (.regex (rxLit "y" false)) false]) true], Own.ItemPlain i := by
  simp [Own.ItemPlain, tagHead, Own.PatPlain]

/-- `<a:type-matches(/x/i)/><b href=~/y//>` -/
def leaky : List Item := [.start (tagHead "a" [] [.trait (.typeMatches (rxLit "x" true))]) true,
  .start (tagHead "b" [.testAttr (lit "href") (.regex (rxLit "y" false)) false]) true]

def leakyRule (icase : Bool) : Rule :=
  .mk { tag := .tag (.known (lit "a")), ms := [some (.typeRegex { src := lit "x", icase := true, collate := false })] } none
    (some (.mk { tag := .tag (.known (lit "b")),
                 ms := [some (.attribute (lit "href") (some (.regex { src := lit "y", icase, collate := false })))] } none none [])) []

theorem leaky_ok : ∀ i ∈ leaky, i.Ok := by
  have hq : ∀ s, (∀ b ∈ lit s, b ≠ 47 ∧ b ≠ 92) → Quoted.Ok regexQuotes ⟨47, lit s⟩ := by
    intro s h
    refine ⟨by simp [regexQuotes], fun u v e => ?_, fun u e => ?_⟩
    · exact absurd rfl (h 47 (by rw [show lit s = u ++ 47 :: v from e]; simp)).1
    · exact absurd rfl (h 92 (by rw [show lit s = u ++ [92] from e]; simp)).2
  simp only [leaky, List.mem_cons, List.not_mem_nil, or_false]
  rintro i (rfl | rfl)
  · refine ⟨.inr ⟨97, [], by decide, by simp [IsAlpha], by simp⟩, ?_, by simp [tagHead], by simp [tagHead]⟩
    simp only [tagHead, List.mem_cons, List.not_mem_nil, or_false, forall_eq]
    exact hq "x" (by decide)
  · refine ⟨.inr ⟨98, [], by decide, by simp [IsAlpha], by simp⟩, by simp [tagHead], ?_, by simp [tagHead]⟩
    simp only [tagHead, List.map_cons, List.map_nil, List.mem_cons, List.not_mem_nil, or_false, forall_eq]
    refine ⟨by simp, by simp [IsSpace], ⟨104, lit "ref", by decide, by simp [IsAlpha], ?_⟩, hq "y" (by decide)⟩
    simp only [IsNameByte, IsAlpha]
    decide

/-- C41 fails: the option of a `:type-matches` also applies to the first pattern behind it, here in the next rule. -/
theorem C41_options_leak (charSigned : Bool) : itemsText leaky = lit "<a:type-matches(/x/i)/><b href=~/y//>" ∧
    parseHext Ex.rx charSigned (itemsText leaky) = .ok (leakyRule true) ∧ Own.Means Ex.rx leaky (leakyRule false) := by
  refine ⟨by decide, (parse_items leaky_ok _).2 ⟨_, _, .elem (.selfClosing rfl) (.elem (.selfClosing rfl) .nil), rfl⟩, ?_⟩
  exact ⟨_, .elem (.selfClosing rfl) (.elem (.selfClosing rfl) .nil), rfl⟩

end Hext.Props
