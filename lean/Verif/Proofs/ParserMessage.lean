import Verif.Proofs.ParserSafe
import Verif.Spec.Message

/-!
# The text of error messages, and where errors come from
-/

namespace Hext

open Syn Check Msg

/-! ## Numbers -/

theorem decimal_eq (n : Nat) : decimal n = dec n := by
  induction n using Nat.strongRecOn with
  | ind n ih =>
    rw [decimal]
    have hd : ∀ k, k < 10 → ([48 + UInt8.ofNat k] : Str) = ([Nat.digitChar k] : List Char).map fun c => UInt8.ofNat c.toNat := by
      decide
    have hdec : ∀ k, dec k = (Nat.toDigits 10 k).map fun c => UInt8.ofNat c.toNat := by
      intro k
      simp [dec, lit, ToString.toString, Nat.repr]
    split
    · next h => rw [hdec, Nat.toDigits_of_lt_base h]; exact hd n h
    · next h =>
      have h2 := Nat.toDigits_append_toDigits (b := 10) (n := n / 10) (d := n % 10) (by omega) (by omega) (by omega)
      rw [show 10 * (n / 10) + n % 10 = n by omega] at h2
      rw [ih (n / 10) (by omega), hdec n, ← h2, List.map_append, ← hdec, Nat.toDigits_of_lt_base (show n % 10 < 10 by omega)]
      rw [hd _ (by omega)]

theorem decimalWidthLoop_add (n : Nat) : ∀ w, decimalWidthLoop n w = w + (decimal n).length - 1 := by
  induction n using Nat.strongRecOn with
  | ind n ih =>
    intro w
    rw [decimalWidthLoop, decimal]
    by_cases h : n < 10
    · rw [if_pos (by omega), if_pos h]
      simp
    · rw [if_neg (by omega), if_neg h, ih _ (by omega)]
      simp
      omega

theorem decimalWidth_eq (n : Nat) : (decimalWidth n).toNat = (dec n).length := by
  rw [decimalWidth, decimalWidthLoop_add, decimal_eq]
  omega

/-! ## Lines -/

theorem splitNl_ne (s : Str) : ∀ cur, splitNl cur s ≠ [] := by
  induction s with
  | nil => intro cur; simp [splitNl]
  | cons b s ih => intro cur; simp only [splitNl]; split <;> simp [ih]

theorem splitNl_nonl (s : Str) : ∀ cur, 10 ∉ cur → ∀ l ∈ splitNl cur s, 10 ∉ l := by
  induction s with
  | nil => intro cur h; simpa [splitNl] using h
  | cons b s ih =>
    intro cur h
    simp only [splitNl]
    split
    · intro l hl
      simp only [List.mem_cons] at hl
      rcases hl with rfl | hl
      · exact h
      · exact ih [] (by simp) l hl
    · next hb =>
      refine ih _ ?_
      simp only [List.mem_append, List.mem_singleton, not_or]
      exact ⟨h, fun e => hb e.symm⟩

theorem intercalate_cons {sep l : Str} {ls : List Str} (h : ls ≠ []) :
    sep.intercalate (l :: ls) = l ++ sep ++ sep.intercalate ls := by
  cases ls with
  | nil => exact absurd rfl h
  | cons a as => simp [List.intercalate, List.intersperse]

theorem splitNl_join (s : Str) : ∀ cur, [(10 : Byte)].intercalate (splitNl cur s) = cur ++ s := by
  induction s with
  | nil => intro cur; simp [splitNl, List.intercalate]
  | cons b s ih =>
    intro cur
    simp only [splitNl]
    split
    · next hb =>
      subst hb
      rw [intercalate_cons (splitNl_ne _ _), ih]
      simp
    · rw [ih]; simp

theorem splitNl_count (s : Str) : ∀ cur, (splitNl cur s).length = 1 + s.count 10 := by
  induction s with
  | nil => intro cur; simp [splitNl]
  | cons b s ih =>
    intro cur
    simp only [splitNl]
    split
    · next hb => subst hb; simp [ih]; omega
    · next hb => rw [ih, List.count_cons_of_ne hb]

theorem isLines_split (s : Str) : IsLines s (splitNl [] s) :=
  ⟨splitNl_nonl s [] (by simp), splitNl_ne s [], by rw [splitNl_join]; rfl⟩

theorem printLines_numbered (w : Nat) (ls : List Str) : ∀ n m, printLines w n ls = .ok m → m = numbered w n ls := by
  induction ls with
  | nil => intro n m h; cases h; rfl
  | cons l ls ih =>
    intro n m h
    simp only [printLines] at h
    split at h
    · cases h
    · cases hr : printLines w (n + 1) ls with
      | error e => rw [hr] at h; cases h
      | ok r =>
        rw [hr] at h
        cases h
        rw [ih _ _ hr]
        simp [numbered, padded, decimal_eq]

theorem printNumberedLines_quoted {s m : Str} (h : printNumberedLines s = .ok m) : Quoted s m := by
  have h1 := printLines_numbered _ _ _ _ h
  subst h1
  cases s with
  | nil => exact .inl ⟨rfl, rfl⟩
  | cons b s =>
    refine .inr ⟨by simp, splitNl [] (b :: s), isLines_split _, ?_⟩
    simp only [tokenizeLines, List.isEmpty_cons, Bool.false_eq_true, if_false, decimalWidth_eq, splitNl_count]

theorem errorLines_quoted {c : Ctx} {uc m} (h : errorLines c uc = .ok m) : Quoted (quotedPart c.input uc) m := by
  unfold errorLines at h
  unfold quotedPart
  split at h
  · next hc => rw [if_pos hc]; exact printNumberedLines_quoted h
  · next hc => rw [if_neg hc]; exact printNumberedLines_quoted h

/-! ## Positions -/

theorem takeWhile_all {α} {f : α → Bool} : ∀ {l : List α}, (∀ b ∈ l, f b = true) → l.takeWhile f = l
  | [], _ => rfl
  | a :: l, h => by
    rw [List.takeWhile_cons, if_pos (h a (by simp)), takeWhile_all fun b hb => h b (by simp [hb])]

theorem charPosition_eq (s : Str) {p : Nat} (h : p ≤ s.length) :
    (charPosition s p).1 + 1 = lineNo s p ∧ (charPosition s p).2 + 1 = column s p := by
  refine ⟨rfl, ?_⟩
  simp only [charPosition, column]
  have hl : ((s.take p).reverse.takeWhile (· != 10)).length ≤ p := by
    refine Nat.le_trans (List.takeWhile_sublist _).length_le ?_
    simp
    omega
  split
  · omega
  · next hc =>
    have h0 : ∀ b ∈ (s.take p).reverse, (b != 10) = true := by
      intro b hb
      simp only [List.mem_reverse] at hb
      have : ¬ 0 < (s.take p).count 10 := by omega
      rw [List.count_pos_iff] at this
      simp only [bne_iff_ne, ne_eq]
      rintro rfl
      exact this hb
    rw [takeWhile_all h0]
    simp
    omega

theorem printErrorLocation_points {c : Ctx} {uc k m} (h : printErrorLocation c uc k = .ok m) : Points c.input uc k m := by
  unfold printErrorLocation at h
  by_cases hu : uc ≤ c.input.length
  · refine ⟨hu, ?_⟩
    obtain ⟨hl, hc⟩ := charPosition_eq c.input hu
    have h1 : P.assert (decide (uc ≤ c.input.length)) = .ok () := by simp [P.assert, hu]; rfl
    simp only [h1, hl, hc, decimal_eq, decimalWidth_eq] at h
    cases hq : errorLines c uc with
    | error e => simp only [hq] at h; cases h
    | ok q =>
      simp only [hq] at h
      refine ⟨q, errorLines_quoted hq, ?_⟩
      have hk : (k < 1) ↔ k = 0 := by omega
      have ha : (c.input.any (128 ≤ ·) = true) ↔ ∃ b ∈ c.input, 128 ≤ b := by simp [List.any_eq_true]
      unfold marker
      by_cases h0 : k = 0
      · rw [if_pos (.inl h0)]
        replace h : (if k < 1 then _ else _ : P Str) = _ := h
        rw [if_pos (hk.mpr h0)] at h
        cases h
        simp [whereText]
      · by_cases h8 : ∃ b ∈ c.input, 128 ≤ b
        · rw [if_pos (.inr h8)]
          replace h : (if k < 1 then _ else _ : P Str) = _ := h
          rw [if_neg (mt hk.mp h0), if_pos (ha.mpr h8)] at h
          cases h
          simp [whereText]
        · rw [if_neg (by simp only [not_or]; exact ⟨h0, h8⟩)]
          replace h : (if k < 1 then _ else _ : P Str) = _ := h
          rw [if_neg (mt hk.mp h0), if_neg (mt ha.mp h8)] at h
          cases h
          simp [whereText]
  · have h1 : P.assert (decide (uc ≤ c.input.length)) = .error .assertFail := by simp [P.assert, hu]; rfl
    rw [h1] at h
    cases h

/-! ## Where errors come from -/

/-- The input contains digits that stand for a number that does not fit into an `int`. -/
def BigNumber (s : Str) : Prop := ∃ a d b, s = a ++ d ++ b ∧ 2147483647 < Syn.digitsVal d ∧ ∀ x ∈ d, isDigit x = true

/-- What an error tells about the input. -/
def Explained (c : Ctx) : PErr → Prop
  | .syntax m => ∃ head uc k loc tail, Points c.input uc k loc ∧ m = head ++ loc ++ tail
  | .outOfRange => BigNumber c.input
  | .overflow => 2147483645 < c.input.length
  | _ => True

/-- Every error of the computation has the property. -/
def Errs {α} (F : PErr → Prop) (x : P α) : Prop := ∀ e, x = .error e → F e

theorem Errs.ok {α F} {a : α} : Errs F (.ok a : P α) := fun _ h => by cases h

theorem Errs.pure {α F} {a : α} : Errs F (Pure.pure a : P α) := fun _ h => by cases h

theorem Errs.throw {α F} {e : PErr} (h : F e) : Errs F (MonadExcept.throw e : P α) := fun _ h' => by cases h'; exact h

theorem Errs.bind {α β F} {x : P α} {f : α → P β} (h : Errs F x) (hf : ∀ a, x = .ok a → Errs F (f a)) : Errs F (x >>= f) := by
  cases x with
  | error e => intro e' he; cases he; exact h e rfl
  | ok a => exact hf a rfl

theorem assert_errs {c b} : Errs (Explained c) (P.assert b) := by
  unfold P.assert; split
  · exact .pure
  · exact .throw trivial

theorem printErrorLocation_errs (c : Ctx) (uc k : Nat) : Errs (Explained c) (printErrorLocation c uc k) := by
  by_cases hu : uc ≤ c.input.length
  · by_cases hl : c.input.length ≤ 2147483645
    · obtain ⟨m, hm⟩ := errorLines_ok hl uc
      intro e he
      unfold printErrorLocation at he
      have h1 : P.assert (decide (uc ≤ c.input.length)) = .ok () := by simp [P.assert, hu]; rfl
      simp only [h1, hm] at he
      replace he : (if k < 1 then _ else _ : P Str) = _ := he
      split at he
      · cases he
      · split at he <;> cases he
    · intro e he
      rcases printErrorLocation_written c hu k with ⟨m, h⟩ | h
      · rw [h] at he; cases he
      · rw [h] at he; cases he
        show 2147483645 < _
        omega
  · intro e he
    unfold printErrorLocation at he
    have h1 : P.assert (decide (uc ≤ c.input.length)) = .error .assertFail := by simp [P.assert, hu]; rfl
    rw [h1] at he
    cases he
    trivial

theorem pMinus1_errs {c p} : Errs (Explained c) (pMinus1 p) := by
  unfold pMinus1; split
  · exact .throw trivial
  · exact .pure

theorem points_errs {α} {c : Ctx} {uc k loc} {head tail : Str} (h : printErrorLocation c uc k = .ok loc) :
    Errs (Explained c) (throw (.syntax (head ++ loc ++ tail)) : P α) :=
  .throw ⟨head, uc, k, loc, tail, printErrorLocation_points h, rfl⟩

theorem throwErrorMessage_errs {α} (c : Ctx) (p : Nat) (msg : Str) : Errs (Explained c) (throwErrorMessage c p msg : P α) := by
  refine .bind pMinus1_errs fun uc _ => .bind (printErrorLocation_errs _ _ _) fun loc hl => ?_
  have := points_errs (α := α) (head := msg ++ lit " ") (tail := []) hl
  simpa using this

theorem throwRegexError_errs {α} (c : Ctx) (p k : Nat) (what : Str) : Errs (Explained c) (throwRegexError c p k what : P α) := by
  refine .bind pMinus1_errs fun uc _ => .bind (printErrorLocation_errs _ _ _) fun loc hl => ?_
  have := points_errs (α := α) (head := lit "In regular expression ") (tail := lit "\nError: " ++ what) hl
  simpa using this

theorem throwUnexpectedTag_errs {α} (c : Ctx) (p : Nat) (t e n) : Errs (Explained c) (throwUnexpectedTag c p t e n : P α) := by
  unfold throwUnexpectedTag
  refine .bind pMinus1_errs fun uc _ => .bind (printErrorLocation_errs _ _ _) fun loc hl => ?_
  have := points_errs (α := α) (head := lit "Unexpected closing tag '</" ++ t ++ lit ">'" ++ (match n, e with
    | some n, _ => lit ", expected '</" ++ n ++ lit ">'"
    | none, some e => lit ", expected '</" ++ tagText e ++ lit ">'"
    | none, none => []) ++ lit " ") (tail := []) hl
  simp only [List.append_nil, List.append_assoc] at this ⊢
  exact this

theorem throwMissingTag_errs {α} (c : Ctx) (t n) : Errs (Explained c) (throwMissingTag c t n : P α) := by
  refine .bind (printErrorLocation_errs _ _ _) fun loc hl => ?_
  have := points_errs (α := α) (head := lit "Missing closing tag '</" ++ n.getD (tagText t) ++ lit ">' ") (tail := []) hl
  simpa using this

theorem throwUnexpected_errs {α} (c : Ctx) (p : Nat) : Errs (Explained c) (throwUnexpected c p : P α) := by
  refine .bind assert_errs fun _ _ => .bind ?_ fun head _ => .bind (printErrorLocation_errs _ _ _) fun loc hl => ?_
  · unfold unexpectedHead
    split
    · exact .pure
    · refine .bind (fun e he => ?_) fun _ _ => .pure
      obtain ⟨rfl, _⟩ := charName_error he
      trivial
  · have := points_errs (α := α) (head := head) (tail := []) hl
    simpa using this

theorem tkStop_errs {c p s} : Errs (Explained c) (Hext.tkStop c p s) := by
  unfold Hext.tkStop
  split
  · exact .throw trivial
  · split
    · exact .pure
    · exact .throw trivial

theorem tkStop_infix {c p s s'} (h : Hext.tkStop c p s = .ok s') : s'.tok <:+: c.input := by
  unfold Hext.tkStop at h
  split at h
  · cases h
  · split at h
    · cases h
      exact (List.take_prefix _ _).isInfix.trans (List.drop_suffix _ _).isInfix
    · cases h

theorem foldl_digits : ∀ (ds : Str) (n : Nat), (∀ x ∈ ds, isDigit x = true) →
    ds.foldl (fun (n : Int) d => n * 10 + (d.toNat - 48)) (n : Int) = (ds.foldl (fun n d => n * 10 + (d.toNat - 48)) n : Nat)
  | [], n, _ => rfl
  | d :: ds, n, hd => by
    have h1 := hd d (by simp)
    simp only [isDigit, Bool.and_eq_true, decide_eq_true_eq, UInt8.le_iff_toNat_le] at h1
    have h2 : (48 : Byte).toNat = 48 := rfl
    have h3 : (57 : Byte).toNat = 57 := rfl
    rw [List.foldl_cons, List.foldl_cons, ← foldl_digits ds (n * 10 + (d.toNat - 48)) fun x hx => hd x (by simp [hx])]
    congr 1
    omega

theorem splitSign_suffix (s : Str) : (splitSign s).2 <:+ s := by
  unfold splitSign
  split
  · exact List.suffix_cons _ _
  · exact List.suffix_cons _ _
  · exact List.suffix_refl _

theorem takeWhile_isDigit (l : Str) : ∀ x ∈ l.takeWhile isDigit, isDigit x = true := by
  induction l with
  | nil => simp
  | cons a l ih =>
    intro x hx
    rw [List.takeWhile_cons] at hx
    split at hx
    · next h =>
      simp only [List.mem_cons] at hx
      rcases hx with rfl | hx
      · exact h
      · exact ih x hx
    · simp at hx

theorem stoi_errs {c : Ctx} {s : Str} (h : s <:+: c.input) : Errs (Explained c) (stoi s) := by
  intro e he
  unfold stoi at he
  dsimp only at he
  split at he
  · cases he; trivial
  · have hd := takeWhile_isDigit (splitSign s).2
    have hv := foldl_digits ((splitSign s).2.takeWhile isDigit) 0 hd
    rw [show ((0 : Nat) : Int) = 0 from rfl] at hv
    rw [hv] at he
    generalize hvv : List.foldl (fun n (d : Byte) => n * 10 + (d.toNat - 48)) 0 ((splitSign s).2.takeWhile isDigit) = v at he
    generalize hu : (if (splitSign s).1 = true then -(v : Int) else (v : Int)) = u at he
    split at he
    · cases he
    · next hr =>
      cases he
      have hin : (splitSign s).2.takeWhile isDigit <:+: c.input :=
        ((List.takeWhile_prefix _).isInfix.trans (splitSign_suffix s).isInfix).trans h
      obtain ⟨a, b, hab⟩ := hin
      refine ⟨a, _, b, hab.symm, ?_, hd⟩
      by_cases hl : 2147483647 < v
      · rw [Syn.digitsVal, hvv]; exact hl
      · exfalso
        apply hr
        simp only [intMin, intMax]
        split at hu <;> omega

theorem modifyCur_errs {c f s} : Errs (Explained c) (modifyCur f s) := by
  unfold modifyCur
  split
  · exact .pure
  · exact .throw trivial

theorem popRule_errs {c s} : Errs (Explained c) (Hext.popRule s) := by
  unfold Hext.popRule
  split <;> first | exact .pure | exact .throw trivial

theorem derefRegex_errs {c pv} : Errs (Explained c) (derefRegex pv) := by
  unfold derefRegex
  split
  · exact .pure
  · exact .throw trivial

theorem validateCloseTag_errs {c p t s} : Errs (Explained c) (validateCloseTag c p t s) := by
  unfold validateCloseTag
  split
  · exact .throw trivial
  · exact throwUnexpectedTag_errs _ _ _ _ _
  · dsimp only
    repeat' split
    all_goals first | exact .pure | exact .throw trivial | exact throwUnexpectedTag_errs _ _ _ _ _

theorem exec_errs (c : Ctx) (p : Nat) (a : Act) (s : PSt) : Errs (Explained c) (a.exec c p s) := by
  cases a with
  | attrName | literal | capVarToken => exact .bind tkStop_errs fun _ _ => .pure
  | nthNumber | nthShift | traitChildCount | traitAttributeCount =>
    exact .bind tkStop_errs fun _ h => .bind (stoi_errs (tkStop_infix h)) fun _ _ => .pure
  | tkStop => exact tkStop_errs
  | regex =>
    simp only [Act.exec]
    split
    · exact .pure
    · split
      · exact .throw trivial
      · split
        · exact throwRegexError_errs _ _ _ _
        · exact .throw trivial
  | regexTest =>
    simp only [Act.exec]
    split
    · exact .throw trivial
    · exact .pure
  | negateAppend =>
    simp only [Act.exec]
    split
    · exact .throw trivial
    · exact .pure
  | traitTypeRegex | pipeFilter | pipeReplace => exact .bind derefRegex_errs fun _ _ => .pure
  | captureFunction | matchFunction | matchAttribute | appendNegate | appendTrait =>
    exact .bind modifyCur_errs fun _ _ => .pure
  | captureAttribute =>
    refine .bind modifyCur_errs fun _ _ => ?_
    dsimp only
    split
    · exact .pure
    · exact modifyCur_errs
  | reset =>
    refine .bind ?_ fun _ _ => .pure
    exact .bind assert_errs fun _ _ => .bind assert_errs fun _ _ => .bind assert_errs fun _ _ => .bind assert_errs fun _ _ => .pure
  | pushRule =>
    simp only [Act.exec, Hext.pushRule]
    split
    · exact .pure
    · exact .throw trivial
  | ruleOptional | ruleGreedy => exact modifyCur_errs
  | openTag =>
    refine .bind tkStop_errs fun _ _ => ?_
    simp only [setOpenTag]
    repeat' split
    all_goals exact modifyCur_errs
  | popRule => exact popRule_errs
  | closeTag => exact .bind tkStop_errs fun _ _ => .bind validateCloseTag_errs fun _ _ => popRule_errs
  | pushNested =>
    refine .bind ?_ fun _ _ => ?_
    · unfold topStack
      split
      · exact .pure
      · exact .throw trivial
    · split
      · exact throwErrorMessage_errs _ _ _
      · exact .pure
  | popNested =>
    simp only [Act.exec, Hext.popNested]
    split <;> first | exact .pure | exact .throw trivial | exact throwErrorMessage_errs _ _ _
  | unexpected => exact throwUnexpected_errs _ _
  | _ => exact .pure

theorem execWord_errs (c : Ctx) : ∀ (w : List Sym) (p : Nat) (s : PSt), Errs (Explained c) (execWord c p w s)
  | [], _, _ => .pure
  | .ch _ :: w, p, s => execWord_errs c w (p + 1) s
  | .act a :: w, p, s => .bind (exec_errs c p a s) fun s' _ => execWord_errs c w p s'

theorem finishParse_errs (c : Ctx) (s : PSt) : Errs (Explained c) (finishParse c s) := by
  unfold finishParse
  split
  · exact .throw trivial
  · split
    · exact throwErrorMessage_errs _ _ _
    · split
      · exact .pure
      · exact .throw trivial
      · split
        · exact throwMissingTag_errs _ _ _
        · exact .pure

theorem parse_explained {rx cs hext e} (h : parseHext rx cs hext = .error e) : Explained { input := hext, charSigned := cs, rx } e := by
  have h : Parser.parse { input := hext, charSigned := cs, rx } = .error e := h
  rw [parse_eq] at h
  exact Errs.bind (execWord_errs _ _ _ _) (fun s _ => finishParse_errs _ s) e h

/-! ## The carets -/

theorem numbered_append (w : Nat) : ∀ (ls ks : List Str) (n : Nat), numbered w n (ls ++ ks) = numbered w n ls ++ numbered w (n + ls.length) ks
  | [], _, _ => rfl
  | l :: ls, ks, n => by
    simp only [List.cons_append, numbered, numbered_append w ls ks (n + 1), List.length_cons, List.append_assoc]
    rw [show n + 1 + ls.length = n + (ls.length + 1) by omega]

theorem takeWhile_append_nl (A B : Str) : (A ++ 10 :: B).takeWhile (· != 10) = A.takeWhile (· != 10) := by
  induction A with
  | nil => simp
  | cons a A ih => simp only [List.cons_append, List.takeWhile_cons, ih]

/-- The last line of a text. -/
theorem Msg.IsLines.last : ∀ {ls : List Str} {text}, IsLines text ls → ∃ ks l, ls = ks ++ [l] ∧ ks.length = text.count 10 ∧
    l = (text.reverse.takeWhile (· != 10)).reverse
  | [], _, h => absurd rfl h.2.1
  | [l], text, ⟨h1, _, h3⟩ => by
    have h1 := h1 l (by simp)
    have h3 : text = l := by rw [h3]; simp [List.intercalate]
    subst h3
    refine ⟨[], text, rfl, (List.count_eq_zero.mpr h1).symm, ?_⟩
    rw [takeWhile_all, List.reverse_reverse]
    intro b hb
    simp only [bne_iff_ne, ne_eq]
    rintro rfl
    exact h1 (by simpa using hb)
  | l :: l' :: ls, text, ⟨h1, _, h3⟩ => by
    obtain ⟨ks, x, hk, hc, hx⟩ := Msg.IsLines.last (ls := l' :: ls) (text := [(10 : Byte)].intercalate (l' :: ls))
      ⟨fun y hy => h1 y (by simp only [List.mem_cons] at hy ⊢; exact .inr hy), by simp, rfl⟩
    have hl := h1 l (by simp)
    rw [intercalate_cons (by simp)] at h3
    refine ⟨l :: ks, x, by rw [hk]; rfl, ?_, ?_⟩
    · rw [h3]
      simp [hc, List.count_eq_zero.mpr hl]
    · rw [hx, h3]
      congr 1
      simp only [List.reverse_append, List.reverse_cons, List.reverse_nil, List.nil_append, List.singleton_append]
      exact (takeWhile_append_nl _ _).symm

theorem padded_length {n : Nat} : (padded (dec n).length n).length = (dec n).length := by simp [padded]

theorem dec_nonl (n : Nat) : 10 ∉ dec n := by
  rw [← decimal_eq]
  induction n using Nat.strongRecOn with
  | ind n ih =>
    have hd : ∀ k, k < 10 → (10 : Byte) ≠ 48 + UInt8.ofNat k := by decide
    rw [decimal]
    split
    · next h => simpa using hd n h
    · next h =>
      simp only [List.mem_append, List.mem_singleton, not_or]
      exact ⟨ih _ (by omega), hd _ (by omega)⟩

theorem numbered_last (w : Nat) : ∀ (ls : List Str) (n : Nat) (x : Str), x.getLast? = some 10 →
    (x ++ numbered w n ls).getLast? = some 10
  | [], _, _, h => by simpa [numbered] using h
  | l :: ls, n, x, h => by
    have := numbered_last w ls (n + 1) (x ++ padded w n ++ lit ": " ++ l ++ [10]) (by simp)
    simpa [numbered] using this

theorem whereText_last (s : Str) (p : Nat) : (whereText s p).getLast? = some 10 := by
  unfold whereText
  split
  · decide
  · have : lit ":\n\n" = [58, 10] ++ [10] := by decide
    rw [this, ← List.append_assoc]
    simp

/-- The last quoted line and the line with the carets: the last caret stands below the byte at `p`. -/
theorem caret_below {s : Str} {p k : Nat} {m : Str} (h : Points s p k m) (hk : 0 < k) (hascii : ∀ b ∈ s, b < 128)
    (hq : quotedPart s p ≠ []) :
    ∃ pre line mark i, m = pre ++ line ++ [10] ++ mark ++ lit " here\n" ∧ pre.getLast? = some 10 ∧ 10 ∉ line ∧
      mark.getLast? = some 94 ∧ mark.length = i + 1 ∧
      (if p = s.length ∨ s[p]? = some 10 then line.length = i else line.length = i + 1 ∧ line[i]? = s[p]?) := by
  obtain ⟨hp, q, hquo, rfl⟩ := h
  rcases hquo with ⟨h0, _⟩ | ⟨_, ls, hls, rfl⟩
  · exact absurd h0 hq
  · obtain ⟨ks, l, rfl, hkc, hl⟩ := Msg.IsLines.last hls
    have hnol : 10 ∉ l := hls.1 l (by simp)
    -- the number of lines and the length of the last one
    have hline : ks.length + 1 = lineNo s p ∧
        (if p = s.length ∨ s[p]? = some 10 then l.length + 1 = column s p else l.length = column s p ∧ l.getLast? = s[p]?) := by
      unfold quotedPart at hkc hl
      split at hkc
      · next hc =>
        rw [if_pos hc] at hl ⊢
        refine ⟨by rw [hkc]; rfl, ?_⟩
        rw [hl]; simp [column]
      · next hc =>
        rw [if_neg hc] at hl ⊢
        simp only [not_or] at hc
        have hlt : p < s.length := by omega
        have htake : s.take (p + 1) = s.take p ++ [s[p]] := by rw [List.take_succ_eq_append_getElem hlt]
        have hb : s[p]? = some s[p] := List.getElem?_eq_getElem hlt
        have hne : s[p] ≠ 10 := fun e => hc.2 (by rw [hb, e])
        rw [htake] at hkc hl
        simp only [List.reverse_append, List.reverse_cons, List.reverse_nil, List.nil_append, List.singleton_append,
          List.takeWhile_cons, bne_iff_ne, ne_eq, hne, not_false_eq_true, if_true] at hl
        refine ⟨?_, ?_, ?_⟩
        · rw [hkc, List.count_append, List.count_singleton, if_neg (by simpa using hne)]; rfl
        · rw [hl]; simp [column]
        · rw [hl, hb]; simp
    obtain ⟨hno, hlen⟩ := hline
    have hmk : ¬ (k = 0 ∨ ∃ b ∈ s, 128 ≤ b) := by
      rintro (h | ⟨b, hb, h8⟩)
      · omega
      · exact absurd (hascii b hb) (by rw [UInt8.not_lt]; exact h8)
    have hcol : 1 ≤ column s p := by simp [column]
    have hw : (ks ++ [l]).length = lineNo s p := by simp [hno]
    have h1 : 1 + ks.length = lineNo s p := by omega
    refine ⟨whereText s p ++ numbered (dec (lineNo s p)).length 1 ks, padded (dec (lineNo s p)).length (lineNo s p) ++ lit ": " ++ l,
      List.replicate ((dec (lineNo s p)).length + 2 + column s p - min (column s p) k) 32 ++ List.replicate (min (column s p) k) 94,
      (dec (lineNo s p)).length + 2 + column s p - 1, ?_, numbered_last _ _ _ _ (whereText_last s p), ?_, ?_, ?_, ?_⟩
    · rw [hw, numbered_append, h1]
      simp only [marker, if_neg hmk, numbered, List.append_assoc, List.append_nil]
    · simp only [List.mem_append, padded, not_or]
      refine ⟨⟨⟨?_, dec_nonl _⟩, by decide⟩, hnol⟩
      simp
    · have : min (column s p) k = (min (column s p) k - 1) + 1 := by omega
      rw [this, List.replicate_succ']
      simp
    · simp; omega
    · have hl2 : (lit ": ").length = 2 := by decide
      split at hlen
      · next hc =>
        rw [if_pos hc]
        simp only [List.length_append, padded_length, hl2]
        omega
      · next hc =>
        rw [if_neg hc]
        obtain ⟨g1, g2⟩ := hlen
        refine ⟨by simp only [List.length_append, padded_length, hl2]; omega, ?_⟩
        have e : (dec (lineNo s p)).length + 2 + column s p - 1 =
            (padded (dec (lineNo s p)).length (lineNo s p) ++ lit ": ").length + (l.length - 1) := by
          simp only [List.length_append, padded_length, hl2]; omega
        rw [← g2, List.getLast?_eq_getElem?, e, List.getElem?_append_right (Nat.le_add_right _ _), Nat.add_sub_cancel_left]

end Hext
