import Verif.Proofs.ParserMain

/-!
# Inputs that are not hexts

What an action does depends on the bytes before it only (apart from the text of error messages). The bytes that
were read before an unexpected one are the beginning of some hext, so the actions that ran behaved as they do in
that hext.
-/

namespace Hext

open Syn Check

/-! ## No word of the grammar contains the error action -/

def G.avoids (a : Act) : G → Bool
  | .eps | .cls _ => true
  | .act b => a != b
  | .seq g h | .alt g h => g.avoids a && h.avoids a
  | .star g => g.avoids a

theorem G.avoids_spec {a : Act} {g w} (h : Lang g w) (hg : g.avoids a = true) : Sym.act a ∉ w := by
  induction h with
  | eps | starNil => simp
  | act => simpa [avoids] using hg
  | cls => simp
  | seq _ _ ih1 ih2 =>
    simp only [avoids, Bool.and_eq_true] at hg
    simp [ih1 hg.1, ih2 hg.2]
  | altl _ ih => simp only [avoids, Bool.and_eq_true] at hg; exact ih hg.1
  | altr _ ih => simp only [avoids, Bool.and_eq_true] at hg; exact ih hg.2
  | starCons _ _ ih1 ih2 => simp [ih1 hg, ih2 hg]

theorem main_avoids : Grammar.main.avoids .unexpected = true := by decide +kernel

/-! ## Two inputs with the same beginning -/

/-- The same outcome, or two error messages. -/
def Sim {α} (x y : P α) : Prop := x = y ∨ ∃ e e', x = .error e ∧ y = .error e' ∧ Written e ∧ Written e'

theorem Sim.rfl {α} {x : P α} : Sim x x := .inl (Eq.refl _)

theorem Sim.bind {α β} {x y : P α} {f g : α → P β} (h : Sim x y) (hf : ∀ a, Sim (f a) (g a)) :
    Sim (x >>= f) (y >>= g) := by
  rcases h with h | ⟨e, e', rfl, rfl, h1, h2⟩
  · subst h
    cases x with
    | error e => exact .inl (Eq.refl _)
    | ok a => exact hf a
  · exact .inr ⟨e, e', Eq.refl _, Eq.refl _, h1, h2⟩

/-- The two inputs agree on the first `p` bytes. -/
structure Agree (c c' : Ctx) (p : Nat) : Prop where
  rx : c.rx = c'.rx
  len : p ≤ c.input.length
  len' : p ≤ c'.input.length
  take : c.input.take p = c'.input.take p

theorem drop_take_of_le {α} (l : List α) (b p : Nat) : (l.drop b).take (p - b) = (l.take p).drop b := by
  rw [List.drop_take]

theorem tkStop_sim {c c' p} (h : Agree c c' p) (s : PSt) : Hext.tkStop c p s = Hext.tkStop c' p s := by
  unfold Hext.tkStop
  split
  · rfl
  · next b _ =>
    by_cases hb : b ≤ p
    · simp only [hb, h.len, h.len', and_self, if_true, drop_take_of_le, h.take]
    · simp [hb]

theorem throwErrorMessage_sim {α} {c c' p} (h : Agree c c' p) (msg : Str) :
    Sim (throwErrorMessage c p msg : P α) (throwErrorMessage c' p msg) := by
  by_cases h0 : p = 0
  · subst h0; exact .inl (Eq.refl _)
  · obtain ⟨e, h1, h2⟩ := throwErrorMessage_written (α := α) c (by omega) h.len msg
    obtain ⟨e', h3, h4⟩ := throwErrorMessage_written (α := α) c' (by omega) h.len' msg
    exact .inr ⟨e, e', h1, h3, h2, h4⟩

theorem throwRegexError_sim {α} {c c' p} (h : Agree c c' p) (k : Nat) (what : Str) :
    Sim (throwRegexError c p k what : P α) (throwRegexError c' p k what) := by
  by_cases h0 : p = 0
  · subst h0; exact .inl (Eq.refl _)
  · obtain ⟨e, h1, h2⟩ := throwRegexError_written (α := α) c (by omega) h.len k what
    obtain ⟨e', h3, h4⟩ := throwRegexError_written (α := α) c' (by omega) h.len' k what
    exact .inr ⟨e, e', h1, h3, h2, h4⟩

theorem throwUnexpectedTag_sim {α} {c c' p} (h : Agree c c' p) (t x n) :
    Sim (throwUnexpectedTag c p t x n : P α) (throwUnexpectedTag c' p t x n) := by
  by_cases h0 : p = 0
  · subst h0; exact .inl (Eq.refl _)
  · obtain ⟨e, h1, h2⟩ := throwUnexpectedTag_written (α := α) c (by omega) h.len t x n
    obtain ⟨e', h3, h4⟩ := throwUnexpectedTag_written (α := α) c' (by omega) h.len' t x n
    exact .inr ⟨e, e', h1, h3, h2, h4⟩

theorem validateCloseTag_sim {c c' p} (h : Agree c c' p) (t : Str) (s : PSt) :
    Sim (validateCloseTag c p t s) (validateCloseTag c' p t s) := by
  unfold validateCloseTag
  split
  · exact .rfl
  · exact throwUnexpectedTag_sim h _ _ _
  · dsimp only
    split
    · split
      · exact .rfl
      · split
        · exact throwUnexpectedTag_sim h _ _ _
        · exact .rfl
    · split
      · split
        · exact throwUnexpectedTag_sim h _ _ _
        · exact .rfl
      · split
        · exact throwUnexpectedTag_sim h _ _ _
        · exact .rfl

theorem exec_sim {c c' p} (h : Agree c c' p) {a : Act} (ha : a ≠ .unexpected) (s : PSt) :
    Sim (a.exec c p s) (a.exec c' p s) := by
  cases a with
  | unexpected => exact absurd rfl ha
  | attrName | literal | nthNumber | nthShift | tkStop | traitChildCount | traitAttributeCount | capVarToken | openTag =>
    left
    simp only [Act.exec, tkStop_sim h]
  | closeTag =>
    simp only [Act.exec, tkStop_sim h]
    exact Sim.bind .rfl fun s => Sim.bind (validateCloseTag_sim h _ _) fun _ => .rfl
  | pushNested =>
    simp only [Act.exec, Hext.pushNested]
    refine Sim.bind .rfl fun t => ?_
    split
    · exact throwErrorMessage_sim h _
    · exact .rfl
  | popNested =>
    simp only [Act.exec, Hext.popNested]
    split <;> first | exact .rfl | exact throwErrorMessage_sim h _
  | regex =>
    simp only [Act.exec, h.rx]
    split
    · exact .rfl
    · split
      · exact .rfl
      · split
        · exact throwRegexError_sim h _ _
        · exact .rfl
  | _ => exact .inl rfl

theorem execWord_sim {c c' : Ctx} (hrx : c.rx = c'.rx) : ∀ (w : List Sym) (p : Nat) (s : PSt), Sym.act .unexpected ∉ w →
    c.input.take p = c'.input.take p → At c p w → At c' p w → Sim (execWord c p w s) (execWord c' p w s)
  | [], _, _, _, _, _, _ => .rfl
  | .ch b :: w, p, s, hw, ht, h, h' => by
    refine execWord_sim hrx w (p + 1) s (by simp at hw; exact hw) ?_ h.step h'.step
    have h1 : ∀ {c : Ctx}, At c p (.ch b :: w) → c.input.take (p + 1) = c.input.take p ++ [b] := by
      intro c h
      obtain ⟨_, t, h2⟩ := h
      rw [List.take_add, ← h2]
      rfl
    rw [h1 h, h1 h', ht]
  | .act a :: w, p, s, hw, ht, h, h' => by
    simp only [List.mem_cons, not_or, Sym.act.injEq] at hw
    refine Sim.bind (exec_sim ⟨hrx, h.1, h'.1, ht⟩ (fun e => hw.1 e.symm) s) fun s' => ?_
    exact execWord_sim hrx w p s' hw.2 ht h.act h'.act

/-- The bytes that were read before an unexpected one are the beginning of a hext; running them ends well, or
with a syntax error or the exception of `std::stoi`. -/
theorem exec_prefix {c : Ctx} {u v : List Sym} {rest : Str} (hi : c.input = chars u ++ rest) (hw : Lang Grammar.main (u ++ v)) :
    (∃ s, execWord c 0 u {} = .ok s) ∨ ∃ e, execWord c 0 u {} = .error e ∧ Soft e := by
  let c' : Ctx := { c with input := chars (u ++ v) }
  have hav : Sym.act .unexpected ∉ u := by
    have := G.avoids_spec hw main_avoids
    simp only [List.mem_append, not_or] at this
    exact this.1
  have hat : At c 0 u := ⟨by simp, rest, by simp [hi]⟩
  have hat' : At c' 0 u := ⟨by simp, chars v, by simp [c', chars_append]⟩
  have hs := execWord_sim (c := c) (c' := c') rfl u 0 {} hav rfl hat hat'
  have hfull : (∃ s, execWord c' 0 (u ++ v) {} = .ok s) ∨ ∃ e, execWord c' 0 (u ++ v) {} = .error e ∧ Soft e := by
    obtain ⟨is, h1, h2⟩ := (lang_main _).mp hw
    have hat : At c' 0 (itemsWord is) := ⟨by simp, by simp [c', h2]⟩
    have hrun := runs_items h1 (.base .nil : Conf c'.rx [] {} [[], result []]) base_empty 0 {} hat rfl
    rw [h2]
    cases hst : steps c'.rx {} [[], result []] is with
    | none => rw [hst] at hrun; exact .inr hrun
    | some y =>
      rw [hst] at hrun
      obtain ⟨s, he, _⟩ := hrun
      exact .inl ⟨s, he⟩
  have hu : (∃ s, execWord c' 0 u {} = .ok s) ∨ ∃ e, execWord c' 0 u {} = .error e ∧ Soft e := by
    rw [execWord_append] at hfull
    cases h : execWord c' 0 u {} with
    | ok s => exact .inl ⟨s, rfl⟩
    | error e =>
      rw [h] at hfull
      rcases hfull with ⟨s, hs⟩ | ⟨e', he, hs⟩
      · cases hs
      · cases he; exact .inr ⟨e, rfl, hs⟩
  rcases hs with hs | ⟨e, e', h1, _, h2, _⟩
  · rw [hs]; exact hu
  · exact .inr ⟨e, h1, h2.soft⟩

/-! ## Every outcome -/

theorem charName_error {cs : Bool} {b : Byte} {e} (h : charName cs b = .error e) :
    e = .ub ∧ cs = true ∧ 128 ≤ b ∧ b ≠ 255 := by
  unfold charName at h
  by_cases hlt : charVal cs b < -1
  · refine ⟨?_, ?_⟩
    · simp only [hlt, if_true] at h
      repeat' split at h
      all_goals cases h
      rfl
    · unfold charVal at hlt
      split at hlt
      · next hs =>
        simp only [Bool.and_eq_true, decide_eq_true_eq] at hs
        refine ⟨hs.1, hs.2, ?_⟩
        rintro rfl
        revert hlt
        decide
      · omega
  · simp only [hlt, if_false] at h
    repeat' split at h
    all_goals cases h

theorem throwUnexpected_cases {α} (c : Ctx) {p : Nat} (hp : p ≤ c.input.length) :
    (∃ e, (throwUnexpected c p : P α) = .error e ∧ Written e) ∨
    ((throwUnexpected c p : P α) = .error .ub ∧ c.charSigned = true ∧ ∃ b, c.input[p]? = some b ∧ 128 ≤ b ∧ b ≠ 255) := by
  have h1 : P.assert (decide (p ≤ c.input.length)) = .ok () := by simp [P.assert, hp]; rfl
  have key : ∀ m : Str, unexpectedHead c p = .ok m → ∃ e, (throwUnexpected c p : P α) = .error e ∧ Written e := by
    intro m hm
    unfold throwUnexpected
    simp only [h1, hm]
    rcases printErrorLocation_written c hp 1 with ⟨l, hl⟩ | hl
    · exact ⟨_, by simp only [hl]; rfl, .syntax _⟩
    · exact ⟨_, by simp only [hl]; rfl, .overflow⟩
  cases hb : c.input[p]? with
  | none => exact .inl (key (lit "Premature termination ") (by simp only [unexpectedHead, hb]; rfl))
  | some b =>
    cases hn : charName c.charSigned b with
    | ok name =>
      exact .inl (key (lit "Unexpected character '" ++ name ++ lit "' ") (by simp only [unexpectedHead, hb, hn]; rfl))
    | error e =>
      right
      obtain ⟨rfl, hs, h128, h255⟩ := charName_error hn
      refine ⟨?_, hs, b, rfl, h128, h255⟩
      unfold throwUnexpected
      simp only [h1, unexpectedHead, hb, hn]
      rfl

/-- Every way in which parsing can end without a rule. -/
theorem parse_error {rx : RxEngine} {cs : Bool} {hext : Str} {e : PErr} (h : parseHext rx cs hext = .error e) :
    Soft e ∨ (e = .ub ∧ cs = true ∧ ∃ (p : Nat) (b : Byte), hext[p]? = some b ∧ 128 ≤ b ∧ b ≠ 255 ∧
      Syn.Begins (hext.take p) ∧ ¬ Syn.Begins (hext.take (p + 1))) := by
  let c : Ctx := { input := hext, charSigned := cs, rx }
  have h : Parser.parse c = .error e := h
  cases ha : accepts hextStart c.input with
  | true =>
    obtain ⟨is, h1, h2, h3⟩ := parse_accepted ha
    rw [parse_eq, h3] at h
    rcases exec_items c is h1 h2 with ⟨f, rs, hs, he⟩ | ⟨_, e', he, hs⟩
    · rw [he] at h; cases h
    · rw [he] at h; cases h; exact .inl hs
  | false =>
    obtain ⟨u, rest, h1, h2, ⟨v, h3⟩, h4, _⟩ := reject_spec c.input hextStart (by decide) (by decide) ha
    rw [parse_eq, h2, execWord_append] at h
    rcases exec_prefix h1 ((remains_start _).mp h3) with ⟨s, hs⟩ | ⟨e', he, hs⟩
    · rw [hs] at h
      have h' : (Act.exec c (0 + (chars u).length) .unexpected s >>= fun s => pure s) >>= finishParse c = .error e := h
      have hp : 0 + (chars u).length ≤ c.input.length := by rw [h1]; simp
      rcases throwUnexpected_cases (α := PSt) c hp with ⟨e', he, hw⟩ | ⟨he, hcs, b, hb, hb'⟩
      · simp only [Act.exec, he] at h'
        cases h'
        exact .inl hw.soft
      · simp only [Act.exec, he] at h'
        cases h'
        have hbg : Syn.Begins (hext.take (0 + (chars u).length)) := by
          obtain ⟨is, h5, h6⟩ := (lang_main _).mp ((remains_start _).mp h3)
          refine ⟨chars v, is, h5, ?_⟩
          have e1 : hext = chars u ++ rest := h1
          rw [← chars_itemsWord, ← h6, chars_append, e1]
          simp
        refine .inr ⟨rfl, hcs, _, b, hb, hb'.1, hb'.2, hbg, ?_⟩
        rintro ⟨t, is, h5, h6⟩
        have e1 : hext = chars u ++ rest := h1
        cases rest with
        | nil => simp [h1] at hb
        | cons b' rest =>
          refine h4 b' rest rfl (itemsWord is) ((remains_start _).mpr ((lang_main _).mpr ⟨is, h5, rfl⟩)) ?_
          rw [chars_itemsWord, ← h6, e1, Nat.zero_add, List.take_append, Nat.add_sub_cancel_left,
            List.take_of_length_le (by omega), List.take_succ_cons, List.take_zero]
          exact List.prefix_append _ _
    · rw [he] at h
      cases h
      exact .inl hs

/-! ## The count of lines -/

theorem splitNl_length (s : Str) : ∀ cur, (splitNl cur s).length ≤ s.length + 1 := by
  induction s with
  | nil => intro cur; simp [splitNl]
  | cons b s ih =>
    intro cur
    simp only [splitNl]
    split
    · have := ih []
      simp only [List.length_cons]
      omega
    · have := ih (cur ++ [b])
      simp only [List.length_cons]
      omega

theorem printLines_ok (width : Nat) (ls : List Str) : ∀ n, n + ls.length ≤ 2147483647 → ∃ m, printLines width n ls = .ok m := by
  induction ls with
  | nil => intro n _; exact ⟨_, rfl⟩
  | cons l ls ih =>
    intro n h
    simp only [List.length_cons] at h
    obtain ⟨m, hm⟩ := ih (n + 1) (by omega)
    exact ⟨_, by simp only [printLines, if_neg (show ¬ n + 1 > 2147483647 by omega), hm]; rfl⟩

theorem printNumberedLines_ok {s : Str} (h : s.length ≤ 2147483645) : ∃ m, printNumberedLines s = .ok m := by
  refine printLines_ok _ _ 1 ?_
  unfold tokenizeLines
  split
  · simp
  · have := splitNl_length s []
    omega

theorem errorLines_ok {c : Ctx} (h : c.input.length ≤ 2147483645) (uc : Nat) : ∃ m, errorLines c uc = .ok m := by
  unfold errorLines
  split
  · exact printNumberedLines_ok (by simp only [List.length_take]; omega)
  · exact printNumberedLines_ok (by simp only [List.length_take]; omega)

end Hext
