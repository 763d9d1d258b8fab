import Verif.Proofs.ParserMemory
import Verif.Props.Memory
import Verif.Proofs.MemoryBuild
import Verif.Props.Whole
/-!
# C91: parsing owns what it builds

`parseHextMem rx charSigned g hext m n` (Model/ParserMemory.lean) is `ParseHext` started in memory `m` when `n` requests for memory
succeed; `g` says, for every position of the hext and every code block, which vectors have to be reallocated. It ends with the address
of the rule or with an exception, and with the memory afterwards.
-/

namespace Hext.Mem

open Props (CharSafe C34_parse_safe_partial)

theorem gained_of_changed {m m' : Mem} {S : List Nat} (w : m.Wf) (h : Changed m m' [] S) (a : ∀ x ∈ S, (m'.cell x).isSome) :
    Gained m m' S := by
  have dead : ∀ x, m.fresh ≤ x → m.cell x = none := by
    intro x hx
    cases e : m.cell x with
    | none => rfl
    | some o => exact absurd (w x (by rw [e]; rfl)) (by omega)
  refine ⟨h.le, h.nodup, fun x => ⟨fun hx => ⟨a x hx, ?_⟩, fun hx => ?_⟩⟩
  · rcases h.sub x hx with h' | h'
    · cases h'
    · exact ⟨dead x h', h'⟩
  · by_cases hl : x < m.fresh
    · exact h.others x hl (by simp)
    · rw [dead x (by omega)]
      cases e : m'.cell x with
      | none => rfl
      | some o =>
        rcases h.noLeak x (by rw [e]; rfl) with h' | h'
        · exact absurd h' hx
        · exact absurd h'.1 hl

theorem bad_end {m m' : Mem} {t : PMem} (w : m.Wf) (h : Bad m t m') :
    ∃ m'', destroyParser t m' = pure ((), m'') ∧ Untouched m m'' := by
  obtain ⟨s, h⟩ := h
  obtain ⟨m'', e, o⟩ := own_destroyParser (F := emp) (h.mono (by rw [sep_emp]))
  obtain ⟨h₁, h₂⟩ := own_end o
  exact ⟨m'', e, h₁, fun x => h₂ x w⟩

/-- C91: there is a number `N` of requests that parsing a hext makes. If fewer succeed, parsing ends with `std::bad_alloc`. Otherwise it
ends as parsing the text does (`parseHext`, C34 to C41): with the rule, with the exception or with the same fault. A rule is made of
new objects, which it owns alone and which are all that was added to the memory. After an exception, of whatever kind, the memory is
as it was: no object was left behind, none was deleted twice, none of the caller's objects was touched. What is missing: a text that
is not a hext takes one more request, for the `SyntaxError`; if exactly this one fails, the program is terminated
(`C91_syntax_error_terminates`). -/
theorem C91_parse_partial (rx : RxEngine) (charSigned : Bool) (g : Nat → Nat → Growth) (hext : Str) {m : Mem} (w : m.Wf) :
    ∃ N, ∀ n,
      (n < N → ∃ m', parseHextMem rx charSigned g hext m n = pure (.error .badAlloc, m') ∧ Untouched m m') ∧
      (N ≤ n → match parseHext rx charSigned hext with
        | .ok r => ∃ a m' S, parseHextMem rx charSigned g hext m n = pure (.ok a, m') ∧ HoldsRule m'.cell a r S ∧
            Gained m m' S ∧ m'.Wf
        | .error e => match faultOf e with
          | some f => parseHextMem rx charSigned g hext m n = throw f
          | none =>
            ((∃ what, e = .syntax what) ∧ n = N → parseHextMem rx charSigned g hext m n = throw .assertFail) ∧
            (¬ ((∃ what, e = .syntax what) ∧ n = N) →
              ∃ m', parseHextMem rx charSigned g hext m n = pure (.error (.thrown e), m') ∧ Untouched m m')) := by
  obtain ⟨N, h₁, h₂⟩ := sim_body { input := hext, charSigned, rx } g w
  have run : ∀ {n r t' m' k}, parseBodyR { input := hext, charSigned, rx } g ⟨m, n, {}⟩ = pure (r, ⟨m', k, t'⟩) →
      ∀ {m''}, destroyParser t' m' = pure ((), m'') → parseHextMem rx charSigned g hext m n = pure (r, m'') := by
    intro n r t' m' k e m'' e'
    unfold parseHextMem
    rw [e]
    show (destroyParser t' m' >>= _) = _
    rw [e']
    rfl
  refine ⟨N, fun n => ⟨fun hn => ?_, fun hn => ?_⟩⟩
  · obtain ⟨t', m', e, b⟩ := h₁ n hn
    obtain ⟨m'', e', u⟩ := bad_end w b
    exact ⟨m'', run e e', u⟩
  · have hn' : n - N + N = n := by omega
    unfold parseHext
    generalize Parser.parse { input := hext, charSigned, rx } = x at h₂
    cases x with
    | ok r =>
      obtain ⟨a, t', m', ⟨s', o⟩, e⟩ := h₂
      have e := e (n - N)
      rw [hn'] at e
      obtain ⟨m'', e', o⟩ := own_destroyParser (F := ruleA a r) (o.mono (by rw [sep_comm]))
      obtain ⟨S, ⟨T, hT, p⟩, c⟩ := o
      have c := c.perm p.symm
      exact ⟨a, m'', T, run e e', hT, gained_of_changed w c (fun x hx => (ruleA a r).alive ⟨T, hT, .refl _⟩ x hx), c.wf⟩
    | error e =>
      simp only at h₂ ⊢
      cases hf : faultOf e with
      | some f =>
        rw [hf] at h₂
        have e := h₂ (n - N)
        rw [hn'] at e
        show parseHextMem _ _ _ _ _ _ = _
        unfold parseHextMem
        rw [e]
        rfl
      | none =>
        rw [hf] at h₂
        obtain ⟨t', m', b, h₃⟩ := h₂
        obtain ⟨m'', e', u⟩ := bad_end w b
        have plain : (∀ k, parseBodyR { input := hext, charSigned, rx } g ⟨m, k + N, {}⟩ =
              pure (.error (.thrown e), ⟨m', k, t'⟩)) → (∀ what, e ≠ .syntax what) →
            ((∃ what, e = .syntax what) ∧ n = N → parseHextMem rx charSigned g hext m n = throw .assertFail) ∧
            (¬ ((∃ what, e = .syntax what) ∧ n = N) →
              ∃ m', parseHextMem rx charSigned g hext m n = pure (.error (.thrown e), m') ∧ Untouched m m') := by
          intro h hs
          refine ⟨by rintro ⟨⟨what, rfl⟩, _⟩; exact absurd rfl (hs what), fun _ => ?_⟩
          have h := h (n - N)
          rw [hn'] at h
          exact ⟨m'', run h e', u⟩
        cases e with
        | «syntax» what =>
          refine ⟨fun ⟨_, hN⟩ => ?_, fun hN => ?_⟩
          · rw [hN]
            unfold parseHextMem
            rw [h₃.1]
            rfl
          · have hN : n ≠ N := fun e => hN ⟨⟨what, rfl⟩, e⟩
            have h := h₃.2 (n - N - 1)
            rw [show n - N - 1 + 1 + N = n by omega] at h
            exact ⟨m'', run h e', u⟩
        | _ => exact plain h₃ (fun _ => nofun)

/-- C91: a program that parses a hext and destroys the rule ends with the memory it began with, however many requests succeed. -/
theorem C91_parse_destroy (rx : RxEngine) (charSigned : Bool) (g : Nat → Nat → Growth) (hext : Str) (r : Rule)
    (h : parseHext rx charSigned hext = .ok r) {m : Mem} (w : m.Wf) (n : Nat) :
    ∃ m', (do
      match ← parseHextMem rx charSigned g hext m n with
      | (.ok a, m') => return (← destroyRule a m').2
      | (.error _, m') => return m') = pure m' ∧ Untouched m m' := by
  obtain ⟨N, hN⟩ := C91_parse_partial rx charSigned g hext w
  by_cases hn : n < N
  · obtain ⟨m', e, u⟩ := (hN n).1 hn
    exact ⟨m', by rw [e]; rfl, u⟩
  · have := (hN n).2 (by omega)
    rw [h] at this
    obtain ⟨a, m', S, e, hS, gd, w'⟩ := this
    obtain ⟨m'', e', c⟩ := destroys_rule r a S m' hS gd.2.1
    refine ⟨m'', ?_, ?_⟩
    · rw [e]
      show (destroyRule a m' >>= _) = _
      rw [e']; rfl
    · refine ⟨by rw [c.fresh]; exact gd.1, fun x => ?_⟩
      rw [c.cell]
      split
      · exact ((gd.2.2 x).1 ‹_›).2.1.symm
      · exact (gd.2.2 x).2 ‹_›

/-- C91: whatever the memory, the hexts of C34 lead to a rule, to a `SyntaxError`, to `std::out_of_range` or to `std::bad_alloc`;
deleted objects are never used, and no object is deleted twice. The exception: a text that is not a hext ends the program for one
number `n` of requests that succeed. -/
theorem C91_parse_safe_partial (rx : RxEngine) (charSigned : Bool) (g : Nat → Nat → Growth) (hext : Str) (hs : CharSafe charSigned hext)
    (hl : hext.length ≤ 2147483645) {m : Mem} (w : m.Wf) : ∃ N, ∀ n, (∃ what, parseHext rx charSigned hext = .error (.syntax what)) ∧
      n = N ∨
    ∃ o m', parseHextMem rx charSigned g hext m n = pure (o, m') ∧ m'.Wf ∧
      match o with
      | .ok a => ∃ r S, parseHext rx charSigned hext = .ok r ∧ HoldsRule m'.cell a r S ∧ Gained m m' S
      | .error .badAlloc => Untouched m m'
      | .error (.thrown e) => (e = .outOfRange ∨ ∃ what, e = .syntax what) ∧ parseHext rx charSigned hext = .error e ∧
          Untouched m m' := by
  have wf : ∀ {m'}, Untouched m m' → m'.Wf := fun u x hx => by
    rw [u.2 x] at hx
    exact Nat.lt_of_lt_of_le (w x hx) u.1
  obtain ⟨N, hN⟩ := C91_parse_partial rx charSigned g hext w
  refine ⟨N, fun n => ?_⟩
  by_cases hn : n < N
  · obtain ⟨m', e, u⟩ := (hN n).1 hn
    exact .inr ⟨_, m', e, wf u, u⟩
  · have := (hN n).2 (by omega)
    rcases C34_parse_safe_partial rx charSigned hext hs hl with ⟨r, h⟩ | ⟨what, h⟩ | h
    · rw [h] at this
      obtain ⟨a, m', S, e, hS, gd, w'⟩ := this
      exact .inr ⟨_, m', e, w', r, S, h, hS, gd⟩
    · by_cases e : n = N
      · exact .inl ⟨⟨what, h⟩, e⟩
      rw [h] at this
      obtain ⟨m', e, u⟩ := this.2 (fun c => e c.2)
      exact .inr ⟨_, m', e, wf u, .inr ⟨what, rfl⟩, h, u⟩
    · rw [h] at this
      obtain ⟨m', e, u⟩ := this.2 (by rintro ⟨⟨_, h⟩, _⟩; cases h)
      exact .inr ⟨_, m', e, wf u, .inl rfl, h, u⟩

/-- C91 fails: for every text that is rejected with a `SyntaxError` there is a number of requests for memory that may succeed such that
parsing ends the program. The constructor of `SyntaxError` is `noexcept`, but it copies the message. -/
theorem C91_syntax_error_terminates (rx : RxEngine) (charSigned : Bool) (g : Nat → Nat → Growth) (hext what : Str)
    (h : parseHext rx charSigned hext = .error (.syntax what)) {m : Mem} (w : m.Wf) :
    ∃ n, parseHextMem rx charSigned g hext m n = throw .assertFail := by
  obtain ⟨N, hN⟩ := C91_parse_partial rx charSigned g hext w
  have := (hN N).2 (Nat.le_refl _)
  rw [h] at this
  exact ⟨N, this.1 ⟨⟨what, rfl⟩, rfl⟩⟩

/-! Hypotheses of these theorems, and both ways to end. -/

/-- All vectors are full. -/
def full : Nat → Nat → Growth := fun _ _ => ⟨true, true, true, true, true⟩

theorem empty_wf : Mem.empty.Wf := fun _ hx => nomatch hx

example : ∃ N, ∀ n, N ≤ n → ∃ a m' S, parseHextMem Ex.rx true full (lit "<a href:x/>") .empty n = pure (.ok a, m') ∧
    HoldsRule m'.cell a Props.hrefRule S ∧ Gained .empty m' S ∧ m'.Wf := by
  have e := Props.href_parsed Ex.rx true
  generalize lit "<a href:x/>" = s at e ⊢
  obtain ⟨N, h⟩ := C91_parse_partial Ex.rx true full s empty_wf
  rw [e] at h
  exact ⟨N, fun n hn => (h n).2 hn⟩

-- `std::out_of_range` while a rule is open
example : ∃ N, ∀ n, N ≤ n → ∃ m', parseHextMem Ex.rx true full (lit "<a:child-count(99999999999)/>") .empty n =
    pure (.error (.thrown .outOfRange), m') ∧ Untouched .empty m' := by
  have e := Props.C35_out_of_range_big Ex.rx true
  generalize lit "<a:child-count(99999999999)/>" = s at e ⊢
  obtain ⟨N, h⟩ := C91_parse_partial Ex.rx true full s empty_wf
  rw [e] at h
  refine ⟨N, fun n hn => ?_⟩
  exact ((h n).2 hn).2 (by rintro ⟨⟨_, h⟩, _⟩; cases h)

-- the first request fails
example : parseHextMem Ex.rx true full (lit "<a href:x/>") .empty 0 = pure (.error .badAlloc, .empty) := by
  show (parseBodyR _ _ ⟨.empty, 0, {}⟩ >>= _) = _
  rfl

example := C91_parse_destroy Ex.rx true full (lit "<a href:x/>") _ (Props.href_parsed Ex.rx true) empty_wf 12
example := C91_parse_safe_partial Ex.rx true full (lit "<a href:x/>") (Props.charSafe_ascii fun _ => by decide) (by decide) empty_wf

-- `x` is not a hext
open Props Syn in
example : ∃ n, parseHextMem Ex.rx true full (lit "x") .empty n = throw .assertFail := by
  obtain ⟨before, place, _, h⟩ := C39_first_bad_byte Ex.rx true (lit "x") 0 (by decide) (by decide) (charSafe_ascii fun _ => by decide)
    ⟨[], ruleOf [], (parse_items (is := []) nofun _).2 ⟨_, _, .nil, rfl⟩⟩ (by rw [if_neg (by decide)]; exact not_begins (by decide +kernel))
  exact C91_syntax_error_terminates _ _ _ _ _ h empty_wf

end Hext.Mem
