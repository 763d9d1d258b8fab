import Verif.Model.Sink
import Verif.Props.Cli
/-!
# C74: what htmlext has written when it exits
-/

namespace Hext.Props

open Cli

variable {σ τ : Type} {W : World σ} {D : Device τ} {w : σ}

theorem print_append (s : Stream τ) (a b : Str) : s.print D (a ++ b) = (s.print D a).print D b :=
  List.foldl_append

theorem extractLoopTo_eq (o : Opts) : ∀ (ps : List (Rule × Str)) (out : Stream τ),
    extractLoopTo W D o ps out = (extractLoop W o ps).map fun x => (out.print D x.1, x.2)
  | [], _ => rfl
  | (r, t) :: ps, out => by
    rw [extractLoopTo, extractLoop]
    cases extractFrom W o r t with
    | none => rfl
    | some x =>
      cases x with
      | error e => rfl
      | ok res =>
        simp only
        rw [extractLoopTo_eq o ps]
        cases extractLoop W o ps with
        | none => rfl
        | some x => simp only [Option.map_some, print_append]

theorem bodyTo_eq (parsed : Except Str Opts) (out : Stream τ) :
    bodyTo W D parsed w out = (body W parsed w).map fun x => (out.print D x.1, x.2) := by
  unfold bodyTo body
  cases parsed with
  | error what => rfl
  | ok o =>
    dsimp only
    cases validate o with
    | error e => rfl
    | ok u =>
      dsimp only
      cases o.help with
      | true => rfl
      | false =>
        cases o.version with
        | true => rfl
        | false =>
          simp only [Bool.false_eq_true, if_false]
          obtain ⟨_ | rs, w₁⟩ := parseFiles W o.hext w
          · rfl
          · dsimp only
            cases parseStrings W o.str with
            | error e => rfl
            | ok rs' =>
              dsimp only
              cases o.lint with
              | true => rfl
              | false =>
                simp only [Bool.false_eq_true, if_false]
                obtain ⟨_ | texts, w₂⟩ := readHtml W o.html w₁
                · rfl
                · exact extractLoopTo_eq _ _ _

/-- The program with failing streams is the program that collects its output, followed by printing it. -/
theorem mainTo_eq (parsed : Except Str Opts) (out err : Stream τ) :
    mainTo W D parsed w out err = (main W parsed w).map fun x => match x with
      | .exit code o e => .exit code (out.print D o) (err.print D e)
      | .crash => .crash := by
  unfold mainTo main
  rw [bodyTo_eq]
  cases body W parsed w with
  | none => rfl
  | some x =>
    obtain ⟨o, _ | e⟩ := x
    · rfl
    · cases e with
      | po what =>
        simp only [Option.map_some]
        split
        · rw [← print_append, ← print_append]
          rfl
        · rw [List.append_nil]
      | _ => rfl

theorem print_bad (s : Stream τ) (h : s.good = false) (text : Str) : s.print D text = s := by
  induction text with
  | nil => rfl
  | cons b text ih =>
    show (s.put D b).print D text = s
    rw [Stream.put, h, if_neg (by simp), ih]

/-- What printing does: a prefix of the text is taken; all of it exactly if no byte is refused. -/
theorem print_prefix (text : Str) : ∀ s : Stream τ, s.good = true →
    ∃ k, k ≤ text.length ∧ (s.print D text).written = s.written ++ text.take k ∧
      ((s.print D text).good = true ↔ k = text.length) := by
  induction text with
  | nil => intro s h; exact ⟨0, by simp, by simp [Stream.print], by simp [Stream.print, h]⟩
  | cons b text ih =>
    intro s h
    show ∃ k, _ ∧ ((s.put D b).print D text).written = _ ∧ (((s.put D b).print D text).good = true ↔ _)
    unfold Stream.put
    rw [if_pos h]
    cases D s.dev b with
    | none =>
      simp only
      rw [print_bad _ rfl]
      exact ⟨0, by simp, by simp, by simp⟩
    | some d =>
      obtain ⟨k, h₁, h₂, h₃⟩ := ih { s with dev := d, written := s.written ++ [b] } h
      exact ⟨k + 1, by simpa using h₁, by simpa using h₂, by rw [h₃]; simp⟩

/-- C74: whatever the devices for standard output and standard error do, htmlext ends with the same exit code, and what they
have taken is a prefix of what it prints: all of it exactly if no output failed. -/
theorem C74_prefix {parsed : Except Str Opts} {code : Nat} {o e : Str} (h : main W parsed w = some (.exit code o e))
    (d₁ d₂ : τ) : ∃ out err, mainTo W D parsed w ⟨d₁, true, []⟩ ⟨d₂, true, []⟩ = some (.exit code out err) ∧
      out.written <+: o ∧ err.written <+: e ∧
      (out.written = o ↔ out.good = true) ∧ (err.written = e ↔ err.good = true) := by
  refine ⟨_, _, by rw [mainTo_eq, h]; rfl, ?_⟩
  obtain ⟨k, h₁, h₂, h₃⟩ := print_prefix (D := D) o ⟨d₁, true, []⟩ rfl
  obtain ⟨l, g₁, g₂, g₃⟩ := print_prefix (D := D) e ⟨d₂, true, []⟩ rfl
  rw [h₂, g₂, h₃, g₃]
  have : ∀ {x : Str} {j : Nat}, j ≤ x.length → ([] ++ x.take j = x ↔ j = x.length) := by
    intro x j hj
    constructor
    · intro k
      have := congrArg List.length k
      simp at this
      omega
    · rintro rfl; simp
  exact ⟨by simpa using List.take_prefix k o, by simpa using List.take_prefix l e, this h₁, this g₁⟩

/-- C74: nothing else can happen: an exit code with failing devices is the exit code without failures. -/
theorem C74_exit_code {parsed : Except Str Opts} {code : Nat} {out err out₀ err₀ : Stream τ}
    (h : mainTo W D parsed w out₀ err₀ = some (.exit code out err)) : ∃ o e, main W parsed w = some (.exit code o e) := by
  rw [mainTo_eq] at h
  cases hm : main W parsed w with
  | none => rw [hm] at h; cases h
  | some x =>
    rw [hm] at h
    cases x with
    | exit c o e => cases h; exact ⟨o, e, rfl⟩
    | crash => cases h

/-- C74 with devices that take every byte: what is printed is written. Missing: exit code 0 means that everything was written
for other devices as well, which is false, see `C74_incomplete`. -/
theorem C74_complete_partial {parsed : Except Str Opts} {code : Nat} {o e : Str}
    (h : main W parsed w = some (.exit code o e)) (hD : ∀ d b, D d b ≠ none) (d₁ d₂ : τ) :
    ∃ out err, mainTo W D parsed w ⟨d₁, true, []⟩ ⟨d₂, true, []⟩ = some (.exit code out err) ∧
      out.written = o ∧ err.written = e := by
  have good : ∀ (text : Str) (s : Stream τ), s.good = true → (s.print D text).good = true := by
    intro text
    induction text with
    | nil => intro s h; exact h
    | cons b text ih =>
      intro s h
      show ((s.put D b).print D text).good = true
      apply ih
      unfold Stream.put
      rw [if_pos h]
      cases hd : D s.dev b with
      | none => exact absurd hd (hD _ _)
      | some d => exact h
  obtain ⟨out, err, h₁, _, _, h₂, h₃⟩ := C74_prefix (D := D) h d₁ d₂
  have h₄ := h₁
  rw [mainTo_eq, h] at h₄
  cases h₄
  exact ⟨_, _, h₁, h₂.2 (good _ _ rfl), h₃.2 (good _ _ rfl)⟩

/-- C74, violated: for every run that prints something and exits with code 0, and for every number `n` of bytes less than what
it prints, there is a device (a disk with room for `n` bytes) on which it writes `n` bytes only and exits with code 0, with
nothing on standard error. -/
theorem C74_incomplete {parsed : Except Str Opts} {o e : Str} (h : main W parsed w = some (.exit 0 o e))
    {n : Nat} (hn : n < o.length) :
    ∃ (D : Device Nat) (out err : Stream Nat), mainTo W D parsed w ⟨n, true, []⟩ ⟨0, true, []⟩ = some (.exit 0 out err) ∧
      out.written = o.take n ∧ out.written ≠ o ∧ err.written = [] := by
  let D : Device Nat := fun d _ => match d with | 0 => none | d + 1 => some d
  have key : ∀ (text : Str) (k : Nat) (done : Str), k < text.length →
      ((Stream.mk k true done).print D text).written = done ++ text.take k := by
    intro text
    induction text with
    | nil => intro k done h; simp at h
    | cons b text ih =>
      intro k done h
      cases k with
      | zero =>
        show (Stream.print D ⟨0, false, done⟩ text).written = _
        rw [print_bad _ rfl]
        simp
      | succ k =>
        show (Stream.print D ⟨k, true, done ++ [b]⟩ text).written = _
        rw [ih k _ (by simpa using h)]
        simp
  obtain ⟨he, _⟩ := main_ok.1 h
  subst he
  refine ⟨D, _, _, by rw [mainTo_eq, h]; rfl, by simpa using key o n [] hn, ?_, rfl⟩
  rw [key o n [] hn]
  intro k
  have := congrArg List.length k
  simp at this
  omega

/-! ## Example -/

-- A run that prints two lines: its hypotheses are met, also for a disk that has room for one line only.
example := C74_prefix (D := fun (d : Nat) _ => if d = 0 then none else some (d - 1))
  ((ex_run (some (lit "x")) false).trans (by congr 2) : main exWorld (.ok exOpts) () = some (.exit 0 (lit "1\n2\n") [])) 2 0
example := C74_complete_partial (D := fun (d : Unit) _ => some d)
  ((ex_run (some (lit "x")) false).trans (by congr 2) : main exWorld (.ok exOpts) () = some (.exit 0 (lit "1\n2\n") []))
  (by simp) () ()
example := C74_incomplete (n := 2)
  ((ex_run (some (lit "x")) false).trans (by congr 2) : main exWorld (.ok exOpts) () = some (.exit 0 (lit "1\n2\n") []))
  (by decide)

end Hext.Props
