import Verif.Spec.Pretty
import Verif.Proofs.Json
/-!
# The layout of JSON texts: what the writers write
-/

namespace Hext.Layout

open Cli

/-- Outside of strings, with `d` brackets open. -/
def out (d : Nat) : Reader := ⟨false, false, d⟩

theorem after_append (r : Reader) (s t : Str) : r.after (s ++ t) = (r.after s).after t := List.foldl_append

theorem after_cons (r : Reader) (c : Byte) (t : Str) : r.after (c :: t) = (r.pass c).after t := rfl

theorem squeeze_append (r : Reader) (s t : Str) : squeeze r (s ++ t) = squeeze r s ++ squeeze (r.after s) t := by
  induction s generalizing r with
  | nil => rfl
  | cons c s ih =>
    rw [List.cons_append, squeeze, squeeze, ih, after_cons]
    split <;> rfl

/-- What is said of the lines that begin in a text, if `d` brackets are open before it. -/
def LineOk (d : Nat) (before line : Str) : Prop :=
  ((out d).after before).inString = false ∧
  ∃ c rest, line = List.replicate (4 * (((out d).after before).depth - if IsClosing c then 1 else 0)) 32 ++ c :: rest ∧ c ≠ 32 ∧ c ≠ 10

/-- `t` leads from `d` open brackets to `d'` open brackets, has only lines as they should be, and is squeezed to `sq`. -/
structure Lay (d : Nat) (t sq : Str) (d' : Nat) : Prop where
  fold : (out d).after t = out d'
  sq : squeeze (out d) t = sq
  lines : ∀ before line, t = before ++ 10 :: line → LineOk d before line

theorem Lay.append {d d1 d2 : Nat} {t1 t2 q1 q2 : Str} (h1 : Lay d t1 q1 d1) (h2 : Lay d1 t2 q2 d2) :
    Lay d (t1 ++ t2) (q1 ++ q2) d2 := by
  refine ⟨by rw [after_append, h1.fold, h2.fold], by rw [squeeze_append, h1.fold, h1.sq, h2.sq], fun before line he => ?_⟩
  rcases List.append_eq_append_iff.1 he with ⟨x, rfl, hx⟩ | ⟨x, rfl, hx⟩
  · have := h2.lines x line hx
    unfold LineOk at this ⊢
    rw [after_append, h1.fold]
    exact this
  · cases x with
    | nil =>
      simp only [List.nil_append] at hx
      have := h2.lines [] line hx.symm
      have e := h1.fold
      rw [List.append_nil] at e
      unfold LineOk at this ⊢
      rw [e]
      exact this
    | cons b x =>
      simp only [List.cons_append, List.cons.injEq] at hx
      obtain ⟨rfl, rfl⟩ := hx
      obtain ⟨a1, c, rest, rfl, a2, a3⟩ := h1.lines before x rfl
      exact ⟨a1, c, rest ++ t2, by simp, a2, a3⟩

theorem Lay.cast {d d' : Nat} {t t' q q' : Str} (h : Lay d t q d') (ht : t = t') (hq : q = q') : Lay d t' q' d' := ht ▸ hq ▸ h

theorem lay_nil (d : Nat) : Lay d [] [] d := ⟨rfl, rfl, fun b l h => by simp at h⟩

/-- A single byte that is no line break. -/
theorem lay_byte {d d' : Nat} {c : Byte} (hc : c ≠ 10) (hp : (out d).pass c = out d') (h32 : c ≠ 32) : Lay d [c] [c] d' := by
  refine ⟨hp, ?_, fun b l h => ?_⟩
  · simp [squeeze, hc, h32]
  · cases b with
    | nil => simp at h; exact absurd h.1 hc
    | cons x b => simp at h

theorem lay_blank (d : Nat) : Lay d [32] [] d := by
  refine ⟨rfl, rfl, fun b l h => ?_⟩
  cases b with
  | nil => simp at h
  | cons x b => simp at h

theorem after_blanks (d n : Nat) : (out d).after (List.replicate n 32) = out d := by
  induction n with
  | zero => rfl
  | succ n ih => rw [List.replicate_succ, after_cons]; exact ih

theorem squeeze_blanks (d n : Nat) : squeeze (out d) (List.replicate n 32) = [] := by
  induction n with
  | zero => rfl
  | succ n ih =>
    rw [List.replicate_succ, squeeze, if_pos (by simp [out])]
    exact ih

/-- A line break, the blanks and something that begins with `c`. -/
theorem lay_line {d d' k : Nat} {t q : Str} {c : Byte} {rest : Str} (h : Lay d t q d') (ht : t = c :: rest) (h32 : c ≠ 32) (h10 : c ≠ 10)
    (hk : k = d - if IsClosing c then 1 else 0) : Lay d (10 :: (indent k ++ t)) q d' := by
  have hf : (out d).after (10 :: indent k) = out d := by
    rw [after_cons]
    exact after_blanks d _
  have e : 10 :: (indent k ++ t) = (10 :: indent k) ++ t := rfl
  rw [e]
  refine ⟨by rw [after_append, hf, h.fold], ?_, fun before line he => ?_⟩
  · rw [squeeze_append, hf, h.sq]
    have : squeeze (out d) (10 :: indent k) = [] := by
      rw [squeeze, if_pos (by simp [out])]
      exact squeeze_blanks d _
    rw [this]; rfl
  · cases before with
    | nil =>
      simp only [List.cons_append, List.nil_append, List.cons.injEq, true_and] at he
      refine ⟨rfl, c, rest, ?_, h32, h10⟩
      rw [← he, ht, hk]
      rfl
    | cons b before =>
      simp only [List.cons_append, List.cons.injEq] at he
      obtain ⟨rfl, he⟩ := he
      rcases List.append_eq_append_iff.1 he with ⟨x, rfl, hx⟩ | ⟨x, hx1, hx⟩
      · have := h.lines x line hx
        unfold LineOk at this ⊢
        rw [show 10 :: (indent k ++ x) = (10 :: indent k) ++ x from rfl, after_append, hf]
        exact this
      · cases x with
        | nil =>
          simp only [List.nil_append] at hx
          rw [ht] at hx
          simp only [List.cons.injEq] at hx
          exact absurd hx.1.symm h10
        | cons y x =>
          simp only [List.cons_append, List.cons.injEq] at hx
          obtain ⟨rfl, _⟩ := hx
          have : (10 : Byte) ∈ indent k := by rw [hx1]; simp
          simp [indent, List.mem_replicate] at this

/-! ## Strings -/

/-- Inside of a string, with `d` brackets open. -/
def inside (d : Nat) : Reader := ⟨true, false, d⟩

theorem squeeze_inside {r : Reader} (hr : r.inString = true) (c : Byte) (t : Str) : squeeze r (c :: t) = c :: squeeze (r.pass c) t := by
  rw [squeeze, if_neg (by simp [hr])]

theorem pass_plain {d : Nat} {c : Byte} (h1 : c ≠ 92) (h2 : c ≠ 34) : (inside d).pass c = inside d := by
  simp [Reader.pass, inside, h1, h2]

theorem pass_slash (d : Nat) : (inside d).pass 92 = ⟨true, true, d⟩ := rfl

theorem pass_escaped (d : Nat) (c : Byte) : Reader.pass ⟨true, true, d⟩ c = inside d := rfl

theorem hexDigit_plain : ∀ n < 16, hexDigit n ≠ 92 ∧ hexDigit n ≠ 34 ∧ hexDigit n ≠ 10 := by decide

theorem escape_inside (d : Nat) (c : Byte) : (inside d).after (escapeByte c) = inside d ∧
    squeeze (inside d) (escapeByte c) = escapeByte c ∧ (10 : Byte) ∉ escapeByte c := by
  unfold escapeByte
  split
  · exact ⟨rfl, rfl, by decide⟩
  split
  · exact ⟨rfl, rfl, by decide⟩
  split
  · exact ⟨rfl, rfl, by decide⟩
  split
  · exact ⟨rfl, rfl, by decide⟩
  split
  · exact ⟨rfl, rfl, by decide⟩
  split
  · exact ⟨rfl, rfl, by decide⟩
  split
  · exact ⟨rfl, rfl, by decide⟩
  split
  · have hc : c.toNat < 256 := c.toNat_lt
    obtain ⟨a1, a2, a3⟩ := hexDigit_plain (c.toNat / 16) (by omega)
    obtain ⟨b1, b2, b3⟩ := hexDigit_plain (c.toNat % 16) (by omega)
    generalize hexDigit (c.toNat / 16) = x at *
    generalize hexDigit (c.toNat % 16) = y at *
    refine ⟨?_, ?_, ?_⟩
    · simp only [after_cons, pass_slash, pass_escaped, pass_plain (show (48 : Byte) ≠ 92 by decide) (by decide), pass_plain a1 a2,
        pass_plain b1 b2]
      rfl
    · rw [squeeze_inside rfl, pass_slash, squeeze_inside rfl, pass_escaped, squeeze_inside rfl, pass_plain (by decide) (by decide),
        squeeze_inside rfl, pass_plain (by decide) (by decide), squeeze_inside rfl, pass_plain a1 a2, squeeze_inside rfl]
      rfl
    · simp [a3.symm, b3.symm]
  · rename_i h1 h2 _ _ h3 _ _ _
    refine ⟨pass_plain h2 h1, ?_, by simpa using Ne.symm h3⟩
    rw [squeeze_inside rfl]
    rfl

theorem chars_inside (d : Nat) : ∀ s : Str, (inside d).after (s.flatMap escapeByte) = inside d ∧
    squeeze (inside d) (s.flatMap escapeByte) = s.flatMap escapeByte ∧ (10 : Byte) ∉ s.flatMap escapeByte
  | [] => ⟨rfl, rfl, by simp⟩
  | c :: s => by
    obtain ⟨h1, h2, h3⟩ := escape_inside d c
    obtain ⟨h4, h5, h6⟩ := chars_inside d s
    rw [List.flatMap_cons]
    exact ⟨by rw [after_append, h1, h4], by rw [squeeze_append, h1, h2, h5], by simp only [List.mem_append, not_or]; exact ⟨h3, h6⟩⟩

theorem quote_noBreak (s : Str) : (10 : Byte) ∉ quoteJson s := by
  have := (chars_inside 0 s).2.2
  simp only [quoteJson, List.mem_cons, List.mem_append, List.not_mem_nil, or_false, not_or]
  exact ⟨by decide, this, by decide⟩

theorem lay_quote (d : Nat) (s : Str) : Lay d (quoteJson s) (quoteJson s) d := by
  obtain ⟨h1, h2, h3⟩ := chars_inside d s
  refine ⟨?_, ?_, fun b l h => absurd (show (10 : Byte) ∈ quoteJson s by rw [h]; simp) (quote_noBreak s)⟩
  · show ((out d).pass 34).after _ = _
    rw [after_append, show (out d).pass 34 = inside d from rfl, h1]; rfl
  · show squeeze (out d) (34 :: _) = _
    rw [squeeze, if_neg (by simp), show (out d).pass 34 = inside d from rfl, squeeze_append, h1, h2]; rfl

/-! ## Values -/

theorem lay_open {d : Nat} {c : Byte} (h : c = 91 ∨ c = 123) : Lay d [c] [c] (d + 1) := by
  rcases h with rfl | rfl <;> exact lay_byte (by decide) rfl (by decide)

theorem lay_close {d : Nat} {c : Byte} (h : c = 93 ∨ c = 125) : Lay (d + 1) [c] [c] d := by
  rcases h with rfl | rfl <;> exact lay_byte (by decide) rfl (by decide)

theorem lay_comma (d : Nat) : Lay d [44] [44] d := lay_byte (by decide) rfl (by decide)
theorem lay_colon (d : Nat) : Lay d [58] [58] d := lay_byte (by decide) rfl (by decide)

theorem pretty_head (d : Nat) (v : Json) : ∃ c rest, prettyJson d v = c :: rest ∧ (c = 34 ∨ c = 91 ∨ c = 123) :=
  (prettyJson_text v d).head

/-- A line that begins with a string or an opening bracket. -/
theorem lay_line_value {d d' : Nat} {t q : Str} {c : Byte} {rest : Str} (h : Lay d t q d') (ht : t = c :: rest)
    (hc : c = 34 ∨ c = 91 ∨ c = 123) : Lay d (10 :: (indent d ++ t)) q d' := by
  rcases hc with rfl | rfl | rfl <;> exact lay_line h ht (by decide) (by decide) rfl

theorem lay_line_close {d : Nat} {c : Byte} (hc : c = 93 ∨ c = 125) : Lay (d + 1) (10 :: (indent d ++ [c])) [c] d := by
  rcases hc with rfl | rfl <;> exact lay_line (lay_close (by simp)) rfl (by decide) (by decide) rfl

theorem lay_first (d : Nat) (first : Bool) : Lay d (if first then [] else [44]) (if first then [] else [44]) d := by
  cases first
  · exact lay_comma d
  · exact lay_nil d

mutual
theorem lay_json : ∀ (v : Json) (d : Nat), Lay d (prettyJson d v) (writeJson v) d
  | .str s, d => lay_quote d s
  | .arr [], d => (lay_open (c := 91) (.inl rfl)).append (lay_close (c := 93) (.inl rfl))
  | .arr (v :: vs), d => by
    rw [prettyJson, writeJson]
    exact (lay_open (c := 91) (.inl rfl)).append ((lay_elems (v :: vs) (d + 1) true).append (lay_line_close (.inl rfl)))
  | .obj [], d => (lay_open (c := 123) (.inr rfl)).append (lay_close (c := 125) (.inr rfl))
  | .obj (m :: ms), d => by
    rw [prettyJson, writeJson]
    exact (lay_open (c := 123) (.inr rfl)).append ((lay_members (m :: ms) (d + 1) true).append (lay_line_close (.inr rfl)))

theorem lay_elems : ∀ (vs : List Json) (d : Nat) (first : Bool), Lay d (prettyElems d first vs) (writeElems first vs) d
  | [], d, _ => lay_nil d
  | v :: vs, d, first => by
    obtain ⟨c, rest, h1, h2⟩ := pretty_head d v
    refine (((lay_first d first).append (lay_line_value (lay_json v d) h1 h2)).append (lay_elems vs d false)).cast ?_ ?_
    · rw [prettyElems]; simp
    · rw [writeElems]

theorem lay_members : ∀ (ms : List (Str × Json)) (d : Nat) (first : Bool), Lay d (prettyMembers d first ms) (writeMembers first ms) d
  | [], d, _ => lay_nil d
  | (k, v) :: ms, d, first => by
    refine (((lay_first d first).append (lay_line_value ((((lay_quote d k).append (lay_colon d)).append (lay_blank d)).append
      (lay_json v d)) (c := 34) rfl (.inl rfl))).append (lay_members ms d false)).cast ?_ ?_
    · rw [prettyMembers]; simp
    · rw [writeMembers]; simp
end

/-! ## Output -/

/-- Empty, or it begins with an opening bracket and ends with a line break. -/
structure Block (t sq : Str) : Prop where
  fold : (out 0).after t = out 0
  sq : squeeze (out 0) t = sq
  head : t = [] ∨ ∃ c rest, t = c :: rest ∧ (c = 91 ∨ c = 123)
  lines : Indented t

theorem block_nil : Block [] [] := ⟨rfl, rfl, .inl rfl, fun b l h => by simp at h⟩

theorem Block.append {t1 t2 q1 q2 : Str} (h1 : Block t1 q1) (h2 : Block t2 q2) : Block (t1 ++ t2) (q1 ++ q2) := by
  refine ⟨by rw [after_append, h1.fold, h2.fold], by rw [squeeze_append, h1.fold, h1.sq, h2.sq], ?_, fun before line he => ?_⟩
  · rcases h1.head with rfl | ⟨c, rest, rfl, hc⟩
    · exact h2.head
    · exact .inr ⟨c, rest ++ t2, rfl, hc⟩
  rcases List.append_eq_append_iff.1 he with ⟨x, rfl, hx⟩ | ⟨x, rfl, hx⟩
  · have := h2.lines x line hx
    rw [after_append, show Reader.start.after t1 = Reader.start from h1.fold]
    exact this
  · cases x with
    | nil =>
      simp only [List.nil_append] at hx
      have := h2.lines [] line hx.symm
      have e := h1.fold
      rw [List.append_nil] at e
      rw [show Reader.start.after before = Reader.start from e]
      exact this
    | cons b x =>
      simp only [List.cons_append, List.cons.injEq] at hx
      obtain ⟨rfl, rfl⟩ := hx
      obtain ⟨a1, a2⟩ := h1.lines before x rfl
      refine ⟨a1, ?_⟩
      rcases a2 with rfl | ⟨c, rest, rfl, a2, a3⟩
      · rcases h2.head with rfl | ⟨c, rest, rfl, hc⟩
        · exact .inl rfl
        · right
          have e := h1.fold
          rw [after_append, after_cons] at e
          have e : (Reader.start.after before).pass 10 = out 0 := e
          have e2 : (Reader.start.after before).pass 10 = Reader.start.after before := by
            generalize Reader.start.after before = r at a1
            obtain ⟨a, b, n⟩ := r
            simp only at a1
            subst a1
            rfl
          rw [e2] at e
          refine ⟨c, rest, ?_, ?_, ?_⟩
          · rw [e]; simp [out]
          · rcases hc with rfl | rfl <;> decide
          · rcases hc with rfl | rfl <;> decide
      · exact .inr ⟨c, rest ++ t2, by simp, a2, a3⟩

/-- A value that is no string, and a line break. -/
theorem block_value {t q : Str} (h : Lay 0 t q 0) (hh : ∃ c rest, t = c :: rest ∧ (c = 91 ∨ c = 123)) : Block (t ++ [10]) q := by
  refine ⟨by rw [after_append, h.fold]; rfl, ?_, ?_, fun before line he => ?_⟩
  · rw [squeeze_append, h.fold, h.sq]; simp [squeeze, out]
  · obtain ⟨c, rest, rfl, hc⟩ := hh
    exact .inr ⟨c, _, rfl, hc⟩
  · rcases List.append_eq_append_iff.1 he with ⟨x, rfl, hx⟩ | ⟨x, rfl, hx⟩
    · cases x with
      | nil =>
        simp only [List.nil_append, List.cons.injEq, true_and] at hx
        rw [List.append_nil, show Reader.start.after t = out 0 from h.fold]
        exact ⟨rfl, .inl hx.symm⟩
      | cons y x => simp at hx
    · cases x with
      | nil =>
        simp only [List.nil_append, List.cons.injEq, true_and] at hx
        have e := h.fold
        rw [List.append_nil] at e
        rw [show Reader.start.after before = out 0 from e]
        exact ⟨rfl, .inl hx⟩
      | cons b x =>
        simp only [List.cons_append, List.cons.injEq] at hx
        obtain ⟨rfl, rfl⟩ := hx
        obtain ⟨a1, c, rest, rfl, a2, a3⟩ := h.lines before x rfl
        exact ⟨a1, .inr ⟨c, rest ++ [10], by simp [out, Reader.start], a2, a3⟩⟩

mutual
theorem lay_compact : ∀ (v : Json) (d : Nat), Lay d (writeJson v) (writeJson v) d
  | .str s, d => lay_quote d s
  | .arr vs, d => by
    rw [writeJson]
    exact (lay_open (c := 91) (.inl rfl)).append ((lay_compactElems vs (d + 1) true).append (lay_close (c := 93) (.inl rfl)))
  | .obj ms, d => by
    rw [writeJson]
    exact (lay_open (c := 123) (.inr rfl)).append ((lay_compactMembers ms (d + 1) true).append (lay_close (c := 125) (.inr rfl)))

theorem lay_compactElems : ∀ (vs : List Json) (d : Nat) (first : Bool), Lay d (writeElems first vs) (writeElems first vs) d
  | [], d, _ => lay_nil d
  | v :: vs, d, first => by
    rw [writeElems]
    exact ((lay_first d first).append (lay_compact v d)).append (lay_compactElems vs d false)

theorem lay_compactMembers : ∀ (ms : List (Str × Json)) (d : Nat) (first : Bool), Lay d (writeMembers first ms) (writeMembers first ms) d
  | [], d, _ => lay_nil d
  | (k, v) :: ms, d, first => by
    rw [writeMembers]
    exact ((((lay_first d first).append (lay_quote d k)).append (lay_colon d)).append (lay_compact v d)).append (lay_compactMembers ms d false)
end

theorem block_json (v : Json) (hv : ∀ s, v ≠ .str s) (opt : JsonOpt) : Block (printJsonValue v opt ++ [10]) (writeJson v) := by
  refine block_value ?_ ?_
  · unfold printJsonValue
    split
    · exact lay_json v 0
    · exact lay_compact v 0
  · have : JText v (printJsonValue v opt) := by
      unfold printJsonValue
      split
      · exact prettyJson_text v 0
      · exact writeJson_text v
    generalize printJsonValue v opt = t at this
    cases v with
    | str s => exact absurd rfl (hv s)
    | arr vs => cases this <;> exact ⟨_, _, rfl, .inl rfl⟩
    | obj ms => cases this <;> exact ⟨_, _, rfl, .inr rfl⟩

theorem block_objects (opt : JsonOpt) : ∀ vs : List Json, (∀ v ∈ vs, ∀ s, v ≠ .str s) → Block (printObjects opt vs) (vs.flatMap writeJson)
  | [], _ => block_nil
  | v :: vs, h => by
    have := (block_json v (h v (by simp)) opt).append (block_objects opt vs fun x hx => h x (by simp [hx]))
    rw [printObjects, List.flatMap_cons]
    simpa using this

theorem filter_noBreak {t : Str} (h : (10 : Byte) ∉ t) : t.filter (· ≠ 10) = t :=
  List.filter_eq_self.2 fun c hc => by simp; rintro rfl; exact h hc

theorem compact_noBreak (v : Json) : (10 : Byte) ∉ writeJson v := by
  intro h
  have hl := lay_compact v 0
  obtain ⟨b, l, he⟩ := List.append_of_mem h
  have h1 := hl.sq
  rw [he, squeeze_append] at h1
  obtain ⟨h2, _⟩ := hl.lines b l he
  have h3 : ∀ (r : Reader) (t : Str), (squeeze r t).length ≤ t.length := by
    intro r t
    induction t generalizing r with
    | nil => simp [squeeze]
    | cons c t ih =>
      rw [squeeze]
      have := ih (r.pass c)
      split <;> simp <;> omega
  have h4 : squeeze ((out 0).after b) (10 :: l) = squeeze (((out 0).after b).pass 10) l := by
    rw [squeeze, if_pos (by simp [h2])]
  rw [h4] at h1
  have := congrArg List.length h1
  have h5 := h3 (out 0) b
  have h6 := h3 (((out 0).after b).pass 10) l
  simp only [List.length_append, List.length_cons] at this
  omega

theorem filter_objects (array : Bool) : ∀ vs : List Json,
    (printObjects ⟨false, array⟩ vs).filter (· ≠ 10) = vs.flatMap writeJson
  | [] => rfl
  | v :: vs => by
    have ih := filter_objects array vs
    rw [printObjects, List.flatMap_cons, List.filter_append, List.filter_cons, if_neg (by simp), ih]
    congr 1
    exact filter_noBreak (compact_noBreak v)

/-- What is printed for a result, with and without `--pretty`, is squeezed to the same text. -/
theorem block_result (array : Bool) (res : List (List (Str × Str))) :
    ∃ q, (∀ pretty, Block (printJson res ⟨pretty, array⟩) q) ∧ (printJson res ⟨false, array⟩).filter (· ≠ 10) = q := by
  unfold printJson
  cases array with
  | true =>
    by_cases he : (res.map fun group => Json.obj (groupObject group)).isEmpty = true
    · refine ⟨[], fun pretty => ?_, ?_⟩
      · simp only [if_true, he]
        exact block_nil
      · simp only [if_true, he]; rfl
    · refine ⟨writeJson (.arr (res.map fun group => Json.obj (groupObject group))), fun pretty => ?_, ?_⟩
      · simp only [if_true, he, if_false, Bool.false_eq_true]
        exact block_json _ (by simp) _
      · simp only [if_true, he, if_false, Bool.false_eq_true]
        rw [List.filter_append, List.filter_cons, if_neg (by simp), List.filter_nil, List.append_nil]
        exact filter_noBreak (compact_noBreak _)
  | false =>
    refine ⟨(res.map fun group => Json.obj (groupObject group)).flatMap writeJson, fun pretty => ?_, ?_⟩
    · simp only [Bool.false_eq_true, if_false]
      exact block_objects _ _ (by simp)
    · simp only [Bool.false_eq_true, if_false]
      exact filter_objects _ _

theorem block_results (array : Bool) : ∀ results : List (List (List (Str × Str))),
    ∃ q, (∀ pretty, Block (results.flatMap fun res => printJson res ⟨pretty, array⟩) q) ∧
      (results.flatMap fun res => printJson res ⟨false, array⟩).filter (· ≠ 10) = q
  | [] => ⟨[], fun _ => block_nil, rfl⟩
  | res :: results => by
    obtain ⟨q1, h1, h1'⟩ := block_result array res
    obtain ⟨q2, h2, h2'⟩ := block_results array results
    exact ⟨q1 ++ q2, fun pretty => (h1 pretty).append (h2 pretty), by rw [List.flatMap_cons, List.filter_append, h1', h2']⟩

end Hext.Layout
