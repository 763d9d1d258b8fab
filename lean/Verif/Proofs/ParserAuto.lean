import Verif.Proofs.ParserSearch
/-!
# The automaton as a function from inputs to words

Running the automaton is running the actions of a word that depends on the input only.
-/

namespace Hext

/-- Running a word: a byte advances the position, an action changes the state. -/
def execWord (c : Ctx) : (p : Nat) → List Sym → PSt → P PSt
  | _, [], s => pure s
  | p, .ch _ :: w, s => execWord c (p + 1) w s
  | p, .act a :: w, s => do execWord c p w (← a.exec c p s)

theorem P.bind_assoc {α β γ} (x : P α) (f : α → P β) (g : β → P γ) : (x >>= f) >>= g = x >>= fun a => f a >>= g := by
  cases x <;> rfl

theorem chars_append (u v : List Sym) : chars (u ++ v) = chars u ++ chars v := by
  induction u with
  | nil => rfl
  | cons x u ih => cases x <;> simp [chars, ih]

theorem execWord_append (c : Ctx) (u v : List Sym) : ∀ (p : Nat) (s : PSt),
    execWord c p (u ++ v) s = execWord c p u s >>= execWord c (p + (chars u).length) v := by
  induction u with
  | nil => intro p s; rfl
  | cons x u ih =>
    intro p s
    cases x with
    | ch b =>
      simp only [List.cons_append, execWord, chars, List.length_cons, ih]
      rw [show p + 1 + (chars u).length = p + ((chars u).length + 1) from by omega]
    | act a =>
      simp only [List.cons_append, execWord, chars]
      rw [P.bind_assoc]
      congr 1; funext s'; exact ih _ _

namespace Check

open Data

/-- The action of a label. -/
def actN (n : Nat) : Act := (Act.ofNat n).getD .unexpected

def syms (l : List Nat) : List Sym := l.map fun n => .act (actN n)

theorem actN_canon_lt : ∀ n < 89, actN (canon n) = actN n ∧ Act.ofNat n = some (actN n) := by decide +kernel

theorem actions_lt : ∀ i < 371, packed actions i < 89 := by decide +kernel

theorem chars_syms (l : List Nat) : chars (syms l) = [] := by
  induction l with
  | nil => rfl
  | cons a l ih => simpa [syms, chars] using ih

theorem runActs_eq (c : Ctx) (p : Nat) : ∀ (n off : Nat) (s : PSt), off + n ≤ 371 →
    runActs c p off n s = execWord c p (syms (labels off n)) s := by
  intro n
  induction n with
  | zero => intro off s _; rfl
  | succ n ih =>
    intro off s h
    obtain ⟨h1, h2⟩ := actN_canon_lt _ (actions_lt off (by omega))
    simp only [runActs, tbl_actions (show off < 371 by omega), pure_bind, h2, labels, syms, List.map_cons, execWord, h1]
    congr 1; funext s'
    exact ih (off + 1) s' (by omega)

theorem ofNatEof_canon_lt : ∀ n < 89, eofLabels [canon n] = true → Act.ofNatEof n = some (actN (canon n)) := by
  decide +kernel

theorem eofLabels_cons {a : Nat} {as : List Nat} (h : eofLabels (a :: as) = true) :
    eofLabels [a] = true ∧ eofLabels as = true := by
  simp only [eofLabels] at h ⊢
  cases hc : (Nat.beq a 83 || Nat.beq a 86 || Nat.beq a 87 || Nat.beq a 88) with
  | false => rw [hc] at h; simp at h
  | true => rw [hc] at h; exact ⟨rfl, h⟩

theorem runEofActs_eq (c : Ctx) (p : Nat) : ∀ (n off : Nat) (s : PSt), off + n ≤ 371 →
    eofLabels (labels off n) = true → runEofActs c p off n s = execWord c p (syms (labels off n)) s := by
  intro n
  induction n with
  | zero => intro off s _ _; rfl
  | succ n ih =>
    intro off s h he
    obtain ⟨he1, he2⟩ := eofLabels_cons he
    have h2 := ofNatEof_canon_lt _ (actions_lt off (by omega)) he1
    simp only [runEofActs, tbl_actions (show off < 371 by omega), pure_bind, h2, labels, syms, List.map_cons, execWord]
    congr 1; funext s'
    exact ih (off + 1) s' (by omega) he2

theorem packed_actions_zero : packed actions 0 = 0 := by decide +kernel

theorem beq_zero {n : Nat} (h : n ≠ 0) : Nat.beq n 0 = false := by
  cases hc : Nat.beq n 0 with
  | false => rfl
  | true => exact absurd (Nat.eq_of_beq_eq_true hc) h

/-- The actions of a transition. -/
def transActs (t : Nat) : List Nat := actList (packed transActions t)

/-- The actions at the end of the input. -/
def eofActs (q : Nat) : List Nat := actList (packed eofActions q)

theorem runTrans_eq (c : Ctx) (p t : Nat) (s : PSt) (ht : t < 1381)
    (h : packed transActions t + packed actions (packed transActions t) + 1 ≤ 371) :
    runTrans c p t s = execWord c p (syms (transActs t)) s := by
  simp only [runTrans, tbl_transActions ht, pure_bind, transActs, actList]
  generalize packed transActions t = off at *
  by_cases h0 : off = 0
  · subst h0; rfl
  · rw [if_neg h0, tbl_actions (by omega)]
    have : Nat.beq off 0 = false := beq_zero h0
    rw [this]
    simp only [pure_bind, cond_false]
    exact runActs_eq c p _ _ s (by omega)

/-- The word of an input, from the state `q`. -/
def dfaWord (q : Nat) : Str → List Sym
  | [] => syms (eofActs q)
  | b :: rest =>
    let t := trans q b
    syms (transActs t) ++ if packed transTargs t = 0 then [] else .ch b :: dfaWord (packed transTargs t) rest

/-- Is the input accepted from the state `q`? -/
def accepts (q : Nat) : Str → Bool
  | [] => !beqL (eofActs q) [88]
  | b :: rest =>
    let t := trans q b
    packed transTargs t != 0 && accepts (packed transTargs t) rest

/-! ## What the checks say -/

theorem mem_upto {k : Nat} : ∀ {n i : Nat}, n ≤ i → i < n + k → i ∈ upto n k := by
  induction k with
  | zero => intro n i h1 h2; omega
  | succ k ih =>
    intro n i h1 h2
    by_cases h : i = n
    · subst h; exact .head _
    · exact .tail _ (ih (by omega) (by omega))

theorem stateOk_of {q : Nat} (h0 : q ≠ 0) (h : q < 820) : stateOk q = true :=
  List.all_eq_true.mp states_ok q (mem_upto (by omega) (by omega))

/-- The contents of `stateOk`. -/
structure Ok (q : Nat) (ks : List (List Nat)) (es : List NEdge) : Prop where
  res : residual.get q = some ks
  exp : expandAll nodes ks = some es
  search : okState q = true
  edge : ∀ e ∈ edges q, edgeOk es e = true
  eofBound : packed eofActions q + packed actions (packed eofActions q) + 1 ≤ 371
  eofLab : eofLabels (eofActs q) = true
  fin : (bif beqL (eofActs q) [88] then !hasFin es else hasFin es && finsOk (eofActs q) es) = true

theorem ok_of {q : Nat} (h0 : q ≠ 0) (h : q < 820) : ∃ ks es, Ok q ks es := by
  have hs := stateOk_of h0 h
  unfold stateOk at hs
  split at hs
  · simp at hs
  · rename_i ks hks
    split at hs
    · simp at hs
    · rename_i es hes
      simp only [Bool.and_eq_true] at hs
      obtain ⟨⟨⟨⟨h1, h2⟩, h3⟩, h4⟩, h5⟩ := hs
      exact ⟨ks, es, hks, hes, h1, List.all_eq_true.mp h2, Nat.le_of_ble_eq_true h3, h4, h5⟩

/-- The contents of `edgeOk`. -/
structure EdgeOk (es : List NEdge) (m t : Nat) : Prop where
  tlt : t < 1381
  qlt : packed transTargs t < 820
  bound : packed transActions t + packed actions (packed transActions t) + 1 ≤ 371
  err : packed transTargs t = 0 → transActs t = [88] ∧ noSteps m es = true
  ok : packed transTargs t ≠ 0 → ∃ ks, residual.get (packed transTargs t) = some ks ∧
    stepsOk m (transActs t) ks es = true ∧ allReached m es ks = true

theorem beqL_eq : ∀ {a b : List Nat}, beqL a b = true ↔ a = b := by
  intro a
  induction a with
  | nil => intro b; cases b <;> simp [beqL]
  | cons x a ih =>
    intro b
    cases b with
    | nil => simp [beqL]
    | cons y b =>
      simp only [beqL]
      cases h : Nat.beq x y with
      | false =>
        have : x ≠ y := by intro e; subst e; simp at h
        simp [this]
      | true =>
        have := Nat.eq_of_beq_eq_true h
        simp [this, ih]

theorem edgeOk_spec {es : List NEdge} {m t b : Nat} (hb : m.testBit b = true) (h : edgeOk es (m, t) = true) :
    EdgeOk es m t := by
  simp only [edgeOk] at h
  have hm : Nat.beq m 0 = false := by
    cases hc : Nat.beq m 0 with
    | false => rfl
    | true => have := Nat.eq_of_beq_eq_true hc; subst this; simp at hb
  rw [hm] at h
  simp only [cond_false] at h
  cases hc : (Nat.blt t 1381 && Nat.blt (packed transTargs t) 820 &&
      Nat.ble (packed transActions t + packed actions (packed transActions t) + 1) 371) with
  | false => rw [hc] at h; simp at h
  | true =>
    rw [hc] at h
    simp only [Bool.not_true, cond_false] at h
    simp only [Bool.and_eq_true] at hc
    obtain ⟨⟨c1, c2⟩, c3⟩ := hc
    refine ⟨by simpa [Nat.blt_eq] using c1, by simpa [Nat.blt_eq] using c2, Nat.le_of_ble_eq_true c3, ?_, ?_⟩
    · intro h0
      rw [h0] at h
      simp only [show Nat.beq 0 0 = true from rfl, cond_true, Bool.and_eq_true] at h
      exact ⟨beqL_eq.mp h.1, h.2⟩
    · intro h0
      have : Nat.beq (packed transTargs t) 0 = false := by
        cases hc : Nat.beq (packed transTargs t) 0 with
        | false => rfl
        | true => exact absurd (Nat.eq_of_beq_eq_true hc) h0
      rw [this] at h
      simp only [cond_false] at h
      split at h
      · simp at h
      · rename_i ks hks
        simp only [Bool.and_eq_true] at h
        exact ⟨ks, hks, h.1, h.2⟩

theorem edgeOk_trans {q : Nat} {ks es} (h : Ok q ks es) (b : Byte) :
    ∃ m, m.testBit b.toNat = true ∧ EdgeOk es m (trans q b) := by
  obtain ⟨⟨m, t⟩, h1, h2, h3⟩ := trans_mem q b
  subst h3
  exact ⟨m, h2, edgeOk_spec h2 (h.edge _ h1)⟩

/-- The automaton runs the actions of the word of its input. -/
theorem runMachine_eq (c : Ctx) : ∀ (rest : Str) (q p : Nat) (s : PSt), q ≠ 0 → q < 820 →
    runMachine c q p rest s = execWord c p (dfaWord q rest) s := by
  intro rest
  induction rest with
  | nil =>
    intro q p s h0 hq
    obtain ⟨ks, es, ok⟩ := ok_of h0 hq
    have hb := ok.eofBound
    have hl := ok.eofLab
    simp only [runMachine, dfaWord, tbl_eofActions hq, pure_bind]
    simp only [eofActs, actList] at hl ⊢
    generalize packed eofActions q = off at *
    rw [tbl_actions (by omega)]
    simp only [pure_bind]
    by_cases he : off = 0
    · subst he; rw [packed_actions_zero]; rfl
    · have : Nat.beq off 0 = false := beq_zero he
      rw [this] at hl ⊢
      exact runEofActs_eq c p _ _ s (by omega) hl
  | cons b rest ih =>
    intro q p s h0 hq
    obtain ⟨ks, es, ok⟩ := ok_of h0 hq
    obtain ⟨m, _, eok⟩ := edgeOk_trans ok b
    obtain ⟨i, hi, ht⟩ := transIndex_eq hq ok.search c.charSigned b
    simp only [runMachine, dfaWord, hi, ht, pure_bind, tbl_transTargs eok.tlt,
      runTrans_eq c p _ s eok.tlt eok.bound, execWord_append, chars_syms, List.length_nil, Nat.add_zero]
    congr 1; funext s'
    by_cases hz : packed transTargs (trans q b) = 0
    · simp [hz, execWord]
    · rw [if_neg hz, if_neg hz]
      simp only [execWord]
      exact ih _ _ _ hz eok.qlt

end Check

end Hext
