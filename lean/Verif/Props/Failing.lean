import Verif.Spec.Failing
import Verif.Props.Memory
import Verif.Props.Assign
import Verif.Proofs.FailingHistory
/-!
# C73: running out of memory while rules are built

`Ends N x m n ok thrown` (Spec/Failing.lean): `x` requests memory `N` times; it returns with `ok` if all of these
requests succeed, and throws with `thrown` otherwise. In every theorem about a single operation `N` is fixed before
`n`, the number of requests that succeed, is.
-/

namespace Hext.Mem

/-- A step that does not request memory. -/
theorem lift_then {α β : Type} {x : P α} {m m' : Mem} {n : Nat} {v : α} (h : x m = pure (v, m')) (k : α → Q β) :
    (lift x >>= k) ⟨m, n⟩ = k v ⟨m', n⟩ := by
  show ((x m >>= _) >>= _) = _
  rw [h]
  rfl

/-! ## Copying -/

/-- C73, copying a rule: it makes a complete copy out of new objects, or throws `std::bad_alloc` and leaves every
object as it was and none behind. -/
theorem C73_copy_rule (r : Rule) : ∃ N, ∀ {m : Mem} (n : Nat) {a : Addr} {S : List Addr}, m.Wf → HoldsRule m.cell a r S →
    Ends N (copyRuleQ a) m n (fun b m' => ∃ T, HoldsRule m'.cell b r T ∧ Grown m m' T) (Untouched m) := by
  obtain ⟨N, h⟩ := copiesQ_rule r
  exact ⟨N, fun {m} n {a S} w k => h a S m n w k⟩

/-- C73, cloning a match. -/
theorem C73_clone_match (v : Match) : ∃ N, ∀ {m : Mem} (n : Nat) {a : Addr} {S : List Addr}, m.Wf →
    HoldsMatch m.cell a v S →
    Ends N (cloneMatchQ a) m n (fun b m' => ∃ T, HoldsMatch m'.cell b v T ∧ Grown m m' T) (Untouched m) := by
  obtain ⟨N, h⟩ := copiesQ_match v
  exact ⟨N, fun {m} n {a S} w k => h a S m n w k⟩

/-- C73, cloning a value test. -/
theorem C73_clone_test (v : ValueTest) : ∃ N, ∀ {m : Mem} (n : Nat) {a : Addr} {S : List Addr}, m.Wf →
    HoldsTest m.cell a v S →
    Ends N (cloneTestQ a) m n (fun b m' => ∃ T, HoldsTest m'.cell b v T ∧ Grown m m' T) (Untouched m) := by
  obtain ⟨N, h⟩ := copiesQ_test v
  exact ⟨N, fun {m} n {a S} w k => h a S m n w k⟩

/-- C73, cloning a capture. -/
theorem C73_clone_capture (v : Capture) : ∃ N, ∀ {m : Mem} (n : Nat) {a : Addr} {S : List Addr}, m.Wf →
    HoldsCapture m.cell a v S →
    Ends N (cloneCaptureQ a) m n (fun b m' => ∃ T, HoldsCapture m'.cell b v T ∧ Grown m m' T) (Untouched m) := by
  obtain ⟨N, h⟩ := copiesQ_capture v
  exact ⟨N, fun {m} n {a S} w k => h a S m n w k⟩

/-- C73, cloning a chain of transformations. -/
theorem C73_clone_pipe (v : Pipe) : ∃ N, ∀ {m : Mem} (n : Nat) {a : Addr} {S : List Addr}, m.Wf →
    HoldsPipe m.cell a v S →
    Ends N (clonePipeQ a) m n (fun b m' => ∃ T, HoldsPipe m'.cell b v T ∧ Grown m m' T) (Untouched m) := by
  obtain ⟨N, h⟩ := copiesQ_pipe v
  exact ⟨N, fun {m} n {a S} w k => h a S m n w k⟩

/-! ## Assigning -/

/-- C73, assigning a rule: `a` becomes what `b` was, or the exception leaves every object as it was. `b` may be `a`,
a part of `a`, or contain `a`. -/
theorem C73_assign_rule (r' : Rule) : ∃ N, ∀ {m : Mem} (n : Nat) {a b : Addr} {r : Rule} {S S' : List Addr}, m.Wf →
    HoldsRule m.cell a r S → HoldsRule m.cell b r' S' → S.Nodup →
    Ends N (assignRuleQ a b) m n (fun _ m' => ∃ T, HoldsRule m'.cell a r' T ∧ Changed m m' S T) (Untouched m) := by
  obtain ⟨N, h⟩ := assignRuleQ_ends r'
  exact ⟨N, fun {m} n {a b r S S'} w ha hb hS => h n w ha hb hS⟩

/-- C73, assigning a match: likewise, whatever two matches of the same class are. -/
theorem C73_assign_match (v' : Match) : ∃ N, ∀ (sp : Spent) {m : Mem} (n : Nat) {a b : Addr} {v : Match} {S S' : List Addr},
    m.Wf → HoldsMatch m.cell a v S → HoldsMatch m.cell b v' S' → S.Nodup → v.cls = v'.cls →
    Ends N (assignMatchQ sp a b) m n (fun _ m' => ∃ T, HoldsMatch m'.cell a v' T ∧ Changed m m' S T) (Untouched m) := by
  by_cases hp : Plain v'
  · refine ⟨1, fun sp {m} n {a b v S S'} w ha hb hS hc => assignMatchQ_plain sp n w ha hb ?_ hp⟩
    cases v <;> cases v' <;> simp_all [Match.cls, Plain]
  · obtain ⟨N, h⟩ := assignMatchQ_owner v'
    refine ⟨N, fun sp {m} n {a b v S S'} w ha hb hS hc => h sp n w ha hb hS ?_⟩
    cases v <;> cases v' <;> simp_all [Match.cls, BothOwn, Plain]

/-- C73, assigning a value test: likewise. Missing: assigning the words of a `ContainsWordsTest` if its vector has room
for them, see `C73_assign_words`. -/
theorem C73_assign_test_partial (v' : ValueTest) : ∃ N, ∀ (room : Bool) {m : Mem} (n : Nat) {a b : Addr} {v : ValueTest}
    {S S' : List Addr}, m.Wf → HoldsTest m.cell a v S → HoldsTest m.cell b v' S' → S.Nodup → v.cls = v'.cls →
    (room = true → ∀ ws, v' ≠ .containsWords ws) →
    Ends N (assignTestQ room a b) m n (fun _ m' => ∃ T, HoldsTest m'.cell a v' T ∧ Changed m m' S T) (Untouched m) := by
  by_cases hp : IsNegate v'
  · obtain ⟨N, h⟩ := assignTestQ_negate v' hp
    refine ⟨N, fun room {m} n {a b v S S'} w ha hb hS hc _ => h room n w ha hb hS ?_⟩
    cases v <;> cases v' <;> simp_all [ValueTest.cls, IsNegate]
  · refine ⟨1, fun room {m} n {a b v S S'} w ha hb hS hc hr =>
      assignTestQ_plain room n w ha hb ?_ hp fun h _ k _ => hr h k⟩
    cases v <;> cases v' <;> simp_all [ValueTest.cls, IsNegate]

/-- C73, assigning words into a vector that has room for them: if it throws, the first `k` words are those of the
other test and the rest are its own. Nothing leaks and nothing else changes. -/
theorem C73_assign_words {m : Mem} (n : Nat) {a b : Addr} {old new : List Str} {S S' : List Addr} (w : m.Wf)
    (ha : HoldsTest m.cell a (.containsWords old) S) (hb : HoldsTest m.cell b (.containsWords new) S') :
    Ends new.length (assignTestQ true a b) m n
      (fun _ m' => ∃ T, HoldsTest m'.cell a (.containsWords new) T ∧ Changed m m' S T)
      (fun m' => ∃ k, k ≤ new.length ∧ k ≤ old.length ∧
        ∃ T, HoldsTest m'.cell a (.containsWords (new.take k ++ old.drop k)) T ∧ Changed m m' S T) :=
  assignTestQ_words n w ha hb

/-- C73, violated: a test for at least two words that is assigned from another one while memory for only one word is
left ends up with the first word of the other test and its own remaining ones. -/
theorem C73_assign_words_mixes {m : Mem} {a b : Addr} {o n o' n' : Str} {os ns : List Str} {S S' : List Addr}
    (ha : HoldsTest m.cell a (.containsWords (o :: o' :: os)) S)
    (hb : HoldsTest m.cell b (.containsWords (n :: n' :: ns)) S') :
    ∃ m', assignTestQ true a b ⟨m, 1⟩ = pure (.error (), ⟨m', 0⟩) ∧
      HoldsTest m'.cell a (.containsWords (n :: o' :: os)) S := by
  obtain ⟨ka, rfl⟩ := ha
  obtain ⟨kb, rfl⟩ := hb
  refine ⟨m.put a (.test (.containsWords (n :: o' :: os))), ?_, by simp [Mem.put], rfl⟩
  unfold assignTestQ
  rw [lift_then (load_ok kb)]
  dsimp only
  rw [lift_then (load_ok ka)]
  dsimp only
  rw [if_pos rfl, assignWordsQ]
  show (lift (store a (.test (.containsWords (n :: o' :: os)))) >>= _) ⟨m, 0⟩ = _
  rw [lift_then (store_ok (by rw [ka]; rfl) _), assignWordsQ]
  rfl

/-- C73, assigning a chain of transformations that has no object in common with the other one: either it becomes the
other one, or the exception leaves a chain that has the old first transformation, followed by nothing or by the other
chain's rest. Nothing leaks and nothing else changes. Missing: that the exception leaves the chain as it was, which is
false, see `C73_assign_pipe_loses`. -/
theorem C73_assign_pipe_partial (v' : Pipe) : ∃ N, ∀ {m : Mem} (n : Nat) {a b : Addr} {v : Pipe} {S S' : List Addr},
    m.Wf → HoldsPipe m.cell a v S → HoldsPipe m.cell b v' S' → S.Nodup → (∀ x ∈ S', x ∉ S) →
    Ends N (assignPipeQ a b) m n (fun _ m' => ∃ T, HoldsPipe m'.cell a v' T ∧ Changed m m' S T)
      (fun m' => ∃ T u, HoldsPipe m'.cell a u T ∧ Changed m m' S T ∧
        ∃ t, v.list.head? = some t ∧ (u.list = [t] ∨ u.list = t :: v'.list.tail)) := by
  obtain ⟨N, h⟩ := assignPipeQ_ends v'
  refine ⟨N, fun {m} n {a b v S S'} w ha hb hS hd => (h n w ha hb hS hd).imp (fun _ _ k => k) ?_⟩
  have hv : v.list.head? = some v.first := by cases v <;> rfl
  rintro m' (⟨T, h₁, h₂⟩ | ⟨_, T, h₁, h₂⟩)
  · exact ⟨T, _, h₁, h₂, _, hv, .inl rfl⟩
  · refine ⟨T, _, h₁, h₂, _, hv, .inr ?_⟩
    cases v' <;> rfl

/-- C73, violated: a chain of at least two transformations loses all but the first one if it is assigned while no memory
is left. -/
theorem C73_assign_pipe_loses {m : Mem} {a b : Addr} {v v' : Pipe} {S S' : List Addr}
    (ha : HoldsPipe m.cell a v S) (hb : HoldsPipe m.cell b v' S') (hS : S.Nodup) (hd : ∀ x ∈ S', x ∉ S)
    (hv : 2 ≤ v.list.length) :
    ∃ m' T u, assignPipeQ a b ⟨m, 0⟩ = pure (.error (), ⟨m', 0⟩) ∧ HoldsPipe m'.cell a u T ∧
      u.list = v.list.take 1 ∧ u ≠ v := by
  obtain ⟨m₂, So, rfl, e, hf, hc⟩ := setNext_ok ha hS none
  obtain ⟨na, nS⟩ := List.nodup_cons.mp hS
  obtain ⟨nb, Sb, hbc, kb, rfl⟩ := holds_pipe.mp hb
  have hdb := hd b (.head _)
  simp only [List.mem_cons, not_or] at hdb
  have hb₂ : m₂.cell b = some (.pipe v'.first nb) := by rw [hc, if_neg hdb.2, if_neg hdb.1, hbc]
  refine ⟨m₂, [a], .last v.first, ?_, ⟨by rw [hc, if_neg na, if_pos rfl], rfl⟩, ?_, ?_⟩
  · unfold assignPipeQ assignPipeBaseQ
    rw [if_neg (Ne.symm hdb.1), bind_assoc, lift_then e, bind_assoc, lift_then (loadPipe_ok hb₂)]
    cases nb with
    | none => rfl
    | some x =>
      dsimp only
      rw [clonePipeQ]
      rfl
  · cases v <;> rfl
  · rintro h
    rw [← h] at hv
    simp [Pipe.list] at hv

/-- C73, assigning an attribute capture that has a pipe: either it becomes the other one, or the exception leaves it
with the first members already assigned. Nothing leaks and nothing else changes. -/
theorem C73_assign_attribute_capture_partial (p' : Pipe) : ∃ N, ∀ {m : Mem} (n : Nat) {a b : Addr}
    {attr name attr' name' : Str} {p : Option Pipe} {S S' : List Addr}, m.Wf →
    HoldsCapture m.cell a (.attribute attr name p) S → HoldsCapture m.cell b (.attribute attr' name' (some p')) S' →
    S.Nodup → a ≠ b →
    Ends N (assignCaptureQ a b) m n
      (fun _ m' => ∃ T, HoldsCapture m'.cell a (.attribute attr' name' (some p')) T ∧ Changed m m' S T)
      (fun m' => Untouched m m' ∨ (∃ T, HoldsCapture m'.cell a (.attribute attr' name p) T ∧ Changed m m' S T) ∨
        (∃ T, HoldsCapture m'.cell a (.attribute attr' name' p) T ∧ Changed m m' S T)) := by
  obtain ⟨N, h⟩ := assignCaptureQ_attribute p'
  exact ⟨N, fun {m} n {a b attr name attr' name' p S S'} w ha hb hS hab => h n w ha hb hS hab⟩

/-- C73, assigning a function capture that has a pipe. -/
theorem C73_assign_function_capture_partial (p' : Pipe) : ∃ N, ∀ {m : Mem} (n : Nat) {a b : Addr}
    {f f' : Option CaptureFn} {name name' : Str} {p : Option Pipe} {S S' : List Addr}, m.Wf →
    HoldsCapture m.cell a (.function f name p) S → HoldsCapture m.cell b (.function f' name' (some p')) S' →
    S.Nodup → a ≠ b →
    Ends N (assignCaptureQ a b) m n
      (fun _ m' => ∃ T, HoldsCapture m'.cell a (.function f' name' (some p')) T ∧ Changed m m' S T)
      (fun m' => Untouched m m' ∨ (∃ T, HoldsCapture m'.cell a (.function f' name p) T ∧ Changed m m' S T) ∨
        (∃ T, HoldsCapture m'.cell a (.function f' name' p) T ∧ Changed m m' S T)) := by
  obtain ⟨N, h⟩ := assignCaptureQ_function p'
  exact ⟨N, fun {m} n {a b f f' name name' p S S'} w ha hb hS hab => h n w ha hb hS hab⟩

/-- C73, violated: an attribute capture that is assigned while memory for only one name is left captures the other
one's attribute under its own old name. -/
theorem C73_assign_capture_mixes {m : Mem} {a b : Addr} {attr name attr' name' : Str} {p p' : Option Pipe}
    {S S' : List Addr} (ha : HoldsCapture m.cell a (.attribute attr name p) S)
    (hb : HoldsCapture m.cell b (.attribute attr' name' p') S') (hS : S.Nodup) (hab : a ≠ b) :
    ∃ m', assignCaptureQ a b ⟨m, 1⟩ = pure (.error (), ⟨m', 0⟩) ∧
      HoldsCapture m'.cell a (.attribute attr' name p) S := by
  obtain ⟨q, So, hoa, hq, rfl⟩ := ha
  obtain ⟨q', Sp, hob, hq', rfl⟩ := hb
  obtain ⟨naS, nS⟩ := List.nodup_cons.mp hS
  refine ⟨m.put a (.attributeCapture attr' name q), ?_, q, So, by simp [Mem.put], ?_, rfl⟩
  · unfold assignCaptureQ
    rw [if_neg hab, lift_then (load_ok hoa), lift_then (load_ok hob)]
    show (lift (store a (.attributeCapture attr' name q)) >>= _) ⟨m, 0⟩ = _
    rw [lift_then (store_ok (by rw [hoa]; rfl) _)]
    rfl
  · refine framed_ptr (fun y _ => framed_pipe y) _ _ _ _ hq fun x hx => ?_
    rw [put_cell, if_neg (show x ≠ a from fun k => naS (k ▸ hx))]

/-! ## Examples for assignments -/

-- hypotheses of C73_clone_pipe, C73_assign_pipe_partial and C73_assign_pipe_loses
example := (C73_clone_pipe exPipe).imp fun _ h => h 3 exChain_wf exChain_holds
example := (C73_assign_pipe_partial exPipe).imp fun _ h => h 2 exChain_wf exChain_single exChain_holds (by decide) (by decide)
example := C73_assign_pipe_loses exChain_holds exChain_single (by decide) (by decide) (by decide)

/-- Two captures with pipes, two tests for words, and a rule with a child. -/
def exMixed : Mem where
  cell := fun x => match x with
    | 0 => some (.attributeCapture [97] [98] (some 1))
    | 1 => some (.pipe .toLower none)
    | 2 => some (.attributeCapture [99] [100] (some 3))
    | 3 => some (.pipe .toUpper none)
    | 4 => some (.test (.containsWords [[97], [98]]))
    | 5 => some (.test (.containsWords [[99], [100], [101]]))
    | 6 => some (.rule ⟨some 7, none, [], [], [], .any, false, false, none⟩)
    | 7 => some (.rule ⟨none, none, [], [], [], .any, true, false, none⟩)
    | 8 => some (.functionCapture none [98] none)
    | 9 => some (.functionCapture none [99] (some 10))
    | 10 => some (.pipe .toUpper none)
    | 11 => some (.negateTest (some 12))
    | 12 => some (.test (.equals [97]))
    | 13 => some (.attributeMatch [97] (some 11))
    | 14 => some (.attributeMatch [98] none)
    | 15 => some (.rule ⟨none, none, [], [], [], .any, false, true, none⟩)
    | _ => none
  fresh := 16

theorem exMixed_wf : exMixed.Wf := by
  intro x hx
  show x < 16
  by_cases h : x < 16
  · exact h
  · obtain ⟨k, rfl⟩ : ∃ k, x = k + 16 := ⟨x - 16, by omega⟩
    cases hx

theorem exMixed_rule : HoldsRule exMixed.cell 6 (.mk {} (some (.mk { optional := true } none none [])) none []) [6, 7] :=
  holds_rule.mpr ⟨_, [7], [], [], [], [], rfl, ⟨rfl, rfl, rfl, rfl, holds_rule.mpr ⟨_, [], [], [], [], [],
    rfl, ⟨rfl, rfl, rfl, rfl, rfl, rfl, rfl, rfl, rfl⟩, rfl⟩, rfl, rfl, rfl, rfl⟩, rfl⟩

theorem exMixed_child : HoldsRule exMixed.cell 7 (.mk { optional := true } none none []) [7] :=
  holds_rule.mpr ⟨_, [], [], [], [], [], rfl, ⟨rfl, rfl, rfl, rfl, rfl, rfl, rfl, rfl, rfl⟩, rfl⟩

theorem exMixed_greedy : HoldsRule exMixed.cell 15 (.mk { greedy := true } none none []) [15] :=
  holds_rule.mpr ⟨_, [], [], [], [], [], rfl, ⟨rfl, rfl, rfl, rfl, rfl, rfl, rfl, rfl, rfl⟩, rfl⟩

-- hypotheses of C73_copy_rule, C73_assign_rule (from its own child), C73_assign_words, C73_assign_words_mixes
example := (C73_copy_rule _).imp fun _ h => h 4 exMixed_wf exMixed_rule
example := (C73_assign_rule _).imp fun _ h => h 4 exMixed_wf exMixed_rule exMixed_child (by decide)
example := C73_assign_words (m := exMixed) 1 (a := 5) (b := 4) exMixed_wf ⟨rfl, rfl⟩ ⟨rfl, rfl⟩
example := C73_assign_words_mixes (m := exMixed) (a := 4) (b := 5) ⟨rfl, rfl⟩ ⟨rfl, rfl⟩

-- hypotheses of the theorems about captures
theorem exMixed_capture : HoldsCapture exMixed.cell 0 (.attribute [97] [98] (some (.last .toLower))) [0, 1] :=
  ⟨some 1, [1], rfl, ⟨rfl, rfl⟩, rfl⟩

theorem exMixed_capture' : HoldsCapture exMixed.cell 2 (.attribute [99] [100] (some (.last .toUpper))) [2, 3] :=
  ⟨some 3, [3], rfl, ⟨rfl, rfl⟩, rfl⟩

example := (C73_clone_capture _).imp fun _ h => h 1 exMixed_wf exMixed_capture
example := (C73_assign_attribute_capture_partial _).imp fun _ h =>
  h 1 exMixed_wf exMixed_capture exMixed_capture' (by decide) (by decide)
example := C73_assign_capture_mixes exMixed_capture exMixed_capture' (by decide) (by decide)
example := (C73_assign_function_capture_partial (.last .toUpper)).imp fun _ h =>
  h (m := exMixed) (a := 8) (b := 9) (f := none) (f' := none) (name := [98]) (name' := [99]) (p := none) 1 exMixed_wf
    ⟨none, [], rfl, rfl, rfl⟩ ⟨some 10, [10], rfl, ⟨rfl, rfl⟩, rfl⟩ (by decide) (by decide)

-- hypotheses of the theorems about tests and matches
theorem exMixed_test : HoldsTest exMixed.cell 11 (.negate (.equals [97])) [11, 12] := ⟨12, [12], rfl, ⟨rfl, rfl⟩, rfl⟩

example := (C73_clone_test _).imp fun _ h => h 1 exMixed_wf exMixed_test
example := (C73_assign_test_partial _).imp fun _ h =>
  h true 1 exMixed_wf exMixed_test exMixed_test (by decide) rfl (fun _ _ => nofun)
example := (C73_clone_match (.attribute [97] (some (.negate (.equals [97]))))).imp fun _ h => h (a := 13) 1 exMixed_wf
  (holds_attribute.mpr ⟨some 11, [11, 12], rfl, exMixed_test, rfl⟩)
example := (C73_assign_match (.attribute [97] (some (.negate (.equals [97]))))).imp fun _ h =>
  h ⟨[], none⟩ (m := exMixed) (a := 14) (b := 13) (v := .attribute [98] none) 1 exMixed_wf
    (holds_attribute.mpr ⟨none, [], rfl, rfl, rfl⟩)
    (holds_attribute.mpr ⟨some 11, [11, 12], rfl, exMixed_test, rfl⟩) (by decide) rfl

/-! ## Constructing and appending -/

/-- C73, violated: constructing a rule with the name of a custom tag ends the program if the copy of the name cannot be
made: the constructor is declared `noexcept`. -/
theorem C73_constructor_terminates (name : Str) (optional greedy : Bool) (m : Mem)
    (h : gumboTagEnum (cstr name) = .unknown) : newRuleNamedQ name optional greedy ⟨m, 0⟩ = throw .assertFail := by
  unfold newRuleNamedQ noexcept
  rw [if_pos h]
  rfl

/-- C73, appending a child: the parameter becomes the last child, or it is destroyed and everything else is as it was. -/
theorem C73_append_child {r r₂ : Rule} {m : Mem} (n : Nat) {a s : Addr} {S S₂ : List Addr} (w : m.Wf)
    (h : HoldsRule m.cell a r S) (hs : HoldsRule m.cell s r₂ S₂) (hS : (S ++ S₂).Nodup) :
    Ends 1 (appendChildQ a s) m n
      (fun _ m' => ∃ S', HoldsRule m'.cell a (r.appendChild r₂) S' ∧ Changed m m' (S ++ S₂) S')
      (fun m' => Shrunk m m' S₂) := Hist.appendChildQ_ends n w h hs hS

/-- C73, appending a sibling. -/
theorem C73_append_next {r r₂ : Rule} {m : Mem} (n : Nat) {a s : Addr} {S S₂ : List Addr} (w : m.Wf)
    (h : HoldsRule m.cell a r S) (hs : HoldsRule m.cell s r₂ S₂) (hS : (S ++ S₂).Nodup) :
    Ends 1 (appendNextQ a s) m n
      (fun _ m' => ∃ S', HoldsRule m'.cell a (r.appendNext r₂) S' ∧ Changed m m' (S ++ S₂) S')
      (fun m' => Shrunk m m' S₂) := Hist.appendNextQ_ends n w h hs hS

/-- C73, appending a nested rule: requests memory only if the vector has no room. -/
theorem C73_append_nested (realloc : Bool) {r r₂ : Rule} {m : Mem} (n : Nat) {a s : Addr} {S S₂ : List Addr} (w : m.Wf)
    (h : HoldsRule m.cell a r S) (hs : HoldsRule m.cell s r₂ S₂) (hS : (S ++ S₂).Nodup) :
    Ends (if realloc then 1 else 0) (appendNestedQ realloc a s) m n
      (fun _ m' => ∃ S', HoldsRule m'.cell a (r.appendNested r₂) S' ∧ Changed m m' (S ++ S₂) S')
      (fun m' => Shrunk m m' S₂) := Hist.appendNestedQ_ends realloc n w h hs hS

-- hypotheses
example : gumboTagEnum (cstr [120, 45, 121]) = .unknown := by decide
example := C73_append_child 0 exMixed_wf exMixed_rule exMixed_greedy (by decide)
example := C73_append_next 1 exMixed_wf exMixed_rule exMixed_greedy (by decide)
example := C73_append_nested true 0 exMixed_wf exMixed_rule exMixed_greedy (by decide)

end Hext.Mem

namespace Hext.Hist

open Mem

/-! ## Programs -/

/-- C73: a program may build, copy, move, assign, append, change and destroy rules in any order, catch `std::bad_alloc`
after any statement, whichever requests fail, and go on differently. It never uses an object that is gone. A statement
that throws has no effect, apart from having moved from a variable that was passed by `std::move`. At the end every rule
that can be reached extracts what its value says, and when no variable is left, no object is. Missing: the constructor
that ends the program (`C73_constructor_terminates`, excluded by `Prog.Defined`). -/
theorem C73_programs_partial (p : Prog) (h : p.Defined noEnv) :
    ∃ m vars t env, p.run noVars noMem = pure ((vars, t), m) ∧ p.vals noEnv t = some env ∧
      (∀ pl q, env.get pl = some q → ∀ rx doc node ms,
        vars.extract pl rx doc node ms m = Hext.extract rx doc q node ms) ∧
      ((∀ v, env v = none) → ∀ x, m.cell x = none) := by
  obtain ⟨m, vars, t, env, F, e, hv, i⟩ := prog_ok p inv_start h
  refine ⟨m, vars, t, env, e, hv, fun pl q hq rx doc node ms => i.extract hq rx doc node ms, fun hd x => ?_⟩
  cases hx : m.cell x with
  | none => rfl
  | some o =>
    obtain ⟨v, hv, _⟩ := i.owner x (by rw [hx]; rfl)
    rw [(i.gone (hd v)).2] at hv
    cases hv

/-- C73: with enough memory no statement throws, and the program does what it does if memory never runs out (C47). -/
theorem C73_enough (ops : List Op) {env : Env} (h : vals noEnv ops = some env) :
    ∃ N, ∀ n, N ≤ n → ∃ m vars, (Prog.line n ops).run noVars noMem = pure ((vars, ops.map fun _ => true), m) ∧
      ∀ pl q, env.get pl = some q → ∀ rx doc node ms,
        vars.extract pl rx doc node ms m = Hext.extract rx doc q node ms := by
  obtain ⟨N, hN⟩ := line_ok ops h
  refine ⟨N, fun n hn => ?_⟩
  obtain ⟨m, vars, F, e, i⟩ := hN n hn inv_start
  exact ⟨m, vars, e, fun pl q hq rx doc node ms => i.extract hq rx doc node ms⟩

/-- A program that tries to append a rule by `std::move` with no memory left, catches the exception and appends a copy of
another one instead. -/
def exProg : Prog :=
  .step 0 (.ofTag 0 (.tag (.known [100, 105, 118])) false false)
    (.step 9 (.ofName 1 [120, 45, 121] true false)
      (.step 0 (.appendChild ⟨0, []⟩ (.move ⟨1, []⟩))
        (.step 0 (.destroy 0) .done .done)
        (.step 9 (.appendChild ⟨0, []⟩ (.copy ⟨0, []⟩))
          (.step 0 (.destroy 1) (.step 0 (.destroy 0) .done .done) .done)
          .done))
      .done)
    .done

-- hypotheses
example : exProg.Defined noEnv := by
  refine ⟨nofun, ⟨_, rfl, ?_⟩, trivial⟩
  refine ⟨(fun h => by cases h.2), ⟨_, rfl, ?_⟩, trivial⟩
  refine ⟨nofun, ⟨_, rfl, ?_⟩, ?_⟩
  · exact ⟨nofun, ⟨_, rfl, trivial⟩, trivial⟩
  · refine ⟨nofun, ⟨_, rfl, ?_⟩, trivial⟩
    refine ⟨nofun, ⟨_, rfl, ?_⟩, trivial⟩
    exact ⟨nofun, ⟨_, rfl, trivial⟩, trivial⟩
example : (vals noEnv (Ex.before ++ [.destroy 1])).isSome := by rfl

end Hext.Hist
