import Verif.Spec.Assign
import Verif.Spec.History
import Verif.Model.Failing
/-!
# What an operation leaves behind if memory runs out
-/

namespace Hext.Mem

/-- Every object is as it was, and there are no others. -/
def Untouched (m m' : Mem) : Prop := m.fresh ≤ m'.fresh ∧ ∀ x, m'.cell x = m.cell x

/-- `x` requests memory `N` times. If `n ≥ N` requests succeed, `x` returns and `ok` holds of the result and the new
memory. If fewer succeed, `x` throws and `thrown` holds of the new memory. -/
def Ends {α} (N : Nat) (x : Q α) (m : Mem) (n : Nat) (ok : α → Mem → Prop) (thrown : Mem → Prop) : Prop :=
  (N ≤ n ∧ ∃ a m', x ⟨m, n⟩ = pure (.ok a, ⟨m', n - N⟩) ∧ ok a m') ∨
  (n < N ∧ ∃ m', x ⟨m, n⟩ = pure (.error (), ⟨m', 0⟩) ∧ thrown m')

end Hext.Mem

/-! ## Programs that catch `std::bad_alloc` -/

namespace Hext.Hist

open Mem

/-- Initialize the parameter of an appending function. -/
def Arg.runQ (vars : Vars) : Arg → Q Nat
  | .copy src => do copyRuleQ (← lift (vars.place src))
  | .move src => lift (do moveRule (← vars.place src))

/-- Execute a statement that may run out of memory. Creating the object that is given to `append_match` or
`append_capture` counts as one request, made by the caller. -/
def Op.runQ (vars : Vars) : Op → Q Vars
  | .ofName v n o g => do
    -- the caller makes the parameter
    request
    let a ← newRuleNamedQ n o g
    pure (update vars v (some a))
  | .copy v src => do
    let a ← copyRuleQ (← lift (vars.place src))
    pure (update vars v (some a))
  | .assign dst src => do
    let d ← lift (vars.place dst)
    let s ← lift (vars.place src)
    assignRuleQ d s
    pure vars
  | .appendChild dst arg => do
    let d ← lift (vars.place dst)
    let s ← arg.runQ vars
    appendChildQ d s
    pure vars
  | .appendNext dst arg => do
    let d ← lift (vars.place dst)
    let s ← arg.runQ vars
    appendNextQ d s
    pure vars
  | .appendNested realloc dst arg => do
    let d ← lift (vars.place dst)
    let s ← arg.runQ vars
    appendNestedQ realloc d s
    pure vars
  | .appendMatch dst m => do
    let d ← lift (vars.place dst)
    request
    let q ← lift (buildMatchPtr m)
    appendMatchQ true d q
    pure vars
  | .appendCapture dst c => do
    let d ← lift (vars.place dst)
    request
    let q ← lift (buildPtr buildCapture c)
    appendCaptureQ true d q
    pure vars
  | .setTagname dst s => do
    let d ← lift (vars.place dst)
    request
    lift (Mem.setTagname d s)
    pure vars
  -- the other statements request no memory
  | op => lift (op.run vars)

/-- What is left once a parameter has been initialized and destroyed again: a rule that was moved into it has been
moved from. -/
def Arg.failed (e : Env) : Arg → Env
  | .copy _ => e
  | .move src => match e.get src with
    | some q => e.put src (movedFrom q)
    | none => e

/-- What a statement that throws leaves behind: everything is as before, but a rule that was moved into a
parameter has been moved from. -/
def Op.failed (e : Env) : Op → Env
  | .appendChild _ arg | .appendNext _ arg | .appendNested _ _ arg => arg.failed e
  | _ => e

/-- A program: statements, and how it goes on after each of them, depending on whether it threw. `n` is the number of
requests for memory that succeed while the statement is executed. -/
inductive Prog
  | done
  | step (n : Nat) (op : Op) (returned caught : Prog)

/-- Execute a program. The list says which statements returned. -/
def Prog.run (vars : Vars) : Prog → P (Vars × List Bool)
  | .done => pure (vars, [])
  | .step n op returned caught => fun m => do
    let (r, s) ← op.runQ vars ⟨m, n⟩
    match r with
    | .ok vars' => do
      let ((vars'', t), m') ← returned.run vars' s.mem
      pure ((vars'', true :: t), m')
    | .error _ => do
      let ((vars'', t), m') ← caught.run vars s.mem
      pure ((vars'', false :: t), m')

/-- Statements one after the other, each with `n` requests; the program ends if one of them throws. -/
def Prog.line (n : Nat) : List Op → Prog
  | [] => .done
  | op :: ops => .step n op (Prog.line n ops) .done

/-- What the program computes on values if the statements return or throw as `t` says. -/
def Prog.vals (e : Env) : Prog → List Bool → Option Env
  | .done, [] => some e
  | .step _ op returned _, true :: t => (op.val e).bind fun e => returned.vals e t
  | .step _ op _ caught, false :: t => caught.vals (op.failed e) t
  | _, _ => none

/-- The constructor of a rule with the name of a custom tag ends the program if there is memory for its parameter, but
not for the copy that it makes. -/
def Op.Terminates (n : Nat) : Op → Prop
  | .ofName _ name _ _ => gumboTagEnum (cstr name) = .unknown ∧ n = 1
  | _ => False

/-- The program uses only variables and sub-rules that exist, whichever statements throw, and no constructor ends it. -/
def Prog.Defined (e : Env) : Prog → Prop
  | .done => True
  | .step n op returned caught => ¬ op.Terminates n ∧
      (∃ e', op.val e = some e' ∧ returned.Defined e') ∧ caught.Defined (op.failed e)

end Hext.Hist
