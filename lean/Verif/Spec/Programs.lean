import Verif.Spec.History
import Verif.Spec.ParserMemory
/-!
# Programs that parse hexts and change the rules they get

Statements are those of `Spec/History.lean`, calls of `ParseHext`, and assertions that a sub-rule is there. `val` says what a program
means if rules were plain values. `run` executes it in memory.
-/

namespace Hext.Prog

open Hist Mem

inductive Stmt
  /-- A statement that does not parse. -/
  | op (o : Op)
  /-- `Rule v = ParseHext(hext)` -/
  | parse (v : Nat) (hext : Str)
  /-- `assert(p)`, for a pointer that was got through `child()` and `next()` -/
  | check (p : Place)

/-! ## Meaning on values -/

/-- `none`: there is no meaning, the statement uses something that does not exist. `.error`: the statement throws. -/
def Stmt.val (rx : RxEngine) (charSigned : Bool) (e : Env) : Stmt → Option (Except PErr Env)
  | .op o => (o.val e).map .ok
  | .parse v hext =>
    match parseHext rx charSigned hext with
    | .ok r => (e.create v r).map .ok
    | .error x => some (.error x)
  | .check p => (e.get p).map fun _ => .ok e

/-- The exception that ends the program, if there is one, and the variables at the end. -/
def val (rx : RxEngine) (charSigned : Bool) (e : Env) : List Stmt → Option (Option PErr × Env)
  | [] => some (none, e)
  | s :: ss =>
    match s.val rx charSigned e with
    | none => none
    | some (.error x) => some (some x, e)
    | some (.ok e) => val rx charSigned e ss

/-! ## Execution in memory -/

/-- Execute a statement. `n` requests for memory succeed in a call of `ParseHext`; `g` says which vectors have to grow there. -/
def Stmt.run (rx : RxEngine) (charSigned : Bool) (g : Nat → Nat → Growth) (n : Nat) (vars : Vars) (m : Mem) : Stmt → E (Except Exn Vars × Mem)
  | .op o => do
    let (vars, m) ← o.run vars m
    pure (.ok vars, m)
  | .parse v hext => do
    match ← parseHextMem rx charSigned g hext m n with
    | (.ok a, m) => pure (.ok (update vars v (some a)), m)
    | (.error x, m) => pure (.error x, m)
  | .check p => do
    let (_, m) ← vars.place p m
    pure (.ok vars, m)

def run (rx : RxEngine) (charSigned : Bool) (g : Nat → Nat → Growth) (n : Nat) (vars : Vars) (m : Mem) : List Stmt → E (Option Exn × Vars × Mem)
  | [] => pure (none, vars, m)
  | s :: ss => do
    match ← s.run rx charSigned g n vars m with
    | (.ok vars, m) => run rx charSigned g n vars m ss
    | (.error x, m) => pure (some x, vars, m)

end Hext.Prog
