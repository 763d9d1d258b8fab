/-!
# Base definitions

Byte strings, outcomes and the monads in which the literal model is written.
-/

namespace Hext

/-- C++ `char`, as the byte it stores. -/
abbrev Byte := UInt8

/-- `std::string` / a `char` range. -/
abbrev Str := List Byte

/-- ASCII string literal of the C++ source as bytes. -/
def lit (s : String) : Str := s.toList.map fun c => UInt8.ofNat c.toNat

/-- What `std::string(const char*)` / `strlen` see of a buffer: the bytes before the first NUL. -/
def cstr (s : Str) : Str := s.takeWhile (· != 0)

/-- Abnormal outcomes.
`ub`: undefined behaviour (null/dangling dereference, out-of-range access, signed overflow).
`assertFail`: an `assert` of a debug build fires.
`maxSearch`: `hext::MaxSearchError` is thrown.
`thrown`: another exception that a called function throws (Model/Throwing.lean only). -/
inductive Err
  | ub
  | assertFail
  | maxSearch
  | thrown
  deriving DecidableEq, Repr

/-- Computations with abnormal outcomes; `none` is divergence. -/
abbrev E := ExceptT Err Option

/-- Computations that also read and write the `std::uint64_t& max_searches` reference. -/
abbrev M := StateT UInt64 E

/-- C++ `assert(b)`. A debug build aborts; the release build goes on. The model reports it,
and the theorems show it never happens, so both builds agree. -/
def E.assert (b : Bool) : E Unit := if b then pure () else throw .assertFail

/-- Read `str[i]`; out of range is UB. -/
def getAt {α} (l : List α) (i : Nat) : E α :=
  match l[i]? with
  | some x => pure x
  | none => throw .ub

/-- Write `str[i] = x`; out of range is UB. -/
def setAt {α} (l : List α) (i : Nat) (x : α) : E (List α) :=
  if i < l.length then pure (l.set i x) else throw .ub

theorem E.pure_inj {α} {a b : α} (h : (pure a : E α) = pure b) : a = b := by
  have h' : (some (Except.ok a) : Option (Except Err α)) = some (Except.ok b) := h
  injection h' with h'; injection h'

instance {ε α} [DecidableEq ε] [DecidableEq α] : DecidableEq (Except ε α)
  | .ok a, .ok b => if h : a = b then isTrue (by rw [h]) else isFalse (by intro h'; injection h'; contradiction)
  | .error a, .error b => if h : a = b then isTrue (by rw [h]) else isFalse (by intro h'; injection h'; contradiction)
  | .ok _, .error _ => isFalse (by intro h; cases h)
  | .error _, .ok _ => isFalse (by intro h; cases h)

instance {α} [DecidableEq α] : DecidableEq (E α) :=
  inferInstanceAs (DecidableEq (Option (Except Err α)))

end Hext
