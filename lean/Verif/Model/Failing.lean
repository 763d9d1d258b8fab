import Verif.Model.Assign
/-!
# Copying, assigning and appending when memory runs out

The operations of `Model/RuleMemory.lean` and `Model/Assign.lean` again, for programs that can run out of
memory: a given number of steps that request memory succeed, the next one throws `std::bad_alloc`. The
exception unwinds the stack, and every object that was completed on the way is destroyed by its owner.

Simplifications: every step that may request memory counts as one (a string copy, a copied regular expression
or function, a vector's buffer, `operator new`), also if it would not need any. The order in which the members
of a partly constructed object are destroyed is not the reverse order of construction everywhere; the members
are independent of each other. Destructors and move operations do not throw (they are `noexcept`, apart from
the moves of `FunctionValueMatch`, where only `std::function` could throw, which it does not).
-/

namespace Hext.Mem

/-- Memory, and the number of requests that will still succeed.
The requests are those of Rule.cpp:56-80 and of the other copy operations that this file cites. -/
structure FMem where
  mem : Mem
  left : Nat

/-- Computations that may throw `std::bad_alloc`; the state survives an exception.
For Rule.cpp:56-160 and the other operations that this file cites. -/
abbrev Q := ExceptT Unit (StateT FMem E)

/-- A step that does not request memory. As `swap`, Rule.cpp:302-316. -/
def lift {α} (x : P α) : Q α := fun s => do
  let (a, m) ← x s.mem
  pure (.ok a, { s with mem := m })

/-- A step that requests memory. As `std::make_unique` in Rule.cpp:68, 71, 125, 135 and `clone()` in Cloneable.h:45-55. -/
def request : Q Unit := fun s =>
  match s.left with
  | 0 => pure (.error (), s)
  | n + 1 => pure (.ok (), { s with left := n })

/-- Run `x`; if it throws, run the destructors `d` and let the exception pass. As in the constructor Rule.cpp:56-80. -/
def unwinding {α} (d : P Unit) (x : Q α) : Q α := fun s => do
  let (r, s') ← x s
  match r with
  | .ok a => pure (.ok a, s')
  | .error e => do
    let ((), m) ← d s'.mem
    pure (.error e, { s' with mem := m })

/-- `p ? f(*p) : nullptr`. Rule.cpp:67-71, StringPipe.cpp:27, AttributeCapture.cpp:36, FunctionCapture.cpp:36. -/
def mapPtrQ (f : Addr → Q Addr) : Option Addr → Q (Option Addr)
  | none => pure none
  | some a => do pure (some (← f a))

/-- A loop that fills a vector; if it throws, the elements are destroyed. Rule.cpp:73-79, NegateMatch.cpp:37-43. -/
def mapVecQ {α β} (d : β → P Unit) (f : α → Q β) : List α → Q (List β)
  | [] => pure []
  | a :: as => do
    let b ← f a
    let bs ← unwinding (d b) (mapVecQ d f as)
    pure (b :: bs)

open Lean.Order in
@[partial_fixpoint_monotone]
theorem monotone_unwinding {γ α} [PartialOrder γ] (d : P Unit) (x : γ → Q α) (hx : monotone x) :
    monotone (fun g => unwinding d (x g)) := by
  apply monotone_of_monotone_apply
  intro s
  apply monotone_bind
  · exact monotone_apply s _ hx
  · exact monotone_const _

open Lean.Order in
@[partial_fixpoint_monotone]
theorem monotone_mapPtrQ {γ} [PartialOrder γ] (f : γ → Addr → Q Addr) (p : Option Addr)
    (hf : monotone f) : monotone (fun x => mapPtrQ (f x) p) := by
  cases p with
  | none => exact monotone_const _
  | some a =>
    apply monotone_bind
    · exact monotone_apply _ _ hf
    · exact monotone_const _

open Lean.Order in
@[partial_fixpoint_monotone]
theorem monotone_mapVecQ {γ α β} [PartialOrder γ] (d : β → P Unit) (f : γ → α → Q β) (l : List α)
    (hf : monotone f) : monotone (fun x => mapVecQ d (f x) l) := by
  induction l with
  | nil => exact monotone_const _
  | cons a as ih =>
    apply monotone_bind
    · exact monotone_apply _ _ hf
    · apply monotone_of_monotone_apply
      intro b
      apply monotone_bind
      · exact monotone_unwinding _ _ ih
      · exact monotone_const _

/-! ## Cloning (Cloneable.h:42-54) -/

/-- `clone()` of a pipe, StringPipe.cpp:26-29 and the implicit copy constructors of the derived classes:
the base class with its chain first, then the members. -/
def clonePipeQ (a : Addr) : Q Addr := do
  request
  match ← lift (load a) with
  | .pipe t next => do
    let n ← mapPtrQ clonePipeQ next
    unwinding (onPtr destroyPipe n) request
    lift (alloc (.pipe t n))
  | _ => lift (throw .ub)
partial_fixpoint

/-- `clone()` of a value test, NegateTest.cpp:29-32. -/
def cloneTestQ (a : Addr) : Q Addr := do
  request
  match ← lift (load a) with
  | .test t => do
    request
    lift (alloc (.test t))
  | .negateTest t => do
    let t' ← mapPtrQ cloneTestQ t
    lift (alloc (.negateTest t'))
  | _ => lift (throw .ub)
partial_fixpoint

/-- `clone()` of a match, AttributeMatch.cpp:32-36, FunctionValueMatch.cpp:33-37, NegateMatch.cpp:37-43. -/
def cloneMatchQ (a : Addr) : Q Addr := do
  request
  match ← lift (load a) with
  | .match_ m => do
    request
    lift (alloc (.match_ m))
  | .attributeMatch name t => do
    request
    let t' ← mapPtrQ cloneTestQ t
    lift (alloc (.attributeMatch name t'))
  | .functionValueMatch f t => do
    request
    let t' ← mapPtrQ cloneTestQ t
    lift (alloc (.functionValueMatch f t'))
  | .negateMatch ms => do
    request
    let ms' ← mapVecQ (fun p => onPtr destroyMatch p) (fun p => mapPtrQ cloneMatchQ p) ms
    lift (alloc (.negateMatch ms'))
  | _ => lift (throw .ub)
partial_fixpoint

/-- `clone()` of a capture, AttributeCapture.cpp:33-38, FunctionCapture.cpp:33-38. -/
def cloneCaptureQ (a : Addr) : Q Addr := do
  request
  match ← lift (load a) with
  | .attributeCapture attr name p => do
    request
    request
    let p' ← mapPtrQ clonePipeQ p
    lift (alloc (.attributeCapture attr name p'))
  | .functionCapture f name p => do
    request
    request
    let p' ← mapPtrQ clonePipeQ p
    lift (alloc (.functionCapture f name p'))
  | _ => lift (throw .ub)

/-- `Rule(const Rule&)`, Rule.cpp:56-80: `nested_` and `tagname_` in the initializer list; then the child and the
next rule (`std::make_unique`), the matches and the captures (`reserve` and `clone()`). -/
def copyRuleQ (a : Addr) : Q Addr := do
  let o ← lift (loadRule a)
  request
  let nested ← mapVecQ destroyRule copyRuleQ o.nested
  unwinding (forVec destroyRule nested) (do
    request
    let child ← mapPtrQ (fun p => do request; copyRuleQ p) o.child
    unwinding (onPtr destroyRule child) (do
      let next ← mapPtrQ (fun p => do request; copyRuleQ p) o.next
      unwinding (onPtr destroyRule next) (do
        request
        let ms ← mapVecQ (onPtr destroyMatch) (mapPtrQ cloneMatchQ) o.ms
        unwinding (forVec (onPtr destroyMatch) ms) (do
          request
          let caps ← mapVecQ (onPtr destroyCapture) (mapPtrQ cloneCaptureQ) o.caps
          lift (alloc (.rule { child, next, nested, ms, caps,
                               tag := o.tag, optional := o.optional, greedy := o.greedy,
                               tagname := o.tagname }))))))
partial_fixpoint

/-! ## Assigning -/

/-- `Rule::operator=(const Rule&)`, Rule.cpp:82-87. -/
def assignRuleQ (this other : Addr) : Q Unit := do
  let tmp ← copyRuleQ other
  lift (do
    swapRule this tmp
    destroyRule tmp)

/-- `std::vector<std::string>::operator=` if the buffer is large enough: the strings that are there are assigned one
after the other; then the remaining ones are added or the superfluous ones removed. `done` are the words that were
assigned already. Part of the implicit assignment of `ContainsWordsTest`, ContainsWordsTest.h:67. -/
def assignWordsQ (this : Addr) (done : List Str) : List Str → List Str → Q Unit
  | n :: ns, _ :: os => do
    request
    lift (store this (.test (.containsWords (done ++ n :: os))))
    assignWordsQ this (done ++ [n]) ns os
  | ns, _ => do
    ns.forM fun _ => request
    lift (store this (.test (.containsWords (done ++ ns))))

/-- Copy assignment of a value test, see `assignTest`. The implicit operators of the classes without pointers
assign their only member (BeginsWithTest.h:58, ContainsTest.h:57, ContainsWordsTest.h:67, EndsWithTest.h:57,
EqualsTest.h:57, RegexTest.h:57). `room`: the vector of a `ContainsWordsTest` needs no new buffer. -/
def assignTestQ (room : Bool) (this other : Addr) : Q Unit := do
  match ← lift (load other) with
  | .negateTest t => do
    -- `NegateTest tmp(other)` is on the stack
    let t' ← mapPtrQ cloneTestQ t
    lift (do
      let tmp ← alloc (.negateTest t')
      swapNegateTest this tmp
      destroyTest tmp)
  | .test t => do
    match ← lift (load this), t with
    | .test (.containsWords old), .containsWords new => do
      if room then assignWordsQ this [] new old
      else do
        request
        lift (store this (.test (.containsWords new)))
    | .test _, t => do
      request
      lift (store this (.test t))
    | _, _ => lift (throw .ub)
  | _ => lift (throw .ub)

/-- Copy assignment of a match, see `assignMatch`. AttributeMatch.cpp:38-44, FunctionValueMatch.cpp:39-46, NegateMatch.cpp:45-51. -/
def assignMatchQ (sp : Spent) (this other : Addr) : Q Unit := do
  match ← lift (load other) with
  | .match_ m => do
    request
    lift (do
      match ← load this with
      | .match_ _ => store this (.match_ m)
      | _ => throw .ub)
  | _ => do
    let tmp ← cloneMatchQ other
    lift (do
      swapMatch sp this tmp
      destroyMatch tmp)

/-- `StringPipe::operator=(const StringPipe&)`, StringPipe.cpp:31-45. -/
def assignPipeBaseQ (this other : Addr) : Q Unit := do
  if this = other then pure ()
  else do
    lift (setNext this none)
    let (_, next) ← lift (loadPipe other)
    match next with
    | none => pure ()
    | some n => do
      let n' ← clonePipeQ n
      lift (setNext this (some n'))

/-- Copy assignment of a transformation: the base class, then the members, see `assignPipe`. StringPipe.cpp:31-45. -/
def assignPipeQ (this other : Addr) : Q Unit := do
  assignPipeBaseQ this other
  request
  lift (do
    let (t', _) ← loadPipe other
    let (_, next) ← loadPipe this
    store this (.pipe t' next))

/-- `AttributeCapture::operator=` and `FunctionCapture::operator=`, AttributeCapture.cpp:40-50,
FunctionCapture.cpp:40-50: one member after the other. -/
def assignCaptureQ (this other : Addr) : Q Unit := do
  if this = other then pure ()
  else do
    match ← lift (load this), ← lift (load other) with
    | .attributeCapture _ name old, .attributeCapture attr' name' p => do
      request
      lift (store this (.attributeCapture attr' name old))
      request
      lift (store this (.attributeCapture attr' name' old))
      match p with
      | none => lift (throw .ub)
      | some p => do
        let p' ← clonePipeQ p
        lift (do
          store this (.attributeCapture attr' name' (some p'))
          onPtr destroyPipe old)
    | .functionCapture _ name old, .functionCapture f' name' p => do
      request
      lift (store this (.functionCapture f' name old))
      request
      lift (store this (.functionCapture f' name' old))
      match p with
      | none => lift (throw .ub)
      | some p => do
        let p' ← clonePipeQ p
        lift (do
          store this (.functionCapture f' name' (some p'))
          onPtr destroyPipe old)
    | _, _ => lift (throw .ub)

/-! ## Constructing -/

/-- A function that is `noexcept`: an exception calls `std::terminate`, which ends the program.
Rule.h:124-127, StringPipe.h:45-48, NegateTest.h:49-52. -/
def noexcept {α} (x : Q α) : Q α := fun s => do
  let (r, s') ← x s
  match r with
  | .ok a => pure (.ok a, s')
  | .error _ => throw .assertFail

/-- `Rule(std::string, bool, bool) noexcept`, Rule.cpp:39-54: copies the name of a custom tag. -/
def newRuleNamedQ (name : Str) (optional greedy : Bool) : Q Addr :=
  noexcept (do
    if gumboTagEnum (cstr name) = .unknown then request else pure ()
    lift (newRuleNamed name optional greedy))

/-! ## Appending -/

/-- `Rule::append_next(Rule sibling)`, Rule.cpp:129-137. `sibling` is the parameter, an object that dies at the end
of the call, also if `std::make_unique` throws. -/
def appendNextQ (this sibling : Addr) : Q Unit := do
  unwinding (destroyRule sibling) request
  lift (appendNext this sibling)

/-- `Rule::append_child(Rule new_child)`, Rule.cpp:119-127. -/
def appendChildQ (this newChild : Addr) : Q Unit := do
  unwinding (destroyRule newChild) request
  lift (appendChild this newChild)

/-- `Rule::append_nested(Rule nested)`, Rule.cpp:139-143: `push_back` requests a new buffer before it touches an
element; the move constructor of `Rule` is `noexcept`. -/
def appendNestedQ (realloc : Bool) (this nested : Addr) : Q Unit := do
  if realloc then unwinding (destroyRule nested) request else pure ()
  lift (appendNested realloc this nested)

/-- `Rule::append_match`, Rule.cpp:145-149. -/
def appendMatchQ (realloc : Bool) (this : Addr) (p : Option Addr) : Q Unit := do
  if realloc then unwinding (onPtr destroyMatch p) request else pure ()
  lift (appendMatch this p)

/-- `Rule::append_capture`, Rule.cpp:151-155. -/
def appendCaptureQ (realloc : Bool) (this : Addr) (p : Option Addr) : Q Unit := do
  if realloc then unwinding (onPtr destroyCapture p) request else pure ()
  lift (appendCapture this p)

end Hext.Mem
