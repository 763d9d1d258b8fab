import Verif.Model.RuleMemory
/-!
# Assigning transformations, value tests and matches

The copy and move assignment operators of the public classes from which rules are made, on the memory of
`Model/RuleMemory.lean`. The model of memory has the simplifications that are listed there. What a
`std::string` or a `std::function` holds after it was moved from is not specified by the C++ standard; it
is a parameter here.
-/

namespace Hext.Mem

/-! ## StringPipe -/

/-- Reading a `StringPipe` where there is none is undefined behaviour. StringPipe.cpp:31-64, StringPipe.h:77. -/
def loadPipe (a : Addr) : P (Transform × Option Addr) := do
  match ← load a with
  | .pipe t next => pure (t, next)
  | _ => throw .ub

/-- `StringPipe::append`, StringPipe.cpp:57-64. The recursion is a tail call on `next_`; `swap` leaves the
null pointer in the parameter. -/
def appendPipe (this : Addr) (p : Option Addr) : P Unit := do
  let (t, next) ← loadPipe this
  match next with
  | some n => appendPipe n p
  | none => store this (.pipe t p)
partial_fixpoint

/-- Assigning to `next_` (`std::unique_ptr::reset`): the new pointer is stored, then the old chain is
deleted. StringPipe.cpp:36, 41. -/
def setNext (this : Addr) (p : Option Addr) : P Unit := do
  let (t, old) ← loadPipe this
  store this (.pipe t p)
  onPtr destroyPipe old

/-- `StringPipe::operator=(const StringPipe&)`, StringPipe.cpp:31-45: the old chain is deleted before
`other.next_` is read. -/
def assignPipeBase (this other : Addr) : P Unit := do
  if this = other then pure ()
  else do
    setNext this none
    let (_, next) ← loadPipe other
    match next with
    | none => pure ()
    | some n => do
      let n' ← clonePipe n
      setNext this (some n')

/-- The implicit copy assignment operator of a class derived from `StringPipe` (AppendPipe.h:32,
CasePipe.h:32, CollapseWsPipe.h:42, PrependPipe.h:32, RegexPipe.h:49, RegexReplacePipe.h:41,
TrimPipe.h:33): the base class, then the members. -/
def assignPipe (this other : Addr) : P Unit := do
  assignPipeBase this other
  let (t', _) ← loadPipe other
  let (_, next) ← loadPipe this
  store this (.pipe t' next)

/-- The implicit move assignment operator of a class derived from `StringPipe`: the base class
(`operator=(StringPipe&&) = default`, StringPipe.h:47, that is `next_.reset(other.next_.release())`), then
the members, which leaves `spent` behind. `CollapseWsPipe` has no members, CollapseWsPipe.h:42-48. -/
def moveAssignPipe (spent : Transform) (this other : Addr) : P Unit := do
  let (t', next) ← loadPipe other
  store other (.pipe t' none)
  setNext this next
  match t' with
  | .collapseWs => pure ()
  | _ => do
    let (t', n') ← loadPipe other
    store other (.pipe spent n')
    let (_, n) ← loadPipe this
    store this (.pipe t' n)

/-! ## Value tests -/

/-- Reading a `NegateTest` where there is none is undefined behaviour. NegateTest.h:62. -/
def loadNegateTest (a : Addr) : P (Option Addr) := do
  match ← load a with
  | .negateTest t => pure t
  | _ => throw .ub

/-- `NegateTest(NegateTest&&) = default`, NegateTest.h:50. -/
def moveNegateTest (a : Addr) : P Addr := do
  let t ← loadNegateTest a
  store a (.negateTest none)
  alloc (.negateTest t)

/-- `NegateTest& operator=(NegateTest&&) = default`, NegateTest.h:52: `test_.reset(other.test_.release())`. -/
def moveAssignNegateTest (this other : Addr) : P Unit := do
  let t' ← loadNegateTest other
  store other (.negateTest none)
  let old ← loadNegateTest this
  store this (.negateTest t')
  onPtr destroyTest old

/-- `std::swap` of two `NegateTest`s: a move construction, two move assignments, and the temporary dies. NegateTest.cpp:34-40. -/
def swapNegateTest (a b : Addr) : P Unit := do
  let t ← moveNegateTest a
  moveAssignNegateTest a b
  moveAssignNegateTest b t
  destroyTest t

/-- Copy assignment of a value test: `NegateTest::operator=(const NegateTest&)`, NegateTest.cpp:34-40, and
the implicit operator of the classes without pointers (the derived classes declare none: BeginsWithTest.h,
ContainsTest.h, ContainsWordsTest.h, EndsWithTest.h, EqualsTest.h, RegexTest.h). -/
def assignTest (this other : Addr) : P Unit := do
  match ← load other with
  | .negateTest _ => do
    let tmp ← cloneTest other
    swapNegateTest this tmp
    destroyTest tmp
  | .test t => do
    match ← load this with
    | .test _ => store this (.test t)
    | _ => throw .ub
  | _ => throw .ub

/-! ## Matches -/

/-- What is left in a moved-from `std::string` and a moved-from `std::function`. AttributeMatch.h:85, FunctionValueMatch.h:86. -/
structure Spent where
  str : Str
  fn : Option CaptureFn

/-- Reading an `AttributeMatch` where there is none is undefined behaviour. AttributeMatch.h:85-89. -/
def loadAttributeMatch (a : Addr) : P (Str × Option Addr) := do
  match ← load a with
  | .attributeMatch n t => pure (n, t)
  | _ => throw .ub

/-- Reading a `FunctionValueMatch` where there is none is undefined behaviour. FunctionValueMatch.h:86-89. -/
def loadFunctionValueMatch (a : Addr) : P (Option CaptureFn × Option Addr) := do
  match ← load a with
  | .functionValueMatch f t => pure (f, t)
  | _ => throw .ub

/-- Reading a `NegateMatch` where there is none is undefined behaviour. NegateMatch.h:86. -/
def loadNegateMatch (a : Addr) : P (List (Option Addr)) := do
  match ← load a with
  | .negateMatch ms => pure ms
  | _ => throw .ub

/-- The defaulted move constructors: AttributeMatch.h:71, FunctionValueMatch.h:73, NegateMatch.h:69. -/
def moveMatch (sp : Spent) (a : Addr) : P Addr := do
  match ← load a with
  | .attributeMatch n t => do
    store a (.attributeMatch sp.str none)
    alloc (.attributeMatch n t)
  | .functionValueMatch f t => do
    store a (.functionValueMatch sp.fn none)
    alloc (.functionValueMatch f t)
  | .negateMatch ms => do
    store a (.negateMatch [])
    alloc (.negateMatch ms)
  | _ => throw .ub

/-- `AttributeMatch& operator=(AttributeMatch&&) = default`, AttributeMatch.h:73: the name, then the
test. -/
def moveAssignAttributeMatch (sp : Spent) (this other : Addr) : P Unit := do
  let (n', t') ← loadAttributeMatch other
  store other (.attributeMatch sp.str t')
  let (_, t) ← loadAttributeMatch this
  store this (.attributeMatch n' t)
  let (s, t') ← loadAttributeMatch other
  store other (.attributeMatch s none)
  let (n, old) ← loadAttributeMatch this
  store this (.attributeMatch n t')
  onPtr destroyTest old

/-- `FunctionValueMatch& operator=(FunctionValueMatch&&) = default`, FunctionValueMatch.h:75: the function,
then the test. -/
def moveAssignFunctionValueMatch (sp : Spent) (this other : Addr) : P Unit := do
  let (f', t') ← loadFunctionValueMatch other
  store other (.functionValueMatch sp.fn t')
  let (_, t) ← loadFunctionValueMatch this
  store this (.functionValueMatch f' t)
  let (s, t') ← loadFunctionValueMatch other
  store other (.functionValueMatch s none)
  let (f, old) ← loadFunctionValueMatch this
  store this (.functionValueMatch f t')
  onPtr destroyTest old

/-- `NegateMatch& operator=(NegateMatch&&) = default`, NegateMatch.h:71: the vector takes over the buffer
of the other one, then the old elements die. -/
def moveAssignNegateMatch (this other : Addr) : P Unit := do
  let old ← loadNegateMatch this
  store this (.negateMatch [])
  let ms' ← loadNegateMatch other
  store other (.negateMatch [])
  let _ ← loadNegateMatch this
  store this (.negateMatch ms')
  forVec (onPtr destroyMatch) old

/-- The move assignment operator of the class to which `other` belongs. AttributeMatch.h:73, FunctionValueMatch.h:75, NegateMatch.h:71. -/
def moveAssignMatch (sp : Spent) (this other : Addr) : P Unit := do
  match ← load other with
  | .attributeMatch _ _ => moveAssignAttributeMatch sp this other
  | .functionValueMatch _ _ => moveAssignFunctionValueMatch sp this other
  | .negateMatch _ => moveAssignNegateMatch this other
  | _ => throw .ub

/-- `std::swap` of two matches of the same class. AttributeMatch.cpp:38-44, FunctionValueMatch.cpp:39-46, NegateMatch.cpp:45-51. -/
def swapMatch (sp : Spent) (a b : Addr) : P Unit := do
  let t ← moveMatch sp a
  moveAssignMatch sp a b
  moveAssignMatch sp b t
  destroyMatch t

/-- Copy assignment of a match: `AttributeMatch::operator=` (AttributeMatch.cpp:38-44),
`FunctionValueMatch::operator=` (FunctionValueMatch.cpp:39-46), `NegateMatch::operator=`
(NegateMatch.cpp:45-51), and the implicit operator of the classes without pointers (AttributeCountMatch.h,
ChildCountMatch.h, FunctionMatch.h, NthChildMatch.h, OnlyChildMatch.h, TypeRegexMatch.h). -/
def assignMatch (sp : Spent) (this other : Addr) : P Unit := do
  match ← load other with
  | .match_ m => do
    match ← load this with
    | .match_ _ => store this (.match_ m)
    | _ => throw .ub
  | _ => do
    let tmp ← cloneMatch other
    swapMatch sp this tmp
    destroyMatch tmp

/-! ## Captures -/

/-- `AttributeCapture& operator=(AttributeCapture&&) = default`, AttributeCapture.h:81, and the one of
FunctionCapture.h:81: member by member, first what is moved from strings and functions, then the pipe. No object is deleted
before the last step, so that the order of the others cannot be observed; for `this = other` they are not specified. -/
def moveAssignCapture (sp : Spent) (this other : Addr) : P Unit := do
  match ← load this, ← load other with
  | .attributeCapture _ _ old, .attributeCapture attr name p => do
    store other (.attributeCapture sp.str sp.str none)
    store this (.attributeCapture attr name p)
    onPtr destroyPipe old
  | .functionCapture _ _ old, .functionCapture f name p => do
    store other (.functionCapture sp.fn sp.str none)
    store this (.functionCapture f name p)
    onPtr destroyPipe old
  | _, _ => throw .ub

/-! ## Appending -/

/-- `NegateMatch::append_match`, NegateMatch.cpp:53-56. -/
def negateAppendMatch (this : Addr) (p : Option Addr) : P Unit := do
  let ms ← loadNegateMatch this
  store this (.negateMatch (ms ++ [p]))

end Hext.Mem
