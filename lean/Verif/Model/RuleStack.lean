import Verif.Model.RuleMemory
/-!
# Copying and destroying rules with a bounded stack

The copy constructors and destructors of Model/RuleMemory.lean again, with the number `d` of stack frames that are still free. A
copy constructor or destructor of a rule, match, capture, test or pipe takes one frame and gives it back when it returns. A call
without a free frame is undefined behaviour. Loops take no frame.

Not counted: what lies between two of these calls (`clone`, `std::make_unique`, `~unique_ptr`, `~vector`), which is the same for
all objects of a kind. The model does not say how large a frame is.
-/

namespace Hext.Mem.Stack

/-- `clone()` of a pipe, StringPipe.cpp:26-29. -/
def clonePipe : (d : Nat) → Addr → P Addr
  | 0, _ => throw .ub
  | d + 1, a => do
    match ← load a with
    | .pipe t next => do
      let n ← mapPtr (clonePipe d) next
      alloc (.pipe t n)
    | _ => throw .ub

/-- `clone()` of a value test, NegateTest.cpp:29-32. -/
def cloneTest : (d : Nat) → Addr → P Addr
  | 0, _ => throw .ub
  | d + 1, a => do
    match ← load a with
    | .test t => alloc (.test t)
    | .negateTest t => do
      let t' ← mapPtr (cloneTest d) t
      alloc (.negateTest t')
    | _ => throw .ub

/-- `clone()` of a match, AttributeMatch.cpp:32-36, FunctionValueMatch.cpp:33-37, NegateMatch.cpp:37-43. -/
def cloneMatch : (d : Nat) → Addr → P Addr
  | 0, _ => throw .ub
  | d + 1, a => do
    match ← load a with
    | .match_ m => alloc (.match_ m)
    | .attributeMatch name t => do
      let t' ← mapPtr (cloneTest d) t
      alloc (.attributeMatch name t')
    | .functionValueMatch f t => do
      let t' ← mapPtr (cloneTest d) t
      alloc (.functionValueMatch f t')
    | .negateMatch ms => do
      let ms' ← mapVec (mapPtr (cloneMatch d)) ms
      alloc (.negateMatch ms')
    | _ => throw .ub

/-- `clone()` of a capture, AttributeCapture.cpp:33-38, FunctionCapture.cpp:33-38. -/
def cloneCapture : (d : Nat) → Addr → P Addr
  | 0, _ => throw .ub
  | d + 1, a => do
    match ← load a with
    | .attributeCapture attr name p => do
      let p' ← mapPtr (clonePipe d) p
      alloc (.attributeCapture attr name p')
    | .functionCapture f name p => do
      let p' ← mapPtr (clonePipe d) p
      alloc (.functionCapture f name p')
    | _ => throw .ub

/-- `Rule(const Rule&)`, Rule.cpp:56-80. -/
def copyRule : (d : Nat) → Addr → P Addr
  | 0, _ => throw .ub
  | d + 1, a => do
    let o ← loadRule a
    let nested ← mapVec (copyRule d) o.nested
    let child ← mapPtr (copyRule d) o.child
    let next ← mapPtr (copyRule d) o.next
    let ms ← mapVec (mapPtr (cloneMatch d)) o.ms
    let caps ← mapVec (mapPtr (cloneCapture d)) o.caps
    alloc (.rule { child, next, nested, ms, caps,
                   tag := o.tag, optional := o.optional, greedy := o.greedy, tagname := o.tagname })

/-- `~StringPipe`, StringPipe.h:48. -/
def destroyPipe : (d : Nat) → Addr → P Unit
  | 0, _ => throw .ub
  | d + 1, a => do
    match ← load a with
    | .pipe _ next => do
      onPtr (destroyPipe d) next
      free a
    | _ => throw .ub

/-- `~ValueTest`, ValueTest.h:45, `~NegateTest`, NegateTest.h:49. -/
def destroyTest : (d : Nat) → Addr → P Unit
  | 0, _ => throw .ub
  | d + 1, a => do
    match ← load a with
    | .test _ => free a
    | .negateTest t => do
      onPtr (destroyTest d) t
      free a
    | _ => throw .ub

/-- `~Match`, Match.h:49, and the destructors of the derived classes. -/
def destroyMatch : (d : Nat) → Addr → P Unit
  | 0, _ => throw .ub
  | d + 1, a => do
    match ← load a with
    | .match_ _ => free a
    | .attributeMatch _ t => do
      onPtr (destroyTest d) t
      free a
    | .functionValueMatch _ t => do
      onPtr (destroyTest d) t
      free a
    | .negateMatch ms => do
      forVec (onPtr (destroyMatch d)) ms
      free a
    | _ => throw .ub

/-- `~Capture`, Capture.h:52, and the destructors of the derived classes. -/
def destroyCapture : (d : Nat) → Addr → P Unit
  | 0, _ => throw .ub
  | d + 1, a => do
    match ← load a with
    | .attributeCapture _ _ p => do
      onPtr (destroyPipe d) p
      free a
    | .functionCapture _ _ p => do
      onPtr (destroyPipe d) p
      free a
    | _ => throw .ub

/-- `~Rule`, Rule.h:124: the members, the last one first. -/
def destroyRule : (d : Nat) → Addr → P Unit
  | 0, _ => throw .ub
  | d + 1, a => do
    let o ← loadRule a
    forVec (onPtr (destroyCapture d)) o.caps
    forVec (onPtr (destroyMatch d)) o.ms
    forVec (destroyRule d) o.nested
    onPtr (destroyRule d) o.next
    onPtr (destroyRule d) o.child
    free a

end Hext.Mem.Stack
