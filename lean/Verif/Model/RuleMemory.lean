import Verif.Model.Matching
/-!
# Rules as objects in memory

The extraction model works on rules as values. In C++ a rule is a graph of objects that are connected
by owning pointers (`std::unique_ptr`, and the elements of `std::vector<Rule>`), and the public
operations (copying, assigning, moving, appending, destroying) work on that graph. This file models
these operations on an explicit memory: every object has an address, reading, writing or freeing an
address that is not allocated is undefined behaviour, and nothing about ownership is built in.

Simplifications: addresses are never reused (so every use after free is noticed); memory never runs
out, so `std::bad_alloc` is not modelled; strings, regular expressions and `std::function`s are values
inside an object; an element of `std::vector<Rule>` is an object of its own, whose address changes if
the vector reallocates.
-/

namespace Hext.Mem

/-- Addresses. -/
scoped notation "Addr" => Nat

/-- The members of a `Rule` object, Rule.h:269-278. -/
structure RuleObj where
  child : Option Addr
  next : Option Addr
  nested : List Addr
  ms : List (Option Addr)
  caps : List (Option Addr)
  tag : RTag
  optional : Bool
  greedy : Bool
  tagname : Option Str

/-- The objects from which rules are made. Every `Option Addr` is a `std::unique_ptr`. Rule.h:269-278 and the headers below. -/
inductive Obj
  | rule (o : RuleObj)
  /-- A class derived from `StringPipe` with its own members and `StringPipe::next_`, StringPipe.h:77. -/
  | pipe (t : Transform) (next : Option Addr)
  /-- A class derived from `ValueTest` without pointers. -/
  | test (t : ValueTest)
  /-- `NegateTest`, NegateTest.h:62. -/
  | negateTest (t : Option Addr)
  /-- `AttributeMatch`, AttributeMatch.h:85-89. -/
  | attributeMatch (name : Str) (t : Option Addr)
  /-- `FunctionValueMatch`, FunctionValueMatch.h:86-89. -/
  | functionValueMatch (f : Option CaptureFn) (t : Option Addr)
  /-- `NegateMatch`, NegateMatch.h:86. -/
  | negateMatch (ms : List (Option Addr))
  /-- A class derived from `Match` without pointers. -/
  | match_ (m : Match)
  /-- `AttributeCapture`, AttributeCapture.h:95-101. -/
  | attributeCapture (attr name : Str) (pipe : Option Addr)
  /-- `FunctionCapture`, FunctionCapture.h:94-100. -/
  | functionCapture (f : Option CaptureFn) (name : Str) (pipe : Option Addr)

/-- The living objects by address. Rule.h:269-278. -/
abbrev Cells := Addr → Option Obj

/-- Memory: the living objects, and the next address to be handed out. Rule.h:269-278. -/
structure Mem where
  cell : Cells
  fresh : Addr

/-- Computations on memory. For the operations of Rule.cpp:24-199, 302-316. -/
abbrev P := StateT Mem E

/-- Reading an object; where there is none this is undefined behaviour. As in Rule.cpp:56-80. -/
def load (a : Addr) : P Obj := do
  match (← get).cell a with
  | some o => pure o
  | none => throw .ub

/-- Reading a `Rule` where there is none is undefined behaviour. As in Rule.cpp:56-80. -/
def loadRule (a : Addr) : P RuleObj := do
  match ← load a with
  | .rule o => pure o
  | _ => throw .ub

/-- Writing to an object; where there is none this is undefined behaviour. As in Rule.cpp:302-316. -/
def store (a : Addr) (o : Obj) : P Unit := do
  let m ← get
  match m.cell a with
  | some _ => set { m with cell := fun x => if x = a then some o else m.cell x }
  | none => throw .ub

/-- A new object. As `std::make_unique` in Rule.cpp:68, 71, 125, 135 and `clone()` in Cloneable.h:45-55. -/
def alloc (o : Obj) : P Addr := do
  let m ← get
  set { cell := fun x => if x = m.fresh then some o else m.cell x, fresh := m.fresh + 1 : Mem }
  pure m.fresh

/-- End of an object's lifetime; ending it twice is undefined behaviour. As `~Rule`, Rule.h:124. -/
def free (a : Addr) : P Unit := do
  let m ← get
  match m.cell a with
  | some _ => set { m with cell := fun x => if x = a then none else m.cell x }
  | none => throw .ub

/-- `p ? f(*p) : nullptr` for a function that returns an owning pointer.
Rule.cpp:67-71, StringPipe.cpp:27, AttributeCapture.cpp:36, FunctionCapture.cpp:36. -/
def mapPtr (f : Addr → P Addr) : Option Addr → P (Option Addr)
  | none => pure none
  | some a => do pure (some (← f a))

/-- `if( p ) f(*p)`. The destructors of the members Rule.h:269-273. -/
def onPtr (f : Addr → P Unit) : Option Addr → P Unit
  | none => pure ()
  | some a => f a

/-- A loop over a vector that collects results. Rule.cpp:73-79, NegateMatch.cpp:37-43. -/
def mapVec {α β} (f : α → P β) : List α → P (List β)
  | [] => pure []
  | a :: as => do
    let b ← f a
    let bs ← mapVec f as
    pure (b :: bs)

/-- A loop over a vector. The destructors of the members Rule.h:271-273. -/
def forVec {α} (f : α → P Unit) : List α → P Unit
  | [] => pure ()
  | a :: as => do
    f a
    forVec f as

/-! ## Cloning (Cloneable.h:42-54 calls the copy constructor of the derived class) -/

open Lean.Order in
@[partial_fixpoint_monotone]
theorem monotone_mapPtr {γ} [PartialOrder γ] (f : γ → Addr → P Addr) (p : Option Addr)
    (hf : monotone f) : monotone (fun x => mapPtr (f x) p) := by
  cases p with
  | none => exact monotone_const _
  | some a =>
    apply monotone_bind
    · exact monotone_apply _ _ hf
    · exact monotone_const _

open Lean.Order in
@[partial_fixpoint_monotone]
theorem monotone_onPtr {γ} [PartialOrder γ] (f : γ → Addr → P Unit) (p : Option Addr)
    (hf : monotone f) : monotone (fun x => onPtr (f x) p) := by
  cases p with
  | none => exact monotone_const _
  | some a =>
    show monotone (fun x => f x a)
    exact monotone_apply _ _ hf

open Lean.Order in
@[partial_fixpoint_monotone]
theorem monotone_mapVec {γ α β} [PartialOrder γ] (f : γ → α → P β) (l : List α)
    (hf : monotone f) : monotone (fun x => mapVec (f x) l) := by
  induction l with
  | nil => exact monotone_const _
  | cons a as ih =>
    apply monotone_bind
    · exact monotone_apply _ _ hf
    · apply monotone_of_monotone_apply
      intro b
      apply monotone_bind
      · exact ih
      · exact monotone_const _

open Lean.Order in
@[partial_fixpoint_monotone]
theorem monotone_forVec {γ α} [PartialOrder γ] (f : γ → α → P Unit) (l : List α)
    (hf : monotone f) : monotone (fun x => forVec (f x) l) := by
  induction l with
  | nil => exact monotone_const _
  | cons a as ih =>
    apply monotone_bind
    · exact monotone_apply _ _ hf
    · apply monotone_of_monotone_apply
      intro b
      exact ih

/-- `clone()` of a pipe: the implicit copy constructor of the derived class, which calls
`StringPipe(const StringPipe&)`, StringPipe.cpp:26-29. -/
def clonePipe (a : Addr) : P Addr := do
  match ← load a with
  | .pipe t next => do
    let n ← mapPtr clonePipe next
    alloc (.pipe t n)
  | _ => throw .ub
partial_fixpoint

/-- `clone()` of a value test: implicit copy constructors, and `NegateTest(const NegateTest&)`,
NegateTest.cpp:29-32. -/
def cloneTest (a : Addr) : P Addr := do
  match ← load a with
  | .test t => alloc (.test t)
  | .negateTest t => do
    let t' ← mapPtr cloneTest t
    alloc (.negateTest t')
  | _ => throw .ub
partial_fixpoint

/-- `clone()` of a match: implicit copy constructors, `AttributeMatch(const AttributeMatch&)`
(AttributeMatch.cpp:32-36), `FunctionValueMatch(const FunctionValueMatch&)`
(FunctionValueMatch.cpp:33-37) and `NegateMatch(const NegateMatch&)` (NegateMatch.cpp:37-43). -/
def cloneMatch (a : Addr) : P Addr := do
  match ← load a with
  | .match_ m => alloc (.match_ m)
  | .attributeMatch name t => do
    let t' ← mapPtr cloneTest t
    alloc (.attributeMatch name t')
  | .functionValueMatch f t => do
    let t' ← mapPtr cloneTest t
    alloc (.functionValueMatch f t')
  | .negateMatch ms => do
    let ms' ← mapVec (fun p => mapPtr cloneMatch p) ms
    alloc (.negateMatch ms')
  | _ => throw .ub
partial_fixpoint

/-- `clone()` of a capture: `AttributeCapture(const AttributeCapture&)` (AttributeCapture.cpp:33-38)
and `FunctionCapture(const FunctionCapture&)` (FunctionCapture.cpp:33-38). -/
def cloneCapture (a : Addr) : P Addr := do
  match ← load a with
  | .attributeCapture attr name p => do
    let p' ← mapPtr clonePipe p
    alloc (.attributeCapture attr name p')
  | .functionCapture f name p => do
    let p' ← mapPtr clonePipe p
    alloc (.functionCapture f name p')
  | _ => throw .ub

/-- `Rule(const Rule&)`, Rule.cpp:56-80: `nested_` is copied in the initializer list, then the child,
the next rule, the matches and the captures. -/
def copyRule (a : Addr) : P Addr := do
  let o ← loadRule a
  let nested ← mapVec copyRule o.nested
  let child ← mapPtr copyRule o.child
  let next ← mapPtr copyRule o.next
  let ms ← mapVec (mapPtr cloneMatch) o.ms
  let caps ← mapVec (mapPtr cloneCapture) o.caps
  alloc (.rule { child, next, nested, ms, caps,
                 tag := o.tag, optional := o.optional, greedy := o.greedy, tagname := o.tagname })
partial_fixpoint

/-! ## Destruction: `virtual ~X() = default` everywhere -/

/-- `~StringPipe`, StringPipe.h:48: `next_` goes with it. -/
def destroyPipe (a : Addr) : P Unit := do
  match ← load a with
  | .pipe _ next => do
    onPtr destroyPipe next
    free a
  | _ => throw .ub
partial_fixpoint

/-- `~ValueTest`, ValueTest.h:45, `~NegateTest`, NegateTest.h:49. -/
def destroyTest (a : Addr) : P Unit := do
  match ← load a with
  | .test _ => free a
  | .negateTest t => do
    onPtr destroyTest t
    free a
  | _ => throw .ub
partial_fixpoint

/-- `~Match`, Match.h:49, and the destructors of the derived classes. -/
def destroyMatch (a : Addr) : P Unit := do
  match ← load a with
  | .match_ _ => free a
  | .attributeMatch _ t => do
    onPtr destroyTest t
    free a
  | .functionValueMatch _ t => do
    onPtr destroyTest t
    free a
  | .negateMatch ms => do
    forVec (fun p => onPtr destroyMatch p) ms
    free a
  | _ => throw .ub
partial_fixpoint

/-- `~Capture`, Capture.h:52, and the destructors of the derived classes. -/
def destroyCapture (a : Addr) : P Unit := do
  match ← load a with
  | .attributeCapture _ _ p => do
    onPtr destroyPipe p
    free a
  | .functionCapture _ _ p => do
    onPtr destroyPipe p
    free a
  | _ => throw .ub

/-- `~Rule`, Rule.h:124: the members, the last one first. -/
def destroyRule (a : Addr) : P Unit := do
  let o ← loadRule a
  forVec (onPtr destroyCapture) o.caps
  forVec (onPtr destroyMatch) o.ms
  forVec destroyRule o.nested
  onPtr destroyRule o.next
  onPtr destroyRule o.child
  free a
partial_fixpoint

/-! ## Moving and assigning -/

/-- `Rule(Rule&&) = default`, Rule.h:125: the new object takes over all members. The pointers of the
old one are null and its vectors empty. A moved-from string is unspecified; here it is empty. -/
def moveRule (a : Addr) : P Addr := do
  let o ← loadRule a
  store a (.rule { o with child := none, next := none, nested := [], ms := [], caps := [],
                          tagname := o.tagname.map fun _ => [] })
  alloc (.rule { child := o.child, next := o.next, nested := o.nested, ms := o.ms, caps := o.caps,
                 tag := o.tag, optional := o.optional, greedy := o.greedy, tagname := o.tagname })

/-- `Rule::swap`, Rule.cpp:302-316. -/
def swapRule (this other : Addr) : P Unit := do
  if this = other then pure ()
  else do
    let x ← loadRule this
    let y ← loadRule other
    store this (.rule { child := y.child, next := y.next, nested := y.nested, ms := y.ms,
                        caps := y.caps, tag := y.tag, optional := y.optional,
                        greedy := y.greedy, tagname := y.tagname })
    store other (.rule { child := x.child, next := x.next, nested := x.nested, ms := x.ms,
                         caps := x.caps, tag := x.tag, optional := x.optional,
                         greedy := x.greedy, tagname := x.tagname })

/-- `Rule::operator=(const Rule&)`, Rule.cpp:82-87: copy, swap, and the temporary dies. -/
def assignRule (this other : Addr) : P Unit := do
  let tmp ← copyRule other
  swapRule this tmp
  destroyRule tmp

/-- `Rule& operator=(Rule&&) = default`, Rule.h:127: one member after the other.
`unique_ptr::operator=(unique_ptr&& u)` is `reset(u.release())`, and `reset` deletes the old object
after the new pointer is stored. For vectors it takes over the buffer and deletes the old elements. A
moved-from string is unspecified; here it is empty. -/
def moveAssignRule (this other : Addr) : P Unit := do
  -- first_child_
  let u ← loadRule other
  store other (.rule { u with child := none })
  let t ← loadRule this
  store this (.rule { t with child := u.child })
  onPtr destroyRule t.child
  -- next_
  let u ← loadRule other
  store other (.rule { u with next := none })
  let t ← loadRule this
  store this (.rule { t with next := u.next })
  onPtr destroyRule t.next
  -- nested_
  let t ← loadRule this
  store this (.rule { t with nested := [] })
  let u ← loadRule other
  store other (.rule { u with nested := [] })
  let t' ← loadRule this
  store this (.rule { t' with nested := u.nested })
  forVec destroyRule t.nested
  -- matches_
  let t ← loadRule this
  store this (.rule { t with ms := [] })
  let u ← loadRule other
  store other (.rule { u with ms := [] })
  let t' ← loadRule this
  store this (.rule { t' with ms := u.ms })
  forVec (onPtr destroyMatch) t.ms
  -- captures_
  let t ← loadRule this
  store this (.rule { t with caps := [] })
  let u ← loadRule other
  store other (.rule { u with caps := [] })
  let t' ← loadRule this
  store this (.rule { t' with caps := u.caps })
  forVec (onPtr destroyCapture) t.caps
  -- tag_, is_optional_, is_greedy_, tagname_
  let u ← loadRule other
  store other (.rule { u with tagname := u.tagname.map fun _ => [] })
  let t ← loadRule this
  store this (.rule { t with tag := u.tag, optional := u.optional, greedy := u.greedy,
                             tagname := u.tagname })

/-- `AttributeCapture::operator=(const AttributeCapture&)`, AttributeCapture.cpp:40-50, and
`FunctionCapture::operator=(const FunctionCapture&)`, FunctionCapture.cpp:40-50: the pipe of `other`
is dereferenced without a check (`other.pipe_->clone()`), a null pipe is undefined behaviour. -/
def assignCapture (this other : Addr) : P Unit := do
  if this = other then pure ()
  else do
    match ← load this, ← load other with
    | .attributeCapture _ _ old, .attributeCapture attr name p => do
      match p with
      | none => throw .ub
      | some p => do
        let p' ← clonePipe p
        store this (.attributeCapture attr name (some p'))
        onPtr destroyPipe old
    | .functionCapture _ _ old, .functionCapture f name p => do
      match p with
      | none => throw .ub
      | some p => do
        let p' ← clonePipe p
        store this (.functionCapture f name (some p'))
        onPtr destroyPipe old
    | _, _ => throw .ub

/-! ## Building rules -/

/-- `Rule(HtmlTag, bool, bool)`, Rule.cpp:24-37. -/
def newRule (tag : RTag) (optional greedy : Bool) : P Addr :=
  alloc (.rule { child := none, next := none, nested := [], ms := [], caps := [],
                 tag, optional, greedy, tagname := none })

/-- `Rule(std::string, bool, bool)`, Rule.cpp:39-54. -/
def newRuleNamed (name : Str) (optional greedy : Bool) : P Addr :=
  let t := gumboTagEnum (cstr name)
  alloc (.rule { child := none, next := none, nested := [], ms := [], caps := [],
                 tag := .tag t, optional, greedy,
                 tagname := if t = .unknown then some name else none })

/-- `Rule::append_next(Rule sibling)`, Rule.cpp:129-137, from the loop on. -/
def appendNextLoop (target sibling : Addr) : P Unit := do
  let o ← loadRule target
  match o.next with
  | some n => appendNextLoop n sibling
  | none => do
    let s ← moveRule sibling
    let o ← loadRule target
    store target (.rule { o with next := some s })
partial_fixpoint

/-- `Rule::append_next(Rule sibling)`: the parameter dies at the end of the call. Rule.cpp:129-137. -/
def appendNext (this sibling : Addr) : P Unit := do
  appendNextLoop this sibling
  destroyRule sibling

/-- `Rule::append_child(Rule new_child)`, Rule.cpp:119-127. -/
def appendChild (this newChild : Addr) : P Unit := do
  let o ← loadRule this
  match o.child with
  | some c => do
    let s ← moveRule newChild
    appendNext c s
  | none => do
    let s ← moveRule newChild
    let o ← loadRule this
    store this (.rule { o with child := some s })
  destroyRule newChild

/-- Move the elements of a vector into a new buffer and end the old elements. Part of `nested_.push_back`, Rule.cpp:139-143. -/
def relocate (as : List Addr) : P (List Addr) :=
  mapVec (fun a => do
    let b ← moveRule a
    destroyRule a
    pure b) as

/-- `push_back` either has room or moves the elements into a new buffer (`realloc`). Rule.cpp:139-160. -/
def makeRoom (realloc : Bool) (as : List Addr) : P (List Addr) :=
  if realloc then relocate as else pure as

/-- `Rule::append_nested(Rule nested)`, Rule.cpp:139-143. -/
def appendNested (realloc : Bool) (this nested : Addr) : P Unit := do
  let s ← moveRule nested
  let o ← loadRule this
  let elems ← makeRoom realloc o.nested
  let o ← loadRule this
  store this (.rule { o with nested := elems ++ [s] })
  destroyRule nested

/-- `Rule::append_match`, Rule.cpp:145-149. -/
def appendMatch (this : Addr) (m : Option Addr) : P Unit := do
  let o ← loadRule this
  store this (.rule { o with ms := o.ms ++ [m] })

/-- `Rule::append_capture`, Rule.cpp:151-155. -/
def appendCapture (this : Addr) (c : Option Addr) : P Unit := do
  let o ← loadRule this
  store this (.rule { o with caps := o.caps ++ [c] })

/-- `Rule::set_tag`, Rule.cpp:162-166. -/
def setTag (this : Addr) (t : RTag) : P Unit := do
  let o ← loadRule this
  store this (.rule { o with tag := t })

/-- `Rule::set_optional`, Rule.cpp:173-177. -/
def setOptional (this : Addr) (b : Bool) : P Unit := do
  let o ← loadRule this
  store this (.rule { o with optional := b })

/-- `Rule::set_greedy`, Rule.cpp:184-188. -/
def setGreedy (this : Addr) (b : Bool) : P Unit := do
  let o ← loadRule this
  store this (.rule { o with greedy := b })

/-- `Rule::set_tagname`, Rule.cpp:195-199. -/
def setTagname (this : Addr) (s : Str) : P Unit := do
  let o ← loadRule this
  store this (.rule { o with tagname := some s })

end Hext.Mem
