import Verif.Model.RuleMemory
/-!
# Extraction with a rule in memory

The extraction functions only read rules (`const Rule&`, `const Rule *`). `readRule` collects what they
can see from a rule object, and `extractAt` is `Rule::extract` of that object.
-/

namespace Hext.Mem

/-- A member that is a `std::unique_ptr`, as `matches` and `capture` see it. Rule.cpp:239-241, 253-257. -/
def readPtr {α} (f : Addr → P α) : Option Addr → P (Option α)
  | none => pure none
  | some a => do pure (some (← f a))

open Lean.Order in
@[partial_fixpoint_monotone]
theorem monotone_readPtr {γ α} [PartialOrder γ] (f : γ → Addr → P α) (p : Option Addr)
    (hf : monotone f) : monotone (fun x => readPtr (f x) p) := by
  cases p with
  | none => exact monotone_const _
  | some a =>
    apply monotone_bind
    · exact monotone_apply _ _ hf
    · exact monotone_const _

/-- A pipe as `StringPipe::pipe` sees it, StringPipe.cpp:47-55. -/
def readPipe (a : Addr) : P Pipe := do
  match ← load a with
  | .pipe t next => do
    match ← readPtr readPipe next with
    | none => pure (.last t)
    | some p => pure (.cons t p)
  | _ => throw .ub
partial_fixpoint

/-- A value test as its `operator()` sees it. ValueTest.h:51. -/
def readTest (a : Addr) : P ValueTest := do
  match ← load a with
  | .test t => pure t
  | .negateTest t => do
    match ← readPtr readTest t with
    | none => pure .negateNull
    | some t => pure (.negate t)
  | _ => throw .ub
partial_fixpoint

/-- A match as its `matches` sees it. Match.h:55. -/
def readMatch (a : Addr) : P Match := do
  match ← load a with
  | .match_ m => pure m
  | .attributeMatch name t => do
    let t ← readPtr readTest t
    pure (.attribute name t)
  | .functionValueMatch f t => do
    let t ← readPtr readTest t
    pure (.functionValue f t)
  | .negateMatch ms => do
    let ms ← mapVec (fun p => readPtr readMatch p) ms
    pure (.negate ms)
  | _ => throw .ub
partial_fixpoint

/-- A capture as its `capture` sees it. Capture.h:59. -/
def readCapture (a : Addr) : P Capture := do
  match ← load a with
  | .attributeCapture attr name p => do
    let p ← readPtr readPipe p
    pure (.attribute attr name p)
  | .functionCapture f name p => do
    let p ← readPtr readPipe p
    pure (.function f name p)
  | _ => throw .ub

/-- A rule as the functions of RuleMatching.cpp see it. -/
def readRule (a : Addr) : P Rule := do
  let o ← loadRule a
  let child ← readPtr readRule o.child
  let next ← readPtr readRule o.next
  let nested ← mapVec readRule o.nested
  let ms ← mapVec (readPtr readMatch) o.ms
  let caps ← mapVec (readPtr readCapture) o.caps
  pure (.mk { tag := o.tag, optional := o.optional, greedy := o.greedy, tagname := o.tagname, ms, caps }
    child next nested)
partial_fixpoint

/-- `Rule::extract(const GumboNode *, std::uint64_t) const`, Rule.cpp:273-300, of the rule at `a`. -/
def extractAt (rx : RxEngine) (h : Heap) (a : Addr) (node : Ptr) (maxSearches : UInt64) :
    P (List (List (Str × Str))) := do
  let r ← readRule a
  StateT.lift (extract rx h r node maxSearches)

end Hext.Mem
