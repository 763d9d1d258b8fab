import Verif.Model.NodeUtil
/-!
# Model of the Match and Capture classes
-/

namespace Hext

/-- `CaptureFunction`: the builtins of libhext/src/Builtins.cpp:40-49 and user supplied functions.
A user function sees the node through the heap; it is assumed pure and total. -/
inductive CaptureFn
  | text
  | innerHtml
  | stripTags
  | user (f : Heap → Ptr → Str)

/-- Calling a `CaptureFunction` with a non-null node. Builtins.cpp:30-49. -/
def CaptureFn.call (h : Heap) (node : Ptr) : CaptureFn → E Str
  | .text => nodeText h node
  | .innerHtml => nodeInnerHtml h node
  | .stripTags => Hext.stripTags h false node
  | .user f => pure (f h node)

/-- The concrete `Match` classes. `Option` models nullable members (`std::function`, `unique_ptr`).
`nthChild`: `first` is the bit `Option::First` (if unset, positions count from the end), `ofType` the
bit `Option::OfType`. Match.h:41-56 and the headers of the classes. -/
inductive Match
  | attribute (name : Str) (test : Option ValueTest)
  | attributeCount (n : Nat)
  | childCount (n : Nat)
  | function (f : Option (Heap → Ptr → Bool))
  | functionValue (f : Option CaptureFn) (test : Option ValueTest)
  | negate (ms : List (Option Match))
  | nthChild (step shift : Int) (first ofType : Bool)
  | onlyChild (ofType : Bool)
  | typeRegex (rx : Regex)

/-- `INT_MAX`, `INT_MIN` of a 32-bit `int`. Limits of the members NthChildMatch.h:148-154. -/
def intMax : Int := 2147483647
/-- `INT_MIN` of a 32-bit `int`: limit of the members NthChildMatch.h:148-154. -/
def intMin : Int := -2147483648

/-- The result of a signed `int` operation; leaving the range is UB. As in NthChildMatch.cpp:56-80, 108, 146. -/
def mkInt (x : Int) : E Int := if intMin ≤ x ∧ x ≤ intMax then pure x else throw .ub

/-- Does this child count as a sibling: an element, of tag `countTag` if that is given
(`none` is `HtmlTag::ANY`). NthChildMatch.cpp:105-108 and 143-146. -/
def countsAs (countTag : Option Tag) (k : Kind) : Bool :=
  match k.elem? with
  | none => false
  | some e => match countTag with
    | none => true
    | some t => e.tag == t

/-- The loop of `count_preceding_siblings`, NthChildMatch.cpp:100-112, at index `i`; `fuel` is the number
of iterations left (`index_within_parent + 1 - i`). -/
def countPrecedingLoop (h : Heap) (children : List Ptr) (node : Ptr) (countTag : Option Tag)
    (i : Nat) (count : Int) : (fuel : Nat) → E Int
  | 0 => pure 0
  | fuel + 1 => do
    E.assert (i < children.length)
    let child ← getAt children i
    let c ← load h child
    let count ← if countsAs countTag c.kind then mkInt (count + 1) else pure count
    if node == child then pure count
    else countPrecedingLoop h children node countTag (i + 1) count fuel

/-- `count_preceding_siblings`, NthChildMatch.cpp:83-115. -/
def countPreceding (h : Heap) (node : Ptr) (countTag : Option Tag) : E Int := do
  let n ← load h node
  match n.parent with
  | none => pure 0
  | some pp => do
    let parent ← load h pp
    if !parent.kind.isElement then pure 0
    else do
      E.assert (n.index < parent.children.length)
      countPrecedingLoop h parent.children node countTag 0 0 (n.index + 1)

/-- The loop of `count_following_siblings`, NthChildMatch.cpp:137-150: `i` counts down,
`for(i = length; i-- > index; )`. -/
def countFollowingLoop (h : Heap) (children : List Ptr) (node : Ptr) (index : Nat)
    (countTag : Option Tag) (count : Int) : (i : Nat) → E Int
  | 0 => pure 0  -- `i-- > index` is false for `i = 0`
  | i + 1 =>
    if i + 1 > index then do
      E.assert (i < children.length)
      let child ← getAt children i
      let c ← load h child
      let count ← if countsAs countTag c.kind then mkInt (count + 1) else pure count
      if node == child then pure count
      else countFollowingLoop h children node index countTag count i
    else pure 0

/-- `count_following_siblings`, NthChildMatch.cpp:117-153. -/
def countFollowing (h : Heap) (node : Ptr) (countTag : Option Tag) : E Int := do
  let n ← load h node
  match n.parent with
  | none => pure 0
  | some pp => do
    let parent ← load h pp
    if !parent.kind.isElement then pure 0
    else if parent.children.length = 0 then pure 0
    else do
      E.assert (n.index < parent.children.length)
      countFollowingLoop h parent.children node n.index countTag 0 parent.children.length

/-- `NthChildMatch::matches`, NthChildMatch.cpp:40-81. `%` is C++ remainder (truncated). -/
def nthChildMatches (h : Heap) (step shift : Int) (first ofType : Bool) (node : Ptr) : E Bool := do
  let n ← load h node
  match n.kind with
  | .element e => do
    let countTag := if ofType then some e.tag else none
    let pos ← if first then countPreceding h node countTag else countFollowing h node countTag
    if step = 0 then pure (pos == shift)
    else if step > 0 then
      if pos < shift then pure false
      else do
        let d ← mkInt (pos - shift)
        pure (d.tmod step == 0)
    else
      if pos > shift then pure false
      else do
        let d ← mkInt (shift - pos)
        let s ← mkInt (-1 * step)
        pure (d.tmod s == 0)
  | _ => pure false

/-- The loop of `count_child_elements`, ChildCountMatch.cpp:46-51 (`unsigned int count`; it cannot wrap
because `children.length` is itself an `unsigned int`). -/
def countChildElements (h : Heap) : List Ptr → Nat → E Nat
  | [], count => pure count
  | c :: cs, count => do
    let n ← load h c
    countChildElements h cs (if n.kind.isElement then count + 1 else count)

/-- The loop of `OnlyChildMatch::matches`, OnlyChildMatch.cpp:41-50. -/
def onlyChildLoop (h : Heap) (node : Ptr) (countTag : Option Tag) : List Ptr → E Bool
  | [] => pure true
  | c :: cs => do
    let n ← load h c
    if n.kind.isElement && node != c && countsAs countTag n.kind then pure false
    else onlyChildLoop h node countTag cs

/-- `OnlyChildMatch::matches`, OnlyChildMatch.cpp:28-51. -/
def onlyChildMatches (h : Heap) (ofType : Bool) (node : Ptr) : E Bool := do
  let n ← load h node
  match n.kind with
  | .element e =>
    match n.parent with
    | none => pure false
    | some pp => do
      let parent ← load h pp
      if !parent.kind.isElement then pure false
      else onlyChildLoop h node (if ofType then some e.tag else none) parent.children
  | _ => pure false

/-- `AttributeMatch::matches`, AttributeMatch.cpp:46-66. -/
def attributeMatches (rx : RxEngine) (h : Heap) (name : Str) (test : Option ValueTest) (node : Ptr) :
    E Bool := do
  let n ← load h node
  match n.kind with
  | .element e =>
    let gAttr := getAttribute e.attrs name
    match test with
    | none => pure gAttr.isSome
    | some t =>
      match gAttr with
      | none => t.test rx none
      | some a => match a.value with
        | some v => t.test rx (some v)
        | none => pure false
  | _ => pure false

/-- `TypeRegexMatch::matches`, TypeRegexMatch.cpp:30-47. -/
def typeRegexMatches (rx : RxEngine) (h : Heap) (r : Regex) (node : Ptr) : E Bool := do
  let n ← load h node
  match n.kind with
  | .element e =>
    match e.tag with
    | .unknown => pure (rx.search r (e.origName.getD [])).isSome
    | t => pure (rx.search r t.normalizedName).isSome
  | _ => pure (rx.search r []).isSome

mutual
/-- `Match::matches(node)` for a non-null node. AttributeCountMatch.cpp:28-36, ChildCountMatch.cpp:28-35,
FunctionMatch.cpp:29-36, FunctionValueMatch.cpp:48-56, NegateMatch.cpp:58-69 and the functions above. -/
def Match.matches (rx : RxEngine) (h : Heap) (node : Ptr) : Match → E Bool
  | .attribute name test => attributeMatches rx h name test node
  | .attributeCount k => do
    let n ← load h node
    match n.kind with
    | .element e => pure (k == e.attrs.length)
    | _ => pure false
  | .childCount k => do
    let n ← load h node
    match n.kind with
    | .element _ => do
      let c ← countChildElements h n.children 0
      pure (k == c)
    | _ => pure false
  | .function f =>
    match f with
    | none => throw .assertFail
    | some f => pure (f h node)
  | .functionValue f test =>
    match f with
    | none => throw .assertFail
    | some f =>
      match test with
      | none => pure false
      | some t => do
        let str ← f.call h node
        t.test rx (some (cstr str))
  | .negate ms => negateLoop rx h node ms
  | .nthChild step shift first ofType => nthChildMatches h step shift first ofType node
  | .onlyChild ofType => onlyChildMatches h ofType node
  | .typeRegex r => typeRegexMatches rx h r node

/-- The loop of `NegateMatch::matches`, NegateMatch.cpp:64-68. -/
def negateLoop (rx : RxEngine) (h : Heap) (node : Ptr) : List (Option Match) → E Bool
  | [] => pure true
  | m :: ms => do
    if (← optMatches rx h node m) then pure false else negateLoop rx h node ms

/-- `match && match->matches(node)`. NegateMatch.cpp:65. -/
def optMatches (rx : RxEngine) (h : Heap) (node : Ptr) : Option Match → E Bool
  | none => pure false
  | some m => m.matches rx h node
end

/-- The concrete `Capture` classes. AttributeCapture.h:95-101, FunctionCapture.h:94-100. -/
inductive Capture
  | attribute (attrName resultName : Str) (pipe : Option Pipe)
  | function (f : Option CaptureFn) (resultName : Str) (pipe : Option Pipe)

/-- `pipe_ ? pipe_->pipe(str) : str`. AttributeCapture.cpp:68-72, FunctionCapture.cpp:61-65. -/
def applyPipe (rx : RxEngine) (pipe : Option Pipe) (s : Str) : E Str :=
  match pipe with
  | none => pure s
  | some p => p.pipe rx s

/-- `Capture::capture(node)` for a non-null node. AttributeCapture.cpp:52-74, FunctionCapture.cpp:52-67. -/
def Capture.capture (rx : RxEngine) (h : Heap) (node : Ptr) : Capture → E (Option (Str × Str))
  | .attribute attrName name pipe => do
    let n ← load h node
    match n.kind with
    | .element e =>
      match getAttribute e.attrs attrName with
      | none => pure none
      | some a => match a.value with
        | none => pure none
        | some v => do pure (some (name, ← applyPipe rx pipe v))
    | _ => pure none
  | .function f name pipe =>
    match f with
    | none => throw .assertFail
    | some f => do
      let str ← f.call h node
      pure (some (name, ← applyPipe rx pipe str))

end Hext
