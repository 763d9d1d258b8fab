import Verif.Model.Match
/-!
# The builtin functions with a bounded stack

Model/NodeUtil.lean again, with the number `d` of stack frames that are still free. `NodeText`, `NodeInnerHtml`, `StripTags`,
`SerializeNode` and `SerializeElement` take one frame each and give it back when they return. A call without a free frame is
undefined behaviour. Loops take no frame.

Not counted: functions that call none of these (`SerializeAttribute`, `TrimAndCollapseWs`, streams). The model does not say how
large a frame is.
-/

namespace Hext.TextStack

/-- The loop over the children, NodeUtil.cpp:41-58. -/
def stripTagsLoop (h : Heap) (strip : Ptr → E Str) (smartWrap : Bool) : List Ptr → Str → E Str
  | [], innerText => pure innerText
  | c :: cs, innerText => do
    let child ← load h c
    match smartWrap, child.kind with
    | true, .element e => do
      let wrap := tagWrapsText e.tag
      let innerText := if wrap then innerText ++ [10] else innerText
      let s ← strip c
      let innerText := innerText ++ s
      let innerText := if wrap then innerText ++ [10] else innerText
      stripTagsLoop h strip smartWrap cs innerText
    | _, _ => do
      let s ← strip c
      stripTagsLoop h strip smartWrap cs (innerText ++ s)

/-- `StripTags`, NodeUtil.cpp:32-69. -/
def stripTags (h : Heap) (smartWrap : Bool) : (d : Nat) → Ptr → E Str
  | 0, _ => throw .ub
  | d + 1, node => do
    let n ← load h node
    match n.kind with
    | .element _ => stripTagsLoop h (stripTags h smartWrap d) smartWrap n.children []
    | .text t => pure t
    | .whitespace t => pure t
    | _ => pure []

/-- The loops over the children, NodeUtil.cpp:78-82 and 184-188. -/
def serializeChildren (ser : Ptr → E Str) : List Ptr → E Str
  | [] => pure []
  | c :: cs => do
    let a ← ser c
    let b ← serializeChildren ser cs
    pure (a ++ b)

mutual
/-- `SerializeNode`, NodeUtil.cpp:87-130. -/
def serializeNode (h : Heap) : (d : Nat) → Ptr → E Str
  | 0, _ => throw .ub
  | d + 1, node => do
    let n ← load h node
    match n.kind with
    | .document i => pure (if i.hasDoctype then serializeDocument i else [])
    | .template e => serializeElement h d e n.children
    | .element e => serializeElement h d e n.children
    | .cdata _ => pure []
    | .comment t => pure (lit "<!--" ++ t ++ lit "-->")
    | .text t => pure t
    | .whitespace t => pure t

/-- `SerializeElement`, NodeUtil.cpp:169-200. -/
def serializeElement (h : Heap) : (d : Nat) → Elem → List Ptr → E Str
  | 0, _, _ => throw .ub
  | d + 1, e, children => do
    let head := 60 :: serializeElementTag e ++ (e.attrs.flatMap serializeAttribute)
    if !tagIsSelfClosing e.tag then do
      let inner ← serializeChildren (serializeNode h d) children
      pure (head ++ [62] ++ inner ++ lit "</" ++ serializeElementTag e ++ [62])
    else
      pure (head ++ lit "/>")
end

/-- `NodeText`, NodeUtil.cpp:27-30. -/
def nodeText (h : Heap) : (d : Nat) → Ptr → E Str
  | 0, _ => throw .ub
  | d + 1, node => do trimAndCollapseWs (← stripTags h true d node)

/-- `NodeInnerHtml`, NodeUtil.cpp:71-85. -/
def nodeInnerHtml (h : Heap) : (d : Nat) → Ptr → E Str
  | 0, _ => throw .ub
  | d + 1, node => do
    let n ← load h node
    match n.kind with
    | .element _ => serializeChildren (serializeNode h d) n.children
    | _ => pure []

/-- The builtin functions, Builtins.cpp:30-49. What a function of the user does is not known. -/
def call (h : Heap) (d : Nat) (node : Ptr) : CaptureFn → E Str
  | .text => nodeText h d node
  | .innerHtml => nodeInnerHtml h d node
  | .stripTags => stripTags h false d node
  | .user f => pure (f h node)

end Hext.TextStack
