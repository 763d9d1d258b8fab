import Verif.Model.Dom
/-!
# Model of libhext/src/NodeUtil.cpp: text extraction and serialisation
-/

namespace Hext

/-- `TagWrapsText`, NodeUtil.cpp:252-302: false for the listed inline tags. -/
def inlineTagNames : List String := [
  "a", "abbr", "acronym", "b", "bdo", "big", "cite", "code", "del", "dfn", "em", "fieldset", "font",
  "i", "img", "ins", "kbd", "label", "legend", "map", "object", "q", "s", "samp", "small", "span",
  "strike", "strong", "sub", "sup", "tt", "u", "var"]

/-- `TagWrapsText`, NodeUtil.cpp:252-302. -/
def tagWrapsText : Tag → Bool
  | .known n => !(inlineTagNames.map lit).contains n
  | .unknown => true

/-- `TagIsSelfClosing`, NodeUtil.cpp:216-249. -/
def selfClosingTagNames : List String := [
  "area", "base", "br", "col", "embed", "hr", "img", "input", "keygen", "link", "meta", "param",
  "source", "track", "wbr"]

/-- `TagIsSelfClosing`, NodeUtil.cpp:216-250. -/
def tagIsSelfClosing : Tag → Bool
  | .known n => (selfClosingTagNames.map lit).contains n
  | .unknown => false

mutual
/-- `StripTags`, NodeUtil.cpp:32-69 (for a non-null node). -/
def stripTags (h : Heap) (smartWrap : Bool) (node : Ptr) : E Str := do
  let n ← load h node
  match n.kind with
  | .element _ => stripTagsLoop h smartWrap n.children []
  | .text t => pure t
  | .whitespace t => pure t
  | _ => pure []
partial_fixpoint

/-- The loop over the children, NodeUtil.cpp:41-58. -/
def stripTagsLoop (h : Heap) (smartWrap : Bool) (children : List Ptr) (innerText : Str) : E Str :=
  match children with
  | [] => pure innerText
  | c :: cs => do
    let child ← load h c
    match smartWrap, child.kind with
    | true, .element e => do
      let wrap := tagWrapsText e.tag
      let innerText := if wrap then innerText ++ [10] else innerText
      let s ← stripTags h smartWrap c
      let innerText := innerText ++ s
      let innerText := if wrap then innerText ++ [10] else innerText
      stripTagsLoop h smartWrap cs innerText
    | _, _ => do
      let s ← stripTags h smartWrap c
      stripTagsLoop h smartWrap cs (innerText ++ s)
partial_fixpoint
end

/-- `NodeText`, NodeUtil.cpp:27-30. -/
def nodeText (h : Heap) (node : Ptr) : E Str := do
  trimAndCollapseWs (← stripTags h true node)

/-- `std::quoted(s)` with delimiter `"` and escape `\`. Called in NodeUtil.cpp:165. -/
def stdQuoted (s : Str) : Str :=
  34 :: (s.flatMap fun c => if c == 34 || c == 92 then [92, c] else [c]) ++ [34]

/-- `SerializeDocument`, NodeUtil.cpp:132-139. -/
def serializeDocument (d : DocInfo) : Str :=
  lit "<!DOCTYPE"
    ++ (match d.name with | some s => 32 :: s | none => [])
    ++ (match d.publicId with | some s => 32 :: s | none => [])
    ++ (match d.systemId with | some s => 32 :: s | none => [])
    ++ lit ">\n"

/-- `SerializeAttribute`, NodeUtil.cpp:141-167. -/
def serializeAttribute (a : Attr) : Str :=
  32 :: (match a.ns with
    | .none => []
    | .xlink => lit "xlink:"
    | .xml => lit "xml:"
    | .xmlns => lit "xmlns:")
  ++ a.name
  ++ (match a.value with
    | some v => 61 :: stdQuoted v
    | none => [])

/-- `SerializeElementTag`, NodeUtil.cpp:202-214. Simplification: `gumbo_tag_from_original_text` on a
null `original_tag` yields an empty name (Gumbo returns early; length 0). -/
def serializeElementTag (e : Elem) : Str :=
  match e.tag with
  | .unknown => e.origName.getD []
  | .known n => n

mutual
/-- `SerializeNode`, NodeUtil.cpp:87-130; the text it writes to the stream. -/
def serializeNode (h : Heap) (node : Ptr) : E Str := do
  let n ← load h node
  match n.kind with
  | .document d => pure (if d.hasDoctype then serializeDocument d else [])
  | .template e => serializeElement h e n.children
  | .element e => serializeElement h e n.children
  | .cdata _ => pure []
  | .comment t => pure (lit "<!--" ++ t ++ lit "-->")
  | .text t => pure t
  | .whitespace t => pure t
partial_fixpoint

/-- `SerializeElement`, NodeUtil.cpp:169-200. -/
def serializeElement (h : Heap) (e : Elem) (children : List Ptr) : E Str := do
  let head := 60 :: serializeElementTag e ++ (e.attrs.flatMap serializeAttribute)
  if !tagIsSelfClosing e.tag then do
    let inner ← serializeChildren h children
    pure (head ++ [62] ++ inner ++ lit "</" ++ serializeElementTag e ++ [62])
  else
    pure (head ++ lit "/>")
partial_fixpoint

/-- The loops over the children, NodeUtil.cpp:78-82 and 184-188. -/
def serializeChildren (h : Heap) (children : List Ptr) : E Str :=
  match children with
  | [] => pure []
  | c :: cs => do
    let a ← serializeNode h c
    let b ← serializeChildren h cs
    pure (a ++ b)
partial_fixpoint
end

/-- `NodeInnerHtml`, NodeUtil.cpp:71-85 (for a non-null node). -/
def nodeInnerHtml (h : Heap) (node : Ptr) : E Str := do
  let n ← load h node
  match n.kind with
  | .element _ => serializeChildren h n.children
  | _ => pure []

end Hext
