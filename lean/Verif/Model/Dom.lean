import Verif.Model.Values
/-!
# The document: Gumbo's node graph

Gumbo is not part of the repository; this file models the data structures of `gumbo.h` that hext
reads, as a heap of nodes addressed by pointers, and the few Gumbo functions hext calls.
-/

namespace Hext

/-- The address of a `GumboNode`. Taken by Rule.h:258, 263, Match.h:41, Capture.h:59. -/
abbrev Ptr := Nat

/-- `GumboTag`: known tags are identified by their normalised name (`gumbo_normalized_tagname`),
all others are `GUMBO_TAG_UNKNOWN`. Used in HtmlTag.h:30-184, Rule.cpp:211, 222, NodeUtil.cpp:207-212. -/
inductive Tag
  | known (name : Str)
  | unknown
  deriving DecidableEq, Repr

/-- The names of the known tags: libhext/include/hext/HtmlTag.h:30-337 lists one enumerator per
`GUMBO_TAG_*` constant. -/
def knownTagNames : List String := [
  "html", "head", "title", "base", "link", "meta", "style", "script", "noscript", "template",
  "body", "article", "section", "nav", "aside", "h1", "h2", "h3", "h4", "h5", "h6", "hgroup",
  "header", "footer", "address", "p", "hr", "pre", "blockquote", "ol", "ul", "li", "dl", "dt",
  "dd", "figure", "figcaption", "main", "div", "a", "em", "strong", "small", "s", "cite", "q",
  "dfn", "abbr", "data", "time", "code", "var", "samp", "kbd", "sub", "sup", "i", "b", "u",
  "mark", "ruby", "rt", "rp", "bdi", "bdo", "span", "br", "wbr", "ins", "del", "image", "img",
  "iframe", "embed", "object", "param", "video", "audio", "source", "track", "canvas", "map",
  "area", "math", "mi", "mo", "mn", "ms", "mtext", "mglyph", "malignmark", "annotation-xml",
  "svg", "foreignobject", "desc", "table", "caption", "colgroup", "col", "tbody", "thead",
  "tfoot", "tr", "td", "th", "form", "fieldset", "legend", "label", "input", "button", "select",
  "datalist", "optgroup", "option", "textarea", "keygen", "output", "progress", "meter",
  "details", "summary", "menu", "menuitem", "applet", "acronym", "bgsound", "dir", "frame",
  "frameset", "noframes", "isindex", "listing", "xmp", "nextid", "noembed", "plaintext", "rb",
  "strike", "basefont", "big", "blink", "center", "font", "marquee", "multicol", "nobr",
  "spacer", "tt", "rtc"]

/-- `gumbo_tag_enum` (case-insensitive lookup of a tag name). Called in Parser.cpp:2482, 2517 and Rule.cpp:47. -/
def gumboTagEnum (s : Str) : Tag :=
  let l := s.map toLowerB
  if (knownTagNames.map lit).contains l then .known l else .unknown

/-- `gumbo_normalized_tagname`; the unknown tag has the empty name. Called in Parser.cpp:2577, 2608 and NodeUtil.cpp:212. -/
def Tag.normalizedName : Tag → Str
  | .known n => n
  | .unknown => []

/-- `GumboAttributeNamespaceEnum`. Used in NodeUtil.cpp:141-167. -/
inductive AttrNs
  | none | xlink | xml | xmlns
  deriving DecidableEq, Repr

/-- `GumboAttribute`. `value = none` is a null pointer. Simplification: `name` is never null (Gumbo
always sets it). Strings are C strings without their terminating NUL.
Used in AttributeMatch.cpp:52, AttributeCapture.cpp:59, NodeUtil.cpp:141-167. -/
structure Attr where
  ns : AttrNs := .none
  name : Str
  value : Option Str
  deriving DecidableEq, Repr

/-- `GumboElement` without its children. `origName`: what `gumbo_tag_from_original_text` makes of
`original_tag`, `none` when `original_tag` is null or empty (e.g. an element implied by the parser).
Used in Rule.cpp:201-244, NodeUtil.cpp:169-214. -/
structure Elem where
  tag : Tag
  origName : Option Str := none
  attrs : List Attr := []
  deriving DecidableEq, Repr

/-- `GumboDocument` without its children. Used in NodeUtil.cpp:132-139. -/
structure DocInfo where
  hasDoctype : Bool := false
  name : Option Str := none
  publicId : Option Str := none
  systemId : Option Str := none
  deriving DecidableEq, Repr

/-- `GumboNode::type` with the member of the union `v` that the type selects.
Used in Rule.cpp:201-244, RuleMatching.cpp, NodeUtil.cpp:27-214. -/
inductive Kind
  | document (d : DocInfo)
  | element (e : Elem)
  | template (e : Elem)
  | text (t : Str)
  | cdata (t : Str)
  | comment (t : Str)
  | whitespace (t : Str)
  deriving DecidableEq, Repr

/-- `type == GUMBO_NODE_ELEMENT`. Tested in Rule.cpp:208, NodeUtil.cpp:38, 307. -/
def Kind.isElement : Kind → Bool
  | .element _ => true
  | _ => false

/-- `v.element`, when `type == GUMBO_NODE_ELEMENT`. Read in Rule.cpp:201-244, NodeUtil.cpp:169-214. -/
def Kind.elem? : Kind → Option Elem
  | .element e => some e
  | _ => none

/-- `GumboNode`. `children` is the child vector of a document, element or template node. Used in Rule.cpp:201-244, NodeUtil.cpp:27-317. -/
structure GNode where
  kind : Kind
  children : List Ptr
  parent : Option Ptr
  index : Nat
  deriving DecidableEq, Repr

/-- The memory that holds the nodes; `none` is an address where no node lives. Made by `gumbo_parse_with_options`, Html.cpp:25, 33. -/
abbrev Heap := Ptr → Option GNode

/-- Dereference a node pointer. As in Rule.cpp:208, NodeUtil.cpp:38, 73, 307. -/
def load (h : Heap) (p : Ptr) : E GNode :=
  match h p with
  | some n => pure n
  | none => throw .ub

/-- `strcasecmp(a, b) == 0`. Part of `gumbo_get_attribute` (AttributeMatch.cpp:52) and `gumbo_string_equals_ignore_case` (Rule.cpp:232). -/
def eqIgnoreCase (a b : Str) : Bool := a.map toLowerB == b.map toLowerB

/-- `gumbo_get_attribute`: the first attribute whose name equals `name` up to case.
Called in AttributeMatch.cpp:52, AttributeCapture.cpp:59. -/
def getAttribute (attrs : List Attr) (name : Str) : Option Attr :=
  attrs.find? fun a => eqIgnoreCase a.name (cstr name)

/-- `NextNode`, libhext/src/NodeUtil.cpp:305-317. Note that `node->parent` is dereferenced without a
check. -/
def nextNode (h : Heap) : Option Ptr → E (Option Ptr)
  | none => pure none
  | some p => do
    let n ← load h p
    match n.parent with
    | none => throw .ub
    | some pp => do
      let parent ← load h pp
      if !parent.kind.isElement then pure none
      else
        let nextSiblingIndex := n.index + 1
        pure parent.children[nextSiblingIndex]?

end Hext
