import Verif.Spec.Doc
import Verif.Spec.Strings
import Verif.Model.Match
/-!
# The text and the HTML of a node

The values of the builtin functions on documents as trees.
-/

namespace Hext

/-- The elements that flow with the text around them. Every other element is a block: `@text` puts line
breaks around it. -/
def inlineElements : List Str :=
  [lit "a", lit "abbr", lit "acronym", lit "b", lit "bdo", lit "big", lit "cite", lit "code", lit "del", lit "dfn",
   lit "em", lit "fieldset", lit "font", lit "i", lit "img", lit "ins", lit "kbd", lit "label", lit "legend", lit "map",
   lit "object", lit "q", lit "s", lit "samp", lit "small", lit "span", lit "strike", lit "strong", lit "sub",
   lit "sup", lit "tt", lit "u", lit "var"]

/-- The elements HTML calls void: they have no contents and no end tag. -/
def voidElements : List Str :=
  [lit "area", lit "base", lit "br", lit "col", lit "embed", lit "hr", lit "img", lit "input", lit "keygen",
   lit "link", lit "meta", lit "param", lit "source", lit "track", lit "wbr"]

/-- Is this an element that is surrounded by line breaks in `@text`? Elements HTML does not know are. -/
def wrapsText : Kind → Bool
  | .element e => decide (∀ n ∈ inlineElements, e.tag ≠ .known n)
  | _ => false

/-- Is this a void element? -/
def Elem.isVoid (e : Elem) : Bool := decide (∃ n ∈ voidElements, e.tag = .known n)

/-- The name of an element: the name of its tag if HTML knows it, else the name as written. -/
def Elem.name (e : Elem) : Str :=
  match e.tag, e.origName with
  | .known n, _ => n
  | .unknown, some n => n
  | .unknown, none => []

/-- A string between quotes; quotes and backslashes inside are preceded by a backslash. -/
def inQuotes (v : Str) : Str := lit "\"" ++ (v.flatMap fun c => if c = 34 ∨ c = 92 then [92, c] else [c]) ++ lit "\""

/-- The name of an attribute with the prefix of its namespace. -/
def Attr.fullName (a : Attr) : Str :=
  match a.ns with
  | .none => a.name
  | .xlink => lit "xlink:" ++ a.name
  | .xml => lit "xml:" ++ a.name
  | .xmlns => lit "xmlns:" ++ a.name

/-- An attribute as HTML: its name, and its quoted value if it has one. -/
def Attr.html (a : Attr) : Str :=
  match a.value with
  | some v => lit " " ++ a.fullName ++ lit "=" ++ inQuotes v
  | none => lit " " ++ a.fullName

/-- The doctype of a document as HTML. -/
def DocInfo.html (d : DocInfo) : Str :=
  lit "<!DOCTYPE" ++ ([d.name, d.publicId, d.systemId].filterMap id).flatMap (fun s => lit " " ++ s) ++ lit ">\n"

mutual
/-- The text below a node: its text and whitespace leaves, in document order, looking only into elements.
If `sw` is set, the contents of every block-level element below the node are surrounded by newlines. -/
def stripVal (sw : Bool) : Tree → Str
  | .node _ k kids =>
    match k with
    | .element _ => stripValL sw kids
    | .text t => t
    | .whitespace t => t
    | _ => []
def stripValL (sw : Bool) : List Tree → Str
  | [] => []
  | t :: ts =>
    (if sw && wrapsText t.kind then [10] ++ stripVal sw t ++ [10] else stripVal sw t) ++ stripValL sw ts
end

mutual
/-- A node as HTML. -/
def serialVal : Tree → Str
  | .node _ k kids =>
    match k with
    | .document d => if d.hasDoctype then d.html else []
    | .template e => serialElemVal e (serialValL kids)
    | .element e => serialElemVal e (serialValL kids)
    | .cdata _ => []
    | .comment t => lit "<!--" ++ t ++ lit "-->"
    | .text t => t
    | .whitespace t => t
def serialValL : List Tree → Str
  | [] => []
  | t :: ts => serialVal t ++ serialValL ts
/-- An element as HTML, given its contents. -/
def serialElemVal (e : Elem) (inner : Str) : Str :=
  if e.isVoid then lit "<" ++ e.name ++ e.attrs.flatMap Attr.html ++ lit "/>"
  else lit "<" ++ e.name ++ e.attrs.flatMap Attr.html ++ lit ">" ++ inner ++ lit "</" ++ e.name ++ lit ">"
end

/-- The value a capture function has on a stored tree. -/
def CaptureFn.val (h : Heap) (t : Tree) : CaptureFn → Str
  | .text => Spec.unwords (Spec.words (stripVal true t))
  | .innerHtml => if t.kind.isElement then serialValL t.kids else []
  | .stripTags => stripVal false t
  | .user f => f h t.ptr

mutual
/-- The text and whitespace leaves below a node, in document order, looking only into elements. -/
def Tree.leaves : Tree → List Str
  | .node _ k kids =>
    match k with
    | .element _ => leavesL kids
    | .text t => [t]
    | .whitespace t => [t]
    | _ => []
def leavesL : List Tree → List Str
  | [] => []
  | t :: ts => t.leaves ++ leavesL ts
end

/-- `s` is the concatenation of the strings, with newlines inserted between them (or at the ends). -/
inductive Spread : List Str → Str → Prop
  | nil : Spread [] []
  | leaf {l ls s} : Spread ls s → Spread (l :: ls) (l ++ s)
  | brk {ls s} : Spread ls s → Spread ls (10 :: s)

/-- A piece of HTML. -/
inductive HtmlTok
  | open (name : Str) (attrs : List Attr)
  | close (name : Str)
  | void (name : Str) (attrs : List Attr)
  | comment (t : Str)
  | text (t : Str)

def HtmlTok.render : HtmlTok → Str
  | .open name attrs => lit "<" ++ name ++ attrs.flatMap Attr.html ++ lit ">"
  | .close name => lit "</" ++ name ++ lit ">"
  | .void name attrs => lit "<" ++ name ++ attrs.flatMap Attr.html ++ lit "/>"
  | .comment t => lit "<!--" ++ t ++ lit "-->"
  | .text t => t

mutual
/-- The pieces of a node that is not the document node: every element (and template) has an opening and a
closing tag around the pieces of its children, or a single tag if it is a void element. -/
def Tree.toks : Tree → List HtmlTok
  | .node _ k kids =>
    match k with
    | .element e | .template e =>
      if e.isVoid then [.void e.name e.attrs]
      else .open e.name e.attrs :: (toksL kids ++ [.close e.name])
    | .comment t => [.comment t]
    | .text t | .whitespace t => [.text t]
    | _ => []
def toksL : List Tree → List HtmlTok
  | [] => []
  | t :: ts => t.toks ++ toksL ts
end

/-- Opening and closing tags are paired like parentheses. -/
inductive Balanced : List HtmlTok → Prop
  | nil : Balanced []
  | void {n as ts} : Balanced ts → Balanced (.void n as :: ts)
  | comment {t ts} : Balanced ts → Balanced (.comment t :: ts)
  | text {t ts} : Balanced ts → Balanced (.text t :: ts)
  | elem {n as inner ts} : Balanced inner → Balanced ts → Balanced (.open n as :: (inner ++ .close n :: ts))

/-- Reads a quoted string up to its closing quote; a backslash stands for the byte behind it. Returns the
contents and what follows. -/
def unquoteBody : Str → Option (Str × Str)
  | [] => none
  | c :: s =>
    if c = 34 then some ([], s)
    else if c = 92 then
      match s with
      | [] => none
      | d :: s => (unquoteBody s).map fun r => (d :: r.1, r.2)
    else (unquoteBody s).map fun r => (c :: r.1, r.2)

def unquote : Str → Option (Str × Str)
  | 34 :: s => unquoteBody s
  | _ => none

/-- Is no node below a document node? (Gumbo has one document node, the root of everything.) -/
def noDocument : List Tree → Prop
  | [] => True
  | .node _ k kids :: ts => (∀ d, k ≠ .document d) ∧ noDocument kids ∧ noDocument ts

end Hext
