import Verif.Model.Stateful
/-!
# The example program extract-href

libhext/examples/extract-href.cpp. Reading the input and Gumbo are left out: the program starts with a document. Poco::URI is a parameter.
-/

namespace Hext.ExtractHref

/-- Poco::URI. `none`: the constructor throws `Poco::SyntaxException`. Used in libhext/examples/extract-href.cpp:57, 62. -/
structure Uris where
  Uri : Type
  /-- `URI(const std::string&)` -/
  parse : Str → Option Uri
  /-- `URI(const URI& base, const std::string& relative)` -/
  resolve : Uri → Str → Option Uri
  /-- `toString()` -/
  text : Uri → Str

/-- `gumbo_get_attribute(&node->v.element.attributes, "href")` and its value, extract-href.cpp:46-55, 72-81. -/
def hrefOf (h : Heap) (node : Ptr) : Option Str :=
  match h node with
  | some n =>
    match n.kind with
    | .element e =>
      match getAttribute e.attrs (lit "href") with
      | some a => a.value
      | none => none
    | _ => none
  | none => none

/-- `has_useful_href`, extract-href.cpp:70-94. -/
def hasUsefulHref (h : Heap) (node : Ptr) : Bool :=
  match hrefOf h node with
  | none => false
  | some v =>
    if v.isEmpty || v.getD 0 0 == 35 then false
    else
      let pre := lit "javascript:"
      if v.length < pre.length then true
      else v.take pre.length != pre

/-- The name of `HrefCapture::capture`. libhext/examples/extract-href.cpp:36-63. -/
def hrefCapture : Heap → Ptr → Str := fun h node => (hrefOf h node).getD []

/-- `HrefCapture::capture`, extract-href.cpp:44-59, as a function that may throw. Simplified: for a node without a value it returns no pair.
Here it returns an empty text, but the rule matches no such node. -/
def capture (u : Uris) (base : u.Uri) : Stateful.Acts Unit := fun _ h node s =>
  match hrefOf h node with
  | none => (some [], s)
  | some v => ((u.resolve base v).map u.text, s)

/-- The rule of `BaseUri`, extract-href.cpp:101-105. -/
def baseRule : Rule := .mk { tag := .tag (.known (lit "base")), caps := [some (.attribute (lit "href") (lit "href") none)] } none none []

/-- `BaseUri`, extract-href.cpp:99-116. -/
def baseUri (rx : RxEngine) (h : Heap) (root : Ptr) : E (Option Str) := do
  let result ← extract rx h baseRule root 0
  match result with
  | [] => pure none
  | m :: _ => pure ((m.find? fun p => p.1 == lit "href").map (·.2))

/-- The rule of `main`, extract-href.cpp:151-153. -/
def anchor : Rule :=
  .mk { tag := .tag (.known (lit "a")), ms := [some (.function (some hasUsefulHref))],
        caps := [some (.function (some (.user hrefCapture)) (lit "href") none)] } none none []

/-- How the program ends: it exits with code 0 after this output, or an exception that nobody catches terminates it. It prints only at
the end, so there is no output then. libhext/examples/extract-href.cpp:130-162. -/
inductive End
  | exit (out : Str)
  | terminate
  deriving DecidableEq

/-- The loops that print, extract-href.cpp:157-159. -/
def printAll (result : List (List (Str × Str))) : Str := result.flatMap fun m => m.flatMap fun p => p.2 ++ [10]

/-- The variable `base_uri` of `main`, extract-href.cpp:145-149. -/
def baseText (rx : RxEngine) (h : Heap) (arg : Option Str) (root : Ptr) : E Str :=
  match arg with
  | some a => pure a
  | none => do
    match ← baseUri rx h root with
    | some b => pure b
    | none => pure []

/-- `main`, extract-href.cpp:145-161. `arg` is `argv[1]`. -/
def main (u : Uris) (rx : RxEngine) (h : Heap) (arg : Option Str) (root : Ptr) : E End := do
  let base ← baseText rx h arg root
  match u.parse base with
  | none => pure .terminate
  | some b =>
    match Stateful.extract (capture u b) rx h anchor root 0 () with
    | none => none
    | some (.ok result, _) => pure (.exit (printAll result))
    | some (.error .thrown, _) => pure .terminate
    | some (.error e, _) => throw e

end Hext.ExtractHref
