import Verif.Proofs.MkDoc
import Verif.Spec.Safe
/-!
# A small document and rules for the examples beside the theorems
-/

namespace Hext.Ex

def el (p : Ptr) (tag : String) (attrs : List (String × String)) (kids : List Tree) : Tree :=
  .node p (.element { tag := .known (lit tag), attrs := attrs.map fun a => { name := lit a.1, value := some (lit a.2) } }) kids

def txt (p : Ptr) (s : String) : Tree := .node p (.text (lit s)) []

/-- `<html><body><div><a href="1">x</a><b>y</b><a href="2">z</a><p></p></div></body></html>` -/
def doc : Tree :=
  el 1 "html" [] [el 2 "body" [] [el 3 "div" []
    [el 4 "a" [("href", "1")] [txt 5 "x"], el 6 "b" [] [txt 7 "y"],
     el 8 "a" [("href", "2")] [txt 9 "z"], el 10 "p" [] []]]]

def heap : Heap := docHeap 0 doc

theorem doc_ok : IsDocument heap 2147483647 doc := isDocument_of_ok (by decide +kernel)

/-- A regex engine that never finds anything. -/
def rx : RxEngine := ⟨fun _ _ => none, fun _ s _ => s, fun _ => none⟩

/-- A rule for a tag. -/
def rule (tag : String) (optional greedy : Bool := false) (caps : List Capture := [])
    (child next : Option Rule := none) (nested : List Rule := []) : Rule :=
  .mk { tag := .tag (.known (lit tag)), optional, greedy, caps := caps.map some } child next nested

def capHref (name : String) : Capture := .attribute (lit "href") (lit name) none
def capText (name : String) : Capture := .function (some .text) (lit name) none

/-- `<div><a href:x/><?b href:y/></div>` -/
def r : Rule := rule "div" (child := some (rule "a" (caps := [capHref "x"])
  (next := some (rule "b" (optional := true) (caps := [capHref "y"])))))

theorem r_safe (n : Nat) : r.Safe n := by
  simp [Rule.Safe, Rule.All, Rule.AllO, Rule.AllL, r, rule, RuleInfo.Safe, Match.SafeL, Capture.Safe, capHref]

end Hext.Ex
