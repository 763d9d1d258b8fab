import Verif.Spec.Text
/-!
# How deep the builtin functions look into a document
-/

namespace Hext

mutual
/-- The levels that `@strip-tags` and `@text` visit: the node, and what lies below it without leaving elements. -/
def Tree.stripLevels : Tree → Nat
  | .node _ k kids => 1 + if k.isElement then Tree.stripLevelsL kids else 0
def Tree.stripLevelsL : List Tree → Nat
  | [] => 0
  | t :: ts => max t.stripLevels (Tree.stripLevelsL ts)
end

mutual
/-- The frames for writing a node as HTML: two for an element or template, one for any other node. Void elements are written
without their children. -/
def Tree.htmlFrames : Tree → Nat
  | .node _ k kids =>
    match k with
    | .element e | .template e => 2 + if e.isVoid then 0 else Tree.htmlFramesL kids
    | _ => 1
def Tree.htmlFramesL : List Tree → Nat
  | [] => 0
  | t :: ts => max t.htmlFrames (Tree.htmlFramesL ts)
end

/-- The frames that a builtin function needs on a node. -/
def CaptureFn.frames (t : Tree) : CaptureFn → Nat
  | .text => 1 + t.stripLevels
  | .innerHtml => 1 + if t.kind.isElement then Tree.htmlFramesL t.kids else 0
  | .stripTags => t.stripLevels
  | .user _ => 0

end Hext
