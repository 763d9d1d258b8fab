import Verif.Spec.Programs
import Verif.Model.Stateful
/-!
# The example programs chaining and mixed

libhext/examples/chaining.cpp and libhext/examples/mixed.cpp. Gumbo is left out: the programs start with a document, which is arbitrary here.
-/

namespace Hext.Examples

open Hist Mem Prog

/-- How a program ends: with an exit code, after it has written this to `std::cout`, or because nobody catches an exception.
chaining.cpp:74, mixed.cpp:57, 100. -/
inductive Finish
  | exit (code : Nat) (out : Str)
  | terminate

/-- `HtmlTag::...`. Used in chaining.cpp:25-33, mixed.cpp:37. -/
def tagOf (name : String) : RTag := .tag (.known (lit name))

/-- The statement that builds `rdiv`, chaining.cpp:24-35. The variables 1 to 3 are the temporary rules for `UL`, `LI` and `A`; each
of them is passed as an lvalue and thus copied. -/
def chainingStmts : List Stmt := [
  .op (.ofTag 0 .any false false),
  .op (.setTag ⟨0, []⟩ (tagOf "div")),
  .op (.appendMatch ⟨0, []⟩ (some (.attributeCount 0))),
  .op (.ofTag 1 (tagOf "ul") false false),
  .op (.appendMatch ⟨1, []⟩ (some (.attributeCount 0))),
  .op (.ofTag 2 (tagOf "li") false false),
  .op (.ofTag 3 (tagOf "a") false false),
  .op (.appendMatch ⟨3, []⟩ (some (.attribute (lit "href") none))),
  .op (.appendCapture ⟨3, []⟩ (some (.attribute (lit "href") (lit "link") none))),
  .op (.appendChild ⟨2, []⟩ (.copy ⟨3, []⟩)),
  .op (.appendChild ⟨1, []⟩ (.copy ⟨2, []⟩)),
  .op (.appendChild ⟨0, []⟩ (.copy ⟨1, []⟩)),
  .op (.destroy 3),
  .op (.destroy 2),
  .op (.destroy 1)]

/-- The line for a pair, chaining.cpp:72, mixed.cpp:95. -/
def line (p : Str × Str) : Str := p.1 ++ lit ": " ++ p.2 ++ [10]

/-- `main` of chaining.cpp:20-75. -/
def chaining (rx : RxEngine) (charSigned : Bool) (g : Nat → Nat → Growth) (n : Nat) (h : Heap) (root : Ptr) : E Finish := do
  let (x, vars, m) ← run rx charSigned g n noVars noMem chainingStmts
  match x with
  | some _ => pure .terminate
  | none =>
    let result ← vars.extract ⟨0, []⟩ rx h root 0 m
    pure (.exit 0 (result.flatMap fun g => g.flatMap line))

/-- The name of the lambda `count_captures`, mixed.cpp:31-35. Its value comes from `counting`. -/
def countCaptures : Heap → Ptr → Str := fun _ _ => []

/-- The lambda, mixed.cpp:31-35: it increments the counter and returns it as text. Simplified: the `int` is unbounded. -/
def counting : Stateful.Acts Nat := fun _ _ _ k => (some (decimal (k + 1)), k + 1)

/-- The statements that build `anchor`, mixed.cpp:37-82. Variable 0 is `anchor`, 1 is `img`, 2 is the temporary rule that is appended to
`par`. Simplified: the temporary is moved into the parameter of `append_child` instead of being constructed there. -/
def mixedStmts : List Stmt := [
  .op (.ofTag 0 (tagOf "a") false false),
  .op (.appendMatch ⟨0, []⟩ (some (.attribute (lit "href") none))),
  .op (.appendCapture ⟨0, []⟩ (some (.attribute (lit "href") (lit "href") none))),
  .parse 1 (lit "<img src:img /><p @text:par />"),
  .check ⟨1, [.next]⟩,
  .parse 2 (lit "<?span @text:span />"),
  .op (.appendChild ⟨1, [.next]⟩ (.move ⟨2, []⟩)),
  .op (.destroy 2),
  .check ⟨1, [.next, .child]⟩,
  .op (.appendChild ⟨0, []⟩ (.move ⟨1, []⟩)),
  .op (.destroy 1),
  .check ⟨0, [.child]⟩,
  .check ⟨0, [.child, .next]⟩,
  .check ⟨0, [.child, .next, .child]⟩,
  .op (.appendCapture ⟨0, [.child, .next, .child]⟩ (some (.function (some (.user countCaptures)) (lit "number") none)))]

/-- `main` of mixed.cpp:26-101. Of the exceptions only `SyntaxError` is caught. What is written to `std::cerr` then is left out. -/
def mixed (rx : RxEngine) (charSigned : Bool) (g : Nat → Nat → Growth) (n : Nat) (h : Heap) (root : Ptr) : E Finish := do
  let (x, vars, m) ← run rx charSigned g n noVars noMem mixedStmts
  match x with
  | some (.thrown (.syntax _)) => pure (.exit 1 [])
  | some _ => pure .terminate
  | none =>
    let anchor ← vars.read ⟨0, []⟩ m
    match Stateful.extract counting rx h anchor root 0 0 with
    | none => none
    | some (.ok result, _) => pure (.exit 0 (result.flatMap fun g => g.flatMap line ++ [10]))
    | some (.error .thrown, _) => pure .terminate
    | some (.error e, _) => throw e

end Hext.Examples
