import Verif.Model.Dom
/-!
# Model of `hext::Html` as an owner of memory
libhext/include/hext/Html.h, libhext/src/Html.cpp, and the places where it is used: htmlext/main.cpp and
libhext/bindings/wrapper/Html.cpp.

Memory consists of buffers with text and of outputs of Gumbo. An output refers to the buffer that it was made from, and its
content is the text of that buffer at that time. Addresses are never reused, so every use after free is noticed.

Simplification: `gumbo_parse_with_options` never returns a null pointer, and memory never runs out.
-/

namespace Hext.HtmlMem

/-- An output of Gumbo, GumboOutput: made from the text of a buffer, into which it has pointers. Html.cpp:25, 33, Html.h:81. -/
structure Output where
  buffer : Nat
  text : Str

/-- Memory: the living buffers, the living outputs, and the address of the next output. Html.cpp:21-43. -/
structure Mem where
  buffers : Nat → Option Str
  outputs : Nat → Option Output
  fresh : Nat

/-- The living objects of class `Html` (by name) and their only member `g_outp_`, Html.h:81. -/
abbrev Htmls := Nat → Option Nat

/-- Memory, and the member `g_outp_` (Html.h:81) of each living `Html`; names stand for objects. -/
structure State where
  mem : Mem
  htmls : Htmls

/-- Set the member `g_outp_` of an `Html`. Html.h:81. -/
def set {α} (f : Nat → Option α) (k : Nat) (x : Option α) : Nat → Option α := fun i => if i = k then x else f i

/-- `Html::Html(const char *, std::size_t)`, Html.cpp:23-29: Gumbo reads the buffer. -/
def construct (v b : Nat) (s : State) : E State :=
  match s.mem.buffers b with
  | none => throw .ub
  | some t => pure ⟨{ s.mem with outputs := set s.mem.outputs s.mem.fresh (some ⟨b, t⟩), fresh := s.mem.fresh + 1 },
      set s.htmls v (some s.mem.fresh)⟩

/-- `Html(Html&&) = default`, Html.h:67: the pointer is copied, and the other object keeps it. -/
def moveConstruct (v w : Nat) (s : State) : E State :=
  match s.htmls w with
  | none => throw .ub
  | some p => pure { s with htmls := set s.htmls v (some p) }

/-- `operator=(Html&&) = default`, Html.h:68. -/
def moveAssign (v w : Nat) (s : State) : E State :=
  match s.htmls v, s.htmls w with
  | some _, some p => pure { s with htmls := set s.htmls v (some p) }
  | _, _ => throw .ub

/-- `Html::~Html`, Html.cpp:39-43: `gumbo_destroy_output` frees the output; freeing it twice is undefined. -/
def destroy (v : Nat) (s : State) : E State :=
  match s.htmls v with
  | none => throw .ub
  | some p => match s.mem.outputs p with
    | none => throw .ub
    | some _ => pure ⟨{ s.mem with outputs := set s.mem.outputs p none }, set s.htmls v none⟩

/-- What is found when the document behind `Html::root()`, Html.cpp:45-48, is read: the document for this text. Nodes have
pointers into the buffer. -/
def root (v : Nat) (s : State) : E Str :=
  match s.htmls v with
  | none => throw .ub
  | some p => match s.mem.outputs p with
    | none => throw .ub
    | some o => match s.mem.buffers o.buffer with
      | none => throw .ub
      | some _ => pure o.text

/-- The program makes a buffer with text. The caller of Html.cpp:21-36, as htmlext/main.cpp:88-97. -/
def newBuffer (b : Nat) (t : Str) (s : State) : E State :=
  pure { s with mem := { s.mem with buffers := set s.mem.buffers b (some t) } }

/-- The program frees a buffer. The caller of Html.cpp:21-36, as the end of htmlext/main.cpp:32-140. -/
def freeBuffer (b : Nat) (s : State) : E State :=
  match s.mem.buffers b with
  | none => throw .ub
  | some _ => pure { s with mem := { s.mem with buffers := set s.mem.buffers b none } }

/-- Statements of a program that uses `Html`. The public members of `Html`, Html.h:45-77. -/
inductive Op
  | newBuffer (b : Nat) (t : Str)
  | freeBuffer (b : Nat)
  | construct (v b : Nat)
  | moveConstruct (v w : Nat)
  | moveAssign (v w : Nat)
  /-- Read the document. -/
  | read (v : Nat)
  | destroy (v : Nat)

/-- One statement. Html.h:45-77, Html.cpp:21-50. -/
def Op.run (s : State) : Op → E State
  | .newBuffer b t => HtmlMem.newBuffer b t s
  | .freeBuffer b => HtmlMem.freeBuffer b s
  | .construct v b => HtmlMem.construct v b s
  | .moveConstruct v w => HtmlMem.moveConstruct v w s
  | .moveAssign v w => HtmlMem.moveAssign v w s
  | .read v => do
    let _ ← root v s
    pure s
  | .destroy v => HtmlMem.destroy v s

/-- Statements one after the other. Html.h:45-77, Html.cpp:21-50. -/
def runs (s : State) : List Op → E State
  | [] => pure s
  | op :: ops => do
    let s ← op.run s
    runs s ops

/-- Before the first statement there are no buffers, outputs and documents. Html.h:81. -/
def start : State := ⟨⟨fun _ => none, fun _ => none, 0⟩, fun _ => none⟩

/-! ## main.cpp -/

/-- `std::vector<hext::Html>`: the names of its elements in order, and its capacity. htmlext/main.cpp:88-97. -/
structure Vec where
  elems : List Nat
  capacity : Nat

/-- `emplace_back(buffer, size)` at names that are not in use: `v` for the new element, `names` for the elements after a
reallocation, which move-constructs them and destroys the old ones. htmlext/main.cpp:88-97. -/
def emplaceBack (vec : Vec) (v b : Nat) (names : List Nat) (capacity : Nat) : Vec × List Op :=
  if vec.elems.length < vec.capacity then (⟨vec.elems ++ [v], vec.capacity⟩, [.construct v b])
  else (⟨names ++ [v], capacity⟩, .construct v b :: (vec.elems.zip names).flatMap fun p => [.moveConstruct p.2 p.1, .destroy p.1])

/-- The loop over the HTML files, main.cpp:91-97. The i-th string of `html_contents` is the buffer `i`; that vector does not
reallocate, as its capacity is reserved, too, and so its strings stay where they are. `growth` tells the capacities after
reallocations, and names for elements that are moved. -/
def readLoop (growth : Vec → List Nat × Nat) : Vec → Nat → List Str → Vec × List Op
  | vec, _, [] => (vec, [])
  | vec, i, t :: ts =>
    let g := growth vec
    let (vec, ops) := emplaceBack vec i i g.1 g.2
    let (vec, ops') := readLoop growth vec (i + 1) ts
    (vec, .newBuffer i t :: ops ++ ops')

/-- What main.cpp:87-119 does with documents: `reserve`, the loop over the files, the reads of the extractions (any number of
them, for each rule all documents in order), and at the end of the block the destruction of `parsed_html` and then of
`html_contents`. `reserved` is the capacity that is reserved. -/
def mainOps (growth : Vec → List Nat × Nat) (reserved : Nat) (texts : List Str) (rules : Nat) : List Op :=
  let (vec, ops) := readLoop growth ⟨[], reserved⟩ 0 texts
  ops ++ (List.replicate rules (vec.elems.map .read)).flatten ++ vec.elems.map .destroy ++
    (List.range texts.length).map .freeBuffer

/-! ## libhext/bindings/wrapper -/

/-- The wrapper's constructor, wrapper/Html.cpp:18-22. -/
def wrapNew (v : Nat) (t : Str) : List Op := [.newBuffer v t, .construct v v]

/-- The wrapper's implicit destructor: members are destroyed in reverse order. wrapper/Html.h:23-32. -/
def wrapDelete (v : Nat) : List Op := [.destroy v, .freeBuffer v]

end Hext.HtmlMem
