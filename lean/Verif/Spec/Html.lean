import Verif.Model.Html
/-!
# What programs that use `hext::Html` mean

`Op.val` says what a statement means if an `Html` were a plain value: the text that it was parsed from, or nothing if it was
moved from. A program has a meaning if it follows the documentation of the class: variables and buffers are used only while
they exist, and a buffer stays alive until the `Html` that was made from it is gone.
-/

namespace Hext.HtmlMem

/-- A document: the buffer that it was made from, and the text. -/
abbrev Doc := Nat × Str

/-- The values of the variables and the texts of the buffers. `some none` is a variable that was moved from. -/
structure Env where
  htmls : Nat → Option (Option Doc)
  buffers : Nat → Option Str

def noEnv : Env := ⟨fun _ => none, fun _ => none⟩

/-- No variable holds a document of buffer `b`. -/
def Env.Unused (e : Env) (b : Nat) : Prop := ∀ v t, e.htmls v ≠ some (some (b, t))

/-- The meaning of a statement. -/
inductive Op.Val : Env → Op → Env → Prop
  | newBuffer {e b t} : e.buffers b = none → Val e (.newBuffer b t) { e with buffers := set e.buffers b (some t) }
  | freeBuffer {e b t} : e.buffers b = some t → e.Unused b → Val e (.freeBuffer b) { e with buffers := set e.buffers b none }
  | construct {e v b t} : e.htmls v = none → e.buffers b = some t →
      Val e (.construct v b) { e with htmls := set e.htmls v (some (some (b, t))) }
  | moveConstruct {e v w d} : e.htmls v = none → e.htmls w = some d →
      Val e (.moveConstruct v w) { e with htmls := set (set e.htmls w (some none)) v (some d) }
  | moveAssign {e v w d d'} : v ≠ w → e.htmls v = some d → e.htmls w = some d' →
      Val e (.moveAssign v w) { e with htmls := set (set e.htmls w (some none)) v (some d') }
  | selfAssign {e v d} : e.htmls v = some d → Val e (.moveAssign v v) e
  | read {e v d} : e.htmls v = some (some d) → Val e (.read v) e
  | destroy {e v d} : e.htmls v = some d → Val e (.destroy v) { e with htmls := set e.htmls v none }

/-- The meaning of a program. -/
inductive Vals : Env → List Op → Env → Prop
  | nil {e} : Vals e [] e
  | cons {e op e' ops e''} : Op.Val e op e' → Vals e' ops e'' → Vals e (op :: ops) e''

/-- The statement moves an `Html` to another one. -/
def Op.Moves : Op → Prop
  | .moveConstruct _ _ => True
  | .moveAssign v w => v ≠ w
  | _ => False

end Hext.HtmlMem
