import Verif.Spec.NoNul
import Verif.Spec.Meaning
import Verif.Spec.Json
/-!
# Texts, rules and documents in UTF-8
-/

namespace Hext

/-- `s` is UTF-8 (RFC 3629): the code points of some text, one after the other. -/
def Utf8 (s : Str) : Prop := ∃ t, IsUtf8Of s t

/-! ## Documents -/

def Attr.Utf8 (a : Attr) : Prop := Hext.Utf8 a.name ∧ ∀ v, a.value = some v → Hext.Utf8 v

def Elem.Utf8 (e : Elem) : Prop :=
  (∀ n, e.tag = .known n → Hext.Utf8 n) ∧ (∀ n, e.origName = some n → Hext.Utf8 n) ∧ ∀ a ∈ e.attrs, a.Utf8

def Kind.Utf8 : Kind → Prop
  | .document d => (∀ s, d.name = some s → Hext.Utf8 s) ∧ (∀ s, d.publicId = some s → Hext.Utf8 s) ∧
      ∀ s, d.systemId = some s → Hext.Utf8 s
  | .element e => e.Utf8
  | .template e => e.Utf8
  | .text t => Hext.Utf8 t
  | .cdata t => Hext.Utf8 t
  | .comment t => Hext.Utf8 t
  | .whitespace t => Hext.Utf8 t

/-- All strings of the nodes are UTF-8. -/
def Heap.Utf8 (h : Heap) : Prop := ∀ p n, h p = some n → n.kind.Utf8

/-! ## Pipes -/

/-- A byte of the UTF-8 form of a character outside of ASCII. -/
def PartByte (c : Byte) : Prop := 128 ≤ c ∧ ∃ s, Utf8 s ∧ c ∈ s

/-- Of the bytes from which characters outside of ASCII are made, `cs` has none or all. -/
def NoneOrAll (cs : Str) : Prop := (∀ c ∈ cs, ¬ PartByte c) ∨ ∀ c, PartByte c → c ∈ cs

/-- What has to be asked of a pipe, if the texts that are written in it are UTF-8: `trim` does not take characters apart, and
neither does a regular expression. -/
def Transform.Whole (rx : RxEngine) : Transform → Prop
  | .trim cs => NoneOrAll cs
  | .regex r => ∀ s m, Utf8 s → rx.search r (cstr s) = some m → Utf8 (firstGroup m)
  | .regexReplace r x => ∀ s, Utf8 s → Utf8 (rx.replace r s x)
  | _ => True

/-- The texts that are written in a pipe and that it adds are UTF-8. -/
def Transform.Utf8 : Transform → Prop
  | .append x => Hext.Utf8 x
  | .prepend x => Hext.Utf8 x
  | _ => True

/-- `P` holds for every step of a pipe. -/
def Pipe.Every (P : Transform → Prop) : Pipe → Prop
  | .last t => P t
  | .cons t next => P t ∧ next.Every P

/-- `P` holds for every step of the pipe of a capture. -/
def Capture.Steps (P : Transform → Prop) : Capture → Prop
  | .attribute _ _ pipe => ∀ p, pipe = some p → p.Every P
  | .function _ _ pipe => ∀ p, pipe = some p → p.Every P

/-- The pipes of the captures of a rule do not take characters apart. -/
def Rule.Whole (rx : RxEngine) (r : Rule) : Prop :=
  r.All fun i => ∀ c, some c ∈ i.caps → c.Steps (Transform.Whole rx)

/-- The name of a capture and the texts in its pipe are UTF-8; functions of the user return UTF-8. -/
def Capture.Utf8 : Capture → Prop
  | .attribute a name pipe => Hext.Utf8 name ∧ (Capture.attribute a name pipe).Steps Transform.Utf8
  | .function f name pipe => Hext.Utf8 name ∧ (∀ g, f = some (.user g) → ∀ h p, Hext.Utf8 (g h p)) ∧
      (Capture.function f name pipe).Steps Transform.Utf8

/-- The texts in the captures of a rule are UTF-8. -/
def Rule.Utf8 (r : Rule) : Prop := r.All fun i => ∀ c, some c ∈ i.caps → c.Utf8

end Hext
