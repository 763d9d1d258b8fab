import Verif.Model.Rule
import Verif.Spec.Safe
/-!
# Strings without NUL

The strings of a Gumbo document are C strings, and the rules that `ParseHext` makes of a C string contain no NUL either. The
predicates of this file say so.
-/

namespace Hext

/-- No NUL byte. -/
def NF (s : Str) : Prop := (0 : Byte) ∉ s

def Attr.NoNul (a : Attr) : Prop := NF a.name ∧ ∀ v, a.value = some v → NF v

def Elem.NoNul (e : Elem) : Prop :=
  (∀ n, e.tag = .known n → NF n) ∧ (∀ n, e.origName = some n → NF n) ∧ ∀ a ∈ e.attrs, a.NoNul

def Kind.NoNul : Kind → Prop
  | .document d => (∀ s, d.name = some s → NF s) ∧ (∀ s, d.publicId = some s → NF s) ∧ ∀ s, d.systemId = some s → NF s
  | .element e => e.NoNul
  | .template e => e.NoNul
  | .text t => NF t
  | .cdata t => NF t
  | .comment t => NF t
  | .whitespace t => NF t

/-- All strings of the nodes are free of NUL. -/
def Heap.NoNul (h : Heap) : Prop := ∀ p n, h p = some n → n.kind.NoNul

/-- What the regular expressions find and make contains no NUL, if the text (and the replacement) contain none. (Boost's format
strings can insert any byte with `\x00`: a hext that uses this in a replacement is excluded.) -/
def RxEngine.NoNul (rx : RxEngine) : Prop :=
  (∀ r s gs, rx.search r s = some gs → NF s → ∀ g ∈ gs, NF g) ∧ ∀ r s t, NF s → NF t → NF (rx.replace r s t)

def Transform.NoNul : Transform → Prop
  | .append s => NF s
  | .prepend s => NF s
  | .regexReplace _ t => NF t
  | _ => True

def Pipe.NoNul : Pipe → Prop
  | .last t => t.NoNul
  | .cons t next => t.NoNul ∧ next.NoNul

def CaptureFn.NoNul : CaptureFn → Prop
  | .user f => ∀ h p, NF (f h p)
  | _ => True

def Capture.NoNul : Capture → Prop
  | .attribute _ name pipe => NF name ∧ ∀ p, pipe = some p → p.NoNul
  | .function f name pipe => NF name ∧ (∀ g, f = some g → g.NoNul) ∧ ∀ p, pipe = some p → p.NoNul

/-- The names and pipes of the captures are free of NUL. -/
def RuleInfo.NoNul (i : RuleInfo) : Prop := ∀ c, some c ∈ i.caps → c.NoNul

/-- The names and pipes of all captures of the rule are free of NUL. -/
def Rule.NoNul (r : Rule) : Prop := r.All RuleInfo.NoNul

end Hext
