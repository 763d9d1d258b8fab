import Verif.Spec.Extract
import Verif.Spec.Conditions
/-!
# Similar documents and similar rules
-/

namespace Hext

/-! ## Documents -/

mutual
/-- The trees have the same shape, and `K` holds for the kinds of the nodes at the same place. The addresses of the nodes may
differ. -/
def Tree.Alike (K : Kind → Kind → Prop) : Tree → Tree → Prop
  | .node _ k kids, t' => K k t'.kind ∧ Tree.AlikeL K kids t'.kids
def Tree.AlikeL (K : Kind → Kind → Prop) : List Tree → List Tree → Prop
  | [], ts' => ts' = []
  | t :: ts, ts' => ∃ t' us, ts' = t' :: us ∧ Tree.Alike K t t' ∧ Tree.AlikeL K ts us
end

/-- The same document, perhaps stored at other addresses. -/
def Tree.SameContent (t t' : Tree) : Prop := t.Alike (· = ·) t'

/-- No two attributes have the same name, up to case. -/
def DistinctNames (as : List Attr) : Prop := as.Pairwise fun a b => ¬ SameName a.name b.name

/-- The same kind of node, except that the attributes of an element may be listed in another order. -/
def Kind.Reordered (k k' : Kind) : Prop :=
  k = k' ∨ ∃ e as, k = .element e ∧ k' = .element { e with attrs := as } ∧ e.attrs.Perm as ∧ DistinctNames e.attrs

def Tree.isComment (t : Tree) : Bool :=
  match t.kind with
  | .comment _ => true
  | _ => false

mutual
/-- The tree without its comments. -/
def Tree.uncomment : Tree → Tree
  | .node p k kids => .node p k (uncommentL kids)
def uncommentL : List Tree → List Tree
  | [] => []
  | t :: ts => if t.isComment then uncommentL ts else t.uncomment :: uncommentL ts
end

/-! ## Rules -/

mutual
/-- The rules have the same shape, and `I` holds for the rules at the same place. -/
def Rule.Alike (I : RuleInfo → RuleInfo → Prop) : Rule → Rule → Prop
  | .mk i c nx ns, r' => I i r'.info ∧ Rule.AlikeO I c r'.child ∧ Rule.AlikeO I nx r'.next ∧ Rule.AlikeL I ns r'.nested
def Rule.AlikeO (I : RuleInfo → RuleInfo → Prop) : Option Rule → Option Rule → Prop
  | none, o => o = none
  | some r, o => ∃ r', o = some r' ∧ Rule.Alike I r r'
def Rule.AlikeL (I : RuleInfo → RuleInfo → Prop) : List Rule → List Rule → Prop
  | [], rs => rs = []
  | r :: rs, rs' => ∃ r' ss, rs' = r' :: ss ∧ Rule.Alike I r r' ∧ Rule.AlikeL I rs ss
end

/-- The name under which a capture stores its value. -/
def Capture.resultName : Capture → Str
  | .attribute _ name _ => name
  | .function _ name _ => name

/-- The captures that store their value under one of the names. -/
def capturesInto (N : Str → Bool) (caps : List (Option Capture)) : List Capture :=
  (caps.filterMap id).filter fun c => N c.resultName

/-- The rules differ only in what they capture, and they capture the same under the names `N`. -/
def SameCapturesInto (N : Str → Bool) (i i' : RuleInfo) : Prop :=
  i = { i' with caps := i.caps } ∧ capturesInto N i.caps = capturesInto N i'.caps

/-- What a result says about the names `N`: the pairs with these names. Maps without such pairs are dropped. -/
def restrict (N : Str → Bool) (res : List (List (Str × Str))) : List (List (Str × Str)) :=
  (res.map fun m => m.filter fun p => N p.1).filter (· ≠ [])

/-- The chain has a mandatory rule. -/
def Rule.hasMandatory (r : Rule) : Prop := ∃ q ∈ r.siblings, q.isOptional = false

mutual
/-- Every rule that has child or nested rules has a mandatory one among them. -/
def Rule.Anchored : Rule → Prop
  | .mk _ c nx ns => ((c = none ∧ ns = []) ∨ (∃ r, c = some r ∧ r.hasMandatory) ∨ ∃ q ∈ ns, q.hasMandatory) ∧
      Rule.AnchoredO c ∧ Rule.AnchoredO nx ∧ Rule.AnchoredL ns
def Rule.AnchoredO : Option Rule → Prop
  | none => True
  | some r => r.Anchored
def Rule.AnchoredL : List Rule → Prop
  | [] => True
  | r :: rs => r.Anchored ∧ Rule.AnchoredL rs
end

mutual
/-- The functions that the condition calls are among `F`; it is not a user-defined condition. -/
def Match.Calls (F : CaptureFn → Prop) : Match → Prop
  | .function _ => False
  | .functionValue f _ => ∀ g, f = some g → F g
  | .negate ms => Match.CallsL F ms
  | _ => True
def Match.CallsL (F : CaptureFn → Prop) : List (Option Match) → Prop
  | [] => True
  | none :: ms => Match.CallsL F ms
  | some m :: ms => m.Calls F ∧ Match.CallsL F ms
end

/-- The function that a capture calls is among `F`. -/
def Capture.Calls (F : CaptureFn → Prop) : Capture → Prop
  | .attribute _ _ _ => True
  | .function f _ _ => ∀ g, f = some g → F g

/-- All functions that the conditions and captures of a rule call are among `F`. -/
def RuleInfo.Calls (F : CaptureFn → Prop) (i : RuleInfo) : Prop :=
  Match.CallsL F i.ms ∧ ∀ c, some c ∈ i.caps → c.Calls F

/-- One of the functions hext provides: `@text`, `@inner-html`, `@strip-tags`. -/
def CaptureFn.Builtin (f : CaptureFn) : Prop := f = .text ∨ f = .innerHtml ∨ f = .stripTags

/-- One of the functions that return text: `@text`, `@strip-tags`. -/
def CaptureFn.Textual (f : CaptureFn) : Prop := f = .text ∨ f = .stripTags

end Hext
