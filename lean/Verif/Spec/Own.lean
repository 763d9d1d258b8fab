import Verif.Spec.Syntax
/-!
# Hexts whose regular expressions have their own options only

The meaning of a hext as in `Verif.Spec.Syntax`, except that the options of a regular expression are those that
are written on it. There is nothing that one regular expression leaves behind for the next one.
-/

namespace Hext.Own

open Syn

/-- The results of `f` on a list, if all of them exist. -/
def all {α β} (f : α → Option β) : List α → Option (List β)
  | [] => some []
  | x :: xs => do
    let y ← f x
    let ys ← all f xs
    some (y :: ys)

/-- A trait contains at most one regular expression. -/
def trait (rx : RxEngine) (t : Trait) : Option Match := (t.meaning rx {}).map (·.1)

def cond (rx : RxEngine) : Cond → Option Match
  | .trait t => trait rx t
  | .not ts => (all (trait rx) ts).map fun ms => .negate (ms.map some)

/-- A pipe contains at most one regular expression. -/
def pipe (rx : RxEngine) (p : PipeS) : Option Transform := (p.meaning rx {}).map (·.1)

def pat (rx : RxEngine) : Pat → Option (List Match × List Capture)
  | .capFn fn ps n => (all (pipe rx) ps).map fun ts => ([], [.function (some fn.meaning) n.meaning (chainPipes ts)])
  | .capAttr a ps n optional => (all (pipe rx) ps).map fun ts =>
    (if optional then [] else [.attribute a none], [.attribute a n.meaning (chainPipes ts)])
  -- the others contain at most one regular expression
  | p => p.meaning rx {}

def head (rx : RxEngine) (h : Head) : Option RuleInfo := do
  let x ← all (cond rx) h.conds
  let y ← all (fun p => pat rx p.2) h.pats
  some { tag := (tagMeaning h.tag).1, tagname := (tagMeaning h.tag).2, optional := h.options.contains true,
         greedy := h.options.contains false, ms := (x ++ y.flatMap (·.1)).map some, caps := (y.flatMap (·.2)).map some }

mutual
inductive Elem (rx : RxEngine) : List Item → Rule → Prop
  | selfClosing {h info} : head rx h = some info → Elem rx [.start h true] (mkRule info [] [])
  | closed {h info is kids nested t} : head rx h = some info → Body rx is kids nested → Closes info t →
      Elem rx (.start h false :: is ++ [.stop t]) (mkRule info kids nested)
inductive Body (rx : RxEngine) : List Item → List Rule → List Rule → Prop
  | nil : Body rx [] [] []
  | filler {i is kids nested} : i.IsFiller → Body rx is kids nested → Body rx (i :: is) kids nested
  | child {is r js kids nested} : Elem rx is r → Body rx js kids nested → Body rx (is ++ js) (r :: kids) nested
  | block {is r rs js kids nested} : Seq rx is (r :: rs) → Body rx js kids nested →
      Body rx (.lbrace :: is ++ .rbrace :: js) kids (chain r rs :: nested)
inductive Seq (rx : RxEngine) : List Item → List Rule → Prop
  | nil : Seq rx [] []
  | filler {i is rs} : i.IsFiller → Seq rx is rs → Seq rx (i :: is) rs
  | elem {is r js rs} : Elem rx is r → Seq rx js rs → Seq rx (is ++ js) (r :: rs)
end

/-- The hext consisting of the items `is` means the rule `r`. -/
def Means (rx : RxEngine) (is : List Item) (r : Rule) : Prop := ∃ rs, Seq rx is rs ∧ r = ruleOf rs

/-! ## Hexts without options that could be left behind -/

def TraitPlain : Trait → Prop
  | .typeMatches r => r.mods = []
  | _ => True

def CondPlain : Cond → Prop
  | .trait t => TraitPlain t
  | .not ts => ∀ t ∈ ts, TraitPlain t

def PipePlain : PipeS → Prop
  | .filter r | .replace r _ _ _ => r.mods = []
  | _ => True

def PatPlain : Pat → Prop
  | .capFn _ ps _ | .capAttr _ ps _ _ => ∀ p ∈ ps.dropLast, PipePlain p
  | _ => True

/-- No `:type-matches` has options, and in a pattern only the last pipe has. -/
def ItemPlain : Item → Prop
  | .start h _ => (∀ c ∈ h.conds, CondPlain c) ∧ ∀ p ∈ h.pats, PatPlain p.2
  | _ => True

end Hext.Own
