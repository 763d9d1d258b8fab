import Verif.Spec.Cli
import Verif.Spec.Syntax
import Verif.Spec.Meaning
/-!
# What htmlext computes
-/

namespace Hext.Cli

/-- The elements of two lists at the same places are related. -/
inductive Each {α β : Type} (R : α → β → Prop) : List α → List β → Prop
  | nil : Each R [] []
  | cons {a b as bs} : R a b → Each R as bs → Each R (a :: as) (b :: bs)

/-- What htmlext with options `o` has to compute if `tree text` is the document of the HTML `text`: the files are read, the hexts
(up to a first NUL byte) mean rules, and `results` are the outcomes of the first rule on all documents, then those of the second
rule, and so on. -/
def Computes {σ : Type} (W : World σ) (tree : Str → Tree) (o : Opts) (w : σ) (results : List (List (List (Str × Str)))) : Prop :=
  ∃ hexts texts w1 w2 rules, Reads W o.hext w hexts w1 ∧ Reads W o.html w1 texts w2 ∧
    Each (fun s r => Syn.Means W.rx (cstr s) r) (hexts ++ o.str) rules ∧
    Each (fun (p : Rule × Str) res => IsOutcome W.rx (fun _ => none) p.1 (Loc.root (tree p.2)) res)
      (rules.flatMap fun r => texts.map fun t => (r, t)) results

end Hext.Cli
