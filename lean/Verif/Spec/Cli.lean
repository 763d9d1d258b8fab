import Verif.Model.Cli
import Verif.Spec.Json
/-!
# What the command line program should do
-/

namespace Hext.Cli

variable {σ : Type} (W : World σ)

/-- Reading `path` in state `w` gives the bytes `s` and leads to the state `w'`. The path "-" is standard input, unless there is
a file of that name. -/
def Contents (path : Str) (w : σ) (s : Str) (w' : σ) : Prop :=
  W.files path w = (.bytes s, w') ∨
    (path = lit "-" ∧ ∃ e w1, W.files path w = (.noOpen e, w1) ∧ W.files (lit "/dev/stdin") w1 = (.bytes s, w'))

/-- Reading the paths one after the other. -/
inductive Reads : List Str → σ → List Str → σ → Prop
  | nil {w} : Reads [] w [] w
  | cons {p ps w s w1 ss w2} : Contents W p w s w1 → Reads ps w1 ss w2 → Reads (p :: ps) w (s :: ss) w2

/-- `text` (up to its first NUL byte) is an accepted hext for the rule `r`. -/
def IsHext (text : Str) (r : Rule) : Prop := parseHextC W.rx W.charSigned text = .ok r

/-- The result of using a rule on the document of an HTML text. -/
def resultOf (limit : UInt64) (r : Rule) (text : Str) : E (List (List (Str × Str))) :=
  extract W.rx (W.gumbo text).1 r (W.gumbo text).2 limit

/-- The results of all rules on all documents: first those of the first rule, in the order of the documents. -/
def AllResults (limit : UInt64) (rules : List Rule) (texts : List Str) (results : List (List (List (Str × Str)))) : Prop :=
  (rules.flatMap fun r => texts.map fun t => resultOf W limit r t) = results.map pure

/-- `out` is what the options ask to print for `results`, given one after the other. -/
inductive Prints (one : List (List (Str × Str)) → Str → Prop) : List (List (List (Str × Str))) → Str → Prop
  | nil : Prints one [] []
  | cons {res results s out} : one res s → Prints one results out → Prints one (res :: results) (s ++ out)

/-- A JSON text for every group of a result, each followed by a line break. -/
inductive JsonLines : List (List (Str × Str)) → Str → Prop
  | nil : JsonLines [] []
  | cons {m ms o s out} : Presents m o → JText (objectJson o) s → JsonLines ms out → JsonLines (m :: ms) (s ++ 10 :: out)

/-- One JSON text for all groups of a result, followed by a line break. -/
def JsonArray (res : List (List (Str × Str))) (out : Str) : Prop :=
  ∃ os s, os.length = res.length ∧ (∀ x ∈ res.zip os, Presents x.1 x.2) ∧ JText (.arr (os.map objectJson)) s ∧ out = s ++ [10]

/-- What an invocation with options `o` does that succeeds: the hext files are read, the hexts of the files and those given
as strings are accepted, then the HTML files are read, and every rule gives a result for every document. -/
def Succeeds (o : Opts) (w : σ) (rules : List Rule) (texts : List Str) (results : List (List (List (Str × Str)))) : Prop :=
  ∃ hexts w1 w2, Reads W o.hext w hexts w1 ∧ (hexts ++ o.str).map (parseHextC W.rx W.charSigned) = rules.map .ok ∧
    Reads W o.html w1 texts w2 ∧ AllResults W o.maxSearches rules texts results

/-- `s` consists of the lines `ls`, each ended by a line break. -/
inductive Lines : Str → List Str → Prop
  | nil : Lines [] []
  | cons {l s ls} : (10 : Byte) ∉ l → Lines s ls → Lines (l ++ 10 :: s) (l :: ls)

/-- One line for every group of a result, with a JSON text that presents it. -/
inductive JsonPerLine : List (List (Str × Str)) → Str → Prop
  | nil : JsonPerLine [] []
  | cons {m ms o s out} : (10 : Byte) ∉ s → Presents m o → JText (objectJson o) s → JsonPerLine ms out →
      JsonPerLine (m :: ms) (s ++ 10 :: out)

end Hext.Cli
