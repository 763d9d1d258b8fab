import Verif.Spec.Conditions
import Verif.Spec.Extract
/-!
# What an extraction means

The result of a rule tree on a document, without reference to how conditions, captures and pipes are evaluated:
`Fits` says when the tag and the conditions of a rule hold, `Capture.Gives` what a capture captures, `Pipe.Gives` what a pipe
makes of a value. `IsOutcome` puts these into the definition of groups from `Verif.Spec.Extract`.
-/

namespace Hext

/-- The lower case form of an ASCII letter; other bytes are unchanged. -/
def lowerCase (c : Byte) : Byte := if 65 ≤ c ∧ c ≤ 90 then c + 32 else c
/-- The upper case form of an ASCII letter; other bytes are unchanged. -/
def upperCase (c : Byte) : Byte := if 97 ≤ c ∧ c ≤ 122 then c - 32 else c

/-- The first group of a match, or the whole match if the expression has no groups. -/
def firstGroup : List Str → Str
  | _ :: g :: _ => g
  | [m] => m
  | [] => []

/-- `t.Gives rx s u`: the pipe `t` makes `u` of `s`. -/
def Transform.Gives (rx : RxEngine) : Transform → Str → Str → Prop
  | .append x, s, u => u = s ++ x
  | .prepend x, s, u => u = x ++ s
  | .toLower, s, u => u = s.map lowerCase
  | .toUpper, s, u => u = s.map upperCase
  | .collapseWs, s, u => u = Spec.unwords (Spec.words s)
  | .regex r, s, u => (∃ m, rx.search r (cstr s) = some m ∧ u = firstGroup m) ∨ (rx.search r (cstr s) = none ∧ u = [])
  | .regexReplace r x, s, u => u = rx.replace r s x
  | .trim cs, s, u => ∃ before after, s = before ++ u ++ after ∧ (∀ c ∈ before, c ∈ cs) ∧ (∀ c ∈ after, c ∈ cs) ∧
      (∀ c v, u = c :: v → c ∉ cs) ∧ ∀ c v, u = v ++ [c] → c ∉ cs

/-- Each pipe gets what the one before it has made. -/
def Pipe.Gives (rx : RxEngine) : Pipe → Str → Str → Prop
  | .last t, s, u => t.Gives rx s u
  | .cons t p, s, u => ∃ v, t.Gives rx s v ∧ p.Gives rx v u

def PipeGives (rx : RxEngine) : Option Pipe → Str → Str → Prop
  | none, s, u => u = s
  | some p, s, u => p.Gives rx s u

/-- `c.Gives rx h l x`: on the node `l`, the capture `c` captures `x`, a name and a value, or nothing. -/
def Capture.Gives (rx : RxEngine) (h : Heap) (l : Loc) : Capture → Option (Str × Str) → Prop
  | .attribute a name p, some (k, u) => k = name ∧
      ∃ e b v, l.self.kind = .element e ∧ IsAttr e a b ∧ b.value = some v ∧ PipeGives rx p v u
  | .attribute a _ _, none => ¬ ∃ e b v, l.self.kind = .element e ∧ IsAttr e a b ∧ b.value = some v
  | .function f name p, some (k, u) => k = name ∧ ∃ g, f = some g ∧ PipeGives rx p (g.val h l.self) u
  | .function _ _ _, none => False

/-- What the captures of a rule capture, in order. -/
inductive GivesAll (rx : RxEngine) (h : Heap) (l : Loc) : List (Option Capture) → List (Str × Str) → Prop
  | nil : GivesAll rx h l [] []
  | null {cs vs} : GivesAll rx h l cs vs → GivesAll rx h l (none :: cs) vs
  | hit {c cs v vs} : c.Gives rx h l (some v) → GivesAll rx h l cs vs → GivesAll rx h l (some c :: cs) (v :: vs)
  | miss {c cs vs} : c.Gives rx h l none → GivesAll rx h l cs vs → GivesAll rx h l (some c :: cs) vs

/-- What a group captures, in order. -/
inductive GroupGives (rx : RxEngine) (h : Heap) : Found → List (Str × Str) → Prop
  | nil : GroupGives rx h [] []
  | cons {r l g vs ws} : GivesAll rx h l r.info.caps vs → GroupGives rx h g ws → GroupGives rx h ((r, l) :: g) (vs ++ ws)

/-- The maps of the groups. -/
inductive GroupMaps (rx : RxEngine) (h : Heap) : List Found → List (List (Str × Str)) → Prop
  | nil : GroupMaps rx h [] []
  | cons {g gs vs m ms} : GroupGives rx h g vs → IsMap vs m → GroupMaps rx h gs ms → GroupMaps rx h (g :: gs) (m :: ms)

/-- The tag of a rule agrees with the node and all its conditions hold. -/
def Fits (rx : RxEngine) (h : Heap) (i : RuleInfo) (l : Loc) : Prop := TagMeans i l ∧ ∀ m, some m ∈ i.ms → m.Means rx h l

/-- `res` is what the rule `r` extracts, starting at `l`: the maps of the groups, without the empty ones. (The heap is only needed
for functions given by the user: builtin functions are described on the tree.) -/
def IsOutcome (rx : RxEngine) (h : Heap) (r : Rule) (l : Loc) (res : List (List (Str × Str))) : Prop :=
  ∃ gs ms, Search (Fits rx h) r.siblings l.searched gs ∧ GroupMaps rx h gs ms ∧ res = ms.filter (· ≠ [])

end Hext
