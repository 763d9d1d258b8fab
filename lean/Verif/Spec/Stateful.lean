import Verif.Model.Stateful
import Verif.Spec.Extract
import Verif.Spec.Rename
import Verif.Spec.Similar
/-!
# What functions that keep data are asked, and when
-/

namespace Hext.Stateful

variable {σ : Type}

/-- The captures of a group of matches with their nodes: match after match, and for each match in the order in which the captures were
appended to the rule. -/
def jobs (g : Found) : List (Capture × Ptr) := g.flatMap fun p => p.1.info.caps.filterMap fun c => c.map fun c => (c, p.2.ptr)

/-- The function of the user that a capture calls. -/
def userFn : Capture → Option (Heap → Ptr → Str)
  | .function (some (.user f)) _ _ => some f
  | _ => none

/-- The calls of functions of the user that the captures need, each once. -/
def calls (cs : List (Capture × Ptr)) : List ((Heap → Ptr → Str) × Ptr) := cs.filterMap fun c => (userFn c.1).map fun f => (f, c.2)

/-- The data after some calls. -/
def after (acts : Acts σ) (h : Heap) (s : σ) (cs : List ((Heap → Ptr → Str) × Ptr)) : σ := cs.foldl (fun s c => (acts c.1 h c.2 s).2) s

/-- The captures `cs`, carried out one after the other with the data `s`, give the pairs `vs` and leave the data `s'`. -/
inductive Makes (acts : Acts σ) (rx : RxEngine) (h : Heap) : σ → List (Capture × Ptr) → List (Str × Str) → σ → Prop
  | nil {s} : Makes acts rx h s [] [] s
  /-- A function of the user sees the data as the calls before it have left it. -/
  | user {s f name pipe p str s₁ v cs vs s'} : acts f h p s = (some str, s₁) → applyPipe rx pipe str = pure v →
      Makes acts rx h s₁ cs vs s' → Makes acts rx h s ((.function (some (.user f)) name pipe, p) :: cs) ((name, v) :: vs) s'
  | other {s c p o cs vs s'} : userFn c = none → c.capture rx h p = pure o → Makes acts rx h s cs vs s' →
      Makes acts rx h s ((c, p) :: cs) (o.toList ++ vs) s'

/-- Of the captures `cs`, carried out one after the other with the data `s`, the last one throws, no other, and it leaves the data `s'`. -/
inductive Fails (acts : Acts σ) (rx : RxEngine) (h : Heap) : σ → List (Capture × Ptr) → σ → Prop
  | mk {s cs vs s₁ f name pipe p s'} : Makes acts rx h s cs vs s₁ → acts f h p s₁ = (none, s') →
      Fails acts rx h s (cs ++ [(.function (some (.user f)) name pipe, p)]) s'

/-- The maps `ms` of the groups `gs`, made one after the other. -/
inductive MakesMaps (acts : Acts σ) (rx : RxEngine) (h : Heap) : σ → List Found → List (List (Str × Str)) → σ → Prop
  | nil {s} : MakesMaps acts rx h s [] [] s
  | cons {s g vs m s' gs ms s''} : Makes acts rx h s (jobs g) vs s' → IsMap vs m → MakesMaps acts rx h s' gs ms s'' →
      MakesMaps acts rx h s (g :: gs) (m :: ms) s''

/-- A function that counts its calls and returns the count. -/
def counter (render : Nat → Str) : Acts Nat := fun _ _ _ k => (some (render (k + 1)), k + 1)

/-- The captures under `name` are exactly those that call a function of the user, and they have no pipe. -/
def Counts (name : Str) (c : Capture) : Prop :=
  (userFn c ≠ none ∨ c.resultName = name) → ∃ f, c = .function (some (.user f)) name none

end Hext.Stateful
