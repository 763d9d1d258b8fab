import Verif.Model.Matching
/-!
# Capturing with functions that keep data

The second half of `Rule::extract` again, for a `CaptureFunction` that reads and changes data of the user, like the lambda of
libhext/examples/mixed.cpp:21-26, which counts how often it is called. `σ` is the data. What is simplified: the functions that are
called while the engine matches (`FunctionMatch`, `FunctionValueMatch`) still answer from the node alone, and regular expressions do not
throw (`Model/Throwing.lean` is about those).
-/

namespace Hext.Stateful

/-- What a function of the user does when it is called with a node: it returns a string or throws (`none`), and changes the data. The
function is named by the pure function that stands for it in the rule. CaptureFunction.h:31, libhext/examples/mixed.cpp:21-26. -/
abbrev Acts (σ : Type) := (Heap → Ptr → Str) → Heap → Ptr → σ → Option Str × σ

/-- An outcome, and the data at that moment. The data outlives an exception. For Rule.cpp:246-300. -/
abbrev S (σ : Type) := ExceptT Err (StateT σ Option)

variable {σ : Type}

/-- A step that does not touch the data. As AttributeCapture.cpp:52-74. -/
def keep {α : Type} (x : E α) : S σ α := fun s => (show Option (Except Err α) from x).map fun r => (r, s)

variable (acts : Acts σ) (rx : RxEngine) (h : Heap)

/-- Calling a `CaptureFunction` with a non-null node. Builtins.cpp:30-49. -/
def call (node : Ptr) : CaptureFn → S σ Str
  | .user f => fun s =>
    match acts f h node s with
    | (some str, s') => some (.ok str, s')
    | (none, s') => some (.error .thrown, s')
  | f => keep (f.call h node)

/-- `Capture::capture(node)` for a non-null node. AttributeCapture.cpp:52-74, FunctionCapture.cpp:52-67. -/
def capture (node : Ptr) : Capture → S σ (Option (Str × Str))
  | .attribute attrName name pipe => keep ((Capture.attribute attrName name pipe).capture rx h node)
  | .function f name pipe =>
    match f with
    | none => throw .assertFail
    | some f => do
      let str ← call acts h node f
      let str ← keep (applyPipe rx pipe str)
      pure (some (name, str))

/-- `Rule::capture`, Rule.cpp:246-265 (for a non-null node). -/
def ruleCapture (node : Ptr) : List (Option Capture) → S σ (List (Str × Str))
  | [] => pure []
  | none :: cs => ruleCapture node cs
  | some c :: cs => do
    let pair ← capture acts rx h node c
    let rest ← ruleCapture node cs
    match pair with
    | some p => pure (p :: rest)
    | none => pure rest

/-- The loop over one group, Rule.cpp:281-290. -/
def groupMap (group : MatchingNodes) (map : List (Str × Str)) : S σ (List (Str × Str)) :=
  match group with
  | [] => pure map
  | (r, n) :: rest => do
    let map ←
      if r.val.info.caps.length > 0 then do
        let values ← ruleCapture acts rx h n r.val.info.caps
        pure (values.foldl (fun m p => multimapInsert p m) map)
      else pure map
    groupMap rest map

/-- The loop over all groups, Rule.cpp:278-297. -/
def groupsToResult : List MatchingNodes → S σ (List (List (Str × Str)))
  | [] => pure []
  | g :: gs => do
    let map ← groupMap acts rx h g []
    let rest ← groupsToResult gs
    pure (if map.isEmpty then rest else map :: rest)

/-- `Rule::extract(const GumboNode*, max_searches)`, Rule.cpp:273-300 (for a non-null node). -/
def extract (rule : Rule) (node : Ptr) (maxSearches : UInt64) : S σ (List (List (Str × Str))) := do
  let (mn, _) ← keep ((saveMatchingNodesRecursive rx h ⟨[], rule⟩ node []).run maxSearches)
  groupsToResult acts rx h mn

end Hext.Stateful
