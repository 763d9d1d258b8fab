import Verif.Model.Matching
/-!
# libhext/src/RuleMatching.cpp with a counter of the steps

The functions of Model/Matching.lean once more, statement by statement, in a monad whose state counts
the steps of an extraction: the calls of `SaveMatchingNodesRecursive` (the searches, which are what
`max_searches` counts) and the calls of `Rule::matches` (RuleMatching.cpp:190), which nothing counts.
Simplification: the limit is left out, so that the count is the one of an extraction that is not
stopped; it is the same for every limit that is not reached.
-/

namespace Hext.Work

/-- The monad of the counting engine: a counter in place of the remaining searches. For RuleMatching.cpp:25-310. -/
abbrev M := StateT Nat E

/-- One step more. One node or rule more that RuleMatching.cpp:25-310 looks at. -/
def step : M Unit := fun k => pure ((), k + 1)

variable (rx : RxEngine) (h : Heap)

mutual

/-- `SaveMatchingNodesRecursive`, RuleMatching.cpp:25-60. Being called is one step; line 34 (the limit) is left out. -/
def saveMatchingNodesRecursive (rule : RulePtr) (node : Ptr) (result : List MatchingNodes) :
    M (List MatchingNodes) := do
  step
  let result ← saveLoop rule (some node) result
  saveDescend rule node result
partial_fixpoint

/-- The `while` loop, RuleMatching.cpp:37-44. -/
def saveLoop (rule : RulePtr) (nextN : Option Ptr) (result : List MatchingNodes) :
    M (List MatchingNodes) := do
  match nextN with
  | none => pure result
  | some n => do
    let (nx, sub) ← matchRuleGroup (some rule) (some n) []
    let result := if sub.length > 0 then result ++ [sub] else result
    saveLoop rule nx result
partial_fixpoint

/-- The `do ... while` loop, RuleMatching.cpp:46-59. -/
def saveDescend (rule : RulePtr) (nextN : Ptr) (result : List MatchingNodes) :
    M (List MatchingNodes) := do
  let n ← load h nextN
  let result ←
    if n.kind.isElement && n.children.length != 0 then do
      let c ← getAt n.children 0
      saveMatchingNodesRecursive rule c result
    else pure result
  match ← nextNode h (some nextN) with
  | none => pure result
  | some nx => saveDescend rule nx result
partial_fixpoint

/-- `MatchRuleGroup`, RuleMatching.cpp:62-160. Returns the node to continue with and `result`. -/
def matchRuleGroup (rule : Option RulePtr) (node : Option Ptr) (result : MatchingNodes) :
    M (Option Ptr × MatchingNodes) := do
  match rule, node with
  | some r, some n => groupLoop r (some r) (some n) [] result
  | _, _ => pure (none, result)
partial_fixpoint

/-- The loop `while( rule && node )`, RuleMatching.cpp:72-145, and what follows it, 147-160. -/
def groupLoop (firstRule : RulePtr) (rule : Option RulePtr) (node : Option Ptr)
    (sub result : MatchingNodes) : M (Option Ptr × MatchingNodes) := do
  match rule, node with
  | some r, some n =>
    let greedyMatched := r.val.isGreedy && backIs sub r
    if r.val.isOptional || greedyMatched then do
      let stop1 ← findMandatoryRule r.next none
      match stop1 with
      | some stopRule => do
        -- has_wrapped == false: 121-140
        let (stopNode, sub) ← matchRuleOnce stopRule (some n) none sub
        match stopNode with
        | none => pure (none, result)
        | some sn => do
          let (_, sub) ← matchRange (some r) (some stopRule) n (some sn) sub
          let sub := sub ++ [(stopRule, sn)]
          let nx ← nextNode h (some sn)
          groupLoop firstRule stopRule.next nx sub result
      | none => do
        -- has_wrapped == true: 88-98
        let stop2 ← findMandatoryRule (some firstRule) (some r)
        if sameRule stop2 (some r) then do
          -- no mandatory rules at all: 101-106
          let (nd, sub) ← matchRange (some r) none n none sub
          let result := result ++ sub
          match nd with
          | none => pure (none, result)
          | some q => do
            let nx ← nextNode h (some q)
            pure (nx, result)
        else
          match stop2 with
          | none => throw .ub  -- cannot happen: FindMandatoryRule(first_rule, rule) is never null here
          | some stopRule => do
            -- 111-127
            let (stopNode, _discard) ← matchRuleOnce stopRule (some n) none []
            let (_, sub) ← matchRange (some r) none n stopNode sub
            pure (stopNode, result ++ sub)
    else do
      -- rule is mandatory: 132-144
      let (nd, sub) ← matchRuleOnce r (some n) none sub
      match nd with
      | none => pure (none, result)
      | some q => do
        let sub := sub ++ [(r, q)]
        let rule' := if r.val.isGreedy then some r else r.next
        let nx ← nextNode h (some q)
        groupLoop firstRule rule' nx sub result
  | rule, node => do
    -- 147-149
    let rule := match rule with
      | some r => if r.val.isGreedy && backIs sub r then r.next else some r
      | none => none
    let rule ← skipOptional rule
    match rule with
    | none => pure (node, result ++ sub)
    | some _ => pure (none, result)
partial_fixpoint

/-- `RuleMatchesNodeRecursive`, RuleMatching.cpp:182-247. The call of `Rule::matches` in line 190 is one step. -/
def ruleMatchesNodeRecursive (rule : RulePtr) (node : Ptr) (result : MatchingNodes) :
    M (Bool × MatchingNodes) := do
  step
  if !(← ruleMatches rx h rule.val.info node) then pure (false, result)
  else if rule.child.isNone && rule.nested.isEmpty then pure (true, result)
  else do
    let n ← load h node
    if !n.kind.isElement || n.children.length == 0 then pure (false, result)
    else do
      let firstChild ← getAt n.children 0
      let (matched, subresult) ← match rule.child with
        | none => pure (true, [])
        | some c => childLoop c firstChild false []
      if !matched then pure (false, result)
      else do
        match ← nestedLoop rule.nested firstChild subresult with
        | none => pure (false, result)
        | some subresult => pure (true, result ++ subresult)
partial_fixpoint

/-- The `do ... while( next_node )` loop over the child rules, RuleMatching.cpp:203-225.
`FindMandatoryRule` is called here also when its result is not needed; it has no effects. -/
def childLoop (child : RulePtr) (nextN : Ptr) (matched : Bool) (subresult : MatchingNodes) :
    M (Bool × MatchingNodes) := do
  let (nx, sub) ← matchRuleGroup (some child) (some nextN) []
  let mandatory ← findMandatoryRule (some child) none
  let subresult' := if sub.length > 0 then subresult ++ sub else subresult
  let matched' := if sub.length > 0 then true else if mandatory.isNone then true else matched
  match nx with
  | none => pure (matched', subresult')
  | some n => childLoop child n matched' subresult'
partial_fixpoint

/-- The loop over the nested rules, RuleMatching.cpp:229-242; `none` is `return false`.
`FindMandatoryRule` is called here also when its result is not needed; it has no effects. -/
def nestedLoop (nested : List RulePtr) (firstChild : Ptr) (subresult : MatchingNodes) :
    M (Option MatchingNodes) := do
  match nested with
  | [] => pure (some subresult)
  | r :: rs => do
    let mn ← saveMatchingNodesRecursive r firstChild []
    let mandatory ← findMandatoryRule (some r) none
    if mn.isEmpty && mandatory.isSome then pure none
    else nestedLoop rs firstChild (subresult ++ mn.flatten)
partial_fixpoint

/-- `MatchRuleOnce`, RuleMatching.cpp:249-267 (the rule is never null at the call sites). -/
def matchRuleOnce (rule : RulePtr) (begin_ end_ : Option Ptr) (result : MatchingNodes) :
    M (Option Ptr × MatchingNodes) := do
  match begin_ with
  | none => pure (end_, result)
  | some b =>
    if some b == end_ then pure (end_, result)
    else do
      let (m, result) ← ruleMatchesNodeRecursive rule b result
      if m then pure (some b, result)
      else do
        let nx ← nextNode h (some b)
        matchRuleOnce rule nx end_ result
partial_fixpoint

/-- `MatchRange`, RuleMatching.cpp:269-296, entered with a non-null `n_begin`. -/
def matchRange (rBegin rEnd : Option RulePtr) (nBegin : Ptr) (nEnd : Option Ptr)
    (result : MatchingNodes) : M (Option Ptr × MatchingNodes) :=
  rangeLoop rBegin rEnd (some nBegin) nEnd nEnd result
partial_fixpoint

/-- The loop of `MatchRange`, RuleMatching.cpp:280-293; `matchingNode` is the last result. -/
def rangeLoop (rBegin rEnd : Option RulePtr) (nBegin nEnd matchingNode : Option Ptr)
    (result : MatchingNodes) : M (Option Ptr × MatchingNodes) := do
  match rBegin with
  | none => pure (matchingNode, result)
  | some r =>
    if sameRule (some r) rEnd then pure (matchingNode, result)
    else do
      let (mn, result) ← matchRuleOnce r nBegin nEnd result
      -- 283: has_matched = ( matching_node && matching_node != n_end )
      match mn with
      | some q =>
        if mn != nEnd then do
          let nx ← nextNode h (some q)
          let rNext := if r.val.isGreedy then some r else r.next
          rangeLoop rNext rEnd nx nEnd mn (result ++ [(r, q)])
        else rangeLoop r.next rEnd nBegin nEnd mn result
      | none => rangeLoop r.next rEnd nBegin nEnd mn result
partial_fixpoint

end

/-- `Rule::extract(const GumboNode*, max_searches)`, Rule.cpp:273-300, with the number of steps. -/
def extract (rule : Rule) (node : Ptr) : E (List (List (Str × Str)) × Nat) := do
  let (mn, k) ← (saveMatchingNodesRecursive rx h ⟨[], rule⟩ node []).run 0
  let res ← groupsToResult rx h mn
  pure (res, k)

end Hext.Work
