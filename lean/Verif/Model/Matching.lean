import Verif.Model.Rule
/-!
# Literal model of libhext/src/RuleMatching.cpp and of Rule::extract

The functions are mutually recursive `partial_fixpoint` definitions: nothing about their termination
is assumed. Out-parameters (`MatchingNodes& result`) are passed in and the updated value is returned.
-/

namespace Hext

/-- One step from a rule to a rule it owns. The members `first_child_`, `next_`, `nested_`, Rule.h:269-271. -/
inductive Step
  | child
  | next
  | nested (i : Nat)
  deriving DecidableEq, Repr

/-- A `const Rule *`: the address of a rule inside the rule on which `extract` was called (the path of
owning members leading to it, so that different sub-objects have different addresses) together with
the rule stored there. Pointers are compared by address. RuleMatching.h:30, RuleMatching.cpp:76, 165. -/
structure RulePtr where
  addr : List Step
  val : Rule

/-- Pointer comparison `a == b`. RuleMatching.cpp:76, 165. -/
def RulePtr.same (a b : RulePtr) : Bool := a.addr == b.addr

/-- Comparison of possibly null pointers. RuleMatching.cpp:76, 165. -/
def sameRule : Option RulePtr → Option RulePtr → Bool
  | none, none => true
  | some a, some b => a.same b
  | _, _ => false

/-- `rule->child()`. RuleMatching.cpp:87, 143, 193. -/
def RulePtr.child (p : RulePtr) : Option RulePtr :=
  p.val.child.map fun r => ⟨p.addr ++ [.child], r⟩

/-- `rule->next()`. RuleMatching.cpp:159, 166, 170, 204, 292. -/
def RulePtr.next (p : RulePtr) : Option RulePtr :=
  p.val.next.map fun r => ⟨p.addr ++ [.next], r⟩

/-- `&rule->nested()[i]` for all `i`. RuleMatching.cpp:229-231. -/
def RulePtr.nested (p : RulePtr) : List RulePtr :=
  p.val.nested.zipIdx.map fun (r, i) => ⟨p.addr ++ [.nested i], r⟩

/-- `MatchingNodes`, RuleMatching.h:36-37: `std::vector<std::pair<const Rule*, const GumboNode*>>`. -/
abbrev MatchingNodes := List (RulePtr × Ptr)

/-- `FindMandatoryRule`, RuleMatching.cpp:298-308. -/
def findMandatoryRule (begin_ end_ : Option RulePtr) : E (Option RulePtr) :=
  match begin_ with
  | none => pure end_
  | some r =>
    if sameRule (some r) end_ then pure end_
    else if !r.val.isOptional then pure (some r)
    else findMandatoryRule r.next end_
partial_fixpoint

/-- The loop of RuleMatching.cpp:169-170: skip optional rules. -/
def skipOptional (rule : Option RulePtr) : E (Option RulePtr) :=
  match rule with
  | none => pure none
  | some r => if r.val.isOptional then skipOptional r.next else pure (some r)
partial_fixpoint

/-- `sub.size() && rule == sub.back().first`. RuleMatching.cpp:76, 165. -/
def backIs (sub : MatchingNodes) (r : RulePtr) : Bool :=
  match sub.getLast? with
  | none => false
  | some (q, _) => r.same q

variable (rx : RxEngine) (h : Heap)

mutual

/-- `SaveMatchingNodesRecursive`, RuleMatching.cpp:25-60. `result` grows. -/
def saveMatchingNodesRecursive (rule : RulePtr) (node : Ptr) (result : List MatchingNodes) :
    M (List MatchingNodes) := do
  -- 34: if( max_searches && --max_searches == 0 ) throw MaxSearchError
  let ms ← get
  if ms != 0 then
    let ms := ms - 1
    set ms
    if ms == 0 then throw .maxSearch
  let result ← saveLoop rule (some node) result
  saveDescend rule node result
partial_fixpoint

/-- The `while` loop, RuleMatching.cpp:37-44. -/
def saveLoop (rule : RulePtr) (nextN : Option Ptr) (result : List MatchingNodes) :
    M (List MatchingNodes) := do
  match nextN with
  | none => pure result
  | some n => do
    let (nx, sub) ← matchRuleGroup (some rule) (some n) []
    let result := if sub.length > 0 then result ++ [sub] else result
    saveLoop rule nx result
partial_fixpoint

/-- The `do ... while` loop, RuleMatching.cpp:46-59. -/
def saveDescend (rule : RulePtr) (nextN : Ptr) (result : List MatchingNodes) :
    M (List MatchingNodes) := do
  let n ← load h nextN
  let result ←
    if n.kind.isElement && n.children.length != 0 then do
      let c ← getAt n.children 0
      saveMatchingNodesRecursive rule c result
    else pure result
  match ← nextNode h (some nextN) with
  | none => pure result
  | some nx => saveDescend rule nx result
partial_fixpoint

/-- `MatchRuleGroup`, RuleMatching.cpp:62-160. Returns the node to continue with and `result`. -/
def matchRuleGroup (rule : Option RulePtr) (node : Option Ptr) (result : MatchingNodes) :
    M (Option Ptr × MatchingNodes) := do
  match rule, node with
  | some r, some n => groupLoop r (some r) (some n) [] result
  | _, _ => pure (none, result)
partial_fixpoint

/-- The loop `while( rule && node )`, RuleMatching.cpp:72-145, and what follows it, 147-160. -/
def groupLoop (firstRule : RulePtr) (rule : Option RulePtr) (node : Option Ptr)
    (sub result : MatchingNodes) : M (Option Ptr × MatchingNodes) := do
  match rule, node with
  | some r, some n =>
    let greedyMatched := r.val.isGreedy && backIs sub r
    if r.val.isOptional || greedyMatched then do
      let stop1 ← findMandatoryRule r.next none
      match stop1 with
      | some stopRule => do
        -- has_wrapped == false: 121-140
        let (stopNode, sub) ← matchRuleOnce stopRule (some n) none sub
        match stopNode with
        | none => pure (none, result)
        | some sn => do
          let (_, sub) ← matchRange (some r) (some stopRule) n (some sn) sub
          let sub := sub ++ [(stopRule, sn)]
          let nx ← nextNode h (some sn)
          groupLoop firstRule stopRule.next nx sub result
      | none => do
        -- has_wrapped == true: 88-98
        let stop2 ← findMandatoryRule (some firstRule) (some r)
        if sameRule stop2 (some r) then do
          -- no mandatory rules at all: 101-106
          let (nd, sub) ← matchRange (some r) none n none sub
          let result := result ++ sub
          match nd with
          | none => pure (none, result)
          | some q => do
            let nx ← nextNode h (some q)
            pure (nx, result)
        else
          match stop2 with
          | none => throw .ub  -- cannot happen: FindMandatoryRule(first_rule, rule) is never null here
          | some stopRule => do
            -- 111-127
            let (stopNode, _discard) ← matchRuleOnce stopRule (some n) none []
            let (_, sub) ← matchRange (some r) none n stopNode sub
            pure (stopNode, result ++ sub)
    else do
      -- rule is mandatory: 132-144
      let (nd, sub) ← matchRuleOnce r (some n) none sub
      match nd with
      | none => pure (none, result)
      | some q => do
        let sub := sub ++ [(r, q)]
        let rule' := if r.val.isGreedy then some r else r.next
        let nx ← nextNode h (some q)
        groupLoop firstRule rule' nx sub result
  | rule, node => do
    -- 147-149
    let rule := match rule with
      | some r => if r.val.isGreedy && backIs sub r then r.next else some r
      | none => none
    let rule ← skipOptional rule
    match rule with
    | none => pure (node, result ++ sub)
    | some _ => pure (none, result)
partial_fixpoint

/-- `RuleMatchesNodeRecursive`, RuleMatching.cpp:182-247. -/
def ruleMatchesNodeRecursive (rule : RulePtr) (node : Ptr) (result : MatchingNodes) :
    M (Bool × MatchingNodes) := do
  if !(← ruleMatches rx h rule.val.info node) then pure (false, result)
  else if rule.child.isNone && rule.nested.isEmpty then pure (true, result)
  else do
    let n ← load h node
    if !n.kind.isElement || n.children.length == 0 then pure (false, result)
    else do
      let firstChild ← getAt n.children 0
      let (matched, subresult) ← match rule.child with
        | none => pure (true, [])
        | some c => childLoop c firstChild false []
      if !matched then pure (false, result)
      else do
        match ← nestedLoop rule.nested firstChild subresult with
        | none => pure (false, result)
        | some subresult => pure (true, result ++ subresult)
partial_fixpoint

/-- The `do ... while( next_node )` loop over the child rules, RuleMatching.cpp:203-225.
`FindMandatoryRule` is called here also when its result is not needed; it has no effects. -/
def childLoop (child : RulePtr) (nextN : Ptr) (matched : Bool) (subresult : MatchingNodes) :
    M (Bool × MatchingNodes) := do
  let (nx, sub) ← matchRuleGroup (some child) (some nextN) []
  let mandatory ← findMandatoryRule (some child) none
  let subresult' := if sub.length > 0 then subresult ++ sub else subresult
  let matched' := if sub.length > 0 then true else if mandatory.isNone then true else matched
  match nx with
  | none => pure (matched', subresult')
  | some n => childLoop child n matched' subresult'
partial_fixpoint

/-- The loop over the nested rules, RuleMatching.cpp:229-242; `none` is `return false`.
`FindMandatoryRule` is called here also when its result is not needed; it has no effects. -/
def nestedLoop (nested : List RulePtr) (firstChild : Ptr) (subresult : MatchingNodes) :
    M (Option MatchingNodes) := do
  match nested with
  | [] => pure (some subresult)
  | r :: rs => do
    let mn ← saveMatchingNodesRecursive r firstChild []
    let mandatory ← findMandatoryRule (some r) none
    if mn.isEmpty && mandatory.isSome then pure none
    else nestedLoop rs firstChild (subresult ++ mn.flatten)
partial_fixpoint

/-- `MatchRuleOnce`, RuleMatching.cpp:249-267 (the rule is never null at the call sites). -/
def matchRuleOnce (rule : RulePtr) (begin_ end_ : Option Ptr) (result : MatchingNodes) :
    M (Option Ptr × MatchingNodes) := do
  match begin_ with
  | none => pure (end_, result)
  | some b =>
    if some b == end_ then pure (end_, result)
    else do
      let (m, result) ← ruleMatchesNodeRecursive rule b result
      if m then pure (some b, result)
      else do
        let nx ← nextNode h (some b)
        matchRuleOnce rule nx end_ result
partial_fixpoint

/-- `MatchRange`, RuleMatching.cpp:269-296, entered with a non-null `n_begin`. -/
def matchRange (rBegin rEnd : Option RulePtr) (nBegin : Ptr) (nEnd : Option Ptr)
    (result : MatchingNodes) : M (Option Ptr × MatchingNodes) :=
  rangeLoop rBegin rEnd (some nBegin) nEnd nEnd result
partial_fixpoint

/-- The loop of `MatchRange`, RuleMatching.cpp:280-293; `matchingNode` is the last result. -/
def rangeLoop (rBegin rEnd : Option RulePtr) (nBegin nEnd matchingNode : Option Ptr)
    (result : MatchingNodes) : M (Option Ptr × MatchingNodes) := do
  match rBegin with
  | none => pure (matchingNode, result)
  | some r =>
    if sameRule (some r) rEnd then pure (matchingNode, result)
    else do
      let (mn, result) ← matchRuleOnce r nBegin nEnd result
      -- 283: has_matched = ( matching_node && matching_node != n_end )
      match mn with
      | some q =>
        if mn != nEnd then do
          let nx ← nextNode h (some q)
          let rNext := if r.val.isGreedy then some r else r.next
          rangeLoop rNext rEnd nx nEnd mn (result ++ [(r, q)])
        else rangeLoop r.next rEnd nBegin nEnd mn result
      | none => rangeLoop r.next rEnd nBegin nEnd mn result
partial_fixpoint

end

/-- `ResultMap` is a `std::multimap<std::string, std::string>`: kept as the list of its entries in
iteration order. Inserting places the entry after all entries whose key is not greater
(`std::multimap::insert` keeps insertion order among equal keys). Keys are compared as byte strings. Result.h:32-45. -/
def bytesLt : Str → Str → Bool
  | [], [] => false
  | [], _ :: _ => true
  | _ :: _, [] => false
  | a :: as, b :: bs => if a < b then true else if b < a then false else bytesLt as bs

/-- `std::multimap::insert` of one pair. Rule.cpp:289. -/
def multimapInsert (p : Str × Str) : List (Str × Str) → List (Str × Str)
  | [] => [p]
  | q :: m => if bytesLt p.1 q.1 then p :: q :: m else q :: multimapInsert p m

/-- The loop over one group, Rule.cpp:281-290. -/
def groupMap (group : MatchingNodes) (map : List (Str × Str)) : E (List (Str × Str)) :=
  match group with
  | [] => pure map
  | (r, n) :: rest => do
    let map ←
      if r.val.info.caps.length > 0 then do
        let values ← ruleCapture rx h n r.val.info.caps
        pure (values.foldl (fun m p => multimapInsert p m) map)
      else pure map
    groupMap rest map

/-- The loop over all groups, Rule.cpp:278-297. -/
def groupsToResult : List MatchingNodes → E (List (List (Str × Str)))
  | [] => pure []
  | g :: gs => do
    let map ← groupMap rx h g []
    let rest ← groupsToResult gs
    pure (if map.isEmpty then rest else map :: rest)

/-- `Rule::extract(const GumboNode*, max_searches)`, Rule.cpp:273-300 (for a non-null node). -/
def extract (rule : Rule) (node : Ptr) (maxSearches : UInt64) : E (List (List (Str × Str))) := do
  let (mn, _) ← (saveMatchingNodesRecursive rx h ⟨[], rule⟩ node []).run maxSearches
  groupsToResult rx h mn

end Hext
