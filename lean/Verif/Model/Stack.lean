import Verif.Model.Matching
/-!
# The matching functions with a bounded stack

`Model/Matching.lean` again, with the number `d` of stack frames that are still free. A call of a function of RuleMatching.cpp
takes one frame and gives it back when it returns. A call without a free frame is undefined behaviour. Loops take no frame.

Not counted: functions that call none of the functions here (`RuleMatches` with its conditions, `NextNode`, `FindMandatoryRule`,
containers). The model does not say how large a frame is.
-/

namespace Hext.Stack

variable (rx : RxEngine) (h : Heap)

mutual

/-- `SaveMatchingNodesRecursive`, RuleMatching.cpp:23-60. -/
def saveMatchingNodesRecursive (d : Nat) (rule : RulePtr) (node : Ptr) (result : List MatchingNodes) :
    M (List MatchingNodes) := do
  match d with
  | 0 => throw .ub
  | d + 1 => do
    let ms ← get
    if ms != 0 then
      let ms := ms - 1
      set ms
      if ms == 0 then throw .maxSearch
    let result ← saveLoop d rule (some node) result
    saveDescend d rule node result
partial_fixpoint

/-- The `while` loop, RuleMatching.cpp:37-44. -/
def saveLoop (d : Nat) (rule : RulePtr) (nextN : Option Ptr) (result : List MatchingNodes) :
    M (List MatchingNodes) := do
  match nextN with
  | none => pure result
  | some n => do
    let (nx, sub) ← matchRuleGroup d (some rule) (some n) []
    let result := if sub.length > 0 then result ++ [sub] else result
    saveLoop d rule nx result
partial_fixpoint

/-- The `do ... while` loop, RuleMatching.cpp:46-59. -/
def saveDescend (d : Nat) (rule : RulePtr) (nextN : Ptr) (result : List MatchingNodes) :
    M (List MatchingNodes) := do
  let n ← load h nextN
  let result ←
    if n.kind.isElement && n.children.length != 0 then do
      let c ← getAt n.children 0
      saveMatchingNodesRecursive d rule c result
    else pure result
  match ← nextNode h (some nextN) with
  | none => pure result
  | some nx => saveDescend d rule nx result
partial_fixpoint

/-- `MatchRuleGroup`, RuleMatching.cpp:62-160. -/
def matchRuleGroup (d : Nat) (rule : Option RulePtr) (node : Option Ptr) (result : MatchingNodes) :
    M (Option Ptr × MatchingNodes) := do
  match d with
  | 0 => throw .ub
  | d + 1 =>
    match rule, node with
    | some r, some n => groupLoop d r (some r) (some n) [] result
    | _, _ => pure (none, result)
partial_fixpoint

/-- The loop `while( rule && node )`, RuleMatching.cpp:72-145, and what follows it, 147-160. -/
def groupLoop (d : Nat) (firstRule : RulePtr) (rule : Option RulePtr) (node : Option Ptr)
    (sub result : MatchingNodes) : M (Option Ptr × MatchingNodes) := do
  match rule, node with
  | some r, some n =>
    let greedyMatched := r.val.isGreedy && backIs sub r
    if r.val.isOptional || greedyMatched then do
      let stop1 ← findMandatoryRule r.next none
      match stop1 with
      | some stopRule => do
        let (stopNode, sub) ← matchRuleOnce d stopRule (some n) none sub
        match stopNode with
        | none => pure (none, result)
        | some sn => do
          let (_, sub) ← matchRange d (some r) (some stopRule) n (some sn) sub
          let sub := sub ++ [(stopRule, sn)]
          let nx ← nextNode h (some sn)
          groupLoop d firstRule stopRule.next nx sub result
      | none => do
        let stop2 ← findMandatoryRule (some firstRule) (some r)
        if sameRule stop2 (some r) then do
          let (nd, sub) ← matchRange d (some r) none n none sub
          let result := result ++ sub
          match nd with
          | none => pure (none, result)
          | some q => do
            let nx ← nextNode h (some q)
            pure (nx, result)
        else
          match stop2 with
          | none => throw .ub
          | some stopRule => do
            let (stopNode, _discard) ← matchRuleOnce d stopRule (some n) none []
            let (_, sub) ← matchRange d (some r) none n stopNode sub
            pure (stopNode, result ++ sub)
    else do
      let (nd, sub) ← matchRuleOnce d r (some n) none sub
      match nd with
      | none => pure (none, result)
      | some q => do
        let sub := sub ++ [(r, q)]
        let rule' := if r.val.isGreedy then some r else r.next
        let nx ← nextNode h (some q)
        groupLoop d firstRule rule' nx sub result
  | rule, node => do
    let rule := match rule with
      | some r => if r.val.isGreedy && backIs sub r then r.next else some r
      | none => none
    let rule ← skipOptional rule
    match rule with
    | none => pure (node, result ++ sub)
    | some _ => pure (none, result)
partial_fixpoint

/-- `RuleMatchesNodeRecursive`, RuleMatching.cpp:182-247. -/
def ruleMatchesNodeRecursive (d : Nat) (rule : RulePtr) (node : Ptr) (result : MatchingNodes) :
    M (Bool × MatchingNodes) := do
  match d with
  | 0 => throw .ub
  | d + 1 =>
    if !(← ruleMatches rx h rule.val.info node) then pure (false, result)
    else if rule.child.isNone && rule.nested.isEmpty then pure (true, result)
    else do
      let n ← load h node
      if !n.kind.isElement || n.children.length == 0 then pure (false, result)
      else do
        let firstChild ← getAt n.children 0
        let (matched, subresult) ← match rule.child with
          | none => pure (true, [])
          | some c => childLoop d c firstChild false []
        if !matched then pure (false, result)
        else do
          match ← nestedLoop d rule.nested firstChild subresult with
          | none => pure (false, result)
          | some subresult => pure (true, result ++ subresult)
partial_fixpoint

/-- The loop over the child rules, RuleMatching.cpp:203-225. -/
def childLoop (d : Nat) (child : RulePtr) (nextN : Ptr) (matched : Bool) (subresult : MatchingNodes) :
    M (Bool × MatchingNodes) := do
  let (nx, sub) ← matchRuleGroup d (some child) (some nextN) []
  let mandatory ← findMandatoryRule (some child) none
  let subresult' := if sub.length > 0 then subresult ++ sub else subresult
  let matched' := if sub.length > 0 then true else if mandatory.isNone then true else matched
  match nx with
  | none => pure (matched', subresult')
  | some n => childLoop d child n matched' subresult'
partial_fixpoint

/-- The loop over the nested rules, RuleMatching.cpp:229-242. -/
def nestedLoop (d : Nat) (nested : List RulePtr) (firstChild : Ptr) (subresult : MatchingNodes) :
    M (Option MatchingNodes) := do
  match nested with
  | [] => pure (some subresult)
  | r :: rs => do
    let mn ← saveMatchingNodesRecursive d r firstChild []
    let mandatory ← findMandatoryRule (some r) none
    if mn.isEmpty && mandatory.isSome then pure none
    else nestedLoop d rs firstChild (subresult ++ mn.flatten)
partial_fixpoint

/-- `MatchRuleOnce`, RuleMatching.cpp:249-267. -/
def matchRuleOnce (d : Nat) (rule : RulePtr) (begin_ end_ : Option Ptr) (result : MatchingNodes) :
    M (Option Ptr × MatchingNodes) := do
  match d with
  | 0 => throw .ub
  | d + 1 => onceLoop d rule begin_ end_ result
partial_fixpoint

/-- The loop of `MatchRuleOnce`, RuleMatching.cpp:259-264. -/
def onceLoop (d : Nat) (rule : RulePtr) (begin_ end_ : Option Ptr) (result : MatchingNodes) :
    M (Option Ptr × MatchingNodes) := do
  match begin_ with
  | none => pure (end_, result)
  | some b =>
    if some b == end_ then pure (end_, result)
    else do
      let (m, result) ← ruleMatchesNodeRecursive d rule b result
      if m then pure (some b, result)
      else do
        let nx ← nextNode h (some b)
        onceLoop d rule nx end_ result
partial_fixpoint

/-- `MatchRange`, RuleMatching.cpp:269-296. -/
def matchRange (d : Nat) (rBegin rEnd : Option RulePtr) (nBegin : Ptr) (nEnd : Option Ptr)
    (result : MatchingNodes) : M (Option Ptr × MatchingNodes) :=
  match d with
  | 0 => throw .ub
  | d + 1 => rangeLoop d rBegin rEnd (some nBegin) nEnd nEnd result
partial_fixpoint

/-- The loop of `MatchRange`, RuleMatching.cpp:280-293. -/
def rangeLoop (d : Nat) (rBegin rEnd : Option RulePtr) (nBegin nEnd matchingNode : Option Ptr)
    (result : MatchingNodes) : M (Option Ptr × MatchingNodes) := do
  match rBegin with
  | none => pure (matchingNode, result)
  | some r =>
    if sameRule (some r) rEnd then pure (matchingNode, result)
    else do
      let (mn, result) ← matchRuleOnce d r nBegin nEnd result
      match mn with
      | some q =>
        if mn != nEnd then do
          let nx ← nextNode h (some q)
          let rNext := if r.val.isGreedy then some r else r.next
          rangeLoop d rNext rEnd nx nEnd mn (result ++ [(r, q)])
        else rangeLoop d r.next rEnd nBegin nEnd mn result
      | none => rangeLoop d r.next rEnd nBegin nEnd mn result
partial_fixpoint

end

/-- `Rule::extract`, Rule.cpp:273-300, with `d` free frames for the functions of RuleMatching.cpp. -/
def extract (d : Nat) (rule : Rule) (node : Ptr) (maxSearches : UInt64) : E (List (List (Str × Str))) := do
  let (mn, _) ← (saveMatchingNodesRecursive rx h d ⟨[], rule⟩ node []).run maxSearches
  groupsToResult rx h mn

end Hext.Stack
