import Verif.Model.Matching
/-!
# The engine with functions that throw

`Model/Matching.lean` and the classes that it calls again, for regular expressions and functions that do not always answer:
`boost::regex_search` and `boost::regex_replace` throw `std::runtime_error` when a search becomes too expensive, and a
`MatchFunction` or `CaptureFunction` of the user may throw whatever it likes. None of the functions here has a handler. Which
exception it is does not matter here: it is the outcome `Err.thrown`.
-/

namespace Hext.Throwing

/-- Which calls throw. RegexTest.cpp:33, RegexPipe.cpp:29, RegexReplacePipe.cpp:29, FunctionMatch.cpp, FunctionCapture.cpp:52-67. -/
structure Throws where
  search : Regex → Str → Bool
  replace : Regex → Str → Str → Bool
  matchFn : (Heap → Ptr → Bool) → Heap → Ptr → Bool
  captureFn : (Heap → Ptr → Str) → Heap → Ptr → Bool

variable (t : Throws) (rx : RxEngine) (h : Heap)

/-- A call that throws or returns a value. RegexTest.cpp:33, RegexPipe.cpp:29, RegexReplacePipe.cpp:29. -/
def answer {α} (throws : Bool) (a : α) : E α := if throws then throw .thrown else pure a

/-- `ValueTest::test`: RegexTest.cpp:28-34, NegateTest.cpp:42-48. The others call nothing that throws. -/
def test : ValueTest → Option Str → E Bool
  | .regex r, some s => answer (t.search r s) (rx.search r s).isSome
  | .negate v, s => do pure (!(← test v s))
  | v, s => v.test rx s

/-- `StringPipe::transform`: RegexPipe.cpp:26-37, RegexReplacePipe.cpp:27-30. The others call nothing that throws. -/
def transform : Transform → Str → E Str
  | .regex r, s => do
    match ← answer (t.search r (cstr s)) (rx.search r (cstr s)) with
    | some mr => if mr.length > 1 then pure (mr.getD 1 []) else pure (mr.getD 0 [])
    | none => pure []
  | .regexReplace r fmt, s => answer (t.replace r s fmt) (rx.replace r s fmt)
  | p, s => p.transform rx s

/-- `StringPipe::pipe`, StringPipe.cpp:47-55. -/
def pipe : Pipe → Str → E Str
  | .last f, s => transform t rx f s
  | .cons f next, s => do
    let s ← transform t rx f s
    pipe next s

/-- Calling a `CaptureFunction` with a non-null node. Builtins.cpp:30-49. -/
def call (node : Ptr) : CaptureFn → E Str
  | .user f => answer (t.captureFn f h node) (f h node)
  | f => f.call h node

/-- `AttributeMatch::matches`, AttributeMatch.cpp:46-66. -/
def attributeMatches (name : Str) (v : Option ValueTest) (node : Ptr) : E Bool := do
  let n ← load h node
  match n.kind with
  | .element e =>
    let gAttr := getAttribute e.attrs name
    match v with
    | none => pure gAttr.isSome
    | some v =>
      match gAttr with
      | none => test t rx v none
      | some a => match a.value with
        | some s => test t rx v (some s)
        | none => pure false
  | _ => pure false

/-- `TypeRegexMatch::matches`, TypeRegexMatch.cpp:30-47. -/
def typeRegexMatches (r : Regex) (node : Ptr) : E Bool := do
  let n ← load h node
  let name := match n.kind with
    | .element e =>
      match e.tag with
      | .unknown => e.origName.getD []
      | tag => tag.normalizedName
    | _ => []
  answer (t.search r name) (rx.search r name).isSome

mutual
/-- `Match::matches(node)` for a non-null node. FunctionMatch.cpp:29-36, FunctionValueMatch.cpp:48-56, NegateMatch.cpp:58-69,
and the functions above. The others call nothing that throws. -/
def matches_ (node : Ptr) : Match → E Bool
  | .attribute name v => attributeMatches t rx h name v node
  | .function f =>
    match f with
    | none => throw .assertFail
    | some f => answer (t.matchFn f h node) (f h node)
  | .functionValue f v =>
    match f with
    | none => throw .assertFail
    | some f =>
      match v with
      | none => pure false
      | some v => do
        let str ← call t h node f
        test t rx v (some (cstr str))
  | .negate ms => negateLoop node ms
  | .typeRegex r => typeRegexMatches t rx h r node
  | .attributeCount k => (Match.attributeCount k).matches rx h node
  | .childCount k => (Match.childCount k).matches rx h node
  | .nthChild a b c d => (Match.nthChild a b c d).matches rx h node
  | .onlyChild b => (Match.onlyChild b).matches rx h node

/-- The loop of `NegateMatch::matches`, NegateMatch.cpp:64-68. -/
def negateLoop (node : Ptr) : List (Option Match) → E Bool
  | [] => pure true
  | m :: ms => do
    if (← optMatches node m) then pure false else negateLoop node ms

/-- `match && match->matches(node)`. NegateMatch.cpp:65. -/
def optMatches (node : Ptr) : Option Match → E Bool
  | none => pure false
  | some m => matches_ node m
end

/-- `pipe_ ? pipe_->pipe(str) : str`. AttributeCapture.cpp:68-72, FunctionCapture.cpp:61-65. -/
def applyPipe (p : Option Pipe) (s : Str) : E Str :=
  match p with
  | none => pure s
  | some p => pipe t rx p s

/-- `Capture::capture(node)` for a non-null node. AttributeCapture.cpp:52-74, FunctionCapture.cpp:52-67. -/
def capture (node : Ptr) : Capture → E (Option (Str × Str))
  | .attribute attrName name p => do
    let n ← load h node
    match n.kind with
    | .element e =>
      match getAttribute e.attrs attrName with
      | none => pure none
      | some a => match a.value with
        | none => pure none
        | some v => do pure (some (name, ← applyPipe t rx p v))
    | _ => pure none
  | .function f name p =>
    match f with
    | none => throw .assertFail
    | some f => do
      let str ← call t h node f
      pure (some (name, ← applyPipe t rx p str))

/-- The loop over `matches_`, Rule.cpp:239-241. -/
def allMatch (node : Ptr) : List (Option Match) → E Bool
  | [] => pure true
  | m :: ms => do
    let fails ← match m with
      | none => pure false
      | some m => do pure (!(← matches_ t rx h node m))
    if fails then pure false else allMatch node ms

/-- `Rule::matches`, Rule.cpp:201-244 (for a non-null node). -/
def ruleMatches (info : RuleInfo) (node : Ptr) : E Bool := do
  let n ← load h node
  if !tagAgrees info n.kind then pure false
  else allMatch t rx h node info.ms

/-- `Rule::capture`, Rule.cpp:246-265 (for a non-null node). -/
def ruleCapture (node : Ptr) : List (Option Capture) → E (List (Str × Str))
  | [] => pure []
  | none :: cs => ruleCapture node cs
  | some c :: cs => do
    let pair ← capture t rx h node c
    let rest ← ruleCapture node cs
    match pair with
    | some p => pure (p :: rest)
    | none => pure rest

section engine

-- `rm` is `Rule::matches`
variable (rm : RuleInfo → Ptr → E Bool) (h : Heap)

mutual

/-- `SaveMatchingNodesRecursive`, RuleMatching.cpp:25-60. `result` grows. -/
def saveMatchingNodesRecursive (rule : RulePtr) (node : Ptr) (result : List MatchingNodes) :
    M (List MatchingNodes) := do
  -- 34: if( max_searches && --max_searches == 0 ) throw MaxSearchError
  let ms ← get
  if ms != 0 then
    let ms := ms - 1
    set ms
    if ms == 0 then throw .maxSearch
  let result ← saveLoop rule (some node) result
  saveDescend rule node result
partial_fixpoint

/-- The `while` loop, RuleMatching.cpp:37-44. -/
def saveLoop (rule : RulePtr) (nextN : Option Ptr) (result : List MatchingNodes) :
    M (List MatchingNodes) := do
  match nextN with
  | none => pure result
  | some n => do
    let (nx, sub) ← matchRuleGroup (some rule) (some n) []
    let result := if sub.length > 0 then result ++ [sub] else result
    saveLoop rule nx result
partial_fixpoint

/-- The `do ... while` loop, RuleMatching.cpp:46-59. -/
def saveDescend (rule : RulePtr) (nextN : Ptr) (result : List MatchingNodes) :
    M (List MatchingNodes) := do
  let n ← load h nextN
  let result ←
    if n.kind.isElement && n.children.length != 0 then do
      let c ← getAt n.children 0
      saveMatchingNodesRecursive rule c result
    else pure result
  match ← nextNode h (some nextN) with
  | none => pure result
  | some nx => saveDescend rule nx result
partial_fixpoint

/-- `MatchRuleGroup`, RuleMatching.cpp:62-160. Returns the node to continue with and `result`. -/
def matchRuleGroup (rule : Option RulePtr) (node : Option Ptr) (result : MatchingNodes) :
    M (Option Ptr × MatchingNodes) := do
  match rule, node with
  | some r, some n => groupLoop r (some r) (some n) [] result
  | _, _ => pure (none, result)
partial_fixpoint

/-- The loop `while( rule && node )`, RuleMatching.cpp:72-145, and what follows it, 147-160. -/
def groupLoop (firstRule : RulePtr) (rule : Option RulePtr) (node : Option Ptr)
    (sub result : MatchingNodes) : M (Option Ptr × MatchingNodes) := do
  match rule, node with
  | some r, some n =>
    let greedyMatched := r.val.isGreedy && backIs sub r
    if r.val.isOptional || greedyMatched then do
      let stop1 ← findMandatoryRule r.next none
      match stop1 with
      | some stopRule => do
        -- has_wrapped == false: 121-140
        let (stopNode, sub) ← matchRuleOnce stopRule (some n) none sub
        match stopNode with
        | none => pure (none, result)
        | some sn => do
          let (_, sub) ← matchRange (some r) (some stopRule) n (some sn) sub
          let sub := sub ++ [(stopRule, sn)]
          let nx ← nextNode h (some sn)
          groupLoop firstRule stopRule.next nx sub result
      | none => do
        -- has_wrapped == true: 88-98
        let stop2 ← findMandatoryRule (some firstRule) (some r)
        if sameRule stop2 (some r) then do
          -- no mandatory rules at all: 101-106
          let (nd, sub) ← matchRange (some r) none n none sub
          let result := result ++ sub
          match nd with
          | none => pure (none, result)
          | some q => do
            let nx ← nextNode h (some q)
            pure (nx, result)
        else
          match stop2 with
          | none => throw .ub  -- cannot happen: FindMandatoryRule(first_rule, rule) is never null here
          | some stopRule => do
            -- 111-127
            let (stopNode, _discard) ← matchRuleOnce stopRule (some n) none []
            let (_, sub) ← matchRange (some r) none n stopNode sub
            pure (stopNode, result ++ sub)
    else do
      -- rule is mandatory: 132-144
      let (nd, sub) ← matchRuleOnce r (some n) none sub
      match nd with
      | none => pure (none, result)
      | some q => do
        let sub := sub ++ [(r, q)]
        let rule' := if r.val.isGreedy then some r else r.next
        let nx ← nextNode h (some q)
        groupLoop firstRule rule' nx sub result
  | rule, node => do
    -- 147-149
    let rule := match rule with
      | some r => if r.val.isGreedy && backIs sub r then r.next else some r
      | none => none
    let rule ← skipOptional rule
    match rule with
    | none => pure (node, result ++ sub)
    | some _ => pure (none, result)
partial_fixpoint

/-- `RuleMatchesNodeRecursive`, RuleMatching.cpp:182-247. -/
def ruleMatchesNodeRecursive (rule : RulePtr) (node : Ptr) (result : MatchingNodes) :
    M (Bool × MatchingNodes) := do
  if !(← rm rule.val.info node) then pure (false, result)
  else if rule.child.isNone && rule.nested.isEmpty then pure (true, result)
  else do
    let n ← load h node
    if !n.kind.isElement || n.children.length == 0 then pure (false, result)
    else do
      let firstChild ← getAt n.children 0
      let (matched, subresult) ← match rule.child with
        | none => pure (true, [])
        | some c => childLoop c firstChild false []
      if !matched then pure (false, result)
      else do
        match ← nestedLoop rule.nested firstChild subresult with
        | none => pure (false, result)
        | some subresult => pure (true, result ++ subresult)
partial_fixpoint

/-- The `do ... while( next_node )` loop over the child rules, RuleMatching.cpp:203-225.
`FindMandatoryRule` is called here also when its result is not needed; it has no effects. -/
def childLoop (child : RulePtr) (nextN : Ptr) (matched : Bool) (subresult : MatchingNodes) :
    M (Bool × MatchingNodes) := do
  let (nx, sub) ← matchRuleGroup (some child) (some nextN) []
  let mandatory ← findMandatoryRule (some child) none
  let subresult' := if sub.length > 0 then subresult ++ sub else subresult
  let matched' := if sub.length > 0 then true else if mandatory.isNone then true else matched
  match nx with
  | none => pure (matched', subresult')
  | some n => childLoop child n matched' subresult'
partial_fixpoint

/-- The loop over the nested rules, RuleMatching.cpp:229-242; `none` is `return false`.
`FindMandatoryRule` is called here also when its result is not needed; it has no effects. -/
def nestedLoop (nested : List RulePtr) (firstChild : Ptr) (subresult : MatchingNodes) :
    M (Option MatchingNodes) := do
  match nested with
  | [] => pure (some subresult)
  | r :: rs => do
    let mn ← saveMatchingNodesRecursive r firstChild []
    let mandatory ← findMandatoryRule (some r) none
    if mn.isEmpty && mandatory.isSome then pure none
    else nestedLoop rs firstChild (subresult ++ mn.flatten)
partial_fixpoint

/-- `MatchRuleOnce`, RuleMatching.cpp:249-267 (the rule is never null at the call sites). -/
def matchRuleOnce (rule : RulePtr) (begin_ end_ : Option Ptr) (result : MatchingNodes) :
    M (Option Ptr × MatchingNodes) := do
  match begin_ with
  | none => pure (end_, result)
  | some b =>
    if some b == end_ then pure (end_, result)
    else do
      let (m, result) ← ruleMatchesNodeRecursive rule b result
      if m then pure (some b, result)
      else do
        let nx ← nextNode h (some b)
        matchRuleOnce rule nx end_ result
partial_fixpoint

/-- `MatchRange`, RuleMatching.cpp:269-296, entered with a non-null `n_begin`. -/
def matchRange (rBegin rEnd : Option RulePtr) (nBegin : Ptr) (nEnd : Option Ptr)
    (result : MatchingNodes) : M (Option Ptr × MatchingNodes) :=
  rangeLoop rBegin rEnd (some nBegin) nEnd nEnd result
partial_fixpoint

/-- The loop of `MatchRange`, RuleMatching.cpp:280-293; `matchingNode` is the last result. -/
def rangeLoop (rBegin rEnd : Option RulePtr) (nBegin nEnd matchingNode : Option Ptr)
    (result : MatchingNodes) : M (Option Ptr × MatchingNodes) := do
  match rBegin with
  | none => pure (matchingNode, result)
  | some r =>
    if sameRule (some r) rEnd then pure (matchingNode, result)
    else do
      let (mn, result) ← matchRuleOnce r nBegin nEnd result
      -- 283: has_matched = ( matching_node && matching_node != n_end )
      match mn with
      | some q =>
        if mn != nEnd then do
          let nx ← nextNode h (some q)
          let rNext := if r.val.isGreedy then some r else r.next
          rangeLoop rNext rEnd nx nEnd mn (result ++ [(r, q)])
        else rangeLoop r.next rEnd nBegin nEnd mn result
      | none => rangeLoop r.next rEnd nBegin nEnd mn result
partial_fixpoint

end

end engine

/-- The loop over one group, Rule.cpp:281-290. -/
def groupMap (group : MatchingNodes) (map : List (Str × Str)) : E (List (Str × Str)) :=
  match group with
  | [] => pure map
  | (r, n) :: rest => do
    let map ←
      if r.val.info.caps.length > 0 then do
        let values ← ruleCapture t rx h n r.val.info.caps
        pure (values.foldl (fun m p => multimapInsert p m) map)
      else pure map
    groupMap rest map

/-- The loop over all groups, Rule.cpp:278-297. -/
def groupsToResult : List MatchingNodes → E (List (List (Str × Str)))
  | [] => pure []
  | g :: gs => do
    let map ← groupMap t rx h g []
    let rest ← groupsToResult gs
    pure (if map.isEmpty then rest else map :: rest)

/-- `Rule::extract(const GumboNode*, max_searches)`, Rule.cpp:273-300 (for a non-null node). -/
def extract (rule : Rule) (node : Ptr) (maxSearches : UInt64) : E (List (List (Str × Str))) := do
  let (mn, _) ← (saveMatchingNodesRecursive (ruleMatches t rx h) h ⟨[], rule⟩ node []).run maxSearches
  groupsToResult t rx h mn

end Hext.Throwing
