import Verif.Model.Matching
/-!
# Extracting when memory runs out

`Model/Matching.lean` and the classes that it calls again, for programs that can run out of memory: a given number of requests for
memory succeed, the next one fails. How many requests a step makes is left open: it depends on the standard library (how vectors
grow, which strings need memory of their own), on Boost and on the functions of the user. A request that fails throws
`std::bad_alloc`, and no function here has a handler, so what the failing step would have requested after it does not matter. In a
function that is `noexcept` the exception ends the program.

Simplifications: the functions of the user and Boost let `std::bad_alloc` pass. The C++ runtime can always throw (it keeps memory
for this). What the local variables hold is not modelled: vectors, strings, maps and a `std::optional`, which their destructors free.
-/

namespace Hext.Scarce

/-- How many requests for memory the steps of an extraction make, Rule.cpp:201-300, RuleMatching.cpp:25-296 and the files below. -/
structure Costs where
  /-- `ValueTest::test`: the copies in ContainsTest.cpp:33, EndsWithTest.cpp:34, ContainsWordsTest.cpp:47, and Boost in RegexTest.cpp:33 -/
  test : ValueTest → Option Str → Nat
  /-- `StringPipe::transform` and the assignment in StringPipe.cpp:49 -/
  transform : Transform → Str → Nat
  /-- calling a `CaptureFunction`: FunctionCapture.cpp:58, FunctionValueMatch.cpp:54 -/
  call : CaptureFn → Heap → Ptr → Nat
  /-- calling a `MatchFunction`: FunctionMatch.cpp:35 -/
  matchFn : (Heap → Ptr → Bool) → Heap → Ptr → Nat
  /-- Boost in TypeRegexMatch.cpp:34, 42, 46 -/
  typeRegex : Regex → Str → Nat
  /-- a string made of a value: the argument of `pipe` in AttributeCapture.cpp:70 -/
  string : Str → Nat
  /-- making or copying a `ResultPair`: AttributeCapture.cpp:68-73, FunctionCapture.cpp:61-66, Rule.cpp:259 -/
  pair : Str × Str → Nat
  /-- adding elements to a vector of a given size: RuleMatching.cpp:43, 104, 124, 142, 157, 175, 215, 240, 244, 287, Rule.cpp:295 -/
  append : Nat → Nat → Nat
  /-- `reserve`: Rule.cpp:252 -/
  reserve : Nat → Nat
  /-- inserting an entry into a `std::multimap`: Rule.cpp:289 -/
  insert : Str × Str → Nat
  /-- the message of a `MaxSearchError`: RuleMatching.cpp:35 -/
  message : Nat
  /-- the copy of the message in `std::runtime_error`: MaxSearchError.h:35-37 -/
  exception : Nat

/-- Steps that may request memory; the state is the number of requests that will still succeed. Rule.cpp:246-300. -/
abbrev A := StateT Nat E

/-- The same with the number of searches left. RuleMatching.cpp:25-296. -/
abbrev MS := StateT UInt64 A

/-- `k` requests for memory. As `push_back` in RuleMatching.cpp:43. -/
def request (k : Nat) : A Unit := fun n => if n < k then throw .thrown else pure ((), n - k)

/-- `k` requests for memory in a function that is `noexcept`: an exception calls `std::terminate`, which ends the program.
MaxSearchError.h:35-37. -/
def requestNoexcept (k : Nat) : A Unit := fun n => if n < k then throw .assertFail else pure ((), n - k)

section
variable (c : Costs) (rx : RxEngine) (h : Heap)

/-- `throw MaxSearchError("...")`, RuleMatching.cpp:34-35: a `std::string` is made of the message, and the constructor of
`MaxSearchError`, which is `noexcept`, copies it into the `std::runtime_error` (MaxSearchError.h:35-37). -/
def maxSearchError : A Unit := do
  request c.message
  requestNoexcept c.exception
  throw .maxSearch

/-- `ValueTest::test`: BeginsWithTest.cpp:30-39, ContainsTest.cpp:28-35, ContainsWordsTest.cpp:42-54, EndsWithTest.cpp:29-40,
EqualsTest.cpp:28-31, RegexTest.cpp:28-34, NegateTest.cpp:42-48. -/
def test : ValueTest → Option Str → A Bool
  | .negate v, s => do pure (!(← test v s))
  | v, s => do
    request (c.test v s)
    v.test rx s

/-- `StringPipe::transform` in StringPipe.cpp:49. -/
def transform (p : Transform) (s : Str) : A Str := do
  request (c.transform p s)
  p.transform rx s

/-- `StringPipe::pipe`, StringPipe.cpp:47-55. -/
def pipe : Pipe → Str → A Str
  | .last f, s => transform c rx f s
  | .cons f next, s => do
    let s ← transform c rx f s
    pipe next s

/-- Calling a `CaptureFunction` with a non-null node. Builtins.cpp:30-49. -/
def call (node : Ptr) (f : CaptureFn) : A Str := do
  request (c.call f h node)
  f.call h node

/-- `AttributeMatch::matches`, AttributeMatch.cpp:46-66. -/
def attributeMatches (name : Str) (v : Option ValueTest) (node : Ptr) : A Bool := do
  let n ← load h node
  match n.kind with
  | .element e =>
    let gAttr := getAttribute e.attrs name
    match v with
    | none => pure gAttr.isSome
    | some v =>
      match gAttr with
      | none => test c rx v none
      | some a => match a.value with
        | some s => test c rx v (some s)
        | none => pure false
  | _ => pure false

/-- `TypeRegexMatch::matches`, TypeRegexMatch.cpp:30-47. -/
def typeRegexMatches (r : Regex) (node : Ptr) : A Bool := do
  let n ← load h node
  let name := match n.kind with
    | .element e =>
      match e.tag with
      | .unknown => e.origName.getD []
      | tag => tag.normalizedName
    | _ => []
  request (c.typeRegex r name)
  pure (rx.search r name).isSome

mutual
/-- `Match::matches(node)` for a non-null node. FunctionMatch.cpp:29-36, FunctionValueMatch.cpp:48-56, NegateMatch.cpp:58-69,
and the functions above. The others request no memory; they are `noexcept`. -/
def matches_ (node : Ptr) : Match → A Bool
  | .attribute name v => attributeMatches c rx h name v node
  | .function f =>
    match f with
    | none => throw .assertFail
    | some f => do
      request (c.matchFn f h node)
      pure (f h node)
  | .functionValue f v =>
    match f with
    | none => throw .assertFail
    | some f =>
      match v with
      | none => pure false
      | some v => do
        let str ← call c h node f
        test c rx v (some (cstr str))
  | .negate ms => negateLoop node ms
  | .typeRegex r => typeRegexMatches c rx h r node
  | .attributeCount k => (Match.attributeCount k).matches rx h node
  | .childCount k => (Match.childCount k).matches rx h node
  | .nthChild step shift first ofType => (Match.nthChild step shift first ofType).matches rx h node
  | .onlyChild b => (Match.onlyChild b).matches rx h node

/-- The loop of `NegateMatch::matches`, NegateMatch.cpp:64-68. -/
def negateLoop (node : Ptr) : List (Option Match) → A Bool
  | [] => pure true
  | m :: ms => do
    if (← optMatches node m) then pure false else negateLoop node ms

/-- `match && match->matches(node)`. NegateMatch.cpp:65. -/
def optMatches (node : Ptr) : Option Match → A Bool
  | none => pure false
  | some m => matches_ node m
end

/-- `Capture::capture(node)` for a non-null node. AttributeCapture.cpp:52-74, FunctionCapture.cpp:52-67. -/
def capture (node : Ptr) : Capture → A (Option (Str × Str))
  | .attribute attrName name p => do
    let n ← load h node
    match n.kind with
    | .element e =>
      match getAttribute e.attrs attrName with
      | none => pure none
      | some a => match a.value with
        | none => pure none
        | some v =>
          match p with
          | some p => do
            request (c.string v)
            let s ← pipe c rx p v
            request (c.pair (name, s))
            pure (some (name, s))
          | none => do
            request (c.pair (name, v))
            pure (some (name, v))
    | _ => pure none
  | .function f name p =>
    match f with
    | none => throw .assertFail
    | some f => do
      let str ← call c h node f
      match p with
      | some p => do
        let s ← pipe c rx p str
        request (c.pair (name, s))
        pure (some (name, s))
      | none => do
        request (c.pair (name, str))
        pure (some (name, str))

/-- The loop over `matches_`, Rule.cpp:239-241. -/
def allMatch (node : Ptr) : List (Option Match) → A Bool
  | [] => pure true
  | m :: ms => do
    let fails ← match m with
      | none => pure false
      | some m => do pure (!(← matches_ c rx h node m))
    if fails then pure false else allMatch node ms

/-- `Rule::matches`, Rule.cpp:201-244 (for a non-null node). -/
def ruleMatches (info : RuleInfo) (node : Ptr) : A Bool := do
  let n ← load h node
  if !tagAgrees info n.kind then pure false
  else allMatch c rx h node info.ms

/-- The loop of `Rule::capture`, Rule.cpp:253-262. -/
def captureLoop (node : Ptr) : List (Option Capture) → A (List (Str × Str))
  | [] => pure []
  | none :: cs => captureLoop node cs
  | some f :: cs => do
    match ← capture c rx h node f with
    | none => captureLoop node cs
    | some p => do
      request (c.pair p)
      let rest ← captureLoop node cs
      pure (p :: rest)

/-- `Rule::capture`, Rule.cpp:246-265 (for a non-null node). -/
def ruleCapture (node : Ptr) (cs : List (Option Capture)) : A (List (Str × Str)) := do
  request (c.reserve cs.length)
  captureLoop c rx h node cs

mutual

/-- `SaveMatchingNodesRecursive`, RuleMatching.cpp:25-60. `result` grows. -/
def saveMatchingNodesRecursive (rule : RulePtr) (node : Ptr) (result : List MatchingNodes) :
    MS (List MatchingNodes) := do
  -- 34: if( max_searches && --max_searches == 0 ) throw MaxSearchError
  let ms ← get
  if ms != 0 then
    let ms := ms - 1
    set ms
    if ms == 0 then maxSearchError c
  let result ← saveLoop rule (some node) result
  saveDescend rule node result
partial_fixpoint

/-- The `while` loop, RuleMatching.cpp:37-44. -/
def saveLoop (rule : RulePtr) (nextN : Option Ptr) (result : List MatchingNodes) :
    MS (List MatchingNodes) := do
  match nextN with
  | none => pure result
  | some n => do
    let (nx, sub) ← matchRuleGroup (some rule) (some n) []
    if sub.length > 0 then do
      request (c.append result.length 1)
      saveLoop rule nx (result ++ [sub])
    else saveLoop rule nx result
partial_fixpoint

/-- The `do ... while` loop, RuleMatching.cpp:46-59. -/
def saveDescend (rule : RulePtr) (nextN : Ptr) (result : List MatchingNodes) :
    MS (List MatchingNodes) := do
  let n ← load h nextN
  let result ←
    if n.kind.isElement && n.children.length != 0 then do
      let child ← getAt n.children 0
      saveMatchingNodesRecursive rule child result
    else pure result
  match ← nextNode h (some nextN) with
  | none => pure result
  | some nx => saveDescend rule nx result
partial_fixpoint

/-- `MatchRuleGroup`, RuleMatching.cpp:62-160. Returns the node to continue with and `result`. -/
def matchRuleGroup (rule : Option RulePtr) (node : Option Ptr) (result : MatchingNodes) :
    MS (Option Ptr × MatchingNodes) := do
  match rule, node with
  | some r, some n => groupLoop r (some r) (some n) [] result
  | _, _ => pure (none, result)
partial_fixpoint

/-- The loop `while( rule && node )`, RuleMatching.cpp:72-145, and what follows it, 147-160. -/
def groupLoop (firstRule : RulePtr) (rule : Option RulePtr) (node : Option Ptr)
    (sub result : MatchingNodes) : MS (Option Ptr × MatchingNodes) := do
  match rule, node with
  | some r, some n =>
    let greedyMatched := r.val.isGreedy && backIs sub r
    if r.val.isOptional || greedyMatched then do
      let stop1 ← findMandatoryRule r.next none
      match stop1 with
      | some stopRule => do
        -- has_wrapped == false: 121-140
        let (stopNode, sub) ← matchRuleOnce stopRule (some n) none sub
        match stopNode with
        | none => pure (none, result)
        | some sn => do
          let (_, sub) ← matchRange (some r) (some stopRule) n (some sn) sub
          request (c.append sub.length 1)
          let sub := sub ++ [(stopRule, sn)]
          let nx ← nextNode h (some sn)
          groupLoop firstRule stopRule.next nx sub result
      | none => do
        -- has_wrapped == true: 88-98
        let stop2 ← findMandatoryRule (some firstRule) (some r)
        if sameRule stop2 (some r) then do
          -- no mandatory rules at all: 101-106
          let (nd, sub) ← matchRange (some r) none n none sub
          request (c.append result.length sub.length)
          let result := result ++ sub
          match nd with
          | none => pure (none, result)
          | some q => do
            let nx ← nextNode h (some q)
            pure (nx, result)
        else
          match stop2 with
          | none => throw .ub  -- cannot happen: FindMandatoryRule(first_rule, rule) is never null here
          | some stopRule => do
            -- 111-127
            let (stopNode, _discard) ← matchRuleOnce stopRule (some n) none []
            let (_, sub) ← matchRange (some r) none n stopNode sub
            request (c.append result.length sub.length)
            pure (stopNode, result ++ sub)
    else do
      -- rule is mandatory: 132-144
      let (nd, sub) ← matchRuleOnce r (some n) none sub
      match nd with
      | none => pure (none, result)
      | some q => do
        request (c.append sub.length 1)
        let sub := sub ++ [(r, q)]
        let rule' := if r.val.isGreedy then some r else r.next
        let nx ← nextNode h (some q)
        groupLoop firstRule rule' nx sub result
  | rule, node => do
    -- 147-149
    let rule := match rule with
      | some r => if r.val.isGreedy && backIs sub r then r.next else some r
      | none => none
    let rule ← skipOptional rule
    match rule with
    | none => do
      request (c.append result.length sub.length)
      pure (node, result ++ sub)
    | some _ => pure (none, result)
partial_fixpoint

/-- `RuleMatchesNodeRecursive`, RuleMatching.cpp:182-247. -/
def ruleMatchesNodeRecursive (rule : RulePtr) (node : Ptr) (result : MatchingNodes) :
    MS (Bool × MatchingNodes) := do
  if !(← ruleMatches c rx h rule.val.info node) then pure (false, result)
  else if rule.child.isNone && rule.nested.isEmpty then pure (true, result)
  else do
    let n ← load h node
    if !n.kind.isElement || n.children.length == 0 then pure (false, result)
    else do
      let firstChild ← getAt n.children 0
      let (matched, subresult) ← match rule.child with
        | none => pure (true, [])
        | some r => childLoop r firstChild false []
      if !matched then pure (false, result)
      else do
        match ← nestedLoop rule.nested firstChild subresult with
        | none => pure (false, result)
        | some subresult => do
          request (c.append result.length subresult.length)
          pure (true, result ++ subresult)
partial_fixpoint

/-- The `do ... while( next_node )` loop over the child rules, RuleMatching.cpp:203-225.
`FindMandatoryRule` is called here also when its result is not needed; it has no effects. -/
def childLoop (child : RulePtr) (nextN : Ptr) (matched : Bool) (subresult : MatchingNodes) :
    MS (Bool × MatchingNodes) := do
  let (nx, sub) ← matchRuleGroup (some child) (some nextN) []
  let mandatory ← findMandatoryRule (some child) none
  if sub.length > 0 then request (c.append subresult.length sub.length)
  let subresult' := if sub.length > 0 then subresult ++ sub else subresult
  let matched' := if sub.length > 0 then true else if mandatory.isNone then true else matched
  match nx with
  | none => pure (matched', subresult')
  | some n => childLoop child n matched' subresult'
partial_fixpoint

/-- The loop over the nested rules, RuleMatching.cpp:229-242; `none` is `return false`.
`FindMandatoryRule` is called here also when its result is not needed; it has no effects. -/
def nestedLoop (nested : List RulePtr) (firstChild : Ptr) (subresult : MatchingNodes) :
    MS (Option MatchingNodes) := do
  match nested with
  | [] => pure (some subresult)
  | r :: rs => do
    let mn ← saveMatchingNodesRecursive r firstChild []
    let mandatory ← findMandatoryRule (some r) none
    if mn.isEmpty && mandatory.isSome then pure none
    else do
      request (c.append subresult.length mn.flatten.length)
      nestedLoop rs firstChild (subresult ++ mn.flatten)
partial_fixpoint

/-- `MatchRuleOnce`, RuleMatching.cpp:249-267 (the rule is never null at the call sites). -/
def matchRuleOnce (rule : RulePtr) (begin_ end_ : Option Ptr) (result : MatchingNodes) :
    MS (Option Ptr × MatchingNodes) := do
  match begin_ with
  | none => pure (end_, result)
  | some b =>
    if some b == end_ then pure (end_, result)
    else do
      let (m, result) ← ruleMatchesNodeRecursive rule b result
      if m then pure (some b, result)
      else do
        let nx ← nextNode h (some b)
        matchRuleOnce rule nx end_ result
partial_fixpoint

/-- `MatchRange`, RuleMatching.cpp:269-296, entered with a non-null `n_begin`. -/
def matchRange (rBegin rEnd : Option RulePtr) (nBegin : Ptr) (nEnd : Option Ptr)
    (result : MatchingNodes) : MS (Option Ptr × MatchingNodes) :=
  rangeLoop rBegin rEnd (some nBegin) nEnd nEnd result
partial_fixpoint

/-- The loop of `MatchRange`, RuleMatching.cpp:280-293; `matchingNode` is the last result. -/
def rangeLoop (rBegin rEnd : Option RulePtr) (nBegin nEnd matchingNode : Option Ptr)
    (result : MatchingNodes) : MS (Option Ptr × MatchingNodes) := do
  match rBegin with
  | none => pure (matchingNode, result)
  | some r =>
    if sameRule (some r) rEnd then pure (matchingNode, result)
    else do
      let (mn, result) ← matchRuleOnce r nBegin nEnd result
      -- 283: has_matched = ( matching_node && matching_node != n_end )
      match mn with
      | some q =>
        if mn != nEnd then do
          request (c.append result.length 1)
          let nx ← nextNode h (some q)
          let rNext := if r.val.isGreedy then some r else r.next
          rangeLoop rNext rEnd nx nEnd mn (result ++ [(r, q)])
        else rangeLoop r.next rEnd nBegin nEnd mn result
      | none => rangeLoop r.next rEnd nBegin nEnd mn result
partial_fixpoint

end

/-- `map.insert(values.begin(), values.end())`, Rule.cpp:289. -/
def insertAll (map : List (Str × Str)) : List (Str × Str) → A (List (Str × Str))
  | [] => pure map
  | p :: ps => do
    request (c.insert p)
    insertAll (multimapInsert p map) ps

/-- The loop over one group, Rule.cpp:281-290. -/
def groupMap (group : MatchingNodes) (map : List (Str × Str)) : A (List (Str × Str)) :=
  match group with
  | [] => pure map
  | (r, n) :: rest => do
    let map ←
      if r.val.info.caps.length > 0 then do
        let values ← ruleCapture c rx h n r.val.info.caps
        insertAll c map values
      else pure map
    groupMap rest map

/-- The loop over all groups, Rule.cpp:278-297; `size` is the number of maps in the result so far. -/
def groupsToResult (size : Nat) : List MatchingNodes → A (List (List (Str × Str)))
  | [] => pure []
  | g :: gs => do
    let map ← groupMap c rx h g []
    if map.isEmpty then groupsToResult size gs
    else do
      request (c.append size 1)
      let rest ← groupsToResult (size + 1) gs
      pure (map :: rest)

/-- `Rule::extract(const GumboNode*, max_searches)`, Rule.cpp:273-300 (for a non-null node). -/
def extract (rule : Rule) (node : Ptr) (maxSearches : UInt64) : A (List (List (Str × Str))) := do
  let (mn, _) ← (saveMatchingNodesRecursive c rx h ⟨[], rule⟩ node []).run maxSearches
  groupsToResult c rx h 0 mn

end

end Hext.Scarce
