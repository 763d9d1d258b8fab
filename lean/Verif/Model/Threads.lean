import Verif.Model.Matching
/-!
# Extraction in one of several threads

The functions that read the document, of NodeUtil.cpp, of the `Match` and `Capture` classes, of Rule.cpp and of
RuleMatching.cpp again, for a thread that shares the memory with others. Every access to a node waits for the turn of the thread
and finds what is in the memory at that moment; between two accesses the other threads may do whatever they like. libhext has no
threads and no locks of its own: this is a program that uses it from several threads.

Simplifications: the members of a node are read in one access. A function of the user is called in one turn, and looks only at
the nodes of the document. Rules are values here: `extract` is `const` and libhext/src has no mutable member and no static
variable, so that no thread that extracts writes to a rule. What a thread allocates for itself is not part of the shared memory.
-/

namespace Hext.Threads

/-- Some threads, and how their turns follow each other.
The functions of the threads are the const functions Rule.h:258-263 and Rule.cpp:201-300. -/
structure System (ι : Type) where
  /-- the memory in the beginning -/
  start : Heap
  /-- whose turn it is at each moment -/
  turn : Nat → ι
  /-- what a thread writes when it has its turn at this moment and finds this memory; a null `GNode` is a node that is freed -/
  writes : ι → Nat → Heap → List (Ptr × Option GNode)

/-- One write to the memory. `Rule::extract` (Rule.cpp:267-300) writes only to its own variables. -/
def write (h : Heap) (w : Ptr × Option GNode) : Heap := fun p => if p = w.1 then w.2 else h p

/-- The memory at each moment. The memory that RuleMatching.cpp and Rule.cpp:201-300 read. -/
def System.mem {ι : Type} (S : System ι) : Nat → Heap
  | 0 => S.start
  | m + 1 => (S.writes (S.turn m) m (S.mem m)).foldl write (S.mem m)

/-- A computation of a thread. The state is the moment. For Rule.cpp:201-300. -/
abbrev C := StateT Nat E

/-- The monad of the engine: the number of searches left, and the moment. For RuleMatching.cpp:25-310. -/
abbrev CM := StateT UInt64 C

/-- Wait for the turn of thread `i`. Before each read of a node in Rule.cpp:201-300, RuleMatching.cpp and NodeUtil.cpp. -/
def wait {ι : Type} [DecidableEq ι] (turn : Nat → ι) (i : ι) (m : Nat) : E Nat :=
  if turn m = i then pure m else wait turn i (m + 1)
partial_fixpoint

/-- How a thread sees the memory. The reads of nodes in Rule.cpp:201-300, RuleMatching.cpp and NodeUtil.cpp. -/
structure Access where
  /-- dereference a node pointer -/
  load : Ptr → C GNode
  /-- what a function of the user sees -/
  look : C Heap

/-- How thread `i` sees the memory, if `doc` are the nodes of the document that it extracts from.
The reads of nodes in Rule.cpp:201-300, RuleMatching.cpp and NodeUtil.cpp. -/
def System.access {ι : Type} [DecidableEq ι] (S : System ι) (i : ι) (doc : Heap) : Access where
  load p := fun m => do
    let m ← wait S.turn i m
    match S.mem m p with
    | some n => pure (n, m + 1)
    | none => throw .ub
  look := fun m => do
    let m ← wait S.turn i m
    pure (fun p => if (doc p).isSome then S.mem m p else none, m + 1)

variable (rx : RxEngine) (acc : Access)

/-- `NextNode`, libhext/src/NodeUtil.cpp:305-317. Note that `node->parent` is dereferenced without a
check. -/
def nextNode : Option Ptr → C (Option Ptr)
  | none => pure none
  | some p => do
    let n ← acc.load p
    match n.parent with
    | none => throw .ub
    | some pp => do
      let parent ← acc.load pp
      if !parent.kind.isElement then pure none
      else
        let nextSiblingIndex := n.index + 1
        pure parent.children[nextSiblingIndex]?

mutual
/-- `StripTags`, NodeUtil.cpp:32-69 (for a non-null node). -/
def stripTags (smartWrap : Bool) (node : Ptr) : C Str := do
  let n ← acc.load node
  match n.kind with
  | .element _ => stripTagsLoop smartWrap n.children []
  | .text t => pure t
  | .whitespace t => pure t
  | _ => pure []
partial_fixpoint

/-- The loop over the children, NodeUtil.cpp:41-58. -/
def stripTagsLoop (smartWrap : Bool) (children : List Ptr) (innerText : Str) : C Str :=
  match children with
  | [] => pure innerText
  | c :: cs => do
    let child ← acc.load c
    match smartWrap, child.kind with
    | true, .element e => do
      let wrap := tagWrapsText e.tag
      let innerText := if wrap then innerText ++ [10] else innerText
      let s ← stripTags smartWrap c
      let innerText := innerText ++ s
      let innerText := if wrap then innerText ++ [10] else innerText
      stripTagsLoop smartWrap cs innerText
    | _, _ => do
      let s ← stripTags smartWrap c
      stripTagsLoop smartWrap cs (innerText ++ s)
partial_fixpoint
end

/-- `NodeText`, NodeUtil.cpp:27-30. -/
def nodeText (node : Ptr) : C Str := do
  trimAndCollapseWs (← stripTags acc true node)

mutual
/-- `SerializeNode`, NodeUtil.cpp:87-130; the text it writes to the stream. -/
def serializeNode (node : Ptr) : C Str := do
  let n ← acc.load node
  match n.kind with
  | .document d => pure (if d.hasDoctype then serializeDocument d else [])
  | .template e => serializeElement e n.children
  | .element e => serializeElement e n.children
  | .cdata _ => pure []
  | .comment t => pure (lit "<!--" ++ t ++ lit "-->")
  | .text t => pure t
  | .whitespace t => pure t
partial_fixpoint

/-- `SerializeElement`, NodeUtil.cpp:169-200. -/
def serializeElement (e : Elem) (children : List Ptr) : C Str := do
  let head := 60 :: serializeElementTag e ++ (e.attrs.flatMap serializeAttribute)
  if !tagIsSelfClosing e.tag then do
    let inner ← serializeChildren children
    pure (head ++ [62] ++ inner ++ lit "</" ++ serializeElementTag e ++ [62])
  else
    pure (head ++ lit "/>")
partial_fixpoint

/-- The loops over the children, NodeUtil.cpp:78-82 and 184-188. -/
def serializeChildren (children : List Ptr) : C Str :=
  match children with
  | [] => pure []
  | c :: cs => do
    let a ← serializeNode c
    let b ← serializeChildren cs
    pure (a ++ b)
partial_fixpoint
end

/-- `NodeInnerHtml`, NodeUtil.cpp:71-85 (for a non-null node). -/
def nodeInnerHtml (node : Ptr) : C Str := do
  let n ← acc.load node
  match n.kind with
  | .element _ => serializeChildren acc n.children
  | _ => pure []

/-- Calling a `CaptureFunction` with a non-null node. Builtins.cpp:30-49. -/
def call (node : Ptr) : CaptureFn → C Str
  | .text => nodeText acc node
  | .innerHtml => nodeInnerHtml acc node
  | .stripTags => stripTags acc false node
  | .user f => do pure (f (← acc.look) node)

/-- The loop of `count_preceding_siblings`, NthChildMatch.cpp:100-112, at index `i`; `fuel` is the number
of iterations left (`index_within_parent + 1 - i`). -/
def countPrecedingLoop (children : List Ptr) (node : Ptr) (countTag : Option Tag)
    (i : Nat) (count : Int) : (fuel : Nat) → C Int
  | 0 => pure 0
  | fuel + 1 => do
    E.assert (i < children.length)
    let child ← getAt children i
    let c ← acc.load child
    let count ← if countsAs countTag c.kind then mkInt (count + 1) else pure count
    if node == child then pure count
    else countPrecedingLoop children node countTag (i + 1) count fuel

/-- `count_preceding_siblings`, NthChildMatch.cpp:83-115. -/
def countPreceding (node : Ptr) (countTag : Option Tag) : C Int := do
  let n ← acc.load node
  match n.parent with
  | none => pure 0
  | some pp => do
    let parent ← acc.load pp
    if !parent.kind.isElement then pure 0
    else do
      E.assert (n.index < parent.children.length)
      countPrecedingLoop acc parent.children node countTag 0 0 (n.index + 1)

/-- The loop of `count_following_siblings`, NthChildMatch.cpp:137-150: `i` counts down,
`for(i = length; i-- > index; )`. -/
def countFollowingLoop (children : List Ptr) (node : Ptr) (index : Nat)
    (countTag : Option Tag) (count : Int) : (i : Nat) → C Int
  | 0 => pure 0  -- `i-- > index` is false for `i = 0`
  | i + 1 =>
    if i + 1 > index then do
      E.assert (i < children.length)
      let child ← getAt children i
      let c ← acc.load child
      let count ← if countsAs countTag c.kind then mkInt (count + 1) else pure count
      if node == child then pure count
      else countFollowingLoop children node index countTag count i
    else pure 0

/-- `count_following_siblings`, NthChildMatch.cpp:117-153. -/
def countFollowing (node : Ptr) (countTag : Option Tag) : C Int := do
  let n ← acc.load node
  match n.parent with
  | none => pure 0
  | some pp => do
    let parent ← acc.load pp
    if !parent.kind.isElement then pure 0
    else if parent.children.length = 0 then pure 0
    else do
      E.assert (n.index < parent.children.length)
      countFollowingLoop acc parent.children node n.index countTag 0 parent.children.length

/-- `NthChildMatch::matches`, NthChildMatch.cpp:40-81. `%` is C++ remainder (truncated). -/
def nthChildMatches (step shift : Int) (first ofType : Bool) (node : Ptr) : C Bool := do
  let n ← acc.load node
  match n.kind with
  | .element e => do
    let countTag := if ofType then some e.tag else none
    let pos ← if first then countPreceding acc node countTag else countFollowing acc node countTag
    if step = 0 then pure (pos == shift)
    else if step > 0 then
      if pos < shift then pure false
      else do
        let d ← mkInt (pos - shift)
        pure (d.tmod step == 0)
    else
      if pos > shift then pure false
      else do
        let d ← mkInt (shift - pos)
        let s ← mkInt (-1 * step)
        pure (d.tmod s == 0)
  | _ => pure false

/-- The loop of `count_child_elements`, ChildCountMatch.cpp:46-51 (`unsigned int count`; it cannot wrap
because `children.length` is itself an `unsigned int`). -/
def countChildElements : List Ptr → Nat → C Nat
  | [], count => pure count
  | c :: cs, count => do
    let n ← acc.load c
    countChildElements cs (if n.kind.isElement then count + 1 else count)

/-- The loop of `OnlyChildMatch::matches`, OnlyChildMatch.cpp:41-50. -/
def onlyChildLoop (node : Ptr) (countTag : Option Tag) : List Ptr → C Bool
  | [] => pure true
  | c :: cs => do
    let n ← acc.load c
    if n.kind.isElement && node != c && countsAs countTag n.kind then pure false
    else onlyChildLoop node countTag cs

/-- `OnlyChildMatch::matches`, OnlyChildMatch.cpp:28-51. -/
def onlyChildMatches (ofType : Bool) (node : Ptr) : C Bool := do
  let n ← acc.load node
  match n.kind with
  | .element e =>
    match n.parent with
    | none => pure false
    | some pp => do
      let parent ← acc.load pp
      if !parent.kind.isElement then pure false
      else onlyChildLoop acc node (if ofType then some e.tag else none) parent.children
  | _ => pure false

/-- `AttributeMatch::matches`, AttributeMatch.cpp:46-66. -/
def attributeMatches (name : Str) (test : Option ValueTest) (node : Ptr) :
    C Bool := do
  let n ← acc.load node
  match n.kind with
  | .element e =>
    let gAttr := getAttribute e.attrs name
    match test with
    | none => pure gAttr.isSome
    | some t =>
      match gAttr with
      | none => t.test rx none
      | some a => match a.value with
        | some v => t.test rx (some v)
        | none => pure false
  | _ => pure false

/-- `TypeRegexMatch::matches`, TypeRegexMatch.cpp:30-47. -/
def typeRegexMatches (r : Regex) (node : Ptr) : C Bool := do
  let n ← acc.load node
  match n.kind with
  | .element e =>
    match e.tag with
    | .unknown => pure (rx.search r (e.origName.getD [])).isSome
    | t => pure (rx.search r t.normalizedName).isSome
  | _ => pure (rx.search r []).isSome

mutual
/-- `Match::matches(node)` for a non-null node. AttributeCountMatch.cpp:28-36, ChildCountMatch.cpp:28-35,
FunctionMatch.cpp:29-36, FunctionValueMatch.cpp:48-56, NegateMatch.cpp:58-69 and the functions above. -/
def matches_ (node : Ptr) : Match → C Bool
  | .attribute name test => attributeMatches rx acc name test node
  | .attributeCount k => do
    let n ← acc.load node
    match n.kind with
    | .element e => pure (k == e.attrs.length)
    | _ => pure false
  | .childCount k => do
    let n ← acc.load node
    match n.kind with
    | .element _ => do
      let c ← countChildElements acc n.children 0
      pure (k == c)
    | _ => pure false
  | .function f =>
    match f with
    | none => throw .assertFail
    | some f => do pure (f (← acc.look) node)
  | .functionValue f test =>
    match f with
    | none => throw .assertFail
    | some f =>
      match test with
      | none => pure false
      | some t => do
        let str ← call acc node f
        t.test rx (some (cstr str))
  | .negate ms => negateLoop node ms
  | .nthChild step shift first ofType => nthChildMatches acc step shift first ofType node
  | .onlyChild ofType => onlyChildMatches acc ofType node
  | .typeRegex r => typeRegexMatches rx acc r node

/-- The loop of `NegateMatch::matches`, NegateMatch.cpp:64-68. -/
def negateLoop (node : Ptr) : List (Option Match) → C Bool
  | [] => pure true
  | m :: ms => do
    if (← optMatches node m) then pure false else negateLoop node ms

/-- `match && match->matches(node)`. NegateMatch.cpp:65. -/
def optMatches (node : Ptr) : Option Match → C Bool
  | none => pure false
  | some m => matches_ node m
end

/-- `Capture::capture(node)` for a non-null node. AttributeCapture.cpp:52-74, FunctionCapture.cpp:52-67. -/
def capture (node : Ptr) : Capture → C (Option (Str × Str))
  | .attribute attrName name pipe => do
    let n ← acc.load node
    match n.kind with
    | .element e =>
      match getAttribute e.attrs attrName with
      | none => pure none
      | some a => match a.value with
        | none => pure none
        | some v => do pure (some (name, ← applyPipe rx pipe v))
    | _ => pure none
  | .function f name pipe =>
    match f with
    | none => throw .assertFail
    | some f => do
      let str ← call acc node f
      pure (some (name, ← applyPipe rx pipe str))

/-- The loop over `matches_`, Rule.cpp:239-241. -/
def allMatch (node : Ptr) : List (Option Match) → C Bool
  | [] => pure true
  | m :: ms => do
    -- `if( match && !match->matches(node) ) return false;`
    let fails ← match m with
      | none => pure false
      | some m => do pure (!(← matches_ rx acc node m))
    if fails then pure false else allMatch node ms

/-- `Rule::matches`, Rule.cpp:201-244 (for a non-null node). -/
def ruleMatches (info : RuleInfo) (node : Ptr) : C Bool := do
  let n ← acc.load node
  if !tagAgrees info n.kind then pure false
  else allMatch rx acc node info.ms

/-- `Rule::capture`, Rule.cpp:246-265 (for a non-null node). -/
def ruleCapture (node : Ptr) : List (Option Capture) → C (List (Str × Str))
  | [] => pure []
  | none :: cs => ruleCapture node cs
  | some c :: cs => do
    let pair ← capture rx acc node c
    let rest ← ruleCapture node cs
    match pair with
    | some p => pure (p :: rest)
    | none => pure rest

mutual

/-- `SaveMatchingNodesRecursive`, RuleMatching.cpp:25-60. `result` grows. -/
def saveMatchingNodesRecursive (rule : RulePtr) (node : Ptr) (result : List MatchingNodes) :
    CM (List MatchingNodes) := do
  -- 34: if( max_searches && --max_searches == 0 ) throw MaxSearchError
  let ms ← get
  if ms != 0 then
    let ms := ms - 1
    set ms
    if ms == 0 then throw .maxSearch
  let result ← saveLoop rule (some node) result
  saveDescend rule node result
partial_fixpoint

/-- The `while` loop, RuleMatching.cpp:37-44. -/
def saveLoop (rule : RulePtr) (nextN : Option Ptr) (result : List MatchingNodes) :
    CM (List MatchingNodes) := do
  match nextN with
  | none => pure result
  | some n => do
    let (nx, sub) ← matchRuleGroup (some rule) (some n) []
    let result := if sub.length > 0 then result ++ [sub] else result
    saveLoop rule nx result
partial_fixpoint

/-- The `do ... while` loop, RuleMatching.cpp:46-59. -/
def saveDescend (rule : RulePtr) (nextN : Ptr) (result : List MatchingNodes) :
    CM (List MatchingNodes) := do
  let n ← acc.load nextN
  let result ←
    if n.kind.isElement && n.children.length != 0 then do
      let c ← getAt n.children 0
      saveMatchingNodesRecursive rule c result
    else pure result
  match ← nextNode acc (some nextN) with
  | none => pure result
  | some nx => saveDescend rule nx result
partial_fixpoint

/-- `MatchRuleGroup`, RuleMatching.cpp:62-160. Returns the node to continue with and `result`. -/
def matchRuleGroup (rule : Option RulePtr) (node : Option Ptr) (result : MatchingNodes) :
    CM (Option Ptr × MatchingNodes) := do
  match rule, node with
  | some r, some n => groupLoop r (some r) (some n) [] result
  | _, _ => pure (none, result)
partial_fixpoint

/-- The loop `while( rule && node )`, RuleMatching.cpp:72-145, and what follows it, 147-160. -/
def groupLoop (firstRule : RulePtr) (rule : Option RulePtr) (node : Option Ptr)
    (sub result : MatchingNodes) : CM (Option Ptr × MatchingNodes) := do
  match rule, node with
  | some r, some n =>
    let greedyMatched := r.val.isGreedy && backIs sub r
    if r.val.isOptional || greedyMatched then do
      let stop1 ← findMandatoryRule r.next none
      match stop1 with
      | some stopRule => do
        -- has_wrapped == false: 121-140
        let (stopNode, sub) ← matchRuleOnce stopRule (some n) none sub
        match stopNode with
        | none => pure (none, result)
        | some sn => do
          let (_, sub) ← matchRange (some r) (some stopRule) n (some sn) sub
          let sub := sub ++ [(stopRule, sn)]
          let nx ← nextNode acc (some sn)
          groupLoop firstRule stopRule.next nx sub result
      | none => do
        -- has_wrapped == true: 88-98
        let stop2 ← findMandatoryRule (some firstRule) (some r)
        if sameRule stop2 (some r) then do
          -- no mandatory rules at all: 101-106
          let (nd, sub) ← matchRange (some r) none n none sub
          let result := result ++ sub
          match nd with
          | none => pure (none, result)
          | some q => do
            let nx ← nextNode acc (some q)
            pure (nx, result)
        else
          match stop2 with
          | none => throw .ub  -- cannot happen: FindMandatoryRule(first_rule, rule) is never null here
          | some stopRule => do
            -- 111-127
            let (stopNode, _discard) ← matchRuleOnce stopRule (some n) none []
            let (_, sub) ← matchRange (some r) none n stopNode sub
            pure (stopNode, result ++ sub)
    else do
      -- rule is mandatory: 132-144
      let (nd, sub) ← matchRuleOnce r (some n) none sub
      match nd with
      | none => pure (none, result)
      | some q => do
        let sub := sub ++ [(r, q)]
        let rule' := if r.val.isGreedy then some r else r.next
        let nx ← nextNode acc (some q)
        groupLoop firstRule rule' nx sub result
  | rule, node => do
    -- 147-149
    let rule := match rule with
      | some r => if r.val.isGreedy && backIs sub r then r.next else some r
      | none => none
    let rule ← skipOptional rule
    match rule with
    | none => pure (node, result ++ sub)
    | some _ => pure (none, result)
partial_fixpoint

/-- `RuleMatchesNodeRecursive`, RuleMatching.cpp:182-247. -/
def ruleMatchesNodeRecursive (rule : RulePtr) (node : Ptr) (result : MatchingNodes) :
    CM (Bool × MatchingNodes) := do
  if !(← ruleMatches rx acc rule.val.info node) then pure (false, result)
  else if rule.child.isNone && rule.nested.isEmpty then pure (true, result)
  else do
    let n ← acc.load node
    if !n.kind.isElement || n.children.length == 0 then pure (false, result)
    else do
      let firstChild ← getAt n.children 0
      let (matched, subresult) ← match rule.child with
        | none => pure (true, [])
        | some c => childLoop c firstChild false []
      if !matched then pure (false, result)
      else do
        match ← nestedLoop rule.nested firstChild subresult with
        | none => pure (false, result)
        | some subresult => pure (true, result ++ subresult)
partial_fixpoint

/-- The `do ... while( next_node )` loop over the child rules, RuleMatching.cpp:203-225.
`FindMandatoryRule` is called here also when its result is not needed; it has no effects. -/
def childLoop (child : RulePtr) (nextN : Ptr) (matched : Bool) (subresult : MatchingNodes) :
    CM (Bool × MatchingNodes) := do
  let (nx, sub) ← matchRuleGroup (some child) (some nextN) []
  let mandatory ← findMandatoryRule (some child) none
  let subresult' := if sub.length > 0 then subresult ++ sub else subresult
  let matched' := if sub.length > 0 then true else if mandatory.isNone then true else matched
  match nx with
  | none => pure (matched', subresult')
  | some n => childLoop child n matched' subresult'
partial_fixpoint

/-- The loop over the nested rules, RuleMatching.cpp:229-242; `none` is `return false`.
`FindMandatoryRule` is called here also when its result is not needed; it has no effects. -/
def nestedLoop (nested : List RulePtr) (firstChild : Ptr) (subresult : MatchingNodes) :
    CM (Option MatchingNodes) := do
  match nested with
  | [] => pure (some subresult)
  | r :: rs => do
    let mn ← saveMatchingNodesRecursive r firstChild []
    let mandatory ← findMandatoryRule (some r) none
    if mn.isEmpty && mandatory.isSome then pure none
    else nestedLoop rs firstChild (subresult ++ mn.flatten)
partial_fixpoint

/-- `MatchRuleOnce`, RuleMatching.cpp:249-267 (the rule is never null at the call sites). -/
def matchRuleOnce (rule : RulePtr) (begin_ end_ : Option Ptr) (result : MatchingNodes) :
    CM (Option Ptr × MatchingNodes) := do
  match begin_ with
  | none => pure (end_, result)
  | some b =>
    if some b == end_ then pure (end_, result)
    else do
      let (m, result) ← ruleMatchesNodeRecursive rule b result
      if m then pure (some b, result)
      else do
        let nx ← nextNode acc (some b)
        matchRuleOnce rule nx end_ result
partial_fixpoint

/-- `MatchRange`, RuleMatching.cpp:269-296, entered with a non-null `n_begin`. -/
def matchRange (rBegin rEnd : Option RulePtr) (nBegin : Ptr) (nEnd : Option Ptr)
    (result : MatchingNodes) : CM (Option Ptr × MatchingNodes) :=
  rangeLoop rBegin rEnd (some nBegin) nEnd nEnd result
partial_fixpoint

/-- The loop of `MatchRange`, RuleMatching.cpp:280-293; `matchingNode` is the last result. -/
def rangeLoop (rBegin rEnd : Option RulePtr) (nBegin nEnd matchingNode : Option Ptr)
    (result : MatchingNodes) : CM (Option Ptr × MatchingNodes) := do
  match rBegin with
  | none => pure (matchingNode, result)
  | some r =>
    if sameRule (some r) rEnd then pure (matchingNode, result)
    else do
      let (mn, result) ← matchRuleOnce r nBegin nEnd result
      -- 283: has_matched = ( matching_node && matching_node != n_end )
      match mn with
      | some q =>
        if mn != nEnd then do
          let nx ← nextNode acc (some q)
          let rNext := if r.val.isGreedy then some r else r.next
          rangeLoop rNext rEnd nx nEnd mn (result ++ [(r, q)])
        else rangeLoop r.next rEnd nBegin nEnd mn result
      | none => rangeLoop r.next rEnd nBegin nEnd mn result
partial_fixpoint

end

/-- The loop over one group, Rule.cpp:281-290. -/
def groupMap (group : MatchingNodes) (map : List (Str × Str)) : C (List (Str × Str)) :=
  match group with
  | [] => pure map
  | (r, n) :: rest => do
    let map ←
      if r.val.info.caps.length > 0 then do
        let values ← ruleCapture rx acc n r.val.info.caps
        pure (values.foldl (fun m p => multimapInsert p m) map)
      else pure map
    groupMap rest map

/-- The loop over all groups, Rule.cpp:278-297. -/
def groupsToResult : List MatchingNodes → C (List (List (Str × Str)))
  | [] => pure []
  | g :: gs => do
    let map ← groupMap rx acc g []
    let rest ← groupsToResult gs
    pure (if map.isEmpty then rest else map :: rest)

/-- `Rule::extract(const GumboNode*, max_searches)`, Rule.cpp:273-300 (for a non-null node). -/
def extract (rule : Rule) (node : Ptr) (maxSearches : UInt64) : C (List (List (Str × Str))) := do
  let (mn, _) ← (saveMatchingNodesRecursive rx acc ⟨[], rule⟩ node []).run maxSearches
  groupsToResult rx acc mn

end Hext.Threads
