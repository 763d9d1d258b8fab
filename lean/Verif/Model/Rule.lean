import Verif.Model.Match
/-!
# Model of libhext/src/Rule.cpp (without extraction)
-/

namespace Hext

/-- `HtmlTag` as stored in a rule: `ANY` or a Gumbo tag. HtmlTag.h:30, Rule.h:275. -/
inductive RTag
  | any
  | tag (t : Tag)
  deriving DecidableEq, Repr

/-- The members of a `Rule` that are not other rules. Rule.h:249-279. -/
structure RuleInfo where
  tag : RTag := .any
  optional : Bool := false
  greedy : Bool := false
  tagname : Option Str := none
  ms : List (Option Match) := []
  caps : List (Option Capture) := []

/-- `hext::Rule`: `first_child_`, `next_` (owning pointers, null or a rule) and `nested_` (a vector of
rules). `RuleP` is `std::unique_ptr<Rule>`, `Rules` is `std::vector<Rule>`. Rule.h:269-278. -/
inductive Rule
  | mk (info : RuleInfo) (child : Option Rule) (next : Option Rule) (nested : List Rule)

namespace Rule

/-- The members of a rule other than the rules it owns, Rule.h:272-278. -/
def info : Rule → RuleInfo
  | mk i _ _ _ => i
/-- `Rule::child()`, Rule.cpp:89-92. -/
def child : Rule → Option Rule
  | mk _ c _ _ => c
/-- `Rule::next()`, Rule.cpp:94-97. -/
def next : Rule → Option Rule
  | mk _ _ n _ => n
/-- `Rule::nested()`, Rule.cpp:99-102. -/
def nested : Rule → List Rule
  | mk _ _ _ ns => ns
/-- `Rule::is_optional()`, Rule.cpp:168-171. -/
def isOptional (r : Rule) : Bool := r.info.optional
/-- `Rule::is_greedy()`, Rule.cpp:179-182. -/
def isGreedy (r : Rule) : Bool := r.info.greedy

/-- `Rule::append_next`, Rule.cpp:129-137. -/
def appendNext : (this sibling : Rule) → Rule
  | mk i c none ns, sibling => mk i c (some sibling) ns
  | mk i c (some n) ns, sibling => mk i c (some (n.appendNext sibling)) ns

/-- `Rule::append_child`, Rule.cpp:119-127. -/
def appendChild : (this newChild : Rule) → Rule
  | mk i (some c) n ns, newChild => mk i (some (c.appendNext newChild)) n ns
  | mk i none n ns, newChild => mk i (some newChild) n ns

/-- `Rule::append_nested`, Rule.cpp:139-143. -/
def appendNested : (this nestedRule : Rule) → Rule
  | mk i c n ns, nestedRule => mk i c n (ns ++ [nestedRule])

/-- `Rule::append_match`, Rule.cpp:145-149. -/
def appendMatch (m : Option Match) : Rule → Rule
  | mk i c n ns => mk { i with ms := i.ms ++ [m] } c n ns

/-- `Rule::append_capture`, Rule.cpp:151-155. -/
def appendCapture (cap : Option Capture) : Rule → Rule
  | mk i c n ns => mk { i with caps := i.caps ++ [cap] } c n ns

/-- `Rule::set_tag`, `set_optional`, `set_greedy`, `set_tagname`: Rule.cpp:162-166, 173-177, 184-188,
195-199. -/
def setTag (t : RTag) : Rule → Rule
  | mk i c n ns => mk { i with tag := t } c n ns
/-- `Rule::set_optional`, Rule.cpp:173-177. -/
def setOptional (b : Bool) : Rule → Rule
  | mk i c n ns => mk { i with optional := b } c n ns
/-- `Rule::set_greedy`, Rule.cpp:184-188. -/
def setGreedy (b : Bool) : Rule → Rule
  | mk i c n ns => mk { i with greedy := b } c n ns
/-- `Rule::set_tagname`, Rule.cpp:195-199. -/
def setTagname (s : Str) : Rule → Rule
  | mk i c n ns => mk { i with tagname := some s } c n ns

/-- `Rule::Rule(HtmlTag, bool, bool)`, Rule.cpp:24-37. -/
def ofTag (t : RTag) (optional greedy : Bool) : Rule :=
  mk { tag := t, optional, greedy } none none []

/-- `Rule::Rule(std::string, bool, bool)`, Rule.cpp:39-54. -/
def ofName (name : Str) (optional greedy : Bool) : Rule :=
  let t := gumboTagEnum (cstr name)
  mk { tag := .tag t, optional, greedy, tagname := if t = .unknown then some name else none }
    none none []

end Rule

/-- The loop over `matches_`, Rule.cpp:239-241. -/
def allMatch (rx : RxEngine) (h : Heap) (node : Ptr) : List (Option Match) → E Bool
  | [] => pure true
  | m :: ms => do
    -- `if( match && !match->matches(node) ) return false;`
    let fails ← match m with
      | none => pure false
      | some m => do pure (!(← m.matches rx h node))
    if fails then pure false else allMatch rx h node ms

/-- The tag part of `Rule::matches`, Rule.cpp:206-237: does the element's tag agree?
`gumbo_string_equals_ignore_case` compares lengths and then the bytes up to ASCII case. -/
def tagAgrees (info : RuleInfo) (k : Kind) : Bool :=
  match info.tag with
  | .any => true
  | .tag t =>
    match k with
    | .element e =>
      if e.tag != t then false
      else if t = .unknown then
        match info.tagname, e.origName with
        | some name, some orig => name.length == orig.length && eqIgnoreCase name orig
        | _, _ => false
      else true
    | _ => false

/-- `Rule::matches`, Rule.cpp:201-244 (for a non-null node). -/
def ruleMatches (rx : RxEngine) (h : Heap) (info : RuleInfo) (node : Ptr) : E Bool := do
  let n ← load h node
  if !tagAgrees info n.kind then pure false
  else allMatch rx h node info.ms

/-- `Rule::capture`, Rule.cpp:246-265 (for a non-null node). -/
def ruleCapture (rx : RxEngine) (h : Heap) (node : Ptr) : List (Option Capture) → E (List (Str × Str))
  | [] => pure []
  | none :: cs => ruleCapture rx h node cs
  | some c :: cs => do
    let pair ← c.capture rx h node
    let rest ← ruleCapture rx h node cs
    match pair with
    | some p => pure (p :: rest)
    | none => pure rest

end Hext
