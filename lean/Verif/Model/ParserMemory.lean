import Verif.Model.Assign
import Verif.Model.Parser
/-!
# Parsing a hext in memory

`Parser::parse` again, this time on the memory of `Model/RuleMemory.lean`: the rules on the stacks and the tests, traits and
transformations of `PatternValues` are objects that are owned by vectors and `std::unique_ptr`s. Every step that requests
memory may throw `std::bad_alloc`, or end the program if this happens in a function that is `noexcept`; this exception and those of the parser unwind the stack, which ends the local variables of
`parse` and then the `Parser`.

Members without pointers (tokens, names, numbers, regular expressions, flags) are values as in `Model/Parser.lean`.

Simplifications: as in `Model/Failing.lean`, every step that may request memory counts as one, also if it would not need any.
The arguments of a constructor are evaluated in the order in which they are written. Whether a vector has room for another
element is decided anew, in an arbitrary way, for every code block that is executed.
-/

namespace Hext.Mem

/-- The exceptions that leave `ParseHext`: `std::bad_alloc`, and those of the parser (Parser.cpp:2524-2630, `std::stoi` in
Parser.cpp:1974, 1986, 2046, 2054). -/
inductive Exn
  | badAlloc
  | thrown (e : PErr)

/-- The local variables of `Parser::parse` and `stacks_`: Parser.cpp:1786-1818, Parser.h:153-160, PatternValues.h:68-107. The
vectors of rules are lists of addresses with `back()` first. `rest` holds the members without pointers; its own stacks and
pointers are not used. -/
structure PMem where
  stacks : List (List Addr) := [[], []]
  pipe : Option Addr := none
  test : Option Addr := none
  trait : Option Addr := none
  negate : Option Addr := none
  rest : PSt := {}

/-- Memory, the number of requests for memory that will still succeed, and the state of the parser, Parser.h:153-173. -/
structure PS where
  mem : Mem
  left : Nat
  st : PMem

/-- Steps of the parser, Parser.cpp:1776-2358. The state survives an exception. -/
abbrev R := ExceptT Exn (StateT PS E)

namespace R

/-- A step on memory that requests none. As in Rule.cpp:119-199. -/
def mem {α} (x : P α) : R α := fun s => do
  let (a, m) ← x s.mem
  pure (.ok a, { s with mem := m })

/-- Reading the state, Parser.h:153-173. -/
def get : R PMem := fun s => pure (.ok s.st, s)

/-- Writing the state, Parser.h:153-173. -/
def set (t : PMem) : R Unit := fun s => pure (.ok (), { s with st := t })

/-- A step that requests memory. If it throws, the objects that only local variables own are destroyed by `d`.
As `std::make_unique` in PatternValues.h:44, 51, 60 and `emplace_back` in Parser.cpp.rl:197-198, 244. -/
def requestElse (d : P Unit) : R Unit := fun s =>
  match s.left with
  | 0 => do
    let ((), m) ← d s.mem
    pure (.error .badAlloc, { s with mem := m })
  | n + 1 => pure (.ok (), { s with left := n })

/-- A step that requests memory where no local variable owns an object. As in PatternValues.h:44, 51, 60. -/
def request : R Unit := requestElse (pure ())

/-- `push_back` and `emplace_back` request memory if the vector has no room. As in Parser.cpp.rl:197-198, 244, 277. -/
def requestIf (b : Bool) (d : P Unit) : R Unit := if b then requestElse d else pure ()

/-- Undefined behaviour, or an assertion that fails. Parser.cpp:2360-2472, 2526, 2638. -/
def fault {α} (e : Err) : R α := fun _ => throw e

/-- A step that requests memory in a function that is `noexcept`: a `std::bad_alloc` calls `std::terminate`, which ends the program.
`SyntaxError::SyntaxError(const std::string&) noexcept` copies the message into the `std::runtime_error`, SyntaxError.cpp:21-24. -/
def requestNoexcept : R Unit := fun s =>
  match s.left with
  | 0 => throw .assertFail
  | n + 1 => pure (.ok (), { s with left := n })

/-- A computation of the parser on values, which may throw. Making a message requests memory, and so does the exception, whose
constructor is `noexcept` for a `SyntaxError`. Parser.cpp:2524-2630; if the exception is thrown, local variables are destroyed
by `d`. Simplification: output to a `std::stringstream` that cannot grow is cut; here, making the message throws, as the call of
`str()` behind it does. -/
def parseElse {α} (d : P Unit) : Hext.P α → R α
  | .ok a => pure a
  | .error .ub => fault .ub
  | .error .overflow => fault .ub
  | .error .assertFail => fault .assertFail
  | .error (.syntax what) => do
    requestElse d
    requestNoexcept
    mem d
    throw (.thrown (.syntax what))
  | .error e => do
    requestElse d
    mem d
    throw (.thrown e)

/-- The same where no local variable owns an object. Parser.cpp:2524-2630. -/
def parse {α} (x : Hext.P α) : R α := parseElse (pure ()) x

end R

/-- Which vectors have to reallocate if a code block adds an element. `std::vector::push_back` and `emplace_back` in
Parser.cpp.rl:197-198, 244, 277, Rule.cpp:141, 147, 153 and NegateMatch.cpp:55. -/
structure Growth where
  /-- `top_stack()` or `previous_stack()` -/
  rules : Bool
  /-- `Rule::nested_` -/
  nested : Bool
  /-- `Rule::matches_` -/
  matches_ : Bool
  /-- `Rule::captures_` -/
  captures : Bool
  /-- `NegateMatch::matches_` -/
  negated : Bool

/-! ## PatternValues -/

/-- `this->test = ` a new object: the old one is deleted. PatternValues.h:41-45. -/
def putTest (a : Option Addr) : R Unit := do
  let t ← R.get
  R.set { t with test := a }
  R.mem (onPtr destroyTest t.test)

/-- `PatternValues::set_test` with a class that holds no pointer, PatternValues.h:41-45. The arguments are copied. -/
def setTestR (v : ValueTest) : R Unit := do
  R.request
  R.request
  putTest (some (← R.mem (alloc (.test v))))

/-- `pv.set_test<NegateTest>(std::move(pv.test))`, hext-machine.rl:29, PatternValues.h:41-45. -/
def negateTestR : R Unit := do
  R.request
  let t ← R.get
  R.set { t with test := none }
  let a ← R.mem (alloc (.negateTest t.test))
  putTest (some a)

/-- `PatternValues::set_trait`, PatternValues.h:48-52. -/
def setTraitR (m : Match) : R Unit := do
  R.request
  R.request
  let a ← R.mem (alloc (.match_ m))
  let t ← R.get
  R.set { t with trait := some a }
  R.mem (onPtr destroyMatch t.trait)

/-- `PatternValues::add_pipe`, PatternValues.h:55-62, and `StringPipe::emplace`, StringPipe.h:70-73. -/
def addPipeR (v : Transform) : R Unit := do
  R.request
  R.request
  let a ← R.mem (alloc (.pipe v none))
  let t ← R.get
  match t.pipe with
  | some p => R.mem (appendPipe p (some a))
  | none => R.set { t with pipe := some a }

/-- `pv.negate = std::make_unique<NegateMatch>()`, hext-machine.rl:183. -/
def negateNewR : R Unit := do
  R.request
  let a ← R.mem (alloc (.negateMatch []))
  let t ← R.get
  R.set { t with negate := some a }
  R.mem (onPtr destroyMatch t.negate)

/-- `NegateMatch::append_match`, NegateMatch.cpp:53-56. -/
def appendNegated (this : Addr) (p : Option Addr) : P Unit := do
  match ← load this with
  | .negateMatch ms => store this (.negateMatch (ms ++ [p]))
  | _ => throw .ub

/-- `pv.negate->append_match(std::move(pv.trait))`, hext-machine.rl:186-189, NegateMatch.cpp:53-56. -/
def negateAppendR (realloc : Bool) : R Unit := do
  let t ← R.get
  match t.negate with
  | none => R.fault .assertFail
  | some n => do
    R.set { t with trait := none }
    R.requestIf realloc (onPtr destroyMatch t.trait)
    R.mem (appendNegated n t.trait)

/-- `PatternValues::reset`, PatternValues.cpp:38-57. Assigning an empty string requests nothing. -/
def resetR : R Unit := do
  let t ← R.get
  if t.pipe.isSome || t.test.isSome || t.trait.isSome || t.negate.isSome then R.fault .assertFail
  else R.set { t with rest := { t.rest with pv := {} } }

/-! ## Rules -/

/-- `cur_rule()`, Parser.cpp.rl:175-179. -/
def curRuleR : R Addr := do
  match (← R.get).stacks with
  | (r :: _) :: _ => pure r
  | _ => R.fault .assertFail

/-- `cur_rule().append_match(std::move(p))`, Rule.cpp:145-149: the parameter owns the match until it is in the vector. -/
def appendMatchR (realloc : Bool) (this : Addr) (p : Option Addr) : R Unit := do
  R.requestIf realloc (onPtr destroyMatch p)
  R.mem (appendMatch this p)

/-- `cur_rule().append_capture(std::move(p))`, Rule.cpp:151-155. -/
def appendCaptureR (realloc : Bool) (this : Addr) (p : Option Addr) : R Unit := do
  R.requestIf realloc (onPtr destroyCapture p)
  R.mem (appendCapture this p)

/-- `cur_rule().append_capture<...>(..., pv.cap_var, std::move(pv.pipe))`, hext-machine.rl:262-263, 277-278; `mk` is the
object with the given pipe. -/
def captureR (realloc : Bool) (mk : Option Addr → Obj) : R Unit := do
  let cur ← curRuleR
  R.request
  R.request
  R.request
  let t ← R.get
  R.set { t with pipe := none }
  let a ← R.mem (alloc (mk t.pipe))
  appendCaptureR realloc cur (some a)

/-- `cur_rule().append_match<...>(..., std::move(pv.test))`, hext-machine.rl:267, 271, 285, 289, 295. -/
def matchR (realloc : Bool) (mk : Option Addr → Obj) : R Unit := do
  let cur ← curRuleR
  R.request
  R.request
  let t ← R.get
  R.set { t with test := none }
  let a ← R.mem (alloc (mk t.test))
  appendMatchR realloc cur (some a)

/-- `push_rule`, Parser.cpp.rl:242-245. -/
def pushRuleR (realloc : Bool) : R Unit := do
  let t ← R.get
  match t.stacks with
  | [] => R.fault .assertFail
  | top :: st => do
    R.requestIf realloc (pure ())
    let top ← R.mem (makeRoom realloc top)
    let r ← R.mem (newRule .any false false)
    R.set { t with stacks := (r :: top) :: st }

/-- `Rule rule = std::move(top_stack().back()); top_stack().pop_back();`, Parser.cpp.rl:258-259, 271-272, 228-229.
`st` are the stacks without the rule. -/
def takeRule (x : Addr) (st : List (List Addr)) : R Addr := do
  let rule ← R.mem (moveRule x)
  R.mem (destroyRule x)
  let t ← R.get
  R.set { t with stacks := st }
  pure rule

/-- A call of `append_child`, `append_next` or `append_nested` with `std::move(rule)` for the local variable `rule`, which
dies afterwards. Its parameter is `param`; both die if memory cannot be had (`asks`). Parser.cpp.rl:238-239, 260, 279-280. -/
def appendRule (asks : Bool) (f : Addr → Addr → P Unit) (this rule : Addr) : R Unit := do
  let param ← R.mem (moveRule rule)
  R.requestIf asks (do destroyRule param; destroyRule rule)
  R.mem (f this param)
  R.mem (destroyRule rule)

/-- `pop_rule`, Parser.cpp.rl:247-283. -/
def popRuleR (realloc : Bool) : R Unit := do
  let t ← R.get
  match t.stacks with
  | [] => R.fault .assertFail
  | [] :: _ => R.fault .assertFail
  | (x :: y :: rs) :: st => do
    let rule ← takeRule x ((y :: rs) :: st)
    appendRule true appendChild y rule
  | [_] :: [] => R.fault .assertFail
  | [x] :: [] :: st => do
    let rule ← takeRule x ([] :: [] :: st)
    -- `previous_stack().push_back(std::move(rule))`
    R.requestIf realloc (destroyRule rule)
    let b ← R.mem (moveRule rule)
    let t ← R.get
    R.set { t with stacks := [] :: [b] :: st }
    R.mem (destroyRule rule)
  | [x] :: (y :: rs) :: st => do
    let rule ← takeRule x ([] :: (y :: rs) :: st)
    appendRule true appendNext y rule

/-- `push_nested`, Parser.cpp.rl:193-199. -/
def pushNestedR (c : Ctx) (p : Nat) : R Unit := do
  let t ← R.get
  match t.stacks with
  | [] => R.fault .assertFail
  | [] :: _ => R.parse (throwErrorMessage c p (lit "Nested rules must have a parent"))
  | _ => do
    R.request
    R.set { t with stacks := [] :: t.stacks }
    R.request
    R.set { t with stacks := [] :: [] :: t.stacks }

/-- `pop_nested`, Parser.cpp.rl:201-240. -/
def popNestedR (c : Ctx) (p : Nat) (realloc : Bool) : R Unit := do
  let t ← R.get
  match t.stacks with
  | [] => R.fault .assertFail
  | (_ :: _) :: _ => R.parse (throwErrorMessage c p (lit "Closing nested rule without open"))
  | [] :: st => do
    R.set { t with stacks := st }
    match st with
    | [] => R.fault .assertFail
    | [] :: _ => R.parse (throwErrorMessage c p (lit "Nested rules cannot be empty"))
    | (_ :: _ :: _) :: _ => R.fault .assertFail
    | [x] :: st => do
      let nested ← takeRule x st
      match st with
      | [] => R.parseElse (destroyRule nested) (throwErrorMessage c p (lit "Closing nested rule without open"))
      | [] :: _ => R.parseElse (destroyRule nested) (throwErrorMessage c p (lit "Nested rules must have a parent"))
      | (r :: _) :: _ => appendRule realloc (appendNested realloc) r nested

/-- `tk_stop`, Parser.cpp.rl:113-121. The token is a new string. -/
def tkStopR (c : Ctx) (p : Nat) : R Str := do
  R.request
  let t ← R.get
  let s ← R.parse (Hext.tkStop c p t.rest)
  R.set { t with rest := s }
  pure s.tok

/-- `set_open_tag_or_throw`, Parser.cpp.rl:285-302. -/
def setOpenTagR (tagName : Str) : R Unit := do
  let cur ← curRuleR
  if tagName = lit "*" then R.mem (setTag cur .any)
  else do
    let tag := gumboTagEnum (cstr tagName)
    R.mem (setTag cur (.tag tag))
    if tag = .unknown then do
      R.request
      R.mem (setTagname cur tagName)
    else pure ()

/-- `validate_close_tag_or_throw`, Parser.cpp.rl:304-337. The comparisons are those of `Hext.validateCloseTag` for a rule with
the tag and the name that the object has; `get_tagname()` copies a string. -/
def validateCloseTagR (c : Ctx) (p : Nat) (tagName : Str) : R Unit := do
  match (← R.get).stacks with
  | [] => R.fault .assertFail
  | [] :: _ => R.parse (throwUnexpectedTag c p tagName none none)
  | (r :: _) :: _ => do
    let o ← R.mem (loadRule r)
    R.request
    R.parse (validateCloseTag c p tagName { stacks := [[.mk { tag := o.tag, tagname := o.tagname } none none []]] })

/-! ## Code blocks -/

/-- The code blocks that touch no pointer: they change members that are values. hext-machine.rl:25-249. -/
def Act.isPlain : Act → Bool
  | .optional | .tkStart | .attrName | .literal | .nthEven | .nthOdd | .nthNumber | .nthStep | .nthShift | .tkStop | .icase
  | .collate | .regex | .builtinText | .builtinInnerHtml | .builtinStripTags | .capVarLiteral | .capVarToken | .unexpected => true
  | _ => false

/-- The code blocks, hext-machine.rl:25-360. -/
def Act.execR (c : Ctx) (p : Nat) (g : Growth) (a : Act) : R Unit := do
  let pv := (← R.get).rest.pv
  match a with
  | .negateTest => negateTestR
  | .regexTest =>
    match pv.regex with
    | none => R.fault .assertFail
    | some r => setTestR (.regex r)
  | .traitEmpty => setTraitR (.childCount 0)
  | .traitChildCount => do
    let tok ← tkStopR c p
    let v ← R.parse (stoi tok)
    setTraitR (.childCount v.toNat)
  | .traitAttributeCount => do
    let tok ← tkStopR c p
    let v ← R.parse (stoi tok)
    setTraitR (.attributeCount v.toNat)
  | .traitNth first ofType => setTraitR (.nthChild pv.nth.1 pv.nth.2 first ofType)
  | .traitEnd first ofType => setTraitR (.nthChild 0 1 first ofType)
  | .traitOnly ofType => setTraitR (.onlyChild ofType)
  | .traitTypeRegex => do setTraitR (.typeRegex (← R.parse (derefRegex pv)))
  | .negateNew => negateNewR
  | .negateAppend => negateAppendR g.negated
  | .pipeTrim => addPipeR (.trim (lit " "))
  | .pipeTrimLiteral => addPipeR (.trim pv.literal)
  | .pipeCollapseWs => addPipeR .collapseWs
  | .pipeToLower => addPipeR .toLower
  | .pipeToUpper => addPipeR .toUpper
  | .pipePrepend => addPipeR (.prepend pv.literal)
  | .pipeAppend => addPipeR (.append pv.literal)
  | .pipeFilter => do addPipeR (.regex (← R.parse (derefRegex pv)))
  | .pipeReplace => do addPipeR (.regexReplace (← R.parse (derefRegex pv)) pv.literal)
  | .testWords => setTestR (mkContainsWords pv.literal)
  | .testEquals => setTestR (.equals pv.literal)
  | .testBeginsWith => setTestR (.beginsWith pv.literal)
  | .testContains => setTestR (.contains pv.literal)
  | .testEndsWith => setTestR (.endsWith pv.literal)
  | .captureFunction => captureR g.captures (.functionCapture pv.builtin pv.capVar)
  | .matchFunction => matchR g.matches_ (.functionValueMatch pv.builtin)
  | .captureAttribute => do
    captureR g.captures (.attributeCapture pv.attrName pv.capVar)
    if pv.optional then pure ()
    else do
      let cur ← curRuleR
      R.request
      R.request
      let a ← R.mem (alloc (.attributeMatch pv.attrName none))
      appendMatchR g.matches_ cur (some a)
  | .matchAttribute => matchR g.matches_ (.attributeMatch pv.attrName)
  | .testNull => putTest none
  | .reset => resetR
  | .pushRule => pushRuleR g.rules
  | .ruleOptional => do R.mem (setOptional (← curRuleR) true)
  | .ruleGreedy => do R.mem (setGreedy (← curRuleR) true)
  | .openTag => do setOpenTagR (← tkStopR c p)
  | .appendNegate => do
    let cur ← curRuleR
    let t ← R.get
    R.set { t with negate := none }
    appendMatchR g.matches_ cur t.negate
  | .appendTrait => do
    let cur ← curRuleR
    let t ← R.get
    R.set { t with trait := none }
    appendMatchR g.matches_ cur t.trait
  | .popRule => popRuleR g.rules
  | .closeTag => do
    let tok ← tkStopR c p
    validateCloseTagR c p tok
    popRuleR g.rules
  | .pushNested => pushNestedR c p
  | .popNested => popNestedR c p g.nested
  -- the blocks that touch no pointer
  | a => do
    R.request
    let t ← R.get
    let s ← R.parse (a.exec c p t.rest)
    R.set { t with rest := s }

/-! ## The automaton -/

/-- The loop `while( _nacts-- > 0 )`, Parser.cpp:1912-2284. `g` tells for each position of the hext and each offset of
`_hext_actions` which vectors reallocate. -/
def runActsR (c : Ctx) (g : Nat → Nat → Growth) (p : Nat) (acts : Nat) : (nacts : Nat) → R Unit
  | 0 => pure ()
  | n + 1 => do
    let a ← R.parse (tbl Tables.actions acts)
    match Act.ofNat a with
    | some a => Act.execR c p (g p acts) a
    | none => pure ()
    runActsR c g p (acts + 1) n

/-- The actions of a transition, Parser.cpp:1904-2284. -/
def runTransR (c : Ctx) (g : Nat → Nat → Growth) (p : Nat) (trans : Nat) : R Unit := do
  let off ← R.parse (tbl Tables.transActions trans)
  if off = 0 then pure ()
  else do
    let n ← R.parse (tbl Tables.actions off)
    runActsR c g p (off + 1) n

/-- The loop over the end-of-file actions, Parser.cpp:2295-2317. -/
def runEofActsR (c : Ctx) (g : Nat → Nat → Growth) (p : Nat) (acts : Nat) : (nacts : Nat) → R Unit
  | 0 => pure ()
  | n + 1 => do
    let a ← R.parse (tbl Tables.actions acts)
    match Act.ofNatEof a with
    | some a => Act.execR c p (g p acts) a
    | none => pure ()
    runEofActsR c g p (acts + 1) n

/-- The automaton, Parser.cpp:1838-2322. -/
def runMachineR (c : Ctx) (g : Nat → Nat → Growth) (cs : Nat) (p : Nat) (rest : Str) : R Unit :=
  match rest with
  | [] => do
    let off ← R.parse (tbl Tables.eofActions cs)
    let n ← R.parse (tbl Tables.actions off)
    runEofActsR c g p (off + 1) n
  | b :: rest => do
    let i ← R.parse (transIndex c.charSigned cs b)
    let trans ← R.parse (tbl Tables.indicies i)
    let cs ← R.parse (tbl Tables.transTargs trans)
    runTransR c g p trans
    if cs = 0 then pure ()
    else runMachineR c g cs (p + 1) rest

/-- `while( stacks_.size() && top_stack().empty() ) stacks_.pop_back();`, Parser.cpp.rl:158-159. -/
def dropEmptyR : List (List Addr) → List (List Addr)
  | [] :: st => dropEmptyR st
  | st => st

/-- The end of `Parser::parse`, Parser.cpp.rl:146-172. The result is a new object, which the caller owns. -/
def finishR (c : Ctx) : R Addr := do
  let t ← R.get
  if t.stacks.isEmpty then R.fault .assertFail
  else if t.stacks.length > 2 then R.parse (throwErrorMessage c c.input.length (lit "Unclosed nested rule"))
  else do
    let st := dropEmptyR t.stacks
    R.set { t with stacks := st }
    match st with
    | [] => R.mem (newRule .any false false)
    | [] :: _ => R.fault .assertFail
    | (r :: rs) :: st =>
      if st.length + 1 > 1 ∨ (r :: rs).length > 1 then do
        let o ← R.mem (loadRule r)
        R.request
        R.parse (throwMissingTag c o.tag o.tagname)
      else R.mem (moveRule r)

/-- The body of `Parser::parse`, Parser.cpp.rl:81-173. The list of stacks and the strings request memory. -/
def parseBodyR (c : Ctx) (g : Nat → Nat → Growth) : R Addr := do
  R.request
  runMachineR c g hextStart 0 c.input
  finishR c

/-- The destructors of `pv` (its members, the last one first) and of the `Parser`. PatternValues.h:68-107, Parser.h:153. -/
def destroyParser (t : PMem) : P Unit := do
  onPtr destroyMatch t.negate
  onPtr destroyMatch t.trait
  onPtr destroyTest t.test
  onPtr destroyPipe t.pipe
  forVec (forVec destroyRule) t.stacks

/-- `ParseHext(const char *, std::size_t)`, ParseHext.cpp:30-34, when `n` requests for memory succeed: the rule or the
exception, and the memory afterwards. -/
def parseHextMem (rx : RxEngine) (charSigned : Bool) (g : Nat → Nat → Growth) (hext : Str) (m : Mem) (n : Nat) :
    E (Except Exn Addr × Mem) := do
  let (r, s) ← parseBodyR { input := hext, charSigned, rx } g ⟨m, n, {}⟩
  let ((), m') ← destroyParser s.st s.mem
  pure (r, m')

end Hext.Mem
