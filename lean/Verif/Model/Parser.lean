import Verif.Model.Rule
import Verif.Model.ParserTables
/-!
# Model of the hext parser

libhext/ragel/Parser.cpp.rl, libhext/ragel/hext-machine.rl, the generated libhext/src/Parser.cpp,
libhext/src/PatternValues.cpp and the functions of libhext/src/StringUtil.cpp that write error messages.
Line numbers of Parser.cpp refer to the generated file.
-/

namespace Hext

/-- The ways in which parsing can end without a rule. `syntax what`: `hext::SyntaxError` with its message.
`outOfRange`, `invalidArgument`: the exceptions of `std::stoi`. `ub`, `assertFail`: as in `Err`. `overflow`: the
undefined overflow of the `int` that counts lines in `PrintNumberedLines`.
Thrown in Parser.cpp:2524-2630 and, by the standard library, in Parser.cpp:1974, 1986, 2046, 2054. -/
inductive PErr
  | syntax (what : Str)
  | outOfRange
  | invalidArgument
  | ub
  | assertFail
  | overflow
  deriving DecidableEq, Repr

/-- Outcomes of `Parser::parse`, Parser.cpp:1776-2358. `none` is divergence. -/
abbrev P := Except PErr

/-- `assert` with assertions switched on. Parser.cpp:2360-2472, 2526, 2638. -/
def P.assert (b : Bool) : P Unit := if b then pure () else throw .assertFail

/-- What does not change while parsing: the input `[p_begin_, pe)`, whether `char` is signed on the
platform, and Boost.Regex. Parser.h:48-62, 156-160. -/
structure Ctx where
  input : Str
  charSigned : Bool
  rx : RxEngine

/-! ## Error messages -/

/-- How a stream writes an unsigned number. Parser.cpp:2543-2680. -/
def decimal (n : Nat) : Str :=
  if n < 10 then [48 + UInt8.ofNat n] else decimal (n / 10) ++ [48 + UInt8.ofNat (n % 10)]
termination_by n
decreasing_by omega

/-- The value of a `char` converted to `int`. StringUtil.cpp:102. -/
def charVal (charSigned : Bool) (c : Byte) : Int :=
  if charSigned && 128 ≤ c then (c.toNat : Int) - 256 else c.toNat

/-- `CharName`, StringUtil.cpp:84-107. `std::isprint` is defined for values of `unsigned char` and `EOF`
(-1) only; in the C locale it accepts 32..126. -/
def charName (charSigned : Bool) (c : Byte) : P Str :=
  if c = 10 then pure (lit "[newline]")
  else if c = 9 then pure (lit "[tab]")
  else if c = 13 then pure (lit "[carriage-return]")
  else if c = 32 then pure (lit "[space]")
  else if c = 0 then pure (lit "[nullbyte]")
  else
    let ci := charVal charSigned c
    if ci < -1 then throw .ub
    else if 32 ≤ ci ∧ ci ≤ 126 then pure [c]
    else if ci < 0 then pure (lit "[ascii: -" ++ decimal ci.natAbs ++ lit "]")
    else pure (lit "[ascii: " ++ decimal ci.natAbs ++ lit "]")

/-- The pieces of `s` between newlines (`cur` is the piece being read). StringUtil.cpp:181-184. -/
def splitNl (cur : Str) : Str → List Str
  | [] => [cur]
  | c :: s => if c = 10 then cur :: splitNl [] s else splitNl (cur ++ [c]) s

/-- `boost::tokenizer` with `char_separator("\n", "", keep_empty_tokens)`, StringUtil.cpp:181-185: an
empty range has no token. -/
def tokenizeLines (s : Str) : List Str := if s.isEmpty then [] else splitNl [] s

/-- The loop of `PrintNumberedLines`, StringUtil.cpp:193-201; `line_num` is an `int`. -/
def printLines (width : Nat) (lineNum : Nat) : List Str → P Str
  | [] => pure []
  | line :: lines => do
    let num := decimal lineNum
    let text := List.replicate (width - num.length) 32 ++ num ++ lit ": " ++ line ++ [10]
    if lineNum + 1 > 2147483647 then throw .overflow
    else do
      let rest ← printLines width (lineNum + 1) lines
      pure (text ++ rest)

/-- `PrintNumberedLines`, StringUtil.cpp:173-202, for the range `s` (so `begin <= end` holds). -/
def printNumberedLines (s : Str) : P Str :=
  let lineCount := 1 + s.count 10
  let numberWidth := (decimalWidth lineCount).toNat
  printLines numberWidth 1 (tokenizeLines s)

/-- The lines of the input up to `uc`, Parser.cpp.rl:469-473. -/
def errorLines (c : Ctx) (uc : Nat) : P Str :=
  if uc = c.input.length ∨ c.input[uc]? = some 10 then printNumberedLines (c.input.take uc)
  else printNumberedLines (c.input.take (uc + 1))

/-- `Parser::print_error_location`, Parser.cpp.rl:447-496; `uc` as an offset from `p_begin_`. -/
def printErrorLocation (c : Ctx) (uc : Nat) (markLen : Nat) : P Str := do
  P.assert (uc ≤ c.input.length)
  let pos := charPosition c.input uc
  let lineCount := pos.1 + 1
  let charCount := pos.2 + 1
  let where_ :=
    if uc = c.input.length then lit "at end of input:\n\n"
    else lit "at line " ++ decimal lineCount ++ lit ", char " ++ decimal charCount ++ lit ":\n\n"
  let lines ← errorLines c uc
  if markLen < 1 then pure (where_ ++ lines)
  else if c.input.any (128 ≤ ·) then pure (where_ ++ lines)
  else
    let markLen := min charCount markLen
    -- `markLen <= charCount`, so the subtraction of `size_t`s does not wrap
    let indent := (decimalWidth lineCount).toNat + 2 + charCount - markLen
    pure (where_ ++ lines ++ List.replicate indent 32 ++ List.replicate markLen 94 ++ lit " here\n")

/-- The first words of the message, Parser.cpp.rl:344-350. -/
def unexpectedHead (c : Ctx) (p : Nat) : P Str :=
  match c.input[p]? with
  | none => pure (lit "Premature termination ")
  | some ch => do
    let name ← charName c.charSigned ch
    pure (lit "Unexpected character '" ++ name ++ lit "' ")

/-- `Parser::throw_unexpected`, Parser.cpp.rl:339-356. -/
def throwUnexpected {α} (c : Ctx) (p : Nat) : P α := do
  P.assert (p ≤ c.input.length)
  let head ← unexpectedHead c p
  let loc ← printErrorLocation c p 1
  throw (.syntax (head ++ loc))

/-- `this->p - 1`; a pointer before `p_begin_` trips the assertion of `print_error_location`. Parser.cpp:2632-2639. -/
def pMinus1 (p : Nat) : P Nat := if p = 0 then throw .assertFail else pure (p - 1)

/-- `Parser::throw_regex_error`, Parser.cpp.rl:358-377. -/
def throwRegexError {α} (c : Ctx) (p : Nat) (markLen : Nat) (what : Str) : P α := do
  let uc ← pMinus1 p
  let loc ← printErrorLocation c uc markLen
  throw (.syntax (lit "In regular expression " ++ loc ++ lit "\nError: " ++ what))

/-- `*missing == HtmlTag::ANY ? "*" : gumbo_normalized_tagname(...)`. Parser.cpp:2575-2577, 2606-2608. -/
def tagText : RTag → Str
  | .any => lit "*"
  | .tag t => t.normalizedName

/-- `Parser::throw_missing_tag`, Parser.cpp.rl:379-399. -/
def throwMissingTag {α} (c : Ctx) (missing : RTag) (tagname : Option Str) : P α := do
  let loc ← printErrorLocation c c.input.length 0
  throw (.syntax (lit "Missing closing tag '</" ++ tagname.getD (tagText missing) ++ lit ">' " ++ loc))

/-- `Parser::throw_unexpected_tag`, Parser.cpp.rl:401-434. -/
def throwUnexpectedTag {α} (c : Ctx) (p : Nat) (tag : Str) (expected : Option RTag) (tagname : Option Str) : P α := do
  let exp := match tagname, expected with
    | some n, _ => lit ", expected '</" ++ n ++ lit ">'"
    | none, some e => lit ", expected '</" ++ tagText e ++ lit ">'"
    | none, none => []
  let uc ← pMinus1 p
  let loc ← printErrorLocation c uc (tag.length + 2)
  throw (.syntax (lit "Unexpected closing tag '</" ++ tag ++ lit ">'" ++ exp ++ lit " " ++ loc))

/-- `Parser::throw_error_message`, Parser.cpp.rl:436-445. -/
def throwErrorMessage {α} (c : Ctx) (p : Nat) (msg : Str) : P α := do
  let uc ← pMinus1 p
  let loc ← printErrorLocation c uc 1
  throw (.syntax (msg ++ lit " " ++ loc))

/-! ## State -/

/-- `PatternValues`, PatternValues.h:35-108 with the initial values of PatternValues.cpp:22-36. `Option` is
a nullable pointer, a `std::optional` or a `std::function`. `regex_flag` is `boost::regex::perl` plus the
options `icase` and `collate`. -/
structure PV where
  nth : Int × Int := (0, 0)
  builtin : Option CaptureFn := none
  attrName : Str := []
  literal : Str := []
  capVar : Str := []
  pipe : Option Pipe := none
  regex : Option Regex := none
  test : Option ValueTest := none
  trait : Option Match := none
  negate : Option (List (Option Match)) := none
  icase : Bool := false
  collate : Bool := false
  optional : Bool := false

/-- The local variables of `Parser::parse` and the member `stacks_`. A vector is a list whose head is its
`back()`. `tok_end` is only written, never read. Parser.cpp:1786-1818, Parser.h:153-160. -/
structure PSt where
  stacks : List (List Rule) := [[], []]
  pv : PV := {}
  tokBegin : Option Nat := none
  tok : Str := []

/-! ## Stack operations -/

/-- `cur_rule()`, used to change the topmost rule: Parser.cpp.rl:175-179. -/
def modifyCur (f : Rule → Rule) (s : PSt) : P PSt :=
  match s.stacks with
  | (r :: rs) :: st => pure { s with stacks := (f r :: rs) :: st }
  | _ => throw .assertFail

/-- `top_stack()`, Parser.cpp.rl:181-185. -/
def topStack (s : PSt) : P (List Rule) :=
  match s.stacks with
  | t :: _ => pure t
  | [] => throw .assertFail

/-- `push_nested`, Parser.cpp.rl:193-199. -/
def pushNested (c : Ctx) (p : Nat) (s : PSt) : P PSt := do
  let top ← topStack s
  if top.isEmpty then throwErrorMessage c p (lit "Nested rules must have a parent")
  else pure { s with stacks := [] :: [] :: s.stacks }

/-- `pop_nested`, Parser.cpp.rl:201-240. -/
def popNested (c : Ctx) (p : Nat) (s : PSt) : P PSt :=
  match s.stacks with
  | [] => throw .assertFail
  | (_ :: _) :: _ => throwErrorMessage c p (lit "Closing nested rule without open")
  | [] :: [] => throw .assertFail
  | [] :: [] :: _ => throwErrorMessage c p (lit "Nested rules cannot be empty")
  | [] :: (_ :: _ :: _) :: _ => throw .assertFail
  | [] :: [_] :: [] => throwErrorMessage c p (lit "Closing nested rule without open")
  | [] :: [_] :: [] :: _ => throwErrorMessage c p (lit "Nested rules must have a parent")
  | [] :: [nested] :: (r :: rs) :: st => pure { s with stacks := (r.appendNested nested :: rs) :: st }

/-- `push_rule`, Parser.cpp.rl:242-245; `Rule()` is `Rule(HtmlTag::ANY, false, false)`, Rule.h:103-105. -/
def pushRule (s : PSt) : P PSt :=
  match s.stacks with
  | t :: st => pure { s with stacks := (Rule.ofTag .any false false :: t) :: st }
  | [] => throw .assertFail

/-- `pop_rule`, Parser.cpp.rl:247-283. -/
def popRule (s : PSt) : P PSt :=
  match s.stacks with
  | [] => throw .assertFail
  | [] :: _ => throw .assertFail
  | (rule :: r :: rs) :: st => pure { s with stacks := (r.appendChild rule :: rs) :: st }
  | [_] :: [] => throw .assertFail
  | [rule] :: [] :: st => pure { s with stacks := [] :: [rule] :: st }
  | [rule] :: (r :: rs) :: st => pure { s with stacks := [] :: (r.appendNext rule :: rs) :: st }

/-- `set_open_tag_or_throw`, Parser.cpp.rl:285-302. -/
def setOpenTag (tagName : Str) (s : PSt) : P PSt :=
  if tagName = lit "*" then modifyCur (·.setTag .any) s
  else
    let tag := gumboTagEnum (cstr tagName)
    if tag = .unknown then modifyCur (fun r => (r.setTag (.tag tag)).setTagname tagName) s
    else modifyCur (·.setTag (.tag tag)) s

/-- `validate_close_tag_or_throw`, Parser.cpp.rl:304-337. -/
def validateCloseTag (c : Ctx) (p : Nat) (tagName : Str) (s : PSt) : P Unit :=
  match s.stacks with
  | [] => throw .assertFail
  | [] :: _ => throwUnexpectedTag c p tagName none none
  | (r :: _) :: _ =>
    let expected := r.info.tag
    if expected = .tag .unknown then
      match r.info.tagname with
      | none => throw .assertFail
      | some n => if n ≠ tagName then throwUnexpectedTag c p tagName (some expected) (some n) else pure ()
    else if tagName = lit "*" then
      if expected ≠ .any then throwUnexpectedTag c p tagName (some expected) none else pure ()
    else
      let given := gumboTagEnum (cstr tagName)
      if given = .unknown ∨ .tag given ≠ expected then throwUnexpectedTag c p tagName (some expected) none else pure ()

/-! ## Actions -/

/-- `tk_start`, Parser.cpp.rl:106-109. -/
def tkStart (p : Nat) (s : PSt) : PSt := { s with tokBegin := some p }

/-- `tk_stop`, Parser.cpp.rl:113-121. A token that ends before it begins would be UB. -/
def tkStop (c : Ctx) (p : Nat) (s : PSt) : P PSt :=
  match s.tokBegin with
  | none => throw .assertFail
  | some b =>
    if b ≤ p ∧ p ≤ c.input.length then pure { s with tok := (c.input.drop b).take (p - b) } else throw .ub

/-- A decimal digit, as `std::stoi` (Parser.cpp:1974, 1986, 2046, 2054) reads it. -/
def isDigit (c : Byte) : Bool := 48 ≤ c && c ≤ 57

/-- The sign of a number: is it a minus, and what is behind it?. Part of `std::stoi`, Parser.cpp:1974, 1986, 2046, 2054. -/
def splitSign : Str → Bool × Str
  | 45 :: t => (true, t)
  | 43 :: t => (false, t)
  | t => (false, t)

/-- `std::stoi`: an optional sign and the longest run of digits behind it. Simplification: leading
whitespace is not skipped (no token that is converted starts with whitespace). Called in Parser.cpp:1974, 1986, 2046, 2054. -/
def stoi (s : Str) : P Int :=
  let digits := (splitSign s).2.takeWhile isDigit
  if digits.isEmpty then throw .invalidArgument
  else
    let v : Int := digits.foldl (fun n d => n * 10 + (d.toNat - 48)) 0
    let v := if (splitSign s).1 then -v else v
    if intMin ≤ v ∧ v ≤ intMax then pure v else throw .outOfRange

/-- `PatternValues::add_pipe`, PatternValues.h:54-60. -/
def PV.addPipe (t : Transform) (pv : PV) : PV :=
  { pv with pipe := some (match pv.pipe with | some p => p.append (.last t) | none => .last t) }

/-- `PatternValues::reset`, PatternValues.cpp:38-57. -/
def PV.reset (pv : PV) : P PV := do
  P.assert pv.pipe.isNone
  P.assert pv.test.isNone
  P.assert pv.trait.isNone
  P.assert pv.negate.isNone
  pure {}

/-- The code blocks of the machine, hext-machine.rl; blocks with the same text are one action. -/
inductive Act
  | optional | negateTest | tkStart | attrName | literal
  | nthEven | nthOdd | nthNumber | nthStep | nthShift
  | tkStop | icase | collate | regex | regexTest
  | traitEmpty | traitChildCount | traitAttributeCount
  | traitNth (first ofType : Bool) | traitEnd (first ofType : Bool) | traitOnly (ofType : Bool)
  | traitTypeRegex | negateNew | negateAppend
  | builtinText | builtinInnerHtml | builtinStripTags
  | pipeTrim | pipeTrimLiteral | pipeCollapseWs | pipeToLower | pipeToUpper
  | pipePrepend | pipeAppend | pipeFilter | pipeReplace
  | capVarLiteral | capVarToken
  | testWords | testEquals | testBeginsWith | testContains | testEndsWith
  | captureFunction | matchFunction | captureAttribute | matchAttribute | testNull | reset
  | pushRule | ruleOptional | ruleGreedy | openTag | appendNegate | appendTrait
  | popRule | closeTag | pushNested | popNested | unexpected
  deriving DecidableEq, Repr

/-- The case labels of the `switch`, Parser.cpp:1911-2284. -/
def Act.ofNat : Nat → Option Act
  | 0 => some .optional
  | 1 => some .negateTest
  | 2 => some .tkStart
  | 3 => some .attrName
  | 4 => some .tkStart
  | 5 => some .literal
  | 6 => some .tkStart
  | 7 => some .literal
  | 8 => some .tkStart
  | 9 => some .literal
  | 10 => some .tkStart
  | 11 => some .literal
  | 12 => some .nthEven
  | 13 => some .nthOdd
  | 14 => some .tkStart
  | 15 => some .nthNumber
  | 16 => some .nthStep
  | 17 => some .tkStart
  | 18 => some .nthShift
  | 19 => some .tkStart
  | 20 => some .tkStop
  | 21 => some .tkStart
  | 22 => some .tkStop
  | 23 => some .tkStart
  | 24 => some .tkStop
  | 25 => some .icase
  | 26 => some .collate
  | 27 => some .regex
  | 28 => some .regexTest
  | 29 => some .traitEmpty
  | 30 => some .tkStart
  | 31 => some .traitChildCount
  | 32 => some .tkStart
  | 33 => some .traitAttributeCount
  | 34 => some (.traitNth true false)
  | 35 => some (.traitNth false false)
  | 36 => some (.traitNth true true)
  | 37 => some (.traitEnd true false)
  | 38 => some (.traitEnd true true)
  | 39 => some (.traitEnd false false)
  | 40 => some (.traitEnd false true)
  | 41 => some (.traitNth false true)
  | 42 => some (.traitOnly false)
  | 43 => some (.traitOnly true)
  | 44 => some .traitTypeRegex
  | 45 => some .negateNew
  | 46 => some .negateAppend
  | 47 => some .builtinText
  | 48 => some .builtinInnerHtml
  | 49 => some .builtinStripTags
  | 50 => some .pipeTrim
  | 51 => some .pipeTrimLiteral
  | 52 => some .pipeCollapseWs
  | 53 => some .pipeToLower
  | 54 => some .pipeToUpper
  | 55 => some .pipePrepend
  | 56 => some .pipeAppend
  | 57 => some .pipeFilter
  | 58 => some .pipeReplace
  | 59 => some .capVarLiteral
  | 60 => some .tkStart
  | 61 => some .capVarToken
  | 62 => some .testWords
  | 63 => some .testEquals
  | 64 => some .testBeginsWith
  | 65 => some .testContains
  | 66 => some .testEndsWith
  | 67 => some .captureFunction
  | 68 => some .matchFunction
  | 69 => some .matchFunction
  | 70 => some .captureAttribute
  | 71 => some .matchAttribute
  | 72 => some .matchAttribute
  | 73 => some .testNull
  | 74 => some .matchAttribute
  | 75 => some .reset
  | 76 => some .pushRule
  | 77 => some .ruleOptional
  | 78 => some .ruleGreedy
  | 79 => some .tkStart
  | 80 => some .openTag
  | 81 => some .appendNegate
  | 82 => some .appendTrait
  | 83 => some .popRule
  | 84 => some .tkStart
  | 85 => some .closeTag
  | 86 => some .pushNested
  | 87 => some .popNested
  | 88 => some .unexpected
  | _ => none

/-- `*pv.regex`; dereferencing an empty `std::optional` is UB. PatternValues.h:89, Parser.cpp:2034, 2098, 2153, 2157. -/
def derefRegex (pv : PV) : P Regex :=
  match pv.regex with
  | some r => pure r
  | none => throw .ub

/-- The code blocks, hext-machine.rl:25-360. The position `p` is that of the byte that is about to be
consumed. -/
def Act.exec (c : Ctx) (p : Nat) (a : Act) (s : PSt) : P PSt :=
  let setPV (pv : PV) : P PSt := pure { s with pv }
  let setTest (t : ValueTest) : P PSt := setPV { s.pv with test := some t }
  let setTrait (m : Match) : P PSt := setPV { s.pv with trait := some m }
  let addPipe (t : Transform) : P PSt := setPV (s.pv.addPipe t)
  match a with
  | .optional => setPV { s.pv with optional := true }
  | .negateTest => setTest (match s.pv.test with | some t => .negate t | none => .negateNull)
  | .tkStart => pure (Hext.tkStart p s)
  | .attrName => do
    let s ← Hext.tkStop c p s
    pure { s with pv := { s.pv with attrName := s.tok } }
  | .literal => do
    let s ← Hext.tkStop c p s
    pure { s with pv := { s.pv with literal := s.tok } }
  | .nthEven => setPV { s.pv with nth := (2, 0) }
  | .nthOdd => setPV { s.pv with nth := (2, 1) }
  | .nthNumber => do
    let s ← Hext.tkStop c p s
    let v ← stoi s.tok
    pure { s with pv := { s.pv with nth := (0, v) } }
  | .nthStep => setPV { s.pv with nth := (s.pv.nth.2, 0) }
  | .nthShift => do
    let s ← Hext.tkStop c p s
    let v ← stoi s.tok
    pure { s with pv := { s.pv with nth := (s.pv.nth.1, v) } }
  | .tkStop => Hext.tkStop c p s
  | .icase => setPV { s.pv with icase := true }
  | .collate => setPV { s.pv with collate := true }
  | .regex =>
    let r : Regex := { src := s.tok, icase := s.pv.icase, collate := s.pv.collate }
    match c.rx.compile r with
    | none => setPV { s.pv with regex := some r }
    | some what =>
      match s.tokBegin with
      | none => throw .ub
      | some b => if b ≤ p then throwRegexError c p (p - b + 1) what else throw .ub
  | .regexTest =>
    match s.pv.regex with
    | none => throw .assertFail
    | some r => setTest (.regex r)
  | .traitEmpty => setTrait (.childCount 0)
  | .traitChildCount => do
    let s ← Hext.tkStop c p s
    let v ← stoi s.tok
    -- the parameter is `unsigned int`; the token is a run of digits, so `v` is not negative
    pure { s with pv := { s.pv with trait := some (.childCount v.toNat) } }
  | .traitAttributeCount => do
    let s ← Hext.tkStop c p s
    let v ← stoi s.tok
    pure { s with pv := { s.pv with trait := some (.attributeCount v.toNat) } }
  | .traitNth first ofType => setTrait (.nthChild s.pv.nth.1 s.pv.nth.2 first ofType)
  | .traitEnd first ofType => setTrait (.nthChild 0 1 first ofType)
  | .traitOnly ofType => setTrait (.onlyChild ofType)
  | .traitTypeRegex => do setTrait (.typeRegex (← derefRegex s.pv))
  | .negateNew => setPV { s.pv with negate := some [] }
  | .negateAppend =>
    match s.pv.negate with
    | none => throw .assertFail
    | some ms => setPV { s.pv with negate := some (ms ++ [s.pv.trait]), trait := none }
  | .builtinText => setPV { s.pv with builtin := some .text }
  | .builtinInnerHtml => setPV { s.pv with builtin := some .innerHtml }
  | .builtinStripTags => setPV { s.pv with builtin := some .stripTags }
  | .pipeTrim => addPipe (.trim (lit " "))
  | .pipeTrimLiteral => addPipe (.trim s.pv.literal)
  | .pipeCollapseWs => addPipe .collapseWs
  | .pipeToLower => addPipe .toLower
  | .pipeToUpper => addPipe .toUpper
  | .pipePrepend => addPipe (.prepend s.pv.literal)
  | .pipeAppend => addPipe (.append s.pv.literal)
  | .pipeFilter => do addPipe (.regex (← derefRegex s.pv))
  | .pipeReplace => do addPipe (.regexReplace (← derefRegex s.pv) s.pv.literal)
  | .capVarLiteral => setPV { s.pv with capVar := s.pv.literal }
  | .capVarToken => do
    let s ← Hext.tkStop c p s
    pure { s with pv := { s.pv with capVar := s.tok } }
  | .testWords => setTest (mkContainsWords s.pv.literal)
  | .testEquals => setTest (.equals s.pv.literal)
  | .testBeginsWith => setTest (.beginsWith s.pv.literal)
  | .testContains => setTest (.contains s.pv.literal)
  | .testEndsWith => setTest (.endsWith s.pv.literal)
  | .captureFunction => do
    let s ← modifyCur (·.appendCapture (some (.function s.pv.builtin s.pv.capVar s.pv.pipe))) s
    pure { s with pv := { s.pv with pipe := none } }
  | .matchFunction => do
    let s ← modifyCur (·.appendMatch (some (.functionValue s.pv.builtin s.pv.test))) s
    pure { s with pv := { s.pv with test := none } }
  | .captureAttribute => do
    let s ← modifyCur (·.appendCapture (some (.attribute s.pv.attrName s.pv.capVar s.pv.pipe))) s
    let s := { s with pv := { s.pv with pipe := none } }
    if s.pv.optional then pure s
    else modifyCur (·.appendMatch (some (.attribute s.pv.attrName none))) s
  | .matchAttribute => do
    let s ← modifyCur (·.appendMatch (some (.attribute s.pv.attrName s.pv.test))) s
    pure { s with pv := { s.pv with test := none } }
  | .testNull => setPV { s.pv with test := none }
  | .reset => do setPV (← s.pv.reset)
  | .pushRule => Hext.pushRule s
  | .ruleOptional => modifyCur (·.setOptional true) s
  | .ruleGreedy => modifyCur (·.setGreedy true) s
  | .openTag => do
    let s ← Hext.tkStop c p s
    setOpenTag s.tok s
  | .appendNegate => do
    let s ← modifyCur (·.appendMatch (s.pv.negate.map .negate)) s
    pure { s with pv := { s.pv with negate := none } }
  | .appendTrait => do
    let s ← modifyCur (·.appendMatch s.pv.trait) s
    pure { s with pv := { s.pv with trait := none } }
  | .popRule => Hext.popRule s
  | .closeTag => do
    let s ← Hext.tkStop c p s
    validateCloseTag c p s.tok s
    Hext.popRule s
  | .pushNested => Hext.pushNested c p s
  | .popNested => Hext.popNested c p s
  | .unexpected => throwUnexpected c p

/-! ## The automaton -/

/-- Read a table; an index outside of it is UB. The tables of Parser.cpp:224-1820. -/
def tbl (t : List Nat) (i : Nat) : P Nat :=
  match t[i]? with
  | some x => pure x
  | none => throw .ub

/-- `_hext_trans_keys` at a pointer. Parser.cpp:224, 1851. -/
def keyAt (i : Int) : P Int := if i < 0 then throw .ub else do pure (← tbl Tables.transKeys i.toNat)

/-- The binary search for a single key, Parser.cpp:1859-1875. Pointers into `_hext_trans_keys` are offsets.
Simplification: forming the pointer one before the table (which `_mid - 1` can do) is not reported. -/
def searchSingle (ch lower upper : Int) : P (Option Int) :=
  if h : upper < lower then pure none
  else do
    let mid := lower + (upper - lower) / 2
    let k ← keyAt mid
    if ch < k then searchSingle ch lower (mid - 1)
    else if ch > k then searchSingle ch (mid + 1) upper
    else pure (some mid)
termination_by (upper + 1 - lower).toNat
decreasing_by all_goals omega

/-- The binary search for a range, Parser.cpp:1882-1901. `((_upper-_lower) >> 1) & ~1` rounds the half
down to an even number. -/
def searchRange (ch lower upper : Int) : P (Option Int) :=
  if h : upper < lower then pure none
  else do
    let mid := lower + (upper - lower) / 2 / 2 * 2
    let lo ← keyAt mid
    if ch < lo then searchRange ch lower (mid - 2)
    else do
      let hi ← keyAt (mid + 1)
      if ch > hi then searchRange ch (mid + 2) upper
      else pure (some mid)
termination_by (upper + 2 - lower).toNat
decreasing_by all_goals omega

/-- `if( _klen > 0 )` around the two searches, Parser.cpp:1855 and 1878. -/
def findSingle (ch : Int) (keys klen : Nat) : P (Option Int) :=
  if klen > 0 then searchSingle ch keys (keys + klen - 1) else pure none
/-- The binary search in the range keys, Parser.cpp:1877-1897. -/
def findRange (ch : Int) (keys klen : Nat) : P (Option Int) :=
  if klen > 0 then searchRange ch keys (keys + 2 * klen - 2) else pure none

/-- The transition for a byte, Parser.cpp:1852-1903 (`_resume` to `_match`): an index into
`_hext_indicies`. -/
def transIndex (charSigned : Bool) (cs : Nat) (b : Byte) : P Nat := do
  let keys ← tbl Tables.keyOffsets cs
  let trans ← tbl Tables.indexOffsets cs
  let ch := charVal charSigned b
  let klen ← tbl Tables.singleLengths cs
  let found ← findSingle ch keys klen
  match found with
  | some mid => pure (trans + (mid - keys).toNat)
  | none => do
    let keys := keys + klen
    let trans := trans + klen
    let rlen ← tbl Tables.rangeLengths cs
    let found ← findRange ch keys rlen
    match found with
    | some mid => pure (trans + (mid - keys).toNat / 2)
    | none => pure (trans + rlen)

/-- The loop `while( _nacts-- > 0 )`, Parser.cpp:1912-2284, at an offset of `_hext_actions`. -/
def runActs (c : Ctx) (p : Nat) (acts : Nat) : (nacts : Nat) → PSt → P PSt
  | 0, s => pure s
  | n + 1, s => do
    let a ← tbl Tables.actions acts
    let s ← match Act.ofNat a with
      | some a => a.exec c p s
      | none => pure s
    runActs c p (acts + 1) n s

/-- The actions of a transition, Parser.cpp:1904-2284. -/
def runTrans (c : Ctx) (p : Nat) (trans : Nat) (s : PSt) : P PSt := do
  let off ← tbl Tables.transActions trans
  if off = 0 then pure s
  else do
    let n ← tbl Tables.actions off
    runActs c p (off + 1) n s

/-- The case labels of the second `switch`, Parser.cpp:2297-2316. -/
def Act.ofNatEof : Nat → Option Act
  | 83 => some .popRule
  | 86 => some .pushNested
  | 87 => some .popNested
  | 88 => some .unexpected
  | _ => none

/-- The loop over the end-of-file actions, Parser.cpp:2295-2317. -/
def runEofActs (c : Ctx) (p : Nat) (acts : Nat) : (nacts : Nat) → PSt → P PSt
  | 0, s => pure s
  | n + 1, s => do
    let a ← tbl Tables.actions acts
    let s ← match Act.ofNatEof a with
      | some a => a.exec c p s
      | none => pure s
    runEofActs c p (acts + 1) n s

/-- The automaton from `_resume` or `_test_eof` on, Parser.cpp:1838-2322; `rest` is the input from `p`. -/
def runMachine (c : Ctx) (cs : Nat) (p : Nat) (rest : Str) (s : PSt) : P PSt :=
  match rest with
  | [] => do
    let off ← tbl Tables.eofActions cs
    let n ← tbl Tables.actions off
    runEofActs c p (off + 1) n s
  | b :: rest => do
    let i ← transIndex c.charSigned cs b
    let trans ← tbl Tables.indicies i
    let cs ← tbl Tables.transTargs trans
    let s ← runTrans c p trans s
    if cs = 0 then pure s  -- `goto _out`
    else runMachine c cs (p + 1) rest s

/-- `while( stacks_.size() && top_stack().empty() ) stacks_.pop_back();`, Parser.cpp.rl:158-159. -/
def dropEmptyStacks : List (List Rule) → List (List Rule)
  | [] :: st => dropEmptyStacks st
  | st => st

/-- The end of `Parser::parse`, Parser.cpp.rl:146-172; `p` has reached `pe` when this is run. -/
def finishParse (c : Ctx) (s : PSt) : P Rule :=
  if s.stacks.isEmpty then throw .assertFail
  else if s.stacks.length > 2 then throwErrorMessage c c.input.length (lit "Unclosed nested rule")
  else
    match dropEmptyStacks s.stacks with
    | [] => pure (Rule.ofTag .any false false)
    | [] :: _ => throw .assertFail
    | (r :: rs) :: st =>
      if st.length + 1 > 1 ∨ (r :: rs).length > 1 then throwMissingTag c r.info.tag r.info.tagname
      else pure r

/-- `hext_start`, Parser.cpp:1754. -/
def hextStart : Nat := 816

/-- `Parser::parse`, Parser.cpp.rl:81-173. Simplification: after an early `goto _out` (which needs the
error state, and that is only entered by throwing) the position used in messages would be `p`, not `pe`. -/
def Parser.parse (c : Ctx) : P Rule := do
  let s ← runMachine c hextStart 0 c.input {}
  finishParse c s

/-- `ParseHext(const char *, std::size_t)`, ParseHext.cpp:30-34. -/
def parseHext (rx : RxEngine) (charSigned : Bool) (hext : Str) : P Rule :=
  Parser.parse { input := hext, charSigned, rx }

/-- `ParseHext(const char *)`, ParseHext.cpp:25-28: the bytes before the first NUL. -/
def parseHextC (rx : RxEngine) (charSigned : Bool) (hext : Str) : P Rule :=
  parseHext rx charSigned (cstr hext)

end Hext
