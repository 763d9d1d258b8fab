import Verif.Model.Parser
/-!
# The grammar of hext

libhext/ragel/hext-machine.rl as a regular expression over bytes and actions. An action that is entered
with a piece of text (`>`) stands before it, one that is run when the text is left (`%`) behind it; both
are run at the position of the byte that follows them.

The longest-match repetitions (`**`) of the string literals are written so that they are unambiguous: a
literal ends at the first quote that is not directly preceded by a backslash.
-/

namespace Hext

/-- A byte or an action. -/
inductive Sym
  | ch (b : Byte)
  | act (a : Act)
  deriving DecidableEq, Repr

/-- Regular expressions over bytes and actions. A set of bytes is a number whose bit `b` says whether the
byte `b` is in the set. -/
inductive G
  | eps
  | act (a : Act)
  | cls (mask : Nat)
  | seq (a b : G)
  | alt (a b : G)
  | star (a : G)
  deriving DecidableEq, Repr

/-- The words of an expression. -/
inductive Lang : G → List Sym → Prop
  | eps : Lang .eps []
  | act {a} : Lang (.act a) [.act a]
  | cls {m : Nat} {b : Byte} : m.testBit b.toNat = true → Lang (.cls m) [.ch b]
  | seq {g h u v} : Lang g u → Lang h v → Lang (.seq g h) (u ++ v)
  | altl {g h u} : Lang g u → Lang (.alt g h) u
  | altr {g h u} : Lang h u → Lang (.alt g h) u
  | starNil {g} : Lang (.star g) []
  | starCons {g u v} : Lang g u → Lang (.star g) v → Lang (.star g) (u ++ v)

/-- The bytes of a word. -/
def chars : List Sym → Str
  | [] => []
  | .ch b :: w => b :: chars w
  | .act _ :: w => chars w

namespace Grammar

/-- The set of the bytes that satisfy a condition. -/
def maskOf (f : Nat → Bool) : Nat := (List.range 256).foldr (fun b m => 2 * m + (f b).toNat) 0

def set (f : Nat → Bool) : G := .cls (maskOf f)
def chr (c : Char) : G := set (· == c.toNat)

infixr:65 " ⬝ " => G.seq
infixr:60 " ∣∣ " => G.alt

/-- A fixed text. -/
def str : List Char → G
  | [] => .eps
  | [c] => chr c
  | c :: cs => chr c ⬝ str cs

def text (s : String) : G := str s.toList
def opt (g : G) : G := .eps ∣∣ g
def plus (g : G) : G := g ⬝ .star g
/-- Zero or more. -/
def many (g : G) : G := .star g

def isDigitN (b : Nat) : Bool := 48 ≤ b && b ≤ 57
def isAlphaN (b : Nat) : Bool := (65 ≤ b && b ≤ 90) || (97 ≤ b && b ≤ 122)
def isSpaceN (b : Nat) : Bool := (9 ≤ b && b ≤ 13) || b == 32
/-- What may follow the first letter of a name. -/
def isNameN (b : Nat) : Bool := isAlphaN b || isDigitN b || b == 45 || b == 95
/-- What the name of a capture consists of. -/
def isVarN (b : Nat) : Bool := isAlphaN b || isDigitN b || b == 45 || b == 95 || b == 46

def digits : G := plus (set isDigitN)
def space : G := set isSpaceN

/-- Text up to (not including) the first `q` that does not directly follow a backslash. -/
def bodyItem (q : Nat) : G :=
  set (fun b => b < 256 && b != q && b != 92) ∣∣
  (plus (chr '\\') ⬝ set (fun b => b < 256 && b != 92))
def body (q : Nat) : G := many (bodyItem q)

/-- A text in quotes, read with `stop`. -/
def delimited (q : Char) (stop : Act) : G :=
  chr q ⬝ .act .tkStart ⬝ body q.toNat ⬝ .act stop ⬝ chr q

/-- `opt_quoted` and `quoted`, hext-machine.rl:38-59. -/
def quoted : G := delimited '"' .literal ∣∣ delimited '\'' .literal

/-- `optional`, `negate`: hext-machine.rl:24-30. -/
def optional : G := chr '?' ⬝ .act .optional
def negate : G := chr '!' ⬝ .act .negateTest

/-- `attr_name`, hext-machine.rl:32-36. -/
def name : G := set isAlphaN ⬝ many (set isNameN)
def attrName : G := .act .tkStart ⬝ name ⬝ .act .attrName

/-- `nth_pattern`, hext-machine.rl:65-83. -/
def nthShift : G := .act .tkStart ⬝ (chr '+' ∣∣ chr '-') ⬝ digits ⬝ .act .nthShift
def nthStep : G := chr 'n' ⬝ .act .nthStep ⬝ opt nthShift
def nth : G :=
  (text "even" ⬝ .act .nthEven) ∣∣
  (text "odd" ⬝ .act .nthOdd) ∣∣
  (.act .tkStart ⬝ opt (chr '-') ⬝ digits ⬝ .act .nthNumber ⬝ opt nthStep)

/-- `regex`, hext-machine.rl:87-111. -/
def regexFlag : G := (chr 'i' ⬝ .act .icase) ∣∣ (chr 'c' ⬝ .act .collate)
def regex : G :=
  (delimited '/' .tkStop ∣∣ delimited '\'' .tkStop ∣∣ delimited '"' .tkStop) ⬝ many regexFlag ⬝ .act .regex

/-- `trait`, hext-machine.rl:116-174. -/
def traitBody : G :=
  (text "empty" ⬝ .act .traitEmpty) ∣∣
  (text "child-count(" ⬝ .act .tkStart ⬝ digits ⬝ .act .traitChildCount ⬝ chr ')') ∣∣
  (text "attribute-count(" ⬝ .act .tkStart ⬝ digits ⬝ .act .traitAttributeCount ⬝ chr ')') ∣∣
  (text "nth-child(" ⬝ nth ⬝ chr ')' ⬝ .act (.traitNth true false)) ∣∣
  (text "nth-last-child(" ⬝ nth ⬝ chr ')' ⬝ .act (.traitNth false false)) ∣∣
  (text "nth-of-type(" ⬝ nth ⬝ chr ')' ⬝ .act (.traitNth true true)) ∣∣
  (text "first-child" ⬝ .act (.traitEnd true false)) ∣∣
  (text "first-of-type" ⬝ .act (.traitEnd true true)) ∣∣
  (text "last-child" ⬝ .act (.traitEnd false false)) ∣∣
  (text "last-of-type" ⬝ .act (.traitEnd false true)) ∣∣
  (text "nth-last-of-type(" ⬝ nth ⬝ chr ')' ⬝ .act (.traitNth false true)) ∣∣
  (text "only-child" ⬝ .act (.traitOnly false)) ∣∣
  (text "only-of-type" ⬝ .act (.traitOnly true)) ∣∣
  (text "type-matches(" ⬝ regex ⬝ chr ')' ⬝ .act .traitTypeRegex)
def trait : G := chr ':' ⬝ traitBody

/-- `not_trait`, hext-machine.rl:175-185. -/
def notTrait : G := text ":not(" ⬝ .act .negateNew ⬝ plus (trait ⬝ .act .negateAppend) ⬝ chr ')'

/-- `builtin`, hext-machine.rl:189-197. -/
def builtin : G :=
  chr '@' ⬝
  ((text "text" ⬝ .act .builtinText) ∣∣
   (text "inner-html" ⬝ .act .builtinInnerHtml) ∣∣
   (text "strip-tags" ⬝ .act .builtinStripTags))

/-- `pipe`, hext-machine.rl:202-222. The name of a pipe could also be the name of the capture, whose
entering action is therefore run as well. -/
def pipe : G :=
  chr ':' ⬝ .act .tkStart ⬝
  ((text "trim" ⬝ .act .pipeTrim) ∣∣
   (text "trim(" ⬝ quoted ⬝ chr ')' ⬝ .act .pipeTrimLiteral) ∣∣
   (text "collapsews" ⬝ .act .pipeCollapseWs) ∣∣
   (text "tolower" ⬝ .act .pipeToLower) ∣∣
   (text "toupper" ⬝ .act .pipeToUpper) ∣∣
   (text "prepend(" ⬝ quoted ⬝ chr ')' ⬝ .act .pipePrepend) ∣∣
   (text "append(" ⬝ quoted ⬝ chr ')' ⬝ .act .pipeAppend) ∣∣
   (text "filter(" ⬝ regex ⬝ chr ')' ⬝ .act .pipeFilter) ∣∣
   (text "replace(" ⬝ regex ⬝ many space ⬝ chr ',' ⬝ many space ⬝ quoted ⬝ chr ')' ⬝ .act .pipeReplace))

/-- `capture`, hext-machine.rl:224-231. -/
def capture : G :=
  many pipe ⬝ chr ':' ⬝
  ((quoted ⬝ .act .capVarLiteral) ∣∣ (.act .tkStart ⬝ plus (set isVarN) ⬝ .act .capVarToken))

/-- `match_arg`, hext-machine.rl:234-250. -/
def matchArg : G :=
  (text "=" ⬝ quoted ⬝ .act .testWords) ∣∣
  (text "==" ⬝ quoted ⬝ .act .testEquals) ∣∣
  (text "^=" ⬝ quoted ⬝ .act .testBeginsWith) ∣∣
  (text "*=" ⬝ quoted ⬝ .act .testContains) ∣∣
  (text "$=" ⬝ quoted ⬝ .act .testEndsWith)

/-- `'=~' regex_test`. -/
def regexTest : G := text "=~" ⬝ regex ⬝ .act .regexTest

/-- `pattern`, hext-machine.rl:253-290. -/
def pattern : G :=
  plus space ⬝
  ((builtin ⬝ capture ⬝ .act .captureFunction) ∣∣
   (builtin ⬝ regexTest ⬝ opt negate ⬝ .act .matchFunction) ∣∣
   (builtin ⬝ matchArg ⬝ opt negate ⬝ .act .matchFunction) ∣∣
   (attrName ⬝ capture ⬝ opt optional ⬝ .act .captureAttribute) ∣∣
   (attrName ⬝ regexTest ⬝ opt negate ⬝ .act .matchAttribute) ∣∣
   (attrName ⬝ matchArg ⬝ opt negate ⬝ .act .matchAttribute) ∣∣
   (attrName ⬝ .act .testNull ⬝ opt negate ⬝ .act .matchAttribute)) ⬝
  .act .reset

/-- `'*' | tag_name`. -/
def tag : G := chr '*' ∣∣ name

def ruleOption : G := (chr '?' ⬝ .act .ruleOptional) ∣∣ (chr '+' ⬝ .act .ruleGreedy)
def ruleTrait : G := (notTrait ⬝ .act .appendNegate) ∣∣ (trait ⬝ .act .appendTrait)

/-- The first alternative of `rule`, hext-machine.rl:296-328. -/
def openRule : G :=
  chr '<' ⬝ .act .pushRule ⬝ many ruleOption ⬝ .act .tkStart ⬝ tag ⬝ .act .openTag ⬝
  many ruleTrait ⬝ many pattern ⬝ many space ⬝ ((text "/>" ⬝ .act .popRule) ∣∣ chr '>')

/-- The second alternative of `rule`, hext-machine.rl:330-340. -/
def closeRule : G := text "</" ⬝ .act .tkStart ⬝ tag ⬝ .act .closeTag ⬝ chr '>'

def comment : G := chr '#' ⬝ many (set fun b => b < 256 && b != 10) ⬝ chr '\n'

/-- What a hext consists of: `main`, hext-machine.rl:343-360. -/
def item : G :=
  space ∣∣ comment ∣∣ (chr '{' ⬝ .act .pushNested) ∣∣ (chr '}' ⬝ .act .popNested) ∣∣ openRule ∣∣ closeRule
def main : G := many item

end Grammar

end Hext
