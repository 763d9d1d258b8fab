import Verif.Model.Parser
/-!
# What a hext means

A hext as a list of items (tags, braces, whitespace, comments), the text of each item, and the rule that a
well-nested list of items stands for. Nothing here mentions the automaton, its actions or its stacks.

Meanings are partial: a number may not fit into an `int` and a regular expression may be invalid.
-/

namespace Hext.Syn

/-- The options of a regular expression. They stay in force until the end of the attribute pattern in which
they were written; those written in a trait stay in force until the end of the next pattern, even if that
belongs to another rule. -/
structure Flags where
  icase : Bool := false
  collate : Bool := false
  deriving DecidableEq, Repr

/-! ## Literals -/

/-- A text in quotes. -/
structure Quoted where
  quote : Byte
  body : Str
  deriving DecidableEq, Repr

def Quoted.text (x : Quoted) : Str := x.quote :: x.body ++ [x.quote]

/-- The text ends at the first quote that does not directly follow a backslash. -/
def Quoted.Ok (quotes : List Byte) (x : Quoted) : Prop :=
  x.quote ∈ quotes ∧ (∀ u v, x.body = u ++ x.quote :: v → ∃ u', u = u' ++ [92]) ∧ ∀ u, x.body ≠ u ++ [92]

/-- `"..."` or `'...'`. -/
def stringQuotes : List Byte := [34, 39]
/-- `/.../`, `'...'` or `"..."`. -/
def regexQuotes : List Byte := [47, 39, 34]

/-- A regular expression with options: `true` is `i`, `false` is `c`. -/
structure Rx where
  lit : Quoted
  mods : List Bool
  deriving DecidableEq, Repr

def Rx.text (r : Rx) : Str := r.lit.text ++ r.mods.map fun i => if i then 105 else 99
def Rx.Ok (r : Rx) : Prop := r.lit.Ok regexQuotes

/-- The options in force after `r`. -/
def Rx.flags (r : Rx) (f : Flags) : Flags :=
  { icase := f.icase || r.mods.contains true, collate := f.collate || r.mods.contains false }

def Rx.meaning (rx : RxEngine) (f : Flags) (r : Rx) : Option (Regex × Flags) :=
  let re : Regex := { src := r.lit.body, icase := (r.flags f).icase, collate := (r.flags f).collate }
  match rx.compile re with
  | none => some (re, r.flags f)
  | some _ => none

def IsDigits (s : Str) : Prop := s ≠ [] ∧ ∀ b ∈ s, 48 ≤ b ∧ b ≤ 57
def IsAlpha (b : Byte) : Prop := (65 ≤ b ∧ b ≤ 90) ∨ (97 ≤ b ∧ b ≤ 122)
def IsSpace (b : Byte) : Prop := (9 ≤ b ∧ b ≤ 13) ∨ b = 32
/-- Letters, digits, `-`, `_`. -/
def IsNameByte (b : Byte) : Prop := IsAlpha b ∨ (48 ≤ b ∧ b ≤ 57) ∨ b = 45 ∨ b = 95
def IsName (s : Str) : Prop := ∃ b t, s = b :: t ∧ IsAlpha b ∧ ∀ x ∈ t, IsNameByte x

/-- The number written with decimal digits. -/
def digitsVal (s : Str) : Nat := s.foldl (fun n d => n * 10 + (d.toNat - 48)) 0

/-- The number, if it fits into an `int`. -/
def intVal (neg : Bool) (s : Str) : Option Int :=
  let v : Int := if neg then -(digitsVal s : Int) else digitsVal s
  if intMin ≤ v ∧ v ≤ intMax then some v else none

def sign (neg : Bool) : Str := if neg then [45] else []

/-! ## Traits -/

/-- The argument of `:nth-child(...)`. -/
inductive Nth
  | even
  | odd
  | number (neg : Bool) (digits : Str)
  | step (neg : Bool) (digits : Str)
  | linear (neg : Bool) (digits : Str) (minus : Bool) (shift : Str)

def Nth.text : Nth → Str
  | even => lit "even"
  | odd => lit "odd"
  | number n d => sign n ++ d
  | step n d => sign n ++ d ++ lit "n"
  | linear n d m e => sign n ++ d ++ lit "n" ++ (if m then 45 else 43) :: e

def Nth.Ok : Nth → Prop
  | even | odd => True
  | number _ d | step _ d => IsDigits d
  | linear _ d _ e => IsDigits d ∧ IsDigits e

/-- Step and shift. -/
def Nth.meaning : Nth → Option (Int × Int)
  | even => some (2, 0)
  | odd => some (2, 1)
  | number n d => do some (0, ← intVal n d)
  | step n d => do some (← intVal n d, 0)
  | linear n d m e => do some (← intVal n d, ← intVal m e)

inductive Trait
  | empty
  | childCount (digits : Str)
  | attributeCount (digits : Str)
  | nth (first ofType : Bool) (n : Nth)
  | endmost (first ofType : Bool)
  | only (ofType : Bool)
  | typeMatches (r : Rx)

def Trait.text : Trait → Str
  | empty => lit ":empty"
  | childCount d => lit ":child-count(" ++ d ++ lit ")"
  | attributeCount d => lit ":attribute-count(" ++ d ++ lit ")"
  | nth true false n => lit ":nth-child(" ++ n.text ++ lit ")"
  | nth false false n => lit ":nth-last-child(" ++ n.text ++ lit ")"
  | nth true true n => lit ":nth-of-type(" ++ n.text ++ lit ")"
  | nth false true n => lit ":nth-last-of-type(" ++ n.text ++ lit ")"
  | endmost true false => lit ":first-child"
  | endmost true true => lit ":first-of-type"
  | endmost false false => lit ":last-child"
  | endmost false true => lit ":last-of-type"
  | only false => lit ":only-child"
  | only true => lit ":only-of-type"
  | typeMatches r => lit ":type-matches(" ++ r.text ++ lit ")"

def Trait.Ok : Trait → Prop
  | childCount d | attributeCount d => IsDigits d
  | nth _ _ n => n.Ok
  | typeMatches r => r.Ok
  | _ => True

def Trait.meaning (rx : RxEngine) (f : Flags) : Trait → Option (Match × Flags)
  | empty => some (.childCount 0, f)
  | childCount d => do some (.childCount (← intVal false d).toNat, f)
  | attributeCount d => do some (.attributeCount (← intVal false d).toNat, f)
  | nth first ofType n => do
    let x ← n.meaning
    some (.nthChild x.1 x.2 first ofType, f)
  | endmost first ofType => some (.nthChild 0 1 first ofType, f)
  | only ofType => some (.onlyChild ofType, f)
  | typeMatches r => do
    let x ← r.meaning rx f
    some (.typeRegex x.1, x.2)

/-- A condition on a rule's node: a trait or `:not(...)` of one or more traits. -/
inductive Cond
  | trait (t : Trait)
  | not (ts : List Trait)

def Cond.text : Cond → Str
  | trait t => t.text
  | not ts => lit ":not(" ++ ts.flatMap Trait.text ++ lit ")"

def Cond.Ok : Cond → Prop
  | trait t => t.Ok
  | not ts => ts ≠ [] ∧ ∀ t ∈ ts, t.Ok

def traitsMeaning (rx : RxEngine) (f : Flags) : List Trait → Option (List Match × Flags)
  | [] => some ([], f)
  | t :: ts => do
    let x ← t.meaning rx f
    let y ← traitsMeaning rx x.2 ts
    some (x.1 :: y.1, y.2)

def Cond.meaning (rx : RxEngine) (f : Flags) : Cond → Option (Match × Flags)
  | trait t => t.meaning rx f
  | not ts => do
    let x ← traitsMeaning rx f ts
    some (.negate (x.1.map some), x.2)

def condsMeaning (rx : RxEngine) (f : Flags) : List Cond → Option (List Match × Flags)
  | [] => some ([], f)
  | t :: ts => do
    let x ← t.meaning rx f
    let y ← condsMeaning rx x.2 ts
    some (x.1 :: y.1, y.2)

/-! ## Patterns -/

inductive Fn
  | text
  | innerHtml
  | stripTags

def Fn.name : Fn → Str
  | text => lit "@text"
  | innerHtml => lit "@inner-html"
  | stripTags => lit "@strip-tags"

def Fn.meaning : Fn → CaptureFn
  | text => .text
  | innerHtml => .innerHtml
  | stripTags => .stripTags

inductive PipeS
  | trim
  | trimChars (q : Quoted)
  | collapsews
  | tolower
  | toupper
  | prepend (q : Quoted)
  | append (q : Quoted)
  | filter (r : Rx)
  | replace (r : Rx) (ws1 ws2 : Str) (q : Quoted)

def PipeS.text : PipeS → Str
  | trim => lit ":trim"
  | trimChars q => lit ":trim(" ++ q.text ++ lit ")"
  | collapsews => lit ":collapsews"
  | tolower => lit ":tolower"
  | toupper => lit ":toupper"
  | prepend q => lit ":prepend(" ++ q.text ++ lit ")"
  | append q => lit ":append(" ++ q.text ++ lit ")"
  | filter r => lit ":filter(" ++ r.text ++ lit ")"
  | replace r ws1 ws2 q => lit ":replace(" ++ r.text ++ ws1 ++ lit "," ++ ws2 ++ q.text ++ lit ")"

def PipeS.Ok : PipeS → Prop
  | trimChars q | prepend q | append q => q.Ok stringQuotes
  | filter r => r.Ok
  | replace r ws1 ws2 q => r.Ok ∧ (∀ b ∈ ws1, IsSpace b) ∧ (∀ b ∈ ws2, IsSpace b) ∧ q.Ok stringQuotes
  | _ => True

def PipeS.meaning (rx : RxEngine) (f : Flags) : PipeS → Option (Transform × Flags)
  | trim => some (.trim [32], f)
  | trimChars q => some (.trim q.body, f)
  | collapsews => some (.collapseWs, f)
  | tolower => some (.toLower, f)
  | toupper => some (.toUpper, f)
  | prepend q => some (.prepend q.body, f)
  | append q => some (.append q.body, f)
  | filter r => do
    let x ← r.meaning rx f
    some (.regex x.1, x.2)
  | replace r _ _ q => do
    let x ← r.meaning rx f
    some (.regexReplace x.1 q.body, x.2)

def pipesMeaning (rx : RxEngine) (f : Flags) : List PipeS → Option (List Transform × Flags)
  | [] => some ([], f)
  | t :: ts => do
    let x ← t.meaning rx f
    let y ← pipesMeaning rx x.2 ts
    some (x.1 :: y.1, y.2)

/-- A chain of pipes. -/
def chainPipes : List Transform → Option Pipe
  | [] => none
  | t :: ts =>
    match chainPipes ts with
    | none => some (.last t)
    | some p => some (.cons t p)

/-- The name of a captured value. -/
inductive CapName
  | quoted (q : Quoted)
  | plain (s : Str)

def CapName.text : CapName → Str
  | quoted q => q.text
  | plain s => s

def CapName.Ok : CapName → Prop
  | quoted q => q.Ok stringQuotes
  | plain s => s ≠ [] ∧ ∀ b ∈ s, IsNameByte b ∨ b = 46

def CapName.meaning : CapName → Str
  | quoted q => q.body
  | plain s => s

inductive Op
  | words
  | equals
  | beginsWith
  | contains
  | endsWith

def Op.text : Op → Str
  | words => lit "="
  | equals => lit "=="
  | beginsWith => lit "^="
  | contains => lit "*="
  | endsWith => lit "$="

def Op.meaning (l : Str) : Op → ValueTest
  | words => mkContainsWords l
  | equals => .equals l
  | beginsWith => .beginsWith l
  | contains => .contains l
  | endsWith => .endsWith l

inductive Test
  | op (o : Op) (q : Quoted)
  | regex (r : Rx)

def Test.text : Test → Str
  | op o q => o.text ++ q.text
  | regex r => lit "=~" ++ r.text

def Test.Ok : Test → Prop
  | op _ q => q.Ok stringQuotes
  | regex r => r.Ok

def Test.meaning (rx : RxEngine) (f : Flags) : Test → Option ValueTest
  | op o q => some (o.meaning q.body)
  | regex r => do some (.regex (← r.meaning rx f).1)

def negated (neg : Bool) (t : ValueTest) : ValueTest := if neg then .negate t else t
def bang (neg : Bool) : Str := if neg then [33] else []

inductive Pat
  | capFn (fn : Fn) (pipes : List PipeS) (name : CapName)
  | capAttr (attr : Str) (pipes : List PipeS) (name : CapName) (optional : Bool)
  | testFn (fn : Fn) (t : Test) (neg : Bool)
  | testAttr (attr : Str) (t : Test) (neg : Bool)
  | hasAttr (attr : Str) (neg : Bool)

def Pat.text : Pat → Str
  | capFn fn ps n => fn.name ++ ps.flatMap PipeS.text ++ 58 :: n.text
  | capAttr a ps n o => a ++ ps.flatMap PipeS.text ++ 58 :: n.text ++ if o then [63] else []
  | testFn fn t neg => fn.name ++ t.text ++ bang neg
  | testAttr a t neg => a ++ t.text ++ bang neg
  | hasAttr a neg => a ++ bang neg

def Pat.Ok : Pat → Prop
  | capFn _ ps n => (∀ p ∈ ps, p.Ok) ∧ n.Ok
  | capAttr a ps n _ => IsName a ∧ (∀ p ∈ ps, p.Ok) ∧ n.Ok
  | testFn _ t _ => t.Ok
  | testAttr a t _ => IsName a ∧ t.Ok
  | hasAttr a _ => IsName a

/-- The conditions and captures that the pattern adds. The options of regular expressions are forgotten
behind it. -/
def Pat.meaning (rx : RxEngine) (f : Flags) : Pat → Option (List Match × List Capture)
  | capFn fn ps n => do
    let x ← pipesMeaning rx f ps
    some ([], [.function (some fn.meaning) n.meaning (chainPipes x.1)])
  | capAttr a ps n optional => do
    let x ← pipesMeaning rx f ps
    some (if optional then [] else [.attribute a none], [.attribute a n.meaning (chainPipes x.1)])
  | testFn fn t neg => do
    let x ← t.meaning rx f
    some ([.functionValue (some fn.meaning) (some (negated neg x))], [])
  | testAttr a t neg => do
    let x ← t.meaning rx f
    some ([.attribute a (some (negated neg x))], [])
  | hasAttr a neg => some ([.attribute a (if neg then some .negateNull else none)], [])

/-- Patterns with the whitespace in front of them. -/
def patsText (ps : List (Str × Pat)) : Str := ps.flatMap fun p => p.1 ++ p.2.text

def patsMeaning (rx : RxEngine) (f : Flags) : List (Str × Pat) → Option (List Match × List Capture × Flags)
  | [] => some ([], [], f)
  | p :: ps => do
    let x ← p.2.meaning rx f
    let y ← patsMeaning rx {} ps
    some (x.1 ++ y.1, x.2 ++ y.2.1, y.2.2)

/-! ## Tags -/

/-- An opening tag: options (`true` is `?`, `false` is `+`), tag name or `*`, conditions, patterns and the
whitespace before the end. -/
structure Head where
  options : List Bool
  tag : Str
  conds : List Cond
  pats : List (Str × Pat)
  ws : Str

def Head.text (h : Head) : Str :=
  60 :: h.options.map (fun o => if o then 63 else 43) ++ h.tag ++ h.conds.flatMap Cond.text ++ patsText h.pats ++ h.ws

def IsTag (s : Str) : Prop := s = [42] ∨ IsName s

def Head.Ok (h : Head) : Prop :=
  IsTag h.tag ∧ (∀ c ∈ h.conds, c.Ok) ∧ (∀ p ∈ h.pats, p.1 ≠ [] ∧ (∀ b ∈ p.1, IsSpace b) ∧ p.2.Ok) ∧ ∀ b ∈ h.ws, IsSpace b

/-- The tag that a rule requires: any, one that is known to Gumbo, or a custom one with its name. -/
def tagMeaning (t : Str) : RTag × Option Str :=
  if t = [42] then (.any, none)
  else match gumboTagEnum (cstr t) with
    | .unknown => (.tag .unknown, some t)
    | k => (.tag k, none)

/-- The members of the rule that the tag stands for. -/
def Head.meaning (rx : RxEngine) (f : Flags) (h : Head) : Option (RuleInfo × Flags) := do
  let x ← condsMeaning rx f h.conds
  let y ← patsMeaning rx x.2 h.pats
  some ({ tag := (tagMeaning h.tag).1, tagname := (tagMeaning h.tag).2, optional := h.options.contains true,
          greedy := h.options.contains false, ms := (x.1 ++ y.1).map some, caps := y.2.1.map some }, y.2.2)

inductive Item
  | space (b : Byte)
  | comment (s : Str)
  | lbrace
  | rbrace
  | start (h : Head) (selfClosing : Bool)
  | stop (tag : Str)

def Item.text : Item → Str
  | space b => [b]
  | comment s => 35 :: s ++ [10]
  | lbrace => lit "{"
  | rbrace => lit "}"
  | start h selfClosing => h.text ++ if selfClosing then lit "/>" else lit ">"
  | stop t => lit "</" ++ t ++ lit ">"

def Item.Ok : Item → Prop
  | space b => IsSpace b
  | comment s => 10 ∉ s
  | start h _ => h.Ok
  | stop t => IsTag t
  | _ => True

/-- Whitespace and comments. -/
def Item.IsFiller : Item → Prop
  | space _ | comment _ => True
  | _ => False

def itemsText (is : List Item) : Str := is.flatMap Item.text

/-! ## Nesting -/

/-- `r` with the rules behind it. -/
def chain : Rule → List Rule → Rule
  | .mk i c _ ns, [] => .mk i c none ns
  | .mk i c _ ns, s :: rs => .mk i c (some (chain s rs)) ns

/-- A chain of sibling rules. -/
def siblings : List Rule → Option Rule
  | [] => none
  | r :: rs => some (chain r rs)

/-- The close tag `t` fits the open tag of `info`: `*` closes `*`; a custom tag is closed by the same bytes; a tag
that is known to Gumbo by any spelling of it. -/
def Closes (info : RuleInfo) (t : Str) : Prop :=
  match info.tag, info.tagname with
  | .any, _ => t = [42]
  | .tag .unknown, some n => t = n
  | .tag .unknown, none => False
  | .tag k, _ => t ≠ [42] ∧ gumboTagEnum (cstr t) = k

/-- A rule from its members, its child rules and its nested rules. -/
def mkRule (info : RuleInfo) (kids nested : List Rule) : Rule := .mk info (siblings kids) none nested

mutual
/-- The items are one rule, from the open tag to the close tag. -/
inductive Elem (rx : RxEngine) : Flags → List Item → Flags → Rule → Prop
  | selfClosing {f h f' info} : h.meaning rx f = some (info, f') → Elem rx f [.start h true] f' (mkRule info [] [])
  | closed {f h f1 info is f2 kids nested t} : h.meaning rx f = some (info, f1) → Body rx f1 is f2 kids nested →
      Closes info t → Elem rx f (.start h false :: is ++ [.stop t]) f2 (mkRule info kids nested)
/-- The items between an open tag and its close tag: child rules and nested rules in braces. -/
inductive Body (rx : RxEngine) : Flags → List Item → Flags → List Rule → List Rule → Prop
  | nil {f} : Body rx f [] f [] []
  | filler {f i is f' kids nested} : i.IsFiller → Body rx f is f' kids nested → Body rx f (i :: is) f' kids nested
  | child {f is f1 r js f2 kids nested} : Elem rx f is f1 r → Body rx f1 js f2 kids nested →
      Body rx f (is ++ js) f2 (r :: kids) nested
  | block {f is f1 r rs js f2 kids nested} : Seq rx f is f1 (r :: rs) → Body rx f1 js f2 kids nested →
      Body rx f (.lbrace :: is ++ .rbrace :: js) f2 kids (chain r rs :: nested)
/-- The items are rules next to each other. -/
inductive Seq (rx : RxEngine) : Flags → List Item → Flags → List Rule → Prop
  | nil {f} : Seq rx f [] f []
  | filler {f i is f' rs} : i.IsFiller → Seq rx f is f' rs → Seq rx f (i :: is) f' rs
  | elem {f is f1 r js f2 rs} : Elem rx f is f1 r → Seq rx f1 js f2 rs → Seq rx f (is ++ js) f2 (r :: rs)
end

/-- The rule that stands for a whole hext: the first of its rules with the others behind it. A hext without
rules stands for `<*/>`. -/
def ruleOf : List Rule → Rule
  | [] => .mk {} none none []
  | r :: rs => chain r rs

/-- The hext `s` means the rule `r`. -/
def Means (rx : RxEngine) (s : Str) (r : Rule) : Prop :=
  ∃ is f rs, (∀ i ∈ is, i.Ok) ∧ s = itemsText is ∧ Seq rx {} is f rs ∧ r = ruleOf rs

/-- `s` is a sequence of items; they need not nest. -/
def IsText (s : Str) : Prop := ∃ is, (∀ i ∈ is, i.Ok) ∧ s = itemsText is

/-- `s` is the beginning of a sequence of items. -/
def Begins (s : Str) : Prop := ∃ t, IsText (s ++ t)

end Hext.Syn
