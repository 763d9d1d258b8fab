import Verif.Spec.Syntax
import Verif.Spec.Message
/-!
# Writing a rule as a hext

A printer for rules. It is partial: a rule that was built by hand can have members that no hext describes.
-/

namespace Hext.Print

open Syn

/-! ## Literals -/

/-- Every quote in the text directly follows a backslash, and the last byte is not a backslash. `prev` is the
byte before. -/
def bodyOk (q : Byte) : (prev : Byte) → Str → Bool
  | prev, [] => prev != 92
  | prev, b :: s => (b != q || prev == 92) && bodyOk q b s

/-- The text in the first kind of quotes that fits. -/
def quoted (quotes : List Byte) (s : Str) : Option Quoted :=
  (quotes.find? fun q => bodyOk q 0 s).map fun q => { quote := q, body := s }

/-- A regular expression, behind ones with the options `f`. -/
def regex (rx : RxEngine) (f : Flags) (r : Regex) : Option (Rx × Flags) :=
  if (f.icase && !r.icase) || (f.collate && !r.collate) || (rx.compile r).isSome then none
  else do
    let q ← quoted regexQuotes r.src
    some ({ lit := q, mods := (if r.icase then [true] else []) ++ if r.collate then [false] else [] },
      { icase := r.icase, collate := r.collate })

def isAlpha (b : Byte) : Bool := (65 ≤ b && b ≤ 90) || (97 ≤ b && b ≤ 122)
def isNameByte (b : Byte) : Bool := isAlpha b || (48 ≤ b && b ≤ 57) || b == 45 || b == 95
def isName : Str → Bool
  | [] => false
  | b :: t => isAlpha b && t.all isNameByte

/-! ## Conditions -/

def trait (rx : RxEngine) (f : Flags) : Match → Option (Trait × Flags)
  | .childCount n => if n ≤ 2147483647 then some (.childCount (Msg.dec n), f) else none
  | .attributeCount n => if n ≤ 2147483647 then some (.attributeCount (Msg.dec n), f) else none
  | .nthChild step shift first ofType =>
    if intMin ≤ step ∧ step ≤ intMax ∧ intMin ≤ shift ∧ shift ≤ intMax then
      some (.nth first ofType (.linear (decide (step < 0)) (Msg.dec step.natAbs) (decide (shift < 0)) (Msg.dec shift.natAbs)), f)
    else none
  | .onlyChild ofType => some (.only ofType, f)
  | .typeRegex r => do
    let x ← regex rx f r
    some (.typeMatches x.1, x.2)
  | _ => none

def traits (rx : RxEngine) (f : Flags) : List (Option Match) → Option (List Trait × Flags)
  | [] => some ([], f)
  | none :: _ => none
  | some m :: ms => do
    let x ← trait rx f m
    let y ← traits rx x.2 ms
    some (x.1 :: y.1, y.2)

def cond (rx : RxEngine) (f : Flags) : Match → Option (Cond × Flags)
  | .negate ms =>
    if ms.isEmpty then none
    else do
      let x ← traits rx f ms
      some (.not x.1, x.2)
  | m => do
    let x ← trait rx f m
    some (.trait x.1, x.2)

def conds (rx : RxEngine) (f : Flags) : List (Option Match) → Option (List Cond × Flags)
  | [] => some ([], f)
  | none :: _ => none
  | some m :: ms => do
    let x ← cond rx f m
    let y ← conds rx x.2 ms
    some (x.1 :: y.1, y.2)

/-! ## Patterns -/

def fn : CaptureFn → Option Fn
  | .text => some .text
  | .innerHtml => some .innerHtml
  | .stripTags => some .stripTags
  | .user _ => none

def test (rx : RxEngine) (f : Flags) : ValueTest → Option Test
  | .equals l => (quoted stringQuotes l).map (.op .equals)
  | .beginsWith l => (quoted stringQuotes l).map (.op .beginsWith)
  | .contains l => (quoted stringQuotes l).map (.op .contains)
  | .endsWith l => (quoted stringQuotes l).map (.op .endsWith)
  | .containsWords ws =>
    let l := ws.flatMap (· ++ [32])
    if mkContainsWords l = .containsWords ws then (quoted stringQuotes l).map (.op .words) else none
  | .regex r => (regex rx f r).map fun x => .regex x.1
  | _ => none

/-- A test and whether it is negated. -/
def maybeNegated (rx : RxEngine) (f : Flags) : ValueTest → Option (Test × Bool)
  | .negate t => (test rx f t).map (·, true)
  | t => (test rx f t).map (·, false)

def matchPat (rx : RxEngine) (f : Flags) : Match → Option Pat
  | .attribute a none => if isName a then some (.hasAttr a false) else none
  | .attribute a (some .negateNull) => if isName a then some (.hasAttr a true) else none
  | .attribute a (some t) =>
    if isName a then (maybeNegated rx f t).map fun x => .testAttr a x.1 x.2 else none
  | .functionValue (some g) (some t) => do
    let g ← fn g
    let x ← maybeNegated rx f t
    some (.testFn g x.1 x.2)
  | _ => none

def pipeS (rx : RxEngine) (f : Flags) : Transform → Option (PipeS × Flags)
  | .trim s => (quoted stringQuotes s).map fun q => (.trimChars q, f)
  | .collapseWs => some (.collapsews, f)
  | .toLower => some (.tolower, f)
  | .toUpper => some (.toupper, f)
  | .prepend s => (quoted stringQuotes s).map fun q => (.prepend q, f)
  | .append s => (quoted stringQuotes s).map fun q => (.append q, f)
  | .regex r => (regex rx f r).map fun x => (.filter x.1, x.2)
  | .regexReplace r s => do
    let x ← regex rx f r
    let q ← quoted stringQuotes s
    some (.replace x.1 [] [] q, x.2)

def pipe (rx : RxEngine) (f : Flags) : Pipe → Option (List PipeS)
  | .last t => (pipeS rx f t).map fun x => [x.1]
  | .cons t p => do
    let x ← pipeS rx f t
    let y ← pipe rx x.2 p
    some (x.1 :: y)

def optPipe (rx : RxEngine) (f : Flags) : Option Pipe → Option (List PipeS)
  | none => some []
  | some p => pipe rx f p

/-- Captures of attributes are written with `?`; the condition that comes without it is written on its own. -/
def capPat (rx : RxEngine) (f : Flags) : Capture → Option Pat
  | .attribute a name p =>
    if isName a then do
      let n ← quoted stringQuotes name
      let ps ← optPipe rx f p
      some (.capAttr a ps (.quoted n) true)
    else none
  | .function (some g) name p => do
    let g ← fn g
    let n ← quoted stringQuotes name
    let ps ← optPipe rx f p
    some (.capFn g ps (.quoted n))
  | .function none _ _ => none

/-- Patterns, one space in front of each. The options in force are forgotten behind each of them. -/
def pats {α} (print : Flags → α → Option Pat) (f : Flags) : List (Option α) → Option (List (Str × Pat) × Flags)
  | [] => some ([], f)
  | none :: _ => none
  | some m :: ms => do
    let x ← print f m
    let y ← pats print {} ms
    some (([32], x) :: y.1, y.2)

/-- The conditions and then the captures, or the other way round. -/
def allPats (rx : RxEngine) (f : Flags) (ms : List (Option Match)) (cs : List (Option Capture)) :
    Option (List (Str × Pat) × Flags) :=
  let one := do
    let x ← pats (matchPat rx) f ms
    let y ← pats (capPat rx) x.2 cs
    some (x.1 ++ y.1, y.2)
  let other := do
    let x ← pats (capPat rx) f cs
    let y ← pats (matchPat rx) x.2 ms
    some (x.1 ++ y.1, y.2)
  one <|> other

/-- Is the match written among the traits? -/
def isCond : Option Match → Bool
  | some (.attribute _ _) | some (.functionValue _ _) => false
  | _ => true

/-! ## Rules -/

def tag (i : RuleInfo) : Option Str :=
  let t : Str := match i.tag, i.tagname with
    | .any, _ => [42]
    | .tag .unknown, n => n.getD []
    | .tag k, _ => k.normalizedName
  if tagMeaning t = (i.tag, i.tagname) ∧ (t = [42] ∨ isName t = true) then some t else none

def head (rx : RxEngine) (f : Flags) (i : RuleInfo) : Option (Head × Flags) := do
  let t ← tag i
  let x ← conds rx f (i.ms.takeWhile isCond)
  let y ← allPats rx x.2 (i.ms.dropWhile isCond) i.caps
  some ({ options := (if i.optional then [true] else []) ++ (if i.greedy then [false] else []), tag := t, conds := x.1,
          pats := y.1, ws := [] }, y.2)

/-- Ways of writing something, behind regular expressions with the given options; each with the options in
force behind it. -/
abbrev Printer := Flags → List (List Item × Flags)

/-- One after the other. -/
def Printer.seq (p q : Printer) : Printer := fun f =>
  (p f).flatMap fun x => (q x.2).map fun y => (x.1 ++ y.1, y.2)

def inOrder : List Printer → Printer
  | [] => fun f => [([], f)]
  | p :: ps => p.seq (inOrder ps)

/-- `p` somewhere among the `qs`; `rest` puts what comes behind `p` among those of the `qs` that come behind it. -/
def among (p : Printer) (rest : List Printer → Printer) : List Printer → Printer
  | [] => p.seq (rest [])
  | q :: qs => fun f => p.seq (rest (q :: qs)) f ++ q.seq (among p rest qs) f

/-- All of the `ps` and `qs`, each list in its order. -/
def interleave : List Printer → List Printer → Printer
  | [], qs => inOrder qs
  | p :: ps, qs => among p (interleave ps) qs

/-- One rule, without the rules behind it. -/
def element (rx : RxEngine) (i : RuleInfo) (body : Printer) : Printer := fun f =>
  match head rx f i with
  | none => []
  | some h => (body h.2).map fun x => (.start h.1 false :: x.1 ++ [.stop h.1.tag], x.2)

def block (p : Printer) : Printer := fun f => (p f).map fun x => (.lbrace :: x.1 ++ [.rbrace], x.2)

mutual
/-- A rule and the rules behind it. -/
def rules (rx : RxEngine) : Rule → List Printer
  | .mk i c n ns => element rx i (interleave (optRules rx c) (blocks rx ns)) :: optRules rx n
def optRules (rx : RxEngine) : Option Rule → List Printer
  | none => []
  | some r => rules rx r
/-- Nested rules in braces. -/
def blocks (rx : RxEngine) : List Rule → List Printer
  | [] => []
  | r :: rs => block (inOrder (rules rx r)) :: blocks rx rs
end

/-- The rule as a hext: the first way of writing it. Child rules come before nested rules, unless the options of
a regular expression would then apply to another one. -/
def hext (rx : RxEngine) (r : Rule) : Option Str := (inOrder (rules rx r) {}).head?.map fun x => itemsText x.1

end Hext.Print
