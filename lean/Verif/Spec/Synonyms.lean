import Verif.Spec.Reorder
import Verif.Spec.Conditions
import Verif.Spec.Strings
/-!
# Ways of writing the same conditions
-/

namespace Hext.Syn

/-- The positions that a step and a shift select are the same. -/
def SamePlaces (x y : Int × Int) : Prop := ∀ pos : Nat, OnStep x.1 x.2 pos ↔ OnStep y.1 y.2 pos

/-- The number of children that a trait asks for. -/
def Trait.children : Trait → Option Int
  | .empty => some 0
  | .childCount d => intVal false d
  | _ => none

/-- The number of attributes that a trait asks for. -/
def Trait.attributes : Trait → Option Int
  | .attributeCount d => intVal false d
  | _ => none

/-- The places that a trait asks for: step and shift, from which end, and whether only elements of the same type are counted. -/
def Trait.places : Trait → Option ((Int × Int) × Bool × Bool)
  | .nth first ofType x => x.meaning.map fun p => (p, first, ofType)
  | .endmost first ofType => some ((0, 1), first, ofType)
  | _ => none

/-! The same text, in whichever quotes and with whichever spaces: -/

def Quoted.plain (q : Quoted) : Quoted := ⟨34, q.body⟩

/-- Options of a regular expression can be written in any order and number. -/
def Rx.plain (r : Rx) : Rx :=
  ⟨r.lit.plain, (if r.mods.contains true then [true] else []) ++ if r.mods.contains false then [false] else []⟩

/-- `:trim` is `:trim(" ")`. -/
def PipeS.plain : PipeS → PipeS
  | .trim => .trimChars ⟨34, [32]⟩
  | .trimChars q => .trimChars q.plain
  | .prepend q => .prepend q.plain
  | .append q => .append q.plain
  | .filter r => .filter r.plain
  | .replace r _ _ q => .replace r.plain [] [] q.plain
  | p => p

def CapName.unquoted (n : CapName) : CapName := .quoted ⟨34, n.meaning⟩

def Test.plain : Test → Test
  | .op o q => .op o q.plain
  | .regex r => .regex r.plain

/-- Two traits that ask for the same: `:empty` is `:child-count(0)`, `:first-child` is `:nth-child(1)`, `:nth-child(odd)` is
`:nth-child(2n+1)`, and also `:nth-child(2n-1)`, ... -/
inductive Trait.Synonym : Trait → Trait → Prop
  | same (t : Trait) : Synonym t t
  | children {t t' : Trait} {k : Int} : t.children = some k → t'.children = some k → Synonym t t'
  | attributes {t t' : Trait} {k : Int} : t.attributes = some k → t'.attributes = some k → Synonym t t'
  | places {t t' : Trait} {p p' : Int × Int} {first ofType : Bool} : t.places = some (p, first, ofType) → t'.places = some (p', first, ofType) →
      SamePlaces p p' → Synonym t t'
  | types {r r' : Rx} : r.plain = r'.plain → Synonym (.typeMatches r) (.typeMatches r')

/-- What a condition demands: traits that have to be there (`true`) or not (`false`). The only child is the first one and the last one;
`:not(...)` demands that none of its traits is there. -/
def Cond.demands : Cond → List (Bool × Trait)
  | .trait (.only ofType) => [(true, .endmost true ofType), (true, .endmost false ofType)]
  | .trait t => [(true, t)]
  | .not ts => ts.map fun t => (false, t)

/-- Each demand of the one list is also one of the other list. -/
def SameDemands (cs cs' : List Cond) : Prop :=
  (∀ d ∈ cs.flatMap Cond.demands, ∃ d' ∈ cs'.flatMap Cond.demands, d.1 = d'.1 ∧ d.2.Synonym d'.2) ∧
  ∀ d' ∈ cs'.flatMap Cond.demands, ∃ d ∈ cs.flatMap Cond.demands, d.1 = d'.1 ∧ d.2.Synonym d'.2

/-- The words of a text, which are separated by spaces. A text without words stands for a word that is nowhere. -/
def wordsOf (s : Str) : List Str := if Spec.wordsBy (· == 32) s = [] then [[]] else Spec.wordsBy (· == 32) s

/-- What a pattern demands. A capture of an attribute demands that the attribute is there, unless a question mark follows; so does every
test of the attribute that is not negated. `class="a b"` demands each of its words. -/
def Pat.demands : Pat → List Pat
  | .capFn _ _ _ => []
  | .capAttr _ _ _ true => []
  | .capAttr a _ _ false => [.hasAttr a false]
  | .testFn f (.op .words q) false => (wordsOf q.body).map fun w => .testFn f (.op .words ⟨34, w⟩) false
  | .testFn f t neg => [.testFn f t.plain neg]
  | .testAttr a (.op .words q) false => .hasAttr a false :: (wordsOf q.body).map fun w => .testAttr a (.op .words ⟨34, w⟩) false
  | .testAttr a t false => [.hasAttr a false, .testAttr a t.plain false]
  | .testAttr a t true => [.testAttr a t.plain true]
  | .hasAttr a neg => [.hasAttr a neg]

/-- Patterns that demand the same: for `class="a b"!`, the order and number of the words does not matter. -/
inductive Pat.Synonym : Pat → Pat → Prop
  | same (p : Pat) : Synonym p p
  | notWordsAttr {q q' : Quoted} (a : Str) : SameMembers (wordsOf q.body) (wordsOf q'.body) →
      Synonym (.testAttr a (.op .words q) true) (.testAttr a (.op .words q') true)
  | notWordsFn {q q' : Quoted} (f : Fn) : SameMembers (wordsOf q.body) (wordsOf q'.body) →
      Synonym (.testFn f (.op .words q) true) (.testFn f (.op .words q') true)

/-- What a pattern captures, without its demand. -/
def Pat.capture : Pat → Option Pat
  | .capFn f ps n => some (.capFn f (ps.map PipeS.plain) n.unquoted)
  | .capAttr a ps n _ => some (.capAttr a (ps.map PipeS.plain) n.unquoted true)
  | _ => none

def Head.patDemands (h : Head) : List Pat := h.pats.flatMap (·.2.demands)

def Head.captures (h : Head) : List Pat := h.pats.filterMap (·.2.capture)

/-- Each demand of the one list is also one of the other list. -/
def SamePatDemands (ps ps' : List Pat) : Prop := (∀ p ∈ ps, ∃ p' ∈ ps', p.Synonym p') ∧ ∀ p' ∈ ps', ∃ p ∈ ps, p.Synonym p'

/-- The same tag with the same options; the demands are the same, and so are the captures, those with the same name in the same order. -/
structure Head.Synonym (h h' : Head) : Prop where
  tag : h.tag = h'.tag
  options : SameMembers h.options h'.options
  conds : SameDemands h.conds h'.conds
  pats : SamePatDemands h.patDemands h'.patDemands
  captures : ∀ name, h.captures.filter (·.captureName = some name) = h'.captures.filter (·.captureName = some name)

/-- The same item, or an open tag that is written in another way. -/
def Item.Synonym (i i' : Item) : Prop := i = i' ∨ ∃ h h' sc, i = .start h sc ∧ i' = .start h' sc ∧ h.Synonym h'

end Hext.Syn
