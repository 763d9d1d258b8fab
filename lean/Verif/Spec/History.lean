import Verif.Model.RuleRead
/-!
# Programs that use rules

A program has variables that hold rules. It constructs, copies, assigns, appends to, changes and
destroys them, and reaches sub-rules through `child()`, `next()` and `nested()`. `Op.val` says what a
statement means if rules were plain values, as in a language without pointers. `Op.run` executes it with
the functions of the memory model.
-/

namespace Hext

/-- One of `r.child()`, `r.next()`, `r.nested()[i]`. -/
inductive Way
  | child
  | next
  | nested (i : Nat)
  deriving DecidableEq

/-- The sub-rule that is reached by these steps. -/
def Rule.at? : Rule → List Way → Option Rule
  | r, [] => some r
  | r, .child :: p => r.child.bind fun c => c.at? p
  | r, .next :: p => r.next.bind fun n => n.at? p
  | r, .nested i :: p => r.nested[i]?.bind fun n => n.at? p

/-- The rule with the sub-rule at these steps replaced by `q`. -/
def Rule.replace : Rule → List Way → Rule → Rule
  | _, [], q => q
  | .mk i c n ns, .child :: p, q => .mk i (c.map fun c => c.replace p q) n ns
  | .mk i c n ns, .next :: p, q => .mk i c (n.map fun n => n.replace p q) ns
  | .mk i c n ns, .nested k :: p, q =>
    .mk i c n (match ns[k]? with
      | some x => ns.set k (x.replace p q)
      | none => ns)

namespace Hist

/-- The values of the variables; `none` is a variable that does not exist (yet, or any more). -/
abbrev Env := Nat → Option Rule

/-- A rule that can be reached: a variable and steps from there. -/
structure Place where
  var : Nat
  path : List Way := []

/-- The rule at `p` is the rule at `q`, or contains it. -/
def Place.contains (p q : Place) : Bool := p.var == q.var && p.path.isPrefixOf q.path

def Env.get (e : Env) (p : Place) : Option Rule := (e p.var).bind fun r => r.at? p.path

def update {α} (e : Nat → Option α) (v : Nat) (r : Option α) : Nat → Option α :=
  fun x => if x = v then r else e x

def Env.put (e : Env) (p : Place) (q : Rule) : Env :=
  update e p.var ((e p.var).map fun r => r.replace p.path q)

/-- The argument of an appending function: a copy of a rule, or a rule that is moved from. -/
inductive Arg
  | copy (src : Place)
  | move (src : Place)

/-- What a moved-from rule is: nothing but its tag and flags. -/
def movedFrom : Rule → Rule
  | .mk i _ _ _ => .mk { i with ms := [], caps := [], tagname := i.tagname.map fun _ => [] } none none []

/-- Statements. In `appendNested` the flag tells whether the vector reallocates. -/
inductive Op
  | ofTag (v : Nat) (t : RTag) (optional greedy : Bool)
  | ofName (v : Nat) (name : Str) (optional greedy : Bool)
  | copy (v : Nat) (src : Place)
  | move (v : Nat) (src : Place)
  | assign (dst src : Place)
  | moveAssign (dst src : Place)
  | appendChild (dst : Place) (arg : Arg)
  | appendNext (dst : Place) (arg : Arg)
  | appendNested (realloc : Bool) (dst : Place) (arg : Arg)
  | appendMatch (dst : Place) (m : Option Match)
  | appendCapture (dst : Place) (c : Option Capture)
  | setTag (dst : Place) (t : RTag)
  | setOptional (dst : Place) (b : Bool)
  | setGreedy (dst : Place) (b : Bool)
  | setTagname (dst : Place) (s : Str)
  | destroy (v : Nat)

/-! ## Meaning on values -/

/-- The value of the argument and the variables afterwards. -/
def Arg.val (e : Env) : Arg → Option (Rule × Env)
  | .copy src => do
    let q ← e.get src
    pure (q, e)
  | .move src => do
    let q ← e.get src
    pure (q, e.put src (movedFrom q))

/-- Change the rule at a place. -/
def Env.modify (e : Env) (p : Place) (f : Rule → Rule) : Option Env := do
  let q ← e.get p
  pure (e.put p (f q))

/-- First the argument is taken, then it is appended. A rule has no parts any more after it was moved from, so
that there is no meaning if it is moved into a part of itself. -/
def Env.append (e : Env) (p : Place) (a : Arg) (f : Rule → Rule → Rule) : Option Env := do
  let (q, e) ← a.val e
  e.modify p fun r => f r q

/-- A new variable. -/
def Env.create (e : Env) (v : Nat) (r : Rule) : Option Env :=
  match e v with
  | none => some (update e v (some r))
  | some _ => none

/-- The meaning of a statement on values. `none`: the statement uses a variable or a sub-rule that does
not exist. -/
def Op.val (e : Env) : Op → Option Env
  | .ofTag v t o g => e.create v (Rule.ofTag t o g)
  | .ofName v n o g => e.create v (Rule.ofName n o g)
  | .copy v src => do
    let q ← e.get src
    e.create v q
  | .move v src => do
    let q ← e.get src
    (e.put src (movedFrom q)).create v q
  | .assign dst src => do
    let q ← e.get src
    e.modify dst fun _ => q
  -- there is no meaning if a rule is moved to itself, to a part of itself or to a rule of which it is a part
  | .moveAssign dst src =>
    if dst.contains src then none
    else do
      let q ← e.get src
      (e.put src (movedFrom q)).modify dst fun _ => q
  | .appendChild dst a => e.append dst a Rule.appendChild
  | .appendNext dst a => e.append dst a Rule.appendNext
  | .appendNested _ dst a => e.append dst a Rule.appendNested
  | .appendMatch dst m => e.modify dst (·.appendMatch m)
  | .appendCapture dst c => e.modify dst (·.appendCapture c)
  | .setTag dst t => e.modify dst (·.setTag t)
  | .setOptional dst b => e.modify dst (·.setOptional b)
  | .setGreedy dst b => e.modify dst (·.setGreedy b)
  | .setTagname dst s => e.modify dst (·.setTagname s)
  | .destroy v => (e v).map fun _ => update e v none

def vals (e : Env) : List Op → Option Env
  | [] => some e
  | op :: ops => do
    let e ← op.val e
    vals e ops

/-! ## Execution in memory -/

open Mem

/-- The addresses of the variables. -/
abbrev Vars := Nat → Option Nat

/-- Follow `child()`, `next()`, `nested()[i]`; using a null pointer or an index that is out of range is
undefined behaviour. -/
def resolve : Nat → List Way → P Nat
  | a, [] => pure a
  | a, .child :: p => do
    match (← loadRule a).child with
    | some c => resolve c p
    | none => throw .ub
  | a, .next :: p => do
    match (← loadRule a).next with
    | some n => resolve n p
    | none => throw .ub
  | a, .nested i :: p => do
    match (← loadRule a).nested[i]? with
    | some n => resolve n p
    | none => throw .ub

def Vars.addr (vars : Vars) (v : Nat) : P Nat :=
  match vars v with
  | some a => pure a
  | none => throw .ub

def Vars.place (vars : Vars) (p : Place) : P Nat := do
  resolve (← vars.addr p.var) p.path

/-- Initialize the parameter of an appending function. -/
def Arg.run (vars : Vars) : Arg → P Nat
  | .copy src => do copyRule (← vars.place src)
  | .move src => do moveRule (← vars.place src)

/-! Constructing the objects that are passed to `append_match` and `append_capture`. -/

def buildPipe : Pipe → P Nat
  | .last t => alloc (.pipe t none)
  | .cons t p => do
    let n ← buildPipe p
    alloc (.pipe t (some n))

def buildTest : ValueTest → P Nat
  | .negateNull => alloc (.negateTest none)
  | .negate t => do
    let n ← buildTest t
    alloc (.negateTest (some n))
  | t => alloc (.test t)

def buildPtr {α} (f : α → P Nat) : Option α → P (Option Nat)
  | none => pure none
  | some v => do
    let a ← f v
    pure (some a)

def buildCapture : Capture → P Nat
  | .attribute attr name p => do
    let q ← buildPtr buildPipe p
    alloc (.attributeCapture attr name q)
  | .function f name p => do
    let q ← buildPtr buildPipe p
    alloc (.functionCapture f name q)

mutual
def buildMatch : Match → P Nat
  | .attribute name t => do
    let q ← buildPtr buildTest t
    alloc (.attributeMatch name q)
  | .functionValue f t => do
    let q ← buildPtr buildTest t
    alloc (.functionValueMatch f q)
  | .negate ms => do
    let qs ← buildMatches ms
    alloc (.negateMatch qs)
  | m => alloc (.match_ m)

def buildMatchPtr : Option Match → P (Option Nat)
  | none => pure none
  | some v => do
    let a ← buildMatch v
    pure (some a)

def buildMatches : List (Option Match) → P (List (Option Nat))
  | [] => pure []
  | m :: ms => do
    let a ← buildMatchPtr m
    let as ← buildMatches ms
    pure (a :: as)
end

/-- Execute a statement. -/
def Op.run (vars : Vars) : Op → P Vars
  | .ofTag v t o g => do
    let a ← newRule t o g
    pure (update vars v (some a))
  | .ofName v n o g => do
    let a ← newRuleNamed n o g
    pure (update vars v (some a))
  | .copy v src => do
    let a ← copyRule (← vars.place src)
    pure (update vars v (some a))
  | .move v src => do
    let a ← moveRule (← vars.place src)
    pure (update vars v (some a))
  | .assign dst src => do
    let d ← vars.place dst
    let s ← vars.place src
    assignRule d s
    pure vars
  | .moveAssign dst src => do
    let d ← vars.place dst
    let s ← vars.place src
    moveAssignRule d s
    pure vars
  | .appendChild dst arg => do
    let d ← vars.place dst
    let s ← arg.run vars
    Mem.appendChild d s
    pure vars
  | .appendNext dst arg => do
    let d ← vars.place dst
    let s ← arg.run vars
    Mem.appendNext d s
    pure vars
  | .appendNested realloc dst arg => do
    let d ← vars.place dst
    let s ← arg.run vars
    Mem.appendNested realloc d s
    pure vars
  | .appendMatch dst m => do
    let d ← vars.place dst
    let q ← buildMatchPtr m
    Mem.appendMatch d q
    pure vars
  | .appendCapture dst c => do
    let d ← vars.place dst
    let q ← buildPtr buildCapture c
    Mem.appendCapture d q
    pure vars
  | .setTag dst t => do
    Mem.setTag (← vars.place dst) t
    pure vars
  | .setOptional dst b => do
    Mem.setOptional (← vars.place dst) b
    pure vars
  | .setGreedy dst b => do
    Mem.setGreedy (← vars.place dst) b
    pure vars
  | .setTagname dst s => do
    Mem.setTagname (← vars.place dst) s
    pure vars
  | .destroy v => do
    destroyRule (← vars.addr v)
    pure (update vars v none)

def runs (vars : Vars) : List Op → P Vars
  | [] => pure vars
  | op :: ops => do
    let vars ← op.run vars
    runs vars ops

/-! ## Observations -/

/-- The results of `extract` of the rule at a place. -/
def Vars.extract (vars : Vars) (p : Place) (rx : RxEngine) (h : Heap) (node : Ptr) (maxSearches : UInt64)
    (m : Mem) : E (List (List (Str × Str))) :=
  (do extractAt rx h (← vars.place p) node maxSearches : P _).run' m

/-- The rule at a place. -/
def Vars.read (vars : Vars) (p : Place) (m : Mem) : E Rule :=
  (do readRule (← vars.place p) : P _).run' m

/-- Before the first statement: no variables, no objects. -/
def noEnv : Env := fun _ => none
def noVars : Vars := fun _ => none
def noMem : Mem := ⟨fun _ => none, 0⟩

/-- The statement may change variable `v`. -/
def Op.changes (v : Nat) : Op → Bool
  | .ofTag w _ _ _ | .ofName w _ _ _ | .copy w _ | .destroy w => w == v
  | .move w src => w == v || src.var == v
  | .assign dst _ | .appendMatch dst _ | .appendCapture dst _ | .setTag dst _ | .setOptional dst _
  | .setGreedy dst _ | .setTagname dst _ => dst.var == v
  | .moveAssign dst src => dst.var == v || src.var == v
  | .appendChild dst a | .appendNext dst a | .appendNested _ dst a =>
    dst.var == v || match a with
      | .copy _ => false
      | .move src => src.var == v

/-- The place from which an argument is taken. -/
def Arg.source : Arg → Place
  | .copy src => src
  | .move src => src

/-- The argument moves from a rule of variable `v`. -/
def Arg.moves (v : Nat) : Arg → Bool
  | .copy _ => false
  | .move src => src.var == v

end Hist

/-- The rule and its following siblings, each without its siblings. -/
def Rule.chain : Rule → List (RuleInfo × Option Rule × List Rule)
  | .mk i c none ns => [(i, c, ns)]
  | .mk i c (some n) ns => (i, c, ns) :: n.chain

/-- The children, each without its siblings. -/
def Rule.children (r : Rule) : List (RuleInfo × Option Rule × List Rule) :=
  match r.child with
  | none => []
  | some c => c.chain

end Hext
