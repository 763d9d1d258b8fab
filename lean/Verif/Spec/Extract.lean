import Verif.Spec.Safe
/-!
# What a result group is

The mandatory rules of a chain are its anchors. Each anchor takes the first sibling it matches behind the
previous anchor. Optional rules, and greedy rules that were matched once already, are fillers: in the gap
between two anchors each filler takes the first sibling it matches behind the previous filler, or all of
them if it is greedy.

From this follows the coarser reading of a chain as a regular expression over its rules: a plain rule `c`
is used once, an optional one `c?`, a greedy one `c+`, an optional greedy one `c*` (`Covers`).
-/

namespace Hext

/-- A rule followed by its `next()` rules. -/
def Rule.siblings : Rule → List Rule
  | .mk i c none ns => [.mk i c none ns]
  | .mk i c (some nx) ns => .mk i c (some nx) ns :: nx.siblings

/-- `Covers optional greedy chain word`: the word is in the language of the chain. -/
inductive Covers {ι : Type} (optional greedy : ι → Bool) : List ι → List ι → Prop
  | done : Covers optional greedy [] []
  | skip {c cs w} : optional c = true → Covers optional greedy cs w → Covers optional greedy (c :: cs) w
  | once {c cs w} : Covers optional greedy cs w → Covers optional greedy (c :: cs) (c :: w)
  | more {c cs w} : greedy c = true → Covers optional greedy (c :: cs) (c :: w) →
      Covers optional greedy (c :: cs) (c :: c :: w)

/-! ## Fillers and anchors -/

section
variable {ι α β : Type} (optional greedy : ι → Bool) (sat : ι → α → Prop) (rule : β → ι) (node : β → α)

/-- `x` is the first member of `ns` with property `p`; `b` are the members before it, `r` those behind. -/
def Leftmost (p : α → Prop) (ns b : List α) (x : α) (r : List α) : Prop :=
  ns = b ++ x :: r ∧ (∀ y ∈ b, ¬ p y) ∧ p x

/-- `Fill fillers ns us last`: the uses `us` of the fillers in the gap `ns`. `last` are the nodes behind the
match of the last filler, if that filler is not greedy and has a match. -/
inductive Fill : List ι → List α → List β → Option (List α) → Prop
  | nil {ns} : Fill [] ns [] none
  | miss {c F ns us o} : (∀ y ∈ ns, ¬ sat c y) → Fill F ns us o → Fill (c :: F) ns us o
  | hit {c F ns b r u us o} : greedy c = false → rule u = c → Leftmost (sat c) ns b (node u) r →
      Fill F r us o → Fill (c :: F) ns (u :: us) (if F = [] then some r else o)
  | more {c F ns b r u us o} : greedy c = true → rule u = c → Leftmost (sat c) ns b (node u) r →
      Fill (c :: F) r us o → Fill (c :: F) ns (u :: us) o

/-- A use of an anchor together with the uses of the fillers in the gap before it. -/
structure Anchored (β : Type) where
  fill : List β
  anchor : β

/-- `Run first F cs ns steps final rest`: with fillers `F` pending and the rules `cs` left, the siblings `ns`
are used by `steps`, then by the fillers behind the last anchor (`final`), and `rest` is left for the
next group. `first` is the first anchor passed, not counting one that is pending as filler: fillers
behind the last anchor stop before its next match.

A greedy anchor becomes a filler for the following gap if no fillers were pending when it was
reached. -/
inductive Run : Option ι → List ι → List ι → List α → List (Anchored β) → List β → List α → Prop
  | optional {first F c cs ns steps final rest} : optional c = true →
      Run first (F ++ [c]) cs ns steps final rest → Run first F (c :: cs) ns steps final rest
  | anchor {first F m cs ns b r a us o steps final rest} : optional m = false → rule a = m →
      Leftmost (sat m) ns b (node a) r → Fill greedy sat rule node F b us o → (greedy m = false ∨ F ≠ []) →
      Run (first.or ((F ++ [m]).find? (! optional ·))) [] cs r steps final rest →
      Run first F (m :: cs) ns (⟨us, a⟩ :: steps) final rest
  | anchorGreedy {first m cs ns b r a steps final rest} : optional m = false → rule a = m →
      Leftmost (sat m) ns b (node a) r → greedy m = true →
      Run first [m] cs r steps final rest →
      Run first [] (m :: cs) ns (⟨[], a⟩ :: steps) final rest
  | done {first ns} : Run first [] [] ns [] [] ns
  | fillEnd {F ns us o} : F ≠ [] → Fill greedy sat rule node F ns us o → Run none F [] ns [] us (o.getD [])
  | fillNext {m F ns b x r us o} : F ≠ [] → Leftmost (sat m) ns b x r → Fill greedy sat rule node F b us o →
      Run (some m) F [] ns [] us (x :: r)
  | fillAll {m F ns us o} : F ≠ [] → (∀ y ∈ ns, ¬ sat m y) → Fill greedy sat rule node F ns us o →
      Run (some m) F [] ns [] us []
end

/-- All uses, in document order. -/
def Anchored.uses {β : Type} (steps : List (Anchored β)) (final : List β) : List β :=
  (steps.flatMap fun s => s.fill ++ [s.anchor]) ++ final

/-! ## Vocabulary for greedy rules -/

section
variable {ι α β : Type}

open Classical in
/-- The members of `xs` that the rule matches. -/
noncomputable def satIn (sat : ι → α → Prop) (c : ι) (xs : List α) : List α := xs.filter fun x => decide (sat c x)

/-- Whether, behind the rules `pre` of a chain, a rule is still waiting for matches: the last of them is optional, or it is greedy
and no rule was waiting when it was reached. -/
def waitingAfter (optional greedy : ι → Bool) (pre : List ι) : Bool :=
  pre.foldl (fun waiting d => optional d || (greedy d && !waiting)) false

/-- The end of `s` is the node of the last of the uses `us` (both empty if there are none). -/
def EndsWith (node : β → α) (us : List β) (s : List α) : Prop :=
  (us = [] ∧ s = []) ∨ ∃ us' u s', us = us' ++ [u] ∧ s = s' ++ [node u]

/-- `s1` starts at the use of the next anchor of `cs`, or, if there is none, at the next match of the first
anchor, or is empty. -/
def StopsAt (optional : ι → Bool) (sat : ι → α → Prop) (rule : β → ι) (node : β → α) (first : Option ι) (cs : List ι)
    (vs : List β) (s1 : List α) : Prop :=
  match cs.find? (! optional ·) with
  | some m => ∃ v ∈ vs, rule v = m ∧ ∃ r, s1 = node v :: r
  | none => s1 = [] ∨ ∃ m x r, first = some m ∧ s1 = x :: r ∧ sat m x

end

mutual
/-- The sibling lists strictly below a tree, in search order: the children, then those below each child.
Only elements are entered. -/
def Tree.under : Tree → List (List Loc)
  | .node _ k kids =>
    match k with
    | .element _ => if kids.isEmpty then [] else locs kids :: underL kids
    | _ => []
def underL : List Tree → List (List Loc)
  | [] => []
  | t :: ts => t.under ++ underL ts
end

/-- The sibling lists that `extract` searches when started at a location. -/
def Loc.searched (l : Loc) : List (List Loc) := l.onward :: underL (l.onward.map (·.self))

/-- The nodes a search that starts at `l` visits: `l` and its following siblings, and the children of every
visited element. -/
inductive Loc.Reach (l : Loc) : Loc → Prop
  | start {x} : x ∈ l.onward → Loc.Reach l x
  | child {y x} : Loc.Reach l y → y.self.kind.isElement = true → x ∈ locs y.self.kids → Loc.Reach l x

/-- The rules of a possibly missing chain. -/
def chainOf : Option Rule → List Rule
  | none => []
  | some r => r.siblings

section
variable (own : RuleInfo → Loc → Prop)

/-! ## When does a rule match a node? -/

mutual
/-- The rule matches the node: its tag and conditions hold and, if it has child or nested rules, the
node is an element with children, its child rules embed in the children, and each chain of nested rules
embeds in some list of siblings below. -/
inductive Sat : Rule → Loc → Prop
  | leaf {r l} : own r.info l → r.child = none → r.nested = [] → Sat r l
  | inner {r l} : own r.info l → l.self.kind.isElement = true → l.self.kids ≠ [] →
      Embeds (chainOf r.child) (locs l.self.kids) → NestedSat r.nested l.self → Sat r l

/-- The mandatory rules of a chain can be assigned, in order, to different siblings which they match. -/
inductive Embeds : List Rule → List Loc → Prop
  | nil {ls} : Embeds [] ls
  | optional {c cs ls} : c.isOptional = true → Embeds cs ls → Embeds (c :: cs) ls
  | here {c cs x ls} : c.isOptional = false → Sat c x → Embeds cs ls → Embeds (c :: cs) (x :: ls)
  | later {c cs x ls} : Embeds (c :: cs) ls → Embeds (c :: cs) (x :: ls)

inductive NestedSat : List Rule → Tree → Prop
  | nil {t} : NestedSat [] t
  | cons {q qs t ks} : ks ∈ t.under → Embeds q.siblings ks → NestedSat qs t → NestedSat (q :: qs) t
end

/-! ## What does a match contain? -/

/-- (rule, node) pairs in the order in which their values are captured. -/
abbrev Found := List (Rule × Loc)

/-- One rule of a chain matching one sibling, with the pairs matched below that sibling. -/
structure Assigned where
  rule : Rule
  loc : Loc
  found : Found

/-- The pairs of one use: those below the node, then the use itself. -/
def Assigned.pairs (a : Assigned) : Found := a.found ++ [(a.rule, a.loc)]

/-- The pairs of a group. For each anchor these are the pairs below the anchor's node, then the pairs of the
fillers before it, then the anchor's own pair; at the end come the pairs of the last fillers. -/
def groupPairs (steps : List (Anchored Assigned)) (final : List Assigned) : Found :=
  (steps.flatMap fun s => s.anchor.found ++ s.fill.flatMap Assigned.pairs ++ [(s.anchor.rule, s.anchor.loc)]) ++
    final.flatMap Assigned.pairs

mutual
/-- The rule matches the node, and `ps` are the pairs matched below it. -/
inductive Matched : Rule → Loc → Found → Prop
  | leaf {r l} : Sat own r l → r.child = none → r.nested = [] → Matched r l []
  | inner {r l gs ps} : Sat own r l → ¬ (r.child = none ∧ r.nested = []) →
      Groups (chainOf r.child) (locs l.self.kids) gs → Nested r.nested l.self ps →
      Matched r l (gs.flatten ++ ps)

/-- The pairs matched by the nested rules, each searched for in all sibling lists below the node. -/
inductive Nested : List Rule → Tree → Found → Prop
  | nil {t} : Nested [] t []
  | cons {q qs t gs ps} : Search q.siblings t.under gs → Nested qs t ps →
      Nested (q :: qs) t (gs.flatten ++ ps)

/-- The groups found in several sibling lists. -/
inductive Search : List Rule → List (List Loc) → List Found → Prop
  | nil {chain} : Search chain [] []
  | cons {chain ks kss gs hs} : Groups chain ks gs → Search chain kss hs →
      Search chain (ks :: kss) (gs ++ hs)

/-- The groups found in one list of siblings: they lie on consecutive segments. Behind the last one the
chain does not embed any more; if all its rules are optional, none of them matches any more. -/
inductive Groups : List Rule → List Loc → List Found → Prop
  | stop {chain rest} : ¬ Embeds own chain rest → Groups chain rest []
  | stopOptional {chain rest} : (∀ c ∈ chain, c.isOptional = true) →
      (∀ c ∈ chain, ∀ x ∈ rest, ¬ Sat own c x) → Groups chain rest []
  | cons {chain ns rest g gs} : Group chain ns g rest → Groups chain rest gs → Groups chain ns (g :: gs)

/-- One group, and the siblings left behind it. -/
inductive Group : List Rule → List Loc → Found → List Loc → Prop
  | mk {chain ns rest} (steps : List (Anchored Assigned)) (final : List Assigned) :
      Run Rule.isOptional Rule.isGreedy (Sat own) Assigned.rule Assigned.loc none [] chain ns steps final rest →
      AllMatched (Anchored.uses steps final) →
      Anchored.uses steps final ≠ [] →
      Group chain ns (groupPairs steps final) rest

inductive AllMatched : List Assigned → Prop
  | nil : AllMatched []
  | cons {a asg} : Matched a.rule a.loc a.found → AllMatched asg → AllMatched (a :: asg)
end
end

/-- `(q, x)` is a possible match directly below `(p, y)`: a child rule on a child, or a nested rule on any
descendant. -/
def Below (p : Rule) (y : Loc) (q : Rule) (x : Loc) : Prop :=
  (q ∈ chainOf p.child ∧ y.self.kind.isElement = true ∧ x ∈ locs y.self.kids) ∨
  (∃ n ∈ p.nested, q ∈ n.siblings ∧ ∃ ks ∈ y.self.under, x ∈ ks)

/-- The tag and all conditions of a rule hold for a node. -/
def Holds (rx : RxEngine) (h : Heap) (i : RuleInfo) (l : Loc) : Prop :=
  ruleMatches rx h i l.ptr = pure true

/-- `q` is the rule `r` or one of the rules it owns. -/
inductive SubRule : Rule → Rule → Prop
  | refl {r} : SubRule r r
  | child {r c q} : r.child = some c → SubRule q c → SubRule q r
  | next {r c q} : r.next = some c → SubRule q c → SubRule q r
  | nested {r c q} : c ∈ r.nested → SubRule q c → SubRule q r

/-! ## What does extract return? -/

/-- The (name, value) pairs captured by a group, in order. -/
inductive Captured (rx : RxEngine) (h : Heap) : Found → List (Str × Str) → Prop
  | nil : Captured rx h [] []
  | cons {r l g vs ws} : ruleCapture rx h l.ptr r.info.caps = pure vs → Captured rx h g ws →
      Captured rx h ((r, l) :: g) (vs ++ ws)

/-- `m` lists the pairs `vs` sorted by name (bytewise), keeping the order of the values of each name. -/
def IsMap (vs m : List (Str × Str)) : Prop :=
  m.Pairwise (fun a b => ¬ b.1 < a.1) ∧ ∀ name, m.filter (·.1 = name) = vs.filter (·.1 = name)

/-- `ms` lists the maps of the groups `gs`. -/
inductive Maps (rx : RxEngine) (h : Heap) : List Found → List (List (Str × Str)) → Prop
  | nil : Maps rx h [] []
  | cons {g gs vs m ms} : Captured rx h g vs → IsMap vs m → Maps rx h gs ms →
      Maps rx h (g :: gs) (m :: ms)

/-- The specification of a result: the maps of the groups found in the searched sibling lists, without
the empty ones. -/
def IsResult (rx : RxEngine) (h : Heap) (r : Rule) (l : Loc) (res : List (List (Str × Str))) : Prop :=
  ∃ gs ms, Search (Holds rx h) r.siblings l.searched gs ∧ Maps rx h gs ms ∧ res = ms.filter (· ≠ [])

end Hext
