import Verif.Model.Threads
import Verif.Spec.Doc
/-!
# What C89 is stated with
-/

namespace Hext.Threads

variable {ι : Type}

/-- The nodes `doc` are in the memory, and no thread ever writes to one of them. The threads may write to everything else: they
may parse, use and free other documents. -/
structure Untouched (S : System ι) (doc : Heap) : Prop where
  there : ∀ p n, doc p = some n → S.start p = some n
  kept : ∀ j m h w, w ∈ S.writes j m h → doc w.1 = none

/-- From every moment on, the thread gets a turn again. -/
def Fair (S : System ι) (i : ι) : Prop := ∀ m, ∃ m', m ≤ m' ∧ S.turn m' = i

/-- How many turns thread `i` has from moment `m` to before moment `m'`. -/
def turns [DecidableEq ι] (turn : Nat → ι) (i : ι) (m m' : Nat) : Nat := (List.range' m (m' - m)).countP fun k => turn k = i

/-- What comes of `rule.extract(document, max_searches)` if thread `i` starts it at moment `m`: a result, an exception, undefined
behaviour, or `none` if it never ends. -/
def comesTo [DecidableEq ι] (rx : RxEngine) (S : System ι) (i : ι) (doc : Heap) (r : Rule) (node : Ptr) (ms : UInt64) (m : Nat) :
    E (List (List (Str × Str))) :=
  (extract rx (S.access i doc) r node ms).run' m

/-- What a thread is to do. -/
structure Job where
  rule : Rule
  doc : Heap
  tree : Tree
  maxSearches : UInt64
  starts : Nat

end Hext.Threads
