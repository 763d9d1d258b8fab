import Verif.Spec.Doc
/-!
# A heap for every tree

Used to show that the hypotheses of the theorems about documents can be met.
-/

namespace Hext

mutual
/-- The nodes of a tree with their addresses. -/
def entries (parent : Option Ptr) (idx : Nat) : Tree → List (Ptr × GNode)
  | .node p k kids => (p, ⟨k, kids.map Tree.ptr, parent, idx⟩) :: entriesL p 0 kids
def entriesL (p : Ptr) (i : Nat) : List Tree → List (Ptr × GNode)
  | [] => []
  | t :: ts => entries (some p) i t ++ entriesL p (i + 1) ts
end

/-- The heap holding these nodes. -/
def heapOf (es : List (Ptr × GNode)) : Heap := fun p => (es.find? (·.1 == p)).map (·.2)

theorem heapOf_mem {es : List (Ptr × GNode)} (hn : (es.map (·.1)).Nodup) {e : Ptr × GNode} (he : e ∈ es) :
    heapOf es e.1 = some e.2 := by
  induction es with
  | nil => simp at he
  | cons x xs ih =>
    simp only [List.map_cons, List.nodup_cons] at hn
    rcases List.mem_cons.1 he with rfl | he
    · simp [heapOf]
    · have : x.1 ≠ e.1 := fun h => hn.1 (List.mem_map.2 ⟨e, he, h.symm⟩)
      have hne : (x.1 == e.1) = false := by simpa using this
      have := ih hn.2 he
      simpa [heapOf, List.find?_cons, hne] using this

mutual
theorem rep_of_mem {es : List (Ptr × GNode)} (hn : (es.map (·.1)).Nodup) :
    ∀ (t : Tree) (parent : Option Ptr) (i : Nat), (∀ e ∈ entries parent i t, e ∈ es) →
      Rep (heapOf es) parent i t
  | .node p k kids, parent, i, h => by
    unfold entries at h
    exact ⟨heapOf_mem hn (h (p, ⟨k, kids.map Tree.ptr, parent, i⟩) (by simp)), repL_of_mem hn kids p 0 fun e he => h e (by simp [he])⟩
theorem repL_of_mem {es : List (Ptr × GNode)} (hn : (es.map (·.1)).Nodup) :
    ∀ (ts : List Tree) (p : Ptr) (i : Nat), (∀ e ∈ entriesL p i ts, e ∈ es) → RepL (heapOf es) p i ts
  | [], _, _, _ => by simp [RepL]
  | t :: ts, p, i, h => by
    unfold entriesL at h
    exact ⟨rep_of_mem hn t _ i fun e he => h e (by simp [he]),
      repL_of_mem hn ts p (i + 1) fun e he => h e (by simp [he])⟩
end

/-- The nodes of a document with root element `t`; the document node lives at `doc`. -/
def docEntries (doc : Ptr) (t : Tree) : List (Ptr × GNode) :=
  (doc, ⟨.document {}, [t.ptr], none, 0⟩) :: entries (some doc) 0 t

/-- The heap of that document. -/
def docHeap (doc : Ptr) (t : Tree) : Heap := heapOf (docEntries doc t)

/-- Every tree with pairwise different addresses is a document. -/
theorem docHeap_isDocument {doc : Ptr} {t : Tree} {n : Nat}
    (hn : ((docEntries doc t).map (·.1)).Nodup) (hf : FanoutLe n t) : IsDocument (docHeap doc t) n t := by
  refine ⟨rfl, rfl, doc, ⟨.document {}, [t.ptr], none, 0⟩, 0, ?_, rfl, ?_, hf⟩
  · exact heapOf_mem hn (e := (doc, ⟨.document {}, [t.ptr], none, 0⟩)) (by simp [docEntries])
  · exact rep_of_mem hn t _ 0 fun e he => by simp [docEntries, he]

mutual
/-- The largest number of children of a node. -/
def maxFanout : Tree → Nat
  | .node _ _ kids => max kids.length (maxFanoutL kids)
def maxFanoutL : List Tree → Nat
  | [] => 0
  | t :: ts => max (maxFanout t) (maxFanoutL ts)
end

mutual
theorem fanout_of_max (n : Nat) : ∀ t : Tree, maxFanout t ≤ n → FanoutLe n t
  | .node _ _ kids, h => by
    simp only [maxFanout] at h
    exact ⟨by omega, fanoutL_of_max n kids (by omega)⟩
theorem fanoutL_of_max (n : Nat) : ∀ ts : List Tree, maxFanoutL ts ≤ n → FanoutLeL n ts
  | [], _ => by simp [FanoutLeL]
  | t :: ts, h => by
    simp only [maxFanoutL] at h
    exact ⟨fanout_of_max n t (by omega), fanoutL_of_max n ts (by omega)⟩
end

/-- Decidable form of the hypotheses. -/
def docOk (n : Nat) (doc : Ptr) (t : Tree) : Bool :=
  decide ((docEntries doc t).map (·.1)).Nodup && decide (maxFanout t ≤ n)

theorem isDocument_of_ok {doc : Ptr} {t : Tree} {n : Nat} (h : docOk n doc t = true) :
    IsDocument (docHeap doc t) n t := by
  simp only [docOk, Bool.and_eq_true, decide_eq_true_eq] at h
  exact docHeap_isDocument h.1 (fanout_of_max n t h.2)

end Hext
