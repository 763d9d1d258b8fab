import Verif.Proofs.ScarcePaid
import Verif.Props.Throwing
/-!
# C94: extracting when memory runs out

`Scarce.extract c rx h rule node limit n` (Model/Scarce.lean) is `Rule::extract` when `n` requests for memory succeed and the next one
fails; `c` says how many requests the steps make. `extract rx h rule node limit` is the same with enough memory (C01 to C33).
-/

namespace Hext.Props

open Scarce

variable {rx : RxEngine} {h : Heap} {n : Nat} {r : Rule} {t : Tree}

/-- C94. There is a number `N` of requests that an extraction makes. If fewer succeed, it ends with `std::bad_alloc`; with `N` or more it
does what it does with enough memory: it returns the same result or throws `MaxSearchError`. What is missing: the last requests of an
extraction that exceeds its limit are made by the constructor of the `MaxSearchError`, which is `noexcept`; if one of these fails, the
program is terminated. -/
theorem C94_extract_partial (c : Costs) (hn : n ≤ 2147483647) (hr : r.Safe n) (ht : IsDocument h n t) (ms : UInt64) :
    ∃ N, (∀ res, extract rx h r t.ptr ms = pure res → ∀ k,
        (N ≤ k → Scarce.extract c rx h r t.ptr ms k = (Ending.returns res).outcome (k - N)) ∧
        (k < N → Scarce.extract c rx h r t.ptr ms k = Ending.badAlloc.outcome 0)) ∧
      (extract rx h r t.ptr ms = throw .maxSearch → ∀ k,
        (N + c.exception ≤ k → Scarce.extract c rx h r t.ptr ms k = Ending.limit.outcome 0) ∧
        (k < N + c.exception → N ≤ k → Scarce.extract c rx h r t.ptr ms k = Ending.terminates.outcome 0) ∧
        (k < N → Scarce.extract c rx h r t.ptr ms k = Ending.badAlloc.outcome 0)) := by
  rcases extract_sim (c := c) (rx := rx) (h := h) r t.ptr ms with h1 | ⟨N, hN, h1⟩
  · rcases extract_document_safe (rx := rx) hn hr ht ms with ⟨res, h2⟩ | ⟨_, h2⟩ <;> rw [h2] at h1 <;> exact nomatch h1
  · rcases extract_document_safe (rx := rx) hn hr ht ms with ⟨res, h2⟩ | ⟨_, h2⟩ <;> rw [h2] at h1 hN ⊢
    · refine ⟨N, fun res' e k => ?_, fun e => nomatch e⟩
      cases e
      exact ⟨fun hk => (h1 k).1 hk, fun hk => ((h1 k).2 hk).2 (by rintro ⟨e, _⟩; exact nomatch e)⟩
    · refine ⟨N - c.exception, (fun res' e => nomatch (e : (throw Err.maxSearch : E _) = pure res')), fun _ k => ?_⟩
      have := hN rfl
      exact ⟨fun hk => (h1 k).1 (by omega), fun hk hk' => ((h1 k).2 (by omega)).1 ⟨rfl, by omega⟩,
        fun hk => ((h1 k).2 (by omega)).2 (by rintro ⟨_, e⟩; omega)⟩

/-- C94. An extraction that returns has returned the result that it returns with enough memory, however little memory there is: nothing
is missing in it. -/
theorem C94_complete (c : Costs) (hn : n ≤ 2147483647) (hr : r.Safe n) (ht : IsDocument h n t) (ms : UInt64) (k : Nat)
    {res : List (List (Str × Str))} {left : Nat} (he : Scarce.extract c rx h r t.ptr ms k = (Ending.returns res).outcome left) :
    extract rx h r t.ptr ms = pure res := by
  obtain ⟨N, h1, h2⟩ := C94_extract_partial (rx := rx) c hn hr ht ms
  rcases extract_document_safe (rx := rx) hn hr ht ms with ⟨res', e⟩ | ⟨_, e⟩
  · by_cases hk : N ≤ k
    · rw [(h1 res' e k).1 hk] at he
      cases he
      exact e
    · rw [(h1 res' e k).2 (by omega)] at he
      exact nomatch he
  · by_cases hk : k < N
    · rw [(h2 e k).2.2 hk] at he
      exact nomatch he
    · by_cases hk' : k < N + c.exception
      · rw [(h2 e k).2.1 hk' (by omega)] at he
        exact nomatch he
      · rw [(h2 e k).1 (by omega)] at he
        exact nomatch he

/-- C94. Without a limit of searches, an extraction ends with the result or with `std::bad_alloc`. -/
theorem C94_no_limit (c : Costs) (hn : n ≤ 2147483647) (hr : r.Safe n) (ht : IsDocument h n t) :
    ∃ N res, ∀ k, Scarce.extract c rx h r t.ptr 0 k =
      if N ≤ k then (Ending.returns res).outcome (k - N) else Ending.badAlloc.outcome 0 := by
  obtain ⟨N, h1, _⟩ := C94_extract_partial (rx := rx) c hn hr ht 0
  rcases extract_document_safe (rx := rx) hn hr ht 0 with ⟨res, e⟩ | ⟨h0, _⟩
  · refine ⟨N, res, fun k => ?_⟩
    split
    · exact (h1 res e k).1 (by assumption)
    · exact (h1 res e k).2 (by omega)
  · exact absurd rfl h0

/-- C94 for hexts. -/
theorem C94_hext (c : Costs) {charSigned : Bool} {s : Str} (hs : NoLong s) (hp : parseHext rx charSigned s = .ok r)
    (ht : IsDocument h 1147483648 t) :
    ∃ N res, ∀ k, Scarce.extract c rx h r t.ptr 0 k =
      if N ≤ k then (Ending.returns res).outcome (k - N) else Ending.badAlloc.outcome 0 :=
  C94_no_limit c (by decide) (parse_safe hs hp) ht

/-- C94. An extraction that returns has made the requests that the entries of its result take. -/
theorem C94_requests (c : Costs) (hn : n ≤ 2147483647) (hr : r.Safe n) (ht : IsDocument h n t) (ms : UInt64) (k : Nat)
    {res : List (List (Str × Str))} {left : Nat} (he : Scarce.extract c rx h r t.ptr ms k = (Ending.returns res).outcome left) :
    entryRequests c res + left ≤ k :=
  extract_paid r t.ptr ms (fun e => by
    rcases extract_document_safe (rx := rx) hn hr ht ms with ⟨res', e'⟩ | ⟨_, e'⟩ <;> rw [e] at e' <;> exact nomatch e') k res left he

/-! ## Examples -/

/-- Every step requests memory once. -/
def costsOne : Costs where
  test _ _ := 1
  transform _ _ := 1
  call _ _ _ := 1
  matchFn _ _ _ := 1
  typeRegex _ _ := 1
  string _ := 1
  pair _ := 1
  append _ _ := 1
  reserve _ := 1
  insert _ := 1
  message := 1
  exception := 1

/-- Two links are found: with one request, there is no memory for them. -/
example : Scarce.extract costsOne rxAll Ex.heap matchRule Ex.doc.ptr 0 1 = Ending.badAlloc.outcome 0 := by
  have e : extract rxAll Ex.heap matchRule Ex.doc.ptr 0 = pure [[(lit "x", lit "1")], [(lit "x", lit "2")]] := by
    show extract rxAll Ex.heap matchRule (Loc.root Ex.doc).ptr 0 = _
    rw [extract_eq (n := 2147483647) (by decide) (matchRule_safe _) (l := Loc.root Ex.doc) Ex.doc_ok]
    decide +kernel
  obtain ⟨N, h1, _⟩ := C94_extract_partial (rx := rxAll) costsOne (n := 2147483647) (by decide) (matchRule_safe _) Ex.doc_ok 0
  by_cases hN : N ≤ 1
  · have := C94_requests costsOne (n := 2147483647) (by decide) (matchRule_safe _) Ex.doc_ok 0 1 ((h1 _ e 1).1 hN)
    simp [entryRequests, costsOne] at this
    omega
  · exact (h1 _ e 1).2 (by omega)

/-- With a limit of one search, two requests make the exception, and one ends the program. -/
example : Scarce.extract costsOne rxAll Ex.heap matchRule Ex.doc.ptr 1 2 = Ending.limit.outcome 0 ∧
    Scarce.extract costsOne rxAll Ex.heap matchRule Ex.doc.ptr 1 1 = Ending.terminates.outcome 0 ∧
    Scarce.extract costsOne rxAll Ex.heap matchRule Ex.doc.ptr 1 0 = Ending.badAlloc.outcome 0 := by
  simp only [Scarce.extract]
  rw [Scarce.saveMatchingNodesRecursive.eq_def]
  exact ⟨rfl, rfl, rfl⟩

end Hext.Props
