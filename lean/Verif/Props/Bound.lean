import Verif.Proofs.Bound
import Verif.Props.Whole
/-!
# How many searches an extraction needs (C64)

`Tree.size`, `Rule.size` and `Rule.levels` are defined in `Verif/Spec/Size.lean`.
-/

namespace Hext.Props

/-- C64. A document of `t.size` nodes needs at most `(3 * r.size * t.size ^ 2) ^ r.levels` searches: a larger limit gives the
result of the unlimited extraction, whatever the rule is. So for each hext the number of searches is bounded by a polynomial
in the size of the document. -/
theorem C64_enough_searches {rx : RxEngine} {h : Heap} {n : Nat} {r : Rule} {t : Tree} (hn : n ≤ 2147483647) (hr : r.Safe n)
    (ht : IsDocument h n t) (ms : UInt64) (hms : (3 * r.size * t.size ^ 2) ^ r.levels < ms.toNat) :
    ∃ res, extract rx h r t.ptr 0 = pure res ∧ extract rx h r t.ptr ms = pure res := by
  obtain ⟨res, _, _, h2⟩ := extract_result (rx := rx) (l := Loc.root t) hn hr ht
  have hc : (searchAt rx h r (Loc.root t)).cost ≤ (3 * r.size * (t.size * t.size)) ^ r.levels :=
    Bound.search_cost_le r [] (by simp [Loc.onward]) (by simp [Loc.onward, Loc.root, Tree.sizeL])
  rw [Nat.pow_two] at hms
  have e : (Loc.root t).ptr = t.ptr := rfl
  rw [← e]
  exact ⟨res, by rw [h2]; simp, by rw [h2, if_neg]; omega⟩

/-- C64 for hexts. -/
theorem C64_hext {rx : RxEngine} {charSigned : Bool} {s : Str} {h : Heap} {r : Rule} {t : Tree} (hs : NoLong s)
    (hp : parseHext rx charSigned s = .ok r) (ht : IsDocument h 1147483648 t) (ms : UInt64)
    (hms : (3 * r.size * t.size ^ 2) ^ r.levels < ms.toNat) :
    ∃ res, extract rx h r t.ptr 0 = pure res ∧ extract rx h r t.ptr ms = pure res :=
  C64_enough_searches (by decide) (parse_safe hs hp) ht ms hms

/-- `<a href:x/>` needs less than 1000 searches in the example document. -/
example : ∃ res, extract Ex.rx Ex.heap hrefRule Ex.doc.ptr 0 = pure res ∧ extract Ex.rx Ex.heap hrefRule Ex.doc.ptr 1000 = pure res :=
  C64_hext (noLong_of_few (by decide)) (href_parsed Ex.rx true) (isDocument_of_ok (by decide +kernel)) 1000 (by decide +kernel)

end Hext.Props
