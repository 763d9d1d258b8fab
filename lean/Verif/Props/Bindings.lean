import Verif.Proofs.Bindings
import Verif.Proofs.Cli
import Verif.Props.Extract
/-!
# The language bindings and the JSON output (C42, C45)
-/

namespace Hext.Props

open Binding

/-! ## C42: the same result in all languages -/

theorem digitsVal_none : ∀ {t : Text} {c : Nat} (a : Option Nat), c ∈ t → ¬ (48 ≤ c ∧ c ≤ 57) →
    t.foldl (fun a c => a.bind fun n => if 48 ≤ c ∧ c ≤ 57 then some (10 * n + (c - 48)) else none) a = none
  | x :: t, c, a, hc, hd => by
    have hn : ∀ t : Text, t.foldl (fun a c => a.bind fun n => if 48 ≤ c ∧ c ≤ 57 then some (10 * n + (c - 48)) else none)
        (none : Option Nat) = none := by
      intro t; induction t with
      | nil => rfl
      | cons y t ih => rw [List.foldl_cons]; exact ih
    rw [List.foldl_cons]
    rcases List.mem_cons.1 hc with rfl | hc
    · have : (a.bind fun n => if 48 ≤ c ∧ c ≤ 57 then some (10 * n + (c - 48)) else none) = none := by
        cases a with
        | none => rfl
        | some n => simp only [Option.bind_some]; rw [if_neg hd]
      rw [this, hn]
    · exact digitsVal_none _ hc hd

/-- A name with a byte that is not a digit is no array index. -/
theorem arrayIndex_none {s : Str} {t : Text} (h : IsUtf8Of s t) (hd : ∃ b ∈ s, ¬ (48 ≤ b ∧ b ≤ 57)) : arrayIndex t = none := by
  obtain ⟨hsc, rfl⟩ := h
  obtain ⟨b, hb, hd⟩ := hd
  obtain ⟨c, hc, hb⟩ := List.mem_flatMap.1 hb
  have hcd : ¬ (48 ≤ c ∧ c ≤ 57) := by
    rintro ⟨h1, h2⟩
    unfold enc at hb
    rw [if_pos (by omega)] at hb
    simp only [List.mem_singleton] at hb
    subst hb
    apply hd
    rw [UInt8.le_iff_toNat_le, UInt8.le_iff_toNat_le, ofNat_toNat (by omega)]
    exact ⟨h1, h2⟩
  unfold arrayIndex
  cases t with
  | nil => rfl
  | cons x t =>
    simp only
    split
    · rfl
    · have : digitsVal (x :: t) = none := digitsVal_none _ hc hcd
      rw [this]

/-- C42. Let `m` be a map of a result, without NUL bytes and with names and values in UTF-8. There is one list of names and
values, with every name once, that presents `m`: the value of a name, or the list of its values if there are several. The
command line program prints it as a JSON object, Python gets it as a dict, Ruby as a hash, PHP as an array (in which
names that are integers are integer keys, as in every array of PHP). In Node, the
properties of the object are the same if no name is `__proto__`; and in the same order if no name consists of digits. (What is
missing: Node loses the name `__proto__`, and reorders names that are numbers, see below.) -/
theorem C42_presented_alike_partial {vs m : List (Str × Str)} (hm : IsMap vs m) (hn : NoNul m) (hu : IsUtf8 m) :
    ∃ o t, Presents m o ∧ IsTextOf o t ∧
      (∀ opt, JText (objectJson o) (Cli.printJsonValue (.obj (Cli.groupObject m)) opt)) ∧
      rubyHash m = pure o ∧ (∃ a, phpArray m = pure a ∧ IsPhpArray o a) ∧ pyDict m = pure t ∧
      ∀ js, ∃ d, nodeObject js m = pure d ∧
        ((∀ p ∈ m, p.1 ≠ lit "__proto__") → d.Perm t ∧ ((∀ p ∈ m, ∃ b ∈ p.1, ¬ (48 ≤ b ∧ b ≤ 57)) → d = t)) := by
  have ho := entsOf_presents hm.1
  refine ⟨entsOf m, textEntries (entsOf m), ho, presents_isText ho hu, fun opt => ?_, rubyHash_presents hm.1 ho,
    ⟨_, phpArray_presents hm.1 hn ho, isPhpArray_map _⟩, pyDict_presents hm.1 hn hu ho, fun js => ⟨_, nodeObject_eq hm.1 hu ho, fun hp => ?_⟩⟩
  · rw [groupObject_presents hm.1 hn ho]
    exact Cli.printJsonValue_text _ _
  · have hkey : ∀ x ∈ textEntries (entsOf m), ∃ p ∈ m, x.1 = textOf p.1 := by
      intro x hx
      obtain ⟨y, hy, rfl⟩ := List.mem_map.1 hx
      obtain ⟨k, hk, rfl⟩ := List.mem_map.1 hy
      obtain ⟨v, hv⟩ := mem_keysOf.1 hk
      exact ⟨(k, v), hv, rfl⟩
    have hf : ((textEntries (entsOf m)).filter fun x => x.1 ≠ protoKey) = textEntries (entsOf m) := by
      rw [List.filter_eq_self]
      intro x hx
      obtain ⟨p, hpm, hxp⟩ := hkey x hx
      simp only [decide_eq_true_eq]
      intro hx'
      rw [hxp] at hx'
      refine hp p hpm (utf8_inj (t := protoKey) ?_ (by decide +kernel))
      rw [← hx', textOf_eq (hu.ne_none p hpm).1]
    rw [hf]
    refine ⟨jsOrder_perm _, fun hd => jsOrder_eq fun x hx => ?_⟩
    obtain ⟨p, hpm, hxp⟩ := hkey x hx
    rw [hxp]
    exact arrayIndex_none (textOf_isUtf8 (hu p hpm).1) (hd p hpm)

/-- A map with a single and a double value. -/
def exMap : List (Str × Str) := [(lit "a", lit "1"), (lit "b", lit "2"), (lit "b", lit "3")]

example : IsMap [(lit "b", lit "2"), (lit "a", lit "1"), (lit "b", lit "3")] exMap ∧ NoNul exMap ∧ IsUtf8 exMap ∧
    (∀ p ∈ exMap, p.1 ≠ lit "__proto__") ∧ (∀ p ∈ exMap, ∃ b ∈ p.1, ¬ (48 ≤ b ∧ b ≤ 57)) ∧
    Presents exMap [(lit "a", .one (lit "1")), (lit "b", .many [lit "2", lit "3"])] ∧
    Cli.printJsonValue (.obj (Cli.groupObject exMap)) { pretty := false, array := false } = lit "{\"a\":\"1\",\"b\":[\"2\",\"3\"]}" := by
  refine ⟨⟨by decide, ?_⟩, by unfold NoNul; decide, ?_, by decide, by decide, ?_, by decide +kernel⟩
  · intro name
    by_cases h1 : name = lit "a"
    · subst h1; decide
    · by_cases h2 : name = lit "b"
      · subst h2; decide
      · simp [exMap, Ne.symm h1, Ne.symm h2]
  · have : ∀ p ∈ exMap, utf8 p.1 = some (p.1.map (·.toNat)) ∧ utf8 p.2 = some (p.2.map (·.toNat)) := by decide +kernel
    exact fun p hp => ⟨⟨_, utf8_iff.1 (this p hp).1⟩, _, utf8_iff.1 (this p hp).2⟩
  · have : entsOf exMap = [(lit "a", .one (lit "1")), (lit "b", .many [lit "2", lit "3"])] := by decide +kernel
    rw [← this]
    exact entsOf_presents (by unfold KeySorted; decide)

theorem isUtf8_ascii {m : List (Str × Str)}
    (h : ∀ p ∈ m, utf8 p.1 = some (p.1.map (·.toNat)) ∧ utf8 p.2 = some (p.2.map (·.toNat))) : IsUtf8 m :=
  fun p hp => ⟨⟨_, utf8_iff.1 (h p hp).1⟩, _, utf8_iff.1 (h p hp).2⟩

/-- C42 fails for the name `__proto__`: Node's object has no such property. (`<a href:__proto__/>` is a hext.) -/
theorem C42_node_loses_proto (js : Js) : nodeObject js [(lit "__proto__", lit "1")] = pure [] ∧
    rubyHash [(lit "__proto__", lit "1")] = pure [(lit "__proto__", .one (lit "1"))] := by
  have hs : KeySorted [(lit "__proto__", lit "1")] := by unfold KeySorted; decide
  have hu : IsUtf8 [(lit "__proto__", lit "1")] := isUtf8_ascii (by decide +kernel)
  have ho := entsOf_presents hs
  rw [nodeObject_eq hs hu ho, rubyHash_presents hs ho]
  exact ⟨congrArg pure (by decide +kernel), congrArg pure (by decide +kernel)⟩

/-- In an array of PHP no two names get the same key, and `$a[$name]` finds the entry of a name. -/
theorem C42_php_lookup {o : List (Str × Entry Str)} {a : List (PhpKey × Entry Str)} (h : IsPhpArray o a) (name : Str) (e : Entry Str) :
    (phpKey name, e) ∈ a ↔ (name, e) ∈ o := by
  rw [isPhpArray_eq h, List.mem_map]
  constructor
  · rintro ⟨x, hx, he⟩
    injection he with h1 h2
    rw [← phpKey_inj h1, ← h2]
    exact hx
  · exact fun hx => ⟨_, hx, rfl⟩

example : phpArray [(lit "-5", lit "b"), (lit "007", lit "c"), (lit "10", lit "a")] =
      pure [(.int (-5), .one (lit "b")), (.str (lit "007"), .one (lit "c")), (.int 10, .one (lit "a"))] ∧
    IsPhpArray [(lit "-5", .one (lit "b")), (lit "007", .one (lit "c")), (lit "10", .one (lit "a"))]
      [(.int (-5), .one (lit "b")), (.str (lit "007"), .one (lit "c")), (.int 10, .one (lit "a"))] := by
  have hs : KeySorted [(lit "-5", lit "b"), (lit "007", lit "c"), (lit "10", lit "a")] := by unfold KeySorted; decide
  have hn : NoNul [(lit "-5", lit "b"), (lit "007", lit "c"), (lit "10", lit "a")] := by unfold NoNul; decide
  have h := phpArray_presents hs hn (entsOf_presents hs)
  have e : (entsOf [(lit "-5", lit "b"), (lit "007", lit "c"), (lit "10", lit "a")]) =
    [(lit "-5", .one (lit "b")), (lit "007", .one (lit "c")), (lit "10", .one (lit "a"))] := by decide +kernel
  have e2 := isPhpArray_map [(lit "-5", .one (lit "b")), (lit "007", .one (lit "c")), (lit "10", .one (lit "a"))]
  rw [e] at h
  have e3 : [(lit "-5", Entry.one (lit "b")), (lit "007", .one (lit "c")), (lit "10", .one (lit "a"))].map (fun x => (phpKey x.1, x.2)) =
    [(.int (-5), .one (lit "b")), (.str (lit "007"), .one (lit "c")), (.int 10, .one (lit "a"))] := by decide +kernel
  rw [e3] at h e2
  exact ⟨h, e2⟩

/-- C42 fails for names that are numbers: Node enumerates 9 before 10, the others 10 before 9. -/
theorem C42_node_reorders (js : Js) : nodeObject js [(lit "10", lit "a"), (lit "9", lit "b")] =
      pure [([57], .one [98]), ([49, 48], .one [97])] ∧
    pyDict [(lit "10", lit "a"), (lit "9", lit "b")] = pure [([49, 48], .one [97]), ([57], .one [98])] := by
  have hs : KeySorted [(lit "10", lit "a"), (lit "9", lit "b")] := by unfold KeySorted; decide
  have hu : IsUtf8 [(lit "10", lit "a"), (lit "9", lit "b")] := isUtf8_ascii (by decide +kernel)
  have ho := entsOf_presents hs
  rw [nodeObject_eq hs hu ho, pyDict_presents hs (by unfold NoNul; decide) hu ho]
  exact ⟨congrArg pure (by decide +kernel), congrArg pure (by decide +kernel)⟩

/-- C42 fails for values with a NUL byte (which a `CaptureFunction` of the user can return): JSON has the bytes before it. -/
theorem C42_nul_truncates : Cli.groupObject [(lit "a", [98, 0, 99])] = [(lit "a", .str [98])] ∧
    rubyHash [(lit "a", [98, 0, 99])] = pure [(lit "a", .one [98, 0, 99])] := by
  have hs : KeySorted [(lit "a", [98, 0, 99])] := by unfold KeySorted; decide
  rw [rubyHash_presents hs (entsOf_presents hs)]
  exact ⟨rfl, congrArg pure (by decide +kernel)⟩

/-- C42 fails for values that are not UTF-8 (documents that are not): Python raises an exception, JSON and Ruby have the bytes. -/
theorem C42_python_raises : pyDict [(lit "a", [0xE9])] = throw .unicode ∧
    rubyHash [(lit "a", [0xE9])] = pure [(lit "a", .one [0xE9])] := by
  have hs : KeySorted [(lit "a", [0xE9])] := by unfold KeySorted; decide
  rw [rubyHash_presents hs (entsOf_presents hs)]
  refine ⟨?_, congrArg pure (by decide +kernel)⟩
  unfold pyDict
  rw [mapLoop]
  show (if count [(lit "a", [0xE9])] (lit "a") < 2 then _ else _) = _
  rw [if_pos (by decide +kernel)]
  have : pyString [0xE9] = throw .unicode := by
    unfold pyString
    rw [show utf8 (cstr [0xE9]) = none by decide +kernel]
  show (pyString [0xE9] >>= _) = _
  rw [this]
  rfl

/-! ## C45: the limit of searches -/

/-- C45 up to 2^32: the limit that is given to the Node binding is the limit that is applied. -/
theorem C45_node_limit_partial (n : Nat) (hn : n < 4294967296) : (nodeLimit (.int n)).toNat = n := by
  rw [nodeLimit, UInt64.toNat_ofNat']
  omega

example : nodeLimit (.int 4294967295) = 4294967295 := by decide

/-- C45, the exact limit: Node applies the limit that is given exactly if it is an integer from 0 to 2^32 - 1. Other integers are
taken modulo 2^32, so that a multiple of 2^32 means no limit at all. -/
theorem C45_node_limit_iff (n : Int) :
    (((nodeLimit (.int n)).toNat : Int) = n ↔ 0 ≤ n ∧ n < 4294967296) ∧ (nodeLimit (.int n)).toNat < 4294967296 ∧
      (nodeLimit (.int n) = 0 ↔ ∃ k, n = k * 4294967296) := by
  have e : (nodeLimit (.int n)).toNat = (n % 4294967296).toNat := by
    rw [nodeLimit, UInt64.toNat_ofNat']
    omega
  refine ⟨by rw [e]; omega, by rw [e]; omega, ?_⟩
  rw [← UInt64.toNat_inj, e]
  constructor
  · intro h
    exact ⟨n / 4294967296, by simp at h; omega⟩
  · rintro ⟨k, rfl⟩
    simp

example : nodeLimit (.int (-1)) = 4294967295 ∧ nodeLimit (.int 8589934592) = 0 := by decide

/-- Python applies every limit below 2^64, and rejects all other numbers. -/
theorem C45_python_limit (n : Int) : match pyLimit n with
    | some l => (l.toNat : Int) = n
    | none => n < 0 ∨ 18446744073709551616 ≤ n := by
  by_cases h : 0 ≤ n ∧ n < 18446744073709551616
  · rw [pyLimit, if_pos h]
    show ((UInt64.ofNat n.toNat).toNat : Int) = n
    rw [UInt64.toNat_ofNat']
    omega
  · rw [pyLimit, if_neg h]
    show n < 0 ∨ 18446744073709551616 ≤ n
    omega

/-- C45 fails from 2^32 on: the limit 2^32 is no limit, and the limit 2^32 + 6 is the limit 6. With it the example is
aborted, although it needs fewer than 2^32 searches. -/
theorem C45_node_limit_wraps : nodeLimit (.int 4294967296) = 0 ∧
    extract Ex.rx Ex.heap Ex.r Ex.doc.ptr (nodeLimit (.int 4294967302)) = throw .maxSearch ∧
    extract Ex.rx Ex.heap Ex.r Ex.doc.ptr 4294967302 = pure [[(lit "x", lit "1"), (lit "x", lit "2")]] := by
  refine ⟨by decide, ?_⟩
  have hs := extract_eq (rx := Ex.rx) (h := Ex.heap) (n := 2147483647) (by decide) (Ex.r_safe _)
    (l := Loc.root Ex.doc) Ex.doc_ok
  have e : (Loc.root Ex.doc).ptr = Ex.doc.ptr := rfl
  rw [← e, hs, hs]
  decide +kernel

end Hext.Props
