import Verif.Proofs.EveryMap
import Verif.Props.Bindings
import Verif.Props.ScriptExit
/-!
# C42 for every map
-/

namespace Hext.Props

open Binding

theorem cutSole_eq (e : Entry Str) : ∀ d (k : Str), phpPut d k e = pure (dictSet d (phpKey (cstr k)) e.cutSole) := by
  intro d k
  cases e <;> rfl

theorem phpArray_every {m : List (Str × Str)} (hm : KeySorted m) :
    phpArray m = pure ((setAll ((entsOf m).map fun x => (cstr x.1, x.2.cutSole))).map fun x => (phpKey x.1, x.2)) := by
  rw [phpArray, mapLoop_ents (cv := id) (step := fun d x => dictSet d (phpKey (cstr x.1)) x.2.cutSole) hm]
  · have := setAll_map (f := phpKey) (g := id) (o := (entsOf m).map fun x => (cstr x.1, x.2.cutSole))
      (fun x _ y _ e => phpKey_inj e)
    rw [List.foldl_map] at this
    exact congrArg pure this
  · intro p _; rfl
  · intro d k e _ _
    rw [Entry.map_id, cutSole_eq]

theorem map_cutAll (e : Entry Str) : (e.map fun s => textOf (cstr s)) = e.cutAll.map textOf := by
  cases e <;> simp [Entry.map, Entry.cutAll, beforeNul_eq]

theorem pyDict_every {m : List (Str × Str)} (hm : KeySorted m) (hu : IsUtf8 (cutOff m)) :
    pyDict m = pure (textEntries (setAll ((entsOf m).map fun x => (cstr x.1, x.2.cutAll)))) := by
  have hu' : ∀ p ∈ m, (∃ t, IsUtf8Of (cstr p.1) t) ∧ ∃ t, IsUtf8Of (cstr p.2) t :=
    fun p hp => hu (cstr p.1, cstr p.2) (List.mem_map.2 ⟨p, hp, rfl⟩)
  have hs : ∀ s, (∃ t, IsUtf8Of (cstr s) t) → pyString s = pure (textOf (cstr s)) := by
    rintro s ⟨t, ht⟩
    rw [pyString, textOf_eq (by rw [utf8_iff.2 ht]; simp)]
  rw [pyDict, mapLoop_ents (cv := fun s => textOf (cstr s))
    (step := fun d x => dictSet d (textOf (cstr x.1)) (x.2.cutAll.map textOf)) hm]
  · have := setAll_map (f := textOf) (g := fun e => e.map textOf) (o := (entsOf m).map fun x => (cstr x.1, x.2.cutAll)) (by
      intro x hx y hy e
      have key : ∀ z ∈ (entsOf m).map (fun x => (cstr x.1, x.2.cutAll)), utf8 z.1 ≠ none := by
        intro z hz
        obtain ⟨w, hw, rfl⟩ := List.mem_map.1 hz
        obtain ⟨k, hk, rfl⟩ := List.mem_map.1 hw
        obtain ⟨v, hv⟩ := mem_keysOf.1 hk
        obtain ⟨t, ht⟩ := (hu' _ hv).1
        rw [utf8_iff.2 ht]; simp
      have h1 := textOf_eq (key x hx)
      have h2 := textOf_eq (key y hy)
      rw [e] at h1
      exact utf8_inj h1 h2)
    rw [List.foldl_map] at this
    exact congrArg pure this
  · intro p hp
    exact hs _ (hu' p hp).2
  · rintro d k e ⟨p, hp, rfl⟩ _
    rw [pyPut, hs _ (hu' p hp).1, pure_bind, map_cutAll]

theorem pyDict_returns {m : List (Str × Str)} (hm : KeySorted m) : (∃ t, pyDict m = pure t) ∨ pyDict m = throw .unicode := by
  have hc : ∀ s, Returns true (pyString s) := by
    intro s
    unfold pyString
    split
    · exact .inl ⟨_, rfl⟩
    · exact .inr ⟨rfl, rfl⟩
  have hp : ∀ o k e, Returns true (pyPut o k e) := fun o k e => (hc _).bind fun t => .inl ⟨_, rfl⟩
  rcases mapLoop_returns hc hp hm m.length 0 [] (by omega) with ⟨t, h⟩ | ⟨_, h⟩
  · exact .inl ⟨t, h⟩
  · exact .inr h

/-- What is in a dict of cut entries comes from the map. -/
theorem setAll_utf8 {m : List (Str × Str)} (hm : KeySorted m) (hu : IsUtf8 (cutOff m)) :
    ∀ x ∈ setAll ((entsOf m).map fun x => (cstr x.1, x.2.cutAll)), (∃ t, IsUtf8Of x.1 t) ∧
      match x.2 with
      | .one v => ∃ t, IsUtf8Of v t
      | .many vs => ∀ v ∈ vs, ∃ t, IsUtf8Of v t := by
  intro x hx
  obtain ⟨k, e⟩ := x
  obtain ⟨before, after, h, _⟩ := ((setAll_lastCounts (cut_sorted hm)).2 k e).1 hx
  have hmem : (k, e) ∈ (entsOf m).map fun x => (cstr x.1, x.2.cutAll) := by rw [h]; simp
  obtain ⟨⟨k', e'⟩, h1, h2⟩ := List.mem_map.1 hmem
  cases h2
  have hp := (entsOf_presents hm).2 k' e'
  have hu' : ∀ p ∈ m, (∃ t, IsUtf8Of (cstr p.1) t) ∧ ∃ t, IsUtf8Of (cstr p.2) t :=
    fun p hp => hu (cstr p.1, cstr p.2) (List.mem_map.2 ⟨p, hp, rfl⟩)
  have hv : ∀ v ∈ valuesOf m k', (k', v) ∈ m := by
    intro v hv
    obtain ⟨p, hpf, rfl⟩ := List.mem_map.1 hv
    obtain ⟨hpm, hk⟩ := List.mem_filter.1 hpf
    simp only [decide_eq_true_eq] at hk
    subst hk
    exact hpm
  have := hp.1 h1
  cases e' with
  | one v =>
    simp only at this
    have h3 := hv v (by rw [this]; simp)
    exact ⟨(hu' _ h3).1, (hu' _ h3).2⟩
  | many vs =>
    simp only at this
    obtain ⟨rfl, hl⟩ := this
    refine ⟨?_, fun v hv' => ?_⟩
    · cases hvs : valuesOf m k' with
      | nil => rw [hvs] at hl; simp at hl
      | cons v vs => exact (hu' _ (hv v (by rw [hvs]; simp))).1
    · obtain ⟨w, hw, rfl⟩ := List.mem_map.1 hv'
      exact (hu' _ (hv w hw)).2

/-- C42. What every map of a result becomes, whatever bytes its names and values have. Let `o` present the map.
* Ruby gets `o`, with all bytes.
* PHP gets `o` with names and sole values cut off before their first NUL byte; of names that become equal the last one counts.
* Python gets `o` with all names and values cut off before their first NUL byte; of names that become equal the last one counts. If
  something of this is not UTF-8, an exception is raised instead.
* `htmlext` prints what presents the map with all names and values cut off: values of names that become equal are put together.
For Node see `C42_node_object`. -/
theorem C42_every_map {vs m : List (Str × Str)} (hm : IsMap vs m) : ∃ o, Presents m o ∧ rubyHash m = pure o ∧
    (∃ d a, LastCounts (o.map fun x => (beforeNul x.1, x.2.cutSole)) d ∧ IsPhpArray d a ∧ phpArray m = pure a) ∧
    (IsUtf8 (cutOff m) → ∃ d t, LastCounts (o.map fun x => (beforeNul x.1, x.2.cutAll)) d ∧ IsTextOf d t ∧ pyDict m = pure t) ∧
    (¬ IsUtf8 (cutOff m) → pyDict m = throw .unicode) ∧
    ∃ o', Presents (cutOff m) o' ∧ ∀ opt, JText (objectJson o') (Cli.printJsonValue (.obj (Cli.groupObject m)) opt) := by
  have ho := entsOf_presents hm.1
  refine ⟨entsOf m, ho, rubyHash_presents hm.1 ho, ⟨_, _, setAll_lastCounts (cut_sorted hm.1), isPhpArray_map _, phpArray_every hm.1⟩,
    fun hu => ⟨_, _, setAll_lastCounts (cut_sorted hm.1), textEntries_isText (setAll_utf8 hm.1 hu), pyDict_every hm.1 hu⟩, fun hu => ?_,
    _, entsOf_presents (keySorted_cutOff hm.1), fun opt => ?_⟩
  · rcases pyDict_returns hm.1 with ⟨t, h⟩ | h
    · exfalso
      apply hu
      intro p hp
      obtain ⟨q, hq, rfl⟩ := List.mem_map.1 hp
      exact pyDict_utf8 hm.1 h q hq
    · exact h
  · rw [groupObject_cutOff, groupObject_presents (keySorted_cutOff hm.1) (noNul_cutOff m) (entsOf_presents (keySorted_cutOff hm.1))]
    exact Cli.printJsonValue_text _ _

/-- The names `a` and `a\0b`, and a value with a NUL byte. -/
def nulMap : List (Str × Str) := [(lit "a", lit "1"), ([97, 0, 98], [50, 0, 51])]

example : IsMap nulMap nulMap ∧ IsUtf8 (cutOff nulMap) ∧
    rubyHash nulMap = pure [(lit "a", .one (lit "1")), ([97, 0, 98], .one [50, 0, 51])] ∧
    phpArray nulMap = pure [(.str (lit "a"), .one (lit "2"))] ∧ pyDict nulMap = pure [([97], .one [50])] ∧
    Cli.printJsonValue (.obj (Cli.groupObject nulMap)) { pretty := false, array := false } = lit "{\"a\":[\"1\",\"2\"]}" := by
  have hm : KeySorted nulMap := by unfold KeySorted; decide
  have hu : IsUtf8 (cutOff nulMap) := isUtf8_ascii (by decide +kernel)
  refine ⟨⟨hm, fun _ => rfl⟩, hu, ?_, ?_, ?_, by decide +kernel⟩
  · rw [rubyHash_presents hm (entsOf_presents hm)]
    exact congrArg pure (by decide +kernel)
  · rw [phpArray_every hm]
    exact congrArg pure (by decide +kernel)
  · rw [pyDict_every hm hu]
    exact congrArg pure (by decide +kernel)

end Hext.Props
