import Verif.Spec.Rename
import Verif.Props.Similar
set_option linter.unusedSimpArgs false
/-!
# C81: names only name
-/

namespace Hext.Props

open Hext Param

section
variable {rx : RxEngine} {h : Heap} {n : Nat} (f : Str → Str)

theorem capture_rename {p : Ptr} {c : Capture} {o : Option (Str × Str)} (hc : c.capture rx h p = pure o) :
    (c.rename f).capture rx h p = pure (o.map fun q => (f q.1, q.2)) := by
  cases c with
  | «attribute» a nm pipe =>
    simp only [Capture.capture, Capture.rename] at hc ⊢
    obtain ⟨nd, h1, hc⟩ := bind_eq_pure hc
    rw [h1, pure_bind]
    split at hc
    · split at hc
      · cases E.pure_inj hc; rfl
      · split at hc
        · cases E.pure_inj hc; rfl
        · obtain ⟨w, h2, hc⟩ := bind_eq_pure hc
          have := E.pure_inj hc; subst this
          rw [h2, pure_bind]; rfl
    · cases E.pure_inj hc; rfl
  | function g nm pipe =>
    simp only [Capture.capture, Capture.rename] at hc ⊢
    split at hc
    · injection hc with hc; injection hc
    · obtain ⟨v, h1, hc⟩ := bind_eq_pure hc
      obtain ⟨w, h2, hc⟩ := bind_eq_pure hc
      have := E.pure_inj hc; subst this
      rw [h1, pure_bind, h2, pure_bind]; rfl

theorem ruleCapture_rename {p : Ptr} : ∀ {cs : List (Option Capture)} {vs : List (Str × Str)}, ruleCapture rx h p cs = pure vs →
    ruleCapture rx h p (cs.map (Option.map (Capture.rename f))) = pure (renamePairs f vs)
  | [], vs, hv => by have := E.pure_inj (hv : (pure [] : E _) = _); subst this; rfl
  | none :: cs, vs, hv => ruleCapture_rename (cs := cs) hv
  | some c :: cs, vs, hv => by
    simp only [ruleCapture] at hv
    obtain ⟨o, h1, hv⟩ := bind_eq_pure hv
    obtain ⟨ws, h2, hv⟩ := bind_eq_pure hv
    simp only [List.map_cons, Option.map_some, ruleCapture, capture_rename f h1, ruleCapture_rename h2, pure_bind]
    cases o <;>
    · have := E.pure_inj hv
      subst this
      rfl

/-- The info is the renamed one. -/
def RenamedBy (i i' : RuleInfo) : Prop := i' = i.rename f

mutual
theorem rename_alike : ∀ r : Rule, r.Alike (RenamedBy f) (r.rename f)
  | .mk _ c nx ns => ⟨rfl, rename_alikeO c, rename_alikeO nx, rename_alikeL ns⟩
theorem rename_alikeO : ∀ r : Option Rule, Rule.AlikeO (RenamedBy f) r (Rule.renameO f r)
  | none => rfl
  | some r => ⟨_, rfl, rename_alike r⟩
theorem rename_alikeL : ∀ r : List Rule, Rule.AlikeL (RenamedBy f) r (Rule.renameL f r)
  | [] => rfl
  | r :: rs => ⟨_, _, rfl, rename_alike r, rename_alikeL rs⟩
end

theorem info_rename_safe {i : RuleInfo} (hs : i.Safe n) : (i.rename f).Safe n := by
  refine ⟨hs.1, fun c hc => ?_⟩
  simp only [RuleInfo.rename, List.mem_map] at hc
  obtain ⟨o, ho, hoc⟩ := hc
  cases o with
  | none => cases hoc
  | some d =>
    cases Option.some.inj hoc
    have := hs.2 d ho
    cases d <;> exact this

mutual
theorem rename_safe : ∀ r : Rule, r.Safe n → (r.rename f).Safe n
  | .mk i c nx ns, hs => by
    simp only [Rule.Safe, Rule.All, Rule.rename] at hs ⊢
    exact ⟨info_rename_safe f hs.1, rename_safeO c hs.2.1, rename_safeO nx hs.2.2.1, rename_safeL ns hs.2.2.2⟩
theorem rename_safeO : ∀ r : Option Rule, Rule.AllO (RuleInfo.Safe n) r → Rule.AllO (RuleInfo.Safe n) (Rule.renameO f r)
  | none, _ => trivial
  | some r, hs => rename_safe r hs
theorem rename_safeL : ∀ r : List Rule, Rule.AllL (RuleInfo.Safe n) r → Rule.AllL (RuleInfo.Safe n) (Rule.renameL f r)
  | [], _ => trivial
  | r :: rs, hs => ⟨rename_safe r hs.1, rename_safeL rs hs.2⟩
end

theorem captured_rename {Ok : Loc → Prop} {g g' : Pairs RulePtr Loc} (hg : All2 (Pair2 (PRel (RenamedBy f)) (Same Ok)) g g')
    {vs vs' : List (Str × Str)} (hv : Captured rx h (found g) vs) (hv' : Captured rx h (found g') vs') : vs' = renamePairs f vs := by
  induction hg generalizing vs vs' with
  | nil => cases hv; cases hv'; rfl
  | @cons p q g g' hpq _ ih =>
    cases hv with
    | cons k hv =>
      cases hv' with
      | cons k' hv' =>
        have hp : q.1.val.info = p.1.val.info.rename f := hpq.1
        have hx : p.2 = q.2 := lrel_eq hpq.2.1
        have h1 := ruleCapture_rename f k
        change ruleCapture rx h p.2.ptr (p.1.val.info.rename f).caps = _ at h1
        rw [← hp, hx, k'] at h1
        rw [E.pure_inj h1, ih hv hv']
        simp [renamePairs]

/-- The one map is the other one, renamed: both list the same pairs, except that the names differ. -/
def MapsRenamed (m m' : List (Str × Str)) : Prop := ∃ vs, IsMap vs m ∧ IsMap (renamePairs f vs) m'

theorem isMap_nil {vs m : List (Str × Str)} (hm : IsMap vs m) : m = [] ↔ vs = [] := by
  have := (isMap_perm hm).length_eq
  rw [← List.length_eq_zero_iff, ← List.length_eq_zero_iff, this]

theorem maps_rename {Ok : Loc → Prop} {gs gs' : List (Pairs RulePtr Loc)}
    (hg : All2 (All2 (Pair2 (PRel (RenamedBy f)) (Same Ok))) gs gs') {ms ms' : List (List (Str × Str))}
    (hm : Maps rx h (gs.map found) ms) (hm' : Maps rx h (gs'.map found) ms') :
    All2 (MapsRenamed f) (ms.filter (· ≠ [])) (ms'.filter (· ≠ [])) := by
  induction hg generalizing ms ms' with
  | nil => cases hm; cases hm'; exact .nil
  | cons hp _ ih =>
    cases hm with
    | @cons _ _ vs m ms c i hm =>
      cases hm' with
      | @cons _ _ vs' m' ms' c' i' hm' =>
        have e := captured_rename f hp c c'
        subst e
        have hnil : m = [] ↔ m' = [] := by
          rw [isMap_nil i, isMap_nil i']
          simp [renamePairs]
        rw [List.filter_cons, List.filter_cons]
        by_cases hmn : m = []
        · rw [if_neg (by simp [hmn]), if_neg (by simp [hnil.1 hmn])]
          exact ih hm hm'
        · rw [if_pos (by simp [hmn]), if_pos (by simpa using fun k => hmn (hnil.2 k))]
          exact .cons ⟨vs, i, i'⟩ (ih hm hm')

theorem all2_zip {α β : Type} {R : α → β → Prop} {xs : List α} {ys : List β} (h : All2 R xs ys) :
    xs.length = ys.length ∧ ∀ p ∈ xs.zip ys, R p.1 p.2 := by
  induction h with
  | nil => simp
  | cons h _ ih =>
    refine ⟨by simp [ih.1], ?_⟩
    simp only [List.zip_cons_cons, List.mem_cons]
    rintro p (rfl | hp)
    · exact h
    · exact ih.2 p hp

variable {r : Rule} {l : Loc}

/-- C81. Give other names to what a rule captures, the same name to several captures if you like. Then the extraction throws for the
same limits; and it returns as many maps, and each of them has the pairs of the original map, in the order in which they were
captured, under the new names. -/
theorem names_only_name (hn : n ≤ 2147483647) (hs : r.Safe n) (hl : l.Stored h n) (ms : UInt64) :
    (extract rx h r l.ptr ms = throw .maxSearch ∧ extract rx h (r.rename f) l.ptr ms = throw .maxSearch) ∨
    ∃ res res', extract rx h r l.ptr ms = pure res ∧ extract rx h (r.rename f) l.ptr ms = pure res' ∧
      res.length = res'.length ∧ ∀ p ∈ res.zip res', ∃ vs, IsMap vs p.1 ∧ IsMap (renamePairs f vs) p.2 := by
  obtain ⟨res, _, ⟨maps, h1, h2⟩, h3⟩ := extract_result (rx := rx) hn hs hl
  obtain ⟨res', _, ⟨maps', h1', h2'⟩, h3'⟩ := extract_result (rx := rx) hn (rename_safe f r hs) hl
  have hsame := search_same (rx := rx) (I := RenamedBy f) (fun i i' hi => by rw [hi]; rfl) (rename_alike f r) hl
  rw [h3, h3', hsame.2]
  split
  · exact .inl ⟨rfl, rfl⟩
  · refine .inr ⟨res, res', rfl, rfl, ?_⟩
    subst h2 h2'
    exact all2_zip (maps_rename f hsame.1 h1 h1')

theorem valuesUnder_rename (hf : ∀ a b, f a = f b → a = b) (name : Str) (vs : List (Str × Str)) :
    valuesUnder (f name) (renamePairs f vs) = valuesUnder name vs := by
  induction vs with
  | nil => rfl
  | cons p vs ih =>
    simp only [valuesUnder, renamePairs, List.map_cons, List.filter_cons] at ih ⊢
    by_cases hp : p.1 = name
    · simp only [hp, decide_true, if_true, List.map_cons, ih]
    · have : ¬ f p.1 = f name := fun k => hp (hf _ _ k)
      simp only [hp, this, decide_false, Bool.false_eq_true, if_false, ih]

theorem valuesUnder_isMap {vs m : List (Str × Str)} (hm : IsMap vs m) (name : Str) : valuesUnder name m = valuesUnder name vs := by
  unfold valuesUnder
  rw [hm.2 name]

/-- C81. If different names stay different, then every map has under every new name exactly the values that it had under the old one,
in the same order. -/
theorem C81_values (hf : ∀ a b, f a = f b → a = b) (hn : n ≤ 2147483647) (hs : r.Safe n) (hl : l.Stored h n) (ms : UInt64)
    {res : List (List (Str × Str))} (he : extract rx h r l.ptr ms = pure res) :
    ∃ res', extract rx h (r.rename f) l.ptr ms = pure res' ∧ res.length = res'.length ∧
      ∀ p ∈ res.zip res', ∀ name, valuesUnder (f name) p.2 = valuesUnder name p.1 := by
  rcases names_only_name (rx := rx) f hn hs hl ms with ⟨h1, _⟩ | ⟨res₀, res', h1, h2, h3, h4⟩
  · rw [h1] at he; cases he
  · rw [h1] at he
    have := E.pure_inj he
    subst this
    refine ⟨res', h2, h3, fun p hp name => ?_⟩
    obtain ⟨vs, k1, k2⟩ := h4 p hp
    rw [valuesUnder_isMap k1, valuesUnder_isMap k2, valuesUnder_rename f hf]

end

/-! ## Examples -/

/-- All captures of `Ex.r` get longer names. -/
def longName (s : Str) : Str := lit "the-" ++ s

theorem longName_inj (a b : Str) (h : longName a = longName b) : a = b := List.append_cancel_left h

example (ms : UInt64) : (extract Ex.rx Ex.heap Ex.r Ex.doc.ptr ms = throw .maxSearch ∧
      extract Ex.rx Ex.heap (Ex.r.rename longName) Ex.doc.ptr ms = throw .maxSearch) ∨
    ∃ res res', extract Ex.rx Ex.heap Ex.r Ex.doc.ptr ms = pure res ∧ extract Ex.rx Ex.heap (Ex.r.rename longName) Ex.doc.ptr ms = pure res' ∧
      res.length = res'.length ∧ ∀ p ∈ res.zip res', ∃ vs, IsMap vs p.1 ∧ IsMap (renamePairs longName vs) p.2 :=
  names_only_name (l := Loc.root Ex.doc) (n := 2147483647) longName (by decide) (Ex.r_safe _) Ex.doc_ok ms

example {res : List (List (Str × Str))} (he : extract Ex.rx Ex.heap Ex.r Ex.doc.ptr 0 = pure res) :
    ∃ res', extract Ex.rx Ex.heap (Ex.r.rename longName) Ex.doc.ptr 0 = pure res' ∧ res.length = res'.length ∧
      ∀ p ∈ res.zip res', ∀ name, valuesUnder (longName name) p.2 = valuesUnder name p.1 :=
  C81_values (l := Loc.root Ex.doc) (n := 2147483647) longName longName_inj (by decide) (Ex.r_safe _) Ex.doc_ok 0 he

/-- The rule of the second example, spelled out. -/
example : Ex.r.rename longName = Ex.rule "div" (child := some (Ex.rule "a" (caps := [Ex.capHref "the-x"])
    (next := some (Ex.rule "b" (optional := true) (caps := [Ex.capHref "the-y"]))))) := by rfl

end Hext.Props
