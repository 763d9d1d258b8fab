import Verif.Spec.Records
import Verif.Props.Paths
set_option linter.unusedSimpArgs false
/-!
# C103: hexts without marks are a simple scan
-/

namespace Hext.Props

open Hext Param

section
variable {rx : RxEngine} {h : Heap} {n : Nat}

/-- The field says when the rule matches and what it then captures. -/
structure FieldOf (rx : RxEngine) (h : Heap) (n : Nat) (c : Rule) (f : Field) : Prop where
  opt : c.isOptional = false
  grd : c.isGreedy = false
  sat : ∀ {x}, x.Stored h n → (Sat (Holds rx h) c x ↔ (f x).isSome = true)
  val : ∀ {x g vs}, x.Stored h n → Matched (Holds rx h) c x g → Captured rx h (g ++ [(c, x)]) vs → f x = some vs

theorem embeds_behind {own : RuleInfo → Loc → Prop} {c : Rule} {cs : List Rule} {ks : List Loc} (ho : c.isOptional = false)
    (he : Embeds own (c :: cs) ks) : Embeds own cs ks := by
  induction ks with
  | nil =>
    cases he with
    | optional h1 => rw [ho] at h1; cases h1
  | cons k ks ih =>
    cases he with
    | optional h1 => rw [ho] at h1; cases h1
    | here _ _ h3 => exact h3.prepend k
    | later h1 => exact (ih h1).prepend k

theorem embeds_record : ∀ {ks : List Loc} {cs : List Rule} {fs : List Field}, All2 (FieldOf rx h n) cs fs → (∀ x ∈ ks, x.Stored h n) →
    (Embeds (Holds rx h) cs ks ↔ (nextRecord fs ks).isSome = true)
  | ks, [], _, ha, _ => by cases ha; cases ks <;> exact ⟨fun _ => rfl, fun _ => .nil⟩
  | [], c :: cs, _, ha, _ => by
    cases ha with
    | cons h1 h2 =>
      constructor
      · intro he
        cases he with
        | optional h3 => rw [h1.opt] at h3; cases h3
      · intro he; cases he
  | k :: ks, c :: cs, _, ha, hk => by
    have hk' : ∀ x ∈ ks, x.Stored h n := fun x hx => hk x (by simp [hx])
    have ih1 := embeds_record (ks := ks) ha hk'
    cases ha with
    | @cons _ f _ fs h1 h2 =>
      have ih2 := embeds_record (ks := ks) h2 hk'
      have hs := h1.sat (hk k (by simp))
      unfold nextRecord
      cases hf : f k with
      | none =>
        simp only
        rw [← ih1]
        constructor
        · intro he
          cases he with
          | optional h3 => rw [h1.opt] at h3; cases h3
          | here _ h3 _ => rw [hs, hf] at h3; cases h3
          | later h3 => exact h3
        · exact .later
      | some vs =>
        simp only [Option.isSome_map]
        rw [← ih2]
        constructor
        · intro he
          cases he with
          | optional h3 => rw [h1.opt] at h3; cases h3
          | here _ _ h3 => exact h3
          | later h3 => exact embeds_behind h1.opt h3
        · exact .here h1.opt (hs.2 (by rw [hf]; rfl))

theorem nextRecord_skip {f : Field} {fs : List Field} {b ks : List Loc} (hb : ∀ y ∈ b, f y = none) :
    nextRecord (f :: fs) (b ++ ks) = nextRecord (f :: fs) ks := by
  induction b with
  | nil => rfl
  | cons y b ih =>
    rw [List.cons_append, nextRecord, hb y (by simp)]
    exact ih fun z hz => hb z (by simp [hz])

theorem run_record {cs : List Rule} {fs : List Field} (ha : All2 (FieldOf rx h n) cs fs) : ∀ {first : Option Rule} {ks rest : List Loc}
    {steps : List (Anchored Assigned)} {final : List Assigned} {ws : List (Str × Str)}, (∀ x ∈ ks, x.Stored h n) →
    Run Rule.isOptional Rule.isGreedy (Sat (Holds rx h)) Assigned.rule Assigned.loc first [] cs ks steps final rest →
    AllMatched (Holds rx h) (Anchored.uses steps final) → Captured rx h (groupPairs steps final) ws → nextRecord fs ks = some (ws, rest) := by
  induction ha with
  | nil =>
    intro first ks rest steps final ws _ hr _ hc
    obtain ⟨rfl, rfl, rfl⟩ := run_nil hr
    cases hc
    cases rest <;> rfl
  | @cons c f cs fs h1 h2 ih =>
    intro first ks rest steps final ws hk hr hm hc
    generalize hC : c :: cs = C at hr
    cases hr with
    | done => cases hC
    | optional h3 => cases hC; rw [h1.opt] at h3; cases h3
    | anchorGreedy _ _ _ h3 => cases hC; rw [h1.grd] at h3; cases h3
    | fillEnd h3 => exact absurd rfl h3
    | fillNext h3 => exact absurd rfl h3
    | fillAll h3 => exact absurd rfl h3
    | @anchor _ _ _ _ _ b r a us o steps final _ k1 k2 k3 k4 k5 k6 =>
      cases hC
      cases k4
      obtain ⟨rfl, e2, e3⟩ := k3
      have ha : a.loc.Stored h n := hk _ (by simp)
      have hb : ∀ y ∈ b, f y = none := fun y hy => by
        have := mt (h1.sat (hk y (by simp [hy]))).2 (e2 y hy)
        simpa using this
      simp only [Anchored.uses, List.flatMap_cons, List.nil_append, List.cons_append, List.append_assoc] at hm
      simp only [groupPairs, List.flatMap_cons, List.flatMap_nil, List.append_nil, List.append_assoc] at hc
      have hc : Captured rx h ((a.found ++ [(a.rule, a.loc)]) ++ groupPairs steps final) ws := by
        simpa [groupPairs] using hc
      obtain ⟨v, w, rfl, w1, w2⟩ := captured_split hc
      cases hm with
      | cons m1 m2 =>
        rw [k2] at m1 w1
        rw [nextRecord_skip hb, nextRecord, h1.val ha m1 w1, ih (fun x hx => hk x (by simp [hx])) k6 m2 w2]
        rfl

theorem nextRecord_shorter : ∀ {ks : List Loc} {f : Field} {fs : List Field} {vs : List (Str × Str)} {rest : List Loc},
    nextRecord (f :: fs) ks = some (vs, rest) → rest.length < ks.length
  | [], _, _, _, _, he => by cases he
  | k :: ks, f, fs, vs, rest, he => by
    rw [nextRecord] at he
    split at he
    · have := nextRecord_shorter he
      simp only [List.length_cons]; omega
    · obtain ⟨⟨v, r⟩, h1, h2⟩ := Option.map_eq_some_iff.1 he
      cases h2
      cases fs with
      | nil => cases ks <;> cases h1 <;> simp
      | cons g fs =>
        have := nextRecord_shorter h1
        simp only [List.length_cons]; omega

theorem nextRecord_suffix : ∀ {ks : List Loc} {fs : List Field} {vs : List (Str × Str)} {rest : List Loc},
    nextRecord fs ks = some (vs, rest) → rest <:+ ks
  | ks, [], _, _, he => by cases ks <;> (cases he; exact List.suffix_refl _)
  | [], _ :: _, _, _, he => by cases he
  | k :: ks, f :: fs, vs, rest, he => by
    rw [nextRecord] at he
    split at he
    · exact (nextRecord_suffix he).trans (List.suffix_cons _ _)
    · obtain ⟨⟨v, r⟩, h1, h2⟩ := Option.map_eq_some_iff.1 he
      cases h2
      exact (nextRecord_suffix h1).trans (List.suffix_cons _ _)

theorem groups_records {c : Rule} {cs : List Rule} {fs : List Field} (ha : All2 (FieldOf rx h n) (c :: cs) fs) : ∀ (m : Nat) {ks : List Loc} {gs : List Found}
    {vss : List (List (Str × Str))}, (∀ x ∈ ks, x.Stored h n) → ks.length ≤ m → Groups (Holds rx h) (c :: cs) ks gs → All2 (Captured rx h) gs vss →
    vss = recordsN fs m ks := by
  intro m
  induction m with
  | zero =>
    intro ks gs vss hk hm hg hc
    obtain rfl : ks = [] := List.eq_nil_of_length_eq_zero (by omega)
    cases hg with
    | stop => cases hc; rfl
    | stopOptional => cases hc; rfl
    | cons k1 _ =>
      have := (embeds_record ha (by simp)).1 k1.embeds
      cases ha
      cases this
  | succ m ih =>
    intro ks gs vss hk hm hg hc
    cases hg with
    | stop k1 =>
      cases hc
      have := mt (embeds_record ha hk).2 k1
      have : nextRecord fs ks = none := by simpa using this
      rw [recordsN, this]
    | stopOptional k1 =>
      have := k1 c (by simp)
      cases ha with
      | cons h1 _ => rw [h1.opt] at this; cases this
    | cons k1 k2 =>
      cases hc with
      | cons c1 c2 =>
        cases k1 with
        | mk steps final hrun hall hne =>
          have hn := run_record ha hk hrun hall c1
          rw [recordsN, hn]
          simp only
          cases ha with
          | cons a1 a2 =>
            have hlt := nextRecord_shorter hn
            rw [← ih (fun x hx => hk x ((nextRecord_suffix hn).subset hx)) (by omega) k2 c2]

theorem all2_split {α β : Type} {R : α → β → Prop} : ∀ {a b : List α} {vs : List β}, All2 R (a ++ b) vs →
    ∃ v w, vs = v ++ w ∧ All2 R a v ∧ All2 R b w
  | [], _, vs, h => ⟨[], vs, rfl, .nil, h⟩
  | x :: a, b, _, h => by
    cases h with
    | cons h1 h2 =>
      obtain ⟨v, w, rfl, h3, h4⟩ := all2_split h2
      exact ⟨_ :: v, w, rfl, .cons h1 h3, h4⟩

theorem search_records {c : Rule} {cs : List Rule} {fs : List Field} (ha : All2 (FieldOf rx h n) (c :: cs) fs) : ∀ {kss : List (List Loc)}
    {gs : List Found} {vss : List (List (Str × Str))}, (∀ ks ∈ kss, ∀ x ∈ ks, x.Stored h n) → Search (Holds rx h) (c :: cs) kss gs → All2 (Captured rx h) gs vss →
    vss = kss.flatMap (records fs)
  | [], _, _, _, hs, hc => by cases hs; cases hc; rfl
  | ks :: kss, _, _, hk, hs, hc => by
    cases hs with
    | cons k1 k2 =>
      obtain ⟨v, w, rfl, c1, c2⟩ := all2_split hc
      rw [List.flatMap_cons, ← search_records ha (fun ks hks => hk ks (by simp [hks])) k2 c2,
        groups_records ha _ (hk ks (by simp)) (Nat.le_refl _) k1 c1]
      rfl


theorem captured_parts : ∀ {gs : List Found} {ws : List (Str × Str)}, Captured rx h gs.flatten ws →
    ∃ vss, All2 (Captured rx h) gs vss ∧ ws = vss.flatten
  | [], _, hc => by cases hc; exact ⟨[], .nil, rfl⟩
  | g :: gs, _, hc => by
    rw [List.flatten_cons] at hc
    obtain ⟨v, w, rfl, h1, h2⟩ := captured_split hc
    obtain ⟨vss, h3, rfl⟩ := captured_parts h2
    exact ⟨v :: vss, .cons h1 h3, rfl⟩

theorem records_ne {f : Field} {fs : List Field} {ks : List Loc} : records (f :: fs) ks ≠ [] ↔ (nextRecord (f :: fs) ks).isSome = true := by
  unfold records
  cases ks with
  | nil => exact ⟨fun h => absurd rfl h, fun h => by cases h⟩
  | cons k ks =>
    rw [List.length_cons, recordsN]
    cases nextRecord (f :: fs) (k :: ks) with
    | none => simp
    | some p => simp

theorem recordsIn_some {f : Field} {fs : List Field} {kss : List (List Loc)} :
    (recordsIn (f :: fs) kss).isSome = true ↔ ∃ ks ∈ kss, (nextRecord (f :: fs) ks).isSome = true := by
  have h1 : (recordsIn (f :: fs) kss).isSome = true ↔ kss.flatMap (records (f :: fs)) ≠ [] := by
    unfold recordsIn
    split
    · rename_i h; simp [h]
    · rename_i h; simpa using h
  rw [h1, ne_eq, List.flatMap_eq_nil_iff]
  constructor
  · intro h2
    refine Classical.byContradiction fun h3 => h2 fun ks hks => Classical.byContradiction fun h4 => h3 ⟨ks, hks, records_ne.1 h4⟩
  · rintro ⟨ks, hks, h2⟩ h3
    exact records_ne.2 h2 (h3 ks hks)

theorem recordsIn_eq {fs : List Field} {kss : List (List Loc)} (hs : (recordsIn fs kss).isSome = true) :
    recordsIn fs kss = some (kss.flatMap (records fs)).flatten := by
  unfold recordsIn at hs ⊢
  split
  · rename_i h; rw [h] at hs; cases hs
  · rfl

/-- The fields of a chain, which is not empty. -/
def ChainFields (rx : RxEngine) (h : Heap) (n : Nat) (q : Rule) (fs : List Field) : Prop := All2 (FieldOf rx h n) q.siblings fs

theorem siblings_cons (q : Rule) : ∃ c cs, q.siblings = c :: cs := by
  obtain ⟨i, c, nx, ns⟩ := q
  cases nx <;> exact ⟨_, _, rfl⟩

theorem under_all_stored {x : Loc} (hx : x.Stored h n) : ∀ ks ∈ x.self.under, ∀ y ∈ ks, y.Stored h n := by
  intro ks hks y hy
  exact step_stored (deep := true) hx (by simp only [Loc.step, if_true]; exact List.mem_flatten.2 ⟨ks, hks, hy⟩)

theorem nested_records {qs : List Rule} {fss : List (List Field)} (ha : All2 (ChainFields rx h n) qs fss) {x : Loc} (hx : x.Stored h n) :
    (NestedSat (Holds rx h) qs x.self ↔ (recordsInAll fss x.self.under).isSome = true) ∧
    ∀ ps ws, NestedSat (Holds rx h) qs x.self → Nested (Holds rx h) qs x.self ps → Captured rx h ps ws → recordsInAll fss x.self.under = some ws := by
  induction ha with
  | nil =>
    refine ⟨⟨fun _ => rfl, fun _ => .nil⟩, fun ps ws _ hn hc => ?_⟩
    cases hn; cases hc; rfl
  | @cons q fs qs fss h1 h2 ih =>
    unfold ChainFields at h1
    obtain ⟨c, cs, hq⟩ := siblings_cons q
    rw [hq] at h1
    obtain ⟨f, fs', rfl⟩ : ∃ f fs', fs = f :: fs' := by cases h1; exact ⟨_, _, rfl⟩
    have hfirst : (∃ ks ∈ x.self.under, Embeds (Holds rx h) q.siblings ks) ↔ (recordsIn (f :: fs') x.self.under).isSome = true := by
      rw [recordsIn_some, hq]
      constructor
      · rintro ⟨ks, k1, k2⟩; exact ⟨ks, k1, (embeds_record h1 (under_all_stored hx ks k1)).1 k2⟩
      · rintro ⟨ks, k1, k2⟩; exact ⟨ks, k1, (embeds_record h1 (under_all_stored hx ks k1)).2 k2⟩
    have hsat : NestedSat (Holds rx h) (q :: qs) x.self ↔
        (recordsIn (f :: fs') x.self.under).isSome = true ∧ (recordsInAll fss x.self.under).isSome = true := by
      rw [← hfirst, ← ih.1]
      constructor
      · intro k
        cases k with
        | cons k1 k2 k3 => exact ⟨⟨_, k1, k2⟩, k3⟩
      · rintro ⟨⟨ks, k1, k2⟩, k3⟩; exact .cons k1 k2 k3
    refine ⟨?_, fun ps ws k hn hc => ?_⟩
    · rw [hsat, recordsInAll]
      cases recordsIn (f :: fs') x.self.under <;> cases recordsInAll fss x.self.under <;> simp
    · have h3 := hsat.1 k
      cases k with
      | cons _ _ k3 =>
        cases hn with
        | cons n1 n2 =>
          obtain ⟨v, w, rfl, c1, c2⟩ := captured_split hc
          obtain ⟨vss, c3, rfl⟩ := captured_parts c1
          rw [hq] at n1
          rw [recordsInAll, recordsIn_eq h3.1, ih.2 _ _ k3 n2 c2, ← search_records h1 (under_all_stored hx) n1 c3]

theorem step_false {x : Loc} (he : x.self.kind.isElement = true) : x.step false = locs x.self.kids := by
  simp only [Loc.step, Bool.false_eq_true, if_false]
  split
  · rfl
  · rename_i hq
    cases hk : x.self.kind with
    | element e => exact absurd hk (hq e)
    | _ => rw [hk] at he; cases he

theorem place_field {i : RuleInfo} {c nx : Option Rule} {ns : List Rule} (hi : i.Safe n) (hu : Unmarked i) {kids : List Field} {braces : List (List Field)}
    (hc : All2 (FieldOf rx h n) (chainOf c) kids) (hns : All2 (ChainFields rx h n) ns braces) :
    FieldOf rx h n (.mk i c nx ns) (fun x => placeValues (ownValues rx h i x) kids braces x) := by
  have hown : ∀ {x : Loc}, x.Stored h n → ∀ vs, ownValues rx h i x = some vs ↔ Holds rx h i x ∧ ruleCapture rx h x.ptr i.caps = pure vs :=
    fun hx => ownValues_isVal rx h n [i] i (by simp) _ hx
  have hsome : ∀ {x : Loc}, x.Stored h n → ((ownValues rx h i x).isSome = true ↔ Holds rx h i x) :=
    fun hx => isVal_some (ownValues_isVal rx h n [i]) (i := i) (by simp) hi hx
  have hsat : ∀ {x : Loc}, x.Stored h n → (Sat (Holds rx h) (.mk i c nx ns) x ↔
      Holds rx h i x ∧ (kids ≠ [] → Embeds (Holds rx h) (chainOf c) (x.step false)) ∧ NestedSat (Holds rx h) ns x.self) := by
    intro x hx
    constructor
    · intro k
      cases k with
      | leaf k1 k2 k3 =>
        have k2 : c = none := k2
        have k3 : ns = [] := k3
        subst k2; subst k3
        cases hc
        exact ⟨k1, fun h => absurd rfl h, .nil⟩
      | inner k1 k2 k3 k4 k5 => exact ⟨k1, fun _ => by rw [step_false k2]; exact k4, k5⟩
    · rintro ⟨k1, k2, k3⟩
      by_cases h0 : c = none ∧ ns = []
      · exact .leaf k1 h0.1 h0.2
      · have hel : x.self.kind.isElement = true ∧ x.self.kids ≠ [] := by
          by_cases h1 : ns = []
          · have h2 : c ≠ none := fun h2 => h0 ⟨h2, h1⟩
            obtain ⟨q, rfl⟩ := Option.ne_none_iff_exists'.1 h2
            obtain ⟨d, ds, hd⟩ := siblings_cons q
            have hd' : chainOf (some q) = d :: ds := hd
            rw [hd'] at hc k2
            cases hc with
            | cons c1 c2 =>
              have k2 := k2 (by simp)
              have hne : x.step false ≠ [] := by
                intro hq
                rw [hq] at k2
                cases k2 with
                | optional h3 => rw [c1.opt] at h3; cases h3
              simp only [Loc.step, Bool.false_eq_true, if_false] at hne
              split at hne
              · rename_i e he
                refine ⟨by rw [he]; rfl, fun hq => hne ?_⟩
                rw [hq]; rfl
              · exact absurd rfl hne
          · cases k3 with
            | nil => exact absurd rfl h1
            | cons e1 _ _ => exact under_kids (List.ne_nil_of_mem e1)
        refine .inner k1 hel.1 hel.2 ?_ k3
        show Embeds (Holds rx h) (chainOf c) (locs x.self.kids)
        rw [← step_false hel.1]
        by_cases hk : kids = []
        · subst hk
          have : chainOf c = [] := (All2.nil_iff hc).2 rfl
          rw [this]; exact .nil
        · exact k2 hk
  have hkid : ∀ {x : Loc}, x.Stored h n → ((kids ≠ [] → Embeds (Holds rx h) (chainOf c) (x.step false)) ↔
      (if kids.isEmpty then some [] else recordsIn kids [x.step false]).isSome = true) := by
    intro x hx
    cases kids with
    | nil => simp
    | cons f fs =>
      simp only [List.isEmpty_cons, Bool.false_eq_true, if_false, recordsIn_some, List.mem_singleton, exists_eq_left, ne_eq, List.cons_ne_nil, not_false_eq_true, forall_const]
      exact embeds_record hc fun y hy => step_stored hx hy
  refine ⟨hu.1, hu.2, ?_, ?_⟩
  · intro x hx
    rw [hsat hx, hkid hx, ← hsome hx, (nested_records hns hx).1]
    unfold placeValues
    cases ownValues rx h i x <;> cases (if kids.isEmpty then some [] else recordsIn kids [x.step false]) <;>
      cases recordsInAll braces x.self.under <;> simp
  · intro x g vs hx hm hcap
    have hst : Sat (Holds rx h) (.mk i c nx ns) x := by cases hm <;> assumption
    obtain ⟨k1, k2, k3⟩ := (hsat hx).1 hst
    obtain ⟨v, w, rfl, w1, w2⟩ := captured_split hcap
    have ho : ownValues rx h i x = some w := (hown hx w).2 ⟨k1, captured_own w2⟩
    cases hm with
    | leaf _ l2 l3 =>
      have l2 : c = none := l2
      have l3 : ns = [] := l3
      subst l2; subst l3
      cases hc; cases hns; cases w1
      simp [placeValues, ho, recordsInAll]
    | inner _ l2 l3 l4 =>
      have hel : x.self.kind.isElement = true := by
        cases hst with
        | leaf _ q1 q2 => exact absurd ⟨q1, q2⟩ l2
        | inner _ q1 => exact q1
      obtain ⟨v1, v2, rfl, c1, c2⟩ := captured_split w1
      have hv2 := (nested_records hns hx).2 _ _ k3 l4 c2
      have hv1 : (if kids.isEmpty then some [] else recordsIn kids [x.step false]) = some v1 := by
        have l3 : Groups (Holds rx h) (chainOf c) (locs x.self.kids) _ := l3
        have hk := (hkid hx).1 k2
        cases kids with
        | nil =>
          have : chainOf c = [] := (All2.nil_iff hc).2 rfl
          rw [this] at l3
          cases groups_nil l3
          cases c1
          rfl
        | cons f fs =>
          obtain ⟨d, ds, hd⟩ : ∃ d ds, chainOf c = d :: ds := by
            cases hq : chainOf c with
            | nil => rw [hq] at hc; cases hc
            | cons d ds => exact ⟨_, _, rfl⟩
          rw [hd] at hc l3
          obtain ⟨vss, c3, rfl⟩ := captured_parts c1
          simp only [List.isEmpty_cons, Bool.false_eq_true, if_false] at hk ⊢
          rw [recordsIn_eq hk, List.flatMap_singleton, step_false hel]
          rw [groups_records hc _ (fun y hy => step_stored (deep := false) hx (by rw [step_false hel]; exact hy)) (Nat.le_refl _) l3 c3]
          rfl
      simp only [placeValues, ho, hv1, hv2]

theorem siblings_eq (i : RuleInfo) (c nx : Option Rule) (ns : List Rule) : (Rule.mk i c nx ns).siblings = .mk i c nx ns :: chainOf nx := by
  cases nx <;> rfl

mutual
theorem rule_fields : ∀ {r : Rule}, r.Safe n → r.All Unmarked → ChainFields rx h n r (r.fields (ownValues rx h))
  | .mk i c nx ns, hs, hu => by
    unfold ChainFields
    rw [siblings_eq, Rule.fields]
    exact .cons (place_field hs.1 hu.1 (rule_fieldsO (r := c) hs.2.1 hu.2.1) (rule_fieldsL (rs := ns) hs.2.2.2 hu.2.2.2)) (rule_fieldsO (r := nx) hs.2.2.1 hu.2.2.1)
theorem rule_fieldsO : ∀ {r : Option Rule}, Rule.AllO (RuleInfo.Safe n) r → Rule.AllO Unmarked r →
    All2 (FieldOf rx h n) (chainOf r) (Rule.fieldsO (ownValues rx h) r)
  | none, _, _ => .nil
  | some r, hs, hu => rule_fields (r := r) hs hu
theorem rule_fieldsL : ∀ {rs : List Rule}, Rule.AllL (RuleInfo.Safe n) rs → Rule.AllL Unmarked rs →
    All2 (ChainFields rx h n) rs (Rule.fieldsL (ownValues rx h) rs)
  | [], _, _ => .nil
  | r :: rs, hs, hu => .cons (rule_fields (r := r) hs.1 hu.1) (rule_fieldsL (rs := rs) hs.2 hu.2)
end

/-- C103. No rule is optional or greedy: the result is that of the scan, in each searched list of siblings. -/
theorem C103_scan (hn : n ≤ 2147483647) {r : Rule} (hr : r.Safe n) (hu : r.All Unmarked) {l : Loc} (hl : l.Stored h n) :
    ∃ maps, MapsOf (l.searched.flatMap (records (r.fields (ownValues rx h)))) maps ∧ extract rx h r l.ptr 0 = pure (maps.filter (· ≠ [])) := by
  obtain ⟨res, he⟩ := extract_unlimited (rx := rx) hn hr hl
  obtain ⟨gs, maps, h1, h2, rfl⟩ := (extract_characterised hn hr hl res).1 he
  refine ⟨maps, ?_, he⟩
  have hf := rule_fields (rx := rx) (h := h) hr hu
  unfold ChainFields at hf
  obtain ⟨c, cs, hq⟩ := siblings_cons r
  rw [hq] at hf h1
  obtain ⟨vss, c1, c2⟩ : ∃ vss, All2 (Captured rx h) gs vss ∧ MapsOf vss maps := by
    clear h1 he
    induction h2 with
    | nil => exact ⟨[], .nil, .nil⟩
    | cons a b _ ih =>
      obtain ⟨vss, i1, i2⟩ := ih
      exact ⟨_ :: vss, .cons a i1, .cons b i2⟩
  rw [← search_records hf (fun ks hks => searched_stored hl ks hks) h1 c1]
  exact c2


open Syn in
/-- C103. A hext in which no tag has the mark `?` or `+`. (Numbers with ten digits are left out, see C18.) -/
theorem C103_hext {charSigned : Bool} {is : List Item} {r : Rule} (hok : ∀ i ∈ is, i.Ok) (hopt : ∀ hd sc, Item.start hd sc ∈ is → hd.options = [])
    (hs : NoLong (itemsText is)) (hp : parseHext rx charSigned (itemsText is) = .ok r) {t : Tree} (hd : IsDocument h 1147483648 t) :
    ∃ maps, MapsOf ((Loc.root t).searched.flatMap (records (r.fields (ownValues rx h)))) maps ∧
      extract rx h r t.ptr 0 = pure (maps.filter (· ≠ [])) := by
  refine C103_scan (n := 1147483648) (by decide) (parse_safe hs hp) ?_ (l := Loc.root t) hd
  obtain ⟨f, rs, hseq, rfl⟩ := (parse_items hok r).1 hp
  refine ruleOf_all (fun _ => ⟨rfl, rfl⟩) (seq_all hseq fun hd c hc f f' info hm => ?_)
  have := hopt hd c hc
  simp only [Head.meaning, Option.bind_eq_bind, Option.bind_eq_some_iff] at hm
  obtain ⟨x, _, y, _, hm⟩ := hm
  cases hm
  rw [this]
  exact ⟨rfl, rfl⟩

/-- `<table><tr><td id="1"></td><td class="2"></td><td id="3"></td><td class="4"></td></tr><tr><td class="5"></td><td id="6"></td></tr></table>` -/
def tablePage : Tree := Ex.el 1 "table" [] [
  Ex.el 2 "tr" [] [Ex.el 3 "td" [("id", "1")] [], Ex.el 4 "td" [("class", "2")] [], Ex.el 5 "td" [("id", "3")] [], Ex.el 6 "td" [("class", "4")] []],
  Ex.el 7 "tr" [] [Ex.el 8 "td" [("class", "5")] [], Ex.el 9 "td" [("id", "6")] []]]

def cellItems : List Syn.Item := [
  .start { options := [], tag := lit "td", conds := [], pats := [([32], .capAttr (lit "id") [] (.plain (lit "x")) false)], ws := [] } true,
  .start { options := [], tag := lit "td", conds := [], pats := [([32], .capAttr (lit "class") [] (.plain (lit "y")) false)], ws := [] } true]

open Syn in
theorem cellItems_ok : ∀ i ∈ cellItems, i.Ok := by
  simp only [cellItems, List.mem_cons, List.not_mem_nil, or_false]
  rintro i (rfl | rfl)
  · refine ⟨.inr (isName_check (by decide +kernel)), by simp, ?_, by simp⟩
    simp only [List.mem_cons, List.not_mem_nil, or_false, forall_eq]
    refine ⟨by simp, by simp [IsSpace], isName_check (by decide +kernel), by simp, by decide, ?_⟩
    simp only [lit, IsNameByte, IsAlpha]; decide
  · refine ⟨.inr (isName_check (by decide +kernel)), by simp, ?_, by simp⟩
    simp only [List.mem_cons, List.not_mem_nil, or_false, forall_eq]
    refine ⟨by simp, by simp [IsSpace], isName_check (by decide +kernel), by simp, by decide, ?_⟩
    simp only [lit, IsNameByte, IsAlpha]; decide

def cellRule : Rule :=
  .mk (linkInfo (lit "td") (lit "id") (lit "x")) none (some (.mk (linkInfo (lit "td") (lit "class") (lit "y")) none none [])) []

/-- `<td id:x/><td class:y/>` finds two records in the first row and none in the second one. -/
example : ∃ r, parseHext Ex.rx true (lit "<td id:x/><td class:y/>") = .ok r ∧
    extract Ex.rx (docHeap 0 tablePage) r tablePage.ptr 0 =
      pure [[(lit "x", lit "1"), (lit "y", lit "2")], [(lit "x", lit "3"), (lit "y", lit "4")]] := by
  have hd : IsDocument (docHeap 0 tablePage) 1147483648 tablePage := isDocument_of_ok (by decide +kernel)
  have htext : Syn.itemsText cellItems = lit "<td id:x/><td class:y/>" := by decide +kernel
  have hp := (parse_items (rx := Ex.rx) (cs := true) cellItems_ok cellRule).2
    ⟨_, _, .elem (is := [_]) (.selfClosing rfl) (.elem (is := [_]) (.selfClosing rfl) .nil), rfl⟩
  obtain ⟨maps, h1, h2⟩ := C103_hext (rx := Ex.rx) cellItems_ok (by
    simp only [cellItems, List.mem_cons, List.not_mem_nil, or_false]
    rintro hd sc (h | h) <;> cases h <;> rfl) (noLong_of_few (by decide +kernel)) hp hd
  rw [htext] at hp
  refine ⟨_, hp, h2.trans ?_⟩
  have hrec : (Loc.root tablePage).searched.flatMap (records (Rule.fields (ownValues Ex.rx (docHeap 0 tablePage)) cellRule)) =
      [[(lit "x", lit "1"), (lit "y", lit "2")], [(lit "x", lit "3"), (lit "y", lit "4")]] := by decide +kernel
  rw [hrec] at h1
  cases h1 with
  | cons m1 h1 =>
    cases h1 with
    | cons m2 h1 =>
      cases h1
      rw [m1.unique (m' := [(lit "x", lit "1"), (lit "y", lit "2")]) ⟨by decide +kernel, fun _ => rfl⟩,
        m2.unique (m' := [(lit "x", lit "3"), (lit "y", lit "4")]) ⟨by decide +kernel, fun _ => rfl⟩]
      rfl

end

end Hext.Props
