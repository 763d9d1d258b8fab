import Verif.Spec.Wrap
import Verif.Props.Records
import Verif.Props.Trim
/-!
# Further enclosing elements (C112)
-/

namespace Hext.Props

open Hext Param Syn

namespace Wrap

/-! ## Conditions -/

section
variable {rx : RxEngine} {h h' : Heap} {n n' : Nat}

/-- The same kind of node at the same place among siblings of the same kinds. -/
structure Spot (x x' : Loc) : Prop where
  kind : x.self.kind = x'.self.kind
  inElem : x.inElem = x'.inElem
  before : x.before.map Tree.kind = x'.before.map Tree.kind
  after : x.after.map Tree.kind = x'.after.map Tree.kind

theorem counted_kind {o : Option Tag} {t t' : Tree} (hk : t.kind = t'.kind) : isCounted o t = isCounted o t' := by
  simp only [isCounted, hk]

theorem counted_length {o : Option Tag} : ∀ {ts ts' : List Tree}, ts.map Tree.kind = ts'.map Tree.kind →
    (ts.filter (isCounted o)).length = (ts'.filter (isCounted o)).length
  | [], [], _ => rfl
  | [], _ :: _, h => by simp at h
  | _ :: _, [], h => by simp at h
  | t :: ts, t' :: ts', h => by
    simp only [List.map_cons, List.cons.injEq] at h
    have := counted_length (o := o) h.2
    simp only [List.filter_cons, counted_kind (o := o) h.1]
    split <;> simp [this]

theorem counted_none {o : Option Tag} : ∀ {ts ts' : List Tree}, ts.map Tree.kind = ts'.map Tree.kind →
    ((∀ t ∈ ts, isCounted o t = false) ↔ ∀ t ∈ ts', isCounted o t = false)
  | [], [], _ => Iff.rfl
  | [], _ :: _, h => by simp at h
  | _ :: _, [], h => by simp at h
  | t :: ts, t' :: ts', h => by
    simp only [List.map_cons, List.cons.injEq] at h
    simp only [List.mem_cons, forall_eq_or_imp, counted_kind (o := o) h.1, counted_none (o := o) h.2]

theorem spot_position {x x' : Loc} (hs : Spot x x') (first : Bool) (o : Option Tag) : x.position first o = x'.position first o := by
  simp only [Loc.position, hs.inElem]
  cases first
  · simp only [Bool.false_eq_true, if_false, counted_length hs.after]
  · simp only [if_true, counted_length hs.before]

mutual
theorem means_placed {x x' : Loc} (hs : Spot x x') : ∀ (m : Match), m.Placed → (m.Means rx h x ↔ m.Means rx h' x')
  | .attribute name none, _ => by simp only [Match.Means, hs.kind]
  | .attribute name (some t), _ => by simp only [Match.Means, hs.kind]
  | .attributeCount k, _ => by simp only [Match.Means, hs.kind]
  | .childCount k, hm => by simp [Match.Placed] at hm
  | .function f, hm => by simp [Match.Placed] at hm
  | .functionValue f test, hm => by simp [Match.Placed] at hm
  | .negate ms, hm => by
    simp only [Match.Placed] at hm
    simp only [Match.Means]
    exact none_placed hs ms hm
  | .nthChild step shift first ofType, _ => by simp only [Match.Means, hs.kind, spot_position hs]
  | .onlyChild ofType, _ => by
    have hb : (x.before ++ x.after).map Tree.kind = (x'.before ++ x'.after).map Tree.kind := by
      rw [List.map_append, List.map_append, hs.before, hs.after]
    simp only [Match.Means, hs.kind, hs.inElem, counted_none hb]
  | .typeRegex r, _ => by simp only [Match.Means, hs.kind]
theorem none_placed {x x' : Loc} (hs : Spot x x') : ∀ (ms : List (Option Match)), Match.PlacedL ms →
    (Match.NoneMeans rx h x ms ↔ Match.NoneMeans rx h' x' ms)
  | [], _ => by simp only [Match.NoneMeans]
  | none :: ms, hm => by
    simp only [Match.PlacedL] at hm
    simp only [Match.NoneMeans]
    exact none_placed hs ms hm
  | some m :: ms, hm => by
    simp only [Match.PlacedL] at hm
    simp only [Match.NoneMeans, means_placed hs m hm.1, none_placed hs ms hm.2]
end

theorem placedL_mem : ∀ {ms : List (Option Match)}, Match.PlacedL ms → ∀ m, some m ∈ ms → m.Placed
  | none :: ms, hp, m, hm => by
    simp only [Match.PlacedL] at hp
    rcases List.mem_cons.1 hm with h | h
    · cases h
    · exact placedL_mem hp m h
  | some k :: ms, hp, m, hm => by
    simp only [Match.PlacedL] at hp
    rcases List.mem_cons.1 hm with h | h
    · cases h; exact hp.1
    · exact placedL_mem hp.2 m h

theorem own_placed (hn : n ≤ 2147483647) (hn' : n' ≤ 2147483647) {i : RuleInfo} (hi : i.Safe n) (hi' : i.Safe n') (hw : Match.WordsOkL i.ms)
    (hp : i.Placed) {x x' : Loc} (hx : x.Stored h n) (hx' : x'.Stored h' n') (hs : Spot x x') :
    ownValues rx h i x = ownValues rx h' i x' := by
  have hc := ruleCapture_local (rx := rx) hx hx' hs.kind i.caps hp.2
  obtain ⟨b, e, hb⟩ := ruleMatches_decides rx hx hn i hi hw
  obtain ⟨b', e', hb'⟩ := ruleMatches_decides rx hx' hn' i hi' hw
  have hbb : b = b' := by
    rw [Bool.eq_iff_iff, hb, hb']
    have h1 : TagMeans i x ↔ TagMeans i x' := by simp only [TagMeans, hs.kind]
    rw [h1]
    refine and_congr_right fun _ => forall_congr' fun m => forall_congr' fun hm => ?_
    exact means_placed hs m (placedL_mem hp.1 m hm)
  simp only [ownValues, hc, e, e', hbb]

theorem own_unnoticed (hn' : n' ≤ 2147483647) {i : RuleInfo} (hi' : i.Safe n') (hw : Match.WordsOkL i.ms) {x' : Loc} (hx' : x'.Stored h' n')
    (hd : ¬ i.Admits rx h' x'.self) : ownValues rx h' i x' = none := by
  cases ho : ownValues rx h' i x' with
  | none => rfl
  | some vs =>
    have h1 := ((ownValues_isVal rx h' n' [i] i (by simp) x' hx' vs).1 ho).1
    exact absurd ⟨x', rfl, (ruleMatches_decides rx hx' hn' i hi' hw).true_iff.1 h1⟩ hd

end

/-! ## Records -/

section
variable {G : Loc → Loc → Prop}

/-- The fields find the same at places that belong to each other. -/
def Agree (G : Loc → Loc → Prop) (f f' : Field) : Prop := ∀ x x', G x x' → f x = f' x'

theorem nextRecord_rel : ∀ {ks ks' : List Loc} {F F' : List Field}, All2 (Agree G) F F' → All2 G ks ks' →
    (nextRecord F ks = none ∧ nextRecord F' ks' = none) ∨
      ∃ vs rest rest', nextRecord F ks = some (vs, rest) ∧ nextRecord F' ks' = some (vs, rest') ∧ All2 G rest rest'
  | ks, ks', [], _, .nil, hk => .inr ⟨[], ks, ks', by simp [nextRecord], by simp [nextRecord], hk⟩
  | [], _, f :: F, _, .cons _ _, .nil => .inl ⟨rfl, rfl⟩
  | k :: ks, _, f :: F, _, .cons (y := f') (ys := F') hf hF, .cons (y := k') (ys := ks') hk hks => by
    have e := hf k k' hk
    simp only [nextRecord]
    rw [← e]
    cases f k with
    | none => exact nextRecord_rel (.cons hf hF) hks
    | some vs =>
      rcases nextRecord_rel hF hks with ⟨h1, h2⟩ | ⟨ws, rest, rest', h1, h2, h3⟩
      · exact .inl ⟨by simp [h1], by simp [h2]⟩
      · exact .inr ⟨vs ++ ws, rest, rest', by simp [h1], by simp [h2], h3⟩

theorem recordsN_rel {F F' : List Field} (hF : All2 (Agree G) F F') : ∀ (m : Nat) {ks ks' : List Loc}, All2 G ks ks' →
    recordsN F m ks = recordsN F' m ks'
  | 0, _, _, _ => rfl
  | m + 1, ks, ks', hk => by
    simp only [recordsN]
    rcases nextRecord_rel hF hk with ⟨h1, h2⟩ | ⟨vs, rest, rest', h1, h2, h3⟩
    · rw [h1, h2]
    · rw [h1, h2]
      simp only [recordsN_rel hF m h3]

theorem all2_len {α β : Type} {R : α → β → Prop} : ∀ {as : List α} {bs : List β}, All2 R as bs → as.length = bs.length
  | _, _, .nil => rfl
  | _, _, .cons _ h => by simp [all2_len h]

theorem records_rel {F F' : List Field} (hF : All2 (Agree G) F F') {ks ks' : List Loc} (hk : All2 G ks ks') : records F ks = records F' ks' := by
  rw [records, records, all2_len hk]
  exact recordsN_rel hF _ hk

theorem records_nil (F : List Field) : records F [] = [] := rfl

/-- At a place where no field finds anything there is no record. -/
theorem records_single {f : Field} {F : List Field} {x : Loc} (hf : f x = none) : records (f :: F) [x] = [] := by
  simp [records, recordsN, nextRecord, hf]

end

/-! ## Documents -/

section
variable {D : Tree → Prop} {P P' : Loc → Prop}

/-- Places that belong to each other. -/
def Pl (D : Tree → Prop) (P P' : Loc → Prop) (x x' : Loc) : Prop := P x ∧ P' x' ∧ Spot x x' ∧ Tree.Wrapped D x.self x'.self

theorem wrapped_kind {t t' : Tree} (hw : Tree.Wrapped D t t') : t.kind = t'.kind := by
  cases t'
  simp only [Tree.Wrapped] at hw
  exact hw.1

theorem each_kinds : ∀ {ts ts' : List Tree}, Tree.WrappedEach D ts ts' → ts.map Tree.kind = ts'.map Tree.kind
  | ts, [], hw => by
    simp only [Tree.WrappedEach] at hw
    simp [hw]
  | ts, t' :: us', hw => by
    simp only [Tree.WrappedEach] at hw
    obtain ⟨t, us, rfl, h1, h2⟩ := hw
    simp only [List.map_cons, wrapped_kind h1, each_kinds h2]

theorem locsAux_rel : ∀ {ts ts' b b' : List Tree}, Tree.WrappedEach D ts ts' → b.map Tree.kind = b'.map Tree.kind →
    (∀ x ∈ locsAux b ts, P x) → (∀ x ∈ locsAux b' ts', P' x) → All2 (Pl D P P') (locsAux b ts) (locsAux b' ts')
  | ts, [], b, b', hw, _, _, _ => by
    simp only [Tree.WrappedEach] at hw
    rw [hw]
    exact .nil
  | ts, t' :: us', b, b', hw, hb, h1, h2 => by
    simp only [Tree.WrappedEach] at hw
    obtain ⟨t, us, rfl, hw1, hw2⟩ := hw
    simp only [locsAux] at h1 h2 ⊢
    refine .cons ⟨h1 _ (List.mem_cons_self ..), h2 _ (List.mem_cons_self ..), ⟨wrapped_kind hw1, rfl, hb, each_kinds hw2⟩, hw1⟩
      (locsAux_rel hw2 ?_ (fun x hx => h1 x (List.mem_cons_of_mem _ hx)) fun x hx => h2 x (List.mem_cons_of_mem _ hx))
    simp [hb, wrapped_kind hw1]

/-- All records in the sibling lists of the trees. -/
def recs (F : List Field) (ts : List Tree) : List (List (Str × Str)) := (locs ts :: underL ts).flatMap (records F)

theorem under_recs (F : List Field) (t : Tree) : t.under.flatMap (records F) = if t.kind.isElement then recs F t.kids else [] := by
  obtain ⟨p, k, kids⟩ := t
  cases k <;> simp only [Tree.under, Tree.kind, Kind.isElement, Bool.false_eq_true, if_false, if_true, List.flatMap_nil, Tree.kids]
  cases kids with
  | nil => rfl
  | cons t ts => rfl

/-- `P` holds at all places in a list of children and below. -/
def PAll (P : Loc → Prop) (ts : List Tree) : Prop := (∀ x ∈ locs ts, P x) ∧ ∀ ks ∈ underL ts, ∀ x ∈ ks, P x

def PUnder (P : Loc → Prop) (t : Tree) : Prop := ∀ ks ∈ t.under, ∀ x ∈ ks, P x

theorem punder_kids {t : Tree} (ht : PUnder P t) (he : t.kind.isElement = true) : PAll P t.kids := by
  obtain ⟨p, k, kids⟩ := t
  cases k <;> simp only [Tree.kind, Kind.isElement, Bool.false_eq_true] at he
  cases kids with
  | nil => exact ⟨by simp [Tree.kids, locs, locsAux], by simp [Tree.kids, underL]⟩
  | cons t ts =>
    have ht : ∀ ks ∈ locs (t :: ts) :: underL (t :: ts), ∀ x ∈ ks, P x := ht
    exact ⟨ht _ (List.mem_cons_self ..), fun ks hks => ht ks (List.mem_cons_of_mem _ hks)⟩

section
variable {F F' : List Field} (hF : All2 (Agree (Pl D P P')) F F') (hD : ∀ x', P' x' → D x'.self → ∀ f' ∈ F', f' x' = none) (hne : F' ≠ [])
include hF hD hne

mutual
theorem under_rel : ∀ (t t' : Tree), Tree.Wrapped D t t' → PUnder P t → PUnder P' t' →
    t.under.flatMap (records F) = t'.under.flatMap (records F')
  | t, .node p k kids, hw, h1, h2 => by
    simp only [Tree.Wrapped] at hw
    rw [under_recs, under_recs, hw.1]
    show (if k.isElement then _ else _) = if k.isElement then _ else _
    cases he : k.isElement with
    | false => rfl
    | true =>
      simp only [if_true]
      exact lists_rel _ _ hw.2 (punder_kids h1 (by rw [hw.1]; exact he)) (punder_kids (t := .node p k kids) h2 he)
termination_by structural _ t' => t'
theorem lists_rel : ∀ (ts ts' : List Tree), Tree.WrappedL D ts ts' → PAll P ts → PAll P' ts' → recs F ts = recs F' ts'
  | ts, [], hw, _, _ => by
    simp only [Tree.WrappedL] at hw
    rw [hw]
    rfl
  | ts, t' :: us', hw, h1, h2 => by
    simp only [Tree.WrappedL] at hw
    rcases hw with ⟨t, us, rfl, hw1, hw2⟩ | ⟨hnil, hd, hw⟩
    · have hu1 : PUnder P t := fun ks hks => h1.2 ks (by simp only [underL]; exact List.mem_append_left _ hks)
      have hu2 : PUnder P' t' := fun ks hks => h2.2 ks (by simp only [underL]; exact List.mem_append_left _ hks)
      have hv1 : ∀ ks ∈ underL us, ∀ x ∈ ks, P x := fun ks hks => h1.2 ks (by simp only [underL]; exact List.mem_append_right _ hks)
      have hv2 : ∀ ks ∈ underL us', ∀ x ∈ ks, P' x := fun ks hks => h2.2 ks (by simp only [underL]; exact List.mem_append_right _ hks)
      have e1 := under_rel _ _ hw1 hu1 hu2
      have e2 := each_rel _ _ hw2 hv1 hv2
      have hl : All2 (Pl D P P') (locs (t :: us)) (locs (t' :: us')) :=
        locsAux_rel (by simp only [Tree.WrappedEach]; exact ⟨t, us, rfl, hw1, hw2⟩) rfl h1.1 h2.1
      simp only [recs, List.flatMap_cons, underL, List.flatMap_append, e1, e2, records_rel hF hl]
    · have hin : recs F ts = t'.under.flatMap (records F') :=
        in_rel _ _ hw h1 fun ks hks => h2.2 ks (by simp only [underL]; exact List.mem_append_left _ hks)
      obtain ⟨f', F'', hcons⟩ := List.exists_cons_of_ne_nil hne
      have hst := h2.1
      rw [hin]
      rw [hnil] at hst ⊢
      simp only [recs, List.flatMap_cons, underL, List.append_nil]
      rw [show locs [t'] = [⟨true, [], t', []⟩] from rfl, show records F' [⟨true, [], t', []⟩] = [] from ?_]
      · rfl
      · rw [hcons]
        exact records_single (hD _ (hst _ (by simp [locs, locsAux])) hd f' (by rw [hcons]; exact List.mem_cons_self ..))
termination_by structural _ t' => t'
theorem each_rel : ∀ (ts ts' : List Tree), Tree.WrappedEach D ts ts' → (∀ ks ∈ underL ts, ∀ x ∈ ks, P x) →
    (∀ ks ∈ underL ts', ∀ x ∈ ks, P' x) → (underL ts).flatMap (records F) = (underL ts').flatMap (records F')
  | ts, [], hw, _, _ => by
    simp only [Tree.WrappedEach] at hw
    rw [hw]
    rfl
  | ts, t' :: us', hw, h1, h2 => by
    simp only [Tree.WrappedEach] at hw
    obtain ⟨t, us, rfl, hw1, hw2⟩ := hw
    simp only [underL] at h1 h2 ⊢
    rw [List.flatMap_append, List.flatMap_append,
      under_rel _ _ hw1 (fun ks hks => h1 ks (List.mem_append_left _ hks)) fun ks hks => h2 ks (List.mem_append_left _ hks),
      each_rel _ _ hw2 (fun ks hks => h1 ks (List.mem_append_right _ hks)) fun ks hks => h2 ks (List.mem_append_right _ hks)]
termination_by structural _ t' => t'
theorem in_rel : ∀ (ts : List Tree) (t' : Tree), Tree.WrappedIn D ts t' → PAll P ts → PUnder P' t' → recs F ts = t'.under.flatMap (records F')
  | ts, .node p k kids, hw, h1, h2 => by
    simp only [Tree.WrappedIn] at hw
    rw [under_recs]
    show _ = if k.isElement then _ else _
    rw [if_pos hw.1]
    exact lists_rel _ _ hw.2 h1 (punder_kids (t := .node p k kids) h2 hw.1)
termination_by structural _ t' => t'
end

end

end

/-! ## Rules -/

section
variable {rx : RxEngine} {h h' : Heap} {n n' : Nat} {D : Tree → Prop} {Q : RuleInfo → Prop}

theorem stored_under {x : Loc} (hx : x.Stored h n) : PUnder (Loc.Stored h n) x.self := by
  obtain ⟨pp, pn, i, _, _, hr, hf⟩ := hx.self
  exact under_stored _ _ _ hr hf

variable (hV : ∀ i, Q i → Agree (Pl D (Loc.Stored h n) (Loc.Stored h' n')) (ownValues rx h i) (ownValues rx h' i))
  (hD : ∀ i, Q i → ∀ x' : Loc, x'.Stored h' n' → D x'.self → ownValues rx h' i x' = none)
include hV hD

mutual
theorem fields_rel : ∀ (r : Rule), r.All Q → r.Childless →
    All2 (Agree (Pl D (Loc.Stored h n) (Loc.Stored h' n'))) (r.fields (ownValues rx h)) (r.fields (ownValues rx h')) ∧
      (∀ x' : Loc, x'.Stored h' n' → D x'.self → ∀ f' ∈ r.fields (ownValues rx h'), f' x' = none) ∧ r.fields (ownValues rx h') ≠ []
  | .mk i c nx ns, hq, hc => by
    simp only [Rule.Childless] at hc
    obtain ⟨rfl, hc1, hc2⟩ := hc
    obtain ⟨q1, _, q2, q3⟩ := hq
    have e1 := fieldsO_rel nx q2 hc1
    have e2 := fieldsL_rel ns q3 hc2
    simp only [Rule.fields]
    refine ⟨.cons ?_ e1.1, ?_, by simp⟩
    · intro x x' hx
      simp only [placeValues, Rule.fieldsO, List.isEmpty_nil, if_true, hV i q1 x x' hx, e2 x x' hx]
    · intro x' hx' hd f' hf'
      rcases List.mem_cons.1 hf' with rfl | hf'
      · simp only [placeValues, hD i q1 x' hx' hd]
      · exact e1.2 x' hx' hd f' hf'
theorem fieldsO_rel : ∀ (r : Option Rule), Rule.AllO Q r → Rule.ChildlessO r →
    All2 (Agree (Pl D (Loc.Stored h n) (Loc.Stored h' n'))) (Rule.fieldsO (ownValues rx h) r) (Rule.fieldsO (ownValues rx h') r) ∧
      ∀ x' : Loc, x'.Stored h' n' → D x'.self → ∀ f' ∈ Rule.fieldsO (ownValues rx h') r, f' x' = none
  | none, _, _ => ⟨.nil, by simp [Rule.fieldsO]⟩
  | some r, hq, hc => by
    have := fields_rel r hq hc
    exact ⟨this.1, this.2.1⟩
theorem fieldsL_rel : ∀ (rs : List Rule), Rule.AllL Q rs → Rule.ChildlessL rs → ∀ x x', Pl D (Loc.Stored h n) (Loc.Stored h' n') x x' →
    recordsInAll (Rule.fieldsL (ownValues rx h) rs) x.self.under = recordsInAll (Rule.fieldsL (ownValues rx h') rs) x'.self.under
  | [], _, _, _, _, _ => rfl
  | r :: rs, hq, hc, x, x', hx => by
    obtain ⟨e1, e2, e3⟩ := fields_rel r hq.1 hc.1
    have e4 := fieldsL_rel rs hq.2 hc.2 x x' hx
    have e5 := under_rel e1 e2 e3 _ _ hx.2.2.2 (stored_under hx.1) (stored_under hx.2.1)
    simp only [Rule.fieldsL, recordsInAll, recordsIn, e4, e5]
end

end

theorem mapsOf_unique : ∀ {vss maps maps' : List (List (Str × Str))}, MapsOf vss maps → MapsOf vss maps' → maps = maps'
  | _, _, _, .nil, .nil => rfl
  | _, _, _, .cons h1 h2, .cons h3 h4 => by rw [isMap_unique h1 h3, mapsOf_unique h2 h4]

end Wrap

open Wrap

section
variable {rx : RxEngine} {h h' : Heap} {n n' : Nat}

/-- C112. Putting all children of a node into a further element, here and there, does not matter if no rule admits that element. The rules are
not marked and have no child rules, their conditions are about the node itself and its place among its siblings, and they capture attributes. -/
theorem C112_wrapped (hn : n ≤ 2147483647) (hn' : n' ≤ 2147483647) {r : Rule} (hs : r.Safe n) (hs' : r.Safe n')
    (hw : r.All fun i => Match.WordsOkL i.ms) (hp : r.All RuleInfo.Placed) (hu : r.All Unmarked) (hc : r.Childless) {t t' : Tree}
    (ht : IsDocument h n t) (ht' : IsDocument h' n' t') (hsame : Tree.Wrapped (Tree.Unnoticed rx h' r) t t') :
    extract rx h r t.ptr 0 = extract rx h' r t'.ptr 0 := by
  have hS := (all_iff_infos r).1 hs
  have hS' := (all_iff_infos r).1 hs'
  have hW := (all_iff_infos r).1 hw
  have hP := (all_iff_infos r).1 hp
  have hx : (Loc.root t).Stored h n := ht
  have hx' : (Loc.root t').Stored h' n' := ht'
  obtain ⟨e1, e2, e3⟩ := fields_rel (rx := rx) (h := h) (h' := h') (n := n) (n' := n') (D := Tree.Unnoticed rx h' r) (Q := fun i => i ∈ infosOf r)
    (fun i hi x x' hx => own_placed hn hn' (hS i hi) (hS' i hi) (hW i hi) (hP i hi) hx.1 hx.2.1 hx.2.2.1)
    (fun i hi x' hx' hd => own_unnoticed hn' (hS' i hi) (hW i hi) hx' ((all_iff_infos r).1 hd i hi)) r
    ((all_iff_infos r).2 fun i hi => hi) hc
  have hroot : Pl (Tree.Unnoticed rx h' r) (Loc.Stored h n) (Loc.Stored h' n') (Loc.root t) (Loc.root t') :=
    ⟨hx, hx', ⟨wrapped_kind hsame, rfl, rfl, rfl⟩, hsame⟩
  have e4 := under_rel e1 e2 e3 _ _ hsame (stored_under hx) (stored_under hx')
  obtain ⟨maps, h1, h2⟩ := C103_scan (rx := rx) hn hs hu hx
  obtain ⟨maps', h1', h2'⟩ := C103_scan (rx := rx) hn' hs' hu hx'
  have e5 : (Loc.root t).searched.flatMap (records (r.fields (ownValues rx h))) =
      (Loc.root t').searched.flatMap (records (r.fields (ownValues rx h'))) := by
    simp only [Loc.searched, Loc.onward, Loc.root, Bool.false_eq_true, if_false, List.flatMap_cons, List.map_cons, List.map_nil, underL,
      List.append_nil, e4]
    congr 1
    exact records_rel e1 (.cons hroot .nil)
  rw [e5] at h1
  cases mapsOf_unique h1 h1'
  exact h2.trans h2'.symm

end

/-! ## Hexts -/

theorem placedL_iff {ms : List (Option Match)} : Match.PlacedL ms ↔ ∀ m, some m ∈ ms → m.Placed := by
  induction ms with
  | nil => simp [Match.PlacedL]
  | cons m ms ih => cases m <;> simp [Match.PlacedL, ih]

theorem _root_.Hext.NoContent.infix {s u : Str} (h : NoContent s) (hu : u <:+: s) : NoContent u :=
  ⟨fun k => h.functions (hu.subset k), fun k => h.empty (k.trans hu), fun k => h.childCount (k.trans hu)⟩

theorem trait_placed {rx f} {t : Trait} {x : Match × Flags} (ho : NoContent t.text) (h : t.meaning rx f = some x) : x.1.Placed := by
  cases t with
  | empty => exact absurd (List.infix_refl _) ho.empty
  | childCount d => exact absurd ⟨[], d ++ lit ")", by simp [Trait.text, lit]⟩ ho.childCount
  | nth a b m =>
    simp only [Trait.meaning, Option.bind_eq_bind, Option.bind_eq_some_iff, Option.some.injEq] at h
    obtain ⟨v, hv, rfl⟩ := h; trivial
  | endmost a b => cases h; trivial
  | only b => cases h; trivial
  | attributeCount d =>
    simp only [Trait.meaning, Option.bind_eq_bind, Option.bind_eq_some_iff, Option.some.injEq] at h
    obtain ⟨v, hv, rfl⟩ := h; trivial
  | typeMatches r =>
    simp only [Trait.meaning, Option.bind_eq_bind, Option.bind_eq_some_iff, Option.some.injEq] at h
    obtain ⟨v, hv, rfl⟩ := h; trivial

theorem traits_placed {rx} : ∀ {ts : List Trait} {f : Flags} {x : List Match × Flags}, NoContent (ts.flatMap Trait.text) →
    traitsMeaning rx f ts = some x → ∀ m ∈ x.1, m.Placed
  | [], _, _, _, h => by cases h; simp
  | t :: ts, f, x, ho, h => by
    simp only [traitsMeaning, Option.bind_eq_bind, Option.bind_eq_some_iff, Option.some.injEq] at h
    obtain ⟨y, h1, z, h2, rfl⟩ := h
    rw [List.flatMap_cons] at ho
    intro m hm
    rcases List.mem_cons.1 hm with rfl | hm
    · exact trait_placed (ho.infix (List.prefix_append _ _).isInfix) h1
    · exact traits_placed (ho.infix (List.suffix_append _ _).isInfix) h2 m hm

theorem cond_placed {rx f} {c : Cond} {x : Match × Flags} (ho : NoContent c.text) (h : c.meaning rx f = some x) :
    x.1.Placed := by
  cases c with
  | trait t => exact trait_placed ho h
  | not ts =>
    simp only [Cond.meaning, Option.bind_eq_bind, Option.bind_eq_some_iff, Option.some.injEq] at h
    obtain ⟨y, h1, rfl⟩ := h
    simp only [Match.Placed]
    rw [placedL_iff]
    intro m hm
    simp only [List.mem_map, Option.some.injEq] at hm
    obtain ⟨m, hm, rfl⟩ := hm
    exact traits_placed (ho.infix ⟨lit ":not(", lit ")", rfl⟩) h1 m hm

theorem conds_placed {rx} : ∀ {ts : List Cond} {f : Flags} {x : List Match × Flags}, NoContent (ts.flatMap Cond.text) →
    condsMeaning rx f ts = some x → ∀ m ∈ x.1, m.Placed
  | [], _, _, _, h => by cases h; simp
  | t :: ts, f, x, ho, h => by
    simp only [condsMeaning, Option.bind_eq_bind, Option.bind_eq_some_iff, Option.some.injEq] at h
    obtain ⟨y, h1, z, h2, rfl⟩ := h
    rw [List.flatMap_cons] at ho
    intro m hm
    rcases List.mem_cons.1 hm with rfl | hm
    · exact cond_placed (ho.infix (List.prefix_append _ _).isInfix) h1
    · exact conds_placed (ho.infix (List.suffix_append _ _).isInfix) h2 m hm

theorem pat_placed {rx f} {p : Pat} {x : List Match × List Capture} (ho : NoContent p.text)
    (h : p.meaning rx f = some x) : (∀ m ∈ x.1, m.Placed) ∧ ∀ c ∈ x.2, ∃ attr name pipe, c = Capture.attribute attr name pipe := by
  cases p with
  | capFn fn ps n => exact absurd (by simp [Pat.text, fn_at]) ho.functions
  | capAttr a ps n o =>
    simp only [Pat.meaning, Option.bind_eq_bind, Option.bind_eq_some_iff, Option.some.injEq] at h
    obtain ⟨y, _, rfl⟩ := h
    cases o <;> simp [Match.Placed]
  | testFn fn t neg => exact absurd (by simp [Pat.text, fn_at]) ho.functions
  | testAttr a t neg =>
    simp only [Pat.meaning, Option.bind_eq_bind, Option.bind_eq_some_iff, Option.some.injEq] at h
    obtain ⟨y, _, rfl⟩ := h
    simp [Match.Placed]
  | hasAttr a neg => cases h; simp [Match.Placed]

theorem pats_placed {rx} : ∀ {ps : List (Str × Pat)} {f : Flags} {x : List Match × List Capture × Flags},
    NoContent (patsText ps) → patsMeaning rx f ps = some x →
    (∀ m ∈ x.1, m.Placed) ∧ ∀ c ∈ x.2.1, ∃ attr name pipe, c = Capture.attribute attr name pipe
  | [], _, _, _, h => by cases h; simp
  | p :: ps, f, x, ho, h => by
    simp only [patsMeaning, Option.bind_eq_bind, Option.bind_eq_some_iff, Option.some.injEq] at h
    obtain ⟨y, h1, z, h2, rfl⟩ := h
    have a := pat_placed (ho.infix ⟨p.1, patsText ps, by simp [patsText]⟩) h1
    have b := pats_placed (ho.infix ⟨p.1 ++ p.2.text, [], by simp [patsText]⟩) h2
    constructor
    · intro m hm
      rcases List.mem_append.1 hm with hm | hm
      · exact a.1 m hm
      · exact b.1 m hm
    · intro m hm
      rcases List.mem_append.1 hm with hm | hm
      · exact a.2 m hm
      · exact b.2 m hm

theorem head_placed {rx f f' info} {h : Head} (ho : NoContent h.text) (hm : h.meaning rx f = some (info, f')) : info.Placed := by
  simp only [Head.meaning, Option.bind_eq_bind, Option.bind_eq_some_iff, Option.some.injEq, Prod.mk.injEq] at hm
  obtain ⟨x, h1, y, h2, rfl, _⟩ := hm
  have a := conds_placed (ho.infix ⟨60 :: h.options.map (fun o => if o then 63 else 43) ++ h.tag, patsText h.pats ++ h.ws,
    by simp [Head.text]⟩) h1
  have b := pats_placed (ho.infix
    ⟨60 :: h.options.map (fun o => if o then 63 else 43) ++ h.tag ++ h.conds.flatMap Cond.text, h.ws, by simp [Head.text]⟩) h2
  unfold RuleInfo.Placed
  rw [placedL_iff]
  constructor
  · intro m hm
    simp only [List.mem_map, List.mem_append, Option.some.injEq] at hm
    obtain ⟨m, hm, rfl⟩ := hm
    rcases hm with hm | hm
    · exact a m hm
    · exact b.1 m hm
  · intro c hc
    simp only [List.mem_map, Option.some.injEq] at hc
    obtain ⟨c, hc, rfl⟩ := hc
    exact b.2 c hc

theorem parse_placed {rx cs s r} (ho : NoContent s) (h : parseHext rx cs s = .ok r) : r.All RuleInfo.Placed := by
  obtain ⟨is, f, rs, hok, rfl, hseq, rfl⟩ := (parse_iff rx cs s r).1 h
  refine ruleOf_all (fun _ => ?_) (seq_all hseq fun hd c hc f f' info hm => head_placed (ho.infix (head_infix hc)) hm)
  exact ⟨by simp [Match.PlacedL], by simp⟩

/-- A hext without `<?` and `<+` has no marked rules. -/
theorem parse_no_marks {rx cs s r} (hs : NoMarks s) (h : parseHext rx cs s = .ok r) : r.All Unmarked := by
  obtain ⟨is, f, rs, hok, rfl, hseq, rfl⟩ := (parse_iff rx cs s r).1 h
  refine ruleOf_all (fun _ => ⟨rfl, rfl⟩) (seq_all hseq fun hd c hc f f' info hm => ?_)
  simp only [Head.meaning, Option.bind_eq_bind, Option.bind_eq_some_iff, Option.some.injEq, Prod.mk.injEq] at hm
  obtain ⟨x, h1, y, h2, rfl, _⟩ := hm
  have hnone : hd.options = [] := by
    cases ho : hd.options with
    | nil => rfl
    | cons o os =>
      cases o
      · refine absurd (List.IsInfix.trans ⟨[], ?_, ?_⟩ (head_infix hc)) hs.greedy
        · exact os.map (fun o => if o then 63 else 43) ++ hd.tag ++ hd.conds.flatMap Cond.text ++ patsText hd.pats ++ hd.ws
        · simp [Head.text, ho, lit]
      · refine absurd (List.IsInfix.trans ⟨[], ?_, ?_⟩ (head_infix hc)) hs.optional
        · exact os.map (fun o => if o then 63 else 43) ++ hd.tag ++ hd.conds.flatMap Cond.text ++ patsText hd.pats ++ hd.ws
        · simp [Head.text, ho, lit]
  rw [hnone]
  exact ⟨rfl, rfl⟩

/-- C112 for hexts: the hext has no marked tags, names no functions and no conditions about the content of a node, and has no tags
directly inside of tags. -/
theorem C112_hext {rx : RxEngine} {charSigned : Bool} {s : Str} {r : Rule} {h h' : Heap} {t t' : Tree} (hs : NoLong s) (ho : NoContent s)
    (hm : NoMarks s) (hp : parseHext rx charSigned s = .ok r) (hc : r.Childless)
    (ht : IsDocument h 1147483648 t) (ht' : IsDocument h' 1147483648 t') (hsame : Tree.Wrapped (Tree.Unnoticed rx h' r) t t') :
    extract rx h r t.ptr 0 = extract rx h' r t'.ptr 0 :=
  C112_wrapped (n := 1147483648) (n' := 1147483648) (by decide) (by decide) (parse_safe hs hp) (parse_safe hs hp) (parse_words hp)
    (parse_placed ho hp) (parse_no_marks hm hp) hc ht ht' hsame

/-! ## Examples -/

/-- `<html><ul id="u"><a href="1"></a><a href="2"></a></ul></html>` -/
def docBare : Tree := Ex.el 1 "html" [] [Ex.el 2 "ul" [("id", "u")] [Ex.el 3 "a" [("href", "1")] [], Ex.el 4 "a" [("href", "2")] []]]

/-- `<html><div><div><ul id="u"><div class="c"><a href="1"></a><a href="2"></a></div></ul></div></div></html>` -/
def docBoxed : Tree := Ex.el 1 "html" [] [Ex.el 2 "div" [] [Ex.el 3 "div" [] [Ex.el 4 "ul" [("id", "u")]
  [Ex.el 5 "div" [("class", "c")] [Ex.el 6 "a" [("href", "1")] [], Ex.el 7 "a" [("href", "2")] []]]]]]

theorem docBare_ok : IsDocument (docHeap 0 docBare) 1147483648 docBare := isDocument_of_ok (by decide +kernel)
theorem docBoxed_ok : IsDocument (docHeap 0 docBoxed) 1147483648 docBoxed := isDocument_of_ok (by decide +kernel)

/-- The documents differ by `div` elements only. -/
theorem boxed_wrapped {D : Tree → Prop} (hD : ∀ p e kids, e.tag = .known (lit "div") → D (.node p (.element e) kids)) :
    Tree.Wrapped D docBare docBoxed := by
  simp only [docBare, docBoxed, Ex.el, Tree.Wrapped, Tree.WrappedL, Tree.WrappedIn, Tree.WrappedEach, Tree.kind, Tree.kids, true_and]
  refine .inr ⟨hD _ _ _ rfl, rfl, .inr ⟨hD _ _ _ rfl, rfl, .inl ⟨_, _, rfl, ⟨rfl, .inr ⟨hD _ _ _ rfl, rfl, .inl ⟨_, _, rfl, ⟨rfl, rfl⟩, _, _, rfl, ⟨rfl, rfl⟩, rfl⟩⟩⟩, rfl⟩⟩⟩

/-- A rule for other elements does not admit a `div`. -/
theorem div_not_admitted {rx : RxEngine} {h : Heap} {i : RuleInfo} {name : Str} (hi : i.tag = .tag (.known name)) (hne : name ≠ lit "div")
    (p : Ptr) (e : Elem) (kids : List Tree) (he : e.tag = .known (lit "div")) : ¬ i.Admits rx h (.node p (.element e) kids) := by
  rintro ⟨l, hl, ht, -⟩
  simp only [TagMeans, hi, hl, Tree.kind] at ht
  rcases ht with ht | ⟨n, e', h1, h2, h3⟩ | ⟨e', _, _, h1, _⟩
  · cases ht
  · cases h1
    cases h2
    rw [he] at h3
    cases h3
    exact hne rfl
  · cases h1

theorem boxed_href : Tree.Wrapped (Tree.Unnoticed Ex.rx (docHeap 0 docBoxed) hrefRule) docBare docBoxed :=
  boxed_wrapped fun p e kids he => ⟨div_not_admitted (name := lit "a") rfl (by decide) p e kids he, trivial, trivial, trivial⟩

/-- The hext `<a href:x/>` gives the same for both documents. -/
example : extract Ex.rx (docHeap 0 docBare) hrefRule docBare.ptr 0 = extract Ex.rx (docHeap 0 docBoxed) hrefRule docBoxed.ptr 0 :=
  C112_hext href_short ⟨by decide +kernel, by decide +kernel, by decide +kernel⟩ ⟨by decide +kernel, by decide +kernel⟩ (href_parsed Ex.rx true)
    (by simp [hrefRule, Rule.appendMatch, Ex.rule, Rule.Childless, Rule.ChildlessO, Rule.ChildlessL]) docBare_ok docBoxed_ok boxed_href

/-- `<ul id:u>{<a:first-child href:x/>}</ul>` -/
def boxListRule : Rule :=
  .mk { tag := .tag (.known (lit "ul")), ms := [], caps := [some (.attribute (lit "id") (lit "u") none)] } none none
    [.mk (trimLinkInfo [.nthChild 0 1 true false] (Ex.capHref "x")) none none []]

theorem boxListRule_safe (n : Nat) (hn : n = 1147483648) : boxListRule.Safe n := by
  subst hn
  simp [boxListRule, trimLinkInfo, Rule.Safe, Rule.All, Rule.AllO, Rule.AllL, RuleInfo.Safe, Match.SafeL, Match.SafeO, Match.Safe, Capture.Safe,
    Ex.capHref, NthSafe, intMin, intMax]

theorem boxed_list : extract Ex.rx (docHeap 0 docBare) boxListRule docBare.ptr 0 = extract Ex.rx (docHeap 0 docBoxed) boxListRule docBoxed.ptr 0 := by
  refine C112_wrapped (n := 1147483648) (n' := 1147483648) (by decide) (by decide) (boxListRule_safe _ rfl) (boxListRule_safe _ rfl) ?_ ?_ ?_ ?_
    docBare_ok docBoxed_ok (boxed_wrapped fun p e kids he => ⟨div_not_admitted (name := lit "ul") rfl (by decide) p e kids he, trivial, trivial,
      ⟨div_not_admitted (name := lit "a") rfl (by decide) p e kids he, trivial, trivial, trivial⟩, trivial⟩)
  · simp [boxListRule, trimLinkInfo, Rule.All, Rule.AllO, Rule.AllL, Match.WordsOkL, Match.WordsOk]
  · simp [boxListRule, trimLinkInfo, Rule.All, Rule.AllO, Rule.AllL, RuleInfo.Placed, Match.PlacedL, Match.Placed, Ex.capHref]
  · simp [boxListRule, trimLinkInfo, Rule.All, Rule.AllO, Rule.AllL, Unmarked]
  · simp [boxListRule, Rule.Childless, Rule.ChildlessO, Rule.ChildlessL]

/-- What both give. -/
example : extract Ex.rx (docHeap 0 docBoxed) boxListRule docBoxed.ptr 0 = pure [[(lit "u", lit "u"), (lit "x", lit "1")]] := by
  rw [← boxed_list, show docBare.ptr = (Loc.root docBare).ptr from rfl, extract_eq (by decide) (boxListRule_safe _ rfl) docBare_ok]
  decide +kernel

/-! ## Why the restrictions are needed -/

/-- `<ul><a href:x/></ul>` -/
def directRule : Rule := .mk { tag := .tag (.known (lit "ul")), ms := [], caps := [] } (some (.mk (trimLinkInfo [] (Ex.capHref "x")) none none [])) none []

/-- C112 fails for tags directly inside of tags: `<ul><a href:x/></ul>` finds the links only if nothing is between them and the list. -/
theorem C112_fails_for_children :
    Tree.Wrapped (Tree.Unnoticed Ex.rx (docHeap 0 docBoxed) directRule) docBare docBoxed ∧
    extract Ex.rx (docHeap 0 docBare) directRule docBare.ptr 0 = pure [[(lit "x", lit "1"), (lit "x", lit "2")]] ∧
    extract Ex.rx (docHeap 0 docBoxed) directRule docBoxed.ptr 0 = pure [] := by
  have hs : directRule.Safe 1147483648 := by
    simp [directRule, trimLinkInfo, Rule.Safe, Rule.All, Rule.AllO, Rule.AllL, RuleInfo.Safe, Match.SafeL, Match.SafeO, Match.Safe, Capture.Safe, Ex.capHref]
  refine ⟨boxed_wrapped fun p e kids he => ⟨div_not_admitted (name := lit "ul") rfl (by decide) p e kids he,
    ⟨div_not_admitted (name := lit "a") rfl (by decide) p e kids he, trivial, trivial, trivial⟩, trivial, trivial⟩, ?_, ?_⟩
  · rw [show docBare.ptr = (Loc.root docBare).ptr from rfl, extract_eq (by decide) hs docBare_ok]
    decide +kernel
  · rw [show docBoxed.ptr = (Loc.root docBoxed).ptr from rfl, extract_eq (by decide) hs docBoxed_ok]
    decide +kernel

/-- `<ul:child-count(2) id:u/>` -/
def twoRule : Rule := .mk { tag := .tag (.known (lit "ul")), ms := [some (.childCount 2)], caps := [some (.attribute (lit "id") (lit "u") none)] } none none []

/-- C112 fails for conditions about the content: `<ul:child-count(2) id:u/>` finds the list only if its links are its children. -/
theorem C112_fails_for_content :
    Tree.Wrapped (Tree.Unnoticed Ex.rx (docHeap 0 docBoxed) twoRule) docBare docBoxed ∧
    extract Ex.rx (docHeap 0 docBare) twoRule docBare.ptr 0 = pure [[(lit "u", lit "u")]] ∧
    extract Ex.rx (docHeap 0 docBoxed) twoRule docBoxed.ptr 0 = pure [] := by
  have hs : twoRule.Safe 1147483648 := by
    simp [twoRule, Rule.Safe, Rule.All, Rule.AllO, Rule.AllL, RuleInfo.Safe, Match.SafeL, Match.SafeO, Match.Safe, Capture.Safe]
  refine ⟨boxed_wrapped fun p e kids he => ⟨div_not_admitted (name := lit "ul") rfl (by decide) p e kids he, trivial, trivial, trivial⟩, ?_, ?_⟩
  · rw [show docBare.ptr = (Loc.root docBare).ptr from rfl, extract_eq (by decide) hs docBare_ok]
    decide +kernel
  · rw [show docBoxed.ptr = (Loc.root docBoxed).ptr from rfl, extract_eq (by decide) hs docBoxed_ok]
    decide +kernel

end Hext.Props
