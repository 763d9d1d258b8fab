import Verif.Spec.Case
import Verif.Proofs.Synonyms
set_option linter.unusedSimpArgs false
/-!
# Hexts with the names of tags and attributes in other case: proofs
-/

namespace Hext

open Param Props Syn

section
variable {rx : RxEngine} {h : Heap} {n : Nat} {l : Loc} {f : Str → Str}

/-! ## Names -/

theorem lower_eq {b c : Byte} (h : toLowerB b = toLowerB c) : b = c ∨ (IsAlpha b ∧ IsAlpha c) := by
  simp only [toLowerB, IsAlpha] at *
  revert h
  split <;> split <;> simp only [Bool.and_eq_true, decide_eq_true_eq, UInt8.le_iff_toNat_le, Bool.not_eq_true, Bool.and_eq_false_iff,
    decide_eq_false_iff_not, ← UInt8.toNat_inj, UInt8.toNat_add, UInt8.toNat_ofNat] at * <;> omega

theorem sameName_length {a b : Str} (h : SameName a b) : a.length = b.length := by
  have := congrArg List.length h
  simpa using this

theorem sameName_cstr : ∀ {a b : Str}, SameName a b → SameName (cstr a) (cstr b)
  | [], b, h => by
    have : b = [] := by simpa [SameName] using h.symm
    subst this; exact rfl
  | x :: xs, [], h => by simp [SameName] at h
  | x :: xs, y :: ys, h => by
    simp only [SameName, List.map_cons, List.cons.injEq] at h
    have ih := sameName_cstr (a := xs) (b := ys) h.2
    have hz : x = 0 ↔ y = 0 := by
      rcases lower_eq h.1 with rfl | ⟨h1, h2⟩
      · exact .rfl
      · constructor <;> (rintro rfl; simp [IsAlpha] at h1 h2)
    simp only [cstr] at ih ⊢
    by_cases hx : x = 0
    · simp [hx, hz.1 hx, SameName]
    · have hy : ¬ y = 0 := fun e => hx (hz.2 e)
      simp only [SameName] at ih
      simp [hx, hy, SameName, h.1, ih]

theorem sameName_star {a b : Str} (h : SameName a b) : a = [42] ↔ b = [42] := by
  have key : ∀ {a b : Str}, SameName a b → a = [42] → b = [42] := by
    rintro a b h rfl
    match b, h with
    | [], h => simp [SameName] at h
    | [y], h =>
      simp only [SameName, List.map_cons, List.map_nil, List.cons.injEq, and_true] at h
      rcases lower_eq h with rfl | ⟨h1, _⟩
      · rfl
      · simp [IsAlpha] at h1
    | y :: z :: t, h => simp [SameName] at h
  exact ⟨key h, key h.symm⟩

theorem isName_same : ∀ {a b : Str}, SameName a b → IsName a → IsName b := by
  have hb : ∀ {x y : Byte}, toLowerB x = toLowerB y → IsNameByte x → IsNameByte y := by
    intro x y h hx
    rcases lower_eq h with rfl | ⟨_, h2⟩
    · exact hx
    · exact .inl h2
  have hall : ∀ {a b : Str}, SameName a b → (∀ x ∈ a, IsNameByte x) → ∀ y ∈ b, IsNameByte y := by
    intro a
    induction a with
    | nil => intro b h _; have : b = [] := by simpa [SameName] using h.symm
             simp [this]
    | cons x xs ih =>
      intro b h ha
      match b, h with
      | [], h => simp
      | y :: ys, h =>
        simp only [SameName, List.map_cons, List.cons.injEq] at h
        intro z hz
        rcases List.mem_cons.1 hz with rfl | hz
        · exact hb h.1 (ha x (by simp))
        · exact ih (b := ys) h.2 (fun w hw => ha w (by simp [hw])) z hz
  rintro a b h ⟨x, t, rfl, h1, h2⟩
  match b, h with
  | [], h => simp [SameName] at h
  | y :: ys, h =>
    simp only [SameName, List.map_cons, List.cons.injEq] at h
    refine ⟨y, ys, rfl, ?_, hall (a := t) (b := ys) h.2 h2⟩
    rcases lower_eq h.1 with rfl | ⟨_, h2⟩
    · exact h1
    · exact h2

theorem isTag_same {a b : Str} (h : SameName a b) (ha : IsTag a) : IsTag b := by
  rcases ha with rfl | ha
  · exact .inl ((sameName_star h).1 rfl)
  · exact .inr (isName_same h ha)

theorem getAttribute_same {a b : Str} (h : SameName a b) (attrs : List Attr) : getAttribute attrs a = getAttribute attrs b := by
  have : (cstr a).map toLowerB = (cstr b).map toLowerB := sameName_cstr h
  simp [getAttribute, eqIgnoreCase, this]

theorem enum_same {a b : Str} (h : SameName a b) : gumboTagEnum (cstr a) = gumboTagEnum (cstr b) := by
  have : (cstr a).map toLowerB = (cstr b).map toLowerB := sameName_cstr h
  simp [gumboTagEnum, this]

/-! ## Conditions and captures -/

/-- The conditions are the same. -/
def SameM (rx : RxEngine) (m m' : Match) : Prop := (∀ h p, m.matches rx h p = m'.matches rx h p) ∧ ∀ n, m.Safe n → m'.Safe n

/-- The captures are the same. -/
def SameC (rx : RxEngine) (c c' : Capture) : Prop := (∀ h p, c.capture rx h p = c'.capture rx h p) ∧ (c.Safe → c'.Safe)

theorem attribute_same {a b : Str} (h : SameName a b) (t : Option ValueTest) : SameM rx (.attribute a t) (.attribute b t) := by
  refine ⟨fun hp p => ?_, fun n _ => by simp [Match.Safe]⟩
  simp only [Match.matches, attributeMatches, getAttribute_same h]

theorem capture_same {a b : Str} (h : SameName a b) (name : Str) (p : Option Pipe) : SameC rx (.attribute a name p) (.attribute b name p) := by
  refine ⟨fun hp q => ?_, fun _ => by simp [Capture.Safe]⟩
  simp only [Capture.capture, getAttribute_same h]

theorem all2_refl {α : Type} {R : α → α → Prop} (h : ∀ a, R a a) : ∀ xs : List α, All2 R xs xs
  | [] => .nil
  | x :: xs => .cons (h x) (all2_refl h xs)

theorem sameM_refl (m : Match) : SameM rx m m := ⟨fun _ _ => rfl, fun _ h => h⟩
theorem sameC_refl (c : Capture) : SameC rx c c := ⟨fun _ _ => rfl, fun h => h⟩

theorem pat_rename (hf : Recasing f) (fl : Flags) {p : Pat} {y : List Match × List Capture} (hy : p.meaning rx fl = some y) :
    ∃ y', (p.rename f).meaning rx fl = some y' ∧ All2 (SameM rx) y.1 y'.1 ∧ All2 (SameC rx) y.2 y'.2 := by
  have same : ∀ a, SameName a (f a) := fun a => (hf a).symm
  cases p with
  | capFn fn ps nm => exact ⟨y, hy, all2_refl sameM_refl _, all2_refl sameC_refl _⟩
  | capAttr a ps nm o =>
    simp only [Pat.meaning, Option.bind_eq_bind, Option.bind_eq_some_iff, Option.some.injEq] at hy
    obtain ⟨x, h1, rfl⟩ := hy
    refine ⟨_, by simp [Pat.rename, Pat.meaning, h1]; rfl, ?_, .cons (capture_same (same a) _ _) .nil⟩
    cases o
    · exact .cons (attribute_same (same a) _) .nil
    · exact .nil
  | testFn fn t neg => exact ⟨y, hy, all2_refl sameM_refl _, all2_refl sameC_refl _⟩
  | testAttr a t neg =>
    simp only [Pat.meaning, Option.bind_eq_bind, Option.bind_eq_some_iff, Option.some.injEq] at hy
    obtain ⟨x, h1, rfl⟩ := hy
    exact ⟨_, by simp [Pat.rename, Pat.meaning, h1]; rfl, .cons (attribute_same (same a) _) .nil, .nil⟩
  | hasAttr a neg =>
    cases hy
    exact ⟨_, rfl, .cons (attribute_same (same a) _) .nil, .nil⟩

theorem pats_rename (hf : Recasing f) : ∀ {ps : List (Str × Pat)} {fl : Flags} {y : List Match × List Capture × Flags},
    patsMeaning rx fl ps = some y → ∃ y', patsMeaning rx fl (ps.map fun p => (p.1, p.2.rename f)) = some y' ∧
      All2 (SameM rx) y.1 y'.1 ∧ All2 (SameC rx) y.2.1 y'.2.1 ∧ y'.2.2 = y.2.2
  | [], fl, y, h => by cases h; exact ⟨_, rfl, .nil, .nil, rfl⟩
  | p :: ps, fl, y, h => by
    simp only [patsMeaning, Option.bind_eq_bind, Option.bind_eq_some_iff, Option.some.injEq] at h
    obtain ⟨a, h1, b, h2, rfl⟩ := h
    obtain ⟨a', k1, k2, k3⟩ := pat_rename hf fl h1
    obtain ⟨b', q1, q2, q3, q4⟩ := pats_rename hf h2
    exact ⟨(a'.1 ++ b'.1, a'.2 ++ b'.2.1, b'.2.2), by simp [patsMeaning, k1, q1], k2.append q2, k3.append q3, q4⟩

/-! ## Tags -/

/-- The rules look for the same. -/
structure Recased (rx : RxEngine) (i i' : RuleInfo) : Prop where
  agrees : ∀ k, tagAgrees i k = tagAgrees i' k
  optional : i.optional = i'.optional
  greedy : i.greedy = i'.greedy
  conditions : ∀ h p, allMatch rx h p i.ms = allMatch rx h p i'.ms
  captures : ∀ h p, ruleCapture rx h p i.caps = ruleCapture rx h p i'.caps
  safe : ∀ n, i.Safe n → i'.Safe n

theorem allMatch_same {ms ms' : List Match} (hm : All2 (SameM rx) ms ms') (h : Heap) (p : Ptr) :
    allMatch rx h p (ms.map some) = allMatch rx h p (ms'.map some) := by
  induction hm with
  | nil => rfl
  | cons h1 _ ih => simp only [List.map_cons, allMatch, h1.1, ih]

theorem ruleCapture_same {cs cs' : List Capture} (hm : All2 (SameC rx) cs cs') (h : Heap) (p : Ptr) :
    ruleCapture rx h p (cs.map some) = ruleCapture rx h p (cs'.map some) := by
  induction hm with
  | nil => rfl
  | cons h1 _ ih => simp only [List.map_cons, ruleCapture, h1.1, ih]

theorem safeL_same {ms ms' : List Match} (hm : All2 (SameM rx) ms ms') (h : Match.SafeL n (ms.map some)) : Match.SafeL n (ms'.map some) := by
  induction hm with
  | nil => exact h
  | cons h1 _ ih =>
    simp only [List.map_cons, Match.SafeL, Match.SafeO] at h ⊢
    exact ⟨h1.2 n h.1, ih h.2⟩

theorem capSafe_same {cs cs' : List Capture} (hm : All2 (SameC rx) cs cs') (h : ∀ c, some c ∈ cs.map some → c.Safe) :
    ∀ c, some c ∈ cs'.map some → c.Safe := by
  induction hm with
  | nil => exact h
  | cons h1 _ ih =>
    simp only [List.map_cons, List.mem_cons, Option.some.injEq, forall_eq_or_imp] at h ⊢
    exact ⟨h1.2 h.1, ih h.2⟩

theorem agrees_same {t t' : Str} (h : SameName t t') {i i' : RuleInfo} (h1 : i.tag = (tagMeaning t).1) (h2 : i.tagname = (tagMeaning t).2)
    (h1' : i'.tag = (tagMeaning t').1) (h2' : i'.tagname = (tagMeaning t').2) (k : Kind) : tagAgrees i k = tagAgrees i' k := by
  unfold tagAgrees
  rw [h1, h2, h1', h2']
  unfold tagMeaning
  have hs := sameName_star h
  by_cases ht : t = [42]
  · simp [ht, hs.1 ht]
  · have ht' : ¬ t' = [42] := fun e => ht (hs.2 e)
    simp only [ht, ht', if_false, enum_same h]
    cases gumboTagEnum (cstr t') with
    | unknown =>
      have : t.map toLowerB = t'.map toLowerB := h
      cases k with
      | element e => cases ho : e.origName <;> simp [eqIgnoreCase, ho, this, sameName_length h]
      | _ => rfl
    | known _ => rfl

theorem head_rename (hf : Recasing f) {hd : Head} {fl fl' : Flags} {info : RuleInfo} (hm : hd.meaning rx fl = some (info, fl')) :
    ∃ info', (hd.rename f).meaning rx fl = some (info', fl') ∧ Recased rx info info' ∧
      (∀ t, Closes info t → Closes info' (f t)) := by
  simp only [Head.meaning, Option.bind_eq_bind, Option.bind_eq_some_iff, Option.some.injEq, Prod.mk.injEq] at hm
  obtain ⟨⟨ms, g⟩, h1, y, h2, hi, rfl⟩ := hm
  obtain ⟨y', k1, k2, k3, k4⟩ := pats_rename hf h2
  have hms := All2.append (all2_refl (R := SameM rx) sameM_refl ms) k2
  refine ⟨⟨(tagMeaning (f hd.tag)).1, hd.options.contains true, hd.options.contains false, (tagMeaning (f hd.tag)).2,
    (ms ++ y'.1).map some, y'.2.1.map some⟩, ?_, ?_, ?_⟩
  · simp only [Head.meaning, Head.rename, h1, k1, k4, Option.bind_eq_bind, Option.bind_some]
  · subst hi
    refine ⟨?_, rfl, rfl, fun h p => ?_, fun h p => ruleCapture_same k3 h p, fun n hs => ⟨?_, capSafe_same k3 hs.2⟩⟩
    · exact agrees_same (hf hd.tag).symm rfl rfl rfl rfl
    · simpa using allMatch_same hms h p
    · simpa using safeL_same hms (by simpa using hs.1)
  · subst hi
    intro t ht
    have hs := sameName_star (hf hd.tag)
    unfold Closes at ht ⊢
    simp only [tagMeaning] at ht ⊢
    by_cases hst : hd.tag = [42]
    · simp only [hst, if_true] at ht
      subst ht
      simp only [hst] at hs
      simp [Head.rename, hst, hs]
    · have hst' : ¬ f hd.tag = [42] := fun e => hst (hs.1 e)
      have e2 := enum_same (hf hd.tag)
      simp only [Head.rename, hst, hst', if_false, e2] at ht ⊢
      cases hk : gumboTagEnum (cstr hd.tag) with
      | unknown => simp only [hk] at ht ⊢; rw [ht]
      | known x =>
        simp only [hk] at ht ⊢
        exact ⟨fun e => ht.1 ((sameName_star (hf t)).1 e), (enum_same (hf t)).trans ht.2⟩

theorem seq_rename (hf : Recasing f) {fl fl' : Flags} {is : List Item} {rs : List Rule} (hs : Syn.Seq rx fl is fl' rs) :
    ∃ rs', Syn.Seq rx fl (is.map (Item.rename f)) fl' rs' ∧ All2 (Rule.Alike (Recased rx)) rs rs' := by
  have hfill : ∀ {i : Item}, i.IsFiller → i.rename f = i := by intro i hi; cases i <;> first | rfl | exact hi.elim
  refine Syn.Seq.rec
    (motive_1 := fun fl is fl' r _ => ∃ r', Syn.Elem rx fl (is.map (Item.rename f)) fl' r' ∧ r.Alike (Recased rx) r')
    (motive_2 := fun fl is fl' kids nested _ => ∃ kids' nested', Body rx fl (is.map (Item.rename f)) fl' kids' nested' ∧
      All2 (Rule.Alike (Recased rx)) kids kids' ∧ All2 (Rule.Alike (Recased rx)) nested nested')
    (motive_3 := fun fl is fl' rs _ => ∃ rs', Syn.Seq rx fl (is.map (Item.rename f)) fl' rs' ∧ All2 (Rule.Alike (Recased rx)) rs rs')
    ?_ ?_ ?_ ?_ ?_ ?_ ?_ ?_ ?_ hs
  · intro fl h fl' info hm
    obtain ⟨info', h1, h2, _⟩ := head_rename hf hm
    exact ⟨_, .selfClosing h1, mkRule_alike h2 .nil .nil⟩
  · intro fl h f1 info is f2 kids nested t hm _ hc ih
    obtain ⟨info', h1, h2, h3⟩ := head_rename hf hm
    obtain ⟨kids', nested', h4, h5, h6⟩ := ih
    refine ⟨_, ?_, mkRule_alike h2 h5 h6⟩
    simpa [Item.rename] using Syn.Elem.closed h1 h4 (h3 t hc)
  · intro fl; exact ⟨[], [], .nil, .nil, .nil⟩
  · intro fl i is fl' kids nested hi _ ih
    obtain ⟨kids', nested', h4, h5, h6⟩ := ih
    exact ⟨kids', nested', by rw [List.map_cons, hfill hi]; exact .filler hi h4, h5, h6⟩
  · intro fl is f1 r js f2 kids nested _ _ ih1 ih2
    obtain ⟨r', h1, h2⟩ := ih1
    obtain ⟨kids', nested', h4, h5, h6⟩ := ih2
    exact ⟨r' :: kids', nested', by rw [List.map_append]; exact .child h1 h4, .cons h2 h5, h6⟩
  · intro fl is f1 r rs js f2 kids nested _ _ ih1 ih2
    obtain ⟨rs', h1, h2⟩ := ih1
    obtain ⟨kids', nested', h4, h5, h6⟩ := ih2
    cases h2 with
    | cons h7 h8 =>
      refine ⟨kids', _ :: nested', ?_, h5, .cons (chain_alike h7 h8) h6⟩
      simpa [Item.rename] using Syn.Body.block h1 h4
  · intro fl; exact ⟨[], .nil, .nil⟩
  · intro fl i is fl' rs hi _ ih
    obtain ⟨rs', h1, h2⟩ := ih
    exact ⟨rs', by rw [List.map_cons, hfill hi]; exact .filler hi h1, h2⟩
  · intro fl is f1 r js f2 rs _ _ ih1 ih2
    obtain ⟨r', h1, h2⟩ := ih1
    obtain ⟨rs', h4, h5⟩ := ih2
    exact ⟨r' :: rs', by rw [List.map_append]; exact .elem h1 h4, .cons h2 h5⟩

/-! ## Results -/

theorem captured_same {I : RuleInfo → RuleInfo → Prop} (hI : ∀ i i', I i i' → ∀ h p, ruleCapture rx h p i.caps = ruleCapture rx h p i'.caps)
    {Ok : Loc → Prop} {g g' : Pairs RulePtr Loc} (hg : All2 (Pair2 (PRel I) (Same Ok)) g g') {vs vs' : List (Str × Str)}
    (hv : Captured rx h (found g) vs) (hv' : Captured rx h (found g') vs') : vs = vs' := by
  induction hg generalizing vs vs' with
  | nil => cases hv; cases hv'; rfl
  | @cons p q g g' hpq _ ih =>
    cases hv with
    | cons k hv =>
      cases hv' with
      | cons k' hv' =>
        have hx : p.2 = q.2 := lrel_eq hpq.2.1
        rw [hI _ _ hpq.1 h, hx, k'] at k
        rw [ih hv hv', E.pure_inj k]

theorem maps_same {I : RuleInfo → RuleInfo → Prop} (hI : ∀ i i', I i i' → ∀ h p, ruleCapture rx h p i.caps = ruleCapture rx h p i'.caps)
    {Ok : Loc → Prop} {gs gs' : List (Pairs RulePtr Loc)} (hg : All2 (All2 (Pair2 (PRel I) (Same Ok))) gs gs') {ms ms' : List (List (Str × Str))}
    (hm : Maps rx h (gs.map found) ms) (hm' : Maps rx h (gs'.map found) ms') : ms = ms' := by
  induction hg generalizing ms ms' with
  | nil => cases hm; cases hm'; rfl
  | cons hp _ ih =>
    cases hm with
    | cons c i hm =>
      cases hm' with
      | cons c' i' hm' =>
        rw [ih hm hm']
        congr 1
        rw [captured_same hI hp c c'] at i
        exact i.unique i'

theorem recased_extract {r r' : Rule} (hn : n ≤ 2147483647) (hs : r.Safe n) (hr : r.Alike (Recased rx) r') (hl : l.Stored h n)
    (ms : UInt64) : extract rx h r l.ptr ms = extract rx h r' l.ptr ms := by
  have hs' : r'.Safe n := alike_all (fun i i' hi => hi.safe n) hr hs
  obtain ⟨res, _, ⟨maps, h1, h2⟩, h3⟩ := extract_result (rx := rx) hn hs hl
  obtain ⟨res', _, ⟨maps', h1', h2'⟩, h3'⟩ := extract_result (rx := rx) hn hs' hl
  have hsame := search_own (rx := rx) (I := Recased rx) (fun i i' hi => ⟨hi.optional, hi.greedy⟩)
    (fun i i' hi l hl => by unfold ownVal ruleMatches; simp only [hi.conditions, hi.agrees]) hr hl
  have hm := maps_same (fun i i' hi => hi.captures) hsame.1 h1 h1'
  rw [h3, h3', hsame.2, h2, h2', hm]

theorem recased_refl (i : RuleInfo) : Recased rx i i :=
  ⟨fun _ => rfl, rfl, rfl, fun _ _ => rfl, fun _ _ => rfl, fun _ h => h⟩

theorem ruleOf_recased {rs rs' : List Rule} (hs : All2 (Rule.Alike (Recased rx)) rs rs') : (ruleOf rs).Alike (Recased rx) (ruleOf rs') := by
  cases hs with
  | nil => exact ⟨recased_refl _, rfl, rfl, rfl⟩
  | cons h1 h2 => exact chain_alike h1 h2

theorem item_rename_ok (hf : Recasing f) {i : Item} (h : i.Ok) : (i.rename f).Ok := by
  have same : ∀ a, SameName a (f a) := fun a => (hf a).symm
  cases i with
  | start hd sc =>
    refine ⟨isTag_same (same _) h.1, h.2.1, ?_, h.2.2.2⟩
    intro p hp
    simp only [Head.rename, List.mem_map] at hp
    obtain ⟨q, hq, rfl⟩ := hp
    obtain ⟨h1, h2, h3⟩ := h.2.2.1 q hq
    refine ⟨h1, h2, ?_⟩
    obtain ⟨w, p⟩ := q
    cases p with
    | capFn => exact h3
    | testFn => exact h3
    | capAttr => exact ⟨isName_same (same _) h3.1, h3.2⟩
    | testAttr => exact ⟨isName_same (same _) h3.1, h3.2⟩
    | hasAttr => exact isName_same (same _) h3
  | stop t => exact isTag_same (same _) h
  | _ => exact h

end

end Hext
