import Verif.Proofs.Reorder
import Verif.Proofs.ParserMain
set_option linter.unusedSimpArgs false
/-!
# Hexts that are written in another order: proofs
-/

namespace Hext

open Param Props Syn

section
variable {rx : RxEngine}

/-! ## Conditions -/

theorem trait_noOptions {t : Trait} (ht : t.NoOptions) {x : Match × Flags} (hm : t.meaning rx {} = some x) : x.2 = {} := by
  cases t with
  | typeMatches r =>
    simp only [Trait.meaning, Rx.meaning, Option.bind_eq_bind, Option.bind_eq_some_iff, Option.some.injEq] at hm
    obtain ⟨y, h1, rfl⟩ := hm
    split at h1
    · cases h1
      simp only [Trait.NoOptions] at ht
      simp [Rx.flags, ht]
    · cases h1
  | empty => cases hm; rfl
  | endmost a b => cases hm; rfl
  | only a => cases hm; rfl
  | childCount d =>
    simp only [Trait.meaning, Option.bind_eq_bind, Option.bind_eq_some_iff, Option.some.injEq] at hm
    obtain ⟨_, _, rfl⟩ := hm; rfl
  | attributeCount d =>
    simp only [Trait.meaning, Option.bind_eq_bind, Option.bind_eq_some_iff, Option.some.injEq] at hm
    obtain ⟨_, _, rfl⟩ := hm; rfl
  | nth a b d =>
    simp only [Trait.meaning, Option.bind_eq_bind, Option.bind_eq_some_iff, Option.some.injEq] at hm
    obtain ⟨_, _, rfl⟩ := hm; rfl

/-- Both lists have the same members, up to `R`. -/
def Lists {α β : Type} (R : α → β → Prop) (xs : List α) (ys : List β) : Prop :=
  (∀ x ∈ xs, ∃ y ∈ ys, R x y) ∧ ∀ y ∈ ys, ∃ x ∈ xs, R x y

theorem Lists.cons {α β : Type} {R : α → β → Prop} {x : α} {y : β} {xs : List α} {ys : List β} (h : R x y) (hs : Lists R xs ys) :
    Lists R (x :: xs) (y :: ys) := by
  constructor
  · intro a ha
    rcases List.mem_cons.1 ha with rfl | ha
    · exact ⟨y, by simp, h⟩
    · obtain ⟨b, h1, h2⟩ := hs.1 a ha
      exact ⟨b, by simp [h1], h2⟩
  · intro b hb
    rcases List.mem_cons.1 hb with rfl | hb
    · exact ⟨x, by simp, h⟩
    · obtain ⟨a, h1, h2⟩ := hs.2 b hb
      exact ⟨a, by simp [h1], h2⟩

theorem traits_lists : ∀ {ts : List Trait}, (∀ t ∈ ts, t.NoOptions) → ∀ {x : List Match × Flags}, traitsMeaning rx {} ts = some x →
    x.2 = {} ∧ Lists (fun t m => t.meaning rx {} = some (m, {})) ts x.1
  | [], _, x, hm => by cases hm; exact ⟨rfl, by simp [Lists]⟩
  | t :: ts, ht, x, hm => by
    simp only [traitsMeaning, Option.bind_eq_bind, Option.bind_eq_some_iff, Option.some.injEq] at hm
    obtain ⟨⟨m, g⟩, h1, ⟨ms, g'⟩, h2, rfl⟩ := hm
    have e : g = {} := trait_noOptions (ht t (by simp)) h1
    subst e
    obtain ⟨k1, k2⟩ := traits_lists (fun t h => ht t (by simp [h])) h2
    exact ⟨k1, .cons h1 k2⟩

theorem traits_some : ∀ {ts : List Trait}, (∀ t ∈ ts, ∃ m, t.meaning rx {} = some (m, {})) →
    ∃ ms, traitsMeaning rx {} ts = some (ms, {})
  | [], _ => ⟨[], rfl⟩
  | t :: ts, h => by
    obtain ⟨m, h1⟩ := h t (by simp)
    obtain ⟨ms, h2⟩ := traits_some (ts := ts) fun t ht => h t (by simp [ht])
    exact ⟨m :: ms, by simp [traitsMeaning, h1, h2]⟩

theorem cond_noOptions {c : Cond} (hc : c.NoOptions) {x : Match × Flags} (hm : c.meaning rx {} = some x) : x.2 = {} := by
  cases c with
  | trait t => exact trait_noOptions hc hm
  | not ts =>
    simp only [Cond.meaning, Option.bind_eq_bind, Option.bind_eq_some_iff, Option.some.injEq] at hm
    obtain ⟨y, h1, rfl⟩ := hm
    exact (traits_lists hc h1).1

theorem conds_lists : ∀ {cs : List Cond}, (∀ c ∈ cs, c.NoOptions) → ∀ {x : List Match × Flags}, condsMeaning rx {} cs = some x →
    x.2 = {} ∧ Lists (fun c m => c.meaning rx {} = some (m, {})) cs x.1
  | [], _, x, hm => by cases hm; exact ⟨rfl, by simp [Lists]⟩
  | t :: ts, ht, x, hm => by
    simp only [condsMeaning, Option.bind_eq_bind, Option.bind_eq_some_iff, Option.some.injEq] at hm
    obtain ⟨⟨m, g⟩, h1, ⟨ms, g'⟩, h2, rfl⟩ := hm
    have e : g = {} := cond_noOptions (ht t (by simp)) h1
    subst e
    obtain ⟨k1, k2⟩ := conds_lists (fun t h => ht t (by simp [h])) h2
    exact ⟨k1, .cons h1 k2⟩

theorem conds_some : ∀ {cs : List Cond}, (∀ c ∈ cs, ∃ m, c.meaning rx {} = some (m, {})) →
    ∃ ms, condsMeaning rx {} cs = some (ms, {})
  | [], _ => ⟨[], rfl⟩
  | t :: ts, h => by
    obtain ⟨m, h1⟩ := h t (by simp)
    obtain ⟨ms, h2⟩ := conds_some (cs := ts) fun t ht => h t (by simp [ht])
    exact ⟨m :: ms, by simp [condsMeaning, h1, h2]⟩

theorem sameAs_refl (m : Match) : m.SameAs m := by
  refine Match.rec (motive_1 := fun m => m.SameAs m) (motive_2 := fun ms => ∀ m, some m ∈ ms → m.SameAs m)
    (motive_3 := fun o => ∀ m, o = some m → m.SameAs m) ?_ ?_ ?_ ?_ ?_ ?_ ?_ ?_ ?_ ?_ ?_ ?_ ?_ m
  case refine_6 =>
    intro ms ih
    simp only [Match.SameAs]
    exact ⟨ms, rfl, eachIn_mem.2 fun m hm => ⟨m, hm, ih m hm⟩, fun c hc => oneOf_mem.2 ⟨c, hc, ih c hc⟩⟩
  all_goals first | (intros; simp only [Match.SameAs]; done) | skip
  · intro m hm; cases hm
  · intro o os h1 h2 m hm
    rcases List.mem_cons.1 hm with hm | hm
    · exact h1 m hm.symm
    · exact h2 m hm
  · intro m hm; cases hm
  · intro a h1 m hm; cases hm; exact h1

theorem cond_rearranged {c c' : Cond} (h : c.Rearranged c') (hc : c.NoOptions) {m : Match} (hm : c.meaning rx {} = some (m, {})) :
    c'.NoOptions ∧ ∃ m', c'.meaning rx {} = some (m', {}) ∧ m.SameAs m' := by
  rcases h with rfl | ⟨ts, ts', rfl, rfl, hts⟩
  · exact ⟨hc, m, hm, sameAs_refl m⟩
  · simp only [Cond.meaning, Option.bind_eq_bind, Option.bind_eq_some_iff, Option.some.injEq, Prod.mk.injEq] at hm
    obtain ⟨⟨ms, g⟩, h1, rfl, rfl⟩ := hm
    obtain ⟨_, k1⟩ := traits_lists hc h1
    have hc' : ∀ t ∈ ts', t.NoOptions := fun t ht => hc t ((hts t).2 ht)
    obtain ⟨ms', h2⟩ := traits_some (rx := rx) (ts := ts') fun t ht => by
      obtain ⟨m, _, h⟩ := k1.1 t ((hts t).2 ht)
      exact ⟨m, h⟩
    obtain ⟨_, k2⟩ := traits_lists hc' h2
    refine ⟨hc', .negate (ms'.map some), by simp [Cond.meaning, h2], ?_⟩
    simp only [Match.SameAs]
    have both : ∀ m, m ∈ ms ↔ m ∈ ms' := fun m => by
      constructor
      · intro hm
        obtain ⟨t, ht, he⟩ := k1.2 m hm
        obtain ⟨m', hm', he'⟩ := k2.1 t ((hts t).1 ht)
        rw [he] at he'
        cases he'
        exact hm'
      · intro hm
        obtain ⟨t, ht, he⟩ := k2.2 m hm
        obtain ⟨m', hm', he'⟩ := k1.1 t ((hts t).2 ht)
        rw [he] at he'
        cases he'
        exact hm'
    refine ⟨_, rfl, eachIn_mem.2 fun m hm => ⟨m, ?_, sameAs_refl m⟩, fun c hc => oneOf_mem.2 ⟨c, ?_, sameAs_refl c⟩⟩
    · simp only [List.mem_map, Option.some.injEq, exists_eq_right] at hm ⊢
      exact (both m).1 hm
    · simp only [List.mem_map, Option.some.injEq, exists_eq_right] at hc ⊢
      exact (both c).2 hc

/-! ## Patterns -/

/-- What a pattern means if no options are in force. -/
def patVal (rx : RxEngine) (p : Pat) : List Match × List Capture := (p.meaning rx {}).getD ([], [])

theorem pats_val : ∀ {ps : List (Str × Pat)} {x : List Match × List Capture × Flags}, patsMeaning rx {} ps = some x ↔
    (∀ p ∈ ps.map (·.2), ∃ y, p.meaning rx {} = some y) ∧
    x = ((ps.map (·.2)).flatMap (fun p => (patVal rx p).1), (ps.map (·.2)).flatMap (fun p => (patVal rx p).2), {})
  | [], x => by simp [patsMeaning, eq_comm]
  | p :: ps, x => by
    simp only [patsMeaning, Option.bind_eq_bind, Option.bind_eq_some_iff, Option.some.injEq]
    constructor
    · rintro ⟨y, h1, z, h2, rfl⟩
      obtain ⟨k1, rfl⟩ := pats_val.1 h2
      refine ⟨?_, by simp [patVal, h1]⟩
      simp only [List.map_cons, List.mem_cons]
      rintro q (rfl | hq)
      · exact ⟨y, h1⟩
      · exact k1 q hq
    · rintro ⟨h1, rfl⟩
      obtain ⟨y, hy⟩ := h1 p.2 (by simp)
      refine ⟨y, hy, _, pats_val.2 ⟨fun q hq => h1 q (by simp only [List.map_cons, List.mem_cons]; exact .inr hq), rfl⟩, ?_⟩
      simp [patVal, hy]

theorem pat_captures (p : Pat) (name : Str) : (patVal rx p).2.filter (·.resultName = name) =
    if p.captureName = some name then (patVal rx p).2 else [] := by
  unfold patVal
  cases p with
  | capFn fn ps nm =>
    simp only [Pat.meaning, Option.bind_eq_bind, Pat.captureName, Option.some.injEq]
    cases pipesMeaning rx {} ps with
    | none => simp
    | some x =>
      by_cases hn : nm.meaning = name <;> simp [hn, Capture.resultName]
  | capAttr a ps nm o =>
    simp only [Pat.meaning, Option.bind_eq_bind, Pat.captureName, Option.some.injEq]
    cases pipesMeaning rx {} ps with
    | none => simp
    | some x =>
      by_cases hn : nm.meaning = name <;> simp [hn, Capture.resultName]
  | testFn fn t neg =>
    simp only [Pat.meaning, Option.bind_eq_bind, Pat.captureName, reduceCtorEq, if_false]
    cases t.meaning rx {} <;> simp
  | testAttr fn t neg =>
    simp only [Pat.meaning, Option.bind_eq_bind, Pat.captureName, reduceCtorEq, if_false]
    cases t.meaning rx {} <;> simp
  | hasAttr a neg => simp [Pat.meaning, Pat.captureName]

theorem pats_captures (name : Str) (ps : List Pat) : (ps.flatMap fun p => (patVal rx p).2).filter (·.resultName = name) =
    (ps.filter (·.captureName = some name)).flatMap fun p => (patVal rx p).2 := by
  induction ps with
  | nil => rfl
  | cons p ps ih =>
    rw [List.flatMap_cons, List.filter_append, ih, pat_captures, List.filter_cons]
    by_cases hp : p.captureName = some name <;> simp [hp]

/-! ## Tags -/

theorem head_rearranged {h h' : Head} (hr : h.Rearranged h') (ho : ∀ c ∈ h.conds, c.NoOptions) {info : RuleInfo} {f : Flags}
    (hm : h.meaning rx {} = some (info, f)) :
    f = {} ∧ ∃ info', h'.meaning rx {} = some (info', {}) ∧ info.Rearranged info' := by
  simp only [Head.meaning, Option.bind_eq_bind, Option.bind_eq_some_iff, Option.some.injEq, Prod.mk.injEq] at hm
  obtain ⟨⟨ms, g⟩, h1, y, h2, hi, rfl⟩ := hm
  obtain ⟨e, k1⟩ := conds_lists ho h1
  simp only at e
  subst e
  obtain ⟨k2, rfl⟩ := pats_val.1 h2
  have hc' : ∀ c' ∈ h'.conds, c'.NoOptions ∧ ∃ m ∈ ms, ∃ m', c'.meaning rx {} = some (m', {}) ∧ m.SameAs m' := by
    intro c' hc'
    obtain ⟨c, hc, hcc⟩ := hr.conds' c' hc'
    obtain ⟨m, hm, he⟩ := k1.1 c hc
    obtain ⟨a, b⟩ := cond_rearranged hcc (ho c hc) he
    exact ⟨a, m, hm, b⟩
  obtain ⟨ms', h3⟩ := conds_some (rx := rx) (cs := h'.conds) fun c' hcc => by
    obtain ⟨_, m, _, m', h, _⟩ := hc' c' hcc
    exact ⟨m', h⟩
  obtain ⟨_, k3⟩ := conds_lists (fun c' h => (hc' c' h).1) h3
  have h4 := (pats_val (rx := rx) (ps := h'.pats)).2 ⟨fun p hp => k2 p ((hr.pats p).2 hp), rfl⟩
  refine ⟨rfl, _, by simp [Head.meaning, h3, h4]; rfl, ?_⟩
  subst hi
  refine ⟨?_, ⟨eachIn_mem.2 ?_, ?_⟩, ?_⟩
  · simp only [hr.tag, RuleInfo.mk.injEq, true_and, and_true]
    constructor
    · have := hr.options true
      rw [Bool.eq_iff_iff]; simp [this]
    · have := hr.options false
      rw [Bool.eq_iff_iff]; simp [this]
  · intro m hm
    simp only [List.map_append, List.mem_append, List.mem_map, Option.some.injEq, exists_eq_right, List.mem_flatMap] at hm ⊢
    rcases hm with hm | ⟨p, hp, hm⟩
    · obtain ⟨c, hc, he⟩ := k1.2 m hm
      obtain ⟨c', hc', hcc⟩ := hr.conds c hc
      obtain ⟨_, m', he', hmm⟩ := cond_rearranged hcc (ho c hc) he
      obtain ⟨m'', hm'', he''⟩ := k3.1 c' hc'
      rw [he'] at he''
      cases he''
      exact ⟨m', .inl hm'', hmm⟩
    · exact ⟨m, .inr ⟨p, by simpa using (hr.pats p).1 (by simpa using hp), hm⟩, sameAs_refl m⟩
  · intro m' hm'
    refine oneOf_mem.2 ?_
    simp only [List.map_append, List.mem_append, List.mem_map, Option.some.injEq, exists_eq_right, List.mem_flatMap] at hm' ⊢
    rcases hm' with hm' | ⟨p, hp, hm'⟩
    · obtain ⟨c', hcc, he⟩ := k3.2 m' hm'
      obtain ⟨_, m, hm, m'', he', hs⟩ := hc' c' hcc
      rw [he] at he'
      cases he'
      exact ⟨m, .inl hm, hs⟩
    · exact ⟨m', .inr ⟨p, by simpa using (hr.pats p).2 (by simpa using hp), hm'⟩, sameAs_refl m'⟩
  · intro name
    have hcap : ∀ cs : List Capture, capturesInto (· = name) (cs.map some) = cs.filter (·.resultName = name) := fun cs => by
      simp [capturesInto, List.filterMap_map]
    rw [hcap, hcap, pats_captures, pats_captures, hr.captures name]

/-! ## Items -/

theorem all2_split {α β : Type} {R : α → β → Prop} : ∀ {xs ys : List α} {zs : List β}, All2 R (xs ++ ys) zs →
    ∃ us vs, zs = us ++ vs ∧ All2 R xs us ∧ All2 R ys vs
  | [], ys, zs, h => ⟨[], zs, rfl, .nil, h⟩
  | x :: xs, ys, zs, h => by
    cases h with
    | cons h1 h2 =>
      obtain ⟨us, vs, rfl, h3, h4⟩ := all2_split h2
      exact ⟨_ :: us, vs, rfl, .cons h1 h3, h4⟩

abbrev RuleRearranged : Rule → Rule → Prop := Rule.Alike RuleInfo.Rearranged

theorem chain_alike {I : RuleInfo → RuleInfo → Prop} : ∀ {rs rs' : List Rule} {r r' : Rule}, r.Alike I r' → All2 (Rule.Alike I) rs rs' →
    (Syn.chain r rs).Alike I (Syn.chain r' rs')
  | [], _, .mk i c nx ns, .mk i' c' nx' ns', h, hs => by
    cases hs
    simp only [Rule.Alike, Syn.chain, Rule.info, Rule.child, Rule.next, Rule.nested, Rule.AlikeO] at h ⊢
    exact ⟨h.1, h.2.1, trivial, h.2.2.2⟩
  | q :: qs, _, .mk i c nx ns, .mk i' c' nx' ns', h, hs => by
    cases hs with
    | cons h1 h2 =>
      simp only [Rule.Alike, Syn.chain, Rule.info, Rule.child, Rule.next, Rule.nested, Rule.AlikeO] at h ⊢
      exact ⟨h.1, h.2.1, ⟨_, rfl, chain_alike h1 h2⟩, h.2.2.2⟩

theorem siblings_alike {I : RuleInfo → RuleInfo → Prop} {rs rs' : List Rule} (hs : All2 (Rule.Alike I) rs rs') :
    Rule.AlikeO I (siblings rs) (siblings rs') := by
  cases hs with
  | nil => rfl
  | cons h1 h2 => exact ⟨_, rfl, chain_alike h1 h2⟩

theorem alikeL_of {I : RuleInfo → RuleInfo → Prop} {rs rs' : List Rule} (hs : All2 (Rule.Alike I) rs rs') : Rule.AlikeL I rs rs' := by
  induction hs with
  | nil => rfl
  | cons h1 _ ih => exact ⟨_, _, rfl, h1, ih⟩

theorem mkRule_alike {I : RuleInfo → RuleInfo → Prop} {i i' : RuleInfo} {kids kids' nested nested' : List Rule} (hi : I i i')
    (hk : All2 (Rule.Alike I) kids kids') (hn : All2 (Rule.Alike I) nested nested') :
    (mkRule i kids nested).Alike I (mkRule i' kids' nested') :=
  ⟨hi, siblings_alike hk, rfl, alikeL_of hn⟩

/-- The items correspond: an open tag that means something with `I` to the meaning of another one, and anything else to itself. -/
def ItemRel (rx : RxEngine) (I : RuleInfo → RuleInfo → Prop) (i i' : Item) : Prop :=
  match i with
  | .start hd sc => ∃ hd', i' = .start hd' sc ∧ ∀ info f, hd.meaning rx {} = some (info, f) →
      f = {} ∧ ∃ info', hd'.meaning rx {} = some (info', {}) ∧ I info info'
  | i => i' = i

theorem filler_related {I : RuleInfo → RuleInfo → Prop} {i i' : Item} (hi : i.IsFiller) (h : ItemRel rx I i i') : i' = i := by
  cases i <;> first | exact h | exact hi.elim

theorem seq_related {I : RuleInfo → RuleInfo → Prop} (hI : ∀ i i' t, I i i' → Closes i t → Closes i' t) {f f' : Flags} {is is' : List Item}
    {rs : List Rule} (hs : Syn.Seq rx f is f' rs) (hf : f = {}) (hi : All2 (ItemRel rx I) is is') :
    f' = {} ∧ ∃ rs', Syn.Seq rx {} is' {} rs' ∧ All2 (Rule.Alike I) rs rs' := by
  revert is'
  refine Syn.Seq.rec
    (motive_1 := fun f is f' r _ => f = {} → ∀ {is'}, All2 (ItemRel rx I) is is' →
      f' = {} ∧ ∃ r', Syn.Elem rx {} is' {} r' ∧ r.Alike I r')
    (motive_2 := fun f is f' kids nested _ => f = {} → ∀ {is'}, All2 (ItemRel rx I) is is' →
      f' = {} ∧ ∃ kids' nested', Body rx {} is' {} kids' nested' ∧ All2 (Rule.Alike I) kids kids' ∧ All2 (Rule.Alike I) nested nested')
    (motive_3 := fun f is f' rs _ => f = {} → ∀ {is'}, All2 (ItemRel rx I) is is' →
      f' = {} ∧ ∃ rs', Syn.Seq rx {} is' {} rs' ∧ All2 (Rule.Alike I) rs rs')
    ?_ ?_ ?_ ?_ ?_ ?_ ?_ ?_ ?_ hs hf
  · rintro f h f' info hm rfl is' hi
    cases hi with
    | cons h1 h2 =>
      cases h2
      obtain ⟨hd', rfl, h1⟩ := h1
      obtain ⟨e, info', h3, h4⟩ := h1 _ _ hm
      exact ⟨e, _, .selfClosing h3, mkRule_alike h4 .nil .nil⟩
  · rintro f h f1 info is f2 kids nested t hm _ hc ih rfl is' hi
    cases hi with
    | cons h1 h2 =>
      obtain ⟨hd', rfl, h1⟩ := h1
      obtain ⟨e, info', h3, h4⟩ := h1 _ _ hm
      subst e
      obtain ⟨us, vs, rfl, h5, h6⟩ := all2_split h2
      cases h6 with
      | cons h6 h7 =>
        cases h7
        obtain ⟨e, kids', nested', h8, h9, h10⟩ := ih rfl h5
        rw [show _ = Item.stop t from h6]
        exact ⟨e, _, .closed h3 h8 (hI _ _ _ h4 hc), mkRule_alike h4 h9 h10⟩
  · rintro f rfl is' hi; cases hi; exact ⟨rfl, _, _, .nil, .nil, .nil⟩
  · rintro f i is f' kids nested hfi _ ih hf is' hi
    cases hi with
    | cons h1 h2 =>
      obtain ⟨e, kids', nested', h8, h9, h10⟩ := ih hf h2
      rw [filler_related hfi h1]
      exact ⟨e, kids', nested', .filler hfi h8, h9, h10⟩
  · rintro f is f1 r js f2 kids nested _ _ ih1 ih2 hf is' hi
    obtain ⟨us, vs, rfl, h5, h6⟩ := all2_split hi
    obtain ⟨e1, r', h1, h2⟩ := ih1 hf h5
    obtain ⟨e2, kids', nested', h8, h9, h10⟩ := ih2 e1 h6
    exact ⟨e2, _, _, .child h1 h8, .cons h2 h9, h10⟩
  · rintro f is f1 r rs js f2 kids nested _ _ ih1 ih2 hf is' hi
    cases hi with
    | cons hl hi =>
      obtain ⟨us, vs, rfl, h5, h6⟩ := all2_split hi
      cases h6 with
      | cons hr h6 =>
        obtain ⟨e1, rs', h1, h2⟩ := ih1 hf h5
        obtain ⟨e2, kids', nested', h8, h9, h10⟩ := ih2 e1 h6
        rw [show _ = Item.lbrace from hl, show _ = Item.rbrace from hr]
        cases h2 with
        | cons h2 h3 => exact ⟨e2, _, _, .block h1 h8, h9, .cons (chain_alike h2 h3) h10⟩
  · rintro f rfl is' hi; cases hi; exact ⟨rfl, _, .nil, .nil⟩
  · rintro f i is f' rs hfi _ ih hf is' hi
    cases hi with
    | cons h1 h2 =>
      obtain ⟨e, rs', h8, h9⟩ := ih hf h2
      rw [filler_related hfi h1]
      exact ⟨e, rs', .filler hfi h8, h9⟩
  · rintro f is f1 r js f2 rs _ _ ih1 ih2 hf is' hi
    obtain ⟨us, vs, rfl, h5, h6⟩ := all2_split hi
    obtain ⟨e1, r', h1, h2⟩ := ih1 hf h5
    obtain ⟨e2, rs', h8, h9⟩ := ih2 e1 h6
    exact ⟨e2, _, .elem h1 h8, .cons h2 h9⟩

theorem item_rearranged {i i' : Item} (h : i.Rearranged i') (ho : i.NoOptions) : ItemRel rx RuleInfo.Rearranged i i' := by
  rcases h with rfl | ⟨h, h', sc', rfl, rfl, hr⟩
  · cases i with
    | start hd sc =>
      exact ⟨hd, rfl, fun info f hm => head_rearranged ⟨rfl, fun _ => .rfl, fun c hc => ⟨c, hc, .inl rfl⟩, fun c hc => ⟨c, hc, .inl rfl⟩,
        fun _ => .rfl, fun _ => rfl⟩ ho hm⟩
    | _ => rfl
  · exact ⟨h', rfl, fun info f hm => head_rearranged hr ho hm⟩

theorem items_related {I : RuleInfo → RuleInfo → Prop} {J : Item → Item → Prop} {is is' : List Item} (hi : All2 J is is')
    (h : ∀ i i', i ∈ is → J i i' → ItemRel rx I i i') : All2 (ItemRel rx I) is is' := by
  induction hi with
  | nil => exact .nil
  | cons h1 _ ih => exact .cons (h _ _ (by simp) h1) (ih fun i i' hi => h i i' (by simp [hi]))

theorem closes_rearranged {i i' : RuleInfo} (h : i.Rearranged i') {t : Str} (hc : Closes i t) : Closes i' t := by
  rw [h.1]
  exact hc

theorem seq_rearranged {f f' : Flags} {is is' : List Item} {rs : List Rule} (hs : Syn.Seq rx f is f' rs) (ho : ∀ i ∈ is, i.NoOptions)
    (hf : f = {}) (hi : All2 Item.Rearranged is is') : f' = {} ∧ ∃ rs', Syn.Seq rx {} is' {} rs' ∧ All2 RuleRearranged rs rs' :=
  seq_related (fun _ _ _ h hc => closes_rearranged h hc) hs hf (items_related hi fun i _ h1 h2 => item_rearranged h2 (ho i h1))

theorem rearranged_refl (i : RuleInfo) : i.Rearranged i :=
  ⟨rfl, ⟨eachIn_mem.2 fun m hm => ⟨m, hm, sameAs_refl m⟩, fun c hc => oneOf_mem.2 ⟨c, hc, sameAs_refl c⟩⟩, fun _ => rfl⟩

theorem ruleOf_alike {rs rs' : List Rule} (hs : All2 RuleRearranged rs rs') : (ruleOf rs).Alike RuleInfo.Rearranged (ruleOf rs') := by
  cases hs with
  | nil => exact ⟨rearranged_refl _, rfl, rfl, rfl⟩
  | cons h1 h2 => exact chain_alike h1 h2

end

end Hext
