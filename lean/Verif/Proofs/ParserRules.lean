import Verif.Proofs.ParserMain
import Verif.Spec.Safe
import Verif.Spec.Extract
/-!
# The rules of a parsed hext

Each rule of the tree comes from a tag of the hext, and the other way round. Rules of a hext with short numbers are safe.
-/

namespace Hext

open Syn

/-! ## Rules and tags -/

theorem allL_iff {P : RuleInfo → Prop} {rs : List Rule} : Rule.AllL P rs ↔ ∀ r ∈ rs, r.All P := by
  induction rs with
  | nil => simp [Rule.AllL]
  | cons r rs ih => simp [Rule.AllL, ih]

theorem chain_all {P : RuleInfo → Prop} : ∀ {r : Rule} {rs : List Rule}, r.All P → (∀ q ∈ rs, q.All P) → (chain r rs).All P
  | .mk i c nx ns, [], h, _ => by
    simp only [Rule.All] at h
    simp only [chain, Rule.All, Rule.AllO]
    exact ⟨h.1, h.2.1, trivial, h.2.2.2⟩
  | .mk i c nx ns, s :: rs, h, hrs => by
    simp only [Rule.All] at h
    simp only [chain, Rule.All, Rule.AllO]
    exact ⟨h.1, h.2.1, chain_all (hrs s (by simp)) (fun q hq => hrs q (by simp [hq])), h.2.2.2⟩

/-- Every tag among the items stands for a rule with `P`. -/
def TagsAll (rx : RxEngine) (P : RuleInfo → Prop) (is : List Item) : Prop :=
  ∀ h c, Item.start h c ∈ is → ∀ f f' info, h.meaning rx f = some (info, f') → P info

theorem mkRule_all {P : RuleInfo → Prop} {info kids nested} (h : P info) (hk : ∀ r ∈ kids, r.All P) (hn : ∀ r ∈ nested, r.All P) :
    (mkRule info kids nested).All P := by
  simp only [mkRule, Rule.All]
  refine ⟨h, ?_, trivial, allL_iff.2 hn⟩
  cases kids with
  | nil => trivial
  | cons r rs => exact chain_all (hk r (by simp)) (fun q hq => hk q (by simp [hq]))

theorem seq_all {rx P f is f' rs} (h : Syn.Seq rx f is f' rs) : TagsAll rx P is → ∀ r ∈ rs, r.All P := by
  refine Syn.Seq.rec (rx := rx) (motive_1 := fun _ is _ r _ => TagsAll rx P is → r.All P)
    (motive_2 := fun _ is _ kids nested _ => TagsAll rx P is → (∀ r ∈ kids, r.All P) ∧ ∀ r ∈ nested, r.All P)
    (motive_3 := fun _ is _ rs _ => TagsAll rx P is → ∀ r ∈ rs, r.All P) ?_ ?_ ?_ ?_ ?_ ?_ ?_ ?_ ?_ h
  · intro _ _ _ _ hm ht
    exact mkRule_all (ht _ _ (.head _) _ _ _ hm) (by simp) (by simp)
  · intro _ _ _ _ _ _ _ _ _ hm _ _ ih ht
    have := ih (fun h c hc => ht h c (by simp [hc]))
    exact mkRule_all (ht _ _ (.head _) _ _ _ hm) this.1 this.2
  · intro _ _; simp
  · intro _ _ _ _ _ _ _ _ ih ht
    exact ih (fun h c hc => ht h c (by simp [hc]))
  · intro _ _ _ _ _ _ _ _ _ _ ih1 ih2 ht
    have h2 := ih2 (fun h c hc => ht h c (by simp [hc]))
    refine ⟨fun r hr => ?_, h2.2⟩
    rcases List.mem_cons.1 hr with rfl | hr
    · exact ih1 (fun h c hc => ht h c (by simp [hc]))
    · exact h2.1 r hr
  · intro _ _ _ _ _ _ _ _ _ _ _ ih1 ih2 ht
    have h1 := ih1 (fun h c hc => ht h c (by simp [hc]))
    have h2 := ih2 (fun h c hc => ht h c (by simp [hc]))
    refine ⟨h2.1, fun r hr => ?_⟩
    rcases List.mem_cons.1 hr with rfl | hr
    · exact chain_all (h1 _ (by simp)) (fun q hq => h1 q (by simp [hq]))
    · exact h2.2 r hr
  · intro _ _; simp
  · intro _ _ _ _ _ _ _ ih ht
    exact ih (fun h c hc => ht h c (by simp [hc]))
  · intro _ _ _ _ _ _ _ _ _ ih1 ih2 ht r hr
    rcases List.mem_cons.1 hr with rfl | hr
    · exact ih1 (fun h c hc => ht h c (by simp [hc]))
    · exact ih2 (fun h c hc => ht h c (by simp [hc])) r hr

theorem ruleOf_all {P : RuleInfo → Prop} {rs : List Rule} (h0 : rs = [] → P {}) (h : ∀ r ∈ rs, r.All P) : (ruleOf rs).All P := by
  cases rs with
  | nil => simp only [ruleOf, Rule.All, Rule.AllO, Rule.AllL]; exact ⟨h0 rfl, trivial, trivial, trivial⟩
  | cons r rs => exact chain_all (h r (by simp)) (fun q hq => h q (by simp [hq]))

/-! ## Tags and rules -/

/-- `q` is in the tree of one of the rules, not counting the rules behind these. -/
def Within (i : RuleInfo) (rs : List Rule) : Prop :=
  ∃ r ∈ rs, r.info = i ∨ (∃ c q, r.child = some c ∧ SubRule q c ∧ q.info = i) ∨ ∃ c q, c ∈ r.nested ∧ SubRule q c ∧ q.info = i

theorem within_chain {i : RuleInfo} : ∀ {r : Rule} {rs : List Rule}, Within i (r :: rs) → ∃ q, SubRule q (chain r rs) ∧ q.info = i
  | .mk i0 c0 nx ns, rs, h => by
    obtain ⟨r', hr', h⟩ := h
    have hchain : ∃ x, chain (.mk i0 c0 nx ns) rs = .mk i0 c0 x ns := by cases rs <;> exact ⟨_, rfl⟩
    obtain ⟨x, hx⟩ := hchain
    rcases List.mem_cons.1 hr' with rfl | hr'
    · rw [hx]
      rcases h with h | ⟨c, q, h1, h2, h3⟩ | ⟨c, q, h1, h2, h3⟩
      · exact ⟨_, .refl, h⟩
      · exact ⟨q, .child (show Rule.child (.mk i0 c0 x ns) = some c from h1) h2, h3⟩
      · exact ⟨q, .nested (show c ∈ Rule.nested (.mk i0 c0 x ns) from h1) h2, h3⟩
    · cases rs with
      | nil => simp at hr'
      | cons s rs =>
        obtain ⟨q, h1, h2⟩ := within_chain ⟨r', hr', h⟩
        exact ⟨q, .next rfl h1, h2⟩

theorem within_mkRule {info i : RuleInfo} {kids nested : List Rule}
    (h : i = info ∨ Within i kids ∨ ∃ c q, c ∈ nested ∧ SubRule q c ∧ q.info = i) : Within i [mkRule info kids nested] := by
  refine ⟨_, .head _, ?_⟩
  rcases h with rfl | h | ⟨c, q, h1, h2, h3⟩
  · exact .inl rfl
  · cases kids with
    | nil => obtain ⟨r, hr, _⟩ := h; simp at hr
    | cons r rs =>
      obtain ⟨q, h1, h2⟩ := within_chain h
      exact .inr (.inl ⟨_, q, rfl, h1, h2⟩)
  · exact .inr (.inr ⟨c, q, h1, h2, h3⟩)

theorem Within.left {i rs rs'} (h : Within i rs) : Within i (rs ++ rs') := by
  obtain ⟨r, h1, h2⟩ := h; exact ⟨r, by simp [h1], h2⟩
theorem Within.right {i rs rs'} (h : Within i rs') : Within i (rs ++ rs') := by
  obtain ⟨r, h1, h2⟩ := h; exact ⟨r, by simp [h1], h2⟩

theorem seq_within {rx f is f' rs} (h : Syn.Seq rx f is f' rs) :
    ∀ hd c, Item.start hd c ∈ is → ∃ f f' info, hd.meaning rx f = some (info, f') ∧ Within info rs := by
  refine Syn.Seq.rec (rx := rx)
    (motive_1 := fun _ is _ r _ => ∀ hd c, Item.start hd c ∈ is → ∃ f f' info, hd.meaning rx f = some (info, f') ∧ Within info [r])
    (motive_2 := fun _ is _ kids nested _ => ∀ hd c, Item.start hd c ∈ is → ∃ f f' info, hd.meaning rx f = some (info, f') ∧
      (Within info kids ∨ ∃ c q, c ∈ nested ∧ SubRule q c ∧ q.info = info))
    (motive_3 := fun _ is _ rs _ => ∀ hd c, Item.start hd c ∈ is → ∃ f f' info, hd.meaning rx f = some (info, f') ∧ Within info rs)
    ?_ ?_ ?_ ?_ ?_ ?_ ?_ ?_ ?_ h
  · intro f h f' info hm hd c hc
    simp only [List.mem_singleton, Item.start.injEq] at hc
    obtain ⟨rfl, rfl⟩ := hc
    exact ⟨_, _, _, hm, within_mkRule (.inl rfl)⟩
  · intro f h f1 info is f2 kids nested t hm _ _ ih hd c hc
    simp only [List.cons_append, List.mem_cons, Item.start.injEq, List.mem_append, List.not_mem_nil, or_false, reduceCtorEq] at hc
    rcases hc with ⟨rfl, rfl⟩ | hc
    · exact ⟨_, _, _, hm, within_mkRule (.inl rfl)⟩
    · obtain ⟨f, f', i, h1, h2⟩ := ih hd c hc
      exact ⟨f, f', i, h1, within_mkRule (.inr h2)⟩
  · intro _ _ _ h; simp at h
  · intro _ i _ _ _ _ hi _ ih hd c hc
    rcases List.mem_cons.1 hc with rfl | hc
    · exact absurd hi (by simp [Item.IsFiller])
    · exact ih hd c hc
  · intro _ _ _ r _ _ kids _ _ _ ih1 ih2 hd c hc
    rcases List.mem_append.1 hc with hc | hc
    · obtain ⟨f, f', i, h1, h2⟩ := ih1 hd c hc
      exact ⟨f, f', i, h1, .inl (Within.left h2)⟩
    · obtain ⟨f, f', i, h1, h2⟩ := ih2 hd c hc
      refine ⟨f, f', i, h1, ?_⟩
      rcases h2 with h2 | h2
      · exact .inl (Within.right (rs := [r]) h2)
      · exact .inr h2
  · intro _ _ _ _ _ _ _ _ _ _ _ ih1 ih2 hd c hc
    simp only [List.cons_append, List.mem_cons, List.mem_append, reduceCtorEq, false_or] at hc
    rcases hc with hc | hc
    · obtain ⟨f, f', i, h1, h2⟩ := ih1 hd c hc
      obtain ⟨q, h3, h4⟩ := within_chain h2
      exact ⟨f, f', i, h1, .inr ⟨_, q, by simp, h3, h4⟩⟩
    · obtain ⟨f, f', i, h1, h2⟩ := ih2 hd c hc
      refine ⟨f, f', i, h1, ?_⟩
      rcases h2 with h2 | ⟨c, q, h3, h4⟩
      · exact .inl h2
      · exact .inr ⟨c, q, by simp [h3], h4⟩
  · intro _ _ _ h; simp at h
  · intro _ i _ _ _ hi _ ih hd c hc
    rcases List.mem_cons.1 hc with rfl | hc
    · exact absurd hi (by simp [Item.IsFiller])
    · exact ih hd c hc
  · intro _ _ _ r _ _ _ _ _ ih1 ih2 hd c hc
    rcases List.mem_append.1 hc with hc | hc
    · obtain ⟨f, f', i, h1, h2⟩ := ih1 hd c hc
      exact ⟨f, f', i, h1, Within.left h2⟩
    · obtain ⟨f, f', i, h1, h2⟩ := ih2 hd c hc
      exact ⟨f, f', i, h1, Within.right (rs := [r]) h2⟩

/-! ## Short numbers -/

theorem NoLong.mono {s t : Str} (h : NoLong t) (hs : s <:+: t) : NoLong s := fun d hd => h d (hd.trans hs)

theorem digitsVal_lt {d : Str} (h : ∀ x ∈ d, 48 ≤ x ∧ x ≤ 57) : digitsVal d < 10 ^ d.length := by
  have key : ∀ (d : Str), (∀ x ∈ d, 48 ≤ x ∧ x ≤ 57) → ∀ n, d.foldl (fun n d => n * 10 + (d.toNat - 48)) n < (n + 1) * 10 ^ d.length := by
    intro d
    induction d with
    | nil => intro _ n; simp
    | cons x d ih =>
      intro h n
      have hx : x.toNat - 48 ≤ 9 := by
        have := UInt8.le_iff_toNat_le.mp (h x (by simp)).2
        simp at this
        omega
      have := ih (fun y hy => h y (by simp [hy])) (n * 10 + (x.toNat - 48))
      simp only [List.foldl_cons, List.length_cons, Nat.pow_succ]
      calc _ < _ := this
        _ ≤ (n + 1) * 10 * 10 ^ d.length := Nat.mul_le_mul_right _ (by omega)
        _ = _ := by rw [Nat.mul_assoc, Nat.mul_comm 10]
  have := key d h 0
  simpa [digitsVal] using this

theorem intVal_small {neg : Bool} {d : Str} {v : Int} (hd : IsDigits d) (hs : NoLong d) (h : intVal neg d = some v) :
    -1000000000 < v ∧ v < 1000000000 := by
  have h1 := digitsVal_lt hd.2
  have h2 : d.length ≤ 9 := by have := hs d (List.infix_refl d) hd.2; omega
  have h3 : digitsVal d < 10 ^ 9 := Nat.lt_of_lt_of_le h1 (Nat.pow_le_pow_right (by omega) h2)
  simp only [intVal, Option.ite_none_right_eq_some, Option.some.injEq] at h
  obtain ⟨_, rfl⟩ := h
  split <;> omega

/-- Documents in which no node has more children than that. -/
def manyChildren : Nat := 1147483648

theorem nth_safe {n : Nth} {x : Int × Int} (hok : n.Ok) (hs : NoLong n.text) (h : n.meaning = some x) :
    NthSafe manyChildren x.1 x.2 := by
  have safe : ∀ a b : Int, -1000000000 < a ∧ a < 1000000000 → -1000000000 < b ∧ b < 1000000000 → NthSafe manyChildren a b := by
    intro a b ha hb
    unfold NthSafe intMin intMax manyChildren
    omega
  cases n with
  | even => cases h; exact safe 2 0 (by omega) (by omega)
  | odd => cases h; exact safe 2 1 (by omega) (by omega)
  | number neg d =>
    simp only [Nth.meaning, Option.bind_eq_bind, Option.bind_eq_some_iff, Option.some.injEq] at h
    obtain ⟨v, hv, rfl⟩ := h
    exact safe 0 v (by omega) (intVal_small hok (hs.mono (List.suffix_append _ _).isInfix) hv)
  | step neg d =>
    simp only [Nth.meaning, Option.bind_eq_bind, Option.bind_eq_some_iff, Option.some.injEq] at h
    obtain ⟨v, hv, rfl⟩ := h
    exact safe v 0 (intVal_small hok (hs.mono ⟨sign neg, lit "n", rfl⟩) hv) (by omega)
  | linear neg d m e =>
    simp only [Nth.meaning, Option.bind_eq_bind, Option.bind_eq_some_iff, Option.some.injEq] at h
    obtain ⟨v, hv, w, hw, rfl⟩ := h
    refine safe v w (intVal_small hok.1 (hs.mono ⟨sign neg, lit "n" ++ (if m then 45 else 43) :: e, ?_⟩) hv)
      (intVal_small hok.2 (hs.mono ⟨sign neg ++ d ++ lit "n" ++ [if m then 45 else 43], [], ?_⟩) hw)
    · simp [Nth.text]
    · simp [Nth.text]

theorem trait_safe {rx f} {t : Trait} {x : Match × Flags} (hok : t.Ok) (hs : NoLong t.text) (h : t.meaning rx f = some x) :
    x.1.Safe manyChildren := by
  cases t with
  | empty => cases h; trivial
  | childCount d =>
    simp only [Trait.meaning, Option.bind_eq_bind, Option.bind_eq_some_iff, Option.some.injEq] at h
    obtain ⟨v, hv, rfl⟩ := h; trivial
  | attributeCount d =>
    simp only [Trait.meaning, Option.bind_eq_bind, Option.bind_eq_some_iff, Option.some.injEq] at h
    obtain ⟨v, hv, rfl⟩ := h; trivial
  | nth first ofType n =>
    simp only [Trait.meaning, Option.bind_eq_bind, Option.bind_eq_some_iff, Option.some.injEq] at h
    obtain ⟨v, hv, rfl⟩ := h
    refine nth_safe hok (hs.mono ?_) hv
    cases first <;> cases ofType <;> exact ⟨_, _, rfl⟩
  | endmost => cases h; simp only [Match.Safe, NthSafe, intMin, intMax]; omega
  | only => cases h; trivial
  | typeMatches r =>
    simp only [Trait.meaning, Option.bind_eq_bind, Option.bind_eq_some_iff, Option.some.injEq] at h
    obtain ⟨v, hv, rfl⟩ := h; trivial

theorem safeL_iff {n : Nat} {ms : List (Option Match)} : Match.SafeL n ms ↔ ∀ m, some m ∈ ms → m.Safe n := by
  induction ms with
  | nil => simp [Match.SafeL]
  | cons m ms ih =>
    cases m with
    | none => simp [Match.SafeL, Match.SafeO, ih]
    | some m => simp [Match.SafeL, Match.SafeO, ih]

theorem infix_flatMap {α} {g : α → Str} {x : α} {xs : List α} (h : x ∈ xs) : g x <:+: xs.flatMap g := by
  obtain ⟨a, b, rfl⟩ := List.append_of_mem h
  exact ⟨a.flatMap g, b.flatMap g, by simp⟩

theorem traits_safe {rx} : ∀ {ts : List Trait} {f : Flags} {x : List Match × Flags}, (∀ t ∈ ts, t.Ok ∧ NoLong t.text) →
    traitsMeaning rx f ts = some x → ∀ m ∈ x.1, m.Safe manyChildren
  | [], _, _, _, h => by cases h; simp
  | t :: ts, f, x, hok, h => by
    simp only [traitsMeaning, Option.bind_eq_bind, Option.bind_eq_some_iff, Option.some.injEq] at h
    obtain ⟨y, h1, z, h2, rfl⟩ := h
    intro m hm
    rcases List.mem_cons.1 hm with rfl | hm
    · exact trait_safe (hok t (by simp)).1 (hok t (by simp)).2 h1
    · exact traits_safe (fun t ht => hok t (by simp [ht])) h2 m hm

theorem cond_safe {rx f} {c : Cond} {x : Match × Flags} (hok : c.Ok) (hs : NoLong c.text) (h : c.meaning rx f = some x) :
    x.1.Safe manyChildren := by
  cases c with
  | trait t => exact trait_safe hok hs h
  | not ts =>
    simp only [Cond.meaning, Option.bind_eq_bind, Option.bind_eq_some_iff, Option.some.injEq] at h
    obtain ⟨y, h1, rfl⟩ := h
    simp only [Match.Safe]
    rw [safeL_iff]
    intro m hm
    simp only [List.mem_map, Option.some.injEq] at hm
    obtain ⟨m, hm, rfl⟩ := hm
    refine traits_safe (fun t ht => ⟨hok.2 t ht, hs.mono ?_⟩) h1 m hm
    exact (infix_flatMap ht).trans ⟨lit ":not(", lit ")", rfl⟩

theorem conds_safe {rx} : ∀ {ts : List Cond} {f : Flags} {x : List Match × Flags}, (∀ t ∈ ts, t.Ok ∧ NoLong t.text) →
    condsMeaning rx f ts = some x → ∀ m ∈ x.1, m.Safe manyChildren
  | [], _, _, _, h => by cases h; simp
  | t :: ts, f, x, hok, h => by
    simp only [condsMeaning, Option.bind_eq_bind, Option.bind_eq_some_iff, Option.some.injEq] at h
    obtain ⟨y, h1, z, h2, rfl⟩ := h
    intro m hm
    rcases List.mem_cons.1 hm with rfl | hm
    · exact cond_safe (hok t (by simp)).1 (hok t (by simp)).2 h1
    · exact conds_safe (fun t ht => hok t (by simp [ht])) h2 m hm

theorem pat_safe {rx f} {p : Pat} {x : List Match × List Capture} (h : p.meaning rx f = some x) :
    (∀ m ∈ x.1, m.Safe manyChildren) ∧ ∀ c ∈ x.2, c.Safe := by
  cases p with
  | capFn fn ps n =>
    simp only [Pat.meaning, Option.bind_eq_bind, Option.bind_eq_some_iff, Option.some.injEq] at h
    obtain ⟨y, _, rfl⟩ := h
    simp [Capture.Safe]
  | capAttr a ps n o =>
    simp only [Pat.meaning, Option.bind_eq_bind, Option.bind_eq_some_iff, Option.some.injEq] at h
    obtain ⟨y, _, rfl⟩ := h
    cases o <;> simp [Capture.Safe, Match.Safe]
  | testFn fn t neg =>
    simp only [Pat.meaning, Option.bind_eq_bind, Option.bind_eq_some_iff, Option.some.injEq] at h
    obtain ⟨y, _, rfl⟩ := h
    simp [Match.Safe]
  | testAttr a t neg =>
    simp only [Pat.meaning, Option.bind_eq_bind, Option.bind_eq_some_iff, Option.some.injEq] at h
    obtain ⟨y, _, rfl⟩ := h
    simp [Match.Safe]
  | hasAttr a neg => cases h; simp [Match.Safe]

theorem pats_safe {rx} : ∀ {ps : List (Str × Pat)} {f : Flags} {x : List Match × List Capture × Flags},
    patsMeaning rx f ps = some x → (∀ m ∈ x.1, m.Safe manyChildren) ∧ ∀ c ∈ x.2.1, c.Safe
  | [], _, _, h => by cases h; simp
  | p :: ps, f, x, h => by
    simp only [patsMeaning, Option.bind_eq_bind, Option.bind_eq_some_iff, Option.some.injEq] at h
    obtain ⟨y, h1, z, h2, rfl⟩ := h
    have a := pat_safe h1
    have b := pats_safe h2
    constructor
    · intro m hm
      rcases List.mem_append.1 hm with hm | hm
      · exact a.1 m hm
      · exact b.1 m hm
    · intro m hm
      rcases List.mem_append.1 hm with hm | hm
      · exact a.2 m hm
      · exact b.2 m hm

theorem head_safe {rx f f' info} {h : Head} (hok : h.Ok) (hs : NoLong h.text) (hm : h.meaning rx f = some (info, f')) :
    info.Safe manyChildren := by
  simp only [Head.meaning, Option.bind_eq_bind, Option.bind_eq_some_iff, Option.some.injEq, Prod.mk.injEq] at hm
  obtain ⟨x, h1, y, h2, rfl, _⟩ := hm
  have a := conds_safe (fun t ht => ⟨hok.2.1 t ht, hs.mono (by
    refine (infix_flatMap ht).trans ⟨60 :: h.options.map (fun o => if o then 63 else 43) ++ h.tag, patsText h.pats ++ h.ws, ?_⟩
    simp [Head.text])⟩) h1
  have b := pats_safe h2
  unfold RuleInfo.Safe
  rw [safeL_iff]
  constructor
  · intro m hm
    simp only [List.mem_map, List.mem_append, Option.some.injEq] at hm
    obtain ⟨m, hm, rfl⟩ := hm
    rcases hm with hm | hm
    · exact a m hm
    · exact b.1 m hm
  · intro c hc
    simp only [List.mem_map, Option.some.injEq] at hc
    obtain ⟨c, hc, rfl⟩ := hc
    exact b.2 c hc

theorem parse_safe {rx cs s r} (hs : NoLong s) (h : parseHext rx cs s = .ok r) : r.Safe manyChildren := by
  obtain ⟨is, f, rs, hok, rfl, hseq, rfl⟩ := (parse_iff rx cs s r).1 h
  refine ruleOf_all (fun _ => ?_) (seq_all hseq fun hd c hc f f' info hm => head_safe (hok _ hc) (hs.mono ?_) hm)
  · exact ⟨by simp [Match.SafeL], by simp⟩
  · refine List.IsInfix.trans ?_ (infix_flatMap hc)
    exact (List.prefix_append _ _).isInfix

end Hext
