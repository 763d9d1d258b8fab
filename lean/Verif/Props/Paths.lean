import Verif.Spec.Paths
import Verif.Props.EndToEnd
import Verif.Props.Compose
set_option linter.unusedSimpArgs false
/-!
# C102: tags inside of tags select like a path
-/

namespace Hext.Props

open Hext Syn

section
variable {rx : RxEngine} {h : Heap} {n : Nat} {l : Loc}

/-! ## One rule among siblings -/

theorem embeds_one {own : RuleInfo → Loc → Prop} {c : Rule} (ho : c.isOptional = false) {ks : List Loc} :
    Embeds own [c] ks ↔ ∃ x ∈ ks, Sat own c x := by
  induction ks with
  | nil =>
    constructor
    · intro h
      cases h with
      | optional h => rw [ho] at h; cases h
    · simp
  | cons y ks ih =>
    constructor
    · intro h
      cases h with
      | optional h => rw [ho] at h; cases h
      | here _ hs _ => exact ⟨y, by simp, hs⟩
      | later h =>
        obtain ⟨x, hx, hs⟩ := ih.1 h
        exact ⟨x, by simp [hx], hs⟩
    · rintro ⟨x, hx, hs⟩
      rcases List.mem_cons.1 hx with rfl | hx
      · exact .here ho hs .nil
      · exact .later (ih.2 ⟨x, hx, hs⟩)

theorem run_nil {own : RuleInfo → Loc → Prop} {first : Option Rule} {ks rest : List Loc} {steps : List (Anchored Assigned)} {final : List Assigned}
    (hr : Run Rule.isOptional Rule.isGreedy (Sat own) Assigned.rule Assigned.loc first [] [] ks steps final rest) :
    steps = [] ∧ final = [] ∧ rest = ks := by
  generalize hF : ([] : List Rule) = F at hr
  generalize hC : F = C at hr
  cases hr with
  | done => exact ⟨rfl, rfl, rfl⟩
  | optional h => rw [← hF] at hC; cases hC
  | anchor h => rw [← hF] at hC; cases hC
  | fillEnd h => exact absurd hF.symm (hC ▸ h)
  | fillNext h => exact absurd hF.symm (hC ▸ h)
  | fillAll h => exact absurd hF.symm (hC ▸ h)

/-- A group of a sole rule is one match, and what is left is behind it. -/
theorem group_sole {own : RuleInfo → Loc → Prop} {c : Rule} (ho : c.isOptional = false) (hg : c.isGreedy = false) {ks rest : List Loc} {g : Found}
    (hgr : Group own [c] ks g rest) : ∃ b x f, ks = b ++ x :: rest ∧ (∀ y ∈ b, ¬ Sat own c y) ∧ Sat own c x ∧ Matched own c x f ∧ g = f ++ [(c, x)] := by
  cases hgr with
  | mk steps final hrun hall hne =>
    generalize hc : [c] = cs at hrun
    cases hrun with
    | optional h => cases hc; rw [ho] at h; cases h
    | anchorGreedy _ _ _ h => cases hc; rw [hg] at h; cases h
    | done => cases hc
    | fillEnd h => exact absurd rfl h
    | anchor h1 h2 h3 h4 h5 h6 =>
      cases hc
      cases h4
      obtain ⟨rfl, rfl, rfl⟩ := run_nil h6
      obtain ⟨e1, e2, e3⟩ := h3
      simp only [Anchored.uses, List.flatMap_cons, List.flatMap_nil, List.nil_append, List.append_nil] at hall
      cases hall with
      | cons hm _ =>
        rw [h2] at hm
        exact ⟨_, _, _, e1, e2, e3, hm, by simp [groupPairs, h2]⟩

theorem groups_nil {own : RuleInfo → Loc → Prop} {ks : List Loc} {gs : List Found} (hgs : Groups own [] ks gs) : gs = [] := by
  cases hgs with
  | stop => rfl
  | stopOptional => rfl
  | cons h1 h2 =>
    cases h1 with
    | mk steps final hrun hall hne =>
      obtain ⟨rfl, rfl, _⟩ := run_nil hrun
      exact absurd rfl hne

theorem groups_sole_of {own : RuleInfo → Loc → Prop} {c : Rule} (ho : c.isOptional = false) (hg : c.isGreedy = false)
    {V : Loc → Option (List (Str × Str))} (m : Nat) {ks : List Loc} {gs : List Found} {ws : List (Str × Str)}
    (hs : ∀ x ∈ ks, Sat own c x ↔ (V x).isSome = true)
    (hc : ∀ x ∈ ks, ∀ f vs, Matched own c x f → Captured rx h (f ++ [(c, x)]) vs → V x = some vs)
    (hgs : Groups own [c] ks gs) (hw : Captured rx h gs.flatten ws) (hm : ks.length < m) : ws = (ks.filterMap V).flatten := by
  induction m generalizing ks gs ws with
  | zero => cases hm
  | succ m IH =>
    have hnone : ∀ b : List Loc, (∀ y ∈ b, y ∈ ks) → (∀ y ∈ b, ¬ Sat own c y) → b.filterMap V = [] := by
      intro b h1 h2
      rw [List.filterMap_eq_nil_iff]
      intro y hy
      have := mt (hs y (h1 y hy)).2 (h2 y hy)
      simpa using this
    cases hgs with
    | stop h1 =>
      cases hw
      rw [hnone _ (fun _ h => h) fun y hy hsy => h1 ((embeds_one ho).2 ⟨y, hy, hsy⟩)]
      rfl
    | stopOptional h1 => have := h1 c (by simp); rw [ho] at this; cases this
    | cons h1 h2 =>
      obtain ⟨b, x, f, rfl, k2, k3, k4, rfl⟩ := group_sole ho hg h1
      rw [List.flatten_cons] at hw
      obtain ⟨v, w, rfl, w1, w2⟩ := captured_split hw
      have ih := IH (fun y hy => hs y (by simp [hy])) (fun y hy => hc y (by simp [hy])) h2 w2
        (by simp only [List.length_append, List.length_cons] at hm; omega)
      rw [List.filterMap_append, hnone b (fun y hy => by simp [hy]) k2, List.filterMap_cons, hc x (by simp) f v k4 w1, ih]
      simp

theorem groups_sole {own : RuleInfo → Loc → Prop} {c : Rule} (ho : c.isOptional = false) (hg : c.isGreedy = false)
    {V : Loc → Option (List (Str × Str))} {ks : List Loc} {gs : List Found} {ws : List (Str × Str)}
    (hs : ∀ x ∈ ks, Sat own c x ↔ (V x).isSome = true)
    (hc : ∀ x ∈ ks, ∀ f vs, Matched own c x f → Captured rx h (f ++ [(c, x)]) vs → V x = some vs)
    (hgs : Groups own [c] ks gs) (hw : Captured rx h gs.flatten ws) : ws = (ks.filterMap V).flatten :=
  groups_sole_of ho hg _ hs hc hgs hw (Nat.lt_succ_self _)

theorem search_one {own : RuleInfo → Loc → Prop} {c : Rule} (ho : c.isOptional = false) (hg : c.isGreedy = false)
    {V : Loc → Option (List (Str × Str))} : ∀ {kss : List (List Loc)} {gs : List Found} {ws : List (Str × Str)},
    (∀ x ∈ kss.flatten, Sat own c x ↔ (V x).isSome = true) →
    (∀ x ∈ kss.flatten, ∀ f vs, Matched own c x f → Captured rx h (f ++ [(c, x)]) vs → V x = some vs) →
    Search own [c] kss gs → Captured rx h gs.flatten ws → ws = (kss.flatten.filterMap V).flatten
  | [], _, _, _, _, hsr, hw => by cases hsr; cases hw; rfl
  | ks :: kss, _, _, hs, hc, hsr, hw => by
    cases hsr with
    | cons h1 h2 =>
      rw [List.flatten_append] at hw
      obtain ⟨v, w, rfl, w1, w2⟩ := captured_split hw
      rw [groups_sole ho hg (fun x hx => hs x (by simp [hx])) (fun x hx => hc x (by simp [hx])) h1 w1,
        search_one ho hg (fun x hx => hs x (by simp only [List.flatten_cons, List.mem_append]; exact .inr hx))
          (fun x hx => hc x (by simp only [List.flatten_cons, List.mem_append]; exact .inr hx)) h2 w2]
      simp

/-! ## Paths -/

theorem path_info : ∀ p : Path, ∃ i, p.rule.info = i ∧ i ∈ p.infos
  | .last i => ⟨i, rfl, by simp [Path.infos]⟩
  | .step i false p => ⟨i, rfl, by simp [Path.infos]⟩
  | .step i true p => ⟨i, rfl, by simp [Path.infos]⟩

theorem path_sole (p : Path) : p.rule.siblings = [p.rule] := by
  cases p with
  | last i => rfl
  | step i deep p => cases deep <;> rfl

theorem path_safe : ∀ {p : Path}, (∀ i ∈ p.infos, i.Safe n) → p.rule.Safe n
  | .last i, h => ⟨h i (by simp [Path.infos]), trivial, trivial, trivial⟩
  | .step i false p, h => ⟨h i (by simp [Path.infos]), path_safe (p := p) fun j hj => h j (by simp [Path.infos, hj]), trivial, trivial⟩
  | .step i true p, h => ⟨h i (by simp [Path.infos]), trivial, trivial, path_safe (p := p) fun j hj => h j (by simp [Path.infos, hj]), trivial⟩

theorem step_stored {x y : Loc} {deep : Bool} (hx : x.Stored h n) (hy : y ∈ x.step deep) : y.Stored h n := by
  cases deep with
  | true =>
    obtain ⟨ks, hks, hy⟩ := List.mem_flatten.1 hy
    obtain ⟨pp, pn, i, _, _, hr, hf⟩ := hx.self
    exact under_stored _ _ _ hr hf ks hks y hy
  | false =>
    simp only [Loc.step, Bool.false_eq_true, if_false] at hy
    split at hy
    · rename_i e he
      exact (sibs_locs hx (by rw [he]; rfl)).stored hy
    · cases hy

variable {val : RuleInfo → Loc → Option (List (Str × Str))}

theorem isVal_some {is : List RuleInfo} (hv : IsVal rx h n val is) {i : RuleInfo} (hi : i ∈ is) (hs : i.Safe n) {x : Loc} (hx : x.Stored h n) :
    (val i x).isSome = true ↔ Holds rx h i x := by
  rw [Option.isSome_iff_exists]
  constructor
  · rintro ⟨vs, h1⟩; exact ((hv i hi x hx vs).1 h1).1
  · intro h1
    obtain ⟨vs, h2⟩ := ruleCapture_total rx hx i.caps hs.2
    exact ⟨vs, (hv i hi x hx vs).2 ⟨h1, h2⟩⟩

theorem under_kids {t : Tree} (hu : t.under ≠ []) : t.kind.isElement = true ∧ t.kids ≠ [] := by
  obtain ⟨p, k, kids⟩ := t
  cases k with
  | element e =>
    refine ⟨rfl, fun h => hu ?_⟩
    simp only [Tree.kids] at h
    simp [Tree.under, h]
  | _ => exact absurd (by simp [Tree.under]) hu

theorem path_values : ∀ {p : Path}, (∀ i ∈ p.infos, i.Safe n ∧ Unmarked i) → IsVal rx h n val p.infos → ∀ {x : Loc}, x.Stored h n →
    (Sat (Holds rx h) p.rule x ↔ (p.values val x).isSome = true) ∧
    ∀ f vs, Matched (Holds rx h) p.rule x f → Captured rx h (f ++ [(p.rule, x)]) vs → p.values val x = some vs
  | .last i, hs, hv, x, hx => by
    have h1 := isVal_some hv (i := i) (by simp [Path.infos]) (hs i (by simp [Path.infos])).1 hx
    have hsat : Sat (Holds rx h) (Path.last i).rule x ↔ Holds rx h i x :=
      ⟨fun k => by cases k <;> assumption, fun k => .leaf k rfl rfl⟩
    refine ⟨hsat.trans h1.symm, fun f vs hm hc => ?_⟩
    cases hm with
    | inner _ k => exact absurd ⟨rfl, rfl⟩ k
    | leaf k =>
      exact (hv i (by simp [Path.infos]) x hx vs).2 ⟨hsat.1 k, captured_own hc⟩
  | .step i deep p, hs, hv, x, hx => by
    have hi : i ∈ (Path.step i deep p).infos := by simp [Path.infos]
    have h1 := isVal_some hv hi (hs i hi).1 hx
    have ih := fun {y : Loc} (hy : y ∈ x.step deep) => path_values (p := p) (fun j hj => hs j (by simp [Path.infos, hj]))
      (fun j hj => hv j (by simp [Path.infos, hj])) (step_stored hx hy)
    obtain ⟨j, hj1, hj2⟩ := path_info p
    have hj := hs j (by simp [Path.infos, hj2])
    have ho : p.rule.isOptional = false := by rw [Rule.isOptional, hj1]; exact hj.2.1
    have hg : p.rule.isGreedy = false := by rw [Rule.isGreedy, hj1]; exact hj.2.2
    have hsat : Sat (Holds rx h) (Path.step i deep p).rule x ↔ Holds rx h i x ∧ ∃ y ∈ x.step deep, Sat (Holds rx h) p.rule y := by
      cases deep with
      | false =>
        constructor
        · intro k
          cases k with
          | leaf _ k => cases k
          | inner k1 k2 k3 k4 k5 =>
            have k4 : Embeds (Holds rx h) p.rule.siblings (locs x.self.kids) := k4
            rw [path_sole, embeds_one ho] at k4
            refine ⟨k1, ?_⟩
            simp only [Loc.step, Bool.false_eq_true, if_false]
            split
            · exact k4
            · rename_i hk; exact absurd k2 (by cases hq : x.self.kind <;> simp_all [Kind.isElement])
        · rintro ⟨k1, y, k2, k3⟩
          simp only [Loc.step, Bool.false_eq_true, if_false] at k2
          split at k2
          · rename_i e he
            refine .inner k1 (by rw [he]; rfl) ?_ ?_ .nil
            · intro h0; rw [h0] at k2; cases k2
            · show Embeds (Holds rx h) p.rule.siblings (locs x.self.kids)
              rw [path_sole, embeds_one ho]; exact ⟨y, k2, k3⟩
          · cases k2
      | true =>
        constructor
        · intro k
          cases k with
          | leaf _ _ k => cases k
          | inner k1 k2 k3 k4 k5 =>
            have k5 : NestedSat (Holds rx h) [p.rule] x.self := k5
            cases k5 with
            | cons e1 e2 e3 =>
              rw [path_sole, embeds_one ho] at e2
              obtain ⟨y, h2, h3⟩ := e2
              exact ⟨k1, y, List.mem_flatten.2 ⟨_, e1, h2⟩, h3⟩
        · rintro ⟨k1, y, k2, k3⟩
          obtain ⟨ks, e1, e2⟩ := List.mem_flatten.1 k2
          obtain ⟨e3, e4⟩ := under_kids (List.ne_nil_of_mem e1)
          refine .inner k1 e3 e4 .nil (.cons e1 ?_ .nil)
          rw [path_sole, embeds_one ho]; exact ⟨y, e2, k3⟩
    have hex : (∃ y ∈ x.step deep, Sat (Holds rx h) p.rule y) ↔ (x.step deep).filterMap (p.values val) ≠ [] := by
      rw [ne_eq, List.filterMap_eq_nil_iff]
      constructor
      · rintro ⟨y, hy, k⟩ k'
        have := (ih hy).1.1 k
        rw [k' y hy] at this; cases this
      · intro k
        refine Classical.byContradiction fun k' => k fun y hy => ?_
        cases hq : p.values val y with
        | none => rfl
        | some v => exact absurd ⟨y, hy, (ih hy).1.2 (by rw [hq]; rfl)⟩ k'
    refine ⟨?_, fun f vs hm hc => ?_⟩
    · rw [hsat, hex, ← h1]
      simp only [Path.values]
      cases hq : val i x with
      | none => simp
      | some own =>
        by_cases h0 : (x.step deep).filterMap (p.values val) = [] <;> simp [h0]
    · have hst : Sat (Holds rx h) (Path.step i deep p).rule x := by cases hm <;> assumption
      obtain ⟨k1, k2⟩ := hsat.1 hst
      obtain ⟨v, w, rfl, w1, w2⟩ := captured_split hc
      have hown : val i x = some w := by
        refine (hv i hi x hx w).2 ⟨k1, ?_⟩
        have := captured_own w2
        cases deep <;> exact this
      have hin : v = ((x.step deep).filterMap (p.values val)).flatten := by
        cases deep with
        | false =>
          cases hm with
          | leaf _ k => cases k
          | inner _ _ g1 g2 =>
            have g2 : Nested (Holds rx h) [] x.self _ := g2
            cases g2
            have g1 : Groups (Holds rx h) p.rule.siblings (locs x.self.kids) _ := g1
            rw [path_sole] at g1
            rw [List.append_nil] at w1
            obtain ⟨_, he, _⟩ : ∃ y, y ∈ x.step false ∧ _ := k2
            have hstep : x.step false = locs x.self.kids := by
              simp only [Loc.step, Bool.false_eq_true, if_false] at he ⊢
              split
              · rfl
              · rename_i hq
                split at he
                · rename_i e hq'; exact absurd hq' (hq e)
                · cases he
            rw [hstep] at ih ⊢
            exact groups_sole ho hg (fun y hy => (ih hy).1) (fun y hy => (ih hy).2) g1 w1
        | true =>
          cases hm with
          | leaf _ _ k => cases k
          | inner _ _ g1 g2 =>
            have g1 : Groups (Holds rx h) [] (locs x.self.kids) _ := g1
            have g2 : Nested (Holds rx h) [p.rule] x.self _ := g2
            cases g2 with
            | cons e1 e2 =>
              cases e2
              rw [path_sole] at e1
              cases groups_nil g1
              rw [List.flatten_nil, List.nil_append, List.append_nil] at w1
              exact search_one ho hg (fun y hy => (ih hy).1) (fun y hy => (ih hy).2) e1 w1
      simp only [Path.values, hown]
      rw [if_neg (hex.1 k2), hin]


/-- C102. A rule that contains one rule that contains one rule, and so on, none of them optional or greedy: there is one map for each
searched place at which the path begins, made of everything the path captures from there. -/
theorem C102_rules (hn : n ≤ 2147483647) {p : Path} (hs : ∀ i ∈ p.infos, i.Safe n ∧ Unmarked i) (hv : IsVal rx h n val p.infos)
    {l : Loc} (hl : l.Stored h n) {ms : UInt64} {res : List (List (Str × Str))} (he : extract rx h p.rule l.ptr ms = pure res) :
    ∃ maps, MapsOf (l.searched.flatten.filterMap (p.values val)) maps ∧ res = maps.filter (· ≠ []) := by
  have hsafe : p.rule.Safe n := path_safe fun i hi => (hs i hi).1
  have hnx : p.rule.next = none := by
    cases p with
    | last i => rfl
    | step i deep p => cases deep <;> rfl
  obtain ⟨j, hj1, hj2⟩ := path_info p
  have hg : p.rule.isGreedy = false := by rw [Rule.isGreedy, hj1]; exact (hs j hj2).2.2
  obtain ⟨subs, maps, h1, h2, h3, h4⟩ := single_rule_complete hn hsafe hl hnx hg he
  refine ⟨maps, ?_, h4⟩
  have hst : ∀ x ∈ l.searched.flatten, x.Stored h n := by
    intro x hx
    obtain ⟨ks, hks, hx⟩ := List.mem_flatten.1 hx
    exact searched_stored hl ks hks x hx
  generalize l.searched.flatten = xs at h1 h2 h3 hst
  clear h4 he
  induction xs generalizing subs maps with
  | nil => cases h3; exact .nil
  | cons x xs ih =>
    have hx := path_values (p := p) hs hv (hst x (by simp))
    by_cases hsx : Sat (Holds rx h) p.rule x
    · rw [List.filter_cons_of_pos (by simpa using hsx)] at h1 h2 h3
      cases subs with
      | nil => simp at h1
      | cons s subs =>
        rw [List.zipWith_cons_cons] at h3
        generalize hG : List.zipWith (fun x sub => sub ++ [(p.rule, x)]) _ subs = G at h3
        cases h3 with
        | cons hc hm h3 =>
          subst hG
          rw [List.filterMap_cons, hx.2 s _ (h2 (x, s) (by simp)) hc]
          exact .cons hm (ih subs _ (by simpa using h1) (fun q hq => h2 q (by simp only [List.zip_cons_cons, List.mem_cons]; exact .inr hq)) h3
            fun y hy => hst y (by simp [hy]))
    · rw [List.filter_cons_of_neg (by simpa using hsx)] at h1 h2 h3
      have hnone : p.values val x = none := by
        have := mt hx.1.2 hsx
        simpa using this
      rw [List.filterMap_cons, hnone]
      exact ih subs maps h1 h2 h3 fun y hy => hst y (by simp [hy])

/-! ## The text of a path -/

/-- The rule that `<tag>` stands for. -/
def tagInfo (tag : Str) : RuleInfo := { tag := (tagMeaning tag).1, tagname := (tagMeaning tag).2 }

def pathOf (attr key : Str) : Str → List (Bool × Str) → Path
  | tag, [] => .last (linkInfo tag attr key)
  | tag, (deep, tag') :: path => .step (tagInfo tag) deep (pathOf attr key tag' path)

def pathItems (attr key : Str) : Str → List (Bool × Str) → List Item
  | tag, [] => [.start { options := [], tag, conds := [], pats := [([32], .capAttr attr [] (.plain key) false)], ws := [] } true]
  | tag, (deep, tag') :: path =>
    .start { options := [], tag, conds := [], pats := [], ws := [] } false ::
      (if deep then .lbrace :: pathItems attr key tag' path ++ [.rbrace] else pathItems attr key tag' path) ++ [.stop tag]

theorem pathItems_text (attr key : Str) : ∀ (tag : Str) (path : List (Bool × Str)), itemsText (pathItems attr key tag path) = pathText attr key tag path
  | tag, [] => by
    have e1 : lit "<" = [60] := by decide
    have e2 : lit " " = [32] := by decide
    have e3 : lit ":" = [58] := by decide
    simp [pathItems, pathText, itemsText, Item.text, Head.text, patsText, Pat.text, CapName.text, e1, e2, e3]
  | tag, (deep, tag') :: path => by
    have ih := pathItems_text attr key tag' path
    have e1 : lit "<" = [60] := by decide
    have e2 : lit ">{" = [62, 123] := by decide
    have e3 : lit "}</" = [125, 60, 47] := by decide
    have e4 : lit ">" = [62] := by decide
    have e5 : lit "</" = [60, 47] := by decide
    have e6 : lit "{" = [123] := by decide
    have e7 : lit "}" = [125] := by decide
    unfold itemsText at ih
    cases deep <;>
      simp [pathItems, pathText, itemsText, Item.text, Head.text, patsText, ih, e1, e2, e3, e4, e5, e6, e7]

theorem pathItems_ok {attr key : Str} (ha : IsName attr) (hk : IsName key) : ∀ {tag : Str} {path : List (Bool × Str)}, IsName tag →
    (∀ s ∈ path, IsName s.2) → ∀ i ∈ pathItems attr key tag path, i.Ok
  | tag, [], ht, _ => by
    simp only [pathItems, List.mem_cons, List.not_mem_nil, or_false]
    rintro i rfl
    refine ⟨.inr ht, by simp, ?_, by simp⟩
    simp only [List.mem_cons, List.not_mem_nil, or_false, forall_eq]
    refine ⟨by simp, by simp [IsSpace], ha, by simp, ?_⟩
    obtain ⟨b, t, rfl, hb, hk⟩ := hk
    refine ⟨by simp, fun x hx => ?_⟩
    rcases List.mem_cons.1 hx with rfl | hx
    · exact .inl (.inl hb)
    · exact .inl (hk x hx)
  | tag, (deep, tag') :: path, ht, hp => by
    have ih := pathItems_ok ha hk (tag := tag') (path := path) (hp (deep, tag') (by simp)) (fun s hs => hp s (by simp [hs]))
    have h1 : (Item.start { options := [], tag, conds := [], pats := [], ws := [] } false).Ok := ⟨.inr ht, by simp, by simp, by simp⟩
    have h2 : (Item.stop tag).Ok := .inr ht
    intro i hi
    cases deep <;> simp only [pathItems, Bool.false_eq_true, if_false, if_true, List.mem_cons, List.mem_append, List.cons_append, List.not_mem_nil, or_false] at hi
    · rcases hi with rfl | hi | rfl
      · exact h1
      · exact ih i hi
      · exact h2
    · rcases hi with rfl | rfl | (hi | rfl) | rfl
      · exact h1
      · trivial
      · exact ih i hi
      · trivial
      · exact h2

theorem tag_closes {tag : Str} (ht : IsName tag) : Closes (tagInfo tag) tag := by
  simp only [Closes, tagInfo, tagMeaning, if_neg (isName_ne_star ht)]
  cases hq : gumboTagEnum (cstr tag) with
  | unknown => rfl
  | known k => exact ⟨isName_ne_star ht, by first | exact hq | rfl⟩

theorem path_chain (p : Path) : Syn.chain p.rule [] = p.rule := by
  cases p with
  | last i => rfl
  | step i deep p => cases deep <;> rfl

theorem pathItems_elem (rx : RxEngine) (attr key : Str) : ∀ {tag : Str} {path : List (Bool × Str)}, IsName tag → (∀ s ∈ path, IsName s.2) → ∀ f,
    ∃ f', Syn.Elem rx f (pathItems attr key tag path) f' (pathOf attr key tag path).rule
  | tag, [], _, _, f => ⟨_, .selfClosing rfl⟩
  | tag, (deep, tag') :: path, ht, hp, f => by
    obtain ⟨f', ih⟩ := pathItems_elem rx attr key (tag := tag') (path := path) (hp (deep, tag') (by simp)) (fun s hs => hp s (by simp [hs])) f
    refine ⟨f', ?_⟩
    cases deep with
    | false =>
      have := Syn.Elem.closed (rx := rx) (f := f) (h := { options := [], tag, conds := [], pats := [], ws := [] }) (info := tagInfo tag) (t := tag) rfl
        (.child ih .nil) (tag_closes ht)
      simp only [List.append_nil, mkRule, Syn.siblings, path_chain] at this
      exact this
    | true =>
      have := Syn.Elem.closed (rx := rx) (f := f) (h := { options := [], tag, conds := [], pats := [], ws := [] }) (info := tagInfo tag) (t := tag) rfl
        (.block (.elem ih .nil) .nil) (tag_closes ht)
      simp only [List.append_nil, mkRule, Syn.siblings, path_chain] at this
      exact this

theorem path_parsed (rx : RxEngine) (charSigned : Bool) {attr key tag : Str} {path : List (Bool × Str)} (ha : IsName attr) (hk : IsName key)
    (ht : IsName tag) (hp : ∀ s ∈ path, IsName s.2) :
    parseHext rx charSigned (pathText attr key tag path) = .ok (pathOf attr key tag path).rule := by
  rw [← pathItems_text]
  obtain ⟨f', h1⟩ := pathItems_elem rx attr key ht hp {}
  have h2 := Syn.Seq.elem h1 Syn.Seq.nil
  rw [List.append_nil] at h2
  exact (parse_items (pathItems_ok ha hk ht hp) _).2 ⟨f', _, h2, (path_chain _).symm⟩


theorem ownValues_isVal (rx : RxEngine) (h : Heap) (n : Nat) (is : List RuleInfo) : IsVal rx h n (ownValues rx h) is := by
  intro i _ x _ vs
  unfold ownValues Holds
  split
  · rename_i ws h1 h2
    rw [h1, h2]
    constructor
    · intro hq; cases hq; exact ⟨rfl, rfl⟩
    · intro hq
      rw [E.pure_inj (show (pure ws : E _) = pure vs from hq.2)]
  · rename_i hx
    exact ⟨fun hq => (by cases hq), fun hq => absurd hq.2 (hx _ hq.1)⟩

theorem tag_holds {tag : Str} {x : Loc} (hx : x.Stored h n) (hn : n ≤ 2147483647) (ht : IsName tag) :
    Holds rx h (tagInfo tag) x ↔ x.self.tagged tag = true := by
  rw [holds_iff hx hn (by simp [RuleInfo.Safe, tagInfo, Match.SafeL, Match.SafeO, Match.Safe, Capture.Safe]) (by simp [tagInfo, Match.WordsOkL, Match.WordsOk])]
  have htag : TagMeans (tagInfo tag) x ↔ ∃ e, x.self.kind = .element e ∧ e.hasTag tag = true := by
    simp only [TagMeans, tagInfo, tagMeaning, if_neg (isName_ne_star ht), cstr_eq_self (isName_noNul ht), gumboTagEnum, Elem.hasTag]
    by_cases hk : tag.map toLowerB ∈ knownTagNames.map lit
    · rw [if_pos (by simpa using hk)]
      simp only [if_pos hk]
      simp
    · rw [if_neg (by simpa using hk)]
      simp only [if_neg hk]
      simp [SameName]
      constructor
      · rintro ⟨e, h1, h2, o, h3, h4⟩; exact ⟨e, h1, h2, by simp [h3, h4]⟩
      · rintro ⟨e, h1, h2, h3⟩
        cases ho : e.origName with
        | none => simp [ho] at h3
        | some o => exact ⟨e, h1, h2, o, ho, by simpa [ho] using h3⟩
  rw [htag]
  have : ∀ m ∈ (tagInfo tag).ms, False := by simp [tagInfo]
  unfold Tree.tagged
  constructor
  · rintro ⟨⟨e, h1, h2⟩, _⟩; rw [h1]; exact h2
  · intro hq
    split at hq
    · rename_i e he; exact ⟨⟨e, he, hq⟩, fun m hm => (this _ hm).elim⟩
    · cases hq

mutual
theorem under_inside : ∀ (t : Tree), t.under.flatten.map (·.self) = t.inside
  | .node p k kids => by
    cases k with
    | element e =>
      simp only [Tree.under, Tree.inside]
      split
      · rename_i hk
        cases kids with
        | nil => simp [insideL]
        | cons => simp at hk
      · rw [List.flatten_cons, List.map_append, underL_inside kids, locs, Param.locsAux_self]
    | _ => simp [Tree.under, Tree.inside]
theorem underL_inside : ∀ (ts : List Tree), (underL ts).flatten.map (·.self) = insideL ts
  | [] => by simp [underL, insideL]
  | t :: ts => by
    simp only [underL, insideL, List.flatten_append, List.map_append, under_inside t, underL_inside ts]
end

theorem step_self (deep : Bool) (x : Loc) : (x.step deep).map (·.self) = x.self.step deep := by
  cases deep with
  | true => simp only [Loc.step, Tree.step, if_true, under_inside]
  | false =>
    simp only [Loc.step, Tree.step, Bool.false_eq_true, if_false]
    split
    · rename_i e he; rw [locs, Param.locsAux_self]
    · rfl

theorem path_follow (hn : n ≤ 2147483647) {attr key : Str} (ha : IsName attr) : ∀ {tag : Str} {path : List (Bool × Str)}, IsName tag →
    (∀ s ∈ path, IsName s.2) → ∀ {x : Loc}, x.Stored h n →
    (((pathOf attr key tag path).values (ownValues rx h) x).getD []) = (x.self.follow attr tag path).map (key, ·)
  | tag, [], ht, _, x, hx => by
    simp only [pathOf, Path.values, Tree.follow]
    have hv := ownValues_isVal rx h n [linkInfo tag attr key] (linkInfo tag attr key) (by simp) x hx
    by_cases ho : Holds rx h (linkInfo tag attr key) x
    · obtain ⟨e, a, h1, h2, h3⟩ := (link_holds (key := key) hx hn ht).1 ho
      obtain ⟨pp, i, hld⟩ := hx.load
      have : ruleCapture rx h x.ptr (linkInfo tag attr key).caps = pure ((x.self.valueAt tag attr).map fun v => (key, v)).toList := by
        simp only [linkInfo, ruleCapture, Capture.capture, load_eq hld, pure_bind, h1, h3, Tree.valueAt, h2, if_true, valueOf_eq ha]
        cases hv : a.value with
        | none => simp [hv]
        | some v => simp [hv, applyPipe]
      rw [(hv _).2 ⟨ho, this⟩]
      cases x.self.valueAt tag attr <;> rfl
    · have h1 : ownValues rx h (linkInfo tag attr key) x = none := by
        rw [Option.eq_none_iff_forall_ne_some]
        exact fun v hq => ho ((hv v).1 hq).1
      have h2 : x.self.valueAt tag attr = none := by
        rw [Option.eq_none_iff_forall_ne_some]
        intro v hv
        apply ho
        rw [link_holds hx hn ht]
        unfold Tree.valueAt at hv
        split at hv
        · rename_i e he
          split at hv
          · rename_i htg
            rw [valueOf_eq ha, Option.bind_eq_some_iff] at hv
            obtain ⟨a, ha', _⟩ := hv
            exact ⟨e, a, he, htg, ha'⟩
          · cases hv
        · cases hv
      rw [h1, h2]; rfl
  | tag, (deep, tag') :: path, ht, hp, x, hx => by
    have ih : ∀ y ∈ x.step deep, _ := fun y hy => path_follow hn (key := key) ha (tag := tag') (path := path) (hp (deep, tag') (by simp))
      (fun s hs => hp s (by simp [hs])) (step_stored hx hy)
    have hv := ownValues_isVal rx h n [tagInfo tag] (tagInfo tag) (by simp) x hx
    simp only [pathOf, Path.values, Tree.follow]
    by_cases ho : Holds rx h (tagInfo tag) x
    · rw [(hv []).2 ⟨ho, rfl⟩, if_pos ((tag_holds hx hn ht).1 ho), ← step_self]
      simp only [List.append_nil]
      generalize x.step deep = ys at ih
      have : ((ys.filterMap ((pathOf attr key tag' path).values (ownValues rx h))).flatten) =
          ((ys.map (·.self)).flatMap (Tree.follow attr tag' path)).map (key, ·) := by
        induction ys with
        | nil => rfl
        | cons y ys IH =>
          rw [List.filterMap_cons, List.map_cons, List.flatMap_cons, List.map_append, ← IH fun z hz => ih z (by simp [hz]), ← ih y (by simp)]
          cases (pathOf attr key tag' path).values (ownValues rx h) y <;> simp
      rw [← this]
      split
      · rename_i hq; rw [hq]; rfl
      · rfl
    · have h1 : ownValues rx h (tagInfo tag) x = none := by
        rw [Option.eq_none_iff_forall_ne_some]
        exact fun v hq => ho ((hv v).1 hq).1
      rw [h1, if_neg fun hq => ho ((tag_holds hx hn ht).2 hq)]
      rfl

theorem isMap_sameKey {key : Str} {vs : List Str} {m : List (Str × Str)} (hm : IsMap (vs.map (key, ·)) m) : m = vs.map (key, ·) := by
  refine hm.unique ⟨?_, fun _ => rfl⟩
  rw [List.pairwise_map]
  exact List.pairwise_of_forall fun _ _ => List.lt_irrefl _

/-- C102. `<t1><t2>{<t3 attr:key/>}</t2></t1>`, for any names and any depth, with or without braces, is a valid hext. Its result has one map
for each node of the document at which such a path begins and ends with a value. The map has the values at the ends of all paths from
that node under `key`, in order, and nothing else. -/
theorem C102_path (charSigned : Bool) {attr key tag : Str} {path : List (Bool × Str)} (ha : IsName attr) (hk : IsName key)
    (ht : IsName tag) (hp : ∀ s ∈ path, IsName s.2) {t : Tree} (hn : n ≤ 2147483647) (hd : IsDocument h n t) :
    ∃ r, parseHext rx charSigned (pathText attr key tag path) = .ok r ∧
      extract rx h r t.ptr 0 = pure ((((t :: t.inside).map (Tree.follow attr tag path)).filter (· ≠ [])).map (·.map (key, ·))) := by
  refine ⟨_, path_parsed rx charSigned ha hk ht hp, ?_⟩
  have hs : ∀ i ∈ (pathOf attr key tag path).infos, i.Safe n ∧ Unmarked i := by
    clear ht hp
    induction path generalizing tag with
    | nil =>
      intro i hi
      simp only [pathOf, Path.infos, List.mem_singleton] at hi
      subst hi
      exact ⟨by simp [RuleInfo.Safe, linkInfo, Match.SafeL, Match.SafeO, Match.Safe, Capture.Safe], rfl, rfl⟩
    | cons s path ih =>
      intro i hi
      simp only [pathOf, Path.infos, List.mem_cons] at hi
      rcases hi with rfl | hi
      · exact ⟨by simp [RuleInfo.Safe, tagInfo, Match.SafeL, Match.SafeO, Match.Safe, Capture.Safe], rfl, rfl⟩
      · exact ih i hi
  have hl : (Loc.root t).Stored h n := hd
  obtain ⟨res, he⟩ := extract_unlimited (rx := rx) hn (path_safe fun i hi => (hs i hi).1) hl
  obtain ⟨maps, h1, h2⟩ := C102_rules hn hs (ownValues_isVal rx h n _) hl he
  refine he.trans ?_
  rw [h2]
  congr 1
  have hxs : (Loc.root t).searched.flatten.map (·.self) = t :: t.inside := by
    have := under_inside t
    simp only [Loc.searched, List.flatten_cons, List.map_append, Loc.onward, Loc.root, List.map_cons, underL,
      List.append_nil, this, List.map_nil, locsAux]
    simp only [Bool.false_eq_true, if_false, List.map_nil, underL, List.append_nil, this]
    rfl
  rw [← hxs]
  have hst : ∀ x ∈ (Loc.root t).searched.flatten, x.Stored h n := by
    intro x hx
    obtain ⟨ks, hks, hx⟩ := List.mem_flatten.1 hx
    exact searched_stored hl ks hks x hx
  generalize (Loc.root t).searched.flatten = xs at h1 hst
  clear h2 he hxs
  induction xs generalizing maps with
  | nil => cases h1; rfl
  | cons x xs ih =>
    have hx := path_follow (rx := rx) (key := key) hn ha ht hp (hst x (by simp))
    rw [List.filterMap_cons] at h1
    rw [List.map_cons, List.map_cons, List.filter_cons]
    cases hq : (pathOf attr key tag path).values (ownValues rx h) x with
    | none =>
      rw [hq] at h1 hx
      rw [if_neg (by simpa using hx.symm)]
      exact ih _ h1 fun y hy => hst y (by simp [hy])
    | some vs =>
      rw [hq] at h1 hx
      cases h1 with
      | cons h1 h3 =>
        have ih := ih _ h3 fun y hy => hst y (by simp [hy])
        simp only [Option.getD_some] at hx
        rw [hx] at h1
        have := isMap_sameKey h1
        subst this
        rw [List.filter_cons, ih]
        by_cases h0 : x.self.follow attr tag path = []
        · simp [h0]
        · simp [h0]

/-- `<html><ul><li><p><a href="1"></a></p></li><li><a href="2"></a></li><li></li></ul><ul><li></li></ul><li><a href="3"></a></li></html>` -/
def listPage : Tree := Ex.el 1 "html" [] [
  Ex.el 2 "ul" [] [
    Ex.el 3 "li" [] [Ex.el 4 "p" [] [Ex.el 5 "a" [("href", "1")] []]],
    Ex.el 6 "li" [] [Ex.el 7 "a" [("href", "2")] []],
    Ex.el 8 "li" [] []],
  Ex.el 9 "ul" [] [Ex.el 10 "li" [] []],
  Ex.el 11 "li" [] [Ex.el 12 "a" [("href", "3")] []]]

local instance decAlpha102 (b : Byte) : Decidable (IsAlpha b) := by unfold IsAlpha; infer_instance
local instance decNameByte102 (b : Byte) : Decidable (IsNameByte b) := by unfold IsNameByte; infer_instance

theorem isName_check {s : Str} (hs : (match s with | [] => false | b :: t => decide (IsAlpha b) && t.all fun x => decide (IsNameByte x)) = true) :
    IsName s := by
  cases s with
  | nil => cases hs
  | cons b t =>
    simp only [Bool.and_eq_true, decide_eq_true_eq, List.all_eq_true] at hs
    exact ⟨b, t, rfl, hs.1, hs.2⟩

/-- The path `ul/li//a` on that page. -/
example : ∃ r, parseHext Ex.rx true (lit "<ul><li>{<a href:x/>}</li></ul>") = .ok r ∧
    extract Ex.rx (docHeap 0 listPage) r listPage.ptr 0 = pure [[(lit "x", lit "1"), (lit "x", lit "2")]] := by
  have hd : IsDocument (docHeap 0 listPage) 2147483647 listPage := isDocument_of_ok (by decide +kernel)
  obtain ⟨r, h1, h2⟩ := C102_path (rx := Ex.rx) true (attr := lit "href") (key := lit "x") (tag := lit "ul")
    (path := [(false, lit "li"), (true, lit "a")]) (isName_check (by decide +kernel)) (isName_check (by decide +kernel))
    (isName_check (by decide +kernel)) (by
      simp only [List.mem_cons, List.not_mem_nil, or_false]
      rintro s (rfl | rfl) <;> exact isName_check (by decide +kernel)) (by decide) hd
  refine ⟨r, ?_, ?_⟩
  · rw [← h1]; exact congrArg _ (by decide +kernel)
  · rw [h2]; decide +kernel

/-- `<li>{<a href:x/>}</li>` as a path of rules: its parts are not marked, and there is a `val` for it. -/
example : (∀ i ∈ (pathOf (lit "href") (lit "x") (lit "li") [(true, lit "a")]).infos, i.Safe n ∧ Unmarked i) ∧
    IsVal rx h n (ownValues rx h) (pathOf (lit "href") (lit "x") (lit "li") [(true, lit "a")]).infos := by
  refine ⟨?_, ownValues_isVal rx h n _⟩
  simp only [pathOf, Path.infos, List.mem_cons, List.not_mem_nil, or_false]
  rintro i (rfl | rfl)
  · exact ⟨by simp [RuleInfo.Safe, tagInfo, Match.SafeL, Match.SafeO, Match.Safe, Capture.Safe], rfl, rfl⟩
  · exact ⟨by simp [RuleInfo.Safe, linkInfo, Match.SafeL, Match.SafeO, Match.Safe, Capture.Safe], rfl, rfl⟩

end

end Hext.Props
