import Verif.Spec.Conditions
import Verif.Proofs.Eval
set_option linter.unusedSimpArgs false
/-!
# Conditions mean what the specification says
-/

namespace Hext

theorem Decides.of_iff {x : E Bool} {P : Prop} (h1 : ∃ b, x = pure b) (h2 : x = pure true ↔ P) : Decides x P := by
  obtain ⟨b, rfl⟩ := h1
  exact ⟨b, rfl, by rw [← h2, Props.pure_true_iff]⟩

theorem Decides.pure_iff {b : Bool} {P : Prop} : Decides (pure b) P ↔ (b = true ↔ P) := by
  constructor
  · rintro ⟨c, h, h2⟩; rw [E.pure_inj h]; exact h2
  · intro h; exact ⟨b, rfl, h⟩

theorem Decides.not {x : E Bool} {P : Prop} (h : Decides x P) : Decides (do pure (!(← x))) (¬ P) := by
  obtain ⟨b, rfl, h⟩ := h
  exact ⟨!b, rfl, by rw [← h]; simp⟩

theorem Decides.true_iff {x : E Bool} {P : Prop} (h : Decides x P) : x = pure true ↔ P := by
  obtain ⟨b, rfl, h⟩ := h
  rw [← h, Props.pure_true_iff]

theorem ValueTest.decides (rx : RxEngine) (t : ValueTest) (ht : t.WordsOk) (s : Option Str) :
    Decides (t.test rx s) (t.Accepts rx s) := by
  induction t with
  | beginsWith l =>
    refine .of_iff (Props.test_total rx _ s) ?_
    cases s with
    | none => simp [ValueTest.test, ValueTest.Accepts, Props.pure_true_iff]
    | some s => rw [Props.beginsWith_iff]; simp [ValueTest.Accepts]
  | endsWith l =>
    refine .of_iff (Props.test_total rx _ s) ?_
    cases s with
    | none => simp [ValueTest.test, ValueTest.Accepts, Props.pure_true_iff]
    | some s => rw [Props.endsWith_iff]; simp [ValueTest.Accepts]
  | contains l =>
    refine .of_iff (Props.test_total rx _ s) ?_
    cases s with
    | none => simp [ValueTest.test, ValueTest.Accepts, Props.pure_true_iff]
    | some s => rw [Props.contains_iff]; simp [ValueTest.Accepts]
  | equals l =>
    refine .of_iff (Props.test_total rx _ s) ?_
    cases s with
    | none => simp [ValueTest.test, ValueTest.Accepts, Props.pure_true_iff]
    | some s => rw [Props.equals_iff]; simp [ValueTest.Accepts]
  | regex r =>
    refine .of_iff (Props.test_total rx _ s) ?_
    cases s with
    | none => simp [ValueTest.test, ValueTest.Accepts, Props.pure_true_iff]
    | some s => simp [ValueTest.test, ValueTest.Accepts, Props.pure_true_iff]
  | containsWords ws =>
    refine .of_iff (Props.test_total rx _ s) ?_
    cases s with
    | none => simp [ValueTest.test, ValueTest.Accepts, Props.pure_true_iff]
    | some s =>
      simp only [ValueTest.test, ValueTest.Accepts, Props.pure_true_iff, Bool.and_eq_true]
      have key : ∀ w ∈ ws, (containsWord s w = true ↔ w ≠ [] ∧ Spec.OccursAsWord w s) := by
        intro w hw
        by_cases he : w = []
        · subst he; simp [containsWord]
        · rw [containsWord_iff he (ht w hw)]; simp [he]
      constructor
      · rintro ⟨h1, h2⟩
        rw [List.all_eq_true] at h2
        exact ⟨by simpa using h1, s, rfl, fun w hw => (key w hw).1 (h2 w hw)⟩
      · rintro ⟨h1, v, e, h2⟩
        cases e
        exact ⟨by simpa using h1, List.all_eq_true.2 fun w hw => (key w hw).2 (h2 w hw)⟩
  | negateNull => cases s <;> simp [ValueTest.test, ValueTest.Accepts, Decides.pure_iff]
  | negate t ih =>
    simp only [ValueTest.test, ValueTest.Accepts]
    exact (ih ht).not

/-- The word list made from a string has no spaces in its words. -/
theorem mkContainsWords_ok (l : Str) : (mkContainsWords l).WordsOk := by
  have key : ∀ (s cur : Str), 32 ∉ cur → ∀ w ∈ splitCompress [32] cur s, 32 ∉ w := by
    intro s
    induction s with
    | nil => intro cur hc w hw; simp [splitCompress] at hw; subst hw; exact hc
    | cons c s ih =>
      intro cur hc w hw
      rw [splitCompress.eq_def] at hw
      simp only at hw
      split at hw
      · split at hw
        · simp at hw; rcases hw with rfl | rfl <;> simp_all
        · split at hw
          · exact ih cur hc w hw
          · rcases List.mem_cons.1 hw with rfl | hw
            · exact hc
            · exact ih [] (by simp) w hw
      · rename_i hne
        refine ih (cur ++ [c]) ?_ w hw
        simp at hne
        simp [hc]
        exact fun h => hne h.symm
  exact key _ [] (by simp)

theorem isAttr_iff {e : Elem} {name : Str} {a : Attr} : IsAttr e name a ↔ getAttribute e.attrs name = some a := by
  unfold getAttribute IsAttr SameName
  rw [List.find?_eq_some_iff_append]
  simp only [eqIgnoreCase, beq_iff_eq]
  constructor
  · rintro ⟨b, c, h1, h2, h3⟩
    exact ⟨h2, b, c, h1, by simpa using h3⟩
  · rintro ⟨h2, b, c, h1, h3⟩
    exact ⟨b, c, h1, h2, by simpa using h3⟩

theorem noAttr_iff {e : Elem} {name : Str} : NoAttr e name ↔ getAttribute e.attrs name = none := by
  unfold getAttribute NoAttr SameName
  rw [List.find?_eq_none]
  simp [eqIgnoreCase]

theorem countsAs_iff (ct : Option Tag) (t : Tree) : countsAs ct t.kind = isCounted ct t := by
  unfold countsAs isCounted
  cases t.kind <;> simp [Kind.elem?]
  cases ct <;> simp
  rw [Bool.beq_comm]

theorem Loc.pos_eq {e : Elem} {l : Loc} (hk : l.self.kind = .element e) (first ofType : Bool) :
    l.pos first ofType e = l.position first (if ofType then some e.tag else none) := by
  have hself : countsAs (if ofType then some e.tag else none) l.self.kind = true := by
    rw [hk]; cases ofType <;> simp [countsAs, Kind.elem?]
  have hc : ∀ (ct : Option Tag) (ts : List Tree), countTrees ct ts = (ts.filter (isCounted ct)).length := by
    intro ct ts
    rw [countTrees, List.countP_eq_length_filter]
    congr 1
    exact List.filter_congr fun t _ => countsAs_iff ct t
  unfold Loc.pos Loc.position Loc.posFirst Loc.posLast
  cases l.inElem <;> cases first <;> simp only [Bool.false_eq_true, if_false, if_true, ite_self]
  · rw [show l.self :: l.after = [l.self] ++ l.after from rfl, hc, List.filter_append, List.length_append,
      ← hc, ← hc, Nat.add_comm]
    congr 1
    simp only [countTrees, List.countP_cons, List.countP_nil, hself, if_true]
  · rw [hc, List.filter_append, List.length_append, ← hc, ← hc]
    congr 1
    simp only [countTrees, List.countP_cons, List.countP_nil, hself, if_true]

theorem nthVal_iff (step shift : Int) (pos : Nat) : nthVal step shift pos = true ↔ OnStep step shift pos := by
  unfold nthVal OnStep
  by_cases h0 : step = 0
  · subst h0; simp
  · simp only [h0, if_false]
    by_cases h1 : step > 0
    · simp only [h1, if_true, Bool.and_eq_true, Bool.not_eq_true', decide_eq_false_iff_not, beq_iff_eq, Int.not_lt]
      rw [← Int.dvd_iff_tmod_eq_zero]
      constructor
      · rintro ⟨h2, k, h3⟩
        refine ⟨k.toNat, ?_⟩
        have hk : 0 ≤ k := by
          by_cases hk : 0 ≤ k
          · exact hk
          · have : step * k < 0 := Int.mul_neg_of_pos_of_neg h1 (by omega)
            omega
        rw [Int.toNat_of_nonneg hk]; omega
      · rintro ⟨k, h3⟩
        have : 0 ≤ step * (k : Int) := Int.mul_nonneg (by omega) (by omega)
        exact ⟨by omega, k, by omega⟩
    · simp only [h1, if_false, Bool.and_eq_true, Bool.not_eq_true', decide_eq_false_iff_not, beq_iff_eq, Int.not_lt,
        gt_iff_lt]
      rw [← Int.dvd_iff_tmod_eq_zero]
      constructor
      · rintro ⟨h2, k, h3⟩
        refine ⟨k.toNat, ?_⟩
        have hk : 0 ≤ k := by
          by_cases hk : 0 ≤ k
          · exact hk
          · have : -step * k < 0 := Int.mul_neg_of_pos_of_neg (by omega) (by omega)
            omega
        rw [Int.toNat_of_nonneg hk]
        rw [Int.neg_mul] at h3; omega
      · rintro ⟨k, h3⟩
        have : 0 ≤ -step * (k : Int) := Int.mul_nonneg (by omega) (by omega)
        rw [Int.neg_mul] at this
        exact ⟨by omega, k, by rw [Int.neg_mul]; omega⟩

theorem onlyChild_decides {h : Heap} {n : Nat} {l : Loc} (hs : l.Stored h n) (ofType : Bool) :
    Decides (onlyChildMatches h ofType l.ptr) (∃ e, l.self.kind = .element e ∧ l.inElem = true ∧
      ∀ t ∈ l.before ++ l.after, isCounted (if ofType then some e.tag else none) t = false) := by
  obtain ⟨pp, i, hl⟩ := hs.load
  simp only [onlyChildMatches, load_eq hl, pure_bind]
  cases hk : l.self.kind with
  | element e =>
    simp only
    unfold Loc.Stored at hs
    split at hs
    · rename_i he
      obtain ⟨pp', pn, h1, h2, h3, h4, h5, h6⟩ := hs
      have hnd := h4.nodup
      have hr := h4
      rw [RepL.append] at hr
      simp only [RepL] at hr
      have := hr.2.1.ptr_eq
      rw [show l.self.ptr = l.ptr from rfl, hl] at this
      simp at this
      obtain ⟨rfl, _⟩ := this
      simp only [load_eq h1, pure_bind, h2, h3]
      simp only [Bool.not_true, Bool.false_eq_true, if_false]
      refine ⟨_, onlyChildLoop_eq l.ptr _ _ h4, ?_⟩
      rw [List.all_eq_true]
      have hne : ∀ t ∈ l.before ++ l.after, l.ptr ≠ t.ptr := by
        intro t ht hp
        have e1 : (l.before ++ l.self :: l.after).map Tree.ptr = l.before.map Tree.ptr ++ l.ptr :: l.after.map Tree.ptr := by
          simp [Loc.ptr]
        rw [e1] at hnd
        simp only [List.nodup_append, List.nodup_cons] at hnd
        rcases List.mem_append.1 ht with ht | ht
        · exact hnd.2.2 t.ptr (List.mem_map.2 ⟨t, ht, rfl⟩) l.ptr (by simp) hp.symm
        · exact hnd.2.1.1 (hp ▸ List.mem_map.2 ⟨t, ht, rfl⟩)
      constructor
      · intro hall
        refine ⟨e, rfl, he, fun t ht => ?_⟩
        have hm : t ∈ l.before ++ l.self :: l.after := by
          rcases List.mem_append.1 ht with ht | ht <;> simp [ht]
        have := hall t hm
        simp only [countsAs_iff] at this
        have hp := hne t ht
        simpa [hp] using this
      · rintro ⟨e', he', _, hall⟩ t ht
        cases he'
        simp only [countsAs_iff]
        by_cases hp : l.ptr = t.ptr
        · simp [hp]
        · have : t ∈ l.before ++ l.after := by
            rcases List.mem_append.1 ht with ht | ht
            · simp [ht]
            · rcases List.mem_cons.1 ht with rfl | ht
              · exact absurd rfl hp
              · simp [ht]
          simp [hall t this]
    · rename_i he
      obtain ⟨_, _, pp', pn, j, h1, h2, h3, h4⟩ := hs
      have := h3.ptr_eq
      rw [show l.self.ptr = l.ptr from rfl, hl] at this
      simp at this
      obtain ⟨rfl, _⟩ := this
      refine ⟨false, by simp [load_eq h1, h2], ?_⟩
      simp [he]
  | _ => simp [Decides.pure_iff]

mutual
theorem Match.decides (rx : RxEngine) {h : Heap} {n : Nat} {l : Loc} (hs : l.Stored h n)
    (hn : n ≤ 2147483647) (m : Match) (hm : m.Safe n) (hw : m.WordsOk) : Decides (m.matches rx h l.ptr) (m.Means rx h l) := by
  obtain ⟨pp, i, hl⟩ := hs.load
  obtain ⟨pp', pn, i', _, _, hr, _⟩ := hs.self
  match m with
  | .attribute name none =>
    simp only [Match.matches, attributeMatches, load_eq hl, pure_bind, Match.Means]
    cases hk : l.self.kind with
    | element e =>
      simp only [Decides.pure_iff, isAttr_iff]
      rw [Option.isSome_iff_exists]
      simp
    | _ => simp [Decides.pure_iff]
  | .attribute name (some t) =>
    simp only [Match.matches, attributeMatches, load_eq hl, pure_bind, Match.Means]
    have hd := fun s => t.decides rx (by simpa [Match.WordsOk] using hw) s
    cases hk : l.self.kind with
    | element e =>
      simp only [isAttr_iff, noAttr_iff]
      cases hg : getAttribute e.attrs name with
      | none =>
        obtain ⟨b, h1, h2⟩ := hd none
        exact ⟨b, h1, by rw [h2]; simp [hg]⟩
      | some a =>
        simp only
        cases hv : a.value with
        | none => simp [Decides.pure_iff, hg, hv]
        | some v =>
          obtain ⟨b, h1, h2⟩ := hd (some v)
          exact ⟨b, h1, by rw [h2]; simp [hg, hv]⟩
    | _ => simp [Decides.pure_iff]
  | .attributeCount k =>
    simp only [Match.matches, load_eq hl, pure_bind, Match.Means]
    cases hk : l.self.kind with
    | element e =>
      simp only [Decides.pure_iff, beq_iff_eq, Kind.element.injEq]
      exact ⟨fun h => ⟨e, rfl, h.symm⟩, fun ⟨e', h1, h2⟩ => by subst h1; exact h2.symm⟩
    | _ => simp [Decides.pure_iff]
  | .childCount k =>
    simp only [Match.matches, load_eq hl, pure_bind, Match.Means]
    cases hk : l.self.kind with
    | element e =>
      simp only [countChildElements_eq _ hr.kids, pure_bind]
      simp only [Decides.pure_iff, beq_iff_eq, Kind.element.injEq, List.countP_eq_length_filter, Nat.zero_add]
      exact ⟨fun h => ⟨e, rfl, h.symm⟩, fun ⟨e', _, h2⟩ => h2.symm⟩
    | _ => simp [Decides.pure_iff]
  | .function f =>
    simp only [Match.Safe] at hm
    obtain ⟨f, rfl⟩ := Option.isSome_iff_exists.1 hm
    simp [Match.matches, Match.Means, Decides.pure_iff]
  | .functionValue f none =>
    simp only [Match.Safe] at hm
    obtain ⟨f, rfl⟩ := Option.isSome_iff_exists.1 hm
    simp [Match.matches, Match.Means, Decides.pure_iff]
  | .functionValue f (some t) =>
    simp only [Match.Safe] at hm
    obtain ⟨f, rfl⟩ := Option.isSome_iff_exists.1 hm
    simp only [Match.matches, show l.ptr = l.self.ptr from rfl, CaptureFn.call_eq _ hr, pure_bind, Match.Means]
    obtain ⟨b, h1, h2⟩ := t.decides rx (by simpa [Match.WordsOk] using hw) (some (cstr (f.val h l.self)))
    exact ⟨b, h1, by rw [h2]; simp⟩
  | .negate ms =>
    simp only [Match.Safe] at hm
    simp only [Match.WordsOk] at hw
    simp only [Match.matches, Match.Means]
    exact negateLoop_decides rx hs hn ms hm hw
  | .nthChild step shift first ofType =>
    simp only [Match.Safe] at hm
    simp only [Match.matches, Match.Means]
    refine ⟨_, nthChildMatches_eq hs hn hm first ofType, ?_⟩
    cases hk : l.self.kind with
    | element e =>
      simp only [nthVal_iff, Loc.pos_eq hk]
      simp
    | _ => simp
  | .onlyChild ofType => simp only [Match.matches, Match.Means]; exact onlyChild_decides hs ofType
  | .typeRegex r =>
    simp only [Match.matches, typeRegexMatches, load_eq hl, pure_bind, Match.Means]
    cases hk : l.self.kind with
    | element e =>
      obtain ⟨t, o, as⟩ := e
      cases t <;> simp [Decides.pure_iff, Tag.normalizedName]
    | _ => simp [Decides.pure_iff]
theorem negateLoop_decides (rx : RxEngine) {h : Heap} {n : Nat} {l : Loc} (hs : l.Stored h n)
    (hn : n ≤ 2147483647) (ms : List (Option Match)) (hm : Match.SafeL n ms) (hw : Match.WordsOkL ms) :
    Decides (negateLoop rx h l.ptr ms) (Match.NoneMeans rx h l ms) := by
  match ms with
  | [] => exact ⟨true, by rw [negateLoop], by simp [Match.NoneMeans]⟩
  | none :: ms =>
    simp only [Match.SafeL] at hm
    simp only [Match.WordsOkL] at hw
    obtain ⟨c, h1, h2⟩ := negateLoop_decides rx hs hn ms hm.2 hw
    exact ⟨c, by rw [negateLoop, optMatches]; simpa using h1, by rw [h2, Match.NoneMeans]⟩
  | some m :: ms =>
    simp only [Match.SafeL, Match.SafeO] at hm
    simp only [Match.WordsOkL] at hw
    obtain ⟨b, h1, h2⟩ := m.decides rx hs hn hm.1 hw.1
    obtain ⟨c, h3, h4⟩ := negateLoop_decides rx hs hn ms hm.2 hw.2
    rw [negateLoop, optMatches, Match.NoneMeans]
    simp only [h1, h3, pure_bind]
    cases b <;> simp [Decides.pure_iff, ← h2, ← h4]
end

theorem allMatch_decides (rx : RxEngine) {h : Heap} {n : Nat} {l : Loc} (hs : l.Stored h n)
    (hn : n ≤ 2147483647) (ms : List (Option Match)) (hm : Match.SafeL n ms) (hw : Match.WordsOkL ms) :
    Decides (allMatch rx h l.ptr ms) (∀ m, some m ∈ ms → m.Means rx h l) := by
  induction ms with
  | nil => simp [allMatch, Decides.pure_iff]
  | cons m ms ih =>
    simp only [Match.SafeL] at hm
    cases m with
    | none =>
      simp only [Match.WordsOkL] at hw
      obtain ⟨c, h1, h2⟩ := ih hm.2 hw
      exact ⟨c, by simp [allMatch, h1], by rw [h2]; simp⟩
    | some m =>
      simp only [Match.WordsOkL] at hw
      obtain ⟨c, h1, h2⟩ := ih hm.2 hw.2
      obtain ⟨b, h3, h4⟩ := m.decides rx hs hn hm.1 hw.1
      simp only [allMatch, h1, h3, pure_bind]
      cases b <;> simp_all [Decides.pure_iff]

theorem tagAgrees_iff (i : RuleInfo) (l : Loc) : tagAgrees i l.self.kind = true ↔ TagMeans i l := by
  unfold tagAgrees TagMeans
  cases ht : i.tag with
  | any => simp
  | tag t =>
    cases hk : l.self.kind with
    | element e =>
      cases t with
      | known n => simp
      | unknown =>
        simp only [SameName]
        by_cases hu : e.tag = .unknown
        · simp only [hu]
          cases hn : i.tagname <;> cases ho : e.origName <;> simp [eqIgnoreCase, hu, ho, ht]
          intro h
          simpa using congrArg List.length h
        · simp [hu]
    | _ => simp

theorem ruleMatches_decides (rx : RxEngine) {h : Heap} {n : Nat} {l : Loc} (hs : l.Stored h n)
    (hn : n ≤ 2147483647) (i : RuleInfo) (hi : i.Safe n) (hw : Match.WordsOkL i.ms) :
    Decides (ruleMatches rx h i l.ptr) (TagMeans i l ∧ ∀ m, some m ∈ i.ms → m.Means rx h l) := by
  obtain ⟨pp, j, hl⟩ := hs.load
  simp only [ruleMatches, load_eq hl, pure_bind, ← tagAgrees_iff]
  obtain ⟨b, h1, h2⟩ := allMatch_decides rx hs hn i.ms hi.1 hw
  split
  · rename_i ht; simp_all [Decides.pure_iff]
  · rename_i ht
    rw [h1, Decides.pure_iff, h2]; simp_all

end Hext
