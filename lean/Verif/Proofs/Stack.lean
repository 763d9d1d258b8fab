import Verif.Model.Stack
import Verif.Proofs.Refine
import Verif.Spec.Size
set_option linter.unusedSimpArgs false
/-!
# With enough stack the bounded engine is the engine
-/

namespace Hext.Stack

theorem height_pos (t : Tree) : 1 ≤ t.height := by cases t; simp [Tree.height]

theorem height_mem {t : Tree} {ts : List Tree} (h : t ∈ ts) : t.height ≤ Tree.heightL ts := by
  induction ts with
  | nil => simp at h
  | cons u us ih =>
    simp only [Tree.heightL]
    rcases List.mem_cons.1 h with rfl | h
    · omega
    · have := ih h; omega

/-- `d` frames are enough for a function that needs `k` frames above `RuleMatchesNodeRecursive` on one of the nodes. -/
def Room (k d : Nat) (ls : List Loc) : Prop := k ≤ d ∧ ∀ l ∈ ls, 5 * l.self.height + k ≤ d + 4

theorem Room.mono {k d : Nat} {ls ms : List Loc} (hr : Room k d ls) (hs : ∀ l ∈ ms, l ∈ ls) : Room k d ms :=
  ⟨hr.1, fun l hl => hr.2 l (hs l hl)⟩

theorem Room.suffix {k d : Nat} {ls ms : List Loc} (hr : Room k d ls) (hs : ms <:+ ls) : Room k d ms :=
  hr.mono fun _ hl => hs.subset hl

theorem Room.down {k d : Nat} {ls : List Loc} (hr : Room (k + 1) d ls) : ∃ e, d = e + 1 ∧ Room k e ls := by
  obtain ⟨h1, h2⟩ := hr
  refine ⟨d - 1, by omega, by omega, fun l hl => ?_⟩
  have := h2 l hl
  omega

theorem Room.less {k d : Nat} {ls : List Loc} (hr : Room (k + 1) d ls) : Room k d ls :=
  ⟨by have := hr.1; omega, fun l hl => by have := hr.2 l hl; omega⟩

variable {rx : RxEngine} {h : Heap} {n : Nat}

/-- With enough frames `RuleMatchesNodeRecursive` is as without a bound. -/
def RunSame (rx : RxEngine) (h : Heap) (n : Nat) (p : RulePtr) : Prop :=
  ∀ l : Loc, l.Stored h n → ∀ d, 5 * l.self.height ≤ d + 4 → ∀ res,
    ruleMatchesNodeRecursive rx h d p l.ptr res = Hext.ruleMatchesNodeRecursive rx h p l.ptr res

theorem onceLoop_same {d : Nat} {p : RulePtr} (hc : RunSame rx h n p) (ls es : List Loc) (hs : Sibs h n (ls ++ es))
    (hr : Room 0 d ls) (res : MatchingNodes) :
    onceLoop rx h d p (hp (ls ++ es)) (hp es) res = Hext.matchRuleOnce rx h p (hp (ls ++ es)) (hp es) res := by
  induction ls generalizing res with
  | nil =>
    rw [onceLoop.eq_def, Hext.matchRuleOnce.eq_def]
    cases es with
    | nil => rfl
    | cons e es => simp [hp]
  | cons l ls ih =>
    obtain ⟨hst, hnx, hne, htl⟩ := hs.tail
    rw [onceLoop.eq_def, Hext.matchRuleOnce.eq_def]
    simp only [hp, List.cons_append, List.head?_cons, Option.map_some] at *
    rw [hc l hst d (by have := hr.2 l (by simp); omega)]
    split
    · rfl
    · congr 1
      funext x
      obtain ⟨m, res'⟩ := x
      simp only
      split
      · rfl
      · simp only [hnx, lift_pure, pure_bind]
        exact ih htl (hr.mono fun _ hm => List.mem_cons_of_mem _ hm) res'

theorem once_same {d : Nat} {p : RulePtr} (hc : RunSame rx h n p) (ls es : List Loc) (hs : Sibs h n (ls ++ es))
    (hr : Room 1 d ls) (res : MatchingNodes) :
    matchRuleOnce rx h d p (hp (ls ++ es)) (hp es) res = Hext.matchRuleOnce rx h p (hp (ls ++ es)) (hp es) res := by
  obtain ⟨e, rfl, hr'⟩ := hr.down
  rw [matchRuleOnce.eq_def]
  exact onceLoop_same hc ls es hs hr' res

theorem once_same' {d : Nat} {p : RulePtr} (hc : RunSame rx h n p) (ls : List Loc) (hs : Sibs h n ls)
    (hr : Room 1 d ls) (res : MatchingNodes) :
    matchRuleOnce rx h d p (hp ls) none res = Hext.matchRuleOnce rx h p (hp ls) none res := by
  have := once_same hc ls [] (by simpa using hs) hr res
  simpa using this

theorem ret_congr {α β} {k : Nat} {a : α} {f g : α → M β} (hf : f a = g a) : (ret k a >>= f) = (ret k a >>= g) := by
  simp only [ret, bind_assoc, pure_bind, hf]

/-- `cs` with all rules the same with enough frames. -/
def AllSame (rx : RxEngine) (h : Heap) (n : Nat) (cs : List (CR RulePtr Loc)) : Prop := ∀ c ∈ cs, RunSame rx h n c.id

theorem rangeLoop_same {d : Nat} (rEnd : Option RulePtr) (es : List Loc) : ∀ (k : Nat) (cs : List (CR RulePtr Loc)) (ls : List Loc),
    cs.length + ls.length ≤ k → ChainOK rx h n cs → AllSame rx h n cs → Sibs h n (ls ++ es) → Room 1 d ls →
    ∀ (mn : Option Ptr) (res : MatchingNodes),
      rangeLoop rx h d (hd cs) rEnd (hp (ls ++ es)) (hp es) mn res =
        Hext.rangeLoop rx h (hd cs) rEnd (hp (ls ++ es)) (hp es) mn res := by
  intro k
  induction k with
  | zero =>
    intro cs ls hk _ _ _ _ mn res
    have : cs = [] := by cases cs <;> simp at hk ⊢
    subst this
    rw [rangeLoop.eq_def, Hext.rangeLoop.eq_def]
    rfl
  | succ k ih =>
    intro cs ls hk hc ha hs hr mn res
    cases cs with
    | nil =>
      rw [rangeLoop.eq_def, Hext.rangeLoop.eq_def]
      rfl
    | cons c cs =>
      have hc' := hc
      simp only [ChainOK] at hc'
      obtain ⟨h1, h2, h3, h4, h5, h6⟩ := hc'
      have ha' : AllSame rx h n cs := fun x hx => ha x (by simp [hx])
      rw [rangeLoop.eq_def, Hext.rangeLoop.eq_def]
      simp only [hd_cons]
      split
      · rfl
      · rw [once_same (ha c (by simp)) ls es hs hr, matchRuleOnce_eq h5 ls es hs]
        refine ret_congr ?_
        have skip : ∀ mn res, rangeLoop rx h d c.id.next rEnd (hp (ls ++ es)) (hp es) mn res =
            Hext.rangeLoop rx h c.id.next rEnd (hp (ls ++ es)) (hp es) mn res := by
          intro mn res
          rw [h1]
          exact ih cs ls (by simp at hk; omega) h6 ha' hs hr mn res
        cases ho : (once c ls).val with
        | none =>
          simp only
          cases hes : hp es with
          | none => rw [hes] at skip; exact skip _ _
          | some q =>
            rw [hes] at skip
            simp only [bne_self_eq_false, Bool.false_eq_true, if_false]
            exact skip _ _
        | some w =>
          obtain ⟨b, x, s, r⟩ := w
          have hls := once_some ho
          have hlt := once_rest_lt ho
          have hs' : Sibs h n (b ++ x :: (r ++ es)) := by rw [hls] at hs; simpa using hs
          simp only [ne_end hs', if_true, hs'.at.2.1, lift_pure, pure_bind]
          have hr' : Room 1 d r := hr.suffix ⟨b ++ [x], by rw [hls]; simp⟩
          split
          · exact ih (c :: cs) r (by simp at hk ⊢; omega) hc ha hs'.at.2.2.2 hr' _ _
          · rw [h1]
            exact ih cs r (by simp at hk; omega) h6 ha' hs'.at.2.2.2 hr' _ _

theorem range_same {d : Nat} {c : CR RulePtr Loc} {cs : List (CR RulePtr Loc)} (rEnd : Option RulePtr) (ls es : List Loc)
    (q : Ptr) (hq : some q = hp (ls ++ es)) (hc : ChainOK rx h n (c :: cs)) (ha : AllSame rx h n (c :: cs))
    (hs : Sibs h n (ls ++ es)) (hr : Room 2 d ls) (res : MatchingNodes) :
    matchRange rx h d (some c.id) rEnd q (hp es) res = Hext.matchRange rx h (some c.id) rEnd q (hp es) res := by
  obtain ⟨e, rfl, hr'⟩ := hr.down
  rw [matchRange.eq_def, Hext.matchRange.eq_def]
  simp only [hq]
  exact rangeLoop_same rEnd es _ (c :: cs) ls (Nat.le_refl _) hc ha hs hr' _ _

theorem ChainOK.next {pre rest : List (CR RulePtr Loc)} {c : CR RulePtr Loc} (hc : ChainOK rx h n (pre ++ c :: rest)) :
    c.id.next = hd rest := by
  have := hc.append
  simp only [ChainOK] at this
  exact this.1

theorem groupLoop_same {d : Nat} (f : RulePtr) : ∀ (k : Nat) (pre cs : List (CR RulePtr Loc)) (ns : List Loc), ns.length ≤ k →
    ChainOK rx h n (pre ++ cs) → hd (pre ++ cs) = some f → AllSame rx h n (pre ++ cs) → Sibs h n ns → Room 2 d ns →
    ∀ sub res, groupLoop rx h d f (hd cs) (hp ns) sub res = Hext.groupLoop rx h f (hd cs) (hp ns) sub res := by
  have base : ∀ (rule : Option RulePtr) (node : Option Ptr) sub res, rule = none ∨ node = none →
      groupLoop rx h d f rule node sub res = Hext.groupLoop rx h f rule node sub res := by
    intro rule node sub res hn
    rw [groupLoop.eq_def, Hext.groupLoop.eq_def]
    rcases hn with rfl | rfl
    · cases node <;> rfl
    · cases rule <;> rfl
  intro k
  induction k with
  | zero =>
    intro pre cs ns hk _ _ _ _ _ sub res
    have : ns = [] := by cases ns <;> simp at hk ⊢
    subst this
    exact base _ _ _ _ (.inr rfl)
  | succ k ih =>
    intro pre cs ns hk hc hf ha hs hr sub res
    cases ns with
    | nil => exact base _ _ _ _ (.inr rfl)
    | cons l ls =>
    cases cs with
    | nil => exact base _ _ _ _ (.inl rfl)
    | cons c cs =>
    have hcc := hc.append
    have hac : AllSame rx h n (c :: cs) := fun x hx => ha x (List.mem_append_right _ hx)
    have h1 : c.id.next = hd cs := ChainOK.next hc
    have h5 := hc.run (c := c) (by simp)
    have hcs : ChainOK rx h n cs := by
      have : ChainOK rx h n ([c] ++ cs) := hcc
      exact this.append
    rw [groupLoop.eq_def, Hext.groupLoop.eq_def]
    simp only [hd_cons, hp_cons]
    have hwhole : ∀ (rEnd : Option RulePtr) sub, matchRange rx h d (some c.id) rEnd l.ptr none sub =
        Hext.matchRange rx h (some c.id) rEnd l.ptr none sub := by
      intro rEnd sub
      have := range_same rEnd (l :: ls) [] l.ptr rfl hcc hac (by simpa using hs) hr sub
      simpa using this
    have hpart : ∀ (rEnd : Option RulePtr) (b r : List Loc) (x : Loc) sub, l :: ls = b ++ x :: r →
        matchRange rx h d (some c.id) rEnd l.ptr (some x.ptr) sub =
          Hext.matchRange rx h (some c.id) rEnd l.ptr (some x.ptr) sub := by
      intro rEnd b r x sub hls
      exact range_same rEnd b (x :: r) l.ptr (by rw [← hls]; rfl) hcc hac (by rw [← hls]; exact hs)
        (hr.mono fun y hy => by rw [hls]; exact List.mem_append_left _ hy) sub
    have honce : ∀ (m : CR RulePtr Loc), m ∈ pre ++ c :: cs → ∀ sub,
        matchRuleOnce rx h d m.id (some l.ptr) none sub = ret (once m (l :: ls)).cost (match (once m (l :: ls)).val with
          | none => (none, sub)
          | some (_, x, s, _) => (some x.ptr, sub ++ conv s)) ∧
        Hext.matchRuleOnce rx h m.id (some l.ptr) none sub = ret (once m (l :: ls)).cost (match (once m (l :: ls)).val with
          | none => (none, sub)
          | some (_, x, s, _) => (some x.ptr, sub ++ conv s)) := by
      intro m hm sub
      have e := matchRuleOnce_all (hc.run hm) (l :: ls) hs sub
      have e2 := once_same' (ha m hm) (l :: ls) hs hr.less sub
      simp only [hp_cons] at e e2
      exact ⟨e2.trans e, e⟩
    split
    · rw [h1, findMandatory_none hcs]
      simp only [lift_pure, pure_bind]
      cases hm : firstMand cs with
      | some stop =>
        obtain ⟨opts, rest, rfl⟩ := List.append_of_mem (firstMand_mem hm)
        simp only [Option.map_some]
        obtain ⟨e1, e2⟩ := honce stop (by simp) sub
        rw [e1, e2]
        refine ret_congr ?_
        cases ho : (once stop (l :: ls)).val with
        | none => rfl
        | some w =>
          obtain ⟨b, x, s, r⟩ := w
          have hls := once_some ho
          have hlt := once_rest_lt ho
          have hs' : Sibs h n (b ++ x :: r) := by rw [← hls]; exact hs
          simp only
          rw [hpart _ b r x _ hls]
          congr 1
          funext y
          obtain ⟨_, sub'⟩ := y
          simp only [hs'.at.2.1, lift_pure, pure_bind]
          have hc2 : ChainOK rx h n ((pre ++ c :: opts) ++ stop :: rest) := by simpa using hc
          rw [ChainOK.next hc2]
          have e3 : pre ++ c :: opts ++ [stop] ++ rest = pre ++ c :: (opts ++ stop :: rest) := by simp
          refine ih (pre ++ c :: opts ++ [stop]) rest r (by simp at hk hlt; omega) ?_ ?_ ?_ hs'.at.2.2.2
            (hr.suffix ⟨b ++ [x], by rw [hls]; simp⟩) _ _
          · rw [e3]; exact hc
          · rw [e3]; exact hf
          · rw [e3]; exact ha
      | none =>
        simp only [Option.map_none]
        rw [← hf, findMandatory_some hc]
        simp only [lift_pure, pure_bind]
        cases hp : firstMand pre with
        | none =>
          simp only [show sameRule (some c.id) (some c.id) = true from same_self _, if_true]
          rw [hwhole]
          rfl
        | some m =>
          simp only
          split
          · rw [hwhole]; rfl
          · obtain ⟨e1, e2⟩ := honce m (List.mem_append_left _ (firstMand_mem hp)) []
            rw [e1, e2]
            refine ret_congr ?_
            cases ho : (once m (l :: ls)).val with
            | none => simp only; rw [hwhole]
            | some w =>
              obtain ⟨b, x, s, r⟩ := w
              simp only
              rw [hpart _ b r x _ (once_some ho)]
    · obtain ⟨e1, e2⟩ := honce c (by simp) sub
      rw [e1, e2]
      refine ret_congr ?_
      cases ho : (once c (l :: ls)).val with
      | none => rfl
      | some w =>
        obtain ⟨b, x, s, r⟩ := w
        have hls := once_some ho
        have hlt := once_rest_lt ho
        have hs' : Sibs h n (b ++ x :: r) := by rw [← hls]; exact hs
        simp only [hs'.at.2.1, lift_pure, pure_bind]
        have hr' : Room 2 d r := hr.suffix ⟨b ++ [x], by rw [hls]; simp⟩
        have hl : r.length ≤ k := by simp at hk hlt; omega
        split
        · exact ih pre (c :: cs) r hl hc hf ha hs'.at.2.2.2 hr' _ _
        · rw [h1]
          refine ih (pre ++ [c]) cs r hl ?_ ?_ ?_ hs'.at.2.2.2 hr' _ _
          · simpa using hc
          · simpa using hf
          · simpa using ha

theorem group_same {d : Nat} {c : CR RulePtr Loc} {cs : List (CR RulePtr Loc)} {l : Loc} {ls : List Loc}
    (hc : ChainOK rx h n (c :: cs)) (ha : AllSame rx h n (c :: cs)) (hs : Sibs h n (l :: ls)) (hr : Room 3 d (l :: ls)) :
    matchRuleGroup rx h d (some c.id) (some l.ptr) [] =
      ret (group [] (c :: cs) false (l :: ls) []).cost
        (hp (group [] (c :: cs) false (l :: ls) []).val.2, conv (group [] (c :: cs) false (l :: ls) []).val.1) := by
  rw [← matchRuleGroup_eq hc hs]
  obtain ⟨e, rfl, hr'⟩ := hr.down
  rw [matchRuleGroup.eq_def, Hext.matchRuleGroup.eq_def]
  exact groupLoop_same c.id _ [] (c :: cs) (l :: ls) (Nat.le_refl _) hc rfl ha hs hr' _ _

theorem saveLoop_same {d : Nat} {c : CR RulePtr Loc} {cs : List (CR RulePtr Loc)} (hc : ChainOK rx h n (c :: cs))
    (ha : AllSame rx h n (c :: cs)) : ∀ (k : Nat) (ls : List Loc), ls.length ≤ k → Sibs h n ls → Room 3 d ls → ∀ res,
      saveLoop rx h d c.id (hp ls) res = Hext.saveLoop rx h c.id (hp ls) res := by
  intro k
  induction k with
  | zero =>
    intro ls hk _ _ res
    have : ls = [] := by cases ls <;> simp at hk ⊢
    subst this
    rw [saveLoop.eq_def, Hext.saveLoop.eq_def]
    rfl
  | succ k ih =>
    intro ls hk hs hr res
    rw [saveLoop.eq_def, Hext.saveLoop.eq_def]
    cases ls with
    | nil => rfl
    | cons l ls =>
      simp only [hp_cons]
      rw [group_same hc ha hs hr, matchRuleGroup_eq hc hs]
      refine ret_congr ?_
      have hsf := group_suffix [] (c :: cs) false (l :: ls) []
      have hlt := group_lt c cs false l ls []
      exact ih _ (by simp at hk hlt; omega) (hs.suffix hsf) (hr.suffix hsf) _

theorem childLoop_same {d : Nat} {c : CR RulePtr Loc} {cs : List (CR RulePtr Loc)} (hc : ChainOK rx h n (c :: cs))
    (ha : AllSame rx h n (c :: cs)) : ∀ (k : Nat) (l : Loc) (ls : List Loc), (l :: ls).length ≤ k → Sibs h n (l :: ls) →
      Room 3 d (l :: ls) → ∀ m res, childLoop rx h d c.id l.ptr m res = Hext.childLoop rx h c.id l.ptr m res := by
  intro k
  induction k with
  | zero => intro l ls hk; simp at hk
  | succ k ih =>
    intro l ls hk hs hr m res
    rw [childLoop.eq_def, Hext.childLoop.eq_def]
    rw [group_same hc ha hs hr, matchRuleGroup_eq hc hs]
    refine ret_congr ?_
    have hfm := findMandatory_none hc
    simp only [hd_cons] at hfm
    simp only [hfm, lift_pure, pure_bind]
    have hsf := group_suffix [] (c :: cs) false (l :: ls) []
    have hlt := group_lt c cs false l ls []
    generalize group [] (c :: cs) false (l :: ls) [] = g at *
    cases hg : g.val.2 with
    | nil => rfl
    | cons l2 ls2 =>
      rw [hg] at hsf hlt
      simp only [hp_cons]
      exact ih l2 ls2 (by simp at hk hlt ⊢; omega) (hs.suffix hsf) (hr.suffix hsf) _ _

theorem save_unfold (d : Nat) (r : RulePtr) (node : Ptr) (res : List MatchingNodes) :
    saveMatchingNodesRecursive rx h (d + 1) r node res = (ret 1 () >>= fun _ => do
      let res ← saveLoop rx h d r (some node) res
      saveDescend rx h d r node res) := by
  rw [saveMatchingNodesRecursive.eq_def]
  exact tick_eq _

/-- Below a node there is less room needed. -/
theorem room_kids {k e : Nat} {t : Tree} (hk : 5 * t.height + k ≤ e + 4) : ∀ l ∈ locs t.kids, 5 * l.self.height + (k + 5) ≤ e + 4 := by
  intro l hl
  have h1 : l.self ∈ t.kids := by
    have := List.mem_map_of_mem (f := (·.self)) hl
    rwa [locs_self] at this
  have h2 := height_mem h1
  cases t with
  | node p kd kids =>
    simp only [Tree.height, Tree.kids] at *
    omega

theorem save_same {c : CR RulePtr Loc} {cs : List (CR RulePtr Loc)} (hc : ChainOK rx h n (c :: cs)) (ha : AllSame rx h n (c :: cs)) :
    ∀ (d : Nat) (l : Loc) (ls : List Loc), Sibs h n (l :: ls) → Room 4 d (l :: ls) → ∀ res,
      saveMatchingNodesRecursive rx h d c.id l.ptr res = Hext.saveMatchingNodesRecursive rx h c.id l.ptr res := by
  intro d
  induction d with
  | zero => intro l ls _ hr; have := hr.1; omega
  | succ d ih =>
    intro l ls hs hr res
    obtain ⟨e, he, hr'⟩ := hr.down
    obtain rfl : d = e := by omega
    rw [save_unfold, saveMatchingNodes_unfold]
    refine ret_congr ?_
    have e1 := saveLoop_same hc ha _ (l :: ls) (Nat.le_refl _) hs hr' res
    simp only [hp_cons] at e1
    rw [e1]
    congr 1
    funext res'
    clear e1 res
    have key : ∀ (ms : List Loc) (m : Loc), Sibs h n (m :: ms) → Room 4 (d + 1) (m :: ms) → ∀ res,
        saveDescend rx h d c.id m.ptr res = Hext.saveDescend rx h c.id m.ptr res := by
      have step : ∀ (m : Loc) (res : List MatchingNodes), m.Stored h n → 5 * m.self.height + 4 ≤ d + 1 + 4 → ∀ pp i,
          h m.ptr = some ⟨m.self.kind, m.self.kids.map Tree.ptr, some pp, i⟩ →
          (if m.self.kind.isElement && (m.self.kids.map Tree.ptr).length != 0 then do
            let k ← (liftM (getAt (m.self.kids.map Tree.ptr) 0) : M _)
            saveMatchingNodesRecursive rx h d c.id k res
          else pure res) = (if m.self.kind.isElement && (m.self.kids.map Tree.ptr).length != 0 then do
            let k ← (liftM (getAt (m.self.kids.map Tree.ptr) 0) : M _)
            Hext.saveMatchingNodesRecursive rx h c.id k res
          else pure res) := by
        intro m res hst hroom pp i hld
        split
        · rename_i hcond
          simp only [Bool.and_eq_true] at hcond
          have hs := sibs_locs hst hcond.1
          have hrk := room_kids hroom
          cases hkids : m.self.kids with
          | nil => simp [hkids] at hcond
          | cons kid kids =>
            rw [hkids] at hs hrk
            simp only [getAt, List.map_cons, List.getElem?_cons_zero, lift_pure, pure_bind]
            refine ih ⟨true, [], kid, kids⟩ (locsAux [kid] kids) hs ⟨?_, fun l hl => ?_⟩ res
            · have h1 := hrk ⟨true, [], kid, kids⟩ (by simp [locs, locsAux])
              simp only at h1
              have := height_pos kid
              omega
            · have := hrk l hl
              omega
        · rfl
      intro ms
      induction ms with
      | nil =>
        intro m hs hr res
        obtain ⟨hst, hnx, _, htl⟩ := hs.tail
        obtain ⟨pp, i, hld⟩ := hst.load
        rw [saveDescend.eq_def, Hext.saveDescend.eq_def]
        simp only [load_eq hld, lift_pure, pure_bind, hnx]
        have := congrArg (· >>= fun res => (pure res : M (List MatchingNodes))) (step m res hst (hr.2 m (by simp)) pp i hld)
        split
        · rename_i hc; simp only [hc, if_true, bind_assoc] at this; exact this
        · rfl
      | cons m2 ms ih2 =>
        intro m hs hr res
        obtain ⟨hst, hnx, _, htl⟩ := hs.tail
        obtain ⟨pp, i, hld⟩ := hst.load
        rw [saveDescend.eq_def, Hext.saveDescend.eq_def]
        simp only [load_eq hld, lift_pure, pure_bind, hnx]
        have htail : ∀ res, saveDescend rx h d c.id m2.ptr res = Hext.saveDescend rx h c.id m2.ptr res :=
          ih2 m2 htl (hr.mono fun x hx => List.mem_cons_of_mem _ hx)
        have e := step m res hst (hr.2 m (by simp)) pp i hld
        simp only [List.head?_cons, Option.map_some, htail]
        split
        · rename_i hc
          simp only [hc, if_true] at e
          have := congrArg (· >>= fun res => Hext.saveDescend rx h c.id m2.ptr res) e
          simp only [bind_assoc] at this
          exact this
        · rfl
    exact key ls l hs hr res'

/-- All rules of the chains are the same with enough frames. -/
def AllSameN (rx : RxEngine) (h : Heap) (n : Nat) (css : List (List (CR RulePtr Loc))) : Prop := ∀ cs ∈ css, AllSame rx h n cs

theorem nestedLoop_same {d : Nat} {rs : List RulePtr} {css : List (List (CR RulePtr Loc))} (hn : NestedOK rx h n rs css)
    (ha : AllSameN rx h n css) (kid : Tree) (kids : List Tree) (hs : Sibs h n (locs (kid :: kids)))
    (hr : Room 4 d (locs (kid :: kids))) (res : MatchingNodes) :
    nestedLoop rx h d rs kid.ptr res = Hext.nestedLoop rx h rs kid.ptr res := by
  induction rs generalizing css res with
  | nil => rw [nestedLoop.eq_def, Hext.nestedLoop.eq_def]
  | cons r rs ih =>
    cases css with
    | nil => simp [NestedOK] at hn
    | cons cs css =>
      simp only [NestedOK] at hn
      obtain ⟨hh, hc, hn⟩ := hn
      cases cs with
      | nil => simp at hh
      | cons c cs =>
        simp only [hd_cons, Option.some.injEq] at hh
        subst hh
        rw [nestedLoop.eq_def, Hext.nestedLoop.eq_def]
        have e := save_same hc (ha _ (by simp)) d ⟨true, [], kid, kids⟩ (locsAux [kid] kids) hs hr []
        have : (⟨true, [], kid, kids⟩ : Loc).ptr = kid.ptr := rfl
        rw [this] at e
        simp only [e]
        congr 1
        funext mn
        congr 1
        funext m
        split
        · rfl
        · exact ih hn (fun x hx => ha x (by simp [hx])) _

theorem run_same {p : RulePtr} {child : List (CR RulePtr Loc)} {nested : List (List (CR RulePtr Loc))}
    (h1 : p.child = hd child) (h2 : ChainOK rx h n child) (a2 : AllSame rx h n child) (h3 : NestedOK rx h n p.nested nested)
    (a3 : AllSameN rx h n nested) : RunSame rx h n p := by
  intro l hl d hd' res
  have hpos := height_pos l.self
  obtain ⟨e, rfl⟩ : ∃ e, d = e + 1 := ⟨d - 1, by omega⟩
  rw [ruleMatchesNodeRecursive.eq_def, Hext.ruleMatchesNodeRecursive.eq_def]
  simp only
  congr 1
  funext b
  split
  · rfl
  split
  · rfl
  obtain ⟨pp, i, hld⟩ := hl.load
  simp only [load_eq hld, lift_pure, pure_bind]
  split
  · rfl
  rename_i hk
  simp only [Bool.or_eq_true, Bool.not_eq_true', not_or, Bool.not_eq_false, Bool.not_eq_true] at hk
  have hs := sibs_locs hl hk.1
  have hrk := room_kids (k := 0) (e := e + 1) (t := l.self) (by omega)
  cases hkids : l.self.kids with
  | nil => simp [hkids] at hk
  | cons kid kids =>
    rw [hkids] at hs hrk
    simp only [getAt, List.map_cons, List.getElem?_cons_zero, lift_pure, pure_bind]
    have hroom : Room 4 e (locs (kid :: kids)) := by
      refine ⟨?_, fun l hl => ?_⟩
      · have h1 := hrk ⟨true, [], kid, kids⟩ (by simp [locs, locsAux])
        simp only at h1
        have := height_pos kid
        omega
      · have := hrk l hl
        omega
    have hn : ∀ sub, nestedLoop rx h e p.nested kid.ptr sub = Hext.nestedLoop rx h p.nested kid.ptr sub :=
      fun sub => nestedLoop_same h3 a3 kid kids hs hroom sub
    simp only [hn]
    cases child with
    | nil =>
      simp only [hd_nil] at h1
      simp only [h1]
      rfl
    | cons c cs =>
      simp only [hd_cons] at h1
      have hch := childLoop_same h2 a2 _ ⟨true, [], kid, kids⟩ (locsAux [kid] kids) (Nat.le_refl _) hs hroom.less false []
      have : (⟨true, [], kid, kids⟩ : Loc).ptr = kid.ptr := rfl
      rw [this] at hch
      simp only [h1, hch]
      rfl

mutual
theorem chain_same (hn : n ≤ 2147483647) (r : Rule) (hr : r.All (RuleInfo.Safe n)) (addr : List Step) :
    AllSame rx h n (chain (ownVal rx h) addr r) := by
  match r with
  | .mk i ch nx ns =>
    simp only [Rule.All] at hr
    intro c hc
    simp only [chain, List.mem_cons] at hc
    rcases hc with rfl | hc
    · refine run_same (p := ⟨addr, .mk i ch nx ns⟩) ?_ (chainO_ok hn ch hr.2.1 (addr ++ [.child]))
        (chainO_same hn ch hr.2.1 (addr ++ [.child])) (chainN_ok hn ns hr.2.2.2 addr 0) (chainN_same hn ns hr.2.2.2 addr 0)
      cases ch with
      | none => rfl
      | some ch => simp only [chainO]; exact (hd_chain _ ch _).symm
    · exact chainO_same hn nx hr.2.2.1 (addr ++ [.next]) c hc
theorem chainO_same (hn : n ≤ 2147483647) (r : Option Rule) (hr : Rule.AllO (RuleInfo.Safe n) r) (addr : List Step) :
    AllSame rx h n (chainO (ownVal rx h) addr r) := by
  match r with
  | none => simp [chainO, AllSame]
  | some r => simp only [Rule.AllO] at hr; simp only [chainO]; exact chain_same hn r hr addr
theorem chainN_same (hn : n ≤ 2147483647) (rs : List Rule) (hr : Rule.AllL (RuleInfo.Safe n) rs) (addr : List Step)
    (k : Nat) : AllSameN rx h n (chainN (ownVal rx h) addr k rs) := by
  match rs with
  | [] => simp [chainN, AllSameN]
  | r :: rs =>
    simp only [Rule.AllL] at hr
    intro cs hcs
    simp only [chainN, List.mem_cons] at hcs
    rcases hcs with rfl | hcs
    · exact chain_same hn r hr.1 _
    · exact chainN_same hn rs hr.2 addr (k + 1) cs hcs
end

theorem extract_same (hn : n ≤ 2147483647) (r : Rule) (hr : r.Safe n) (l : Loc) (hl : l.Stored h n) (d : Nat)
    (hd' : ∀ m ∈ l.onward, 5 * m.self.height ≤ d) (ms : UInt64) :
    extract rx h d r l.ptr ms = Hext.extract rx h r l.ptr ms := by
  have hc := chain_ok (rx := rx) (h := h) hn r hr []
  have ha := chain_same (rx := rx) (h := h) hn r hr []
  have hs := sibs_onward hl
  unfold extract Hext.extract
  cases hcc : chain (ownVal rx h) [] r with
  | nil => have := hd_chain (ownVal rx h) r []; rw [hcc] at this; simp at this
  | cons c cs =>
    have h1 := hd_chain (ownVal rx h) r []
    rw [hcc] at hc ha h1
    simp only [hd_cons, Option.some.injEq] at h1
    rw [← h1]
    have hroom : Room 4 d l.onward := by
      refine ⟨?_, fun m hm => by have := hd' m hm; omega⟩
      have := hd' l (by simp [Loc.onward])
      have := height_pos l.self
      omega
    rw [save_same hc ha d l _ hs hroom]

/-! ## Not enough stack -/

theorem throw_bind {α β} (e : Err) (f : α → M β) : ((throw e : M α) >>= f) = throw e := rfl

theorem saveLoop_single (hn : n ≤ 2147483647) {p : RulePtr} (hr : p.val.Safe n) (h1 : Single p.val) {l : Loc} (hl : l.Stored h n)
    (hnx : nextNode h (some l.ptr) = pure none) (d : Nat) (res : List MatchingNodes) :
    saveLoop rx h d p (some l.ptr) res = throw .ub ∨ ∃ res', saveLoop rx h d p (some l.ptr) res = pure res' := by
  obtain ⟨addr, ⟨i, c, nx, ns⟩⟩ := p
  obtain ⟨ho, hg, rfl, rfl, rfl⟩ := h1
  have hown := ownVal_eq (rx := rx) hn (i := i) hr.1 hl
  rw [saveLoop.eq_def]
  simp only
  match d with
  | 0 =>
    refine .inl ?_
    rw [matchRuleGroup.eq_def]
    rfl
  | 1 =>
    refine .inl ?_
    rw [matchRuleGroup.eq_def]
    simp only
    rw [groupLoop.eq_def]
    simp only [Rule.isOptional, Rule.isGreedy, Rule.info, ho, hg, Bool.false_or, Bool.false_and, Bool.false_eq_true, if_false]
    rw [matchRuleOnce.eq_def]
    rfl
  | 2 =>
    refine .inl ?_
    rw [matchRuleGroup.eq_def]
    simp only
    rw [groupLoop.eq_def]
    simp only [Rule.isOptional, Rule.isGreedy, Rule.info, ho, hg, Bool.false_or, Bool.false_and, Bool.false_eq_true, if_false]
    rw [matchRuleOnce.eq_def]
    simp only
    rw [onceLoop.eq_def]
    simp only [show (some l.ptr == none) = false from rfl, Bool.false_eq_true, if_false]
    rw [ruleMatchesNodeRecursive.eq_def]
    rfl
  | d + 3 =>
    refine .inr ?_
    have hrun : ∀ res, ruleMatchesNodeRecursive rx h (d + 1) ⟨addr, .mk i none none []⟩ l.ptr res = pure (ownVal rx h i l, res) := by
      intro res
      rw [ruleMatchesNodeRecursive.eq_def]
      simp only [Rule.info, hown, lift_pure, pure_bind]
      cases ownVal rx h i l <;> simp [RulePtr.child, RulePtr.nested, Rule.child, Rule.nested]
    have honce : ∀ res, matchRuleOnce rx h (d + 2) ⟨addr, .mk i none none []⟩ (some l.ptr) none res =
        pure (if ownVal rx h i l then some l.ptr else none, res) := by
      intro res
      rw [matchRuleOnce.eq_def]
      simp only
      rw [onceLoop.eq_def]
      simp only [show (some l.ptr == none) = false from rfl, Bool.false_eq_true, if_false, hrun, pure_bind, hnx, lift_pure]
      split
      · rfl
      · rw [onceLoop.eq_def]
    have hgroup : ∃ sub, matchRuleGroup rx h (d + 3) (some ⟨addr, .mk i none none []⟩) (some l.ptr) [] = pure (none, sub) := by
      rw [matchRuleGroup.eq_def]
      simp only
      rw [groupLoop.eq_def]
      simp only [Rule.isOptional, Rule.isGreedy, Rule.info, ho, hg, Bool.false_or, Bool.false_and, Bool.false_eq_true, if_false,
        honce, pure_bind]
      cases ownVal rx h i l with
      | false => exact ⟨[], rfl⟩
      | true =>
        simp only [if_true, hnx, lift_pure, pure_bind, List.nil_append, RulePtr.next, Rule.next, Option.map_none]
        rw [groupLoop.eq_def]
        simp only
        rw [skipOptional.eq_def]
        exact ⟨_, rfl⟩
    obtain ⟨sub, hgroup⟩ := hgroup
    rw [hgroup]
    simp only [pure_bind]
    rw [saveLoop.eq_def]
    exact ⟨_, rfl⟩

theorem tower_overflow (hn : n ≤ 2147483647) {p : RulePtr} (hr : p.val.Safe n) (h1 : Single p.val) :
    ∀ (d : Nat) (l : Loc), Tower l.self → l.Stored h n → nextNode h (some l.ptr) = pure none → d < l.self.height →
      ∀ res, saveMatchingNodesRecursive rx h d p l.ptr res 0 = throw .ub := by
  intro d
  induction d with
  | zero =>
    intro l _ _ _ _ res
    rw [saveMatchingNodesRecursive.eq_def]
    rfl
  | succ d ih =>
    intro l ht hl hnx hlt res
    rw [save_unfold]
    obtain ⟨pp, i, hld⟩ := hl.load
    obtain ⟨kid, hkids, hel, hkt, hkh⟩ : ∃ kid, l.self.kids = [kid] ∧ l.self.kind.isElement = true ∧ Tower kid ∧ d < kid.height := by
      revert ht hlt
      generalize l.self = t
      intro ht hlt
      cases ht with
      | leaf => simp [Tree.height, Tree.heightL] at hlt
      | step hk ht =>
        refine ⟨_, rfl, hk, ht, ?_⟩
        simp only [Tree.height, Tree.heightL] at hlt
        omega
    have hs := sibs_locs hl hel
    rw [hkids] at hs
    obtain ⟨hst, hknx, _, _⟩ := hs.tail
    have hdesc : ∀ res, saveDescend rx h d p l.ptr res 0 = throw .ub := by
      intro res
      rw [saveDescend.eq_def]
      simp only [load_eq hld, lift_pure, pure_bind, hkids, hel, List.map_cons, List.map_nil, List.length_cons, List.length_nil,
        show (0 + 1 != 0) = true from rfl, Bool.and_self, if_true, getAt, List.getElem?_cons_zero]
      have := ih ⟨true, [], kid, []⟩ hkt hst hknx hkh res
      show (saveMatchingNodesRecursive rx h d p kid.ptr res 0 >>= _) = _
      have e : (⟨true, [], kid, []⟩ : Loc).ptr = kid.ptr := rfl
      rw [e] at this
      rw [this]
      rfl
    have hcharge : ∀ (f : Unit → M (List MatchingNodes)), (ret 1 () >>= f) 0 = f () 0 := by
      intro f
      rfl
    rw [hcharge]
    rcases saveLoop_single (rx := rx) hn hr h1 hl hnx d res with e | ⟨res', e⟩
    · rw [e]; rfl
    · rw [e, pure_bind]; exact hdesc res'

end Hext.Stack
