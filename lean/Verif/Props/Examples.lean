import Verif.Spec.Examples
import Verif.Props.Programs
import Verif.Props.Stateful
import Verif.Props.Complaint
set_option linter.unusedSimpArgs false
/-!
# C95: the example programs chaining and mixed
-/

namespace Hext.Props

open Hist Mem Prog Examples Syn Stateful Param

/-! ## The rules -/

theorem isName_of {s : Str} (h : (match s with | [] => false | b :: t => decide (IsAlpha b) && t.all (decide <| IsNameByte ·)) = true) :
    IsName s := by
  cases s with
  | nil => cases h
  | cons b t =>
    simp at h
    exact ⟨b, t, rfl, h⟩

/-- `<tag pattern/>` with a space before the pattern and this before the end. -/
def exHead (options : List Bool) (tag : String) (conds : List Cond) (pats : List Pat) (ws : String) : Head :=
  ⟨options, lit tag, conds, pats.map fun p => ([32], p), lit ws⟩

def pHref (name : String) : Pat := .capAttr (lit "href") [] (.plain (lit name)) false
def pSrc (name : String) : Pat := .capAttr (lit "src") [] (.plain (lit name)) false
def pText (name : String) : Pat := .capFn .text [] (.plain (lit name))

macro "example_items" : tactic => `(tactic| (
  simp only [List.cons_append, List.nil_append, List.append_nil, List.mem_cons, List.not_mem_nil, or_false, forall_eq_or_imp, forall_eq, Item.Ok, Head.Ok, exHead, pHref, pSrc, pText, Pat.Ok,
    Cond.Ok, Trait.Ok, CapName.Ok, List.map_cons, List.map_nil, false_implies, implies_true, and_true, true_and]
  repeat' apply And.intro
  all_goals first
    | exact isTag_of (by decide +kernel)
    | exact isName_of (by decide +kernel)
    | decide +kernel
    | (simp only [IsDigits, IsSpace, IsNameByte, IsAlpha]; decide +kernel)))

def imgItems : List Item := [.start (exHead [] "img" [] [pSrc "img"] " ") true, .start (exHead [] "p" [] [pText "par"] " ") true]
def spanItems : List Item := [.start (exHead [true] "span" [] [pText "span"] " ") true]

def mixedItems : List Item :=
  .start (exHead [] "a" [] [pHref "href"] "") false ::
    (.space 10 :: .space 32 :: .space 32 :: ([.start (exHead [] "img" [] [pSrc "img"] " ") true] ++
      (.space 10 :: .space 32 :: .space 32 :: ((.start (exHead [] "p" [] [pText "par"] "") false ::
        (.space 10 :: .space 32 :: .space 32 :: .space 32 :: .space 32 :: ([.start (exHead [true] "span" [] [pText "span"] " ") true] ++
          [.space 10, .space 32, .space 32])) ++ [.stop (lit "p")]) ++
      [.space 10])))) ++ [.stop (lit "a")] ++ []

def chainingItems : List Item :=
  .start (exHead [] "div" [.trait (.attributeCount (lit "0"))] [] "") false ::
    ((.start (exHead [] "ul" [.trait (.attributeCount (lit "0"))] [] "") false ::
      ((.start (exHead [] "li" [] [] "") false ::
        ([.start (exHead [] "a" [] [pHref "link"] "") true] ++ []) ++ [.stop (lit "li")]) ++ []) ++ [.stop (lit "ul")]) ++ []) ++ [.stop (lit "div")]

/-- The rules. `extra` are further captures of the innermost rule. -/
def spanRule (extra : List (Option Capture)) : Rule :=
  .mk { tag := tagOf "span", optional := true, caps := some (.function (some .text) (lit "span") none) :: extra } none none []
def imgRule (below : Option Rule) : Rule :=
  .mk { tag := tagOf "img", ms := [some (.attribute (lit "src") none)], caps := [some (.attribute (lit "src") (lit "img") none)] } none
    (some (.mk { tag := tagOf "p", caps := [some (.function (some .text) (lit "par") none)] } below none [])) []
def anchorRule (extra : List (Option Capture)) : Rule :=
  .mk { tag := tagOf "a", ms := [some (.attribute (lit "href") none)], caps := [some (.attribute (lit "href") (lit "href") none)] }
    (some (imgRule (some (spanRule extra)))) none []
def listRule : Rule :=
  .mk { tag := tagOf "div", ms := [some (.attributeCount 0)] }
    (some (.mk { tag := tagOf "ul", ms := [some (.attributeCount 0)] }
      (some (.mk { tag := tagOf "li" }
        (some (.mk { tag := tagOf "a", ms := [some (.attribute (lit "href") none)], caps := [some (.attribute (lit "href") (lit "link") none)] }
          none none [])) none [])) none [])) none []

theorem img_parsed (rx : RxEngine) (charSigned : Bool) :
    parseHext rx charSigned (lit "<img src:img /><p @text:par />") = .ok (imgRule none) := by
  rw [show lit "<img src:img /><p @text:par />" = itemsText imgItems by decide +kernel]
  exact (parse_items (by unfold imgItems; example_items) _).2 ⟨_, _, .elem (is := [_]) (.selfClosing rfl) (.elem (.selfClosing rfl) .nil), rfl⟩

theorem span_parsed (rx : RxEngine) (charSigned : Bool) : parseHext rx charSigned (lit "<?span @text:span />") = .ok (spanRule []) := by
  rw [show lit "<?span @text:span />" = itemsText spanItems by decide +kernel]
  exact (parse_items (by unfold spanItems; example_items) _).2 ⟨_, _, .elem (.selfClosing rfl) .nil, rfl⟩

theorem body_space {rx : RxEngine} {f f' : Flags} {b : Byte} {is : List Item} {kids nested : List Rule} (h : Body rx f is f' kids nested) :
    Body rx f (.space b :: is) f' kids nested := .filler trivial h

theorem body_leaf {rx : RxEngine} {f f1 f' : Flags} {x : Head} {info : RuleInfo} {is : List Item} {kids nested : List Rule}
    (hx : x.meaning rx f = some (info, f1)) (h : Body rx f1 is f' kids nested) :
    Body rx f ([.start x true] ++ is) f' (mkRule info [] [] :: kids) nested := .child (.selfClosing hx) h

/-- The items of the paragraph. -/
def parItems : List Item :=
  .start (exHead [] "p" [] [pText "par"] "") false ::
    (.space 10 :: .space 32 :: .space 32 :: .space 32 :: .space 32 :: ([.start (exHead [true] "span" [] [pText "span"] " ") true] ++
      [.space 10, .space 32, .space 32])) ++ [.stop (lit "p")]

theorem par_elem (rx : RxEngine) : Syn.Elem rx {} parItems {}
    (.mk { tag := tagOf "p", caps := [some (.function (some .text) (lit "par") none)] } (some (spanRule [])) none []) :=
  have h : Body rx {} (.space 10 :: .space 32 :: .space 32 :: .space 32 :: .space 32 ::
      ([.start (exHead [true] "span" [] [pText "span"] " ") true] ++ [.space 10, .space 32, .space 32])) {} [spanRule []] [] :=
    body_space <| body_space <| body_space <| body_space <| body_space <|
      body_leaf (x := exHead [true] "span" [] [pText "span"] " ") rfl <| body_space <| body_space <| body_space .nil
  .closed (h := exHead [] "p" [] [pText "par"] "") rfl h ⟨by decide, by decide +kernel⟩

theorem mixed_parsed (rx : RxEngine) (charSigned : Bool) : parseHext rx charSigned mixedHext = .ok (anchorRule []) := by
  rw [show mixedHext = itemsText mixedItems by decide +kernel]
  have h2 : Body rx {} (.space 10 :: .space 32 :: .space 32 :: ([.start (exHead [] "img" [] [pSrc "img"] " ") true] ++
      (.space 10 :: .space 32 :: .space 32 :: (parItems ++ [.space 10])))) {}
      [.mk { tag := tagOf "img", ms := [some (.attribute (lit "src") none)], caps := [some (.attribute (lit "src") (lit "img") none)] } none none [],
       .mk { tag := tagOf "p", caps := [some (.function (some .text) (lit "par") none)] } (some (spanRule [])) none []] [] :=
    body_space <| body_space <| body_space <| body_leaf (x := exHead [] "img" [] [pSrc "img"] " ") rfl <|
      body_space <| body_space <| body_space <| .child (par_elem rx) <| body_space .nil
  have h : Syn.Seq rx {} mixedItems {} [anchorRule []] :=
    .elem (.closed (h := exHead [] "a" [] [pHref "href"] "") rfl h2 ⟨by decide, by decide +kernel⟩) .nil
  exact (parse_items (by unfold mixedItems; example_items) _).2 ⟨_, _, h, rfl⟩

theorem chaining_parsed (rx : RxEngine) (charSigned : Bool) : parseHext rx charSigned chainingHext = .ok listRule := by
  rw [show chainingHext = itemsText chainingItems by decide +kernel]
  have h : ∃ f rs, Syn.Seq rx {} chainingItems f rs ∧ listRule = ruleOf rs := by
    refine ⟨_, _, .elem (js := []) (.closed rfl (.child (.closed rfl (.child (.closed rfl (.child (.selfClosing rfl) .nil) ?_) .nil) ?_) .nil) ?_) .nil, ?_⟩
    · exact ⟨by decide, by decide +kernel⟩
    · exact ⟨by decide, by decide +kernel⟩
    · exact ⟨by decide, by decide +kernel⟩
    · rfl
  exact (parse_items (by unfold chainingItems; example_items) _).2 h

/-- The counter of mixed.cpp. -/
def numberCap : Capture := .function (some (.user Examples.countCaptures)) (lit "number") none

theorem mixed_val (rx : RxEngine) (charSigned : Bool) : ∃ env, Prog.val rx charSigned noEnv mixedStmts = some (none, env) ∧
    env.get ⟨0, []⟩ = some (anchorRule [some numberCap]) := by
  simp only [mixedStmts, Prog.val, Stmt.val, img_parsed, span_parsed]
  exact ⟨_, rfl, rfl⟩

theorem chaining_val (rx : RxEngine) (charSigned : Bool) : ∃ env, Prog.val rx charSigned noEnv chainingStmts = some (none, env) ∧
    env.get ⟨0, []⟩ = some listRule := by
  exact ⟨_, rfl, rfl⟩

/-! ## Numbering -/

def spanCap : Capture := .function (some .text) (lit "span") none

/-- A capture that neither counts nor is counted. -/
def PlainCap (c : Capture) : Prop := userFn c = none ∧ c.resultName ≠ lit "number" ∧ c.resultName ≠ lit "span"

/-- The rules of the program and those of the hext. -/
def Counting (i i' : RuleInfo) : Prop :=
  i = { i' with caps := i.caps } ∧
    ((i.caps = i'.caps ∧ ∀ c, some c ∈ i.caps → PlainCap c) ∨ (i.caps = [some spanCap, some numberCap] ∧ i'.caps = [some spanCap]))

/-- `v` are the pairs `v'` and `c` numbers after `s`. -/
structure Counted (s c : Nat) (v v' : List (Str × Str)) : Prop where
  same : ∀ name, v.filter (·.1 = name) = (v' ++ numbers s c).filter (·.1 = name)
  others : ∀ p ∈ v', p.1 ≠ lit "number"
  count : (v'.filter fun p => p.1 = lit "span").length = c

theorem numbers_append (s c d : Nat) : numbers s (c + d) = numbers s c ++ numbers (s + c) d := by
  unfold numbers
  rw [← List.map_append, show s + c + 1 = s + 1 + c by omega, List.range'_append_1]

theorem numbers_named (s c : Nat) : (∀ p ∈ numbers s c, p.1 = lit "number") := by
  intro p hp
  unfold numbers at hp
  obtain ⟨_, _, rfl⟩ := List.mem_map.1 hp
  rfl

theorem Counted.append {s c d : Nat} {v v' w w' : List (Str × Str)} (h1 : Counted s c v v') (h2 : Counted (s + c) d w w') :
    Counted s (c + d) (v ++ w) (v' ++ w') := by
  refine ⟨fun name => ?_, fun p hp => ?_, ?_⟩
  · rw [List.filter_append, h1.same, h2.same, numbers_append]
    simp only [List.filter_append, List.append_assoc]
    by_cases hn : name = lit "number"
    · have : w'.filter (·.1 = name) = [] := List.filter_eq_nil_iff.2 fun p hp => by simpa [hn] using h2.others p hp
      rw [this]
      rfl
    · have : ∀ s c, (numbers s c).filter (·.1 = name) = [] := fun s c => List.filter_eq_nil_iff.2 fun p hp => by
        simpa [numbers_named s c p hp] using fun h => hn h.symm
      rw [this, this]
      simp
  · rcases List.mem_append.1 hp with hp | hp
    · exact h1.others p hp
    · exact h2.others p hp
  · rw [List.filter_append, List.length_append, h1.count, h2.count]

variable {rx : RxEngine} {h : Heap}

theorem makes_plain (p : Ptr) {cs : List (Option Capture)} (hc : ∀ c, some c ∈ cs → PlainCap c) {s s' : Nat} {v v' : List (Str × Str)}
    (hm : Makes counting rx h s (cs.filterMap fun c => c.map fun c => (c, p)) v s') (hv : Hext.ruleCapture rx h p cs = pure v') :
    s' = s ∧ v = v' ∧ ∀ q ∈ v', q.1 ≠ lit "number" ∧ q.1 ≠ lit "span" := by
  induction cs generalizing v v' s with
  | nil =>
    cases hm
    cases E.pure_inj hv
    simp
  | cons c cs ih =>
    cases c with
    | none => exact ih (fun c hm => hc c (by simp [hm])) hm hv
    | some c =>
      have hp := hc c (by simp)
      simp only [List.filterMap_cons, Option.map_some] at hm
      cases hm with
      | user => exact absurd hp.1 (by simp [userFn])
      | @other _ _ _ o _ vs _ _ ho hm =>
        simp only [Hext.ruleCapture, ho, pure_bind] at hv
        obtain ⟨ws, hw, hv⟩ := bind_eq_pure hv
        obtain ⟨rfl, rfl, h3⟩ := ih (fun c hm => hc c (by simp [hm])) hm hw
        cases o with
        | none => cases E.pure_inj hv; exact ⟨rfl, rfl, h3⟩
        | some q =>
          cases E.pure_inj hv
          refine ⟨rfl, rfl, fun q' hq => ?_⟩
          rcases List.mem_cons.1 hq with rfl | hq
          · rw [capture_name ho]; exact hp.2
          · exact h3 q' hq

theorem counted_match (p : Ptr) {i i' : RuleInfo} (hi : Counting i i') {s s' : Nat} {v v' : List (Str × Str)}
    (hm : Makes counting rx h s (i.caps.filterMap fun c => c.map fun c => (c, p)) v s') (hv : Hext.ruleCapture rx h p i'.caps = pure v') :
    ∃ c, s' = s + c ∧ Counted s c v v' := by
  rcases hi.2 with ⟨h1, h2⟩ | ⟨h1, h2⟩
  · rw [← h1] at hv
    obtain ⟨rfl, rfl, h3⟩ := makes_plain p h2 hm hv
    refine ⟨0, rfl, fun name => by simp [numbers], fun q hq => (h3 q hq).1, ?_⟩
    rw [List.filter_eq_nil_iff.2 fun q hq => by simpa using (h3 q hq).2]
    rfl
  · rw [h1] at hm
    rw [h2] at hv
    simp only [List.filterMap_cons, Option.map_some, List.filterMap_nil] at hm
    cases hm with
    | @other _ _ _ o _ vs _ _ ho hm =>
      obtain ⟨t, ht⟩ : ∃ t, o = some (lit "span", t) := by
        simp only [spanCap, Capture.capture] at ho
        obtain ⟨t, _, ho⟩ := bind_eq_pure ho
        obtain ⟨t', _, ho⟩ := bind_eq_pure ho
        exact ⟨t', (E.pure_inj ho).symm⟩
      subst ht
      simp only [Hext.ruleCapture, ho, pure_bind] at hv
      cases E.pure_inj hv
      cases hm with
      | user ha hp hm =>
        cases hm
        cases ha
        cases E.pure_inj hp
        refine ⟨1, rfl, fun name => rfl, ?_, ?_⟩
        · intro q hq
          rw [List.mem_singleton.1 hq]
          exact show lit "span" ≠ lit "number" by decide +kernel
        · simp
      | other hu => exact absurd hu (by simp [userFn, numberCap])

theorem counted_group {Ok : Loc → Prop} {g g' : Pairs RulePtr Loc} (hg : All2 (Pair2 (PRel Counting) (Same Ok)) g g') {s s' : Nat}
    {v v' : List (Str × Str)} (hm : Makes counting rx h s (jobs (found g)) v s') (hv : Captured rx h (found g') v') :
    ∃ c, s' = s + c ∧ Counted s c v v' := by
  induction hg generalizing v v' s with
  | nil =>
    cases hm
    cases hv
    exact ⟨0, rfl, fun _ => rfl, by simp, rfl⟩
  | @cons p q g g' hpq _ ih =>
    obtain ⟨v1, v2, s1, h1, h2, rfl⟩ := makes_append (cs := p.1.val.info.caps.filterMap fun c => c.map fun c => (c, p.2.ptr)) hm
    cases hv with
    | cons k hv =>
      have hx : p.2 = q.2 := lrel_eq hpq.2.1
      rw [← hx] at k
      obtain ⟨c, rfl, e1⟩ := counted_match p.2.ptr hpq.1 h1 k
      obtain ⟨d, rfl, e2⟩ := ih h2 hv
      exact ⟨c + d, by omega, e1.append e2⟩

theorem counted_map {s c : Nat} {v v' m m' : List (Str × Str)} (hc : Counted s c v v') (hm : IsMap v m) (hm' : IsMap v' m') :
    (m'.filter fun p => p.1 = lit "span").length = c ∧ IsMap (m' ++ numbers s c) m ∧ (m = [] ↔ m' = []) := by
  refine ⟨?_, ⟨hm.1, fun name => ?_⟩, ?_⟩
  · rw [hm'.2, hc.count]
  · rw [hm.2, hc.same, List.filter_append, List.filter_append, hm'.2]
  · rw [isMap_nil hm, isMap_nil hm']
    constructor
    · rintro rfl
      cases v' with
      | nil => rfl
      | cons q v' => exact absurd (hc.same q.1) (by simp)
    · rintro rfl
      have : c = 0 := hc.count.symm
      subst this
      cases v with
      | nil => rfl
      | cons q v => exact absurd (hc.same q.1) (by simp [numbers])

theorem counted_maps {Ok : Loc → Prop} {gs gs' : List (Pairs RulePtr Loc)}
    (hg : All2 (All2 (Pair2 (PRel Counting) (Same Ok))) gs gs') {s s' : Nat} {ms ms' : List (List (Str × Str))}
    (hm : MakesMaps counting rx h s (gs.map found) ms s') (hm' : Maps rx h (gs'.map found) ms') :
    Numbered s (ms'.filter (· ≠ [])) (ms.filter (· ≠ [])) := by
  induction hg generalizing ms ms' s with
  | nil => cases hm; cases hm'; exact .nil
  | cons hp _ ih =>
    cases hm with
    | cons c i hm =>
      cases hm' with
      | cons c' i' hm' =>
        obtain ⟨k, rfl, hk⟩ := counted_group hp c c'
        obtain ⟨h1, h2, h3⟩ := counted_map hk i i'
        have := ih hm hm'
        rw [List.filter_cons, List.filter_cons]
        split
        · next hne =>
          rw [if_pos (by simp only [ne_eq, decide_eq_true_eq, h3] at hne ⊢; exact hne)]
          exact .cons h1 h2 this
        · next hne =>
          rw [if_neg (by simp only [ne_eq, decide_eq_true_eq, h3] at hne ⊢; exact hne)]
          simp only [ne_eq, decide_eq_true_eq, Classical.not_not] at hne
          subst hne
          cases h1
          exact this

/-! ## The programs -/

theorem anchorRule_counting : (anchorRule [some numberCap]).Alike Counting (anchorRule []) := by
  simp only [anchorRule, imgRule, spanRule, Rule.Alike, Rule.AlikeO, Rule.AlikeL, Rule.info, Rule.child, Rule.next, Rule.nested, Option.some.injEq,
    exists_eq_left', Counting, List.mem_singleton, forall_eq, PlainCap, Capture.resultName, userFn, and_true, true_and, spanCap]
  refine ⟨.inl (by decide +kernel), .inl (by decide +kernel), .inl (by decide +kernel), .inr trivial⟩

theorem anchorRule_safe (n : Nat) (extra : List (Option Capture)) (he : ∀ c, some c ∈ extra → c.Safe) : (anchorRule extra).Safe n := by
  simp [Rule.Safe, Rule.All, Rule.AllO, Rule.AllL, anchorRule, imgRule, spanRule, RuleInfo.Safe, Match.SafeL, Capture.Safe, Match.SafeO, Match.Safe, tagOf]
  exact he

theorem listRule_safe (n : Nat) : listRule.Safe n := by
  simp [Rule.Safe, Rule.All, Rule.AllO, Rule.AllL, listRule, RuleInfo.Safe, Match.SafeL, Capture.Safe, Match.SafeO, Match.Safe, tagOf]

variable {n : Nat} {t : Tree}

theorem line_shown : Examples.line = shown := by
  funext p
  show p.1 ++ lit ": " ++ p.2 ++ [10] = p.1 ++ [58, 32] ++ p.2 ++ [10]
  rw [show lit ": " = [58, 32] by decide +kernel]

/-- C95. chaining.cpp prints, for every document, what the hext `chainingHext` captures: a line for each pair of each map. -/
theorem C95_chaining (rx : RxEngine) (charSigned : Bool) (g : Nat → Nat → Growth) (hn : n ≤ 2147483647) (hd : IsDocument h n t) :
    ∃ r res, parseHext rx charSigned chainingHext = .ok r ∧ Hext.extract rx h r t.ptr 0 = pure res ∧
      ∃ N, ∀ k, N ≤ k → chaining rx charSigned g k h t.ptr = pure (.exit 0 (res.flatMap fun m => m.flatMap shown)) := by
  obtain ⟨res, _, _, h3⟩ := extract_result (rx := rx) hn (listRule_safe n) hd
  have h3 : Hext.extract rx h listRule t.ptr 0 = pure res := h3 0
  refine ⟨listRule, res, chaining_parsed rx charSigned, h3, ?_⟩
  obtain ⟨env, hv, hq⟩ := chaining_val rx charSigned
  obtain ⟨N, m, vars, hrun, hp, _⟩ := C95_programs rx charSigned g chainingStmts hv (fun e he => nomatch he)
  refine ⟨N, fun k hk => ?_⟩
  rw [chaining, hrun k hk]
  simp only [pure_bind, Option.map_none, (hp _ _ hq).2, h3, line_shown]

theorem mixed_run (rx : RxEngine) (charSigned : Bool) (g : Nat → Nat → Growth) (h : Heap) (root : Ptr) {res : List (List (Str × Str))} {s' : Nat}
    (hr : Stateful.extract counting rx h (anchorRule [some numberCap]) root 0 0 = some (.ok res, s')) :
    ∃ N, ∀ k, N ≤ k → mixed rx charSigned g k h root = pure (.exit 0 (res.flatMap fun m => m.flatMap shown ++ [10])) := by
  obtain ⟨env, hv, hq⟩ := mixed_val rx charSigned
  obtain ⟨N, m, vars, hrun, hp, _⟩ := C95_programs rx charSigned g mixedStmts hv (fun e he => nomatch he)
  refine ⟨N, fun k hk => ?_⟩
  rw [mixed, hrun k hk]
  simp only [pure_bind, Option.map_none, (hp _ _ hq).1, hr, line_shown]

/-- C95. mixed.cpp prints, for every document, what the hext in its comment captures, with a running number for each `span`. -/
theorem C95_mixed (rx : RxEngine) (charSigned : Bool) (g : Nat → Nat → Growth) (hn : n ≤ 2147483647) (hd : IsDocument h n t) :
    ∃ r res res', parseHext rx charSigned mixedHext = .ok r ∧ Hext.extract rx h r t.ptr 0 = pure res ∧ Numbered 0 res res' ∧
      ∃ N, ∀ k, N ≤ k → mixed rx charSigned g k h t.ptr = pure (.exit 0 (res'.flatMap fun m => m.flatMap shown ++ [10])) := by
  have hs : (anchorRule []).Safe n := anchorRule_safe n [] (by simp)
  have hs' : (anchorRule [some numberCap]).Safe n := anchorRule_safe n _ (by simp [numberCap, Capture.Safe])
  obtain ⟨res, _, ⟨ms, h1, h2⟩, h3⟩ := extract_result (rx := rx) hn hs hd
  have h3 : Hext.extract rx h (anchorRule []) t.ptr 0 = pure res := h3 0
  have hsame := (search_same (rx := rx) (fun i i' hi => hi.1) anchorRule_counting hd).1
  rcases groupsToResult_run (acts := counting) (rx := rx) (searchAt rx h (anchorRule [some numberCap]) (Loc.root t)).val (searchAt_safe hs' hd) 0 with
    ⟨maps, s', h4, h5⟩ | ⟨s', ⟨ds, _, h4⟩, _⟩
  · refine ⟨_, res, maps.filter (· ≠ []), mixed_parsed rx charSigned, h3, ?_, mixed_run rx charSigned g h t.ptr (s' := s') ?_⟩
    · rw [h2]
      exact counted_maps hsame h4 h1
    · rw [show t.ptr = (Loc.root t).ptr from rfl, extract_search hn hs' hd, h5]
  · exact absurd h4 (Fails.absurd (by simp [counting]))

/-! ## Examples -/

/-- The hypotheses of `C95_chaining` and `C95_mixed` are met by the document of `Props/Stateful.lean`. -/
example (charSigned : Bool) (g : Nat → Nat → Growth) := C95_mixed Ex.rx charSigned g (by decide) mixedDoc_ok
example (charSigned : Bool) (g : Nat → Nat → Growth) := C95_chaining Ex.rx charSigned g (by decide) mixedDoc_ok

/-- Numbers go on from map to map and stand where their name belongs. -/
example : Numbered 0
    [[(lit "href", lit "1"), (lit "span", lit "a"), (lit "span", lit "b")], [(lit "href", lit "2")], [(lit "span", lit "c"), (lit "x", [])]]
    [[(lit "href", lit "1"), (lit "number", lit "1"), (lit "number", lit "2"), (lit "span", lit "a"), (lit "span", lit "b")], [(lit "href", lit "2")],
     [(lit "number", lit "3"), (lit "span", lit "c"), (lit "x", [])]] := by
  refine .cons (c := 2) (by decide +kernel) ?_ (.cons (c := 0) (by decide +kernel) ?_ (.cons (c := 1) (by decide +kernel) ?_ .nil))
  · have := foldl_isMap ([(lit "href", lit "1"), (lit "span", lit "a"), (lit "span", lit "b")] ++ numbers 0 2) [] [] ⟨by simp, by simp⟩
    rw [show List.foldl _ _ _ = [(lit "href", lit "1"), (lit "number", lit "1"), (lit "number", lit "2"), (lit "span", lit "a"), (lit "span", lit "b")]
      by decide +kernel] at this
    exact this
  · have := foldl_isMap ([(lit "href", lit "2")] ++ numbers 2 0) [] [] ⟨by simp, by simp⟩
    exact this
  · have := foldl_isMap ([(lit "span", lit "c"), (lit "x", [])] ++ numbers 2 1) [] [] ⟨by simp, by simp⟩
    rw [show List.foldl _ _ _ = [(lit "number", lit "3"), (lit "span", lit "c"), (lit "x", [])] by decide +kernel] at this
    exact this

end Hext.Props
