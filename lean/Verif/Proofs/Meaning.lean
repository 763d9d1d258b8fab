import Verif.Spec.Meaning
import Verif.Props.Captures
import Verif.Proofs.Unique
/-!
# The meaning of a rule and its evaluation agree
-/

namespace Hext

section
variable {ι α β : Type} {optional greedy : ι → Bool} {sat sat' : ι → α → Prop} {rule : β → ι} {node : β → α}

theorem Leftmost.congr {p p' : α → Prop} {ns b r : List α} {x : α} (h : Leftmost p ns b x r) (hp : ∀ y ∈ ns, (p y ↔ p' y)) :
    Leftmost p' ns b x r := by
  obtain ⟨rfl, h1, h2⟩ := h
  exact ⟨rfl, fun y hy hy' => h1 y hy ((hp y (by simp [hy])).2 hy'), (hp x (by simp)).1 h2⟩

theorem Fill.congr {F : List ι} {ns : List α} {us : List β} {o : Option (List α)} (h : Fill greedy sat rule node F ns us o) :
    (∀ c ∈ F, ∀ y ∈ ns, (sat c y ↔ sat' c y)) → Fill greedy sat' rule node F ns us o := by
  induction h with
  | nil => intro _; exact .nil
  | miss h1 _ ih =>
    intro hc
    exact .miss (fun y hy hy' => h1 y hy ((hc _ (by simp) y hy).2 hy')) (ih fun c hc' => hc c (by simp [hc']))
  | hit h1 h2 h3 _ ih =>
    intro hc
    refine .hit h1 h2 (h3.congr (hc _ (by simp))) (ih fun c hc' y hy => hc c (by simp [hc']) y ?_)
    rw [h3.1]; simp [hy]
  | more h1 h2 h3 _ ih =>
    intro hc
    refine .more h1 h2 (h3.congr (hc _ (by simp))) (ih fun c hc' y hy => hc c hc' y ?_)
    rw [h3.1]; simp [hy]

theorem Run.congr {first : Option ι} {F cs : List ι} {ns rest : List α} {steps : List (Anchored β)} {final : List β}
    (h : Run optional greedy sat rule node first F cs ns steps final rest) :
    (∀ c, (c ∈ F ∨ c ∈ cs ∨ first = some c) → ∀ y ∈ ns, (sat c y ↔ sat' c y)) →
      Run optional greedy sat' rule node first F cs ns steps final rest := by
  induction h with
  | @optional first F c cs ns steps final rest h1 _ ih =>
    intro hc
    refine .optional h1 (ih fun d hd => hc d ?_)
    simp only [List.mem_append, List.mem_cons, List.not_mem_nil, or_false] at hd ⊢
    grind
  | @anchor first F m cs ns b r a us o steps final rest h1 h2 h3 h4 h5 _ ih =>
    intro hc
    refine .anchor h1 h2 (h3.congr (hc m (by simp))) (h4.congr fun c hc' y hy => hc c (.inl hc') y ?_) h5
      (ih fun d hd y hy => hc d ?_ y ?_)
    · rw [h3.1]; simp [hy]
    · rcases hd with hd | hd | hd
      · simp at hd
      · simp [hd]
      · cases first with
        | some f => exact .inr (.inr (by simpa using hd))
        | none =>
          have hd' : (F ++ [m]).find? (! optional ·) = some d := hd
          have := List.mem_of_find?_eq_some hd'
          simp only [List.mem_append, List.mem_cons, List.not_mem_nil, or_false] at this
          rcases this with h | rfl
          · exact .inl h
          · simp
    · rw [h3.1]; simp [hy]
  | @anchorGreedy first m cs ns b r a steps final rest h1 h2 h3 h4 _ ih =>
    intro hc
    refine .anchorGreedy h1 h2 (h3.congr (hc m (by simp))) h4 (ih fun d hd y hy => hc d ?_ y ?_)
    · simp only [List.mem_cons, List.not_mem_nil, or_false, false_or] at hd ⊢
      grind
    · rw [h3.1]; simp [hy]
  | done => intro _; exact .done
  | fillEnd h1 h2 => intro hc; exact .fillEnd h1 (h2.congr fun c hc' => hc c (.inl hc'))
  | fillNext h1 h2 h3 =>
    intro hc
    refine .fillNext h1 (h2.congr (hc _ (by simp))) (h3.congr fun c hc' y hy => hc c (.inl hc') y ?_)
    rw [h2.1]; simp [hy]
  | fillAll h1 h2 h3 =>
    intro hc
    exact .fillAll h1 (fun y hy hy' => h2 y hy ((hc _ (by simp) y hy).2 hy')) (h3.congr fun c hc' => hc c (.inl hc'))

end

section
variable {own own' : RuleInfo → Loc → Prop} {G : Rule → Loc → Prop}

/-- `own` and `own'` agree on a set of pairs that is closed under going down. -/
structure SameOn (own own' : RuleInfo → Loc → Prop) (G : Rule → Loc → Prop) : Prop where
  below : ∀ p y q x, G p y → Below p y q x → G q x
  same : ∀ q x, G q x → (own q.info x ↔ own' q.info x)

theorem SameOn.symm (h : SameOn own own' G) : SameOn own' own G := ⟨h.below, fun q x hg => (h.same q x hg).symm⟩

theorem sat_congr_aux (ha : SameOn own own' G) {r : Rule} {l : Loc} (h : Sat own r l) : G r l → Sat own' r l := by
  refine Sat.rec (motive_1 := fun r l _ => G r l → Sat own' r l)
    (motive_2 := fun cs ls _ => (∀ c ∈ cs, ∀ x ∈ ls, G c x) → Embeds own' cs ls)
    (motive_3 := fun qs t _ => (∀ q ∈ qs, ∀ c ∈ q.siblings, ∀ ks ∈ t.under, ∀ x ∈ ks, G c x) → NestedSat own' qs t)
    ?_ ?_ ?_ ?_ ?_ ?_ ?_ ?_ h
  · intro r l h1 h2 h3 hg; exact .leaf ((ha.same _ _ hg).1 h1) h2 h3
  · intro r l h1 h2 h3 _ _ ih1 ih2 hg
    exact .inner ((ha.same _ _ hg).1 h1) h2 h3 (ih1 fun c hc x hx => ha.below _ _ _ _ hg (.inl ⟨hc, h2, hx⟩))
      (ih2 fun q hq c hc ks hks x hx => ha.below _ _ _ _ hg (.inr ⟨q, hq, hc, ks, hks, hx⟩))
  · intro _ _; exact .nil
  · intro c cs ls h1 _ ih hg; exact .optional h1 (ih fun c hc => hg c (by simp [hc]))
  · intro c cs x ls h1 _ _ ih1 ih2 hg
    exact .here h1 (ih1 (hg c (by simp) x (by simp))) (ih2 fun c hc y hy => hg c (by simp [hc]) y (by simp [hy]))
  · intro c cs x ls _ ih hg; exact .later (ih fun c hc y hy => hg c hc y (by simp [hy]))
  · intro _ _; exact .nil
  · intro q qs t ks h1 _ _ ih1 ih2 hg
    exact .cons h1 (ih1 fun c hc x hx => hg q (by simp) c hc ks h1 x hx) (ih2 fun q hq => hg q (by simp [hq]))

theorem sat_congr (ha : SameOn own own' G) {r : Rule} {l : Loc} (hg : G r l) : Sat own r l ↔ Sat own' r l :=
  ⟨fun h => sat_congr_aux ha h hg, fun h => sat_congr_aux ha.symm h hg⟩

theorem embeds_congr (ha : SameOn own own' G) {cs : List Rule} {ls : List Loc} (h : Embeds own cs ls) :
    (∀ c ∈ cs, ∀ x ∈ ls, G c x) → Embeds own' cs ls := by
  refine Embeds.rec (motive_1 := fun _ _ _ => True)
    (motive_2 := fun cs ls _ => (∀ c ∈ cs, ∀ x ∈ ls, G c x) → Embeds own' cs ls)
    (motive_3 := fun _ _ _ => True) ?_ ?_ ?_ ?_ ?_ ?_ ?_ ?_ h
  · intros; trivial
  · intros; trivial
  · intro _ _; exact .nil
  · intro c cs ls h1 _ ih hg; exact .optional h1 (ih fun c hc => hg c (by simp [hc]))
  · intro c cs x ls h1 h2 _ _ ih2 hg
    exact .here h1 (sat_congr_aux ha h2 (hg c (by simp) x (by simp))) (ih2 fun c hc y hy => hg c (by simp [hc]) y (by simp [hy]))
  · intro c cs x ls _ ih hg; exact .later (ih fun c hc y hy => hg c hc y (by simp [hy]))
  · intros; trivial
  · intros; trivial

theorem search_congr (ha : SameOn own own' G) {chain : List Rule} {kss : List (List Loc)} {gs : List Found} (h : Search own chain kss gs) :
    (∀ q ∈ chain, ∀ ks ∈ kss, ∀ x ∈ ks, G q x) → Search own' chain kss gs := by
  refine Search.rec
    (motive_1 := fun r l ps _ => G r l → Matched own' r l ps)
    (motive_2 := fun ns t ps _ => (∀ n ∈ ns, ∀ q ∈ n.siblings, ∀ ks ∈ t.under, ∀ x ∈ ks, G q x) → Nested own' ns t ps)
    (motive_3 := fun chain kss gs _ => (∀ q ∈ chain, ∀ ks ∈ kss, ∀ x ∈ ks, G q x) → Search own' chain kss gs)
    (motive_4 := fun chain ks gs _ => (∀ q ∈ chain, ∀ x ∈ ks, G q x) → Groups own' chain ks gs)
    (motive_5 := fun chain ks g rest _ => rest.Sublist ks ∧ ((∀ q ∈ chain, ∀ x ∈ ks, G q x) → Group own' chain ks g rest))
    (motive_6 := fun asg _ => (∀ a ∈ asg, G a.rule a.loc) → AllMatched own' asg)
    ?_ ?_ ?_ ?_ ?_ ?_ ?_ ?_ ?_ ?_ ?_ ?_ h
  · intro r l h1 h2 h3 hg; exact .leaf ((sat_congr ha hg).1 h1) h2 h3
  · intro r l gs ps hsat hnl _ _ ihg ihn hg
    have he := hsat.element hnl
    exact .inner ((sat_congr ha hg).1 hsat) hnl (ihg fun q hq x hx => ha.below _ _ _ _ hg (.inl ⟨hq, he, hx⟩))
      (ihn fun n hn q hq ks hks x hx => ha.below _ _ _ _ hg (.inr ⟨n, hn, hq, ks, hks, hx⟩))
  · intro _ _; exact .nil
  · intro q qs t gs ps _ _ ih1 ih2 hg
    exact .cons (ih1 (hg q (by simp))) (ih2 fun n hn => hg n (by simp [hn]))
  · intro _ _; exact .nil
  · intro chain ks kss gs hs _ _ ih1 ih2 hg
    exact .cons (ih1 fun q hq => hg q hq ks (by simp)) (ih2 fun q hq ks hks => hg q hq ks (by simp [hks]))
  · intro chain rest h1 hg; exact .stop fun h2 => h1 (embeds_congr ha.symm h2 hg)
  · intro chain rest h1 h2 hg
    exact .stopOptional h1 fun c hc x hx hs => h2 c hc x hx ((sat_congr ha (hg c hc x hx)).2 hs)
  · intro chain ns rest g gs _ _ ih1 ih2 hg
    exact .cons (ih1.2 hg) (ih2 fun q hq x hx => hg q hq x (ih1.1.subset hx))
  · intro chain ns rest steps final hr _ hne ih
    obtain ⟨seg, e, hsub⟩ := hr.sublist
    refine ⟨by rw [e]; exact List.sublist_append_right _ _, fun hg => .mk steps final ?_ ?_ hne⟩
    · exact hr.congr fun c hc y hy => sat_congr ha (hg c (by simpa using hc) y hy)
    · refine ih fun a ha' => hg _ ?_ _ ?_
      · simpa using (hr.ok a ha').2
      · rw [e]; exact List.mem_append_left _ (hsub.subset (List.mem_map_of_mem ha'))
  · intro _; exact .nil
  · intro a asg _ _ ih1 ih2 hg; exact .cons (ih1 (hg a (by simp))) (ih2 fun b hb => hg b (by simp [hb]))

end

/-! ## Captures -/

variable {rx : RxEngine} {h : Heap} {n : Nat} {l : Loc}

theorem transform_gives (t : Transform) (s u : Str) : t.transform rx s = pure u ↔ t.Gives rx s u := by
  have key : ∀ {a : Str}, (pure a : E Str) = pure u ↔ u = a := fun {a} => ⟨fun h => (E.pure_inj h).symm, fun h => by rw [h]⟩
  cases t with
  | append x => exact key
  | prepend x => exact key
  | toLower =>
    simp only [Transform.transform, Transform.Gives, key,
      show toLowerB = lowerCase from funext fun c => by simp [toLowerB, lowerCase]]
  | toUpper =>
    simp only [Transform.transform, Transform.Gives, key,
      show toUpperB = upperCase from funext fun c => by simp [toUpperB, upperCase]]
  | collapseWs => simp only [Transform.transform, Transform.Gives, Props.collapseWs_correct, key]
  | regex r =>
    simp only [Transform.transform, Transform.Gives]
    cases hs : rx.search r (cstr s) with
    | none => simp [key]
    | some m =>
      match m with
      | [] => simp [key, firstGroup]
      | [m] => simp [key, firstGroup]
      | m :: g :: gs => simp [key, firstGroup]
  | regexReplace r x => exact key
  | trim cs =>
    constructor
    · intro hu
      obtain ⟨pre, v, post, h1, h2, h3, h4, h5, h6⟩ := Props.trim_correct rx cs s
      rw [h1] at hu
      obtain rfl := E.pure_inj hu
      exact ⟨pre, post, h2, h3, h4, h5, h6⟩
    · rintro ⟨pre, post, h2, h3, h4, h5, h6⟩
      exact Props.trim_unique rx cs s pre u post h2 h3 h4 h5 h6

theorem pipe_gives (p : Pipe) (s u : Str) : p.pipe rx s = pure u ↔ p.Gives rx s u := by
  induction p generalizing s with
  | last t => exact transform_gives t s u
  | cons t p ih =>
    simp only [Pipe.pipe, Pipe.Gives]
    obtain ⟨v, hv⟩ := Props.pipe_total rx (.last t) s
    simp only [Pipe.pipe] at hv
    simp only [hv, pure_bind, ih]
    constructor
    · intro h; exact ⟨v, (transform_gives t s v).1 hv, h⟩
    · rintro ⟨w, h1, h2⟩
      have := (transform_gives t s w).2 h1
      rw [hv] at this
      obtain rfl := E.pure_inj this
      exact h2

theorem applyPipe_gives (p : Option Pipe) (s u : Str) : applyPipe rx p s = pure u ↔ PipeGives rx p s u := by
  cases p with
  | none => exact ⟨fun h => (E.pure_inj h).symm, fun h => by rw [show u = s from h]; rfl⟩
  | some p => exact pipe_gives p s u

theorem capture_gives (hl : l.Stored h n) {c : Capture} (hc : c.Safe) (x : Option (Str × Str)) :
    c.capture rx h l.ptr = pure x ↔ c.Gives rx h l x := by
  cases c with
  | «attribute» a name p =>
    rw [Props.attribute_capture_iff hl]
    simp only [applyPipe_gives]
    cases x with
    | none => simp [Capture.Gives]
    | some x =>
      obtain ⟨k, u⟩ := x
      simp only [Capture.Gives]
      constructor
      · rintro (⟨e, b, v, w, h1, h2, h3, h4, h5⟩ | ⟨_, h⟩)
        · cases h5; exact ⟨rfl, e, b, v, h1, h2, h3, h4⟩
        · cases h
      · rintro ⟨rfl, e, b, v, h1, h2, h3, h4⟩
        exact .inl ⟨e, b, v, u, h1, h2, h3, h4, rfl⟩
  | function f name p =>
    obtain ⟨g, rfl⟩ := Option.isSome_iff_exists.1 (show f.isSome = true from hc)
    rw [Props.function_capture_iff hl]
    simp only [applyPipe_gives]
    cases x with
    | none => simp [Capture.Gives]
    | some x =>
      obtain ⟨k, u⟩ := x
      simp only [Capture.Gives]
      constructor
      · rintro ⟨w, h1, h2⟩; cases h2; exact ⟨rfl, g, rfl, h1⟩
      · rintro ⟨rfl, g', e, h1⟩; cases e; exact ⟨u, h1, rfl⟩

theorem ruleCapture_gives (hl : l.Stored h n) {cs : List (Option Capture)} (hc : ∀ c, some c ∈ cs → c.Safe) (vs : List (Str × Str)) :
    ruleCapture rx h l.ptr cs = pure vs ↔ GivesAll rx h l cs vs := by
  induction cs generalizing vs with
  | nil =>
    constructor
    · intro h; rw [← E.pure_inj h]; exact .nil
    · intro h; cases h; rfl
  | cons c cs ih =>
    have ih := fun vs => ih (fun c h => hc c (by simp [h])) vs
    cases c with
    | none =>
      simp only [ruleCapture, ih]
      constructor
      · exact .null
      · intro h; cases h with | null h => exact h
    | some c =>
      have hs := hc c (by simp)
      obtain ⟨b, hb⟩ := c.capture_total rx hl hs
      obtain ⟨ws, hws⟩ := ruleCapture_total rx hl cs fun c h => hc c (by simp [h])
      have hb' := (capture_gives hl hs b).1 hb
      have hws' := (ih ws).1 hws
      have huniq : ∀ x, c.Gives rx h l x → x = b := fun x hx => by
        have := (capture_gives hl hs x).2 hx
        rw [hb] at this
        exact (E.pure_inj this).symm
      have huniq2 : ∀ x, GivesAll rx h l cs x → x = ws := fun x hx => by
        have := (ih x).2 hx
        rw [hws] at this
        exact (E.pure_inj this).symm
      simp only [ruleCapture, hb, pure_bind, hws]
      cases b with
      | none =>
        constructor
        · intro h; rw [← E.pure_inj h]; exact .miss hb' hws'
        · intro h
          cases h with
          | hit h1 _ => cases huniq _ h1
          | miss _ h2 => rw [huniq2 _ h2]
      | some b =>
        constructor
        · intro h; rw [← E.pure_inj h]; exact .hit hb' hws'
        · intro h
          cases h with
          | hit h1 h2 => cases huniq _ h1; rw [huniq2 _ h2]
          | miss h1 _ => cases huniq _ h1

theorem captured_gives {g : Found} (hg : ∀ p ∈ g, p.2.Stored h n ∧ ∀ c, some c ∈ p.1.info.caps → c.Safe) {vs : List (Str × Str)} :
    Captured rx h g vs ↔ GroupGives rx h g vs := by
  induction g generalizing vs with
  | nil => constructor <;> (intro h; cases h; constructor)
  | cons p g ih =>
    obtain ⟨r, x⟩ := p
    have h0 := hg (r, x) (by simp)
    have ih := fun vs => ih (fun p hp => hg p (by simp [hp])) (vs := vs)
    constructor
    · intro h; cases h with | cons h1 h2 => exact .cons ((ruleCapture_gives h0.1 h0.2 _).1 h1) ((ih _).1 h2)
    · intro h; cases h with | cons h1 h2 => exact .cons ((ruleCapture_gives h0.1 h0.2 _).2 h1) ((ih _).2 h2)

theorem maps_gives {gs : List Found} (hg : ∀ g ∈ gs, ∀ p ∈ g, p.2.Stored h n ∧ ∀ c, some c ∈ p.1.info.caps → c.Safe)
    {ms : List (List (Str × Str))} : Maps rx h gs ms ↔ GroupMaps rx h gs ms := by
  induction gs generalizing ms with
  | nil => constructor <;> (intro h; cases h; constructor)
  | cons g gs ih =>
    have ih := fun ms => ih (fun g h => hg g (by simp [h])) (ms := ms)
    constructor
    · intro h; cases h with | cons h1 h2 h3 => exact .cons ((captured_gives (hg g (by simp))).1 h1) h2 ((ih _).1 h3)
    · intro h; cases h with | cons h1 h2 h3 => exact .cons ((captured_gives (hg g (by simp))).2 h1) h2 ((ih _).2 h3)

end Hext
