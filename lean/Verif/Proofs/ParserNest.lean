import Verif.Proofs.ParserHead
/-!
# The stacks of the parser and the nesting of rules
-/

namespace Hext

open Syn

/-! ## Chains of rules -/

theorem chain_self {r : Rule} (h : r.next = none) : chain r [] = r := by
  cases r with | mk i c n ns => cases h; rfl

theorem chain_snoc {s : Rule} (hs : s.next = none) : ∀ (rs : List Rule) (r : Rule), chain r (rs ++ [s]) = (chain r rs).appendNext s
  | [], .mk i c n ns => by
    simp only [List.nil_append, chain, Rule.appendNext, chain_self hs]
  | q :: rs, .mk i c n ns => by
    simp only [List.cons_append, chain, Rule.appendNext, chain_snoc hs rs q]

theorem mkRule_appendChild {info kids nested} {r : Rule} (h : r.next = none) :
    (mkRule info kids nested).appendChild r = mkRule info (kids ++ [r]) nested := by
  cases kids with
  | nil => simp [mkRule, siblings, Rule.appendChild, chain_self h]
  | cons k kids => simp [mkRule, siblings, Rule.appendChild, chain_snoc h]

theorem mkRule_appendNested {info kids nested} (r : Rule) :
    (mkRule info kids nested).appendNested r = mkRule info kids (nested ++ [r]) := rfl

theorem Syn.Elem.next {rx f is f' r} (h : Syn.Elem rx f is f' r) : r.next = none := by cases h <;> rfl

/-! ## Sequences -/

theorem Syn.Body.append {rx f is f1 kids nested} (h : Syn.Body rx f is f1 kids nested) : ∀ {js f2 kids' nested'},
    Syn.Body rx f1 js f2 kids' nested' → Syn.Body rx f (is ++ js) f2 (kids ++ kids') (nested ++ nested') := by
  refine Syn.Body.rec (motive_1 := fun _ _ _ _ _ => True)
    (motive_2 := fun f is f1 kids nested _ => ∀ {js f2 kids' nested'},
      Syn.Body rx f1 js f2 kids' nested' → Syn.Body rx f (is ++ js) f2 (kids ++ kids') (nested ++ nested'))
    (motive_3 := fun _ _ _ _ _ => True) ?_ ?_ ?_ ?_ ?_ ?_ ?_ ?_ ?_ h
  · intros; trivial
  · intros; trivial
  · intro f js f2 kids' nested' h; exact h
  · intro f i is f' kids nested hi _ ih js f2 kids' nested' h
    exact .filler hi (ih h)
  · intro f is f1 r js f2 kids nested he _ _ ih js' f3 kids' nested' h
    have := Syn.Body.child he (ih h)
    simpa using this
  · intro f is f1 r rs js f2 kids nested hs _ _ ih js' f3 kids' nested' h
    have := Syn.Body.block hs (ih h)
    simpa using this
  · intros; trivial
  · intros; trivial
  · intros; trivial

theorem Syn.Seq.append {rx f is f1 rs} (h : Syn.Seq rx f is f1 rs) : ∀ {js f2 rs'},
    Syn.Seq rx f1 js f2 rs' → Syn.Seq rx f (is ++ js) f2 (rs ++ rs') := by
  refine Syn.Seq.rec (motive_1 := fun _ _ _ _ _ => True) (motive_2 := fun _ _ _ _ _ _ => True)
    (motive_3 := fun f is f1 rs _ => ∀ {js f2 rs'}, Syn.Seq rx f1 js f2 rs' → Syn.Seq rx f (is ++ js) f2 (rs ++ rs'))
    ?_ ?_ ?_ ?_ ?_ ?_ ?_ ?_ ?_ h
  · intros; trivial
  · intros; trivial
  · intros; trivial
  · intros; trivial
  · intros; trivial
  · intros; trivial
  · intro f js f2 rs' h; exact h
  · intro f i is f' rs hi _ ih js f2 rs' h
    exact .filler hi (ih h)
  · intro f is f1 r js f2 rs he _ _ ih js' f3 rs' h
    have := Syn.Seq.elem he (ih h)
    simpa using this

/-! ## Configurations -/

/-- A result stack. -/
def result : List Rule → List Rule
  | [] => []
  | r :: rs => [chain r rs]

/-- The items read so far, the options in force and the stacks belong together. -/
inductive Conf (rx : RxEngine) : List Item → Flags → List (List Rule) → Prop
  | base {is f rs} : Syn.Seq rx {} is f rs → Conf rx is f [[], result rs]
  | opened {is f w st h f1 info js f2 kids nested} : Conf rx is f (w :: st) → h.meaning rx f = some (info, f1) →
      Syn.Body rx f1 js f2 kids nested → Conf rx (is ++ .start h false :: js) f2 ((mkRule info kids nested :: w) :: st)
  | nest {is f r w st js f2 rs} : Conf rx is f ((r :: w) :: st) → Syn.Seq rx f js f2 rs →
      Conf rx (is ++ .lbrace :: js) f2 ([] :: result rs :: (r :: w) :: st)

/-- The effect of a complete rule on the stacks. -/
def addRule (r : Rule) : List (List Rule) → List (List Rule)
  | (p :: w) :: st => (p.appendChild r :: w) :: st
  | [] :: [] :: st => [] :: [r] :: st
  | [] :: (q :: qs) :: st => [] :: (q.appendNext r :: qs) :: st
  | st => st

theorem result_snoc {r : Rule} (h : r.next = none) (rs : List Rule) (st) :
    addRule r ([] :: result rs :: st) = [] :: result (rs ++ [r]) :: st := by
  cases rs with
  | nil => simp [addRule, result, chain_self h]
  | cons q rs => simp [addRule, result, chain_snoc h]

theorem Conf.elem {rx is f st js f' r} (hc : Conf rx is f st) (he : Syn.Elem rx f js f' r) :
    Conf rx (is ++ js) f' (addRule r st) := by
  have hs : Syn.Seq rx f js f' [r] := by
    have := Syn.Seq.elem he .nil
    simpa using this
  cases hc with
  | base h =>
    rw [result_snoc he.next]
    exact .base (h.append hs)
  | opened h1 h2 h3 =>
    have hb : Syn.Body rx f js f' [r] [] := by
      have := Syn.Body.child he .nil
      simpa using this
    simp only [addRule, mkRule_appendChild he.next, List.append_assoc, List.cons_append]
    have := h3.append hb
    rw [List.append_nil] at this
    exact .opened h1 h2 this
  | nest h1 h2 =>
    rw [result_snoc he.next, List.append_assoc, List.cons_append]
    exact .nest h1 (h2.append hs)

theorem Conf.filler {rx is f st i} (hc : Conf rx is f st) (hi : i.IsFiller) : Conf rx (is ++ [i]) f st := by
  cases hc with
  | base h =>
    have := h.append (.filler hi .nil)
    rw [List.append_nil] at this
    exact .base this
  | opened h1 h2 h3 =>
    have := h3.append (.filler hi .nil)
    rw [List.append_nil, List.append_nil] at this
    rw [List.append_assoc]
    exact .opened h1 h2 this
  | nest h1 h2 =>
    have := h2.append (.filler hi .nil)
    rw [List.append_nil] at this
    rw [List.append_assoc]
    exact .nest h1 this

/-! ## The effect of an item -/

instance (info : RuleInfo) (t : Str) : Decidable (Closes info t) := by
  unfold Closes
  split <;> infer_instance

/-- The effect of an item on the stacks and on the options in force; `none` is an error. -/
def step (rx : RxEngine) (f : Flags) (st : List (List Rule)) : Item → Option (List (List Rule) × Flags)
  | .space _ | .comment _ => some (st, f)
  | .lbrace =>
    match st with
    | (r :: w) :: st => some ([] :: [] :: (r :: w) :: st, f)
    | _ => none
  | .rbrace =>
    match st with
    | [] :: [n] :: (r :: w) :: st => some ((r.appendNested n :: w) :: st, f)
    | _ => none
  | .start h true => do
    let x ← h.meaning rx f
    some (addRule (bare x.1) st, x.2)
  | .start h false =>
    match st with
    | w :: st => do
      let x ← h.meaning rx f
      some ((bare x.1 :: w) :: st, x.2)
    | [] => none
  | .stop t =>
    match st with
    | (r :: w) :: st => if Closes r.info t then some (addRule r (w :: st), f) else none
    | _ => none

theorem Conf.step {rx is f st i st' f'} (hc : Conf rx is f st) (h : step rx f st i = some (st', f')) :
    Conf rx (is ++ [i]) f' st' := by
  cases i with
  | space b => cases h; exact hc.filler trivial
  | comment s => cases h; exact hc.filler trivial
  | lbrace =>
    simp only [Hext.step] at h
    split at h
    · cases h; exact .nest (rs := []) hc .nil
    · cases h
  | rbrace =>
    simp only [Hext.step] at h
    split at h
    · cases h
      next n r w st =>
      generalize hst : ([] :: [n] :: (r :: w) :: st) = X at hc
      cases hc with
      | base h => simp at hst
      | opened h1 h2 h3 => simp at hst
      | nest h1 h2 =>
        next js rs =>
        simp only [List.cons.injEq, true_and] at hst
        obtain ⟨hr, ⟨rfl, rfl⟩, rfl⟩ := hst
        cases rs with
        | nil => simp [result] at hr
        | cons q rs =>
          simp only [result, List.cons.injEq, and_true] at hr
          subst hr
          cases h1 with
          | opened g1 g2 g3 =>
            have := g3.append (.block h2 .nil)
            rw [List.append_nil] at this
            simp only [mkRule_appendNested, List.append_assoc, List.cons_append]
            exact .opened g1 g2 (by simpa using this)
    · cases h
  | start hd sc =>
    cases sc with
    | true =>
      simp only [Hext.step, Option.bind_eq_bind, Option.bind_eq_some_iff] at h
      obtain ⟨⟨info, f1⟩, h1, h2⟩ := h
      cases h2
      exact hc.elem (.selfClosing h1)
    | false =>
      simp only [Hext.step] at h
      split at h
      · simp only [Option.bind_eq_bind, Option.bind_eq_some_iff] at h
        obtain ⟨⟨info, f1⟩, h1, h2⟩ := h
        cases h2
        exact .opened hc h1 .nil
      · cases h
  | stop t =>
    simp only [Hext.step] at h
    split at h
    · split at h
      · next r w st hcl =>
        cases h
        generalize hst : ((r :: w) :: st) = X at hc
        cases hc with
        | base h => simp at hst
        | nest h1 h2 => simp at hst
        | opened h1 h2 h3 =>
          simp only [List.cons.injEq] at hst
          obtain ⟨⟨rfl, rfl⟩, rfl⟩ := hst
          have := h1.elem (.closed h2 h3 hcl)
          rw [List.append_assoc]
          exact this
      · cases h
    · cases h

/-- The effect of items. -/
def steps (rx : RxEngine) (f : Flags) (st : List (List Rule)) : List Item → Option (List (List Rule) × Flags)
  | [] => some (st, f)
  | i :: is => do
    let x ← step rx f st i
    steps rx x.2 x.1 is

theorem steps_append (rx : RxEngine) : ∀ (is js : List Item) (f st),
    steps rx f st (is ++ js) = (steps rx f st is).bind fun x => steps rx x.2 x.1 js
  | [], js, f, st => rfl
  | i :: is, js, f, st => by
    simp only [List.cons_append, steps, Option.bind_eq_bind]
    cases step rx f st i with
    | none => rfl
    | some x => exact steps_append rx is js x.2 x.1

theorem Conf.steps {rx} : ∀ {js is : List Item} {f st st' f'}, Conf rx is f st → steps rx f st js = some (st', f') →
    Conf rx (is ++ js) f' st'
  | [], is, f, st, st', f', hc, h => by
    cases h
    rw [List.append_nil]
    exact hc
  | j :: js, is, f, st, st', f', hc, h => by
    simp only [Hext.steps, Option.bind_eq_bind, Option.bind_eq_some_iff] at h
    obtain ⟨⟨st1, f1⟩, h1, h2⟩ := h
    have := (hc.step h1).steps h2
    rw [List.append_assoc] at this
    exact this

/-- The rules of a sequence are added to the stacks one by one. -/
theorem steps_of {rx : RxEngine} :
    (∀ {f is f' rs}, Syn.Seq rx f is f' rs → ∀ rs0 st, steps rx f ([] :: result rs0 :: st) is = some ([] :: result (rs0 ++ rs) :: st, f')) := by
  intro f is f' rs h
  refine Syn.Seq.rec
    (motive_1 := fun f is f' r _ => ∀ w st, steps rx f (w :: st) is = some (addRule r (w :: st), f'))
    (motive_2 := fun f is f' kids nested _ => ∀ info k0 n0 w st, steps rx f ((mkRule info k0 n0 :: w) :: st) is =
      some ((mkRule info (k0 ++ kids) (n0 ++ nested) :: w) :: st, f'))
    (motive_3 := fun f is f' rs _ => ∀ rs0 st, steps rx f ([] :: result rs0 :: st) is = some ([] :: result (rs0 ++ rs) :: st, f'))
    ?_ ?_ ?_ ?_ ?_ ?_ ?_ ?_ ?_ h
  · intro f h f' info hm w st
    simp [steps, step, hm]; rfl
  · intro f h f1 info is f2 kids nested t hm _ hcl ih w st
    have h1 : step rx f (w :: st) (.start h false) = some ((mkRule info [] [] :: w) :: st, f1) := by
      simp [step, hm]; rfl
    have h2 := ih info [] [] w st
    have hcl' : Closes (mkRule info ([] ++ kids) ([] ++ nested)).info t := hcl
    rw [show .start h false :: is ++ [.stop t] = .start h false :: (is ++ [.stop t]) from rfl]
    have h3 : step rx f2 ((mkRule info ([] ++ kids) ([] ++ nested) :: w) :: st) (.stop t) =
        some (addRule (mkRule info ([] ++ kids) ([] ++ nested)) (w :: st), f2) := if_pos hcl'
    simp only [steps, h1, Option.bind_eq_bind, Option.bind_some, steps_append, h2, h3]
    rfl
  · intro f info k0 n0 w st; simp [steps]
  · intro f i is f' kids nested hi _ ih info k0 n0 w st
    have : step rx f ((mkRule info k0 n0 :: w) :: st) i = some ((mkRule info k0 n0 :: w) :: st, f) := by
      cases i <;> first | rfl | exact hi.elim
    simp only [steps, this, Option.bind_eq_bind, Option.bind_some]
    exact ih info k0 n0 w st
  · intro f is f1 r js f2 kids nested he _ ih1 ih2 info k0 n0 w st
    rw [steps_append, ih1]
    simp only [Option.bind_some, addRule, mkRule_appendChild he.next]
    rw [ih2]
    simp
  · intro f is f1 r rs js f2 kids nested hs _ ih1 ih2 info k0 n0 w st
    have h1 : step rx f ((mkRule info k0 n0 :: w) :: st) .lbrace = some ([] :: result [] :: (mkRule info k0 n0 :: w) :: st, f) := rfl
    rw [show .lbrace :: is ++ .rbrace :: js = .lbrace :: (is ++ .rbrace :: js) from rfl]
    have h3 : step rx f1 ([] :: result ([] ++ r :: rs) :: (mkRule info k0 n0 :: w) :: st) .rbrace =
        some ((mkRule info k0 (n0 ++ [chain r rs]) :: w) :: st, f1) := rfl
    simp only [steps, h1, Option.bind_eq_bind, Option.bind_some, steps_append, ih1, h3]
    rw [ih2]
    simp
  · intro f rs0 st; simp [steps]
  · intro f i is f' rs hi _ ih rs0 st
    have : step rx f ([] :: result rs0 :: st) i = some ([] :: result rs0 :: st, f) := by
      cases i <;> first | rfl | exact hi.elim
    simp only [steps, this, Option.bind_eq_bind, Option.bind_some]
    exact ih rs0 st
  · intro f is f1 r js f2 rs he _ ih1 ih2 rs0 st
    rw [steps_append, ih1]
    simp only [Option.bind_some, result_snoc he.next]
    rw [ih2]
    simp

/-! ## Running items -/

theorem popRule_eq {s : PSt} {r : Rule} {w st} (h : s.stacks = (r :: w) :: st) (h2 : w = [] → st ≠ []) :
    popRule s = .ok { s with stacks := addRule r (w :: st) } := by
  cases w with
  | cons p w => simp only [popRule, h, addRule]; rfl
  | nil =>
    cases st with
    | nil => exact absurd rfl (h2 rfl)
    | cons q st =>
      cases q with
      | nil => simp only [popRule, h, addRule]; rfl
      | cons q qs => simp only [popRule, h, addRule]; rfl

theorem Conf.shape {rx is f st} (h : Conf rx is f st) : ∃ w res st', st = w :: res :: st' := by
  induction h with
  | base h => exact ⟨_, _, _, rfl⟩
  | opened h1 h2 h3 ih =>
    obtain ⟨w', res, st', e⟩ := ih
    simp only [List.cons.injEq] at e
    obtain ⟨rfl, rfl⟩ := e
    exact ⟨_, _, _, rfl⟩
  | nest h1 h2 ih => exact ⟨_, _, _, rfl⟩

theorem Head.tag_of {rx f f'} {h : Head} {info : RuleInfo} (hm : h.meaning rx f = some (info, f')) :
    info.tag = (tagMeaning h.tag).1 ∧ info.tagname = (tagMeaning h.tag).2 := by
  simp only [Head.meaning, Option.bind_eq_bind, Option.bind_eq_some_iff] at hm
  obtain ⟨x, _, y, _, e⟩ := hm
  cases e
  exact ⟨rfl, rfl⟩

theorem tagMeaning_cases (t : Str) : tagMeaning t = (.any, none) ∨ tagMeaning t = (.tag .unknown, some t) ∨
    ∃ k, k ≠ .unknown ∧ tagMeaning t = (.tag k, none) := by
  unfold tagMeaning
  split
  · exact .inl rfl
  · split
    · exact .inr (.inl rfl)
    · next k hk => exact .inr (.inr ⟨_, hk, rfl⟩)

theorem validateCloseTag_eq {c : Ctx} {p : Nat} (h0 : 0 < p) (hp : p ≤ c.input.length) {t : Str} {s : PSt} {r w st}
    (hs : s.stacks = (r :: w) :: st) {x : Str} (hx : r.info.tag = (tagMeaning x).1 ∧ r.info.tagname = (tagMeaning x).2) :
    (Closes r.info t ∧ validateCloseTag c p t s = .ok ()) ∨
    (¬ Closes r.info t ∧ ∃ e, validateCloseTag c p t s = .error e ∧ Written e) := by
  have hl : lit "*" = [42] := rfl
  have hT : ∀ e n, ∃ e', (throwUnexpectedTag c p t e n : P Unit) = .error e' ∧ Written e' :=
    fun e n => throwUnexpectedTag_written c h0 hp t e n
  unfold validateCloseTag Closes
  simp only [hs, hl]
  rcases tagMeaning_cases x with e | e | ⟨k, hk, e⟩
  · rw [e] at hx
    simp only [hx.1]
    by_cases ht : t = [42]
    · left; simp [ht]; rfl
    · right
      refine ⟨ht, ?_⟩
      simp [ht, hT]
  · rw [e] at hx
    simp only [hx.1, hx.2]
    by_cases ht : t = x
    · left; simp [ht]; rfl
    · right
      refine ⟨ht, ?_⟩
      have : x ≠ t := fun h => ht h.symm
      simp [this, hT]
  · rw [e] at hx
    simp only [hx.1, hx.2]
    have hk1 : ¬ (RTag.tag k = RTag.tag .unknown) := by simpa using hk
    have hk2 : ¬ (RTag.tag k = RTag.any) := by simp
    by_cases ht : t = [42]
    · right
      refine ⟨?_, ?_⟩
      · split <;> simp_all
      · simp [ht, hk]
        exact ht ▸ hT _ _
    · by_cases hg : gumboTagEnum (cstr t) = k
      · left
        refine ⟨?_, ?_⟩
        · split <;> simp_all
        · simp [ht, hk, hg]; rfl
      · right
        refine ⟨?_, ?_⟩
        · split <;> simp_all
        · simp [ht, hk, hg, hT]

theorem runs_item {c : Ctx} {w is f st pv Q} {i : Item} (hok : i.Ok) (hc : Conf c.rx is f st) (hb : Base f pv)
    (h : ∀ st' f' pv', step c.rx f st i = some (st', f') → Base f' pv' → Runs c w (st', pv') Q)
    (hn : step c.rx f st i = none → Q = none) : Runs c (itemWord i ++ w) (st, pv) Q := by
  obtain ⟨w0, res, st0, rfl⟩ := hc.shape
  -- an action that fails with a message, behind a byte
  have hfail : ∀ (b : Byte) (a : Act), step c.rx f (w0 :: res :: st0) i = none →
      (∀ p s, 0 < p → p ≤ c.input.length → view s = (w0 :: res :: st0, pv) → ∃ e, a.exec c p s = .error e ∧ Written e) →
      Runs c (.ch b :: .act a :: w) (w0 :: res :: st0, pv) Q := by
    intro b a hi ha p s hp hs
    obtain ⟨e, he, hw⟩ := ha (p + 1) s (by omega) hp.step.1 hs
    rw [hn hi]
    show Out (a.exec c (p + 1) s >>= _) none
    rw [he]
    exact ⟨e, rfl, hw.soft⟩
  cases i with
  | space b => exact .ch (h _ f _ rfl hb)
  | comment s => exact .chs _ (h _ f _ rfl hb)
  | lbrace =>
    show Runs c (.ch 123 :: .act .pushNested :: w) _ Q
    cases w0 with
    | nil =>
      refine hfail _ _ rfl fun p s h0 hp hs => ?_
      simp only [view, Prod.mk.injEq] at hs
      have : Act.exec c p .pushNested s = throwErrorMessage c p (lit "Nested rules must have a parent") := by
        simp only [Act.exec, pushNested, topStack, hs.1]; rfl
      rw [this]
      exact throwErrorMessage_written c h0 hp _
    | cons r w0 =>
      refine .ch (.act (y := ([] :: [] :: (r :: w0) :: res :: st0, pv)) (fun p s hs => ?_) (h _ f _ rfl hb))
      simp only [view, Prod.mk.injEq] at hs
      refine ⟨{ s with stacks := [] :: [] :: (r :: w0) :: res :: st0 }, ?_, by simp only [view, hs.2]⟩
      simp only [Act.exec, pushNested, topStack, hs.1]; rfl
  | rbrace =>
    show Runs c (.ch 125 :: .act .popNested :: w) _ Q
    cases w0 with
    | cons r w0 =>
      refine hfail _ _ rfl fun p s h0 hp hs => ?_
      simp only [view, Prod.mk.injEq] at hs
      simp only [Act.exec, popNested, hs.1]
      exact throwErrorMessage_written c h0 hp _
    | nil =>
      generalize hst : ([] :: res :: st0) = X at hc
      cases hc with
      | opened h1 h2 h3 => simp at hst
      | base hq =>
        next rs =>
        simp only [List.cons.injEq, true_and] at hst
        obtain ⟨rfl, rfl⟩ := hst
        cases rs with
        | nil =>
          refine hfail _ _ rfl fun p s h0 hp hs => ?_
          simp only [view, Prod.mk.injEq, result] at hs
          simp only [Act.exec, popNested, hs.1]
          exact throwErrorMessage_written c h0 hp _
        | cons q rs =>
          refine hfail _ _ rfl fun p s h0 hp hs => ?_
          simp only [view, Prod.mk.injEq, result] at hs
          simp only [Act.exec, popNested, hs.1]
          exact throwErrorMessage_written c h0 hp _
      | nest h1 h2 =>
        next r w1 st1 js rs =>
        simp only [List.cons.injEq, true_and] at hst
        obtain ⟨rfl, rfl⟩ := hst
        cases rs with
        | nil =>
          refine hfail _ _ rfl fun p s h0 hp hs => ?_
          simp only [view, Prod.mk.injEq, result] at hs
          simp only [Act.exec, popNested, hs.1]
          exact throwErrorMessage_written c h0 hp _
        | cons q rs =>
          refine .ch (.act (y := ((r.appendNested (chain q rs) :: w1) :: st1, pv)) (fun p s hs => ?_) (h _ f _ rfl hb))
          simp only [view, Prod.mk.injEq, result] at hs
          refine ⟨{ s with stacks := (r.appendNested (chain q rs) :: w1) :: st1 }, ?_, by simp only [view, hs.2]⟩
          simp only [Act.exec, popNested, hs.1]; rfl
  | start hd sc =>
    cases sc with
    | true =>
      show Runs c (headWord hd ++ [.ch 47, .ch 62, .act .popRule] ++ w) _ Q
      rw [List.append_assoc]
      refine runs_head hok hb (fun info f' pv' hm hb' => .ch (.ch ?_)) fun hm => hn (by simp [step, hm])
      refine .act (y := (addRule (bare info) (w0 :: res :: st0), pv')) (fun p s hs => ?_) (h _ f' _ (by simp [step, hm]) hb')
      simp only [view, Prod.mk.injEq] at hs
      exact ⟨_, popRule_eq hs.1 (fun _ => by simp), by simp only [view, hs.2]⟩
    | false =>
      show Runs c (headWord hd ++ [.ch 62] ++ w) _ Q
      rw [List.append_assoc]
      exact runs_head hok hb (fun info f' pv' hm hb' => .ch (h _ f' _ (by simp [step, hm]) hb')) fun hm => hn (by simp [step, hm])
  | stop t =>
    have htl : 0 < t.length := by
      rcases hok with rfl | ⟨b, t', rfl, _⟩ <;> simp
    show Runs c (chs (lit "</") ++ (.act .tkStart :: (chs t ++ [.act .closeTag, .ch 62])) ++ w) _ Q
    simp only [List.append_assoc, List.cons_append, List.nil_append]
    refine .chs _ (.token (fun p s => validateCloseTag c p s.tok s >>= fun _ => popRule s) (fun _ _ => rfl) fun p s hp hw hs ht => ?_)
    simp only [view, Prod.mk.injEq] at hs
    simp only [ht]
    cases w0 with
    | nil =>
      rw [hn rfl]
      obtain ⟨e, he, hw'⟩ := throwUnexpectedTag_written (α := Unit) c (show 0 < p by omega) hw.1 t none none
      have : validateCloseTag c p t s = .error e := by
        simp only [validateCloseTag, hs.1]; exact he
      rw [this]
      exact ⟨e, rfl, hw'.soft⟩
    | cons r w0 =>
      have hx : ∃ x, r.info.tag = (tagMeaning x).1 ∧ r.info.tagname = (tagMeaning x).2 := by
        generalize hst : ((r :: w0) :: res :: st0) = X at hc
        cases hc with
        | base h => simp at hst
        | nest h1 h2 => simp at hst
        | opened h1 h2 h3 =>
          simp only [List.cons.injEq] at hst
          obtain ⟨⟨rfl, rfl⟩, rfl⟩ := hst
          exact ⟨_, Head.tag_of h2⟩
      obtain ⟨x, hx⟩ := hx
      rcases validateCloseTag_eq (c := c) (t := t) (show 0 < p by omega) hw.1 hs.1 hx with ⟨hcl, hv⟩ | ⟨hcl, e, hv, hw'⟩
      · rw [hv]
        show Out (popRule s >>= _) Q
        rw [popRule_eq hs.1 (fun _ => by simp)]
        refine h (addRule r (w0 :: res :: st0)) f pv (if_pos hcl) hb (p + 1) _ hw.step ?_
        simp only [view, hs.2]
      · rw [hv, hn (if_neg hcl)]
        exact ⟨e, rfl, hw'.soft⟩

/-- What the steps of a list of items say about the run of its word. -/
def outcome (x : Option (List (List Rule) × Flags)) : Option (View → Prop) := x.map fun y v => v.1 = y.1

theorem runs_items {c : Ctx} : ∀ {is is0 : List Item} {f st pv}, (∀ i ∈ is, i.Ok) → Conf c.rx is0 f st → Base f pv →
    Runs c (itemsWord is) (st, pv) (outcome (steps c.rx f st is))
  | [], is0, f, st, pv, _, hc, hb => .nil rfl
  | i :: is, is0, f, st, pv, hok, hc, hb => by
    refine runs_item (hok i (by simp)) hc hb (fun st' f' pv' hs hb' => ?_) fun hs => ?_
    · have : steps c.rx f st (i :: is) = steps c.rx f' st' is := by simp [steps, hs]
      rw [this]
      exact runs_items (fun j hj => hok j (by simp [hj])) (hc.step hs) hb'
    · simp [steps, hs, outcome]

/-! ## The end -/

theorem Conf.bottom {rx is f w res} (h : Conf rx is f [w, res]) :
    (w = [] ∧ ∃ rs, Syn.Seq rx {} is f rs ∧ res = result rs) ∨ ∃ r w', w = r :: w' := by
  generalize hst : [w, res] = X at h
  cases h with
  | base h =>
    simp only [List.cons.injEq, and_true] at hst
    exact .inl ⟨hst.1, _, h, hst.2⟩
  | opened h1 h2 h3 =>
    simp only [List.cons.injEq] at hst
    exact .inr ⟨_, _, hst.1⟩
  | nest h1 h2 => simp at hst

theorem finish_long {c : Ctx} {s : PSt} (h0 : 0 < c.input.length) (h : s.stacks.length > 2) :
    ∃ e, finishParse c s = .error e ∧ Written e := by
  have h1 : s.stacks.isEmpty = false := by
    cases hs : s.stacks with
    | nil => simp [hs] at h
    | cons => rfl
  simp only [finishParse, h1, Bool.false_eq_true, if_false, if_pos h]
  exact throwErrorMessage_written c h0 (Nat.le_refl _) _

theorem finish_open {c : Ctx} {s : PSt} {r w res} (h : s.stacks = [r :: w, res]) :
    ∃ e, finishParse c s = .error e ∧ Written e := by
  have : finishParse c s = throwMissingTag c r.info.tag r.info.tagname := by
    simp [finishParse, h, dropEmptyStacks]
  rw [this]
  exact throwMissingTag_written c _ _

theorem finish_result {c : Ctx} {s : PSt} {rs} (h : s.stacks = [[], result rs]) :
    finishParse c s = .ok (ruleOf rs) := by
  cases rs with
  | nil => simp [finishParse, h, result, dropEmptyStacks, ruleOf]; rfl
  | cons r rs => simp [finishParse, h, result, dropEmptyStacks, ruleOf]; rfl

theorem itemText_ne (i : Item) : i.text ≠ [] := by
  cases i with
  | space b => simp [Item.text]
  | comment s => simp [Item.text]
  | lbrace => show lit "{" ≠ []; decide
  | rbrace => show lit "}" ≠ []; decide
  | start h b => simp [Item.text, Head.text]
  | stop t =>
    have : lit "</" ≠ [] := by decide
    simp [Item.text, this]

theorem Seq.unique {rx is f f' rs rs'} (h : Syn.Seq rx {} is f rs) (h' : Syn.Seq rx {} is f' rs') :
    ruleOf rs = ruleOf rs' := by
  have e := steps_of h [] []
  rw [steps_of h' [] []] at e
  simp only [List.nil_append, Option.some.injEq, Prod.mk.injEq, List.cons.injEq, true_and, and_true] at e
  have e := e.1
  cases rs with
  | nil => cases rs' with
    | nil => rfl
    | cons => simp [result] at e
  | cons r rs => cases rs' with
    | nil => simp [result] at e
    | cons r' rs' =>
      simp only [result, List.cons.injEq, and_true] at e
      exact e.symm

/-- The run of a list of items from the start: a rule if and only if the items nest properly. -/
theorem exec_items (c : Ctx) (is : List Item) (hok : ∀ i ∈ is, i.Ok) (hi : c.input = itemsText is) :
    (∃ f rs, Syn.Seq c.rx {} is f rs ∧ (execWord c 0 (itemsWord is) {} >>= finishParse c) = .ok (ruleOf rs)) ∨
    ((¬ ∃ f rs, Syn.Seq c.rx {} is f rs) ∧ ∃ e, (execWord c 0 (itemsWord is) {} >>= finishParse c) = .error e ∧ Soft e) := by
  have hat : At c 0 (itemsWord is) := ⟨by simp, by rw [chars_itemsWord, hi]; simp⟩
  have hbase : Conf c.rx [] {} [[], result []] := .base .nil
  have hrun := runs_items hok hbase base_empty 0 {} hat rfl
  cases hst : steps c.rx {} [[], result []] is with
  | none =>
    rw [hst] at hrun
    obtain ⟨e, he, hs⟩ := hrun
    refine .inr ⟨?_, e, by rw [he]; rfl, hs⟩
    rintro ⟨f, rs, hseq⟩
    rw [steps_of hseq [] []] at hst
    cases hst
  | some y =>
    obtain ⟨st, f⟩ := y
    rw [hst] at hrun
    obtain ⟨s, he, hs⟩ := hrun
    simp only [view] at hs
    rw [he]
    show (∃ f rs, _ ∧ finishParse c s = _) ∨ _ ∧ ∃ e, finishParse c s = _ ∧ _
    have hc := hbase.steps hst
    obtain ⟨w, res, st', rfl⟩ := hc.shape
    have hno : (∃ f rs, Syn.Seq c.rx {} is f rs) → ∃ rs, w :: res :: st' = [[], result rs] := by
      rintro ⟨f', rs, hseq⟩
      rw [steps_of hseq [] []] at hst
      simp only [Option.some.injEq, Prod.mk.injEq, List.nil_append] at hst
      exact ⟨rs, hst.1.symm⟩
    cases st' with
    | cons q qs =>
      refine .inr ⟨fun h => ?_, ?_⟩
      · obtain ⟨rs, h⟩ := hno h
        simp at h
      · have h0 : 0 < c.input.length := by
          cases is with
          | nil => simp [steps] at hst
          | cons i is =>
            rw [hi]
            have := itemText_ne i
            have : 0 < i.text.length := List.length_pos_iff.mpr this
            simp [itemsText]
            omega
        obtain ⟨e, h1, h2⟩ := finish_long (s := s) h0 (by simp [hs])
        exact ⟨e, h1, h2.soft⟩
    | nil =>
      simp only [List.nil_append] at hc
      rcases hc.bottom with ⟨rfl, rs, hseq, rfl⟩ | ⟨r, w', rfl⟩
      · exact .inl ⟨f, rs, hseq, finish_result hs⟩
      · refine .inr ⟨fun h => ?_, ?_⟩
        · obtain ⟨rs, h⟩ := hno h
          simp at h
        · obtain ⟨e, h1, h2⟩ := finish_open (c := c) hs
          exact ⟨e, h1, h2.soft⟩

end Hext
