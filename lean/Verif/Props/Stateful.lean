import Verif.Spec.Stateful
import Verif.Props.Part
import Verif.Props.Rename
/-!
# Functions that keep data are called once for each match, in the order of the result (C83)
-/

namespace Hext.Stateful

open scoped List

variable {σ : Type} {acts : Acts σ} {rx : RxEngine} {h : Heap} {n : Nat}

theorem bind_ok {α β : Type} {x : S σ α} {f : α → S σ β} {s s' : σ} {a : α} (hx : x s = some (.ok a, s')) : (x >>= f) s = f a s' := by
  show (((x : StateT σ Option (Except Err α)) >>= fun r => _) : StateT σ Option (Except Err β)) s = _
  show (x s >>= fun r => _) = _
  rw [hx]
  rfl

theorem keep_pure {α : Type} (a : α) (s : σ) : keep (pure a) s = some (.ok a, s) := rfl

theorem keep_throw {α : Type} (e : Err) (s : σ) : keep (α := α) (throw e) s = some (.error e, s) := rfl

theorem bind_error {α β : Type} {x : S σ α} {f : α → S σ β} {s s' : σ} {e : Err} (hx : x s = some (.error e, s')) :
    (x >>= f) s = some (.error e, s') := by
  show (((x : StateT σ Option (Except Err α)) >>= fun r => _) : StateT σ Option (Except Err β)) s = _
  show (x s >>= fun r => _) = _
  rw [hx]
  rfl

theorem Makes.append {s s₁ s' : σ} {cs ds : List (Capture × Ptr)} {vs ws : List (Str × Str)} (h1 : Makes acts rx h s cs vs s₁)
    (h2 : Makes acts rx h s₁ ds ws s') : Makes acts rx h s (cs ++ ds) (vs ++ ws) s' := by
  induction h1 with
  | nil => exact h2
  | user a b _ ih => exact .user a b (ih h2)
  | other a b _ ih => rw [List.append_assoc]; exact .other a b (ih h2)

/-- Some first part of the captures ends with one that throws. -/
def FailsIn (acts : Acts σ) (rx : RxEngine) (h : Heap) (s : σ) (cs : List (Capture × Ptr)) (s' : σ) : Prop :=
  ∃ ds, ds <+: cs ∧ Fails acts rx h s ds s'

theorem FailsIn.append {s s' : σ} {cs : List (Capture × Ptr)} (ds : List (Capture × Ptr)) (h1 : FailsIn acts rx h s cs s') :
    FailsIn acts rx h s (cs ++ ds) s' := by
  obtain ⟨es, h1, h2⟩ := h1
  exact ⟨es, h1.trans (List.prefix_append _ _), h2⟩

theorem Makes.fails {s s₁ s' : σ} {cs ds : List (Capture × Ptr)} {vs : List (Str × Str)} (h1 : Makes acts rx h s cs vs s₁)
    (h2 : FailsIn acts rx h s₁ ds s') : FailsIn acts rx h s (cs ++ ds) s' := by
  obtain ⟨es, h2, h3⟩ := h2
  refine ⟨cs ++ es, (List.prefix_append_right_inj cs).2 h2, ?_⟩
  cases h3 with
  | mk a b => rw [← List.append_assoc]; exact .mk (h1.append a) b

/-- What a part of the extraction does. -/
def Did (acts : Acts σ) (rx : RxEngine) (h : Heap) {α : Type} (s : σ) (cs : List (Capture × Ptr)) (val : List (Str × Str) → α)
    (out : Option (Except Err α × σ)) : Prop :=
  (∃ vs s', Makes acts rx h s cs vs s' ∧ out = some (.ok (val vs), s')) ∨
  (∃ s', FailsIn acts rx h s cs s' ∧ out = some (.error .thrown, s'))

theorem capture_run {l : Loc} (hl : l.Stored h n) (c : Capture) (hc : c.Safe) (s : σ) :
    (∃ o s', Makes acts rx h s [(c, l.ptr)] o.toList s' ∧ capture acts rx h l.ptr c s = some (.ok o, s')) ∨
    (∃ s', FailsIn acts rx h s [(c, l.ptr)] s' ∧ capture acts rx h l.ptr c s = some (.error .thrown, s')) := by
  obtain ⟨o, ho⟩ := c.capture_total rx hl hc
  have hpipe : ∀ (p : Option Pipe) (v : Str), ∃ w, applyPipe rx p v = pure w := by
    intro p v
    cases p with
    | none => exact ⟨v, rfl⟩
    | some p => exact Props.pipe_total rx p v
  have hone : userFn c = none → Makes acts rx h s [(c, l.ptr)] o.toList s := fun hu => by
    simpa using Makes.other hu ho Makes.nil
  cases c with
  | «attribute» a name p =>
    refine .inl ⟨o, s, hone rfl, ?_⟩
    simp only [capture, ho]
    rfl
  | function f name p =>
    cases f with
    | none => exact absurd hc (by simp [Capture.Safe])
    | some f =>
      have hother : userFn (.function (some f) name p) = none → (∀ s : σ, call acts h l.ptr f s = keep (f.call h l.ptr) s) →
          capture acts rx h l.ptr (.function (some f) name p) s = some (.ok o, s) := by
        intro hu hcall
        simp only [Capture.capture] at ho
        obtain ⟨str, h1, h2⟩ := Props.bind_eq_pure ho
        obtain ⟨w, h3, h4⟩ := Props.bind_eq_pure h2
        simp only [capture]
        rw [bind_ok (by rw [hcall, h1]; rfl), h3, bind_ok (keep_pure _ _), ← E.pure_inj h4]
        rfl
      cases f with
      | user f =>
        cases ha : acts f h l.ptr s with
        | mk str s' =>
          cases str with
          | none =>
            refine .inr ⟨s', ⟨_, List.prefix_rfl, .mk (cs := []) .nil ha⟩, ?_⟩
            simp only [capture]
            rw [bind_error (by simp only [call, ha]; rfl)]
          | some str =>
            obtain ⟨w, hw⟩ := hpipe p str
            refine .inl ⟨some (name, w), s', .user ha hw .nil, ?_⟩
            simp only [capture]
            rw [bind_ok (by simp only [call, ha]; rfl), hw, bind_ok (keep_pure _ _)]
            rfl
      | text => exact .inl ⟨o, s, hone rfl, hother rfl (fun _ => rfl)⟩
      | innerHtml => exact .inl ⟨o, s, hone rfl, hother rfl (fun _ => rfl)⟩
      | stripTags => exact .inl ⟨o, s, hone rfl, hother rfl (fun _ => rfl)⟩

theorem ruleCapture_run {l : Loc} (hl : l.Stored h n) (cs : List (Option Capture)) (hc : ∀ c, some c ∈ cs → c.Safe) (s : σ) :
    Did acts rx h s (cs.filterMap fun c => c.map fun c => (c, l.ptr)) id (ruleCapture acts rx h l.ptr cs s) := by
  induction cs generalizing s with
  | nil => exact .inl ⟨[], s, .nil, rfl⟩
  | cons c cs ih =>
    cases c with
    | none => exact ih (fun c hm => hc c (by simp [hm])) s
    | some c =>
      simp only [ruleCapture, List.filterMap_cons, Option.map_some]
      rcases capture_run (acts := acts) (rx := rx) hl c (hc c (by simp)) s with ⟨o, s₁, h1, h2⟩ | ⟨s₁, h1, h2⟩
      · rw [bind_ok h2]
        rcases ih (fun c hm => hc c (by simp [hm])) s₁ with ⟨vs, s₂, h3, h4⟩ | ⟨s₂, h3, h4⟩
        · rw [bind_ok h4]
          refine .inl ⟨o.toList ++ vs, s₂, h1.append h3, ?_⟩
          cases o <;> rfl
        · rw [bind_error h4]
          exact .inr ⟨s₂, h1.fails h3, rfl⟩
      · rw [bind_error h2]
        exact .inr ⟨s₁, h1.append _, rfl⟩

theorem groupMap_run (ps : Pairs RulePtr Loc) (hp : ∀ p ∈ ps, p.1.val.Safe n ∧ p.2.Stored h n) (m : List (Str × Str)) (s : σ) :
    Did acts rx h s (jobs (found ps)) (fun vs => vs.foldl (fun m p => multimapInsert p m) m) (groupMap acts rx h (conv ps) m s) := by
  induction ps generalizing m s with
  | nil => exact .inl ⟨[], s, .nil, rfl⟩
  | cons p ps ih =>
    obtain ⟨r, l⟩ := p
    obtain ⟨hr, hl⟩ := hp (r, l) (by simp)
    have hc : ∀ c, some c ∈ r.val.info.caps → c.Safe := by
      cases hv : r.val with
      | mk i c nx ns =>
        simp only [hv, Rule.Safe, Rule.All] at hr
        exact hr.1.2
    rw [conv_cons]
    unfold groupMap
    have hj : jobs (found ((r, l) :: ps)) = (r.val.info.caps.filterMap fun c => c.map fun c => (c, l.ptr)) ++ jobs (found ps) := rfl
    rw [hj]
    by_cases hcap : r.val.info.caps.length > 0
    · simp only [hcap, if_true]
      rcases ruleCapture_run (acts := acts) (rx := rx) hl _ hc s with ⟨vs, s₁, h1, h2⟩ | ⟨s₁, h1, h2⟩
      · rw [bind_ok h2]
        rcases ih (fun q hq => hp q (by simp [hq])) (vs.foldl (fun m p => multimapInsert p m) m) s₁ with ⟨ws, s₂, h3, h4⟩ | ⟨s₂, h3, h4⟩
        · refine .inl ⟨vs ++ ws, s₂, h1.append h3, ?_⟩
          simp only [List.foldl_append]
          exact h4
        · exact .inr ⟨s₂, h1.fails h3, h4⟩
      · rw [bind_error h2]
        exact .inr ⟨s₁, h1.append _, rfl⟩
    · have he : r.val.info.caps = [] := by
        cases hcs : r.val.info.caps with
        | nil => rfl
        | cons => simp [hcs] at hcap
      simp only [hcap, if_false]
      rw [he]
      exact ih (fun q hq => hp q (by simp [hq])) m s

theorem groupsToResult_run (gs : List (Pairs RulePtr Loc)) (hp : ∀ g ∈ gs, ∀ p ∈ g, p.1.val.Safe n ∧ p.2.Stored h n) (s : σ) :
    (∃ ms s', MakesMaps acts rx h s (gs.map found) ms s' ∧
      groupsToResult acts rx h (gs.map conv) s = some (.ok (ms.filter (· ≠ [])), s')) ∨
    (∃ s', FailsIn acts rx h s ((gs.map found).flatMap jobs) s' ∧
      groupsToResult acts rx h (gs.map conv) s = some (.error .thrown, s')) := by
  induction gs generalizing s with
  | nil => exact .inl ⟨[], s, .nil, rfl⟩
  | cons g gs ih =>
    simp only [List.map_cons, groupsToResult, List.flatMap_cons]
    rcases groupMap_run (acts := acts) (rx := rx) g (hp g (by simp)) [] s with ⟨vs, s₁, h1, h2⟩ | ⟨s₁, h1, h2⟩
    · rw [bind_ok h2]
      rcases ih (fun g hg => hp g (by simp [hg])) s₁ with ⟨ms, s₂, h3, h4⟩ | ⟨s₂, h3, h4⟩
      · rw [bind_ok h4]
        refine .inl ⟨vs.foldl (fun m p => multimapInsert p m) [] :: ms, s₂, .cons h1 ?_ h3, ?_⟩
        · simpa using foldl_isMap vs [] [] ⟨by simp, by simp⟩
        · cases hm : vs.foldl (fun m p => multimapInsert p m) [] with
          | nil => simp [hm]; rfl
          | cons => simp [hm]; rfl
      · rw [bind_error h4]
        exact .inr ⟨s₂, h1.fails h3, rfl⟩
    · rw [bind_error h2]
      exact .inr ⟨s₁, h1.append _, rfl⟩

/-- The search alone. -/
theorem search_run (hn : n ≤ 2147483647) {r : Rule} (hr : r.Safe n) {l : Loc} (hl : l.Stored h n) (ms : UInt64) :
    ∃ k, (saveMatchingNodesRecursive rx h ⟨[], r⟩ l.ptr []).run ms =
      if ms ≠ 0 ∧ ms.toNat ≤ (searchAt rx h r l).cost then throw .maxSearch
      else pure ((searchAt rx h r l).val.map conv, k) := by
  rw [search_eq hn r hr l hl]
  by_cases h0 : ms = 0
  · subst h0
    refine ⟨0, ?_⟩
    simp only [ne_eq, not_true_eq_false, false_and, if_false]
    rfl
  · by_cases h1 : (searchAt rx h r l).cost < ms.toNat
    · have h2 : ¬ (ms ≠ 0 ∧ ms.toNat ≤ (searchAt rx h r l).cost) := by omega
      refine ⟨ms - UInt64.ofNat (searchAt rx h r l).cost, ?_⟩
      rw [if_neg h2]
      show ((charge _) ms >>= fun p => _) = _
      simp only [charge, h0, h1, if_true, if_false, pure_bind]
      rfl
    · have h2 : ms ≠ 0 ∧ ms.toNat ≤ (searchAt rx h r l).cost := ⟨h0, by omega⟩
      refine ⟨0, ?_⟩
      rw [if_pos h2]
      show ((charge _) ms >>= fun p => _) = _
      simp only [charge, h0, h1, if_false]
      rfl

theorem extract_search (hn : n ≤ 2147483647) {r : Rule} (hr : r.Safe n) {l : Loc} (hl : l.Stored h n) (s : σ) :
    extract acts rx h r l.ptr 0 s = groupsToResult acts rx h ((searchAt rx h r l).val.map conv) s := by
  obtain ⟨k, hk⟩ := search_run (rx := rx) hn hr hl 0
  unfold extract
  rw [hk, if_neg (by simp), bind_ok (keep_pure _ _)]

theorem Makes.state {s s' : σ} {cs : List (Capture × Ptr)} {vs : List (Str × Str)} (hr : Makes acts rx h s cs vs s') :
    s' = after acts h s (calls cs) := by
  induction hr with
  | nil => rfl
  | user ha _ _ ih => simpa [calls, after, userFn, ha] using ih
  | other hu _ _ ih => simpa [calls, after, hu] using ih

theorem calls_append (cs ds : List (Capture × Ptr)) : calls (cs ++ ds) = calls cs ++ calls ds := by simp [calls]

theorem after_append (s : σ) (cs ds : List ((Heap → Ptr → Str) × Ptr)) : after acts h s (cs ++ ds) = after acts h (after acts h s cs) ds := by
  simp [after]

theorem Fails.state {s s' : σ} {cs : List (Capture × Ptr)} (hr : Fails acts rx h s cs s') : s' = after acts h s (calls cs) := by
  cases hr with
  | mk h1 h2 =>
    rw [calls_append, after_append, ← h1.state]
    simp [calls, after, userFn, h2]

theorem MakesMaps.state {s s' : σ} {gs : List Found} {ms : List (List (Str × Str))} (hr : MakesMaps acts rx h s gs ms s') :
    s' = after acts h s (calls (gs.flatMap jobs)) := by
  induction hr with
  | nil => rfl
  | cons h1 _ _ ih => rw [List.flatMap_cons, calls_append, after_append, ← h1.state]; exact ih

theorem Fails.absurd (hsome : ∀ f p s, (acts f h p s).1 ≠ none) {s s' : σ} {cs : List (Capture × Ptr)} : ¬ Fails acts rx h s cs s' := by
  intro hf
  cases hf with
  | mk _ h1 => exact hsome _ _ _ (by rw [h1])

theorem makes_append {s s' : σ} {cs ds : List (Capture × Ptr)} {vs : List (Str × Str)} (hm : Makes acts rx h s (cs ++ ds) vs s') :
    ∃ v1 v2 s1, Makes acts rx h s cs v1 s1 ∧ Makes acts rx h s1 ds v2 s' ∧ vs = v1 ++ v2 := by
  induction cs generalizing s vs with
  | nil => exact ⟨[], vs, s, .nil, hm, rfl⟩
  | cons c cs ih =>
    cases hm with
    | user h0 h1 h2 =>
      obtain ⟨v1, v2, s1, h3, h4, rfl⟩ := ih h2
      exact ⟨_, v2, s1, .user h0 h1 h3, h4, rfl⟩
    | other h0 h1 h2 =>
      obtain ⟨v1, v2, s1, h3, h4, rfl⟩ := ih h2
      exact ⟨_, v2, s1, .other h0 h1 h3, h4, by simp⟩

theorem ruleCapture_cons (p : Ptr) {c : Capture} {cs : List (Option Capture)} {o : Option (Str × Str)} {vs : List (Str × Str)}
    (h1 : c.capture rx h p = pure o) (h2 : Hext.ruleCapture rx h p cs = pure vs) :
    Hext.ruleCapture rx h p (some c :: cs) = pure (o.toList ++ vs) := by
  simp only [Hext.ruleCapture, h1, h2, pure_bind]
  cases o <;> rfl

/-- Functions that return what they would return without the data. -/
theorem makes_same (hsame : ∀ f p s, (acts f h p s).1 = some (f h p)) (p : Ptr) (cs : List (Option Capture)) {s s' : σ} {vs : List (Str × Str)}
    (hm : Makes acts rx h s (cs.filterMap fun c => c.map fun c => (c, p)) vs s') : Hext.ruleCapture rx h p cs = pure vs := by
  induction cs generalizing s vs with
  | nil => cases hm; rfl
  | cons c cs ih =>
    cases c with
    | none => exact ih hm
    | some c =>
      simp only [List.filterMap_cons, Option.map_some] at hm
      cases hm with
      | user h0 h1 h2 =>
        rename_i f _ _ str _ _ _
        have hv := hsame f p s
        rw [h0] at hv
        cases hv
        exact ruleCapture_cons (o := some _) p (by simp only [Capture.capture, CaptureFn.call, pure_bind, h1]) (ih h2)
      | other h0 h1 h2 => exact ruleCapture_cons p h1 (ih h2)

theorem makes_captured (hsame : ∀ f p s, (acts f h p s).1 = some (f h p)) (g : Found) {s s' : σ} {vs : List (Str × Str)}
    (hm : Makes acts rx h s (jobs g) vs s') : Captured rx h g vs := by
  induction g generalizing s vs with
  | nil => cases hm; exact .nil
  | cons q g ih =>
    obtain ⟨r, l⟩ := q
    obtain ⟨v1, v2, s1, h1, h2, rfl⟩ := makes_append hm
    exact .cons (makes_same hsame _ _ h1) (ih h2)

theorem makesMaps_maps (hsame : ∀ f p s, (acts f h p s).1 = some (f h p)) {gs : List Found} {s s' : σ} {ms : List (List (Str × Str))}
    (hm : MakesMaps acts rx h s gs ms s') : Maps rx h gs ms := by
  induction hm with
  | nil => exact .nil
  | cons h1 h2 _ ih => exact .cons (makes_captured hsame _ h1) h2 ih

/-! ## A counter -/

theorem makes_counts {render : Nat → Str} {name : Str} {s s' : Nat} {cs : List (Capture × Ptr)} {vs : List (Str × Str)}
    (hm : Makes (counter render) rx h s cs vs s') (hc : ∀ c ∈ cs, Counts name c.1) :
    s ≤ s' ∧ valuesUnder name vs = (List.range' (s + 1) (s' - s)).map render := by
  induction hm with
  | nil => simp [valuesUnder]
  | @user s f nm pipe p str s₁ v cs vs s' h0 h1 _ ih =>
    obtain ⟨f', hf⟩ := hc (.function (some (.user f)) nm pipe, p) (by simp) (.inl (by simp [userFn]))
    simp only [Capture.function.injEq] at hf
    obtain ⟨_, rfl, rfl⟩ := hf
    obtain ⟨h3, h4⟩ := ih (fun c hm => hc c (by simp [hm]))
    cases h0
    have h5 : v = render (s + 1) := (E.pure_inj h1).symm
    refine ⟨by omega, ?_⟩
    rw [show s' - s = s' - (s + 1) + 1 by omega, List.range'_succ, List.map_cons, ← h4, h5]
    simp [valuesUnder]
  | @other s c p o cs vs s' h0 h1 _ ih =>
    obtain ⟨h3, h4⟩ := ih (fun c hm => hc c (by simp [hm]))
    refine ⟨h3, ?_⟩
    rw [← h4]
    cases o with
    | none => rfl
    | some q =>
      have hq := Props.capture_name h1
      have : ¬ q.1 = name := fun hn => by
        obtain ⟨f, hf⟩ := hc (c, p) (by simp) (.inr (hq ▸ hn))
        simp only at hf
        rw [hf] at h0
        cases h0
      simp [valuesUnder, this]

theorem makesMaps_counts {render : Nat → Str} {name : Str} {s s' : Nat} {gs : List Found} {ms : List (List (Str × Str))}
    (hm : MakesMaps (counter render) rx h s gs ms s') (hc : ∀ g ∈ gs, ∀ c ∈ jobs g, Counts name c.1) :
    s ≤ s' ∧ ms.flatMap (valuesUnder name) = (List.range' (s + 1) (s' - s)).map render := by
  induction hm with
  | nil => simp
  | @cons s g vs m s' gs ms s'' h1 h2 _ ih =>
    obtain ⟨h3, h4⟩ := makes_counts h1 (hc g (by simp))
    obtain ⟨h5, h6⟩ := ih (fun g hg => hc g (by simp [hg]))
    refine ⟨by omega, ?_⟩
    rw [List.flatMap_cons, h6, Props.valuesUnder_isMap h2, h4, ← List.map_append]
    have := @List.range'_append (s + 1) (s' - s) (s'' - s') 1
    rw [show s + 1 + 1 * (s' - s) = s' + 1 by omega, show s' - s + (s'' - s') = s'' - s by omega] at this
    rw [this]

theorem flatMap_filter (name : Str) (ms : List (List (Str × Str))) :
    (ms.filter (· ≠ [])).flatMap (valuesUnder name) = ms.flatMap (valuesUnder name) := by
  induction ms with
  | nil => rfl
  | cons m ms ih =>
    cases m with
    | nil => simpa [valuesUnder] using ih
    | cons p m => simpa using ih

end Hext.Stateful

namespace Hext.Props

open Stateful
open scoped List

section

variable {σ : Type} {acts : Acts σ} {rx : RxEngine} {h : Heap} {n : Nat} {r : Rule} {l : Loc}

/-- C83. An extraction with functions that keep data, and that may throw, has one of three outcomes. It throws because of the limit, and then
no function has been called, the data are untouched. Or it carries out the captures of the groups found, in the order of the result, up to
the first one that throws. Or none of them throws, and it returns the maps. Each function is called exactly once for each match of its rule
whose turn has come. -/
theorem C83_in_order (hn : n ≤ 2147483647) (hs : r.Safe n) (hl : l.Stored h n) (ms : UInt64) (s : σ) :
    (Stateful.extract acts rx h r l.ptr ms s = some (.error .maxSearch, s) ∧ extract rx h r l.ptr ms = throw .maxSearch) ∨
    ∃ gs, Search (Holds rx h) r.siblings l.searched gs ∧ (∃ res, extract rx h r l.ptr ms = pure res) ∧
      ((∃ done s', done <+: gs.flatMap jobs ∧ Fails acts rx h s done s' ∧
          Stateful.extract acts rx h r l.ptr ms s = some (.error .thrown, s') ∧ s' = after acts h s (calls done)) ∨
       (∃ maps s', MakesMaps acts rx h s gs maps s' ∧
          Stateful.extract acts rx h r l.ptr ms s = some (.ok (maps.filter (· ≠ [])), s') ∧
          s' = after acts h s (calls (gs.flatMap jobs)))) := by
  obtain ⟨k, hk⟩ := search_run (rx := rx) hn hs hl ms
  rw [extract_eq hn hs hl]
  by_cases hlim : ms ≠ 0 ∧ ms.toNat ≤ (searchAt rx h r l).cost
  · left
    rw [if_pos hlim] at hk ⊢
    refine ⟨?_, rfl⟩
    unfold Stateful.extract
    rw [hk]
    rfl
  · right
    rw [if_neg hlim] at hk
    have hex : Stateful.extract acts rx h r l.ptr ms s = Stateful.groupsToResult acts rx h ((searchAt rx h r l).val.map conv) s := by
      unfold Stateful.extract
      rw [hk, bind_ok (keep_pure _ _)]
    obtain ⟨res, hres, _⟩ := extract_result (rx := rx) hn hs hl
    refine ⟨_, searchAt_search r l, ⟨res, by rw [if_neg hlim, hres]⟩, ?_⟩
    rw [hex]
    rcases groupsToResult_run (acts := acts) (rx := rx) (searchAt rx h r l).val (searchAt_safe hs hl) s with ⟨maps, s', h1, h2⟩ | ⟨s', ⟨ds, h1, h3⟩, h2⟩
    · exact .inr ⟨maps, s', h1, h2, h1.state⟩
    · exact .inl ⟨ds, s', h1, h3, h2, h3.state⟩

/-- C83. Functions that return what they would return without the data do not change the result. -/
theorem C83_same_result (hsame : ∀ f p s, (acts f h p s).1 = some (f h p)) (hn : n ≤ 2147483647) (hs : r.Safe n) (hl : l.Stored h n) (ms : UInt64)
    (s : σ) {res : List (List (Str × Str))} :
    extract rx h r l.ptr ms = pure res ↔ ∃ s', Stateful.extract acts rx h r l.ptr ms s = some (.ok res, s') := by
  rcases C83_in_order (acts := acts) (rx := rx) hn hs hl ms s with ⟨h1, h2⟩ | ⟨gs, h1, ⟨res', h4⟩, ⟨_, _, _, h2, _⟩ | ⟨maps, s', h2, h3, _⟩⟩
  · rw [h1, h2]
    constructor
    · intro h; cases h
    · rintro ⟨s', h⟩; cases h
  · exact absurd h2 (Fails.absurd (by simp [hsame]))
  · have hres : IsResult rx h r l (maps.filter (· ≠ [])) := ⟨gs, maps, h1, makesMaps_maps hsame h2, rfl⟩
    have := IsResult.unique hres (extract_isResult hn hs hl h4)
    rw [h3, h4, ← this]
    constructor
    · intro h; exact ⟨s', by rw [E.pure_inj h]⟩
    · rintro ⟨s'', h⟩; cases h; rfl

/-- C83 for a function that counts. The values under its name are, from the first map of the result to the last, the consecutive numbers
after the number with which it began: it has not been called for anything else. -/
theorem C83_counter {render : Nat → Str} {name : Str} (hc : r.All fun i => ∀ c, some c ∈ i.caps → Counts name c) (hn : n ≤ 2147483647)
    (hs : r.Safe n) (hl : l.Stored h n) (ms : UInt64) {s s' : Nat} {res : List (List (Str × Str))}
    (he : Stateful.extract (counter render) rx h r l.ptr ms s = some (.ok res, s')) :
    s ≤ s' ∧ res.flatMap (valuesUnder name) = (List.range' (s + 1) (s' - s)).map render := by
  rcases C83_in_order (acts := counter render) (rx := rx) hn hs hl ms s with ⟨h1, _⟩ | ⟨gs, h1, _, ⟨_, _, _, h2, _⟩ | ⟨maps, s1, h2, h3, _⟩⟩
  · rw [h1] at he; cases he
  · exact absurd h2 (Fails.absurd (by simp [counter]))
  · rw [h3] at he
    cases he
    rw [flatMap_filter]
    refine makesMaps_counts h2 fun g hg c hcm => ?_
    obtain ⟨q, hq, hcm⟩ := List.mem_flatMap.1 hcm
    obtain ⟨c', hc', he⟩ := List.mem_filterMap.1 hcm
    cases c' with
    | none => cases he
    | some c' =>
      cases he
      have := h1.closed (P := fun q _ => q.All fun i => ∀ c, some c ∈ i.caps → Counts name c) (fun p y q x hp hb => hb.all hp)
        (fun q hq ks _ x _ => mem_siblings_all hc q hq) g hg q hq
      cases hv : q.1 with
      | mk i ch nx ns =>
        rw [hv] at this hc'
        simp only [Rule.All] at this
        exact this.1 _ hc'

end

/-! ## Examples -/

/-- The function of libhext/examples/mixed.cpp:21-26. Its number comes from the data. -/
def countCaptures : Heap → Ptr → Str := fun _ _ => []

/-- The rule of libhext/examples/mixed.cpp:53-76, without the captures of texts:
`<a href:href> <img src:img/> <p> <?span :number/> </p> </a>`. -/
def mixedRule : Rule :=
  (Ex.rule "a" (caps := [Ex.capHref "href"])
    (child := some (Ex.rule "img" (caps := [.attribute (lit "src") (lit "img") none])
      (next := some (Ex.rule "p"
        (child := some (Ex.rule "span" (optional := true)
          (caps := [.function (some (.user countCaptures)) (lit "number") none])))))))).appendMatch
  (some (.attribute (lit "href") none))

theorem mixedRule_safe (n : Nat) : mixedRule.Safe n := by
  simp [Rule.Safe, Rule.All, Rule.AllO, Rule.AllL, mixedRule, Ex.rule, RuleInfo.Safe, Match.SafeL, Capture.Safe, Ex.capHref,
    Rule.appendMatch, Match.SafeO, Match.Safe]

theorem mixedRule_counts : mixedRule.All fun i => ∀ c, some c ∈ i.caps → Counts (lit "number") c := by
  simp only [Rule.All, Rule.AllO, Rule.AllL, mixedRule, Ex.rule, Ex.capHref, Rule.appendMatch, List.map_cons, List.map_nil,
    List.mem_cons, List.not_mem_nil, or_false, Option.some.injEq, forall_eq, and_true, false_implies, implies_true, Counts]
  refine ⟨?_, ?_, ?_⟩
  · rintro (h | h)
    · exact absurd rfl h
    · exact absurd h (by decide)
  · rintro (h | h)
    · exact absurd rfl h
    · exact absurd h (by decide)
  · exact ⟨trivial, trivial, fun _ => ⟨_, rfl⟩⟩

/-- The document of libhext/examples/mixed.cpp:78-83 without its texts, shortened to three links. The second has a `code` in place of the
`span`. -/
def mixedDoc : Tree :=
  Ex.el 1 "html" [] [Ex.el 2 "body" []
    [Ex.el 3 "a" [("href", "href1")] [Ex.el 4 "img" [("src", "src1")] [], Ex.el 5 "p" [] [Ex.el 6 "span" [] []]],
     Ex.el 7 "a" [("href", "href3")] [Ex.el 8 "img" [("src", "src3")] [], Ex.el 9 "p" [] [Ex.el 10 "code" [] []]],
     Ex.el 11 "a" [("href", "href4")] [Ex.el 12 "img" [("src", "src4")] [], Ex.el 13 "p" [] [Ex.el 14 "span" [] []]]]]

theorem mixedDoc_ok : IsDocument (docHeap 0 mixedDoc) 2147483647 mixedDoc := isDocument_of_ok (by decide +kernel)

/-- Tally marks. -/
def tally (k : Nat) : Str := List.replicate k 124

set_option synthInstance.maxSize 1000 in
/-- The counter is called for the first and the third link, in this order. -/
example : Stateful.extract (counter tally) Ex.rx (docHeap 0 mixedDoc) mixedRule mixedDoc.ptr 0 0 = some (.ok
    [[(lit "href", lit "href1"), (lit "img", lit "src1"), (lit "number", lit "|")],
     [(lit "href", lit "href3"), (lit "img", lit "src3")],
     [(lit "href", lit "href4"), (lit "img", lit "src4"), (lit "number", lit "||")]], 2) := by
  rw [show mixedDoc.ptr = (Loc.root mixedDoc).ptr from rfl,
    extract_search (n := 2147483647) (by decide) (mixedRule_safe _) (l := Loc.root mixedDoc) mixedDoc_ok]
  show @Eq (Option (Except Err (List (List (Str × Str))) × Nat)) _ _
  decide +kernel

/-- The hypotheses of the theorems above are met. -/
example {res : List (List (Str × Str))} {s' : Nat}
    (he : Stateful.extract (counter tally) Ex.rx (docHeap 0 mixedDoc) mixedRule mixedDoc.ptr 0 5 = some (.ok res, s')) :
    5 ≤ s' ∧ res.flatMap (valuesUnder (lit "number")) = (List.range' 6 (s' - 5)).map tally :=
  C83_counter (l := Loc.root mixedDoc) (n := 2147483647) mixedRule_counts (by decide) (mixedRule_safe _) mixedDoc_ok 0 he

/-- Functions that write down for which nodes they are called. -/
def noting : Acts (List Ptr) := fun f h p log => (some (f h p), log ++ [p])

example (ms : UInt64) (log : List Ptr) {res : List (List (Str × Str))} :
    extract Ex.rx (docHeap 0 mixedDoc) mixedRule mixedDoc.ptr ms = pure res ↔
      ∃ log', Stateful.extract noting Ex.rx (docHeap 0 mixedDoc) mixedRule mixedDoc.ptr ms log = some (.ok res, log') :=
  C83_same_result (l := Loc.root mixedDoc) (n := 2147483647) (fun _ _ _ => rfl) (by decide) (mixedRule_safe _) mixedDoc_ok ms log

set_option synthInstance.maxSize 1000 in
/-- The nodes are those of the two `span` elements. -/
example : (Stateful.extract noting Ex.rx (docHeap 0 mixedDoc) mixedRule mixedDoc.ptr 0 []).map (·.2) = some [6, 14] := by
  rw [show mixedDoc.ptr = (Loc.root mixedDoc).ptr from rfl,
    extract_search (n := 2147483647) (by decide) (mixedRule_safe _) (l := Loc.root mixedDoc) mixedDoc_ok]
  decide +kernel

/-- With too low a limit nothing is called. -/
example : Stateful.extract noting Ex.rx (docHeap 0 mixedDoc) mixedRule mixedDoc.ptr 1 [] = some (.error .maxSearch, []) := by
  rcases C83_in_order (acts := noting) (rx := Ex.rx) (r := mixedRule) (l := Loc.root mixedDoc) (n := 2147483647) (by decide)
    (mixedRule_safe _) mixedDoc_ok 1 [] with h | ⟨_, _, ⟨res, h⟩, _⟩
  · exact h.1
  · rw [extract_eq (n := 2147483647) (by decide) (mixedRule_safe _) (l := Loc.root mixedDoc) mixedDoc_ok, if_pos (by decide +kernel)] at h
    cases h

/-- A function that throws when it is called for the second time. -/
def onlyOnce : Acts (List Ptr) := fun f h p log => (if log = [] then some (f h p) else none, log ++ [p])

set_option synthInstance.maxSize 1000 in
/-- Then there is no result, although the function has answered for the first `span`. -/
example : Stateful.extract onlyOnce Ex.rx (docHeap 0 mixedDoc) mixedRule mixedDoc.ptr 0 [] = some (.error .thrown, [6, 14]) := by
  rw [show mixedDoc.ptr = (Loc.root mixedDoc).ptr from rfl,
    extract_search (n := 2147483647) (by decide) (mixedRule_safe _) (l := Loc.root mixedDoc) mixedDoc_ok]
  show @Eq (Option (Except Err (List (List (Str × Str))) × List Ptr)) _ _
  decide +kernel

end Hext.Props
