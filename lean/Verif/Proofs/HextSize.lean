import Verif.Spec.RuleSize
import Verif.Spec.Syntax
import Verif.Proofs.MemoryRule
/-!
# A hext of `n` bytes describes a rule of at most `n + 1` objects
-/

namespace Hext

/-! ## Depth and number of objects -/

theorem deepest_le_total {α} {f g : α → Nat} {l : List α} (h : ∀ x ∈ l, f x ≤ g x) : deepest f l ≤ total g l := by
  induction l with
  | nil => simp [deepest]
  | cons a as ih =>
    have h1 := h a (.head _)
    have h2 := ih fun x hx => h x (.tail _ hx)
    simp only [deepest, total]; omega

theorem Pipe.depth_eq (p : Pipe) : p.depth = p.objects := by
  induction p with
  | last => rfl
  | cons t p ih => simp [Pipe.depth, Pipe.objects, ih]

theorem ValueTest.depth_eq (t : ValueTest) : t.depth = t.objects := by
  induction t with
  | negate t ih => simp [ValueTest.depth, ValueTest.objects, ih]
  | _ => rfl

theorem Capture.depth_eq (c : Capture) : c.depth = c.objects := by
  cases c <;> simp [Capture.depth, Capture.objects] <;> congr 1 <;> ext <;> simp [Pipe.depth_eq]

mutual
theorem Match.depth_le : ∀ m : Match, m.depth ≤ m.objects
  | .attribute _ t => by
    cases t <;> simp [Match.depth, Match.objects, ValueTest.depth_eq]
  | .functionValue _ t => by
    cases t <;> simp [Match.depth, Match.objects, ValueTest.depth_eq]
  | .negate ms => by
    have := Match.depthL_le ms
    simp only [Match.depth, Match.objects]; omega
  | .attributeCount _ | .childCount _ | .function _ | .nthChild .. | .onlyChild _ | .typeRegex _ => by
    simp [Match.depth, Match.objects]
theorem Match.depthO_le : ∀ m : Option Match, Match.depthO m ≤ Match.objectsO m
  | none => by simp [Match.depthO, Match.objectsO]
  | some m => by simpa [Match.depthO, Match.objectsO] using Match.depth_le m
theorem Match.depthL_le : ∀ ms : List (Option Match), Match.depthL ms ≤ Match.objectsL ms
  | [] => by simp [Match.depthL, Match.objectsL]
  | m :: ms => by
    have h1 := Match.depthO_le m
    have h2 := Match.depthL_le ms
    simp only [Match.depthL, Match.objectsL]; omega
end

theorem RuleInfo.depth_le (i : RuleInfo) : i.depth ≤ i.objects := by
  have h1 := deepest_le_total (l := i.ms) (fun x _ => Match.depthO_le x)
  have h2 : deepest (fun c => (Option.map Capture.depth c).getD 0) i.caps ≤
      total (fun c => (Option.map Capture.objects c).getD 0) i.caps :=
    deepest_le_total fun x _ => by cases x <;> simp [Capture.depth_eq]
  unfold RuleInfo.depth RuleInfo.objects
  omega

mutual
theorem Rule.depth_le : ∀ r : Rule, r.depth ≤ r.objects
  | .mk i c nx ns => by
    have h1 := RuleInfo.depth_le i
    have h2 := Rule.depthO_le c
    have h3 := Rule.depthO_le nx
    have h4 := Rule.depthL_le ns
    simp only [Rule.depth, Rule.objects]; omega
theorem Rule.depthO_le : ∀ r : Option Rule, Rule.depthO r ≤ Rule.objectsO r
  | none => by simp [Rule.depthO, Rule.objectsO]
  | some r => by simpa [Rule.depthO, Rule.objectsO] using Rule.depth_le r
theorem Rule.depthL_le : ∀ rs : List Rule, Rule.depthL rs ≤ Rule.objectsL rs
  | [] => by simp [Rule.depthL, Rule.objectsL]
  | m :: ms => by
    have h1 := Rule.depth_le m
    have h2 := Rule.depthL_le ms
    simp only [Rule.depthL, Rule.objectsL]; omega
end

/-! ## The number of objects is what memory holds -/

namespace Mem

/-- The footprint has `k` addresses. -/
def Counts {α β} (R : Cells → β → α → List Addr → Prop) (v : α) (k : Nat) : Prop :=
  ∀ b S c, R c b v S → S.length = k

theorem counts_ptr {α} {R : Cells → Addr → α → List Addr → Prop} {v : Option α} {k : α → Nat} (h : ∀ x ∈ v, Counts R x (k x)) :
    Counts (PtrR R) v ((v.map k).getD 0) := by
  intro b S c hR
  match b, v, hR with
  | none, none, hR => have hS : S = [] := hR; simp [hS]
  | some a, some v, hR => exact h v rfl a S c hR

theorem counts_vec {α β} {Q : Cells → β → α → List Addr → Prop} {vs : List α} {k : α → Nat} (h : ∀ x ∈ vs, Counts Q x (k x)) :
    Counts (VecR Q) vs (total k vs) := by
  induction vs with
  | nil =>
    intro b S c hR
    cases b with
    | nil => have hS : S = [] := hR; simp [hS, total]
    | cons => exact hR.elim
  | cons v vs ih =>
    intro b S c hR
    cases b with
    | nil => exact hR.elim
    | cons b bs =>
      obtain ⟨S₁, S₂, h₁, h₂, rfl⟩ := hR
      rw [List.length_append, h v (.head _) b S₁ c h₁, ih (fun x hx => h x (.tail _ hx)) bs S₂ c h₂]
      rfl

theorem counts_pipe (v : Pipe) : Counts HoldsPipe v v.objects := by
  induction v with
  | last t => intro b S c h; obtain ⟨_, rfl⟩ := h; rfl
  | cons t p ih =>
    intro b S c h
    obtain ⟨q, S', _, h', rfl⟩ := h
    rw [List.length_cons, ih q S' c h', Pipe.objects]; omega

theorem counts_test (v : ValueTest) : Counts HoldsTest v v.objects := by
  induction v with
  | negate t ih =>
    intro b S c h
    obtain ⟨q, S', _, h', rfl⟩ := h
    rw [List.length_cons, ih q S' c h', ValueTest.objects]; omega
  | _ => intro b S c h; obtain ⟨_, rfl⟩ := h; rfl

theorem counts_capture (v : Capture) : Counts HoldsCapture v v.objects := by
  cases v with
  | _ =>
    intro b S c h
    obtain ⟨q, S', _, h', rfl⟩ := h
    rw [List.length_cons, counts_ptr (fun x _ => counts_pipe x) q S' c h', Capture.objects]; omega

theorem match_objectsO : Match.objectsO = fun m => (m.map Match.objects).getD 0 := by
  funext m; cases m <;> simp [Match.objectsO]

theorem match_objectsL (ms : List (Option Match)) : Match.objectsL ms = total Match.objectsO ms := by
  induction ms with
  | nil => simp [Match.objectsL, total]
  | cons m ms ih => simp [Match.objectsL, total, ih]

theorem plain_objects {v : Match} (h : Plain v) : v.objects = 1 := by cases v <;> simp_all [Plain, Match.objects]

theorem counts_match (v : Match) : Counts HoldsMatch v v.objects := by
  induction v using match_cases with
  | attr n t =>
    intro b S c h₀
    obtain ⟨q, S', h, h', rfl⟩ := holds_attribute.mp h₀
    rw [List.length_cons, counts_ptr (fun x _ => counts_test x) q S' c h', Match.objects]; omega
  | functionValue n t =>
    intro b S c h₀
    obtain ⟨q, S', h, h', rfl⟩ := holds_functionValue.mp h₀
    rw [List.length_cons, counts_ptr (fun x _ => counts_test x) q S' c h', Match.objects]; omega
  | negate ms ih =>
    intro b S c h₀
    obtain ⟨q, S', h, h', rfl⟩ := holds_negate.mp h₀
    rw [List.length_cons, counts_vec (Q := PtrR HoldsMatch) (fun x hx => counts_ptr (ih x hx)) q S' c h', Match.objects,
      match_objectsL, match_objectsO]; omega
  | plain v hm =>
    intro b S c h₀
    obtain ⟨h, rfl⟩ := (holds_plain hm).mp h₀
    rw [plain_objects hm]; rfl

theorem rule_objectsO (r : Option Rule) : Rule.objectsO r = (r.map Rule.objects).getD 0 := by cases r <;> simp [Rule.objectsO]
theorem rule_objectsL (rs : List Rule) : Rule.objectsL rs = total Rule.objects rs := by
  induction rs with
  | nil => simp [Rule.objectsL, total]
  | cons m ms ih => simp [Rule.objectsL, total, ih]

theorem counts_rule (r : Rule) : Counts HoldsRule r r.objects := by
  induction r using rule_induct with
  | mk i ch nx ns hc hn hns =>
    intro b S c h
    obtain ⟨o, S₁, S₂, S₃, S₄, S₅, hb, p, rfl⟩ := holds_rule.mp h
    have h1 := counts_ptr hc _ _ _ p.child
    have h2 := counts_ptr hn _ _ _ p.next
    have h3 := counts_vec hns _ _ _ p.nested
    have h4 := counts_vec (Q := PtrR HoldsMatch) (fun _ _ => counts_ptr fun y _ => counts_match y) _ _ _ p.ms
    have h5 := counts_vec (Q := PtrR HoldsCapture) (fun _ _ => counts_ptr fun y _ => counts_capture y) _ _ _ p.caps
    simp only [List.length_cons, List.length_append, h1, h2, h3, h4, h5]
    rw [Rule.objects, RuleInfo.objects, rule_objectsO, rule_objectsO, rule_objectsL, match_objectsO]
    omega

end Mem

/-! ## Hexts -/

namespace Syn

open Mem

theorem total_append {α} (f : α → Nat) (l k : List α) : total f (l ++ k) = total f l + total f k := by
  induction l with
  | nil => simp [total]
  | cons a as ih => simp only [List.cons_append, total, ih]; omega

theorem total_map {α β} (f : β → Nat) (g : α → β) (l : List α) : total f (l.map g) = total (fun x => f (g x)) l := by
  induction l with
  | nil => rfl
  | cons a as ih => simp only [List.map_cons, total, ih]

theorem trait_text (t : Trait) : 1 ≤ t.text.length := by
  cases t with
  | nth a b n => cases a <;> cases b <;> simp [Trait.text, lit]
  | endmost a b => cases a <;> cases b <;> simp [Trait.text, lit]
  | only a => cases a <;> simp [Trait.text, lit]
  | _ => simp [Trait.text, lit]

theorem trait_objects {rx f t m f'} (h : Trait.meaning rx f t = some (m, f')) : m.objects = 1 := by
  cases t <;> simp only [Trait.meaning, Option.bind_eq_bind, Option.bind_eq_some_iff, Option.some.injEq, Prod.mk.injEq] at h
  case empty => rw [← h.1]; simp [Match.objects]
  case childCount => obtain ⟨_, _, h, _⟩ := h; rw [← h]; simp [Match.objects]
  case attributeCount => obtain ⟨_, _, h, _⟩ := h; rw [← h]; simp [Match.objects]
  case nth => obtain ⟨_, _, h, _⟩ := h; rw [← h]; simp [Match.objects]
  case endmost => rw [← h.1]; simp [Match.objects]
  case only => rw [← h.1]; simp [Match.objects]
  case typeMatches => obtain ⟨_, _, h, _⟩ := h; rw [← h]; simp [Match.objects]

theorem traits_objects {rx} : ∀ {ts : List Trait} {f ms f'}, traitsMeaning rx f ts = some (ms, f') →
    total Match.objects ms ≤ (ts.flatMap Trait.text).length
  | [], f, ms, f', h => by
    simp only [traitsMeaning, Option.some.injEq, Prod.mk.injEq] at h; rw [← h.1]; simp [total]
  | t :: ts, f, ms, f', h => by
    simp only [traitsMeaning, Option.bind_eq_bind, Option.bind_eq_some_iff, Option.some.injEq, Prod.mk.injEq] at h
    obtain ⟨x, h1, y, h2, h3, _⟩ := h
    have h4 := trait_objects (m := x.1) (f' := x.2) h1
    have h5 := traits_objects (ms := y.1) (f' := y.2) h2
    have h6 := trait_text t
    rw [← h3, total, List.flatMap_cons, List.length_append]; omega

theorem cond_objects {rx f c m f'} (h : Cond.meaning rx f c = some (m, f')) : m.objects ≤ c.text.length := by
  cases c with
  | trait t => rw [trait_objects h]; exact trait_text t
  | not ts =>
    simp only [Cond.meaning, Option.bind_eq_bind, Option.bind_eq_some_iff, Option.some.injEq, Prod.mk.injEq] at h
    obtain ⟨x, h1, h2, _⟩ := h
    have h3 : total (fun x => x.objects) x.1 ≤ _ := traits_objects (ms := x.1) (f' := x.2) h1
    rw [← h2, Match.objects, match_objectsL, total_map, Cond.text]
    simp only [Match.objectsO, List.length_append]
    have : (lit ":not(").length = 5 := by decide
    omega

theorem conds_objects {rx} : ∀ {ts : List Cond} {f ms f'}, condsMeaning rx f ts = some (ms, f') →
    total Match.objects ms ≤ (ts.flatMap Cond.text).length
  | [], f, ms, f', h => by
    simp only [condsMeaning, Option.some.injEq, Prod.mk.injEq] at h; rw [← h.1]; simp [total]
  | t :: ts, f, ms, f', h => by
    simp only [condsMeaning, Option.bind_eq_bind, Option.bind_eq_some_iff, Option.some.injEq, Prod.mk.injEq] at h
    obtain ⟨x, h1, y, h2, h3, _⟩ := h
    have h4 := cond_objects (m := x.1) (f' := x.2) h1
    have h5 := conds_objects (ms := y.1) (f' := y.2) h2
    rw [← h3, total, List.flatMap_cons, List.length_append]; omega

theorem pipeS_text (p : PipeS) : 1 ≤ p.text.length := by cases p <;> simp [PipeS.text, lit]

theorem pipes_objects {rx} : ∀ {ps : List PipeS} {f ts f'}, pipesMeaning rx f ps = some (ts, f') →
    ((chainPipes ts).map Pipe.objects).getD 0 ≤ (ps.flatMap PipeS.text).length
  | [], f, ts, f', h => by
    simp only [pipesMeaning, Option.some.injEq, Prod.mk.injEq] at h; rw [← h.1]; simp [chainPipes]
  | p :: ps, f, ts, f', h => by
    simp only [pipesMeaning, Option.bind_eq_bind, Option.bind_eq_some_iff, Option.some.injEq, Prod.mk.injEq] at h
    obtain ⟨x, _, y, h2, h3, _⟩ := h
    have h5 := pipes_objects (ts := y.1) (f' := y.2) h2
    have h6 := pipeS_text p
    rw [← h3, chainPipes, List.flatMap_cons, List.length_append]
    cases hc : chainPipes y.1 with
    | none => simp [Pipe.objects]; omega
    | some q => rw [hc] at h5; simp [Pipe.objects] at h5 ⊢; omega

theorem op_objects (o : Op) (l : Str) : (o.meaning l).objects = 1 := by
  cases o <;> simp [Op.meaning, ValueTest.objects, mkContainsWords]

theorem test_objects {rx f t v} (h : Test.meaning rx f t = some v) : v.objects = 1 := by
  cases t with
  | op o q => simp only [Test.meaning, Option.some.injEq] at h; rw [← h]; exact op_objects o _
  | regex r =>
    simp only [Test.meaning, Option.bind_eq_bind, Option.bind_eq_some_iff, Option.some.injEq] at h
    obtain ⟨_, _, h⟩ := h
    rw [← h]; rfl

theorem test_text (t : Test) : 3 ≤ t.text.length := by
  cases t with
  | op o q => cases o <;> simp [Test.text, Op.text, lit, Quoted.text]
  | regex r => simp [Test.text, lit, Rx.text, Quoted.text]

theorem name_text {s : Str} (h : IsName s) : 1 ≤ s.length := by
  obtain ⟨b, t, rfl, _⟩ := h; simp

theorem negated_objects (neg : Bool) (t : ValueTest) : (negated neg t).objects = t.objects + (bang neg).length := by
  cases neg <;> simp [negated, bang, ValueTest.objects] <;> omega

theorem fn_text (f : Fn) : 1 ≤ f.name.length := by cases f <;> simp [Fn.name, lit]

theorem pat_objects {rx f p ms cs} (hok : p.Ok) (h : Pat.meaning rx f p = some (ms, cs)) :
    total Match.objects ms + total Capture.objects cs ≤ p.text.length + 1 := by
  cases p with
  | capFn fn ps n =>
    simp only [Pat.meaning, Option.bind_eq_bind, Option.bind_eq_some_iff, Option.some.injEq, Prod.mk.injEq] at h
    obtain ⟨x, h1, rfl, rfl⟩ := h
    have h2 := pipes_objects (ts := x.1) (f' := x.2) h1
    have := fn_text fn
    simp only [total, Capture.objects, Pat.text, List.length_append, List.length_cons]; omega
  | capAttr a ps n o =>
    simp only [Pat.meaning, Option.bind_eq_bind, Option.bind_eq_some_iff, Option.some.injEq, Prod.mk.injEq] at h
    obtain ⟨x, h1, rfl, rfl⟩ := h
    have h2 := pipes_objects (ts := x.1) (f' := x.2) h1
    have := name_text hok.1
    cases o <;> simp [total, Capture.objects, Pat.text, Match.objects] <;> simp only [List.length_flatMap] at h2 <;> omega
  | testFn fn t neg =>
    simp only [Pat.meaning, Option.bind_eq_bind, Option.bind_eq_some_iff, Option.some.injEq, Prod.mk.injEq] at h
    obtain ⟨x, h1, rfl, rfl⟩ := h
    have h2 := test_objects h1
    have h3 := test_text t
    have h4 := negated_objects neg x
    simp only [total, Match.objects, Option.map_some, Option.getD_some, Pat.text, List.length_append]; omega
  | testAttr a t neg =>
    simp only [Pat.meaning, Option.bind_eq_bind, Option.bind_eq_some_iff, Option.some.injEq, Prod.mk.injEq] at h
    obtain ⟨x, h1, rfl, rfl⟩ := h
    have h2 := test_objects h1
    have h3 := test_text t
    have h4 := negated_objects neg x
    simp only [total, Match.objects, Option.map_some, Option.getD_some, Pat.text, List.length_append]; omega
  | hasAttr a neg =>
    simp only [Pat.meaning, Option.some.injEq, Prod.mk.injEq] at h
    obtain ⟨rfl, rfl⟩ := h
    have := name_text hok
    cases neg <;> simp [total, Match.objects, Pat.text, bang, ValueTest.objects] <;> omega

theorem pats_objects {rx} : ∀ {ps : List (Str × Pat)} {f ms cs f'}, (∀ p ∈ ps, p.1 ≠ [] ∧ (∀ b ∈ p.1, IsSpace b) ∧ p.2.Ok) →
    patsMeaning rx f ps = some (ms, cs, f') → total Match.objects ms + total Capture.objects cs ≤ (patsText ps).length
  | [], f, ms, cs, f', _, h => by
    simp only [patsMeaning, Option.some.injEq, Prod.mk.injEq] at h
    obtain ⟨rfl, rfl, _⟩ := h
    simp [total]
  | p :: ps, f, ms, cs, f', hok, h => by
    simp only [patsMeaning, Option.bind_eq_bind, Option.bind_eq_some_iff, Option.some.injEq, Prod.mk.injEq] at h
    obtain ⟨x, h1, y, h2, rfl, rfl, _⟩ := h
    have h0 := hok p (.head _)
    have h4 := pat_objects (ms := x.1) (cs := x.2) h0.2.2 h1
    have h5 := pats_objects (ms := y.1) (cs := y.2.1) (f' := y.2.2) (fun q hq => hok q (.tail _ hq)) h2
    have h6 := List.length_pos_iff.2 h0.1
    rw [total_append, total_append]
    simp only [patsText, List.flatMap_cons, List.length_append] at h5 ⊢
    omega

theorem head_objects {rx f h i f'} (hok : Head.Ok h) (hm : Head.meaning rx f h = some (i, f')) : i.objects + 1 ≤ h.text.length := by
  simp only [Head.meaning, Option.bind_eq_bind, Option.bind_eq_some_iff, Option.some.injEq, Prod.mk.injEq] at hm
  obtain ⟨x, h1, y, h2, rfl, _⟩ := hm
  have h3 : total (fun x => x.objects) x.1 ≤ _ := conds_objects (ms := x.1) (f' := x.2) h1
  have h4 : total (fun x => x.objects) y.1 + total (fun x => x.objects) y.2.1 ≤ _ := pats_objects (ms := y.1) (cs := y.2.1) (f' := y.2.2) hok.2.2.1 h2
  simp only [RuleInfo.objects, total_map, Match.objectsO, Option.map_some, Option.getD_some, total_append, Head.text,
    List.length_cons, List.length_append]
  omega

theorem chain_objects : ∀ (r : Rule) (rs : List Rule), (chain r rs).objects ≤ total Rule.objects (r :: rs)
  | .mk i c nx ns, [] => by simp only [chain, Rule.objects, total, Rule.objectsO]; omega
  | .mk i c nx ns, s :: rs => by
    have h := chain_objects s rs
    simp only [chain, Rule.objects, total, Rule.objectsO] at h ⊢; omega

theorem siblings_objects (rs : List Rule) : Rule.objectsO (siblings rs) ≤ total Rule.objects rs := by
  cases rs with
  | nil => simp [siblings, Rule.objectsO, total]
  | cons r rs => simpa [siblings, Rule.objectsO] using chain_objects r rs

theorem itemsText_append (is js : List Item) : (itemsText (is ++ js)).length = (itemsText is).length + (itemsText js).length := by
  simp [itemsText]
theorem itemsText_cons (i : Item) (js : List Item) : (itemsText (i :: js)).length = i.text.length + (itemsText js).length := by
  simp [itemsText]

theorem mkRule_objects (i : RuleInfo) (kids nested : List Rule) :
    (mkRule i kids nested).objects ≤ 1 + i.objects + total Rule.objects kids + total Rule.objects nested := by
  have := siblings_objects kids
  rw [mkRule, Rule.objects, rule_objectsL]
  simp only [Rule.objectsO]
  omega

mutual
theorem elem_objects {rx f is f' r} (hok : ∀ i ∈ is, i.Ok) : Elem rx f is f' r → r.objects ≤ (itemsText is).length
  | .selfClosing (h := h) (info := info) hm => by
    have h1 := head_objects (hok _ (.head _)) hm
    have h2 := mkRule_objects info [] []
    simp only [total] at h2
    simp only [itemsText, List.flatMap_cons, List.flatMap_nil, Item.text, List.length_append]; omega
  | .closed (h := h) (info := info) (is := is) (kids := kids) (nested := nested) (t := t) hm hb _ => by
    have h1 := head_objects (hok _ (.head _)) hm
    have h2 := mkRule_objects info kids nested
    have h3 := body_objects (fun i hi => hok i (by simp [hi])) hb
    rw [List.cons_append, itemsText_cons, itemsText_append]
    simp only [Item.text, List.length_append]
    omega
theorem body_objects {rx f is f' kids nested} (hok : ∀ i ∈ is, i.Ok) : Body rx f is f' kids nested →
    total Rule.objects kids + total Rule.objects nested ≤ (itemsText is).length
  | .nil => by simp [total]
  | .filler _ hb => by
    have h1 := body_objects (fun i hi => hok i (.tail _ hi)) hb
    rw [itemsText_cons]; omega
  | .child he hb => by
    have h1 := elem_objects (fun i hi => hok i (by simp [hi])) he
    have h2 := body_objects (fun i hi => hok i (by simp [hi])) hb
    rw [itemsText_append, total]; omega
  | .block (r := r) (rs := rs) hs hb => by
    have h1 := seq_objects (fun i hi => hok i (by simp [hi])) hs
    have h2 := body_objects (fun i hi => hok i (by simp [hi])) hb
    have h3 := chain_objects r rs
    rw [List.cons_append, itemsText_cons, itemsText_append, itemsText_cons, total]; omega
theorem seq_objects {rx f is f' rs} (hok : ∀ i ∈ is, i.Ok) : Seq rx f is f' rs → total Rule.objects rs ≤ (itemsText is).length
  | .nil => by simp [total]
  | .filler _ hb => by
    have h1 := seq_objects (fun i hi => hok i (.tail _ hi)) hb
    rw [itemsText_cons]; omega
  | .elem he hb => by
    have h1 := elem_objects (fun i hi => hok i (by simp [hi])) he
    have h2 := seq_objects (fun i hi => hok i (by simp [hi])) hb
    rw [itemsText_append, total]; omega
end

theorem means_objects {rx s r} (h : Means rx s r) : r.objects ≤ s.length + 1 := by
  obtain ⟨is, f, rs, hok, rfl, hs, rfl⟩ := h
  have h1 := seq_objects hok hs
  cases rs with
  | nil => simp [ruleOf, Rule.objects, Rule.objectsO, Rule.objectsL, RuleInfo.objects, total]
  | cons r rs =>
    have h2 := chain_objects r rs
    simp only [ruleOf]; omega

end Syn

end Hext
