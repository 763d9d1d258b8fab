import Verif.Spec.Spelled
import Verif.Proofs.ParserOwn
/-!
# A hext means what it means with all options spelled out
-/

namespace Hext.Spelled

open Syn

def flagsOf (c : List Bool) : Flags := { icase := c.contains true, collate := c.contains false }

theorem flags_nil : flagsOf [] = {} := rfl

theorem rx_flags (c : List Bool) (r : Rx) : r.flags (flagsOf c) = flagsOf (c ++ r.mods) := by
  simp [Rx.flags, flagsOf, List.contains_eq_mem]

theorem rx_spelled (rx : RxEngine) (c : List Bool) (r : Rx) :
    r.meaning rx (flagsOf c) = (((regex c r).meaning rx {}).map (·.1)).map (·, flagsOf (c ++ r.mods)) := by
  have h2 : (regex c r).flags {} = flagsOf (c ++ r.mods) := by
    simp [Rx.flags, flagsOf, regex, List.contains_eq_mem]
  unfold Rx.meaning
  simp only [h2, rx_flags, show (regex c r).lit = r.lit from rfl]
  split <;> rfl

theorem trait_spelled (rx : RxEngine) (c : List Bool) (t : Trait) :
    t.meaning rx (flagsOf c) = (Own.trait rx (trait c t).1).map (·, flagsOf (trait c t).2) := by
  cases t with
  | typeMatches r =>
    simp only [Trait.meaning, Own.trait, trait, rx_spelled]
    cases (regex c r).meaning rx {} <;> rfl
  | empty | endmost | only => rfl
  | childCount d | attributeCount d =>
    simp only [Own.trait, trait, Trait.meaning]
    cases intVal false d <;> rfl
  | nth a b n =>
    simp only [Own.trait, trait, Trait.meaning]
    cases n.meaning <;> rfl

theorem traits_spelled (rx : RxEngine) : ∀ (ts : List Trait) (c : List Bool),
    traitsMeaning rx (flagsOf c) ts = (Own.all (Own.trait rx) (traits c ts).1).map (·, flagsOf (traits c ts).2)
  | [], _ => rfl
  | t :: ts, c => by
    simp only [traitsMeaning, traits, Own.all, trait_spelled]
    cases Own.trait rx (trait c t).1 with
    | none => rfl
    | some m =>
      simp only [Option.map_some, Option.bind_eq_bind, Option.bind_some, traits_spelled rx ts]
      cases Own.all (Own.trait rx) (traits (trait c t).2 ts).1 <;> rfl

theorem cond_spelled (rx : RxEngine) (c : List Bool) (t : Cond) :
    t.meaning rx (flagsOf c) = (Own.cond rx (cond c t).1).map (·, flagsOf (cond c t).2) := by
  cases t with
  | trait t => exact trait_spelled rx c t
  | not ts =>
    simp only [Cond.meaning, Own.cond, cond, traits_spelled]
    cases Own.all (Own.trait rx) (traits c ts).1 <;> rfl

theorem conds_spelled (rx : RxEngine) : ∀ (ts : List Cond) (c : List Bool),
    condsMeaning rx (flagsOf c) ts = (Own.all (Own.cond rx) (conds c ts).1).map (·, flagsOf (conds c ts).2)
  | [], _ => rfl
  | t :: ts, c => by
    simp only [condsMeaning, conds, Own.all, cond_spelled]
    cases Own.cond rx (cond c t).1 with
    | none => rfl
    | some m =>
      simp only [Option.map_some, Option.bind_eq_bind, Option.bind_some, conds_spelled rx ts]
      cases Own.all (Own.cond rx) (conds (cond c t).2 ts).1 <;> rfl

theorem pipe_spelled (rx : RxEngine) (c : List Bool) (p : PipeS) :
    p.meaning rx (flagsOf c) = (Own.pipe rx (pipe c p).1).map (·, flagsOf (pipe c p).2) := by
  cases p with
  | filter r | replace r a b q =>
    simp only [PipeS.meaning, Own.pipe, pipe, rx_spelled]
    cases (regex c r).meaning rx {} <;> rfl
  | _ => rfl

theorem pipes_spelled (rx : RxEngine) : ∀ (ps : List PipeS) (c : List Bool),
    (pipesMeaning rx (flagsOf c) ps).map (·.1) = Own.all (Own.pipe rx) (pipes c ps)
  | [], _ => rfl
  | p :: ps, c => by
    simp only [pipesMeaning, pipes, Own.all, pipe_spelled, ← pipes_spelled rx ps]
    cases Own.pipe rx (pipe c p).1 with
    | none => rfl
    | some t =>
      simp only [Option.map_some, Option.bind_eq_bind, Option.bind_some]
      cases pipesMeaning rx (flagsOf (pipe c p).2) ps <;> rfl

theorem test_spelled (rx : RxEngine) (c : List Bool) (t : Test) :
    t.meaning rx (flagsOf c) = (test c t).meaning rx {} := by
  cases t with
  | op => rfl
  | regex r =>
    simp only [Test.meaning, test, rx_spelled]
    cases (regex c r).meaning rx {} <;> rfl

theorem pat_spelled (rx : RxEngine) (c : List Bool) (p : Pat) : p.meaning rx (flagsOf c) = Own.pat rx (pat c p) := by
  cases p with
  | capFn fn ps n | capAttr a ps n o =>
    simp only [Pat.meaning, pat, Own.pat, ← pipes_spelled]
    cases pipesMeaning rx (flagsOf c) ps <;> rfl
  | testFn fn t neg | testAttr a t neg => simp only [Pat.meaning, pat, Own.pat, test_spelled]
  | hasAttr => rfl

theorem pats_spelled (rx : RxEngine) : ∀ (ps : List (Str × Pat)) (c : List Bool),
    patsMeaning rx (flagsOf c) ps = (Own.all (fun p => Own.pat rx p.2) (pats c ps).1).map
      fun y => (y.flatMap (·.1), y.flatMap (·.2), flagsOf (pats c ps).2)
  | [], _ => rfl
  | p :: ps, c => by
    simp only [patsMeaning, pats, Own.all, pat_spelled]
    have ih := pats_spelled rx ps []
    rw [flags_nil] at ih
    rw [ih]
    cases Own.pat rx (pat c p.2) with
    | none => rfl
    | some m => cases Own.all (fun p => Own.pat rx p.2) (pats [] ps).1 <;> rfl

theorem head_spelled (rx : RxEngine) (c : List Bool) (h : Head) :
    h.meaning rx (flagsOf c) = (Own.head rx (head c h).1).map (·, flagsOf (head c h).2) := by
  unfold Head.meaning Own.head
  simp only [conds_spelled, head]
  cases Own.all (Own.cond rx) (conds c h.conds).1 with
  | none => rfl
  | some xs =>
    simp only [Option.map_some, Option.bind_eq_bind, Option.bind_some, pats_spelled]
    cases Own.all (fun p => Own.pat rx p.2) (pats (conds c h.conds).2 h.pats).1 <;> rfl

theorem items_append : ∀ (is js : List Item) (c : List Bool),
    items c (is ++ js) = ((items c is).1 ++ (items (items c is).2 js).1, (items (items c is).2 js).2)
  | [], _, _ => rfl
  | i :: is, js, c => by simp [items, items_append is js]

theorem item_filler {i : Item} (h : i.IsFiller) (c : List Bool) : item c i = (i, c) := by
  cases i <;> first | rfl | cases h

theorem item_filler_iff {i : Item} {c : List Bool} (h : (item c i).1.IsFiller) : i.IsFiller := by
  cases i <;> first | exact h | trivial

theorem head_of {rx h c i f'} (hm : Head.meaning rx (flagsOf c) h = some (i, f')) :
    f' = flagsOf (head c h).2 ∧ Own.head rx (head c h).1 = some i := by
  rw [head_spelled, Option.map_eq_some_iff] at hm
  obtain ⟨x, hx, e⟩ := hm
  cases e
  exact ⟨rfl, hx⟩

theorem seq_spelled {rx f is f' rs} (h : Syn.Seq rx f is f' rs) :
    ∀ c, f = flagsOf c → f' = flagsOf (items c is).2 ∧ Own.Seq rx (items c is).1 rs := by
  refine Syn.Seq.rec (rx := rx)
    (motive_1 := fun f is f' r _ => ∀ c, f = flagsOf c → f' = flagsOf (items c is).2 ∧ Own.Elem rx (items c is).1 r)
    (motive_2 := fun f is f' kids nested _ => ∀ c, f = flagsOf c →
      f' = flagsOf (items c is).2 ∧ Own.Body rx (items c is).1 kids nested)
    (motive_3 := fun f is f' rs _ => ∀ c, f = flagsOf c → f' = flagsOf (items c is).2 ∧ Own.Seq rx (items c is).1 rs)
    ?_ ?_ ?_ ?_ ?_ ?_ ?_ ?_ ?_ h
  · rintro f h f' info hm c rfl
    obtain ⟨h1, h2⟩ := head_of hm
    exact ⟨h1, .selfClosing h2⟩
  · rintro f h f1 info is f2 kids nested t hm _ hc ih c rfl
    obtain ⟨h1, h2⟩ := head_of hm
    obtain ⟨h3, h4⟩ := ih _ h1
    rw [items_append]
    exact ⟨h3, .closed h2 h4 hc⟩
  · rintro f c rfl; exact ⟨rfl, .nil⟩
  · rintro f i is f' kids nested hi _ ih c hf
    obtain ⟨h3, h4⟩ := ih c hf
    simp only [items, item_filler hi]
    exact ⟨h3, .filler hi h4⟩
  · rintro f is f1 r js f2 kids nested _ _ ih1 ih2 c hf
    obtain ⟨h1, h2⟩ := ih1 c hf
    obtain ⟨h3, h4⟩ := ih2 _ h1
    rw [items_append]
    exact ⟨h3, .child h2 h4⟩
  · rintro f is f1 r rs js f2 kids nested _ _ ih1 ih2 c hf
    obtain ⟨h1, h2⟩ := ih1 c hf
    obtain ⟨h3, h4⟩ := ih2 _ h1
    rw [items_append]
    exact ⟨h3, .block h2 h4⟩
  · rintro f c rfl; exact ⟨rfl, .nil⟩
  · rintro f i is f' rs hi _ ih c hf
    obtain ⟨h3, h4⟩ := ih c hf
    simp only [items, item_filler hi]
    exact ⟨h3, .filler hi h4⟩
  · rintro f is f1 r js f2 rs _ _ ih1 ih2 c hf
    obtain ⟨h1, h2⟩ := ih1 c hf
    obtain ⟨h3, h4⟩ := ih2 _ h1
    rw [items_append]
    exact ⟨h3, .elem h2 h4⟩

theorem items_cons_inv {c is j js} (h : (items c is).1 = j :: js) :
    ∃ i is', is = i :: is' ∧ (item c i).1 = j ∧ (items (item c i).2 is').1 = js ∧
      (items c is).2 = (items (item c i).2 is').2 := by
  cases is with
  | nil => cases h
  | cons i is' =>
    injection h with h1 h2
    exact ⟨i, is', rfl, h1, h2, rfl⟩

theorem items_append_inv : ∀ {js ks is : List Item} {c : List Bool}, (items c is).1 = js ++ ks →
    ∃ is1 is2, is = is1 ++ is2 ∧ (items c is1).1 = js ∧ (items (items c is1).2 is2).1 = ks ∧
      (items c is).2 = (items (items c is1).2 is2).2
  | [], _, is, _, h => ⟨[], is, rfl, rfl, h, rfl⟩
  | j :: js, ks, is, c, h => by
    obtain ⟨i, is', rfl, h1, h2, h3⟩ := items_cons_inv h
    obtain ⟨is1, is2, rfl, h4, h5, h6⟩ := items_append_inv h2
    exact ⟨i :: is1, is2, rfl, by simp only [items, h1, h4], h5, by rw [h3, h6]; rfl⟩

theorem item_start {c i h b} (e : (item c i).1 = .start h b) :
    ∃ h', i = .start h' b ∧ (head c h').1 = h ∧ (item c i).2 = (head c h').2 := by
  cases i <;> try cases e
  exact ⟨_, rfl, rfl, rfl⟩

theorem item_other {c i j} (e : (item c i).1 = j) (hj : ∀ h b, j ≠ .start h b) : i = j ∧ (item c i).2 = c := by
  cases i <;> first | exact ⟨e, rfl⟩ | exact absurd e.symm (hj _ _)

theorem head_back {rx c h info} (hm : Own.head rx (head c h).1 = some info) :
    h.meaning rx (flagsOf c) = some (info, flagsOf (head c h).2) := by
  rw [head_spelled, hm]; rfl

theorem spelled_seq {rx js rs} (h : Own.Seq rx js rs) : ∀ c is, (items c is).1 = js →
    Syn.Seq rx (flagsOf c) is (flagsOf (items c is).2) rs := by
  refine Own.Seq.rec (rx := rx)
    (motive_1 := fun js r _ => ∀ c is, (items c is).1 = js → Syn.Elem rx (flagsOf c) is (flagsOf (items c is).2) r)
    (motive_2 := fun js kids nested _ => ∀ c is, (items c is).1 = js →
      Syn.Body rx (flagsOf c) is (flagsOf (items c is).2) kids nested)
    (motive_3 := fun js rs _ => ∀ c is, (items c is).1 = js → Syn.Seq rx (flagsOf c) is (flagsOf (items c is).2) rs)
    ?_ ?_ ?_ ?_ ?_ ?_ ?_ ?_ ?_ h
  · intro h info hm c is e
    obtain ⟨i, is', rfl, h1, h2, h3⟩ := items_cons_inv e
    obtain ⟨h', rfl, rfl, h5⟩ := item_start h1
    cases is' with
    | cons => cases h2
    | nil => rw [h3, h5]; exact .selfClosing (head_back hm)
  · intro h info js kids nested t hm _ hc ih c is e
    obtain ⟨is1, is2, rfl, e1, e2, e3⟩ := items_append_inv e
    obtain ⟨i, is', rfl, h1, h2, h3⟩ := items_cons_inv e1
    obtain ⟨h', rfl, rfl, h5⟩ := item_start h1
    obtain ⟨j, js', rfl, h6, h7, h8⟩ := items_cons_inv e2
    obtain ⟨rfl, h9⟩ := item_other h6 (by simp)
    cases js' with
    | cons => cases h7
    | nil =>
      rw [e3, h8, h9, h3, h5]
      rw [h5] at h2
      exact .closed (head_back hm) (ih _ _ h2) hc
  · intro c is e
    cases is with
    | cons => cases e
    | nil => exact .nil
  · intro i js kids nested hi _ ih c is e
    obtain ⟨i', is', rfl, h1, h2, h3⟩ := items_cons_inv e
    obtain ⟨rfl, h4⟩ := item_other h1 (by intro h b e; rw [e] at hi; exact hi)
    rw [h3, h4]
    rw [h4] at h2
    exact .filler hi (ih _ _ h2)
  · intro js r ks kids nested _ _ ih1 ih2 c is e
    obtain ⟨is1, is2, rfl, e1, e2, e3⟩ := items_append_inv e
    rw [e3]
    exact .child (ih1 _ _ e1) (ih2 _ _ e2)
  · intro js r rs ks kids nested _ _ ih1 ih2 c is e
    obtain ⟨is1, is2, rfl, e1, e2, e3⟩ := items_append_inv e
    obtain ⟨i, is', rfl, h1, h2, h3⟩ := items_cons_inv e1
    obtain ⟨rfl, h4⟩ := item_other h1 (by simp)
    obtain ⟨j, js', rfl, h6, h7, h8⟩ := items_cons_inv e2
    obtain ⟨rfl, h9⟩ := item_other h6 (by simp)
    rw [h4] at h2
    rw [h9, h3, h4] at h7
    rw [e3, h8, h9, h3, h4]
    exact .block (ih1 _ _ h2) (ih2 _ _ h7)
  · intro c is e
    cases is with
    | cons => cases e
    | nil => exact .nil
  · intro i js rs hi _ ih c is e
    obtain ⟨i', is', rfl, h1, h2, h3⟩ := items_cons_inv e
    obtain ⟨rfl, h4⟩ := item_other h1 (by intro h b e; rw [e] at hi; exact hi)
    rw [h3, h4]
    rw [h4] at h2
    exact .filler hi (ih _ _ h2)
  · intro js r ks rs _ _ ih1 ih2 c is e
    obtain ⟨is1, is2, rfl, e1, e2, e3⟩ := items_append_inv e
    rw [e3]
    exact .elem (ih1 _ _ e1) (ih2 _ _ e2)

theorem parse_spelled {rx cs is} (hok : ∀ i ∈ is, i.Ok) (r : Rule) :
    parseHext rx cs (itemsText is) = .ok r ↔ Own.Means rx (items [] is).1 r := by
  rw [parse_items hok]
  constructor
  · rintro ⟨f, rs, hs, rfl⟩; exact ⟨rs, (seq_spelled hs [] rfl).2, rfl⟩
  · rintro ⟨rs, hs, rfl⟩; exact ⟨_, rs, spelled_seq hs [] _ rfl, rfl⟩

end Hext.Spelled
