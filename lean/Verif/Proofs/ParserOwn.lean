import Verif.Spec.Own
import Verif.Proofs.ParserFill
/-!
# Options of regular expressions that do not apply to others
-/

namespace Hext.Own

open Syn

theorem rx_plain {rx r} (h : Rx.mods r = []) : r.meaning rx {} = ((r.meaning rx {}).map (·.1)).map (·, {}) := by
  unfold Rx.meaning
  have hf : r.flags {} = {} := by simp [Rx.flags, h]
  simp only [hf]
  split <;> rfl

theorem trait_plain {rx t} (h : TraitPlain t) : t.meaning rx {} = (trait rx t).map (·, {}) := by
  cases t with
  | typeMatches r =>
    have := rx_plain (rx := rx) (r := r) h
    simp only [trait, Trait.meaning]
    rw [this]
    cases r.meaning rx {} <;> rfl
  | empty | endmost | only => rfl
  | childCount d | attributeCount d =>
    simp only [trait, Trait.meaning]
    cases intVal false d <;> rfl
  | nth a b n =>
    simp only [trait, Trait.meaning]
    cases n.meaning <;> rfl

theorem traits_plain {rx} : ∀ {ts : List Trait}, (∀ t ∈ ts, TraitPlain t) →
    traitsMeaning rx {} ts = (all (trait rx) ts).map (·, {})
  | [], _ => rfl
  | t :: ts, h => by
    simp only [traitsMeaning, all, trait_plain (rx := rx) (h t (by simp))]
    cases trait rx t with
    | none => rfl
    | some m =>
      simp only [Option.map_some, Option.bind_eq_bind, Option.bind_some, traits_plain fun t ht => h t (List.mem_cons_of_mem _ ht)]
      cases all (trait rx) ts <;> rfl

theorem cond_plain {rx c} (h : CondPlain c) : c.meaning rx {} = (cond rx c).map (·, {}) := by
  cases c with
  | trait t => exact trait_plain h
  | not ts =>
    simp only [Cond.meaning, cond, traits_plain (rx := rx) (show ∀ t ∈ ts, TraitPlain t from h)]
    cases all (trait rx) ts <;> rfl

theorem conds_plain {rx} : ∀ {ts : List Cond}, (∀ t ∈ ts, CondPlain t) →
    condsMeaning rx {} ts = (all (cond rx) ts).map (·, {})
  | [], _ => rfl
  | t :: ts, h => by
    simp only [condsMeaning, all, cond_plain (rx := rx) (h t (by simp))]
    cases cond rx t with
    | none => rfl
    | some m =>
      simp only [Option.map_some, Option.bind_eq_bind, Option.bind_some, conds_plain fun t ht => h t (List.mem_cons_of_mem _ ht)]
      cases all (cond rx) ts <;> rfl

theorem pipe_plain {rx p} (h : PipePlain p) : p.meaning rx {} = (pipe rx p).map (·, {}) := by
  cases p with
  | filter r =>
    have := rx_plain (rx := rx) (r := r) h
    simp only [pipe, PipeS.meaning]
    rw [this]
    cases r.meaning rx {} <;> rfl
  | replace r a b q =>
    have := rx_plain (rx := rx) (r := r) h
    simp only [pipe, PipeS.meaning]
    rw [this]
    cases r.meaning rx {} <;> rfl
  | _ => rfl

theorem pipes_plain {rx} : ∀ {ps : List PipeS}, (∀ p ∈ ps.dropLast, PipePlain p) →
    (pipesMeaning rx {} ps).map (·.1) = all (pipe rx) ps
  | [], _ => rfl
  | [p], _ => by
    simp only [pipesMeaning, all, pipe]
    cases p.meaning rx {} <;> rfl
  | p :: q :: ps, h => by
    rw [pipesMeaning, all, pipe_plain (rx := rx) (h p (by simp))]
    have ih := pipes_plain (rx := rx) (ps := q :: ps) fun x hx => h x (by rw [List.dropLast_cons_cons]; exact List.mem_cons_of_mem _ hx)
    cases pipe rx p with
    | none => rfl
    | some t =>
      simp only [Option.map_some, Option.bind_eq_bind, Option.bind_some]
      rw [← ih]
      cases pipesMeaning rx {} (q :: ps) <;> rfl

theorem pat_plain {rx p} (h : PatPlain p) : p.meaning rx {} = pat rx p := by
  cases p with
  | capFn fn ps n =>
    have := pipes_plain (rx := rx) (ps := ps) h
    simp only [Pat.meaning, pat, ← this]
    cases pipesMeaning rx {} ps <;> rfl
  | capAttr a ps n o =>
    have := pipes_plain (rx := rx) (ps := ps) h
    simp only [Pat.meaning, pat, ← this]
    cases pipesMeaning rx {} ps <;> rfl
  | _ => rfl

theorem pats_plain {rx} : ∀ {ps : List (Str × Pat)}, (∀ p ∈ ps, PatPlain p.2) →
    patsMeaning rx {} ps = (all (fun p => pat rx p.2) ps).map fun y => (y.flatMap (·.1), y.flatMap (·.2), {})
  | [], _ => rfl
  | p :: ps, h => by
    simp only [patsMeaning, all, pat_plain (rx := rx) (h p (by simp)), pats_plain (rx := rx) fun t ht => h t (List.mem_cons_of_mem _ ht)]
    cases pat rx p.2 with
    | none => rfl
    | some m => cases all (fun p => pat rx p.2) ps <;> rfl

theorem head_plain {rx h b} (hp : ItemPlain (.start h b)) : h.meaning rx {} = (head rx h).map (·, {}) := by
  unfold Head.meaning head
  simp only [conds_plain (rx := rx) hp.1]
  cases all (cond rx) h.conds with
  | none => rfl
  | some xs =>
    simp only [Option.map_some, Option.bind_eq_bind, Option.bind_some, pats_plain (rx := rx) hp.2]
    cases all (fun p => pat rx p.2) h.pats <;> rfl

def Plain (is : List Item) : Prop := ∀ i ∈ is, ItemPlain i

theorem Plain.split {is js : List Item} (h : Plain (is ++ js)) : Plain is ∧ Plain js :=
  ⟨fun i hi => h i (by simp [hi]), fun i hi => h i (by simp [hi])⟩

theorem Plain.of_cons {i js} (h : Plain (i :: js)) : ItemPlain i ∧ Plain js :=
  ⟨h i (by simp), fun j hj => h j (by simp [hj])⟩

theorem head_own {rx h b f i f'} (hp : ItemPlain (.start h b)) (hf : f = {}) (hm : h.meaning rx f = some (i, f')) :
    f' = {} ∧ head rx h = some i := by
  subst hf
  rw [head_plain hp, Option.map_eq_some_iff] at hm
  obtain ⟨x, hx, e⟩ := hm
  cases e
  exact ⟨rfl, hx⟩

theorem seq_own {rx f is f' rs} (h : Syn.Seq rx f is f' rs) : Plain is → f = {} → f' = {} ∧ Seq rx is rs := by
  refine Syn.Seq.rec (rx := rx)
    (motive_1 := fun f is f' r _ => Plain is → f = {} → f' = {} ∧ Elem rx is r)
    (motive_2 := fun f is f' kids nested _ => Plain is → f = {} → f' = {} ∧ Body rx is kids nested)
    (motive_3 := fun f is f' rs _ => Plain is → f = {} → f' = {} ∧ Seq rx is rs) ?_ ?_ ?_ ?_ ?_ ?_ ?_ ?_ ?_ h
  · intro f h f' info hm hp hf
    obtain ⟨h1, h2⟩ := head_own (hp (.start h true) (by simp)) hf hm
    exact ⟨h1, .selfClosing h2⟩
  · intro f h f1 info is f2 kids nested t hm _ hc ih hp hf
    obtain ⟨h1, h2⟩ := head_own (hp (.start h false) (by simp)) hf hm
    obtain ⟨h3, h4⟩ := ih (Plain.of_cons (Plain.split hp).1).2 h1
    exact ⟨h3, .closed h2 h4 hc⟩
  · intro f _ hf; exact ⟨hf, .nil⟩
  · intro f i is f' kids nested hi _ ih hp hf
    obtain ⟨h3, h4⟩ := ih hp.of_cons.2 hf
    exact ⟨h3, .filler hi h4⟩
  · intro f is f1 r js f2 kids nested _ _ ih1 ih2 hp hf
    obtain ⟨h1, h2⟩ := ih1 hp.split.1 hf
    obtain ⟨h3, h4⟩ := ih2 hp.split.2 h1
    exact ⟨h3, .child h2 h4⟩
  · intro f is f1 r rs js f2 kids nested _ _ ih1 ih2 hp hf
    obtain ⟨h1, h2⟩ := ih1 (Plain.of_cons (Plain.split hp).1).2 hf
    obtain ⟨h3, h4⟩ := ih2 (Plain.of_cons (Plain.split hp).2).2 h1
    exact ⟨h3, .block h2 h4⟩
  · intro f _ hf; exact ⟨hf, .nil⟩
  · intro f i is f' rs hi _ ih hp hf
    obtain ⟨h3, h4⟩ := ih hp.of_cons.2 hf
    exact ⟨h3, .filler hi h4⟩
  · intro f is f1 r js f2 rs _ _ ih1 ih2 hp hf
    obtain ⟨h1, h2⟩ := ih1 hp.split.1 hf
    obtain ⟨h3, h4⟩ := ih2 hp.split.2 h1
    exact ⟨h3, .elem h2 h4⟩

theorem own_seq {rx is rs} (h : Seq rx is rs) : Plain is → Syn.Seq rx {} is {} rs := by
  refine Seq.rec (rx := rx)
    (motive_1 := fun is r _ => Plain is → Syn.Elem rx {} is {} r)
    (motive_2 := fun is kids nested _ => Plain is → Syn.Body rx {} is {} kids nested)
    (motive_3 := fun is rs _ => Plain is → Syn.Seq rx {} is {} rs) ?_ ?_ ?_ ?_ ?_ ?_ ?_ ?_ ?_ h
  · intro h info hm hp
    exact .selfClosing (by rw [head_plain (hp (.start h true) (by simp)), hm]; rfl)
  · intro h info is kids nested t hm _ hc ih hp
    exact .closed (by rw [head_plain (hp (.start h false) (by simp)), hm]; rfl) (ih (Plain.of_cons (Plain.split hp).1).2) hc
  · intro _; exact .nil
  · intro i is kids nested hi _ ih hp; exact .filler hi (ih hp.of_cons.2)
  · intro is r js kids nested _ _ ih1 ih2 hp; exact .child (ih1 hp.split.1) (ih2 hp.split.2)
  · intro is r rs js kids nested _ _ ih1 ih2 hp
    exact .block (ih1 (Plain.of_cons (Plain.split hp).1).2) (ih2 (Plain.of_cons (Plain.split hp).2).2)
  · intro _; exact .nil
  · intro i is rs hi _ ih hp; exact .filler hi (ih hp.of_cons.2)
  · intro is r js rs _ _ ih1 ih2 hp; exact .elem (ih1 hp.split.1) (ih2 hp.split.2)

theorem parse_own {rx cs is} (hok : ∀ i ∈ is, i.Ok) (hp : ∀ i ∈ is, ItemPlain i) (r : Rule) :
    parseHext rx cs (itemsText is) = .ok r ↔ Means rx is r := by
  rw [parse_items hok]
  constructor
  · rintro ⟨f, rs, hs, rfl⟩; exact ⟨rs, (seq_own hs hp rfl).2, rfl⟩
  · rintro ⟨rs, hs, rfl⟩; exact ⟨_, rs, own_seq hs hp, rfl⟩

end Hext.Own
