import Verif.Proofs.Json
/-!
# The object of a result map, as JSON and in the bindings
-/

namespace Hext

open Cli Binding

theorem str_tri (a b : Str) : a < b ∨ a = b ∨ b < a := by
  by_cases h1 : a < b
  · exact .inl h1
  · by_cases h2 : b < a
    · exact .inr (.inr h2)
    · exact .inr (.inl (List.le_antisymm h2 h1))

/-! ## Names and entries of a map -/

/-- The names of a map in the order of their first occurrence. -/
def keysOf : List (Str × Str) → List Str := fun m => m.foldl (fun ks p => if p.1 ∈ ks then ks else ks ++ [p.1]) []

def entryOf : List Str → Entry Str
  | [v] => .one v
  | vs => .many vs

def entsOf (m : List (Str × Str)) : List (Str × Entry Str) := (keysOf m).map fun k => (k, entryOf (valuesOf m k))

theorem keysOf_concat (m : List (Str × Str)) (p : Str × Str) :
    keysOf (m ++ [p]) = if p.1 ∈ keysOf m then keysOf m else keysOf m ++ [p.1] := by
  rw [keysOf, List.foldl_append]; rfl

theorem concat_induction {α : Type} {P : List α → Prop} (h0 : P []) (h1 : ∀ l a, P l → P (l ++ [a])) (l : List α) : P l := by
  rw [← List.reverse_reverse l]
  induction l.reverse with
  | nil => exact h0
  | cons a l ih => rw [List.reverse_cons]; exact h1 _ _ ih

theorem mem_keysOf {m : List (Str × Str)} {k : Str} : k ∈ keysOf m ↔ ∃ v, (k, v) ∈ m := by
  induction m using concat_induction with
  | h0 => simp [keysOf]
  | h1 m p ih =>
    obtain ⟨k', v'⟩ := p
    rw [keysOf_concat]
    split
    · rename_i h
      rw [ih]
      constructor
      · rintro ⟨v, hv⟩; exact ⟨v, by simp [hv]⟩
      · rintro ⟨v, hv⟩
        simp only [List.mem_append, List.mem_singleton, Prod.mk.injEq] at hv
        rcases hv with hv | ⟨rfl, rfl⟩
        · exact ⟨v, hv⟩
        · exact ih.1 h
    · simp only [List.mem_append, List.mem_singleton, ih, Prod.mk.injEq]
      constructor
      · rintro (⟨v, hv⟩ | rfl)
        · exact ⟨v, .inl hv⟩
        · exact ⟨v', .inr ⟨rfl, rfl⟩⟩
      · rintro ⟨v, hv | ⟨rfl, rfl⟩⟩
        · exact .inl ⟨v, hv⟩
        · exact .inr rfl

theorem keysOf_nodup (m : List (Str × Str)) : (keysOf m).Nodup := by
  induction m using concat_induction with
  | h0 => simp [keysOf]
  | h1 m p ih =>
    rw [keysOf_concat]
    split
    · exact ih
    · rename_i h
      rw [List.nodup_append]
      refine ⟨ih, by simp, ?_⟩
      intro a ha b hb
      simp only [List.mem_singleton] at hb
      subst hb
      exact fun h' => h (h' ▸ ha)

theorem keysOf_sorted {m : List (Str × Str)} (hm : KeySorted m) : (keysOf m).Pairwise (· < ·) := by
  induction m using concat_induction with
  | h0 => simp [keysOf]
  | h1 m p ih =>
    unfold KeySorted at hm
    rw [List.pairwise_append] at hm
    obtain ⟨h1, _, h2⟩ := hm
    rw [keysOf_concat]
    split
    · exact ih h1
    · rename_i h
      rw [List.pairwise_append]
      refine ⟨ih h1, by simp, ?_⟩
      intro a ha b hb
      simp only [List.mem_singleton] at hb
      subst hb
      obtain ⟨v, hv⟩ := mem_keysOf.1 ha
      have := h2 _ hv p (by simp)
      rcases str_tri a p.1 with h3 | h3 | h3
      · exact h3
      · exact absurd (h3 ▸ ha) h
      · exact absurd h3 this

theorem valuesOf_concat (m : List (Str × Str)) (p : Str × Str) (k : Str) :
    valuesOf (m ++ [p]) k = if p.1 = k then valuesOf m k ++ [p.2] else valuesOf m k := by
  unfold valuesOf
  rw [List.filter_append]
  split <;> simp_all

theorem valuesOf_ne_nil {m : List (Str × Str)} {k : Str} : valuesOf m k ≠ [] ↔ k ∈ keysOf m := by
  rw [mem_keysOf]
  unfold valuesOf
  constructor
  · intro h
    obtain ⟨v, hv⟩ := List.exists_mem_of_ne_nil _ h
    simp only [List.mem_map, List.mem_filter, decide_eq_true_eq] at hv
    obtain ⟨⟨k', v'⟩, ⟨h1, rfl⟩, rfl⟩ := hv
    exact ⟨_, h1⟩
  · rintro ⟨v, hv⟩
    intro h
    have : v ∈ (m.filter (·.1 = k)).map (·.2) := List.mem_map.2 ⟨(k, v), by simp [hv], rfl⟩
    rw [h] at this
    simp at this

theorem entsOf_presents {m : List (Str × Str)} (hm : KeySorted m) : Presents m (entsOf m) := by
  constructor
  · unfold entsOf
    rw [List.map_map]
    have : ((fun x : Str × Entry Str => x.1) ∘ fun k => (k, entryOf (valuesOf m k))) = id := rfl
    rw [this, List.map_id]
    exact keysOf_sorted hm
  · intro name e
    have h1 : (name, e) ∈ entsOf m ↔ valuesOf m name ≠ [] ∧ e = entryOf (valuesOf m name) := by
      rw [valuesOf_ne_nil]
      unfold entsOf
      simp only [List.mem_map, Prod.mk.injEq]
      constructor
      · rintro ⟨k, hk, rfl, rfl⟩; exact ⟨hk, rfl⟩
      · rintro ⟨hk, rfl⟩; exact ⟨name, hk, rfl, rfl⟩
    rw [h1]
    cases e with
    | one v =>
      constructor
      · rintro ⟨h2, h3⟩
        unfold entryOf at h3
        split at h3
        · simp_all
        · simp at h3
      · intro h
        simp only at h
        simp [h, entryOf]
    | many vs =>
      constructor
      · rintro ⟨h2, h3⟩
        unfold entryOf at h3
        split at h3
        · simp at h3
        · rename_i h4
          simp only [Entry.many.injEq] at h3
          subst h3
          refine ⟨rfl, ?_⟩
          match hv : valuesOf m name with
          | [] => exact absurd hv h2
          | [v] => exact absurd hv (h4 v)
          | _ :: _ :: _ => simp
      · rintro ⟨h2, h3⟩
        rw [h2]
        match vs, h3 with
        | _ :: _ :: _, _ => exact ⟨by simp, rfl⟩

/-- What presents a map is unique. -/
theorem Presents.unique {m : List (Str × Str)} {o o' : List (Str × Entry Str)} (h : Presents m o) (h' : Presents m o') :
    o = o' := by
  have hmem : ∀ x, x ∈ o ↔ x ∈ o' := fun ⟨n, e⟩ => by rw [h.2 n e, h'.2 n e]
  have h1 := h.1
  have h2 := h'.1
  rw [List.pairwise_map] at h1 h2
  clear h h'
  induction o generalizing o' with
  | nil =>
    cases o' with
    | nil => rfl
    | cons x o' => exact absurd ((hmem x).2 (by simp)) (by simp)
  | cons x o ih =>
    cases o' with
    | nil => exact absurd ((hmem x).1 (by simp)) (by simp)
    | cons y o' =>
      rw [List.pairwise_cons] at h1 h2
      have hxy : x = y := by
        rcases List.mem_cons.1 ((hmem x).1 (by simp)) with h3 | h3
        · exact h3
        · rcases List.mem_cons.1 ((hmem y).2 (by simp)) with h4 | h4
          · exact h4.symm
          · exact absurd (str_lt_trans (h1.1 y h4) (h2.1 x h3)) (str_lt_irrefl _)
      subst hxy
      congr 1
      refine ih ?_ h1.2 h2.2
      intro z
      constructor
      · intro hz
        rcases List.mem_cons.1 ((hmem z).1 (by simp [hz])) with h3 | h3
        · exact absurd (h3 ▸ h1.1 z hz) (str_lt_irrefl _)
        · exact h3
      · intro hz
        rcases List.mem_cons.1 ((hmem z).2 (by simp [hz])) with h3 | h3
        · exact absurd (h3 ▸ h2.1 z hz) (str_lt_irrefl _)
        · exact h3

/-! ## The object that PrintJson makes -/

theorem findMember_map (f : Str → Json) (name : Str) : ∀ ks : List Str,
    findMember name (ks.map fun k => (k, f k)) = if name ∈ ks then some (f name) else none
  | [] => rfl
  | k :: ks => by
    simp only [List.map_cons, findMember, findMember_map f name ks]
    by_cases h : k = name
    · subst h; simp
    · simp [h, show name ≠ k from fun e => h e.symm]

theorem setMember_map (f : Str → Json) (name : Str) (v : Json) : ∀ ks : List Str, ks.Nodup →
    setMember name v (ks.map fun k => (k, f k)) = ks.map fun k => (k, if k = name then v else f k)
  | [], _ => rfl
  | k :: ks, h => by
    rw [List.nodup_cons] at h
    simp only [List.map_cons, setMember]
    by_cases hk : k = name
    · subst hk
      simp only [if_pos, List.cons.injEq, true_and]
      apply List.map_congr_left
      intro a ha
      rw [if_neg]
      rintro rfl
      exact h.1 ha
    · simp [hk, setMember_map f name v ks h.2]

theorem cstr_eq : ∀ {s : Str}, (0 : Byte) ∉ s → cstr s = s
  | [], _ => rfl
  | c :: s, h => by
    rw [List.mem_cons, not_or] at h
    have := cstr_eq h.2
    unfold cstr at this ⊢
    rw [List.takeWhile_cons, this]
    simp [show c ≠ 0 from fun e => h.1 e.symm]

theorem groupObject_eq {m : List (Str × Str)} (hn : NoNul m) :
    groupObject m = (keysOf m).map fun k => (k, (entryOf (valuesOf m k)).json) := by
  induction m using concat_induction with
  | h0 => rfl
  | h1 m p ih =>
    have hn' : NoNul m := fun q hq => hn q (by simp [hq])
    obtain ⟨hp1, hp2⟩ := hn p (by simp)
    have e : groupObject (m ++ [p]) = addPair (groupObject m) p := by simp [groupObject, List.foldl_append]
    rw [e, ih hn', addPair, cstr_eq hp1, cstr_eq hp2, findMember_map fun k => (entryOf (valuesOf m k)).json]
    by_cases hk : p.1 ∈ keysOf m
    · rw [if_pos hk, keysOf_concat, if_pos hk]
      have key : ∀ w, (w = (entryOf (valuesOf m p.1 ++ [p.2])).json) →
          setMember p.1 w ((keysOf m).map fun k => (k, (entryOf (valuesOf m k)).json)) =
          (keysOf m).map fun k => (k, (entryOf (valuesOf (m ++ [p]) k)).json) := by
        intro w hw
        rw [setMember_map (fun k => (entryOf (valuesOf m k)).json) _ _ _ (keysOf_nodup m)]
        apply List.map_congr_left
        intro k _
        rw [valuesOf_concat]
        by_cases h : k = p.1
        · subst h; simp [hw]
        · simp [h, show p.1 ≠ k from fun e => h e.symm]
      have hne := valuesOf_ne_nil.2 hk
      match hv : valuesOf m p.1 with
      | [] => exact absurd hv hne
      | [v] =>
        simp only [entryOf, Entry.json]
        exact key _ (by rw [hv]; simp [entryOf, Entry.json])
      | v :: v' :: vs =>
        simp only [entryOf, Entry.json]
        exact key _ (by rw [hv]; simp [entryOf, Entry.json])
    · rw [if_neg hk, keysOf_concat, if_neg hk, List.map_append]
      simp only
      have hv : valuesOf m p.1 = [] := by
        apply Classical.byContradiction
        intro h
        exact hk (valuesOf_ne_nil.1 h)
      congr 1
      · apply List.map_congr_left
        intro k hk'
        rw [valuesOf_concat, if_neg]
        rintro rfl
        exact hk hk'
      · simp [valuesOf_concat, hv, entryOf, Entry.json]

theorem groupObject_presents {m : List (Str × Str)} (hm : KeySorted m) (hn : NoNul m) {o : List (Str × Entry Str)}
    (ho : Presents m o) : Json.obj (groupObject m) = objectJson o := by
  rw [ho.unique (entsOf_presents hm), groupObject_eq hn, objectJson, entsOf, List.map_map]
  rfl

/-! ## The loops of the bindings -/

theorem sorted_append {a b : List (Str × Str)} (h : KeySorted (a ++ b)) : KeySorted a ∧ KeySorted b ∧
    ∀ p ∈ a, ∀ q ∈ b, ¬ q.1 < p.1 := by
  unfold KeySorted at *
  rw [List.pairwise_append] at h
  exact h

/-- A sorted map up to an entry, the entries of the same name, and the rest. -/
structure Cut (m pre run rest : List (Str × Str)) (k : Str) : Prop where
  eq : m = pre ++ run ++ rest
  before : ∀ p ∈ pre, p.1 < k
  same : ∀ p ∈ run, p.1 = k
  after : ∀ p ∈ rest, k < p.1

theorem findIdx_append {α} {p : α → Bool} : ∀ {as bs : List α}, (∀ a ∈ as, p a = false) →
    (as ++ bs).findIdx p = as.length + bs.findIdx p
  | [], bs, _ => by simp
  | a :: as, bs, h => by
    rw [List.cons_append, List.findIdx_cons, h a (by simp), findIdx_append fun x hx => h x (by simp [hx])]
    simp; omega

theorem findIdx_first {α} {p : α → Bool} {as : List α} (h : ∀ a ∈ as, p a = true) : as.findIdx p = 0 := by
  cases as with
  | nil => rfl
  | cons a as => simp [List.findIdx_cons, h a (by simp)]

namespace Cut
variable {m pre run rest : List (Str × Str)} {k : Str}

theorem bytesLt_false {a b : Str} (h : ¬ a < b) : bytesLt a b = false := by
  rw [← Bool.not_eq_true, bytesLt_iff]; exact h

theorem lower (h : Cut m pre run rest k) : lowerBound m k = pre.length := by
  rw [lowerBound, h.eq, List.append_assoc, findIdx_append, findIdx_first, Nat.add_zero]
  · intro a ha
    rw [List.mem_append] at ha
    rcases ha with ha | ha
    · rw [h.same a ha, bytesLt_false (str_lt_irrefl _)]; rfl
    · rw [bytesLt_false fun h' => str_lt_irrefl _ (str_lt_trans h' (h.after a ha))]; rfl
  · intro a ha
    rw [(bytesLt_iff _ _).2 (h.before a ha)]; rfl

theorem upper (h : Cut m pre run rest k) : upperBound m k = pre.length + run.length := by
  rw [upperBound, h.eq, findIdx_append, findIdx_first, List.length_append, Nat.add_zero]
  · intro a ha
    exact (bytesLt_iff _ _).2 (h.after a ha)
  · intro a ha
    rw [List.mem_append] at ha
    rcases ha with ha | ha
    · exact bytesLt_false fun h' => str_lt_irrefl _ (str_lt_trans h' (h.before a ha))
    · rw [h.same a ha]; exact bytesLt_false (str_lt_irrefl _)

theorem count (h : Cut m pre run rest k) : Binding.count m k = run.length := by
  have h1 : (pre.filter fun q => !bytesLt q.1 k && !bytesLt k q.1) = [] := by
    rw [List.filter_eq_nil_iff]
    intro a ha
    rw [(bytesLt_iff _ _).2 (h.before a ha)]; simp
  have h2 : (rest.filter fun q => !bytesLt q.1 k && !bytesLt k q.1) = [] := by
    rw [List.filter_eq_nil_iff]
    intro a ha
    rw [(bytesLt_iff _ _).2 (h.after a ha)]; simp
  have h3 : (run.filter fun q => !bytesLt q.1 k && !bytesLt k q.1) = run := by
    rw [List.filter_eq_self]
    intro a ha
    rw [h.same a ha, bytesLt_false (str_lt_irrefl _)]; rfl
  rw [Binding.count, h.eq, List.filter_append, List.filter_append, h1, h2, h3]; simp

theorem values (h : Cut m pre run rest k) : valuesOf m k = run.map (·.2) := by
  have h1 : pre.filter (fun q => decide (q.1 = k)) = [] := by
    rw [List.filter_eq_nil_iff]
    intro a ha
    simp only [decide_eq_true_eq]
    intro e
    exact str_lt_irrefl _ (e ▸ h.before a ha)
  have h2 : rest.filter (fun q => decide (q.1 = k)) = [] := by
    rw [List.filter_eq_nil_iff]
    intro a ha
    simp only [decide_eq_true_eq]
    intro e
    exact str_lt_irrefl _ (e ▸ h.after a ha)
  have h3 : run.filter (fun q => decide (q.1 = k)) = run := by
    rw [List.filter_eq_self]
    intro a ha
    simp [h.same a ha]
  rw [valuesOf, h.eq, List.filter_append, List.filter_append, h1, h2, h3]; simp

end Cut

/-- The rest of a sorted map is cut after the entries with the name of its first one. -/
theorem cut_of_sorted {pre suf : List (Str × Str)} {q : Str × Str} (hm : KeySorted (pre ++ q :: suf))
    (hpre : ∀ p ∈ pre, p.1 < q.1) : ∃ run rest, suf = run ++ rest ∧ Cut (pre ++ q :: suf) pre (q :: run) rest q.1 := by
  refine ⟨suf.takeWhile (·.1 = q.1), suf.dropWhile (·.1 = q.1), (List.takeWhile_append_dropWhile).symm, ?_⟩
  obtain ⟨_, h2, _⟩ := sorted_append hm
  unfold KeySorted at h2
  rw [List.pairwise_cons] at h2
  refine ⟨by simp [List.takeWhile_append_dropWhile], hpre, ?_, ?_⟩
  · intro p hp
    rcases List.mem_cons.1 hp with rfl | hp
    · rfl
    · have := List.all_takeWhile (l := suf) (p := fun x : Str × Str => decide (x.1 = q.1))
      rw [List.all_eq_true] at this
      simpa using this p hp
  · have key : ∀ (l : List (Str × Str)), (∀ p ∈ l, ¬ p.1 < q.1) → l.Pairwise (fun a b => ¬ b.1 < a.1) →
        ∀ p ∈ l.dropWhile (·.1 = q.1), q.1 < p.1 := by
      intro l hl hs
      induction l with
      | nil => simp
      | cons x l ih =>
        rw [List.pairwise_cons] at hs
        rw [List.dropWhile_cons]
        split
        · exact ih (fun p hp => hl p (by simp [hp])) hs.2
        · rename_i hx
          have hlt : q.1 < x.1 := by
            rcases str_tri q.1 x.1 with h3 | h3 | h3
            · exact h3
            · simp [h3] at hx
            · exact absurd h3 (hl x (by simp))
          intro p hp
          rcases List.mem_cons.1 hp with rfl | hp
          · exact hlt
          · rcases str_tri q.1 p.1 with h3 | h3 | h3
            · exact h3
            · exact absurd (h3 ▸ hlt) (hs.1 p hp)
            · exact absurd (str_lt_trans h3 hlt) (hs.1 p hp)
    exact key suf h2.1 h2.2

/-- An entry whose values are converted by `cv`. -/
def Entry.map {μ : Type} (f : Str → μ) : Entry Str → Entry μ
  | .one v => .one (f v)
  | .many vs => .many (vs.map f)

section loops
variable {σ ν : Type} {conv : Str → B ν} {put : σ → Str → Entry ν → B σ}

theorem packLoop_eq {cv : Str → ν} {m : List (Str × Str)} : ∀ (run pre rest : List (Str × Str)) (acc : List ν),
    m = pre ++ run ++ rest → (∀ p ∈ run, conv p.2 = pure (cv p.2)) →
    packLoop conv m pre.length (pre.length + run.length) acc = pure (acc ++ run.map fun p => cv p.2)
  | [], pre, rest, acc, _, _ => by rw [packLoop]; simp
  | q :: run, pre, rest, acc, hm, hc => by
    rw [packLoop, if_neg (by simp), hm, List.append_assoc, List.getElem?_append_right (Nat.le_refl _), Nat.sub_self,
      List.cons_append, List.getElem?_cons_zero]
    simp only [hc q (by simp), pure_bind]
    have := packLoop_eq (cv := cv) (m := m) run (pre ++ [q]) rest (acc ++ [cv q.2]) (by simp [hm])
      (fun p hp => hc p (by simp [hp]))
    rw [hm] at this
    simp only [List.length_append, List.length_cons, List.length_nil, Nat.zero_add] at this
    rw [show pre.length + (q :: run).length = pre.length + 1 + run.length by simp; omega]
    simp only [List.append_assoc, List.cons_append, List.nil_append, List.map_cons] at this ⊢
    exact this

/-- The entries of a sorted map, one after the other. -/
theorem mapLoop_eq {cv : Str → ν} {m : List (Str × Str)} (hm : KeySorted m) (hc : ∀ p ∈ m, conv p.2 = pure (cv p.2))
    {step : σ → Str × Entry Str → σ}
    (hput : ∀ o k e, (∃ p ∈ m, p.1 = k) → (∀ v, e = .one v → ∃ p ∈ m, p.2 = v) →
      put o k (e.map cv) = pure (step o (k, e))) :
    ∀ (n : Nat) (pre suf : List (Str × Str)) (o : σ), suf.length ≤ n → m = pre ++ suf →
      (∀ p ∈ pre, ∀ q ∈ suf, p.1 < q.1) →
      ∃ es : List (Str × Entry Str), mapLoop conv put m pre.length o = pure (es.foldl step o) ∧ (keysOf pre ++ es.map (·.1) = keysOf m) ∧
        ∀ x ∈ es, x.2 = entryOf (valuesOf m x.1)
  | n, pre, [], o, _, he, _ => by
    refine ⟨[], ?_, ?_, ?_⟩
    · rw [mapLoop, he]; simp
    · simp [he]
    · simp
  | 0, _, _ :: _, _, hn, _, _ => by simp at hn
  | n + 1, pre, q :: suf, o, hn, he, hlt => by
    obtain ⟨run, rest, hsuf, hcut⟩ := cut_of_sorted (he ▸ hm) fun p hp => hlt p hp q (by simp)
    rw [← he] at hcut
    have hget : m[pre.length]? = some q := by rw [he]; simp
    have hrest : m = (pre ++ q :: run) ++ rest := hcut.eq
    have hlen : rest.length ≤ n := by
      have : suf.length = run.length + rest.length := by rw [hsuf, List.length_append]
      simp at hn; omega
    have hlt' : ∀ p ∈ pre ++ q :: run, ∀ r ∈ rest, p.1 < r.1 := by
      intro p hp r hr
      rw [List.mem_append] at hp
      rcases hp with hp | hp
      · exact str_lt_trans (hcut.before p hp) (hcut.after r hr)
      · rw [hcut.same p hp]; exact hcut.after r hr
    have hkeys : keysOf (pre ++ q :: run) = keysOf pre ++ [q.1] := by
      have key : ∀ (l : List (Str × Str)), (∀ p ∈ l, p.1 = q.1) → keysOf (pre ++ q :: l) = keysOf pre ++ [q.1] := by
        intro l hl
        induction l using concat_induction with
        | h0 =>
          rw [keysOf_concat, if_neg]
          intro h
          obtain ⟨v, hv⟩ := mem_keysOf.1 h
          exact str_lt_irrefl _ (hcut.before (q.1, v) hv)
        | h1 l p ih =>
          rw [show pre ++ q :: (l ++ [p]) = (pre ++ q :: l) ++ [p] by simp, keysOf_concat,
            ih fun p hp => hl p (by simp [hp]), if_pos]
          rw [hl p (by simp)]; simp
      exact key run fun p hp => hcut.same p (by simp [hp])
    have hqm : q ∈ m := by rw [he]; simp
    by_cases hrun : run = []
    · subst hrun
      have hv : entryOf (valuesOf m q.1) = .one q.2 := by rw [hcut.values]; rfl
      obtain ⟨es, h1, h2, h3⟩ := mapLoop_eq hm hc hput n (pre ++ [q]) rest (step o (q.1, .one q.2)) hlen hrest hlt'
      refine ⟨(q.1, .one q.2) :: es, ?_, ?_, ?_⟩
      · rw [mapLoop, hget]
        simp only [hcut.count, List.length_cons, List.length_nil, Nat.zero_add, Nat.lt_add_one, if_true, hc q hqm, pure_bind]
        have := hput o q.1 (.one q.2) ⟨q, hqm, rfl⟩ (fun v hv => ⟨q, hqm, by simpa using hv⟩)
        simp only [Entry.map] at this
        rw [this, pure_bind]
        simpa using h1
      · rw [← h2, hkeys]; simp
      · intro x hx
        rcases List.mem_cons.1 hx with rfl | hx
        · exact hv.symm
        · exact h3 x hx
    · have hlen2 : 2 ≤ (q :: run).length := by
        cases run with
        | nil => exact absurd rfl hrun
        | cons _ _ => simp
      have hv : entryOf (valuesOf m q.1) = .many ((q :: run).map (·.2)) := by
        rw [hcut.values]
        cases run with
        | nil => exact absurd rfl hrun
        | cons _ _ => rfl
      obtain ⟨es, h1, h2, h3⟩ := mapLoop_eq hm hc hput n (pre ++ q :: run) rest
        (step o (q.1, .many ((q :: run).map (·.2)))) hlen hrest hlt'
      refine ⟨(q.1, .many ((q :: run).map (·.2))) :: es, ?_, ?_, ?_⟩
      · rw [mapLoop, hget]
        simp only
        rw [hcut.count, if_neg (by omega), hcut.lower, hcut.upper,
          packLoop_eq (cv := cv) (q :: run) pre rest [] hcut.eq (fun p hp => hc p (by
            rw [hcut.eq]; exact List.mem_append_left _ (List.mem_append_right _ hp)))]
        have := hput o q.1 (.many ((q :: run).map (·.2))) ⟨q, hqm, rfl⟩ (fun v hv => by simp at hv)
        simp only [Entry.map, List.map_map] at this
        simp only [pure_bind, List.nil_append]
        rw [show ((q :: run).map fun p => cv p.2) = (q :: run).map (cv ∘ fun x => x.2) from rfl, this, pure_bind]
        simpa using h1
      · rw [← h2, hkeys]; simp
      · intro x hx
        rcases List.mem_cons.1 hx with rfl | hx
        · exact hv.symm
        · exact h3 x hx

/-- The loop over a sorted map puts its entries in order. -/
theorem mapLoop_ents {cv : Str → ν} {m : List (Str × Str)} (hm : KeySorted m) (hc : ∀ p ∈ m, conv p.2 = pure (cv p.2))
    {step : σ → Str × Entry Str → σ}
    (hput : ∀ o k e, (∃ p ∈ m, p.1 = k) → (∀ v, e = .one v → ∃ p ∈ m, p.2 = v) →
      put o k (e.map cv) = pure (step o (k, e))) (o : σ) :
    mapLoop conv put m 0 o = pure ((entsOf m).foldl step o) := by
  obtain ⟨es, h1, h2, h3⟩ := mapLoop_eq hm hc hput m.length [] m o (Nat.le_refl _) rfl (by simp)
  have : es = entsOf m := by
    have h2' : es.map (·.1) = keysOf m := by simpa [keysOf] using h2
    rw [entsOf, ← h2', List.map_map]
    symm
    conv => rhs; rw [← List.map_id es]
    apply List.map_congr_left
    intro x hx
    exact Prod.ext rfl (h3 x hx).symm
  rw [← this]
  exact h1

end loops

/-- Putting entries with different names into a dict one after the other. -/
theorem dictSet_new {κ ν : Type} [DecidableEq κ] : ∀ (d : List (κ × ν)) (k : κ) (v : ν), k ∉ d.map (·.1) →
    dictSet d k v = d ++ [(k, v)]
  | [], _, _, _ => rfl
  | q :: d, k, v, h => by
    rw [List.map_cons, List.mem_cons, not_or] at h
    rw [dictSet, if_neg (fun e => h.1 e.symm), dictSet_new d k v h.2]; rfl

theorem foldl_dictSet {κ ν α : Type} [DecidableEq κ] (key : α → κ) (val : α → ν) : ∀ (es : List α) (d : List (κ × ν)),
    (d.map (·.1) ++ es.map key).Nodup → es.foldl (fun d x => dictSet d (key x) (val x)) d = d ++ es.map fun x => (key x, val x)
  | [], d, _ => by simp
  | x :: es, d, h => by
    rw [List.foldl_cons, dictSet_new, foldl_dictSet key val es]
    · simp
    · simpa using h
    · rw [List.nodup_append] at h
      intro hk
      exact h.2.2 _ hk _ (by simp) rfl

end Hext
