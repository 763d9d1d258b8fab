import Verif.Proofs.ParserSplit
/-!
# Every beginning of a hext that ends between items can be completed
-/

namespace Hext

open Syn

/-- The number of close tags and closing braces that are missing. -/
def missing : List (List Rule) → Nat
  | w :: _ :: st => w.length + (if st = [] then 0 else 1 + missing st)
  | _ => 0

theorem missing_add (r : Rule) (st : List (List Rule)) : missing (addRule r st) = missing st := by
  unfold addRule
  split <;> try rfl
  next p w st =>
  cases st with
  | nil => rfl
  | cons v st => rfl

/-- The tag `<a/>`. -/
def plainHead : Head := { options := [], tag := [97], conds := [], pats := [], ws := [] }

theorem plainHead_ok : plainHead.Ok := by
  refine ⟨.inr ⟨97, [], rfl, ?_, by simp⟩, by simp [plainHead], by simp [plainHead], by simp [plainHead]⟩
  simp [IsAlpha]

theorem plainHead_meaning (rx : RxEngine) (f : Flags) : ∃ info, plainHead.meaning rx f = some (info, f) := by
  let info : RuleInfo :=
    { tag := (tagMeaning [97]).1, tagname := (tagMeaning [97]).2, optional := false, greedy := false, ms := [], caps := [] }
  have h : plainHead.meaning rx f = some (info, f) := by
    simp [info, Head.meaning, plainHead, condsMeaning, patsMeaning]
  exact ⟨_, h⟩

/-- The braces that are open are closed, with a rule if there is none inside, and the tags too. -/
theorem Conf.close {rx} : ∀ (n : Nat) {is : List Item} {f st}, Conf rx is f st → missing st ≤ n → (∀ i ∈ is, i.Ok) →
    ∃ js f' rs, (∀ j ∈ js, j.Ok) ∧ Syn.Seq rx {} (is ++ js) f' rs := by
  intro n
  induction n with
  | zero =>
    intro is f st hc hm hok
    cases hc with
    | base h => exact ⟨[], f, _, by simp, by simpa using h⟩
    | @opened _ _ w st h _ _ _ _ _ _ h1 h2 h3 =>
      obtain ⟨w', v, st', e⟩ := h1.shape
      simp only [List.cons.injEq] at e
      obtain ⟨rfl, rfl⟩ := e
      simp [missing] at hm
    | @nest _ _ _ _ _ _ _ _ h1 h2 => simp [missing] at hm
  | succ n ih =>
    intro is f st hc hm hok
    cases hc with
    | base h => exact ⟨[], f, _, by simp, by simpa using h⟩
    | @opened is0 f0 w st h f1 info js f2 kids nested h1 h2 h3 =>
      obtain ⟨w', v, st', e⟩ := h1.shape
      simp only [List.cons.injEq] at e
      obtain ⟨rfl, rfl⟩ := e
      have hk : h.Ok := hok (.start h false) (by simp)
      have hc2 := h1.elem (.closed h2 h3 (closes_own h2))
      obtain ⟨ks, f', rs, k1, k2⟩ := ih hc2 (by rw [missing_add]; simp [missing] at hm ⊢; omega) (by
        intro i hi
        simp only [List.mem_append, List.mem_cons, List.not_mem_nil, or_false] at hi
        rcases hi with hi | (rfl | hi) | rfl
        · exact hok i (by simp [hi])
        · exact hk
        · exact hok i (by simp [hi])
        · exact hk.1)
      exact ⟨.stop h.tag :: ks, f', rs, by
        simp only [List.mem_cons, forall_eq_or_imp]; exact ⟨hk.1, k1⟩, by simpa using k2⟩
    | @nest is0 f0 r w st js f2 rs h1 h2 =>
      obtain ⟨w', v, st', e⟩ := h1.shape
      simp only [List.cons.injEq] at e
      obtain ⟨rfl, rfl⟩ := e
      obtain ⟨info, hp⟩ := plainHead_meaning rx f
      have hc1 := (Conf.nest h1 h2).elem (.selfClosing hp)
      obtain ⟨x, hx⟩ : ∃ x, addRule (mkRule info [] []) ([] :: result rs :: (r :: w) :: v :: st') =
          [] :: [x] :: (r :: w) :: v :: st' := by
        cases rs <;> exact ⟨_, rfl⟩
      rw [hx] at hc1
      have hc2 := hc1.step (i := .rbrace) (st' := (r.appendNested x :: w) :: v :: st') (f' := f) rfl
      obtain ⟨ks, f', rs, k1, k2⟩ := ih hc2 (by simp [missing] at hm ⊢; omega) (by
        intro i hi
        simp only [List.mem_append, List.mem_singleton] at hi
        rcases hi with (hi | rfl) | rfl
        · exact hok i (by simpa using hi)
        · exact plainHead_ok
        · trivial)
      refine ⟨.start plainHead true :: .rbrace :: ks, f', rs, ?_, by simpa using k2⟩
      simp only [List.mem_cons, forall_eq_or_imp]
      exact ⟨plainHead_ok, trivial, k1⟩

end Hext
