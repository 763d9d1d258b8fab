import Verif.Proofs.ParserFill
import Verif.Spec.Example
/-!
# Reading on behind an accepted text

Once the automaton has read a text that it accepts, it goes on like at the beginning.
-/

namespace Hext

open Syn Check

/-- In the state `q` the automaton reads the byte `b` as at the beginning, after it has run what is left to do in `q`. -/
def likeStart (q : Nat) (b : Nat) : Bool :=
  let t := trans q (UInt8.ofNat b)
  let u := trans hextStart (UInt8.ofNat b)
  Nat.beq (packed Data.transTargs t) (packed Data.transTargs u) &&
    (Nat.beq (packed Data.transTargs t) 0 || beqL (transActs t) (eofActs q ++ transActs u))

theorem final_states : (upto 1 819).all (fun q => beqL (eofActs q) [88] || (upto 0 256).all (likeStart q)) = true := by
  decide +kernel

theorem start_eof : eofActs hextStart = [] := by decide +kernel

theorem likeStart_of {q : Nat} (h0 : q ≠ 0) (hq : q < 820) (hf : beqL (eofActs q) [88] = false) (b : Byte) :
    packed Data.transTargs (trans q b) = packed Data.transTargs (trans hextStart b) ∧
      (packed Data.transTargs (trans q b) ≠ 0 → transActs (trans q b) = eofActs q ++ transActs (trans hextStart b)) := by
  have h := List.all_eq_true.1 final_states q (mem_upto (by omega) (by omega))
  rw [hf, Bool.false_or] at h
  have h := List.all_eq_true.1 h b.toNat (mem_upto (by omega) (by have := b.toNat_lt; omega))
  simp only [likeStart, UInt8.ofNat_toNat, Bool.and_eq_true, Bool.or_eq_true] at h
  refine ⟨Nat.eq_of_beq_eq_true h.1, fun hn => ?_⟩
  rcases h.2 with h2 | h2
  · exact absurd (Nat.eq_of_beq_eq_true h2) hn
  · exact beqL_eq.1 h2

/-- A text behind an accepted text is read like a text of its own. -/
theorem accepts_append : ∀ (s t : Str) (q : Nat), q ≠ 0 → q < 820 → accepts q s = true →
    accepts q (s ++ t) = accepts hextStart t
  | [], [], q, h0, hq, h => by
    simp only [accepts] at h ⊢
    rw [List.nil_append, accepts, h, start_eof]; rfl
  | [], b :: t, q, h0, hq, h => by
    simp only [accepts, Bool.not_eq_true'] at h
    obtain ⟨h1, _⟩ := likeStart_of h0 hq h b
    simp only [List.nil_append, accepts, h1]
  | b :: s, t, q, h0, hq, h => by
    simp only [accepts, Bool.and_eq_true, bne_iff_ne] at h
    simp only [List.cons_append, accepts]
    rw [accepts_append s t _ h.1 (by obtain ⟨ks, es, ok⟩ := ok_of h0 hq; obtain ⟨m, hb, eok⟩ := edgeOk_trans ok b; exact eok.qlt) h.2]
    simp [h.1]

/-! ## Stacks that differ at the bottom -/

/-- The stacks differ only in the rules that were read before. -/
inductive SameTop : List (List Rule) → List (List Rule) → Prop
  | base {w b b'} : SameTop [w, b] [w, b']
  | up {w v st st'} : SameTop st st' → SameTop (w :: v :: st) (w :: v :: st')

theorem SameTop.add {st st'} (h : SameTop st st') (r : Rule) : SameTop (addRule r st) (addRule r st') := by
  cases h with
  | @base w b b' =>
    cases w with
    | nil => cases b <;> cases b' <;> exact .base
    | cons p w => exact .base
  | @up w v st st' h =>
    cases w with
    | nil => cases v <;> exact .up h
    | cons p w => exact .up h

theorem SameTop.top {st st'} (h : SameTop st st') : ∃ w v t t', st = w :: v :: t ∧ st' = w :: t' ∧
    ∀ u, SameTop (u :: v :: t) (u :: t') := by
  cases h with
  | base => exact ⟨_, _, _, _, rfl, rfl, fun _ => .base⟩
  | up h => exact ⟨_, _, _, _, rfl, rfl, fun _ => .up h⟩

theorem SameTop.step {rx f st st' i t f'} (h : SameTop st st') (hs : step rx f st i = some (t, f')) :
    ∃ t', Hext.step rx f st' i = some (t', f') ∧ SameTop t t' := by
  cases i with
  | space b => cases hs; exact ⟨_, rfl, h⟩
  | comment b => cases hs; exact ⟨_, rfl, h⟩
  | lbrace =>
    obtain ⟨w, v, x, x', rfl, rfl, _⟩ := h.top
    cases w with
    | nil => cases hs
    | cons r w => cases hs; exact ⟨_, rfl, .up h⟩
  | rbrace =>
    cases h with
    | base => simp [Hext.step] at hs
    | @up w v st st' h =>
      obtain ⟨w', v', x, x', rfl, rfl, h3⟩ := h.top
      simp only [Hext.step] at hs
      split at hs
      · next e =>
        simp only [List.cons.injEq] at e
        obtain ⟨rfl, rfl, rfl, rfl⟩ := e
        cases hs
        exact ⟨_, rfl, h3 _⟩
      · cases hs
  | start hd sc =>
    cases sc with
    | true =>
      simp only [Hext.step, Option.bind_eq_bind, Option.bind_eq_some_iff] at hs
      obtain ⟨x, h1, h2⟩ := hs
      cases h2
      exact ⟨addRule (bare x.1) st', by simp [Hext.step, h1], h.add _⟩
    | false =>
      obtain ⟨w, v, y, y', rfl, rfl, h3⟩ := h.top
      simp only [Hext.step, Option.bind_eq_bind, Option.bind_eq_some_iff] at hs
      obtain ⟨x, h1, h2⟩ := hs
      cases h2
      exact ⟨(bare x.1 :: w) :: y', by simp [Hext.step, h1], h3 _⟩
  | stop t0 =>
    obtain ⟨w, v, y, y', rfl, rfl, h3⟩ := h.top
    cases w with
    | nil => cases hs
    | cons r w =>
      simp only [Hext.step] at hs
      split at hs
      · next hc =>
        cases hs
        exact ⟨_, if_pos hc, (h3 w).add r⟩
      · cases hs

theorem SameTop.steps {rx} : ∀ {js : List Item} {f st st' t f'}, SameTop st st' → steps rx f st js = some (t, f') →
    ∃ t', Hext.steps rx f st' js = some (t', f') ∧ SameTop t t'
  | [], f, st, st', t, f', h, hs => by cases hs; exact ⟨_, rfl, h⟩
  | i :: js, f, st, st', t, f', h, hs => by
    simp only [Hext.steps, Option.bind_eq_bind, Option.bind_eq_some_iff] at hs
    obtain ⟨x, h1, h2⟩ := hs
    obtain ⟨t', k1, k2⟩ := h.step h1
    obtain ⟨u, k3, k4⟩ := k2.steps h2
    exact ⟨u, by simp [Hext.steps, k1, k3], k4⟩

/-- Rules behind complete rules that leave no options are rules of their own. -/
theorem seq_split {rx is js f rs rs1} (h : Syn.Seq rx {} (is ++ js) f rs) (h1 : Syn.Seq rx {} is {} rs1) :
    ∃ rs2, Syn.Seq rx {} js f rs2 := by
  have e := steps_of h [] []
  rw [steps_append, steps_of h1 [] []] at e
  simp only [Option.bind_some, List.nil_append] at e
  obtain ⟨t', k1, k2⟩ := SameTop.steps (st' := [[], []]) .base e
  have hc := (Conf.base (rx := rx) .nil).steps k1
  cases k2 with
  | base =>
    rcases hc.bottom with ⟨_, rs2, hs, _⟩ | ⟨r, w, e⟩
    · exact ⟨rs2, hs⟩
    · cases e
  | up h => cases h

/-- If a text is accepted and goes on to one that is accepted, then the part behind it consists of items. -/
theorem rest_items {s t : Str} (hs : IsText s) (hst : IsText (s ++ t)) : IsText t := by
  have text : ∀ {u : Str}, IsText u ↔ accepts hextStart u = true := by
    intro u
    constructor
    · rintro ⟨is, h1, rfl⟩
      exact ((grammar_iff _ _).mp ⟨(lang_main _).mpr ⟨is, h1, rfl⟩, chars_itemsWord is⟩).1
    · intro h
      obtain ⟨is, h1, h2, _⟩ := parse_accepted (c := { input := u, charSigned := false, rx := Ex.rx }) h
      exact ⟨is, h1, h2⟩
  rw [text] at hs hst ⊢
  rwa [accepts_append s t _ (by decide) (by decide) hs] at hst

/-- A rule is closed by its own tag. -/
theorem closes_own {rx : RxEngine} {f f' : Flags} {h : Head} {info : RuleInfo} (hm : h.meaning rx f = some (info, f')) :
    Closes info h.tag := by
  simp only [Head.meaning, Option.bind_eq_bind, Option.bind_eq_some_iff, Option.some.injEq, Prod.mk.injEq] at hm
  obtain ⟨_, _, _, _, rfl, _⟩ := hm
  simp only [Closes, tagMeaning]
  by_cases h42 : h.tag = [42]
  · simp [h42]
  · simp only [h42, if_false]
    cases hg : gumboTagEnum (cstr h.tag) <;> simp [h42]

end Hext
