import Verif.Model.ThrowingCli
import Verif.Proofs.Throwing
/-!
# htmlext with regular expressions that throw
-/

namespace Hext.Throwing

open Cli hiding extractFrom extractLoop body main

variable {σ : Type} {th : Throws} {what : Str} {W : World σ}

theorem extractFrom_rel (o : Opts) (r : Rule) (t : Str) : Cli.extractFrom W o r t = none ∨
    extractFrom th what W o r t = some (.error (.std what)) ∨ extractFrom th what W o r t = Cli.extractFrom W o r t := by
  unfold Cli.extractFrom extractFrom
  simp only
  have hnt : extract th W.rx (W.gumbo t).1 r (W.gumbo t).2 o.maxSearches = throw .thrown →
      (match extract th W.rx (W.gumbo t).1 r (W.gumbo t).2 o.maxSearches with
        | none => none
        | some (.ok res) => some (pure res)
        | some (.error .maxSearch) => some (throw (.std (lit "The allowed amount of searches was exhausted")))
        | some (.error .thrown) => some (throw (.std what))
        | some (.error _) => some (throw .crash) : Option (Except Exc (List (List (Str × Str))))) = some (.error (.std what)) := by
    intro h; rw [h]; rfl
  rcases extract_rel (t := th) (rx := W.rx) (h := (W.gumbo t).1) r (W.gumbo t).2 o.maxSearches with h | ⟨h, _⟩ | h
  · rw [h]; exact .inl rfl
  · exact .inr (.inl (hnt h))
  · by_cases h' : extract th W.rx (W.gumbo t).1 r (W.gumbo t).2 o.maxSearches = throw .thrown
    · exact .inr (.inl (hnt h'))
    · right; right
      rw [h] at h' ⊢
      generalize Hext.extract W.rx (W.gumbo t).1 r (W.gumbo t).2 o.maxSearches = x at h'
      rcases x with _ | ⟨_ | _ | _ | _⟩ | res
      · rfl
      · rfl
      · rfl
      · rfl
      · exact absurd rfl h'
      · rfl

/-- The loop prints the same, or ends early with the exception. -/
def LoopRel (what : Str) (y x : Option (Str × Option Exc)) : Prop :=
  y = none ∨ x = y ∨ ∃ out, x = some (out, some (.std what)) ∧ ∀ out2 e, y = some (out2, e) → out <+: out2

theorem extractLoop_rel (o : Opts) : ∀ ps : List (Rule × Str),
    LoopRel what (Cli.extractLoop W o ps) (extractLoop th what W o ps)
  | [] => .inr (.inl rfl)
  | (r, t) :: ps => by
    rw [Cli.extractLoop, extractLoop]
    rcases extractFrom_rel (th := th) (what := what) (W := W) o r t with h | h | h
    · rw [h]; exact .inl rfl
    · rw [h]; exact .inr (.inr ⟨[], rfl, fun _ _ _ => List.nil_prefix⟩)
    · rw [h]
      generalize Cli.extractFrom W o r t = y
      rcases y with _ | e | res
      · exact .inl rfl
      · exact .inr (.inl rfl)
      · simp only
        rcases extractLoop_rel o ps with h1 | h1 | ⟨out, h1, h2⟩
        · rw [h1]; exact .inl rfl
        · rw [h1]; exact .inr (.inl rfl)
        · rw [h1]
          refine .inr (.inr ⟨_, rfl, fun out2 e h3 => ?_⟩)
          split at h3
          · cases h3
          · rename_i h4
            cases h3
            exact List.prefix_append_right_inj _ |>.2 (h2 _ _ h4)

theorem body_rel (parsed : Except Str Opts) (w : σ) : LoopRel what (Cli.body W parsed w) (body th what W parsed w) := by
  unfold Cli.body body
  cases parsed with
  | error e => exact .inr (.inl rfl)
  | ok o =>
    simp only
    cases validate o with
    | error e => exact .inr (.inl rfl)
    | ok u =>
      simp only
      by_cases h1 : o.help = true
      · rw [if_pos h1, if_pos h1]; exact .inr (.inl rfl)
      by_cases h2 : o.version = true
      · rw [if_neg h1, if_neg h1, if_pos h2, if_pos h2]; exact .inr (.inl rfl)
      rw [if_neg h1, if_neg h1, if_neg h2, if_neg h2]
      rcases parseFiles W o.hext w with ⟨e | rs, w1⟩
      · exact .inr (.inl rfl)
      simp only
      cases parseStrings W o.str with
      | error e => exact .inr (.inl rfl)
      | ok rs' =>
        simp only
        by_cases h3 : o.lint = true
        · rw [if_pos h3, if_pos h3]; exact .inr (.inl rfl)
        rw [if_neg h3, if_neg h3]
        rcases readHtml W o.html w1 with ⟨e | texts, w2⟩
        · exact .inr (.inl rfl)
        · exact extractLoop_rel _ _

end Hext.Throwing
