import Verif.Proofs.Pretty
import Verif.Props.Cli
/-!
# The layout of the output of htmlext (C93)
-/

namespace Hext.Props

open Cli Layout

variable {σ : Type} {W : World σ} {o : Opts} {w : σ}

/-- C93. With `--pretty` htmlext succeeds exactly if it does with `--compact`. The outputs differ only in blanks and line breaks outside of
strings, and the compact one has no blanks there at all. The lines of the pretty output are indented by four blanks for each open bracket. -/
theorem C93_pretty (hh : o.help = false) (hv : o.version = false) (hl : o.lint = false) (hx : o.hext ≠ [] ∨ o.str ≠ [])
    (hi : o.html ≠ []) (hf : o.filter = none) :
    (∀ out err, main W (.ok { o with pretty := true, compact := false }) w = some (.exit 0 out err) → Indented out ∧
      ∃ out', main W (.ok { o with pretty := false, compact := true }) w = some (.exit 0 out' err) ∧
        squeeze .start out = squeeze .start out' ∧ squeeze .start out' = out'.filter (· ≠ 10)) ∧
    (∀ out' err, main W (.ok { o with pretty := false, compact := true }) w = some (.exit 0 out' err) →
      ∃ out, main W (.ok { o with pretty := true, compact := false }) w = some (.exit 0 out err)) := by
  have e1 (results) : List.flatMap (render W { o with pretty := true, compact := false }) results =
      results.flatMap fun res => printJson res ⟨true, o.array⟩ := by
    congr 1; funext res; simp [render, hf, jsonOptions]
  have e2 (results) : List.flatMap (render W { o with pretty := false, compact := true }) results =
      results.flatMap fun res => printJson res ⟨false, o.array⟩ := by
    congr 1; funext res; simp [render, hf, jsonOptions]
  constructor
  · intro out err h
    rw [C50_success (o := { o with pretty := true, compact := false }) hh hv hl hx hi] at h
    obtain ⟨rfl, rules, texts, results, h1, rfl⟩ := h
    obtain ⟨q, hq, hq'⟩ := block_results o.array results
    rw [e1]
    refine ⟨(hq true).lines, results.flatMap fun res => printJson res ⟨false, o.array⟩, ?_, ?_, ?_⟩
    · rw [C50_success (o := { o with pretty := false, compact := true }) hh hv hl hx hi]
      exact ⟨rfl, rules, texts, results, h1, (e2 results).symm⟩
    · exact (hq true).sq.trans (hq false).sq.symm
    · exact (hq false).sq.trans hq'.symm
  · intro out' err h
    rw [C50_success (o := { o with pretty := false, compact := true }) hh hv hl hx hi] at h
    obtain ⟨rfl, rules, texts, results, h1, rfl⟩ := h
    refine ⟨_, (C50_success (o := { o with pretty := true, compact := false }) hh hv hl hx hi _ _).2 ⟨rfl, rules, texts, results, h1, rfl⟩⟩

theorem extractLoop_same {o o' : Opts} (hm : o.maxSearches = o'.maxSearches) (hr : render W o = render W o') :
    ∀ ps, extractLoop W o ps = extractLoop W o' ps
  | [] => rfl
  | (r, text) :: rest => by
    simp only [extractLoop, extractFrom, hm, hr, extractLoop_same hm hr rest]

/-- C93. Without either option the output is pretty exactly if standard output is a terminal. -/
theorem C93_default (hp : o.pretty = false) (hc : o.compact = false) :
    main W (.ok o) w = main W (.ok { o with pretty := W.ttyOut, compact := !W.ttyOut }) w := by
  have hr : render W o = render W { o with pretty := W.ttyOut, compact := !W.ttyOut } := by
    funext res
    simp only [render, jsonOptions, hp, hc]
    cases W.ttyOut <;> rfl
  have hv : validate o = validate { o with pretty := W.ttyOut, compact := !W.ttyOut } := by
    rfl
  have hb : body W (.ok o) w = body W (.ok { o with pretty := W.ttyOut, compact := !W.ttyOut }) w := by
    simp only [body, ← hv, extractLoop_same (o := o) (o' := { o with pretty := W.ttyOut, compact := !W.ttyOut }) rfl hr]
  simp only [main, hb]

/-- `htmlext --pretty -s '<a href:x/>' -i page.html`. -/
example : main exWorld (.ok { exOpts with filter := none, pretty := true }) () =
    some (.exit 0 (lit "{\n    \"x\": \"1\"\n}\n{\n    \"x\": \"2\"\n}\n") []) := by
  refine (C50_success rfl rfl rfl (.inr (by simp [exOpts])) (by simp [exOpts]) _ _).2 ⟨rfl, _, _, _, ex_succeeds none false, ?_⟩
  simp only [List.flatMap_cons, List.flatMap_nil, List.append_nil]
  decide +kernel

/-- The line of the value has four blanks, the line of the bracket that closes has none; squeezed, the text is the compact one. -/
example : Indented (lit "{\n    \"x\": \"1\"\n}\n") ∧ squeeze .start (lit "{\n    \"x\": \"1\"\n}\n") = lit "{\"x\":\"1\"}" := by
  obtain ⟨q, hq, _⟩ := block_results false [[[(lit "x", lit "1")]]]
  have h := (hq true).lines
  have e : ([[[(lit "x", lit "1")]]].flatMap fun res => printJson res ⟨true, false⟩) = lit "{\n    \"x\": \"1\"\n}\n" := by decide +kernel
  rw [e] at h
  exact ⟨h, by decide +kernel⟩

/-- Two blanks are too few. -/
example : ¬ Indented (lit "{\n  \"x\": \"1\"\n}\n") := by
  intro h
  obtain ⟨_, h⟩ := h (lit "{") (lit "  \"x\": \"1\"\n}\n") (by decide +kernel)
  rcases h with h | ⟨c, rest, h, h1, h2⟩
  · exact absurd h (by decide)
  · have e : (Reader.start.after (lit "{")).depth = 1 := by decide +kernel
    rw [e] at h
    split at h
    · have : lit "  \"x\": \"1\"\n}\n" = 32 :: lit " \"x\": \"1\"\n}\n" := by decide +kernel
      rw [this] at h
      simp at h
      exact h1 h.1.symm
    · have : lit "  \"x\": \"1\"\n}\n" = 32 :: 32 :: 34 :: lit "x\": \"1\"\n}\n" := by decide +kernel
      rw [this] at h
      simp [List.replicate] at h

end Hext.Props
