import Verif.Proofs.ThrowingCli
import Verif.Props.Cli
import Verif.Props.Whole
/-!
# Regular expressions and functions that throw (C67)
-/

namespace Hext.Props

open Throwing

variable {th : Throws} {rx rx' : RxEngine} {h : Heap} {n : Nat} {r : Rule} {t : Tree}

/-- C67. If some searches of regular expressions and some functions of the user throw, then an extraction throws, or it does
exactly what it does if all of them answer. It never returns another result. -/
theorem C67_throws_or_same (hn : n ≤ 2147483647) (hr : r.Safe n) (ht : IsDocument h n t) (ms : UInt64) :
    Throwing.extract th rx h r t.ptr ms = throw .thrown ∨ Throwing.extract th rx h r t.ptr ms = extract rx h r t.ptr ms := by
  rcases extract_rel (t := th) (rx := rx) (h := h) r t.ptr ms with h1 | ⟨h1, _⟩ | h1
  · rcases extract_document_safe (rx := rx) hn hr ht ms with ⟨res, h2⟩ | ⟨_, h2⟩ <;> rw [h2] at h1 <;> exact nomatch h1
  · exact .inl h1
  · exact .inr h1

/-- C67 for hexts. -/
theorem C67_hext {charSigned : Bool} {s : Str} (hs : NoLong s) (hp : parseHext rx charSigned s = .ok r)
    (ht : IsDocument h 1147483648 t) (ms : UInt64) :
    Throwing.extract th rx h r t.ptr ms = throw .thrown ∨ Throwing.extract th rx h r t.ptr ms = extract rx h r t.ptr ms :=
  C67_throws_or_same (by decide) (parse_safe hs hp) ht ms

/-- C67. An extraction does not throw if nothing that it could call throws. -/
theorem C67_no_reason (hn : n ≤ 2147483647) (hr : r.Safe n) (ht : IsDocument h n t) (hth : ¬ th.Any) (ms : UInt64) :
    Throwing.extract th rx h r t.ptr ms = extract rx h r t.ptr ms := by
  rcases extract_rel (t := th) (rx := rx) (h := h) r t.ptr ms with h1 | ⟨_, h1⟩ | h1
  · rcases extract_document_safe (rx := rx) hn hr ht ms with ⟨res, h2⟩ | ⟨_, h2⟩ <;> rw [h2] at h1 <;> exact nomatch h1
  · exact absurd h1 hth
  · exact h1

/-- C67. An extraction does not make up answers. If the result depends on what the searches that throw would have found, that
is, if two engines that agree on all other searches give different results, then the extraction throws. -/
theorem C67_not_swallowed (hn : n ≤ 2147483647) (hr : r.Safe n) (ht : IsDocument h n t) (ha : SameAnswers th rx rx') (ms : UInt64)
    (hne : extract rx h r t.ptr ms ≠ extract rx' h r t.ptr ms) : Throwing.extract th rx h r t.ptr ms = throw .thrown := by
  rcases C67_throws_or_same (th := th) (rx := rx) hn hr ht ms with h1 | h1
  · exact h1
  · rcases C67_throws_or_same (th := th) (rx := rx') hn hr ht ms with h2 | h2
    · rw [extract_agree ha, h2]
    · exact absurd (by rw [← h1, ← h2, extract_agree ha]) hne

section cli

variable {σ : Type} {W : Cli.World σ}

/-- C67 for htmlext. If it ends when all searches answer, then with searches that throw it ends in the same way, or it exits
with code 1 and the message of the exception, after it has printed an initial part of its output. -/
theorem C67_htmlext (what : Str) (parsed : Except Str Cli.Opts) (w : σ) (hend : Cli.main W parsed w ≠ none) :
    Throwing.main th what W parsed w = Cli.main W parsed w ∨
    ∃ out, Throwing.main th what W parsed w = some (.exit 1 out (Cli.errorLine W (lit "Error") what)) ∧
      ∀ code out2 err, Cli.main W parsed w = some (.exit code out2 err) → out <+: out2 := by
  rcases body_rel (th := th) (what := what) (W := W) parsed w with h | h | ⟨out, h1, h2⟩
  · exact absurd (by rw [Cli.main, h]) hend
  · left; rw [Throwing.main, Cli.main, h]
    generalize Cli.body W parsed w = y
    rcases y with _ | ⟨out, _ | ⟨_ | _ | _ | _ | _⟩⟩ <;> rfl
  · right
    refine ⟨out, by rw [Throwing.main, h1], fun code out2 err h3 => ?_⟩
    rw [Cli.main] at h3
    split at h3 <;> cases h3
    all_goals exact h2 _ _ (by assumption)

/-- C67 for htmlext: with exit code 0 the output is complete. -/
theorem C67_exit_zero (what : Str) (parsed : Except Str Cli.Opts) (w : σ) (hend : Cli.main W parsed w ≠ none) (out err : Str)
    (h0 : Throwing.main th what W parsed w = some (.exit 0 out err)) : Cli.main W parsed w = some (.exit 0 out err) := by
  rcases C67_htmlext (th := th) what parsed w hend with h | ⟨out', h, _⟩
  · rw [← h]; exact h0
  · rw [h] at h0; cases h0

end cli

/-! ## Examples -/

/-- The hypotheses of `C67_htmlext` are met. -/
example : Cli.main exWorld (.ok exOpts) () ≠ none := by
  intro h
  exact nomatch (ex_run (some (lit "x")) false).symm.trans h

/-- An engine that finds everything. -/
def rxAll : RxEngine := ⟨fun _ s => some [s], fun _ s _ => s, fun _ => none⟩

/-- Searches in the text `2` throw. -/
def thTwo : Throws := ⟨fun _ s => s == lit "2", fun _ _ _ => false, fun _ _ _ => false, fun _ _ _ => false⟩

/-- An engine that agrees with `rxAll` on all texts but `2`. -/
def rxButTwo : RxEngine := ⟨fun _ s => if s == lit "2" then none else some [s], fun _ s _ => s, fun _ => none⟩

/-- `<a href=~/./ href:x/>` -/
def matchRule : Rule := (Ex.rule "a" (caps := [Ex.capHref "x"])).appendMatch
  (some (.attribute (lit "href") (some (.regex { src := lit "." }))))

theorem matchRule_safe (n : Nat) : matchRule.Safe n := by
  simp [Rule.Safe, Rule.All, Rule.AllO, Rule.AllL, matchRule, Ex.rule, Rule.appendMatch, RuleInfo.Safe, Match.SafeL, Match.Safe,
    Match.SafeO, Capture.Safe, Ex.capHref]

/-- The search in `href="2"` throws, and so does the extraction, although `href="1"` matches. -/
example : Throwing.extract thTwo rxAll Ex.heap matchRule Ex.doc.ptr 0 = throw .thrown := by
  refine C67_not_swallowed (rx := rxAll) (rx' := rxButTwo) (n := 2147483647) (by decide) (matchRule_safe _) Ex.doc_ok ⟨?_, fun _ _ _ _ => rfl⟩ 0 ?_
  · intro r s hs
    have h1 : ¬ s = lit "2" := by simpa [thTwo] using hs
    simp [rxAll, rxButTwo, h1]
  · rw [show extract rxAll Ex.heap matchRule Ex.doc.ptr 0 = extract rxAll Ex.heap matchRule (Loc.root Ex.doc).ptr 0 from rfl,
      show extract rxButTwo Ex.heap matchRule Ex.doc.ptr 0 = extract rxButTwo Ex.heap matchRule (Loc.root Ex.doc).ptr 0 from rfl,
      extract_eq (n := 2147483647) (by decide) (matchRule_safe _) (l := Loc.root Ex.doc) Ex.doc_ok,
      extract_eq (n := 2147483647) (by decide) (matchRule_safe _) (l := Loc.root Ex.doc) Ex.doc_ok]
    decide +kernel

/-- Nothing throws: both links are found. -/
example : Throwing.extract ⟨fun _ _ => false, fun _ _ _ => false, fun _ _ _ => false, fun _ _ _ => false⟩ rxAll Ex.heap matchRule
    Ex.doc.ptr 0 = pure [[(lit "x", lit "1")], [(lit "x", lit "2")]] := by
  rw [C67_no_reason (n := 2147483647) (by decide) (matchRule_safe _) Ex.doc_ok (by simp [Throws.Any])]
  show extract rxAll Ex.heap matchRule (Loc.root Ex.doc).ptr 0 = _
  rw [extract_eq (n := 2147483647) (by decide) (matchRule_safe _) (l := Loc.root Ex.doc) Ex.doc_ok]
  decide +kernel

end Hext.Props
