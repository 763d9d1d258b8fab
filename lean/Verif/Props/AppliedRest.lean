import Verif.Props.AppliedPrograms
import Verif.Props.Options
import Verif.Props.Assign
import Verif.Props.Sink
import Verif.Props.Threads
import Verif.Props.Compose
import Verif.Props.Synonyms
import Verif.Props.Paths
import Verif.Props.Calls
set_option linter.unusedSimpArgs false
/-!
# Further theorems, applied

Each theorem is applied to a concrete case. This shows that its hypotheses can be met, all at once.
-/

namespace Hext.Props.Applied

open Hext Hext.Props Hext.Syn Hext.Cli

/-! ## C28, C36 -/

example := case_correct Ex.rx (lit "aB1")
example (r r' : Rule) (h : Means Ex.rx (lit "<a href:x/>") r) (h' : Means Ex.rx (lit "<a href:x/>") r') := C36_meaning_unique _ _ _ _ h h'

/-! ## C46 to C49, C72: memory -/

section
open Hext.HtmlMem
theorem moving : ∃ e, Vals noEnv [.newBuffer 0 (lit "<a>"), .construct 0 0, .moveConstruct 1 0, .read 1, .destroy 1, .destroy 0] e ∧
    ∀ v, e.htmls v = none := by
  refine ⟨_, .cons (.newBuffer rfl) (.cons (.construct rfl rfl) (.cons (.moveConstruct rfl rfl) (.cons (.read rfl)
    (.cons (.destroy rfl) (.cons (.destroy rfl) .nil))))), fun v => ?_⟩
  simp only [set_apply, noEnv]
  repeat' split
  all_goals rfl
example : runs start [.newBuffer 0 (lit "<a>"), .construct 0 0, .moveConstruct 1 0, .read 1, .destroy 1, .destroy 0] = throw .ub := by
  obtain ⟨e, h1, h2⟩ := moving
  exact C46_move_ub h1 ⟨.moveConstruct 1 0, by simp, by simp [Op.Moves]⟩ h2
example : runs start [.newBuffer 0 (lit "<a>"), .construct 0 0, .moveConstruct 1 0, .read 1, .destroy 1, .destroy 0] = throw .ub := by
  obtain ⟨e, h1, h2⟩ := moving
  exact (C46_ub_iff h1 h2).2 ⟨.moveConstruct 1 0, by simp, by simp [Op.Moves]⟩
end

section
open Hext.Mem Hext.Hist
example : assignCapture 1 0 exCaptures = throw .ub := assign_capture_without_pipe_ub (by decide) rfl rfl
example := assign_attribute_capture_partial exCaptures_wf exCaptures_bare exCaptures_piped (by decide) (by decide)
example := C72_assign_test (m := exTests) (a := 0) (b := 2) (v := .negate (.equals [1])) (v' := .negateNull)
    (S := [0, 1]) (S' := [2]) exTests_wf ⟨1, [1], rfl, ⟨rfl, rfl⟩, rfl⟩ ⟨rfl, rfl⟩ (by decide) rfl
example := assign_function_capture_partial (m := exMixed) (a := 8) (b := 9) (f := none) (f' := none) (name := [98]) (name' := [99]) (p := none) (p' := .last .toUpper)
    exMixed_wf ⟨none, [], rfl, rfl, rfl⟩ ⟨some 10, [10], rfl, ⟨rfl, rfl⟩, rfl⟩ (by decide) (by decide)
example : assignCapture 9 8 exMixed = throw .ub := assign_function_capture_without_pipe_ub (by decide) rfl rfl
example (m : Mem) := C73_constructor_terminates [120, 45, 121] true false m (by decide)
example := C73_enough (env := _) (Ex.before ++ [.destroy 1]) rfl
example : ∃ (m : Mem) (a : Nat), Mem.Stack.destroyRule 0 a m = throw .ub := by
  obtain ⟨m, a, S, _, h, hS⟩ := rule_in_memory hrefRule
  refine ⟨m, a, ?_⟩
  rw [C68_destroy h hS 0, if_neg]
  decide +kernel
example : ∃ (m : Mem) (a : Nat), Mem.Stack.copyRule 0 a m = throw .ub := by
  obtain ⟨m, a, S, w, h, hS⟩ := rule_in_memory hrefRule
  refine ⟨m, a, ?_⟩
  rw [C68_copy w h 0, if_neg]
  decide +kernel
end

/-! ## C55, C62 -/

example := C55_python_extract few (href_parsed Ex.rx true) document 5
example (js : Binding.Js) (n : Binding.JsNumber) := C55_node_extract js few (href_parsed Ex.rx true) document n
example := C62_link (rx := Ex.rx) true (tag := lit "a") (attr := lit "href") (key := lit "x") (isName_check (by decide +kernel))
  (isName_check (by decide +kernel)) (isName_check (by decide +kernel)) (by decide) document

/-! ## C67, C70, C71, C74 -/

theorem exits : Cli.main exWorld (.ok exOpts) () ≠ none := by
  intro h
  exact nomatch (ex_run (some (lit "x")) false).symm.trans h
example := C67_htmlext (th := thTwo) (lit "what") (.ok exOpts) () exits

theorem spelled₁ : Spells [.flag .lint, .value .hext (lit "a.hext")] [lit "-lxa.hext"] :=
  .shortValue (ks := [.lint]) (k := .hext) (v := lit "a.hext") (by simp; decide) rfl (by decide) .nil
theorem spelled₂ : Spells [.flag .lint, .value .hext (lit "a.hext")] [lit "-l", lit "-xa.hext"] :=
  .short (ks := [.lint]) (by simp) (by simp; decide)
    (.shortValue (ks := []) (k := .hext) (v := lit "a.hext") (by simp) rfl (by decide) .nil)
theorem spelled₃ : Spells [.value .hext (lit "a.hext"), .flag .lint] [lit "-xa.hext", lit "-l"] :=
  .shortValue (ks := []) (k := .hext) (v := lit "a.hext") (by simp) rfl (by decide) (.short (ks := [.lint]) (by simp) (by simp; decide) .nil)
example {is : List Cli.Item} (h : Spells is [lit "-lxa.hext"]) : is = [.flag .lint, .value .hext (lit "a.hext")] := C70_unambiguous h spelled₁
example (o : Opts) : readOptions (lit "htmlext") [lit "-l", lit "-xa.hext"] = .ok o ↔ readOptions (lit "htmlext") [lit "-xa.hext", lit "-l"] = .ok o :=
  C70_order spelled₂ spelled₃ (by simp) (List.Perm.swap _ _ _) (fun k => by cases k <;> rfl)
example : (∀ o, readOptions (lit "htmlext") [lit "-l", lit "-xa.hext"] = .ok o ↔ readOptions (lit "htmlext") [lit "-lxa.hext"] = .ok o) :=
  (C71_spelling_iff spelled₂ spelled₁).2 (.inr (.inl (by simp)))

/-! ## C87, C88, C89, C94, C100, C102 -/

example := C87_child (l := Loc.root docBoxes) (by decide) boxRule_safe paraRule_safe rfl rfl rfl docBoxes_ok boxes_found boxes_para
example := C94_hext (rx := Ex.rx) costsOne few (href_parsed Ex.rx true) document
example := C88_blank (rx := Ex.rx) (charSigned := true) (s := lit " # x\n") ⟨[.space 32, .comment (lit " x")], by simp [Item.Ok, IsSpace, Item.IsFiller]; decide, by decide⟩
  (href_parsed Ex.rx true)
section
open Threads
example (ms : UInt64) (m : Nat) := C89_safe (rx := Ex.rx) alternating_untouched (alternating_fair false) (by decide) (mixedRule_safe 2147483647) mixedDoc_ok ms m
example (ms : UInt64) (m m' : Nat) := C89_schedules (rx := Ex.rx) alternating_untouched (alternating_fair false) alternating_untouched (alternating_fair false)
  (by decide) (mixedRule_safe 2147483647) mixedDoc_ok ms m m'
example (ms : UInt64) (m : Nat) := C89_hext (rx := Ex.rx) few (href_parsed Ex.rx true) alternating_untouched (alternating_fair true)
  (isDocument_of_ok (t := mixedDoc) (by decide +kernel)) ms m
end
example : (Trait.nth true false .odd).Synonym (.nth true false (.linear false (lit "2") true (lit "1"))) :=
  C100_nth (p := (2, -1 + 2)) (q := (2, -1)) rfl rfl fun pos => (shift_back (a := 2) (b := -1) (by decide) pos).symm
example {res : List (List (Str × Str))}
    (he : extract Ex.rx Ex.heap (pathOf (lit "href") (lit "x") (lit "div") [(false, lit "a")]).rule root.ptr 0 = pure res) :=
  C102_rules (val := ownValues Ex.rx Ex.heap) limit (p := pathOf (lit "href") (lit "x") (lit "div") [(false, lit "a")]) (by
    simp only [pathOf, Path.infos, List.mem_cons, List.not_mem_nil, or_false]
    rintro i (rfl | rfl)
    · exact ⟨by simp [RuleInfo.Safe, tagInfo, Match.SafeL, Match.SafeO, Match.Safe, Capture.Safe], rfl, rfl⟩
    · exact ⟨by simp [RuleInfo.Safe, linkInfo, Match.SafeL, Match.SafeO, Match.Safe, Capture.Safe], rfl, rfl⟩)
    (ownValues_isVal _ _ _ _) stored he

end Hext.Props.Applied
