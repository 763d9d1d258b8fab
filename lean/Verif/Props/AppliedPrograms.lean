import Verif.Props.AppliedMore
import Verif.Props.CliMeaning
import Verif.Props.CliFailure
import Verif.Props.CallsIff
import Verif.Props.Bindings
import Verif.Props.EveryMap
import Verif.Props.NodeOrder
import Verif.Props.Html
import Verif.Props.Work
import Verif.Props.Scarce
import Verif.Props.Order
import Verif.Props.Records
import Verif.Props.Failing
import Verif.Props.Pretty
import Verif.Props.Concat
import Verif.Props.Reorder
/-!
# The theorems about the programs and the bindings, applied

Each theorem is applied to a concrete case. This shows that its hypotheses can be met, all at once.
-/

namespace Hext.Props.Applied

open Hext Hext.Props Hext.Syn Hext.Cli

/-! ## C42 -/

/-- The values of one match. -/
def twoValues : List (Str × Str) := [(lit "x", lit "1"), (lit "x", lit "2")]
theorem twoValues_isMap : IsMap twoValues twoValues := ⟨by decide, fun _ => rfl⟩
theorem twoValues_noNul : NoNul twoValues := by simp only [NoNul, twoValues]; decide
theorem twoValues_utf8 : IsUtf8 twoValues := by
  have h : ∀ n, n < 128 → ∃ t, IsUtf8Of [UInt8.ofNat n] t := by
    intro n hn
    refine ⟨[n], by simp only [List.mem_singleton, forall_eq, IsScalar]; omega, ?_⟩
    have : ∀ n < 128, [UInt8.ofNat n] = enc n := by decide +kernel
    simpa using this n hn
  simp only [IsUtf8, twoValues, List.mem_cons, List.not_mem_nil, or_false]
  rintro p (rfl | rfl)
  · exact ⟨h 120 (by decide), h 49 (by decide)⟩
  · exact ⟨h 120 (by decide), h 50 (by decide)⟩
example := C42_presented_alike_partial twoValues_isMap twoValues_noNul twoValues_utf8
example := C42_every_map twoValues_isMap
example (js : Binding.Js) := C42_node_object twoValues_isMap twoValues_utf8 js

/-! ## C43 to C53, C65: the program htmlext -/

theorem hasHext {o : Opts} (h : o.str = [lit "<a href:x/>"]) : o.hext ≠ [] ∨ o.str ≠ [] := .inr (by simp [h])

theorem numbers (filter : Option Str) (array : Bool) : ShortNumbers exWorld { exOpts with filter := filter, array := array } :=
  ⟨by simp [exOpts], by simp only [exOpts, List.mem_singleton, forall_eq]; exact noLong_of_few (by decide)⟩

example := C43_filter (o := { exOpts with filter := some (lit "x"), array := false }) rfl rfl rfl (hasHext rfl) (by simp [exOpts]) rfl (ex_run (some (lit "x")) false)
example := C43_filter_lines_partial (o := { exOpts with filter := some (lit "x"), array := false }) rfl rfl rfl (hasHext rfl) (by simp [exOpts]) rfl (ex_run (some (lit "x")) false)
example := C43_filter_lines_iff (o := { exOpts with filter := some (lit "x"), array := false }) rfl rfl rfl (hasHext rfl) (by simp [exOpts]) rfl (ex_run (some (lit "x")) false)
example := C44_objects (o := { exOpts with filter := none, array := false }) rfl rfl rfl (hasHext rfl) (by simp [exOpts]) rfl rfl (ex_reliable none false) (ex_run none false)
example := C44_array_partial (o := { exOpts with filter := none, array := true }) rfl rfl rfl (hasHext rfl) (by simp [exOpts]) rfl rfl (ex_reliable none true) (ex_run none true)
example := C44_array_iff (o := { exOpts with filter := none, array := true }) rfl rfl rfl (hasHext rfl) (by simp [exOpts]) rfl rfl (ex_reliable none true) (ex_run none true)
example := C53_json_per_line (o := { exOpts with filter := none, array := false }) rfl rfl rfl (hasHext rfl) (by simp [exOpts]) rfl rfl rfl (.inr rfl) (ex_reliable none false) (ex_run none false)
example := C65_output_limited (o := { exOpts with filter := none, array := false }) rfl rfl rfl (hasHext rfl) (by simp [exOpts]) exWorld_trees (numbers none false) (ex_run none false)
example := C65_json (o := { exOpts with filter := none, array := false }) rfl rfl rfl (hasHext rfl) (by simp [exOpts]) rfl rfl rfl (.inr rfl) (ex_reliable none false) exWorld_trees (ex_run none false)
example := C65_filter (o := { exOpts with filter := some (lit "x"), array := false }) rfl rfl rfl (hasHext rfl) (by simp [exOpts]) rfl exWorld_trees (numbers (some (lit "x")) false) (ex_run (some (lit "x")) false)
example := C90_codes _ _ _ (ex_run none false)
example := C93_pretty (W := exWorld) (w := ()) (o := { exOpts with filter := none, array := false }) rfl rfl rfl (hasHext rfl) (by simp [exOpts]) rfl
example := C93_default (W := exWorld) (w := ()) (o := exOpts) rfl rfl
example := C54_crashes (W := exWorld) (w := ()) rfl

/-! ## C45, C55: calls from other languages -/

example := C45_node_limit_partial 1000 (by decide)
example := C55_rule_iff Ex.rx true (lit "<a href:x/>") (by decide)
example := C55_node_rule_iff Ex.rx true (lit "<a href:x/>") (by decide +kernel)
example := C55_ruby_extract few (href_parsed Ex.rx true) document 5
example := C55_php_extract few (href_parsed Ex.rx true) document 5

/-! ## C46: documents -/

section
open Hext.HtmlMem
example := C46_documents_partial (ops := [.newBuffer 0 (lit "<a>"), .construct 0 0, .read 0])
  (.cons (.newBuffer rfl) (.cons (.construct rfl rfl) (.cons (.read rfl) .nil))) (by simp [Op.Moves])
example : ∃ f, Alive (fun _ => none) [.new 0 (lit "a"), .delete 0] f ∧ ∃ s, runs start ([WOp.new 0 (lit "a"), .delete 0].flatMap WOp.ops) = pure s :=
  ⟨_, .new rfl (.delete (by simp [HtmlMem.set]) .nil), (C46_wrapper (.new rfl (.delete (by simp [HtmlMem.set]) .nil))).imp fun _ h => h.1⟩
example := C46_main (fun v => (v.elems, 2 * v.capacity + 1)) 3 [lit "<a>", lit "<b>"] 2 (by decide)
example := C46_main_reads (fun v => (v.elems, 2 * v.capacity + 1)) 3 [lit "<a>", lit "<b>"] (by decide)
end

/-! ## C73, C77, C88, C94, C96, C98, C103 -/

example := C77_steps (rx := Ex.rx) limit safe Ex.doc_ok
example := C94_no_limit (rx := Ex.rx) costsOne limit safe Ex.doc_ok
example := C96_order_iff (l := root) stored (fun x => x.self.ptr = 3)
example := C103_scan (rx := Ex.rx) limit href_safe (by simp [hrefRule, Rule.All, Rule.AllO, Rule.AllL, Ex.rule, Rule.appendMatch, Unmarked]) stored

end Hext.Props.Applied
