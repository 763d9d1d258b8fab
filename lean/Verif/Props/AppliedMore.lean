import Verif.Props.Applied
import Verif.Props.Memory
import Verif.Props.ParserSigned
import Verif.Props.Spelled
import Verif.Props.Number
import Verif.Props.Stack
import Verif.Props.TextStack
import Verif.Props.RuleStack
import Verif.Props.Throwing
import Verif.Props.Bound
import Verif.Props.Meaning
import Verif.Props.EndToEnd
/-!
# The theorems about memory, hexts and the stack, applied

Each theorem is applied to a concrete case. This shows that its hypotheses can be met, all at once.
-/

namespace Hext.Props.Applied

open Hext Hext.Props Hext.Syn

/-! ## C10, C30 -/

example : ∀ ks ∈ root.searched, ∀ gs, Groups (Holds Ex.rx Ex.heap) Ex.r.siblings ks gs → ∃ asgs : List (List (Rule × Loc)),
    asgs.length = gs.length ∧ (asgs.flatten.map (·.2.ptr)).Nodup := by
  intro ks hks gs hg
  obtain ⟨asgs, h1, _, h2, _⟩ := groups_disjoint stored hks hg
  exact ⟨asgs, h1, h2⟩

/-! ## C32, C33, C47, C48 -/

section
open Hext.Mem Hext.Hist Hext.Hist.Ex
example := copy_extracts_same before later 3 ⟨0, [.child]⟩ rfl (by decide)
example := assign_extracts_same before [.destroy 1] ⟨0, []⟩ ⟨0, [.child]⟩ rfl (by decide)
example := append_next_order before ⟨0, [.child]⟩ args (by simp [args]) args_independent rfl
example := append_child_order before ⟨0, []⟩ args (by simp [args]) args_independent rfl
example := append_nested_order before ⟨0, [.nested 0]⟩ nestedArgs (by simp [nestedArgs])
  ⟨by decide, by simp [nestedArgs, Arg.moves, Arg.source]⟩ rfl
example := rules_are_values before rfl
example := move_extracts_same before later 3 ⟨0, [.child]⟩ rfl (by decide)
example := move_assign_extracts_same_partial before [.destroy 1] ⟨0, [.nested 0]⟩ ⟨0, [.child]⟩ rfl (by decide)
example := move_assign_from_part_ub before later ⟨0, []⟩ ⟨0, [.child]⟩ rfl rfl (by decide) (by decide)
example := move_assign_to_part_leaks before ⟨0, [.child]⟩ ⟨0, []⟩ rfl rfl (by decide) (by decide)
example := move_assign_self_loses before ⟨0, [.child]⟩ rfl rfl
end

/-! ## C34 to C41 -/

theorem tag_isText (c : Byte) (h : IsAlpha c) : IsText (lit "<" ++ [c] ++ lit "/>") :=
  ⟨[.start ⟨[], [c], [], [], []⟩ true], by
    simp only [List.mem_singleton, forall_eq, Item.Ok, Head.Ok]
    simp [IsTag, IsName]
    exact .inr ⟨c, [], ⟨rfl, rfl⟩, h, by simp⟩, by simp [itemsText, Item.text, Head.text]; rfl⟩
theorem tagA_isText : IsText (lit "<a/>") := tag_isText 97 (by simp [IsAlpha])
theorem tagB_isText : IsText (lit "<b/>") := tag_isText 98 (by simp [IsAlpha])

example := C34_parse_safe_partial Ex.rx true (lit "<a href:x/>") (charSafe_ascii fun _ => by decide) (by decide)
example := C35_syntax_error_iff_partial Ex.rx true (lit "<a href:x>") (charSafe_ascii fun _ => by decide) (by decide)
example := C35_out_of_range Ex.rx true (lit "2147483648") (by decide) (by decide) (by decide)
example := C36_accepted_balanced Ex.rx true _ _ (href_parsed Ex.rx true)
example := C36_rule_has_tag hrefItems_ok (href_parsed Ex.rx true) hrefRule .refl
example := C36_tag_has_rule hrefItems_ok (href_parsed Ex.rx true) _ _ (List.mem_singleton.2 rfl)
example : ∃ s, Print.hext Ex.rx printable = some s ∧ parseHext Ex.rx true s = .ok printable := by
  have h : (Print.hext Ex.rx printable).isSome := by decide +kernel
  obtain ⟨s, hs⟩ := Option.isSome_iff_exists.1 h
  exact ⟨s, hs, C37_parse_print _ _ _ _ hs⟩
example := C37_print_parse Ex.rx true _ _ (href_parsed Ex.rx true)
example : parseHext Ex.rx true (lit "<a/>" ++ lit " # x\n" ++ lit "<b/>") = .ok (ruleOf [Ex.rule "a", Ex.rule "b"]) ↔
    parseHext Ex.rx true (lit "<a/>" ++ lit "<b/>") = .ok (ruleOf [Ex.rule "a", Ex.rule "b"]) :=
  C38_fill Ex.rx true _ _ _ tagA_isText ⟨[.space 32, .comment (lit " x")], by simp [Item.Ok, IsSpace, Item.IsFiller]; decide, by decide⟩
    tagB_isText _
example := C41_own_options_partial Ex.rx true hrefItems hrefItems_ok (by simp [hrefItems, Own.ItemPlain, tagHead, Own.PatPlain])
example := C41_reaching_options Ex.rx true leaky leaky_ok
example := C40_exact Ex.rx (lit "<ä/>") (by decide)

/-! ## C62 to C69 -/

theorem document : IsDocument Ex.heap 1147483648 Ex.doc := isDocument_of_ok (by decide +kernel)
theorem few : NoLong (lit "<a href:x/>") := noLong_of_few (by decide)
example := C63_meaning (rx := Ex.rx) (charSigned := true) few document
example := C63_total few (href_parsed Ex.rx true) document
example := C64_enough_searches (rx := Ex.rx) limit href_safe Ex.doc_ok 1000000 (by decide +kernel)
example := C66_hext few (href_parsed Ex.rx true) document 0
example := C69_exact (f := .text) link_stored 3
example := C69_enough (f := .innerHtml) link_stored 100 (by decide +kernel)
example := C69_overflow (f := .stripTags) 1000 (by simp)
section
open Mem
example (r : Rule) : ∃ (m : Mem) (a : Nat), ∃ m', Mem.Stack.destroyRule r.depth a m = pure ((), m') := by
  obtain ⟨m, a, S, _, h, hS⟩ := rule_in_memory r
  obtain ⟨m', h', _⟩ := C68_destroyed h hS _ (Nat.le_refl _)
  exact ⟨m, a, m', h'⟩
example (r : Rule) : ∃ (m : Mem) (a : Nat), ∃ a' m', Mem.Stack.copyRule r.depth a m = pure (a', m') := by
  obtain ⟨m, a, S, w, h, _⟩ := rule_in_memory r
  obtain ⟨a', _, m', h', _⟩ := C68_copied w h _ (Nat.le_refl _)
  exact ⟨m, a, a', m', h'⟩
example : ∃ (m : Mem) (a : Nat), Mem.Stack.destroyRule 12 a m = Mem.destroyRule a m := by
  obtain ⟨m, a, S, _, h, hS⟩ := rule_in_memory hrefRule
  exact ⟨m, a, (C68_hext (href_parsed Ex.rx true) h hS).2.2⟩
end
example := C67_throws_or_same (th := thTwo) (rx := Ex.rx) limit href_safe Ex.doc_ok 0
example := C67_hext (th := thTwo) few (href_parsed Ex.rx true) document 0

end Hext.Props.Applied
