import Verif.Proofs.Spelled
import Verif.Props.Parser
import Verif.Props.Concat
/-!
# C41: which options apply to a regular expression, for every hext
-/

namespace Hext.Props

open Syn

/-- C41, what the code does for every hext: a regular expression has the options that are written on it and those of
all regular expressions in front of it, back to the end of the last attribute pattern. -/
theorem C41_reaching_options (rx : RxEngine) (charSigned : Bool) (is : List Item) (hok : ∀ i ∈ is, i.Ok) (r : Rule) :
    parseHext rx charSigned (itemsText is) = .ok r ↔ Own.Means rx (Spelled.items [] is).1 r :=
  Spelled.parse_spelled hok r

/-- The hext `<a:type-matches(/x/i)/><b href=~/y//>` means what `<a:type-matches(/x/i)/><b href=~/y/i/>` should. -/
example : (∀ i ∈ leaky, i.Ok) ∧ itemsText (Spelled.items [] leaky).1 = lit "<a:type-matches(/x/i)/><b href=~/y/i/>" :=
  ⟨leaky_ok, by decide⟩

/-- Behind a pattern nothing is left: `<a:type-matches(/x/i) b=~/y/ c=~/z//>` is `<a:type-matches(/x/i) b=~/y/i c=~/z//>`. -/
example : itemsText (Spelled.items [] [.start ⟨[], lit "a", [.trait (.typeMatches (rxLit "x" true))],
      [(lit " ", .testAttr (lit "b") (.regex (rxLit "y" false)) false),
       (lit " ", .testAttr (lit "c") (.regex (rxLit "z" false)) false)], []⟩ true]).1 =
    lit "<a:type-matches(/x/i) b=~/y/i c=~/z//>" := by decide

/-- C88, for every first hext: the rules of the second one are added behind those of the first one, with the options that
reach them from the first one. -/
theorem C88_reaching_options {rx : RxEngine} {charSigned : Bool} {is js : List Item} (hi : ∀ i ∈ is, i.Ok)
    (hj : ∀ i ∈ js, i.Ok) {r q : Rule} (hr : parseHext rx charSigned (itemsText is) = .ok r)
    (hq : Own.Means rx (Spelled.items (Spelled.items [] is).2 js).1 q) (bi : ¬ BlankHext (itemsText is))
    (bj : ¬ BlankHext (itemsText js)) :
    parseHext rx charSigned (itemsText is ++ itemsText js) = .ok (r.appendNext q) := by
  obtain ⟨rs, hs, rfl⟩ := (C41_reaching_options rx charSigned is hi r).1 hr
  obtain ⟨qs, ht, rfl⟩ := hq
  have h1 := Spelled.spelled_seq hs [] is rfl
  have h2 := Spelled.spelled_seq ht _ js rfl
  cases rs with
  | nil => exact absurd rfl (seq_blank hi h1 bi)
  | cons a as =>
    cases qs with
    | nil => exact absurd rfl (seq_blank hj h2 bj)
    | cons b bs =>
      refine (parse_iff ..).2 ⟨is ++ js, _, (a :: as) ++ (b :: bs), items_ok_append hi hj, (itemsText_append _ _).symm,
        Syn.Seq.append h1 h2, ?_⟩
      simp only [ruleOf, List.cons_append, chain_append]

/-- C88, if the first hext leaves no options behind, whether or not it has a `:type-matches`. -/
theorem C88_concat_quiet {rx : RxEngine} {charSigned : Bool} {is js : List Item} (hi : ∀ i ∈ is, i.Ok)
    (hj : ∀ i ∈ js, i.Ok) {r q : Rule} (hr : parseHext rx charSigned (itemsText is) = .ok r)
    (hq : parseHext rx charSigned (itemsText js) = .ok q) (bi : ¬ BlankHext (itemsText is))
    (bj : ¬ BlankHext (itemsText js)) (hn : (Spelled.items [] is).2 = []) :
    parseHext rx charSigned (itemsText is ++ itemsText js) = .ok (r.appendNext q) :=
  C88_reaching_options hi hj hr (by rw [hn]; exact (C41_reaching_options rx charSigned js hj q).1 hq) bi bj

/-- `<a:type-matches(/x/i) b/>` has a `:type-matches` with an option and leaves nothing behind. -/
example : (Spelled.items [] [.start ⟨[], lit "a", [.trait (.typeMatches (rxLit "x" true))],
    [(lit " ", .hasAttr (lit "b") false)], []⟩ true]).2 = [] := rfl

end Hext.Props
