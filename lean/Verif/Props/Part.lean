import Verif.Proofs.Part
import Verif.Props.Amount
set_option linter.unusedSimpArgs false
/-!
# C80: extracting from a part of a document
-/

namespace Hext.Props

open Hext Part
open scoped List

section
variable {rx : RxEngine} {h : Heap} {n : Nat} {r : Rule} {l x y : Loc}

theorem reach_stored (hl : l.Stored h n) (hx : l.Reach x) : x.Stored h n := by
  obtain ⟨ks, hks, hxk⟩ := (searched_nodes l x).2 hx
  exact (searched_sibs hl ks hks).stored hxk

theorem result_of {ms : UInt64} {res : List (List (Str × Str))} (hn : n ≤ 2147483647) (hs : r.Safe n) (hl : l.Stored h n)
    (he : extract rx h r l.ptr ms = pure res) :
    (∃ maps, Maps rx h ((searchAt rx h r l).val.map found) maps ∧ res = maps.filter (· ≠ [])) ∧
      ¬ (ms ≠ 0 ∧ ms.toNat ≤ (searchAt rx h r l).cost) := by
  obtain ⟨res', _, ⟨maps, h1, h2⟩, h3⟩ := extract_result (rx := rx) hn hs hl
  rw [h3] at he
  split at he
  · cases he
  · next hc =>
    have := E.pure_inj he
    subst this
    exact ⟨⟨maps, h1, h2⟩, hc⟩

/-- C80. Take an extraction that started at some node, and an element `y` that it came by. An extraction that starts at the first child
of `y`, with the same rule and the same limit, gives a contiguous part of the result. -/
theorem part_of_whole (hn : n ≤ 2147483647) (hs : r.Safe n) (hl : l.Stored h n) (hy : l.Reach y)
    (he : y.self.kind.isElement = true) {c : Tree} {cs : List Tree} (hk : y.self.kids = c :: cs) {ms : UInt64}
    {res : List (List (Str × Str))} (hw : extract rx h r l.ptr ms = pure res) :
    ∃ part, extract rx h r c.ptr ms = pure part ∧ part <:+: res := by
  have hx : (⟨true, [], c, cs⟩ : Loc) ∈ locs y.self.kids := by simp [hk, locs, locsAux]
  have hxr : l.Reach ⟨true, [], c, cs⟩ := .child hy he hx
  have hst := reach_stored hl hxr
  obtain ⟨⟨maps, h1, rfl⟩, h2⟩ := result_of hn hs hl hw
  obtain ⟨part, _, ⟨maps', k1, rfl⟩, k2⟩ := extract_result (rx := rx) hn hs hst
  obtain ⟨ks, hks, hyk⟩ := (searched_nodes l y).2 hy
  have hmem : locs y.self.kids ∈ l.searched := searched_trans hks hyk (locs_mem_under he hx)
  obtain ⟨p1, p2⟩ := save_part (cs := chain (ownVal rx h) [] r) hmem
  have e : searchAt rx h r ⟨true, [], c, cs⟩ = save (chain (ownVal rx h) [] r) (locs y.self.kids) := by
    rw [hk]; rfl
  refine ⟨_, ?_, (maps_infix (p1.map found) h1 (by rw [← e]; exact k1)).filter _⟩
  rw [show c.ptr = (⟨true, [], c, cs⟩ : Loc).ptr from rfl, k2, if_neg]
  rw [e]
  unfold searchAt at h2
  intro hc
  exact h2 ⟨hc.1, Nat.le_trans hc.2 p2⟩

/-- C80 for a sole rule that is not greedy: whichever node that the extraction came by a second extraction starts at, its result is a
part of the first result, in the same order. -/
theorem C80_sole (hn : n ≤ 2147483647) (hs : r.Safe n) (hnx : r.next = none) (hg : r.isGreedy = false) (hl : l.Stored h n)
    (hx : l.Reach x) {ms ms' : UInt64} {res part : List (List (Str × Str))} (hw : extract rx h r l.ptr ms = pure res)
    (hp : extract rx h r x.ptr ms' = pure part) : part <+ res := by
  obtain ⟨⟨maps, h1, rfl⟩, _⟩ := result_of hn hs hl hw
  obtain ⟨⟨maps', k1, rfl⟩, _⟩ := result_of hn hs (reach_stored hl hx) hp
  obtain ⟨i, c, nx, ns⟩ := r
  simp only [Rule.next] at hnx
  subst hnx
  obtain ⟨d, hd, hgd⟩ : ∃ d, chain (ownVal rx h) [] (.mk i c none ns) = [d] ∧ d.greedy = false := ⟨_, rfl, hg⟩
  have hsv : ∀ l : Loc, (searchAt rx h (.mk i c none ns) l).val = l.searched.flatten.filterMap (oneGroup d) := by
    intro l
    unfold searchAt
    rw [hd, save_single d hgd]
    rfl
  rw [hsv] at h1 k1
  exact (maps_sublist (((onward_listed hx).filterMap _).map _) h1 k1).filter _

end

/-! ## Examples -/

theorem href_safe : hrefRule.Safe 1147483648 := parse_safe (noLong_of_few (by decide)) (href_parsed Ex.rx true)

/-- The innermost `div` of `docDeep`, whose children are the four links. -/
def deepY : Loc :=
  ⟨true, [], Ex.el 4 "div" [] [Ex.el 5 "a" [("href", "1")] [], Ex.el 6 "a" [("href", "2")] [], Ex.el 7 "a" [("href", "3")] [],
    Ex.el 8 "a" [("href", "4")] []], []⟩

theorem deepY_reach : (Loc.root docDeep).Reach deepY :=
  .child (.child (.child (.start (.head _)) rfl (.head _)) rfl (.head _)) rfl (.head _)

/-- The third of the links. -/
def deepX : Loc :=
  ⟨true, [Ex.el 5 "a" [("href", "1")] [], Ex.el 6 "a" [("href", "2")] []], Ex.el 7 "a" [("href", "3")] [], [Ex.el 8 "a" [("href", "4")] []]⟩

theorem deepX_reach : (Loc.root docDeep).Reach deepX := .child deepY_reach rfl (.tail _ (.tail _ (.head _)))

example : ∃ part, extract Ex.rx (docHeap 0 docDeep) braceRule 2 0 = pure part ∧ part <:+: deepResult :=
  part_of_whole (l := Loc.root docDeep) (y := Loc.root docDeep) (by decide) braceRule_safe docDeep_ok (.start (.head _)) rfl
    (c := Ex.el 2 "div" [] _) rfl deep_result

theorem deep_part : extract Ex.rx (docHeap 0 docDeep) hrefRule 7 0 = pure [[(lit "x", lit "3")], [(lit "x", lit "4")]] := by
  rw [show (7 : Ptr) = deepX.ptr from rfl, extract_eq (by decide) href_safe (reach_stored docDeep_ok deepX_reach)]
  decide +kernel

example : [[(lit "x", lit "3")], [(lit "x", lit "4")]] <+
    [[(lit "x", lit "1")], [(lit "x", lit "2")], [(lit "x", lit "3")], [(lit "x", lit "4")]] :=
  C80_sole (l := Loc.root docDeep) (x := deepX) (by decide) href_safe rfl rfl docDeep_ok deepX_reach deep_links deep_part

/-- `<a href:x/><a href:y/>` -/
def pairRule : Rule := Ex.rule "a" (caps := [Ex.capHref "x"]) (next := some (Ex.rule "a" (caps := [Ex.capHref "y"])))

theorem pairRule_safe : pairRule.Safe 1147483648 := by
  simp [pairRule, Ex.rule, Rule.Safe, Rule.All, Rule.AllO, Rule.AllL, RuleInfo.Safe, Match.SafeL, Match.SafeO, Match.Safe,
    Capture.Safe, Ex.capHref]

/-- The second of the links. -/
def deepZ : Loc :=
  ⟨true, [Ex.el 5 "a" [("href", "1")] []], Ex.el 6 "a" [("href", "2")] [], [Ex.el 7 "a" [("href", "3")] [], Ex.el 8 "a" [("href", "4")] []]⟩

theorem deepZ_reach : (Loc.root docDeep).Reach deepZ := .child deepY_reach rfl (.tail _ (.head _))

/-- C80. It matters that the part starts at a first child: two sibling rules pair up the links 1, 2, 3, 4 as (1, 2) and (3, 4), and if
the extraction starts at the second link, they pair up 2 and 3. -/
theorem C80_from_the_middle : (Loc.root docDeep).Reach deepZ ∧
    extract Ex.rx (docHeap 0 docDeep) pairRule docDeep.ptr 0 =
      pure [[(lit "x", lit "1"), (lit "y", lit "2")], [(lit "x", lit "3"), (lit "y", lit "4")]] ∧
    extract Ex.rx (docHeap 0 docDeep) pairRule deepZ.ptr 0 = pure [[(lit "x", lit "2"), (lit "y", lit "3")]] := by
  refine ⟨deepZ_reach, ?_, ?_⟩
  · rw [show docDeep.ptr = (Loc.root docDeep).ptr from rfl, extract_eq (by decide) pairRule_safe docDeep_ok]
    decide +kernel
  · rw [extract_eq (by decide) pairRule_safe (reach_stored docDeep_ok deepZ_reach)]
    decide +kernel

end Hext.Props
