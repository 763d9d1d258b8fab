import Verif.Spec.ResultGroups
import Verif.Props.Extract
/-!
# Results of `Rule::extract` group by group

The theorems on groups of `Verif/Props/Extract.lean`, stated about what `extract` returns: whenever it
returns `res`, there are groups for which `res` stands, and they are as claimed.
-/

namespace Hext.Props

open Hext

section
variable {rx : RxEngine} {h : Heap} {n : Nat} {r : Rule} {l : Loc}

/-- C06. Whatever `extract` returns stands for groups of the following shape: the rules of the top-level chain
are assigned to nodes of one list of siblings. Listed in document order, these nodes are different, each
is matched by its rule, and the rules appear in the order of the chain: rule number `i` `counts[i]` times. -/
theorem C06_result (hn : n ≤ 2147483647) (hr : r.Safe n) (hl : l.Stored h n) {ms : UInt64}
    {res : List (List (Str × Str))} (he : extract rx h r l.ptr ms = pure res) :
    ∃ gs, StandsFor rx h res gs ∧ ∀ g ∈ gs, ∃ ks ∈ l.searched, ∃ asg : List (Rule × Loc),
      asg ≠ [] ∧ asg.Sublist g ∧ (asg.map (·.2)).Sublist ks ∧ ((asg.map (·.2)).map Loc.ptr).Nodup ∧
      (∀ a ∈ asg, Sat (Holds rx h) a.1 a.2) ∧
      ∃ counts : List Nat, counts.length = r.siblings.length ∧
        asg.map (·.1) = (List.zipWith (fun k c => List.replicate k c) counts r.siblings).flatten ∧
        ∀ p ∈ counts.zip r.siblings, (p.1 = 0 → p.2.isOptional = true) ∧ (2 ≤ p.1 → p.2.isGreedy = true) := by
  obtain ⟨gs, maps, h1, h2, h3⟩ := extract_isResult hn hr hl he
  exact ⟨gs, ⟨maps, h2, h3⟩, fun g hg => group_shape hl h1 hg⟩

/-- C07. Whatever `extract` returns stands for groups in each of which every mandatory rule of the chain is
matched; and there is a group for every searched list of siblings in which the mandatory rules can be
matched in order. -/
theorem C07_result (hn : n ≤ 2147483647) (hr : r.Safe n) (hl : l.Stored h n) {ms : UInt64}
    {res : List (List (Str × Str))} (he : extract rx h r l.ptr ms = pure res) :
    ∃ gs, StandsFor rx h res gs ∧
      (∀ g ∈ gs, ∀ c ∈ r.siblings, c.isOptional = false → ∃ x, (c, x) ∈ g ∧ Sat (Holds rx h) c x) ∧
      ((∃ c ∈ r.siblings, c.isOptional = false) → ∀ ks ∈ l.searched, Embeds (Holds rx h) r.siblings ks →
        ∃ g ∈ gs, ∃ rest, Group (Holds rx h) r.siblings ks g rest) := by
  obtain ⟨gs, maps, h1, h2, h3⟩ := extract_isResult hn hr hl he
  refine ⟨gs, ⟨maps, h2, h3⟩, fun g hg c hc ho => ?_, fun hm ks hks hemb => embedding_gives_group h1 hm hks hemb⟩
  obtain ⟨x, hx⟩ := group_mandatory h1 hg hc ho
  exact ⟨x, hx, (h1.placed g hg _ hx).1⟩

/-- C08. Whatever `extract` returns stands for groups in which the uses of the rules of the top-level chain never
share a node, and two uses of one rule occur only if that rule is greedy. -/
theorem C08_result (hn : n ≤ 2147483647) (hr : r.Safe n) (hl : l.Stored h n) {ms : UInt64}
    {res : List (List (Str × Str))} (he : extract rx h r l.ptr ms = pure res) :
    ∃ gs, StandsFor rx h res gs ∧ ∀ g ∈ gs,
      ∃ asg : List (Rule × Loc), asg.Sublist g ∧ (∀ a ∈ asg, a.1 ∈ r.siblings) ∧
        (∀ c ∈ r.siblings, c.isOptional = false → ∃ x, (c, x) ∈ asg) ∧
        asg.Pairwise fun a b => a.2.ptr ≠ b.2.ptr ∧ (a.1 = b.1 → a.1.isGreedy = true) := by
  obtain ⟨gs, maps, h1, h2, h3⟩ := extract_isResult hn hr hl he
  exact ⟨gs, ⟨maps, h2, h3⟩, fun g hg => group_nongreedy_once hl h1 hg⟩

/-- C09, for a greedy rule that is optional, or that is reached while no other rule is waiting for matches: see
`greedy_takes_all_partial`. The full claim, without `hpos`, fails: see `C09_result_once`. -/
theorem C09_result_partial (hn : n ≤ 2147483647) (hr : r.Safe n) (hl : l.Stored h n) {ms : UInt64}
    {res : List (List (Str × Str))} (he : extract rx h r l.ptr ms = pure res)
    {pre post : List Rule} {c : Rule} (hc : r.siblings = pre ++ c :: post) (hgr : c.isGreedy = true)
    (hpos : c.isOptional = true ∨ waitingAfter Rule.isOptional Rule.isGreedy pre = false) :
    ∃ gs, StandsFor rx h res gs ∧ ∀ g ∈ gs,
      ∃ ks ∈ l.searched, ∃ ns, ns <:+ ks ∧ ∃ (a1 a2 a3 : List (Rule × Loc)) (p mid s1 : List Loc),
        (a1 ++ a2 ++ a3).Sublist g ∧ ns = p ++ mid ++ s1 ∧
        EndsWith Prod.snd a1 p ∧ (∀ a ∈ a1, a.1 ∈ pre) ∧ (∀ a ∈ a2, a.1 = c) ∧ (∀ a ∈ a3, a.1 ∈ post) ∧
        a2.map Prod.snd = satIn (Sat (Holds rx h)) c mid ∧
        StopsAt Rule.isOptional (Sat (Holds rx h)) Prod.fst Prod.snd (r.siblings.find? (! Rule.isOptional ·)) post a3 s1 := by
  obtain ⟨gs, maps, h1, h2, h3⟩ := extract_isResult hn hr hl he
  exact ⟨gs, ⟨maps, h2, h3⟩, fun g hg => greedy_takes_all_partial h1 hg hc hgr hpos⟩

/-- C09, the exact limit: a mandatory rule that is reached while another rule is waiting for matches is used exactly
once in every group of a result, even if it is greedy. -/
theorem C09_result_once (hn : n ≤ 2147483647) (hr : r.Safe n) (hl : l.Stored h n) {ms : UInt64}
    {res : List (List (Str × Str))} (he : extract rx h r l.ptr ms = pure res)
    {pre post : List Rule} {c : Rule} (hc : r.siblings = pre ++ c :: post) (ho : c.isOptional = false)
    (hpos : waitingAfter Rule.isOptional Rule.isGreedy pre = true) :
    ∃ gs, StandsFor rx h res gs ∧ ∀ g ∈ gs,
      ∃ (steps : List (Anchored Assigned)) (final : List Assigned) (us1 : List Assigned) (u : Assigned) (us3 : List Assigned),
        g = groupPairs steps final ∧ Anchored.uses steps final = us1 ++ u :: us3 ∧ u.rule = c ∧
        (∀ v ∈ us1, v.rule ∈ pre ∧ v.rule ≠ c) ∧ ∀ v ∈ us3, v.rule ∈ post ∧ v.rule ≠ c := by
  obtain ⟨gs, maps, h1, h2, h3⟩ := extract_isResult hn hr hl he
  exact ⟨gs, ⟨maps, h2, h3⟩, fun g hg => greedy_once h1 hg hc ho hpos⟩

/-- The groups of a search, by the list of siblings in which they were found. -/
theorem Search.byList {own : RuleInfo → Loc → Prop} {chain : List Rule} {kss : List (List Loc)} {gs : List Found}
    (hs : Search own chain kss gs) : ∃ per : List (List Found), per.length = kss.length ∧ per.flatten = gs ∧
      ∀ p ∈ kss.zip per, Groups own chain p.1 p.2 := by
  induction kss generalizing gs with
  | nil => cases hs; exact ⟨[], rfl, rfl, by simp⟩
  | cons ks kss ih =>
    cases hs with
    | @cons _ _ _ gs1 gs2 hg hs =>
      obtain ⟨per, h1, h2, h3⟩ := ih hs
      refine ⟨gs1 :: per, by simp [h1], by simp [h2], ?_⟩
      intro p hp
      rw [List.zip_cons_cons, List.mem_cons] at hp
      rcases hp with rfl | hp
      · exact hg
      · exact h3 p hp

/-- C10. Whatever `extract` returns stands for groups that come list of siblings by list of siblings, in the order in
which these are searched. Those of one list are disjoint and in document order: listing the nodes
assigned to the chain's rules, group after group, runs through the siblings from left to right without
repetition. -/
theorem C10_result (hn : n ≤ 2147483647) (hr : r.Safe n) (hl : l.Stored h n) {ms : UInt64}
    {res : List (List (Str × Str))} (he : extract rx h r l.ptr ms = pure res) :
    ∃ per : List (List Found), per.length = l.searched.length ∧ StandsFor rx h res per.flatten ∧
      ∀ q ∈ l.searched.zip per, ∃ asgs : List (List (Rule × Loc)), asgs.length = q.2.length ∧
        (asgs.flatten.map (·.2)).Sublist q.1 ∧ (asgs.flatten.map (·.2.ptr)).Nodup ∧
        ∀ p ∈ asgs.zip q.2, p.1 ≠ [] ∧ p.1.Sublist p.2 ∧ (∀ a ∈ p.1, a.1 ∈ r.siblings) ∧
          ∀ c ∈ r.siblings, c.isOptional = false → ∃ x, (c, x) ∈ p.1 := by
  obtain ⟨gs, maps, h1, h2, h3⟩ := extract_isResult hn hr hl he
  obtain ⟨per, e1, rfl, e3⟩ := Search.byList h1
  refine ⟨per, e1, ⟨maps, h2, h3⟩, fun q hq => ?_⟩
  have hks := (List.of_mem_zip hq).1
  obtain ⟨asgs, k1, k2, k3⟩ := (e3 q hq).assign
  have e : ((asgs.map fun as => as.map fun a => (a.rule, a.loc)).flatten) =
      asgs.flatten.map fun a => (a.rule, a.loc) := by
    rw [List.map_flatten]
  refine ⟨asgs.map fun as => as.map fun a => (a.rule, a.loc), by simpa using k1, ?_, ?_, ?_⟩
  · rw [e, List.map_map]; exact k2
  · rw [e, List.map_map]
    have := k2.map Loc.ptr
    rw [List.map_map] at this
    exact this.nodup (searched_sibs hl q.1 hks).nodup
  · intro p hp
    rw [List.zip_map_left] at hp
    obtain ⟨p', hp', rfl⟩ := List.mem_map.1 hp
    obtain ⟨seg, _, j1, j2, j3, j4, j5, j6⟩ := k3 p' hp'
    refine ⟨by simpa using j4, j6, ?_, ?_⟩
    · intro a ha
      obtain ⟨b, hb, rfl⟩ := List.mem_map.1 ha
      exact j1.mem _ (List.mem_map.2 ⟨b, hb, rfl⟩)
    · intro c hc ho
      obtain ⟨a, ha, rfl⟩ := List.mem_map.1 (j1.mandatory c hc ho)
      exact ⟨a.loc, List.mem_map.2 ⟨a, ha, rfl⟩⟩

/-- C12. Whatever `extract` returns stands for groups in which every pair is either a rule of the top-level chain on
a node of a searched list of siblings, or stands below another pair of the same group: a child rule on a
child of the node that its parent rule matched, or a nested rule on a proper descendant of that node. -/
theorem C12_result (hn : n ≤ 2147483647) (hr : r.Safe n) (hl : l.Stored h n) {ms : UInt64}
    {res : List (List (Str × Str))} (he : extract rx h r l.ptr ms = pure res) :
    ∃ gs, StandsFor rx h res gs ∧ ∀ g ∈ gs, ∀ p ∈ g, Sat (Holds rx h) p.1 p.2 ∧
      ((p.1 ∈ r.siblings ∧ ∃ ks ∈ l.searched, p.2 ∈ ks) ∨
        ∃ o ∈ g, (p.1 ∈ chainOf o.1.child ∧ o.2.self.kind.isElement = true ∧ p.2 ∈ locs o.2.self.kids) ∨
          ∃ q ∈ o.1.nested, p.1 ∈ q.siblings ∧ ∃ ks ∈ o.2.self.under, p.2 ∈ ks) := by
  obtain ⟨gs, maps, h1, h2, h3⟩ := extract_isResult hn hr hl he
  exact ⟨gs, ⟨maps, h2, h3⟩, fun g hg p hp => h1.placed g hg p hp⟩

/-- The hypotheses hold for `<div><a href:x/><?b href:y/></div>` on the document of the examples, with a result that
is not empty. -/
example : (2147483647 : Nat) ≤ 2147483647 ∧ Ex.r.Safe 2147483647 ∧ (Loc.root Ex.doc).Stored Ex.heap 2147483647 ∧
    extract Ex.rx Ex.heap Ex.r (Loc.root Ex.doc).ptr 0 = pure [[(lit "x", lit "1"), (lit "x", lit "2")]] := by
  refine ⟨Nat.le_refl _, Ex.r_safe _, Ex.doc_ok, ?_⟩
  rw [extract_eq (rx := Ex.rx) (h := Ex.heap) (n := 2147483647) (by decide) (Ex.r_safe _)
    (l := Loc.root Ex.doc) Ex.doc_ok]
  decide +kernel

end

end Hext.Props
