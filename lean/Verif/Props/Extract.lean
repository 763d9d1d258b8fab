import Verif.Proofs.Unique
import Verif.Proofs.Once
import Verif.Spec.Example
/-!
# Properties of `Rule::extract`

`h` is the memory holding a parsed document, `l` a node of it (`Loc.root t` for the root element that
`extract(const Html&)` starts from), `r` a rule, `rx` any regex engine. `n` bounds the number of
children of a node; it must fit an `int`.
-/

namespace Hext.Props

open Hext

section
variable {rx : RxEngine} {h : Heap} {n : Nat} {r : Rule} {l : Loc}

/-! ## C01 -/

/-- C01. Extraction returns a result or throws `MaxSearchError`; it does not diverge, and it has no
undefined behaviour or failing assertion (all of these are outcomes different from the two listed). -/
theorem extract_terminates_safely (hn : n ≤ 2147483647) (hr : r.Safe n) (hl : l.Stored h n) (ms : UInt64) :
    (∃ res, extract rx h r l.ptr ms = pure res) ∨
    (ms ≠ 0 ∧ extract rx h r l.ptr ms = throw .maxSearch) := by
  obtain ⟨res, _, _, h2⟩ := extract_result (rx := rx) hn hr hl
  by_cases hc : ms ≠ 0 ∧ ms.toNat ≤ (searchAt rx h r l).cost
  · right; exact ⟨hc.1, by rw [h2, if_pos hc]⟩
  · left; exact ⟨res, by rw [h2, if_neg hc]⟩

/-- C01 for `extract(const Html&)`: the document's root element is a legal starting point. -/
theorem extract_document_safe {t : Tree} (hn : n ≤ 2147483647) (hr : r.Safe n) (ht : IsDocument h n t)
    (ms : UInt64) :
    (∃ res, extract rx h r t.ptr ms = pure res) ∨
    (ms ≠ 0 ∧ extract rx h r t.ptr ms = throw .maxSearch) :=
  extract_terminates_safely (l := Loc.root t) hn hr ht ms

/-- C01: every searched node of a document is a legal starting point as well. -/
theorem searched_nodes_stored {t : Tree} (ht : IsDocument h n t) :
    ∀ ks ∈ (Loc.root t).searched, ∀ x ∈ ks, x.Stored h n := searched_stored ht

example : (∃ res, extract Ex.rx Ex.heap Ex.r Ex.doc.ptr 0 = pure res) ∨
    ((0 : UInt64) ≠ 0 ∧ extract Ex.rx Ex.heap Ex.r Ex.doc.ptr 0 = throw .maxSearch) :=
  extract_document_safe (n := 2147483647) (by decide) (Ex.r_safe _) Ex.doc_ok 0

/-- Every finite tree with pairwise different addresses is a document, so the hypotheses of this file are
met by trees of every shape. -/
theorem every_tree_is_a_document (doc : Ptr) (t : Tree) (hn : ((docEntries doc t).map (·.1)).Nodup) :
    IsDocument (docHeap doc t) (maxFanout t) t :=
  docHeap_isDocument hn (fanout_of_max _ t (Nat.le_refl _))

/-! ## C02, C03 -/

/-- C02. Without a limit `MaxSearchError` is never thrown. -/
theorem extract_unlimited (hn : n ≤ 2147483647) (hr : r.Safe n) (hl : l.Stored h n) :
    ∃ res, extract rx h r l.ptr 0 = pure res := by
  rcases extract_terminates_safely (rx := rx) hn hr hl 0 with h | ⟨h, _⟩
  · exact h
  · exact absurd rfl h

/-- C03. There is a number `N` of searches; a limit `ms` throws exactly when `1 ≤ ms ≤ N`, and every other
limit gives the result of the unlimited extraction. -/
theorem max_searches_exact (hn : n ≤ 2147483647) (hr : r.Safe n) (hl : l.Stored h n) :
    ∃ N res, 1 ≤ N ∧ extract rx h r l.ptr 0 = pure res ∧ ∀ ms : UInt64, extract rx h r l.ptr ms =
      if 1 ≤ ms.toNat ∧ ms.toNat ≤ N then throw .maxSearch else pure res := by
  obtain ⟨res, _, _, h2⟩ := extract_result (rx := rx) hn hr hl
  refine ⟨(searchAt rx h r l).cost, res, ?_, ?_, fun ms => ?_⟩
  · simp only [searchAt, save]; omega
  · rw [h2]; simp
  · rw [h2]
    have : ms ≠ 0 ↔ 1 ≤ ms.toNat := by
      rw [ne_eq, ← UInt64.toNat_inj]; simp; omega
    simp only [this]

/-- C03: for rules without nested rules the number of searches is the number of sibling lists of the
searched part of the document. -/
theorem max_searches_flat (hn : n ≤ 2147483647) (hr : r.Safe n) (hl : l.Stored h n) (hf : r.Flat)
    (ms : UInt64) (hms : ms ≠ 0) :
    extract rx h r l.ptr ms = throw .maxSearch ↔ ms.toNat ≤ l.searched.length := by
  obtain ⟨res, _, _, h2⟩ := extract_result (rx := rx) hn hr hl
  have hc : (searchAt rx h r l).cost = l.searched.length :=
    save_cost (chain_flat (ownVal rx h) r hf []) l.onward
  rw [h2, hc]
  constructor
  · intro he
    split at he
    · rename_i h; exact h.2
    · cases he
  · intro he
    rw [if_pos ⟨hms, he⟩]

/-- C03: raising the limit never changes a result and never turns success into failure. -/
theorem max_searches_monotone (hn : n ≤ 2147483647) (hr : r.Safe n) (hl : l.Stored h n) {ms ms' : UInt64}
    {res : List (List (Str × Str))} (h0 : ms ≠ 0) (hle : ms ≤ ms' ∨ ms' = 0)
    (he : extract rx h r l.ptr ms = pure res) : extract rx h r l.ptr ms' = pure res := by
  obtain ⟨N, res', _, _, h1⟩ := max_searches_exact (rx := rx) hn hr hl
  rw [h1] at he ⊢
  have h0' : 1 ≤ ms.toNat := by
    rcases Nat.eq_zero_or_pos ms.toNat with h | h
    · exact absurd (UInt64.toNat_inj.1 (by simpa using h)) h0
    · exact h
  split at he
  · cases he
  · rename_i hN
    rw [if_neg, he]
    rcases hle with hle | rfl
    · have := UInt64.le_iff_toNat_le.1 hle; omega
    · simp

example : extract Ex.rx Ex.heap Ex.r Ex.doc.ptr 6 = throw .maxSearch ∧
    extract Ex.rx Ex.heap Ex.r Ex.doc.ptr 8 = pure [[(lit "x", lit "1"), (lit "x", lit "2")]] := by
  have hs := extract_eq (rx := Ex.rx) (h := Ex.heap) (n := 2147483647) (by decide) (Ex.r_safe _)
    (l := Loc.root Ex.doc) Ex.doc_ok
  have e : (Loc.root Ex.doc).ptr = Ex.doc.ptr := rfl
  rw [← e, hs, hs]
  decide +kernel

/-! ## The specification is met -/

/-- What `extract` returns are the maps of groups as specified in `Verif/Spec/Extract.lean`. -/
theorem extract_isResult (hn : n ≤ 2147483647) (hr : r.Safe n) (hl : l.Stored h n) {ms : UInt64}
    {res : List (List (Str × Str))} (he : extract rx h r l.ptr ms = pure res) : IsResult rx h r l res := by
  obtain ⟨res', _, ⟨maps, h1, h2⟩, h3⟩ := extract_result (rx := rx) hn hr hl
  rw [h3] at he
  split at he
  · cases he
  · have := E.pure_inj he
    subst this
    exact ⟨_, maps, searchAt_search r l, h1, h2⟩

/-- The specification determines the result: `extract` without limit returns `res` iff `res` is as specified. -/
theorem extract_characterised (hn : n ≤ 2147483647) (hr : r.Safe n) (hl : l.Stored h n)
    (res : List (List (Str × Str))) : extract rx h r l.ptr 0 = pure res ↔ IsResult rx h r l res := by
  constructor
  · exact extract_isResult hn hr hl
  · intro h'
    obtain ⟨res', he⟩ := extract_unlimited (rx := rx) hn hr hl
    rw [he, (extract_isResult hn hr hl he).unique h']

/-! ## C04, C12 -/

/-- C04. Every value of a result was captured by a rule `q` of the rule tree from a searched node `x`
that `q` matches: its tag and conditions hold for `x`, and so do its child and nested rules. -/
theorem extract_sound (hn : n ≤ 2147483647) (hr : r.Safe n) (hl : l.Stored h n) {ms : UInt64}
    {res : List (List (Str × Str))} (he : extract rx h r l.ptr ms = pure res)
    {m : List (Str × Str)} (hm : m ∈ res) {v : Str × Str} (hv : v ∈ m) :
    ∃ q x, SubRule q r ∧ (∃ ks ∈ l.searched, x ∈ ks) ∧ Sat (Holds rx h) q x ∧ Holds rx h q.info x ∧
      ∃ vs, ruleCapture rx h x.ptr q.info.caps = pure vs ∧ v ∈ vs := by
  obtain ⟨gs, maps, h1, h2, rfl⟩ := extract_isResult hn hr hl he
  obtain ⟨g, hg, vs, h3, h4⟩ := Maps.mem h2 (List.mem_filter.1 hm).1
  have hv' : v ∈ vs := by
    have : v ∈ m.filter (·.1 = v.1) := List.mem_filter.2 ⟨hv, by simp⟩
    rw [h4.2] at this
    exact (List.mem_filter.1 this).1
  obtain ⟨p, hp, ws, h5, h6⟩ := Captured.mem h3 hv'
  have hsat := (h1.placed g hg p hp).1
  have hcl := h1.closed (P := fun q x => SubRule q r ∧ ∃ ks ∈ l.searched, x ∈ ks)
    (fun p y q x hp hb => ⟨hb.subRule.trans hp.1, hb.searched hp.2⟩)
    (fun q hq ks hks x hx => ⟨siblings_subRule r q hq, ks, hks, hx⟩) g hg p hp
  refine ⟨p.1, p.2, hcl.1, hcl.2, hsat, ?_, ws, h5, h6⟩
  cases hsat with
  | leaf h => exact h
  | inner h => exact h

example : ∃ res, extract Ex.rx Ex.heap Ex.r (Loc.root Ex.doc).ptr 0 = pure res ∧
    [(lit "x", lit "1"), (lit "x", lit "2")] ∈ res := by
  refine ⟨[[(lit "x", lit "1"), (lit "x", lit "2")]], ?_, by simp⟩
  rw [extract_eq (rx := Ex.rx) (h := Ex.heap) (n := 2147483647) (by decide) (Ex.r_safe _)
    (l := Loc.root Ex.doc) Ex.doc_ok]
  decide +kernel

/-- C12. Every pair of a group is either a rule of the top-level chain on a node of a searched sibling list,
or stands below another pair of the same group: a child rule on a child of the node that its parent rule
matched, or a nested rule on a proper descendant of that node. -/
theorem pairs_placed {gs : List Found} (hs : Search (Holds rx h) r.siblings l.searched gs) :
    ∀ g ∈ gs, ∀ p ∈ g, (p.1 ∈ r.siblings ∧ ∃ ks ∈ l.searched, p.2 ∈ ks) ∨
      ∃ o ∈ g, (p.1 ∈ chainOf o.1.child ∧ o.2.self.kind.isElement = true ∧ p.2 ∈ locs o.2.self.kids) ∨
        ∃ q ∈ o.1.nested, p.1 ∈ q.siblings ∧ ∃ ks ∈ o.2.self.under, p.2 ∈ ks := by
  intro g hg p hp
  exact (hs.placed g hg p hp).2

/-! ## C06, C07, C08, C10 -/

/-- C06, C07, C08. The shape of a result group: the rules of the top-level chain are assigned to nodes of
one sibling list.
* The nodes are pairwise different and in document order (C06).
* Listed in this order, the rules appear in chain order, rule number `i` `ks[i]` times; a rule that does
  not appear is optional (C07) and a rule that appears more than once is greedy (C08).
* The assigned pairs are in the group, in that order, and each rule matches its node. -/
theorem group_shape (hl : l.Stored h n) {gs : List Found}
    (hs : Search (Holds rx h) r.siblings l.searched gs) {g : Found} (hg : g ∈ gs) :
    ∃ ks ∈ l.searched, ∃ asg : List (Rule × Loc),
      asg ≠ [] ∧ asg.Sublist g ∧ (asg.map (·.2)).Sublist ks ∧ ((asg.map (·.2)).map Loc.ptr).Nodup ∧
      (∀ a ∈ asg, Sat (Holds rx h) a.1 a.2) ∧
      ∃ counts : List Nat, counts.length = r.siblings.length ∧
        asg.map (·.1) = (List.zipWith (fun k c => List.replicate k c) counts r.siblings).flatten ∧
        ∀ p ∈ counts.zip r.siblings, (p.1 = 0 → p.2.isOptional = true) ∧ (2 ≤ p.1 → p.2.isGreedy = true) := by
  obtain ⟨ks, hks, ns, rest, hsub0, hgr⟩ := hs.mem g hg
  have hpl := hs.placed g hg
  obtain ⟨asg, seg, rfl, a1, a2, a3, a4, a5, a6, a7⟩ := hgr.shape
  have hsub := (List.sublist_append_left seg rest).trans hsub0.sublist
  obtain ⟨counts, c1, c2, c3⟩ := a1.order
  refine ⟨ks, hks, asg.map fun a => (a.rule, a.loc), by simpa using a4, a6, ?_, ?_, ?_, counts, c1, ?_, c3⟩
  · simpa [Function.comp_def] using a2.trans hsub
  · have := (searched_sibs hl ks hks).nodup
    have h2 : ((asg.map (·.loc)).map Loc.ptr).Sublist (ks.map Loc.ptr) := (a2.trans hsub).map _
    simpa [Function.comp_def] using h2.nodup this
  · intro a ha
    exact (hpl a (a6.subset ha)).1
  · simpa [Function.comp_def] using c2

/-- C07. Every mandatory rule of the chain is matched in every result group. -/
theorem group_mandatory {gs : List Found} (hs : Search (Holds rx h) r.siblings l.searched gs) {g : Found}
    (hg : g ∈ gs) {c : Rule} (hc : c ∈ r.siblings) (ho : c.isOptional = false) : ∃ x, (c, x) ∈ g := by
  obtain ⟨ks, hks, ns, rest, hsub0, hgr⟩ := hs.mem g hg
  obtain ⟨asg, seg, rfl, a1, a2, a3, a4, a5, a6, a7⟩ := hgr.shape
  have hsub := (List.sublist_append_left seg rest).trans hsub0.sublist
  obtain ⟨a, ha, rfl⟩ := List.mem_map.1 (a1.mandatory c hc ho)
  exact ⟨a.loc, a6.subset (List.mem_map.2 ⟨a, ha, rfl⟩)⟩

/-- C07. If the mandatory rules of the chain cannot all be matched, in order, in any searched sibling list,
the result is empty: rules that did match contribute nothing. -/
theorem no_embedding_no_result (hn : n ≤ 2147483647) (hr : r.Safe n) (hl : l.Stored h n) {ms : UInt64}
    {res : List (List (Str × Str))} (he : extract rx h r l.ptr ms = pure res)
    (hno : ∀ ks ∈ l.searched, ¬ Embeds (Holds rx h) r.siblings ks) : res = [] := by
  obtain ⟨gs, maps, h1, h2, rfl⟩ := extract_isResult hn hr hl he
  have : gs = [] := Search.empty h1 fun ks hks g ns rest hsub hg =>
    hno ks hks (Embeds.of_sublist hsub.sublist (Group.embeds hg))
  subst this
  cases h2
  rfl

/-- C07, the converse: a chain with a mandatory rule has a group on every searched sibling list in which it
embeds. -/
theorem embedding_gives_group {gs : List Found} (hs : Search (Holds rx h) r.siblings l.searched gs)
    (hm : ∃ c ∈ r.siblings, c.isOptional = false) {ks : List Loc} (hks : ks ∈ l.searched)
    (hemb : Embeds (Holds rx h) r.siblings ks) : ∃ g ∈ gs, ∃ rest, Group (Holds rx h) r.siblings ks g rest := by
  revert hs hks
  generalize l.searched = kss
  intro hs hks
  induction kss generalizing gs with
  | nil => simp at hks
  | cons k kss ih =>
    cases hs with
    | @cons _ _ _ gs1 gs2 hg hs =>
      rcases List.mem_cons.1 hks with rfl | hks
      · cases hg with
        | stop hst => exact absurd hemb hst
        | stopOptional ho => obtain ⟨c, hc, h0⟩ := hm; rw [ho c hc] at h0; cases h0
        | @cons _ ns rest g gs hg _ => exact ⟨g, by simp, rest, hg⟩
      · obtain ⟨g, hg, k⟩ := ih hs hks
        exact ⟨g, by simp [hg], k⟩

/-- C08. In a group, two uses of the same rule of the chain are possible only if that rule is greedy, and two
uses never share a node. -/
theorem group_nongreedy_once (hl : l.Stored h n) {gs : List Found}
    (hs : Search (Holds rx h) r.siblings l.searched gs) {g : Found} (hg : g ∈ gs) :
    ∃ asg : List (Rule × Loc), asg.Sublist g ∧ (∀ a ∈ asg, a.1 ∈ r.siblings) ∧
      (∀ c ∈ r.siblings, c.isOptional = false → ∃ x, (c, x) ∈ asg) ∧
      asg.Pairwise fun a b => a.2.ptr ≠ b.2.ptr ∧ (a.1 = b.1 → a.1.isGreedy = true) := by
  obtain ⟨ks, hks, ns, rest, hsub0, hgr⟩ := hs.mem g hg
  obtain ⟨asg, seg, rfl, a1, a2, a3, a4, a5, a6, a7⟩ := hgr.shape
  have hsub := (List.sublist_append_left seg rest).trans hsub0.sublist
  refine ⟨asg.map fun a => (a.rule, a.loc), a6, ?_, ?_, ?_⟩
  · intro a ha
    obtain ⟨b, hb, rfl⟩ := List.mem_map.1 ha
    exact a1.mem _ (List.mem_map.2 ⟨b, hb, rfl⟩)
  · intro c hc ho
    obtain ⟨a, ha, rfl⟩ := List.mem_map.1 (a1.mandatory c hc ho)
    exact ⟨a.loc, List.mem_map.2 ⟨a, ha, rfl⟩⟩
  · have hnd := (searched_sibs hl ks hks).nodup
    have h2 : ((asg.map (·.loc)).map Loc.ptr).Nodup := ((a2.trans hsub).map _).nodup hnd
    have h3 := a1.nongreedy (siblings_nodup r)
    rw [List.pairwise_map]
    rw [List.nodup_iff_pairwise_ne, List.map_map, List.pairwise_map] at h2
    rw [List.pairwise_map] at h3
    exact h2.and h3

/-- C10. The groups found in one sibling list are disjoint and in document order: listing the nodes assigned to
the chain's rules, group after group, runs through the siblings from left to right without repetition. -/
theorem groups_disjoint (hl : l.Stored h n) {ks : List Loc} (hks : ks ∈ l.searched) {gs : List Found}
    (hs : Groups (Holds rx h) r.siblings ks gs) :
    ∃ asgs : List (List (Rule × Loc)), asgs.length = gs.length ∧
      (asgs.flatten.map (·.2)).Sublist ks ∧ (asgs.flatten.map (·.2.ptr)).Nodup ∧
      ∀ p ∈ asgs.zip gs, p.1 ≠ [] ∧ p.1.Sublist p.2 ∧
        ∀ c ∈ r.siblings, c.isOptional = false → ∃ x, (c, x) ∈ p.1 := by
  obtain ⟨asgs, h1, h2, h3⟩ := hs.assign
  have e : ((asgs.map fun as => as.map fun a => (a.rule, a.loc)).flatten) =
      asgs.flatten.map fun a => (a.rule, a.loc) := by
    rw [List.map_flatten]
  refine ⟨asgs.map fun as => as.map fun a => (a.rule, a.loc), by simpa using h1, ?_, ?_, ?_⟩
  · rw [e, List.map_map]; exact h2
  · rw [e, List.map_map]
    have := h2.map Loc.ptr
    rw [List.map_map] at this
    exact this.nodup (searched_sibs hl ks hks).nodup
  · intro p hp
    rw [List.zip_map_left] at hp
    obtain ⟨q, hq, rfl⟩ := List.mem_map.1 hp
    obtain ⟨seg, _, k1, k2, k3, k4, k5, k6⟩ := h3 q hq
    refine ⟨by simpa using k4, k6, ?_⟩
    intro c hc ho
    obtain ⟨a, ha, rfl⟩ := List.mem_map.1 (k1.mandatory c hc ho)
    exact ⟨a.loc, List.mem_map.2 ⟨a, ha, rfl⟩⟩

/-! ## C09 -/

/-- C09, for a greedy rule that is optional, or that is reached while no other rule is waiting for matches: it stands first in
its chain, or directly behind a mandatory rule that does not repeat itself. In every group, the siblings `ns` that the group starts at split into `p`, which ends
with the last sibling used by the rules before `c`, then `mid`, then `s1`. The rule takes every sibling
of `mid` that it matches, and `s1` starts with the sibling taken by the next mandatory rule of the chain. If there
is no mandatory rule behind `c`, then `s1` is empty or starts with the next match of the first mandatory
rule of the chain, where the next group starts.

The full claim, without `hpos`, fails for every other place in every chain: see `greedy_once`, and the witnesses
`greedy_after_optional_once` and `greedy_after_greedy_once`. -/
theorem greedy_takes_all_partial {gs : List Found} (hs : Search (Holds rx h) r.siblings l.searched gs) {g : Found}
    (hg : g ∈ gs) {pre post : List Rule} {c : Rule} (hc : r.siblings = pre ++ c :: post) (hgr : c.isGreedy = true)
    (hpos : c.isOptional = true ∨ waitingAfter Rule.isOptional Rule.isGreedy pre = false) :
    ∃ ks ∈ l.searched, ∃ ns, ns <:+ ks ∧ ∃ (a1 a2 a3 : List (Rule × Loc)) (p mid s1 : List Loc),
      (a1 ++ a2 ++ a3).Sublist g ∧ ns = p ++ mid ++ s1 ∧
      EndsWith Prod.snd a1 p ∧ (∀ a ∈ a1, a.1 ∈ pre) ∧ (∀ a ∈ a2, a.1 = c) ∧ (∀ a ∈ a3, a.1 ∈ post) ∧
      a2.map Prod.snd = satIn (Sat (Holds rx h)) c mid ∧
      StopsAt Rule.isOptional (Sat (Holds rx h)) Prod.fst Prod.snd (r.siblings.find? (! Rule.isOptional ·)) post a3 s1 := by
  obtain ⟨ks, hks, ns, rest, hsuf, hgr'⟩ := hs.mem g hg
  refine ⟨ks, hks, ns, hsuf, ?_⟩
  cases hgr' with
  | mk steps final hrun ha hne =>
    have hrun' := Run.map (rule' := Prod.fst) (node' := Prod.snd) (optional' := Rule.isOptional) (greedy' := Rule.isGreedy)
      (sat' := Sat (Holds rx h)) id (fun a : Assigned => (a.rule, a.loc))
      (fun _ => rfl) (fun _ => rfl) hrun (by simp)
    simp only [Option.map_none, List.map_nil, List.map_id] at hrun'
    obtain ⟨a1, a2, a3, p, mid, s1, h1, h2, h3, h4, h5, h6, h7, h8, h9⟩ := hrun'.takes hgr hc hpos
    refine ⟨a1, a2, a3, p, mid, s1, ?_, h2, h3, by simpa using h5, h6, h7, h8, by simpa using h9⟩
    rw [← h1, uses_map]
    exact groupPairs_seq steps final

/-- C09, the exact limit: a mandatory rule that is reached while another rule is waiting for matches is used exactly once in every
group, even if it is greedy. `steps` and `final` are all the uses of the rules of the chain in the group. -/
theorem greedy_once {gs : List Found} (hs : Search (Holds rx h) r.siblings l.searched gs) {g : Found}
    (hg : g ∈ gs) {pre post : List Rule} {c : Rule} (hc : r.siblings = pre ++ c :: post) (ho : c.isOptional = false)
    (hpos : waitingAfter Rule.isOptional Rule.isGreedy pre = true) :
    ∃ (steps : List (Anchored Assigned)) (final : List Assigned) (us1 : List Assigned) (u : Assigned) (us3 : List Assigned),
      g = groupPairs steps final ∧ Anchored.uses steps final = us1 ++ u :: us3 ∧ u.rule = c ∧
      (∀ v ∈ us1, v.rule ∈ pre ∧ v.rule ≠ c) ∧ ∀ v ∈ us3, v.rule ∈ post ∧ v.rule ≠ c := by
  obtain ⟨ks, hks, ns, rest, hsuf, hgr'⟩ := hs.mem g hg
  have hnd := siblings_nodup r
  rw [hc, List.nodup_append] at hnd
  cases hgr' with
  | mk steps final hrun ha hne =>
    obtain ⟨us1, u, us3, h1, h2, h3, h4⟩ := hrun.once ho hc hpos
    refine ⟨steps, final, us1, u, us3, rfl, h1, h2, ?_, ?_⟩
    · intro v hv
      have hm : v.rule ∈ pre := by simpa using h3 v hv
      exact ⟨hm, hnd.2.2 _ hm _ (by simp)⟩
    · intro v hv
      have hm := h4 v hv
      refine ⟨hm, fun e => ?_⟩
      rw [e] at hm
      exact (List.nodup_cons.1 hnd.2.1).1 hm

/-- In a chain of five greedy mandatory rules the first, the third and the fifth repeat, the second and the fourth do not. -/
example : (List.range 5).map (fun k => waitingAfter (fun _ => false) (fun _ => true) (List.replicate k ())) =
    [false, true, false, true, false] := by decide

/-- `<html><body><a></a><b href="1"></b><b href="2"></b></body></html>` -/
def doc2 : Tree :=
  Ex.el 1 "html" [] [Ex.el 2 "body" [] [Ex.el 3 "a" [] [], Ex.el 4 "b" [("href", "1")] [], Ex.el 5 "b" [("href", "2")] []]]

theorem doc2_ok : IsDocument (docHeap 0 doc2) 2147483647 doc2 := isDocument_of_ok (by decide +kernel)

/-- `<a/><+b href:x/>`, with the given flags on the rule for `a`. -/
def abRule (optional greedy : Bool) : Rule :=
  Ex.rule "a" (optional := optional) (greedy := greedy) (next := some (Ex.rule "b" (greedy := true) (caps := [Ex.capHref "x"])))

theorem abRule_safe (o g : Bool) (n : Nat) : (abRule o g).Safe n := by
  simp [Rule.Safe, Rule.All, Rule.AllO, Rule.AllL, abRule, Ex.rule, RuleInfo.Safe, Match.SafeL, Capture.Safe, Ex.capHref]

example : (abRule false false).siblings =
    [abRule false false] ++ Ex.rule "b" (greedy := true) (caps := [Ex.capHref "x"]) :: [] ∧
    waitingAfter Rule.isOptional Rule.isGreedy [abRule false false] = false ∧
    waitingAfter Rule.isOptional Rule.isGreedy [abRule true false] = true ∧
    waitingAfter Rule.isOptional Rule.isGreedy [abRule false true] = true :=
  ⟨rfl, rfl, rfl, rfl⟩

/-- `<a/><+b href:x/>` finds one group with both values. -/
theorem greedy_after_mandatory :
    extract Ex.rx (docHeap 0 doc2) (abRule false false) doc2.ptr 0 =
      pure [[(lit "x", lit "1"), (lit "x", lit "2")]] := by
  have h1 := extract_eq (rx := Ex.rx) (n := 2147483647) (by decide) (abRule_safe false false _) (l := Loc.root doc2) doc2_ok
  have e : (Loc.root doc2).ptr = doc2.ptr := rfl
  rw [← e, h1]
  decide +kernel

/-- C09 fails behind an optional rule: in `<?a/><+b href:x/>` the greedy rule matches once, and the second `b` ends
up in a group of its own. -/
theorem greedy_after_optional_once :
    extract Ex.rx (docHeap 0 doc2) (abRule true false) doc2.ptr 0 =
      pure [[(lit "x", lit "1")], [(lit "x", lit "2")]] := by
  have h1 := extract_eq (rx := Ex.rx) (n := 2147483647) (by decide) (abRule_safe true false _) (l := Loc.root doc2) doc2_ok
  have e : (Loc.root doc2).ptr = doc2.ptr := rfl
  rw [← e, h1]
  decide +kernel

/-- C09 fails behind a greedy rule: in `<+a/><+b href:x/>` the second `b` is lost. -/
theorem greedy_after_greedy_once :
    extract Ex.rx (docHeap 0 doc2) (abRule false true) doc2.ptr 0 = pure [[(lit "x", lit "1")]] := by
  have h1 := extract_eq (rx := Ex.rx) (n := 2147483647) (by decide) (abRule_safe false true _) (l := Loc.root doc2) doc2_ok
  have e : (Loc.root doc2).ptr = doc2.ptr := rfl
  rw [← e, h1]
  decide +kernel

/-! ## C05, C11 -/

/-- C11. The searched nodes are the start node, its following siblings, and everything below them that is
reached through elements. -/
theorem searched_nodes (l x : Loc) : (∃ ks ∈ l.searched, x ∈ ks) ↔ l.Reach x := by
  rw [← searched_iff, List.mem_flatten]

/-- C11. No node is searched twice. -/
theorem searched_once (hl : l.Stored h n) : (l.searched.flatten.map Loc.ptr).Nodup := searched_nodup hl

example : ((Loc.root Ex.doc).searched.flatten.map Loc.ptr).Nodup ∧
    3 ≤ ((Loc.root Ex.doc).searched.flatten.map Loc.ptr).length :=
  ⟨searched_once Ex.doc_ok, by decide +kernel⟩

open Classical in
/-- C05, C11. A single rule that is not greedy yields one group for each searched node that it matches, in
search order, and no other group. `Sat` says when a rule matches a node; the group of a node consists of
what is matched below it, followed by the node itself. -/
theorem single_rule_complete (hn : n ≤ 2147483647) (hr : r.Safe n) (hl : l.Stored h n)
    (hnx : r.next = none) (hg : r.isGreedy = false) {ms : UInt64} {res : List (List (Str × Str))}
    (he : extract rx h r l.ptr ms = pure res) :
    ∃ (subs : List Found) (maps : List (List (Str × Str))),
      let nodes := l.searched.flatten.filter fun x => decide (Sat (Holds rx h) r x)
      subs.length = nodes.length ∧
      (∀ p ∈ nodes.zip subs, Matched (Holds rx h) r p.1 p.2) ∧
      Maps rx h (List.zipWith (fun x sub => sub ++ [(r, x)]) nodes subs) maps ∧
      res = maps.filter (· ≠ []) := by
  obtain ⟨res', _, ⟨maps, h1, h2⟩, h3⟩ := extract_result (rx := rx) hn hr hl
  have hres : res = res' := by
    rw [h3] at he
    split at he
    · cases he
    · exact (E.pure_inj he).symm
  subst hres
  obtain ⟨i, c, nx, ns⟩ := r
  simp only [Rule.next] at hnx
  subst hnx
  have hcg := chain_good (ownVal rx h) [] (.mk i c none ns)
  obtain ⟨d, hd⟩ : ∃ d, chain (ownVal rx h) [] (.mk i c none ns) = [d] := ⟨_, rfl⟩
  have hid : d.id.val = .mk i c none ns := by
    have := hcg.2; rw [hd] at this; simpa [vals, Rule.siblings] using this
  have hdg : CGood (Holds rx h) d := by
    have := hcg.1 d (by rw [hd]; simp)
    rw [holds_eq] at this; exact this
  have hgd : d.greedy = false := by rw [hdg.grd, hid]; exact hg
  have hsv : (searchAt rx h (.mk i c none ns) l).val = l.searched.flatten.filterMap (oneGroup d) := by
    unfold searchAt
    rw [hd, save_single d hgd]
    rfl
  rw [hsv] at h1
  revert h1
  suffices key : ∀ xs : List Loc, ∃ subs : List Found,
      subs.length = (xs.filter fun x => decide (Sat (Holds rx h) (.mk i c none ns) x)).length ∧
      (∀ p ∈ (xs.filter fun x => decide (Sat (Holds rx h) (.mk i c none ns) x)).zip subs,
        Matched (Holds rx h) (.mk i c none ns) p.1 p.2) ∧
      (xs.filterMap (oneGroup d)).map found =
        List.zipWith (fun x sub => sub ++ [(.mk i c none ns, x)])
          (xs.filter fun x => decide (Sat (Holds rx h) (.mk i c none ns) x)) subs by
    intro h1
    obtain ⟨subs, k1, k2, k3⟩ := key l.searched.flatten
    exact ⟨subs, maps, k1, k2, k3 ▸ h1, h2⟩
  intro xs
  induction xs with
  | nil => exact ⟨[], rfl, by simp, rfl⟩
  | cons x xs ih =>
    obtain ⟨subs, k1, k2, k3⟩ := ih
    cases hx : (d.run x).val with
    | none =>
      have hns : ¬ Sat (Holds rx h) (.mk i c none ns) x := by
        rw [← hid, ← hdg.sat]; simp [hx]
      refine ⟨subs, ?_, ?_, ?_⟩ <;> simp only [List.filter_cons, List.filterMap_cons, oneGroup, hx, hns, decide_false,
        Option.map_none, Bool.false_eq_true, if_false]
      · exact k1
      · exact k2
      · exact k3
    | some s =>
      have hs : Sat (Holds rx h) (.mk i c none ns) x := by
        rw [← hid, ← hdg.sat]; simp [hx]
      have hmt := hdg.mat x s hx
      rw [hid] at hmt
      refine ⟨found s :: subs, ?_, ?_, ?_⟩ <;> simp only [List.filter_cons, List.filterMap_cons, oneGroup, hx, hs, decide_true,
        Option.map_some, if_true]
      · simpa using k1
      · simp only [List.zip_cons_cons, List.mem_cons]
        rintro p (rfl | hp)
        · exact hmt
        · exact k2 p hp
      · simp only [List.map_cons, List.zipWith_cons_cons, found_append]
        congr 1
        simp [found, hid]

/-- C05 for rules with children, read as a statement about mandatory child rules: the rule matches iff its own
conditions hold, the node is an element with children, its mandatory child rules match children in order,
and each nested chain embeds in some sibling list below. -/
theorem sat_iff {own : RuleInfo → Loc → Prop} (hc : ¬ (r.child = none ∧ r.nested = [])) :
    Sat own r l ↔ own r.info l ∧ l.self.kind.isElement = true ∧ l.self.kids ≠ [] ∧
      Embeds own (chainOf r.child) (locs l.self.kids) ∧
      ∀ q ∈ r.nested, ∃ ks ∈ l.self.under, Embeds own q.siblings ks := by
  have hns : ∀ qs : List Rule, NestedSat own qs l.self ↔ ∀ q ∈ qs, ∃ ks ∈ l.self.under, Embeds own q.siblings ks := by
    intro qs
    induction qs with
    | nil => simp; exact .nil
    | cons q qs ih =>
      constructor
      · intro h
        cases h with
        | cons h1 h2 h3 =>
          intro q' hq
          rcases List.mem_cons.1 hq with rfl | hq
          · exact ⟨_, h1, h2⟩
          · exact ih.1 h3 q' hq
      · intro h
        obtain ⟨ks, h1, h2⟩ := h q (by simp)
        exact .cons h1 h2 (ih.2 fun q' hq => h q' (by simp [hq]))
  rw [← hns]
  constructor
  · intro h
    cases h with
    | leaf _ h1 h2 => exact absurd ⟨h1, h2⟩ hc
    | inner h1 h2 h3 h4 h5 => exact ⟨h1, h2, h3, h4, h5⟩
  · rintro ⟨h1, h2, h3, h4, h5⟩
    exact .inner h1 h2 h3 h4 h5

/-- The mandatory rules of a chain, in order. -/
def mandatoryOf (cs : List Rule) : List Rule := cs.filter fun c => !c.isOptional

/-- C05: a chain embeds iff its mandatory rules can be assigned to an increasing sequence of siblings. -/
theorem embeds_iff {own : RuleInfo → Loc → Prop} {cs : List Rule} {ls : List Loc} :
    Embeds own cs ls ↔ ∃ xs : List Loc, xs.Sublist ls ∧ xs.length = (mandatoryOf cs).length ∧
      ∀ p ∈ (mandatoryOf cs).zip xs, Sat own p.1 p.2 := by
  constructor
  · intro h
    induction ls generalizing cs with
    | nil =>
      induction cs with
      | nil => exact ⟨[], by simp, rfl, by simp [mandatoryOf]⟩
      | cons c cs ih =>
        cases h with
        | optional h0 h => simpa [mandatoryOf, h0] using ih h
    | cons x ls ihl =>
      induction cs with
      | nil => exact ⟨[], by simp, rfl, by simp [mandatoryOf]⟩
      | cons c cs ih =>
        cases h with
        | optional h0 h =>
          obtain ⟨xs, h1, h2, h3⟩ := ih h
          exact ⟨xs, h1, by simpa [mandatoryOf, h0] using h2, by simpa [mandatoryOf, h0] using h3⟩
        | here h0 h1 h =>
          obtain ⟨xs, k1, k2, k3⟩ := ihl h
          refine ⟨x :: xs, k1.cons_cons x, by simpa [mandatoryOf, h0] using k2, ?_⟩
          have e : mandatoryOf (c :: cs) = c :: mandatoryOf cs := by simp [mandatoryOf, h0]
          rw [e]
          simp only [List.zip_cons_cons, List.mem_cons]
          rintro p (rfl | hp)
          · exact h1
          · exact k3 p hp
        | later h =>
          obtain ⟨xs, k1, k2, k3⟩ := ihl h
          exact ⟨xs, k1.cons x, k2, k3⟩
  · rintro ⟨xs, h1, h2, h3⟩
    refine Embeds.of_sublist h1 ?_
    clear h1
    induction cs generalizing xs with
    | nil => exact .nil
    | cons c cs ih =>
      cases ho : c.isOptional with
      | true =>
        exact .optional ho (ih xs (by simpa [mandatoryOf, ho] using h2) (by simpa [mandatoryOf, ho] using h3))
      | false =>
        have e : mandatoryOf (c :: cs) = c :: mandatoryOf cs := by simp [mandatoryOf, ho]
        rw [e] at h2 h3
        cases xs with
        | nil => simp at h2
        | cons x xs =>
          refine .here ho (h3 (c, x) (by simp)) (ih xs (by simpa using h2) fun p hp => h3 p (by simp [hp]))

/-! ## C13 -/

/-- A rule without the siblings that follow it: its own conditions, child rules and nested rules. -/
def Rule.alone : Rule → Rule
  | .mk i c _ ns => .mk i c none ns

theorem Rule.sat_alone {own : RuleInfo → Loc → Prop} (r : Rule) (l : Loc) :
    Sat own (Rule.alone r) l ↔ Sat own r l := by
  obtain ⟨i, c, nx, ns⟩ := r
  constructor
  · intro h
    cases h with
    | leaf h1 h2 h3 => exact .leaf h1 h2 h3
    | inner h1 h2 h3 h4 h5 => exact .inner h1 h2 h3 h4 h5
  · intro h
    cases h with
    | leaf h1 h2 h3 => exact .leaf h1 h2 h3
    | inner h1 h2 h3 h4 h5 => exact .inner h1 h2 h3 h4 h5

/-- Two chains have the same mandatory rules, up to the optional rules between them. -/
def SameMandatory (cs ds : List Rule) : Prop :=
  (mandatoryOf cs).map Rule.alone = (mandatoryOf ds).map Rule.alone

theorem embeds_of_sameMandatory {own : RuleInfo → Loc → Prop} {cs ds : List Rule} {ls : List Loc}
    (h : SameMandatory cs ds) (he : Embeds own cs ls) : Embeds own ds ls := by
  rw [embeds_iff] at he ⊢
  obtain ⟨xs, h1, h2, h3⟩ := he
  have hlen := congrArg List.length h
  simp only [List.length_map] at hlen
  refine ⟨xs, h1, by omega, ?_⟩
  intro p hp
  obtain ⟨i, hi, rfl⟩ := List.mem_iff_getElem.1 hp
  simp only [List.length_zip] at hi
  simp only [List.getElem_zip]
  have hi' : i < (mandatoryOf cs).length := by omega
  have hid : i < (mandatoryOf ds).length := by omega
  have hix : i < xs.length := by omega
  have k := h3 ((mandatoryOf cs)[i], xs[i]) (List.mem_iff_getElem.2 ⟨i, by simp; omega, by simp⟩)
  have e : ((mandatoryOf cs).map Rule.alone)[i]'(by simpa using hi') =
      ((mandatoryOf ds).map Rule.alone)[i]'(by simpa using hid) := by
    have h' : (mandatoryOf cs).map Rule.alone = (mandatoryOf ds).map Rule.alone := h
    simp only [h']
  simp only [List.getElem_map] at e
  rw [← Rule.sat_alone, ← e, Rule.sat_alone]
  exact k

/-- C13, for elements with children. Adding or removing optional child rules does not change whether the rule
matches. The full claim, without `helem` and `hkids`, fails: see `optional_child_blocks_childless`. -/
theorem optional_never_blocks_partial {own : RuleInfo → Loc → Prop} {r r' : Rule} {l : Loc}
    (hi : r.info = r'.info) (hns : r.nested = r'.nested) (hm : SameMandatory (chainOf r.child) (chainOf r'.child))
    (helem : l.self.kind.isElement = true) (hkids : l.self.kids ≠ []) :
    Sat own r l ↔ Sat own r' l := by
  have key : ∀ r r' : Rule, r.info = r'.info → r.nested = r'.nested →
      SameMandatory (chainOf r.child) (chainOf r'.child) → Sat own r l → Sat own r' l := by
    intro r r' hi hns hm h
    cases h with
    | leaf h1 h2 h3 =>
      refine .inner (hi ▸ h1) helem hkids ?_ (by rw [← hns, h3]; exact .nil)
      refine embeds_of_sameMandatory hm ?_
      rw [h2]; exact .nil
    | inner h1 h2 h3 h4 h5 => exact .inner (hi ▸ h1) h2 h3 (embeds_of_sameMandatory hm h4) (hns ▸ h5)
  exact ⟨key r r' hi hns hm, key r' r hi.symm hns.symm (Eq.symm hm)⟩

/-- C13, for all nodes, between rules that both have child or nested rules. -/
theorem optional_never_blocks_inner {own : RuleInfo → Loc → Prop} {r r' : Rule} {l : Loc}
    (hi : r.info = r'.info) (hns : r.nested = r'.nested) (hm : SameMandatory (chainOf r.child) (chainOf r'.child))
    (hc : r.child = none ↔ r'.child = none) : Sat own r l ↔ Sat own r' l := by
  have key : ∀ r r' : Rule, r.info = r'.info → r.nested = r'.nested → (r.child = none ↔ r'.child = none) →
      SameMandatory (chainOf r.child) (chainOf r'.child) → Sat own r l → Sat own r' l := by
    intro r r' hi hns hc hm h
    cases h with
    | leaf h1 h2 h3 => exact .leaf (hi ▸ h1) (hc.1 h2) (hns ▸ h3)
    | inner h1 h2 h3 h4 h5 => exact .inner (hi ▸ h1) h2 h3 (embeds_of_sameMandatory hm h4) (hns ▸ h5)
  exact ⟨key r r' hi hns hc hm, key r' r hi.symm hns.symm hc.symm (Eq.symm hm)⟩

/-- C13, the exact limit. Of two rules that differ in their optional child rules, one matches where the other does not exactly if the
one has no rules inside, the other has optional child rules, and the node is not an element with children. -/
theorem optional_blocks_iff {own : RuleInfo → Loc → Prop} {r r' : Rule} {l : Loc}
    (hi : r.info = r'.info) (hns : r.nested = r'.nested) (hm : SameMandatory (chainOf r.child) (chainOf r'.child)) :
    (Sat own r l ∧ ¬ Sat own r' l) ↔
      own r.info l ∧ r.child = none ∧ r.nested = [] ∧ r'.child ≠ none ∧ ¬ (l.self.kind.isElement = true ∧ l.self.kids ≠ []) := by
  constructor
  · rintro ⟨h, h'⟩
    have h0 := h
    cases h with
    | leaf h1 h2 h3 =>
      refine ⟨h1, h2, h3, fun hc => h' (.leaf (hi ▸ h1) hc (hns ▸ h3)), ?_⟩
      rintro ⟨he, hk⟩
      exact h' ((optional_never_blocks_partial hi hns hm he hk).1 h0)
    | inner h1 h2 h3 h4 h5 => exact absurd (.inner (hi ▸ h1) h2 h3 (embeds_of_sameMandatory hm h4) (hns ▸ h5)) h'
  · rintro ⟨h1, h2, h3, h4, h5⟩
    refine ⟨.leaf h1 h2 h3, fun h' => ?_⟩
    cases h' with
    | leaf _ k2 _ => exact h4 k2
    | inner _ k2 k3 _ _ => exact h5 ⟨k2, k3⟩

example : SameMandatory (chainOf Ex.r.child) [Ex.rule "a" (caps := [Ex.capHref "x"])] := by
  simp [SameMandatory, mandatoryOf, Ex.r, Ex.rule, Rule.alone, chainOf, Rule.siblings, Rule.child, Rule.isOptional,
    Rule.info]

/-- `<p @id:k/>` where the capture is a user function that always yields `v`. -/
def pRule : Rule := Ex.rule "p" (caps := [.function (some (.user fun _ _ => lit "v")) (lit "k") none])
/-- `<p @id:k><?a/></p>` -/
def pOptRule : Rule := Ex.rule "p" (caps := [.function (some (.user fun _ _ => lit "v")) (lit "k") none])
  (child := some (Ex.rule "a" (optional := true)))

theorem pRule_safe : pRule.Safe 2147483647 := by
  simp [Rule.Safe, Rule.All, Rule.AllO, Rule.AllL, pRule, Ex.rule, RuleInfo.Safe, Match.SafeL, Capture.Safe]
theorem pOptRule_safe : pOptRule.Safe 2147483647 := by
  simp [Rule.Safe, Rule.All, Rule.AllO, Rule.AllL, pOptRule, Ex.rule, RuleInfo.Safe, Match.SafeL, Capture.Safe]

/-- C13 fails for nodes without children: an optional child rule prevents the match of `<p></p>`. -/
theorem optional_child_blocks_childless :
    extract Ex.rx Ex.heap pRule Ex.doc.ptr 0 = pure [[(lit "k", lit "v")]] ∧
    extract Ex.rx Ex.heap pOptRule Ex.doc.ptr 0 = pure [] := by
  have h1 := extract_eq (rx := Ex.rx) (h := Ex.heap) (n := 2147483647) (by decide) pRule_safe
    (l := Loc.root Ex.doc) Ex.doc_ok
  have h2 := extract_eq (rx := Ex.rx) (h := Ex.heap) (n := 2147483647) (by decide) pOptRule_safe
    (l := Loc.root Ex.doc) Ex.doc_ok
  have e : (Loc.root Ex.doc).ptr = Ex.doc.ptr := rfl
  rw [← e, h1, h2]
  decide +kernel

/-! ## C14, C15 -/

/-- C14. No returned map is empty. -/
theorem no_empty_maps (hn : n ≤ 2147483647) (hr : r.Safe n) (hl : l.Stored h n) {ms : UInt64}
    {res : List (List (Str × Str))} (he : extract rx h r l.ptr ms = pure res) : [] ∉ res := by
  obtain ⟨gs, maps, h1, h2, rfl⟩ := extract_isResult hn hr hl he
  simp

/-- C14, C15. The result lists, in group order, one map for each group that captured something: with `vss` the
captured (name, value) pairs of the groups, the maps are those of the non-empty members of `vss`. -/
theorem result_maps (hn : n ≤ 2147483647) (hr : r.Safe n) (hl : l.Stored h n) {ms : UInt64}
    {res : List (List (Str × Str))} (he : extract rx h r l.ptr ms = pure res) :
    ∃ gs vss, Search (Holds rx h) r.siblings l.searched gs ∧ vss.length = gs.length ∧
      (∀ p ∈ gs.zip vss, Captured rx h p.1 p.2) ∧
      (vss.filter (· ≠ [])).length = res.length ∧ ∀ p ∈ (vss.filter (· ≠ [])).zip res, IsMap p.1 p.2 := by
  obtain ⟨gs, maps, h1, h2, rfl⟩ := extract_isResult hn hr hl he
  clear he
  suffices ∃ vss : List (List (Str × Str)), vss.length = gs.length ∧ (∀ p ∈ gs.zip vss, Captured rx h p.1 p.2) ∧
      (vss.filter (· ≠ [])).length = (maps.filter (· ≠ [])).length ∧
      ∀ p ∈ (vss.filter (· ≠ [])).zip (maps.filter (· ≠ [])), IsMap p.1 p.2 by
    obtain ⟨vss, h⟩ := this
    exact ⟨gs, vss, h1, h⟩
  clear h1
  induction h2 with
  | nil => exact ⟨[], rfl, by simp, rfl, by simp⟩
  | @cons g gs vs m ms k1 k2 _ ih =>
    obtain ⟨vss, i1, i2, i3, i4⟩ := ih
    have hem : m = [] ↔ vs = [] := by
      constructor
      · rintro rfl
        cases vs with
        | nil => rfl
        | cons v vs => have := k2.2 v.1; simp at this
      · rintro rfl
        cases m with
        | nil => rfl
        | cons v vs => have := k2.2 v.1; simp at this
    refine ⟨vs :: vss, by simpa using i1, ?_, ?_, ?_⟩
    · simp only [List.zip_cons_cons, List.mem_cons]
      rintro p (rfl | hp)
      · exact k1
      · exact i2 p hp
    · by_cases hv : vs = []
      · simpa [hv, hem.2 hv] using i3
      · simpa [hv, mt hem.1 hv] using i3
    · by_cases hv : vs = []
      · simpa [hv, hem.2 hv] using i4
      · have hm := mt hem.1 hv
        simp only [List.filter_cons, ne_eq, hv, hm, not_false_eq_true, decide_true, if_true, List.zip_cons_cons,
          List.mem_cons]
        rintro p (rfl | hp)
        · exact k2
        · exact i4 p hp

/-- C15. A map holds exactly the captured pairs: nothing is lost, nothing is duplicated. -/
theorem isMap_perm {vs m : List (Str × Str)} (hm : IsMap vs m) : m.Perm vs := by
  rw [List.perm_iff_count]
  intro v
  have hf : ∀ l : List (Str × Str), l.count v = (l.filter (·.1 = v.1)).count v := by
    intro l
    rw [List.count_filter]
    simp
  rw [hf m, hf vs, hm.2]

/-- C15. A map is sorted by name, and the values of one name are in capture order. -/
theorem isMap_sorted_stable {vs m : List (Str × Str)} (hm : IsMap vs m) :
    m.Pairwise (fun a b => ¬ b.1 < a.1) ∧
    ∀ name, (m.filter (·.1 = name)).map (·.2) = (vs.filter (·.1 = name)).map (·.2) :=
  ⟨hm.1, fun name => by rw [hm.2]⟩

/-- C15. These two conditions determine the map. -/
theorem isMap_unique {vs m m' : List (Str × Str)} (h : IsMap vs m) (h' : IsMap vs m') : m = m' := h.unique h'

example : IsMap [(lit "b", lit "1"), (lit "a", lit "2"), (lit "b", lit "0")]
    [(lit "a", lit "2"), (lit "b", lit "1"), (lit "b", lit "0")] := by
  have := foldl_isMap [(lit "b", lit "1"), (lit "a", lit "2"), (lit "b", lit "0")] [] [] ⟨by simp, by simp⟩
  have e : [(lit "b", lit "1"), (lit "a", lit "2"), (lit "b", lit "0")].foldl (fun m v => multimapInsert v m) [] =
      [(lit "a", lit "2"), (lit "b", lit "1"), (lit "b", lit "0")] := by decide +kernel
  exact e ▸ this

end

end Hext.Props
