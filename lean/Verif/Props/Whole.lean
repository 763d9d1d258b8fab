import Verif.Proofs.ParserRules
import Verif.Props.Captures
import Verif.Props.Parser
/-!
# From the text of a hext to the result of an extraction (C01, C16, C36)
-/

namespace Hext.Props

open Syn

/-! ## C01: hext and document -/

/-- C01 for hexts: if the hext has no ten digits in a row and is accepted, then its rule can be used on every document
whose nodes have at most 1147483648 children. -/
theorem C01_hext_safe {rx : RxEngine} {charSigned : Bool} {s : Str} {r : Rule} {h : Heap} {t : Tree}
    (hs : NoLong s) (hp : parseHext rx charSigned s = .ok r) (ht : IsDocument h 1147483648 t) (ms : UInt64) :
    (∃ res, extract rx h r t.ptr ms = pure res) ∨ (ms ≠ 0 ∧ extract rx h r t.ptr ms = throw .maxSearch) :=
  extract_document_safe (n := 1147483648) (by decide) (parse_safe hs hp) ht ms

theorem noLong_of_few {s : Str} (h : s.countP (fun x => decide (48 ≤ x ∧ x ≤ 57)) < 10) : NoLong s := by
  intro d hd hdig
  have h1 : d.countP (fun x => decide (48 ≤ x ∧ x ≤ 57)) = d.length := List.countP_eq_length.2 (by simpa using hdig)
  have h2 := hd.sublist.countP_le (p := fun x => decide (48 ≤ x ∧ x ≤ 57))
  omega

/-- `<a href:x/>` and the example document. -/
def hrefItems : List Item := [.start (tagHead "a" [.capAttr (lit "href") [] (.plain (lit "x")) false]) true]

def hrefRule : Rule := (Ex.rule "a" (caps := [Ex.capHref "x"])).appendMatch (some (.attribute (lit "href") none))

theorem hrefItems_ok : ∀ i ∈ hrefItems, i.Ok := by
  simp only [hrefItems, List.mem_cons, List.not_mem_nil, or_false]
  rintro i rfl
  refine ⟨.inr ⟨97, [], by decide, by simp [IsAlpha], by simp⟩, by simp [tagHead], ?_, by simp [tagHead]⟩
  simp only [tagHead, List.map_cons, List.map_nil, List.mem_cons, List.not_mem_nil, or_false, forall_eq]
  refine ⟨by simp, by simp [IsSpace], ⟨104, lit "ref", by decide, by simp [IsAlpha], ?_⟩, by simp, ?_⟩
  · simp only [IsNameByte, IsAlpha]; decide
  · simp only [CapName.Ok, IsNameByte, IsAlpha]; decide

theorem href_parsed (rx : RxEngine) (charSigned : Bool) : parseHext rx charSigned (lit "<a href:x/>") = .ok hrefRule := by
  rw [show lit "<a href:x/>" = itemsText hrefItems by decide]
  exact (parse_items hrefItems_ok _).2 ⟨_, _, .elem (.selfClosing rfl) .nil, rfl⟩

example (ms : UInt64) : (∃ res, extract Ex.rx Ex.heap hrefRule Ex.doc.ptr ms = pure res) ∨
    (ms ≠ 0 ∧ extract Ex.rx Ex.heap hrefRule Ex.doc.ptr ms = throw .maxSearch) :=
  C01_hext_safe (noLong_of_few (by decide)) (href_parsed Ex.rx true) (isDocument_of_ok (by decide +kernel)) ms

/-! ## C36: rules and tags -/

/-- C36: every rule of the returned tree comes from an open tag of the hext, unless the hext has no tags. -/
theorem C36_rule_has_tag {rx : RxEngine} {charSigned : Bool} {is : List Item} {r : Rule} (hok : ∀ i ∈ is, i.Ok)
    (hp : parseHext rx charSigned (itemsText is) = .ok r) (q : Rule) (hq : SubRule q r) :
    (∃ hd c f f', Item.start hd c ∈ is ∧ hd.meaning rx f = some (q.info, f')) ∨
      ((∀ hd c, Item.start hd c ∉ is) ∧ r = .mk {} none none [] ∧ q = r) := by
  obtain ⟨f, rs, hseq, rfl⟩ := (parse_items hok r).1 hp
  cases rs with
  | nil =>
    right
    refine ⟨fun hd c hc => ?_, rfl, ?_⟩
    · obtain ⟨_, _, _, _, _, hr, _⟩ := seq_within hseq hd c hc
      simp at hr
    · cases hq with
      | refl => rfl
      | child h _ => cases h
      | next h _ => cases h
      | nested h _ => cases h
  | cons r rs =>
    left
    have hall : (ruleOf (r :: rs)).All fun info => ∃ hd c f f', Item.start hd c ∈ is ∧ hd.meaning rx f = some (info, f') :=
      ruleOf_all (by simp) (seq_all hseq fun hd c hc f f' info hm => ⟨hd, c, f, f', hc, hm⟩)
    have := SubRule.all hq hall
    obtain ⟨i, c, nx, ns⟩ := q
    exact this.1

/-- C36: every open tag of an accepted hext stands for a rule of the returned tree. -/
theorem C36_tag_has_rule {rx : RxEngine} {charSigned : Bool} {is : List Item} {r : Rule} (hok : ∀ i ∈ is, i.Ok)
    (hp : parseHext rx charSigned (itemsText is) = .ok r) (hd : Head) (c : Bool) (hc : Item.start hd c ∈ is) :
    ∃ q f f', SubRule q r ∧ hd.meaning rx f = some (q.info, f') := by
  obtain ⟨f, rs, hseq, rfl⟩ := (parse_items hok r).1 hp
  obtain ⟨f, f', info, h1, h2⟩ := seq_within hseq hd c hc
  cases rs with
  | nil => obtain ⟨r, hr, _⟩ := h2; simp at hr
  | cons r rs =>
    obtain ⟨q, h3, h4⟩ := within_chain h2
    exact ⟨q, f, f', h3, by rw [h4]; exact h1⟩

/-! ## C16: mandatory captures -/

theorem pats_capture {rx} {w : Str} {a : Str} {ps : List PipeS} {name : CapName} : ∀ {pats : List (Str × Pat)} {f : Flags}
    {x : List Match × List Capture × Flags}, patsMeaning rx f pats = some x → (w, Pat.capAttr a ps name false) ∈ pats →
    .attribute a none ∈ x.1 ∧ ∃ pipe, .attribute a name.meaning pipe ∈ x.2.1
  | [], _, _, _, h => by simp at h
  | p :: pats, f, x, h, hm => by
    simp only [patsMeaning, Option.bind_eq_bind, Option.bind_eq_some_iff, Option.some.injEq] at h
    obtain ⟨y, h1, z, h2, rfl⟩ := h
    rcases List.mem_cons.1 hm with rfl | hm
    · simp only [Pat.meaning, Option.bind_eq_bind, Option.bind_eq_some_iff, Option.some.injEq] at h1
      obtain ⟨u, _, rfl⟩ := h1
      exact ⟨by simp, chainPipes u.1, by simp⟩
    · obtain ⟨h3, pipe, h4⟩ := pats_capture h2 hm
      exact ⟨by simp [h3], pipe, by simp [h4]⟩

/-- C16. Let `is` be the tags of an accepted hext. In every result, each group in which the rule of the tag `hd` has matched
contains an entry for every mandatory capture `attr:name` of `hd`, and every rule that has matched is the rule of such a tag; the group's map is then part of the result. (The value of an
attribute is a null pointer in no document that Gumbo makes. `r.Safe n` follows from `parse_safe` for hexts without
ten digits in a row.) -/
theorem C16_hext {rx : RxEngine} {charSigned : Bool} {is : List Item} {r : Rule} {h : Heap} {n : Nat} {l : Loc} {ms : UInt64}
    {res : List (List (Str × Str))} (hok : ∀ i ∈ is, i.Ok) (hp : parseHext rx charSigned (itemsText is) = .ok r)
    (hn : n ≤ 2147483647) (hr : r.Safe n) (hl : l.Stored h n) (he : extract rx h r l.ptr ms = pure res) :
    ∃ gs maps, Search (Holds rx h) r.siblings l.searched gs ∧ Maps rx h gs maps ∧ res = maps.filter (· ≠ []) ∧
      ∀ (i : Nat) g m, gs[i]? = some g → maps[i]? = some m → ∀ q x, (q, x) ∈ g →
        ((∃ hd c f f', Item.start hd c ∈ is ∧ hd.meaning rx f = some (q.info, f')) ∨ ∀ hd c, Item.start hd c ∉ is) ∧
        ∀ hd c f f', Item.start hd c ∈ is → hd.meaning rx f = some (q.info, f') →
          ∀ w a ps name, (w, Pat.capAttr a ps name false) ∈ hd.pats →
            (∀ e b, x.self.kind = .element e → b ∈ e.attrs → b.value ≠ none) →
            m ∈ res ∧ ∃ v, (name.meaning, v) ∈ m := by
  obtain ⟨gs, maps, h1, h2, h3, h4⟩ := mandatory_capture_present hn hr hl he
  refine ⟨gs, maps, h1, h2, h3, fun i g m hg hm q x hqx => ⟨?_, ?_⟩⟩
  · have hq := (h1.closed (P := fun q x => SubRule q r ∧ ∃ ks ∈ l.searched, x ∈ ks)
      (fun p y q x hp hb => ⟨hb.subRule.trans hp.1, hb.searched hp.2⟩)
      (fun q hq ks hks x hx => ⟨siblings_subRule r q hq, ks, hks, hx⟩) g (List.mem_of_getElem? hg) (q, x) hqx).1
    exact (C36_rule_has_tag hok hp q hq).imp id (·.1)
  · intro hd c f f' _ hmean w a ps name hpat hval
    simp only [Head.meaning, Option.bind_eq_bind, Option.bind_eq_some_iff, Option.some.injEq, Prod.mk.injEq] at hmean
    obtain ⟨y, _, z, hz, hinfo, _⟩ := hmean
    obtain ⟨hma, pipe, hca⟩ := pats_capture hz hpat
    refine h4 i g m hg hm q x hqx a name.meaning pipe ?_ ?_ hval
    · rw [← hinfo]; simp [hma]
    · rw [← hinfo]; simp [hca]

/-- `<a href:x/>` on the example document. -/
example : parseHext Ex.rx true (lit "<a href:x/>") = .ok hrefRule ∧
    extract Ex.rx Ex.heap hrefRule (Loc.root Ex.doc).ptr 0 = pure [[(lit "x", lit "1")], [(lit "x", lit "2")]] := by
  refine ⟨href_parsed Ex.rx true, ?_⟩
  rw [extract_eq (rx := Ex.rx) (h := Ex.heap) (n := manyChildren) (by decide)
    (parse_safe (noLong_of_few (by decide)) (href_parsed Ex.rx true)) (l := Loc.root Ex.doc) (isDocument_of_ok (by decide +kernel))]
  decide +kernel

end Hext.Props
