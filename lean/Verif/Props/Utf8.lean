import Verif.Proofs.Utf8Pipes
import Verif.Props.Cli
import Verif.Props.SimilarHext
import Verif.Props.Bindings
/-!
# Results in UTF-8 (C97)
-/

namespace Hext.Props

open Syn Binding

variable {rx : RxEngine} {h : Heap} {r : Rule}

/-! ## Pipes -/

/-- C97. A pipe makes UTF-8 of UTF-8 exactly if the text it adds is UTF-8 (`append`, `prepend`), if it removes none or all of the
bytes from which characters outside of ASCII are made (`trim`), and if its regular expression finds or makes UTF-8. The other
pipes always do. -/
theorem C97_pipe_iff (t : Transform) : (t.Utf8 ∧ t.Whole rx) ↔ ∀ s u, Utf8 s → t.transform rx s = pure u → Utf8 u := by
  constructor
  · rintro ⟨h1, h2⟩ s u hs hu
    exact transform_u8 h1 h2 hs ((transform_gives t s u).1 hu)
  · intro hk
    have hk' : ∀ s u, Utf8 s → t.Gives rx s u → Utf8 u := fun s u hs hu => hk s u hs ((transform_gives t s u).2 hu)
    cases t with
    | append x => exact ⟨hk' [] x .nil rfl, trivial⟩
    | prepend x => exact ⟨hk' [] x .nil (by simp [Transform.Gives]), trivial⟩
    | trim cs => exact ⟨trivial, trim_needs hk'⟩
    | regex r => exact ⟨trivial, fun s m hs hm => hk' s _ hs (.inl ⟨m, hm, rfl⟩)⟩
    | regexReplace r x => exact ⟨trivial, fun s hs => hk' s _ hs rfl⟩
    | _ => exact ⟨trivial, trivial⟩

/-- `:trim(" .")` leaves characters alone, `:trim("ä")` does not. -/
example : NoneOrAll (lit " .") ∧ ¬ NoneOrAll [0xC3, 0xA4] := by
  constructor
  · refine .inl fun c hc hp => ?_
    have : c < 128 := by clear hp; revert c; decide
    exact absurd hp.1 (UInt8.not_le.2 this)
  · have p1 : PartByte 0xC3 := partByte_iff.2 ⟨0xE4, by simp [IsScalar], by decide, by decide⟩
    have p2 : PartByte 0xA3 := partByte_iff.2 ⟨0xE3, by simp [IsScalar], by decide, by decide⟩
    rintro (h | h)
    · exact h _ (by simp) p1
    · exact absurd (h _ p2) (by decide)

/-! ## Results -/

/-- C97. Let the strings of a document and a hext be UTF-8. If none of the pipes of the hext takes characters apart, then all names
and values in the result are UTF-8. (What is missing: `trim` with characters outside of ASCII works on bytes, and so do regular
expressions: see `C97_trim`.) -/
theorem C97_results_partial {charSigned : Bool} {s : Str} {t : Tree} (hs : NoLong s) (hu : Utf8 s) (hp : parseHext rx charSigned s = .ok r)
    (ht : IsDocument h manyChildren t) (hh : h.Utf8) (hw : r.Whole rx) {ms : UInt64} {res : List (List (Str × Str))}
    (he : extract rx h r t.ptr ms = pure res) : ∀ m ∈ res, IsUtf8 m :=
  isResult_utf8 hh (l := Loc.root t) ht (parse_utf8 hu hp) hw (parse_safe hs hp)
    (extract_isResult (l := Loc.root t) (n := manyChildren) (by decide) (parse_safe hs hp) ht he)

theorem pipes_whole {f : Flags} : ∀ {ps : List PipeS} {f : Flags} {x : List Transform × Flags},
    (∀ w ∈ [lit ":trim(", lit ":filter(", lit ":replace("], ¬ w <:+: ps.flatMap PipeS.text) →
    pipesMeaning rx f ps = some x → ∀ t ∈ x.1, t.Whole rx
  | [], _, _, _, h => by cases h; simp
  | p :: ps, f', x, hn, h => by
    simp only [pipesMeaning, Option.bind_eq_bind, Option.bind_eq_some_iff, Option.some.injEq] at h
    obtain ⟨y, h1, z, h2, rfl⟩ := h
    rw [List.flatMap_cons] at hn
    have hp : ∀ w ∈ [lit ":trim(", lit ":filter(", lit ":replace("], ¬ w <:+: p.text := fun w hw hi =>
      hn w hw (hi.trans (List.prefix_append _ _).isInfix)
    intro t ht
    rcases List.mem_cons.1 ht with rfl | ht
    · cases p with
      | trim =>
        cases h1
        refine .inl fun c hc hp => ?_
        have : c < 128 := by simp only [List.mem_singleton] at hc; subst hc; decide
        exact absurd hp.1 (UInt8.not_le.2 this)
      | trimChars q => exact absurd ⟨[], _, by simp [PipeS.text]; rfl⟩ (hp (lit ":trim(") (by simp))
      | filter q => exact absurd ⟨[], _, by simp [PipeS.text]; rfl⟩ (hp (lit ":filter(") (by simp))
      | replace r a b q => exact absurd ⟨[], _, by simp [PipeS.text]; rfl⟩ (hp (lit ":replace(") (by simp))
      | _ => cases h1; trivial
    · exact pipes_whole (f := f) (fun w hw hi => hn w hw (hi.trans (List.suffix_append _ _).isInfix)) h2 t ht

theorem pats_whole : ∀ {ps : List (Str × Pat)} {f : Flags} {x : List Match × List Capture × Flags},
    (∀ w ∈ [lit ":trim(", lit ":filter(", lit ":replace("], ¬ w <:+: patsText ps) →
    patsMeaning rx f ps = some x → ∀ c ∈ x.2.1, c.Steps (Transform.Whole rx)
  | [], _, _, _, h => by cases h; simp
  | p :: ps, f, x, hn, h => by
    simp only [patsMeaning, Option.bind_eq_bind, Option.bind_eq_some_iff, Option.some.injEq] at h
    obtain ⟨y, h1, z, h2, rfl⟩ := h
    rw [patsText, List.flatMap_cons] at hn
    have hn1 : ∀ w ∈ [lit ":trim(", lit ":filter(", lit ":replace("], ¬ w <:+: p.2.text := fun w hw hi =>
      hn w hw ((hi.trans (List.suffix_append _ _).isInfix).trans (List.prefix_append _ _).isInfix)
    intro c hc
    rcases List.mem_append.1 hc with hc | hc
    · obtain ⟨w, p⟩ := p
      cases p with
      | capFn fn ps n =>
        simp only [Pat.meaning, Option.bind_eq_bind, Option.bind_eq_some_iff, Option.some.injEq] at h1
        obtain ⟨u, hu, rfl⟩ := h1
        simp only [List.mem_singleton] at hc
        subst hc
        exact chain_every (pipes_whole (f := f) (fun w hw hi => hn1 w hw (hi.trans ⟨fn.name, 58 :: n.text, by simp [Pat.text]⟩)) hu)
      | capAttr a ps n o =>
        simp only [Pat.meaning, Option.bind_eq_bind, Option.bind_eq_some_iff, Option.some.injEq] at h1
        obtain ⟨u, hu, rfl⟩ := h1
        simp only [List.mem_singleton] at hc
        subst hc
        exact chain_every (pipes_whole (f := f)
          (fun w hw hi => hn1 w hw (hi.trans ⟨a, 58 :: n.text ++ if o then [63] else [], by simp [Pat.text]⟩)) hu)
      | testFn fn t neg =>
        simp only [Pat.meaning, Option.bind_eq_bind, Option.bind_eq_some_iff, Option.some.injEq] at h1
        obtain ⟨u, _, rfl⟩ := h1
        simp at hc
      | testAttr a t neg =>
        simp only [Pat.meaning, Option.bind_eq_bind, Option.bind_eq_some_iff, Option.some.injEq] at h1
        obtain ⟨u, _, rfl⟩ := h1
        simp at hc
      | hasAttr a neg => cases h1; simp at hc
    · exact pats_whole (fun w hw hi => hn w hw (hi.trans (List.suffix_append _ _).isInfix)) h2 c hc

/-- C97. The pipes of a hext without the texts `:trim(`, `:filter(` and `:replace(` do not take characters apart. (`:trim` without
characters removes blanks.) -/
theorem C97_plain_hext {charSigned : Bool} {s : Str} (hp : parseHext rx charSigned s = .ok r)
    (hn : ∀ w ∈ [lit ":trim(", lit ":filter(", lit ":replace("], ¬ w <:+: s) : r.Whole rx := by
  obtain ⟨is, f, rs, hok, rfl, hseq, rfl⟩ := (parse_iff rx charSigned s r).1 hp
  refine ruleOf_all (fun _ => by simp) (seq_all hseq fun hd c hc f f' info hm => ?_)
  simp only [Head.meaning, Option.bind_eq_bind, Option.bind_eq_some_iff, Option.some.injEq, Prod.mk.injEq] at hm
  obtain ⟨x, h1, y, h2, rfl, _⟩ := hm
  intro c' hc'
  simp only [List.mem_map, Option.some.injEq] at hc'
  obtain ⟨c', hc', rfl⟩ := hc'
  refine pats_whole (fun w hw hi => hn w hw (hi.trans (List.IsInfix.trans ?_ (head_infix hc)))) h2 c' hc'
  exact ⟨60 :: hd.options.map (fun o => if o then 63 else 43) ++ hd.tag ++ hd.conds.flatMap Cond.text, hd.ws, by simp [Head.text]⟩

/-- C97 with C42. For documents and hexts in UTF-8, without NUL, whose pipes do not take characters apart: every map of the result
satisfies what C42 asks for, so that the command line program and the bindings for all languages present it alike. -/
theorem C97_presented {charSigned : Bool} {s : Str} {t : Tree} (hs : NoLong s) (hu : Utf8 s) (h0 : NF s)
    (hp : parseHext rx charSigned s = .ok r) (ht : IsDocument h manyChildren t) (hh : h.Utf8) (hd : h.NoNul) (hx : rx.NoNul)
    (hw : r.Whole rx) {ms : UInt64} {res : List (List (Str × Str))} (he : extract rx h r t.ptr ms = pure res) :
    ∀ m ∈ res, ∃ o tx, Presents m o ∧ IsTextOf o tx ∧
      (∀ opt, JText (objectJson o) (Cli.printJsonValue (.obj (Cli.groupObject m)) opt)) ∧
      rubyHash m = pure o ∧ (∃ a, phpArray m = pure a ∧ IsPhpArray o a) ∧ pyDict m = pure tx := by
  intro m hm
  have hr := extract_isResult (l := Loc.root t) (n := manyChildren) (by decide) (parse_safe hs hp) ht he
  have hn := isResult_noNul hx hd (l := Loc.root t) ht (parse_noNul h0 hp) (parse_safe hs hp) hr m hm
  have h8 := C97_results_partial hs hu hp ht hh hw he m hm
  obtain ⟨gs, mps, _, hms, rfl⟩ := hr
  obtain ⟨g, _, vs, _, him⟩ := hms.mem (List.mem_filter.1 hm).1
  obtain ⟨o, tx, a1, a2, a3, a4, a5, a6, _⟩ := C42_presented_alike_partial him hn h8
  exact ⟨o, tx, a1, a2, a3, a4, a5, a6⟩

/-! ## What htmlext prints -/

theorem escape_u8 {s : Str} (h : Utf8 s) : Utf8 (Cli.quoteJson s) := by
  have key : ∀ c : Byte, c < 128 → ∀ b ∈ Cli.escapeByte c, b < 128 := by
    intro c hc
    have : ∀ n, n < 128 → ∀ b ∈ Cli.escapeByte (UInt8.ofNat n), b < 128 := by decide +kernel
    have := this c.toNat hc
    rwa [UInt8.ofNat_toNat] at this
  unfold Cli.quoteJson
  refine Utf8.cons (by decide) ((h.bytes (fun c hc => .ascii (key c hc)) fun c hc => ?_).append (.byte (by decide)))
  have g : ∀ k : Byte, k < 128 → c ≠ k := fun k hk e => absurd (e ▸ hk) (UInt8.not_lt.2 hc)
  unfold Cli.escapeByte
  rw [if_neg (g _ (by decide)), if_neg (g _ (by decide)), if_neg (g _ (by decide)), if_neg (g _ (by decide)), if_neg (g _ (by decide)),
    if_neg (g _ (by decide)), if_neg (g _ (by decide)), if_neg (UInt8.not_lt.2 (UInt8.le_trans (by decide) hc))]

mutual
/-- All strings of a JSON value are UTF-8. -/
def Utf8Json : Json → Prop
  | .str s => Utf8 s
  | .arr vs => Utf8Jsons vs
  | .obj ms => Utf8Members ms
def Utf8Jsons : List Json → Prop
  | [] => True
  | v :: vs => Utf8Json v ∧ Utf8Jsons vs
def Utf8Members : List (Str × Json) → Prop
  | [] => True
  | (k, v) :: ms => (Utf8 k ∧ Utf8Json v) ∧ Utf8Members ms
end

theorem sep_u8 (first : Bool) : Utf8 (if first then [] else [44]) := by cases first <;> exact .ascii (by decide)

mutual
theorem write_u8 : ∀ {v : Json}, Utf8Json v → Utf8 (Cli.writeJson v)
  | .str s, h => escape_u8 h
  | .arr vs, h => Utf8.cons (by decide) ((writeElems_u8 h true).append (.byte (by decide)))
  | .obj ms, h => Utf8.cons (by decide) ((writeMembers_u8 h true).append (.byte (by decide)))
theorem writeElems_u8 : ∀ {vs : List Json}, Utf8Jsons vs → ∀ first, Utf8 (Cli.writeElems first vs)
  | [], _, _ => .nil
  | _ :: _, h, first => ((sep_u8 first).append (write_u8 h.1)).append (writeElems_u8 h.2 false)
theorem writeMembers_u8 : ∀ {ms : List (Str × Json)}, Utf8Members ms → ∀ first, Utf8 (Cli.writeMembers first ms)
  | [], _, _ => .nil
  | (_, _) :: _, h, first => ((((sep_u8 first).append (escape_u8 h.1.1)).append (.byte (by decide))).append (write_u8 h.1.2)).append
      (writeMembers_u8 h.2 false)
end

theorem indent_u8 (d : Nat) : Utf8 (Cli.indent d) := .ascii fun c hc => by
  have := List.eq_of_mem_replicate hc
  subst this; decide

mutual
theorem pretty_u8 : ∀ {v : Json}, Utf8Json v → ∀ d, Utf8 (Cli.prettyJson d v)
  | .str s, h, d => by rw [Cli.prettyJson]; exact escape_u8 h
  | .arr [], _, d => by rw [Cli.prettyJson]; exact .ascii (by decide)
  | .arr (v :: vs), h, d => by
    rw [Cli.prettyJson]
    exact Utf8.cons (by decide) ((prettyElems_u8 (vs := v :: vs) h (d + 1) true).append
      (Utf8.cons (by decide) ((indent_u8 d).append (.byte (by decide)))))
  | .obj [], _, d => by rw [Cli.prettyJson]; exact .ascii (by decide)
  | .obj (m :: ms), h, d => by
    rw [Cli.prettyJson]
    exact Utf8.cons (by decide) ((prettyMembers_u8 (ms := m :: ms) h (d + 1) true).append
      (Utf8.cons (by decide) ((indent_u8 d).append (.byte (by decide)))))
theorem prettyElems_u8 : ∀ {vs : List Json}, Utf8Jsons vs → ∀ d first, Utf8 (Cli.prettyElems d first vs)
  | [], _, _, _ => by rw [Cli.prettyElems]; exact .nil
  | v :: vs, h, d, first => by
    rw [Cli.prettyElems]
    exact (((sep_u8 first).append (Utf8.cons (by decide) (indent_u8 d))).append (pretty_u8 h.1 d)).append (prettyElems_u8 h.2 d false)
theorem prettyMembers_u8 : ∀ {ms : List (Str × Json)}, Utf8Members ms → ∀ d first, Utf8 (Cli.prettyMembers d first ms)
  | [], _, _, _ => by rw [Cli.prettyMembers]; exact .nil
  | (k, v) :: ms, h, d, first => by
    rw [Cli.prettyMembers]
    exact (((((sep_u8 first).append (Utf8.cons (by decide) (indent_u8 d))).append (escape_u8 h.1.1)).append (.ascii (by decide))).append
      (pretty_u8 h.1.2 d)).append (prettyMembers_u8 h.2 d false)
end

theorem utf8Jsons_append : ∀ {vs : List Json} {v : Json}, Utf8Jsons vs → Utf8Json v → Utf8Jsons (vs ++ [v])
  | [], _, _, h => ⟨h, trivial⟩
  | _ :: _, _, h, h' => ⟨h.1, utf8Jsons_append h.2 h'⟩

theorem utf8Members_append : ∀ {ms : List (Str × Json)} {k : Str} {v : Json}, Utf8Members ms → Utf8 k → Utf8Json v →
    Utf8Members (ms ++ [(k, v)])
  | [], _, _, _, h, h' => ⟨⟨h, h'⟩, trivial⟩
  | (_, _) :: _, _, _, h, h1, h2 => ⟨h.1, utf8Members_append h.2 h1 h2⟩

theorem findMember_u8 : ∀ {ms : List (Str × Json)} {k : Str} {v : Json}, Utf8Members ms → Cli.findMember k ms = some v → Utf8Json v
  | [], _, _, _, h => by cases h
  | (k', v') :: ms, k, v, hm, h => by
    rw [Cli.findMember] at h
    split at h
    · cases h; exact hm.1.2
    · exact findMember_u8 hm.2 h

theorem setMember_u8 : ∀ {ms : List (Str × Json)} {k : Str} {v : Json}, Utf8Members ms → Utf8Json v → Utf8Members (Cli.setMember k v ms)
  | [], _, _, _, _ => trivial
  | (k', v') :: ms, k, v, hm, h => by
    rw [Cli.setMember]
    split
    · exact ⟨⟨hm.1.1, h⟩, hm.2⟩
    · exact ⟨hm.1, setMember_u8 hm.2 h⟩

theorem groupObject_u8 {m : List (Str × Str)} (hm : IsUtf8 m) : Utf8Members (Cli.groupObject m) := by
  have key : ∀ (m : List (Str × Str)) (o : List (Str × Json)), IsUtf8 m → Utf8Members o → Utf8Members (m.foldl Cli.addPair o) := by
    intro m
    induction m with
    | nil => exact fun o _ ho => ho
    | cons p m ih =>
      intro o hm ho
      refine ih _ (fun q hq => hm q (by simp [hq])) ?_
      obtain ⟨h1, h2⟩ := hm p (by simp)
      unfold Cli.addPair
      simp only
      split
      · rename_i vs hv
        exact setMember_u8 ho (utf8Jsons_append (findMember_u8 ho hv) (cstr_u8 h2))
      · rename_i v _ hv
        exact setMember_u8 ho ⟨findMember_u8 ho hv, cstr_u8 h2, trivial⟩
      · exact utf8Members_append ho (cstr_u8 h1) (cstr_u8 h2)
  exact key m [] hm trivial

theorem printValue_u8 {v : Json} (h : Utf8Json v) (opt : Cli.JsonOpt) : Utf8 (Cli.printJsonValue v opt) := by
  unfold Cli.printJsonValue
  split
  · exact pretty_u8 h 0
  · exact write_u8 h

theorem printJson_u8 {res : List (List (Str × Str))} (h : ∀ m ∈ res, IsUtf8 m) (opt : Cli.JsonOpt) : Utf8 (Cli.printJson res opt) := by
  have harr : Utf8Jsons (res.map fun group => Json.obj (Cli.groupObject group)) := by
    induction res with
    | nil => exact trivial
    | cons m res ih => exact ⟨groupObject_u8 (h m (by simp)), ih fun m hm => h m (by simp [hm])⟩
  have hobj : ∀ vs, Utf8Jsons vs → Utf8 (Cli.printObjects opt vs) := by
    intro vs
    induction vs with
    | nil => exact fun _ => .nil
    | cons v vs ih => exact fun h => (printValue_u8 h.1 opt).append (Utf8.cons (by decide) (ih h.2))
  unfold Cli.printJson
  simp only
  split
  · split
    · exact .nil
    · exact (printValue_u8 (v := .arr _) harr opt).append (.byte (by decide))
  · exact hobj _ harr

theorem printFilter_u8 {key : Str} {res : List (List (Str × Str))} (h : ∀ m ∈ res, IsUtf8 m) : Utf8 (Cli.printFilter key res) := by
  unfold Cli.printFilter
  refine .flatMap fun m hm => .flatMap fun p hp => ?_
  split
  · exact Utf8.append (h m hm p hp).2 (.byte (by decide))
  · exact .nil

/-! ## `trim` with characters outside of ASCII -/

/-- `<a href:trim("ä"):x/>` -/
def trimItems : List Item := [.start { options := [], tag := lit "a", conds := [], pats := [([32], .capAttr (lit "href")
  [.trimChars ⟨34, [0xC3, 0xA4]⟩] (.plain (lit "x")) false)], ws := [] } true]

def trimRule : Rule := (Ex.rule "a" (caps := [.attribute (lit "href") (lit "x") (some (.last (.trim [0xC3, 0xA4])))])).appendMatch
  (some (.attribute (lit "href") none))

/-- `<a href="ã"></a>` -/
def trimDoc : Tree := .node 1 (.element { tag := .known (lit "a"), attrs := [{ name := lit "href", value := some [0xC3, 0xA3] }] }) []

theorem trim_items_ok : ∀ i ∈ trimItems, i.Ok := by
  simp only [trimItems, List.mem_singleton, forall_eq]
  refine ⟨.inr ⟨97, [], rfl, by unfold IsAlpha; decide, by simp⟩, by simp, ?_, by simp⟩
  simp only [List.mem_singleton, forall_eq]
  refine ⟨by simp, by simp [IsSpace], ⟨104, [114, 101, 102], rfl, by unfold IsAlpha; decide, by unfold IsNameByte IsAlpha; decide⟩, ?_,
    by decide, by unfold IsNameByte IsAlpha; decide⟩
  simp only [List.mem_singleton, forall_eq]
  refine ⟨by decide, fun u v h => ?_, fun u h => ?_⟩
  · have : (34 : Byte) ∈ [(0xC3 : Byte), 0xA4] := by
      show (34 : Byte) ∈ (⟨34, [0xC3, 0xA4]⟩ : Quoted).body
      rw [h]; simp
    exact absurd this (by decide)
  · have : (92 : Byte) ∈ [(0xC3 : Byte), 0xA4] := by
      show (92 : Byte) ∈ (⟨34, [0xC3, 0xA4]⟩ : Quoted).body
      rw [h]; simp
    exact absurd this (by decide)

theorem trim_text : itemsText trimItems = lit "<a href:trim(\"" ++ [0xC3, 0xA4] ++ lit "\"):x/>" := by decide

theorem trim_utf8 : Utf8 (itemsText trimItems) := by
  rw [trim_text]
  refine ((Utf8.ascii (by decide)).append ?_).append (.ascii (by decide))
  exact ⟨[0xE4], by simp [IsScalar], by decide⟩

theorem trim_parsed (charSigned : Bool) : parseHext rx charSigned (itemsText trimItems) = .ok trimRule :=
  (parse_items trim_items_ok _).2 ⟨_, _, .elem (.selfClosing rfl) .nil, rfl⟩

theorem trimDoc_ok : IsDocument (docHeap 0 trimDoc) manyChildren trimDoc := isDocument_of_ok (by decide +kernel)

theorem ascii_u8 {s : Str} (h : s.all (· < 128) = true) : Utf8 s := .ascii fun c hc => by
  simpa using List.all_eq_true.1 h c hc

theorem trimDoc_utf8 : (docHeap 0 trimDoc).Utf8 := by
  intro p n hn
  have hall : ∀ e ∈ docEntries 0 trimDoc, e.2.kind.Utf8 := by
    simp only [docEntries, trimDoc, entries, entriesL, List.mem_cons, List.not_mem_nil, or_false, forall_eq_or_imp, forall_eq]
    refine ⟨⟨by simp, by simp, by simp⟩, ⟨?_, by simp, ?_⟩⟩
    · rintro n ⟨⟩
      exact ascii_u8 (by decide)
    · simp only [List.mem_singleton, forall_eq]
      refine ⟨ascii_u8 (by decide), ?_⟩
      rintro v ⟨⟩
      exact ⟨[0xE3], by simp [IsScalar], by decide⟩
  obtain ⟨e, he, rfl⟩ := Option.map_eq_some_iff.1 hn
  exact hall e (List.mem_of_find?_eq_some he)

/-- C97 is false without the condition on pipes: the hext `<a href:trim("ä"):x/>` and the document `<a href="ã"></a>` are UTF-8. The
two characters start with the same byte, which is removed. What is left is not UTF-8, and the call raises an exception in Python. -/
theorem C97_trim (charSigned : Bool) : Utf8 (itemsText trimItems) ∧ (docHeap 0 trimDoc).Utf8 ∧
    parseHext Ex.rx charSigned (itemsText trimItems) = .ok trimRule ∧
    extract Ex.rx (docHeap 0 trimDoc) trimRule trimDoc.ptr 0 = pure [[(lit "x", [0xA3])]] ∧ ¬ Utf8 [0xA3] ∧
    pyDict [(lit "x", [0xA3])] = throw .unicode := by
  refine ⟨trim_utf8, trimDoc_utf8, trim_parsed charSigned, ?_, fun h => h.head (by decide), ?_⟩
  · have hsafe := parse_safe (noLong_of_few (s := itemsText trimItems) (by decide)) (trim_parsed (rx := Ex.rx) true)
    show extract Ex.rx (docHeap 0 trimDoc) trimRule (Loc.root trimDoc).ptr 0 = _
    rw [extract_eq (rx := Ex.rx) (h := docHeap 0 trimDoc) (n := manyChildren) (by decide) hsafe (l := Loc.root trimDoc) trimDoc_ok]
    decide +kernel
  · unfold pyDict
    rw [mapLoop]
    show (if count [(lit "x", [0xA3])] (lit "x") < 2 then _ else _) = _
    rw [if_pos (by decide +kernel)]
    have : pyString [0xA3] = throw .unicode := by
      unfold pyString
      rw [show utf8 (cstr [0xA3]) = none by decide +kernel]
    show (pyString [0xA3] >>= _) = _
    rw [this]
    rfl

/-- The theorems apply: `<a href:x/>` on `<a href="ã"></a>`. -/
example (ms : UInt64) {res : List (List (Str × Str))} (he : extract Ex.rx (docHeap 0 trimDoc) hrefRule trimDoc.ptr ms = pure res) :
    ∀ m ∈ res, IsUtf8 m :=
  C97_results_partial (noLong_of_few (by decide)) (.ascii (by decide)) (href_parsed Ex.rx true) trimDoc_ok trimDoc_utf8
    (C97_plain_hext (href_parsed Ex.rx true) (by decide +kernel)) he

end Hext.Props

namespace Hext.Cli

open Props

variable {σ : Type} {W : World σ} {o : Opts} {w : σ}

/-- The hext `s` is UTF-8 and its pipes do not take characters apart. -/
def WholeHext (W : World σ) (s : Str) : Prop := Utf8 s ∧ ∀ r, parseHext W.rx W.charSigned (cstr s) = .ok r → r.Whole W.rx

/-- C97. If htmlext reads hexts and documents in UTF-8, and the pipes of the hexts do not take characters apart, then what it prints
(as JSON in whichever layout, or with `--filter`) is UTF-8. -/
theorem C97_output (hh : o.help = false) (hv : o.version = false) (hl : o.lint = false) (hx : o.hext ≠ [] ∨ o.str ≠ []) (hi : o.html ≠ [])
    (hw : Reliable W o) (hg : ∀ text, (W.gumbo text).1.Utf8) (h1 : ∀ p ∈ o.hext, ∀ w s w', Contents W p w s w' → WholeHext W s)
    (h2 : ∀ s ∈ o.str, WholeHext W s) {out err : Str} (h : main W (.ok o) w = some (.exit 0 out err)) : Utf8 out := by
  obtain ⟨_, rules, texts, results, hs, rfl⟩ := (C50_success hh hv hl hx hi out err).1 h
  obtain ⟨hexts, w1, w2, k1, k2, k3, k4⟩ := hs
  obtain ⟨g1, g2, g3, g4, g5⟩ := hw
  refine .flatMap fun res hres => ?_
  have hmem : pure res ∈ results.map (pure : List (List (Str × Str)) → E _) := List.mem_map_of_mem hres
  unfold AllResults at k4
  rw [← k4] at hmem
  obtain ⟨r, hr, hmem⟩ := List.mem_flatMap.1 hmem
  obtain ⟨t, ht, he⟩ := List.mem_map.1 hmem
  have hp : (Except.ok r : P Rule) ∈ rules.map Except.ok := List.mem_map_of_mem hr
  rw [← k2] at hp
  obtain ⟨x, hx', hp⟩ := List.mem_map.1 hp
  have hsafe : HextSafe W.charSigned x ∧ WholeHext W x := by
    rcases List.mem_append.1 hx' with hx' | hx'
    · exact ⟨reads_safe k1 g4 x hx', reads_safe k1 h1 x hx'⟩
    · exact ⟨g5 x hx', h2 x hx'⟩
  obtain ⟨d, hd, hptr⟩ := g1 t
  unfold resultOf at he
  rw [← hptr] at he
  have hm := C97_results_partial hsafe.1.1 (cstr_u8 hsafe.2.1) hp hd (hg t) (hsafe.2.2 r hp) he
  unfold render
  split
  · exact printFilter_u8 hm
  · exact printJson_u8 hm _

/-- A sufficient test for `Kind.Utf8`: everything is ASCII. -/
def kindAscii : Kind → Bool
  | .element e => (match e.tag with | .known n => n.all (· < 128) | .unknown => false) && e.origName.isNone &&
      e.attrs.all fun a => a.name.all (· < 128) && (match a.value with | some v => v.all (· < 128) | none => true)
  | .text t => t.all (· < 128)
  | .document d => d.name.isNone && d.publicId.isNone && d.systemId.isNone
  | _ => false

theorem kindAscii_utf8 {k : Kind} (h : kindAscii k = true) : k.Utf8 := by
  cases k with
  | element e =>
    simp only [kindAscii, Bool.and_eq_true] at h
    obtain ⟨⟨h1, h2⟩, h3⟩ := h
    refine ⟨fun n hn => ?_, fun n hn => by simp [hn] at h2, fun a ha => ?_⟩
    · rw [hn] at h1; exact ascii_u8 h1
    · have := List.all_eq_true.1 h3 a ha
      rw [Bool.and_eq_true] at this
      refine ⟨ascii_u8 this.1, fun v hv => ?_⟩
      have h5 := this.2
      rw [hv] at h5
      exact ascii_u8 h5
  | text t => exact ascii_u8 h
  | document d =>
    simp only [kindAscii, Bool.and_eq_true, Option.isNone_iff_eq_none] at h
    simp [Kind.Utf8, h]
  | _ => cases h

theorem exHeap_utf8 : Ex.heap.Utf8 := by
  have hall : ∀ e ∈ docEntries 0 Ex.doc, kindAscii e.2.kind = true := by decide +kernel
  intro p n hn
  simp only [Ex.heap, docHeap, heapOf, Option.map_eq_some_iff] at hn
  obtain ⟨e, he, rfl⟩ := hn
  exact kindAscii_utf8 (hall e (List.mem_of_find?_eq_some he))

/-- The hypotheses of `C97_output` are met by a run that prints two objects. -/
example : Utf8 (lit "{\"x\":\"1\"}\n{\"x\":\"2\"}\n") :=
  C97_output (W := exWorld) (o := { exOpts with filter := none }) rfl rfl rfl (.inr (by simp [exOpts])) (by simp [exOpts])
    (ex_reliable none false) (fun _ => exHeap_utf8) (by simp [exOpts])
    (by
      simp only [exOpts, List.mem_singleton, forall_eq]
      exact ⟨.ascii (by decide), fun r hr => C97_plain_hext hr (by decide +kernel)⟩)
    ((ex_run none false).trans (by congr 2))

end Hext.Cli
