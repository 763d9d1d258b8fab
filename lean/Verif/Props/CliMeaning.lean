import Verif.Spec.CliMeaning
import Verif.Props.Cli
import Verif.Props.Meaning
/-!
# What htmlext prints, from the texts of its input (C65)
-/

namespace Hext.Props

open Cli

variable {σ : Type} {W : World σ} {o : Opts} {w : σ} {tree : Str → Tree}

/-- `tree` gives the documents of Gumbo, with at most 1147483648 children of each node. -/
def MakesTrees (W : World σ) (tree : Str → Tree) : Prop :=
  ∀ text, IsDocument (W.gumbo text).1 1147483648 (tree text) ∧ (tree text).ptr = (W.gumbo text).2

/-- The hexts of the files and the strings have no ten digits in a row. -/
def ShortNumbers (W : World σ) (o : Opts) : Prop :=
  (∀ p ∈ o.hext, ∀ w s w', Contents W p w s w' → NoLong (cstr s)) ∧ ∀ s ∈ o.str, NoLong (cstr s)

theorem each_parse : ∀ {hexts : List Str} {rules : List Rule},
    Each (fun s r => Syn.Means W.rx (cstr s) r) hexts rules ↔ hexts.map (parseHextC W.rx W.charSigned) = rules.map .ok
  | [], [] => by simp; exact .nil
  | [], _ :: _ => by simp; rintro ⟨⟩
  | _ :: _, [] => by simp; rintro ⟨⟩
  | s :: hexts, r :: rules => by
    rw [List.map_cons, List.map_cons, List.cons.injEq, ← each_parse (rules := rules)]
    have e : parseHextC W.rx W.charSigned s = .ok r ↔ Syn.Means W.rx (cstr s) r := parse_iff W.rx W.charSigned (cstr s) r
    rw [e]
    constructor
    · rintro (_ | ⟨h1, h2⟩); exact ⟨h1, h2⟩
    · rintro ⟨h1, h2⟩; exact .cons h1 h2

theorem each_results {limit : UInt64} (hg : MakesTrees W tree) : ∀ {ps : List (Rule × Str)} {results : List (List (List (Str × Str)))},
    (∀ p ∈ ps, ∃ s, NoLong s ∧ parseHext W.rx W.charSigned s = .ok p.1) →
    ps.map (fun p => resultOf W limit p.1 p.2) = results.map pure →
    Each (fun (p : Rule × Str) res => IsOutcome W.rx (fun _ => none) p.1 (Loc.root (tree p.2)) res) ps results
  | [], [], _, _ => .nil
  | [], _ :: _, _, h => by cases h
  | _ :: _, [], _, h => by cases h
  | (r, t) :: ps, res :: results, hp, h => by
    simp only [List.map_cons, List.cons.injEq] at h
    refine .cons ?_ (each_results hg (fun p hm => hp p (List.mem_cons_of_mem _ hm)) h.2)
    obtain ⟨s, hs, hr⟩ := hp (r, t) (by simp)
    obtain ⟨hd, hptr⟩ := hg t
    obtain ⟨res', h1, h2⟩ := extract_result (rx := W.rx) (n := 1147483648) (by decide) (parse_safe hs hr) (l := Loc.root (tree t)) hd
    have h3 := h.1
    rw [resultOf, ← hptr] at h3
    have e : (Loc.root (tree t)).ptr = (tree t).ptr := rfl
    rw [e] at h2
    rw [h2.2 limit] at h3
    have hres : res' = res := by
      split at h3
      · cases h3
      · exact E.pure_inj h3
    subst hres
    refine outcome_heap (h := (W.gumbo t).1) (parse_builtin hr) ?_
    refine (extract_outcome (n := 1147483648) (by decide) (parse_safe hs hr) (parse_words hr) hd _).1 ?_
    rw [e, h2.2 0]
    simp

theorem results_each (hg : MakesTrees W tree) : ∀ {ps : List (Rule × Str)} {results : List (List (List (Str × Str)))},
    (∀ p ∈ ps, ∃ s, NoLong s ∧ parseHext W.rx W.charSigned s = .ok p.1) →
    Each (fun (p : Rule × Str) res => IsOutcome W.rx (fun _ => none) p.1 (Loc.root (tree p.2)) res) ps results →
    ps.map (fun p => resultOf W 0 p.1 p.2) = results.map pure
  | [], [], _, _ => rfl
  | [], _ :: _, _, h => by cases h
  | _ :: _, [], _, h => by cases h
  | (r, t) :: ps, res :: results, hp, h => by
    obtain ⟨⟩ | ⟨h1, h2⟩ := h
    obtain ⟨s, hs, hr⟩ := hp (r, t) (by simp)
    obtain ⟨hd, hptr⟩ := hg t
    rw [List.map_cons, List.map_cons, results_each hg (fun p hm => hp p (List.mem_cons_of_mem _ hm)) h2]
    congr 1
    have := (extract_outcome (h := (W.gumbo t).1) (n := 1147483648) (by decide) (parse_safe hs hr) (parse_words hr) hd res).2
      (outcome_heap (parse_builtin hr) h1)
    rw [resultOf, ← hptr]
    exact this

theorem flatMap_pairs {β : Type} {rules : List Rule} {texts : List Str} (f : Rule → Str → β) :
    (rules.flatMap fun r => texts.map fun t => f r t) = (rules.flatMap fun r => texts.map fun t => (r, t)).map fun p => f p.1 p.2 := by
  induction rules with
  | nil => rfl
  | cons r rules ih => simp [ih]

theorem pairs_short (ho : ShortNumbers W o) {hexts texts : List Str} {w1 : σ} {rules : List Rule} (h1 : Reads W o.hext w hexts w1)
    (h2 : (hexts ++ o.str).map (parseHextC W.rx W.charSigned) = rules.map .ok) :
    ∀ p ∈ (rules.flatMap fun r => texts.map fun (t : Str) => (r, t)), ∃ s, NoLong s ∧ parseHext W.rx W.charSigned s = .ok p.1 := by
  intro p hp
  obtain ⟨r, hr, hp⟩ := List.mem_flatMap.1 hp
  obtain ⟨t, _, rfl⟩ := List.mem_map.1 hp
  have hm : (Except.ok r : P Rule) ∈ rules.map Except.ok := List.mem_map_of_mem hr
  rw [← h2] at hm
  obtain ⟨x, hx, hp⟩ := List.mem_map.1 hm
  refine ⟨cstr x, ?_, hp⟩
  rcases List.mem_append.1 hx with hx | hx
  · exact reads_safe (P := fun s => NoLong (cstr s)) h1 ho.1 x hx
  · exact ho.2 x hx

theorem succeeds_computes (hg : MakesTrees W tree) (ho : ShortNumbers W o) {rules texts results}
    (h : Succeeds W o w rules texts results) : Computes W tree o w results := by
  obtain ⟨hexts, w1, w2, h1, h2, h3, h4⟩ := h
  refine ⟨hexts, texts, w1, w2, rules, h1, h3, each_parse.2 h2, each_results (limit := o.maxSearches) hg (pairs_short ho h1 h2) ?_⟩
  rw [AllResults, flatMap_pairs (fun r t => resultOf W o.maxSearches r t)] at h4
  exact h4

theorem computes_succeeds (hg : MakesTrees W tree) (ho : ShortNumbers W o) (hm : o.maxSearches = 0) {results}
    (h : Computes W tree o w results) : ∃ rules texts, Succeeds W o w rules texts results := by
  obtain ⟨hexts, texts, w1, w2, rules, h1, h2, h3, h4⟩ := h
  have h3 := each_parse.1 h3
  refine ⟨rules, texts, hexts, w1, w2, h1, h3, h2, ?_⟩
  rw [AllResults, flatMap_pairs (fun r t => resultOf W o.maxSearches r t), hm]
  exact results_each hg (pairs_short ho h1 h3) h4

/-- C65. Without a search limit htmlext exits with code 0 if and only if the files can be read and the hexts are accepted by the
grammar; it then prints exactly the outcomes of the rules that the hexts mean on the documents. -/
theorem C65_output (hh : o.help = false) (hv : o.version = false) (hl : o.lint = false) (hx : o.hext ≠ [] ∨ o.str ≠ [])
    (hi : o.html ≠ []) (hm : o.maxSearches = 0) (hg : MakesTrees W tree) (ho : ShortNumbers W o) (out err : Str) :
    main W (.ok o) w = some (.exit 0 out err) ↔
      err = [] ∧ ∃ results, Computes W tree o w results ∧ out = results.flatMap (render W o) := by
  rw [C50_success hh hv hl hx hi]
  refine and_congr_right fun _ => ⟨?_, ?_⟩
  · rintro ⟨rules, texts, results, h, rfl⟩
    exact ⟨results, succeeds_computes hg ho h, rfl⟩
  · rintro ⟨results, h, rfl⟩
    obtain ⟨rules, texts, h⟩ := computes_succeeds hg ho hm h
    exact ⟨rules, texts, results, h, rfl⟩

/-- C65. With whatever search limit: if htmlext exits with code 0, then it has printed the outcomes. -/
theorem C65_output_limited (hh : o.help = false) (hv : o.version = false) (hl : o.lint = false) (hx : o.hext ≠ [] ∨ o.str ≠ [])
    (hi : o.html ≠ []) (hg : MakesTrees W tree) (ho : ShortNumbers W o) {out err : Str}
    (h : main W (.ok o) w = some (.exit 0 out err)) :
    err = [] ∧ ∃ results, Computes W tree o w results ∧ out = results.flatMap (render W o) := by
  obtain ⟨he, rules, texts, results, hs, ho'⟩ := (C50_success hh hv hl hx hi out err).1 h
  exact ⟨he, results, succeeds_computes hg ho hs, ho'⟩

/-- C65. Files that can be read and hexts that are accepted are enough for success, without a search limit. -/
theorem C65_succeeds (hh : o.help = false) (hv : o.version = false) (hl : o.lint = false) (hx : o.hext ≠ [] ∨ o.str ≠ [])
    (hi : o.html ≠ []) (hm : o.maxSearches = 0) (hg : MakesTrees W tree) (ho : ShortNumbers W o)
    {hexts texts : List Str} {rules : List Rule} {w1 w2 : σ} (h1 : Reads W o.hext w hexts w1) (h2 : Reads W o.html w1 texts w2)
    (h3 : Each (fun s r => Syn.Means W.rx (cstr s) r) (hexts ++ o.str) rules) :
    ∃ out, main W (.ok o) w = some (.exit 0 out []) := by
  have h3' := each_parse.1 h3
  have key : ∀ ps : List (Rule × Str), (∀ p ∈ ps, ∃ s, NoLong s ∧ parseHext W.rx W.charSigned s = .ok p.1) →
      ∃ results, Each (fun (p : Rule × Str) res => IsOutcome W.rx (fun _ => none) p.1 (Loc.root (tree p.2)) res) ps results := by
    intro ps
    induction ps with
    | nil => exact fun _ => ⟨[], .nil⟩
    | cons p ps ih =>
      intro hp
      obtain ⟨rs, hrs⟩ := ih fun p hm => hp p (List.mem_cons_of_mem _ hm)
      obtain ⟨s, hs, hr⟩ := hp p (by simp)
      obtain ⟨res, hres, _⟩ := C63_total hs hr (hg p.2).1
      exact ⟨res :: rs, .cons hres hrs⟩
  obtain ⟨results, h4⟩ := key _ (pairs_short ho h1 h3')
  exact ⟨_, (C65_output hh hv hl hx hi hm hg ho _ _).2 ⟨rfl, results, ⟨hexts, texts, w1, w2, rules, h1, h2, h3, h4⟩, rfl⟩⟩

/-- C65, JSON. With one object for each line: each line of the output is a JSON text that presents one group of the outcomes,
in order. -/
theorem C65_json (hh : o.help = false) (hv : o.version = false) (hl : o.lint = false) (hx : o.hext ≠ [] ∨ o.str ≠ [])
    (hi : o.html ≠ []) (hf : o.filter = none) (ha : o.array = false) (hp : o.pretty = false)
    (hc : o.compact = true ∨ W.ttyOut = false) (hw : Reliable W o) (hg : MakesTrees W tree) {out err : Str}
    (h : main W (.ok o) w = some (.exit 0 out err)) :
    ∃ results, Computes W tree o w results ∧ JsonPerLine results.flatten out := by
  obtain ⟨rules, texts, results, h1, h2⟩ := C53_json_per_line hh hv hl hx hi hf ha hp hc hw h
  refine ⟨results, succeeds_computes hg ⟨fun p hp w s w' hc => ?_, fun s hs => ?_⟩ h1, h2⟩
  · exact (hw.2.2.2.1 p hp w s w' hc).1
  · exact (hw.2.2.2.2 s hs).1

/-- C65, --filter. The output is the values of the key in the outcomes, each followed by a line break. -/
theorem C65_filter (hh : o.help = false) (hv : o.version = false) (hl : o.lint = false) (hx : o.hext ≠ [] ∨ o.str ≠ [])
    (hi : o.html ≠ []) {key : Str} (hf : o.filter = some key) (hg : MakesTrees W tree) (ho : ShortNumbers W o) {out err : Str}
    (h : main W (.ok o) w = some (.exit 0 out err)) :
    ∃ results, Computes W tree o w results ∧ out = (results.flatten.flatMap fun m => valuesOf m key).flatMap (· ++ [10]) := by
  obtain ⟨rules, texts, results, h1, h2⟩ := C43_filter hh hv hl hx hi hf h
  exact ⟨results, succeeds_computes hg ho h1, h2⟩

theorem exWorld_trees : MakesTrees exWorld fun _ => Ex.doc := fun _ => ⟨doc_ok2, rfl⟩

/-- `htmlext --filter x -s '<a href:x/>' -i page.html` computes the two attributes of the example document, and prints them. -/
example : Computes exWorld (fun _ => Ex.doc) exOpts () [[[(lit "x", lit "1")], [(lit "x", lit "2")]]] ∧
    main exWorld (.ok exOpts) () = some (.exit 0 (lit "1\n2\n") []) := by
  have ho : ShortNumbers exWorld exOpts :=
    ⟨by simp [exOpts], by simp only [exOpts, List.mem_singleton, forall_eq]; exact noLong_of_few (by decide)⟩
  have hc := succeeds_computes (W := exWorld) (o := exOpts) exWorld_trees ho (ex_succeeds (some (lit "x")) false)
  refine ⟨hc, (C65_output rfl rfl rfl (.inr (by simp [exOpts])) (by simp [exOpts]) rfl exWorld_trees ho _ _).2
    ⟨rfl, _, hc, by decide⟩⟩

end Hext.Props
