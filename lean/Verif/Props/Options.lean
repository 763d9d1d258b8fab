import Verif.Proofs.OptionsStore
import Verif.Props.CliMeaning
/-!
# Command lines (C70, C71)
-/

namespace Hext.Props

open Cli

variable {σ : Type} {W : World σ} {program : Str} {args : List Str} {o : Opts} {say : PoErr → List Str → Str} {w : σ}

/-- C70. The options that htmlext works with are those that the command line says, in whichever way they are written; and command
lines that say nothing are not accepted. -/
theorem C70_options : readOptions program args = .ok o ↔ Says program args o := readOptions_iff

/-- C70. A command line says at most one thing. -/
theorem C70_unambiguous {is js : List Item} (h1 : Spells is args) (h2 : Spells js args) : is = js := spells_unique h1 h2

/-- C70. htmlext with a command line that says `o` is htmlext with the options `o`. -/
theorem C70_main (h : Says program args o) :
    mainArgs W say program args w = main { W with program := program, argc := args.length + 1 } (.ok o) w := by
  unfold mainArgs
  rw [C70_options.2 h]

/-- C70. A command line that says nothing: nothing is printed to standard output, a message is printed to standard error, and the
exit code is 1. -/
theorem C70_rejected (h : ∀ o, ¬ Says program args o) : ∃ what help, (args ≠ [] → help = []) ∧
    mainArgs W say program args w =
      some (.exit 1 [] (errorLine { W with program := program } (lit "Argument error") what ++ help)) := by
  cases e : readOptions program args with
  | ok o => exact absurd (C70_options.1 e) (h o)
  | error e' =>
    refine ⟨say e' args, if args.length + 1 < 2 then 10 :: W.helpText else [], fun hn => ?_, ?_⟩
    · have := List.length_pos_iff.2 hn
      rw [if_neg (by omega)]
    · unfold mainArgs
      rw [e]
      rfl

theorem reads_congr {W W' : World σ} (hf : W.files = W'.files) {ps ss : List Str} {w w' : σ} (h : Reads W ps w ss w') :
    Reads W' ps w ss w' := by
  induction h with
  | nil => exact .nil
  | cons hc _ ih => exact .cons (by unfold Contents at hc ⊢; rw [← hf]; exact hc) ih

theorem computes_congr {W W' : World σ} {tree : Str → Tree} {results : List (List (List (Str × Str)))} (hf : W.files = W'.files)
    (hr : W.rx = W'.rx) (h : Computes W tree o w results) : Computes W' tree o w results := by
  obtain ⟨hexts, texts, w1, w2, rules, h1, h2, h3, h4⟩ := h
  rw [hr] at h3 h4
  exact ⟨hexts, texts, w1, w2, rules, reads_congr hf h1, reads_congr hf h2, h3, h4⟩

/-- C70, from the command line to the output. A command line that says which hexts and which HTML files to use, with no search
limit: htmlext exits with code 0 if and only if the files can be read and the hexts are accepted, and then it prints exactly the
outcomes. -/
theorem C70_output {tree : Str → Tree} (h : Says program args o) (hh : o.help = false) (hv : o.version = false)
    (hl : o.lint = false) (hx : o.hext ≠ [] ∨ o.str ≠ []) (hi : o.html ≠ []) (hm : o.maxSearches = 0) (hg : MakesTrees W tree)
    (ho : ShortNumbers W o) (out err : Str) :
    mainArgs W say program args w = some (.exit 0 out err) ↔
      err = [] ∧ ∃ results, Computes W tree o w results ∧ out = results.flatMap (render W o) := by
  rw [C70_main h]
  rw [C65_output (W := { W with program := program, argc := args.length + 1 }) hh hv hl hx hi hm hg
    ⟨fun p hp w s w' hc => ho.1 p hp w s w' hc, ho.2⟩ out err]
  refine and_congr_right fun _ => exists_congr fun results => and_congr ⟨computes_congr rfl rfl, computes_congr rfl rfl⟩ ?_
  exact Iff.rfl

theorem asHtml_plain : ∀ {is : List Item}, (∀ v, Item.argument v ∉ is) → asHtml is = is
  | [], _ => rfl
  | .flag k :: is, h => by rw [asHtml, asHtml_plain fun v hv => h v (List.mem_cons_of_mem _ hv)]; simp
  | .value k v :: is, h => by rw [asHtml, asHtml_plain fun v hv => h v (List.mem_cons_of_mem _ hv)]; simp
  | .argument v :: is, h => absurd (List.mem_cons_self) (h v)

theorem asFiles_plain : ∀ {is : List Item}, (∀ v, Item.argument v ∉ is) → asFiles is = is
  | [], _ => rfl
  | .flag k :: is, h => by rw [asFiles, asFiles_plain fun v hv => h v (List.mem_cons_of_mem _ hv)]; simp
  | .value k v :: is, h => by rw [asFiles, asFiles_plain fun v hv => h v (List.mem_cons_of_mem _ hv)]; simp
  | .argument v :: is, h => absurd (List.mem_cons_self) (h v)

theorem gives_perm {is js : List Item} (hp : is.Perm js) (hv : ∀ k, valuesGiven k is = valuesGiven k js) (h : Gives is o) :
    Gives js o := by
  have hm : ∀ i, i ∈ is ↔ i ∈ js := fun i => hp.mem_iff
  constructor
  · rw [← hv]; exact h.hext
  · rw [← hv]; exact h.html
  · rw [← hv]; exact h.str
  · rw [← hm]; exact h.compact
  · rw [← hm]; exact h.pretty
  · rw [← hm]; exact h.array
  · rw [← hm]; exact h.lint
  · rw [← hm]; exact h.help
  · rw [← hm]; exact h.version
  · rw [← hv]; exact h.filter
  · rw [← hv]; exact h.noLimit
  · rw [← hv]; exact h.limit
  · intro k h1 h2 h3
    have := h.once k h1 h2 h3
    unfold AtMostOnce at this ⊢
    rw [← hv, ← (hp.filter _).length_eq]
    exact this

/-- C70. Where files are given with `--hext` and `--html` only, the order of the options does not matter, as long as the order of
the values of each option is kept. -/
theorem C70_order {is js : List Item} {args' : List Str} (h1 : Spells is args) (h2 : Spells js args')
    (ha : ∀ v, Item.argument v ∉ is) (hp : is.Perm js) (hv : ∀ k, valuesGiven k is = valuesGiven k js) :
    readOptions program args = .ok o ↔ readOptions program args' = .ok o := by
  have ha' : ∀ v, Item.argument v ∉ js := fun v hm => ha v (hp.mem_iff.2 hm)
  have key : ∀ {is : List Item} {args : List Str}, Spells is args → (∀ v, Item.argument v ∉ is) →
      (Says program args o ↔ Gives is o) := by
    intro is args h ha
    constructor
    · rintro ⟨js, hj, hg⟩
      rw [← spells_unique h hj, asFiles_plain ha] at hg
      split at hg <;> exact hg
    · intro hg
      refine ⟨is, h, ?_⟩
      rw [asFiles_plain ha]
      split <;> exact hg
  rw [C70_options, C70_options, key h1 ha, key h2 ha']
  exact ⟨gives_perm hp hv, gives_perm hp.symm fun k => (hv k).symm⟩

/-- C71, the part that holds. Two ways to write the same items lead to the same outcome, if both or neither contain `-l` or
`--lint` in this spelling. What is missing: see `C71_lint_spelling`. -/
theorem C71_spelling_partial {is : List Item} {args' : List Str} (h1 : Spells is args) (h2 : Spells is args')
    (hl : (lit "-l" ∈ program :: args ∨ lit "--lint" ∈ program :: args) ↔
      (lit "-l" ∈ program :: args' ∨ lit "--lint" ∈ program :: args')) :
    readOptions program args = .ok o ↔ readOptions program args' = .ok o := by
  rw [C70_options, C70_options]
  constructor
  · rintro ⟨js, hj, hg⟩
    rw [← spells_unique h1 hj] at hg
    refine ⟨is, h2, ?_⟩
    by_cases h : lit "-l" ∈ program :: args ∨ lit "--lint" ∈ program :: args
    · rw [if_pos h] at hg; rw [if_pos (hl.1 h)]; exact hg
    · rw [if_neg h] at hg; rw [if_neg (fun h' => h (hl.2 h'))]; exact hg
  · rintro ⟨js, hj, hg⟩
    rw [← spells_unique h2 hj] at hg
    refine ⟨is, h1, ?_⟩
    by_cases h : lit "-l" ∈ program :: args ∨ lit "--lint" ∈ program :: args
    · rw [if_pos (hl.1 h)] at hg; rw [if_pos h]; exact hg
    · rw [if_neg (fun h' => h (hl.2 h'))] at hg; rw [if_neg h]; exact hg

theorem asHtml_none : ∀ {is : List Item}, (∀ p, .argument p ∉ is) → asHtml is = is
  | [], _ => rfl
  | .argument p :: is, h => absurd (List.mem_cons_self ..) (h p)
  | .flag k :: is, h | .value k v :: is, h => by
    rw [asHtml, asHtml_none fun p hp => h p (List.mem_cons_of_mem _ hp)]; intro p e; cases e

theorem asFiles_none : ∀ {is : List Item}, (∀ p, .argument p ∉ is) → asFiles is = is
  | [], _ => rfl
  | .argument p :: is, h => absurd (List.mem_cons_self ..) (h p)
  | .flag k :: is, h | .value k v :: is, h => by
    rw [asFiles, asFiles_none fun p hp => h p (List.mem_cons_of_mem _ hp)]; intro p e; cases e

/-- Whether arguments are files does not matter for the other options. -/
theorem asHtml_other {k : Key} (h1 : k ≠ .hext) (h2 : k ≠ .html) : ∀ (is : List Item),
    valuesGiven k (asHtml is) = valuesGiven k is ∧ (asHtml is).filter (· = .flag k) = is.filter (· = .flag k)
  | [] => ⟨rfl, rfl⟩
  | .argument p :: is => by simpa [asHtml, valuesGiven, Ne.symm h2] using asHtml_other h1 h2 is
  | .flag k' :: is | .value k' v :: is => by
    have ih := asHtml_other h1 h2 is
    simp only [valuesGiven] at ih
    simp [asHtml, valuesGiven, List.filterMap_cons, List.filter_cons, ih.1, ih.2]

theorem asFiles_other {k : Key} (h1 : k ≠ .hext) (h2 : k ≠ .html) : ∀ (is : List Item),
    valuesGiven k (asFiles is) = valuesGiven k is ∧ (asFiles is).filter (· = .flag k) = is.filter (· = .flag k)
  | [] => ⟨rfl, rfl⟩
  | .argument p :: is => by simpa [asFiles, valuesGiven, Ne.symm h1] using asHtml_other h1 h2 is
  | .flag k' :: is | .value k' v :: is => by
    have ih := asFiles_other h1 h2 is
    simp only [valuesGiven] at ih
    simp [asFiles, valuesGiven, List.filterMap_cons, List.filter_cons, ih.1, ih.2]

theorem asFiles_flag {k : Key} (h1 : k ≠ .hext) (h2 : k ≠ .html) (is : List Item) :
    .flag k ∈ asFiles is ↔ .flag k ∈ is := by
  have h := congrArg (fun l => decide (.flag k ∈ l)) (asFiles_other h1 h2 is).2
  simpa using h

theorem asHtml_hext : ∀ (is : List Item), valuesGiven .hext (asHtml is) = valuesGiven .hext is
  | [] => rfl
  | .argument p :: is => by simpa [asHtml, valuesGiven] using asHtml_hext is
  | .flag k' :: is | .value k' v :: is => by
    have ih := asHtml_hext is
    simp only [valuesGiven] at ih
    simp [asHtml, valuesGiven, List.filterMap_cons, ih]

/-- The first argument is one more hext. -/
theorem asFiles_hext {p : Str} : ∀ {is : List Item}, .argument p ∈ is →
    (valuesGiven .hext (asFiles is)).length = (valuesGiven .hext is).length + 1
  | .argument p :: is, _ => by
    have h := asHtml_hext is
    simp only [valuesGiven] at h
    simp [asFiles, valuesGiven, h]
  | .flag k' :: is, h => by
    have ih := asFiles_hext (is := is) (by simpa using h)
    simp only [valuesGiven] at ih
    simp [asFiles, valuesGiven, ih]
  | .value k' v :: is, h => by
    have ih := asFiles_hext (is := is) (by simpa using h)
    simp only [valuesGiven] at ih
    simp only [asFiles, valuesGiven, List.filterMap_cons]
    split <;> simp [ih]

theorem gives_files {is : List Item} (o : Opts) : Gives is o → Gives (asFiles is)
    { o with hext := valuesGiven .hext (asFiles is), html := valuesGiven .html (asFiles is) } := by
  intro h
  have v := fun {k} h1 h2 => (asFiles_other (k := k) h1 h2 is).1
  have g := fun {k} h1 h2 => asFiles_flag (k := k) h1 h2 is
  refine ⟨rfl, rfl, ?_, ?_, ?_, ?_, ?_, ?_, ?_, ?_, ?_, ?_, ?_⟩
  · rw [v (k := .str) (by decide) (by decide)]; exact h.str
  · rw [g (by decide) (by decide)]; exact h.compact
  · rw [g (by decide) (by decide)]; exact h.pretty
  · rw [g (by decide) (by decide)]; exact h.array
  · rw [g (by decide) (by decide)]; exact h.lint
  · rw [g (by decide) (by decide)]; exact h.help
  · rw [g (by decide) (by decide)]; exact h.version
  · rw [v (k := .filter) (by decide) (by decide)]; exact h.filter
  · rw [v (by decide) (by decide)]; exact h.noLimit
  · rw [v (by decide) (by decide)]; exact h.limit
  · intro k h1 h2 h3
    have := h.once k h1 h2 h3
    unfold AtMostOnce at this ⊢
    rwa [v h1 h2, (asFiles_other h1 h2 is).2]

theorem gives_items {is : List Item} (o : Opts) : Gives (asFiles is) o → Gives is
    { o with hext := valuesGiven .hext is, html := valuesGiven .html is } := by
  intro h
  have v := fun {k} h1 h2 => (asFiles_other (k := k) h1 h2 is).1.symm
  have g := fun {k} h1 h2 => (asFiles_flag (k := k) h1 h2 is).symm
  refine ⟨rfl, rfl, ?_, ?_, ?_, ?_, ?_, ?_, ?_, ?_, ?_, ?_, ?_⟩
  · rw [v (k := .str) (by decide) (by decide)]; exact h.str
  · rw [g (by decide) (by decide)]; exact h.compact
  · rw [g (by decide) (by decide)]; exact h.pretty
  · rw [g (by decide) (by decide)]; exact h.array
  · rw [g (by decide) (by decide)]; exact h.lint
  · rw [g (by decide) (by decide)]; exact h.help
  · rw [g (by decide) (by decide)]; exact h.version
  · rw [v (k := .filter) (by decide) (by decide)]; exact h.filter
  · rw [v (by decide) (by decide)]; exact h.noLimit
  · rw [v (by decide) (by decide)]; exact h.limit
  · intro k h1 h2 h3
    have := h.once k h1 h2 h3
    unfold AtMostOnce at this ⊢
    rwa [v h1 h2, (asFiles_other h1 h2 is).2.symm]

theorem says_gives {is : List Item} (h : Spells is args) : Says program args o ↔
    Gives (if lit "-l" ∈ program :: args ∨ lit "--lint" ∈ program :: args then is else asFiles is) o := by
  constructor
  · rintro ⟨js, hj, hg⟩
    rwa [← spells_unique h hj] at hg
  · exact fun hg => ⟨is, h, hg⟩

theorem spelling_third {is : List Item} {args' : List Str} (h1 : Spells is args) (h2 : Spells is args')
    (hr : ∀ o, readOptions program args ≠ .ok o) : readOptions program args' ≠ .ok o := by
  intro hc
  rw [C70_options, says_gives h2] at hc
  have key : ∀ o, ¬ Gives (if lit "-l" ∈ program :: args ∨ lit "--lint" ∈ program :: args then is else asFiles is) o :=
    fun o h => hr o (C70_options.2 ((says_gives h1).2 h))
  by_cases a : lit "-l" ∈ program :: args ∨ lit "--lint" ∈ program :: args
  · rw [if_pos a] at key
    split at hc
    · exact key _ hc
    · exact key _ (gives_items _ hc)
  · rw [if_neg a] at key
    split at hc
    · exact key _ (gives_files _ hc)
    · exact key _ hc

/-- C71, when it holds: two ways to write the same items lead to the same outcome if and only if both or neither contain `-l` or
`--lint` in this spelling, or there are no arguments besides the options, or the command line is refused anyway. -/
theorem C71_spelling_iff {is : List Item} {args' : List Str} (h1 : Spells is args) (h2 : Spells is args') :
    (∀ o, readOptions program args = .ok o ↔ readOptions program args' = .ok o) ↔
      ((lit "-l" ∈ program :: args ∨ lit "--lint" ∈ program :: args) ↔
        (lit "-l" ∈ program :: args' ∨ lit "--lint" ∈ program :: args')) ∨
      (∀ p, .argument p ∉ is) ∨ ∀ o, readOptions program args ≠ .ok o := by
  constructor
  · intro h
    refine Classical.byContradiction fun hn => ?_
    rw [not_or, not_or] at hn
    obtain ⟨n1, n2, n3⟩ := hn
    obtain ⟨p, hp⟩ := Classical.not_forall.1 n2
    obtain ⟨o, ho⟩ := Classical.not_forall.1 n3
    have hp := Classical.not_not.1 hp
    have ho := Classical.not_not.1 ho
    have ho' := (h o).1 ho
    rw [C70_options, says_gives h1] at ho
    rw [C70_options, says_gives h2] at ho'
    have hl := asFiles_hext hp
    by_cases a : lit "-l" ∈ program :: args ∨ lit "--lint" ∈ program :: args <;>
      by_cases b : lit "-l" ∈ program :: args' ∨ lit "--lint" ∈ program :: args'
    · exact n1 ⟨fun _ => b, fun _ => a⟩
    · rw [if_pos a] at ho; rw [if_neg b] at ho'
      rw [← ho.hext, ← ho'.hext] at hl; omega
    · rw [if_neg a] at ho; rw [if_pos b] at ho'
      rw [← ho.hext, ← ho'.hext] at hl; omega
    · exact n1 ⟨fun h => absurd h a, fun h => absurd h b⟩
  · rintro (h | h | h) o
    · exact C71_spelling_partial h1 h2 h
    · rw [C70_options, C70_options, says_gives h1, says_gives h2, asFiles_none h, ite_self, ite_self]
    · exact ⟨fun e => absurd e (h o), fun e => absurd e (spelling_third h1 h2 h)⟩

/-- `-lxa.hext` and `-l -xa.hext` have no arguments besides the options, and only the second one has `-l` in this spelling. -/
example : Spells [.flag .lint, .value .hext (lit "a.hext")] [lit "-lxa.hext"] ∧
    Spells [.flag .lint, .value .hext (lit "a.hext")] [lit "-l", lit "-xa.hext"] ∧
    (∀ p, Item.argument p ∉ [Item.flag .lint, .value .hext (lit "a.hext")]) :=
  ⟨.shortValue (ks := [.lint]) (k := .hext) (v := lit "a.hext") (by simp; decide) rfl (by decide) .nil,
   .short (ks := [.lint]) (by simp) (by simp; decide)
    (.shortValue (ks := []) (k := .hext) (v := lit "a.hext") (by simp) rfl (by decide) .nil), by simp⟩

theorem spells_lint {l : Str} (hl : l = lit "lint" ∨ l = lit "lin") :
    Spells [.flag .lint, .argument (lit "a.hext")] [lit "--" ++ l, lit "a.hext"] := by
  refine .long rfl ?_ (.argument (.inl (by decide)) .nil)
  rcases hl with rfl | rfl
  · exact .inl rfl
  · exact .inr (.inr ⟨by decide, by decide, fun k' => by cases k' <;> decide⟩)

/-- C71 fails. `htmlext --lint a.hext` and `htmlext --lin a.hext` are two ways to write the same, but the first one is always
refused, and the second one checks the file. -/
theorem C71_lint_spelling (W : World σ) (say : PoErr → List Str → Str) (w : σ) :
    Spells [.flag .lint, .argument (lit "a.hext")] [lit "--lint", lit "a.hext"] ∧
    Spells [.flag .lint, .argument (lit "a.hext")] [lit "--lin", lit "a.hext"] ∧
    mainArgs W say (lit "htmlext") [lit "--lint", lit "a.hext"] w = some (.exit 1 []
      (errorLine { W with program := lit "htmlext" } (lit "Argument error")
        (lit "missing Hext input, use --hext/-x <file> or --str/-s <string>"))) ∧
    readOptions (lit "htmlext") [lit "--lin", lit "a.hext"] = .ok { hext := [lit "a.hext"], lint := true } := by
  refine ⟨spells_lint (.inl rfl), spells_lint (.inr rfl), ?_, ?_⟩
  · have : Says (lit "htmlext") [lit "--lint", lit "a.hext"] { lint := true } := by
      refine ⟨_, spells_lint (.inl rfl), ?_⟩
      rw [if_pos (.inr (by decide))]
      constructor <;> first | decide | (intro k; cases k <;> decide) | (intro v; simp [valuesGiven])
    rw [C70_main this]
    simp only [main, body, validate]
    simp only [Bool.or_self, List.isEmpty_nil, Bool.and_self, Bool.false_eq_true, if_false, if_true, throw, throwThe,
      MonadExceptOf.throw, List.length_cons, List.length_nil]
    simp [errorLine]
  · rw [C70_options]
    refine ⟨_, spells_lint (.inr rfl), ?_⟩
    rw [if_neg (by decide)]
    constructor <;> first | decide | (intro k; cases k <;> decide) | (intro v; simp [valuesGiven, asFiles, asHtml])

/-- `htmlext -capxa.hext --htm page.html -- -.html`: a hext file and two HTML files; the first argument would be a hext file. -/
example : Says (lit "htmlext") [lit "-capxa.hext", lit "--htm", lit "page.html", lit "--", lit "-.html"]
    { hext := [lit "a.hext", lit "-.html"], html := [lit "page.html"], compact := true, array := true, pretty := true } := by
  refine ⟨_, .shortValue (ks := [.compact, .array, .pretty]) (k := .hext) (v := lit "a.hext") (by simp; decide) rfl (by decide)
    (.longNext (k := .html) (w := lit "htm") (v := lit "page.html") rfl
      (.inr (.inr ⟨by decide, by decide, fun k' => by cases k' <;> decide⟩)) ⟨fun k => by cases k <;> decide, fun w _ h => ?_⟩
      (.arguments [lit "-.html"])), ?_⟩
  · cases h
  · rw [if_neg (by decide)]
    constructor <;> first | decide | (intro k; cases k <;> decide) | (intro v; simp [valuesGiven, asFiles, asHtml])

/-- `htmlext -f x -s '<a href:x/>' -i page.html` prints the attributes of the example document. -/
example : mainArgs exWorld (fun _ _ => []) (lit "htmlext")
    [lit "-f", lit "x", lit "-s", lit "<a href:x/>", lit "-i", lit "page.html"] () = some (.exit 0 (lit "1\n2\n") []) := by
  have hs : Says (lit "htmlext") [lit "-f", lit "x", lit "-s", lit "<a href:x/>", lit "-i", lit "page.html"] exOpts := by
    refine ⟨_, .shortNext (ks := []) (k := .filter) (by simp) rfl ⟨fun k => by cases k <;> decide, fun w _ h => by cases h⟩
      (.shortNext (ks := []) (k := .str) (by simp) rfl ⟨fun k => by cases k <;> decide, fun w _ h => by cases h⟩
      (.shortNext (ks := []) (k := .html) (by simp) rfl ⟨fun k => by cases k <;> decide, fun w _ h => by cases h⟩ .nil)), ?_⟩
    rw [if_neg (by decide)]
    constructor <;> first | decide | (intro k; cases k <;> decide) | (intro v; simp [valuesGiven, asFiles])
  have ho : ShortNumbers exWorld exOpts :=
    ⟨by simp [exOpts], by simp only [exOpts, List.mem_singleton, forall_eq]; exact noLong_of_few (by decide)⟩
  have hc := succeeds_computes (W := exWorld) (o := exOpts) exWorld_trees ho (ex_succeeds (some (lit "x")) false)
  exact (C70_output hs rfl rfl rfl (.inr (by simp [exOpts])) (by simp [exOpts]) rfl exWorld_trees ho _ _).2
    ⟨rfl, _, hc, by decide⟩

/-- `htmlext -s '<a/>' page.html` takes the page for a hext, so that no HTML is given. -/
example : readOptions (lit "htmlext") [lit "-s", lit "<a/>", lit "page.html"] =
    .ok { str := [lit "<a/>"], hext := [lit "page.html"] } := by
  rw [C70_options]
  refine ⟨_, .shortNext (ks := []) (k := .str) (by simp) rfl ⟨fun k => by cases k <;> decide, fun w _ h => by cases h⟩
    (.argument (.inl (by decide)) .nil), ?_⟩
  rw [if_neg (by decide)]
  constructor <;> first | decide | (intro k; cases k <;> decide) | (intro v; simp [valuesGiven, asFiles, asHtml])

/-- `--max-searches -1` is the largest limit. -/
example : WritesLimit (lit "-1") 18446744073709551615 := ⟨lit "1", ⟨by decide, by decide⟩, by decide, .inr ⟨rfl, by decide⟩⟩

end Hext.Props
