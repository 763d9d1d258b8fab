import Verif.Spec.Batch
import Verif.Props.Cli
import Verif.Props.FileRead
/-!
# Several hexts and files in one run of htmlext (C111)
-/

namespace Hext.Props

open Cli

variable {σ : Type} {W : World σ} {o : Opts} {w : σ}

namespace Batch

/-- The text of a file, if it can be read. -/
def text (W : World σ) (w : σ) (p : Str) : Str :=
  match readFile W p w with
  | (.ok s, _) => s
  | _ => []

def hextOf (W : World σ) (w : σ) : Input → Str
  | .file p => text W w p
  | .string s => s

/-- The rule of a hext, if it is one. -/
def rule (W : World σ) (w : σ) (x : Input) : Rule :=
  match parseHextC W.rx W.charSigned (hextOf W w x) with
  | .ok r => r
  | _ => .mk {} none none []

/-- The result for a hext and a page, if there is one. -/
def resultFor (W : World σ) (limit : UInt64) (w : σ) (x : Input) (p : Str) : List (List (Str × Str)) :=
  match resultOf W limit (rule W w x) (text W w p) with
  | some (.ok res) => res
  | _ => []

theorem contents_text {p s : Str} {w' : σ} (hr : W.Repeatable) (h : Contents W p w s w') : s = text W w p ∧ w' = w := by
  constructor
  · rw [text, readFile_ok.2 h]
  · rcases h with h | ⟨_, e, w1, h1, h2⟩
    · have := hr p w
      rw [h] at this
      exact this
    · have e1 := hr p w
      rw [h1] at e1
      have e2 := hr (lit "/dev/stdin") w1
      rw [h2] at e2
      exact e2.trans e1

theorem reads_text (hr : W.Repeatable) : ∀ {ps ss : List Str} {w w' : σ},
    Reads W ps w ss w' ↔ ss = ps.map (text W w) ∧ w' = w ∧ ∀ p ∈ ps, Contents W p w (text W w p) w
  | [], ss, w, w' => by
    constructor
    · rintro ⟨⟩
      exact ⟨rfl, rfl, by simp⟩
    · rintro ⟨rfl, rfl, _⟩
      exact .nil
  | p :: ps, ss, w, w' => by
    constructor
    · rintro (_ | @⟨_, _, _, s, w1, ss', _, h1, h2⟩)
      obtain ⟨rfl, rfl⟩ := contents_text hr h1
      obtain ⟨rfl, rfl, h3⟩ := (reads_text hr).1 h2
      refine ⟨rfl, rfl, fun q hq => ?_⟩
      rcases List.mem_cons.1 hq with rfl | hq
      · exact h1
      · exact h3 q hq
    · rintro ⟨rfl, rfl, h⟩
      exact .cons (h p (List.mem_cons_self ..)) ((reads_text hr).2 ⟨rfl, rfl, fun q hq => h q (List.mem_cons_of_mem _ hq)⟩)

/-- A hext is there and is one. -/
def Good (W : World σ) (w : σ) (x : Input) : Prop :=
  (∀ p ∈ x.files, Contents W p w (text W w p) w) ∧ parseHextC W.rx W.charSigned (hextOf W w x) = .ok (rule W w x)

theorem parsed_rule {x : Input} {r : Rule} (h : parseHextC W.rx W.charSigned (hextOf W w x) = .ok r) : r = rule W w x := by
  rw [rule, h]

theorem parsed_rules : ∀ {xs : List Input} {rules : List Rule},
    (xs.map (hextOf W w)).map (parseHextC W.rx W.charSigned) = rules.map .ok ↔
      rules = xs.map (rule W w) ∧ ∀ x ∈ xs, parseHextC W.rx W.charSigned (hextOf W w x) = .ok (rule W w x)
  | [], rules => by simp [eq_comm]
  | x :: xs, [] => by simp
  | x :: xs, r :: rs => by
    simp only [List.map_cons, List.cons.injEq, List.mem_cons, forall_eq_or_imp, parsed_rules (xs := xs) (rules := rs)]
    constructor
    · rintro ⟨h1, h2, h3⟩
      have := parsed_rule h1
      subst this
      exact ⟨⟨rfl, h2⟩, h1, h3⟩
    · rintro ⟨⟨rfl, h2⟩, h1, h3⟩
      exact ⟨h1, h2, h3⟩

theorem result_of {limit : UInt64} {x : Input} {p : Str} {res : List (List (Str × Str))}
    (h : resultOf W limit (rule W w x) (text W w p) = pure res) : res = resultFor W limit w x p := by
  rw [resultFor, h]
  rfl

theorem pures {α β : Type} {f : α → E β} {g : α → β} (hg : ∀ a b, f a = pure b → b = g a) : ∀ {as : List α} {bs : List β},
    as.map f = bs.map pure ↔ bs = as.map g ∧ ∀ a ∈ as, f a = pure (g a)
  | [], [] => by simp
  | [], b :: bs => by simp
  | a :: as, [] => by simp
  | a :: as, b :: bs => by
    simp only [List.map_cons, List.cons.injEq, List.mem_cons, forall_eq_or_imp, pures hg (as := as) (bs := bs)]
    constructor
    · rintro ⟨h1, h2, h3⟩
      have := hg a b h1
      subst this
      exact ⟨⟨rfl, h2⟩, h1, h3⟩
    · rintro ⟨⟨rfl, h2⟩, h1, h3⟩
      exact ⟨h1, h2, h3⟩

theorem good_iff : (∀ x ∈ o.inputs, Good W w x) ↔ (∀ p ∈ o.hext, Contents W p w (text W w p) w) ∧
    ∀ x ∈ o.inputs, parseHextC W.rx W.charSigned (hextOf W w x) = .ok (rule W w x) := by
  constructor
  · intro h
    refine ⟨fun p hp => (h (.file p) ?_).1 p (List.mem_singleton.2 rfl), fun x hx => (h x hx).2⟩
    exact List.mem_append_left _ (List.mem_map_of_mem hp)
  · rintro ⟨h1, h2⟩ x hx
    refine ⟨fun p hp => ?_, h2 x hx⟩
    cases x with
    | string s => cases hp
    | file q =>
      cases List.mem_singleton.1 hp
      refine h1 p ?_
      rcases List.mem_append.1 hx with hx | hx
      · obtain ⟨_, hq, ⟨⟩⟩ := List.mem_map.1 hx
        exact hq
      · obtain ⟨_, _, e⟩ := List.mem_map.1 hx
        cases e

/-- All pairs of a hext and a page, in the order of the output. -/
def grid (o : Opts) : List (Input × Str) := o.inputs.flatMap fun x => o.html.map fun p => (x, p)

theorem succeeds_iff (hr : W.Repeatable) {rules : List Rule} {texts : List Str} {results : List (List (List (Str × Str)))} :
    Succeeds W o w rules texts results ↔ rules = o.inputs.map (rule W w) ∧ texts = o.html.map (text W w) ∧
      results = (grid o).map (fun q => resultFor W o.maxSearches w q.1 q.2) ∧ (∀ x ∈ o.inputs, Good W w x) ∧
      (∀ p ∈ o.html, Contents W p w (text W w p) w) ∧
      ∀ q ∈ grid o, resultOf W o.maxSearches (rule W w q.1) (text W w q.2) = pure (resultFor W o.maxSearches w q.1 q.2) := by
  have hx : ∀ hexts, hexts = o.hext.map (text W w) → hexts ++ o.str = o.inputs.map (hextOf W w) := by
    rintro _ rfl
    simp only [Opts.inputs, List.map_append, List.map_map]
    congr 1
    exact (List.map_id' _).symm
  have hall : AllResults W o.maxSearches (o.inputs.map (rule W w)) (o.html.map (text W w)) results ↔
      (grid o).map (fun q => resultOf W o.maxSearches (rule W w q.1) (text W w q.2)) = results.map pure := by
    rw [AllResults, grid, List.flatMap_map, List.map_flatMap]
    simp only [List.map_map]
    rfl
  have hres := pures (f := fun q : Input × Str => resultOf W o.maxSearches (rule W w q.1) (text W w q.2))
    (g := fun q => resultFor W o.maxSearches w q.1 q.2) (fun q b h => result_of h) (as := grid o) (bs := results)
  rw [good_iff]
  constructor
  · rintro ⟨hexts, w1, w2, h1, h2, h3, h4⟩
    obtain ⟨e, rfl, h5⟩ := (reads_text hr).1 h1
    obtain ⟨rfl, rfl, h6⟩ := (reads_text hr).1 h3
    rw [hx _ e] at h2
    obtain ⟨rfl, h7⟩ := parsed_rules.1 h2
    obtain ⟨h8, h9⟩ := hres.1 (hall.1 h4)
    exact ⟨rfl, rfl, h8, ⟨h5, h7⟩, h6, h9⟩
  · rintro ⟨rfl, rfl, h8, ⟨h5, h7⟩, h6, h9⟩
    refine ⟨_, w, w, (reads_text hr).2 ⟨rfl, rfl, h5⟩, ?_, (reads_text hr).2 ⟨rfl, rfl, h6⟩, hall.2 (hres.2 ⟨h8, h9⟩)⟩
    rw [hx _ rfl]
    exact parsed_rules.2 ⟨rfl, h7⟩

theorem only_inputs (o : Opts) (x : Input) (p : Str) : (o.only x p).inputs = [x] := by
  cases x <;> rfl

theorem only_some (o : Opts) (x : Input) (p : Str) : (o.only x p).hext ≠ [] ∨ (o.only x p).str ≠ [] := by
  cases x
  · exact .inl (by simp [Opts.only, Input.files])
  · exact .inr (by simp [Opts.only, Input.strings])

/-- A run with one hext and one page. -/
theorem single_iff (hr : W.Repeatable) (hh : o.help = false) (hv : o.version = false) (hl : o.lint = false) (x : Input) (p : Str) (out err : Str) :
    main W (.ok (o.only x p)) w = some (.exit 0 out err) ↔ err = [] ∧ out = render W o (resultFor W o.maxSearches w x p) ∧ Good W w x ∧
      Contents W p w (text W w p) w ∧
      resultOf W o.maxSearches (rule W w x) (text W w p) = pure (resultFor W o.maxSearches w x p) := by
  rw [C50_success (o := o.only x p) hh hv hl (only_some o x p) (by simp [Opts.only])]
  refine and_congr_right fun _ => ?_
  have hp : grid (o.only x p) = [(x, p)] := by rw [grid, only_inputs]; rfl
  constructor
  · rintro ⟨rules, texts, results, h, rfl⟩
    obtain ⟨_, _, rfl, h1, h2, h3⟩ := (succeeds_iff hr).1 h
    rw [hp] at h3 ⊢
    rw [only_inputs] at h1
    refine ⟨?_, h1 x (by simp), h2 p (by simp [Opts.only]), h3 (x, p) (by simp)⟩
    simp only [List.map_cons, List.map_nil, List.flatMap_cons, List.flatMap_nil, List.append_nil]
    rfl
  · rintro ⟨rfl, h1, h2, h3⟩
    refine ⟨_, _, _, (succeeds_iff hr).2 ⟨rfl, rfl, rfl, ?_, ?_, ?_⟩, ?_⟩
    · rw [only_inputs]; simpa using h1
    · simpa [Opts.only] using h2
    · rw [hp]
      rintro q hq
      cases List.mem_singleton.1 hq
      exact h3
    · rw [hp]
      simp only [List.map_cons, List.map_nil, List.flatMap_cons, List.flatMap_nil, List.append_nil]
      rfl

end Batch

open Batch

/-- C111. If reading files is repeatable, a run of htmlext with several hexts and pages succeeds if and only if the runs with one hext and one
page each do. It prints what they print, one after the other: first the first hext with all pages, then the second, and so on. -/
theorem C111_batch (hr : W.Repeatable) (hh : o.help = false) (hv : o.version = false) (hl : o.lint = false)
    (hx : o.hext ≠ [] ∨ o.str ≠ []) (hi : o.html ≠ []) (out : Str) : main W (.ok o) w = some (.exit 0 out []) ↔
      (∀ x ∈ o.inputs, ∀ p ∈ o.html, Fine (main W (.ok (o.only x p)) w)) ∧
        out = o.inputs.flatMap fun x => o.html.flatMap fun p => printed (main W (.ok (o.only x p)) w) := by
  rw [C50_success hh hv hl hx hi]
  have hpairs : ∀ q : Input × Str, q ∈ grid o ↔ q.1 ∈ o.inputs ∧ q.2 ∈ o.html := by
    rintro ⟨x, p⟩
    simp only [grid, List.mem_flatMap, List.mem_map, Prod.mk.injEq]
    constructor
    · rintro ⟨y, hy, q, hq, rfl, rfl⟩
      exact ⟨hy, hq⟩
    · rintro ⟨h1, h2⟩
      exact ⟨x, h1, p, h2, rfl, rfl⟩
  have hout : (∀ x ∈ o.inputs, ∀ p ∈ o.html, Fine (main W (.ok (o.only x p)) w)) →
      ((grid o).map (fun q => resultFor W o.maxSearches w q.1 q.2)).flatMap (render W o) =
        o.inputs.flatMap fun x => o.html.flatMap fun p => printed (main W (.ok (o.only x p)) w) := by
    intro h
    have : ∀ xs : List Input, (∀ x ∈ xs, x ∈ o.inputs) →
        ((xs.flatMap fun x => o.html.map fun p => (x, p)).map (fun q => resultFor W o.maxSearches w q.1 q.2)).flatMap (render W o) =
          xs.flatMap fun x => o.html.flatMap fun p => printed (main W (.ok (o.only x p)) w) := by
      intro xs
      induction xs with
      | nil => simp
      | cons x xs ih =>
        intro hm
        rw [List.flatMap_cons, List.map_append, List.flatMap_append, ih fun y hy => hm y (List.mem_cons_of_mem _ hy), List.flatMap_cons]
        congr 1
        have : ∀ ps : List Str, (∀ p ∈ ps, p ∈ o.html) →
            ((ps.map fun p => (x, p)).map (fun q => resultFor W o.maxSearches w q.1 q.2)).flatMap (render W o) =
              ps.flatMap fun p => printed (main W (.ok (o.only x p)) w) := by
          intro ps
          induction ps with
          | nil => simp
          | cons p ps ih2 =>
            intro hp
            simp only [List.map_cons, List.flatMap_cons]
            rw [ih2 fun y hy => hp y (List.mem_cons_of_mem _ hy)]
            obtain ⟨s, hs⟩ := h x (hm x (List.mem_cons_self ..)) p (hp p (List.mem_cons_self ..))
            rw [hs, ((single_iff hr hh hv hl x p s []).1 hs).2.1]
            rfl
        exact this o.html fun _ hp => hp
    exact this o.inputs fun _ hx => hx
  constructor
  · rintro ⟨_, rules, texts, results, h, rfl⟩
    obtain ⟨_, _, rfl, h1, h2, h3⟩ := (succeeds_iff hr).1 h
    have hf : ∀ x ∈ o.inputs, ∀ p ∈ o.html, Fine (main W (.ok (o.only x p)) w) := fun x hx p hp =>
      ⟨_, (single_iff hr hh hv hl x p _ _).2 ⟨rfl, rfl, h1 x hx, h2 p hp, h3 (x, p) ((hpairs _).2 ⟨hx, hp⟩)⟩⟩
    exact ⟨hf, hout hf⟩
  · rintro ⟨hf, rfl⟩
    refine ⟨rfl, _, _, _, (succeeds_iff hr).2 ⟨rfl, rfl, rfl, fun x hx => ?_, fun p hp => ?_, fun q hq => ?_⟩, (hout hf).symm⟩
    · obtain ⟨p, hp⟩ := List.exists_mem_of_ne_nil _ hi
      obtain ⟨s, hs⟩ := hf x hx p hp
      exact ((single_iff hr hh hv hl x p s []).1 hs).2.2.1
    · have hne : o.inputs ≠ [] := by
        rcases hx with h | h <;> simp [Opts.inputs, h]
      obtain ⟨x, hx⟩ := List.exists_mem_of_ne_nil _ hne
      obtain ⟨s, hs⟩ := hf x hx p hp
      exact ((single_iff hr hh hv hl x p s []).1 hs).2.2.2.1
    · obtain ⟨s, hs⟩ := hf q.1 ((hpairs q).1 hq).1 q.2 ((hpairs q).1 hq).2
      exact ((single_iff hr hh hv hl q.1 q.2 s []).1 hs).2.2.2.2

/-- C111, for two lots of pages and one hext: it makes no difference whether they are given in one run or in two. -/
theorem C111_pages (hr : W.Repeatable) (hh : o.help = false) (hv : o.version = false) (hl : o.lint = false) {x : Input} (hx : o.inputs = [x])
    {ps qs : List Str} (hp : ps ≠ []) (hq : qs ≠ []) (out : Str) : main W (.ok { o with html := ps ++ qs }) w = some (.exit 0 out []) ↔
      ∃ a b, main W (.ok { o with html := ps }) w = some (.exit 0 a []) ∧ main W (.ok { o with html := qs }) w = some (.exit 0 b []) ∧
        out = a ++ b := by
  have hne : o.hext ≠ [] ∨ o.str ≠ [] := by
    cases h1 : o.hext with
    | cons _ _ => exact .inl (by simp)
    | nil =>
      cases h2 : o.str with
      | cons _ _ => exact .inr (by simp)
      | nil => simp [Opts.inputs, h1, h2] at hx
  have key : ∀ {rs : List Str}, rs ≠ [] → ∀ out, main W (.ok { o with html := rs }) w = some (.exit 0 out []) ↔
      (∀ p ∈ rs, Fine (main W (.ok (o.only x p)) w)) ∧ out = rs.flatMap fun p => printed (main W (.ok (o.only x p)) w) := by
    intro rs hrs out
    rw [C111_batch (o := { o with html := rs }) hr hh hv hl hne hrs]
    have : Opts.inputs { o with html := rs } = [x] := hx
    rw [this]
    simp only [List.mem_singleton, forall_eq, List.flatMap_cons, List.flatMap_nil, List.append_nil]
    rfl
  rw [key (by simp [hp])]
  constructor
  · rintro ⟨h, rfl⟩
    exact ⟨_, _, (key hp _).2 ⟨fun p h' => h p (List.mem_append_left _ h'), rfl⟩, (key hq _).2 ⟨fun p h' => h p (List.mem_append_right _ h'), rfl⟩,
      List.flatMap_append⟩
  · rintro ⟨a, b, h1, h2, rfl⟩
    obtain ⟨k1, rfl⟩ := (key hp a).1 h1
    obtain ⟨k2, rfl⟩ := (key hq b).1 h2
    exact ⟨fun p h => (List.mem_append.1 h).elim (k1 p) (k2 p), List.flatMap_append.symm⟩

/-- C111, for two lots of hexts. -/
theorem C111_hexts (hr : W.Repeatable) (hh : o.help = false) (hv : o.version = false) (hl : o.lint = false) (hi : o.html ≠ [])
    {a b c : Opts} (ha : a = { o with hext := a.hext, str := a.str }) (hb : b = { o with hext := b.hext, str := b.str })
    (hc : c = { o with hext := c.hext, str := c.str }) (hab : c.inputs = a.inputs ++ b.inputs) (ha0 : a.inputs ≠ []) (hb0 : b.inputs ≠ []) (out : Str) :
    main W (.ok c) w = some (.exit 0 out []) ↔
      ∃ u v, main W (.ok a) w = some (.exit 0 u []) ∧ main W (.ok b) w = some (.exit 0 v []) ∧ out = u ++ v := by
  have key : ∀ {d : Opts}, d = { o with hext := d.hext, str := d.str } → d.inputs ≠ [] → ∀ out, main W (.ok d) w = some (.exit 0 out []) ↔
      (∀ x ∈ d.inputs, ∀ p ∈ o.html, Fine (main W (.ok (o.only x p)) w)) ∧
        out = d.inputs.flatMap fun x => o.html.flatMap fun p => printed (main W (.ok (o.only x p)) w) := by
    intro d hd h0 out
    have hne : d.hext ≠ [] ∨ d.str ≠ [] := by
      cases h1 : d.hext with
      | cons _ _ => exact .inl (by simp)
      | nil =>
        cases h2 : d.str with
        | cons _ _ => exact .inr (by simp)
        | nil => simp [Opts.inputs, h1, h2] at h0
    have e : d.html = o.html := by rw [hd]
    have e' : ∀ x p, d.only x p = o.only x p := by intro x p; rw [hd]; rfl
    rw [C111_batch hr (by rw [hd]; exact hh) (by rw [hd]; exact hv) (by rw [hd]; exact hl) hne (by rw [e]; exact hi), e]
    simp only [e']
  rw [key hc (by rw [hab]; simp [ha0]), hab]
  constructor
  · rintro ⟨h, rfl⟩
    exact ⟨_, _, (key ha ha0 _).2 ⟨fun x h' => h x (List.mem_append_left _ h'), rfl⟩,
      (key hb hb0 _).2 ⟨fun x h' => h x (List.mem_append_right _ h'), rfl⟩, List.flatMap_append⟩
  · rintro ⟨u, v, h1, h2, rfl⟩
    obtain ⟨k1, rfl⟩ := (key ha ha0 u).1 h1
    obtain ⟨k2, rfl⟩ := (key hb hb0 v).1 h2
    exact ⟨fun x h => (List.mem_append.1 h).elim (k1 x) (k2 x), List.flatMap_append.symm⟩

/-- C111 for `--lint`: several hexts are accepted if and only if each of them is. -/
theorem C111_lint (hr : W.Repeatable) (hh : o.help = false) (hv : o.version = false) (hl : o.lint = true) (hx : o.hext ≠ [] ∨ o.str ≠ []) (p : Str) :
    Fine (main W (.ok o) w) ↔ ∀ x ∈ o.inputs, Fine (main W (.ok (o.only x p)) w) := by
  have key : ∀ {d : Opts}, d.help = false → d.version = false → d.lint = true → (d.hext ≠ [] ∨ d.str ≠ []) →
      (Fine (main W (.ok d) w) ↔ ∀ x ∈ d.inputs, Good W w x) := by
    intro d h1 h2 h3 h4
    have hx' : d.hext.map (text W w) ++ d.str = d.inputs.map (hextOf W w) := by
      simp only [Opts.inputs, List.map_append, List.map_map]
      congr 1
      exact (List.map_id' _).symm
    rw [good_iff]
    constructor
    · rintro ⟨out, h⟩
      obtain ⟨_, rfl, hexts, w1, rules, h5, h6⟩ := (C52_lint h1 h2 h3 h4 _ _).1 h
      obtain ⟨rfl, _, h7⟩ := (reads_text hr).1 h5
      rw [hx'] at h6
      exact ⟨h7, (parsed_rules.1 h6).2⟩
    · rintro ⟨h5, h6⟩
      exact ⟨[], (C52_lint h1 h2 h3 h4 _ _).2 ⟨rfl, rfl, _, w, _, (reads_text hr).2 ⟨rfl, rfl, h5⟩, by rw [hx']; exact parsed_rules.2 ⟨rfl, h6⟩⟩⟩
  rw [key hh hv hl hx]
  refine forall_congr' fun x => forall_congr' fun _ => ?_
  rw [key (d := o.only x p) hh hv hl (only_some o x p), only_inputs]
  simp

/-! ## Examples -/

theorem exWorld_repeatable : exWorld.Repeatable := by
  intro path w
  rfl

/-- Two pages and one hext. -/
example : main exWorld (.ok { exOpts with html := [lit "page.html", lit "b.html"] }) () = some (.exit 0 (lit "1\n2\n1\n2\n") []) := by
  have h : ∀ p, p ≠ lit "no.html" → main exWorld (.ok { exOpts with html := [p] }) () = some (.exit 0 (lit "1\n2\n") []) := by
    intro p hp
    refine (C50_success rfl rfl rfl (.inr (by simp [exOpts])) (by simp) _ _).2 ⟨rfl, [hrefRule], [lit "<a/>"], [[[(lit "x", lit "1")], [(lit "x", lit "2")]]], ?_, rfl⟩
    obtain ⟨hexts, w1, w2, h1, h2, h3, h4⟩ := ex_succeeds (some (lit "x")) false
    refine ⟨hexts, w1, w2, h1, h2, .cons (.inl ?_) .nil, h4⟩
    simp only [exWorld, if_neg hp]
  exact (C111_pages (o := exOpts) (x := .string (lit "<a href:x/>")) exWorld_repeatable rfl rfl rfl rfl (ps := [lit "page.html"]) (qs := [lit "b.html"])
    (by simp) (by simp) _).2 ⟨_, _, h _ (by decide), h _ (by decide), by decide⟩

/-- Two hexts and one page. -/
example : main exWorld (.ok { exOpts with str := [lit "<a href:x/>", lit "<a href:x/>"] }) () = some (.exit 0 (lit "1\n2\n1\n2\n") []) := by
  have h := ex_run (some (lit "x")) false
  exact (C111_hexts (o := exOpts) (a := exOpts) (b := exOpts) exWorld_repeatable rfl rfl rfl (by simp [exOpts]) rfl rfl rfl rfl
    (by simp [exOpts, Opts.inputs]) (by simp [exOpts, Opts.inputs]) _).2 ⟨_, _, h, h, by decide⟩

/-- `--lint` with the same hext twice. -/
example : Fine (main exWorld (.ok { str := [lit "<a href:x/>", lit "<a href:x/>"], lint := true }) ()) := by
  refine (C111_lint exWorld_repeatable rfl rfl rfl (.inr (by simp)) []).2 fun x hx => ?_
  simp only [Opts.inputs, List.map_nil, List.nil_append, List.map_cons, List.mem_cons, List.not_mem_nil, or_false, or_self] at hx
  subst hx
  refine ⟨[], (C52_lint rfl rfl rfl (.inr (by simp [Opts.only, Input.strings])) _ _).2 ⟨rfl, rfl, [], (), [hrefRule], .nil, ?_⟩⟩
  simp only [Opts.only, Input.strings, List.nil_append, List.map_cons, List.map_nil, List.cons.injEq, and_true]
  exact href_parsed Ex.rx true

/-- Standard input has the text `<a/>` as long as it was not read (`true`), and nothing after that. -/
def stdinWorld : World Bool where
  files := fun path w =>
    if path = lit "/dev/stdin" then (.bytes (if w then lit "<a/>" else []), false) else (.noOpen (lit "No such file or directory"), w)
  gumbo := readWorld.gumbo
  rx := Ex.rx
  charSigned := true
  ttyOut := false
  ttyErr := false
  program := lit "htmlext"
  argc := 4
  helpText := []
  versionText := []

/-- Repeatable reading is needed: standard input, given twice, is a page once and nothing afterwards. -/
theorem C111_stdin : main stdinWorld (.ok { exOpts with html := [lit "-"] }) true = some (.exit 0 (lit "1\n2\n") []) ∧
    main stdinWorld (.ok { exOpts with html := [lit "-", lit "-"] }) true = some (.exit 0 (lit "1\n2\n") []) := by
  have hsafe := parse_safe (noLong_of_few (by decide)) (href_parsed Ex.rx true)
  have e1 : extract Ex.rx (readWorld.gumbo (lit "<a/>")).1 hrefRule (readWorld.gumbo (lit "<a/>")).2 0 =
      pure [[(lit "x", lit "1")], [(lit "x", lit "2")]] := by
    show extract Ex.rx Ex.heap hrefRule (Loc.root Ex.doc).ptr 0 = _
    rw [extract_eq (rx := Ex.rx) (h := Ex.heap) (n := manyChildren) (by decide) hsafe (l := Loc.root Ex.doc) (isDocument_of_ok (by decide +kernel))]
    decide +kernel
  have e2 : extract Ex.rx (readWorld.gumbo []).1 hrefRule (readWorld.gumbo []).2 0 = pure [] := by
    show extract Ex.rx (docHeap 0 blankDoc) hrefRule (Loc.root blankDoc).ptr 0 = _
    rw [extract_eq (rx := Ex.rx) (h := docHeap 0 blankDoc) (n := manyChildren) (by decide) hsafe (l := Loc.root blankDoc) (isDocument_of_ok (by decide +kernel))]
    decide +kernel
  have r1 : Contents stdinWorld (lit "-") true (lit "<a/>") false := .inr ⟨rfl, _, true, rfl, rfl⟩
  have r2 : Contents stdinWorld (lit "-") false [] false := .inr ⟨rfl, _, false, rfl, rfl⟩
  have hp : [lit "<a href:x/>"].map (parseHextC Ex.rx true) = [hrefRule].map .ok := by
    simp only [List.map_cons, List.map_nil, List.cons.injEq, and_true]
    exact href_parsed Ex.rx true
  constructor
  · refine (C50_success rfl rfl rfl (.inr (by simp [exOpts])) (by simp) _ _).2
      ⟨rfl, [hrefRule], [lit "<a/>"], [[[(lit "x", lit "1")], [(lit "x", lit "2")]]], ⟨[], true, false, .nil, hp, .cons r1 .nil, ?_⟩, by decide⟩
    simp only [AllResults, List.flatMap_cons, List.flatMap_nil, List.append_nil, List.map_cons, List.map_nil, List.cons.injEq, and_true]
    exact e1
  · refine (C50_success rfl rfl rfl (.inr (by simp [exOpts])) (by simp) _ _).2
      ⟨rfl, [hrefRule], [lit "<a/>", []], [[[(lit "x", lit "1")], [(lit "x", lit "2")]], []],
        ⟨[], true, false, .nil, hp, .cons r1 (.cons r2 .nil), ?_⟩, by decide⟩
    simp only [AllResults, List.flatMap_cons, List.flatMap_nil, List.append_nil, List.map_cons, List.map_nil, List.cons.injEq, and_true]
    exact ⟨e1, e2⟩

end Hext.Props
