import Verif.Spec.PyObjects
import Verif.Props.Scripts
import Verif.Props.Part
import Verif.Props.ScriptExit
/-!
# Programs of Python (C86)
-/

namespace Hext.Props.Py

open Binding PyApi

variable {P : Host}

/-- What a program knows is what the memory holds. -/
structure Knows (P : Host) (k : Known) (s : PyApi.State) : Prop where
  html : ∀ i text, k.htmls i = some text → s.htmls i = some (P.gumbo text)
  rule : ∀ i hext, k.rules i = some hext → ∃ r, s.rules i = some r ∧ Syn.Means P.rx hext r
  newHtml : ∀ i, s.fresh ≤ i → k.htmls i = none
  newRule : ∀ i, s.fresh ≤ i → k.rules i = none

theorem knows_start : Knows P .nothing .start :=
  ⟨fun _ _ h => by simp [Known.nothing] at h, fun _ _ h => by simp [Known.nothing] at h, fun _ _ => rfl, fun _ _ => rfl⟩

theorem wrapperRule_value {rx : RxEngine} {charSigned : Bool} {hext : Str} {r : Rule} (h : wrapperRule rx charSigned hext = .value r) :
    Syn.Means rx hext r := by
  unfold wrapperRule at h
  cases hp : parseHext rx charSigned hext with
  | ok r' => rw [hp] at h; cases h; exact (C36_parse_iff _ _ _ _).1 hp
  | error e => rw [hp] at h; cases e <;> cases h

theorem wrapperRule_other {rx : RxEngine} {charSigned : Bool} {hext : Str} (h : ∀ r, wrapperRule rx charSigned hext ≠ .value r) (r : Rule) :
    ¬ Syn.Means rx hext r := by
  intro hm
  apply h r
  unfold wrapperRule
  rw [(C36_parse_iff rx charSigned _ r).2 hm]

theorem wrapperRule_class {rx : RxEngine} {charSigned : Bool} {hext cls what : Str} (h : wrapperRule rx charSigned hext = .raises cls what) :
    Raises "ValueError" (.raises cls what) := by
  unfold wrapperRule at h
  cases hp : parseHext rx charSigned hext with
  | ok r' => rw [hp] at h; cases h
  | error e => rw [hp] at h; cases e <;> cases h; exact ⟨_, rfl⟩

theorem pyLimit_some {n : Int} (h : 0 ≤ n ∧ n < 2 ^ 64) : pyLimit n = some (UInt64.ofNat n.toNat) := by
  rw [pyLimit, if_pos (by omega)]

theorem pyLimit_none {n : Int} (h : ¬ (0 ≤ n ∧ n < 2 ^ 64)) : pyLimit n = none := by
  rw [pyLimit, if_neg (by omega)]

theorem passes_dictsReply (a : Answer (List (List (Text × Entry Text)))) : Passes a (dictsReply a) := by
  refine ⟨?_, ?_, ?_, ?_, ?_⟩ <;> intros <;> subst_vars <;> rfl

theorem passes_eq {a : Answer (List (List (Text × Entry Text)))} {r : Reply} (h : Passes a r) : r = dictsReply a := by
  obtain ⟨h1, h2, h3, h4, h5⟩ := h
  cases a with
  | value os => exact h1 os rfl
  | raises cls what => exact h2 cls what rfl
  | terminates => exact h3 rfl
  | crash => exact h4 rfl
  | hangs => exact h5 rfl

/-- One call: the reply is right, and afterwards the program knows again what the memory holds. -/
theorem step_right {k : Known} {s : PyApi.State} (h : Knows P k s) (c : Call) (hc : CallOk k c) :
    Right P k c (perform P s c).1 ∧ (goesOn (perform P s c).1 = true → Knows P (k.after c (perform P s c).1) (perform P s c).2) := by
  cases c with
  | newHtml args =>
    match args with
    | [] => exact ⟨⟨_, rfl⟩, fun _ => h⟩
    | [.str (some text)] =>
      refine ⟨⟨s.fresh, rfl, h.newHtml _ (Nat.le_refl _)⟩, fun _ => ⟨fun i t hi => ?_, h.rule, fun i hi => ?_, fun i hi => ?_⟩⟩
      · simp only [Known.after, perform, PyApi.newHtml] at hi ⊢
        simp only [PyApi.put]
        by_cases he : i = s.fresh
        · rw [if_pos he] at hi ⊢
          cases hi; rfl
        · rw [if_neg he] at hi ⊢
          exact h.html i t hi
      · simp only [Known.after, perform, PyApi.newHtml] at hi ⊢
        rw [if_neg (by omega)]
        exact h.newHtml i (by omega)
      · simp only [perform, PyApi.newHtml] at hi
        exact h.newRule i (by omega)
    | [.str none] => exact ⟨rfl, fun _ => h⟩
    | [.int _] => exact ⟨⟨_, rfl⟩, fun _ => h⟩
    | [.html _] => exact ⟨⟨_, rfl⟩, fun _ => h⟩
    | [.rule _] => exact ⟨⟨_, rfl⟩, fun _ => h⟩
    | [.other] => exact ⟨⟨_, rfl⟩, fun _ => h⟩
    | a :: _ :: _ => rcases a with (_ | _) | _ | _ | _ | _ <;> exact ⟨⟨_, rfl⟩, fun _ => h⟩
  | newRule args =>
    match args with
    | [] => exact ⟨⟨_, rfl⟩, fun _ => h⟩
    | [.str (some hext)] =>
      simp only [perform, PyApi.newRule, Right]
      cases hr : wrapperRule P.rx P.charSigned hext with
      | value r =>
        have hm := wrapperRule_value hr
        refine ⟨.inl ⟨s.fresh, r, rfl, h.newRule _ (Nat.le_refl _), hm⟩, fun _ => ⟨h.html, fun i t hi => ?_, fun i hi => ?_, fun i hi => ?_⟩⟩
        · simp only [Known.after] at hi ⊢
          simp only [PyApi.put]
          by_cases he : i = s.fresh
          · rw [if_pos he] at hi ⊢
            cases hi
            exact ⟨r, rfl, hm⟩
          · rw [if_neg he] at hi ⊢
            exact h.rule i t hi
        · exact h.newHtml i (by simp only at hi; omega)
        · simp only [Known.after] at hi ⊢
          rw [if_neg (by omega)]
          exact h.newRule i (by omega)
      | raises cls what => exact ⟨.inr ⟨wrapperRule_other fun r => by rw [hr]; simp, .inl (wrapperRule_class hr)⟩, fun _ => h⟩
      | terminates => exact ⟨.inr ⟨wrapperRule_other fun r => by rw [hr]; simp, .inr rfl⟩, fun hg => by cases hg⟩
      | crash => exact ⟨.inr ⟨wrapperRule_other fun r => by rw [hr]; simp, .inr rfl⟩, fun hg => by cases hg⟩
      | hangs => exact ⟨.inr ⟨wrapperRule_other fun r => by rw [hr]; simp, .inr rfl⟩, fun hg => by cases hg⟩
    | [.str none] => exact ⟨rfl, fun _ => h⟩
    | [.int _] => exact ⟨⟨_, rfl⟩, fun _ => h⟩
    | [.html _] => exact ⟨⟨_, rfl⟩, fun _ => h⟩
    | [.rule _] => exact ⟨⟨_, rfl⟩, fun _ => h⟩
    | [.other] => exact ⟨⟨_, rfl⟩, fun _ => h⟩
    | a :: _ :: _ => rcases a with (_ | _) | _ | _ | _ | _ <;> exact ⟨⟨_, rfl⟩, fun _ => h⟩
  | extract self args =>
    refine ⟨?_, fun _ => h⟩
    obtain ⟨hself, hargs⟩ := hc
    obtain ⟨hext, hk⟩ := Option.ne_none_iff_exists'.1 hself
    obtain ⟨r, hr, hm⟩ := h.rule _ _ hk
    have two {i : Nat} {n : Int} (hi : k.htmls i ≠ none) : if 0 ≤ n ∧ n < 2 ^ 64 then Right.Extracts P k (extractWith P self (.html i) (.int n) s) self i n.toNat
        else Raises "OverflowError" (extractWith P self (.html i) (.int n) s) := by
      obtain ⟨text, ht⟩ := Option.ne_none_iff_exists'.1 hi
      simp only [extractWith, hr, h.html _ _ ht]
      by_cases hn : 0 ≤ n ∧ n < 2 ^ 64
      · rw [if_pos hn, pyLimit_some hn]
        exact ⟨hext, text, r, hk, ht, hm, passes_dictsReply _⟩
      · rw [if_neg hn, pyLimit_none hn]
        exact ⟨_, rfl⟩
    match args, hargs with
    | [], _ => exact ⟨_, rfl⟩
    | [.html i], hargs =>
      have := two (i := i) (n := 0) (hargs (.html i) (by simp))
      rw [if_pos (by decide)] at this
      exact this
    | [.html i, .int n], hargs => exact two (hargs (.html i) (by simp))
    | [.html i, .str _], hargs => exact ⟨_, rfl⟩
    | [.html i, .html _], hargs => exact ⟨_, rfl⟩
    | [.html i, .rule _], hargs => exact ⟨_, rfl⟩
    | [.html i, .other], hargs => exact ⟨_, rfl⟩
    | [.str _], _ => exact ⟨_, rfl⟩
    | [.int _], _ => exact ⟨_, rfl⟩
    | [.rule _], _ => exact ⟨_, rfl⟩
    | [.other], _ => exact ⟨_, rfl⟩
    | [.str _, _], _ => exact ⟨_, rfl⟩
    | [.int _, _], _ => exact ⟨_, rfl⟩
    | [.rule _, _], _ => exact ⟨_, rfl⟩
    | [.other, _], _ => exact ⟨_, rfl⟩
    | a :: b :: _ :: _, _ => cases a <;> cases b <;> exact ⟨_, rfl⟩
  | dropHtml i =>
    refine ⟨rfl, fun _ => ⟨fun j t hj => ?_, h.rule, fun j hj => ?_, h.newRule⟩⟩
    · simp only [Known.after, perform] at hj ⊢
      simp only [PyApi.put]
      by_cases he : j = i
      · rw [if_pos he] at hj; cases hj
      · rw [if_neg he] at hj ⊢
        exact h.html j t hj
    · simp only [Known.after]
      split
      · rfl
      · exact h.newHtml j hj
  | dropRule i =>
    refine ⟨rfl, fun _ => ⟨h.html, fun j t hj => ?_, h.newHtml, fun j hj => ?_⟩⟩
    · simp only [Known.after, perform] at hj ⊢
      simp only [PyApi.put]
      by_cases he : j = i
      · rw [if_pos he] at hj; cases hj
      · rw [if_neg he] at hj ⊢
        exact h.rule j t hj
    · simp only [Known.after]
      split
      · rfl
      · exact h.newRule j hj

theorem replies_right : ∀ (cs : List Call) {k : Known} {s : PyApi.State}, Knows P k s → AllRight P k cs (replies P s cs)
  | [], _, _, _ => rfl
  | c :: cs, k, s, h => by
    intro hc
    obtain ⟨h1, h2⟩ := step_right h c hc
    refine ⟨(perform P s c).1, if goesOn (perform P s c).1 then replies P (perform P s c).2 cs else [], rfl, h1, ?_⟩
    by_cases hg : goesOn (perform P s c).1 = true
    · rw [if_pos hg, if_pos hg]
      exact replies_right cs (h2 hg)
    · rw [if_neg hg, if_neg hg]

/-- C86. Whatever calls a program of Python makes, in whatever order and with whatever arguments, and whenever objects that it no longer
refers to are destroyed: each reply is right. -/
theorem C86_python_programs (P : Host) (calls : List Call) : AllRight P .nothing calls (replies P .start calls) :=
  replies_right calls knows_start

/-! ## Dicts -/

theorem upToNul_eq (m : List (Str × Str)) : upToNul m = m.map fun p => (p.1, cstr p.2) := rfl

theorem keySorted_upToNul {m : List (Str × Str)} (h : KeySorted m) : KeySorted (upToNul m) := by
  unfold KeySorted upToNul at *
  rw [List.pairwise_map]
  exact h

theorem keysOf_upToNul (m : List (Str × Str)) : keysOf (upToNul m) = keysOf m := by
  unfold keysOf upToNul
  rw [List.foldl_map]

theorem valuesOf_upToNul (m : List (Str × Str)) (k : Str) : valuesOf (upToNul m) k = (valuesOf m k).map cstr := by
  rw [upToNul_eq]
  induction m with
  | nil => rfl
  | cons p m ih =>
    simp only [valuesOf, List.map_cons, List.filter_cons] at ih ⊢
    split <;> simp_all

theorem entryOf_map (f : Str → Str) (vs : List Str) : entryOf (vs.map f) = (entryOf vs).map f := by
  match vs with
  | [] => rfl
  | [_] => rfl
  | _ :: _ :: _ => rfl

theorem entsOf_upToNul (m : List (Str × Str)) : entsOf (upToNul m) = (entsOf m).map fun x => (x.1, x.2.map cstr) := by
  unfold entsOf
  rw [keysOf_upToNul, List.map_map]
  apply List.map_congr_left
  intro k _
  simp [valuesOf_upToNul, entryOf_map]

theorem noNul_upToNul {m : List (Str × Str)} (hn : ∀ p ∈ m, (0 : Byte) ∉ p.1) : NoNul (upToNul m) := by
  intro p hp
  obtain ⟨q, hq, rfl⟩ := List.mem_map.1 hp
  refine ⟨hn q hq, fun h0 => ?_⟩
  have := List.all_eq_true.1 (List.all_takeWhile (p := fun x : Byte => x != 0) (l := q.2)) 0 h0
  simp at this

/-- Python sees a map as if its values were cut off before their first NUL byte. -/
theorem pyDict_upToNul {m : List (Str × Str)} (hm : KeySorted m) (hn : ∀ p ∈ m, (0 : Byte) ∉ p.1) (hu : IsUtf8 (upToNul m)) :
    pyDict m = pyDict (upToNul m) := by
  rw [pyDict_presents (keySorted_upToNul hm) (noNul_upToNul hn) hu (entsOf_presents (keySorted_upToNul hm)), pyDict]
  have hu' : ∀ p ∈ m, (∃ t, IsUtf8Of p.1 t) ∧ ∃ t, IsUtf8Of (cstr p.2) t := fun p hp => hu (p.1, cstr p.2) (List.mem_map.2 ⟨p, hp, rfl⟩)
  have hs : ∀ s, (∃ t, IsUtf8Of (cstr s) t) → pyString s = pure (textOf (cstr s)) := by
    rintro s ⟨t, ht⟩
    rw [pyString, textOf_eq (by rw [utf8_iff.2 ht]; simp)]
  rw [mapLoop_ents (cv := fun s => textOf (cstr s)) (step := fun d x => dictSet d (textOf x.1) (x.2.map fun s => textOf (cstr s))) hm]
  · rw [foldl_dictSet (fun x : Str × Entry Str => textOf x.1)]
    · rw [entsOf_upToNul, textEntries, List.map_map]
      simp only [List.nil_append, Function.comp_def]
      congr 1
      apply List.map_congr_left
      rintro ⟨k, e⟩ _
      cases e <;> simp [Entry.map]
    · have := keys_text_nodup hu
      rw [entsOf_upToNul] at this
      simpa [Function.comp_def] using this
  · intro p hp
    exact hs _ (hu' p hp).2
  · rintro d k e ⟨p, hp, rfl⟩ _
    have := hs p.1 (by rw [cstr_eq (hn p hp)]; exact (hu' p hp).1)
    rw [cstr_eq (hn p hp)] at this
    rw [pyPut, this, pure_bind]

/-- The dict of a map whose names have no NUL byte: it presents the map up to NUL bytes, or there is none because a name or value is not
UTF-8. -/
theorem pyDict_exact {m : List (Str × Str)} (hm : KeySorted m) (hn : ∀ p ∈ m, (0 : Byte) ∉ p.1) :
    (∃ o t, Presents (upToNul m) o ∧ IsTextOf o t ∧ pyDict m = pure t) ∨ (¬ IsUtf8 (upToNul m) ∧ ∀ t, pyDict m ≠ pure t) := by
  by_cases hu : IsUtf8 (upToNul m)
  · have ho := entsOf_presents (keySorted_upToNul hm)
    exact .inl ⟨_, _, ho, presents_isText ho hu, by
      rw [pyDict_upToNul hm hn hu, pyDict_presents (keySorted_upToNul hm) (noNul_upToNul hn) hu ho]⟩
  · refine .inr ⟨hu, fun t ht => hu ?_⟩
    have := pyDict_utf8 hm ht
    intro p hp
    obtain ⟨q, hq, rfl⟩ := List.mem_map.1 hp
    have h1 := this q hq
    rw [cstr_eq (hn q hq)] at h1
    exact h1

/-- C86. What the reply to `extract` is, if the document that Gumbo makes of the text has the form of a tree: the meaning of the hext on
the document. If the names have no NUL bytes, then there is one dict for each map, with values cut off before their first NUL byte; but
if a name or such a value is not UTF-8, then `RuntimeError` is raised. With a limit the reply may also be a `RuntimeError`. -/
theorem C86_meaning {k : Known} {self i : Nat} {n : Int} {r : Reply} {hext text : Str} {t : Tree}
    (h : Right P k (.extract self [.html i, .int n]) r) (hn : 0 ≤ n ∧ n < 2 ^ 64) (hr : k.rules self = some hext)
    (ht : k.htmls i = some text) (hl : NoLong hext) (hd : IsDocument (P.gumbo text).1 1147483648 t) (hroot : (P.gumbo text).2 = t.ptr) :
    ∃ rule res, Syn.Means P.rx hext rule ∧ IsOutcome P.rx (fun _ => none) rule (Loc.root t) res ∧
      ((n ≠ 0 ∧ Raises "RuntimeError" r) ∨ ((∀ m ∈ res, ∀ p ∈ m, (0 : Byte) ∉ p.1) →
        ((∀ m ∈ res, IsUtf8 (upToNul m)) →
          ∃ os, r = .value (.dicts os) ∧ os.length = res.length ∧ ∀ x ∈ res.zip os, ∃ o, Presents (upToNul x.1) o ∧ IsTextOf o x.2) ∧
        (¬ (∀ m ∈ res, IsUtf8 (upToNul m)) → Raises "RuntimeError" r))) := by
  simp only [Right] at h
  rw [if_pos hn] at h
  obtain ⟨hext', text', rule, h1, h2, h3, h4⟩ := h
  cases passes_eq h4
  rw [hr] at h1
  rw [ht] at h2
  cases h1
  cases h2
  have hp := (C36_parse_iff P.rx P.charSigned _ _).2 h3
  obtain ⟨res, ho, _⟩ := C63_total hl hp hd
  have he := (extract_outcome (h := (P.gumbo text).1) (n := 1147483648) (by decide) (parse_safe hl hp) (parse_words hp)
    (l := Loc.root t) hd res).2 (outcome_heap (parse_builtin hp) ho)
  obtain ⟨res', g1, _, g2⟩ := extract_result (rx := P.rx) (n := 1147483648) (by decide) (parse_safe hl hp) (l := Loc.root t) hd
  have e := g2 0
  rw [he] at e
  simp only [ne_eq, not_true_eq_false, false_and, if_false] at e
  have e := E.pure_inj e
  subst e
  have same {res'} (e1 : extract P.rx (P.gumbo text).1 rule t.ptr (UInt64.ofNat n.toNat) = pure res') : res' = res := by
    have e5 := g2 (UInt64.ofNat n.toNat)
    have e1' : extract P.rx (P.gumbo text).1 rule (Loc.root t).ptr (UInt64.ofNat n.toNat) = pure res' := e1
    rw [e1'] at e5
    split at e5
    · exact (pure_ne_throw e5).elim
    exact E.pure_inj e5
  have hks : ∀ m ∈ res, KeySorted m := by
    obtain ⟨gs, ms', _, hms, hres⟩ := extract_isResult (l := Loc.root t) (n := 1147483648) (by decide) (parse_safe hl hp) hd he
    intro m hm
    rw [hres] at hm
    obtain ⟨g', _, vs, _, him⟩ := hms.mem (List.mem_filter.1 hm).1
    exact him.1
  refine ⟨rule, res, h3, ho, ?_⟩
  rw [hroot]
  rcases wrapperExtract_cases (fun res => pyResult_returns) hl hp hd (UInt64.ofNat n.toNat) with ⟨res', os, e1, e2, e3⟩ | ⟨e1, _, e3⟩ | ⟨_, res', e1, e2, e3⟩
  · cases same e1
    refine .inr fun hnames => ?_
    have hu : ∀ m ∈ res, IsUtf8 (upToNul m) := by
      intro m hm p hp
      obtain ⟨q, hq, rfl⟩ := List.mem_map.1 hp
      have := pyResult_utf8 hks e2 m hm q hq
      rw [cstr_eq (hnames m hm q hq)] at this
      exact this
    refine ⟨fun _ => ?_, fun h => absurd hu h⟩
    obtain ⟨e5, e6⟩ := resultLoop_presents (R := fun m t => ∃ o, Presents (upToNul m) o ∧ IsTextOf o t) (fun m hm d hd => by
      rcases pyDict_exact (hks m hm) (hnames m hm) with ⟨o, t, a1, a2, a3⟩ | ⟨a1, _⟩
      · rw [pyDict, hd] at a3
        have a3 : d = t := by injection a3 with a3; injection a3
        exact ⟨o, a1, a3 ▸ a2⟩
      · exact absurd (hu m hm) a1) e2
    refine ⟨os, ?_, e5, e6⟩
    rw [pyExtract, e3]; rfl
  · refine .inl ⟨?_, ⟨_, by rw [pyExtract, e3]; rfl⟩⟩
    rintro rfl
    exact e1 rfl
  · cases same e1
    refine .inr fun hnames => ?_
    refine ⟨?_, fun _ => ⟨_, by rw [pyExtract, e3]; rfl⟩⟩
    · intro hu
      have : ∀ {res : List (List (Str × Str))}, (∀ m ∈ res, KeySorted m) → (∀ m ∈ res, ∀ p ∈ m, (0 : Byte) ∉ p.1) →
          (∀ m ∈ res, IsUtf8 (upToNul m)) → ∃ ts, pyResult res = pure ts := by
        intro res
        induction res with
        | nil => exact fun _ _ _ => ⟨[], rfl⟩
        | cons m ms ih =>
          intro b1 b2 b3
          obtain ⟨ts, hts⟩ := ih (fun x hx => b1 x (by simp [hx])) (fun x hx => b2 x (by simp [hx])) (fun x hx => b3 x (by simp [hx]))
          rcases pyDict_exact (b1 m (by simp)) (b2 m (by simp)) with ⟨o, t, _, _, a3⟩ | ⟨a1, _⟩
          · refine ⟨t :: ts, ?_⟩
            rw [pyResult] at hts ⊢
            rw [pyDict] at a3
            rw [resultLoop, a3, pure_bind, hts]; rfl
          · exact absurd (b3 m (by simp)) a1
      obtain ⟨ts, hts⟩ := this hks hnames hu
      rw [e2] at hts
      injection hts with hts
      cases hts

/-- C86. What `extract` replies depends only on the texts that the rule and the document were made from, and on the limit. -/
theorem C86_same_reply {k k' : Known} {self self' i i' : Nat} {n : Int} {r r' : Reply} (hn : 0 ≤ n ∧ n < 2 ^ 64)
    (h : Right P k (.extract self [.html i, .int n]) r) (h' : Right P k' (.extract self' [.html i', .int n]) r')
    (hr : k.rules self = k'.rules self') (ht : k.htmls i = k'.htmls i') : r = r' := by
  simp only [Right] at h h'
  rw [if_pos hn] at h h'
  obtain ⟨hext, text, rule, h1, h2, h3, h4⟩ := h
  obtain ⟨hext', text', rule', h1', h2', h3', h4'⟩ := h'
  cases passes_eq h4
  cases passes_eq h4'
  rw [h1, h1'] at hr
  rw [h2, h2'] at ht
  cases hr
  cases ht
  rw [C36_meaning_unique _ _ _ _ h3 h3']

/-- C86. The limit is exact: for every rule and document there is a number of searches. A limit up to this number raises an exception that
says so; with every other limit the reply is the one without limit. -/
theorem C86_limit {hext text : Str} {t : Tree} (hl : NoLong hext) (hd : IsDocument (P.gumbo text).1 1147483648 t)
    (hroot : (P.gumbo text).2 = t.ptr) :
    ∃ N : Nat, ∀ {k k' : Known} {self self' i i' : Nat} {n : Int} {r r0 : Reply}, 0 ≤ n ∧ n < 2 ^ 64 →
      k.rules self = some hext → k.htmls i = some text → k'.rules self' = some hext → k'.htmls i' = some text →
      Right P k (.extract self [.html i, .int n]) r → Right P k' (.extract self' [.html i']) r0 →
      r = if 1 ≤ n ∧ n ≤ N then .raises (lit "RuntimeError") (lit "The allowed amount of searches was exhausted") else r0 := by
  by_cases hm : ∃ rule, Syn.Means P.rx hext rule
  · obtain ⟨rule, hm⟩ := hm
    have hp := (C36_parse_iff P.rx P.charSigned _ _).2 hm
    obtain ⟨N, res, _, g1, g2⟩ := max_searches_exact (rx := P.rx) (n := 1147483648) (by decide) (parse_safe hl hp) (l := Loc.root t) hd
    refine ⟨N, fun {k k' self self' i i' n r r0} hn e1 e2 e3 e4 h h0 => ?_⟩
    simp only [Right] at h h0
    rw [if_pos hn] at h
    obtain ⟨hx, tx, rule1, a1, a2, a3, a4⟩ := h
    obtain ⟨hx', tx', rule2, b1, b2, b3, b4⟩ := h0
    rw [e1] at a1; rw [e2] at a2; rw [e3] at b1; rw [e4] at b2
    cases a1; cases a2; cases b1; cases b2
    cases C36_meaning_unique _ _ _ _ hm a3
    cases C36_meaning_unique _ _ _ _ hm b3
    rw [passes_eq a4, passes_eq b4, hroot]
    have hN : (UInt64.ofNat n.toNat).toNat = n.toNat := UInt64.toNat_ofNat_of_lt (by have := hn.1; have := hn.2; simp [UInt64.size]; omega)
    have g3 := g2 (UInt64.ofNat n.toNat)
    rw [hN] at g3
    by_cases hc : 1 ≤ n ∧ n ≤ N
    · rw [if_pos (by omega)] at g3
      rw [if_pos hc, pyExtract, wrapperExtract, show extract P.rx (P.gumbo text).1 rule t.ptr (UInt64.ofNat n.toNat) = _ from g3]
      rfl
    · rw [if_neg (by omega)] at g3
      rw [if_neg hc, pyExtract, wrapperExtract, wrapperExtract, show extract P.rx (P.gumbo text).1 rule t.ptr (UInt64.ofNat n.toNat) = _ from g3,
        show extract P.rx (P.gumbo text).1 rule t.ptr (UInt64.ofNat 0) = _ from g1]
  · refine ⟨0, fun {k k' self self' i i' n r r0} hn e1 e2 e3 e4 h h0 => ?_⟩
    obtain ⟨hx', tx', rule2, b1, b2, b3, b4⟩ := h0
    rw [e3] at b1
    cases b1
    exact absurd ⟨_, b3⟩ hm

/-- The hexts of the rules that a program makes are such that C55 applies. -/
def PlainCalls (P : Host) (calls : List Call) : Prop :=
  ∀ hext, Call.newRule [.str (some hext)] ∈ calls → HextPlain P.charSigned hext

theorem goesOn_of {k : Known} {s : PyApi.State} {c : Call} (h : Knows P k s) (hc : CallOk k c)
    (hg : ∀ text, ∃ t, IsDocument (P.gumbo text).1 1147483648 t ∧ (P.gumbo text).2 = t.ptr)
    (hk : ∀ i hext, k.rules i = some hext → HextPlain P.charSigned hext)
    (hp : ∀ hext, c = .newRule [.str (some hext)] → HextPlain P.charSigned hext) : goesOn (perform P s c).1 = true := by
  have hr := (step_right h c hc).1
  have refused {cls : String} {r : Reply} (h : Raises cls r) : goesOn r = true := by obtain ⟨_, rfl⟩ := h; rfl
  have extracts {self i n : Nat} {r : Reply} (h : Right.Extracts P k r self i n) : goesOn r = true := by
    obtain ⟨hext, text, rule, h1, h2, h3, h4⟩ := h
    cases passes_eq h4
    obtain ⟨t, ht, he⟩ := hg text
    rw [he]
    rcases C55_python_extract (charSigned := P.charSigned) (hk _ _ h1).1 ((C36_parse_iff _ P.charSigned _ _).2 h3) ht (UInt64.ofNat n) with
      ⟨_, os, _, e, _⟩ | ⟨_, _, e⟩ | ⟨_, _, _, _, _, what, e⟩ <;> rw [e] <;> rfl
  cases c with
  | newHtml args =>
    match args with
    | [] => rfl
    | [.str (some text)] => rfl
    | [.str none] => rfl
    | [.int _] => rfl
    | [.html _] => rfl
    | [.rule _] => rfl
    | [.other] => rfl
    | a :: _ :: _ => rcases a with (_ | _) | _ | _ | _ | _ <;> rfl
  | newRule args =>
    match args with
    | [] => rfl
    | [.str (some hext)] =>
      simp only [perform, PyApi.newRule]
      rcases C55_rule_partial P.rx (hp hext rfl) with ⟨r, e, _⟩ | ⟨what, e, _⟩ <;> rw [e] <;> rfl
    | [.str none] => rfl
    | [.int _] => rfl
    | [.html _] => rfl
    | [.rule _] => rfl
    | [.other] => rfl
    | a :: _ :: _ => rcases a with (_ | _) | _ | _ | _ | _ <;> rfl
  | extract self args =>
    match args, hr with
    | [], hr => exact refused hr
    | [.html i], hr => exact extracts hr
    | [.html i, .int n], hr =>
      simp only [Right] at hr
      by_cases hn : 0 ≤ n ∧ n < 2 ^ 64
      · rw [if_pos hn] at hr
        exact extracts hr
      · rw [if_neg hn] at hr
        exact refused hr
    | [.html i, .str _], hr => exact refused hr
    | [.html i, .html _], hr => exact refused hr
    | [.html i, .rule _], hr => exact refused hr
    | [.html i, .other], hr => exact refused hr
    | [.str _], hr => exact refused hr
    | [.int _], hr => exact refused hr
    | [.rule _], hr => exact refused hr
    | [.other], hr => exact refused hr
    | [.str _, _], hr => exact refused hr
    | [.int _, _], hr => exact refused hr
    | [.rule _, _], hr => exact refused hr
    | [.other, _], hr => exact refused hr
    | a :: _ :: _ :: _, hr => rfl
  | dropHtml i => rfl
  | dropRule i => rfl

theorem replies_all : ∀ (cs : List Call) {k : Known} {s : PyApi.State}, Knows P k s →
    (∀ text, ∃ t, IsDocument (P.gumbo text).1 1147483648 t ∧ (P.gumbo text).2 = t.ptr) →
    (∀ i hext, k.rules i = some hext → HextPlain P.charSigned hext) → PlainCalls P cs → AllOk P k cs (replies P s cs) →
    (replies P s cs).length = cs.length ∧ ∀ r ∈ replies P s cs, goesOn r = true
  | [], _, _, _, _, _, _, _ => ⟨rfl, by simp [replies]⟩
  | c :: cs, k, s, h, hg, hk, hp, hok => by
    have hstep : replies P s (c :: cs) = (perform P s c).1 :: if goesOn (perform P s c).1 then replies P (perform P s c).2 cs else [] := rfl
    rw [hstep] at hok ⊢
    obtain ⟨hc, hok⟩ := hok
    have h1 := goesOn_of h hc hg hk fun hext e => hp hext (by simp [e])
    rw [if_pos h1] at hok ⊢
    have hk' : ∀ i hext, (k.after c (perform P s c).1).rules i = some hext → HextPlain P.charSigned hext := by
      intro i hext hi
      unfold Known.after at hi
      split at hi
      · exact hk i hext hi
      · simp only at hi
        split at hi
        · cases hi
          exact hp _ (List.mem_cons_self ..)
        · exact hk i hext hi
      · exact hk i hext hi
      · simp only at hi
        split at hi
        · cases hi
        · exact hk i hext hi
      · exact hk i hext hi
    obtain ⟨h2, h3⟩ := replies_all cs ((step_right h c hc).2 h1) hg hk' (fun hext hm => hp hext (by simp [hm])) hok
    refine ⟨by simp [h2], ?_⟩
    intro r hr
    rcases List.mem_cons.1 hr with rfl | hr
    · exact h1
    · exact h3 r hr

/-- C86. If the documents are such as Gumbo makes them, and the hexts are plain (`HextPlain`; C55 shows why), then no sequence of calls
ends the process: each call gets a value or an exception of Python. -/
theorem C86_never_ends (P : Host) (calls : List Call) (hg : ∀ text, ∃ t, IsDocument (P.gumbo text).1 1147483648 t ∧ (P.gumbo text).2 = t.ptr)
    (hp : PlainCalls P calls) (hok : AllOk P .nothing calls (replies P .start calls)) :
    (replies P .start calls).length = calls.length ∧ ∀ r ∈ replies P .start calls, goesOn r = true :=
  replies_all calls knows_start hg (fun i hext h => by simp [Known.nothing] at h) hp hok

/-! ## A program -/

/-- Every text is taken for the example document. -/
def exHost : Host where
  rx := Ex.rx
  charSigned := true
  gumbo := fun _ => (Ex.heap, Ex.doc.ptr)
  encodeError := (lit "UnicodeEncodeError", [])
  countError := lit "missing argument"

/-- `h = Html(""); r = Rule("<a href:x/>"); r.extract("no"); r.extract(h, -1); a = r.extract(h); del h; h = Html("2"); b = r.extract(h, True + 999)` -/
def exCalls : List Call :=
  [.newHtml [.str (some [])], .newRule [.str (some (lit "<a href:x/>"))], .extract 1 [.str (some (lit "no"))], .extract 1 [.html 0, .int (-1)],
    .extract 1 [.html 0], .dropHtml 0, .newHtml [.str (some (lit "2"))], .extract 1 [.html 2, .int 1000]]

/-- The dicts of the example. -/
def exDicts : List (List (Text × Entry Text)) := [[([120], .one [49])], [([120], .one [50])]]

theorem exPyResult : pyResult [[(lit "x", lit "1")], [(lit "x", lit "2")]] = pure exDicts := by
  have one (v : Byte) (hv : v = 49 ∨ v = 50) : pyDict [(lit "x", [v])] = pure [([120], .one [v.toNat])] := by
    have hs : KeySorted [(lit "x", [v])] := by unfold KeySorted; simp
    have hu : IsUtf8 [(lit "x", [v])] := isUtf8_ascii (by rcases hv with rfl | rfl <;> decide +kernel)
    rw [pyDict_presents hs (by unfold NoNul; rcases hv with rfl | rfl <;> decide) hu (entsOf_presents hs)]
    rcases hv with rfl | rfl <;> exact congrArg pure (by decide +kernel)
  have h1 := one 49 (.inl rfl)
  have h2 := one 50 (.inr rfl)
  unfold pyDict at h1 h2
  unfold pyResult
  rw [resultLoop, resultLoop, resultLoop]
  rw [show lit "1" = [49] by decide, show lit "2" = [50] by decide, h1, h2]
  rfl

theorem exCalls_extract : pyExtract Ex.rx Ex.heap hrefRule Ex.doc.ptr 0 = .value exDicts ∧
    pyExtract Ex.rx Ex.heap hrefRule Ex.doc.ptr 1000 = .value exDicts := by
  have hs := extract_eq (rx := Ex.rx) (h := Ex.heap) (n := 1147483648) (by decide) href_safe (l := Loc.root Ex.doc)
    (isDocument_of_ok (by decide +kernel))
  have e : (Loc.root Ex.doc).ptr = Ex.doc.ptr := rfl
  have h0 : Hext.extract Ex.rx Ex.heap hrefRule Ex.doc.ptr 0 = pure [[(lit "x", lit "1")], [(lit "x", lit "2")]] := by
    rw [← e, hs]; decide +kernel
  have h1 : Hext.extract Ex.rx Ex.heap hrefRule Ex.doc.ptr 1000 = pure [[(lit "x", lit "1")], [(lit "x", lit "2")]] := by
    rw [← e, hs]; decide +kernel
  constructor
  · unfold pyExtract wrapperExtract
    rw [h0]
    simp only [pure, ExceptT.pure, ExceptT.mk]
    rw [exPyResult]; rfl
  · unfold pyExtract wrapperExtract
    rw [h1]
    simp only [pure, ExceptT.pure, ExceptT.mk]
    rw [exPyResult]; rfl

/-- The replies to the program: both extractions give the same dicts. -/
theorem exCalls_replies : replies exHost .start exCalls =
    [.value (.html 0), .value (.rule 1), PyApi.typeError (lit "Wrong argument type for <html>, expected hext.Html"),
      .raises (lit "OverflowError") (lit "in method 'Rule_extract', argument 3 of type 'uint64_t'"), .value (.dicts exDicts),
      .value .nothing, .value (.html 2), .value (.dicts exDicts)] := by
  obtain ⟨h0, h1⟩ := exCalls_extract
  have hr : wrapperRule Ex.rx true (lit "<a href:x/>") = .value hrefRule := wrapperRule_ok (href_parsed _ _)
  simp [exCalls, replies, perform, PyApi.newHtml, PyApi.newRule, PyApi.extract, extractWith, exHost, hr, goesOn, State.start, PyApi.put,
    dictsReply, h0, h1, PyApi.typeError, pyLimit]

/-- The hypotheses of C86 are met by this program. -/
example : (∀ text, ∃ t, IsDocument (exHost.gumbo text).1 1147483648 t ∧ (exHost.gumbo text).2 = t.ptr) ∧
    PlainCalls exHost exCalls ∧ AllOk exHost .nothing exCalls (replies exHost .start exCalls) := by
  refine ⟨fun _ => ⟨Ex.doc, isDocument_of_ok (by decide +kernel), rfl⟩, ?_, ?_⟩
  · intro hext hm
    simp [exCalls] at hm
    rw [hm]
    exact ⟨noLong_of_few (by decide), charSafe_ascii fun _ => by decide, by decide⟩
  · rw [exCalls_replies]
    simp [exCalls, AllOk, CallOk, ValueOk, Known.after, Known.nothing, PyApi.typeError]

/-- The hypotheses of `C86_meaning` are met. -/
example : ∃ k r, Right exHost k (.extract 1 [.html 0, .int 1000]) r ∧ k.rules 1 = some (lit "<a href:x/>") ∧
    k.htmls 0 = some [] ∧ NoLong (lit "<a href:x/>") ∧ IsDocument (exHost.gumbo []).1 1147483648 Ex.doc :=
  ⟨⟨fun _ => some [], fun _ => some (lit "<a href:x/>")⟩, _, ⟨_, _, hrefRule, rfl, rfl, (C36_parse_iff _ true _ _).1 (href_parsed _ _), passes_dictsReply _⟩,
    rfl, rfl, noLong_of_few (by decide), isDocument_of_ok (by decide +kernel)⟩

end Hext.Props.Py
