import Verif.Spec.Utf8Scripts
import Verif.Props.Utf8
import Verif.Props.Scripts
/-!
# C75 from the files alone: when all scripts print the same objects
-/

namespace Hext.Props

open Binding Script Cli

variable {rx : RxEngine} {charSigned : Bool} {gumbo : Str → Heap × Ptr} {files : Str → Option Str} {f g : Str}

theorem givesAll_name {h : Heap} {l : Loc} {cs : List (Option Capture)} {vs : List (Str × Str)} (hg : GivesAll rx h l cs vs) :
    ∀ p ∈ vs, ∃ c, some c ∈ cs ∧ p.1 = c.resultName := by
  induction hg with
  | nil => simp
  | null _ ih => intro p hp; obtain ⟨c, h1, h2⟩ := ih p hp; exact ⟨c, by simp [h1], h2⟩
  | miss _ _ ih => intro p hp; obtain ⟨c, h1, h2⟩ := ih p hp; exact ⟨c, by simp [h1], h2⟩
  | @hit c cs v vs hx _ ih =>
    intro p hp
    rcases List.mem_cons.1 hp with rfl | hp
    · refine ⟨c, by simp, ?_⟩
      obtain ⟨k, u⟩ := p
      cases c with
      | «attribute» a name pi => exact hx.1
      | function fn name pi => exact hx.1
    · obtain ⟨c, h1, h2⟩ := ih p hp; exact ⟨c, by simp [h1], h2⟩

/-- The names of a result are names of captures. -/
theorem extract_names {h : Heap} {r : Rule} {n : Nat} (hn : n ≤ 2147483647) (hr : r.Safe n) {l : Loc} (hl : l.Stored h n) {ms : UInt64}
    {res : List (List (Str × Str))} (he : extract rx h r l.ptr ms = pure res) {P : Str → Prop}
    (hP : r.All fun i => ∀ c, some c ∈ i.caps → P c.resultName) : ∀ m ∈ res, ∀ p ∈ m, P p.1 := by
  intro m hm p hp
  obtain ⟨q, x, hq, ⟨ks, hks, hx⟩, _, _, vs, h1, h2⟩ := extract_sound hn hr hl he hm hp
  have hst := searched_stored hl ks hks x hx
  have i2 : q.info.Safe n := by
    have := SubRule.all hq hr
    obtain ⟨i, c, nx, ns⟩ := q
    exact this.1
  have i3 : ∀ c, some c ∈ q.info.caps → P c.resultName := by
    have := SubRule.all hq hP
    obtain ⟨i, c, nx, ns⟩ := q
    exact this.1
  obtain ⟨c, h3, h4⟩ := givesAll_name ((ruleCapture_gives hst i2.2 vs).1 h1) p h2
  exact h4 ▸ i3 c h3

/-- C75 and C97. For clean files there is one outcome. The script for Ruby prints it, one JSON object for each line. So do the other
scripts, unless ten thousand searches are not enough: then they exit with code 1 and print nothing. -/
theorem C75_from_files (hx : rx.NoNul) (h : CleanInputs rx gumbo files f g) {toJson : List (Str × Entry Str) → Option Str}
    (hj : WritesObject toJson) {dumps : List (Text × Entry Text) → Str} (hd : WritesText dumps) {J : PhpJson} (hJ : WritesObject J.object)
    {js : Js} {stringify : List (Text × Entry Text) → Str} (hst : WritesText stringify) (usage : Str) (rest : List Str) :
    ∃ res, OutcomeOf rx gumbo files f g res ∧
      (∃ out, ruby rx charSigned gumbo files toJson usage (f :: g :: rest) = .exit 0 out ∧ JsonPerLine res out) ∧
      (TooMany rx charSigned gumbo files f g →
        python rx charSigned gumbo files dumps usage (f :: g :: rest) = .exit 1 [] ∧
        php rx charSigned gumbo files J usage (f :: g :: rest) = .exit 1 [] ∧
        node rx charSigned gumbo files js stringify usage (f :: g :: rest) = .exit 1 []) ∧
      (¬ TooMany rx charSigned gumbo files f g →
        (∃ out, python rx charSigned gumbo files dumps usage (f :: g :: rest) = .exit 0 out ∧ JsonPerLine res out) ∧
        (∃ out, php rx charSigned gumbo files J usage (f :: g :: rest) = .exit 0 out ∧ JsonPerLine res out) ∧
        ∃ out, node rx charSigned gumbo files js stringify usage (f :: g :: rest) = .exit 0 out ∧ JsonPerLine res out) := by
  obtain ⟨hext, html, r, t, h1, h2, u1, u2, c1, c2, z, hs, hm, hw, hnm, ht, htr, hh, hn⟩ := h
  have hp := (C36_parse_iff rx charSigned hext r).2 hm
  have hsafe := parse_safe hs hp
  obtain ⟨res, _, _, he⟩ := extract_result (rx := rx) (n := 1147483648) (by decide) hsafe (l := Loc.root t) ht
  have he : extract rx (gumbo html).1 r t.ptr 0 = pure res := he 0
  have hout := outcome_heap (h' := fun _ => none) (parse_builtin hp) ((extract_outcome (n := 1147483648) (by decide) hsafe (parse_words hp)
    (l := Loc.root t) ht _).1 he)
  have hres := extract_isResult (l := Loc.root t) (n := 1147483648) (by decide) hsafe ht he
  have k1 : ∀ m ∈ res, NoNul m := isResult_noNul hx hn (l := Loc.root t) ht (parse_noNul z hp) hsafe hres
  have k2 : ∀ m ∈ res, IsUtf8 m := C97_results_partial hs u1 hp ht hh hw he
  have k3 := extract_names (n := 1147483648) (l := Loc.root t) (by decide) hsafe ht he
    (P := fun s => s ≠ lit "__proto__" ∧ ∃ b ∈ s, ¬ (48 ≤ b ∧ b ≤ 57)) hnm
  have hask : Asks rx gumbo files f g res := ⟨hext, html, r, t, h1, h2, hs, hm, ht, htr, hout, fun m h => ⟨k1 m h, k2 m h⟩⟩
  have tf : TextFile files f := fun s hs' => by rw [h1] at hs'; cases hs'; exact u1
  have tg : TextFile files g := fun s hs' => by rw [h2] at hs'; cases hs'; exact u2
  have cf : ∀ s, files f = some s → (13 : Byte) ∉ s := fun s hs' => by rw [h1] at hs'; cases hs'; exact c1
  have cg : ∀ s, files g = some s → (13 : Byte) ∉ s := fun s hs' => by rw [h2] at hs'; cases hs'; exact c2
  have zf : ∀ s, files f = some s → (0 : Byte) ∉ s := fun s hs' => by rw [h1] at hs'; cases hs'; exact z
  have hne : ∀ m ∈ res, m ≠ [] := by
    obtain ⟨_, ms, _, _, rfl⟩ := hres
    intro m hm
    simpa using (List.mem_filter.1 hm).2
  have hl : ∀ m ∈ res, ¬ ListNames m := fun m hm => not_listNames (hne m hm) fun p hp e => by
    obtain ⟨b, hb, h9⟩ := (k3 m hm p hp).2
    rw [e, show lit "0" = [48] by decide +kernel, List.mem_singleton] at hb
    subst hb
    exact h9 (by decide)
  refine ⟨res, ⟨hext, html, r, t, h1, h2, hm, ht, htr, hout⟩, C75_ruby hask hj usage rest, fun hT => ?_, fun hT => ?_⟩
  · exact ⟨((C75_python_partial hask hd tf tg cf cg usage rest).resolve_left fun x => x.1 hT).2,
      ((C75_php_partial hask hJ hl usage rest).resolve_left fun x => x.1 hT).2,
      ((C75_node_partial hask hst tf tg zf (fun m hm p hp => k3 m hm p hp) usage rest).resolve_left fun x => x.1 hT).2⟩
  · exact ⟨((C75_python_partial hask hd tf tg cf cg usage rest).resolve_right fun x => hT x.1).2,
      ((C75_php_partial hask hJ hl usage rest).resolve_right fun x => hT x.1).2,
      ((C75_node_partial hask hst tf tg zf (fun m hm p hp => k3 m hm p hp) usage rest).resolve_right fun x => hT x.1).2⟩

/-- The files of the example are clean. -/
example : CleanInputs Ex.rx exWorld.gumbo (exFiles (lit "<a href:x/>")) (lit "rule") (lit "page.html") :=
  ⟨lit "<a href:x/>", lit "<a/>", hrefRule, Ex.doc, rfl, rfl, .ascii (by decide), .ascii (by decide), by decide, by decide, by decide,
    noLong_of_few (by decide), (C36_parse_iff Ex.rx true _ _).1 (href_parsed Ex.rx true),
    C97_plain_hext (href_parsed Ex.rx true) (by decide +kernel),
    by
      have h : Capture.resultName (Ex.capHref "x") ≠ lit "__proto__" ∧ ∃ b ∈ Capture.resultName (Ex.capHref "x"), ¬ (48 ≤ b ∧ b ≤ 57) := by
        decide +kernel
      refine ⟨fun c hc => ?_, trivial, trivial, trivial⟩
      rcases List.mem_singleton.1 hc with hc
      cases hc
      exact h,
    doc_ok2, rfl, exHeap_utf8, exHeap_noNul⟩

end Hext.Props
