import Verif.Props.PyObjects
import Verif.Props.EveryMap
/-!
# What Python gets, whatever bytes the result has (C86)
-/

namespace Hext.Props.Py

open Binding PyApi

variable {P : Host}

theorem pyDict_iff {vs m : List (Str × Str)} (hm : IsMap vs m) {t : List (Text × Entry Text)} (h : pyDict m = pure t) :
    IsUtf8 (cutOff m) ∧ ∃ o d, Presents m o ∧ LastCounts (o.map fun x => (beforeNul x.1, x.2.cutAll)) d ∧ IsTextOf d t := by
  obtain ⟨o, h1, _, _, h2, h3, _⟩ := C42_every_map hm
  by_cases hu : IsUtf8 (cutOff m)
  · obtain ⟨d, t', a1, a2, a3⟩ := h2 hu
    rw [h] at a3
    injection a3 with a3; injection a3 with a3
    exact ⟨hu, o, d, h1, a1, a3 ▸ a2⟩
  · have := h3 hu
    rw [h] at this
    injection this with this; injection this

theorem pyResult_some : ∀ {res : List (List (Str × Str))}, (∀ m ∈ res, ∃ vs, IsMap vs m) → (∀ m ∈ res, IsUtf8 (cutOff m)) →
    ∃ ts, pyResult res = pure ts
  | [], _, _ => ⟨[], rfl⟩
  | m :: ms, hm, hu => by
    obtain ⟨ts, hts⟩ := pyResult_some (res := ms) (fun x hx => hm x (by simp [hx])) (fun x hx => hu x (by simp [hx]))
    obtain ⟨vs, hv⟩ := hm m (by simp)
    obtain ⟨_, _, _, _, h2, _⟩ := C42_every_map hv
    obtain ⟨d, t, _, _, a3⟩ := h2 (hu m (by simp))
    refine ⟨t :: ts, ?_⟩
    rw [pyResult] at hts ⊢
    rw [pyDict] at a3
    rw [resultLoop, a3, pure_bind, hts]; rfl

/-- C86. What the reply to `extract` is, whatever bytes the result has: the meaning of the hext on the document. There is one dict for each
map, with names and values cut off before their first NUL byte; of names that become equal the last one counts. If something of this is not
UTF-8, then `RuntimeError` is raised instead. With a limit the reply may also be a `RuntimeError`. -/
theorem C86_every_map {k : Known} {self i : Nat} {n : Int} {r : Reply} {hext text : Str} {t : Tree}
    (h : Right P k (.extract self [.html i, .int n]) r) (hn : 0 ≤ n ∧ n < 2 ^ 64) (hr : k.rules self = some hext)
    (ht : k.htmls i = some text) (hl : NoLong hext) (hd : IsDocument (P.gumbo text).1 1147483648 t) (hroot : (P.gumbo text).2 = t.ptr) :
    ∃ rule res, Syn.Means P.rx hext rule ∧ IsOutcome P.rx (fun _ => none) rule (Loc.root t) res ∧
      ((n ≠ 0 ∧ Raises "RuntimeError" r) ∨
        ((∀ m ∈ res, IsUtf8 (cutOff m)) ∧ ∃ os, r = .value (.dicts os) ∧ os.length = res.length ∧
          ∀ x ∈ res.zip os, ∃ o d, Presents x.1 o ∧ LastCounts (o.map fun y => (beforeNul y.1, y.2.cutAll)) d ∧ IsTextOf d x.2) ∨
        (¬ (∀ m ∈ res, IsUtf8 (cutOff m)) ∧ Raises "RuntimeError" r)) := by
  simp only [Right] at h
  rw [if_pos hn] at h
  obtain ⟨hext', text', rule, h1, h2, h3, h4⟩ := h
  cases passes_eq h4
  rw [hr] at h1
  rw [ht] at h2
  cases h1
  cases h2
  have hp := (C36_parse_iff P.rx P.charSigned _ _).2 h3
  obtain ⟨res, ho, _⟩ := C63_total hl hp hd
  have he := (extract_outcome (h := (P.gumbo text).1) (n := 1147483648) (by decide) (parse_safe hl hp) (parse_words hp)
    (l := Loc.root t) hd res).2 (outcome_heap (parse_builtin hp) ho)
  obtain ⟨res', g1, _, g2⟩ := extract_result (rx := P.rx) (n := 1147483648) (by decide) (parse_safe hl hp) (l := Loc.root t) hd
  have e := g2 0
  rw [he] at e
  simp only [ne_eq, not_true_eq_false, false_and, if_false] at e
  have e := E.pure_inj e
  subst e
  have same {res'} (e1 : Hext.extract P.rx (P.gumbo text).1 rule t.ptr (UInt64.ofNat n.toNat) = pure res') : res' = res := by
    have e5 := g2 (UInt64.ofNat n.toNat)
    have e1' : Hext.extract P.rx (P.gumbo text).1 rule (Loc.root t).ptr (UInt64.ofNat n.toNat) = pure res' := e1
    rw [e1'] at e5
    split at e5
    · exact (pure_ne_throw e5).elim
    exact E.pure_inj e5
  have hmaps : ∀ m ∈ res, ∃ vs, IsMap vs m := by
    obtain ⟨gs, ms', _, hms, hres⟩ := extract_isResult (l := Loc.root t) (n := 1147483648) (by decide) (parse_safe hl hp) hd he
    intro m hm
    rw [hres] at hm
    obtain ⟨g', _, vs, _, him⟩ := hms.mem (List.mem_filter.1 hm).1
    exact ⟨vs, him⟩
  refine ⟨rule, res, h3, ho, ?_⟩
  rw [hroot]
  rcases wrapperExtract_cases (fun res => pyResult_returns) hl hp hd (UInt64.ofNat n.toNat) with ⟨res', os, e1, e2, e3⟩ | ⟨e1, _, e3⟩ | ⟨_, res', e1, e2, e3⟩
  · cases same e1
    obtain ⟨e5, e6⟩ := resultLoop_presents (R := fun m t => IsUtf8 (cutOff m) ∧ ∃ o d, Presents m o ∧
      LastCounts (o.map fun x => (beforeNul x.1, x.2.cutAll)) d ∧ IsTextOf d t) (fun m hm d hd => by
        obtain ⟨vs, hv⟩ := hmaps m hm
        exact pyDict_iff hv hd) e2
    refine .inr (.inl ⟨fun m hm => ?_, os, by rw [pyExtract, e3]; rfl, e5, fun x hx => (e6 x hx).2⟩)
    obtain ⟨j, hj, rfl⟩ := List.mem_iff_getElem.1 hm
    exact (e6 (res[j], os[j]) (by rw [List.mem_iff_getElem]; exact ⟨j, by simp; omega, by simp⟩)).1
  · refine .inl ⟨?_, ⟨_, by rw [pyExtract, e3]; rfl⟩⟩
    rintro rfl
    exact e1 rfl
  · cases same e1
    refine .inr (.inr ⟨fun hu => ?_, ⟨_, by rw [pyExtract, e3]; rfl⟩⟩)
    obtain ⟨ts, hts⟩ := pyResult_some hmaps hu
    rw [e2] at hts
    injection hts with hts
    cases hts

/-- The hypotheses are met. -/
example : ∃ k r, Right exHost k (.extract 1 [.html 0, .int 1000]) r ∧ k.rules 1 = some (lit "<a href:x/>") ∧
    k.htmls 0 = some [] ∧ NoLong (lit "<a href:x/>") ∧ IsDocument (exHost.gumbo []).1 1147483648 Ex.doc ∧ (exHost.gumbo []).2 = Ex.doc.ptr :=
  ⟨⟨fun _ => some [], fun _ => some (lit "<a href:x/>")⟩, _, ⟨_, _, hrefRule, rfl, rfl, (C36_parse_iff _ true _ _).1 (href_parsed _ _), passes_dictsReply _⟩,
    rfl, rfl, noLong_of_few (by decide), isDocument_of_ok (by decide +kernel), rfl⟩

end Hext.Props.Py
