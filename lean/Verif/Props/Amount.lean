import Verif.Proofs.Amount
import Verif.Proofs.Bound
import Verif.Props.Extract
import Verif.Props.Similar
import Verif.Props.Whole
set_option linter.unusedSimpArgs false
/-!
# C79: how much a result can contain
-/

namespace Hext.Props

open Hext Amount

section
variable {rx : RxEngine} {h : Heap} {n : Nat}

theorem ruleCapture_count (N : Str → Bool) (p : Ptr) : ∀ {cs : List (Option Capture)} {vs : List (Str × Str)},
    ruleCapture rx h p cs = pure vs → (vs.filter fun q => N q.1).length ≤ (capturesInto N cs).length
  | [], vs, hv => by
    have := E.pure_inj (hv : (pure [] : E _) = _)
    subst this
    simp
  | none :: cs, vs, hv => by
    have := ruleCapture_count N p (cs := cs) hv
    simpa [capturesInto] using this
  | some c :: cs, vs, hv => by
    obtain ⟨o, hc, hv⟩ := bind_eq_pure hv
    obtain ⟨ws, hr, hv⟩ := bind_eq_pure hv
    have ih := ruleCapture_count N p hr
    have hin : capturesInto N (some c :: cs) = (if N c.resultName then [c] else []) ++ capturesInto N cs := by
      simp only [capturesInto, List.filterMap_cons, id, List.filter_cons]
      split <;> simp
    rw [hin, List.length_append]
    cases o with
    | none =>
      have := E.pure_inj (hv : (pure ws : E _) = _)
      subst this
      omega
    | some q =>
      have := E.pure_inj (hv : (pure (q :: ws) : E _) = _)
      subst this
      have hq := capture_name (q := q) hc
      rw [List.filter_cons, hq]
      split <;> simp <;> omega

/-- The number of captures of a rule under the names `N`. -/
def captureWeight (N : Str → Bool) (i : RuleInfo) : Nat := (capturesInto N i.caps).length

theorem captured_count (N : Str → Bool) : ∀ {g : Pairs RulePtr Loc} {vs : List (Str × Str)}, Captured rx h (found g) vs →
    (vs.filter fun q => N q.1).length ≤ weight (ruleWeight (captureWeight N)) g
  | [], vs, hv => by cases hv; simp
  | p :: g, vs, hv => by
    cases hv with
    | cons k hv =>
      have h1 := ruleCapture_count N _ k
      have h2 := captured_count N hv
      rw [List.filter_append, List.length_append, weight_cons]
      exact Nat.add_le_add h1 h2

theorem maps_count (N : Str → Bool) : ∀ {gs : List (Pairs RulePtr Loc)} {ms : List (List (Str × Str))}, Maps rx h (gs.map found) ms →
    ms.length = gs.length ∧ valuesInto N (ms.filter (· ≠ [])) ≤ weights (ruleWeight (captureWeight N)) gs
  | [], ms, hm => by cases hm; simp [valuesInto]
  | g :: gs, ms, hm => by
    cases hm with
    | @cons _ _ vs m ms hc hi hm =>
      have h1 := captured_count N hc
      have h2 := maps_count N hm
      have h3 := ((isMap_perm hi).filter fun q => N q.1).length_eq
      refine ⟨by simp [h2.1], ?_⟩
      rw [weights_cons, List.filter_cons]
      have h2 := h2.2
      split
      · simp only [valuesInto, List.map_cons, List.sum_cons] at h2 ⊢
        omega
      · omega

mutual
theorem rate_captures (N : Str → Bool) (k : Nat) : ∀ r : Rule, rate (captureWeight N) k r = r.captures N k
  | .mk i c nx ns => by
    rw [rate, Rule.captures, rateO_captures N k c, rateO_captures N k nx, rateL_captures N k ns]
    rfl
theorem rateO_captures (N : Str → Bool) (k : Nat) : ∀ r : Option Rule, rateO (captureWeight N) k r = Rule.capturesO N k r
  | none => rfl
  | some r => by rw [rateO, Rule.capturesO, rate_captures N k r]
theorem rateL_captures (N : Str → Bool) (k : Nat) : ∀ r : List Rule, rateL (captureWeight N) k r = Rule.capturesL N k r
  | [] => rfl
  | r :: rs => by rw [rateL, Rule.capturesL, rate_captures N k r, rateL_captures N k rs]
end

variable {r : Rule} {t : Tree}

theorem extract_amount (hn : n ≤ 2147483647) (hs : r.Safe n) (ht : IsDocument h n t) {ms : UInt64}
    {res : List (List (Str × Str))} (he : extract rx h r t.ptr ms = pure res) :
    res.length ≤ t.size ∧ ∀ N, valuesInto N res ≤ r.captures N t.height * t.size := by
  obtain ⟨res', _, ⟨maps, h1, h2⟩, h3⟩ := extract_result (rx := rx) (l := Loc.root t) hn hs ht
  rw [show t.ptr = (Loc.root t).ptr from rfl, h3] at he
  split at he
  · cases he
  have := E.pure_inj he
  subst this
  subst h2
  refine ⟨?_, fun N => ?_⟩
  · have h4 := (maps_count (fun _ => true) h1).1
    have h5 := search_length (rx := rx) (h := h) r t
    have h6 := List.length_filter_le (fun m : List (Str × Str) => decide (m ≠ [])) maps
    omega
  · have h4 := (maps_count N h1).2
    have h5 := search_weight (captureWeight N) (rx := rx) (h := h) r t (Nat.le_refl t.height)
    rw [rate_captures] at h5
    omega

/-- C79. An extraction returns at most as many maps as the document has nodes, whatever the rule. -/
theorem maps_bounded (hn : n ≤ 2147483647) (hs : r.Safe n) (ht : IsDocument h n t) {ms : UInt64}
    {res : List (List (Str × Str))} (he : extract rx h r t.ptr ms = pure res) : res.length ≤ t.size :=
  (extract_amount hn hs ht he).1

/-- C79. Under the names `N`, an extraction returns at most as many values as the rules have captures with these names, times the
number of nodes, where a capture in `j` pairs of braces counts as often as the `j`-th power of the height of the document. -/
theorem values_bounded (hn : n ≤ 2147483647) (hs : r.Safe n) (ht : IsDocument h n t) {ms : UInt64}
    {res : List (List (Str × Str))} (he : extract rx h r t.ptr ms = pure res) (N : Str → Bool) :
    valuesInto N res ≤ r.captures N t.height * t.size :=
  (extract_amount hn hs ht he).2 N

mutual
theorem captures_flat (N : Str → Bool) (k : Nat) : ∀ r : Rule, r.Flat → r.captures N k = r.captures N 0
  | .mk i c nx ns, hf => by
    simp only [Rule.Flat] at hf
    obtain ⟨rfl, h1, h2⟩ := hf
    rw [Rule.captures, Rule.captures, capturesO_flat N k c h1, capturesO_flat N k nx h2]
    simp [Rule.capturesL]
theorem capturesO_flat (N : Str → Bool) (k : Nat) : ∀ r : Option Rule, Rule.FlatO r → Rule.capturesO N k r = Rule.capturesO N 0 r
  | none, _ => rfl
  | some r, hf => by rw [Rule.capturesO, Rule.capturesO, captures_flat N k r hf]
end

/-- C79 without braces: each capture gives at most one value per node. -/
theorem C79_flat (hn : n ≤ 2147483647) (hs : r.Safe n) (hf : r.Flat) (ht : IsDocument h n t) {ms : UInt64}
    {res : List (List (Str × Str))} (he : extract rx h r t.ptr ms = pure res) (N : Str → Bool) :
    valuesInto N res ≤ r.captures N 0 * t.size := by
  have := values_bounded hn hs ht he N
  rwa [captures_flat N _ r hf] at this

/-- C79 for hexts: whatever hext the parser accepts, whatever the limit. -/
theorem C79_hext {charSigned : Bool} {s : Str} (hl : NoLong s) (hp : parseHext rx charSigned s = .ok r)
    (ht : IsDocument h 1147483648 t) {ms : UInt64} {res : List (List (Str × Str))} (he : extract rx h r t.ptr ms = pure res) :
    res.length ≤ t.size ∧ ∀ N, valuesInto N res ≤ r.captures N t.height * t.size :=
  extract_amount (by decide) (parse_safe hl hp) ht he

end

/-! ## Examples -/

/-- Four nested `div`s, and four links in the innermost one. -/
def docDeep : Tree :=
  Ex.el 1 "div" [] [Ex.el 2 "div" [] [Ex.el 3 "div" [] [Ex.el 4 "div" [] [Ex.el 5 "a" [("href", "1")] [], Ex.el 6 "a" [("href", "2")] [],
    Ex.el 7 "a" [("href", "3")] [], Ex.el 8 "a" [("href", "4")] []]]]]

theorem docDeep_ok : IsDocument (docHeap 0 docDeep) 1147483648 docDeep := isDocument_of_ok (by decide +kernel)

/-- `<div>{<a href:x/>}</div>` -/
def braceRule : Rule := Ex.rule "div" (nested := [Ex.rule "a" (caps := [Ex.capHref "x"])])

theorem braceRule_safe : braceRule.Safe 1147483648 := by
  simp [braceRule, Ex.rule, Rule.Safe, Rule.All, Rule.AllO, Rule.AllL, RuleInfo.Safe, Match.SafeL, Match.SafeO, Match.Safe,
    Capture.Safe, Ex.capHref]

/-- The result of that rule: four maps with four values each. -/
def deepResult : List (List (Str × Str)) :=
  List.replicate 4 [(lit "x", lit "1"), (lit "x", lit "2"), (lit "x", lit "3"), (lit "x", lit "4")]

theorem deep_result : extract Ex.rx (docHeap 0 docDeep) braceRule docDeep.ptr 0 = pure deepResult := by
  rw [show docDeep.ptr = (Loc.root docDeep).ptr from rfl, extract_eq (by decide) braceRule_safe docDeep_ok]
  decide +kernel

/-- C79. The height is needed: with braces, one capture gives sixteen values from a document of eight nodes. -/
theorem C79_braces : ∃ (r : Rule) (h : Heap) (t : Tree) (res : List (List (Str × Str))), r.Safe 1147483648 ∧
    IsDocument h 1147483648 t ∧ extract Ex.rx h r t.ptr 0 = pure res ∧ t.size = 8 ∧ r.captures (fun _ => true) 1 = 1 ∧
    valuesInto (fun _ => true) res = 16 :=
  ⟨braceRule, _, docDeep, _, braceRule_safe, docDeep_ok, deep_result, by decide +kernel, by decide +kernel, by decide +kernel⟩

example : deepResult.length ≤ docDeep.size := maps_bounded (by decide) braceRule_safe docDeep_ok deep_result

/-- Here the bound is 40. -/
example : valuesInto (· == lit "x") deepResult ≤ braceRule.captures (· == lit "x") docDeep.height * docDeep.size :=
  values_bounded (by decide) braceRule_safe docDeep_ok deep_result _

example : braceRule.captures (· == lit "x") docDeep.height * docDeep.size = 40 := by decide +kernel

theorem deep_links : extract Ex.rx (docHeap 0 docDeep) hrefRule docDeep.ptr 0 =
    pure [[(lit "x", lit "1")], [(lit "x", lit "2")], [(lit "x", lit "3")], [(lit "x", lit "4")]] := by
  rw [show docDeep.ptr = (Loc.root docDeep).ptr from rfl,
    extract_eq (by decide) (parse_safe (noLong_of_few (by decide)) (href_parsed Ex.rx true)) docDeep_ok]
  decide +kernel

/-- Without braces the bound is 8: one capture, eight nodes. -/
example : valuesInto (fun _ => true) [[(lit "x", lit "1")], [(lit "x", lit "2")], [(lit "x", lit "3")], [(lit "x", lit "4")]] ≤
    hrefRule.captures (fun _ => true) 0 * docDeep.size :=
  C79_flat (by decide) (parse_safe (noLong_of_few (by decide)) (href_parsed Ex.rx true))
    (by simp [hrefRule, Rule.appendMatch, Ex.rule, Rule.Flat, Rule.FlatO]) docDeep_ok deep_links _

example : hrefRule.captures (fun _ => true) 0 * docDeep.size = 8 := by decide +kernel

example : ([[(lit "x", lit "1")], [(lit "x", lit "2")], [(lit "x", lit "3")], [(lit "x", lit "4")]] : List (List (Str × Str))).length ≤
    docDeep.size :=
  (C79_hext (noLong_of_few (by decide)) (href_parsed Ex.rx true) docDeep_ok deep_links).1

end Hext.Props
