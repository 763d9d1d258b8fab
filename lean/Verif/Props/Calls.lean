import Verif.Model.Calls
import Verif.Props.Bindings
import Verif.Props.Whole
/-!
# Calls from other languages (C55)
-/

namespace Hext.Props

open Binding

/-! ## Conversions of results -/

variable {strict : Bool}

/-- The conversion returns or, if `strict`, fails because a string is not UTF-8. -/
def Returns {α : Type} (strict : Bool) (x : B α) : Prop := (∃ a, x = pure a) ∨ (strict = true ∧ x = throw .unicode)

theorem Returns.bind {α β : Type} {x : B α} {f : α → B β} (hx : Returns strict x) (hf : ∀ a, Returns strict (f a)) : Returns strict (x >>= f) := by
  rcases hx with ⟨a, rfl⟩ | ⟨h, rfl⟩
  · exact hf a
  · exact .inr ⟨h, rfl⟩

theorem packLoop_returns {ν : Type} {conv : Str → B ν} (hc : ∀ s, Returns strict (conv s)) {m : List (Str × Str)} :
    ∀ (k lower upper : Nat) (acc : List ν), lower + k = upper → upper ≤ m.length → Returns strict (packLoop conv m lower upper acc)
  | 0, lower, upper, acc, h, _ => by
    rw [packLoop, if_pos (by omega)]; exact .inl ⟨_, rfl⟩
  | k + 1, lower, upper, acc, h, hl => by
    rw [packLoop, if_neg (by omega), List.getElem?_eq_getElem (show lower < m.length by omega)]
    exact (hc _).bind fun v => packLoop_returns hc k (lower + 1) upper _ (by omega) hl

theorem upperBound_gt {m : List (Str × Str)} (hm : KeySorted m) {it : Nat} {q : Str × Str} (hq : m[it]? = some q) :
    it < upperBound m q.1 := by
  have hi := (List.getElem?_eq_some_iff.1 hq).1
  have hqe := (List.getElem?_eq_some_iff.1 hq).2
  rcases Nat.lt_or_ge it (upperBound m q.1) with h | h
  · exact h
  · exfalso
    unfold upperBound at h
    have hlt : m.findIdx (fun x => bytesLt q.1 x.1) < m.length := by omega
    have h1 := List.findIdx_getElem (w := hlt)
    rw [bytesLt_iff] at h1
    unfold KeySorted at hm
    rcases Nat.eq_or_lt_of_le h with he | hl
    · have he' : m[m.findIdx (fun x => bytesLt q.1 x.1)] = q := by
        simp only [he, hqe]
      rw [he'] at h1
      exact List.lt_irrefl _ h1
    · have h2 := List.pairwise_iff_getElem.1 hm _ _ hlt hi hl
      rw [hqe] at h2
      exact h2 h1

theorem lowerBound_le (m : List (Str × Str)) (k : Str) : lowerBound m k ≤ upperBound m k := by
  unfold lowerBound upperBound
  induction m with
  | nil => simp
  | cons p m ih =>
    rw [List.findIdx_cons, List.findIdx_cons]
    by_cases h : bytesLt k p.1 = true
    · have : bytesLt p.1 k = false := by
        rw [bytesLt_iff] at h
        rw [← Bool.not_eq_true, bytesLt_iff]
        exact fun h' => List.lt_irrefl _ (List.lt_trans h h')
      simp [h, this]
    · cases h' : bytesLt p.1 k
      · simp
      · simp [h]; exact ih

theorem mapLoop_returns {σ ν : Type} {conv : Str → B ν} {put : σ → Str → Entry ν → B σ} (hc : ∀ s, Returns strict (conv s))
    (hp : ∀ o k e, Returns strict (put o k e)) {m : List (Str × Str)} (hm : KeySorted m) :
    ∀ (k it : Nat) (o : σ), m.length ≤ it + k → Returns strict (mapLoop conv put m it o)
  | 0, it, o, h => by
    rw [mapLoop, List.getElem?_eq_none (by omega)]; exact .inl ⟨_, rfl⟩
  | k + 1, it, o, h => by
    rw [mapLoop]
    cases hq : m[it]? with
    | none => exact .inl ⟨_, rfl⟩
    | some q =>
      simp only
      split
      · exact (hc _).bind fun v => (hp _ _ _).bind fun o => mapLoop_returns hc hp hm k (it + 1) o (by omega)
      · have h1 := upperBound_gt hm hq
        have h2 := lowerBound_le m q.1
        refine (packLoop_returns hc _ _ _ _ (Nat.add_sub_cancel' h2) List.findIdx_le_length).bind fun vs =>
          (hp _ _ _).bind fun o => mapLoop_returns hc hp hm k _ o (by omega)

theorem resultLoop_returns {σ ν : Type} {conv : Str → B ν} {put : σ → Str → Entry ν → B σ} (hc : ∀ s, Returns strict (conv s))
    (hp : ∀ o k e, Returns strict (put o k e)) (empty : σ) : ∀ (res : List (List (Str × Str))), (∀ m ∈ res, KeySorted m) →
    Returns strict (resultLoop conv put empty res)
  | [], _ => .inl ⟨_, rfl⟩
  | m :: ms, h => by
    rw [resultLoop]
    exact (mapLoop_returns hc hp (h m (by simp)) m.length 0 _ (by omega)).bind fun o =>
      (resultLoop_returns hc hp empty ms fun x hx => h x (by simp [hx])).bind fun os => .inl ⟨_, rfl⟩

theorem pyResult_returns {res : List (List (Str × Str))} (h : ∀ m ∈ res, KeySorted m) : Returns true (pyResult res) := by
  have hc : ∀ s, Returns true (pyString s) := by
    intro s
    unfold pyString
    split
    · exact .inl ⟨_, rfl⟩
    · exact .inr ⟨rfl, rfl⟩
  exact resultLoop_returns hc (fun o k e => (hc k).bind fun k => .inl ⟨_, rfl⟩) _ res h

theorem rubyResult_returns {res : List (List (Str × Str))} (h : ∀ m ∈ res, KeySorted m) : Returns false (rubyResult res) :=
  resultLoop_returns (fun _ => .inl ⟨_, rfl⟩) (fun _ _ _ => .inl ⟨_, rfl⟩) _ res h

theorem phpResult_returns {res : List (List (Str × Str))} (h : ∀ m ∈ res, KeySorted m) : Returns false (phpResult res) :=
  resultLoop_returns (fun _ => .inl ⟨_, rfl⟩) (fun _ _ e => by cases e <;> exact .inl ⟨_, rfl⟩) _ res h

theorem nodeResult_returns (js : Js) : ∀ {res : List (List (Str × Str))}, (∀ m ∈ res, KeySorted m) →
    ∃ a, nodeResult js res = pure a
  | [], _ => ⟨[], rfl⟩
  | m :: ms, h => by
    have h1 := mapLoop_returns (strict := false) (conv := fun s => pure (js.fromUtf8 s)) (put := jsPut js)
      (fun _ => .inl ⟨_, rfl⟩) (fun _ _ _ => .inl ⟨_, rfl⟩) (h m (by simp)) m.length 0 [] (by omega)
    obtain ⟨o, ho⟩ := h1.resolve_right (by simp)
    obtain ⟨os, hos⟩ := nodeResult_returns js (res := ms) fun x hx => h x (by simp [hx])
    exact ⟨_, by rw [nodeResult, nodeObject, ho, hos]; rfl⟩

/-! ## C55: rules -/

/-- The hext is short, has no ten digits in a row and, where `char` is signed, bytes from 128 to 254 only where the grammar
allows them. -/
def HextPlain (charSigned : Bool) (hext : Str) : Prop :=
  NoLong hext ∧ CharSafe charSigned hext ∧ hext.length ≤ 2147483645

theorem parse_plain (rx : RxEngine) {charSigned : Bool} {hext : Str} (h : HextPlain charSigned hext) :
    (∃ r, parseHext rx charSigned hext = .ok r ∧ Syn.Means rx hext r) ∨
      ∃ what, parseHext rx charSigned hext = .error (.syntax what) ∧ ∀ r, ¬ Syn.Means rx hext r := by
  cases hp : parseHext rx charSigned hext with
  | ok r => exact .inl ⟨r, rfl, (C36_parse_iff rx charSigned hext r).1 hp⟩
  | error e =>
    obtain ⟨what, rfl⟩ := C35_only_syntax_error_partial rx charSigned hext h.2.1 h.2.2 (numbersFit_of_noLong h.1) e hp
    refine .inr ⟨what, rfl, fun r hr => ?_⟩
    rw [(C36_parse_iff rx charSigned hext r).2 hr] at hp
    cases hp

/-- C55, rules. In Python, Ruby and PHP, constructing a rule returns the rule that the hext means or, if it means none, raises
`ValueError`; for hexts as above. (What is missing: other hexts can end the process, see `C55_rule_terminates` and
`C34_parse_unsafe`.) -/
theorem C55_rule_partial (rx : RxEngine) {charSigned : Bool} {hext : Str} (h : HextPlain charSigned hext) :
    (∃ r, wrapperRule rx charSigned hext = .value r ∧ Syn.Means rx hext r) ∨
      ∃ what, wrapperRule rx charSigned hext = .raises (lit "ValueError") what ∧ ∀ r, ¬ Syn.Means rx hext r := by
  unfold wrapperRule
  rcases parse_plain rx h with ⟨r, h1, h2⟩ | ⟨what, h1, h2⟩
  · exact .inl ⟨r, by rw [h1], h2⟩
  · exact .inr ⟨_, by rw [h1], h2⟩

/-- C55, rules. The same for Node, which raises `Error`, and uses the hext up to the first NUL byte. -/
theorem C55_node_rule_partial (rx : RxEngine) {charSigned : Bool} {hext : Str} (h : HextPlain charSigned (cstr hext)) :
    (∃ r, nodeRule rx charSigned hext = .value r ∧ Syn.Means rx (cstr hext) r) ∨
      ∃ what, nodeRule rx charSigned hext = .raises (lit "Error") what ∧ ∀ r, ¬ Syn.Means rx (cstr hext) r := by
  unfold nodeRule parseHextC
  rcases parse_plain rx h with ⟨r, h1, h2⟩ | ⟨what, h1, h2⟩
  · exact .inl ⟨r, by rw [h1], h2⟩
  · exact .inr ⟨_, by rw [h1], h2⟩

example : HextPlain true (lit "<a href:x/>") := ⟨noLong_of_few (by decide), charSafe_ascii fun _ => by decide, by decide⟩

/-- C55 fails for large numbers: the hext ends the process of Python, Ruby, PHP and Node. -/
theorem C55_rule_terminates (rx : RxEngine) (charSigned : Bool) :
    wrapperRule rx charSigned (lit "<a:child-count(99999999999)/>") = .terminates ∧
    nodeRule rx charSigned (lit "<a:child-count(99999999999)/>") = .terminates := by
  have h : cstr (lit "<a:child-count(99999999999)/>") = lit "<a:child-count(99999999999)/>" := by decide
  unfold wrapperRule nodeRule parseHextC
  rw [h, C35_out_of_range_big]
  exact ⟨rfl, rfl⟩

/-! ## C55: extraction -/

/-- What `extract` raises when the limit is reached. -/
def limitRaised {α : Type} : Answer α := .raises (lit "RuntimeError") (lit "The allowed amount of searches was exhausted")

section
variable {rx : RxEngine} {charSigned : Bool} {hext : Str} {r : Rule} {h : Heap} {t : Tree}

theorem extract_cases (hs : NoLong hext) (hp : parseHext rx charSigned hext = .ok r) (ht : IsDocument h 1147483648 t) (ms : UInt64) :
    (∃ res, extract rx h r t.ptr ms = pure res ∧ ∀ m ∈ res, KeySorted m) ∨
      (ms ≠ 0 ∧ extract rx h r t.ptr ms = throw .maxSearch) := by
  rcases C01_hext_safe hs hp ht ms with ⟨res, hres⟩ | hx
  · refine .inl ⟨res, hres, fun m hm => ?_⟩
    obtain ⟨gs, ms', _, hms, rfl⟩ := extract_isResult (l := Loc.root t) (n := 1147483648) (by decide) (parse_safe hs hp) ht hres
    obtain ⟨hm1, _⟩ := List.mem_filter.1 hm
    obtain ⟨g, _, vs, _, him⟩ := hms.mem hm1
    exact him.1
  · exact .inr hx

theorem wrapperExtract_cases {α : Type} {conv : List (List (Str × Str)) → B α}
    (hc : ∀ res, (∀ m ∈ res, KeySorted m) → Returns strict (conv res)) (hs : NoLong hext)
    (hp : parseHext rx charSigned hext = .ok r) (ht : IsDocument h 1147483648 t) (ms : UInt64) :
    (∃ res a, extract rx h r t.ptr ms = pure res ∧ conv res = pure a ∧ wrapperExtract rx conv h r t.ptr ms = .value a) ∨
    (ms ≠ 0 ∧ extract rx h r t.ptr ms = throw .maxSearch ∧ wrapperExtract rx conv h r t.ptr ms = limitRaised) ∨
    (strict = true ∧ ∃ res, extract rx h r t.ptr ms = pure res ∧ conv res = throw .unicode ∧
      wrapperExtract rx conv h r t.ptr ms = .raises (lit "RuntimeError") (lit "PyString_FromString returned nullptr")) := by
  unfold wrapperExtract
  rcases extract_cases hs hp ht ms with ⟨res, h1, h2⟩ | ⟨h1, h2⟩
  · rcases hc res h2 with ⟨a, h3⟩ | ⟨h3, h4⟩
    · exact .inl ⟨res, a, h1, h3, by rw [h1]; simp only [pure, ExceptT.pure, ExceptT.mk]; rw [h3]; rfl⟩
    · exact .inr (.inr ⟨h3, res, h1, h4, by rw [h1]; simp only [pure, ExceptT.pure, ExceptT.mk]; rw [h4]; rfl⟩)
  · exact .inr (.inl ⟨h1, h2, by rw [h2]; rfl⟩)

/-- The list `os` has one object for each map of the result, and it presents the map. -/
def PresentsAll (res : List (List (Str × Str))) (os : List (List (Str × Entry Str))) : Prop :=
  os.length = res.length ∧ ∀ x ∈ res.zip os, Presents x.1 x.2

theorem resultLoop_presents {σ ν : Type} {conv : Str → B ν} {put : σ → Str → Entry ν → B σ} {empty : σ} {R : List (Str × Str) → σ → Prop} :
    ∀ {res : List (List (Str × Str))} {os : List σ}, (∀ m ∈ res, ∀ o, mapLoop conv put m 0 empty = pure o → R m o) →
    resultLoop conv put empty res = pure os → os.length = res.length ∧ ∀ x ∈ res.zip os, R x.1 x.2
  | [], os, _, h => by
    rw [resultLoop] at h
    injection h with h; injection h with h; subst h
    simp
  | m :: ms, os, hR, h => by
    rw [resultLoop] at h
    rcases h1 : mapLoop conv put m 0 empty with _ | _ | o
    · rw [h1] at h; cases h
    · rw [h1] at h; cases h
    · rw [h1] at h
      rcases h2 : resultLoop conv put empty ms with _ | _ | os'
      · simp only [bind, ExceptT.bind, ExceptT.mk, ExceptT.bindCont, Option.bind] at h; rw [h2] at h; cases h
      · simp only [bind, ExceptT.bind, ExceptT.mk, ExceptT.bindCont, Option.bind] at h; rw [h2] at h; cases h
      · simp only [bind, ExceptT.bind, ExceptT.mk, ExceptT.bindCont, Option.bind] at h; rw [h2] at h
        injection h with h; injection h with h; subst h
        obtain ⟨h3, h4⟩ := resultLoop_presents (fun m hm => hR m (by simp [hm])) h2
        refine ⟨by simp [h3], fun x hx => ?_⟩
        rw [List.zip_cons_cons, List.mem_cons] at hx
        rcases hx with rfl | hx
        · exact hR m (by simp) o h1
        · exact h4 x hx

/-- C55, Ruby. Extraction with the rule of a hext on a document returns an object for each map of the result, which presents it,
or raises `RuntimeError` if and only if the limit of searches is reached. -/
theorem C55_ruby_extract (hs : NoLong hext) (hp : parseHext rx charSigned hext = .ok r) (ht : IsDocument h 1147483648 t)
    (ms : UInt64) :
    (∃ res os, extract rx h r t.ptr ms = pure res ∧ rubyExtract rx h r t.ptr ms = .value os ∧ PresentsAll res os) ∨
      (ms ≠ 0 ∧ extract rx h r t.ptr ms = throw .maxSearch ∧ rubyExtract rx h r t.ptr ms = limitRaised) := by
  rcases wrapperExtract_cases (fun res => rubyResult_returns) hs hp ht ms with ⟨res, os, h1, h2, h3⟩ | hx | ⟨h1, _⟩
  · refine .inl ⟨res, os, h1, h3, resultLoop_presents (fun m hm o ho => ?_) h2⟩
    have hk : KeySorted m := by
      rcases extract_cases hs hp ht ms with ⟨res', g1, g2⟩ | ⟨_, g1⟩
      · rw [h1] at g1; injection g1 with g1; injection g1 with g1; subst g1; exact g2 m hm
      · rw [h1] at g1; injection g1 with g1; injection g1
    have := rubyHash_presents hk (entsOf_presents hk)
    rw [rubyHash, ho] at this
    injection this with this; injection this with this; subst this
    exact entsOf_presents hk
  · exact .inr hx
  · cases h1

/-- C55, PHP. The same; if the result has no NUL byte. Names that are integers are integer keys of the arrays. -/
theorem C55_php_extract (hs : NoLong hext) (hp : parseHext rx charSigned hext = .ok r) (ht : IsDocument h 1147483648 t)
    (ms : UInt64) :
    (∃ res os, extract rx h r t.ptr ms = pure res ∧ phpExtract rx h r t.ptr ms = .value os ∧
        ((∀ m ∈ res, NoNul m) → os.length = res.length ∧ ∀ x ∈ res.zip os, ∃ o, Presents x.1 o ∧ IsPhpArray o x.2)) ∨
      (ms ≠ 0 ∧ extract rx h r t.ptr ms = throw .maxSearch ∧ phpExtract rx h r t.ptr ms = limitRaised) := by
  rcases wrapperExtract_cases (fun res => phpResult_returns) hs hp ht ms with ⟨res, os, h1, h2, h3⟩ | hx | ⟨h1, _⟩
  · refine .inl ⟨res, os, h1, h3, fun hn => resultLoop_presents (R := fun m a => ∃ o, Presents m o ∧ IsPhpArray o a) (fun m hm o ho => ?_) h2⟩
    have hk : KeySorted m := by
      rcases extract_cases hs hp ht ms with ⟨res', g1, g2⟩ | ⟨_, g1⟩
      · rw [h1] at g1; injection g1 with g1; injection g1 with g1; subst g1; exact g2 m hm
      · rw [h1] at g1; injection g1 with g1; injection g1
    have := phpArray_presents hk (hn m hm) (entsOf_presents hk)
    rw [phpArray, ho] at this
    injection this with this; injection this with this; subst this
    exact ⟨_, entsOf_presents hk, isPhpArray_map _⟩
  · exact .inr hx
  · cases h1

/-- C55, Python. The same; if the result has no NUL byte, and is UTF-8. If it is not UTF-8, `RuntimeError` is raised. -/
theorem C55_python_extract (hs : NoLong hext) (hp : parseHext rx charSigned hext = .ok r) (ht : IsDocument h 1147483648 t)
    (ms : UInt64) :
    (∃ res ts, extract rx h r t.ptr ms = pure res ∧ pyExtract rx h r t.ptr ms = .value ts ∧
        ((∀ m ∈ res, NoNul m ∧ IsUtf8 m) → ts.length = res.length ∧ ∀ x ∈ res.zip ts, ∃ o, Presents x.1 o ∧ IsTextOf o x.2)) ∨
      (ms ≠ 0 ∧ extract rx h r t.ptr ms = throw .maxSearch ∧ pyExtract rx h r t.ptr ms = limitRaised) ∨
      (∃ res m, extract rx h r t.ptr ms = pure res ∧ m ∈ res ∧ ¬ (NoNul m ∧ IsUtf8 m) ∧ ∃ what,
        pyExtract rx h r t.ptr ms = .raises (lit "RuntimeError") what) := by
  rcases wrapperExtract_cases (fun res => pyResult_returns) hs hp ht ms with ⟨res, os, h1, h2, h3⟩ | hx | ⟨_, res, h1, h2, h3⟩
  · refine .inl ⟨res, os, h1, h3, fun hn => resultLoop_presents (R := fun m t => ∃ o, Presents m o ∧ IsTextOf o t) (fun m hm o ho => ?_) h2⟩
    have hk : KeySorted m := by
      rcases extract_cases hs hp ht ms with ⟨res', g1, g2⟩ | ⟨_, g1⟩
      · rw [h1] at g1; injection g1 with g1; injection g1 with g1; subst g1; exact g2 m hm
      · rw [h1] at g1; injection g1 with g1; injection g1
    have he := entsOf_presents hk
    have := pyDict_presents hk (hn m hm).1 (hn m hm).2 he
    rw [pyDict, ho] at this
    injection this with this; injection this with this; subst this
    exact ⟨_, he, presents_isText he (hn m hm).2⟩
  · exact .inr (.inl hx)
  · refine .inr (.inr ?_)
    have hk : ∀ m ∈ res, KeySorted m := by
      rcases extract_cases hs hp ht ms with ⟨res', g1, g2⟩ | ⟨_, g1⟩
      · rw [h1] at g1; injection g1 with g1; injection g1 with g1; subst g1; exact g2
      · rw [h1] at g1; injection g1 with g1; injection g1
    have key : ∀ res : List (List (Str × Str)), (∀ m ∈ res, KeySorted m) → pyResult res = throw .unicode →
        ∃ m ∈ res, ¬ (NoNul m ∧ IsUtf8 m) := by
      intro res
      induction res with
      | nil => intro _ h; injection h with h; injection h
      | cons m ms ih =>
        intro hk h
        by_cases hm : NoNul m ∧ IsUtf8 m
        · have h4 := pyDict_presents (hk m (by simp)) hm.1 hm.2 (entsOf_presents (hk m (by simp)))
          rw [pyDict] at h4
          rw [pyResult, resultLoop, h4] at h
          rcases h5 : pyResult ms with _ | e | os
          · rw [pyResult] at h5
            simp only [bind, ExceptT.bind, ExceptT.mk, ExceptT.bindCont, Option.bind, pure, ExceptT.pure] at h
            rw [h5] at h; cases h
          · rcases pyResult_returns (res := ms) (fun x hx => hk x (by simp [hx])) with ⟨a, h6⟩ | ⟨_, h6⟩
            · rw [h5] at h6; injection h6 with h6; injection h6
            · obtain ⟨x, hx, hn⟩ := ih (fun x hx => hk x (by simp [hx])) h6
              exact ⟨x, by simp [hx], hn⟩
          · rw [pyResult] at h5
            simp only [bind, ExceptT.bind, ExceptT.mk, ExceptT.bindCont, Option.bind, pure, ExceptT.pure] at h
            rw [h5] at h; injection h with h; injection h
        · exact ⟨m, by simp, hm⟩
    obtain ⟨m, hm, hn⟩ := key res hk h2
    exact ⟨res, m, h1, hm, hn, _, h3⟩

/-- C55, Node. Extraction returns an object for each map of the result, or raises `Error` if and only if the limit (modulo 2^32,
see C45) is reached. -/
theorem C55_node_extract (js : Js) (hs : NoLong hext) (hp : parseHext rx charSigned hext = .ok r) (ht : IsDocument h 1147483648 t)
    (n : JsNumber) :
    (∃ res os, extract rx h r t.ptr (nodeLimit n) = pure res ∧ nodeExtract rx js h r t.ptr n = .value os ∧
        os.length = res.length ∧ ∀ x ∈ res.zip os, nodeObject js x.1 = pure x.2) ∨
      (nodeLimit n ≠ 0 ∧ extract rx h r t.ptr (nodeLimit n) = throw .maxSearch ∧ ∃ what,
        nodeExtract rx js h r t.ptr n = .raises (lit "Error") what) := by
  unfold nodeExtract
  rcases extract_cases hs hp ht (nodeLimit n) with ⟨res, h1, h2⟩ | ⟨h1, h2⟩
  · obtain ⟨os, h3⟩ := nodeResult_returns js h2
    refine .inl ⟨res, os, h1, by rw [h1]; simp only [pure, ExceptT.pure, ExceptT.mk]; rw [h3]; rfl, ?_⟩
    clear h1 h2
    induction res generalizing os with
    | nil => rw [nodeResult] at h3; injection h3 with h3; injection h3 with h3; subst h3; simp
    | cons m ms ih =>
      rw [nodeResult] at h3
      rcases g1 : nodeObject js m with _ | _ | o
      · rw [g1] at h3; cases h3
      · rw [g1] at h3; cases h3
      · rw [g1] at h3
        rcases g2 : nodeResult js ms with _ | _ | os'
        · simp only [bind, ExceptT.bind, ExceptT.mk, ExceptT.bindCont, Option.bind] at h3; rw [g2] at h3; cases h3
        · simp only [bind, ExceptT.bind, ExceptT.mk, ExceptT.bindCont, Option.bind] at h3; rw [g2] at h3; cases h3
        · simp only [bind, ExceptT.bind, ExceptT.mk, ExceptT.bindCont, Option.bind] at h3; rw [g2] at h3
          injection h3 with h3; injection h3 with h3; subst h3
          obtain ⟨h4, h5⟩ := ih os' g2
          refine ⟨by simp [h4], fun x hx => ?_⟩
          rw [List.zip_cons_cons, List.mem_cons] at hx
          rcases hx with rfl | hx
          · exact g1
          · exact h5 x hx
  · exact .inr ⟨h1, h2, _, by rw [h2]; rfl⟩

end

/-- The hypotheses are met by `<a href:x/>` and the example document. -/
example : NoLong (lit "<a href:x/>") ∧ parseHext Ex.rx true (lit "<a href:x/>") = .ok hrefRule ∧
    IsDocument Ex.heap 1147483648 Ex.doc :=
  ⟨noLong_of_few (by decide), href_parsed Ex.rx true, isDocument_of_ok (by decide +kernel)⟩

end Hext.Props
