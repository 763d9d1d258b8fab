import Verif.Proofs.Print
import Verif.Proofs.Values
/-!
# Every rule that a hext means can be printed
-/

namespace Hext.Print

open Syn Spec

/-! ## Literals -/

theorem bodyOk_of (q : Byte) : ∀ (s : Str) (prev : Byte),
    (∀ u v, s = u ++ q :: v → (prev :: u).getLast? = some 92) → (prev :: s).getLast? ≠ some 92 → bodyOk q prev s = true
  | [], prev, _, h => by simpa [bodyOk] using h
  | b :: s, prev, h1, h2 => by
    simp only [bodyOk, Bool.and_eq_true, Bool.or_eq_true, bne_iff_ne, ne_eq, beq_iff_eq]
    refine ⟨?_, bodyOk_of q s b (fun u v e => ?_) (by rwa [List.getLast?_cons_cons] at h2)⟩
    · by_cases hb : b = q
      · right
        have := h1 [] s (by simp [hb])
        simpa using this
      · exact .inl hb
    · have := h1 (b :: u) v (by simp [e])
      rwa [List.getLast?_cons_cons] at this

theorem bodyOk_of_ok {qs x} (h : Quoted.Ok qs x) : bodyOk x.quote 0 x.body = true := by
  obtain ⟨_, h1, h2⟩ := h
  refine bodyOk_of _ _ _ (fun u v e => ?_) (fun e => ?_)
  · obtain ⟨u', rfl⟩ := h1 u v e
    simp [List.getLast?_cons]
  · cases hr : x.body.reverse with
    | nil =>
      simp only [List.reverse_eq_nil_iff] at hr
      simp [hr] at e
    | cons a w =>
      have hu : x.body = w.reverse ++ [a] := by rw [← List.reverse_reverse x.body, hr]; simp
      rw [hu] at e
      have : a = 92 := by simpa [List.getLast?_cons] using e
      exact h2 w.reverse (by rw [hu, this])

theorem quoted_of_bodyOk {qs q s} (h : q ∈ qs) (hb : bodyOk q 0 s = true) : ∃ y, quoted qs s = some y := by
  cases hq : quoted qs s with
  | some y => exact ⟨y, rfl⟩
  | none =>
    simp only [quoted, Option.map_eq_none_iff, List.find?_eq_none] at hq
    exact absurd hb (hq q h)

theorem quoted_complete {qs x} (h : Quoted.Ok qs x) : ∃ y, quoted qs x.body = some y :=
  quoted_of_bodyOk h.1 (bodyOk_of_ok h)

theorem regex_complete {rx f x r f'} (hok : Rx.Ok x) (h : x.meaning rx f = some (r, f')) :
    ∃ y, regex rx f r = some (y, f') := by
  obtain ⟨y, hy⟩ := quoted_complete hok
  obtain ⟨fi, fc⟩ := f
  simp only [Rx.meaning] at h
  split at h
  · next hc =>
    cases h
    refine ⟨{ lit := y, mods := (if (x.flags ⟨fi, fc⟩).icase then [true] else []) ++
      if (x.flags ⟨fi, fc⟩).collate then [false] else [] }, ?_⟩
    unfold regex
    rw [if_neg]
    · simp only [hy, Option.bind_eq_bind, Option.bind_some]
    · rw [hc]
      cases fi <;> cases fc <;> simp [Rx.flags]
  · cases h

theorem isName_of {s : Str} (h : IsName s) : isName s = true := by
  obtain ⟨b, t, rfl, h1, h2⟩ := h
  simp only [isName, Bool.and_eq_true, List.all_eq_true]
  refine ⟨by simpa [isAlpha, IsAlpha] using h1, fun x hx => ?_⟩
  have := h2 x hx
  simp only [isNameByte, isAlpha, Bool.or_eq_true, Bool.and_eq_true, decide_eq_true_eq, beq_iff_eq]
  simp only [IsNameByte, IsAlpha] at this
  rcases this with h | h | h | h
  · exact .inl (.inl (.inl h))
  · exact .inl (.inl (.inr h))
  · exact .inl (.inr h)
  · exact .inr h

theorem intVal_range {neg s n} (h : intVal neg s = some n) : intMin ≤ n ∧ n ≤ intMax := by
  unfold intVal at h
  simp only [Option.ite_none_right_eq_some, Option.some.injEq] at h
  obtain ⟨h, rfl⟩ := h
  exact h

theorem nth_range {n : Nth} {a b} (h : n.meaning = some (a, b)) : intMin ≤ a ∧ a ≤ intMax ∧ intMin ≤ b ∧ b ≤ intMax := by
  cases n with
  | even | odd => cases h; decide
  | number | step =>
    simp only [Nth.meaning, Option.bind_eq_bind, Option.bind_eq_some_iff] at h
    obtain ⟨x, hx, e⟩ := h
    cases e
    have := intVal_range hx
    exact ⟨by first | decide | exact this.1, by first | decide | exact this.2, by first | decide | exact this.1,
      by first | decide | exact this.2⟩
  | linear =>
    simp only [Nth.meaning, Option.bind_eq_bind, Option.bind_eq_some_iff] at h
    obtain ⟨x, hx, y, hy, e⟩ := h
    cases e
    have h1 := intVal_range hx
    have h2 := intVal_range hy
    exact ⟨h1.1, h1.2, h2.1, h2.2⟩

/-! ## Conditions -/

theorem trait_complete {rx f t m f'} (hok : Trait.Ok t) (h : t.meaning rx f = some (m, f')) :
    (∃ y, trait rx f m = some (y, f')) ∧ isCond (some m) = true ∧ ∀ ms, m ≠ .negate ms := by
  cases t with
  | empty => cases h; exact ⟨⟨_, rfl⟩, rfl, by simp⟩
  | childCount d | attributeCount d =>
    simp only [Trait.meaning, Option.bind_eq_bind, Option.bind_eq_some_iff] at h
    obtain ⟨x, hx, e⟩ := h
    cases e
    have := intVal_range hx
    simp only [intMin, intMax] at this
    exact ⟨⟨_, by rw [trait, if_pos (by omega)]⟩, rfl, by simp⟩
  | nth first ofType n =>
    simp only [Trait.meaning, Option.bind_eq_bind, Option.bind_eq_some_iff] at h
    obtain ⟨⟨a, b⟩, hx, e⟩ := h
    cases e
    exact ⟨⟨_, by rw [trait, if_pos (nth_range hx)]⟩, rfl, by simp⟩
  | endmost => cases h; exact ⟨⟨_, rfl⟩, rfl, by simp⟩
  | only => cases h; exact ⟨⟨_, rfl⟩, rfl, by simp⟩
  | typeMatches r =>
    simp only [Trait.meaning, Option.bind_eq_bind, Option.bind_eq_some_iff] at h
    obtain ⟨⟨a, b⟩, hx, e⟩ := h
    cases e
    obtain ⟨y, hy⟩ := regex_complete hok hx
    exact ⟨⟨.typeMatches y, by simp only [trait, hy, Option.bind_eq_bind, Option.bind_some]⟩, rfl, by simp⟩

theorem traits_complete {rx} : ∀ {ts : List Trait} {f xs f'}, (∀ t ∈ ts, t.Ok) → traitsMeaning rx f ts = some (xs, f') →
    (∃ ys, traits rx f (xs.map some) = some (ys, f')) ∧ xs.length = ts.length
  | [], f, xs, f', _, h => by cases h; exact ⟨⟨_, rfl⟩, rfl⟩
  | t :: ts, f, xs, f', hok, h => by
    simp only [traitsMeaning, Option.bind_eq_bind, Option.bind_eq_some_iff] at h
    obtain ⟨⟨m, f1⟩, h1, ⟨us, f2⟩, h2, e⟩ := h
    cases e
    obtain ⟨⟨y, hy⟩, _⟩ := trait_complete (hok t (by simp)) h1
    obtain ⟨⟨ys, hys⟩, hl⟩ := traits_complete (fun u hu => hok u (by simp [hu])) h2
    exact ⟨⟨y :: ys, by simp [traits, hy, hys]⟩, by simp [hl]⟩

theorem cond_complete {rx f c m f'} (hok : Cond.Ok c) (h : c.meaning rx f = some (m, f')) :
    (∃ y, cond rx f m = some (y, f')) ∧ isCond (some m) = true := by
  cases c with
  | trait t =>
    obtain ⟨⟨y, hy⟩, h2, h3⟩ := trait_complete hok h
    refine ⟨⟨.trait y, ?_⟩, h2⟩
    unfold cond
    split
    · next ms => exact absurd rfl (h3 ms)
    · simp [hy]
  | not ts =>
    simp only [Cond.meaning, Option.bind_eq_bind, Option.bind_eq_some_iff] at h
    obtain ⟨⟨us, f2⟩, h2, e⟩ := h
    cases e
    obtain ⟨⟨ys, hys⟩, hl⟩ := traits_complete hok.2 h2
    refine ⟨⟨.not ys, ?_⟩, rfl⟩
    have hne : (us.map some).isEmpty = false := by
      cases us with
      | nil => exact absurd (List.eq_nil_of_length_eq_zero hl.symm) hok.1
      | cons => rfl
    simp [cond, hne, hys]

theorem conds_complete {rx} : ∀ {ts : List Cond} {f xs f'}, (∀ t ∈ ts, t.Ok) → condsMeaning rx f ts = some (xs, f') →
    (∃ ys, conds rx f (xs.map some) = some (ys, f')) ∧ ∀ x ∈ xs, isCond (some x) = true
  | [], f, xs, f', _, h => by cases h; exact ⟨⟨_, rfl⟩, by simp⟩
  | t :: ts, f, xs, f', hok, h => by
    simp only [condsMeaning, Option.bind_eq_bind, Option.bind_eq_some_iff] at h
    obtain ⟨⟨m, f1⟩, h1, ⟨us, f2⟩, h2, e⟩ := h
    cases e
    obtain ⟨⟨y, hy⟩, hc⟩ := cond_complete (hok t (by simp)) h1
    obtain ⟨⟨ys, hys⟩, hl⟩ := conds_complete (fun u hu => hok u (by simp [hu])) h2
    exact ⟨⟨y :: ys, by simp [conds, hy, hys]⟩, by simpa using ⟨hc, hl⟩⟩

/-! ## Patterns -/

theorem fn_complete (g : Fn) : fn g.meaning = some g := by cases g <;> rfl

/-- Every quote in the text directly follows a backslash. -/
def qOk (q : Byte) : Byte → Str → Bool
  | _, [] => true
  | prev, b :: s => (b != q || prev == 92) && qOk q b s

theorem qOk_of_bodyOk (q) : ∀ s prev, bodyOk q prev s = true → qOk q prev s = true
  | [], _, _ => rfl
  | b :: s, prev, h => by
    simp only [bodyOk, qOk, Bool.and_eq_true] at h ⊢
    exact ⟨h.1, qOk_of_bodyOk q s b h.2⟩

theorem bodyOk_join (q : Byte) (hq : q ≠ 32) : ∀ (w : Str) (prev : Byte) (rest : Str), qOk q prev w = true →
    bodyOk q 32 rest = true → bodyOk q prev (w ++ 32 :: rest) = true
  | [], prev, rest, _, h => by simp [bodyOk, h, Ne.symm hq]
  | b :: w, prev, rest, h1, h => by
    simp only [qOk, Bool.and_eq_true] at h1
    simp only [List.cons_append, bodyOk, Bool.and_eq_true]
    exact ⟨h1.1, bodyOk_join q hq w b rest h1.2 h⟩

def sp (b : Byte) : Bool := [(32 : Byte)].contains b

theorem sp_iff {b} : sp b = true ↔ b = 32 := by simp [sp]

theorem qOk_words (q : Byte) : ∀ (s : Str) (prev : Byte), qOk q prev s = true → ∀ w ws, wordsBy sp s = w :: ws →
    qOk q (if headIs sp s then 32 else prev) w = true ∧ ∀ x ∈ ws, qOk q 32 x = true
  | [], prev, _, w, ws, h => by simp [wordsBy] at h
  | c :: s, prev, hq, w, ws, h => by
    simp only [qOk, Bool.and_eq_true] at hq
    by_cases hc : sp c = true
    · rw [wordsBy_cons_sep hc] at h
      have := qOk_words q s c hq.2 w ws h
      rw [sp_iff.1 hc] at this
      simp only [ite_self] at this
      simpa [headIs, hc] using this
    · have hc' : sp c = false := by simpa using hc
      simp only [headIs, hc', Bool.false_eq_true, if_false]
      cases s with
      | nil =>
        simp only [wordsBy, hc', Bool.false_eq_true, if_false] at h
        cases h
        simpa [qOk] using hq
      | cons d s =>
        rw [wordsBy_cons_nonsep hc'] at h
        have ih := qOk_words q (d :: s) c hq.2
        by_cases hd : sp d = true
        · rw [if_pos hd] at h
          cases h
          refine ⟨by simpa [qOk] using hq.1, fun x hx => ?_⟩
          cases hw : wordsBy sp (d :: s) with
          | nil => rw [hw] at hx; cases hx
          | cons w ws =>
            have := ih w ws hw
            simp only [headIs, hd, if_true] at this
            rw [hw] at hx
            rcases List.mem_cons.1 hx with rfl | hx
            · exact this.1
            · exact this.2 x hx
        · have hd' : sp d = false := by simpa using hd
          rw [if_neg hd] at h
          cases hw : wordsBy sp (d :: s) with
          | nil => exact absurd hw (wordsBy_ne_nil hd')
          | cons w ws =>
            have := ih w ws hw
            simp only [headIs, hd', Bool.false_eq_true, if_false] at this
            rw [hw] at h
            cases h
            simp only [qOk, Bool.and_eq_true]
            exact ⟨⟨hq.1, this.1⟩, this.2⟩

theorem mkContainsWords_eq (l : Str) :
    mkContainsWords l = .containsWords (if wordsBy sp l = [] then [[]] else wordsBy sp l) := by
  have ht : wordsBy sp (trimAnyOf [32] l) = wordsBy sp l := wordsBy_trim [32] l
  unfold mkContainsWords
  obtain ⟨_, _, _, _, _, h1, h2⟩ := trimAnyOf_split [32] l
  by_cases hn : trimAnyOf [32] l = []
  · rw [← ht, hn]; rfl
  · rw [splitCompress_eq [32] _ [] (by simp) (.inr h1) h2 (.inr hn), List.nil_append]
    have : wordsBy sp (trimAnyOf [32] l) ≠ [] := wordsBy_ne_nil_of_headIs hn h1
    rw [← ht, if_neg this]
    rfl

theorem wordsBy_flat : ∀ ws : List Str, (∀ w ∈ ws, IsWord sp w) → wordsBy sp (ws.flatMap (· ++ [32])) = ws
  | [], _ => rfl
  | w :: ws, h => by
    rw [List.flatMap_cons, List.append_assoc, List.singleton_append,
      wordsBy_word_append sp w _ (h w (by simp)) (.inr ⟨32, _, rfl, rfl⟩), wordsBy_cons_sep (by rfl),
      wordsBy_flat ws fun x hx => h x (by simp [hx])]

theorem bodyOk_flat (q : Byte) (hq : q ≠ 32) : ∀ ws : List Str, (∀ w ∈ ws, qOk q 32 w = true) →
    bodyOk q 32 (ws.flatMap (· ++ [32])) = true
  | [], _ => rfl
  | w :: ws, h => by
    rw [List.flatMap_cons, List.append_assoc]
    exact bodyOk_join q hq w 32 _ (h w (by simp)) (bodyOk_flat q hq ws fun x hx => h x (by simp [hx]))

theorem words_complete {x : Quoted} (h : x.Ok stringQuotes) : ∃ ws, mkContainsWords x.body = .containsWords ws ∧
    mkContainsWords (ws.flatMap (· ++ [32])) = .containsWords ws ∧ ∃ y, quoted stringQuotes (ws.flatMap (· ++ [32])) = some y := by
  rw [mkContainsWords_eq]
  refine ⟨_, rfl, ?_⟩
  by_cases hw : wordsBy sp x.body = []
  · rw [if_pos hw]
    exact ⟨by decide, ⟨34, [32]⟩, by decide⟩
  · rw [if_neg hw, mkContainsWords_eq, wordsBy_flat _ (wordsBy_isWord sp _), if_neg hw]
    refine ⟨rfl, quoted_of_bodyOk h.1 ?_⟩
    have hq : x.quote ≠ 32 := by
      have := h.1
      intro e
      rw [e] at this
      revert this
      decide
    have h0 : ∀ s, bodyOk x.quote 32 s = bodyOk x.quote 0 s := by
      intro s
      cases s <;> simp [bodyOk]
    rw [← h0]
    refine bodyOk_flat _ hq _ ?_
    have hb := bodyOk_of_ok h
    rw [← h0] at hb
    have hqo := qOk_of_bodyOk _ _ _ hb
    cases hws : wordsBy sp x.body with
    | nil => exact absurd hws hw
    | cons w ws =>
      have := qOk_words _ _ _ hqo w ws hws
      simp only [ite_self] at this
      simpa using this

theorem test_complete {rx f x t} (hok : Test.Ok x) (h : x.meaning rx f = some t) :
    (∃ y, test rx f t = some y) ∧ (∀ u, t ≠ .negate u) ∧ t ≠ .negateNull := by
  cases x with
  | op o q =>
    simp only [Test.meaning, Option.some.injEq] at h
    subst h
    obtain ⟨y, hy⟩ := quoted_complete (show q.Ok stringQuotes from hok)
    cases o with
    | words =>
      obtain ⟨ws, h1, h2, y, h3⟩ := words_complete (show q.Ok stringQuotes from hok)
      refine ⟨⟨.op .words y, ?_⟩, ?_⟩
      · simp only [Op.meaning, h1, test, h2, if_true, h3, Option.map_some]
      · simp [Op.meaning, h1]
    | equals | beginsWith | contains | endsWith => exact ⟨⟨_, by simp [Op.meaning, test, hy]; rfl⟩, by simp [Op.meaning], by simp [Op.meaning]⟩
  | regex r =>
    simp only [Test.meaning, Option.bind_eq_bind, Option.bind_eq_some_iff] at h
    obtain ⟨⟨a, b⟩, hx, e⟩ := h
    cases e
    obtain ⟨y, hy⟩ := regex_complete hok hx
    exact ⟨⟨_, by simp [test, hy]; rfl⟩, by simp, by simp⟩

theorem maybeNegated_complete {rx f x t} (neg : Bool) (hok : Test.Ok x) (h : x.meaning rx f = some t) :
    ∃ y, maybeNegated rx f (negated neg t) = some y := by
  obtain ⟨⟨y, hy⟩, h2, _⟩ := test_complete hok h
  cases neg with
  | true => exact ⟨(y, true), by simp [negated, maybeNegated, hy]⟩
  | false =>
    refine ⟨(y, false), ?_⟩
    simp only [negated, Bool.false_eq_true, if_false]
    unfold maybeNegated
    split
    · next u _ => exact absurd rfl (h2 u)
    · simp [hy]

theorem pipeS_complete {rx f p t f'} (hok : PipeS.Ok p) (h : p.meaning rx f = some (t, f')) :
    ∃ y, pipeS rx f t = some (y, f') := by
  cases p with
  | trim => cases h; exact ⟨.trimChars ⟨34, [32]⟩, rfl⟩
  | trimChars q | prepend q | append q =>
    cases h
    obtain ⟨y, hy⟩ := quoted_complete (show q.Ok stringQuotes from hok)
    exact ⟨_, by simp [pipeS, hy]; rfl⟩
  | collapsews | tolower | toupper => cases h; exact ⟨_, rfl⟩
  | filter r =>
    simp only [PipeS.meaning, Option.bind_eq_bind, Option.bind_eq_some_iff] at h
    obtain ⟨⟨a, b⟩, hx, e⟩ := h
    cases e
    obtain ⟨y, hy⟩ := regex_complete hok hx
    exact ⟨_, by simp [pipeS, hy]; rfl⟩
  | replace r ws1 ws2 q =>
    simp only [PipeS.meaning, Option.bind_eq_bind, Option.bind_eq_some_iff] at h
    obtain ⟨⟨a, b⟩, hx, e⟩ := h
    cases e
    obtain ⟨y, hy⟩ := regex_complete hok.1 hx
    obtain ⟨z, hz⟩ := quoted_complete (show q.Ok stringQuotes from hok.2.2.2)
    exact ⟨_, by simp [pipeS, hy, hz]; rfl⟩

theorem pipe_complete {rx} : ∀ {ps : List PipeS} {f ts f'}, (∀ p ∈ ps, p.Ok) → pipesMeaning rx f ps = some (ts, f') →
    ∃ ys, optPipe rx f (chainPipes ts) = some ys
  | [], f, ts, f', _, h => by cases h; exact ⟨[], rfl⟩
  | p :: ps, f, ts, f', hok, h => by
    simp only [pipesMeaning, Option.bind_eq_bind, Option.bind_eq_some_iff] at h
    obtain ⟨⟨m, f1⟩, h1, ⟨us, f2⟩, h2, e⟩ := h
    cases e
    obtain ⟨y, hy⟩ := pipeS_complete (hok p (by simp)) h1
    obtain ⟨ys, hys⟩ := pipe_complete (fun u hu => hok u (by simp [hu])) h2
    cases hc : chainPipes us with
    | none => exact ⟨[y], by simp [chainPipes, hc, optPipe, pipe, hy]⟩
    | some q =>
      rw [hc] at hys
      exact ⟨y :: ys, by simp only [optPipe] at hys; simp [chainPipes, hc, optPipe, pipe, hy, hys]⟩

theorem capName_complete {n : CapName} (h : n.Ok) : ∃ y, quoted stringQuotes n.meaning = some y := by
  cases n with
  | quoted q => exact quoted_complete h
  | plain s =>
    refine quoted_of_bodyOk (q := 34) (by decide) (bodyOk_of _ _ _ ?_ ?_)
    · rintro u v rfl
      have := h.2 34 (by simp)
      simp only [IsNameByte, IsAlpha] at this
      exact absurd this (by decide)
    · intro e
      have hm := List.mem_of_getLast? e
      simp only [List.mem_cons] at hm
      rcases hm with hm | hm
      · cases hm
      · have := h.2 92 hm
        revert this
        simp only [IsNameByte, IsAlpha]
        decide

/-- The match can be written behind every regular expression. -/
def Free (rx : RxEngine) (m : Match) : Prop := ∀ f, ∃ y, matchPat rx f m = some y

theorem matchPat_attr {rx f a t} (hn : IsName a) (ht : t ≠ .negateNull) (h : ∃ y, maybeNegated rx f t = some y) :
    ∃ y, matchPat rx f (.attribute a (some t)) = some y := by
  obtain ⟨y, hy⟩ := h
  refine ⟨.testAttr a y.1 y.2, ?_⟩
  unfold matchPat
  split
  · next e => simp at e
  · next e => simp only [Match.attribute.injEq, Option.some.injEq] at e; exact absurd e.2 ht
  · next e =>
    simp only [Match.attribute.injEq, Option.some.injEq] at e
    obtain ⟨rfl, rfl⟩ := e
    simp [isName_of hn, hy]
  · next e => cases e
  · next e _ => exact (e _ _ rfl).elim

/-- A pattern adds one condition, or one capture and perhaps a condition that can be written anywhere. -/
theorem pat_complete {rx f p ms cs} (hok : Pat.Ok p) (h : p.meaning rx f = some (ms, cs)) :
    (∀ m ∈ ms, isCond (some m) = false) ∧
    ((∃ m, ms = [m] ∧ cs = [] ∧ ∃ y, matchPat rx f m = some y) ∨
      ((∀ m ∈ ms, Free rx m) ∧ ∃ c, cs = [c] ∧ ∃ y, capPat rx f c = some y)) := by
  cases p with
  | capFn g ps n =>
    simp only [Pat.meaning, Option.bind_eq_bind, Option.bind_eq_some_iff] at h
    obtain ⟨⟨a, b⟩, hx, e⟩ := h
    cases e
    obtain ⟨y, hy⟩ := pipe_complete hok.1 hx
    obtain ⟨z, hz⟩ := capName_complete hok.2
    exact ⟨by simp, .inr ⟨by simp, _, rfl, _, by simp [capPat, fn_complete, hz, hy]; rfl⟩⟩
  | capAttr a ps n o =>
    simp only [Pat.meaning, Option.bind_eq_bind, Option.bind_eq_some_iff] at h
    obtain ⟨⟨ts, b⟩, hx, e⟩ := h
    cases e
    obtain ⟨y, hy⟩ := pipe_complete hok.2.1 hx
    obtain ⟨z, hz⟩ := capName_complete hok.2.2
    have hn := isName_of hok.1
    refine ⟨by cases o <;> simp [isCond], .inr ⟨?_, _, rfl, _, by simp [capPat, hn, hz, hy]; rfl⟩⟩
    cases o with
    | true => simp
    | false =>
      intro m hm f
      simp only [Bool.false_eq_true, if_false, List.mem_singleton] at hm
      subst hm
      exact ⟨.hasAttr a false, by simp [matchPat, hn]⟩
  | testFn g t neg =>
    simp only [Pat.meaning, Option.bind_eq_bind, Option.bind_eq_some_iff] at h
    obtain ⟨x, hx, e⟩ := h
    cases e
    obtain ⟨y, hy⟩ := maybeNegated_complete neg hok hx
    exact ⟨by simp [isCond], .inl ⟨_, rfl, rfl, _, by simp [matchPat, fn_complete, hy]; rfl⟩⟩
  | testAttr a t neg =>
    simp only [Pat.meaning, Option.bind_eq_bind, Option.bind_eq_some_iff] at h
    obtain ⟨x, hx, e⟩ := h
    cases e
    refine ⟨by simp [isCond], .inl ⟨_, rfl, rfl, matchPat_attr hok.1 ?_ (maybeNegated_complete neg hok.2 hx)⟩⟩
    cases neg with
    | true => simp [negated]
    | false => simpa [negated] using (test_complete hok.2 hx).2.2
  | hasAttr a neg =>
    cases h
    have hn := isName_of (show IsName a from hok)
    refine ⟨by simp [isCond], .inl ⟨_, rfl, rfl, ?_⟩⟩
    cases neg with
    | true => exact ⟨.hasAttr a true, by simp [matchPat, hn]⟩
    | false => exact ⟨.hasAttr a false, by simp [matchPat, hn]⟩

theorem pats_some {α} {print : Flags → α → Option Pat} {f : Flags} : ∀ {as : List α},
    (∀ a ∈ as.head?, ∃ y, print f a = some y) → (∀ a ∈ as.tail, ∃ y, print {} a = some y) →
    ∃ ys, pats print f (as.map some) = some (ys, if as = [] then f else {})
  | [], _, _ => ⟨[], rfl⟩
  | a :: as, h1, h2 => by
    obtain ⟨y, hy⟩ := h1 a (by simp)
    obtain ⟨ys, hys⟩ := pats_some (print := print) (f := {}) (as := as) (fun b hb => h2 b (by simp; exact List.mem_of_head? hb))
      (fun b hb => h2 b (by simp; exact List.mem_of_mem_tail hb))
    exact ⟨([32], y) :: ys, by simp [pats, hy, hys]⟩

theorem pats_flags {α} {print : Flags → α → Option Pat} : ∀ {as : List (Option α)} {f ys f'},
    pats print f as = some (ys, f') → f' = if as = [] then f else {}
  | [], f, ys, f', h => by cases h; rfl
  | none :: as, f, ys, f', h => by cases h
  | some a :: as, f, ys, f', h => by
    simp only [pats, Option.bind_eq_bind, Option.bind_eq_some_iff] at h
    obtain ⟨x, h1, ⟨us, f2⟩, h2, e⟩ := h
    cases e
    have := pats_flags h2
    rw [this]
    simp

theorem allPats_flags {rx f ms cs ys f'} (h : allPats rx f ms cs = some (ys, f')) :
    f' = if ms = [] ∧ cs = [] then f else {} := by
  simp only [allPats, Option.orElse_eq_orElse, Option.orElse_eq_or, Option.or_eq_some_iff] at h
  rcases h with h | ⟨_, h⟩ <;>
  · simp only [Option.bind_eq_bind, Option.bind_eq_some_iff] at h
    obtain ⟨⟨p1, f1⟩, h1, ⟨p2, f2⟩, h2, e⟩ := h
    cases e
    have h3 := pats_flags h1
    have h4 := pats_flags h2
    subst h3
    rw [h4]
    by_cases a : ms = [] <;> by_cases b : cs = [] <;> simp [a, b]

/-- Behind the first pattern no options are in force. -/
theorem patsMeaning_rest {rx} : ∀ {ps : List (Str × Pat)} {f ms cs f'}, PatsOk ps → patsMeaning rx {} ps = some (ms, cs, f') →
    f = {} → f' = {} ∧ (∀ m ∈ ms, isCond (some m) = false ∧ ∃ y, matchPat rx f m = some y) ∧ ∀ c ∈ cs, ∃ y, capPat rx f c = some y
  | [], f, ms, cs, f', _, h, _ => by cases h; simp
  | p :: ps, f, ms, cs, f', hok, h, hf => by
    subst hf
    simp only [patsMeaning, Option.bind_eq_bind, Option.bind_eq_some_iff] at h
    obtain ⟨⟨m1, c1⟩, h1, ⟨m2, c2, f2⟩, h2, e⟩ := h
    cases e
    obtain ⟨g1, g2, g3⟩ := patsMeaning_rest (fun q hq => hok q (by simp [hq])) h2 rfl
    obtain ⟨k1, k2⟩ := pat_complete (hok p (by simp)).2.2 h1
    refine ⟨g1, fun m hm => ?_, fun c hc => ?_⟩
    · rcases List.mem_append.1 hm with hm | hm
      · refine ⟨k1 m hm, ?_⟩
        rcases k2 with ⟨m', rfl, _, hy⟩ | ⟨hfree, _⟩
        · simp only [List.mem_singleton] at hm; subst hm; exact hy
        · exact hfree m hm {}
      · exact g2 m hm
    · rcases List.mem_append.1 hc with hc | hc
      · rcases k2 with ⟨_, _, rfl, _⟩ | ⟨_, c', rfl, hy⟩
        · cases hc
        · simp only [List.mem_singleton] at hc; subst hc; exact hy
      · exact g3 c hc

theorem allPats_complete {rx f ps ms cs f'} (hok : PatsOk ps) (h : patsMeaning rx f ps = some (ms, cs, f')) :
    (∃ ys, allPats rx f (ms.map some) (cs.map some) = some (ys, f')) ∧ ∀ m ∈ ms, isCond (some m) = false := by
  cases ps with
  | nil => cases h; exact ⟨⟨[], rfl⟩, by simp⟩
  | cons p ps =>
    simp only [patsMeaning, Option.bind_eq_bind, Option.bind_eq_some_iff] at h
    obtain ⟨⟨m1, c1⟩, h1, ⟨m2, c2, f2⟩, h2, e⟩ := h
    cases e
    obtain ⟨rfl, g2, g3⟩ := patsMeaning_rest (f := {}) (fun q hq => hok q (by simp [hq])) h2 rfl
    obtain ⟨k1, k2⟩ := pat_complete (hok p (by simp)).2.2 h1
    refine ⟨?_, fun m hm => (List.mem_append.1 hm).elim (k1 m) fun hm => (g2 m hm).1⟩
    have key : ∃ y, allPats rx f ((m1 ++ m2).map some) ((c1 ++ c2).map some) = some y := by
      rcases k2 with ⟨m, rfl, rfl, hy⟩ | ⟨hfree, c, rfl, hy⟩
      · obtain ⟨ys, hys⟩ := pats_some (print := matchPat rx) (f := f) (as := [m] ++ m2) (by simpa using hy)
          (fun a ha => (g2 a (by simpa using ha)).2)
        obtain ⟨zs, hzs⟩ := pats_some (print := capPat rx) (f := {}) (as := [] ++ c2)
          (fun a ha => g3 a (by simpa using List.mem_of_head? ha)) (fun a ha => g3 a (by simpa using List.mem_of_mem_tail ha))
        rw [if_neg (by simp)] at hys
        exact ⟨(ys ++ zs, if [] ++ c2 = [] then {} else {}), by unfold allPats; simp only [hys, hzs, Option.bind_eq_bind, Option.bind_some, Option.orElse_eq_orElse, Option.orElse_eq_or, Option.some_or]⟩
      · have hm : ∀ m ∈ m1 ++ m2, ∃ y, matchPat rx {} m = some y := by
          intro m hm
          rcases List.mem_append.1 hm with hm | hm
          · exact hfree m hm {}
          · exact (g2 m hm).2
        obtain ⟨ys, hys⟩ := pats_some (print := capPat rx) (f := f) (as := [c] ++ c2) (by simpa using hy)
          (fun a ha => g3 a (by simpa using ha))
        obtain ⟨zs, hzs⟩ := pats_some (print := matchPat rx) (f := {}) (as := m1 ++ m2)
          (fun a ha => hm a (List.mem_of_head? ha)) (fun a ha => hm a (List.mem_of_mem_tail ha))
        rw [if_neg (by simp)] at hys
        have : ∀ o : Option (List (Str × Pat) × Flags), ∃ y, (o <|> some (ys ++ zs, (if m1 ++ m2 = [] then ({} : Flags) else {}))) = some y := by
          intro o; cases o <;> exact ⟨_, rfl⟩
        obtain ⟨y, hy⟩ := this (do
          let x ← pats (matchPat rx) f ((m1 ++ m2).map some)
          let y ← pats (capPat rx) x.2 (([c] ++ c2).map some)
          some (x.1 ++ y.1, y.2))
        refine ⟨y, ?_⟩
        rw [← hy]
        unfold allPats
        simp only [hys, hzs, Option.bind_eq_bind, Option.bind_some]
    obtain ⟨⟨ys, f3⟩, hy⟩ := key
    have := allPats_flags hy
    have hne : ¬((m1 ++ m2).map some = [] ∧ (c1 ++ c2).map some = []) := by
      rcases k2 with ⟨m, rfl, rfl, hy⟩ | ⟨hfree, c, rfl, hy⟩ <;> simp
    rw [if_neg hne] at this
    exact ⟨ys, this ▸ hy⟩

/-! ## Rules -/

theorem cstr_name {t : Str} (h : IsName t) : cstr t = t := by
  obtain ⟨b, t, rfl, h1, h2⟩ := h
  have h0 : (0 : Byte) ∉ b :: t := by
    simp only [List.mem_cons, not_or]
    refine ⟨?_, fun h => ?_⟩
    · rintro rfl; revert h1; simp only [IsAlpha]; decide
    · have := h2 0 h; revert this; simp only [IsNameByte, IsAlpha]; decide
  unfold cstr
  generalize b :: t = s at h0
  induction s with
  | nil => rfl
  | cons c s ih =>
    simp only [List.mem_cons, not_or] at h0
    rw [List.takeWhile_cons_of_pos (by simpa using Ne.symm h0.1), ih h0.2]

theorem lower_name {t : Str} (h : IsName t) : IsName (t.map toLowerB) := by
  have ha : ∀ b : Byte, IsAlpha b → IsAlpha (toLowerB b) := by
    have : ∀ n : Fin 256, let b := UInt8.ofNat n.1
        ((65 ≤ b ∧ b ≤ 90) ∨ (97 ≤ b ∧ b ≤ 122)) → ((65 ≤ toLowerB b ∧ toLowerB b ≤ 90) ∨ (97 ≤ toLowerB b ∧ toLowerB b ≤ 122)) := by
      decide +kernel
    intro b hb
    have h2 := this ⟨b.toNat, b.toNat_lt⟩
    simp only [UInt8.ofNat_toNat] at h2
    exact h2 hb
  have hn : ∀ b : Byte, IsNameByte b → IsNameByte (toLowerB b) := by
    have : ∀ n : Fin 256, let b := UInt8.ofNat n.1
        ((48 ≤ b ∧ b ≤ 57) ∨ b = 45 ∨ b = 95) → toLowerB b = b := by
      decide +kernel
    intro b hb
    rcases hb with hb | hb
    · exact .inl (ha b hb)
    · have h2 := this ⟨b.toNat, b.toNat_lt⟩
      simp only [UInt8.ofNat_toNat] at h2
      rw [h2 hb]
      exact .inr hb
  obtain ⟨b, t, rfl, h1, h2⟩ := h
  refine ⟨toLowerB b, t.map toLowerB, rfl, ha b h1, fun x hx => ?_⟩
  obtain ⟨y, hy, rfl⟩ := List.mem_map.1 hx
  exact hn y (h2 y hy)

theorem lower_lower (t : Str) : (t.map toLowerB).map toLowerB = t.map toLowerB := by
  have : ∀ n : Fin 256, let b := UInt8.ofNat n.1; toLowerB (toLowerB b) = toLowerB b := by decide +kernel
  rw [List.map_map]
  refine List.map_congr_left fun b _ => ?_
  have h2 := this ⟨b.toNat, b.toNat_lt⟩
  simp only [UInt8.ofNat_toNat] at h2
  exact h2

theorem tag_complete {t : Str} {i : RuleInfo} (h : IsTag t) (hi : tagMeaning t = (i.tag, i.tagname)) :
    ∃ t', tag i = some t' := by
  by_cases ht : t = [42]
  · subst ht
    simp only [tagMeaning, if_true, Prod.mk.injEq] at hi
    exact ⟨[42], by simp [tag, ← hi.1, ← hi.2, tagMeaning]⟩
  · have hn : IsName t := h.resolve_left ht
    simp only [tagMeaning, ht, if_false] at hi
    cases hg : gumboTagEnum (cstr t) with
    | unknown =>
      simp only [hg, Prod.mk.injEq] at hi
      refine ⟨t, ?_⟩
      simp [tag, ← hi.1, ← hi.2, tagMeaning, ht, hg, isName_of hn]
    | known n =>
      simp only [hg, Prod.mk.injEq] at hi
      rw [cstr_name hn] at hg
      simp only [gumboTagEnum] at hg
      split at hg
      · next hc =>
        simp only [Tag.known.injEq] at hg
        have hl := lower_name hn
        have hne : t.map toLowerB ≠ [42] := by
          obtain ⟨b, u, e, h1, _⟩ := hl
          rw [e]
          intro e2
          simp only [List.cons.injEq] at e2
          rw [e2.1] at h1
          simp only [IsAlpha] at h1
          exact absurd h1 (by decide)
        refine ⟨n, ?_⟩
        subst hg
        have hg2 : gumboTagEnum (cstr (t.map toLowerB)) = .known (t.map toLowerB) := by
          rw [cstr_name hl]
          simp only [gumboTagEnum, lower_lower]
          rw [if_pos hc]
        simp [tag, ← hi.1, ← hi.2, Tag.normalizedName, tagMeaning, hne, hg2, isName_of hl]
      · cases hg

theorem head_complete {rx f h i f'} (hok : Head.Ok h) (hm : h.meaning rx f = some (i, f')) :
    ∃ y, head rx f i = some (y, f') := by
  simp only [Head.meaning, Option.bind_eq_bind, Option.bind_eq_some_iff] at hm
  obtain ⟨⟨xs, f1⟩, h1, ⟨ms, cs, f2⟩, h2, e⟩ := hm
  cases e
  obtain ⟨⟨ys, hys⟩, k1⟩ := conds_complete hok.2.1 h1
  obtain ⟨⟨zs, hzs⟩, k2⟩ := allPats_complete hok.2.2.1 h2
  have hw : ∀ (xs ms : List Match), (∀ x ∈ xs, isCond (some x) = true) → (∀ m ∈ ms, isCond (some m) = false) →
      ((xs ++ ms).map some).takeWhile isCond = xs.map some ∧ ((xs ++ ms).map some).dropWhile isCond = ms.map some := by
    intro xs ms h1 h2
    induction xs with
    | nil =>
      cases ms with
      | nil => exact ⟨rfl, rfl⟩
      | cons m ms =>
        have := h2 m (by simp)
        simp [this]
    | cons x xs ih =>
      have hx := h1 x (by simp)
      obtain ⟨i1, i2⟩ := ih fun y hy => h1 y (by simp [hy])
      simp only [List.cons_append, List.map_cons]
      rw [List.takeWhile_cons_of_pos hx, List.dropWhile_cons_of_pos hx, i1, i2]
      exact ⟨rfl, rfl⟩
  obtain ⟨w1, w2⟩ := hw xs ms k1 k2
  generalize hi : RuleInfo.mk (tagMeaning h.tag).1 (h.options.contains true) (h.options.contains false) (tagMeaning h.tag).2
    ((xs ++ ms).map some) (cs.map some) = i
  have e1 : i.ms = (xs ++ ms).map some := by rw [← hi]
  have e2 : i.caps = cs.map some := by rw [← hi]
  have e3 : tagMeaning h.tag = (i.tag, i.tagname) := by rw [← hi]
  obtain ⟨t, ht⟩ := tag_complete hok.1 e3
  unfold head
  simp only [ht, e1, e2, w1, w2, hys, hzs, Option.bind_eq_bind, Option.bind_some]
  exact ⟨_, rfl⟩

/-- The rule without the rules behind it. -/
def one (rx : RxEngine) : Rule → Printer
  | .mk i c _ ns => element rx i (interleave (optRules rx c) (blocks rx ns))

theorem rules_chain (rx) : ∀ (rs : List Rule) (r : Rule), rules rx (chain r rs) = one rx r :: rs.map (one rx)
  | [], .mk i c n ns => by simp [chain, rules, optRules, one]
  | s :: rs, .mk i c n ns => by simp [chain, rules, optRules, one, rules_chain rx rs s]

theorem optRules_siblings (rx) (rs : List Rule) : optRules rx (siblings rs) = rs.map (one rx) := by
  cases rs with
  | nil => rfl
  | cons r rs => simp [siblings, optRules, rules_chain]

theorem blocks_map (rx) : ∀ rs, blocks rx rs = rs.map fun r => block (inOrder (rules rx r))
  | [] => rfl
  | r :: rs => by rw [blocks, blocks_map rx rs]; rfl

/-- A printer writes something that leads to these options. -/
def Can (p : Printer) (f f' : Flags) : Prop := ∃ is, (is, f') ∈ p f

theorem Can.seq {p q f f1 f2} (h1 : Can p f f1) (h2 : Can q f1 f2) : Can (p.seq q) f f2 := by
  obtain ⟨a, ha⟩ := h1
  obtain ⟨b, hb⟩ := h2
  exact ⟨a ++ b, mem_seq.2 ⟨a, f1, b, ha, hb, rfl⟩⟩

theorem can_left {p ps qs f f1 f2} (h1 : Can p f f1) (h2 : Can (interleave ps qs) f1 f2) :
    Can (interleave (p :: ps) qs) f f2 := by
  simp only [interleave]
  cases qs with
  | nil => exact h1.seq h2
  | cons q qs =>
    obtain ⟨is, h⟩ := h1.seq h2
    exact ⟨is, by simp only [among, List.mem_append]; exact .inl h⟩

theorem can_right {ps q qs f f1 f2} (h1 : Can q f f1) (h2 : Can (interleave ps qs) f1 f2) :
    Can (interleave ps (q :: qs)) f f2 := by
  cases ps with
  | nil => exact h1.seq h2
  | cons p ps =>
    simp only [interleave] at h2 ⊢
    obtain ⟨is, h⟩ := h1.seq h2
    exact ⟨is, by simp only [among, List.mem_append]; exact .inr h⟩

theorem itemsOk_split {is js : List Item} (h : ItemsOk (is ++ js)) : ItemsOk is ∧ ItemsOk js :=
  ⟨fun i hi => h i (by simp [hi]), fun i hi => h i (by simp [hi])⟩

theorem can_element {rx h i f f1 f2 p} (hok : Head.Ok h) (hm : h.meaning rx f = some (i, f1)) (hp : Can p f1 f2) :
    Can (element rx i p) f f2 := by
  obtain ⟨y, hy⟩ := head_complete hok hm
  obtain ⟨is, hi⟩ := hp
  refine ⟨.start y false :: is ++ [.stop y.tag], ?_⟩
  simp only [element, hy, List.mem_map, Prod.mk.injEq]
  exact ⟨(is, f2), hi, rfl, rfl⟩

theorem seq_complete {rx f is f' rs} (h : Syn.Seq rx f is f' rs) :
    ItemsOk is → Can (inOrder (rs.map (one rx))) f f' := by
  refine Syn.Seq.rec (rx := rx)
    (motive_1 := fun f is f' r _ => ItemsOk is → Can (one rx r) f f')
    (motive_2 := fun f is f' kids nested _ => ItemsOk is →
      Can (interleave (kids.map (one rx)) (nested.map fun r => block (inOrder (rules rx r)))) f f')
    (motive_3 := fun f is f' rs _ => ItemsOk is → Can (inOrder (rs.map (one rx))) f f') ?_ ?_ ?_ ?_ ?_ ?_ ?_ ?_ ?_ h
  · intro f h f' info hm hok
    exact can_element (hok (.start h true) (by simp)) hm ⟨[], by simp [siblings, optRules, blocks, interleave, inOrder]⟩
  · intro f h f1 info is f2 kids nested t hm _ _ ih hok
    have hok2 := itemsOk_split (is := [.start h false]) (js := is ++ [.stop t]) (by simpa using hok)
    refine can_element (hok (.start h false) (by simp)) hm ?_
    rw [optRules_siblings, blocks_map]
    exact ih (itemsOk_split hok2.2).1
  · intro f _; exact ⟨[], by simp [interleave, inOrder]⟩
  · intro f i is f' kids nested _ _ ih hok
    exact ih (itemsOk_split (is := [i]) (js := is) hok).2
  · intro f is f1 r js f2 kids nested _ _ ih1 ih2 hok
    exact can_left (ih1 (itemsOk_split hok).1) (ih2 (itemsOk_split hok).2)
  · intro f is f1 r rs js f2 kids nested _ _ ih1 ih2 hok
    have h1 := (itemsOk_split (is := [.lbrace]) (js := is ++ .rbrace :: js) (by simpa using hok)).2
    have h2 := (itemsOk_split (is := [.rbrace]) (js := js) (itemsOk_split h1).2).2
    refine can_right ?_ (ih2 h2)
    obtain ⟨a, ha⟩ := ih1 (itemsOk_split h1).1
    refine ⟨.lbrace :: a ++ [.rbrace], ?_⟩
    simp only [block, List.mem_map, Prod.mk.injEq]
    refine ⟨(a, f1), ?_, rfl, rfl⟩
    rw [rules_chain]
    exact ha
  · intro f _; exact ⟨[], by simp [inOrder]⟩
  · intro f i is f' rs _ _ ih hok
    exact ih (itemsOk_split (is := [i]) (js := is) hok).2
  · intro f is f1 r js f2 rs _ _ ih1 ih2 hok
    exact (ih1 (itemsOk_split hok).1).seq (ih2 (itemsOk_split hok).2)

/-- A rule can be printed if some hext means it. -/
theorem hext_complete {rx s r} (h : Means rx s r) : ∃ s', hext rx r = some s' := by
  obtain ⟨is, f, rs, hok, rfl, hs, rfl⟩ := h
  have hm : ∃ y, (inOrder (rules rx (ruleOf rs)) {}).head? = some y := by
    have hex : ∃ x, x ∈ inOrder (rules rx (ruleOf rs)) {} := by
      cases rs with
      | nil =>
        refine ⟨([.start ⟨[], [42], [], [], []⟩ false, .stop [42]], {}), ?_⟩
        have : head rx {} {} = some (⟨[], [42], [], [], []⟩, {}) := rfl
        simp only [ruleOf, rules, optRules, blocks, interleave, inOrder, mem_seq, element, this, List.map_cons,
          List.map_nil, List.mem_singleton]
        exact ⟨_, _, [], rfl, rfl, rfl⟩
      | cons r rs =>
        obtain ⟨a, ha⟩ := seq_complete hs hok
        exact ⟨_, by rw [ruleOf, rules_chain]; exact ha⟩
    cases hl : inOrder (rules rx (ruleOf rs)) {} with
    | nil => rw [hl] at hex; obtain ⟨x, hx⟩ := hex; cases hx
    | cons x l => exact ⟨x, rfl⟩
  obtain ⟨y, hy⟩ := hm
  exact ⟨itemsText y.1, by simp [hext, hy]⟩

end Hext.Print
