import Verif.Proofs.ParserMain
import Verif.Proofs.ParserFill
import Verif.Proofs.ParserMessage
import Verif.Spec.Complaint
/-!
# What the parser complains about: lemmas
-/

namespace Hext

open Syn Msg Check

/-! ## Messages -/

theorem location_ok {c : Ctx} (hl : c.input.length ≤ 2147483645) {uc : Nat} (h : uc ≤ c.input.length) (k : Nat) :
    ∃ m, printErrorLocation c uc k = .ok m ∧ Points c.input uc k m := by
  cases hm : printErrorLocation c uc k with
  | ok m => exact ⟨m, rfl, printErrorLocation_points hm⟩
  | error e =>
    have := printErrorLocation_errs c uc k e hm
    rcases printErrorLocation_written c h k with ⟨m, h'⟩ | h'
    · rw [h'] at hm; cases hm
    · rw [h'] at hm
      cases hm
      exact absurd this (by simp only [Explained]; omega)

/-- The outcome is the complaint. -/
def Complaint {α} (c : Ctx) (x : P α) (r : Reason) (p k : Nat) : Prop :=
  ∃ place, Points c.input p k place ∧ x = .error (.syntax (r.text ++ place))

theorem Complaint.bind {α β} {c : Ctx} {x : P α} {r p k} (h : Complaint c x r p k) (f : α → P β) : Complaint c (x >>= f) r p k := by
  obtain ⟨m, h1, h2⟩ := h
  exact ⟨m, h1, by rw [h2]; rfl⟩

theorem says_message {α} {c : Ctx} (hl : c.input.length ≤ 2147483645) {p : Nat} (h : p < c.input.length) {msg : Str} {r : Reason}
    (hr : r.text = msg ++ lit " ") : Complaint c (throwErrorMessage c (p + 1) msg : P α) r p 1 := by
  obtain ⟨m, h1, h2⟩ := location_ok hl (show p ≤ _ by omega) 1
  refine ⟨m, h2, ?_⟩
  unfold throwErrorMessage pMinus1
  rw [if_neg (by omega), hr]
  simp only [pure_bind, Nat.add_sub_cancel, h1]
  rfl

theorem says_tag {α} {c : Ctx} (hl : c.input.length ≤ 2147483645) {p : Nat} (h : p < c.input.length) {t : Str} {o n} {r : Option Str}
    (hr : (match n, o with
      | some n, _ => lit ", expected '</" ++ n ++ lit ">'"
      | none, some e => lit ", expected '</" ++ tagText e ++ lit ">'"
      | none, none => []) = match r with | some e => lit ", expected '</" ++ shown e ++ lit ">'" | none => []) :
    Complaint c (throwUnexpectedTag c (p + 1) t o n : P α) (.unexpectedTag t r) p (t.length + 2) := by
  obtain ⟨m, h1, h2⟩ := location_ok hl (show p ≤ _ by omega) (t.length + 2)
  refine ⟨m, h2, ?_⟩
  unfold throwUnexpectedTag pMinus1
  rw [if_neg (by omega)]
  simp only [pure_bind, Nat.add_sub_cancel, h1]
  show Except.error _ = _
  have e1 : lit ">', expected '</" = lit ">'" ++ lit ", expected '</" := by decide
  have e2 : lit ">' " = lit ">'" ++ lit " " := by decide
  refine congrArg (fun x => Except.error (PErr.syntax (lit "Unexpected closing tag '</" ++ t ++ lit ">'" ++ x ++ lit " " ++ m))) hr |>.trans ?_
  cases r with
  | none => simp only [Reason.text, e2, List.append_assoc, List.nil_append]
  | some e => simp only [Reason.text, e1, e2, List.append_assoc]

theorem says_missing {α} {c : Ctx} (hl : c.input.length ≤ 2147483645) {o n} {t : Str} (hr : n.getD (tagText o) = shown t) :
    Complaint c (throwMissingTag c o n : P α) (.missing t) c.input.length 0 := by
  obtain ⟨m, h1, h2⟩ := location_ok hl (Nat.le_refl _) 0
  refine ⟨m, h2, ?_⟩
  unfold throwMissingTag
  rw [h1]
  show Except.error _ = _
  rw [hr]
  rfl

/-! ## What is open -/

/-- The open rules have these tags. -/
def TagsOf : List Rule → List Str → Prop
  | [], [] => True
  | r :: w, t :: ts => (r.info.tag = (tagMeaning t).1 ∧ r.info.tagname = (tagMeaning t).2) ∧ TagsOf w ts
  | _, _ => False

/-- The stacks hold what is open. -/
inductive Fit : List (List Rule) → Level → List Level → Prop
  | base {w res L} : TagsOf w L.tags → res.length = L.rule.toNat → Fit [w, res] L []
  | nest {w res r w' st L M Ms} : TagsOf w L.tags → res.length = L.rule.toNat → Fit ((r :: w') :: st) M Ms →
      Fit (w :: res :: (r :: w') :: st) L (M :: Ms)

theorem info_appendChild (p r : Rule) : (p.appendChild r).info = p.info := by
  cases p with | mk i c n ns => cases c <;> rfl

theorem info_appendNested (p r : Rule) : (p.appendNested r).info = p.info := by
  cases p; rfl

theorem Fit.add {w res st top below} (r : Rule) (h : Fit (w :: res :: st) top below) :
    Fit (addRule r (w :: res :: st)) { top with rule := top.rule || top.tags.isEmpty } below := by
  have key : ∀ {st'}, TagsOf w top.tags → res.length = top.rule.toNat →
      ∃ w' res', addRule r (w :: res :: st') = w' :: res' :: st' ∧ TagsOf w' top.tags ∧
        res'.length = (top.rule || top.tags.isEmpty).toNat := by
    intro st' h1 h2
    cases w with
    | cons p w =>
      cases ht : top.tags with
      | nil => rw [ht] at h1; exact h1.elim
      | cons t ts =>
        rw [ht] at h1
        refine ⟨_, res, rfl, ⟨by rw [info_appendChild]; exact h1.1, h1.2⟩, by simp [h2]⟩
    | nil =>
      cases ht : top.tags with
      | cons t ts => rw [ht] at h1; exact h1.elim
      | nil =>
        cases res with
        | nil => exact ⟨[], [r], rfl, trivial, by simp⟩
        | cons q qs =>
          refine ⟨[], q.appendNext r :: qs, rfl, trivial, ?_⟩
          rw [List.length_cons] at h2
          cases hb : top.rule with
          | false => rw [hb] at h2; simp at h2
          | true => rw [hb] at h2; simp at h2 ⊢; exact h2
  cases h with
  | base h1 h2 =>
    obtain ⟨w', res', e, h1, h2⟩ := key (st' := []) h1 h2
    rw [e]
    exact .base h1 h2
  | nest h1 h2 h3 =>
    obtain ⟨w', res', e, h1, h2⟩ := key h1 h2
    rw [e]
    exact .nest h1 h2 h3

theorem Fit.tags {w st top below} (h : Fit (w :: st) top below) : TagsOf w top.tags := by
  cases h with
  | base h1 _ => exact h1
  | nest h1 _ _ => exact h1

theorem Fit.retag {w w' st top below ts} (h : Fit (w :: st) top below) (ht : TagsOf w' ts) :
    Fit (w' :: st) { top with tags := ts } below := by
  cases h with
  | base h1 h2 => exact .base ht h2
  | nest h1 h2 h3 => exact .nest ht h2 h3

theorem tagsOf_nil {w : List Rule} (h : TagsOf w []) : w = [] := by
  cases w with
  | nil => rfl
  | cons => exact h.elim

theorem tagsOf_cons {w : List Rule} {t ts} (h : TagsOf w (t :: ts)) : ∃ r w', w = r :: w' ∧
    (r.info.tag = (tagMeaning t).1 ∧ r.info.tagname = (tagMeaning t).2) ∧ TagsOf w' ts := by
  cases w with
  | nil => exact h.elim
  | cons r w => exact ⟨r, w, rfl, h.1, h.2⟩

theorem shown_eq (t : Str) : (tagMeaning t).2.getD (tagText (tagMeaning t).1) = shown t := by
  unfold tagMeaning shown
  show _ = if t = [42] then _ else _
  split
  · rfl
  · cases gumboTagEnum (cstr t) <;> rfl

theorem fits_iff {info : RuleInfo} {e t : Str} (h : info.tag = (tagMeaning e).1 ∧ info.tagname = (tagMeaning e).2) :
    Closes info t ↔ fits e t = true := by
  have hl : lit "*" = [42] := rfl
  obtain ⟨h1, h2⟩ := h
  unfold tagMeaning at h1 h2
  unfold Closes fits
  rw [h1, h2, hl]
  by_cases he : e = [42]
  · simp [he]
  · simp only [he, if_false]
    cases gumboTagEnum (cstr e) <;> simp

/-! ## Errors in an open tag -/

/-- The error is one of an open tag: a number is out of range, or the engine does not compile a regular expression. -/
def HeadError (c : Ctx) (p n : Nat) (e : PErr) : Prop :=
  e = .outOfRange ∨ ∃ q k place what, p ≤ q ∧ q < p + n ∧ Points c.input q k place ∧ (∃ r, c.rx.compile r = some what) ∧
    e = .syntax (lit "In regular expression " ++ place ++ lit "\nError: " ++ what)

/-- Where an error of a word comes from. -/
theorem execWord_error {c : Ctx} : ∀ {w : List Sym} {p : Nat} {s : PSt} {e : PErr}, execWord c p w s = .error e →
    ∃ a q s', Sym.act a ∈ w ∧ p ≤ q ∧ q ≤ p + (chars w).length ∧ a.exec c q s' = .error e
  | [], p, s, e, h => by cases h
  | .ch b :: w, p, s, e, h => by
    obtain ⟨a, q, s', h1, h2, h3, h4⟩ := execWord_error (w := w) (p := p + 1) h
    exact ⟨a, q, s', .tail _ h1, by omega, by simp only [chars, List.length_cons]; omega, h4⟩
  | .act a :: w, p, s, e, h => by
    have h' : (a.exec c p s >>= execWord c p w) = .error e := h
    cases ha : a.exec c p s with
    | error e' =>
      rw [ha] at h'
      cases h'
      exact ⟨a, p, s, .head _, Nat.le_refl _, by omega, ha⟩
    | ok s' =>
      rw [ha] at h'
      obtain ⟨a, q, s', h1, h2, h3, h4⟩ := execWord_error (w := w) (p := p) h'
      exact ⟨a, q, s', .tail _ h1, h2, h3, h4⟩

/-- The actions of open tags, all but the one that compiles a regular expression. -/
def quiet : Act → Bool
  | .regex | .closeTag | .pushNested | .popNested | .unexpected => false
  | _ => true

def Textless : PErr → Prop
  | .syntax _ | .overflow => False
  | _ => True

theorem Textless.assert {b} : Errs Textless (P.assert b) := by
  unfold P.assert
  split
  · exact .pure
  · exact .throw trivial

theorem Textless.tkStop {c p s} : Errs Textless (Hext.tkStop c p s) := by
  unfold Hext.tkStop
  split
  · exact .throw trivial
  · split
    · exact .pure
    · exact .throw trivial

theorem Textless.stoi {s} : Errs Textless (Hext.stoi s) := by
  unfold Hext.stoi
  dsimp only
  split
  · exact .throw trivial
  · repeat' split
    all_goals first | exact .pure | exact .throw trivial

theorem Textless.modifyCur {f s} : Errs Textless (Hext.modifyCur f s) := by
  unfold Hext.modifyCur
  split
  · exact .pure
  · exact .throw trivial

theorem Textless.derefRegex {pv} : Errs Textless (Hext.derefRegex pv) := by
  unfold Hext.derefRegex
  split
  · exact .pure
  · exact .throw trivial

theorem quiet_errs (c : Ctx) (p : Nat) {a : Act} (ha : quiet a = true) (s : PSt) : Errs Textless (a.exec c p s) := by
  cases a with
  | regex | closeTag | pushNested | popNested | unexpected => cases ha
  | attrName | literal | capVarToken => exact .bind .tkStop fun _ _ => .pure
  | nthNumber | nthShift | traitChildCount | traitAttributeCount =>
    exact .bind .tkStop fun _ _ => .bind .stoi fun _ _ => .pure
  | tkStop => exact .tkStop
  | regexTest =>
    simp only [Act.exec]
    split
    · exact .throw trivial
    · exact .pure
  | negateAppend =>
    simp only [Act.exec]
    split
    · exact .throw trivial
    · exact .pure
  | traitTypeRegex | pipeFilter | pipeReplace => exact .bind .derefRegex fun _ _ => .pure
  | captureFunction | matchFunction | matchAttribute | appendNegate | appendTrait =>
    exact .bind .modifyCur fun _ _ => .pure
  | captureAttribute =>
    refine .bind .modifyCur fun _ _ => ?_
    dsimp only
    split
    · exact .pure
    · exact .modifyCur
  | reset =>
    refine .bind ?_ fun _ _ => .pure
    exact .bind .assert fun _ _ => .bind .assert fun _ _ => .bind .assert fun _ _ => .bind .assert fun _ _ => .pure
  | pushRule =>
    simp only [Act.exec, Hext.pushRule]
    split
    · exact .pure
    · exact .throw trivial
  | ruleOptional | ruleGreedy => exact .modifyCur
  | openTag =>
    refine .bind .tkStop fun _ _ => ?_
    simp only [setOpenTag]
    repeat' split
    all_goals exact .modifyCur
  | popRule =>
    simp only [Act.exec, Hext.popRule]
    split <;> first | exact .pure | exact .throw trivial
  | _ => exact .pure

/-- An error of the compilation of a regular expression. -/
theorem regex_error {c : Ctx} (hl : c.input.length ≤ 2147483645) {q : Nat} (h0 : 0 < q) (hq : q ≤ c.input.length) {s : PSt} {e}
    (hs : Soft e) (h : Act.exec c q .regex s = .error e) : ∃ k place what, Points c.input (q - 1) k place ∧
    (∃ r, c.rx.compile r = some what) ∧ e = .syntax (lit "In regular expression " ++ place ++ lit "\nError: " ++ what) := by
  simp only [Act.exec] at h
  split at h
  · cases h
  · next what hw =>
    split at h
    · cases h; cases hs
    · split at h
      · next b hb hle =>
        obtain ⟨m, h1, h2⟩ := location_ok hl (show q - 1 ≤ _ by omega) (q - b + 1)
        refine ⟨_, m, what, h2, ⟨_, hw⟩, ?_⟩
        unfold throwRegexError pMinus1 at h
        rw [if_neg (by omega)] at h
        simp only [pure_bind, h1] at h
        cases h
        rfl
      · cases h; cases hs

/-- The actions of a word are those of open tags. -/
def HeadActs (w : List Sym) : Prop := ∀ a, Sym.act a ∈ w → quiet a = true ∨ a = .regex

theorem HeadActs.append {u v} (h : HeadActs u) (h' : HeadActs v) : HeadActs (u ++ v) := by
  intro a ha
  rcases List.mem_append.mp ha with ha | ha
  · exact h a ha
  · exact h' a ha

theorem HeadActs.chs (s : Str) : HeadActs (Hext.chs s) := by
  intro a ha
  simp [Hext.chs] at ha

theorem HeadActs.nil : HeadActs [] := fun a ha => by cases ha

theorem HeadActs.ch {b w} (h : HeadActs w) : HeadActs (.ch b :: w) := by
  intro a ha
  simp only [List.mem_cons, reduceCtorEq, false_or] at ha
  exact h a ha

theorem HeadActs.act {a w} (ha : quiet a = true ∨ a = .regex) (h : HeadActs w) : HeadActs (.act a :: w) := by
  intro a' ha'
  simp only [List.mem_cons, Sym.act.injEq] at ha'
  rcases ha' with rfl | ha'
  · exact ha
  · exact h _ ha'

theorem HeadActs.flatMap {α} {f : α → List Sym} {l : List α} (h : ∀ x, HeadActs (f x)) : HeadActs (l.flatMap f) := by
  intro a ha
  obtain ⟨x, _, hx⟩ := List.mem_flatMap.mp ha
  exact h x a hx

/-- Proves that the actions of a word are those of open tags. -/
macro "headacts" : tactic => `(tactic| repeat' first
  | exact HeadActs.nil | exact HeadActs.chs _ | assumption
  | refine HeadActs.append ?_ ?_ | refine HeadActs.ch ?_ | refine HeadActs.act (Or.inl rfl) ?_ | refine HeadActs.act (Or.inr rfl) ?_
  | refine HeadActs.flatMap fun _ => ?_)

theorem headActs_quoted {stop : Act} (h : quiet stop = true) (q : Syn.Quoted) : HeadActs (quotedWord stop q) := by
  unfold quotedWord
  refine .ch (.act (.inl rfl) (.append (.chs _) (.act (.inl h) (.ch .nil))))

theorem headActs_rx (r : Rx) : HeadActs (rxWord r) := by
  unfold rxWord
  refine .append (headActs_quoted rfl _) (.append (.flatMap fun b => ?_) (.act (.inr rfl) .nil))
  cases b <;> (simp only [modWord]; headacts)

theorem headActs_nth (n : Nth) : HeadActs (nthWord n) := by
  cases n <;> (simp only [nthWord]; headacts)

theorem headActs_trait (t : Trait) : HeadActs (traitWord t) := by
  cases t with
  | nth f o n =>
    have := headActs_nth n
    cases f <;> cases o <;> (simp only [traitWord]; headacts)
  | endmost f o => cases f <;> cases o <;> (simp only [traitWord]; headacts)
  | only o => cases o <;> (simp only [traitWord]; headacts)
  | typeMatches r =>
    have := headActs_rx r
    simp only [traitWord]; headacts
  | _ => simp only [traitWord]; headacts

theorem headActs_cond (t : Cond) : HeadActs (condWord t) := by
  cases t with
  | trait t =>
    have := headActs_trait t
    simp only [condWord]; headacts
  | not ts =>
    have : ∀ t, HeadActs (traitWord t) := headActs_trait
    simp only [condWord]
    refine .append (.chs _) (.act (.inl rfl) (.append (.flatMap fun t => .append (this t) (.act (.inl rfl) .nil)) ?_))
    headacts

theorem headActs_pipe (p : PipeS) : HeadActs (pipeWord p) := by
  refine .ch (.act (.inl rfl) ?_)
  have hq := fun q => headActs_quoted (stop := .literal) rfl q
  have hr := headActs_rx
  cases p with
  | trimChars q => have := hq q; simp only [pipeTail]; headacts
  | prepend q => have := hq q; simp only [pipeTail]; headacts
  | append q => have := hq q; simp only [pipeTail]; headacts
  | filter r => have := hr r; simp only [pipeTail]; headacts
  | replace r w1 w2 q => have := hr r; have := hq q; simp only [pipeTail]; headacts
  | _ => simp only [pipeTail]; headacts

theorem headActs_capture (ps : List PipeS) (n : CapName) : HeadActs (captureWord ps n) := by
  refine .append (.flatMap headActs_pipe) (.ch ?_)
  cases n with
  | quoted q => have := headActs_quoted (stop := .literal) rfl q; simp only [capNameWord]; headacts
  | plain s => simp only [capNameWord]; headacts

theorem headActs_test (t : Test) : HeadActs (testWord t) := by
  cases t with
  | op o q =>
    refine .append (.chs _) (.append (headActs_quoted rfl q) (.act (.inl ?_) .nil))
    cases o <;> rfl
  | regex r => have := headActs_rx r; simp only [testWord]; headacts

theorem headActs_pat (p : Pat) : HeadActs (patWord p) := by
  have hf : ∀ f, HeadActs (fnWord f) := fun f => by cases f <;> (simp only [fnWord]; headacts)
  have ha : ∀ a, HeadActs (attrWord a) := fun a => by simp only [attrWord]; headacts
  have ho : ∀ b, HeadActs (optWord b) := fun b => by cases b <;> (simp only [optWord]; headacts)
  have hn : ∀ b, HeadActs (negWord b) := fun b => by cases b <;> (simp only [negWord]; headacts)
  have hc := headActs_capture
  have ht := headActs_test
  cases p with
  | capFn f ps n => have := hf f; have := hc ps n; simp only [patWord]; headacts
  | capAttr a ps n o => have := ha a; have := hc ps n; have := ho o; simp only [patWord]; headacts
  | testFn f t n => have := hf f; have := ht t; have := hn n; simp only [patWord]; headacts
  | testAttr a t n => have := ha a; have := ht t; have := hn n; simp only [patWord]; headacts
  | hasAttr a n => have := ha a; have := hn n; simp only [patWord]; headacts

theorem headActs_head (h : Head) : HeadActs (headWord h) := by
  refine .ch (.act (.inl rfl) (.append (.flatMap fun o => ?_) (.act (.inl rfl) (.append (.chs _) (.act (.inl rfl)
    (.append (.flatMap headActs_cond) (.append (.flatMap fun x => .append (.chs _) (.append (headActs_pat _) (.act (.inl rfl) .nil)))
      (.chs _))))))))
  cases o <;> (simp only [optionWord]; headacts)

/-- An open tag that has no meaning. -/
theorem head_error {c : Ctx} (hl : c.input.length ≤ 2147483645) {p : Nat} {s : PSt} {top st pv f} {hd : Head} (hok : hd.Ok) (hb : Base f pv)
    (hm : hd.meaning c.rx f = none) (hat : At c p (headWord hd)) (hs : view s = (top :: st, pv)) :
    ∃ e, execWord c p (headWord hd) s = .error e ∧ HeadError c p hd.text.length e := by
  have hrun := runs_head (c := c) (w := []) (top := top) (st := st) (Q := none) hok hb
    (fun info f' pv' h _ => by rw [hm] at h; cases h) (fun _ => rfl)
  rw [List.append_nil] at hrun
  obtain ⟨e, he, hsoft⟩ := hrun p s hat hs
  refine ⟨e, he, ?_⟩
  have hlen : p + hd.text.length ≤ c.input.length := by
    obtain ⟨h1, t, h2⟩ := hat
    have h3 := congrArg List.length h2
    rw [chars_headWord] at h3
    simp at h3
    omega
  have hacts := headActs_head hd
  have hcw : ∃ w, headWord hd = .ch 60 :: w := ⟨_, rfl⟩
  obtain ⟨w, hw⟩ := hcw
  have hcl := congrArg List.length (chars_headWord hd)
  rw [hw] at he hacts hcl
  obtain ⟨a, q, s', h1, h2, h3, h4⟩ := execWord_error (w := w) (p := p + 1) he
  simp only [chars, List.length_cons] at hcl
  rcases hacts a (.tail _ h1) with ha | rfl
  · have := quiet_errs c q ha s' e h4
    cases hsoft with
    | outOfRange => exact .inl rfl
    | «syntax» => exact this.elim
    | overflow => exact this.elim
  · obtain ⟨k, place, what, g1, g2, g3⟩ := regex_error hl (show 0 < q by omega) (by omega) hsoft h4
    exact .inr ⟨q - 1, k, place, what, by omega, by omega, g1, g2, g3⟩

/-! ## Running items -/

theorem At.append {c : Ctx} {p u v} (h : At c p (u ++ v)) : At c p u ∧ At c (p + (chars u).length) v := by
  obtain ⟨h1, t, h2⟩ := h
  rw [chars_append, List.append_assoc] at h2
  have h3 := congrArg List.length h2
  simp at h3
  refine ⟨⟨h1, _, h2⟩, by omega, t, ?_⟩
  rw [← List.drop_drop, ← h2]
  simp

theorem item_ok {c : Ctx} {w is f st pv st' f' p} {s : PSt} {i : Item} (hok : i.Ok) (hc : Conf c.rx is f st) (hb : Base f pv)
    (hat : At c p (itemWord i ++ w)) (hs : view s = (st, pv)) (h : step c.rx f st i = some (st', f')) :
    ∃ s', execWord c p (itemWord i ++ w) s = execWord c (p + i.text.length) w s' ∧ view s' = (st', s'.pv) ∧ Base f' s'.pv ∧
      At c (p + i.text.length) w := by
  have hrun := runs_item (w := []) (Q := some fun v => v.1 = st' ∧ Base f' v.2) hok hc hb
    (fun st1 f1 pv1 h1 hb1 => by
      rw [h] at h1
      cases h1
      exact .nil ⟨rfl, hb1⟩)
    (fun h1 => by rw [h] at h1; cases h1)
  rw [List.append_nil] at hrun
  obtain ⟨h1, h2⟩ := hat.append
  rw [chars_itemWord] at h2
  obtain ⟨s', h3, h4, h5⟩ := hrun p s h1 hs
  refine ⟨s', ?_, ?_, h5, h2⟩
  · rw [execWord_append, h3, chars_itemWord]
    rfl
  · simp only [view] at h4 ⊢
    rw [h4]

theorem validateCloseTag_throws {c : Ctx} {p : Nat} {t : Str} {s : PSt} {r w st}
    (hs : s.stacks = (r :: w) :: st) {x : Str} (hx : r.info.tag = (tagMeaning x).1 ∧ r.info.tagname = (tagMeaning x).2)
    (hcl : ¬ Closes r.info t) : ∃ n, validateCloseTag c p t s = throwUnexpectedTag c p t (some r.info.tag) n ∧
      n.getD (tagText r.info.tag) = shown x := by
  have hl : lit "*" = [42] := rfl
  rw [← shown_eq x]
  unfold Closes at hcl
  unfold validateCloseTag
  simp only [hs, hl]
  rcases tagMeaning_cases x with e | e | ⟨k, hk, e⟩
  · rw [e] at hx ⊢
    simp only [hx.1] at hcl ⊢
    refine ⟨none, ?_, rfl⟩
    simp only [reduceCtorEq, if_false, hcl]
    rw [if_pos (.inr (by simp))]
  · rw [e] at hx ⊢
    simp only [hx.1, hx.2] at hcl ⊢
    refine ⟨some x, ?_, rfl⟩
    have : x ≠ t := fun h => hcl h.symm
    simp [this]
  · rw [e] at hx ⊢
    simp only [hx.1, hx.2] at hcl ⊢
    refine ⟨none, ?_, rfl⟩
    have hk1 : ¬ (RTag.tag k = RTag.tag .unknown) := by simpa using hk
    have hk2 : ¬ (RTag.tag k = RTag.any) := by simp
    rw [if_neg hk1]
    split
    · next ht => simp [ht]
    · next ht =>
      rw [if_pos]
      by_cases hg : gumboTagEnum (cstr t) = k
      · exact absurd hcl (by simp_all)
      · exact .inr (by simpa using hg)

/-- The outcome of a run is as the verdict says. -/
def Judged (F : P Rule → Prop) (c : Ctx) (x : P Rule) : Verdict → Prop
  | .fine => F x
  | .says r p k => Complaint c x r p k
  | .head h p => ∃ e, x = .error e ∧ HeadError c p h.text.length e

theorem scan_run {F fin} {c : Ctx} (hl : c.input.length ≤ 2147483645) {w : List Sym} {n : Nat} {k : PSt → P Rule}
    (hfin : ∀ {is0 f st pv top below p} {s : PSt}, c.input.length = p + n → (below ≠ [] → 0 < p) →
      Conf c.rx is0 f st → Base f pv → Fit st top below → At c p w → view s = (st, pv) →
      Judged F c (execWord c p w s >>= k) (fin top below p)) :
    ∀ {is is0 : List Item} {f st pv top below p} {s : PSt},
    (∀ i ∈ is, i.Ok) → c.input.length = p + (itemsText is).length + n → (below ≠ [] → 0 < p) → Conf c.rx is0 f st →
    Base f pv → Fit st top below → At c p (itemsWord is ++ w) → view s = (st, pv) →
    Judged F c (execWord c p (itemsWord is ++ w) s >>= k) (scan fin c.rx f top below p is)
  | [], is0, f, st, pv, top, below, p, s, _, hp, h0, hc, hb, hf, hat, hs =>
    hfin (by simpa [itemsText] using hp) h0 hc hb hf hat hs
  | i :: is, is0, f, st, pv, top, below, p, s, hok, hp, h0, hc, hb, hf, hat, hs => by
    have hi := hok i (.head _)
    have hok' : ∀ j ∈ is, j.Ok := fun j hj => hok j (.tail _ hj)
    have hp' : c.input.length = p + i.text.length + (itemsText is).length + n := by
      simp only [itemsText, List.flatMap_cons, List.length_append] at hp ⊢
      omega
    have hat' : At c p (itemWord i ++ (itemsWord is ++ w)) := by rw [← List.append_assoc]; exact hat
    -- an item that the parser accepts
    have next : ∀ {st' f' top' below'}, step c.rx f st i = some (st', f') → Fit st' top' below' → 
        Judged F c (execWord c p (itemWord i ++ (itemsWord is ++ w)) s >>= k)
          (scan fin c.rx f' top' below' (p + i.text.length) is) := by
      intro st' f' top' below' h1 h2
      obtain ⟨s', e1, e2, e3, e4⟩ := item_ok hi hc hb hat' hs h1
      rw [e1]
      have : 0 < i.text.length := List.length_pos_iff.mpr (itemText_ne i)
      exact scan_run hl hfin hok' hp' (fun _ => by omega) (hc.step h1) e3 h2 e4 e2
    have hword : itemsWord (i :: is) ++ w = itemWord i ++ (itemsWord is ++ w) := by
      rw [← List.append_assoc]; rfl
    rw [hword]
    obtain ⟨w0, res, st0, rfl⟩ := hc.shape
    have hs' := hs
    simp only [view, Prod.mk.injEq] at hs'
    cases i with
    | space b => exact next rfl hf
    | comment t => exact next rfl hf
    | start hd sc =>
      simp only [scan]
      cases hm : hd.meaning c.rx f with
      | none =>
        have key : ∃ v, itemWord (.start hd sc) = headWord hd ++ v := by
          cases sc
          · exact ⟨_, rfl⟩
          · exact ⟨_, rfl⟩
        obtain ⟨v, hw⟩ := key
        rw [hw, List.append_assoc] at hat'
        obtain ⟨e, he, hh⟩ := head_error hl hi hb hm hat'.append.1 hs
        refine ⟨e, ?_, hh⟩
        rw [hw, List.append_assoc, execWord_append, he]
        rfl
      | some x =>
        obtain ⟨info, f1⟩ := x
        cases sc with
        | true => exact next (by simp [step, hm]) (hf.add (bare info))
        | false => exact next (by simp [step, hm]) (hf.retag (w' := bare info :: w0) (ts := hd.tag :: top.tags) ⟨Head.tag_of hm, hf.tags⟩)
    | stop t =>
      have htl : 0 < t.length := by
        rcases hi with rfl | ⟨b, t', rfl, _⟩ <;> simp
      have hrun : execWord c p (itemWord (.stop t) ++ (itemsWord is ++ w)) s =
          (validateCloseTag c (p + t.length + 1 + 1) t { s with tokBegin := some (p + 2), tok := t } >>= fun _ =>
            popRule { s with tokBegin := some (p + 2), tok := t }) >>= fun s' =>
              execWord c (p + t.length + 1 + 1) (.ch 62 :: (itemsWord is ++ w)) s' := by
        have e : itemWord (.stop t) ++ (itemsWord is ++ w) =
            chs (lit "</") ++ (.act .tkStart :: (chs t ++ .act .closeTag :: .ch 62 :: (itemsWord is ++ w))) := by simp [itemWord]
        rw [e] at hat' ⊢
        have hat2 : At c (p + 2) (chs t ++ .act .closeTag :: .ch 62 :: (itemsWord is ++ w)) := hat'.chs.act
        rw [execWord_chs]
        show execWord c (p + 2) (chs t ++ .act .closeTag :: .ch 62 :: (itemsWord is ++ w)) { s with tokBegin := some (p + 2) } = _
        rw [execWord_chs]
        have e2 : p + 2 + t.length = p + t.length + 1 + 1 := by omega
        show (Act.exec c (p + 2 + t.length) .closeTag { s with tokBegin := some (p + 2) } >>= _) = _
        have e3 : Act.exec c (p + 2 + t.length) .closeTag { s with tokBegin := some (p + 2) } =
            tkStop c (p + 2 + t.length) { s with tokBegin := some (p + 2) } >>= fun s =>
              validateCloseTag c (p + 2 + t.length) s.tok s >>= fun _ => popRule s := rfl
        rw [e3, tkStop_eq hat2 _ rfl, e2]
        rfl
      have hlt : p + t.length + 1 < c.input.length := by
        have : (Item.stop t).text.length = t.length + 3 := by
          simp only [Item.text, List.length_append]
          have : (lit "</").length = 2 := by decide
          have : (lit ">").length = 1 := by decide
          omega
        omega
      unfold scan
      cases ht : top.tags with
      | nil =>
        have := hf.tags
        rw [ht] at this
        cases tagsOf_nil this
        rw [hrun]
        refine Complaint.bind (Complaint.bind (Complaint.bind ?_ _) _) _
        have : validateCloseTag c (p + t.length + 1 + 1) t { s with tokBegin := some (p + 2), tok := t } =
            throwUnexpectedTag c (p + t.length + 1 + 1) t none none := by
          simp only [validateCloseTag, hs'.1]
        rw [this]
        exact says_tag hl hlt rfl
      | cons e ts =>
        have htags := hf.tags
        rw [ht] at htags
        obtain ⟨r, w', rfl, h3, h4⟩ := tagsOf_cons htags
        dsimp only
        split
        · next hfit =>
          have hcl := (fits_iff (t := t) h3).mpr hfit
          have hadd := (hf.retag h4).add r
          exact next (if_pos hcl) hadd
        · next hfit =>
          have hcl : ¬ Closes r.info t := fun h => hfit ((fits_iff h3).mp h)
          rw [hrun]
          refine Complaint.bind (Complaint.bind (Complaint.bind ?_ _) _) _
          have key : ∃ n, validateCloseTag c (p + t.length + 1 + 1) t { s with tokBegin := some (p + 2), tok := t } =
              throwUnexpectedTag c (p + t.length + 1 + 1) t (some r.info.tag) n ∧ n.getD (tagText r.info.tag) = shown e :=
            validateCloseTag_throws hs'.1 h3 hcl
          obtain ⟨n, h5, h6⟩ := key
          rw [h5]
          refine says_tag hl hlt ?_
          have h7 : (match some e with | some e => lit ", expected '</" ++ shown e ++ lit ">'" | none => []) =
              lit ", expected '</" ++ n.getD (tagText r.info.tag) ++ lit ">'" := by rw [h6]
          rw [h7]
          cases n <;> rfl
    | lbrace =>
      have hlt : p < c.input.length := by
        have : (Item.lbrace).text.length = 1 := by decide
        omega
      unfold scan
      cases ht : top.tags with
      | nil =>
        have := hf.tags
        rw [ht] at this
        cases tagsOf_nil this
        refine Complaint.bind ?_ _
        show Complaint c (Act.exec c (p + 1) .pushNested s >>= _) _ _ _
        refine Complaint.bind ?_ _
        have : Act.exec c (p + 1) .pushNested s = throwErrorMessage c (p + 1) (lit "Nested rules must have a parent") := by
          simp only [Act.exec, pushNested, topStack, hs'.1]; rfl
        rw [this]
        exact says_message hl hlt rfl
      | cons e ts =>
        have htags := hf.tags
        rw [ht] at htags
        obtain ⟨r, w', rfl, h3, h4⟩ := tagsOf_cons htags
        exact next rfl (.nest (L := {}) (res := []) trivial rfl hf)
    | rbrace =>
      have hlt : p < c.input.length := by
        have : (Item.rbrace).text.length = 1 := by decide
        omega
      have hrun : execWord c p (itemWord .rbrace ++ (itemsWord is ++ w)) s = Hext.popNested c (p + 1) s >>= execWord c (p + 1) (itemsWord is ++ w) := rfl
      have fail : ∀ {msg : Str} {r : Reason}, r.text = msg ++ lit " " → Hext.popNested c (p + 1) s = throwErrorMessage c (p + 1) msg →
          Complaint c (execWord c p (itemWord .rbrace ++ (itemsWord is ++ w)) s >>= k) r p 1 := by
        intro msg r h1 h2
        rw [hrun, h2]
        exact ((says_message hl hlt h1).bind _).bind _
      unfold scan
      cases ht : top.tags with
      | cons e ts =>
        have htags := hf.tags
        rw [ht] at htags
        obtain ⟨r, w', rfl, h3, h4⟩ := tagsOf_cons htags
        refine fail (msg := lit "Closing nested rule without open") rfl ?_
        simp only [Hext.popNested, hs'.1]
      | nil =>
        have htags := hf.tags
        rw [ht] at htags
        cases tagsOf_nil htags
        cases hr : top.rule with
        | false =>
          have : res = [] := by
            cases hf with
            | base _ h2 => rw [hr] at h2; exact List.length_eq_zero_iff.mp h2
            | nest _ h2 _ => rw [hr] at h2; exact List.length_eq_zero_iff.mp h2
          cases this
          refine fail (msg := lit "Nested rules cannot be empty") rfl ?_
          simp only [Hext.popNested, hs'.1]
        | true =>
          have : ∃ n, res = [n] := by
            cases hf with
            | base _ h2 => rw [hr] at h2; exact List.length_eq_one_iff.mp h2
            | nest _ h2 _ => rw [hr] at h2; exact List.length_eq_one_iff.mp h2
          obtain ⟨n, rfl⟩ := this
          cases hf with
          | base _ _ =>
            refine fail (msg := lit "Closing nested rule without open") rfl ?_
            simp only [Hext.popNested, hs'.1]
          | nest _ _ h3 =>
            rename_i r w' st' M Ms _ _
            refine next (st' := (r.appendNested n :: w') :: st') rfl ?_
            have h4 := h3.tags
            obtain ⟨Mt, Mr⟩ := M
            cases Mt with
            | nil => cases tagsOf_nil h4
            | cons m ms =>
              exact h3.retag (ts := m :: ms) ⟨by rw [info_appendNested]; exact h4.1, h4.2⟩

/-- The end of the input. -/
theorem finish_run {c : Ctx} (hl : c.input.length ≤ 2147483645) {is0 f st pv top below p} {s : PSt} (hp : c.input.length = p)
    (h0 : below ≠ [] → 0 < p) (hc : Conf c.rx is0 f st) (hf : Fit st top below) (hs : view s = (st, pv)) :
    Judged (fun x => ∃ r, x = .ok r) c (finishParse c s) (atEnd top below p) := by
  simp only [view, Prod.mk.injEq] at hs
  cases hf with
  | base h1 h2 =>
    unfold atEnd
    cases ht : top.tags with
    | nil =>
      rw [ht] at h1
      cases tagsOf_nil h1
      rcases hc.bottom with ⟨_, rs, _, rfl⟩ | ⟨_, _, h⟩
      · exact ⟨_, finish_result hs.1⟩
      · cases h
    | cons t ts =>
      rw [ht] at h1
      obtain ⟨r, w', rfl, h3, _⟩ := tagsOf_cons h1
      have : finishParse c s = throwMissingTag c r.info.tag r.info.tagname := by
        simp [finishParse, hs.1, dropEmptyStacks]
      show Complaint c _ _ p 0
      rw [this, ← hp, h3.1, h3.2]
      exact says_missing hl (shown_eq t)
  | nest h1 h2 h3 =>
    have h0 := h0 (by simp)
    have : finishParse c s = throwErrorMessage c c.input.length (lit "Unclosed nested rule") := by
      simp [finishParse, hs.1]
    unfold atEnd
    show Complaint c _ _ (p - 1) 1
    rw [this, show c.input.length = p - 1 + 1 by omega]
    exact says_message hl (by omega) rfl

/-! ## What follows -/

theorem syms_no_ch {acts : List Nat} {u v : List Sym} {b : Byte} (h : syms acts = u ++ .ch b :: v) : False := by
  have : Sym.ch b ∈ syms acts := by rw [h]; simp
  simp [syms] at this

theorem syms_split {b x : Byte} {Y v : List Sym} : ∀ {A : List Nat} {u : List Sym}, syms A ++ .ch x :: Y = u ++ .ch b :: v →
    (u = syms A ∧ x = b ∧ Y = v) ∨ ∃ u', u = syms A ++ .ch x :: u' ∧ Y = u' ++ .ch b :: v
  | [], [], h => by
    simp only [syms, List.map_nil, List.nil_append, List.cons.injEq, Sym.ch.injEq] at h
    exact .inl ⟨rfl, h.1, h.2⟩
  | [], y :: u, h => by
    simp only [syms, List.map_nil, List.nil_append, List.cons_append, List.cons.injEq] at h
    exact .inr ⟨u, by rw [← h.1]; rfl, h.2⟩
  | a :: A, [], h => by simp [syms] at h
  | a :: A, y :: u, h => by
    simp only [syms, List.map_cons, List.cons_append, List.cons.injEq] at h
    rcases syms_split (A := A) (u := u) h.2 with ⟨h1, h2, h3⟩ | ⟨u', h1, h2⟩
    · exact .inl ⟨by rw [h1, ← h.1]; rfl, h2, h3⟩
    · exact .inr ⟨u', by rw [h1, ← h.1]; rfl, h2⟩

/-- The word of an input, up to a byte, depends on the input up to that byte only. -/
theorem dfaWord_prefix : ∀ {a : Str} {q : Nat} {b : Byte} {t t' : Str} {u v : List Sym}, chars u = a →
    dfaWord q (a ++ b :: t) = u ++ .ch b :: v → ∃ v', dfaWord q (a ++ b :: t') = u ++ .ch b :: v'
  | [], q, b, t, t', u, v, hu, h => by
    simp only [List.nil_append, dfaWord] at h ⊢
    split at h
    · rw [List.append_nil] at h
      exact (syms_no_ch h).elim
    · rcases syms_split h with ⟨rfl, _, _⟩ | ⟨u', rfl, _⟩
      · next hz _ _ => exact ⟨dfaWord (packed Data.transTargs (Check.trans q b)) t', by rw [if_neg hz]⟩
      · rw [chars_step] at hu
        cases hu
  | x :: a, q, b, t, t', u, v, hu, h => by
    simp only [List.cons_append, dfaWord] at h ⊢
    split at h
    · rw [List.append_nil] at h
      exact (syms_no_ch h).elim
    · rcases syms_split h with ⟨rfl, _, _⟩ | ⟨u', rfl, h'⟩
      · rw [chars_syms] at hu
        cases hu
      · rw [chars_step] at hu
        obtain ⟨v', hv⟩ := dfaWord_prefix (t' := t') (List.cons.inj hu).2 h'
        exact ⟨v', by simp [*]⟩

theorem dfaWord_chars : ∀ (s : Str) (q : Nat), chars (dfaWord q s) <+: s
  | [], q => by simp [dfaWord, chars_syms]
  | b :: s, q => by
    simp only [dfaWord]
    split
    · simp [chars_syms]
    · rw [chars_step]
      exact List.cons_prefix_cons.mpr ⟨rfl, dfaWord_chars s _⟩

/-- An item that begins with the byte. -/
theorem item_of_canBegin {b : Byte} (h : CanBegin b) : ∃ i : Item, i.Ok ∧ (∃ t, i.text = b :: t) ∧ ∃ w, itemWord i = .ch b :: w := by
  rcases h with h | h
  · exact ⟨.space b, h, ⟨_, rfl⟩, _, rfl⟩
  · have : b ∈ [35, 60, 123, 125] := h
    simp only [List.mem_cons, List.not_mem_nil, or_false] at this
    rcases this with rfl | rfl | rfl | rfl
    · exact ⟨.comment [], by simp [Item.Ok], ⟨_, rfl⟩, _, rfl⟩
    · exact ⟨.stop [42], .inl rfl, ⟨_, rfl⟩, _, rfl⟩
    · exact ⟨.lbrace, trivial, ⟨_, rfl⟩, _, rfl⟩
    · exact ⟨.rbrace, trivial, ⟨_, rfl⟩, _, rfl⟩

/-- The run of a hext that begins with items. -/
theorem parse_begins {rx cs} {is : List Item} (h : ∀ i ∈ is, i.Ok) {rest : Str} (hr : ∀ b t, rest = b :: t → CanBegin b) :
    ∃ w, chars w <+: rest ∧ parseHext rx cs (itemsText is ++ rest) =
      (execWord { input := itemsText is ++ rest, charSigned := cs, rx } 0 (itemsWord is ++ w) {} >>=
        finishParse { input := itemsText is ++ rest, charSigned := cs, rx }) := by
  have key : ∃ w, dfaWord hextStart (itemsText is ++ rest) = itemsWord is ++ w := by
    cases rest with
    | nil => exact ⟨[], by rw [List.append_nil, List.append_nil, dfaWord_items h]⟩
    | cons b t =>
      obtain ⟨i, hi, ⟨t', ht⟩, w, hw⟩ := item_of_canBegin (hr b t rfl)
      have hall : ∀ j ∈ is ++ [i], j.Ok := by
        intro j hj
        rcases List.mem_append.mp hj with hj | hj
        · exact h j hj
        · rw [List.mem_singleton.mp hj]; exact hi
      have e := dfaWord_items hall
      have e1 : itemsText (is ++ [i]) = itemsText is ++ b :: t' := by
        simp [itemsText, ht]
      have e2 : itemsWord (is ++ [i]) = itemsWord is ++ .ch b :: w := by
        simp [itemsWord, hw]
      rw [e1, e2] at e
      obtain ⟨v, hv⟩ := dfaWord_prefix (t' := t) (chars_itemsWord is) e
      exact ⟨_, hv⟩
  obtain ⟨w, hw⟩ := key
  refine ⟨w, ?_, ?_⟩
  · have := dfaWord_chars (itemsText is ++ rest) hextStart
    rw [hw, chars_append, chars_itemsWord] at this
    exact (List.prefix_append_right_inj _).mp this
  · show Parser.parse _ = _
    rw [parse_eq, hw]

end Hext
