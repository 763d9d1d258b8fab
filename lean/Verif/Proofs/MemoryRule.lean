import Verif.Proofs.Memory
/-!
# Copying and destroying matches and rules
-/

namespace Hext.Mem

/-! ## Matches -/

theorem match_induct {P : Match → Prop}
    (attr : ∀ n t, P (.attribute n t)) (attributeCount : ∀ n, P (.attributeCount n))
    (childCount : ∀ n, P (.childCount n)) (function : ∀ f, P (.function f))
    (functionValue : ∀ f t, P (.functionValue f t))
    (negate : ∀ ms, (∀ m ∈ ms, ∀ x ∈ m, P x) → P (.negate ms))
    (nthChild : ∀ a b c d, P (.nthChild a b c d)) (onlyChild : ∀ b, P (.onlyChild b))
    (typeRegex : ∀ r, P (.typeRegex r)) (m : Match) : P m := by
  refine Match.rec (motive_1 := P) (motive_2 := fun ms => ∀ m ∈ ms, ∀ x ∈ m, P x)
    (motive_3 := fun m => ∀ x ∈ m, P x) attr attributeCount childCount function functionValue
    negate nthChild onlyChild typeRegex ?_ ?_ ?_ ?_ m
  · intro m hm; cases hm
  · intro o os ho hos m hm
    cases hm with
    | head => exact ho
    | tail _ hm => exact hos m hm
  · intro x hx; cases hx
  · intro x hx y hy
    cases hy; exact hx

theorem holdsMatchPtr_eq (c : Cells) : HoldsMatchPtr c = HoldsPtr (HoldsMatch c) := by
  funext b v S
  cases b <;> cases v <;> simp [HoldsMatchPtr, HoldsPtr]

theorem holdsMatches_eq (c : Cells) : HoldsMatches c = HoldsVec (HoldsPtr (HoldsMatch c)) := by
  funext bs vs S
  induction bs generalizing vs S with
  | nil => cases vs <;> simp [HoldsMatches, HoldsVec]
  | cons b bs ih => cases vs <;> simp [HoldsMatches, HoldsVec, ih, holdsMatchPtr_eq]

theorem holds_attribute {c a n t S} : HoldsMatch c a (.attribute n t) S ↔
    ∃ q S', c a = some (.attributeMatch n q) ∧ HoldsPtr (HoldsTest c) q t S' ∧ S = a :: S' := by
  simp [HoldsMatch]

theorem holds_functionValue {c a f t S} : HoldsMatch c a (.functionValue f t) S ↔
    ∃ q S', c a = some (.functionValueMatch f q) ∧ HoldsPtr (HoldsTest c) q t S' ∧ S = a :: S' := by
  simp [HoldsMatch]

theorem holds_negate {c a ms S} : HoldsMatch c a (.negate ms) S ↔
    ∃ qs S', c a = some (.negateMatch qs) ∧ HoldsVec (HoldsPtr (HoldsMatch c)) qs ms S' ∧ S = a :: S' := by
  simp [HoldsMatch, holdsMatches_eq]

/-- Matches without pointers. -/
def Plain : Match → Prop
  | .attribute .. | .functionValue .. | .negate .. => False
  | _ => True

theorem holds_plain {c a m S} (h : Plain m) : HoldsMatch c a m S ↔ c a = some (.match_ m) ∧ S = [a] := by
  cases m <;> simp_all [HoldsMatch, Plain]

theorem match_cases {P : Match → Prop}
    (attr : ∀ n t, P (.attribute n t)) (functionValue : ∀ f t, P (.functionValue f t))
    (negate : ∀ ms, (∀ m ∈ ms, ∀ x ∈ m, P x) → P (.negate ms))
    (plain : ∀ m, Plain m → P m) (m : Match) : P m :=
  match_induct attr (fun _ => plain _ trivial) (fun _ => plain _ trivial) (fun _ => plain _ trivial)
    functionValue negate (fun _ _ _ _ => plain _ trivial) (fun _ => plain _ trivial)
    (fun _ => plain _ trivial) m

theorem framed_match (v : Match) : Framed HoldsMatch v := by
  induction v using match_cases with
  | attr n t =>
    intro b S c c' h₀ hc
    obtain ⟨q, S', h, h', rfl⟩ := holds_attribute.mp h₀
    exact holds_attribute.mpr ⟨q, S', by rw [hc b (.head _), h],
      framed_ptr (fun x _ => framed_test x) q S' c c' h' fun x hx => hc x (.tail _ hx), rfl⟩
  | functionValue f t =>
    intro b S c c' h₀ hc
    obtain ⟨q, S', h, h', rfl⟩ := holds_functionValue.mp h₀
    exact holds_functionValue.mpr ⟨q, S', by rw [hc b (.head _), h],
      framed_ptr (fun x _ => framed_test x) q S' c c' h' fun x hx => hc x (.tail _ hx), rfl⟩
  | negate ms ih =>
    intro b S c c' h₀ hc
    obtain ⟨q, S', h, h', rfl⟩ := holds_negate.mp h₀
    exact holds_negate.mpr ⟨q, S', by rw [hc b (.head _), h],
      framed_vec (Q := PtrR HoldsMatch) (fun x hx => framed_ptr (ih x hx)) q S' c c' h'
        fun x hx => hc x (.tail _ hx), rfl⟩
  | plain m hm =>
    intro b S c c' h₀ hc
    obtain ⟨h, rfl⟩ := (holds_plain hm).mp h₀
    exact (holds_plain hm).mpr ⟨by rw [hc b (.head _), h], rfl⟩

theorem alive_match (v : Match) : Alive HoldsMatch v := by
  induction v using match_cases with
  | attr n t =>
    intro b S c h₀ x hx
    obtain ⟨q, S', h, h', rfl⟩ := holds_attribute.mp h₀
    cases hx with
    | head => rw [h]; rfl
    | tail _ hx => exact alive_ptr (fun x _ => alive_test x) q S' c h' x hx
  | functionValue f t =>
    intro b S c h₀ x hx
    obtain ⟨q, S', h, h', rfl⟩ := holds_functionValue.mp h₀
    cases hx with
    | head => rw [h]; rfl
    | tail _ hx => exact alive_ptr (fun x _ => alive_test x) q S' c h' x hx
  | negate ms ih =>
    intro b S c h₀ x hx
    obtain ⟨q, S', h, h', rfl⟩ := holds_negate.mp h₀
    cases hx with
    | head => rw [h]; rfl
    | tail _ hx =>
      exact alive_vec (Q := PtrR HoldsMatch) (fun x hx => alive_ptr (ih x hx)) q S' c h' x hx
  | plain m hm =>
    intro b S c h₀ x hx
    obtain ⟨h, rfl⟩ := (holds_plain hm).mp h₀
    rw [List.mem_singleton.mp hx, h]; rfl

theorem copies_match (v : Match) : Copies HoldsMatch cloneMatch v := by
  induction v using match_cases with
  | attr n t =>
    intro b S m w h₀
    obtain ⟨q, S', h, h', rfl⟩ := holds_attribute.mp h₀
    obtain ⟨q', S₁, m₁, e₁, r₁, g₁⟩ := copies_ptr (fun x _ => copies_test x) q S' m w h'
    refine ⟨m₁.fresh, m₁.fresh :: S₁, m₁.push _, ?_,
      holds_attribute.mpr ⟨q', S₁, push_self _ _, ?_, rfl⟩, grown_top g₁ _⟩
    · rw [cloneMatch, bind_ok (load_ok h)]
      show (mapPtr cloneTest q >>= _) m = _
      rw [bind_ok e₁]
      rfl
    · exact keep_grown (framed_ptr fun x _ => framed_test x) (alive_ptr fun x _ => alive_test x) g₁.wf
        (grown_push g₁.wf _) r₁
  | functionValue n t =>
    intro b S m w h₀
    obtain ⟨q, S', h, h', rfl⟩ := holds_functionValue.mp h₀
    obtain ⟨q', S₁, m₁, e₁, r₁, g₁⟩ := copies_ptr (fun x _ => copies_test x) q S' m w h'
    refine ⟨m₁.fresh, m₁.fresh :: S₁, m₁.push _, ?_,
      holds_functionValue.mpr ⟨q', S₁, push_self _ _, ?_, rfl⟩, grown_top g₁ _⟩
    · rw [cloneMatch, bind_ok (load_ok h)]
      show (mapPtr cloneTest q >>= _) m = _
      rw [bind_ok e₁]
      rfl
    · exact keep_grown (framed_ptr fun x _ => framed_test x) (alive_ptr fun x _ => alive_test x) g₁.wf
        (grown_push g₁.wf _) r₁
  | negate ms ih =>
    intro b S m w h₀
    obtain ⟨q, S', h, h', rfl⟩ := holds_negate.mp h₀
    have hf : ∀ x ∈ ms, Framed (PtrR HoldsMatch) x := fun x _ => framed_ptr fun y _ => framed_match y
    have ha : ∀ x ∈ ms, Alive (PtrR HoldsMatch) x := fun x _ => alive_ptr fun y _ => alive_match y
    obtain ⟨q', S₁, m₁, e₁, r₁, g₁⟩ := copies_vec hf ha (fun x hx => copies_ptr (ih x hx)) q S' m w h'
    refine ⟨m₁.fresh, m₁.fresh :: S₁, m₁.push _, ?_,
      holds_negate.mpr ⟨q', S₁, push_self _ _, ?_, rfl⟩, grown_top g₁ _⟩
    · rw [cloneMatch, bind_ok (load_ok h)]
      show (mapVec (mapPtr cloneMatch) q >>= _) m = _
      rw [bind_ok e₁]
      rfl
    · exact keep_grown (framed_vec hf) (alive_vec ha) g₁.wf (grown_push g₁.wf _) r₁
  | plain v hm =>
    intro b S m w h₀
    obtain ⟨h, rfl⟩ := (holds_plain hm).mp h₀
    refine ⟨m.fresh, [m.fresh], m.push (.match_ v), ?_, (holds_plain hm).mpr ⟨push_self _ _, rfl⟩,
      grown_push w _⟩
    rw [cloneMatch, bind_ok (load_ok h)]
    rfl

theorem destroys_match (v : Match) : Destroys HoldsMatch destroyMatch v := by
  induction v using match_cases with
  | attr n t =>
    intro b S m h₀ hS
    obtain ⟨q, S', h, h', rfl⟩ := holds_attribute.mp h₀
    obtain ⟨hb, hS⟩ := List.nodup_cons.mp hS
    obtain ⟨m₁, e₁, g₁⟩ := destroys_ptr (fun x _ => destroys_test x) q S' m h' hS
    refine ⟨m₁.drop b, ?_, shrunk_top g₁⟩
    rw [destroyMatch, bind_ok (load_ok h)]
    show (onPtr destroyTest q >>= fun _ => free b) m = _
    rw [bind_ok e₁, free_ok (shrunk_alive g₁ h hb)]
  | functionValue n t =>
    intro b S m h₀ hS
    obtain ⟨q, S', h, h', rfl⟩ := holds_functionValue.mp h₀
    obtain ⟨hb, hS⟩ := List.nodup_cons.mp hS
    obtain ⟨m₁, e₁, g₁⟩ := destroys_ptr (fun x _ => destroys_test x) q S' m h' hS
    refine ⟨m₁.drop b, ?_, shrunk_top g₁⟩
    rw [destroyMatch, bind_ok (load_ok h)]
    show (onPtr destroyTest q >>= fun _ => free b) m = _
    rw [bind_ok e₁, free_ok (shrunk_alive g₁ h hb)]
  | negate ms ih =>
    intro b S m h₀ hS
    obtain ⟨q, S', h, h', rfl⟩ := holds_negate.mp h₀
    obtain ⟨hb, hS⟩ := List.nodup_cons.mp hS
    have hf : ∀ x ∈ ms, Framed (PtrR HoldsMatch) x := fun x _ => framed_ptr fun y _ => framed_match y
    obtain ⟨m₁, e₁, g₁⟩ := destroys_vec hf (fun x hx => destroys_ptr (ih x hx)) q S' m h' hS
    refine ⟨m₁.drop b, ?_, shrunk_top g₁⟩
    rw [destroyMatch, bind_ok (load_ok h)]
    show (forVec (onPtr destroyMatch) q >>= fun _ => free b) m = _
    rw [bind_ok e₁, free_ok (shrunk_alive g₁ h hb)]
  | plain v hm =>
    intro b S m h₀ _
    obtain ⟨h, rfl⟩ := (holds_plain hm).mp h₀
    refine ⟨m.drop b, ?_, shrunk_drop m b⟩
    rw [destroyMatch, bind_ok (load_ok h)]
    exact free_ok (by rw [h]; rfl)

/-! ## Rules -/

theorem rule_induct {P : Rule → Prop}
    (mk : ∀ i c n ns, (∀ x ∈ c, P x) → (∀ x ∈ n, P x) → (∀ x ∈ ns, P x) → P (.mk i c n ns))
    (r : Rule) : P r := by
  refine Rule.rec (motive_1 := P) (motive_2 := fun o => ∀ x ∈ o, P x)
    (motive_3 := fun l => ∀ x ∈ l, P x) (fun i c n ns hc hn hns => mk i c n ns hc hn hns) ?_ ?_ ?_ ?_ r
  · intro x hx; cases hx
  · intro x hx y hy
    cases hy; exact hx
  · intro m hm; cases hm
  · intro o os ho hos m hm
    cases hm with
    | head => exact ho
    | tail _ hm => exact hos m hm

theorem holdsRulePtr_eq (c : Cells) : HoldsRulePtr c = HoldsPtr (HoldsRule c) := by
  funext b v S
  cases b <;> cases v <;> simp [HoldsRulePtr, HoldsPtr]

theorem holdsRules_eq (c : Cells) : HoldsRules c = HoldsVec (HoldsRule c) := by
  funext bs vs S
  induction bs generalizing vs S with
  | nil => cases vs <;> simp [HoldsRules, HoldsVec]
  | cons b bs ih => cases vs <;> simp [HoldsRules, HoldsVec, ih]

/-- The parts of a rule object. -/
structure Parts (c : Cells) (o : RuleObj) (i : RuleInfo) (ch nx : Option Rule) (ns : List Rule)
    (S₁ S₂ S₃ S₄ S₅ : List Addr) : Prop where
  tag : o.tag = i.tag
  optional : o.optional = i.optional
  greedy : o.greedy = i.greedy
  tagname : o.tagname = i.tagname
  child : HoldsPtr (HoldsRule c) o.child ch S₁
  next : HoldsPtr (HoldsRule c) o.next nx S₂
  nested : HoldsVec (HoldsRule c) o.nested ns S₃
  ms : HoldsVec (HoldsPtr (HoldsMatch c)) o.ms i.ms S₄
  caps : HoldsVec (HoldsPtr (HoldsCapture c)) o.caps i.caps S₅

theorem holds_rule {c a i ch nx ns S} : HoldsRule c a (.mk i ch nx ns) S ↔
    ∃ o S₁ S₂ S₃ S₄ S₅, c a = some (.rule o) ∧ Parts c o i ch nx ns S₁ S₂ S₃ S₄ S₅ ∧
      S = a :: (S₁ ++ (S₂ ++ (S₃ ++ (S₄ ++ S₅)))) := by
  simp only [HoldsRule, holdsRulePtr_eq, holdsRules_eq]
  constructor
  · rintro ⟨o, S₁, S₂, S₃, S₄, S₅, h, ⟨h₁, h₂, h₃, h₄⟩, h₅, h₆, h₇, h₈, h₉, e⟩
    exact ⟨o, S₁, S₂, S₃, S₄, S₅, h, ⟨h₁, h₂, h₃, h₄, h₅, h₆, h₇, h₈, h₉⟩, e⟩
  · rintro ⟨o, S₁, S₂, S₃, S₄, S₅, h, ⟨h₁, h₂, h₃, h₄, h₅, h₆, h₇, h₈, h₉⟩, e⟩
    exact ⟨o, S₁, S₂, S₃, S₄, S₅, h, ⟨h₁, h₂, h₃, h₄⟩, h₅, h₆, h₇, h₈, h₉, e⟩

theorem framed_matches (v : List (Option Match)) : Framed (VecR (PtrR HoldsMatch)) v :=
  framed_vec fun _ _ => framed_ptr fun y _ => framed_match y
theorem alive_matches (v : List (Option Match)) : Alive (VecR (PtrR HoldsMatch)) v :=
  alive_vec fun _ _ => alive_ptr fun y _ => alive_match y
theorem framed_captures (v : List (Option Capture)) : Framed (VecR (PtrR HoldsCapture)) v :=
  framed_vec fun _ _ => framed_ptr fun y _ => framed_capture y
theorem alive_captures (v : List (Option Capture)) : Alive (VecR (PtrR HoldsCapture)) v :=
  alive_vec fun _ _ => alive_ptr fun y _ => alive_capture y

theorem framed_rule (r : Rule) : Framed HoldsRule r := by
  induction r using rule_induct with
  | mk i ch nx ns hc hn hns =>
    intro b S c c' h hS
    obtain ⟨o, S₁, S₂, S₃, S₄, S₅, hb, p, rfl⟩ := holds_rule.mp h
    refine holds_rule.mpr ⟨o, S₁, S₂, S₃, S₄, S₅, by rw [hS b (.head _), hb],
      ⟨p.tag, p.optional, p.greedy, p.tagname,
        framed_ptr hc _ _ _ _ p.child fun x hx => hS x ?_,
        framed_ptr hn _ _ _ _ p.next fun x hx => hS x ?_,
        framed_vec hns _ _ _ _ p.nested fun x hx => hS x ?_,
        framed_matches _ _ _ _ _ p.ms fun x hx => hS x ?_,
        framed_captures _ _ _ _ _ p.caps fun x hx => hS x ?_⟩, rfl⟩
    all_goals simp [hx]

theorem alive_rule (r : Rule) : Alive HoldsRule r := by
  induction r using rule_induct with
  | mk i ch nx ns hc hn hns =>
    intro b S c h x hx
    obtain ⟨o, S₁, S₂, S₃, S₄, S₅, hb, p, rfl⟩ := holds_rule.mp h
    simp only [List.mem_cons, List.mem_append] at hx
    rcases hx with rfl | hx | hx | hx | hx | hx
    · rw [hb]; rfl
    · exact alive_ptr hc _ _ _ p.child x hx
    · exact alive_ptr hn _ _ _ p.next x hx
    · exact alive_vec hns _ _ _ p.nested x hx
    · exact alive_matches _ _ _ _ p.ms x hx
    · exact alive_captures _ _ _ _ p.caps x hx

theorem copies_rule (r : Rule) : Copies HoldsRule copyRule r := by
  induction r using rule_induct with
  | mk i ch nx ns hc hn hns =>
    intro b S m w h
    obtain ⟨o, S₁, S₂, S₃, S₄, S₅, hb, p, rfl⟩ := holds_rule.mp h
    have fc : Framed (PtrR HoldsRule) ch := framed_ptr fun x _ => framed_rule x
    have fn : Framed (PtrR HoldsRule) nx := framed_ptr fun x _ => framed_rule x
    have fs : Framed (VecR HoldsRule) ns := framed_vec fun x _ => framed_rule x
    have ac : Alive (PtrR HoldsRule) ch := alive_ptr fun x _ => alive_rule x
    have an : Alive (PtrR HoldsRule) nx := alive_ptr fun x _ => alive_rule x
    have as : Alive (VecR HoldsRule) ns := alive_vec fun x _ => alive_rule x
    obtain ⟨b₃, T₃, m₁, e₁, r₁, g₁⟩ := copies_vec (fun x _ => framed_rule x) (fun x _ => alive_rule x)
      hns o.nested S₃ m w p.nested
    obtain ⟨b₁, T₁, m₂, e₂, r₂, g₂⟩ := copies_ptr hc o.child S₁ m₁ g₁.wf (keep_grown fc ac w g₁ p.child)
    have g₁₂ := g₁.trans g₂
    obtain ⟨b₂, T₂, m₃, e₃, r₃, g₃⟩ := copies_ptr hn o.next S₂ m₂ g₂.wf (keep_grown fn an w g₁₂ p.next)
    have g₁₃ := g₁₂.trans g₃
    obtain ⟨b₄, T₄, m₄, e₄, r₄, g₄⟩ := copies_vec (Q := PtrR HoldsMatch)
      (fun _ _ => framed_ptr fun y _ => framed_match y) (fun _ _ => alive_ptr fun y _ => alive_match y)
      (fun _ _ => copies_ptr fun y _ => copies_match y) o.ms S₄ m₃ g₃.wf
      (keep_grown (framed_matches _) (alive_matches _) w g₁₃ p.ms)
    have g₁₄ := g₁₃.trans g₄
    obtain ⟨b₅, T₅, m₅, e₅, r₅, g₅⟩ := copies_vec (Q := PtrR HoldsCapture)
      (fun _ _ => framed_ptr fun y _ => framed_capture y) (fun _ _ => alive_ptr fun y _ => alive_capture y)
      (fun _ _ => copies_ptr fun y _ => copies_capture y) o.caps S₅ m₄ g₄.wf
      (keep_grown (framed_captures _) (alive_captures _) w g₁₄ p.caps)
    have g₁₅ := g₁₄.trans g₅
    have gp := fun (o : Obj) => grown_push g₅.wf o
    refine ⟨m₅.fresh, m₅.fresh :: (T₁ ++ (T₂ ++ (T₃ ++ (T₄ ++ T₅)))), m₅.push (.rule ⟨b₁, b₂, b₃, b₄, b₅, o.tag, o.optional, o.greedy, o.tagname⟩), ?_,
      holds_rule.mpr ⟨_, T₁, T₂, T₃, T₄, T₅, push_self _ _, ⟨?_, ?_, ?_, ?_, ?_, ?_, ?_, ?_, ?_⟩, rfl⟩,
      (grown_top g₁₅ _).perm ?_⟩
    · rw [copyRule, bind_ok (loadRule_ok hb), bind_ok e₁, bind_ok e₂, bind_ok e₃, bind_ok e₄, bind_ok e₅,
        alloc_ok]
    · exact p.tag
    · exact p.optional
    · exact p.greedy
    · exact p.tagname
    · exact keep_grown fc ac g₂.wf (((g₃.trans g₄).trans g₅).trans (gp _)) r₂
    · exact keep_grown fn an g₃.wf ((g₄.trans g₅).trans (gp _)) r₃
    · exact keep_grown fs as g₁.wf ((((g₂.trans g₃).trans g₄).trans g₅).trans (gp _)) r₁
    · exact keep_grown (framed_matches _) (alive_matches _) g₄.wf (g₅.trans (gp _)) r₄
    · exact keep_grown (framed_captures _) (alive_captures _) g₅.wf (gp _) r₅
    · refine List.Perm.cons _ ?_
      simp only [List.append_assoc]
      refine (List.perm_append_comm_assoc T₃ T₁ _).trans (List.Perm.append_left T₁ ?_)
      exact List.perm_append_comm_assoc T₃ T₂ _

theorem nodup_parts {a : Addr} {S₁ S₂ S₃ S₄ S₅ : List Addr}
    (h : (a :: (S₁ ++ (S₂ ++ (S₃ ++ (S₄ ++ S₅))))).Nodup) :
    (a ∉ S₁ ∧ a ∉ S₂ ∧ a ∉ S₃ ∧ a ∉ S₄ ∧ a ∉ S₅) ∧
    (S₁.Nodup ∧ S₂.Nodup ∧ S₃.Nodup ∧ S₄.Nodup ∧ S₅.Nodup) ∧
    (∀ x ∈ S₁, x ∉ S₂ ∧ x ∉ S₃ ∧ x ∉ S₄ ∧ x ∉ S₅) ∧
    (∀ x ∈ S₂, x ∉ S₃ ∧ x ∉ S₄ ∧ x ∉ S₅) ∧ (∀ x ∈ S₃, x ∉ S₄ ∧ x ∉ S₅) ∧ (∀ x ∈ S₄, x ∉ S₅) := by
  simp only [List.nodup_cons, List.nodup_append, List.mem_append, not_or] at h
  obtain ⟨h₀, h₁, ⟨h₂, ⟨h₃, ⟨h₄, h₅, d₄⟩, d₃⟩, d₂⟩, d₁⟩ := h
  refine ⟨⟨h₀.1, h₀.2.1, h₀.2.2.1, h₀.2.2.2.1, h₀.2.2.2.2⟩, ⟨h₁, h₂, h₃, h₄, h₅⟩, ?_, ?_, ?_, ?_⟩
  · exact fun x hx => ⟨fun k => d₁ x hx x (.inl k) rfl, fun k => d₁ x hx x (.inr (.inl k)) rfl,
      fun k => d₁ x hx x (.inr (.inr (.inl k))) rfl, fun k => d₁ x hx x (.inr (.inr (.inr k))) rfl⟩
  · exact fun x hx => ⟨fun k => d₂ x hx x (.inl k) rfl, fun k => d₂ x hx x (.inr (.inl k)) rfl,
      fun k => d₂ x hx x (.inr (.inr k)) rfl⟩
  · exact fun x hx => ⟨fun k => d₃ x hx x (.inl k) rfl, fun k => d₃ x hx x (.inr k) rfl⟩
  · exact fun x hx k => d₄ x hx x k rfl

theorem destroys_rule (r : Rule) : Destroys HoldsRule destroyRule r := by
  induction r using rule_induct with
  | mk i ch nx ns hc hn hns =>
    intro b S m h hS
    obtain ⟨o, S₁, S₂, S₃, S₄, S₅, hb, p, rfl⟩ := holds_rule.mp h
    obtain ⟨nb, nd, d₁, d₂, d₃, d₄⟩ := nodup_parts hS
    have fc : Framed (PtrR HoldsRule) ch := framed_ptr fun x _ => framed_rule x
    have fn : Framed (PtrR HoldsRule) nx := framed_ptr fun x _ => framed_rule x
    have fs : Framed (VecR HoldsRule) ns := framed_vec fun x _ => framed_rule x
    obtain ⟨m₁, e₁, g₁⟩ := destroys_vec (Q := PtrR HoldsCapture)
      (fun _ _ => framed_ptr fun y _ => framed_capture y)
      (fun _ _ => destroys_ptr fun y _ => destroys_capture y) o.caps S₅ m p.caps nd.2.2.2.2
    obtain ⟨m₂, e₂, g₂⟩ := destroys_vec (Q := PtrR HoldsMatch)
      (fun _ _ => framed_ptr fun y _ => framed_match y)
      (fun _ _ => destroys_ptr fun y _ => destroys_match y) o.ms S₄ m₁
      (keep_shrunk (framed_matches _) g₁ p.ms d₄) nd.2.2.2.1
    have g₁₂ := g₁.trans g₂
    obtain ⟨m₃, e₃, g₃⟩ := destroys_vec (fun x _ => framed_rule x) hns o.nested S₃ m₂
      (keep_shrunk fs g₁₂ p.nested fun x hx k => by
        have := d₃ x hx; simp only [List.mem_append] at k; rcases k with k | k <;> simp_all) nd.2.2.1
    have g₁₃ := g₁₂.trans g₃
    obtain ⟨m₄, e₄, g₄⟩ := destroys_ptr hn o.next S₂ m₃
      (keep_shrunk fn g₁₃ p.next fun x hx k => by
        have := d₂ x hx; simp only [List.mem_append] at k; rcases k with (k | k) | k <;> simp_all) nd.2.1
    have g₁₄ := g₁₃.trans g₄
    obtain ⟨m₅, e₅, g₅⟩ := destroys_ptr hc o.child S₁ m₄
      (keep_shrunk fc g₁₄ p.child fun x hx k => by
        have := d₁ x hx; simp only [List.mem_append] at k
        rcases k with ((k | k) | k) | k <;> simp_all) nd.1
    have g₁₅ := g₁₄.trans g₅
    refine ⟨m₅.drop b, ?_, (shrunk_top g₁₅).iff fun x => ?_⟩
    · rw [destroyRule, bind_ok (loadRule_ok hb), bind_ok e₁, bind_ok e₂, bind_ok e₃, bind_ok e₄, bind_ok e₅,
        free_ok (shrunk_alive g₁₅ hb ?_)]
      simp only [List.mem_append]
      rintro ((((k | k) | k) | k) | k) <;> simp_all
    · simp only [List.mem_cons, List.mem_append]
      constructor
      · rintro (k | (((k | k) | k) | k) | k) <;> simp [k]
      · rintro (k | k | k | k | k | k) <;> simp [k]

end Hext.Mem
