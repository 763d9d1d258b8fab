import Verif.Proofs.MemoryRule
/-!
# Every rule can be in memory
-/

namespace Hext.Mem

/-- `v` can be added to any memory. -/
def Fits {α β} (R : Cells → β → α → List Addr → Prop) (v : α) : Prop :=
  ∀ m : Mem, m.Wf → ∃ b S m', R m'.cell b v S ∧ Grown m m' S

theorem fits_ptr {α} {R : Cells → Addr → α → List Addr → Prop} {v : Option α} (h : ∀ x ∈ v, Fits R x) : Fits (PtrR R) v := by
  intro m w
  cases v with
  | none => exact ⟨none, [], m, rfl, .refl w⟩
  | some v =>
    obtain ⟨b, S, m', hR, g⟩ := h v rfl m w
    exact ⟨some b, S, m', hR, g⟩

theorem fits_vec {α β} {Q : Cells → β → α → List Addr → Prop} {vs : List α} (hf : ∀ x ∈ vs, Framed Q x) (ha : ∀ x ∈ vs, Alive Q x)
    (h : ∀ x ∈ vs, Fits Q x) : Fits (VecR Q) vs := by
  induction vs with
  | nil => intro m w; exact ⟨[], [], m, rfl, .refl w⟩
  | cons v vs ih =>
    intro m w
    obtain ⟨b, S₁, m₁, r₁, g₁⟩ := h v (.head _) m w
    obtain ⟨bs, S₂, m₂, r₂, g₂⟩ := ih (fun x hx => hf x (.tail _ hx)) (fun x hx => ha x (.tail _ hx)) (fun x hx => h x (.tail _ hx))
      m₁ g₁.wf
    exact ⟨b :: bs, S₁ ++ S₂, m₂, ⟨S₁, S₂, keep_grown (hf v (.head _)) (ha v (.head _)) g₁.wf g₂ r₁, r₂, rfl⟩, g₁.trans g₂⟩

theorem fits_pipe (v : Pipe) : Fits HoldsPipe v := by
  induction v with
  | last t => intro m w; exact ⟨m.fresh, [m.fresh], m.push (.pipe t none), ⟨push_self _ _, rfl⟩, grown_push w _⟩
  | cons t p ih =>
    intro m w
    obtain ⟨q, S, m₁, r₁, g₁⟩ := ih m w
    exact ⟨m₁.fresh, m₁.fresh :: S, m₁.push (.pipe t (some q)), ⟨q, S, push_self _ _,
      keep_grown (framed_pipe p) (alive_pipe p) g₁.wf (grown_push g₁.wf _) r₁, rfl⟩, grown_top g₁ _⟩

theorem fits_test (v : ValueTest) : Fits HoldsTest v := by
  induction v with
  | negate t ih =>
    intro m w
    obtain ⟨q, S, m₁, r₁, g₁⟩ := ih m w
    exact ⟨m₁.fresh, m₁.fresh :: S, m₁.push (.negateTest (some q)), ⟨q, S, push_self _ _,
      keep_grown (framed_test t) (alive_test t) g₁.wf (grown_push g₁.wf _) r₁, rfl⟩, grown_top g₁ _⟩
  | _ => intro m w; exact ⟨m.fresh, [m.fresh], m.push _, ⟨push_self _ _, rfl⟩, grown_push w _⟩

theorem fits_capture (v : Capture) : Fits HoldsCapture v := by
  cases v with
  | _ =>
    intro m w
    obtain ⟨q, S, m₁, r₁, g₁⟩ := fits_ptr (fun x _ => fits_pipe x) m w
    exact ⟨m₁.fresh, m₁.fresh :: S, m₁.push _, ⟨q, S, push_self _ _,
      keep_grown (framed_ptr fun x _ => framed_pipe x) (alive_ptr fun x _ => alive_pipe x) g₁.wf (grown_push g₁.wf _) r₁, rfl⟩,
      grown_top g₁ _⟩

theorem fits_match (v : Match) : Fits HoldsMatch v := by
  induction v using match_cases with
  | attr n t =>
    intro m w
    obtain ⟨q, S, m₁, r₁, g₁⟩ := fits_ptr (fun x _ => fits_test x) m w
    exact ⟨m₁.fresh, m₁.fresh :: S, m₁.push _, holds_attribute.mpr ⟨q, S, push_self _ _,
      keep_grown (framed_ptr fun x _ => framed_test x) (alive_ptr fun x _ => alive_test x) g₁.wf (grown_push g₁.wf _) r₁, rfl⟩,
      grown_top g₁ _⟩
  | functionValue n t =>
    intro m w
    obtain ⟨q, S, m₁, r₁, g₁⟩ := fits_ptr (fun x _ => fits_test x) m w
    exact ⟨m₁.fresh, m₁.fresh :: S, m₁.push _, holds_functionValue.mpr ⟨q, S, push_self _ _,
      keep_grown (framed_ptr fun x _ => framed_test x) (alive_ptr fun x _ => alive_test x) g₁.wf (grown_push g₁.wf _) r₁, rfl⟩,
      grown_top g₁ _⟩
  | negate ms ih =>
    intro m w
    have hf : ∀ x ∈ ms, Framed (PtrR HoldsMatch) x := fun x _ => framed_ptr fun y _ => framed_match y
    have ha : ∀ x ∈ ms, Alive (PtrR HoldsMatch) x := fun x _ => alive_ptr fun y _ => alive_match y
    obtain ⟨q, S, m₁, r₁, g₁⟩ := fits_vec hf ha (fun x hx => fits_ptr (ih x hx)) m w
    exact ⟨m₁.fresh, m₁.fresh :: S, m₁.push _, holds_negate.mpr ⟨q, S, push_self _ _,
      keep_grown (framed_vec hf) (alive_vec ha) g₁.wf (grown_push g₁.wf _) r₁, rfl⟩, grown_top g₁ _⟩
  | plain v hm =>
    intro m w
    exact ⟨m.fresh, [m.fresh], m.push (.match_ v), (holds_plain hm).mpr ⟨push_self _ _, rfl⟩, grown_push w _⟩

theorem fits_rule (r : Rule) : Fits HoldsRule r := by
  induction r using rule_induct with
  | mk i ch nx ns hc hn hns =>
    intro m w
    have fc : Framed (PtrR HoldsRule) ch := framed_ptr fun x _ => framed_rule x
    have fn : Framed (PtrR HoldsRule) nx := framed_ptr fun x _ => framed_rule x
    have fs : Framed (VecR HoldsRule) ns := framed_vec fun x _ => framed_rule x
    have ac : Alive (PtrR HoldsRule) ch := alive_ptr fun x _ => alive_rule x
    have an : Alive (PtrR HoldsRule) nx := alive_ptr fun x _ => alive_rule x
    have as : Alive (VecR HoldsRule) ns := alive_vec fun x _ => alive_rule x
    obtain ⟨b₁, S₁, m₁, r₁, g₁⟩ := fits_ptr hc m w
    obtain ⟨b₂, S₂, m₂, r₂, g₂⟩ := fits_ptr hn m₁ g₁.wf
    obtain ⟨b₃, S₃, m₃, r₃, g₃⟩ := fits_vec (fun x _ => framed_rule x) (fun x _ => alive_rule x) hns m₂ g₂.wf
    obtain ⟨b₄, S₄, m₄, r₄, g₄⟩ := fits_vec (Q := PtrR HoldsMatch) (vs := i.ms)
      (fun _ _ => framed_ptr fun y _ => framed_match y) (fun _ _ => alive_ptr fun y _ => alive_match y)
      (fun _ _ => fits_ptr fun y _ => fits_match y) m₃ g₃.wf
    obtain ⟨b₅, S₅, m₅, r₅, g₅⟩ := fits_vec (Q := PtrR HoldsCapture) (vs := i.caps)
      (fun _ _ => framed_ptr fun y _ => framed_capture y) (fun _ _ => alive_ptr fun y _ => alive_capture y)
      (fun _ _ => fits_ptr fun y _ => fits_capture y) m₄ g₄.wf
    have gp := fun (o : Obj) => grown_push g₅.wf o
    refine ⟨m₅.fresh, m₅.fresh :: (S₁ ++ (S₂ ++ (S₃ ++ (S₄ ++ S₅)))), m₅.push (.rule ⟨b₁, b₂, b₃, b₄, b₅, i.tag, i.optional, i.greedy,
      i.tagname⟩), holds_rule.mpr ⟨_, S₁, S₂, S₃, S₄, S₅, push_self _ _, ⟨rfl, rfl, rfl, rfl, ?_, ?_, ?_, ?_, ?_⟩, rfl⟩,
      grown_top (g₁.trans (g₂.trans (g₃.trans (g₄.trans g₅)))) _⟩
    · exact keep_grown fc ac g₁.wf ((((g₂.trans g₃).trans g₄).trans g₅).trans (gp _)) r₁
    · exact keep_grown fn an g₂.wf (((g₃.trans g₄).trans g₅).trans (gp _)) r₂
    · exact keep_grown fs as g₃.wf ((g₄.trans g₅).trans (gp _)) r₃
    · exact keep_grown (framed_matches _) (alive_matches _) g₄.wf (g₅.trans (gp _)) r₄
    · exact keep_grown (framed_captures _) (alive_captures _) g₅.wf (gp _) r₅

/-- Memory without objects. -/
def Mem.empty : Mem := ⟨fun _ => none, 0⟩

theorem rule_in_memory (r : Rule) : ∃ (m : Mem) (a : Addr) (S : List Addr), m.Wf ∧ HoldsRule m.cell a r S ∧ S.Nodup := by
  obtain ⟨a, S, m, h, g⟩ := fits_rule r Mem.empty (fun x hx => by simp [Mem.empty] at hx)
  exact ⟨m, a, S, g.wf, h, g.nodup⟩

end Hext.Mem
