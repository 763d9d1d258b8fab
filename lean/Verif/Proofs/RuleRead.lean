import Verif.Model.RuleRead
import Verif.Proofs.MemoryRule
/-!
# Reading a rule: lemmas
-/

namespace Hext.Mem

/-- `f` reads the value that memory holds. -/
def Reads {α β} (R : Cells → β → α → List Addr → Prop) (f : β → P α) (v : α) : Prop :=
  ∀ b S m, R m.cell b v S → f b m = pure (v, m)

theorem reads_ptr {α} {R : Cells → Addr → α → List Addr → Prop} {f : Addr → P α} {v : Option α}
    (h : ∀ x ∈ v, Reads R f x) : Reads (PtrR R) (readPtr f) v := by
  intro b S m hR
  match b, v, hR with
  | none, none, hR => rfl
  | some a, some v, hR =>
    show (f a >>= fun x => pure (some x)) m = _
    rw [bind_ok (h v rfl a S m hR)]; rfl

theorem reads_vec {α β} {Q : Cells → β → α → List Addr → Prop} {f : β → P α} {vs : List α}
    (h : ∀ x ∈ vs, Reads Q f x) : Reads (VecR Q) (mapVec f) vs := by
  induction vs with
  | nil =>
    intro b S m hR
    cases b with
    | nil => rfl
    | cons => exact hR.elim
  | cons v vs ih =>
    intro b S m hR
    cases b with
    | nil => exact hR.elim
    | cons b bs =>
      obtain ⟨S₁, S₂, h₁, h₂, rfl⟩ := hR
      show (f b >>= fun b => mapVec f bs >>= fun bs => pure (b :: bs)) m = _
      rw [bind_ok (h v (.head _) b S₁ m h₁), bind_ok (ih (fun x hx => h x (.tail _ hx)) bs S₂ m h₂)]
      rfl

theorem reads_pipe (v : Pipe) : Reads HoldsPipe readPipe v := by
  induction v with
  | last t =>
    intro b S m h
    rw [readPipe, bind_ok (load_ok h.1)]
    rfl
  | cons t p ih =>
    intro b S m h
    obtain ⟨q, S', h, h', rfl⟩ := h
    have e : readPtr readPipe (some q) m = pure (some p, m) := by
      show (readPipe q >>= fun x => pure (some x)) m = _
      rw [bind_ok (ih q S' m h')]; rfl
    rw [readPipe, bind_ok (load_ok h)]
    show (readPtr readPipe (some q) >>= fun x => match x with
      | none => pure (Pipe.last t)
      | some p => pure (Pipe.cons t p)) m = _
    rw [bind_ok e]; rfl

theorem reads_test (v : ValueTest) : Reads HoldsTest readTest v := by
  induction v with
  | negate t ih =>
    intro b S m h
    obtain ⟨q, S', h, h', rfl⟩ := h
    have e : readPtr readTest (some q) m = pure (some t, m) := by
      show (readTest q >>= fun x => pure (some x)) m = _
      rw [bind_ok (ih q S' m h')]; rfl
    rw [readTest, bind_ok (load_ok h)]
    show (readPtr readTest (some q) >>= fun x => match x with
      | none => pure ValueTest.negateNull
      | some t => pure (ValueTest.negate t)) m = _
    rw [bind_ok e]; rfl
  | _ =>
    intro b S m h
    rw [readTest, bind_ok (load_ok h.1)]
    rfl

theorem reads_capture (v : Capture) : Reads HoldsCapture readCapture v := by
  cases v with
  | «attribute» attr name p =>
    intro b S m h
    obtain ⟨q, S', h, h', rfl⟩ := h
    rw [readCapture, bind_ok (load_ok h)]
    show (readPtr readPipe q >>= fun p => pure (Capture.attribute attr name p)) m = _
    rw [bind_ok (reads_ptr (fun x _ => reads_pipe x) q S' m h')]
    rfl
  | function f name p =>
    intro b S m h
    obtain ⟨q, S', h, h', rfl⟩ := h
    rw [readCapture, bind_ok (load_ok h)]
    show (readPtr readPipe q >>= fun p => pure (Capture.function f name p)) m = _
    rw [bind_ok (reads_ptr (fun x _ => reads_pipe x) q S' m h')]
    rfl

theorem reads_match (v : Match) : Reads HoldsMatch readMatch v := by
  induction v using match_cases with
  | attr n t =>
    intro b S m h₀
    obtain ⟨q, S', h, h', rfl⟩ := holds_attribute.mp h₀
    rw [readMatch, bind_ok (load_ok h)]
    show (readPtr readTest q >>= fun t => pure (Match.attribute n t)) m = _
    rw [bind_ok (reads_ptr (fun x _ => reads_test x) q S' m h')]
    rfl
  | functionValue n t =>
    intro b S m h₀
    obtain ⟨q, S', h, h', rfl⟩ := holds_functionValue.mp h₀
    rw [readMatch, bind_ok (load_ok h)]
    show (readPtr readTest q >>= fun t => pure (Match.functionValue n t)) m = _
    rw [bind_ok (reads_ptr (fun x _ => reads_test x) q S' m h')]
    rfl
  | negate ms ih =>
    intro b S m h₀
    obtain ⟨q, S', h, h', rfl⟩ := holds_negate.mp h₀
    rw [readMatch, bind_ok (load_ok h)]
    show (mapVec (readPtr readMatch) q >>= fun ms => pure (Match.negate ms)) m = _
    rw [bind_ok (reads_vec (Q := PtrR HoldsMatch) (fun x hx => reads_ptr (ih x hx)) q S' m h')]
    rfl
  | plain v hm =>
    intro b S m h₀
    obtain ⟨h, rfl⟩ := (holds_plain hm).mp h₀
    rw [readMatch, bind_ok (load_ok h)]
    rfl

theorem reads_rule (r : Rule) : Reads HoldsRule readRule r := by
  induction r using rule_induct with
  | mk i ch nx ns hc hn hns =>
    intro b S m h
    obtain ⟨o, S₁, S₂, S₃, S₄, S₅, hb, p, rfl⟩ := holds_rule.mp h
    rw [readRule, bind_ok (loadRule_ok hb), bind_ok (reads_ptr hc o.child S₁ m p.child),
      bind_ok (reads_ptr hn o.next S₂ m p.next), bind_ok (reads_vec hns o.nested S₃ m p.nested),
      bind_ok (reads_vec (Q := PtrR HoldsMatch) (fun _ _ => reads_ptr fun y _ => reads_match y) o.ms S₄ m p.ms),
      bind_ok (reads_vec (Q := PtrR HoldsCapture) (fun _ _ => reads_ptr fun y _ => reads_capture y) o.caps S₅ m
        p.caps)]
    have h₁ := p.tag; have h₂ := p.optional; have h₃ := p.greedy; have h₄ := p.tagname
    cases i
    simp only at h₁ h₂ h₃ h₄
    subst h₁ h₂ h₃ h₄
    rfl

end Hext.Mem
