import Verif.Proofs.Owned
import Verif.Model.ParserMemory
/-!
# What the operations do to separate parts of memory: lemmas
-/

namespace Hext.Mem

abbrev ruleA (a : Nat) (r : Rule) : Asrt := atA HoldsRule framed_rule alive_rule a r
abbrev pipeA (a : Option Nat) (v : Option Pipe) : Asrt := ptrA HoldsPipe framed_pipe alive_pipe a v
abbrev testA (a : Option Nat) (v : Option ValueTest) : Asrt := ptrA HoldsTest framed_test alive_test a v
abbrev matchA (a : Option Nat) (v : Option Match) : Asrt := ptrA HoldsMatch framed_match alive_match a v
abbrev captureA (a : Option Nat) (v : Option Capture) : Asrt := ptrA HoldsCapture framed_capture alive_capture a v
abbrev rulesA (as : List Nat) (rs : List Rule) : Asrt := vecA HoldsRule framed_rule alive_rule as rs
abbrev stacksA (as : List (List Nat)) (rs : List (List Rule)) : Asrt :=
  vecA (VecR HoldsRule) (fun _ => framed_vec fun x _ => framed_rule x) (fun _ => alive_vec fun x _ => alive_rule x) as rs

theorem stacksA_cons (b : List Nat) (bs v vs) : stacksA (b :: bs) (v :: vs) = rulesA b v ∗ stacksA bs vs := vecA_cons ..
theorem rulesA_cons (b bs v vs) : rulesA (b :: bs) (v :: vs) = ruleA b v ∗ rulesA bs vs := vecA_cons ..
theorem rulesA_nil : rulesA [] [] = emp := vecA_nil
theorem stacksA_nil : stacksA [] [] = emp := vecA_nil

section
variable {m₀ m : Mem} {F : Asrt}

theorem own_destroyRule {a r} (h : Own m₀ (ruleA a r ∗ F) m) : ∃ m', destroyRule a m = pure ((), m') ∧ Own m₀ F m' :=
  h.destroy (destroys_rule r)

theorem own_destroyTest {a v} (h : Own m₀ (testA a v ∗ F) m) : ∃ m', onPtr destroyTest a m = pure ((), m') ∧ Own m₀ F m' :=
  Own.destroy (R := PtrR HoldsTest) h (destroys_ptr fun x _ => destroys_test x)

theorem own_destroyPipe {a v} (h : Own m₀ (pipeA a v ∗ F) m) : ∃ m', onPtr destroyPipe a m = pure ((), m') ∧ Own m₀ F m' :=
  Own.destroy (R := PtrR HoldsPipe) h (destroys_ptr fun x _ => destroys_pipe x)

theorem own_destroyMatch {a v} (h : Own m₀ (matchA a v ∗ F) m) : ∃ m', onPtr destroyMatch a m = pure ((), m') ∧ Own m₀ F m' :=
  Own.destroy (R := PtrR HoldsMatch) h (destroys_ptr fun x _ => destroys_match x)

theorem own_destroyCapture {a v} (h : Own m₀ (captureA a v ∗ F) m) : ∃ m', onPtr destroyCapture a m = pure ((), m') ∧ Own m₀ F m' :=
  Own.destroy (R := PtrR HoldsCapture) h (destroys_ptr fun x _ => destroys_capture x)

theorem own_destroyStacks {as rs} (h : Own m₀ (stacksA as rs ∗ F) m) :
    ∃ m', forVec (forVec destroyRule) as m = pure ((), m') ∧ Own m₀ F m' :=
  Own.destroy (R := VecR (VecR HoldsRule)) h
    (destroys_vec (fun _ _ => framed_vec fun x _ => framed_rule x)
      fun _ _ => destroys_vec (fun x _ => framed_rule x) fun x _ => destroys_rule x)

theorem own_moveRule {a r} (h : Own m₀ (ruleA a r ∗ F) m) :
    ∃ b m', moveRule a m = pure (b, m') ∧ Own m₀ (ruleA b r ∗ (ruleA a (Hist.movedFrom r) ∗ F)) m' := by
  obtain ⟨b, m', e, o⟩ := h.step (x := moveRule a) (K := fun b => ruleA b r ∗ ruleA a (Hist.movedFrom r)) (by
    rintro S w n ⟨T, hT, p⟩
    obtain ⟨o, rest, _, rfl⟩ := holds_head hT
    obtain ⟨m', e, h₁, h₂, c, _⟩ := move_ok w hT (p.nodup_iff.mpr n)
    exact ⟨_, m', _, e, ⟨_, _, ⟨_, h₁, .refl _⟩, ⟨_, h₂, .refl _⟩, .refl _⟩,
      (c.old fun x => p.mem_iff).perm (by perm)⟩)
  exact ⟨b, m', e, o.mono (sep_assoc ..)⟩

theorem own_append {f : Nat → Nat → P Unit} {g : Rule → Rule → Rule}
    (hf : ∀ {r r₂ : Rule} {m : Mem}, m.Wf → ∀ {a s : Nat} {S S₂ : List Nat}, HoldsRule m.cell a r S → HoldsRule m.cell s r₂ S₂ →
      (S ++ S₂).Nodup → ∃ m' S', f a s m = pure ((), m') ∧ HoldsRule m'.cell a (g r r₂) S' ∧ Changed m m' (S ++ S₂) S')
    {a s r r₂} (h : Own m₀ (ruleA a r ∗ (ruleA s r₂ ∗ F)) m) :
    ∃ m', f a s m = pure ((), m') ∧ Own m₀ (ruleA a (g r r₂) ∗ F) m' := by
  obtain ⟨⟨⟩, m', e, o⟩ := (h.mono (sep_assoc ..).symm).step (x := f a s) (K := fun _ => ruleA a (g r r₂)) (by
    rintro S w n ⟨T₁, T₂, ⟨U₁, h₁, p₁⟩, ⟨U₂, h₂, p₂⟩, p⟩
    have q : (U₁ ++ U₂).Perm S := (p₁.append p₂).trans p
    obtain ⟨m', S', e, r, c⟩ := hf w h₁ h₂ (q.nodup_iff.mpr n)
    exact ⟨(), m', S', e, ⟨_, r, .refl _⟩, c.old fun x => q.mem_iff⟩)
  exact ⟨m', e, o⟩

theorem own_appendChild {a s r r₂} (h : Own m₀ (ruleA a r ∗ (ruleA s r₂ ∗ F)) m) :
    ∃ m', appendChild a s m = pure ((), m') ∧ Own m₀ (ruleA a (r.appendChild r₂) ∗ F) m' :=
  own_append (g := Rule.appendChild) (fun w _ _ _ _ h k n => appendChild_ok w h k n) h

theorem own_appendNext {a s r r₂} (h : Own m₀ (ruleA a r ∗ (ruleA s r₂ ∗ F)) m) :
    ∃ m', appendNext a s m = pure ((), m') ∧ Own m₀ (ruleA a (r.appendNext r₂) ∗ F) m' :=
  own_append (g := Rule.appendNext) (fun w _ _ _ _ h k n => appendNext_ok w h k n) h

theorem own_appendNested (b : Bool) {a s r r₂} (h : Own m₀ (ruleA a r ∗ (ruleA s r₂ ∗ F)) m) :
    ∃ m', appendNested b a s m = pure ((), m') ∧ Own m₀ (ruleA a (r.appendNested r₂) ∗ F) m' :=
  own_append (g := Rule.appendNested) (fun w _ _ _ _ h k n => appendNested_ok b w h k n) h

theorem own_appendMatch {a q r v} (h : Own m₀ (ruleA a r ∗ (matchA q v ∗ F)) m) :
    ∃ m', appendMatch a q m = pure ((), m') ∧ Own m₀ (ruleA a (r.appendMatch v) ∗ F) m' := by
  obtain ⟨⟨⟩, m', e, o⟩ := (h.mono (sep_assoc ..).symm).step (x := appendMatch a q) (K := fun _ => ruleA a (r.appendMatch v)) (by
    rintro S w n ⟨T₁, T₂, ⟨U₁, h₁, p₁⟩, ⟨U₂, h₂, p₂⟩, p⟩
    have q : (U₁ ++ U₂).Perm S := (p₁.append p₂).trans p
    obtain ⟨m', S', e, r, c⟩ := appendMatch_ok w h₁ h₂ (q.nodup_iff.mpr n)
    exact ⟨(), m', S', e, ⟨_, r, .refl _⟩, c.old fun x => q.mem_iff⟩)
  exact ⟨m', e, o⟩

theorem own_appendCapture {a q r v} (h : Own m₀ (ruleA a r ∗ (captureA q v ∗ F)) m) :
    ∃ m', appendCapture a q m = pure ((), m') ∧ Own m₀ (ruleA a (r.appendCapture v) ∗ F) m' := by
  obtain ⟨⟨⟩, m', e, o⟩ := (h.mono (sep_assoc ..).symm).step (x := appendCapture a q) (K := fun _ => ruleA a (r.appendCapture v)) (by
    rintro S w n ⟨T₁, T₂, ⟨U₁, h₁, p₁⟩, ⟨U₂, h₂, p₂⟩, p⟩
    have q : (U₁ ++ U₂).Perm S := (p₁.append p₂).trans p
    obtain ⟨m', S', e, r, c⟩ := appendCapture_ok w h₁ h₂ (q.nodup_iff.mpr n)
    exact ⟨(), m', S', e, ⟨_, r, .refl _⟩, c.old fun x => q.mem_iff⟩)
  exact ⟨m', e, o⟩

theorem own_appendPipe {a q v v'} (h : Own m₀ (pipeA (some a) (some v) ∗ (pipeA q v' ∗ F)) m) :
    ∃ m', appendPipe a q m = pure ((), m') ∧ Own m₀ (pipeA (some a) (some (v.appendPtr v')) ∗ F) m' := by
  obtain ⟨⟨⟩, m', e, o⟩ := (h.mono (sep_assoc ..).symm).step (x := appendPipe a q) (K := fun _ => pipeA (some a) (some (v.appendPtr v'))) (by
    rintro S w n ⟨T₁, T₂, ⟨U₁, h₁, p₁⟩, ⟨U₂, h₂, p₂⟩, p⟩
    have q : (U₁ ++ U₂).Perm S := (p₁.append p₂).trans p
    obtain ⟨m', e, r, c⟩ := appendPipe_ok v w h₁ h₂ (q.nodup_iff.mpr n)
    exact ⟨(), m', _, e, ⟨_, r, .refl _⟩, c.old fun x => q.mem_iff⟩)
  exact ⟨m', e, o⟩

theorem own_update {a : Nat} {i : RuleInfo} {ch nx ns} (h : Own m₀ (ruleA a (.mk i ch nx ns) ∗ F) m) (f : RuleObj → RuleObj)
    (g : RuleInfo → RuleInfo)
    (hf : ∀ o, (f o).child = o.child ∧ (f o).next = o.next ∧ (f o).nested = o.nested ∧ (f o).ms = o.ms ∧
      (f o).caps = o.caps)
    (hg : ∀ i, (g i).ms = i.ms ∧ (g i).caps = i.caps)
    (hfg : ∀ o i, o.tag = i.tag ∧ o.optional = i.optional ∧ o.greedy = i.greedy ∧ o.tagname = i.tagname →
      (f o).tag = (g i).tag ∧ (f o).optional = (g i).optional ∧ (f o).greedy = (g i).greedy ∧
      (f o).tagname = (g i).tagname) :
    ∃ m', (loadRule a >>= fun o => store a (.rule (f o))) m = pure ((), m') ∧ Own m₀ (ruleA a (.mk (g i) ch nx ns) ∗ F) m' := by
  obtain ⟨⟨⟩, m', e, o⟩ := h.step (x := (loadRule a >>= fun o => store a (.rule (f o)))) (K := fun _ => ruleA a (.mk (g i) ch nx ns)) (by
    rintro S w n ⟨U, h, p⟩
    obtain ⟨m', e, r, c⟩ := update_ok w h (p.nodup_iff.mpr n) f g hf hg hfg
    exact ⟨(), m', _, e, ⟨_, r, .refl _⟩, c.old fun x => p.mem_iff⟩)
  exact ⟨m', e, o⟩

theorem own_setTag {a r} (h : Own m₀ (ruleA a r ∗ F) m) (t : RTag) :
    ∃ m', setTag a t m = pure ((), m') ∧ Own m₀ (ruleA a (r.setTag t) ∗ F) m' := by
  cases r
  exact own_update h (fun o => { o with tag := t }) (fun i => { i with tag := t }) (by simp) (by simp) (by simp +contextual)

theorem own_setOptional {a r} (h : Own m₀ (ruleA a r ∗ F) m) (t : Bool) :
    ∃ m', setOptional a t m = pure ((), m') ∧ Own m₀ (ruleA a (r.setOptional t) ∗ F) m' := by
  cases r
  exact own_update h (fun o => { o with optional := t }) (fun i => { i with optional := t }) (by simp) (by simp) (by simp +contextual)

theorem own_setGreedy {a r} (h : Own m₀ (ruleA a r ∗ F) m) (t : Bool) :
    ∃ m', setGreedy a t m = pure ((), m') ∧ Own m₀ (ruleA a (r.setGreedy t) ∗ F) m' := by
  cases r
  exact own_update h (fun o => { o with greedy := t }) (fun i => { i with greedy := t }) (by simp) (by simp) (by simp +contextual)

theorem own_setTagname {a r} (h : Own m₀ (ruleA a r ∗ F) m) (t : Str) :
    ∃ m', setTagname a t m = pure ((), m') ∧ Own m₀ (ruleA a (r.setTagname t) ∗ F) m' := by
  cases r
  exact own_update h (fun o => { o with tagname := some t }) (fun i => { i with tagname := some t }) (by simp) (by simp)
    (by simp +contextual)

/-- Reading a rule's own members. -/
theorem own_loadRule {a r} (h : Own m₀ (ruleA a r ∗ F) m) :
    ∃ o, loadRule a m = pure (o, m) ∧ o.tag = r.info.tag ∧ o.tagname = r.info.tagname := by
  obtain ⟨S, T, hT, _⟩ := h.exists_left
  cases r
  obtain ⟨o, S₁, S₂, S₃, S₄, S₅, e, p, _⟩ := holds_rule.mp hT
  exact ⟨o, loadRule_ok e, p.tag, p.tagname⟩

theorem own_newRule (h : Own m₀ F m) : ∃ a m', newRule .any false false m = pure (a, m') ∧
    Own m₀ (ruleA a (Rule.ofTag .any false false) ∗ F) m' := by
  refine (h.mono (emp_sep F).symm).alloc _ ?_
  intro c a S hS ha
  have hS : S = [] := hS
  subst hS
  exact ⟨[a], holds_rule.mpr ⟨_, [], [], [], [], [], ha, ⟨rfl, rfl, rfl, rfl, rfl, rfl, rfl, rfl, rfl⟩, rfl⟩, .refl _⟩

theorem own_makeRoom (b : Bool) {as rs} (h : Own m₀ (rulesA as rs ∗ F) m) :
    ∃ as' m', makeRoom b as m = pure (as', m') ∧ Own m₀ (rulesA as' rs ∗ F) m' := by
  cases b with
  | false => exact ⟨as, m, rfl, h⟩
  | true =>
    exact h.step (x := relocate as) (K := fun as' => rulesA as' rs) (by
      rintro S w n ⟨U, h, p⟩
      obtain ⟨m', as', S', e, r, c⟩ := relocate_ok w h (p.nodup_iff.mpr n)
      exact ⟨as', m', _, e, ⟨_, r, .refl _⟩, c.old fun x => p.mem_iff⟩)

theorem own_allocTest (v : ValueTest) (hv : ∀ c a, c a = some (.test v) → HoldsTest c a v [a]) (h : Own m₀ F m) :
    ∃ a m', alloc (.test v) m = pure (a, m') ∧ Own m₀ (testA (some a) (some v) ∗ F) m' := by
  refine (h.mono (emp_sep F).symm).alloc _ ?_
  intro c a S hS ha
  have hS : S = [] := hS
  subst hS
  exact ⟨[a], hv c a ha, .refl _⟩

theorem own_allocMatch (v : Match) (hv : Plain v) (h : Own m₀ F m) :
    ∃ a m', alloc (.match_ v) m = pure (a, m') ∧ Own m₀ (matchA (some a) (some v) ∗ F) m' := by
  refine (h.mono (emp_sep F).symm).alloc _ ?_
  intro c a S hS ha
  have hS : S = [] := hS
  subst hS
  exact ⟨[a], (holds_plain hv).mpr ⟨ha, rfl⟩, .refl _⟩

theorem own_allocPipe (v : Transform) (h : Own m₀ F m) :
    ∃ a m', alloc (.pipe v none) m = pure (a, m') ∧ Own m₀ (pipeA (some a) (some (.last v)) ∗ F) m' := by
  refine (h.mono (emp_sep F).symm).alloc _ ?_
  intro c a S hS ha
  have hS : S = [] := hS
  subst hS
  exact ⟨[a], ⟨ha, rfl⟩, .refl _⟩

theorem own_allocNegate (h : Own m₀ F m) :
    ∃ a m', alloc (.negateMatch []) m = pure (a, m') ∧ Own m₀ (matchA (some a) (some (.negate [])) ∗ F) m' := by
  refine (h.mono (emp_sep F).symm).alloc _ ?_
  intro c a S hS ha
  have hS : S = [] := hS
  subst hS
  exact ⟨[a], holds_negate.mpr ⟨[], [], ha, rfl, rfl⟩, .refl _⟩

theorem own_allocAttributeMatch (n : Str) {q v} (h : Own m₀ (testA q v ∗ F) m) :
    ∃ a m', alloc (.attributeMatch n q) m = pure (a, m') ∧ Own m₀ (matchA (some a) (some (.attribute n v)) ∗ F) m' := by
  refine h.alloc _ ?_
  rintro c a S ⟨T, hT, p⟩ ha
  exact ⟨a :: T, holds_attribute.mpr ⟨q, T, ha, hT, rfl⟩, p.cons a⟩

theorem own_allocFunctionValueMatch (f : Option CaptureFn) {q v} (h : Own m₀ (testA q v ∗ F) m) :
    ∃ a m', alloc (.functionValueMatch f q) m = pure (a, m') ∧ Own m₀ (matchA (some a) (some (.functionValue f v)) ∗ F) m' := by
  refine h.alloc _ ?_
  rintro c a S ⟨T, hT, p⟩ ha
  exact ⟨a :: T, holds_functionValue.mpr ⟨q, T, ha, hT, rfl⟩, p.cons a⟩

theorem own_allocAttributeCapture (n s : Str) {q v} (h : Own m₀ (pipeA q v ∗ F) m) :
    ∃ a m', alloc (.attributeCapture n s q) m = pure (a, m') ∧ Own m₀ (captureA (some a) (some (.attribute n s v)) ∗ F) m' := by
  refine h.alloc _ ?_
  rintro c a S ⟨T, hT, p⟩ ha
  exact ⟨a :: T, ⟨q, T, ha, hT, rfl⟩, p.cons a⟩

theorem own_allocFunctionCapture (f : Option CaptureFn) (s : Str) {q v} (h : Own m₀ (pipeA q v ∗ F) m) :
    ∃ a m', alloc (.functionCapture f s q) m = pure (a, m') ∧ Own m₀ (captureA (some a) (some (.function f s v)) ∗ F) m' := by
  refine h.alloc _ ?_
  rintro c a S ⟨T, hT, p⟩ ha
  exact ⟨a :: T, ⟨q, T, ha, hT, rfl⟩, p.cons a⟩

/-- What `NegateTest` makes of a test that may be null. -/
def negatedTest : Option ValueTest → ValueTest
  | some t => .negate t
  | none => .negateNull

theorem own_allocNegateTest {q v} (h : Own m₀ (testA q v ∗ F) m) :
    ∃ a m', alloc (.negateTest q) m = pure (a, m') ∧ Own m₀ (testA (some a) (some (negatedTest v)) ∗ F) m' := by
  refine h.alloc _ ?_
  rintro c a S ⟨T, hT, p⟩ ha
  match q, v, hT with
  | none, none, hT =>
    have hT : T = [] := hT
    subst hT
    exact ⟨[a], ⟨ha, rfl⟩, p.cons a⟩
  | some b, some t, hT => exact ⟨a :: T, ⟨b, T, ha, hT, rfl⟩, p.cons a⟩

theorem own_appendNegated {a q v} {ms : List (Option Match)} (h : Own m₀ (matchA (some a) (some (.negate ms)) ∗ (matchA q v ∗ F)) m) :
    ∃ m', appendNegated a q m = pure ((), m') ∧ Own m₀ (matchA (some a) (some (.negate (ms ++ [v]))) ∗ F) m' := by
  obtain ⟨⟨⟩, m', e, o⟩ := (h.mono (sep_assoc ..).symm).step (x := appendNegated a q)
    (K := fun _ => matchA (some a) (some (.negate (ms ++ [v])))) (by
    rintro S w n ⟨T₁, T₂, ⟨U₁, h₁, p₁⟩, ⟨U₂, h₂, p₂⟩, p⟩
    have pp : (U₁ ++ U₂).Perm S := (p₁.append p₂).trans p
    obtain ⟨qs, S', ha, hS, rfl⟩ := holds_negate.mp h₁
    have n' := pp.nodup_iff.mpr n
    rw [List.cons_append] at n'
    have na : a ∉ S' ++ U₂ := (List.nodup_cons.mp n').1
    have lt : ∀ x ∈ S' ++ U₂, x < m.fresh := by
      intro x hx
      rcases List.mem_append.mp hx with hx | hx
      · exact w x (alive_matches ms qs S' _ hS x hx)
      · exact w x (alive_ptr (fun x _ => alive_match x) q U₂ _ h₂ x hx)
    have c := changed_put w (by rw [ha]; rfl) (.negateMatch (qs ++ [q]))
    refine ⟨(), m.put a (.negateMatch (qs ++ [q])), a :: (S' ++ U₂), ?_, ⟨_, holds_negate.mpr ⟨qs ++ [q], S' ++ U₂, by simp [Mem.put],
      ?_, rfl⟩, .refl _⟩, ?_⟩
    · unfold appendNegated
      rw [bind_ok (load_ok ha)]
      exact store_ok (by rw [ha]; rfl) _
    · have same : ∀ x ∈ S' ++ U₂, (m.put a (.negateMatch (qs ++ [q]))).cell x = m.cell x := by
        intro x hx
        simp only [Mem.put]
        rw [if_neg]
        rintro rfl
        exact na hx
      exact vec_snoc (framed_matches ms qs S' _ _ hS fun x hx => same x (List.mem_append_left _ hx))
        (framed_ptr (fun x _ => framed_match x) q U₂ _ _ h₂ fun x hx => same x (List.mem_append_right _ hx))
    · have := c.beside (List.nodup_cons.mp n').2 lt (by intro x hx hx'; rw [List.mem_singleton.mp hx'] at hx; exact na hx)
      exact this.old fun x => pp.mem_iff)
  exact ⟨m', e, o⟩

end

end Hext.Mem
