import Verif.Proofs.RuleStack
import Verif.Proofs.HextSize
import Verif.Proofs.MemoryBuild
import Verif.Props.Parser
/-!
# How much stack it needs to copy and to destroy a rule (C68)
-/

namespace Hext.Props

open Mem

variable {m : Mem} {a : Nat} {r : Rule} {S : List Nat}

/-- C68. Destroying a rule needs exactly as many frames as the rule is deep, where a sibling is one level deeper than the rule
before it. -/
theorem C68_destroy (h : HoldsRule m.cell a r S) (hS : S.Nodup) (d : Nat) :
    Mem.Stack.destroyRule d a m = if r.depth ≤ d then destroyRule a m else throw .ub :=
  Mem.Stack.cutD_rule r d a S m h hS

/-- With enough frames the rule is gone afterwards, and nothing else. -/
theorem C68_destroyed (h : HoldsRule m.cell a r S) (hS : S.Nodup) (d : Nat) (hd : r.depth ≤ d) :
    ∃ m', Mem.Stack.destroyRule d a m = pure ((), m') ∧ ∀ x, m'.cell x = if x ∈ S then none else m.cell x := by
  obtain ⟨m', e, g⟩ := destroys_rule r a S m h hS
  refine ⟨m', ?_, g.cell⟩
  rw [C68_destroy h hS, if_pos hd, e]

/-- C68. So does copying a rule. -/
theorem C68_copy (w : ∀ x, (m.cell x).isSome → x < m.fresh) (h : HoldsRule m.cell a r S) (d : Nat) :
    Mem.Stack.copyRule d a m = if r.depth ≤ d then copyRule a m else throw .ub :=
  Mem.Stack.cutC_rule r d a S m w h

/-- With enough frames there is a copy afterwards, of new objects. -/
theorem C68_copied (w : ∀ x, (m.cell x).isSome → x < m.fresh) (h : HoldsRule m.cell a r S) (d : Nat) (hd : r.depth ≤ d) :
    ∃ a' S' m', Mem.Stack.copyRule d a m = pure (a', m') ∧ HoldsRule m'.cell a' r S' ∧ S'.Nodup ∧ (∀ x ∈ S', m.cell x = none) ∧
      ∀ x, (m.cell x).isSome → m'.cell x = m.cell x := by
  obtain ⟨a', S', m', e, k, g⟩ := copies_rule r a S m w h
  refine ⟨a', S', m', ?_, k, g.nodup, fun x hx => ?_, fun x hx => g.same x (w x hx)⟩
  · rw [C68_copy w h, if_pos hd, e]
  · have := (g.mem x).1 hx
    cases hc : m.cell x with
    | none => rfl
    | some o => have := w x (by rw [hc]; rfl); omega

/-- C68 for hexts: a hext of `n` bytes becomes at most `n + 1` objects, so `n + 1` frames are enough. -/
theorem C68_hext {rx : RxEngine} {charSigned : Bool} {s : Str} (hp : parseHext rx charSigned s = .ok r)
    (h : HoldsRule m.cell a r S) (hS : S.Nodup) :
    S.length ≤ s.length + 1 ∧ r.depth ≤ S.length ∧ Mem.Stack.destroyRule (s.length + 1) a m = destroyRule a m := by
  have h1 := Syn.means_objects ((parse_iff rx charSigned s r).1 hp)
  have h2 := Rule.depth_le r
  have h3 := counts_rule r a S m.cell h
  refine ⟨by omega, by omega, ?_⟩
  rw [C68_destroy h hS, if_pos (by omega)]

/-- The hext `<a/><a/>...` with `k` rules. -/
def manyRules (k : Nat) : Str := (List.replicate k (lit "<a/>")).flatten

/-- The rules of it. -/
def manySiblings : Nat → Rule
  | 0 => .mk { tag := .tag (.known (lit "a")) } none none []
  | k + 1 => .mk { tag := .tag (.known (lit "a")) } none (some (manySiblings k)) []

theorem manySiblings_depth (k : Nat) : (manySiblings k).depth = k + 1 := by
  induction k with
  | zero => rfl
  | succ k ih =>
    simp only [manySiblings, Rule.depth, Rule.depthO, Rule.depthL, ih, RuleInfo.depth, deepest]
    omega

def aHead : Syn.Head := { options := [], tag := lit "a", conds := [], pats := [], ws := [] }
def aRule : Rule := .mk { tag := .tag (.known (lit "a")) } none none []

theorem aHead_meaning (rx : RxEngine) : aHead.meaning rx {} = some ({ tag := .tag (.known (lit "a")) }, {}) := by
  simp only [Syn.Head.meaning, aHead, Syn.condsMeaning, Syn.patsMeaning]
  have h : Syn.tagMeaning (lit "a") = (.tag (.known (lit "a")), none) := by decide +kernel
  rw [h]; rfl

theorem many_seq (rx : RxEngine) (k : Nat) : Syn.Seq rx {} (List.replicate k (.start aHead true)) {} (List.replicate k aRule) := by
  induction k with
  | zero => exact .nil
  | succ k ih => exact .elem (.selfClosing (aHead_meaning rx)) ih

theorem many_chain (k : Nat) : Syn.chain aRule (List.replicate k aRule) = manySiblings k := by
  induction k with
  | zero => rfl
  | succ k ih =>
    show Rule.mk _ _ (some (Syn.chain aRule (List.replicate k aRule))) _ = _
    rw [ih]; rfl

theorem many_parsed (rx : RxEngine) (charSigned : Bool) (k : Nat) :
    parseHext rx charSigned (manyRules (k + 1)) = .ok (manySiblings k) := by
  refine (parse_iff rx charSigned _ _).2 ⟨List.replicate (k + 1) (.start aHead true), {}, List.replicate (k + 1) aRule, ?_, ?_,
    many_seq rx (k + 1), (many_chain k).symm⟩
  · intro i hi
    rw [List.eq_of_mem_replicate hi]
    exact ⟨.inr ⟨97, [], by decide, .inr (by decide), by simp⟩, by simp [aHead], by simp [aHead], by simp [aHead]⟩
  · simp only [manyRules, Syn.itemsText, List.flatMap_def, List.map_replicate]
    have h : (Syn.Item.start aHead true).text = lit "<a/>" := by decide +kernel
    rw [h]

/-- C68. So no stack is large enough for all hexts: `d + 1` sibling rules overflow a stack of `d` frames when they are destroyed
or copied, wherever they are in memory; with one frame more they do not. -/
theorem C68_overflow (rx : RxEngine) (charSigned : Bool) (d : Nat) : ∃ r, parseHext rx charSigned (manyRules (d + 1)) = .ok r ∧
    (∃ (m : Mem) (a : Nat) (S : List Nat), HoldsRule m.cell a r S ∧ S.Nodup ∧ ∀ x, (m.cell x).isSome → x < m.fresh) ∧
    ∀ (m : Mem) (a : Nat) (S : List Nat), HoldsRule m.cell a r S → S.Nodup → (∀ x, (m.cell x).isSome → x < m.fresh) →
      Mem.Stack.destroyRule d a m = throw .ub ∧ Mem.Stack.copyRule d a m = throw .ub ∧
      (∃ m', Mem.Stack.destroyRule (d + 1) a m = pure ((), m')) ∧ ∃ a' m', Mem.Stack.copyRule (d + 1) a m = pure (a', m') := by
  refine ⟨_, many_parsed rx charSigned d, ?_, ?_⟩
  · obtain ⟨m, a, S, w, h, hS⟩ := rule_in_memory (manySiblings d)
    exact ⟨m, a, S, h, hS, w⟩
  · intro m a S h hS w
    refine ⟨?_, ?_, ?_, ?_⟩
    · rw [C68_destroy h hS, if_neg (by rw [manySiblings_depth]; omega)]
    · rw [C68_copy w h, if_neg (by rw [manySiblings_depth]; omega)]
    · obtain ⟨m', e, _⟩ := C68_destroyed h hS (d + 1) (by rw [manySiblings_depth]; omega)
      exact ⟨m', e⟩
    · obtain ⟨a', _, m', e, _⟩ := C68_copied w h (d + 1) (by rw [manySiblings_depth]; omega)
      exact ⟨a', m', e⟩

/-- `<ul><li/><li/>{<a/>}</ul>` is three objects deep and has four rules. -/
example : (Rule.mk {} (some (.mk {} none (some (.mk {} none none [])) [])) none [.mk {} none none []]).depth = 3 ∧
    (Rule.mk {} (some (.mk {} none (some (.mk {} none none [])) [])) none [.mk {} none none []]).objects = 4 := by decide +kernel

/-- A rule with a match, a test and pipes: `<* class="x"! id:tolower:toupper:n?/>`. -/
def deepRule : Rule :=
  let test : Match := .«attribute» (lit "class") (some (.negate (.containsWords [lit "x"])))
  let cap : Capture := .«attribute» (lit "id") (lit "n") (some (.cons .toLower (.last .toUpper)))
  .mk { ms := [some test], caps := [some cap] } none none []

/-- Matches, tests and pipes count as well. -/
example : deepRule.depth = 4 ∧ deepRule.objects = 7 := by decide +kernel

/-- Every rule can be in memory, so the theorems above speak about all rules. -/
example (r : Rule) : ∃ (m : Mem) (a : Nat) (S : List Nat), (∀ x, (m.cell x).isSome → x < m.fresh) ∧ HoldsRule m.cell a r S ∧ S.Nodup := rule_in_memory r

end Hext.Props
