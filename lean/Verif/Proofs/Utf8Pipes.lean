import Verif.Proofs.Utf8
import Verif.Proofs.Utf8Order
import Verif.Proofs.Meaning
/-!
# Pipes, captures and parsed rules in UTF-8
-/

namespace Hext

open Props (enc_ascii isScalar_lt)

/-! ## Characters of more than one byte -/

theorem toNat_ofNat256 {n : Nat} (h : n < 256) : (UInt8.ofNat n).toNat = n := by simp; omega

/-- The first byte of such a character, and the others. -/
theorem enc_parts {x : Nat} (h : 128 ≤ x) (hx : x < 0x110000) : ∃ b t, enc x = b :: t ∧ t ≠ [] ∧ 192 ≤ b ∧ ∀ e ∈ t, 128 ≤ e ∧ e < 192 := by
  have c : ∀ n, n < 64 → (128 : UInt8) ≤ UInt8.ofNat (128 + n) ∧ UInt8.ofNat (128 + n) < 192 := by
    intro n hn
    constructor
    · show (128 : Nat) ≤ (UInt8.ofNat (128 + n)).toNat
      rw [toNat_ofNat256 (by omega)]; omega
    · show (UInt8.ofNat (128 + n)).toNat < 192
      rw [toNat_ofNat256 (by omega)]; omega
  have d : ∀ n, 192 ≤ n → n < 256 → (192 : UInt8) ≤ UInt8.ofNat n := by
    intro n hn h2
    show (192 : Nat) ≤ (UInt8.ofNat n).toNat
    rw [toNat_ofNat256 h2]; exact hn
  unfold enc
  rw [if_neg (by omega)]
  split
  · refine ⟨_, _, rfl, by simp, d _ (by omega) (by omega), ?_⟩
    intro e he
    simp only [List.mem_singleton] at he
    subst he; exact c _ (by omega)
  · split
    · refine ⟨_, _, rfl, by simp, d _ (by omega) (by omega), ?_⟩
      intro e he
      simp only [List.mem_cons, List.not_mem_nil, or_false] at he
      rcases he with rfl | rfl <;> exact c _ (by omega)
    · refine ⟨_, _, rfl, by simp, d _ (by omega) (by omega), ?_⟩
      intro e he
      simp only [List.mem_cons, List.not_mem_nil, or_false] at he
      rcases he with rfl | rfl | rfl <;> exact c _ (by omega)

/-- The last byte can be any of the bytes from 128 to 191. -/
theorem enc_last {x : Nat} (h : 128 ≤ x) (hx : IsScalar x) {e : Byte} (h1 : 128 ≤ e) (h2 : e < 192) :
    ∃ y, IsScalar y ∧ 128 ≤ y ∧ enc y = (enc x).dropLast ++ [e] := by
  have h1 : 128 ≤ e.toNat := h1
  have h2 : e.toNat < 192 := h2
  refine ⟨x / 64 * 64 + (e.toNat - 128), ?_, by omega, ?_⟩
  · unfold IsScalar at *; omega
  · have he : UInt8.ofNat (128 + (x / 64 * 64 + (e.toNat - 128)) % 64) = e := by
      have : 128 + (x / 64 * 64 + (e.toNat - 128)) % 64 = e.toNat := by omega
      rw [this]; simp
    have hq : (x / 64 * 64 + (e.toNat - 128)) / 64 = x / 64 := by omega
    unfold enc
    rw [if_neg (by omega), if_neg (by omega : ¬ x < 128), he, hq]
    by_cases h3 : x < 0x800
    · rw [if_pos (by omega), if_pos h3]; rfl
    · rw [if_neg (by omega), if_neg h3]
      by_cases h4 : x < 0x10000
      · rw [if_pos (by omega), if_pos h4]
        rw [show (x / 64 * 64 + (e.toNat - 128)) / 4096 = x / 4096 by omega]; rfl
      · rw [if_neg (by omega), if_neg h4]
        rw [show (x / 64 * 64 + (e.toNat - 128)) / 4096 = x / 4096 by omega,
          show (x / 64 * 64 + (e.toNat - 128)) / 262144 = x / 262144 by omega]; rfl

theorem enc_unique {x y : Nat} (hx : IsScalar x) (hy : IsScalar y) {a b : Str} (h : enc x ++ a = enc y ++ b) : x = y ∧ a = b := by
  have : x = y := by
    rcases Nat.lt_trichotomy x y with hl | he | hl
    · have := Binding.enc_lt hl (isScalar_lt hy) a b
      rw [h] at this; exact absurd this (List.lt_irrefl _)
    · exact he
    · have := Binding.enc_lt hl (isScalar_lt hx) b a
      rw [h] at this; exact absurd this (List.lt_irrefl _)
  subst this
  exact ⟨rfl, List.append_cancel_left h⟩

/-- A text does not start in the middle of a character. -/
theorem Utf8.head {e : Byte} {t : Str} (h : Utf8 (e :: t)) : ¬ (128 ≤ e ∧ e < 192) := by
  rintro ⟨h1, h2⟩
  obtain ⟨u, hu, he⟩ := h
  cases u with
  | nil => simp at he
  | cons x u =>
    rw [List.flatMap_cons] at he
    have hx := hu x (by simp)
    by_cases hl : x < 128
    · have : Hext.enc x = [UInt8.ofNat x] := by unfold Hext.enc; rw [if_pos hl]
      rw [this] at he
      simp only [List.cons_append, List.nil_append, List.cons.injEq] at he
      rw [he.1] at h1
      have h1 : 128 ≤ (UInt8.ofNat x).toNat := h1
      rw [toNat_ofNat256 (by omega)] at h1
      omega
    · obtain ⟨b, t', h3, _, h5, _⟩ := enc_parts (by omega) (isScalar_lt hx)
      rw [h3, List.cons_append, List.cons.injEq] at he
      rw [he.1] at h2
      exact absurd h5 (UInt8.not_le.2 h2)

/-- A part of a character is no text. -/
theorem Utf8.whole {x : Nat} (hx : IsScalar x) {p q : Str} (h : Hext.enc x = p ++ q) (hp : p ≠ []) (hq : q ≠ []) : ¬ Utf8 p := by
  rintro ⟨t, ht, rfl⟩
  cases t with
  | nil => exact hp rfl
  | cons y t =>
    rw [List.flatMap_cons, List.append_assoc] at h
    have := (enc_unique (a := []) hx (ht y (by simp)) (by simpa using h)).2
    have := congrArg List.length this
    simp at this
    have := List.length_pos_iff.2 hq
    omega

theorem partByte_iff {c : Byte} : PartByte c ↔ ∃ x, IsScalar x ∧ 128 ≤ x ∧ c ∈ enc x := by
  constructor
  · rintro ⟨h1, s, ⟨t, ht, rfl⟩, hc⟩
    obtain ⟨x, hx, hc⟩ := List.mem_flatMap.1 hc
    refine ⟨x, ht x hx, ?_, hc⟩
    by_cases hl : x < 128
    · have : enc x = [UInt8.ofNat x] := by unfold enc; rw [if_pos hl]
      rw [this, List.mem_singleton] at hc
      rw [hc] at h1
      have h1 : 128 ≤ (UInt8.ofNat x).toNat := h1
      rw [toNat_ofNat256 (by omega)] at h1
      omega
    · omega
  · rintro ⟨x, hx, h1, hc⟩
    refine ⟨?_, _, .enc hx, hc⟩
    obtain ⟨b, t, h2, _, h3, h4⟩ := enc_parts h1 (isScalar_lt hx)
    rw [h2] at hc
    rcases List.mem_cons.1 hc with rfl | hc
    · exact UInt8.le_trans (by decide) h3
    · exact (h4 c hc).1

/-! ## trim -/

/-- What `trim` makes of a character whose first byte it removes and whose last byte it keeps. -/
theorem trim_front {cs : Str} {x : Nat} (hx : IsScalar x) (hl : 128 ≤ x) {b e : Byte} {t : Str} (he : enc x = b :: (t ++ [e]))
    (hb : b ∈ cs) (hn : e ∉ cs) (rx : RxEngine) : ∃ s u, Utf8 s ∧ (Transform.trim cs).Gives rx s u ∧ ¬ Utf8 u := by
  obtain ⟨u, hu⟩ : ∃ u, (Transform.trim cs).Gives rx (enc x) u := ⟨_, (transform_gives _ _ _).1 rfl⟩
  refine ⟨_, u, .enc hx, hu, fun h8 => ?_⟩
  obtain ⟨bf, af, h1, h2, h3, h4, h5⟩ := hu
  obtain ⟨b', t', g1, _, _, g4⟩ := enc_parts hl (isScalar_lt hx)
  rw [he, List.cons.injEq] at g1
  obtain ⟨rfl, rfl⟩ := g1
  rw [he] at h1
  have hu : u ≠ [] := by
    rintro rfl
    have : e ∈ bf ++ [] ++ af := by rw [← h1]; simp
    simp only [List.append_nil, List.mem_append] at this
    rcases this with this | this
    · exact hn (h2 _ this)
    · exact hn (h3 _ this)
  cases u with
  | nil => exact hu rfl
  | cons c u =>
    cases bf with
    | nil =>
      simp only [List.nil_append, List.cons_append, List.cons.injEq] at h1
      exact h4 c u rfl (h1.1 ▸ hb)
    | cons d bf =>
      simp only [List.cons_append, List.cons.injEq] at h1
      exact Utf8.head h8 (g4 c (by rw [h1.2]; simp))

/-- What `trim` makes of a character whose first byte it keeps and whose last byte it removes. -/
theorem trim_back {cs : Str} {x : Nat} (hx : IsScalar x) {b e : Byte} {t : Str} (he : enc x = b :: (t ++ [e]))
    (hb : b ∉ cs) (hn : e ∈ cs) (rx : RxEngine) : ∃ s u, Utf8 s ∧ (Transform.trim cs).Gives rx s u ∧ ¬ Utf8 u := by
  obtain ⟨u, hu⟩ : ∃ u, (Transform.trim cs).Gives rx (enc x) u := ⟨_, (transform_gives _ _ _).1 rfl⟩
  refine ⟨_, u, .enc hx, hu, ?_⟩
  obtain ⟨bf, af, h1, h2, h3, h4, h5⟩ := hu
  have hu : u ≠ [] := by
    rintro rfl
    have : b ∈ bf ++ [] ++ af := by rw [← h1, he]; simp
    simp only [List.append_nil, List.mem_append] at this
    rcases this with this | this
    · exact hb (h2 _ this)
    · exact hb (h3 _ this)
  have hbf : bf = [] := by
    cases bf with
    | nil => rfl
    | cons d bf =>
      rw [he] at h1
      simp only [List.cons_append, List.cons.injEq] at h1
      exact absurd (h2 d (by simp)) (h1.1 ▸ hb)
  subst hbf
  rw [List.nil_append] at h1
  refine Utf8.whole hx h1 hu ?_
  rintro rfl
  rw [List.append_nil] at h1
  exact h5 e (b :: t) (by rw [← h1, he]; rfl) hn

theorem trim_keeps {cs : Str} (h : NoneOrAll cs) {rx : RxEngine} {s u : Str} (hs : Utf8 s) (hg : (Transform.trim cs).Gives rx s u) : Utf8 u := by
  obtain ⟨bf, af, h1, h2, h3, h4, h5⟩ := hg
  have hin : ∀ c ∈ bf ++ u ++ af, ¬ PartByte c → c < 128 := by
    intro c hc hp
    rw [← UInt8.not_le]
    intro hle
    exact hp ⟨hle, s, hs, h1 ▸ hc⟩
  rcases h with h | h
  · rw [h1] at hs
    refine Utf8.dropAscii (fun c hc => hin c (by simp [hc]) (h c (h2 c hc))) (Utf8.takeAscii (fun c hc => ?_) hs)
    exact hin c (by simp [hc]) (h c (h3 c hc))
  · cases hu : u with
    | nil => exact .nil
    | cons c v =>
      have hc : c < 128 := hin c (by simp [hu]) fun hp => h4 c v hu (h c hp)
      subst hu
      rcases List.eq_nil_or_concat v with rfl | ⟨w, d, rfl⟩
      · exact .byte hc
      · have hd : d < 128 := hin d (by simp) fun hp => h5 d (c :: w) (by simp) (h d hp)
        rw [h1, List.append_assoc, List.cons_append] at hs
        have h6 := (hs.cut hc).2
        rw [List.concat_eq_append, List.append_assoc, List.singleton_append] at h6
        refine Utf8.cons hc ?_
        rw [List.concat_eq_append]
        exact (h6.cut hd).1.append (.byte hd)

theorem trim_needs {cs : Str} {rx : RxEngine} (h : ∀ s u, Utf8 s → (Transform.trim cs).Gives rx s u → Utf8 u) : NoneOrAll cs := by
  -- the first byte of a character and the byte that ends another one
  have key : ∀ {x : Nat} {b e : Byte} {t : Str}, IsScalar x → 128 ≤ x → enc x = b :: t → 128 ≤ e → e < 192 → (b ∈ cs ↔ e ∈ cs) := by
    intro x b e t hx hl hb h1 h2
    obtain ⟨y, hy, hyl, hye⟩ := enc_last hl hx h1 h2
    have ht : t ≠ [] := by
      obtain ⟨b', t', g1, g2, _⟩ := enc_parts hl (isScalar_lt hx)
      rw [hb, List.cons.injEq] at g1
      exact g1.2 ▸ g2
    have : enc y = b :: (t.dropLast ++ [e]) := by
      rw [hye, hb, List.dropLast_cons_of_ne_nil ht]; rfl
    constructor
    · intro hbc
      apply Classical.byContradiction
      intro hec
      obtain ⟨s, u, g1, g2, g3⟩ := trim_front hy hyl this hbc hec rx
      exact g3 (h s u g1 g2)
    · intro hec
      apply Classical.byContradiction
      intro hbc
      obtain ⟨s, u, g1, g2, g3⟩ := trim_back hy this hbc hec rx
      exact g3 (h s u g1 g2)
  -- every byte stands or falls with 128
  have all : ∀ c, PartByte c → (c ∈ cs ↔ (128 : Byte) ∈ cs) := by
    intro c hc
    obtain ⟨x, hx, hl, hm⟩ := partByte_iff.1 hc
    obtain ⟨b, t, h2, _, _, h4⟩ := enc_parts hl (isScalar_lt hx)
    have k1 := key hx hl h2 (e := 128) (by decide) (by decide)
    rw [h2] at hm
    rcases List.mem_cons.1 hm with rfl | hm
    · exact k1
    · exact (key hx hl h2 (h4 c hm).1 (h4 c hm).2).symm.trans k1
  by_cases h0 : (128 : Byte) ∈ cs
  · exact .inr fun c hc => (all c hc).2 h0
  · exact .inl fun c hc hp => h0 ((all c hp).1 hc)

/-! ## Captures -/

theorem map_u8 {s : Str} {f : Byte → Byte} (h : Utf8 s) (h1 : ∀ c < 128, f c < 128) (h2 : ∀ c, 128 ≤ c → f c = c) : Utf8 (s.map f) := by
  have : s.map f = s.flatMap fun c => [f c] := by
    clear h
    induction s with
    | nil => rfl
    | cons c s ih => rw [List.map_cons, List.flatMap_cons, ih]; rfl
  rw [this]
  exact h.bytes (fun c hc => .byte (h1 c hc)) fun c hc => by rw [h2 c hc]

theorem lower_ascii : ∀ c : Byte, c < 128 → lowerCase c < 128 := by
  intro c hc
  unfold lowerCase
  split
  · rename_i h
    show (c + 32).toNat < 128
    have h1 : c.toNat ≤ 90 := h.2
    rw [UInt8.toNat_add]
    show (c.toNat + 32) % 256 < 128
    omega
  · exact hc

theorem upper_ascii : ∀ c : Byte, c < 128 → upperCase c < 128 := by
  intro c hc
  unfold upperCase
  split
  · rename_i h
    show (c - 32).toNat < 128
    have h0 : 97 ≤ c.toNat := h.1
    have h1 : c.toNat ≤ 122 := h.2
    rw [UInt8.toNat_sub]
    show (256 - 32 + c.toNat) % 256 < 128
    omega
  · exact hc

theorem transform_u8 {rx : RxEngine} {t : Transform} (ht : t.Utf8) (hw : t.Whole rx) {s u : Str} (hs : Utf8 s)
    (h : t.Gives rx s u) : Utf8 u := by
  cases t with
  | append x => rw [show u = s ++ x from h]; exact hs.append ht
  | prepend x => rw [show u = x ++ s from h]; exact Utf8.append ht hs
  | toLower =>
    rw [show u = s.map lowerCase from h]
    refine map_u8 hs lower_ascii fun c hc => if_neg fun h => ?_
    exact absurd (UInt8.le_trans hc h.2) (by decide)
  | toUpper =>
    rw [show u = s.map upperCase from h]
    refine map_u8 hs upper_ascii fun c hc => if_neg fun h => ?_
    exact absurd (UInt8.le_trans hc h.2) (by decide)
  | collapseWs => rw [show u = _ from h]; exact collapse_u8 hs
  | regex r =>
    rcases (h : (∃ m, rx.search r (cstr s) = some m ∧ u = firstGroup m) ∨ (rx.search r (cstr s) = none ∧ u = [])) with ⟨m, h1, rfl⟩ | ⟨_, rfl⟩
    · exact hw s m hs h1
    · exact .nil
  | regexReplace r x => rw [show u = _ from h]; exact hw s hs
  | trim cs => exact trim_keeps hw hs h

theorem pipe_u8 {rx : RxEngine} : ∀ {p : Pipe}, p.Every Transform.Utf8 → p.Every (Transform.Whole rx) → ∀ {s u : Str}, Utf8 s →
    p.Gives rx s u → Utf8 u
  | .last _, hp, hw, _, _, hs, h => transform_u8 hp hw hs h
  | .cons _ _, hp, hw, _, _, hs, ⟨_, h1, h2⟩ => pipe_u8 hp.2 hw.2 (transform_u8 hp.1 hw.1 hs h1) h2

theorem pipeGives_u8 {rx : RxEngine} {p : Option Pipe} (hp : ∀ q, p = some q → q.Every Transform.Utf8)
    (hw : ∀ q, p = some q → q.Every (Transform.Whole rx)) {s u : Str} (hs : Utf8 s) (h : PipeGives rx p s u) : Utf8 u := by
  cases p with
  | none => rw [show u = s from h]; exact hs
  | some p => exact pipe_u8 (hp p rfl) (hw p rfl) hs h

theorem capture_u8 {rx : RxEngine} {h : Heap} (hh : h.Utf8) {n : Nat} {l : Loc} (hs : l.Stored h n) {c : Capture}
    (hc : c.Utf8) (hw : c.Steps (Transform.Whole rx)) {p : Str × Str} (he : c.Gives rx h l (some p)) : Utf8 p.1 ∧ Utf8 p.2 := by
  obtain ⟨pp, i, hl⟩ := hs.load
  obtain ⟨pp', pn, i', _, _, hr, _⟩ := hs.self
  obtain ⟨k, u⟩ := p
  cases c with
  | «attribute» a name pi =>
    obtain ⟨rfl, e, b, v, h1, h2, h3, h4⟩ := he
    have hk0 := hh _ _ hl
    simp only [h1] at hk0
    have hb : b ∈ e.attrs := by
      obtain ⟨x, y, h5, _⟩ := h2
      rw [h5]; simp
    exact ⟨hc.1, pipeGives_u8 hc.2 hw ((hk0.2.2 b hb).2 v h3) h4⟩
  | function f name pi =>
    obtain ⟨rfl, g, rfl, h4⟩ := he
    exact ⟨hc.1, pipeGives_u8 hc.2.2 hw (fn_u8 hh hr fun g' hg => hc.2.1 g' (by rw [hg])) h4⟩

theorem givesAll_u8 {rx : RxEngine} {h : Heap} (hh : h.Utf8) {n : Nat} {l : Loc} (hs : l.Stored h n) {cs : List (Option Capture)}
    {vs : List (Str × Str)} (hg : GivesAll rx h l cs vs) (h1 : ∀ c, some c ∈ cs → c.Utf8)
    (h2 : ∀ c, some c ∈ cs → c.Steps (Transform.Whole rx)) : ∀ p ∈ vs, Utf8 p.1 ∧ Utf8 p.2 := by
  induction hg with
  | nil => simp
  | null _ ih => exact ih (fun c hc => h1 c (by simp [hc])) fun c hc => h2 c (by simp [hc])
  | miss _ _ ih => exact ih (fun c hc => h1 c (by simp [hc])) fun c hc => h2 c (by simp [hc])
  | hit hx _ ih =>
    intro p hp
    rcases List.mem_cons.1 hp with rfl | hp
    · exact capture_u8 hh hs (h1 _ (by simp)) (h2 _ (by simp)) hx
    · exact ih (fun c hc => h1 c (by simp [hc])) (fun c hc => h2 c (by simp [hc])) p hp

/-- The maps of a result are UTF-8. -/
theorem isResult_utf8 {rx : RxEngine} {h : Heap} (hh : h.Utf8) {n : Nat} {l : Loc} (hs : l.Stored h n) {r : Rule}
    (hr : r.Utf8) (hw : r.Whole rx) (hsafe : r.Safe n) {res : List (List (Str × Str))} (he : IsResult rx h r l res) :
    ∀ m ∈ res, IsUtf8 m := by
  obtain ⟨gs, ms, h1, h2, rfl⟩ := he
  intro m hm p hp
  obtain ⟨g, hg, vs, hc, him⟩ := h2.mem ((List.mem_filter.1 hm).1)
  have hpv : p ∈ vs := by
    have : p ∈ m.filter (·.1 = p.1) := List.mem_filter.2 ⟨hp, by simp⟩
    rw [him.2] at this
    exact (List.mem_filter.1 this).1
  obtain ⟨⟨q, x⟩, hqx, ws, hws, hpw⟩ := hc.mem hpv
  have hq := h1.closed (P := fun q x => SubRule q r ∧ ∃ ks ∈ l.searched, x ∈ ks)
      (fun p y q x hp hb => ⟨hb.subRule.trans hp.1, hb.searched hp.2⟩)
      (fun q hq ks hks x hx => ⟨siblings_subRule r q hq, ks, hks, hx⟩) g hg (q, x) hqx
  obtain ⟨hq, ks, hks, hxk⟩ := hq
  have hst := searched_stored hs ks hks x hxk
  have i1 : ∀ c, some c ∈ q.info.caps → c.Utf8 := by
    have := Props.SubRule.all hq hr
    obtain ⟨i, c, nx, ns⟩ := q
    exact this.1
  have i2 : q.info.Safe n := by
    have := Props.SubRule.all hq hsafe
    obtain ⟨i, c, nx, ns⟩ := q
    exact this.1
  have i3 : ∀ c, some c ∈ q.info.caps → c.Steps (Transform.Whole rx) := by
    have := Props.SubRule.all hq hw
    obtain ⟨i, c, nx, ns⟩ := q
    exact this.1
  exact givesAll_u8 hh hst ((ruleCapture_gives hst i2.2 ws).1 hws) i1 i3 p hpw

/-! ## Parsed rules -/

open Syn

/-- What stands between bytes of ASCII in `s` is UTF-8. -/
def Pieces (s : Str) : Prop := ∀ a x b c d, s = a ++ c :: (x ++ d :: b) → c < 128 → d < 128 → Utf8 x

theorem Utf8.pieces {s : Str} (h : Utf8 s) : Pieces s := fun _ _ _ _ _ e hc hd => ((e ▸ h : Utf8 _).cut hc).2.cut hd |>.1

theorem Pieces.sub {s t : Str} (h : Pieces t) (hs : s <:+: t) : Pieces s := by
  obtain ⟨u, v, rfl⟩ := hs
  rintro a x b c d rfl hc hd
  exact h (u ++ a) x (b ++ v) c d (by simp) hc hd

theorem Pieces.left {s t : Str} (h : Pieces (s ++ t)) : Pieces s := h.sub ⟨[], t, by simp⟩
theorem Pieces.right {s t : Str} (h : Pieces (s ++ t)) : Pieces t := h.sub ⟨s, [], by simp⟩
theorem Pieces.tail {b : Byte} {t : Str} (h : Pieces (b :: t)) : Pieces t := h.sub ⟨[b], [], by simp⟩

theorem quoted_pieces {qs : List Byte} {q : Quoted} (h : Pieces q.text) (ho : q.Ok qs) (hq : ∀ b ∈ qs, b < 128) : Utf8 q.body :=
  h [] q.body [] q.quote q.quote (by simp [Quoted.text]) (hq _ ho.1) (hq _ ho.1)

theorem pipes_u8 {rx : RxEngine} : ∀ {ps : List PipeS} {f : Flags} {x : List Transform × Flags}, Pieces (ps.flatMap PipeS.text) →
    (∀ p ∈ ps, p.Ok) → pipesMeaning rx f ps = some x → ∀ t ∈ x.1, t.Utf8
  | [], _, _, _, _, h => by cases h; simp
  | p :: ps, f, x, hn, ho, h => by
    simp only [pipesMeaning, Option.bind_eq_bind, Option.bind_eq_some_iff, Option.some.injEq] at h
    obtain ⟨y, h1, z, h2, rfl⟩ := h
    rw [List.flatMap_cons] at hn
    intro t ht
    rcases List.mem_cons.1 ht with rfl | ht
    · have hp : Pieces p.text := hn.left
      have hok := ho p (by simp)
      cases p with
      | prepend q =>
        cases h1
        exact quoted_pieces (hp.left.right) hok (by decide)
      | append q =>
        cases h1
        exact quoted_pieces (hp.left.right) hok (by decide)
      | replace r w1 w2 q =>
        simp only [PipeS.meaning, Option.bind_eq_bind, Option.bind_eq_some_iff, Option.some.injEq] at h1
        obtain ⟨v, _, rfl⟩ := h1
        trivial
      | filter r =>
        simp only [PipeS.meaning, Option.bind_eq_bind, Option.bind_eq_some_iff, Option.some.injEq] at h1
        obtain ⟨v, _, rfl⟩ := h1
        trivial
      | _ => cases h1; trivial
    · exact pipes_u8 hn.right (fun p hp => ho p (by simp [hp])) h2 t ht

theorem chain_every {P : Transform → Prop} : ∀ {ts : List Transform}, (∀ t ∈ ts, P t) → ∀ p, chainPipes ts = some p → p.Every P
  | [], _, p, h => by cases h
  | t :: ts, hn, p, h => by
    rw [chainPipes] at h
    split at h
    · cases h; exact hn t (by simp)
    · rename_i q hq
      cases h
      exact ⟨hn t (by simp), chain_every (fun t ht => hn t (by simp [ht])) q hq⟩

theorem nameByte_ascii {b : Byte} (h : IsNameByte b ∨ b = 46) : b < 128 := by
  rcases h with ((⟨_, h⟩ | ⟨_, h⟩) | ⟨_, h⟩ | rfl | rfl) | rfl
  · exact UInt8.lt_of_le_of_lt h (by decide)
  · exact UInt8.lt_of_le_of_lt h (by decide)
  · exact UInt8.lt_of_le_of_lt h (by decide)
  · decide
  · decide
  · decide

theorem capName_u8 {n : CapName} (h : Pieces n.text) (ho : n.Ok) : Utf8 n.meaning := by
  cases n with
  | quoted q => exact quoted_pieces h ho (by decide)
  | plain s => exact .ascii fun b hb => nameByte_ascii (ho.2 b hb)

theorem pats_u8 {rx} : ∀ {ps : List (Str × Pat)} {f : Flags} {x : List Match × List Capture × Flags}, Pieces (patsText ps) →
    (∀ p ∈ ps, p.2.Ok) → patsMeaning rx f ps = some x → ∀ c ∈ x.2.1, c.Utf8
  | [], _, _, _, _, h => by cases h; simp
  | p :: ps, f, x, hn, ho, h => by
    simp only [patsMeaning, Option.bind_eq_bind, Option.bind_eq_some_iff, Option.some.injEq] at h
    obtain ⟨y, h1, z, h2, rfl⟩ := h
    rw [patsText, List.flatMap_cons] at hn
    have hn1 : Pieces p.2.text := hn.left.right
    have hok := ho p (by simp)
    intro c hc
    rcases List.mem_append.1 hc with hc | hc
    · obtain ⟨w, p⟩ := p
      cases p with
      | capFn fn ps n =>
        simp only [Pat.meaning, Option.bind_eq_bind, Option.bind_eq_some_iff, Option.some.injEq] at h1
        obtain ⟨u, hu, rfl⟩ := h1
        simp only [List.mem_singleton] at hc
        subst hc
        refine ⟨capName_u8 hn1.right.tail hok.2, ?_, chain_every (pipes_u8 hn1.left.right hok.1 hu)⟩
        intro g hg
        cases fn <;> cases hg
      | capAttr a ps n o =>
        simp only [Pat.meaning, Option.bind_eq_bind, Option.bind_eq_some_iff, Option.some.injEq] at h1
        obtain ⟨u, hu, rfl⟩ := h1
        simp only [List.mem_singleton] at hc
        subst hc
        exact ⟨capName_u8 hn1.left.right.tail hok.2.2, chain_every (pipes_u8 hn1.left.left.right hok.2.1 hu)⟩
      | testFn fn t neg =>
        simp only [Pat.meaning, Option.bind_eq_bind, Option.bind_eq_some_iff, Option.some.injEq] at h1
        obtain ⟨u, _, rfl⟩ := h1
        simp at hc
      | testAttr a t neg =>
        simp only [Pat.meaning, Option.bind_eq_bind, Option.bind_eq_some_iff, Option.some.injEq] at h1
        obtain ⟨u, _, rfl⟩ := h1
        simp at hc
      | hasAttr a neg => cases h1; simp at hc
    · exact pats_u8 hn.right (fun p hp => ho p (by simp [hp])) h2 c hc

theorem head_u8 {rx f f' info} {h : Head} (hs : Pieces h.text) (ho : h.Ok) (hm : h.meaning rx f = some (info, f')) :
    ∀ c, some c ∈ info.caps → c.Utf8 := by
  simp only [Head.meaning, Option.bind_eq_bind, Option.bind_eq_some_iff, Option.some.injEq, Prod.mk.injEq] at hm
  obtain ⟨x, h1, y, h2, rfl, _⟩ := hm
  intro c hc
  simp only [List.mem_map, Option.some.injEq] at hc
  obtain ⟨c, hc, rfl⟩ := hc
  exact pats_u8 hs.left.right (fun p hp => (ho.2.2.1 p hp).2.2) h2 c hc

/-- The texts in the captures of a hext in UTF-8 are UTF-8. -/
theorem parse_utf8 {rx cs s r} (hs : Utf8 s) (h : parseHext rx cs s = .ok r) : r.Utf8 := by
  obtain ⟨is, f, rs, hok, rfl, hseq, rfl⟩ := (parse_iff rx cs s r).1 h
  refine ruleOf_all (fun _ => ?_) (seq_all hseq fun hd c hc f f' info hm => head_u8 (hs.pieces.sub ?_) (hok _ hc) hm)
  · intro c hc; simp at hc
  · exact List.IsInfix.trans ⟨[], _, by rw [List.nil_append]; rfl⟩ (infix_flatMap (g := Item.text) hc)

end Hext
