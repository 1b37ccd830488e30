import Verif.Model.Icubaby
import Verif.Spec.Utf
import Verif.Proofs.Chars

/-!
# UTF-8: the table-driven decoder and the encoder
-/

set_option linter.unusedSimpArgs false
set_option linter.unusedVariables false

namespace Verif.Icu

open Unicode

/-! ### Bits -/

theorem and_3f (c : Nat) : c &&& 0x3F = c % 64 := Nat.and_two_pow_sub_one_eq_mod c 6

theorem and_3ff (c : Nat) : c &&& 0x3FF = c % 1024 := Nat.and_two_pow_sub_one_eq_mod c 10

theorem shr6 (c : Nat) : c >>> 6 = c / 64 := by rw [Nat.shiftRight_eq_div_pow]

theorem shr12 (c : Nat) : c >>> 12 = c / 4096 := by rw [Nat.shiftRight_eq_div_pow]

theorem shr18 (c : Nat) : c >>> 18 = c / 262144 := by rw [Nat.shiftRight_eq_div_pow]

theorem shr10 (c : Nat) : c >>> 10 = c / 1024 := by rw [Nat.shiftRight_eq_div_pow]

/-- Disjoint bits. -/
theorem or_high (x a i : Nat) (h : x < 2 ^ i) : x ||| (a <<< i) = a * 2 ^ i + x := by
  rw [Nat.or_comm, ← Nat.shiftLeft_add_eq_or_of_lt h, Nat.shiftLeft_eq]

theorem or_80 (x : Nat) (h : x < 64) : x ||| 0x80 = 0x80 + x := by
  have := or_high x 2 6 h
  rw [show 2 <<< 6 = 0x80 from rfl] at this
  rw [this]

theorem or_c0 (x : Nat) (h : x < 32) : x ||| 0xC0 = 0xC0 + x := by
  have := or_high x 6 5 h
  rw [show 6 <<< 5 = 0xC0 from rfl] at this
  rw [this]

theorem or_e0 (x : Nat) (h : x < 16) : x ||| 0xE0 = 0xE0 + x := by
  have := or_high x 0xE 4 h
  rw [show 0xE <<< 4 = 0xE0 from rfl] at this
  rw [this]

theorem or_f0 (x : Nat) (h : x < 8) : x ||| 0xF0 = 0xF0 + x := by
  have := or_high x 0x1E 3 h
  rw [show 0x1E <<< 3 = 0xF0 from rfl] at this
  rw [this]

theorem byte_ofNat_eq {n : Nat} {b : UInt8} (h : n = b.toNat) : UInt8.ofNat n = b := by
  subst h; simp

theorem u16_ofNat_eq {n : Nat} {b : UInt16} (h : n = b.toNat) : UInt16.ofNat n = b := by
  subst h; simp

theorem toNat_ofNat_lt {n : Nat} (h : n < 256) : (UInt8.ofNat n).toNat = n := by
  simp [UInt8.toNat_ofNat']; omega

theorem u16_toNat_ofNat_lt {n : Nat} (h : n < 65536) : (UInt16.ofNat n).toNat = n := by
  simp [UInt16.toNat_ofNat']; omega

/-! ### The shapes of UTF-8 -/

/-- The first two bytes of a three-byte sequence. -/
def Lead3 (a b : UInt8) : Prop :=
  (a.toNat = 0xE0 ∧ 0xA0 ≤ b.toNat ∧ b.toNat ≤ 0xBF) ∨ (a.toNat = 0xED ∧ 0x80 ≤ b.toNat ∧ b.toNat ≤ 0x9F) ∨
  (0xE1 ≤ a.toNat ∧ a.toNat ≤ 0xEF ∧ a.toNat ≠ 0xED ∧ 0x80 ≤ b.toNat ∧ b.toNat ≤ 0xBF)

/-- The first two bytes of a four-byte sequence. -/
def Lead4 (a b : UInt8) : Prop :=
  (a.toNat = 0xF0 ∧ 0x90 ≤ b.toNat ∧ b.toNat ≤ 0xBF) ∨ (0xF1 ≤ a.toNat ∧ a.toNat ≤ 0xF3 ∧ 0x80 ≤ b.toNat ∧ b.toNat ≤ 0xBF) ∨
  (a.toNat = 0xF4 ∧ 0x80 ≤ b.toNat ∧ b.toNat ≤ 0x8F)

/-- A continuation byte. -/
def Cont (b : UInt8) : Prop := 0x80 ≤ b.toNat ∧ b.toNat ≤ 0xBF

theorem utf8_one {a : UInt8} (h : a.toNat < 0x80) : utf8 a.toNat = [a] ∧ Scalar a.toNat := by
  unfold utf8
  rw [if_pos h]
  exact ⟨by simp, Or.inl (by omega)⟩

theorem utf8_two {a b : UInt8} (h1 : 0xC2 ≤ a.toNat) (h2 : a.toNat ≤ 0xDF) (hb : Cont b) :
    utf8 ((a.toNat - 0xC0) * 64 + (b.toNat - 0x80)) = [a, b] ∧ Scalar ((a.toNat - 0xC0) * 64 + (b.toNat - 0x80)) := by
  obtain ⟨h3, h4⟩ := hb
  unfold utf8
  rw [if_neg (by omega), if_pos (by omega)]
  refine ⟨?_, Or.inl (by omega)⟩
  rw [byte_ofNat_eq (b := a) (by omega), byte_ofNat_eq (b := b) (by omega)]

theorem utf8_three {a b d : UInt8} (h : Lead3 a b) (hd : Cont d) :
    utf8 (((a.toNat - 0xE0) * 64 + (b.toNat - 0x80)) * 64 + (d.toNat - 0x80)) = [a, b, d] ∧
    Scalar (((a.toNat - 0xE0) * 64 + (b.toNat - 0x80)) * 64 + (d.toNat - 0x80)) := by
  obtain ⟨h3, h4⟩ := hd
  unfold Lead3 at h
  unfold utf8 Scalar
  rw [if_neg (by omega), if_neg (by omega), if_pos (by omega)]
  refine ⟨?_, by omega⟩
  rw [byte_ofNat_eq (b := a) (by omega), byte_ofNat_eq (b := b) (by omega), byte_ofNat_eq (b := d) (by omega)]

theorem utf8_four {a b d e : UInt8} (h : Lead4 a b) (hd : Cont d) (he : Cont e) :
    utf8 ((((a.toNat - 0xF0) * 64 + (b.toNat - 0x80)) * 64 + (d.toNat - 0x80)) * 64 + (e.toNat - 0x80)) = [a, b, d, e] ∧
    Scalar ((((a.toNat - 0xF0) * 64 + (b.toNat - 0x80)) * 64 + (d.toNat - 0x80)) * 64 + (e.toNat - 0x80)) := by
  obtain ⟨h3, h4⟩ := hd
  obtain ⟨h5, h6⟩ := he
  unfold Lead4 at h
  unfold utf8 Scalar
  rw [if_neg (by omega), if_neg (by omega), if_neg (by omega)]
  refine ⟨?_, by omega⟩
  rw [byte_ofNat_eq (b := a) (by omega), byte_ofNat_eq (b := b) (by omega), byte_ofNat_eq (b := d) (by omega), byte_ofNat_eq (b := e) (by omega)]

/-- The shapes of the UTF-8 forms, with their values. -/
inductive Shape : Nat → Str → Prop
  | one {a : UInt8} : a.toNat < 0x80 → Shape a.toNat [a]
  | two {a b : UInt8} : 0xC2 ≤ a.toNat → a.toNat ≤ 0xDF → Cont b → Shape ((a.toNat - 0xC0) * 64 + (b.toNat - 0x80)) [a, b]
  | three {a b d : UInt8} : Lead3 a b → Cont d → Shape (((a.toNat - 0xE0) * 64 + (b.toNat - 0x80)) * 64 + (d.toNat - 0x80)) [a, b, d]
  | four {a b d e : UInt8} : Lead4 a b → Cont d → Cont e →
      Shape ((((a.toNat - 0xF0) * 64 + (b.toNat - 0x80)) * 64 + (d.toNat - 0x80)) * 64 + (e.toNat - 0x80)) [a, b, d, e]

theorem shape_utf8 {c : Nat} {s : Str} (h : Shape c s) : utf8 c = s ∧ Scalar c := by
  cases h with
  | one h => exact utf8_one h
  | two h1 h2 h3 => exact utf8_two h1 h2 h3
  | three h1 h2 => exact utf8_three h1 h2
  | four h1 h2 h3 => exact utf8_four h1 h2 h3

theorem utf8_shape {c : Nat} (h : Scalar c) : Shape c (utf8 c) := by
  unfold Scalar at h
  unfold utf8
  split
  · have := Shape.one (a := UInt8.ofNat c) (by rw [toNat_ofNat_lt (by omega)]; omega)
    rwa [toNat_ofNat_lt (by omega)] at this
  split
  · have e1 : (UInt8.ofNat (0xC0 + c / 0x40)).toNat = 0xC0 + c / 0x40 := toNat_ofNat_lt (by omega)
    have e2 : (UInt8.ofNat (0x80 + c % 0x40)).toNat = 0x80 + c % 0x40 := toNat_ofNat_lt (by omega)
    have := Shape.two (a := UInt8.ofNat (0xC0 + c / 0x40)) (b := UInt8.ofNat (0x80 + c % 0x40)) (by omega) (by omega) ⟨by omega, by omega⟩
    rwa [e1, e2, show (0xC0 + c / 0x40 - 0xC0) * 64 + (0x80 + c % 0x40 - 0x80) = c by omega] at this
  split
  · have e1 : (UInt8.ofNat (0xE0 + c / 0x1000)).toNat = 0xE0 + c / 0x1000 := toNat_ofNat_lt (by omega)
    have e2 : (UInt8.ofNat (0x80 + c / 0x40 % 0x40)).toNat = 0x80 + c / 0x40 % 0x40 := toNat_ofNat_lt (by omega)
    have e3 : (UInt8.ofNat (0x80 + c % 0x40)).toNat = 0x80 + c % 0x40 := toNat_ofNat_lt (by omega)
    have := Shape.three (a := UInt8.ofNat (0xE0 + c / 0x1000)) (b := UInt8.ofNat (0x80 + c / 0x40 % 0x40)) (d := UInt8.ofNat (0x80 + c % 0x40))
      (by unfold Lead3; omega) ⟨by omega, by omega⟩
    rwa [e1, e2, e3, show ((0xE0 + c / 0x1000 - 0xE0) * 64 + (0x80 + c / 0x40 % 0x40 - 0x80)) * 64 + (0x80 + c % 0x40 - 0x80) = c by omega] at this
  · have e1 : (UInt8.ofNat (0xF0 + c / 0x40000)).toNat = 0xF0 + c / 0x40000 := toNat_ofNat_lt (by omega)
    have e2 : (UInt8.ofNat (0x80 + c / 0x1000 % 0x40)).toNat = 0x80 + c / 0x1000 % 0x40 := toNat_ofNat_lt (by omega)
    have e3 : (UInt8.ofNat (0x80 + c / 0x40 % 0x40)).toNat = 0x80 + c / 0x40 % 0x40 := toNat_ofNat_lt (by omega)
    have e4 : (UInt8.ofNat (0x80 + c % 0x40)).toNat = 0x80 + c % 0x40 := toNat_ofNat_lt (by omega)
    have := Shape.four (a := UInt8.ofNat (0xF0 + c / 0x40000)) (b := UInt8.ofNat (0x80 + c / 0x1000 % 0x40)) (d := UInt8.ofNat (0x80 + c / 0x40 % 0x40))
      (e := UInt8.ofNat (0x80 + c % 0x40)) (by unfold Lead4; omega) ⟨by omega, by omega⟩ ⟨by omega, by omega⟩
    rwa [e1, e2, e3, e4, show (((0xF0 + c / 0x40000 - 0xF0) * 64 + (0x80 + c / 0x1000 % 0x40 - 0x80)) * 64 + (0x80 + c / 0x40 % 0x40 - 0x80)) * 64 +
      (0x80 + c % 0x40 - 0x80) = c by omega] at this

/-- Table 3-7 lists exactly the UTF-8 forms of the scalar values. -/
theorem table37_iff (s : Str) : Table37 s ↔ ∃ c, Scalar c ∧ utf8 c = s := by
  constructor
  · intro h
    suffices ∃ c, Shape c s by
      obtain ⟨c, hc⟩ := this
      exact ⟨c, (shape_utf8 hc).2, (shape_utf8 hc).1⟩
    cases h with
    | r1 h => exact ⟨_, Shape.one (by omega)⟩
    | r2 h1 h2 h3 h4 => exact ⟨_, Shape.two h1 h2 ⟨h3, h4⟩⟩
    | r3 h1 h2 h3 h4 h5 => exact ⟨_, Shape.three (by unfold Lead3; omega) ⟨h4, h5⟩⟩
    | r4 h0 h1 h2 h3 h4 h5 => exact ⟨_, Shape.three (by unfold Lead3; omega) ⟨h4, h5⟩⟩
    | r5 h1 h2 h3 h4 h5 => exact ⟨_, Shape.three (by unfold Lead3; omega) ⟨h4, h5⟩⟩
    | r6 h0 h1 h2 h3 h4 h5 => exact ⟨_, Shape.three (by unfold Lead3; omega) ⟨h4, h5⟩⟩
    | r7 h1 h2 h3 h4 h5 h6 h7 => exact ⟨_, Shape.four (by unfold Lead4; omega) ⟨h4, h5⟩ ⟨h6, h7⟩⟩
    | r8 h0 h1 h2 h3 h4 h5 h6 h7 => exact ⟨_, Shape.four (by unfold Lead4; omega) ⟨h4, h5⟩ ⟨h6, h7⟩⟩
    | r9 h1 h2 h3 h4 h5 h6 h7 => exact ⟨_, Shape.four (by unfold Lead4; omega) ⟨h4, h5⟩ ⟨h6, h7⟩⟩
  · rintro ⟨c, hc, h⟩
    have hsh := utf8_shape hc
    rw [h] at hsh
    clear h
    cases hsh with
    | one h => exact .r1 (by omega)
    | two h1 h2 h3 => exact .r2 h1 h2 h3.1 h3.2
    | @three a b d h1 h2 =>
      rcases h1 with ⟨h, h3, h4⟩ | ⟨h, h3, h4⟩ | ⟨h, h', h'', h3, h4⟩
      · exact .r3 h h3 h4 h2.1 h2.2
      · exact .r5 h h3 h4 h2.1 h2.2
      · by_cases hh : a.toNat ≤ 0xEC
        · exact .r4 h hh h3 h4 h2.1 h2.2
        · exact .r6 (by omega) h' h3 h4 h2.1 h2.2
    | four h1 h2 h5 =>
      rcases h1 with ⟨h, h3, h4⟩ | ⟨h, h', h3, h4⟩ | ⟨h, h3, h4⟩
      · exact .r7 h h3 h4 h2.1 h2.2 h5.1 h5.2
      · exact .r8 h h' h3 h4 h2.1 h2.2 h5.1 h5.2
      · exact .r9 h h3 h4 h2.1 h2.2 h5.1 h5.2

/-! ### The encoder -/

theorem isSurrogate_iff (c : Nat) : isSurrogate c = true ↔ 0xD800 ≤ c ∧ c ≤ 0xDFFF := by
  simp [isSurrogate, isHighSurrogate, isLowSurrogate]; omega

theorem isSurrogate_false (c : Nat) (h : Scalar c) : isSurrogate c = false := by
  have := isSurrogate_iff c
  unfold Scalar at h
  cases hb : isSurrogate c with
  | false => rfl
  | true => rw [hb] at this; have := this.1 rfl; omega

theorem step32to8_scalar (f : Nat) (wf : Bool) (c : Nat) (h : Scalar c) : step32to8 (f + 1) wf c = .ok (wf, utf8 c) := by
  have hs := isSurrogate_false c h
  unfold Scalar at h
  unfold step32to8 utf8
  by_cases h1 : c < 0x80
  · rw [if_pos h1, if_pos h1]
  rw [if_neg h1, if_neg h1]
  by_cases h2 : c < 0x800
  · rw [if_pos h2, if_pos h2, write2, shr6, and_3f, or_c0 _ (by omega), or_80 _ (by omega)]
  rw [if_neg h2, if_neg h2, hs]
  simp only [Bool.false_eq_true, if_false]
  by_cases h3 : c < 0x10000
  · rw [if_pos h3, if_pos h3, write3, shr6, shr12, and_3f, and_3f, or_e0 _ (by omega), or_80 _ (by omega), or_80 _ (by omega)]
  rw [if_neg h3, if_neg h3, if_pos (by unfold maxCodePoint; omega), write4, shr6, shr12, shr18, and_3f, and_3f, and_3f, or_f0 _ (by omega),
    or_80 _ (by omega), or_80 _ (by omega), or_80 _ (by omega)]

/-- What a value is replaced by. -/
def fixCp (c : Nat) : Nat := if Scalar c then c else 0xFFFD

theorem fixCp_scalar (c : Nat) : Scalar (fixCp c) := by
  unfold fixCp; split
  · assumption
  · decide

theorem step32to8_eq (wf : Bool) (c : Nat) : step32to8 2 wf c = .ok (wf && decide (Scalar c), utf8 (fixCp c)) := by
  by_cases h : Scalar c
  · rw [step32to8_scalar 1 wf c h]
    simp [h, fixCp]
  · have hr : Scalar replacementChar := by decide
    have e := step32to8_scalar 0 false replacementChar hr
    have h' := h
    unfold Scalar at h'
    simp only [fixCp, if_neg h, h, decide_false, Bool.and_false]
    rw [step32to8, if_neg (by omega), if_neg (by omega)]
    by_cases hs : isSurrogate c = true
    · rw [if_pos hs, e]; rfl
    · have := mt (isSurrogate_iff c).2 hs
      rw [if_neg hs, if_neg (by omega), if_neg (by unfold maxCodePoint; omega), e]; rfl

theorem feed_cons {ι ο : Type} {T : Transcoder ι ο} {st st' st'' : T.σ} {c : ι} {s : List ι} {o os : List ο}
    (h : T.step st c = .ok (st', o)) (h' : T.feed st' s = .ok (st'', os)) : T.feed st (c :: s) = .ok (st'', o ++ os) := by
  simp only [Transcoder.feed, h, bind, Except.bind, h']

theorem feed_one {ι ο : Type} {T : Transcoder ι ο} {st st' : T.σ} {c : ι} {o : List ο}
    (h : T.step st c = .ok (st', o)) : T.feed st [c] = .ok (st', o) := by
  simp only [Transcoder.feed, h, bind, Except.bind, List.append_nil]

theorem feed_append {ι ο : Type} {T : Transcoder ι ο} : ∀ {st st' st'' : T.σ} {s t : List ι} {o os : List ο},
    T.feed st s = .ok (st', o) → T.feed st' t = .ok (st'', os) → T.feed st (s ++ t) = .ok (st'', o ++ os) := by
  intro st st' st'' s
  induction s generalizing st with
  | nil =>
    intro t o os h h'
    simp only [Transcoder.feed, Except.ok.injEq, Prod.mk.injEq] at h
    obtain ⟨rfl, rfl⟩ := h
    exact h'
  | cons c s ih =>
    intro t o os h h'
    simp only [Transcoder.feed, bind, Except.bind] at h
    split at h
    · simp at h
    · rename_i v hv
      split at h
      · simp at h
      · rename_i w hw
        simp only [Except.ok.injEq, Prod.mk.injEq] at h
        obtain ⟨rfl, rfl⟩ := h
        rw [List.cons_append, List.append_assoc]
        exact feed_cons hv (ih hw h')

theorem run_of_feed {ι ο : Type} {T : Transcoder ι ο} {st st' : T.σ} {s : List ι} {o e : List ο}
    (h : T.feed T.init s = .ok (st, o)) (h' : T.endCp st = .ok (st', e)) : T.run s = .ok (st', o ++ e) := by
  simp only [Transcoder.run, h, bind, Except.bind, h']

theorem feed32to8 (cs : List Nat) : ∀ wf : Bool, t32_8.feed wf cs = .ok ((wf && cs.all fun c => decide (Scalar c)), (cs.map fixCp).flatMap utf8) := by
  induction cs with
  | nil => intro wf; simp [Transcoder.feed]
  | cons c cs ih =>
    intro wf
    have e : t32_8.step wf c = .ok ((wf && decide (Scalar c)), utf8 (fixCp c)) := step32to8_eq wf c
    refine (feed_cons e (ih _)).trans ?_
    simp [List.flatMap_cons, Bool.and_assoc]

theorem run32to8 (cs : List Nat) : t32_8.run cs = .ok ((cs.all fun c => decide (Scalar c)), (cs.map fixCp).flatMap utf8) := by
  have h : t32_8.feed t32_8.init cs = .ok ((cs.all fun c => decide (Scalar c)), (cs.map fixCp).flatMap utf8) := by
    have := feed32to8 cs true
    rwa [Bool.true_and] at this
  refine (run_of_feed h rfl).trans ?_
  rw [List.append_nil]

/-! ### The decoder -/

/-- The classes of bytes in the first part of `utf8d_`. -/
def cls (b : Nat) : Nat :=
  if b < 0x80 then 0 else if b < 0x90 then 1 else if b < 0xA0 then 9 else if b < 0xC0 then 7 else if b < 0xC2 then 8
  else if b < 0xE0 then 2 else if b = 0xE0 then 10 else if b = 0xED then 4 else if b < 0xF0 then 3 else if b = 0xF0 then 11
  else if b < 0xF4 then 6 else if b = 0xF4 then 5 else 8

theorem utf8At_byte (b : UInt8) : utf8At b.toNat = .ok (cls b.toNat) := by
  have := forall_byte (P := fun b => decide (utf8At b.toNat = .ok (cls b.toNat))) (by decide +kernel) b
  simpa using this

/-- The code point begun by a first byte. -/
def firstCp (b : Nat) : Nat :=
  if b < 0x80 then b else if b < 0xC2 then (0xFF >>> cls b) &&& b else if b < 0xE0 then b - 0xC0 else if b < 0xF0 then b - 0xE0
  else if b < 0xF5 then b - 0xF0 else (0xFF >>> cls b) &&& b

theorem firstCp_eq (b : UInt8) : (0xFF >>> cls b.toNat) &&& b.toNat = (if b.toNat = 0xE0 ∨ b.toNat = 0xF0 then 0 else firstCp b.toNat) ∧
    (b.toNat = 0xE0 ∨ b.toNat = 0xF0 → firstCp b.toNat = 0) ∧ firstCp b.toNat < 2 ^ 21 := by
  have := forall_byte (P := fun b => decide ((0xFF >>> cls b.toNat) &&& b.toNat = (if b.toNat = 0xE0 ∨ b.toNat = 0xF0 then 0 else firstCp b.toNat) ∧
    (b.toNat = 0xE0 ∨ b.toNat = 0xF0 → firstCp b.toNat = 0) ∧ firstCp b.toNat < 2 ^ 21)) (by decide +kernel) b
  exact of_decide_eq_true this

theorem firstCp_mod (b : UInt8) : ((0xFF >>> cls b.toNat) &&& b.toNat) % 2 ^ 21 = firstCp b.toNat := by
  obtain ⟨h1, h2, h3⟩ := firstCp_eq b
  rw [h1]
  split
  · rename_i h; rw [h2 h]
  · exact Nat.mod_eq_of_lt h3

theorem cls_lt (b : Nat) : cls b < 12 := by
  unfold cls; repeat' split
  all_goals omega

/-- The transitions. -/
def trans (s k : Nat) : Nat :=
  if s = 0 then (if k = 0 then 0 else if k = 2 then 24 else if k = 3 then 36 else if k = 4 then 60 else if k = 5 then 96
    else if k = 6 then 84 else if k = 10 then 48 else if k = 11 then 72 else 12)
  else if s = 24 then (if k = 1 ∨ k = 7 ∨ k = 9 then 0 else 12)
  else if s = 36 then (if k = 1 ∨ k = 7 ∨ k = 9 then 24 else 12)
  else if s = 48 then (if k = 7 then 24 else 12)
  else if s = 60 then (if k = 1 ∨ k = 9 then 24 else 12)
  else if s = 72 then (if k = 7 ∨ k = 9 then 36 else 12)
  else if s = 84 then (if k = 1 ∨ k = 7 ∨ k = 9 then 36 else 12)
  else if s = 96 then (if k = 1 then 36 else 12)
  else 12

/-- The states between code units. -/
def Live (s : Nat) : Prop := s = 0 ∨ s = 12 ∨ s = 24 ∨ s = 36 ∨ s = 48 ∨ s = 60 ∨ s = 72 ∨ s = 84 ∨ s = 96

theorem utf8At_trans (s k : Nat) (hs : Live s) (hk : k < 12) : utf8At (256 + s + k) = .ok (trans s k) := by
  have : ∀ s ∈ [0, 12, 24, 36, 48, 60, 72, 84, 96], ∀ k < 12, utf8At (256 + s + k) = .ok (trans s k) := by decide +kernel
  refine this s ?_ k hk
  rcases hs with rfl | rfl | rfl | rfl | rfl | rfl | rfl | rfl | rfl <;> decide

theorem trans_live (s k : Nat) : Live (trans s k) := by
  unfold trans Live; repeat' split
  all_goals simp

/-- The code point after a byte. -/
def nextCp (s cp b : Nat) : Nat := if s ≠ 0 then (cp * 64 + b % 64) % 2 ^ 21 else firstCp b

theorem step8_eq (st : St8) (b : UInt8) (h : Live st.state) : step8to32 st b =
    .ok (if trans st.state (cls b.toNat) = 0 then (⟨nextCp st.state st.codePoint b.toNat, st.wf, 0⟩, [nextCp st.state st.codePoint b.toNat])
      else if trans st.state (cls b.toNat) = 12 then (⟨nextCp st.state st.codePoint b.toNat, false, 0⟩, [0xFFFD])
      else (⟨nextCp st.state st.codePoint b.toNat, st.wf, trans st.state (cls b.toNat)⟩, [])) := by
  have hcp : (if st.state ≠ accept then (b.toNat &&& 0x3F) ||| (st.codePoint <<< 6) else (0xFF >>> cls b.toNat) &&& b.toNat) % 2 ^ 21 =
      nextCp st.state st.codePoint b.toNat := by
    unfold nextCp accept
    split
    · rw [and_3f, or_high _ _ 6 (Nat.mod_lt _ (by decide))]
    · exact firstCp_mod b
  have hm : trans st.state (cls b.toNat) % 2 ^ 8 = trans st.state (cls b.toNat) := by
    have := trans_live st.state (cls b.toNat)
    unfold Live at this
    omega
  unfold step8to32
  simp only [bind, Except.bind, utf8At_byte, utf8At_trans _ _ h (cls_lt _), hcp, hm]
  unfold accept reject replacementChar
  split
  · rename_i h1; rw [h1]
  · split <;> rfl

/-- A beginning of a sequence with the state and the code point it leads to. -/
inductive Pend : Str → Nat → Nat → Prop
  | two {a : UInt8} : 0xC2 ≤ a.toNat → a.toNat ≤ 0xDF → Pend [a] 24 (a.toNat - 0xC0)
  | e0 {a : UInt8} : a.toNat = 0xE0 → Pend [a] 48 0
  | e {a : UInt8} : 0xE1 ≤ a.toNat → a.toNat ≤ 0xEF → a.toNat ≠ 0xED → Pend [a] 36 (a.toNat - 0xE0)
  | ed {a : UInt8} : a.toNat = 0xED → Pend [a] 60 0xD
  | f0 {a : UInt8} : a.toNat = 0xF0 → Pend [a] 72 0
  | f {a : UInt8} : 0xF1 ≤ a.toNat → a.toNat ≤ 0xF3 → Pend [a] 84 (a.toNat - 0xF0)
  | f4 {a : UInt8} : a.toNat = 0xF4 → Pend [a] 96 4
  | three {a b : UInt8} : Lead3 a b → Pend [a, b] 24 ((a.toNat - 0xE0) * 64 + (b.toNat - 0x80))
  | four {a b : UInt8} : Lead4 a b → Pend [a, b] 36 ((a.toNat - 0xF0) * 64 + (b.toNat - 0x80))
  | four' {a b d : UInt8} : Lead4 a b → Cont d → Pend [a, b, d] 24 (((a.toNat - 0xF0) * 64 + (b.toNat - 0x80)) * 64 + (d.toNat - 0x80))

theorem Pend.live {p s cp} (h : Pend p s cp) : Live s ∧ s ≠ 0 ∧ s ≠ 12 := by
  unfold Live
  cases h <;> simp

/-- Beginnings that lead to a state are those of Unicode. -/
theorem truncated_iff (p : Str) : Truncated p ↔ ∃ s cp, Pend p s cp := by
  constructor
  · rintro ⟨hp, c, q, hc, hq, h⟩
    obtain ⟨t, hs, h⟩ : ∃ t, Shape c t ∧ t = p ++ q := ⟨_, utf8_shape hc, h⟩
    clear hc
    match p, hp with
    | [a], _ =>
      cases hs with
      | one h1 => simp at h; exact absurd h.2 hq
      | two h1 h2 h3 => simp only [List.cons_append, List.cons.injEq] at h; obtain ⟨rfl, -⟩ := h; exact ⟨_, _, .two h1 h2⟩
      | three h1 h2 =>
        simp only [List.cons_append, List.cons.injEq] at h; obtain ⟨rfl, -⟩ := h
        rcases h1 with ⟨h, h3, h4⟩ | ⟨h, h3, h4⟩ | ⟨h, h', h'', h3, h4⟩
        · exact ⟨_, _, .e0 h⟩
        · exact ⟨_, _, .ed h⟩
        · exact ⟨_, _, .e h h' h''⟩
      | four h1 h2 h5 =>
        simp only [List.cons_append, List.cons.injEq] at h; obtain ⟨rfl, -⟩ := h
        rcases h1 with ⟨h, h3, h4⟩ | ⟨h, h', h3, h4⟩ | ⟨h, h3, h4⟩
        · exact ⟨_, _, .f0 h⟩
        · exact ⟨_, _, .f h h'⟩
        · exact ⟨_, _, .f4 h⟩
    | [a, b], _ =>
      cases hs with
      | one h1 => simp at h
      | two h1 h2 h3 => simp at h; exact absurd h.2.2 hq
      | three h1 h2 => simp only [List.cons_append, List.cons.injEq] at h; obtain ⟨rfl, rfl, -⟩ := h; exact ⟨_, _, .three h1⟩
      | four h1 h2 h3 => simp only [List.cons_append, List.cons.injEq] at h; obtain ⟨rfl, rfl, -⟩ := h; exact ⟨_, _, .four h1⟩
    | [a, b, d], _ =>
      cases hs with
      | one h1 => simp at h
      | two h1 h2 h3 => simp at h
      | three h1 h2 => simp at h; exact absurd h.2.2.2 hq
      | four h1 h2 h3 => simp only [List.cons_append, List.cons.injEq] at h; obtain ⟨rfl, rfl, rfl, -⟩ := h; exact ⟨_, _, .four' h1 h2⟩
    | a :: b :: d :: e :: r, _ =>
      cases hs with
      | one h1 => simp at h
      | two h1 h2 h3 => simp at h
      | three h1 h2 => simp at h
      | four h1 h2 h3 => simp at h; exact absurd h.2.2.2.2.2 hq
  · rintro ⟨s, cp, h⟩
    have c80 : Cont 0x80 := by unfold Cont; decide
    have key : ∀ c t, Shape c t → ∀ q, q ≠ [] → t = p ++ q → p ≠ [] → Truncated p := by
      intro c t hs q hq he hp
      exact ⟨hp, c, q, (shape_utf8 hs).2, hq, (shape_utf8 hs).1.trans he⟩
    cases h with
    | two h1 h2 => exact key _ _ (.two h1 h2 c80) [0x80] (by simp) rfl (by simp)
    | e0 h => exact key _ _ (.three (b := 0xA0) (d := 0x80) (Or.inl ⟨h, by decide, by decide⟩) c80) [0xA0, 0x80] (by simp) rfl (by simp)
    | e h h' h'' => exact key _ _ (.three (b := 0x80) (d := 0x80) (Or.inr (Or.inr ⟨h, h', h'', by decide, by decide⟩)) c80) [0x80, 0x80] (by simp) rfl (by simp)
    | ed h => exact key _ _ (.three (b := 0x80) (d := 0x80) (Or.inr (Or.inl ⟨h, by decide, by decide⟩)) c80) [0x80, 0x80] (by simp) rfl (by simp)
    | f0 h => exact key _ _ (.four (b := 0x90) (d := 0x80) (e := 0x80) (Or.inl ⟨h, by decide, by decide⟩) c80 c80) [0x90, 0x80, 0x80] (by simp) rfl (by simp)
    | f h h' => exact key _ _ (.four (b := 0x80) (d := 0x80) (e := 0x80) (Or.inr (Or.inl ⟨h, h', by decide, by decide⟩)) c80 c80) [0x80, 0x80, 0x80] (by simp) rfl (by simp)
    | f4 h => exact key _ _ (.four (b := 0x80) (d := 0x80) (e := 0x80) (Or.inr (Or.inr ⟨h, by decide, by decide⟩)) c80 c80) [0x80, 0x80, 0x80] (by simp) rfl (by simp)
    | three h => exact key _ _ (.three h c80) [0x80] (by simp) rfl (by simp)
    | four h => exact key _ _ (.four h c80 c80) [0x80, 0x80] (by simp) rfl (by simp)
    | four' h h' => exact key _ _ (.four h h' c80) [0x80] (by simp) rfl (by simp)

end Verif.Icu
