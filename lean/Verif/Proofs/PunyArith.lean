import Verif.Model.Punycode
import Verif.Spec.Punycode
import Verif.Proofs.Pct

/-!
# Punycode: thresholds, digits, variable-length integers, bias
-/

namespace Verif.Puny
open Rfc3492 (threshold Vli Spells DigitVal)

set_option linter.unusedSimpArgs false

theorem thr_pos (k bias : Nat) : 1 ≤ threshold k bias := by unfold threshold; split <;> (try split) <;> omega
theorem thr_le (k bias : Nat) : threshold k bias ≤ 26 := by unfold threshold; split <;> (try split) <;> omega

/-- A bias that cannot wrap. -/
def SmallBias (b : Nat) : Prop := b < 10000

theorem clamp_eq (k bias : Nat) (h : SmallBias bias) : clamp k bias = threshold k bias := by
  unfold SmallBias at h
  have : (bias + tmax) % szMod = bias + 26 := by
    show (bias + 26) % szMod = _; exact Nat.mod_eq_of_lt (by unfold szMod; omega)
  simp only [clamp, threshold, this]; rfl

theorem clampk_eq (k bias : Nat) (h : SmallBias bias) : clampk k bias = threshold k bias := clamp_eq k bias h

/-! ### Bias -/

theorem adaptLoop_eq : ∀ (j fuel delta k : Nat), delta < 35 ^ j → delta < fuel → k + 36 * j < 2 ^ 30 →
    adaptLoop fuel delta k = .ok (Rfc3492.adaptLoop delta k) ∧ Rfc3492.adaptLoop delta k ≤ k + 36 * j + 36 := by
  intro j
  induction j with
  | zero =>
    intro fuel delta k h1 h2 h3
    have : delta = 0 := by simpa using h1
    subst this
    obtain ⟨f, rfl⟩ : ∃ f, fuel = f + 1 := ⟨fuel - 1, by omega⟩
    rw [adaptLoop, Rfc3492.adaptLoop]
    simp [skew, szMod]
    omega
  | succ j ih =>
    intro fuel delta k h1 h2 h3
    obtain ⟨f, rfl⟩ : ∃ f, fuel = f + 1 := ⟨fuel - 1, by omega⟩
    rw [adaptLoop, Rfc3492.adaptLoop]
    have e1 : ((base - tmin) * tmax) / 2 = 455 := rfl
    have e2 : base - tmin = 35 := rfl
    rw [e1, e2]
    by_cases hd : delta > 455
    · simp only [hd, if_true]
      have hb : (k + base) % u32Mod = k + 36 := Nat.mod_eq_of_lt (by unfold base u32Mod; omega)
      rw [hb]
      have := ih f (delta / 35) (k + 36) (by rw [Nat.pow_succ] at h1; omega) (by omega) (by omega)
      exact ⟨this.1, by omega⟩
    · simp only [hd, if_false]
      have hq : 36 * delta / (delta + 38) ≤ 36 := by
        apply Nat.le_of_lt_succ
        rw [Nat.div_lt_iff_lt_mul (by omega)]; omega
      have e3 : ((35 + 1) * delta) % szMod = 36 * delta := Nat.mod_eq_of_lt (by unfold szMod; omega)
      have e4 : (delta + skew) % szMod = delta + 38 := Nat.mod_eq_of_lt (by unfold szMod skew; omega)
      rw [e3, e4, Nat.mod_eq_of_lt (by unfold szMod; omega)]
      exact ⟨rfl, by omega⟩

theorem adapt_eq (delta np : Nat) (first : Bool) (hd : delta < szMod) (hn : 1 ≤ np) :
    adapt delta np first = .ok (Rfc3492.adapt delta np first) ∧ SmallBias (Rfc3492.adapt delta np first) := by
  unfold szMod at hd
  have hsh : delta >>> 1 = delta / 2 := by rw [Nat.shiftRight_eq_div_pow]
  simp only [adapt, Rfc3492.adapt, hsh, damp]
  generalize hx : (if first = true then delta / 700 else delta / 2) = x
  have hxl : x < 2 ^ 63 := by subst hx; split <;> omega
  have hdv : x / np ≤ x := Nat.div_le_self _ _
  have hm : (x + x / np) % szMod = x + x / np := Nat.mod_eq_of_lt (by unfold szMod; omega)
  rw [hm]
  have := adaptLoop_eq 13 (x + x / np + 1) (x + x / np) 0 (Nat.lt_of_lt_of_le (m := 2 ^ 64) (by omega) (by decide)) (by omega) (by omega)
  exact ⟨this.1, by unfold SmallBias; omega⟩

/-! ### Digits -/

/-- The lower-case digit of a value. -/
def digB (d : Nat) : UInt8 := Rfc3492.lowerAlphabet.getD d 0

theorem encodeDigit_eq (d : Nat) (h : d < 36) : encodeDigit d = .ok (digB d) := by
  have : ∀ d, d < 36 → encodeDigit d = .ok (digB d) := by decide +kernel
  exact this d h

theorem digitVal_lt {c : UInt8} {d : Nat} (h : DigitVal c d) : d < 36 := by
  rcases h with h | h <;>
  · rcases Nat.lt_or_ge d 36 with h1 | h1
    · exact h1
    · rw [List.getElem?_eq_none (by simpa [Rfc3492.lowerAlphabet, Rfc3492.upperAlphabet] using h1)] at h; simp at h

theorem digitVal_iff (c : UInt8) (d : Nat) : DigitVal c d ↔ decodeDigit c < 36 ∧ d = decodeDigit c := by
  have key := fun hv => forall_byte2 (n := 36)
    (P := fun c v => (decide (Rfc3492.lowerAlphabet[v]? = some c) || decide (Rfc3492.upperAlphabet[v]? = some c)) ==
      (decide (decodeDigit c < 36) && decide (v = decodeDigit c))) (by decide +kernel) c d hv
  constructor
  · intro h
    have := key (digitVal_lt h)
    rw [beq_iff_eq, Bool.eq_iff_iff] at this
    simp only [Bool.or_eq_true, Bool.and_eq_true, decide_eq_true_eq] at this
    exact this.1 h
  · rintro ⟨h1, h2⟩
    have := key (by omega)
    rw [beq_iff_eq, Bool.eq_iff_iff] at this
    simp only [Bool.or_eq_true, Bool.and_eq_true, decide_eq_true_eq] at this
    exact this.2 ⟨h1, h2⟩

theorem decodeDigit_le (c : UInt8) : decodeDigit c ≤ 36 := by
  have := forall_byte (P := fun c => decide (decodeDigit c ≤ 36)) (by decide +kernel) c
  simpa using this

theorem digB_lower (c : UInt8) (h : decodeDigit c < 36) : digB (decodeDigit c) = Rfc3492.lowerDigit c := by
  have := forall_byte (P := fun c => decide (¬ decodeDigit c < 36 ∨ digB (decodeDigit c) = Rfc3492.lowerDigit c)) (by decide +kernel) c
  simp only [decide_eq_true_eq] at this
  exact this.resolve_left (fun k => k h)

theorem digB_val (d : Nat) (h : d < 36) : DigitVal (digB d) d ∧ decodeDigit (digB d) = d ∧ digB d ≠ 0x2D := by
  have : ∀ d, d < 36 → decodeDigit (digB d) = d ∧ digB d ≠ 0x2D := by decide +kernel
  exact ⟨(digitVal_iff _ _).2 ⟨by rw [(this d h).1]; exact h, (this d h).1.symm⟩, this d h⟩

/-! ### Variable-length integers -/

/-- The digits of a variable-length integer. -/
def vliD (bias k q : Nat) : List Nat :=
  if q < threshold k bias then [q]
  else (threshold k bias + (q - threshold k bias) % (36 - threshold k bias)) ::
    vliD bias (k + 36) ((q - threshold k bias) / (36 - threshold k bias))
termination_by q
decreasing_by
  have := thr_pos k bias
  have := thr_le k bias
  exact Nat.lt_of_le_of_lt (Nat.div_le_self _ _) (by omega)

theorem vliD_vli (bias k q : Nat) : Vli bias k (vliD bias k q) q := by
  induction q using Nat.strongRecOn generalizing k with
  | _ q ih =>
    have h1 := thr_pos k bias
    have h2 := thr_le k bias
    rw [vliD]
    split
    · rename_i h; exact .last h
    · rename_i h
      generalize ht : threshold k bias = t at *
      have hlt : (q - t) / (36 - t) < q := Nat.lt_of_le_of_lt (Nat.div_le_self _ _) (by omega)
      have hm : (q - t) % (36 - t) < 36 - t := Nat.mod_lt _ (by omega)
      have := Vli.more (bias := bias) (k := k) (d := t + (q - t) % (36 - t)) (by omega) (by omega) (ih _ hlt (k + 36))
      have e : t + (q - t) % (36 - t) + (36 - threshold k bias) * ((q - t) / (36 - t)) = q := by
        rw [ht]
        have := Nat.div_add_mod (q - t) (36 - t)
        omega
      rw [e] at this
      exact this

theorem vli_unique {bias k ds q} (h : Vli bias k ds q) : ds = vliD bias k q := by
  induction h with
  | last h => rw [vliD, if_pos h]
  | @more k d ds v h1 h2 _ ih =>
    have t1 := thr_pos k bias
    have t2 := thr_le k bias
    rw [vliD, if_neg (by omega)]
    generalize threshold k bias = t at *
    have e : d + (36 - t) * v - t = (d - t) + (36 - t) * v := by omega
    rw [e, Nat.add_mul_mod_self_left, Nat.add_mul_div_left _ _ (by omega), Nat.mod_eq_of_lt (by omega), Nat.div_eq_of_lt (by omega),
      Nat.zero_add, ← ih]
    congr 1; omega

theorem vli_digits_lt {bias k ds q} (h : Vli bias k ds q) : ∀ d ∈ ds, d < 36 := by
  induction h with
  | @last k d' h => intro d hd; simp at hd; subst hd; have := thr_le k bias; omega
  | more h1 h2 _ ih =>
    intro x hx
    rcases List.mem_cons.1 hx with rfl | hx
    · exact h2
    · exact ih x hx

/-- The text of a variable-length integer. -/
def vliText (bias q : Nat) : Str := (vliD bias 36 q).map digB

theorem encodeVliLoop_eq (bias : Nat) (hb : SmallBias bias) : ∀ (fuel j k q : Nat), q < fuel → q * 10 ^ j < szMod → k = 36 * (j + 1) →
    encodeVliLoop bias fuel k q = .ok ((vliD bias k q).map digB) := by
  intro fuel
  induction fuel with
  | zero => intro j k q h; omega
  | succ f ih =>
    intro j k q hq hj hk
    have h1 := thr_pos k bias
    have h2 := thr_le k bias
    rw [encodeVliLoop, vliD, clamp_eq k bias hb]
    by_cases h : q < threshold k bias
    · simp only [h, if_true]
      rw [Nat.mod_eq_of_lt (by unfold u32Mod; omega), encodeDigit_eq _ (by omega)]
      rfl
    · simp only [h, if_false]
      generalize ht : threshold k bias = t at *
      have eb : base = 36 := rfl
      have hm : (q - t) % (36 - t) < 36 - t := Nat.mod_lt _ (by omega)
      have hj20 : j < 20 := by
        rcases Nat.lt_or_ge j 20 with h' | h'
        · exact h'
        · have : 10 ^ 20 ≤ 10 ^ j := Nat.pow_le_pow_right (by omega) h'
          have : 1 * 10 ^ j ≤ q * 10 ^ j := Nat.mul_le_mul_right _ (by omega)
          unfold szMod at hj
          omega
      have hq' : (q - t) / (36 - t) * 10 ≤ q := by
        have h3 : (q - t) / (36 - t) * (36 - t) ≤ q - t := Nat.div_mul_le_self _ _
        have h4 : (q - t) / (36 - t) * 10 ≤ (q - t) / (36 - t) * (36 - t) := Nat.mul_le_mul_left _ (by omega)
        omega
      have hk' : (k + base) % u32Mod = 36 * (j + 1 + 1) := by
        rw [Nat.mod_eq_of_lt (by unfold u32Mod base; omega)]; unfold base; omega
      have hpow : (q - t) / (36 - t) * 10 ^ (j + 1) < szMod := by
        rw [Nat.pow_succ, Nat.mul_comm (10 ^ j) 10, ← Nat.mul_assoc]
        exact Nat.lt_of_le_of_lt (Nat.mul_le_mul_right _ hq') hj
      have hlt : (q - t) / (36 - t) < q := Nat.lt_of_le_of_lt (Nat.div_le_self _ _) (by omega)
      have := ih (j + 1) _ ((q - t) / (36 - t)) (by omega) hpow hk'
      rw [if_neg (by omega), eb, Nat.mod_eq_of_lt (by unfold u32Mod; omega), encodeDigit_eq _ (by omega)]
      rw [eb] at this
      simp only [bind, Except.bind, this, List.map_cons]
      rw [show (k + 36) % u32Mod = k + 36 from Nat.mod_eq_of_lt (by unfold u32Mod; omega)]

theorem encodeVli_eq (q bias : Nat) (hb : SmallBias bias) (hq : q < szMod) : encodeVli q bias = .ok (vliText bias q) := by
  rw [encodeVli]; exact encodeVliLoop_eq bias hb _ 0 _ q (by omega) (by simpa using hq) rfl

theorem vliText_ne_nil (bias q : Nat) : vliText bias q ≠ [] := by
  unfold vliText; rw [vliD]; split <;> simp

/-- What `decode_vli` returns: success means that a variable-length integer was read, and the value
did not overflow. -/
theorem decodeVliLoop_sound (bias : Nat) (hb : SmallBias bias) : ∀ (input : Str) (j w k vli : Nat), 10 ^ j ≤ w → w ≤ szMax → vli ≤ szMax →
    k = 36 * (j + 1) →
    (∃ e, decodeVliLoop bias input w k vli = .ok (.error e)) ∨
    ∃ txt rest ds x, decodeVliLoop bias input w k vli = .ok (.ok (vli + w * x, rest)) ∧ input = txt ++ rest ∧ txt ≠ [] ∧ Spells txt ds ∧
      Vli bias k ds x ∧ vli + w * x ≤ szMax := by
  intro input
  induction input with
  | nil => intro j w k vli _ _ _ _; left; exact ⟨_, rfl⟩
  | cons c input ih =>
    intro j w k vli hj hw hv hk
    have t1 := thr_pos k bias
    have t2 := thr_le k bias
    have hd := decodeDigit_le c
    have hw0 : 0 < w := Nat.lt_of_lt_of_le (Nat.pow_pos (by omega)) hj
    rw [decodeVliLoop, clampk_eq k bias hb]
    simp only
    have eb : base = 36 := rfl
    rw [eb, if_neg (by omega)]
    by_cases h1 : decodeDigit c ≥ 36
    · rw [if_pos h1]; left; exact ⟨_, rfl⟩
    · rw [if_neg h1]
      by_cases h2 : decodeDigit c > (szMax - vli) / w
      · rw [if_pos h2]; left; exact ⟨_, rfl⟩
      · rw [if_neg h2]
        have hdw : decodeDigit c * w ≤ szMax - vli := by
          have := (Nat.le_div_iff_mul_le hw0).1 (Nat.le_of_not_lt h2)
          exact this
        have hdg : DigitVal c (decodeDigit c) := (digitVal_iff c _).2 ⟨by omega, rfl⟩
        have e1 : (vli + decodeDigit c * w % szMod) % szMod = vli + decodeDigit c * w := by
          rw [Nat.mod_eq_of_lt (a := decodeDigit c * w) (by unfold szMax at *; unfold szMod; omega)]
          exact Nat.mod_eq_of_lt (by unfold szMax at *; unfold szMod; omega)
        rw [e1]
        by_cases h3 : decodeDigit c < threshold k bias
        · rw [if_pos h3]
          right
          refine ⟨[c], input, [decodeDigit c], decodeDigit c, by rw [Nat.mul_comm], rfl, by simp, .cons hdg .nil, .last h3, ?_⟩
          rw [Nat.mul_comm]; omega
        · rw [if_neg h3]
          by_cases h4 : w > szMax / (36 - threshold k bias)
          · rw [if_pos h4]; left; exact ⟨_, rfl⟩
          · rw [if_neg h4]
            generalize ht : threshold k bias = t at *
            have hww : w * (36 - t) ≤ szMax := (Nat.le_div_iff_mul_le (by omega)).1 (Nat.le_of_not_lt h4)
            have hj20 : j < 20 := by
              rcases Nat.lt_or_ge j 20 with h' | h'
              · exact h'
              · have : 10 ^ 20 ≤ 10 ^ j := Nat.pow_le_pow_right (by omega) h'
                unfold szMax at hw
                omega
            have hj' : 10 ^ (j + 1) ≤ w * (36 - t) := by
              rw [Nat.pow_succ]; exact Nat.mul_le_mul hj (by omega)
            rw [Nat.mod_eq_of_lt (a := w * (36 - t)) (by unfold szMax at *; unfold szMod; omega),
              Nat.mod_eq_of_lt (a := k + 36) (by unfold u32Mod; omega)]
            rcases ih (j + 1) (w * (36 - t)) (k + 36) (vli + decodeDigit c * w) hj' hww (by unfold szMax at *; omega) (by omega) with h | h
            · exact Or.inl h
            · right
              obtain ⟨txt, rest, ds, x, g1, g2, g3, g4, g5, g6⟩ := h
              have e2 : vli + decodeDigit c * w + w * (36 - t) * x = vli + w * (decodeDigit c + (36 - t) * x) := by
                rw [Nat.mul_add, Nat.mul_comm w (decodeDigit c), Nat.mul_assoc]; omega
              refine ⟨c :: txt, rest, decodeDigit c :: ds, _, by rw [g1, e2], by rw [g2]; rfl, by simp, .cons hdg g4, ?_, by rw [← e2]; exact g6⟩
              have := Vli.more (bias := bias) (k := k) (d := decodeDigit c) (by omega) (by omega) g5
              rw [ht] at this
              exact this

/-- A variable-length integer whose value is far from the limit is decoded. -/
theorem decodeVliLoop_complete (bias : Nat) (hb : SmallBias bias) {k ds x} (hv : Vli bias k ds x) : ∀ (txt rest : Str) (j w vli : Nat), Spells txt ds →
    10 ^ j ≤ w → w ≤ szMax → k = 36 * (j + 1) → vli + w * x ≤ szMax → 35 * (w * x) ≤ szMax →
    decodeVliLoop bias (txt ++ rest) w k vli = .ok (.ok (vli + w * x, rest)) := by
  induction hv with
  | @last k d h =>
    intro txt rest j w vli hs hj hw hk h1 h2
    cases hs with
    | @cons c _ t _ hd hs =>
      cases hs
      obtain ⟨hd1, hd2⟩ := (digitVal_iff _ _).1 hd
      have hw0 : 0 < w := Nat.lt_of_lt_of_le (Nat.pow_pos (by omega)) hj
      rw [List.cons_append, decodeVliLoop, clampk_eq k bias hb]
      simp only [← hd2, show base = 36 from rfl]
      rw [if_neg (by omega), if_neg (by omega)]
      have e : d * w = w * d := Nat.mul_comm _ _
      rw [if_neg (by
        have := (Nat.le_div_iff_mul_le hw0).2 (show d * w ≤ szMax - vli by omega)
        omega)]
      rw [if_pos h, Nat.mod_eq_of_lt (a := d * w) (by unfold szMax at *; unfold szMod; omega),
        Nat.mod_eq_of_lt (by unfold szMax at *; unfold szMod; omega), e]
      rfl
  | @more k d ds v g1 g2 _ ih =>
    intro txt rest j w vli hs hj hw hk h1 h2
    cases hs with
    | @cons c _ tl _ hd hs =>
      obtain ⟨hd1, hd2⟩ := (digitVal_iff _ _).1 hd
      have hw0 : 0 < w := Nat.lt_of_lt_of_le (Nat.pow_pos (by omega)) hj
      have t1 := thr_pos k bias
      have t2 := thr_le k bias
      rw [List.cons_append, decodeVliLoop, clampk_eq k bias hb]
      simp only [← hd2, show base = 36 from rfl]
      generalize ht : threshold k bias = t at *
      have e : w * (d + (36 - t) * v) = d * w + w * (36 - t) * v := by
        rw [Nat.mul_add, Nat.mul_comm w d, Nat.mul_assoc]
      rw [e] at h1 h2
      have hwd : w * 1 ≤ d * w := by rw [Nat.mul_comm d w]; exact Nat.mul_le_mul_left _ (by omega)
      have hww : w * (36 - t) ≤ 35 * w := by rw [Nat.mul_comm 35]; exact Nat.mul_le_mul_left _ (by omega)
      have hj20 : j < 20 := by
        rcases Nat.lt_or_ge j 20 with h' | h'
        · exact h'
        · have : 10 ^ 20 ≤ 10 ^ j := Nat.pow_le_pow_right (by omega) h'
          unfold szMax at hw
          omega
      have hj' : 10 ^ (j + 1) ≤ w * (36 - t) := by
        rw [Nat.pow_succ]; exact Nat.mul_le_mul hj (by omega)
      rw [if_neg (by omega), if_neg (by omega), if_neg (by
        have := (Nat.le_div_iff_mul_le hw0).2 (show d * w ≤ szMax - vli by omega)
        omega), if_neg (by omega), if_neg (by
        have := (Nat.le_div_iff_mul_le (show 0 < 36 - t by omega)).2 (show w * (36 - t) ≤ szMax by omega)
        omega)]
      rw [Nat.mod_eq_of_lt (a := d * w) (by unfold szMax at *; unfold szMod; omega),
        Nat.mod_eq_of_lt (a := vli + d * w) (by unfold szMax at *; unfold szMod; omega),
        Nat.mod_eq_of_lt (a := w * (36 - t)) (by unfold szMax at *; unfold szMod; omega),
        Nat.mod_eq_of_lt (a := k + 36) (by unfold u32Mod; omega)]
      rw [ih tl rest (j + 1) (w * (36 - t)) (vli + d * w) hs hj' (by omega) (by omega) (by omega) (by omega), e]
      congr 3; omega

end Verif.Puny
