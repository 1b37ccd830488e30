import Verif.Model.InPlace
import Verif.Props.Pct

/-!
# C92: percent coding when text and output are in the same memory
-/

namespace Verif
open PctSpec InPlace
set_option linter.unusedSimpArgs false

/-! ### Specification -/

/-- Memory `m` after the bytes `d` were written to it from position `o` on. -/
def overwrite (m : Str) (o : Nat) (d : Str) : Str := m.take o ++ d ++ m.drop (o + d.length)

/-- What becomes of a text copied onto itself by dereferencing, assigning and incrementing: as long as every triplet denotes something else than
`%`, its byte is followed by its two digits; after the first triplet that denotes `%` the rest is decoded as it should be. -/
inductive CopiedOnto : Str → Str → Prop
  | nil : CopiedOnto [] []
  | copy {c s d} : ¬ StartsTriplet (c :: s) → CopiedOnto s d → CopiedOnto (c :: s) (c :: d)
  | other {h l b s d} : Triplet h l b → b ≠ 0x25 → CopiedOnto s d → CopiedOnto (0x25 :: h :: l :: s) (b :: h :: l :: d)
  | percent {h l s d} : Triplet h l 0x25 → Decodes s d → CopiedOnto (0x25 :: h :: l :: s) (0x25 :: d)

/-- The first triplet of the text, if there is one, denotes `%`. -/
def FirstIsPercent (s : Str) : Prop := ∀ u h l v b, s = u ++ 0x25 :: h :: l :: v → Triplet h l b →
  (∀ u₁ u₂, u = u₁ ++ u₂ → u₂ ≠ [] → ¬ StartsTriplet (u₂ ++ 0x25 :: h :: l :: v)) → b = 0x25

/-- `n` bytes that are `x` and `y` in turn. -/
def turns (x y : UInt8) : Nat → Str
  | 0 => []
  | n + 1 => x :: turns y x n

/-! ### Memory -/

/-- Writing byte by byte. -/
def putAll (m : Str) (o : Nat) : Str → Str
  | [] => m
  | c :: d => putAll (m.set o c) (o + 1) d

theorem putAll_eq : ∀ (d m : Str) (o : Nat), o + d.length ≤ m.length → putAll m o d = overwrite m o d
  | [], m, o, _ => by simp [putAll, overwrite]
  | c :: d, m, o, h => by
    simp only [List.length_cons] at h
    rw [putAll, putAll_eq d _ _ (by simp; omega)]
    simp only [overwrite, List.length_cons]
    rw [List.take_add_one, List.getElem?_set_self (by omega), List.take_set_of_le (by omega), List.drop_set_of_lt (by omega)]
    simp [Nat.add_assoc, Nat.add_comm 1]

theorem putAll_length : ∀ (d m : Str) (o : Nat), (putAll m o d).length = m.length
  | [], m, o => rfl
  | c :: d, m, o => by rw [putAll, putAll_length d]; simp

theorem putAll_append : ∀ (d x y : Str) (o : Nat), o + d.length ≤ x.length → putAll (x ++ y) o d = putAll x o d ++ y
  | [], x, y, o, _ => rfl
  | c :: d, x, y, o, h => by
    simp only [List.length_cons] at h
    rw [putAll, putAll, List.set_append_left _ _ (by omega), putAll_append d _ _ _ (by simp; omega)]

theorem putAll_cat : ∀ (d e m : Str) (o : Nat), putAll m o (d ++ e) = putAll (putAll m o d) (o + d.length) e
  | [], e, m, o => rfl
  | c :: d, e, m, o => by
    rw [List.cons_append, putAll, putAll_cat d, putAll]
    simp [Nat.add_assoc, Nat.add_comm 1]

theorem writeAt_ok {m : Str} {o : Nat} {c : UInt8} (h : o < m.length) : writeAt m o c = .ok (m.set o c) := by simp [writeAt, h]

/-! ### Decoding -/

theorem tripHead_some {c : UInt8} {t : Str} {b : UInt8} (ht : tripHead (c :: t) = some b) : ∃ h l u, c = 0x25 ∧ t = h :: l :: u ∧ Triplet h l b := by
  match t, ht with
  | [], ht => simp [tripHead] at ht
  | [_], ht => simp [tripHead] at ht
  | h :: l :: u, ht =>
    by_cases hh : c = 0x25 ∧ tripletB h l = true
    · simp [tripHead, hh] at ht
      exact ⟨h, l, u, hh.1, rfl, (triplet_iff _ _ _).2 ⟨hh.2, ht.symm⟩⟩
    · rw [tripHead, if_neg hh] at ht; simp at ht

theorem tripHead_triplet {h l b : UInt8} {t : Str} (ht : Triplet h l b) : tripHead (0x25 :: h :: l :: t) = some b := by
  obtain ⟨h1, rfl⟩ := (triplet_iff _ _ _).1 ht
  simp [tripHead, h1]

theorem tripHead_no {s : Str} (h : ¬ StartsTriplet s) : tripHead s = none := by
  rw [starts_iff] at h; simpa using h

theorem hex_not_percent {h l b : UInt8} (ht : Triplet h l b) : h ≠ 0x25 ∧ l ≠ 0x25 := by
  have := ((triplet_iff _ _ _).1 ht).1
  rw [tripletB_iff] at this
  constructor <;> rintro rfl
  · exact absurd this.1 (by decide)
  · exact absurd this.2 (by decide)

/-- One turn of the loop of `std::copy` where the output is behind the text. -/
theorem copyLoop_below : ∀ {t d : Str}, Decodes t d → ∀ (x y : Str) (out fuel : Nat), out < x.length → t.length < fuel →
    copyLoop (x.length + t.length) fuel (x ++ t ++ y) x.length out = .ok (putAll (x ++ t ++ y) out d, out + d.length) := by
  intro t d h
  induction h with
  | nil =>
    intro x y out fuel ho hf
    obtain ⟨f, rfl⟩ : ∃ f, fuel = f + 1 := ⟨fuel - 1, by omega⟩
    simp [copyLoop, putAll]
  | @triplet h l b t d ht _ ih =>
    intro x y out fuel ho hf
    obtain ⟨f, rfl⟩ : ∃ f, fuel = f + 1 := ⟨fuel - 1, by omega⟩
    have e1 := pctDeref_mid x y 0x25 (h :: l :: t)
    have e2 := pctIncrement_mid (x.set out b) y 0x25 (h :: l :: t)
    rw [tripHead_triplet ht] at e1 e2
    simp only [List.length_set, Option.getD_some, Option.isSome_some, if_true] at e1 e2
    rw [copyLoop, if_neg (by simp), e1]
    have ew := writeAt_ok (m := x ++ 0x25 :: h :: l :: t ++ y) (o := out) (c := b) (by simp; omega)
    have es : (x ++ 0x25 :: h :: l :: t ++ y).set out b = x.set out b ++ 0x25 :: h :: l :: t ++ y := by
      rw [List.append_assoc, List.set_append_left _ _ ho, List.append_assoc]
    simp only [bind, Except.bind, ew, es, e2]
    have := ih (x.set out b ++ [0x25, h, l]) y (out + 1) f (by simp; omega) (by simp at hf; omega)
    simp only [List.length_append, List.length_set, List.length_cons, List.length_nil, List.append_assoc, List.cons_append, List.nil_append] at this
    simp only [List.length_cons, List.append_assoc, List.cons_append]
    rw [show x.length + (t.length + 1 + 1 + 1) = x.length + (0 + 1 + 1 + 1) + t.length by omega]
    refine this.trans ?_
    rw [putAll]
    simp only [List.append_assoc, List.cons_append] at es
    rw [es]
    simp only [Except.ok.injEq, Prod.mk.injEq, true_and]; omega
  | @copy c t d hn _ ih =>
    intro x y out fuel ho hf
    obtain ⟨f, rfl⟩ : ∃ f, fuel = f + 1 := ⟨fuel - 1, by omega⟩
    have e1 := pctDeref_mid x y c t
    have e2 := pctIncrement_mid (x.set out c) y c t
    rw [tripHead_no hn] at e1 e2
    simp only [List.length_set, Option.getD_none, Option.isSome_none, if_false, Bool.false_eq_true] at e1 e2
    rw [copyLoop, if_neg (by simp), e1]
    have ew := writeAt_ok (m := x ++ c :: t ++ y) (o := out) (c := c) (by simp; omega)
    have es : (x ++ c :: t ++ y).set out c = x.set out c ++ c :: t ++ y := by
      rw [List.append_assoc, List.set_append_left _ _ ho, List.append_assoc]
    simp only [bind, Except.bind, ew, es, e2]
    have := ih (x.set out c ++ [c]) y (out + 1) f (by simp; omega) (by simp at hf; omega)
    simp only [List.length_append, List.length_set, List.length_cons, List.length_nil, List.append_assoc, List.cons_append, List.nil_append] at this
    simp only [List.length_cons, List.append_assoc, List.cons_append]
    rw [show x.length + (t.length + 1) = x.length + (0 + 1) + t.length by omega]
    refine this.trans ?_
    rw [putAll]
    simp only [List.append_assoc, List.cons_append] at es
    rw [es]
    simp only [Except.ok.injEq, Prod.mk.injEq, true_and]; omega

/-- … where it is beyond the text. -/
theorem copyLoop_above : ∀ {t d : Str}, Decodes t d → ∀ (x y : Str) (k fuel : Nat), k + d.length ≤ y.length → t.length < fuel →
    copyLoop (x.length + t.length) fuel (x ++ t ++ y) x.length (x.length + t.length + k) =
    .ok (x ++ t ++ putAll y k d, x.length + t.length + k + d.length) := by
  intro t d h
  induction h with
  | nil =>
    intro x y k fuel ho hf
    obtain ⟨f, rfl⟩ : ∃ f, fuel = f + 1 := ⟨fuel - 1, by omega⟩
    simp [copyLoop, putAll]
  | @triplet h l b t d ht _ ih =>
    intro x y k fuel ho hf
    obtain ⟨f, rfl⟩ : ∃ f, fuel = f + 1 := ⟨fuel - 1, by omega⟩
    simp only [List.length_cons] at ho
    have e1 := pctDeref_mid x y 0x25 (h :: l :: t)
    have e2 := pctIncrement_mid x (y.set k b) 0x25 (h :: l :: t)
    rw [tripHead_triplet ht] at e1 e2
    simp only [Option.getD_some, Option.isSome_some, if_true] at e1 e2
    rw [copyLoop, if_neg (by simp), e1]
    have ew := writeAt_ok (m := x ++ 0x25 :: h :: l :: t ++ y) (o := x.length + (0x25 :: h :: l :: t).length + k) (c := b) (by simp; omega)
    have es : (x ++ 0x25 :: h :: l :: t ++ y).set (x.length + (0x25 :: h :: l :: t).length + k) b = x ++ 0x25 :: h :: l :: t ++ y.set k b := by
      rw [List.set_append_right _ _ (by simp)]
      simp [Nat.add_sub_cancel_left]
    simp only [bind, Except.bind, ew, es, e2]
    have := ih (x ++ [0x25, h, l]) (y.set k b) (k + 1) f (by simp; omega) (by simp at hf; omega)
    simp only [List.length_append, List.length_cons, List.length_nil, List.append_assoc, List.cons_append, List.nil_append] at this
    simp only [List.length_cons, List.append_assoc, List.cons_append]
    rw [show x.length + (t.length + 1 + 1 + 1) = x.length + (0 + 1 + 1 + 1) + t.length by omega]
    refine this.trans ?_
    rw [putAll]
    simp only [Except.ok.injEq, Prod.mk.injEq, true_and]; omega
  | @copy c t d hn _ ih =>
    intro x y k fuel ho hf
    obtain ⟨f, rfl⟩ : ∃ f, fuel = f + 1 := ⟨fuel - 1, by omega⟩
    simp only [List.length_cons] at ho
    have e1 := pctDeref_mid x y c t
    have e2 := pctIncrement_mid x (y.set k c) c t
    rw [tripHead_no hn] at e1 e2
    simp only [Option.getD_none, Option.isSome_none, if_false, Bool.false_eq_true] at e1 e2
    rw [copyLoop, if_neg (by simp), e1]
    have ew := writeAt_ok (m := x ++ c :: t ++ y) (o := x.length + (c :: t).length + k) (c := c) (by simp; omega)
    have es : (x ++ c :: t ++ y).set (x.length + (c :: t).length + k) c = x ++ c :: t ++ y.set k c := by
      rw [List.set_append_right _ _ (by simp)]
      simp [Nat.add_sub_cancel_left]
    simp only [bind, Except.bind, ew, es, e2]
    have := ih (x ++ [c]) (y.set k c) (k + 1) f (by simp; omega) (by simp at hf; omega)
    simp only [List.length_append, List.length_cons, List.length_nil, List.append_assoc, List.cons_append, List.nil_append] at this
    simp only [List.length_cons, List.append_assoc, List.cons_append]
    rw [show x.length + (t.length + 1) = x.length + (0 + 1) + t.length by omega]
    refine this.trans ?_
    rw [putAll]
    simp only [Except.ok.injEq, Prod.mk.injEq, true_and]; omega

/-- A turn that copies a byte onto itself. -/
theorem copyLoop_same {x y t : Str} {c : UInt8} {last f : Nat} (hn : tripHead (c :: t) = none) (hl : last = x.length + (c :: t).length) :
    copyLoop last (f + 1) (x ++ c :: t ++ y) x.length x.length =
    copyLoop last f (x ++ [c] ++ t ++ y) (x ++ [c]).length (x ++ [c]).length := by
  subst hl
  have e1 := pctDeref_mid x y c t
  have e2 := pctIncrement_mid x y c t
  rw [hn] at e1 e2
  simp only [Option.getD_none, Option.isSome_none, if_false, Bool.false_eq_true] at e1 e2
  rw [copyLoop, if_neg (by simp), e1]
  have ew := writeAt_ok (m := x ++ c :: t ++ y) (o := x.length) (c := c) (by simp)
  have es : (x ++ c :: t ++ y).set x.length c = x ++ c :: t ++ y := by
    rw [List.append_assoc, List.set_append_right _ _ (by omega)]; simp
  simp only [bind, Except.bind, ew, es, e2]
  simp

theorem copyLoop_onto : ∀ {t d : Str}, CopiedOnto t d → ∀ (x y : Str) (fuel : Nat), t.length < fuel →
    copyLoop (x.length + t.length) fuel (x ++ t ++ y) x.length x.length = .ok (putAll (x ++ t ++ y) x.length d, x.length + d.length) := by
  intro t d h
  induction h with
  | nil =>
    intro x y fuel hf
    obtain ⟨f, rfl⟩ : ∃ f, fuel = f + 1 := ⟨fuel - 1, by omega⟩
    simp [copyLoop, putAll]
  | @copy c t d hn _ ih =>
    intro x y fuel hf
    obtain ⟨f, rfl⟩ : ∃ f, fuel = f + 1 := ⟨fuel - 1, by omega⟩
    rw [copyLoop_same (tripHead_no hn) rfl]
    have := ih (x ++ [c]) y f (by simp at hf; omega)
    rw [show x.length + (c :: t).length = (x ++ [c]).length + t.length by simp; omega]
    refine this.trans ?_
    rw [putAll]
    have es : (x ++ c :: t ++ y).set x.length c = x ++ [c] ++ t ++ y := by
      rw [List.append_assoc, List.set_append_right _ _ (by omega)]; simp
    rw [es]
    simp; omega
  | @other h l b t d ht hb _ ih =>
    intro x y fuel hf
    obtain ⟨f, rfl⟩ : ∃ f, fuel = f + 3 := ⟨fuel - 3, by simp at hf; omega⟩
    have e1 := pctDeref_mid x y 0x25 (h :: l :: t)
    rw [tripHead_triplet ht] at e1
    have e2 := pctIncrement_mid x y b (h :: l :: t)
    rw [tripHead_none hb] at e2
    simp only [Option.getD_some, Option.isSome_none, if_false, Bool.false_eq_true] at e1 e2
    have ew := writeAt_ok (m := x ++ 0x25 :: h :: l :: t ++ y) (o := x.length) (c := b) (by simp)
    have es : (x ++ 0x25 :: h :: l :: t ++ y).set x.length b = x ++ b :: h :: l :: t ++ y := by
      rw [List.append_assoc, List.set_append_right _ _ (by omega)]; simp
    rw [copyLoop, if_neg (by simp), e1]
    simp only [bind, Except.bind, ew, es]
    rw [show (0x25 :: h :: l :: t).length = (b :: h :: l :: t).length from rfl, e2]
    have s1 := copyLoop_same (x := x ++ [b]) (y := y) (t := l :: t) (c := h) (last := x.length + (b :: h :: l :: t).length) (f := f + 1)
      (tripHead_none (hex_not_percent ht).1) (by simp; omega)
    have s2 := copyLoop_same (x := x ++ [b] ++ [h]) (y := y) (t := t) (c := l) (last := x.length + (b :: h :: l :: t).length) (f := f)
      (tripHead_none (hex_not_percent ht).2) (by simp; omega)
    have s3 := ih (x ++ [b, h, l]) y f (by simp at hf; omega)
    simp only [List.length_append, List.length_cons, List.length_nil, List.append_assoc, List.cons_append, List.nil_append] at s1 s2 s3 ⊢
    rw [show x.length + 1 = x.length + (0 + 1) by omega, s1]
    rw [show x.length + (0 + 1 + (0 + 1)) = x.length + (0 + 1 + (0 + 1)) by omega, s2]
    rw [show x.length + (t.length + 1 + 1 + 1) = x.length + (0 + 1 + 1 + 1) + t.length by omega,
      show x.length + (0 + 1 + (0 + 1 + (0 + 1))) = x.length + (0 + 1 + 1 + 1) by omega]
    refine s3.trans ?_
    have e : ∀ z : Str, (x ++ b :: h :: l :: z) = x ++ [b, h, l] ++ z := by simp
    have hp : putAll (x ++ 0x25 :: h :: l :: (t ++ y)) x.length (b :: h :: l :: d) = putAll (x ++ b :: h :: l :: (t ++ y)) (x.length + (0 + 1 + 1 + 1)) d := by
      simp only [putAll]
      rw [List.set_append_right _ _ (by omega), List.set_append_right _ _ (by omega), List.set_append_right _ _ (by omega)]
      simp [Nat.add_assoc]
    rw [hp]
    simp only [Except.ok.injEq, Prod.mk.injEq, true_and]; omega
  | @percent h l t d ht hd =>
    intro x y fuel hf
    obtain ⟨f, rfl⟩ : ∃ f, fuel = f + 1 := ⟨fuel - 1, by omega⟩
    have e1 := pctDeref_mid x y 0x25 (h :: l :: t)
    have e2 := pctIncrement_mid x y 0x25 (h :: l :: t)
    rw [tripHead_triplet ht] at e1 e2
    simp only [Option.getD_some, Option.isSome_some, if_true] at e1 e2
    have ew := writeAt_ok (m := x ++ 0x25 :: h :: l :: t ++ y) (o := x.length) (c := 0x25) (by simp)
    have es : (x ++ 0x25 :: h :: l :: t ++ y).set x.length 0x25 = x ++ 0x25 :: h :: l :: t ++ y := by
      rw [List.append_assoc, List.set_append_right _ _ (by omega)]; simp
    rw [copyLoop, if_neg (by simp), e1]
    simp only [bind, Except.bind, ew, es, e2]
    have := copyLoop_below hd (x ++ [0x25, h, l]) y (x.length + 1) f (by simp) (by simp at hf; omega)
    simp only [List.length_append, List.length_cons, List.length_nil, List.append_assoc, List.cons_append, List.nil_append] at this es ⊢
    rw [show x.length + (t.length + 1 + 1 + 1) = x.length + (0 + 1 + 1 + 1) + t.length by omega,
      show x.length + 3 = x.length + (0 + 1 + 1 + 1) by omega]
    refine this.trans ?_
    rw [putAll, es]
    simp only [Except.ok.injEq, Prod.mk.injEq, true_and]; omega

/-- The loop with `*it++`. -/
theorem postLoop_below : ∀ {t d : Str}, Decodes t d → ∀ (x y : Str) (out fuel : Nat), out ≤ x.length → t.length < fuel →
    postLoop (x.length + t.length) fuel (x ++ t ++ y) x.length out = .ok (putAll (x ++ t ++ y) out d, out + d.length) := by
  intro t d h
  induction h with
  | nil =>
    intro x y out fuel ho hf
    obtain ⟨f, rfl⟩ : ∃ f, fuel = f + 1 := ⟨fuel - 1, by omega⟩
    simp [postLoop, putAll]
  | @triplet h l b t d ht _ ih =>
    intro x y out fuel ho hf
    obtain ⟨f, rfl⟩ : ∃ f, fuel = f + 1 := ⟨fuel - 1, by omega⟩
    have e1 := pctDeref_mid x y 0x25 (h :: l :: t)
    have e2 := pctIncrement_mid x y 0x25 (h :: l :: t)
    rw [tripHead_triplet ht] at e1 e2
    simp only [Option.getD_some, Option.isSome_some, if_true] at e1 e2
    rw [postLoop, if_neg (by simp), e2]
    have ew := writeAt_ok (m := x ++ 0x25 :: h :: l :: t ++ y) (o := out) (c := b) (by simp; omega)
    have es : (x ++ 0x25 :: h :: l :: t ++ y).set out b = (x ++ [0x25, h, l]).set out b ++ t ++ y := by
      rw [show x ++ 0x25 :: h :: l :: t ++ y = (x ++ [0x25, h, l]) ++ (t ++ y) by simp, List.set_append_left _ _ (by simp; omega), List.append_assoc]
    simp only [bind, Except.bind, ew, e1]
    rw [es]
    have := ih ((x ++ [0x25, h, l]).set out b) y (out + 1) f (by simp; omega) (by simp at hf; omega)
    rw [List.length_set] at this
    rw [show x.length + (0x25 :: h :: l :: t).length = (x ++ [0x25, h, l]).length + t.length by simp; omega,
      show x.length + 3 = (x ++ [0x25, h, l]).length by simp]
    refine this.trans ?_
    rw [putAll, es]
    simp only [Except.ok.injEq, Prod.mk.injEq, true_and, List.length_cons]; omega
  | @copy c t d hn _ ih =>
    intro x y out fuel ho hf
    obtain ⟨f, rfl⟩ : ∃ f, fuel = f + 1 := ⟨fuel - 1, by omega⟩
    have e1 := pctDeref_mid x y c t
    have e2 := pctIncrement_mid x y c t
    rw [tripHead_no hn] at e1 e2
    simp only [Option.getD_none, Option.isSome_none, if_false, Bool.false_eq_true] at e1 e2
    rw [postLoop, if_neg (by simp), e2]
    have ew := writeAt_ok (m := x ++ c :: t ++ y) (o := out) (c := c) (by simp; omega)
    have es : (x ++ c :: t ++ y).set out c = (x ++ [c]).set out c ++ t ++ y := by
      rw [show x ++ c :: t ++ y = (x ++ [c]) ++ (t ++ y) by simp, List.set_append_left _ _ (by simp; omega), List.append_assoc]
    simp only [bind, Except.bind, ew, e1]
    rw [es]
    have := ih ((x ++ [c]).set out c) y (out + 1) f (by simp; omega) (by simp at hf; omega)
    rw [List.length_set] at this
    rw [show x.length + (c :: t).length = (x ++ [c]).length + t.length by simp; omega,
      show x.length + 1 = (x ++ [c]).length by simp]
    refine this.trans ?_
    rw [putAll, es]
    simp only [Except.ok.injEq, Prod.mk.injEq, true_and, List.length_cons]; omega


theorem firstIsPercent_cons {c : UInt8} {s : Str} (h : ¬ StartsTriplet (c :: s)) : FirstIsPercent (c :: s) ↔ FirstIsPercent s := by
  constructor
  · intro k u h' l v b e ht hu
    refine k (c :: u) h' l v b (by rw [e]; rfl) ht ?_
    intro u₁ u₂ e' hne
    cases u₁ with
    | nil =>
      simp only [List.nil_append] at e'
      rw [← e', List.cons_append, ← e]
      exact h
    | cons c' u₁ =>
      simp only [List.cons_append, List.cons.injEq] at e'
      exact hu u₁ u₂ e'.2 hne
  · intro k u h' l v b e ht hu
    cases u with
    | nil =>
      rw [List.nil_append] at e
      exact absurd ⟨h', l, b, v, e, ht⟩ h
    | cons c' u =>
      simp only [List.cons_append, List.cons.injEq] at e
      refine k u h' l v b e.2 ht (fun u₁ u₂ e' hne => ?_)
      exact hu (c' :: u₁) u₂ (by rw [e']; rfl) hne

theorem copied_exact {s d e : Str} (h : CopiedOnto s d) : Decodes s e → e.length ≤ d.length ∧ (FirstIsPercent s ↔ d = e) ∧ (FirstIsPercent s ↔ d.length = e.length) := by
  induction h generalizing e with
  | nil =>
    intro k
    cases k
    have : FirstIsPercent [] := by intro u h l v b e; simp at e
    simp [this]
  | @copy c s d hn _ ih =>
    intro k
    cases k with
    | triplet ht k => exact absurd ⟨_, _, _, _, rfl, ht⟩ hn
    | copy _ k =>
      obtain ⟨h1, h2, h3⟩ := ih k
      rw [firstIsPercent_cons hn]
      simp only [List.length_cons, List.cons.injEq, true_and, Nat.add_right_cancel_iff]
      exact ⟨by omega, h2, h3⟩
  | @other h l b s d ht hb _ ih =>
    intro k
    cases k with
    | copy hn k => exact absurd ⟨_, _, _, _, rfl, ht⟩ hn
    | @triplet _ _ b' _ e' ht' k =>
      obtain ⟨h1, -, -⟩ := ih k
      have hno : ¬ FirstIsPercent (0x25 :: h :: l :: s) := by
        intro k
        exact hb (k [] h l s b rfl ht (by intro u₁ u₂ e hne; simp at e; exact absurd e.2 hne))
      simp only [List.length_cons]
      refine ⟨by omega, ⟨fun k => absurd k hno, fun k => ?_⟩, ⟨fun k => absurd k hno, fun k => ?_⟩⟩
      · have := congrArg List.length k; simp at this; omega
      · omega
  | @percent h l s d ht hd =>
    intro k
    cases k with
    | copy hn k => exact absurd ⟨_, _, _, _, rfl, ht⟩ hn
    | @triplet _ _ b' _ e' ht' k =>
      have e1 := (decodes_iff _ _).1 hd
      have e2 := (decodes_iff _ _).1 k
      have e3 : b' = 0x25 := ((triplet_iff _ _ _).1 ht').2.trans ((triplet_iff _ _ _).1 ht).2.symm
      subst e1 e2 e3
      have : FirstIsPercent (0x25 :: h :: l :: s) := by
        intro u h' l' v b e htb hu
        cases u with
        | nil =>
          simp only [List.nil_append, List.cons.injEq, true_and] at e
          obtain ⟨rfl, rfl, -⟩ := e
          exact ((triplet_iff _ _ _).1 htb).2.trans ((triplet_iff _ _ _).1 ht).2.symm
        | cons c u =>
          refine absurd ?_ (hu [] (c :: u) rfl (by simp))
          rw [← e]; exact ⟨_, _, _, _, rfl, ht⟩
      simp [this]

theorem copied_total (s : Str) : ∃ d, CopiedOnto s d := by
  induction s using decP.induct with
  | case1 => exact ⟨_, .nil⟩
  | case2 c h l t hh ih =>
    obtain ⟨d, ih⟩ := ih
    have ht : Triplet h l (byteB h l) := (triplet_iff _ _ _).2 ⟨hh.2, rfl⟩
    rw [hh.1]
    by_cases hb : byteB h l = 0x25
    · rw [hb] at ht
      exact ⟨_, .percent ht ((decodes_iff t _).2 rfl)⟩
    · exact ⟨_, .other ht hb ih⟩
  | case3 c h l t hh ih =>
    obtain ⟨d, ih⟩ := ih
    refine ⟨_, .copy ?_ ih⟩
    rw [starts_iff, tripHead, if_neg hh]; simp
  | case4 c t hne ih =>
    obtain ⟨d, ih⟩ := ih
    refine ⟨_, .copy ?_ ih⟩
    have ht : tripHead (c :: t) = none := by
      match t with
      | [] => rfl
      | [_] => rfl
      | h :: l :: t => exact absurd rfl (hne h l t)
    rw [starts_iff, ht]; simp

theorem copied_length {s d : Str} (h : CopiedOnto s d) : d.length ≤ s.length := by
  induction h with
  | nil => simp
  | copy _ _ ih => simpa using ih
  | other _ _ _ ih => simpa using ih
  | percent _ hd =>
    have := (decodes_iff _ _).1 hd
    subst this
    have := decP_length ‹_›
    simp only [List.length_cons]; omega

/-! ### Encoding -/

theorem writeEncoded_ok {es : UInt8} {m : Str} {o : Nat} {c : UInt8} (h : o + (encB es c).length ≤ m.length) :
    writeEncoded es m o c = .ok (putAll m o (encB es c), o + (encB es c).length) := by
  obtain ⟨h1, h2⟩ := dec2hex_byte c
  unfold writeEncoded
  by_cases hc : needsPctencodeB c es = true
  · simp only [encB, hc, if_true, List.length_cons, List.length_nil] at h ⊢
    rw [writeAt_ok (by omega)]
    simp only [bind, Except.bind, h1, h2]
    rw [writeAt_ok (by simp; omega)]
    simp only []
    rw [writeAt_ok (by simp; omega)]
    rfl
  · simp only [encB, hc, if_false, Bool.false_eq_true, List.length_cons, List.length_nil] at h ⊢
    rw [writeAt_ok (by omega)]
    rfl

theorem writeEncoded_fault {es : UInt8} {m : Str} {o : Nat} {c : UInt8} (h : m.length < o + (encB es c).length) :
    writeEncoded es m o c = .error .outOfRange := by
  obtain ⟨h1, h2⟩ := dec2hex_byte c
  unfold writeEncoded
  by_cases hc : needsPctencodeB c es = true
  · simp only [encB, hc, if_true, List.length_cons, List.length_nil] at h ⊢
    by_cases k1 : o < m.length
    · rw [writeAt_ok k1]
      simp only [bind, Except.bind, h1, h2]
      by_cases k2 : o + 1 < m.length
      · rw [writeAt_ok (by simpa using k2)]
        simp only []
        rw [writeAt, if_neg (by simp; omega)]
      · rw [writeAt, if_neg (by simp; omega)]
    · rw [writeAt, if_neg k1]; rfl
  · simp only [encB, hc, if_false, Bool.false_eq_true, List.length_cons, List.length_nil] at h ⊢
    rw [writeAt, if_neg (by omega)]; rfl

theorem readAt_head (x : Str) (c : UInt8) (z : Str) : readAt (x ++ c :: z) x.length = .ok c := by simp [readAt]

theorem encodeLoop_below (es : UInt8) : ∀ (s x y : Str) (out fuel : Nat),
    (∀ u v, s = u ++ v → v ≠ [] → out + (encP es u).length ≤ x.length + u.length) → out + (encP es s).length ≤ (x ++ s ++ y).length → s.length < fuel →
    encodeLoop es (x.length + s.length) fuel (x ++ s ++ y) x.length out = .ok (putAll (x ++ s ++ y) out (encP es s), out + (encP es s).length)
  | [], x, y, out, fuel, _, _, hf => by
    obtain ⟨f, rfl⟩ : ∃ f, fuel = f + 1 := ⟨fuel - 1, by omega⟩
    simp [encodeLoop, putAll, encP]
  | c :: s, x, y, out, fuel, hc, hr, hf => by
    obtain ⟨f, rfl⟩ : ∃ f, fuel = f + 1 := ⟨fuel - 1, by omega⟩
    have he : encP es (c :: s) = encB es c ++ encP es s := by simp [encP]
    rw [he] at hr ⊢
    simp only [List.length_append] at hr
    rw [encodeLoop, if_neg (by simp)]
    have e1 : readAt (x ++ c :: s ++ y) x.length = .ok c := by rw [List.append_assoc]; exact readAt_head x c (s ++ y)
    rw [e1]
    simp only [bind, Except.bind]
    rw [writeEncoded_ok (by simp only [List.length_append]; omega)]
    simp only []
    cases s with
    | nil =>
      obtain ⟨f, rfl⟩ : ∃ g, f = g + 1 := ⟨f - 1, by simp at hf; omega⟩
      simp [encodeLoop, putAll, encP]
    | cons c' s =>
      have h1 := hc [c] (c' :: s) rfl (by simp)
      have h2 : encP es [c] = encB es c := by simp [encP]
      rw [h2] at h1
      simp only [List.length_cons, List.length_nil] at h1
      have e2 : putAll (x ++ c :: c' :: s ++ y) out (encB es c) = putAll (x ++ [c]) out (encB es c) ++ (c' :: s) ++ y := by
        rw [show x ++ c :: c' :: s ++ y = (x ++ [c]) ++ (c' :: s ++ y) by simp, putAll_append _ _ _ _ (by simp; omega), List.append_assoc]
      have := encodeLoop_below es (c' :: s) (putAll (x ++ [c]) out (encB es c)) y (out + (encB es c).length) f ?_ ?_ (by simp at hf ⊢; omega)
      · rw [putAll_length] at this
        rw [e2, show x.length + (c :: c' :: s).length = (x ++ [c]).length + (c' :: s).length by simp; omega, show x.length + 1 = (x ++ [c]).length by simp]
        refine this.trans ?_
        rw [putAll_cat, e2, List.length_append]
        simp [Nat.add_assoc]
      · intro u v e hne
        have := hc (c :: u) v (by rw [e]; rfl) hne
        have e3 : encP es (c :: u) = encB es c ++ encP es u := by simp [encP]
        rw [e3] at this
        simp only [List.length_append, List.length_cons, putAll_length, List.length_nil] at this ⊢
        omega
      · simp only [List.length_append, putAll_length, List.length_cons, List.length_nil] at hr ⊢
        omega

theorem turns_length (a b : UInt8) (n : Nat) : (turns a b n).length = n := by
  induction n generalizing a b with
  | zero => rfl
  | succ n ih => simp [turns, ih]

/-- Reading what was written two places before. -/
theorem encodeLoop_turns (es : UInt8) : ∀ (n : Nat) (z w : Str) (a b : UInt8) (fuel : Nat), needsPctencodeB a es = false → needsPctencodeB b es = false → n < fuel →
    (n ≤ w.length → encodeLoop es (z.length + n) fuel (z ++ a :: b :: w) z.length (z.length + 2) = .ok (putAll (z ++ a :: b :: w) (z.length + 2) (turns a b n), z.length + 2 + n)) ∧
    (w.length < n → encodeLoop es (z.length + n) fuel (z ++ a :: b :: w) z.length (z.length + 2) = .error .outOfRange)
  | 0, z, w, a, b, fuel, ha, hb, hf => by
    obtain ⟨f, rfl⟩ : ∃ f, fuel = f + 1 := ⟨fuel - 1, by omega⟩
    simp [encodeLoop, putAll, turns]
  | n + 1, z, w, a, b, fuel, ha, hb, hf => by
    obtain ⟨f, rfl⟩ : ∃ f, fuel = f + 1 := ⟨fuel - 1, by omega⟩
    have hB : encB es a = [a] := by simp [encB, ha]
    rw [encodeLoop, if_neg (by omega), readAt_head]
    simp only [bind, Except.bind]
    cases w with
    | nil =>
      rw [writeEncoded_fault (by rw [hB]; simp)]
      simp
    | cons c w =>
      rw [writeEncoded_ok (by rw [hB]; simp; omega)]
      simp only [hB, List.length_cons, List.length_nil]
      have e : putAll (z ++ a :: b :: c :: w) (z.length + 2) [a] = (z ++ [a]) ++ b :: a :: w := by
        rw [putAll, putAll, List.set_append_right _ _ (by omega)]; simp
      have := encodeLoop_turns es n (z ++ [a]) w b a f hb ha (by omega)
      rw [e, show z.length + (n + 1) = (z ++ [a]).length + n by simp; omega, show z.length + 1 = (z ++ [a]).length by simp,
        show z.length + 2 + (0 + 1) = (z ++ [a]).length + 2 by simp]
      refine ⟨fun h => (this.1 (by omega)).trans ?_, fun h => this.2 (by omega)⟩
      rw [turns, putAll]
      rw [putAll, putAll] at e
      rw [e]
      simp only [List.length_append, List.length_cons, List.length_nil, Except.ok.injEq, Prod.mk.injEq]
      exact ⟨trivial, by omega⟩

/-- Characters that are written as they are, onto themselves. -/
theorem encodeLoop_plain (es : UInt8) : ∀ (u x z : Str) (last f : Nat), (∀ c ∈ u, needsPctencodeB c es = false) → x.length + u.length ≤ last →
    encodeLoop es last (f + u.length) (x ++ u ++ z) x.length x.length = encodeLoop es last f (x ++ u ++ z) (x ++ u).length (x ++ u).length
  | [], x, z, last, f, _, _ => by simp
  | c :: u, x, z, last, f, h, hl => by
    have hB : encB es c = [c] := by simp [encB, h c (by simp)]
    have e1 : readAt (x ++ c :: u ++ z) x.length = .ok c := by rw [List.append_assoc]; exact readAt_head x c (u ++ z)
    have e : putAll (x ++ c :: u ++ z) x.length [c] = (x ++ [c]) ++ u ++ z := by
      rw [putAll, putAll, List.append_assoc, List.set_append_right _ _ (by omega)]; simp
    simp only [List.length_cons] at hl
    rw [List.length_cons, show f + (u.length + 1) = (f + u.length) + 1 by omega, encodeLoop, if_neg (by omega), e1]
    simp only [bind, Except.bind]
    rw [writeEncoded_ok (by rw [hB]; simp)]
    simp only [hB, e]
    have := encodeLoop_plain es u (x ++ [c]) z last f (fun c hc => h c (by simp [hc])) (by simp; omega)
    simp only [List.length_append, List.length_cons, List.length_nil, List.append_assoc, List.cons_append, List.nil_append, Nat.zero_add] at this ⊢
    rw [this]

theorem hexU_plain (es : UInt8) (c : UInt8) : needsPctencodeB (hexU (c.toNat / 16)) es = false ∧ needsPctencodeB (hexU (c.toNat % 16)) es = false := by
  have key : ∀ v, v < 16 → needsPctencodeB (hexU v) es = false := by
    intro v hv
    have : hexU v ∈ (List.range 16).map hexU := List.mem_map.2 ⟨v, by simpa using hv, rfl⟩
    revert this
    generalize hexU v = d
    intro hd
    have hd : d ∈ upperDigits := by revert hd; rw [show (List.range 16).map hexU = upperDigits by decide +kernel]; exact id
    have := List.all_eq_true.1 (by decide +kernel : upperDigits.all (fun d => (List.range 256).all (fun e => !needsPctencodeB d (UInt8.ofNat e))) = true) d hd
    have := List.all_eq_true.1 this es.toNat (by simp; exact es.toNat_lt)
    simpa using this
  have := c.toNat_lt
  exact ⟨key _ (by omega), key _ (by omega)⟩

theorem encodeLoop_onto (es : UInt8) (x u v y : Str) (c : UInt8) (fuel : Nat) (hu : ∀ c ∈ u, needsPctencodeB c es = false)
    (hc : needsPctencodeB c es = true) (hf : (u ++ c :: v).length < fuel) :
    (2 ≤ y.length → encodeLoop es (x.length + (u ++ c :: v).length) fuel (x ++ (u ++ c :: v) ++ y) x.length x.length =
      .ok (putAll (x ++ (u ++ c :: v) ++ y) x.length (u ++ 0x25 :: turns (hexU (c.toNat / 16)) (hexU (c.toNat % 16)) (v.length + 2)),
        x.length + u.length + v.length + 3)) ∧
    (y.length < 2 → encodeLoop es (x.length + (u ++ c :: v).length) fuel (x ++ (u ++ c :: v) ++ y) x.length x.length = .error .outOfRange) := by
  simp only [List.length_append, List.length_cons] at hf ⊢
  obtain ⟨f, rfl⟩ : ∃ f, fuel = f + 1 + u.length := ⟨fuel - 1 - u.length, by omega⟩
  have e0 : x ++ (u ++ c :: v) ++ y = x ++ u ++ (c :: (v ++ y)) := by simp
  rw [e0, encodeLoop_plain es u x _ _ _ hu (by omega), encodeLoop, if_neg (by simp), readAt_head]
  simp only [bind, Except.bind]
  have hB : encB es c = [0x25, hexU (c.toNat / 16), hexU (c.toNat % 16)] := by simp [encB, hc]
  have hp := hexU_plain es c
  generalize hexU (c.toNat / 16) = a at hB hp
  generalize hexU (c.toNat % 16) = b at hB hp
  by_cases hroom : 2 ≤ v.length + y.length
  · rw [writeEncoded_ok (by rw [hB]; simp; omega)]
    obtain ⟨p, q, w, hw⟩ : ∃ p q w, v ++ y = p :: q :: w := by
      have : (v ++ y).length = v.length + y.length := by simp
      match h : v ++ y with
      | [] => rw [h] at this; simp at this; omega
      | [_] => rw [h] at this; simp at this; omega
      | p :: q :: w => exact ⟨p, q, w, rfl⟩
    have hlen : v.length + y.length = w.length + 2 := by
      have := congrArg List.length hw
      simpa using this
    have e : putAll (x ++ u ++ (c :: (v ++ y))) (x ++ u).length [0x25, a, b] = (x ++ u ++ [0x25]) ++ a :: b :: w := by
      rw [hw]
      simp only [putAll]
      rw [List.set_append_right _ _ (by omega), List.set_append_right _ _ (by omega), List.set_append_right _ _ (by omega),
        Nat.sub_self, Nat.add_sub_cancel_left, Nat.add_assoc, Nat.add_sub_cancel_left]
      simp
    simp only [hB, e]
    have := encodeLoop_turns es v.length (x ++ u ++ [0x25]) w a b f hp.1 hp.2 (by omega)
    rw [show x.length + (u.length + (v.length + 1)) = (x ++ u ++ [0x25]).length + v.length by simp; omega,
      show (x ++ u).length + 1 = (x ++ u ++ [0x25]).length by simp [Nat.add_assoc],
      show (x ++ u).length + [0x25, a, b].length = (x ++ u ++ [0x25]).length + 2 by simp; omega]
    refine ⟨fun hy => (this.1 (by omega)).trans ?_, fun hy => this.2 (by omega)⟩
    have hq : putAll (x ++ u ++ (c :: (v ++ y))) x.length u = x ++ u ++ (c :: (v ++ y)) := by
      rw [putAll_eq _ _ _ (by simp)]
      simp [overwrite]
    rw [show u ++ 0x25 :: turns a b (v.length + 2) = u ++ ([0x25, a, b] ++ turns a b v.length) by simp [turns], putAll_cat, hq, putAll_cat, ← List.length_append, e]
    simp only [List.length_append, List.length_cons, List.length_nil, Except.ok.injEq, Prod.mk.injEq]
    exact ⟨trivial, by omega⟩
  · rw [writeEncoded_fault (by rw [hB]; simp; omega)]
    exact ⟨fun h => by omega, fun _ => rfl⟩

/-! ### Theorems -/

/-- **C92**, decoding to a place before the text: `std::copy` of the decoded text, when text and output are in the same memory and the output begins
before the text (however much they overlap), writes what it should. -/
theorem C92_copy_before (x s y d : Str) (o : Nat) (ho : o < x.length) (hd : Decodes s d) :
    copyAt (x ++ s ++ y) x.length (x.length + s.length) o = .ok (overwrite (x ++ s ++ y) o d, o + d.length) := by
  have hl : d.length ≤ s.length := by rw [(decodes_iff _ _).1 hd]; exact decP_length s
  rw [copyAt, copyLoop_below hd x y o _ ho (by omega), putAll_eq _ _ _ (by simp; omega)]

/-- **C92**, decoding to a place beyond the text. -/
theorem C92_copy_beyond (x s y d : Str) (k : Nat) (hk : k + d.length ≤ y.length) (hd : Decodes s d) :
    copyAt (x ++ s ++ y) x.length (x.length + s.length) (x.length + s.length + k) =
    .ok (overwrite (x ++ s ++ y) (x.length + s.length + k) d, x.length + s.length + k + d.length) := by
  rw [copyAt, copyLoop_above hd x y k _ hk (by omega), putAll_eq _ _ _ (by omega)]
  simp only [overwrite]
  rw [List.take_append_of_le_length (l₁ := x ++ s ++ y) (l₂ := []) (by simp; omega) |>.symm]
  simp only [List.append_nil, Except.ok.injEq, Prod.mk.injEq, and_true]
  have h1 : (x ++ s ++ y).take (x.length + s.length + k) = x ++ s ++ y.take k := by
    rw [show x.length + s.length + k = (x ++ s).length + k by simp, List.take_length_add_append]
  have h2 : (x ++ s ++ y).drop (x.length + s.length + k + d.length) = y.drop (k + d.length) := by
    rw [show x.length + s.length + k + d.length = (x ++ s).length + (k + d.length) by simp; omega, List.drop_length_add_append]
  rw [h1, h2]; simp

/-- **C92**, decoding a text onto itself with `std::copy`: what comes of it, … -/
theorem C92_copy_onto (x s y d : Str) (hd : CopiedOnto s d) :
    copyAt (x ++ s ++ y) x.length (x.length + s.length) x.length = .ok (overwrite (x ++ s ++ y) x.length d, x.length + d.length) := by
  rw [copyAt, copyLoop_onto hd x y _ (by omega), putAll_eq _ _ _ (by have := copied_length hd; simp; omega)]

/-- … and when it is the decoded text: exactly if the first triplet is `%25`, or there is none. -/
theorem C92_copy_onto_exact (x s y d : Str) (hd : Decodes s d) :
    copyAt (x ++ s ++ y) x.length (x.length + s.length) x.length = .ok (overwrite (x ++ s ++ y) x.length d, x.length + d.length) ↔ FirstIsPercent s := by
  obtain ⟨e, he⟩ := copied_total s
  obtain ⟨-, h2, h3⟩ := copied_exact he hd
  rw [C92_copy_onto x s y e he]
  constructor
  · intro k
    have := (Prod.mk.inj (Except.ok.inj k)).2
    exact h3.2 (by omega)
  · intro k
    rw [h2.1 k]

/-- **C92**: the loop `*out++ = *it++` decodes a text onto itself, or to a place before it, as it should. -/
theorem C92_post_onto (x s y d : Str) (o : Nat) (ho : o ≤ x.length) (hd : Decodes s d) :
    postAt (x ++ s ++ y) x.length (x.length + s.length) o = .ok (overwrite (x ++ s ++ y) o d, o + d.length) := by
  have hl : d.length ≤ s.length := by rw [(decodes_iff _ _).1 hd]; exact decP_length s
  rw [postAt, postLoop_below hd x y o _ ho (by omega), putAll_eq _ _ _ (by simp; omega)]

/-- **C92**, encoding to a place before the text: right if what is written does not run ahead of what is read. -/
theorem C92_encode_before (es : UInt8) (x s y e : Str) (o : Nat) (he : Encodes (fun c => needsPctencodeB c es = true) s e)
    (h : ∀ u v f, s = u ++ v → v ≠ [] → Encodes (fun c => needsPctencodeB c es = true) u f → o + f.length ≤ x.length + u.length)
    (hroom : o + e.length ≤ (x ++ s ++ y).length) :
    pctencodeAt es (x ++ s ++ y) x.length (x.length + s.length) o = .ok (overwrite (x ++ s ++ y) o e, o + e.length) := by
  have := (encodes_iff _ _ _).1 he
  subst this
  rw [pctencodeAt, encodeLoop_below es s x y o _ (fun u v k hne => h u v _ k hne ((encodes_iff _ _ _).2 rfl)) hroom (by omega), putAll_eq _ _ _ hroom]

/-- **C92**: so it is if there are two places before the text for each character that is encoded. -/
theorem C92_encode_gap (es : UInt8) (x s y e : Str) (o : Nat) (he : Encodes (fun c => needsPctencodeB c es = true) s e)
    (h : o + 2 * s.countP (fun c => needsPctencodeB c es) ≤ x.length) :
    pctencodeAt es (x ++ s ++ y) x.length (x.length + s.length) o = .ok (overwrite (x ++ s ++ y) o e, o + e.length) := by
  refine C92_encode_before es x s y e o he ?_ ?_
  · intro u v f k _ hf
    rw [(encodes_iff _ _ _).1 hf, encP_length]
    rw [k, List.countP_append] at h
    omega
  · rw [(encodes_iff _ _ _).1 he, encP_length]
    simp; omega

/-- **C92**, encoding a text onto itself: `u` is what comes before the first character to be encoded, `c`; `h` and `l` are its digits. -/
theorem C92_encode_onto (es : UInt8) (x u v y : Str) (c h l : UInt8) (hu : ∀ c ∈ u, needsPctencodeB c es = false) (hc : needsPctencodeB c es = true)
    (hd : ∃ a b, HexUpper h a ∧ HexUpper l b ∧ c.toNat = 16 * a + b) :
    (2 ≤ y.length → pctencodeAt es (x ++ (u ++ c :: v) ++ y) x.length (x.length + (u ++ c :: v).length) x.length =
      .ok (overwrite (x ++ (u ++ c :: v) ++ y) x.length (u ++ 0x25 :: turns h l (v.length + 2)), x.length + (u ++ c :: v).length + 2)) ∧
    (y.length < 2 → pctencodeAt es (x ++ (u ++ c :: v) ++ y) x.length (x.length + (u ++ c :: v).length) x.length = .error .outOfRange) := by
  obtain ⟨a, b, h1, h2, h3⟩ := hd
  have hb : b < 16 := by
    rcases Nat.lt_or_ge b 16 with k | k
    · exact k
    · rw [HexUpper, List.getElem?_eq_none (by simpa [upperDigits] using k)] at h2; cases h2
  have ea : c.toNat / 16 = a := by omega
  have eb : c.toNat % 16 = b := by omega
  have k1 := (hexU_spec c).1
  have k2 := (hexU_spec c).2
  rw [ea] at k1; rw [eb] at k2
  have e1 := hexUpper_unique k1 h1
  have e2 := hexUpper_unique k2 h2
  have := encodeLoop_onto es x u v y c (x.length + (u ++ c :: v).length - x.length + 1) hu hc (by omega)
  rw [ea, eb, e1, e2] at this
  unfold pctencodeAt
  refine ⟨fun hy => (this.1 hy).trans ?_, this.2⟩
  rw [putAll_eq _ _ _ (by simp [turns_length]; omega)]
  simp only [List.length_append, List.length_cons, Except.ok.injEq, Prod.mk.injEq, true_and]
  omega

/-- **C92**: encoding a text onto itself is right exactly if nothing needs to be encoded or what follows the first character that does happens to be
its two digits in turns. -/
theorem C92_encode_onto_exact (es : UInt8) (x u v y e : Str) (c h l : UInt8) (hu : ∀ c ∈ u, needsPctencodeB c es = false) (hc : needsPctencodeB c es = true)
    (hd : ∃ a b, HexUpper h a ∧ HexUpper l b ∧ c.toNat = 16 * a + b) (he : Encodes (fun c => needsPctencodeB c es = true) (u ++ c :: v) e) (hy : 2 ≤ y.length) :
    pctencodeAt es (x ++ (u ++ c :: v) ++ y) x.length (x.length + (u ++ c :: v).length) x.length =
      .ok (overwrite (x ++ (u ++ c :: v) ++ y) x.length e, x.length + e.length) ↔ v = turns h l v.length := by
  rw [(C92_encode_onto es x u v y c h l hu hc hd).1 hy]
  obtain ⟨a, b, h1, h2, h3⟩ := hd
  have hb : b < 16 := by
    rcases Nat.lt_or_ge b 16 with k | k
    · exact k
    · rw [HexUpper, List.getElem?_eq_none (by simpa [upperDigits] using k)] at h2; cases h2
  have ea : c.toNat / 16 = a := by omega
  have eb : c.toNat % 16 = b := by omega
  have k1 := (hexU_spec c).1
  have k2 := (hexU_spec c).2
  rw [ea] at k1; rw [eb] at k2
  have hB : encB es c = [0x25, h, l] := by
    rw [encB, if_pos hc, ea, eb, hexUpper_unique k1 h1, hexUpper_unique k2 h2]
  have hU : encP es u = u := (encP_id_iff es u).2 (by rw [needsPctencode, List.any_eq_false]; intro c hc; simp [hu c hc])
  have ee : e = u ++ 0x25 :: h :: l :: encP es v := by
    rw [(encodes_iff _ _ _).1 he]
    simp only [encP, List.flatMap_append, List.flatMap_cons, hB] at hU ⊢
    rw [hU]; simp
  have hV : (encP es v).length = v.length ↔ encP es v = v := by
    constructor
    · intro k
      rw [encP_id_iff, needsPctencode, List.any_eq_false]
      rw [encP_length] at k
      have := List.countP_eq_zero.1 (show v.countP (fun c => needsPctencodeB c es) = 0 by omega)
      intro c hc; exact this c hc
    · intro k; rw [k]
  constructor
  · intro k
    obtain ⟨k1, k2⟩ := Prod.mk.inj (Except.ok.inj k)
    have hl : (encP es v).length = v.length := by
      rw [ee] at k2; simp at k2; omega
    have hv := hV.1 hl
    rw [hv] at ee
    have k3 := congrArg (fun m => (m.drop x.length).take (u.length + v.length + 3)) k1
    have cut : ∀ d : Str, d.length = u.length + v.length + 3 →
        ((overwrite (x ++ (u ++ c :: v) ++ y) x.length d).drop x.length).take (u.length + v.length + 3) = d := by
      intro d hd
      rw [overwrite, List.append_assoc, List.append_assoc, List.take_left, List.drop_left, ← hd, List.take_left]
    rw [cut _ (by simp [turns_length]; omega), cut _ (by rw [ee]; simp; omega), ee] at k3
    have k4 := List.append_cancel_left k3
    simp only [turns, List.cons.injEq, true_and] at k4
    exact k4.symm
  · intro k
    have hv : encP es v = v := by
      rw [encP_id_iff, needsPctencode, List.any_eq_false]
      have hp := hexU_plain es c
      rw [ea, eb, hexUpper_unique k1 h1, hexUpper_unique k2 h2] at hp
      have : ∀ n (p q : UInt8), needsPctencodeB p es = false → needsPctencodeB q es = false → ∀ c ∈ turns p q n, needsPctencodeB c es = false := by
        intro n
        induction n with
        | zero => intro p q _ _ c hc; simp [turns] at hc
        | succ n ih =>
          intro p q hp hq c hc
          rcases List.mem_cons.1 hc with rfl | hc
          · exact hp
          · exact ih q p hq hp c hc
      intro c hc
      rw [k] at hc
      simp [this _ _ _ hp.1 hp.2 c hc]
    rw [ee, hv]
    have : u ++ 0x25 :: turns h l (v.length + 2) = u ++ 0x25 :: h :: l :: v := by
      rw [turns, turns, ← k]
    rw [this]
    simp only [List.length_append, List.length_cons, Except.ok.injEq, Prod.mk.injEq, true_and]
    omega

/-! ### The hypotheses are met -/

/-- `%41%42` decoded onto itself with `std::copy` is `A41B42`, not `AB`; with `*out++ = *it++` it is `AB`. -/
example : copyAt (b! "%41%42") 0 6 0 = .ok (b! "A41B42", 6) ∧ postAt (b! "%41%42") 0 6 0 = .ok (b! "AB1%42", 2) := ⟨by rfl, by rfl⟩
/-- `%25%42` is decoded as it should be: `%B`. -/
example : copyAt (b! "%25%42") 0 6 0 = .ok (b! "%B5%42", 2) := by rfl
/-- Decoding to one place before the text. -/
example : copyAt (b! "_%41%42") 1 7 0 = .ok (b! "AB41%42", 2) := by rfl
/-- `a b` encoded onto itself with room for two more is `a%202`. -/
example : pctencodeAt EncSet.path (b! "a b__") 0 3 0 = .ok (b! "a%202", 5) := by rfl
/-- With two places before it: `a%20b`. -/
example : pctencodeAt EncSet.path (b! "__a b") 2 5 0 = .ok (b! "a%20b", 5) := by rfl
/-- Without room. -/
example : pctencodeAt EncSet.path (b! "a b") 0 3 0 = .error .outOfRange := by rfl
/-- ` 202` happens to be right: `%20202`. -/
example : pctencodeAt EncSet.path (b! " 202__") 0 4 0 = .ok (b! "%20202", 6) ∧ pctencode (b! " 202") EncSet.path = .ok (b! "%20202") := ⟨by rfl, by rfl⟩

end Verif
