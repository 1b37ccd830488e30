import Verif.Model.Pct
import Verif.Spec.Pct
import Verif.Proofs.CompleteUri

/-!
# Percent-encoding: closed forms
-/

namespace Verif
open PctSpec

set_option linter.unusedSimpArgs false

theorem forall_byte2 {n : Nat} {P : UInt8 → Nat → Bool}
    (h : (List.range 256).all (fun k => (List.range n).all (fun v => P (UInt8.ofNat k) v)) = true)
    (c : UInt8) (v : Nat) (hv : v < n) : P c v = true := by
  have := List.all_eq_true.1 h c.toNat (by simp; exact c.toNat_lt)
  have := List.all_eq_true.1 this v (by simpa using hv)
  simpa using this

theorem forall_byte_byte {P : UInt8 → UInt8 → Bool}
    (h : (List.range 256).all (fun k => (List.range 256).all (fun v => P (UInt8.ofNat k) (UInt8.ofNat v))) = true)
    (c d : UInt8) : P c d = true := by
  have := forall_byte2 (n := 256) (P := fun c v => P c (UInt8.ofNat v)) h c d.toNat d.toNat_lt
  simpa using this

theorem hexVal_lt {c : UInt8} {v : Nat} (h : HexVal c v) : v < 16 := by
  rcases h with h | h <;>
  · rcases Nat.lt_or_ge v 16 with h1 | h1
    · exact h1
    · rw [List.getElem?_eq_none (by simpa [upperDigits, lowerDigits] using h1)] at h; simp at h

theorem hexVal_iff (c : UInt8) (v : Nat) : HexVal c v ↔ (hex2dec c).toNat < 16 ∧ v = (hex2dec c).toNat := by
  have key := fun hv => forall_byte2 (n := 16)
    (P := fun c v => (decide (upperDigits[v]? = some c) || decide (lowerDigits[v]? = some c)) ==
      (decide ((hex2dec c).toNat < 16) && decide (v = (hex2dec c).toNat))) (by decide +kernel) c v hv
  constructor
  · intro h
    have := key (hexVal_lt h)
    rw [beq_iff_eq, Bool.eq_iff_iff] at this
    simp only [Bool.or_eq_true, Bool.and_eq_true, decide_eq_true_eq] at this
    exact this.1 h
  · rintro ⟨h1, h2⟩
    have := key (by omega)
    rw [beq_iff_eq, Bool.eq_iff_iff] at this
    simp only [Bool.or_eq_true, Bool.and_eq_true, decide_eq_true_eq] at this
    exact this.2 ⟨h1, h2⟩

theorem hex2dec_le (c : UInt8) : (hex2dec c).toNat ≤ 16 := by
  have := forall_byte (P := fun c => decide ((hex2dec c).toNat ≤ 16)) (by decide +kernel) c
  simpa using this

/-- Both characters are hexadecimal digits. -/
def tripletB (h l : UInt8) : Bool := !eitherBad (hex2dec h) (hex2dec l)
/-- The byte a triplet denotes. -/
def byteB (h l : UInt8) : UInt8 := (hex2dec h <<< 4) ||| hex2dec l

theorem small_pair (a b : UInt8) (ha : a.toNat ≤ 16) (hb : b.toNat ≤ 16) :
    (!eitherBad a b) = (decide (a.toNat < 16) && decide (b.toNat < 16)) ∧
    (a.toNat < 16 → b.toNat < 16 → ((a <<< 4) ||| b).toNat = 16 * a.toNat + b.toNat) := by
  have : (List.range 17).all (fun x => (List.range 17).all fun y =>
      ((!eitherBad (UInt8.ofNat x) (UInt8.ofNat y)) == (decide ((UInt8.ofNat x).toNat < 16) && decide ((UInt8.ofNat y).toNat < 16))) &&
      (decide ((UInt8.ofNat x).toNat < 16 → (UInt8.ofNat y).toNat < 16 →
        ((UInt8.ofNat x <<< 4) ||| UInt8.ofNat y).toNat = 16 * (UInt8.ofNat x).toNat + (UInt8.ofNat y).toNat))) = true := by
    decide +kernel
  have := List.all_eq_true.1 this a.toNat (by simp; omega)
  have := List.all_eq_true.1 this b.toNat (by simp; omega)
  simp only [UInt8.ofNat_toNat, Bool.and_eq_true, beq_iff_eq, decide_eq_true_eq] at this
  exact this

theorem tripletB_iff (h l : UInt8) : tripletB h l = true ↔ (hex2dec h).toNat < 16 ∧ (hex2dec l).toNat < 16 := by
  rw [tripletB, (small_pair _ _ (hex2dec_le h) (hex2dec_le l)).1]; simp

theorem triplet_iff (h l b : UInt8) : Triplet h l b ↔ tripletB h l = true ∧ b = byteB h l := by
  rw [tripletB_iff]
  simp only [Triplet, hexVal_iff]
  constructor
  · rintro ⟨x, y, ⟨h1, rfl⟩, ⟨h2, rfl⟩, h3⟩
    refine ⟨⟨h1, h2⟩, ?_⟩
    rw [← (small_pair _ _ (hex2dec_le h) (hex2dec_le l)).2 h1 h2] at h3
    exact UInt8.toNat.inj h3
  · rintro ⟨⟨h1, h2⟩, rfl⟩
    exact ⟨_, _, ⟨h1, rfl⟩, ⟨h2, rfl⟩, (small_pair _ _ (hex2dec_le h) (hex2dec_le l)).2 h1 h2⟩

/-! ### Decoding -/

/-- The byte denoted by the triplet a text begins with. -/
def tripHead : Str → Option UInt8
  | c :: h :: l :: _ => if c = 0x25 ∧ tripletB h l = true then some (byteB h l) else none
  | _ => none

/-- Closed form of decoding. -/
def decP : Str → Str
  | [] => []
  | c :: h :: l :: t => if c = 0x25 ∧ tripletB h l = true then byteB h l :: decP t else c :: decP (h :: l :: t)
  | c :: t => c :: decP t

theorem decP_cons (c : UInt8) (t : Str) : decP (c :: t) =
    match tripHead (c :: t) with
    | some b => b :: decP (t.drop 2)
    | none => c :: decP t := by
  match t with
  | [] => simp [decP, tripHead]
  | [h] => simp [decP, tripHead]
  | h :: l :: t =>
    by_cases hh : c = 0x25 ∧ tripletB h l = true
    · simp [decP, tripHead, hh]
    · rw [decP, tripHead, if_neg hh, if_neg hh]

theorem starts_iff (s : Str) : StartsTriplet s ↔ (tripHead s).isSome = true := by
  constructor
  · rintro ⟨h, l, b, t, rfl, ht⟩
    have := ((triplet_iff _ _ _).1 ht).1
    simp [tripHead, this]
  · intro h
    match s, h with
    | [], h => simp [tripHead] at h
    | [_], h => simp [tripHead] at h
    | [_, _], h => simp [tripHead] at h
    | c :: h :: l :: t, hs =>
      by_cases hh : c = 0x25 ∧ tripletB h l = true
      · exact ⟨h, l, _, t, by rw [hh.1], (triplet_iff _ _ _).2 ⟨hh.2, rfl⟩⟩
      · rw [tripHead, if_neg hh] at hs; simp at hs

theorem decodes_iff (s d : Str) : Decodes s d ↔ d = decP s := by
  constructor
  · intro h
    induction h with
    | nil => rfl
    | triplet ht _ ih =>
      obtain ⟨h1, rfl⟩ := (triplet_iff _ _ _).1 ht
      simp [decP, h1, ih]
    | copy hn _ ih =>
      rw [starts_iff] at hn
      rw [decP_cons]
      simp only [Option.not_isSome_iff_eq_none] at hn
      rw [hn, ih]
  · rintro rfl
    induction s using decP.induct with
    | case1 => exact .nil
    | case2 c h l t hh ih =>
      rw [decP, if_pos hh, hh.1]
      exact .triplet ((triplet_iff _ _ _).2 ⟨hh.2, rfl⟩) ih
    | case3 c h l t hh ih =>
      rw [decP, if_neg hh]
      refine .copy ?_ ih
      rw [starts_iff, tripHead, if_neg hh]; simp
    | case4 c t hne ih =>
      have ht : tripHead (c :: t) = none := by
        match t with
        | [] => rfl
        | [_] => rfl
        | h :: l :: t => exact absurd rfl (hne h l t)
      rw [decP_cons, ht]
      refine .copy ?_ ih
      rw [starts_iff, ht]; simp

/-- Reading inside the middle part of a text. -/
theorem readAt_mid (pre mid post : Str) (k : Nat) (c : UInt8) (h : mid[k]? = some c) :
    readAt (pre ++ mid ++ post) (pre.length + k) = .ok c := by
  have hk : k < mid.length := by
    rcases Nat.lt_or_ge k mid.length with h1 | h1
    · exact h1
    · rw [List.getElem?_eq_none h1] at h; simp at h
  rw [readAt, List.append_assoc, List.getElem?_append_right (by omega), List.getElem?_append_left (by omega)]
  simp [h]

theorem pctDeref_mid (pre post : Str) (c : UInt8) (t : Str) :
    pctDeref (pre ++ c :: t ++ post) pre.length (pre.length + (c :: t).length) = .ok ((tripHead (c :: t)).getD c) := by
  have r0 := readAt_mid pre (c :: t) post 0 c (by simp)
  simp only [Nat.add_zero] at r0
  match t with
  | [] =>
    have hd : ((↑(pre.length + [c].length) : Int) - ↑pre.length < 3) := by simp; omega
    simp only [pctDeref, r0, tripHead, bind, Except.bind, hd, decide_true, Bool.or_true, if_true, Option.getD_none]
  | [h] =>
    have hd : ((↑(pre.length + [c, h].length) : Int) - ↑pre.length < 3) := by simp; omega
    simp only [pctDeref, r0, tripHead, bind, Except.bind, hd, decide_true, Bool.or_true, if_true, Option.getD_none]
  | h :: l :: t =>
    have r1 := readAt_mid pre (c :: h :: l :: t) post 1 h (by simp)
    have r2 := readAt_mid pre (c :: h :: l :: t) post 2 l (by simp)
    have hd : ¬ ((↑(pre.length + (c :: h :: l :: t).length) : Int) - ↑pre.length < 3) := by simp; omega
    simp only [pctDeref, r0, r1, r2, bind, Except.bind, tripHead, hd, decide_false, Bool.or_false, tripletB, byteB]
    by_cases hc : c = 0x25
    · by_cases hb : eitherBad (hex2dec h) (hex2dec l) = true
      · simp [hc, hb]
      · simp [hc, hb]
    · simp [hc]

theorem pctIncrement_mid (pre post : Str) (c : UInt8) (t : Str) :
    pctIncrement (pre ++ c :: t ++ post) pre.length (pre.length + (c :: t).length) =
      .ok (pre.length + if (tripHead (c :: t)).isSome then 3 else 1) := by
  have r0 := readAt_mid pre (c :: t) post 0 c (by simp)
  simp only [Nat.add_zero] at r0
  match t with
  | [] =>
    have hd : ((↑(pre.length + [c].length) : Int) - ↑pre.length < 3) := by simp; omega
    have hd0 : ¬ ((↑(pre.length + [c].length) : Int) - ↑pre.length ≤ 0) := by simp; omega
    simp only [pctIncrement, tripHead, bind, Except.bind, hd, hd0, if_true, if_false, Option.isSome_none, Bool.false_eq_true]
  | [h] =>
    have hd : ((↑(pre.length + [c, h].length) : Int) - ↑pre.length < 3) := by simp; omega
    have hd0 : ¬ ((↑(pre.length + [c, h].length) : Int) - ↑pre.length ≤ 0) := by simp; omega
    simp only [pctIncrement, tripHead, bind, Except.bind, hd, hd0, if_true, if_false, Option.isSome_none, Bool.false_eq_true]
  | h :: l :: t =>
    have r1 := readAt_mid pre (c :: h :: l :: t) post 1 h (by simp)
    have r2 := readAt_mid pre (c :: h :: l :: t) post 2 l (by simp)
    have hd : ¬ ((↑(pre.length + (c :: h :: l :: t).length) : Int) - ↑pre.length < 3) := by simp; omega
    have hd0 : ¬ ((↑(pre.length + (c :: h :: l :: t).length) : Int) - ↑pre.length ≤ 0) := by simp; omega
    simp only [pctIncrement, r0, r1, r2, bind, Except.bind, tripHead, hd, hd0, if_false, tripletB]
    by_cases hc : c = 0x25
    · by_cases hb : eitherBad (hex2dec h) (hex2dec l) = true
      · simp [hc, hb]
      · simp [hc, hb]
    · simp [hc]

theorem pctIterLoop_mid (post : Str) : ∀ (n : Nat) (pre mid : Str) (fuel e : Nat), mid.length ≤ n → mid.length < fuel →
    e = pre.length + mid.length →
    pctIterLoop (pre ++ mid ++ post) ⟨e, e⟩ fuel ⟨pre.length, e⟩ = .ok (decP mid) := by
  intro n
  induction n with
  | zero =>
    intro pre mid fuel e hn hf he
    have : mid = [] := List.eq_nil_of_length_eq_zero (by omega)
    subst this
    obtain ⟨f, rfl⟩ : ∃ f, fuel = f + 1 := ⟨fuel - 1, by simp at hf; omega⟩
    subst he
    simp [pctIterLoop, PctIter.eq, decP, bind, Except.bind]
  | succ n ih =>
    intro pre mid fuel e hn hf he
    obtain ⟨f, rfl⟩ : ∃ f, fuel = f + 1 := ⟨fuel - 1, by omega⟩
    match mid with
    | [] =>
      subst he
      simp [pctIterLoop, PctIter.eq, decP, bind, Except.bind]
    | c :: t =>
      have hne : ((pre.length : Nat) == e) = false := by simp at he ⊢; omega
      simp only [pctIterLoop, PctIter.eq, if_true, hne, Bool.false_and, bind, Except.bind, if_false, Bool.false_eq_true]
      rw [he, pctDeref_mid, pctIncrement_mid, decP_cons]
      simp only []
      cases ht : tripHead (c :: t) with
      | none =>
        have := ih (pre ++ [c]) t f e (by simpa using hn) (by simp at hf; omega) (by simp [he]; omega)
        simp only [List.length_append, List.length_cons, List.length_nil, List.append_assoc, List.cons_append, List.nil_append] at this
        rw [he] at this
        simp only [List.append_assoc, List.cons_append, Option.isSome_none, Bool.false_eq_true, if_false, List.length_cons, Option.getD_none] at this ⊢
        simp only [Nat.zero_add] at this
        rw [this]
      | some b =>
        obtain ⟨h, l, u, rfl⟩ : ∃ h l u, t = h :: l :: u := by
          match t, ht with
          | [], ht => simp [tripHead] at ht
          | [_], ht => simp [tripHead] at ht
          | h :: l :: u, _ => exact ⟨h, l, u, rfl⟩
        have := ih (pre ++ [c, h, l]) u f e (by simp at hn; omega) (by simp at hf; omega) (by simp [he]; omega)
        simp only [List.length_append, List.length_cons, List.length_nil, List.append_assoc, List.cons_append, List.nil_append] at this
        rw [he] at this
        simp only [List.append_assoc, List.cons_append, Option.isSome_some, if_true, List.length_cons, Option.getD_some, List.drop_succ_cons,
          List.drop_zero] at this ⊢
        simp only [Nat.zero_add, Nat.reduceAdd] at this
        rw [this]

theorem pctdecode_eq (s : Str) : pctdecode s = .ok (decP s) := by
  have := pctIterLoop_mid [] s.length [] s (s.length + 1) s.length (Nat.le_refl _) (by omega) (by simp)
  simpa [pctdecode, pctdecoder] using this

theorem pctView_eq_iter (s : Str) (last : Nat) (hl : last = s.length) : ∀ fuel pos, pctViewLoop s last fuel pos = pctIterLoop s ⟨last, last⟩ fuel ⟨pos, last⟩ := by
  intro fuel
  induction fuel with
  | zero => intro pos; rfl
  | succ f ih =>
    intro pos
    subst hl
    simp only [pctViewLoop, pctIterLoop, PctIter.eq, if_true, bind, Except.bind, beq_self_eq_true, Bool.and_true]
    cases h : (pos == s.length) with
    | true => simp
    | false => simp [ih]

theorem pctViewCopy_eq (s : Str) : pctViewCopy s = .ok (decP s) := by
  rw [← pctdecode_eq]; simp [pctViewCopy, pctdecode, pctdecoder, pctView_eq_iter]

theorem decP_length (s : Str) : (decP s).length ≤ s.length := by
  induction s using decP.induct with
  | case1 => simp [decP]
  | case2 c h l t hh ih => rw [decP, if_pos hh]; simp; omega
  | case3 c h l t hh ih => rw [decP, if_neg hh]; simpa using ih
  | case4 c t hne ih =>
    have ht : tripHead (c :: t) = none := by
      match t with
      | [] => rfl
      | [_] => rfl
      | h :: l :: t => exact absurd rfl (hne h l t)
    rw [decP_cons, ht]; simpa using ih

theorem tripHead_none {c : UInt8} {t : Str} (h : c ≠ 0x25) : tripHead (c :: t) = none := by
  match t with
  | [] => rfl
  | [_] => rfl
  | a :: b :: t => simp [tripHead, h]

theorem decP_copy {c : UInt8} {t : Str} (h : c ≠ 0x25) : decP (c :: t) = c :: decP t := by
  rw [decP_cons, tripHead_none h]

theorem decP_id {s : Str} (h : (0x25 : UInt8) ∉ s) : decP s = s := by
  induction s with
  | nil => rfl
  | cons c t ih =>
    simp only [List.mem_cons, not_or] at h
    rw [decP_copy (fun e => h.1 e.symm), ih h.2]

/-! ### Encoding -/

/-- Upper-case digit of a value. -/
def hexU (v : Nat) : UInt8 := upperDigits.getD v 0
/-- What is written for a byte. -/
def encB (es : UInt8) (c : UInt8) : Str :=
  if needsPctencodeB c es then [0x25, hexU (c.toNat / 16), hexU (c.toNat % 16)] else [c]
/-- Closed form of encoding. -/
def encP (es : UInt8) (s : Str) : Str := s.flatMap (encB es)

theorem dec2hex_byte (c : UInt8) : dec2hex ((c.toNat >>> 4) &&& 0xF) = .ok (hexU (c.toNat / 16)) ∧
    dec2hex (c.toNat &&& 0xF) = .ok (hexU (c.toNat % 16)) := by
  have := forall_byte (P := fun c => decide (dec2hex ((c.toNat >>> 4) &&& 0xF) = .ok (hexU (c.toNat / 16)) ∧
    dec2hex (c.toNat &&& 0xF) = .ok (hexU (c.toNat % 16)))) (by decide +kernel) c
  simpa using this

theorem pctencode_eq (s : Str) (es : UInt8) : pctencode s es = .ok (encP es s) := by
  unfold pctencode
  induction s with
  | nil => rfl
  | cons c s ih =>
    obtain ⟨h1, h2⟩ := dec2hex_byte c
    simp only [pctencodeM, h1, h2, ih, bind, Except.bind, encP, List.flatMap_cons, encB]
    split <;> simp

theorem hexU_spec (c : UInt8) : HexUpper (hexU (c.toNat / 16)) (c.toNat / 16) ∧ HexUpper (hexU (c.toNat % 16)) (c.toNat % 16) := by
  unfold HexUpper
  have := forall_byte (P := fun c => decide (upperDigits[c.toNat / 16]? = some (hexU (c.toNat / 16)) ∧
    upperDigits[c.toNat % 16]? = some (hexU (c.toNat % 16)))) (by decide +kernel) c
  simpa using this

theorem hexUpper_unique {c d : UInt8} {v : Nat} (h1 : HexUpper c v) (h2 : HexUpper d v) : c = d := by
  unfold HexUpper at *; rw [h1] at h2; simpa using h2

theorem encodes_iff (es : UInt8) (s e : Str) : Encodes (fun c => needsPctencodeB c es = true) s e ↔ e = encP es s := by
  constructor
  · intro h
    induction h with
    | nil => rfl
    | @triplet c h l s e hp hx _ ih =>
      obtain ⟨x, y, h1, h2, h3⟩ := hx
      have hx : x < 16 := hexVal_lt (Or.inl h1)
      have hy : y < 16 := hexVal_lt (Or.inl h2)
      have ex : x = c.toNat / 16 := by omega
      have ey : y = c.toNat % 16 := by omega
      subst ex ey
      rw [hexUpper_unique h1 (hexU_spec c).1, hexUpper_unique h2 (hexU_spec c).2, ih]
      simp [encP, encB, hp]
    | copy hn _ ih => simp [encP, encB, hn, ih]
  · rintro rfl
    induction s with
    | nil => exact .nil
    | cons c s ih =>
      by_cases hc : needsPctencodeB c es = true
      · have : encP es (c :: s) = 0x25 :: hexU (c.toNat / 16) :: hexU (c.toNat % 16) :: encP es s := by simp [encP, encB, hc]
        rw [this]
        exact .triplet hc ⟨_, _, (hexU_spec c).1, (hexU_spec c).2, by omega⟩ ih
      · have : encP es (c :: s) = c :: encP es s := by simp [encP, encB, hc]
        rw [this]
        exact .copy hc ih

theorem encP_triplet (c : UInt8) : tripletB (hexU (c.toNat / 16)) (hexU (c.toNat % 16)) = true ∧
    byteB (hexU (c.toNat / 16)) (hexU (c.toNat % 16)) = c := by
  have : Triplet (hexU (c.toNat / 16)) (hexU (c.toNat % 16)) c :=
    ⟨_, _, Or.inl (hexU_spec c).1, Or.inl (hexU_spec c).2, by omega⟩
  rw [triplet_iff] at this
  exact ⟨this.1, this.2.symm⟩

theorem percent_needs (es : UInt8) (h : es ≠ 0) : needsPctencodeB 0x25 es = true := by
  have := forall_byte (P := fun es => es == 0 || needsPctencodeB 0x25 es) (by decide +kernel) es
  simpa [h] using this

theorem decP_encP (es : UInt8) (s : Str) (h : es ≠ 0 ∨ (0x25 : UInt8) ∉ s) : decP (encP es s) = s := by
  induction s with
  | nil => rfl
  | cons c s ih =>
    have ih := ih (h.imp id (fun h => by simp at h; exact h.2))
    by_cases hc : needsPctencodeB c es = true
    · have : encP es (c :: s) = 0x25 :: hexU (c.toNat / 16) :: hexU (c.toNat % 16) :: encP es s := by simp [encP, encB, hc]
      obtain ⟨h1, h2⟩ := encP_triplet c
      rw [this, decP, if_pos ⟨rfl, h1⟩, h2, ih]
    · have : encP es (c :: s) = c :: encP es s := by simp [encP, encB, hc]
      rw [this, decP_copy, ih]
      rintro rfl
      rcases h with h | h
      · exact hc (percent_needs es h)
      · exact h (by simp)

theorem encP_id_iff (es : UInt8) (s : Str) : encP es s = s ↔ needsPctencode s es = false := by
  have hlen : ∀ s, s.length ≤ (encP es s).length := by
    intro s
    induction s with
    | nil => simp [encP]
    | cons c s ih =>
      simp only [encP, List.flatMap_cons, List.length_append, List.length_cons] at *
      have : 1 ≤ (encB es c).length := by unfold encB; split <;> simp
      omega
  induction s with
  | nil => simp [encP, needsPctencode]
  | cons c s ih =>
    by_cases hc : needsPctencodeB c es = true
    · have : encP es (c :: s) = 0x25 :: hexU (c.toNat / 16) :: hexU (c.toNat % 16) :: encP es s := by simp [encP, encB, hc]
      rw [this]
      constructor
      · intro h
        have := congrArg List.length h
        have := hlen s
        simp at *; omega
      · intro h; simp [needsPctencode, hc] at h
    · have : encP es (c :: s) = c :: encP es s := by simp [encP, encB, hc]
      rw [this]
      simp only [List.cons.injEq, true_and, ih]
      simp [needsPctencode, hc]

theorem encP_length (es : UInt8) (s : Str) : (encP es s).length = s.length + 2 * s.countP (fun c => needsPctencodeB c es) := by
  induction s with
  | nil => simp [encP]
  | cons c s ih =>
    simp only [encP, List.flatMap_cons, List.length_append, List.length_cons, List.countP_cons] at *
    rw [ih, encB]
    split <;> simp <;> omega

end Verif
