import Verif.Model.PctWide
import Verif.Spec.PctWide
import Verif.Proofs.Pct

/-!
# Percent coding of wide text: closed forms
-/

namespace Verif.Wide
open WideSpec

set_option linter.unusedSimpArgs false

theorem hex2dec_eq (c : Nat) : hex2dec c = if c < 256 then Verif.hex2dec (UInt8.ofNat c) else hexBad := by
  by_cases h : c < 256
  · rw [if_pos h]
    have := forall_byte (P := fun b => hex2dec b.toNat == Verif.hex2dec b) (by decide +kernel) (UInt8.ofNat c)
    simpa [Nat.mod_eq_of_lt h] using this
  · rw [if_neg h]
    have h1 : ¬ c ≤ 0x66 := by omega
    have h2 : ¬ c ≤ 0x46 := by omega
    have h3 : ¬ c ≤ 0x39 := by omega
    simp [hex2dec, h1, h2, h3]

theorem hex2dec_le (c : Nat) : (hex2dec c).toNat ≤ 16 := by
  rw [hex2dec_eq]; split
  · exact Verif.hex2dec_le _
  · decide

theorem hexVal_iff (c v : Nat) : HexVal c v ↔ (hex2dec c).toNat < 16 ∧ v = (hex2dec c).toNat := by
  rw [hex2dec_eq]
  constructor
  · rintro ⟨b, rfl, h⟩
    rw [Verif.hexVal_iff] at h
    simpa [b.toNat_lt] using h
  · by_cases h : c < 256
    · rw [if_pos h]
      intro k
      exact ⟨UInt8.ofNat c, by simp; omega, (Verif.hexVal_iff _ _).2 k⟩
    · rw [if_neg h]; rintro ⟨k, _⟩; exact absurd k (by decide)

/-- Both units are hexadecimal digits. -/
def tripletB (h l : Nat) : Bool := !eitherBad (hex2dec h) (hex2dec l)
/-- What a triplet denotes. -/
def byteB (h l : Nat) : Nat := ((hex2dec h <<< 4) ||| hex2dec l).toNat

theorem tripletB_iff (h l : Nat) : tripletB h l = true ↔ (hex2dec h).toNat < 16 ∧ (hex2dec l).toNat < 16 := by
  rw [tripletB, (small_pair _ _ (hex2dec_le h) (hex2dec_le l)).1]; simp

theorem triplet_iff (h l b : Nat) : Triplet h l b ↔ tripletB h l = true ∧ b = byteB h l := by
  rw [tripletB_iff]
  simp only [Triplet, hexVal_iff]
  constructor
  · rintro ⟨x, y, ⟨h1, rfl⟩, ⟨h2, rfl⟩, h3⟩
    exact ⟨⟨h1, h2⟩, h3.trans ((small_pair _ _ (hex2dec_le h) (hex2dec_le l)).2 h1 h2).symm⟩
  · rintro ⟨⟨h1, h2⟩, rfl⟩
    exact ⟨_, _, ⟨h1, rfl⟩, ⟨h2, rfl⟩, (small_pair _ _ (hex2dec_le h) (hex2dec_le l)).2 h1 h2⟩

/-! ### Decoding -/

/-- The byte denoted by the triplet a text begins with. -/
def tripHead : WStr → Option Nat
  | c :: h :: l :: _ => if c = 0x25 ∧ tripletB h l = true then some (byteB h l) else none
  | _ => none

/-- Closed form of decoding. -/
def decP : WStr → WStr
  | [] => []
  | c :: h :: l :: t => if c = 0x25 ∧ tripletB h l = true then byteB h l :: decP t else c :: decP (h :: l :: t)
  | c :: t => c :: decP t

theorem decP_cons (c : Nat) (t : WStr) : decP (c :: t) =
    match tripHead (c :: t) with
    | some b => b :: decP (t.drop 2)
    | none => c :: decP t := by
  match t with
  | [] => simp [decP, tripHead]
  | [h] => simp [decP, tripHead]
  | h :: l :: t =>
    by_cases hh : c = 0x25 ∧ tripletB h l = true
    · simp [decP, tripHead, hh]
    · rw [decP, tripHead, if_neg hh, if_neg hh]

theorem starts_iff (s : WStr) : StartsTriplet s ↔ (tripHead s).isSome = true := by
  constructor
  · rintro ⟨h, l, b, t, rfl, ht⟩
    have := ((triplet_iff _ _ _).1 ht).1
    simp [tripHead, this]
  · intro h
    match s, h with
    | [], h => simp [tripHead] at h
    | [_], h => simp [tripHead] at h
    | [_, _], h => simp [tripHead] at h
    | c :: h :: l :: t, hs =>
      by_cases hh : c = 0x25 ∧ tripletB h l = true
      · exact ⟨h, l, _, t, by rw [hh.1], (triplet_iff _ _ _).2 ⟨hh.2, rfl⟩⟩
      · rw [tripHead, if_neg hh] at hs; simp at hs

theorem decodes_iff (s d : WStr) : Decodes s d ↔ d = decP s := by
  constructor
  · intro h
    induction h with
    | nil => rfl
    | triplet ht _ ih =>
      obtain ⟨h1, rfl⟩ := (triplet_iff _ _ _).1 ht
      simp [decP, h1, ih]
    | copy hn _ ih =>
      rw [starts_iff] at hn
      rw [decP_cons]
      simp only [Option.not_isSome_iff_eq_none] at hn
      rw [hn, ih]
  · rintro rfl
    induction s using decP.induct with
    | case1 => exact .nil
    | case2 c h l t hh ih =>
      rw [decP, if_pos hh, hh.1]
      exact .triplet ((triplet_iff _ _ _).2 ⟨hh.2, rfl⟩) ih
    | case3 c h l t hh ih =>
      rw [decP, if_neg hh]
      refine .copy ?_ ih
      rw [starts_iff, tripHead, if_neg hh]; simp
    | case4 c t hne ih =>
      have ht : tripHead (c :: t) = none := by
        match t with
        | [] => rfl
        | [_] => rfl
        | h :: l :: t => exact absurd rfl (hne h l t)
      rw [decP_cons, ht]
      refine .copy ?_ ih
      rw [starts_iff, ht]; simp

/-- Reading inside the middle part of a text. -/
theorem readAt_mid (pre mid post : WStr) (k : Nat) (c : Nat) (h : mid[k]? = some c) :
    readAt (pre ++ mid ++ post) (pre.length + k) = .ok c := by
  have hk : k < mid.length := by
    rcases Nat.lt_or_ge k mid.length with h1 | h1
    · exact h1
    · rw [List.getElem?_eq_none h1] at h; simp at h
  rw [readAt, List.append_assoc, List.getElem?_append_right (by omega), List.getElem?_append_left (by omega)]
  simp [h]

theorem pctDeref_mid (pre post : WStr) (c : Nat) (t : WStr) :
    pctDeref (pre ++ c :: t ++ post) pre.length (pre.length + (c :: t).length) = .ok ((tripHead (c :: t)).getD c) := by
  have r0 := readAt_mid pre (c :: t) post 0 c (by simp)
  simp only [Nat.add_zero] at r0
  match t with
  | [] =>
    have hd : ((↑(pre.length + [c].length) : Int) - ↑pre.length < 3) := by simp; omega
    simp only [pctDeref, r0, tripHead, bind, Except.bind, hd, decide_true, Bool.or_true, if_true, Option.getD_none]
  | [h] =>
    have hd : ((↑(pre.length + [c, h].length) : Int) - ↑pre.length < 3) := by simp; omega
    simp only [pctDeref, r0, tripHead, bind, Except.bind, hd, decide_true, Bool.or_true, if_true, Option.getD_none]
  | h :: l :: t =>
    have r1 := readAt_mid pre (c :: h :: l :: t) post 1 h (by simp)
    have r2 := readAt_mid pre (c :: h :: l :: t) post 2 l (by simp)
    have hd : ¬ ((↑(pre.length + (c :: h :: l :: t).length) : Int) - ↑pre.length < 3) := by simp; omega
    simp only [pctDeref, r0, r1, r2, bind, Except.bind, tripHead, hd, decide_false, Bool.or_false, tripletB, byteB]
    by_cases hc : c = 0x25
    · by_cases hb : eitherBad (hex2dec h) (hex2dec l) = true
      · simp [hc, hb]
      · simp [hc, hb]
    · simp [hc]

theorem pctIncrement_mid (pre post : WStr) (c : Nat) (t : WStr) :
    pctIncrement (pre ++ c :: t ++ post) pre.length (pre.length + (c :: t).length) =
      .ok (pre.length + if (tripHead (c :: t)).isSome then 3 else 1) := by
  have r0 := readAt_mid pre (c :: t) post 0 c (by simp)
  simp only [Nat.add_zero] at r0
  match t with
  | [] =>
    have hd : ((↑(pre.length + [c].length) : Int) - ↑pre.length < 3) := by simp; omega
    have hd0 : ¬ ((↑(pre.length + [c].length) : Int) - ↑pre.length ≤ 0) := by simp; omega
    simp only [pctIncrement, tripHead, bind, Except.bind, hd, hd0, if_true, if_false, Option.isSome_none, Bool.false_eq_true]
  | [h] =>
    have hd : ((↑(pre.length + [c, h].length) : Int) - ↑pre.length < 3) := by simp; omega
    have hd0 : ¬ ((↑(pre.length + [c, h].length) : Int) - ↑pre.length ≤ 0) := by simp; omega
    simp only [pctIncrement, tripHead, bind, Except.bind, hd, hd0, if_true, if_false, Option.isSome_none, Bool.false_eq_true]
  | h :: l :: t =>
    have r1 := readAt_mid pre (c :: h :: l :: t) post 1 h (by simp)
    have r2 := readAt_mid pre (c :: h :: l :: t) post 2 l (by simp)
    have hd : ¬ ((↑(pre.length + (c :: h :: l :: t).length) : Int) - ↑pre.length < 3) := by simp; omega
    have hd0 : ¬ ((↑(pre.length + (c :: h :: l :: t).length) : Int) - ↑pre.length ≤ 0) := by simp; omega
    simp only [pctIncrement, r0, r1, r2, bind, Except.bind, tripHead, hd, hd0, if_false, tripletB]
    by_cases hc : c = 0x25
    · by_cases hb : eitherBad (hex2dec h) (hex2dec l) = true
      · simp [hc, hb]
      · simp [hc, hb]
    · simp [hc]

theorem pctIterLoop_mid (post : WStr) : ∀ (n : Nat) (pre mid : WStr) (fuel e : Nat), mid.length ≤ n → mid.length < fuel →
    e = pre.length + mid.length →
    pctIterLoop (pre ++ mid ++ post) ⟨e, e⟩ fuel ⟨pre.length, e⟩ = .ok (decP mid) := by
  intro n
  induction n with
  | zero =>
    intro pre mid fuel e hn hf he
    have : mid = [] := List.eq_nil_of_length_eq_zero (by omega)
    subst this
    obtain ⟨f, rfl⟩ : ∃ f, fuel = f + 1 := ⟨fuel - 1, by simp at hf; omega⟩
    subst he
    simp [pctIterLoop, PctIter.eq, decP, bind, Except.bind]
  | succ n ih =>
    intro pre mid fuel e hn hf he
    obtain ⟨f, rfl⟩ : ∃ f, fuel = f + 1 := ⟨fuel - 1, by omega⟩
    match mid with
    | [] =>
      subst he
      simp [pctIterLoop, PctIter.eq, decP, bind, Except.bind]
    | c :: t =>
      have hne : ((pre.length : Nat) == e) = false := by simp at he ⊢; omega
      simp only [pctIterLoop, PctIter.eq, if_true, hne, Bool.false_and, bind, Except.bind, if_false, Bool.false_eq_true]
      rw [he, pctDeref_mid, pctIncrement_mid, decP_cons]
      simp only []
      cases ht : tripHead (c :: t) with
      | none =>
        have := ih (pre ++ [c]) t f e (by simpa using hn) (by simp at hf; omega) (by simp [he]; omega)
        simp only [List.length_append, List.length_cons, List.length_nil, List.append_assoc, List.cons_append, List.nil_append] at this
        rw [he] at this
        simp only [List.append_assoc, List.cons_append, Option.isSome_none, Bool.false_eq_true, if_false, List.length_cons, Option.getD_none] at this ⊢
        simp only [Nat.zero_add] at this
        rw [this]
      | some b =>
        obtain ⟨h, l, u, rfl⟩ : ∃ h l u, t = h :: l :: u := by
          match t, ht with
          | [], ht => simp [tripHead] at ht
          | [_], ht => simp [tripHead] at ht
          | h :: l :: u, _ => exact ⟨h, l, u, rfl⟩
        have := ih (pre ++ [c, h, l]) u f e (by simp at hn; omega) (by simp at hf; omega) (by simp [he]; omega)
        simp only [List.length_append, List.length_cons, List.length_nil, List.append_assoc, List.cons_append, List.nil_append] at this
        rw [he] at this
        simp only [List.append_assoc, List.cons_append, Option.isSome_some, if_true, List.length_cons, Option.getD_some, List.drop_succ_cons,
          List.drop_zero] at this ⊢
        simp only [Nat.zero_add, Nat.reduceAdd] at this
        rw [this]

theorem pctdecode_eq (s : WStr) : pctdecode s = .ok (decP s) := by
  have := pctIterLoop_mid [] s.length [] s (s.length + 1) s.length (Nat.le_refl _) (by omega) (by simp)
  simpa [pctdecode] using this

theorem pctView_eq_iter (s : WStr) (last : Nat) (hl : last = s.length) : ∀ fuel pos, pctViewLoop s last fuel pos = pctIterLoop s ⟨last, last⟩ fuel ⟨pos, last⟩ := by
  intro fuel
  induction fuel with
  | zero => intro pos; rfl
  | succ f ih =>
    intro pos
    subst hl
    simp only [pctViewLoop, pctIterLoop, PctIter.eq, if_true, bind, Except.bind, beq_self_eq_true, Bool.and_true]
    cases h : (pos == s.length) with
    | true => simp
    | false => simp [ih]

theorem pctViewCopy_eq (s : WStr) : pctViewCopy s = .ok (decP s) := by
  rw [← pctdecode_eq]; simp [pctViewCopy, pctdecode, pctView_eq_iter]

theorem decP_length (s : WStr) : (decP s).length ≤ s.length := by
  induction s using decP.induct with
  | case1 => simp [decP]
  | case2 c h l t hh ih => rw [decP, if_pos hh]; simp; omega
  | case3 c h l t hh ih => rw [decP, if_neg hh]; simpa using ih
  | case4 c t hne ih =>
    have ht : tripHead (c :: t) = none := by
      match t with
      | [] => rfl
      | [_] => rfl
      | h :: l :: t => exact absurd rfl (hne h l t)
    rw [decP_cons, ht]; simpa using ih

theorem tripHead_none {c : Nat} {t : WStr} (h : c ≠ 0x25) : tripHead (c :: t) = none := by
  match t with
  | [] => rfl
  | [_] => rfl
  | a :: b :: t => simp [tripHead, h]

theorem decP_copy {c : Nat} {t : WStr} (h : c ≠ 0x25) : decP (c :: t) = c :: decP t := by
  rw [decP_cons, tripHead_none h]

theorem decP_id {s : WStr} (h : (0x25 : Nat) ∉ s) : decP s = s := by
  induction s with
  | nil => rfl
  | cons c t ih =>
    simp only [List.mem_cons, not_or] at h
    rw [decP_copy (fun e => h.1 e.symm), ih h.2]


/-! ### Encoding -/

/-- What is written for a unit. -/
def encU (es : UInt8) (c : Nat) : WStr :=
  if needsUnit c es then [0x25, (hexU (c % 256 / 16)).toNat, (hexU (c % 16)).toNat] else [c]
/-- Closed form of encoding. -/
def encP (es : UInt8) (s : WStr) : WStr := s.flatMap (encU es)

theorem hexU_ok {v : Nat} (h : v < 16) : dec2hex v = .ok (hexU v) ∧ PctSpec.HexUpper (hexU v) v := by
  have h2 := dec2hex_byte (UInt8.ofNat v)
  have h3 := hexU_spec (UInt8.ofNat v)
  have e : (UInt8.ofNat v).toNat = v := by simp; omega
  rw [e] at h2 h3
  have e2 : v &&& 0xF = v := by rw [show (0xF : Nat) = 2 ^ 4 - 1 from rfl, Nat.and_two_pow_sub_one_eq_mod]; omega
  rw [e2] at h2
  have e3 : v % 16 = v := by omega
  rw [e3] at h2 h3
  exact ⟨h2.2, h3.2⟩

theorem pctencode_eq (s : WStr) (es : UInt8) : pctencode es s = .ok (encP es s) := by
  induction s with
  | nil => rfl
  | cons c s ih =>
    have e1 : (c >>> 4) &&& 0xF = c % 256 / 16 := by
      rw [show (0xF : Nat) = 2 ^ 4 - 1 from rfl, Nat.and_two_pow_sub_one_eq_mod, Nat.shiftRight_eq_div_pow]; omega
    have e2 : c &&& 0xF = c % 16 := by
      rw [show (0xF : Nat) = 2 ^ 4 - 1 from rfl, Nat.and_two_pow_sub_one_eq_mod]
    have h1 := (hexU_ok (v := c % 256 / 16) (by omega)).1
    have h2 := (hexU_ok (v := c % 16) (by omega)).1
    simp only [pctencode, e1, e2, h1, h2, ih, bind, Except.bind, encP, List.flatMap_cons, encU]
    split <;> simp

theorem hexUpper_unique {c d v : Nat} (h1 : HexUpper c v) (h2 : HexUpper d v) : c = d := by
  obtain ⟨b, rfl, h1⟩ := h1
  obtain ⟨b', rfl, h2⟩ := h2
  rw [Verif.hexUpper_unique h1 h2]

theorem hexUpper_lt {c v : Nat} (h : HexUpper c v) : v < 16 := by
  obtain ⟨b, _, h⟩ := h
  exact hexVal_lt (Or.inl h)

theorem encodes_iff (es : UInt8) (s e : WStr) : Encodes (fun c => needsPctencodeB c es = true) s e ↔ e = encP es s := by
  have hb : ∀ {c : Nat} {b : UInt8}, b.toNat = c % 256 → b = UInt8.ofNat c := by
    intro c b h; apply UInt8.toNat.inj; simp [h]
  constructor
  · intro h
    induction h with
    | nil => rfl
    | @triplet c b h l s e hcb hp hx _ ih =>
      obtain ⟨x, y, h1, h2, h3⟩ := hx
      have hx := hexUpper_lt h1
      have hy := hexUpper_lt h2
      have ex : x = c % 256 / 16 := by omega
      have ey : y = c % 16 := by omega
      subst ex ey
      rw [hexUpper_unique h1 ⟨_, rfl, (hexU_ok hx).2⟩, hexUpper_unique h2 ⟨_, rfl, (hexU_ok hy).2⟩, ih]
      rw [hb hcb] at hp
      simp [encP, encU, needsUnit, hp]
    | copy hcb hn _ ih =>
      rw [hb hcb] at hn
      simp [encP, encU, needsUnit, hn, ih]
  · rintro rfl
    induction s with
    | nil => exact .nil
    | cons c s ih =>
      have hm : (UInt8.ofNat c).toNat = c % 256 := by simp
      by_cases hc : needsUnit c es = true
      · have : encP es (c :: s) = 0x25 :: (hexU (c % 256 / 16)).toNat :: (hexU (c % 16)).toNat :: encP es s := by simp [encP, encU, hc]
        rw [this]
        exact .triplet hm hc ⟨_, _, ⟨_, rfl, (hexU_ok (by omega)).2⟩, ⟨_, rfl, (hexU_ok (by omega)).2⟩, by omega⟩ ih
      · have : encP es (c :: s) = c :: encP es s := by simp [encP, encU, hc]
        rw [this]
        exact .copy hm hc ih

theorem encP_triplet (c : Nat) : tripletB (hexU (c % 256 / 16)).toNat (hexU (c % 16)).toNat = true ∧
    byteB (hexU (c % 256 / 16)).toNat (hexU (c % 16)).toNat = c % 256 := by
  have : Triplet (hexU (c % 256 / 16)).toNat (hexU (c % 16)).toNat (c % 256) :=
    ⟨_, _, ⟨_, rfl, Or.inl (hexU_ok (by omega)).2⟩, ⟨_, rfl, Or.inl (hexU_ok (by omega)).2⟩, by omega⟩
  rw [triplet_iff] at this
  exact ⟨this.1, this.2.symm⟩

/-- What is left of a unit after encoding and decoding. -/
def kept (es : UInt8) (c : Nat) : Nat := if needsUnit c es then c % 256 else c

theorem decP_encP (es : UInt8) (s : WStr) (h : es ≠ 0 ∨ 0x25 ∉ s) : decP (encP es s) = s.map (kept es) := by
  induction s with
  | nil => rfl
  | cons c s ih =>
    have ih := ih (h.imp id (fun h => by simp at h; exact h.2))
    by_cases hc : needsUnit c es = true
    · have : encP es (c :: s) = 0x25 :: (hexU (c % 256 / 16)).toNat :: (hexU (c % 16)).toNat :: encP es s := by simp [encP, encU, hc]
      obtain ⟨h1, h2⟩ := encP_triplet c
      rw [this, decP, if_pos ⟨rfl, h1⟩, h2, ih]
      simp [kept, hc]
    · have : encP es (c :: s) = c :: encP es s := by simp [encP, encU, hc]
      rw [this, decP_copy, ih]
      · simp [kept, hc]
      · rintro rfl
        rcases h with h | h
        · exact hc (percent_needs es h)
        · exact h (by simp)

theorem map_id_iff (es : UInt8) (s : WStr) : s.map (kept es) = s ↔ ∀ c ∈ s, 256 ≤ c → needsUnit c es = false := by
  induction s with
  | nil => simp
  | cons c s ih =>
    simp only [List.map_cons, List.cons.injEq, ih, List.mem_cons, forall_eq_or_imp, kept]
    refine and_congr_left fun _ => ?_
    by_cases hc : needsUnit c es = true
    · simp only [hc, if_true, Bool.true_eq_false, imp_false]; omega
    · simp [hc]

theorem encP_id_iff (es : UInt8) (s : WStr) : encP es s = s ↔ needsPctencode s es = false := by
  have hlen : ∀ s, s.length ≤ (encP es s).length := by
    intro s
    induction s with
    | nil => simp [encP]
    | cons c s ih =>
      simp only [encP, List.flatMap_cons, List.length_append, List.length_cons] at *
      have : 1 ≤ (encU es c).length := by unfold encU; split <;> simp
      omega
  induction s with
  | nil => simp [encP, needsPctencode]
  | cons c s ih =>
    by_cases hc : needsUnit c es = true
    · have : encP es (c :: s) = 0x25 :: (hexU (c % 256 / 16)).toNat :: (hexU (c % 16)).toNat :: encP es s := by simp [encP, encU, hc]
      rw [this]
      constructor
      · intro h
        have := congrArg List.length h
        have := hlen s
        simp at *; omega
      · intro h; simp [needsPctencode, hc] at h
    · have : encP es (c :: s) = c :: encP es s := by simp [encP, encU, hc]
      rw [this]
      simp only [List.cons.injEq, true_and, ih]
      simp [needsPctencode, hc]

/-! ### Bytes -/

theorem encP_bytes (es : UInt8) (s : Str) : encP es (s.map UInt8.toNat) = (Verif.encP es s).map UInt8.toNat := by
  induction s with
  | nil => rfl
  | cons c s ih =>
    have e1 : UInt8.ofNat c.toNat = c := by simp
    have e2 : c.toNat % 256 = c.toNat := Nat.mod_eq_of_lt c.toNat_lt
    simp only [encP, Verif.encP, List.map_cons, List.flatMap_cons, List.map_append, encU, Verif.encB, needsUnit, e1, e2] at *
    rw [ih]
    split <;> simp

theorem hex2dec_byte (b : UInt8) : hex2dec b.toNat = Verif.hex2dec b := by
  rw [hex2dec_eq, if_pos b.toNat_lt]; simp

theorem decP_bytes (s : Str) : decP (s.map UInt8.toNat) = (Verif.decP s).map UInt8.toNat := by
  have hp : ∀ c : UInt8, c.toNat = 0x25 ↔ c = 0x25 := fun c => ⟨fun h => UInt8.toNat.inj h, fun h => by rw [h]; rfl⟩
  induction s using Verif.decP.induct with
  | case1 => rfl
  | case2 c h l t hh ih =>
    rw [Verif.decP, if_pos hh]
    simp only [List.map_cons]
    rw [decP, if_pos ⟨(hp c).2 hh.1, by rw [tripletB, hex2dec_byte, hex2dec_byte]; exact hh.2⟩, ih]
    simp [byteB, Verif.byteB, hex2dec_byte]
  | case3 c h l t hh ih =>
    rw [Verif.decP, if_neg hh]
    simp only [List.map_cons] at *
    rw [decP, if_neg, ih]
    rintro ⟨k1, k2⟩
    rw [tripletB, hex2dec_byte, hex2dec_byte] at k2
    exact hh ⟨(hp c).1 k1, k2⟩
  | case4 c t hne ih =>
    have ht : Verif.tripHead (c :: t) = none := by
      match t with
      | [] => rfl
      | [_] => rfl
      | h :: l :: t => exact absurd rfl (hne h l t)
    rw [Verif.decP_cons, ht]
    match t, hne, ih with
    | [], _, _ => rfl
    | [a], _, _ => rfl
    | h :: l :: t, hne, _ => exact absurd rfl (hne h l t)

end Verif.Wide
