import Verif.Proofs.Pct

/-!
# Properties C22–C28: percent-encoding
-/

namespace Verif
open PctSpec

set_option linter.unusedSimpArgs false

/-! ### C22 -/

/-- C22: decoding inverts encoding, for every text and every encode set but `none` (any non-zero
combination of the flags). -/
theorem C22_roundtrip (s : Str) (es : UInt8) (h : es ≠ EncSet.none) :
    ∃ e, pctencode s es = .ok e ∧ pctdecode e = .ok s :=
  ⟨_, pctencode_eq s es, by rw [pctdecode_eq, decP_encP es s (Or.inl h)]⟩

/-- C22 for texts without a percent sign: every set, including `none`. -/
theorem C22_roundtrip_no_percent (s : Str) (es : UInt8) (h : (0x25 : UInt8) ∉ s) :
    ∃ e, pctencode s es = .ok e ∧ pctdecode e = .ok s :=
  ⟨_, pctencode_eq s es, by rw [pctdecode_eq, decP_encP es s (Or.inr h)]⟩

theorem encP0_hex {c : UInt8} (h : (hex2dec c).toNat < 16) : encB 0 c = [c] := by
  have := forall_byte (P := fun c => decide (¬ (hex2dec c).toNat < 16 ∨ encB 0 c = [c])) (by decide +kernel) c
  simp only [decide_eq_true_eq] at this
  exact this.resolve_left (fun k => k h)

theorem encP_cons (es c : UInt8) (s : Str) : encP es (c :: s) = encB es c ++ encP es s := rfl

theorem encB0_head (c : UInt8) : ∃ t, encB 0 c = (if needsPctencodeB c 0 then 0x25 else c) :: t := by
  unfold encB; split <;> simp_all

/-- C22 for the set `none`: percent signs are not encoded, so the triplets of the text itself are
decoded. -/
theorem C22_none (s : Str) : ∃ e, pctencode s EncSet.none = .ok e ∧ pctdecode e = pctdecode s := by
  refine ⟨_, pctencode_eq s _, ?_⟩
  rw [pctdecode_eq, pctdecode_eq]
  congr 1
  show decP (encP 0 s) = decP s
  have hpct : hex2dec 0x25 = 16 := by decide +kernel
  have bad : ∀ (x : UInt8), (hex2dec x).toNat < 16 ∨ ∃ t y, encB 0 x = y :: t ∧ ¬ (hex2dec y).toNat < 16 := by
    intro x
    by_cases hx : (hex2dec x).toNat < 16
    · exact Or.inl hx
    · right
      obtain ⟨t, ht⟩ := encB0_head x
      refine ⟨t, _, ht, ?_⟩
      split
      · rw [hpct]; decide
      · exact hx
  -- an unencoded percent sign is followed by the same digits, or by none
  have key : ∀ t, tripHead (0x25 :: encP 0 t) = tripHead (0x25 :: t) := by
    intro t
    match t with
    | [] => rfl
    | h :: t =>
      rcases bad h with hh | ⟨u, y, hu, hy⟩
      · rw [encP_cons, encP0_hex hh]
        match t with
        | [] => rfl
        | l :: t =>
          rcases bad l with hl | ⟨u, y, hu, hy⟩
          · rw [encP_cons, encP0_hex hl]; rfl
          · have h1 : tripletB h y = false := by
              rw [← Bool.not_eq_true, tripletB_iff]; exact fun k => hy k.2
            have h2 : tripletB h l = false := by
              rw [← Bool.not_eq_true, tripletB_iff]
              intro k
              rw [encP0_hex k.2] at hu
              simp at hu; exact hy (hu.1 ▸ k.2)
            rw [encP_cons, hu]; simp [tripHead, h1, h2]
      · have h1 : ∀ z, tripletB y z = false := by
          intro z; rw [← Bool.not_eq_true, tripletB_iff]; exact fun k => hy k.1
        have h2 : ∀ z, tripletB h z = false := by
          intro z; rw [← Bool.not_eq_true, tripletB_iff]
          intro k
          rw [encP0_hex k.1] at hu
          simp at hu; exact hy (hu.1 ▸ k.1)
        have e1 : ∀ w, tripHead (0x25 :: y :: w) = none := by
          intro w; cases w <;> simp [tripHead, h1]
        have e2 : ∀ w, tripHead (0x25 :: h :: w) = none := by
          intro w; cases w <;> simp [tripHead, h2]
        rw [encP_cons, hu, List.cons_append, e1, e2]
  induction s using decP.induct with
  | case1 => rfl
  | case2 c h l t hh ih =>
    obtain ⟨rfl, ht⟩ := hh
    have ht' := (tripletB_iff _ _).1 ht
    have : encP 0 (0x25 :: h :: l :: t) = 0x25 :: h :: l :: encP 0 t := by
      rw [encP_cons, encP_cons, encP_cons, encP0_hex ht'.1, encP0_hex ht'.2]
      rfl
    rw [this, decP, if_pos ⟨rfl, ht⟩, decP, if_pos ⟨rfl, ht⟩, ih]
  | case3 c h l t hh ih =>
    rw [decP, if_neg hh, ← ih]
    by_cases hc : needsPctencodeB c 0 = true
    · obtain ⟨h1, h2⟩ := encP_triplet c
      rw [encP_cons, encB, if_pos hc]
      simp only [List.cons_append, List.nil_append]
      rw [decP, if_pos ⟨rfl, h1⟩, h2]
    · rw [encP_cons, encB, if_neg hc, List.cons_append, List.nil_append, decP_cons]
      by_cases hp : c = 0x25
      · subst hp
        rw [key, tripHead, if_neg hh]
      · rw [tripHead_none hp]
  | case4 c t hne ih =>
    have ht : tripHead (c :: t) = none := by
      match t with
      | [] => rfl
      | [_] => rfl
      | h :: l :: t => exact absurd rfl (hne h l t)
    rw [decP_cons c t, ht]
    by_cases hc : needsPctencodeB c 0 = true
    · obtain ⟨h1, h2⟩ := encP_triplet c
      rw [encP_cons, encB, if_pos hc]
      simp only [List.cons_append, List.nil_append]
      rw [decP, if_pos ⟨rfl, h1⟩, h2, ih]
    · rw [encP_cons, encB, if_neg hc, List.cons_append, List.nil_append, decP_cons]
      by_cases hp : c = 0x25
      · subst hp
        rw [key, ht, ih]
      · rw [tripHead_none hp, ih]

/-- C22: so the round trip fails for `none` in general. -/
theorem C22_none_counterexample : ¬ ∀ s : Str, ∃ e, pctencode s EncSet.none = .ok e ∧ pctdecode e = .ok s := by
  intro h
  obtain ⟨e, h1, h2⟩ := h (b! "%41")
  have h3 : pctencode (b! "%41") EncSet.none = .ok (b! "%41") := by decide +kernel
  rw [h3] at h1; cases h1
  revert h2; decide +kernel

example : pctencode (b! "a b%\"z") EncSet.query = .ok (b! "a%20b%25%22z") ∧
    pctdecode (b! "a%20b%25%22z") = .ok (b! "a b%\"z") := by decide +kernel

/-! ### C23 -/

/-- C23: encoding succeeds, and replaces exactly the bytes that need encoding by `%` and two
upper-case hexadecimal digits. -/
theorem C23_shape (s : Str) (es : UInt8) (e : Str) :
    pctencode s es = .ok e ↔ Encodes (fun c => needsPctencodeB c es = true) s e := by
  rw [encodes_iff, pctencode_eq]; simp [eq_comm]

/-- C23: the output is printable ASCII without space. -/
theorem C23_printable (s : Str) (es : UInt8) (e : Str) (h : pctencode s es = .ok e) : ∀ c ∈ e, 0x21 ≤ c.toNat ∧ c.toNat ≤ 0x7E := by
  rw [pctencode_eq] at h; cases h
  intro d hd
  obtain ⟨c, -, hc⟩ := List.mem_flatMap.1 hd
  unfold encB at hc
  split at hc
  · have hU : ∀ v, v < 16 → 0x21 ≤ (hexU v).toNat ∧ (hexU v).toNat ≤ 0x7E := by decide +kernel
    have := c.toNat_lt
    simp only [List.mem_cons, List.not_mem_nil, or_false] at hc
    rcases hc with rfl | rfl | rfl
    · decide
    · exact hU _ (by omega)
    · exact hU _ (by omega)
  · rename_i hn
    simp only [List.mem_cons, List.not_mem_nil, or_false] at hc
    subst hc
    have hp : ¬ (d ≤ 0x20 || d > 0x7E) = true := by
      intro k; exact hn (by rw [needsPctencodeB, if_pos k])
    have := forall_byte (P := fun d => (decide (d ≤ 0x20) || decide (d > 0x7E)) || (decide (0x21 ≤ d.toNat) && decide (d.toNat ≤ 0x7E)))
      (by decide +kernel) d
    simp only [Bool.not_eq_true] at hp
    rw [hp] at this
    simpa using this

/-- C23: the output's length. -/
theorem C23_length (s : Str) (es : UInt8) (e : Str) (h : pctencode s es = .ok e) :
    e.length = s.length + 2 * s.countP (fun c => needsPctencodeB c es) := by
  rw [pctencode_eq] at h; cases h; exact encP_length es s

/-- C23: encoding distributes over concatenation. -/
theorem C23_append (s t : Str) (es : UInt8) (e f : Str) (h1 : pctencode s es = .ok e) (h2 : pctencode t es = .ok f) :
    pctencode (s ++ t) es = .ok (e ++ f) := by
  rw [pctencode_eq] at *; cases h1; cases h2; simp [encP]

/-- C23: encoding is injective for every set but `none`. -/
theorem C23_injective (s t : Str) (es : UInt8) (h : es ≠ EncSet.none) (he : pctencode s es = pctencode t es) : s = t := by
  rw [pctencode_eq, pctencode_eq] at he
  have : encP es s = encP es t := by simpa using he
  rw [← decP_encP es s (Or.inl h), this, decP_encP es t (Or.inl h)]

example : pctencode (b! "/\u00e9") EncSet.path = .ok (b! "/%C3%A9") := by decide +kernel

/-! ### C24 -/

theorem byte_prop (P : UInt8 → Prop) [DecidablePred P] (h : (List.range 256).all (fun n => decide (P (UInt8.ofNat n))) = true) (c : UInt8) : P c := by
  have := forall_byte (P := fun c => decide (P c)) h c
  simpa using this

instance (c : UInt8) : Decidable (PctSpec.c0 c) := inferInstanceAs (Decidable (_ ∨ _))
instance (c : UInt8) : Decidable (PctSpec.fragment c) := inferInstanceAs (Decidable (_ ∨ _))
instance (c : UInt8) : Decidable (PctSpec.query c) := inferInstanceAs (Decidable (_ ∨ _))
instance (c : UInt8) : Decidable (PctSpec.specialQuery c) := inferInstanceAs (Decidable (_ ∨ _))
instance (c : UInt8) : Decidable (PctSpec.path c) := inferInstanceAs (Decidable (_ ∨ _))
instance (c : UInt8) : Decidable (PctSpec.userinfo c) := inferInstanceAs (Decidable (_ ∨ _))
instance (c : UInt8) : Decidable (PctSpec.component c) := inferInstanceAs (Decidable (_ ∨ _))
instance (c : UInt8) : Decidable (PctSpec.formUrlencoded c) := inferInstanceAs (Decidable (_ ∨ _))

/-- C24: the sets of the code, in terms of those of the standard: every set includes `%`; the
fragment set lacks the grave accent and the path set lacks the circumflex. -/
theorem C24_sets (c : UInt8) :
    (needsPctencodeB c EncSet.fragment = true ↔ (PctSpec.fragment c ∧ c ≠ 0x60) ∨ c = 0x25) ∧
    (needsPctencodeB c EncSet.query = true ↔ PctSpec.query c ∨ c = 0x25) ∧
    (needsPctencodeB c EncSet.specialQuery = true ↔ PctSpec.specialQuery c ∨ c = 0x25) ∧
    (needsPctencodeB c EncSet.path = true ↔ (PctSpec.path c ∧ c ≠ 0x5E) ∨ c = 0x25) ∧
    (needsPctencodeB c EncSet.userinfo = true ↔ PctSpec.userinfo c ∨ c = 0x25) ∧
    (needsPctencodeB c EncSet.component = true ↔ PctSpec.component c) ∧
    (needsPctencodeB c EncSet.formUrlencoded = true ↔ PctSpec.formUrlencoded c) := by
  refine ⟨?_, ?_, ?_, ?_, ?_, ?_, ?_⟩ <;> revert c
  · exact byte_prop _ (by decide +kernel)
  · exact byte_prop _ (by decide +kernel)
  · exact byte_prop _ (by decide +kernel)
  · exact byte_prop _ (by decide +kernel)
  · exact byte_prop _ (by decide +kernel)
  · exact byte_prop _ (by decide +kernel)
  · exact byte_prop _ (by decide +kernel)

/-- C24: the grave accent is left alone in fragments although the standard lists it. -/
theorem C24_fragment_counterexample : PctSpec.fragment 0x60 ∧ needsPctencodeB 0x60 EncSet.fragment = false :=
  ⟨Or.inr (by decide), by decide +kernel⟩

/-- C24: the circumflex is left alone in paths although the standard lists it. -/
theorem C24_path_counterexample : PctSpec.path 0x5E ∧ needsPctencodeB 0x5E EncSet.path = false :=
  ⟨Or.inr (by decide), by decide +kernel⟩

/-- C24: the set `none` has just the control characters, the space, and what is not ASCII: the C0 control
percent-encode set of the standard, and the space. -/
theorem C24_none (c : UInt8) : needsPctencodeB c EncSet.none = true ↔ c ≤ 0x20 ∨ 0x7F ≤ c :=
  of_decide_eq_true (forall_byte (P := fun c => decide (needsPctencodeB c EncSet.none = true ↔ c ≤ 0x20 ∨ 0x7F ≤ c)) (by decide +kernel) c)

/-- C24: the chain of sets is increasing. -/
theorem C24_monotone (c : UInt8) :
    (needsPctencodeB c EncSet.none = true → needsPctencodeB c EncSet.fragment = true) ∧
    (needsPctencodeB c EncSet.fragment = true → needsPctencodeB c EncSet.query = true) ∧
    (needsPctencodeB c EncSet.query = true → needsPctencodeB c EncSet.specialQuery = true) ∧
    (needsPctencodeB c EncSet.query = true → needsPctencodeB c EncSet.path = true) ∧
    (needsPctencodeB c EncSet.path = true → needsPctencodeB c EncSet.userinfo = true) ∧
    (needsPctencodeB c EncSet.userinfo = true → needsPctencodeB c EncSet.component = true) ∧
    (needsPctencodeB c EncSet.component = true → needsPctencodeB c EncSet.formUrlencoded = true) ∧
    (needsPctencodeB c EncSet.specialQuery = true → needsPctencodeB c EncSet.formUrlencoded = true) := by
  have := forall_byte (P := fun c => decide (
    (needsPctencodeB c EncSet.none = true → needsPctencodeB c EncSet.fragment = true) ∧
    (needsPctencodeB c EncSet.fragment = true → needsPctencodeB c EncSet.query = true) ∧
    (needsPctencodeB c EncSet.query = true → needsPctencodeB c EncSet.specialQuery = true) ∧
    (needsPctencodeB c EncSet.query = true → needsPctencodeB c EncSet.path = true) ∧
    (needsPctencodeB c EncSet.path = true → needsPctencodeB c EncSet.userinfo = true) ∧
    (needsPctencodeB c EncSet.userinfo = true → needsPctencodeB c EncSet.component = true) ∧
    (needsPctencodeB c EncSet.component = true → needsPctencodeB c EncSet.formUrlencoded = true) ∧
    (needsPctencodeB c EncSet.specialQuery = true → needsPctencodeB c EncSet.formUrlencoded = true)))
    (by decide +kernel) c
  simpa only [decide_eq_true_eq] using this

/-- C24: a combination of flags encodes what either encodes. -/
theorem C24_union (c a b : UInt8) : needsPctencodeB c (a ||| b) = (needsPctencodeB c a || needsPctencodeB c b) := by
  have hl : ∀ t : UInt8, ((t &&& (a ||| b)) != 0) = ((t &&& a != 0) || (t &&& b != 0)) := by
    intro t
    have e : t &&& (a ||| b) = (t &&& a) ||| (t &&& b) := by
      apply UInt8.toNat.inj; simp [Nat.and_or_distrib_left]
    rw [e]
    generalize t &&& a = x
    generalize t &&& b = y
    have h0 : ∀ z : UInt8, (z != 0) = (z.toNat != 0) := fun z => by
      rw [Bool.eq_iff_iff]; simp [← UInt8.toNat_inj]
    rw [h0, h0, h0, UInt8.toNat_or, Bool.eq_iff_iff]
    simp only [bne_iff_ne, ne_eq, Bool.or_eq_true, Nat.or_eq_zero_iff]
    omega
  have h0 : ∀ c, needsLookup c (a ||| b) = (needsLookup c a || needsLookup c b) := by
    intro c; unfold needsLookup; split
    · rfl
    · exact hl _
  have h1 : ∀ c, needsSmall c (a ||| b) = (needsSmall c a || needsSmall c b) := by
    intro c; unfold needsSmall; split
    · split
      · rfl
      · exact h0 _
    · exact h0 _
  have h2 : ∀ c, needsCapital c (a ||| b) = (needsCapital c a || needsCapital c b) := by
    intro c; unfold needsCapital; split
    · split
      · rfl
      · exact h1 _
    · exact h1 _
  unfold needsPctencodeB
  split
  · rfl
  · dsimp only
    split
    · split
      · rfl
      · exact h2 _
    · exact h2 _

/-! ### C25 -/

/-- C25: `needs_pctencode` on a string says whether some byte needs encoding. -/
theorem C25_any (s : Str) (es : UInt8) : needsPctencode s es = true ↔ ∃ c ∈ s, needsPctencodeB c es = true := by
  simp [needsPctencode]

/-- C25: `needs_pctencode` is false iff encoding is the identity. -/
theorem C25_identity (s : Str) (es : UInt8) : needsPctencode s es = false ↔ pctencode s es = .ok s := by
  rw [pctencode_eq, ← encP_id_iff]; simp

/-- C25: `pct_encoded_size` is 0 if nothing needs encoding and the exact output size otherwise. -/
theorem C25_size (s : Str) (es : UInt8) (e : Str) (h : pctencode s es = .ok e) :
    pctEncodedSize s es = .ok (if e = s then 0 else e.length) := by
  have hid := C25_identity s es
  rw [pctEncodedSize]
  have h' : pctencodeM es s = .ok e := h
  cases hn : needsPctencode s es with
  | false =>
    rw [hid.1 hn] at h; cases h
    simp
  | true =>
    have : e ≠ s := by
      rintro rfl
      rw [hid.2 h] at hn; cases hn
    simp [h', bind, Except.bind, this]

/-- C25: the size is zero only if nothing needs encoding (so zero can stand for "unchanged"). -/
theorem C25_size_zero (s : Str) (es : UInt8) : pctEncodedSize s es = .ok 0 ↔ needsPctencode s es = false := by
  have h := C25_size s es _ (pctencode_eq s es)
  rw [h]
  constructor
  · intro h0
    rw [C25_identity, pctencode_eq]
    by_cases e : encP es s = s
    · rw [e]
    · rw [if_neg e] at h0
      have hl := encP_length es s
      simp only [Except.ok.injEq] at h0
      have : s = [] := List.eq_nil_of_length_eq_zero (by omega)
      subst this; exact absurd rfl e
  · intro hn
    rw [C25_identity, pctencode_eq] at hn
    simp only [Except.ok.injEq] at hn
    simp [hn]

example : pctEncodedSize (b! "a b") EncSet.query = .ok 5 ∧ pctEncodedSize (b! "ab") EncSet.query = .ok 0 := by decide +kernel

/-! ### C26 -/

/-- C26: `pctdecode` succeeds and replaces exactly the well-formed triplets, scanning from left to
right, upper and lower case alike, and copies everything else. -/
theorem C26_exact (s d : Str) : pctdecode s = .ok d ↔ Decodes s d := by
  rw [decodes_iff, pctdecode_eq]; simp [eq_comm]

/-- C26: decoding is total (the model's faults include reading out of range, a failed assertion
and divergence). -/
theorem C26_total (s : Str) : ∃ d, pctdecode s = .ok d ∧ d.length ≤ s.length := ⟨_, pctdecode_eq s, decP_length s⟩

/-- C26: text without `%` is unchanged. -/
theorem C26_identity (s : Str) (h : needsPctdecode s = false) : pctdecode s = .ok s := by
  rw [pctdecode_eq, decP_id]
  intro hm
  simp [needsPctdecode] at h
  exact h _ hm rfl

/-- C26: `pct_decoded_size` is 0 if there is no `%` and the exact output size, which is not 0,
otherwise. -/
theorem C26_size (s d : Str) (h : pctdecode s = .ok d) : pctDecodedSize s = .ok (if needsPctdecode s then d.length else 0) ∧
    (needsPctdecode s = true → d.length ≠ 0) := by
  constructor
  · rw [pctDecodedSize, h]
    cases needsPctdecode s <;> simp [bind, Except.bind]
  · intro hn
    rw [pctdecode_eq] at h; cases h
    cases s with
    | nil => simp [needsPctdecode] at hn
    | cons c t => rw [decP_cons]; split <;> simp

example : pctdecode (b! "%4a%4A%zz%4") = .ok (b! "JJ%zz%4") := by decide +kernel
example : Decodes (b! "%4a%4A%zz%4") (b! "JJ%zz%4") := (C26_exact _ _).1 (by decide +kernel)

/-! ### C27 -/

/-- C27: iterating over any part `[first, last)` of a text with `pctdecoder` yields the decoding of
that part: in particular nothing outside it is read (with `last` the end of the text, reading
further would be a fault), and the loop ends exactly at `last`. -/
theorem C27_decoder (s : Str) (first last : Nat) (h1 : first ≤ last) (h2 : last ≤ s.length) (fuel : Nat) (hf : last - first < fuel) :
    pctIterLoop s (pctdecoder first last).2 fuel (pctdecoder first last).1 = pctdecode ((s.take last).drop first) := by
  rw [pctdecode_eq]
  have e : s = s.take first ++ (s.take last).drop first ++ s.drop last := by
    have e1 : s.take first = (s.take last).take first := by rw [List.take_take, Nat.min_eq_left h1]
    rw [e1, List.take_append_drop, List.take_append_drop]
  have hl1 : (s.take first).length = first := by simp; omega
  have hl2 : ((s.take last).drop first).length = last - first := by simp; omega
  have := pctIterLoop_mid (s.drop last) _ (s.take first) ((s.take last).drop first) fuel last (Nat.le_refl _) (by omega) (by omega)
  rw [← e, hl1] at this
  exact this

/-- C27: `pctdecode_begin`/`pctdecode_end` on a container. -/
theorem C27_begin_end (s : Str) (fuel : Nat) (hf : s.length < fuel) :
    pctIterLoop s (pctdecodeEnd s) fuel (pctdecodeBegin s) = pctdecode s := by
  have := C27_decoder s 0 s.length (Nat.zero_le _) (Nat.le_refl _) fuel hf
  simpa [pctdecoder, pctdecodeEnd, pctdecodeBegin] using this

/-- C27: `views::pctdecode`. -/
theorem C27_view (s : Str) : pctViewCopy s = pctdecode s := by rw [pctViewCopy_eq, pctdecode_eq]

/-- C27: dereferencing and incrementing an iterator that is not at the end never faults, and the
increment does not pass the end. -/
theorem C27_in_bounds (s : Str) (pos : Nat) (h : pos < s.length) :
    (∃ c, pctDeref s pos s.length = .ok c) ∧ ∃ pos', pctIncrement s pos s.length = .ok pos' ∧ pos < pos' ∧ pos' ≤ s.length := by
  have e : s = s.take pos ++ s[pos] :: s.drop (pos + 1) ++ [] := by simp
  have hl : (s.take pos).length = pos := by simp; omega
  have hs : s.length = (s.take pos).length + (s[pos] :: s.drop (pos + 1)).length := by simp; omega
  have h1 := pctDeref_mid (s.take pos) [] s[pos] (s.drop (pos + 1))
  have h2 := pctIncrement_mid (s.take pos) [] s[pos] (s.drop (pos + 1))
  rw [← e, ← hs, hl] at h1 h2
  refine ⟨⟨_, h1⟩, _, h2, by split <;> omega, ?_⟩
  split
  · rename_i ht
    generalize hd : s.drop (pos + 1) = d at ht
    have hdl := congrArg List.length hd
    simp at hdl
    match d, ht with
    | [], ht => simp [tripHead] at ht
    | [_], ht => simp [tripHead] at ht
    | h :: l :: t, _ => simp at hdl; omega
  · omega

/-- C27: `std::ranges::iter_move` of the view's iterator does not agree with dereferencing it: it
yields the percent sign of a triplet. -/
theorem C27_iterMove_counterexample : ∃ s : Str, pctIterMove s 0 = .ok 0x25 ∧ pctDeref s 0 s.length = .ok 0x41 :=
  ⟨b! "%41", by decide +kernel⟩

/-- C27: exactly when `iter_move` agrees with dereferencing: it always yields the byte at the position, so
away from triplets, and on triplets that stand for the percent sign itself (`%25`). -/
theorem C27_iterMove (s : Str) (pos : Nat) (h : pos < s.length) :
    pctIterMove s pos = .ok s[pos] ∧
    (pctIterMove s pos = pctDeref s pos s.length ↔ ¬ StartsTriplet (s.drop pos) ∨ [0x25, 0x32, 0x35] <+: s.drop pos) := by
  have e : s = s.take pos ++ s[pos] :: s.drop (pos + 1) ++ [] := by simp
  have hl : (s.take pos).length = pos := by simp; omega
  have hs : s.length = (s.take pos).length + (s[pos] :: s.drop (pos + 1)).length := by simp; omega
  have h1 := pctDeref_mid (s.take pos) [] s[pos] (s.drop (pos + 1))
  rw [← e, ← hs, hl] at h1
  have h0 : pctIterMove s pos = .ok s[pos] := by rw [pctIterMove, readAt, List.getElem?_eq_getElem h]
  refine ⟨h0, ?_⟩
  rw [h0, h1, List.drop_eq_getElem_cons h, starts_iff, Option.not_isSome_iff_eq_none]
  generalize s[pos] = c
  generalize s.drop (pos + 1) = t
  cases ht : tripHead (c :: t) with
  | none => simp
  | some b =>
    match t, ht with
    | [], ht => simp [tripHead] at ht
    | [_], ht => simp [tripHead] at ht
    | x :: y :: t, ht =>
      by_cases hh : c = 0x25 ∧ tripletB x y = true
      · rw [tripHead, if_pos hh] at ht
        cases ht
        obtain ⟨rfl, hxy⟩ := hh
        obtain ⟨a, d, ha, hd, hb⟩ := (triplet_iff x y (byteB x y)).2 ⟨hxy, rfl⟩
        simp only [Except.ok.injEq, Option.getD_some, reduceCtorEq, false_or, List.cons_prefix_cons, true_and, List.nil_prefix, and_true]
        constructor
        · intro e
          rw [← e] at hb
          have ha' : a < 16 := by rcases ha with h | h <;> exact (List.getElem?_eq_some_iff.1 h).1
          have hd' : d < 16 := by rcases hd with h | h <;> exact (List.getElem?_eq_some_iff.1 h).1
          have e1 : (0x25 : UInt8).toNat = 37 := rfl
          have : a = 2 := by omega
          have : d = 5 := by omega
          subst a d
          have k1 : upperDigits[2]? = some 0x32 ∧ lowerDigits[2]? = some 0x32 := by decide +kernel
          have k2 : upperDigits[5]? = some 0x35 ∧ lowerDigits[5]? = some 0x35 := by decide +kernel
          constructor
          · rcases ha with h | h
            · rw [k1.1] at h; exact Option.some.inj h
            · rw [k1.2] at h; exact Option.some.inj h
          · rcases hd with h | h
            · rw [k2.1] at h; exact Option.some.inj h
            · rw [k2.2] at h; exact Option.some.inj h
        · rintro ⟨rfl, rfl⟩
          decide +kernel
      · rw [tripHead, if_neg hh] at ht; cases ht

example : pctIterLoop (b! "ab%41%4") (pctdecoder 1 6).2 10 (pctdecoder 1 6).1 = .ok (b! "bA%") := by decide +kernel

/-! ### C28 -/

theorem many_of_flatMap {L : Lang} {f : UInt8 → Str} {s : Str} (h : ∀ c ∈ s, L (f c)) : Abnf.many L (s.flatMap f) :=
  ⟨s.map f, by rw [List.flatMap_def], by
    intro e he
    obtain ⟨c, hc, rfl⟩ := List.mem_map.1 he
    exact h c hc, Nat.zero_le _, by simp⟩

theorem encB_elem {f : UInt8 → Bool} {es c : UInt8} (h : needsPctencodeB c es = true ∨ f c = true) : ElemL f (encB es c) := by
  unfold encB
  split
  · right
    refine ⟨_, _, rfl, ?_⟩
    have := forall_byte (P := fun c => decide (isXDigitB (hexU (c.toNat / 16)) = true ∧ isXDigitB (hexU (c.toNat % 16)) = true))
      (by decide +kernel) c
    simpa using this
  · rename_i hn
    exact Or.inl ⟨c, rfl, h.resolve_left hn⟩

/-- C28: whatever is encoded with the userinfo set, or a larger one, is a `reg-name` (and so a
`userinfo`, a `segment`, a `query` and a `fragment`). -/
theorem C28_regName (s e : Str) (es : UInt8) (hes : es = EncSet.userinfo ∨ es = EncSet.component ∨ es = EncSet.formUrlencoded)
    (h : pctencode s es = .ok e) : Abnf.regName e := by
  rw [pctencode_eq] at h; cases h
  apply many_of_flatMap
  intro c _
  rw [reg_elem]
  apply encB_elem
  have := forall_byte (P := fun c => decide (
    (needsPctencodeB c EncSet.userinfo = true ∨ isRegChar c = true) ∧ (needsPctencodeB c EncSet.component = true ∨ isRegChar c = true) ∧
    (needsPctencodeB c EncSet.formUrlencoded = true ∨ isRegChar c = true))) (by decide +kernel) c
  simp only [decide_eq_true_eq] at this
  rcases hes with rfl | rfl | rfl
  · exact this.1
  · exact this.2.1
  · exact this.2.2

/-- C28: encoded userinfo is valid. -/
theorem C28_userinfo (s e : Str) (h : pctencode s EncSet.userinfo = .ok e) : Abnf.userinfo e := by
  rw [pctencode_eq] at h; cases h
  apply many_of_flatMap
  intro c _
  rw [user_elem]
  apply encB_elem
  have := forall_byte (P := fun c => decide (needsPctencodeB c EncSet.userinfo = true ∨ isUserChar c = true)) (by decide +kernel) c
  simpa using this

theorem enc_lang_iff {L : Lang} {f g : UInt8 → Bool} {es : UInt8} {bad : Str} (hL : ∀ u, L u ↔ ElemL f u) (hO : Only g (Abnf.many L))
    (h1 : (List.range 256).all (fun n => let c := UInt8.ofNat n; bad.contains c || needsPctencodeB c es || f c) = true)
    (h2 : bad.all (fun c => !needsPctencodeB c es && !g c) = true)
    (s e : Str) (h : pctencode s es = .ok e) : Abnf.many L e ↔ ∀ c ∈ s, c ∉ bad := by
  rw [pctencode_eq] at h; cases h
  constructor
  · intro hm c hc hb
    have h3 := List.all_eq_true.1 h2 c hb
    simp only [Bool.and_eq_true, Bool.not_eq_true'] at h3
    have : c ∈ encP es s := List.mem_flatMap.2 ⟨c, hc, by simp [encB, h3.1]⟩
    have := hO _ hm c this
    rw [h3.2] at this; cases this
  · intro hs
    apply many_of_flatMap
    intro c hc
    rw [hL]
    apply encB_elem
    have := forall_byte (P := fun c => bad.contains c || needsPctencodeB c es || f c) h1 c
    simp only [Bool.or_eq_true, List.contains_iff_mem] at this
    rcases this with (h | h) | h
    · exact absurd h (hs c hc)
    · exact Or.inl h
    · exact Or.inr h

/-- C28: an encoded path segment is valid iff the text contains none of `/ [ \ ] ^ |`. -/
theorem C28_segment (s e : Str) (h : pctencode s EncSet.path = .ok e) : Abnf.segment e ↔ ∀ c ∈ s, c ∉ b! "/[\\]^|" :=
  enc_lang_iff (f := isPChar) pchar_elem only_segment (by decide +kernel) (by decide +kernel) s e h

/-- C28: an encoded query is valid iff the text contains none of ``[ \ ] ^ ` { | }`` (of which the
path set would encode the braces and the grave accent). -/
theorem C28_query (s e : Str) (h : pctencode s EncSet.query = .ok e) : Abnf.query e ↔ ∀ c ∈ s, c ∉ b! "[\\]^`{|}" :=
  enc_lang_iff (f := isQueryChar) query_elem only_query (by decide +kernel) (by decide +kernel) s e h

/-- C28: an encoded fragment is valid iff the text contains none of ``# [ \ ] ^ ` { | }``. -/
theorem C28_fragment (s e : Str) (h : pctencode s EncSet.fragment = .ok e) : Abnf.fragment e ↔ ∀ c ∈ s, c ∉ b! "#[\\]^`{|}" :=
  enc_lang_iff (f := isQueryChar) query_elem only_query (by decide +kernel) (by decide +kernel) s e h

/-- C28: in particular an encoded fragment need not be valid. -/
theorem C28_fragment_counterexample : pctencode (b! "a#b") EncSet.fragment = .ok (b! "a#b") ∧ ¬ Abnf.fragment (b! "a#b") := by
  have h : pctencode (b! "a#b") EncSet.fragment = .ok (b! "a#b") := by decide +kernel
  exact ⟨h, fun k => (C28_fragment _ _ h).1 k 0x23 (by simp) (by simp)⟩

example : Abnf.userinfo (b! "a%40%5B") := C28_userinfo (b! "a@[") _ (by decide +kernel)
example : Abnf.segment (b! "a%20b") := (C28_segment (b! "a b") _ (by decide +kernel)).2 (by decide)

end Verif
