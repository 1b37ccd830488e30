import Verif.Props.Short
import Verif.Props.Pct

/-!
# Property C123: searching percent-encoded texts
-/

namespace Verif.PctSearch
open Short PctSpec
set_option linter.unusedSimpArgs false

/-! ### Specification -/

/-- A digit of a triplet that `pctencode` writes: `0`-`9`, `A`-`F`. -/
def tripletDigit (c : UInt8) : Bool := (0x30 ≤ c && c ≤ 0x39) || (0x41 ≤ c && c ≤ 0x46)

/-! ### Proofs -/

theorem digit_of (c : UInt8) : tripletDigit (hexU (c.toNat / 16)) = true ∧ tripletDigit (hexU (c.toNat % 16)) = true ∧
    hexU (c.toNat / 16) ≠ 0x25 ∧ hexU (c.toNat % 16) ≠ 0x25 :=
  byte_prop (fun c => tripletDigit (hexU (c.toNat / 16)) = true ∧ tripletDigit (hexU (c.toNat % 16)) = true ∧
    hexU (c.toNat / 16) ≠ 0x25 ∧ hexU (c.toNat % 16) ≠ 0x25) (by decide +kernel) c

theorem percent_encoded {es : UInt8} (h : es ≠ 0) : needsPctencodeB 0x25 es = true :=
  byte_prop (fun es => es ≠ 0 → needsPctencodeB 0x25 es = true) (by decide +kernel) es h

theorem encB_cases (es c : UInt8) : encB es c = [c] ∧ (es ≠ 0 → c ≠ 0x25) ∨ encB es c = [0x25, hexU (c.toNat / 16), hexU (c.toNat % 16)] := by
  unfold encB
  by_cases h : needsPctencodeB c es = true
  · rw [if_pos h]; exact Or.inr rfl
  · rw [if_neg h]
    refine Or.inl ⟨rfl, ?_⟩
    rintro he rfl
    exact h (percent_encoded he)

/-- Encoded text, cut outside of the triplets. -/
theorem cut (es : UInt8) : ∀ (t x r : Str), encP es t = x ++ r → ¬ InTriplet x → ∃ u v, t = u ++ v ∧ encP es u = x ∧ encP es v = r
  | t, [], r, h, _ => ⟨[], t, rfl, rfl, h⟩
  | [], d :: x, r, h, _ => by simp [encP] at h
  | c :: t, d :: x, r, h, hx => by
    rw [encP_cons] at h
    rcases encB_cases es c with ⟨e, -⟩ | e
    · rw [e] at h
      simp only [List.cons_append, List.nil_append, List.cons.injEq] at h
      obtain ⟨rfl, h⟩ := h
      obtain ⟨u, v, rfl, rfl, rfl⟩ := cut es t x r h fun k => hx (k.behind [c])
      exact ⟨c :: u, v, rfl, by rw [encP_cons, e]; rfl, rfl⟩
    · rw [e] at h
      simp only [List.cons_append, List.nil_append, List.cons.injEq] at h
      obtain ⟨rfl, h⟩ := h
      match x, h, hx with
      | [], _, hx => exact absurd ⟨[], Or.inl rfl⟩ hx
      | [a], _, hx => exact absurd ⟨[], Or.inr ⟨a, rfl⟩⟩ hx
      | a :: b :: x, h, hx =>
        simp only [List.cons_append, List.cons.injEq] at h
        obtain ⟨rfl, rfl, h⟩ := h
        obtain ⟨u, v, rfl, rfl, rfl⟩ := cut es t x r h fun k => hx (k.behind [_, _, _])
        exact ⟨c :: u, v, rfl, by rw [encP_cons, e]; rfl, rfl⟩

/-- Encoding is a prefix code. -/
theorem prefix_cut {es : UInt8} (he : es ≠ 0) : ∀ (s t y : Str), encP es t = encP es s ++ y → ∃ v, t = s ++ v ∧ encP es v = y
  | [], t, y, h => ⟨t, rfl, h⟩
  | c :: s, [], y, h => by
    rw [encP_cons] at h
    rcases encB_cases es c with ⟨e, -⟩ | e <;> rw [e] at h <;> simp [encP] at h
  | c :: s, d :: t, y, h => by
    rw [encP_cons, encP_cons] at h
    have key : c = d ∧ encP es t = encP es s ++ y := by
      rcases encB_cases es c with ⟨e, n⟩ | e <;> rcases encB_cases es d with ⟨e', n'⟩ | e' <;> rw [e, e'] at h <;>
        simp only [List.cons_append, List.nil_append, List.cons.injEq] at h
      · exact ⟨h.1.symm, h.2⟩
      · exact absurd h.1.symm (n he)
      · exact absurd h.1 (n' he)
      · refine ⟨?_, h.2.2.2⟩
        rw [← (encP_triplet c).2, ← (encP_triplet d).2, h.2.1, h.2.2.1]
    obtain ⟨hcd, h'⟩ := key
    subst hcd
    obtain ⟨v, rfl, k⟩ := prefix_cut he s t y h'
    exact ⟨v, rfl, k⟩

theorem InTriplet.tail {c : UInt8} {x : Str} (h : InTriplet (c :: x)) (hc : c ≠ 0x25) : InTriplet x := by
  obtain ⟨t, h | ⟨y, h⟩⟩ := h
  · cases t with
    | nil => simp at h; exact absurd h.1 hc
    | cons a t => simp at h; exact ⟨t, Or.inl h.2⟩
  · cases t with
    | nil => simp at h; exact absurd h.1 hc
    | cons a t => simp at h; exact ⟨t, Or.inr ⟨y, h.2⟩⟩

/-- Behind a triplet, nothing is inside it. -/
theorem InTriplet.behind_triplet {a h l : UInt8} {x : Str} (k : InTriplet (a :: h :: l :: x)) (h1 : h ≠ 0x25) (h2 : l ≠ 0x25) : InTriplet x := by
  have k2 : InTriplet (h :: l :: x) := by
    obtain ⟨t, k | ⟨y, k⟩⟩ := k
    · cases t with
      | nil => simp at k
      | cons b t => simp at k; exact ⟨t, Or.inl k.2⟩
    · cases t with
      | nil => simp at k
      | cons b t => simp at k; exact ⟨t, Or.inr ⟨y, k.2⟩⟩
  exact InTriplet.tail (InTriplet.tail k2 h1) h2

/-- Inside of a triplet, a digit follows. -/
theorem next_digit {es : UInt8} (he : es ≠ 0) : ∀ (t x r : Str) (d : UInt8), encP es t = x ++ d :: r → InTriplet x → tripletDigit d = true
  | [], x, r, d, h, _ => by simp [encP] at h
  | c :: t, [], r, d, _, hx => by
    obtain ⟨t, h | ⟨y, h⟩⟩ := hx <;> simp at h
  | c :: t, b :: x, r, d, h, hx => by
    rw [encP_cons] at h
    rcases encB_cases es c with ⟨e, n⟩ | e
    · rw [e] at h
      simp only [List.cons_append, List.nil_append, List.cons.injEq] at h
      obtain ⟨rfl, h⟩ := h
      exact next_digit he t x r d h (InTriplet.tail hx (n he))
    · rw [e] at h
      simp only [List.cons_append, List.nil_append, List.cons.injEq] at h
      obtain ⟨rfl, h⟩ := h
      obtain ⟨k1, k2, k3, k4⟩ := digit_of c
      match x, h, hx with
      | [], h, _ =>
        simp only [List.nil_append, List.cons.injEq] at h
        rw [← h.1]; exact k1
      | [a], h, _ =>
        simp only [List.cons_append, List.nil_append, List.cons.injEq] at h
        rw [← h.2.1]; exact k2
      | a :: b :: x, h, hx =>
        simp only [List.cons_append, List.cons.injEq] at h
        obtain ⟨rfl, rfl, h⟩ := h
        exact next_digit he t x r d h (InTriplet.behind_triplet hx k3 k4)

theorem encP_append (es : UInt8) (s t : Str) : encP es (s ++ t) = encP es s ++ encP es t := by simp [encP]

/-- The first character of an encoded text is a triplet digit exactly if that of the text is. -/
theorem head_digit (es c : UInt8) (s : Str) (h : tripletDigit c = false) : ∃ d r, encP es (c :: s) = d :: r ∧ tripletDigit d = false := by
  rw [encP_cons]
  rcases encB_cases es c with ⟨e, -⟩ | e <;> rw [e]
  · exact ⟨c, _, rfl, h⟩
  · exact ⟨0x25, _, rfl, by decide⟩

theorem digit_kept (es c : UInt8) (h : tripletDigit c = true) : encB es c = [c] := by
  have k : needsPctencodeB c es = false := by
    have h2 : c ∈ b! "0123456789ABCDEF" := byte_prop (fun c => tripletDigit c = true → c ∈ b! "0123456789ABCDEF") (by decide +kernel) c h
    simp only [List.mem_cons, List.not_mem_nil, or_false] at h2
    rcases h2 with rfl | rfl | rfl | rfl | rfl | rfl | rfl | rfl | rfl | rfl | rfl | rfl | rfl | rfl | rfl | rfl
    all_goals exact byte_prop (fun es => needsPctencodeB _ es = false) (by decide +kernel) es
  simp [encB, k]

/-- Every triplet digit is the second one of a byte that every set encodes. -/
theorem digit_second (es c : UInt8) (h : tripletDigit c = true) : ∃ d a, encB es d = [0x25, a, c] ∧ d ≠ c := by
  have h2 : c ∈ b! "0123456789ABCDEF" := byte_prop (fun c => tripletDigit c = true → c ∈ b! "0123456789ABCDEF") (by decide +kernel) c h
  have enc : ∀ d : UInt8, 0x80 ≤ d → encB es d = [0x25, hexU (d.toNat / 16), hexU (d.toNat % 16)] := by
    intro d hd
    have : needsPctencodeB d es = true := by
      have e := byte_prop (fun d => 0x80 ≤ d → 0x7E < d) (by decide +kernel) d hd
      simp [needsPctencodeB, e]
    simp [encB, this]
  simp only [List.mem_cons, List.not_mem_nil, or_false] at h2
  have mk : ∀ d : UInt8, 0x80 ≤ d → hexU (d.toNat % 16) = c → d ≠ c → ∃ d a, encB es d = [0x25, a, c] ∧ d ≠ c := by
    intro d h1 h2 h3
    exact ⟨d, _, by rw [enc d h1, h2], h3⟩
  rcases h2 with rfl | rfl | rfl | rfl | rfl | rfl | rfl | rfl | rfl | rfl | rfl | rfl | rfl | rfl | rfl | rfl
  · exact mk 0x80 (by decide) (by decide) (by decide)
  · exact mk 0x81 (by decide) (by decide) (by decide)
  · exact mk 0x82 (by decide) (by decide) (by decide)
  · exact mk 0x83 (by decide) (by decide) (by decide)
  · exact mk 0x84 (by decide) (by decide) (by decide)
  · exact mk 0x85 (by decide) (by decide) (by decide)
  · exact mk 0x86 (by decide) (by decide) (by decide)
  · exact mk 0x87 (by decide) (by decide) (by decide)
  · exact mk 0x88 (by decide) (by decide) (by decide)
  · exact mk 0x89 (by decide) (by decide) (by decide)
  · exact mk 0x8A (by decide) (by decide) (by decide)
  · exact mk 0x8B (by decide) (by decide) (by decide)
  · exact mk 0x8C (by decide) (by decide) (by decide)
  · exact mk 0x8D (by decide) (by decide) (by decide)
  · exact mk 0x8E (by decide) (by decide) (by decide)
  · exact mk 0x8F (by decide) (by decide) (by decide)

end Verif.PctSearch

/-! ### The property -/

namespace Verif
open Short PctSearch PctSpec

/-- **C123**: one encoded text begins with another exactly if the texts do. -/
theorem C123_prefix (s t e f : Str) (es : UInt8) (hes : es ≠ EncSet.none) (he : pctencode s es = .ok e) (hf : pctencode t es = .ok f) : e <+: f ↔ s <+: t := by
  rw [pctencode_eq] at he hf
  cases he; cases hf
  constructor
  · rintro ⟨y, h⟩
    obtain ⟨v, rfl, -⟩ := prefix_cut hes s t y h.symm
    exact ⟨v, rfl⟩
  · rintro ⟨v, rfl⟩
    exact ⟨_, (encP_append es s v).symm⟩

/-- **C123**: so they are equal exactly if the texts are. -/
theorem C123_equal (s t e f : Str) (es : UInt8) (hes : es ≠ EncSet.none) (he : pctencode s es = .ok e) (hf : pctencode t es = .ok f) : e = f ↔ s = t := by
  constructor
  · intro h
    have h1 := (C123_prefix s t e f es hes he hf).1 (h ▸ List.prefix_rfl)
    have h2 := (C123_prefix t s f e es hes hf he).1 (h ▸ List.prefix_rfl)
    exact h1.eq_of_length_le h2.length_le
  · rintro rfl
    exact Except.ok.inj (he.symm.trans hf)

/-- **C123**: an occurrence of one encoded text in another, that does not begin inside of a triplet, is that of the text in the other, with the encodings of what is
before it and behind it around. -/
theorem C123_occurrence (s t e f x y : Str) (es : UInt8) (hes : es ≠ EncSet.none) (he : pctencode s es = .ok e) (hf : pctencode t es = .ok f) :
    (f = x ++ e ++ y ∧ ¬ InTriplet x) ↔ ∃ u v, t = u ++ s ++ v ∧ pctencode u es = .ok x ∧ pctencode v es = .ok y := by
  rw [pctencode_eq] at he hf
  cases he; cases hf
  simp only [pctencode_eq, Except.ok.injEq]
  constructor
  · rintro ⟨h, hx⟩
    rw [List.append_assoc] at h
    obtain ⟨u, w, rfl, rfl, k⟩ := cut es t x _ h hx
    obtain ⟨v, rfl, rfl⟩ := prefix_cut hes s w y k
    exact ⟨u, v, by simp, rfl, rfl⟩
  · rintro ⟨u, v, rfl, rfl, rfl⟩
    refine ⟨by simp [encP], fun h => ?_⟩
    -- a digit would follow, whatever follows
    obtain ⟨d, r, e1, e2⟩ := head_digit es 0x2D [] (by decide)
    have := next_digit hes (u ++ b! "-") (encP es u) r d (by rw [encP_append, e1]) h
    rw [this] at e2
    cases e2

/-- **C123**: searching: a text that does not begin with one of `0`-`9` and `A`-`F` is found in another exactly where its encoding is found. -/
theorem C123_find (s t e f : Str) (es : UInt8) (hes : es ≠ EncSet.none) (he : pctencode s es = .ok e) (hf : pctencode t es = .ok f)
    (h0 : ∀ c, s.head? = some c → tripletDigit c = false) :
    (e <:+: f ↔ s <:+: t) ∧ (e <:+ f ↔ s <:+ t) := by
  have he' := he
  have hf' := hf
  rw [pctencode_eq] at he' hf'
  cases he'; cases hf'
  cases s with
  | nil => simp [encP]
  | cons c s =>
    have key : ∀ x y, encP es t = x ++ encP es (c :: s) ++ y → ∃ u v, t = u ++ (c :: s) ++ v ∧ pctencode u es = .ok x ∧ pctencode v es = .ok y := by
      intro x y h
      refine (C123_occurrence (c :: s) t _ _ x y es hes he hf).1 ⟨h, fun hx => ?_⟩
      obtain ⟨d, r, e1, e2⟩ := head_digit es c s (h0 c rfl)
      rw [e1, List.append_assoc, List.cons_append] at h
      rw [next_digit hes t x _ d h hx] at e2
      cases e2
    constructor
    · constructor
      · rintro ⟨x, y, h⟩
        obtain ⟨u, v, rfl, -, -⟩ := key x y h.symm
        exact ⟨u, v, rfl⟩
      · rintro ⟨u, v, rfl⟩
        exact ⟨encP es u, encP es v, by rw [encP_append, encP_append]⟩
    · constructor
      · rintro ⟨x, h⟩
        obtain ⟨u, v, rfl, -, hv⟩ := key x [] (by rw [List.append_nil, h])
        rw [pctencode_eq] at hv
        have hv : encP es v = [] := Except.ok.inj hv
        cases v with
        | nil => exact ⟨u, by simp⟩
        | cons d v => rw [encP_cons] at hv; rcases encB_cases es d with ⟨e, -⟩ | e <;> rw [e] at hv <;> simp at hv
      · rintro ⟨u, rfl⟩
        exact ⟨encP es u, (encP_append es u _).symm⟩

/-- **C123**: and only such a text: if it begins with one of these characters, there is a text, ending with the encoding of it, in which it does not occur. -/
theorem C123_find_exact (s e : Str) (es : UInt8) (he : pctencode s es = .ok e) (h0 : ∃ c, s.head? = some c ∧ tripletDigit c = true) :
    ∃ t f, pctencode t es = .ok f ∧ e <:+ f ∧ ¬ s <:+: t := by
  rw [pctencode_eq] at he
  cases he
  obtain ⟨c, h1, h2⟩ := h0
  cases s with
  | nil => simp at h1
  | cons c' s =>
    simp only [List.head?_cons, Option.some.injEq] at h1
    subst h1
    obtain ⟨d, a, k1, k2⟩ := digit_second es c' h2
    refine ⟨d :: s, _, pctencode_eq _ _, ⟨[0x25, a], ?_⟩, fun h => ?_⟩
    · rw [encP_cons, encP_cons, k1, digit_kept es c' h2]; simp
    · have := h.eq_of_length (by simp)
      simp only [List.cons.injEq] at this
      exact k2 this.1.symm

/-- **C123**: encoded texts do not sort as the texts do; digits are found in the triplet of a space; and the set `none` makes the same of different
texts. -/
theorem C123_counterexamples :
    (pctencode [0x61] EncSet.component = .ok (b! "a") ∧ pctencode [0xC3, 0xA9] EncSet.component = .ok (b! "%C3%A9") ∧ ([0x61] : Str) < [0xC3, 0xA9] ∧ ¬ b! "a" < b! "%C3%A9") ∧
    (pctencode (b! "20") EncSet.component = .ok (b! "20") ∧ pctencode (b! " ") EncSet.component = .ok (b! "%20") ∧ b! "20" <:+ b! "%20") ∧
    (pctencode (b! " ") EncSet.none = .ok (b! "%20") ∧ pctencode (b! "%20") EncSet.none = .ok (b! "%20")) := by
  decide +kernel

/-- `b` in `a b`, and not in a triplet. -/
example : pctencode (b! " b") EncSet.component = .ok (b! "%20b") ∧ pctencode (b! "a b") EncSet.component = .ok (b! "a%20b") ∧ (∀ c, (b! " b").head? = some c → tripletDigit c = false) ∧
    ¬ InTriplet (b! "a") := by
  refine ⟨by decide +kernel, by decide +kernel, fun c hc => by cases hc; decide, ?_⟩
  rintro ⟨t, h | ⟨y, h⟩⟩
  · have := congrArg List.getLast? h; simp at this
  · have := congrArg List.length h; simp at this

end Verif
