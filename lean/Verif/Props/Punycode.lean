import Verif.Proofs.Punycode
import Verif.Proofs.PunyCut

/-!
# Properties C29–C33: Punycode
-/

set_option linter.unusedSimpArgs false
set_option linter.unusedVariables false

namespace Verif

open Puny Rfc3492

/-- Sequences of `char32_t` on which the encoder's 64-bit counters cannot wrap: either any 32-bit
values and at most 2^26 of them, or Unicode code points and at most 2^38 of them. -/
def PunyInput (s : List Nat) : Prop :=
  ((∀ c ∈ s, c < 2 ^ 32) ∧ s.length ≤ 2 ^ 26) ∨ ((∀ c ∈ s, c < 0x110000) ∧ s.length ≤ 2 ^ 37)

theorem PunyInput.bounds {s : List Nat} (h : PunyInput s) : ∃ B L, B ≤ u32Mod ∧ 36 * (B * L) ≤ szMod ∧ (∀ c ∈ s, c < B) ∧ s.length ≤ L ∧
    0x80 < B ∧ 1 ≤ L := by
  rcases h with ⟨h1, h2⟩ | ⟨h1, h2⟩
  · exact ⟨2 ^ 32, 2 ^ 26, by decide, by decide, h1, h2, by decide, by decide⟩
  · exact ⟨0x110000, 2 ^ 37, by decide, by decide, h1, h2, by decide, by decide⟩

theorem PunyInput.small {s : List Nat} (h : PunyInput s) : (∀ c ∈ s, c < u32Mod) ∧ s.length + 1 < szMod := by
  rcases h with ⟨h1, h2⟩ | ⟨h1, h2⟩
  · exact ⟨h1, by simp only [szMod] at *; omega⟩
  · exact ⟨fun c hc => by have := h1 c hc; simp only [u32Mod]; omega, by simp only [szMod] at *; omega⟩

theorem filterBasic_lt (s : List Nat) : ∀ c ∈ s.filter isBasic, c < 0x80 := by
  intro c hc
  simpa [isBasic] using (List.mem_filter.1 hc).2

theorem toNat_ofNat_map (l : List Nat) (h : ∀ c ∈ l, c < 0x80) : (l.map UInt8.ofNat).map UInt8.toNat = l := by
  induction l with
  | nil => rfl
  | cons c l ih =>
    rw [List.map_cons, List.map_cons, ih (fun c hc => h c (by simp [hc]))]
    congr 1
    have := h c (by simp)
    simp [UInt8.toNat_ofNat']; omega

theorem basicText_lt (s : List Nat) : ∀ c ∈ (s.filter isBasic).map UInt8.ofNat, c.toNat < 0x80 := by
  intro c hc
  obtain ⟨d, hd, rfl⟩ := List.mem_map.1 hc
  have := filterBasic_lt s d hd
  simp [UInt8.toNat_ofNat']; omega

/-- Decoding what the encoder writes. -/
theorem decode_litText (bidi : Bool) (s : List Nat) (txt : Str) (ht : (0x2D : UInt8) ∉ txt) :
    decode bidi (litText s ++ txt) = decodeLoop (txt.length + 1) txt (s.filter isBasic) 0x80 0 72 := by
  unfold litText
  simp only
  split
  · rw [List.append_assoc, List.singleton_append, decode_some bidi _ _ ht (basicText_lt s), toNat_ofNat_map _ (filterBasic_lt s)]
  · rename_i h
    have : s.filter isBasic = [] := by
      have := h; simp only [List.length_map] at this
      exact List.length_eq_zero_iff.1 (by omega)
    rw [this]
    simp only [List.map_nil, List.nil_append]
    exact decode_none bidi _ ht

/-- **C29.** -/
theorem C29_roundtrip (s : List Nat) (hs : PunyInput s) (allow : Bool) :
    ∃ t flag, encode s allow = .ok (t, flag) ∧ (flag = true ∨ allow = false → ∀ bidi, decode bidi t = .ok (.ok (s, []))) := by
  obtain ⟨h1, h2⟩ := hs.small
  obtain ⟨n, i, bias, txt, ht, he⟩ := encode_spec s allow h1 h2
  obtain ⟨B, L, hB, hBL, hc, hl, hB1, hL1⟩ := hs.bounds
  split at he
  · rename_i hp
    exact ⟨_, _, he, fun h => by rcases h with h | h <;> simp_all⟩
  · refine ⟨_, _, he, fun _ bidi => ?_⟩
    rw [decode_litText bidi s txt ht.no_delim]
    obtain ⟨m, hm, hd⟩ := decodeLoop_complete ht B L hB hBL hc hl hB1 hL1
    have := hd (txt.length + 1 - m) []
    rw [List.append_nil, show txt.length + 1 - m + m = txt.length + 1 by omega] at this
    rw [this, show txt.length + 1 - m = (txt.length - m) + 1 by omega]
    rfl

/-- **C29**, the two arms of the flag: what is not encoded is the text itself. -/
theorem C29_plain (s : List Nat) (hs : PunyInput s) (t : Str) (h : encode s true = .ok (t, false)) : t.map UInt8.toNat = s := by
  obtain ⟨h1, h2⟩ := hs.small
  obtain ⟨n, i, bias, txt, ht, he⟩ := encode_spec s true h1 h2
  rw [h] at he
  split at he
  · rename_i hp
    cases he
    exact toNat_ofNat_map _ hp.2
  · rename_i hp
    simp only [Except.ok.injEq, Prod.mk.injEq, true_and] at he hp
    have := he.2
    simp at this
    exact absurd this (by simpa using hp)

/-- **C29.** The encoder writes a text that RFC 3492 decodes to its input. -/
theorem C29_rfc (s : List Nat) (hs : PunyInput s) (allow : Bool) (t : Str) (flag : Bool) (h : encode s allow = .ok (t, flag))
    (hf : flag = true ∨ allow = false) : Rfc3492.Decodes t s := by
  obtain ⟨h1, h2⟩ := hs.small
  obtain ⟨n, i, bias, txt, ht, he⟩ := encode_spec s allow h1 h2
  obtain ⟨B, L, hB, hBL, hc, hl, hB1, hL1⟩ := hs.bounds
  rw [h] at he
  split at he
  · simp only [Except.ok.injEq, Prod.mk.injEq] at he; rcases hf with hf | hf <;> simp_all
  · simp only [Except.ok.injEq, Prod.mk.injEq] at he
    have hr : Run 72 0x80 0 (s.filter isBasic) txt s := by
      have := ht.run B L (by omega) hc hl Run.done
      simpa using this
    rw [he.1]
    unfold litText
    simp only
    split
    · rename_i hp
      right
      refine ⟨_, txt, by rw [List.append_assoc, List.singleton_append], ht.no_delim, ?_, basicText_lt s, ?_⟩
      · intro h0; rw [h0] at hp; simp at hp
      · unfold Extends; rwa [toNat_ofNat_map _ (filterBasic_lt s)]
    · rename_i hp
      have h0 : s.filter isBasic = [] := by
        simp only [List.length_map] at hp
        exact List.length_eq_zero_iff.1 (by omega)
      left
      rw [h0] at hr ⊢
      simp only [List.map_nil, List.nil_append]
      exact ⟨ht.no_delim, hr⟩

example : PunyInput [0x62, 0xFC, 0x63, 0x68, 0x65, 0x72] ∧
    encode [0x62, 0xFC, 0x63, 0x68, 0x65, 0x72] false = .ok (b! "bcher-kva", true) ∧
    decode true (b! "bcher-kva") = .ok (.ok ([0x62, 0xFC, 0x63, 0x68, 0x65, 0x72], [])) :=
  ⟨Or.inl ⟨by decide, by decide⟩, by decide +kernel, by decide +kernel⟩

/-- RFC 3492 section 7.1 (B), Chinese (simplified). -/
example : encode [0x4ED6, 0x4EEC, 0x4E3A, 0x4EC0, 0x4E48, 0x4E0D, 0x8BF4, 0x4E2D, 0x6587] true =
    .ok (b! "ihqwcrb4cv8a8dqg056pqjye", true) := by decide +kernel

/-- The text a decodable text is re-encoded to: the digits in lower case, and a delimiter only
after a literal part that is not empty. -/
inductive Normalised : Str → Str → Prop
  | none {t} : (0x2D : UInt8) ∉ t → Normalised t (t.map lowerDigit)
  | some {lit ext} : (0x2D : UInt8) ∉ ext → lit ≠ [] → Normalised (lit ++ 0x2D :: ext) (lit ++ 0x2D :: ext.map lowerDigit)
  | lone {ext} : (0x2D : UInt8) ∉ ext → Normalised (0x2D :: ext) (ext.map lowerDigit)

/-- The two shapes of an input and how decoding starts. -/
theorem decode_cases (bidi : Bool) (t : Str) : decode bidi t = .ok (.error .badInput) ∨
    ((0x2D : UInt8) ∉ t ∧ decode bidi t = decodeLoop (t.length + 1) t [] 0x80 0 72) ∨
    ∃ lit ext, t = lit ++ 0x2D :: ext ∧ (0x2D : UInt8) ∉ ext ∧ (∀ c ∈ lit, c.toNat < 0x80) ∧
      decode bidi t = decodeLoop (ext.length + 1) ext (lit.map UInt8.toNat) 0x80 0 72 := by
  rcases last_delim t with h | ⟨lit, ext, rfl, h⟩
  · exact Or.inr (Or.inl ⟨h, decode_none bidi t h⟩)
  · by_cases hl : ∀ c ∈ lit, c.toNat < 0x80
    · exact Or.inr (Or.inr ⟨lit, ext, rfl, h, hl, decode_some bidi lit ext h hl⟩)
    · exact Or.inl (decode_bad bidi lit ext h hl)

theorem map_toNat_lt (lit : Str) (h : ∀ c ∈ lit, c.toNat < 0x80) : ∀ c ∈ lit.map UInt8.toNat, c < 0x80 := by
  intro c hc
  obtain ⟨d, hd, rfl⟩ := List.mem_map.1 hc
  exact h d hd

theorem Tr.bound {lit out n i bias txt} (hl : ∀ c ∈ lit, c < 0x80) (ht : Tr lit out n i bias txt) (hn : n < u32Mod) : ∀ c ∈ out, c < u32Mod := by
  intro c hc
  have := (ht.sorted hl).1 c hc
  omega

/-- **C30.** -/
theorem C30_reencode (bidi : Bool) (t : Str) (ht : t.length + 2 < szMod) (s : List Nat) (r : Str) (h : decode bidi t = .ok (.ok (s, r))) :
    r = [] ∧ ∃ t' flag, encode s false = .ok (t', flag) ∧ Normalised t t' := by
  have key : ∀ (lit ext : Str), lit.length + ext.length ≤ t.length → (∀ c ∈ lit, c.toNat < 0x80) →
      decode bidi t = decodeLoop (ext.length + 1) ext (lit.map UInt8.toNat) 0x80 0 72 →
      r = [] ∧ ∃ flag, encode s false = .ok ((if lit.length > 0 then lit ++ [0x2D] else lit) ++ ext.map lowerDigit, flag) := by
    intro lit ext hlen hl hd
    rw [hd] at h
    have hl' := map_toNat_lt lit hl
    rcases decodeLoop_sound (lit := lit.map UInt8.toNat) (ext.length + 1) ext (lit.map UInt8.toNat) 0x80 0 72 [] Tr.nil (by decide)
      (by simp only [List.length_map]; omega) (by omega) with ⟨e, he⟩ | ⟨s', n', i', bias', he, htr, _, hn, hsl⟩
    · rw [h] at he; simp at he
    · rw [h] at he
      simp only [Except.ok.injEq, Prod.mk.injEq] at he
      obtain ⟨rfl, rfl⟩ := he
      refine ⟨rfl, ?_⟩
      obtain ⟨n2, i2, b2, txt2, ht2, he2⟩ := encode_spec s false (Tr.bound hl' htr hn) (by simp only [List.length_map] at hsl; omega)
      rw [htr.basics hl'] at ht2
      have e := (htr.unique hl' ht2).2.2.2
      rw [List.nil_append] at e
      rw [if_neg (by simp)] at he2
      refine ⟨decide (∃ c ∈ s, ¬ c < 0x80), he2.trans ?_⟩
      rw [← e]
      have : (s.filter isBasic).map UInt8.ofNat = lit := by
        rw [htr.basics hl', List.map_map]
        exact (List.map_congr_left (fun c _ => by simp)).trans (List.map_id _)
      unfold litText
      simp only [this]
  rcases decode_cases bidi t with hb | ⟨h1, h2⟩ | ⟨lit, ext, rfl, h2, h3, h4⟩
  · rw [h] at hb; simp at hb
  · obtain ⟨hr, flag, he⟩ := key [] t (by simp) (by simp) h2
    exact ⟨hr, _, flag, he, by simpa using Normalised.none h1⟩
  · obtain ⟨hr, flag, he⟩ := key lit ext (by simp) h3 h4
    refine ⟨hr, _, flag, he, ?_⟩
    cases lit with
    | nil => simpa using Normalised.lone h2
    | cons c lit => 
      have := Normalised.some (lit := c :: lit) h2 (by simp)
      simpa using this

/-- Re-encoding does not undo decoding for digits in upper case, or for a lone leading delimiter. -/
theorem C30_upper : decode true (b! "bcher-KvA") = .ok (.ok ([0x62, 0xFC, 0x63, 0x68, 0x65, 0x72], [])) ∧
    encode [0x62, 0xFC, 0x63, 0x68, 0x65, 0x72] false = .ok (b! "bcher-kva", true) := by decide +kernel

theorem C30_lone : decode true (b! "-tda") = .ok (.ok ([0xFC], [])) ∧ encode [0xFC] false = .ok (b! "tda", true) := by decide +kernel

/-- **C30.** Two texts that decode to the same code points are equal up to the case of digits and
a lone leading delimiter. -/
theorem C30_injective (b1 b2 : Bool) (t1 t2 : Str) (ht1 : t1.length + 2 < szMod) (ht2 : t2.length + 2 < szMod) (s : List Nat) (r1 r2 : Str)
    (h1 : decode b1 t1 = .ok (.ok (s, r1))) (h2 : decode b2 t2 = .ok (.ok (s, r2))) : ∃ t, Normalised t1 t ∧ Normalised t2 t := by
  obtain ⟨_, t, f, e, hn⟩ := C30_reencode b1 t1 ht1 s r1 h1
  obtain ⟨_, t', f', e', hn'⟩ := C30_reencode b2 t2 ht2 s r2 h2
  rw [e] at e'
  simp only [Except.ok.injEq, Prod.mk.injEq] at e'
  exact ⟨t, hn, e'.1 ▸ hn'⟩

/-- **C31**, for all 32-bit values and any length that fits in memory: `encode` always returns (none of its assertions
fails), and this is what it writes. -/
theorem C31_shape (s : List Nat) (hs : (∀ c ∈ s, c < 2 ^ 32) ∧ s.length + 1 < 2 ^ 64) (allow : Bool) :
    ∃ t flag, encode s allow = .ok (t, flag) ∧ (flag = true ↔ ∃ c ∈ s, 0x80 ≤ c) ∧
      ((allow = true ∧ flag = false ∧ t.map UInt8.toNat = s) ∨
       ∃ basics ext : Str, basics.map UInt8.toNat = s.filter (· < 0x80) ∧
         t = basics ++ (if basics = [] then [] else [0x2D]) ++ ext ∧
         ∀ c ∈ ext, (0x61 ≤ c.toNat ∧ c.toNat ≤ 0x7A) ∨ (0x30 ≤ c.toNat ∧ c.toNat ≤ 0x39)) ∧
      ∀ c ∈ t, c.toNat < 0x80 := by
  obtain ⟨h1, h2⟩ := hs
  obtain ⟨n, i, bias, txt, ht, he⟩ := encode_spec s allow h1 h2
  have hdig : ∀ c ∈ txt, (0x61 ≤ c.toNat ∧ c.toNat ≤ 0x7A) ∨ (0x30 ≤ c.toNat ∧ c.toNat ≤ 0x39) := by
    intro c hc
    obtain ⟨d, hd, rfl⟩ := ht.digits c hc
    have : ∀ d < 36, (0x61 ≤ (digB d).toNat ∧ (digB d).toNat ≤ 0x7A) ∨ (0x30 ≤ (digB d).toNat ∧ (digB d).toNat ≤ 0x39) := by decide +kernel
    exact this d hd
  split at he
  · rename_i hp
    have e := toNat_ofNat_map _ hp.2
    refine ⟨_, _, he, ?_, Or.inl ⟨hp.1, rfl, e⟩, ?_⟩
    · simp only [Bool.false_eq_true, false_iff, not_exists, not_and]
      intro c hc; have := hp.2 c hc; omega
    · intro c hc
      have : c.toNat ∈ s := by rw [← e]; exact List.mem_map.2 ⟨c, hc, rfl⟩
      exact hp.2 _ this
  · refine ⟨_, _, he, ?_, Or.inr ⟨(s.filter isBasic).map UInt8.ofNat, txt, ?_, ?_, hdig⟩, ?_⟩
    · simp
    · rw [toNat_ofNat_map _ (filterBasic_lt s)]; rfl
    · unfold litText
      cases hb : s.filter isBasic <;> simp
    · intro c hc
      rcases List.mem_append.1 hc with hc | hc
      · have : c ∈ (s.filter isBasic).map UInt8.ofNat ∨ c = 0x2D := by
          unfold litText at hc
          simp only at hc
          split at hc
          · simpa using hc
          · exact Or.inl hc
        rcases this with h | rfl
        · exact basicText_lt s c h
        · decide
      · have := hdig c hc; omega

/-- **C32**, totality: every input that fits in memory gives a string, `bad_input` or `overflow`;
none faults (no insertion out of range, no assertion, no endless loop).  A string uses all input,
is not longer than it, and its code points fit in 32 bits. -/
theorem C32_total (bidi : Bool) (t : Str) (ht : t.length + 2 < szMod) :
    decode bidi t = .ok (.error .badInput) ∨ decode bidi t = .ok (.error .overflow) ∨
    ∃ s, decode bidi t = .ok (.ok (s, [])) ∧ s.length ≤ t.length ∧ ∀ c ∈ s, c < 2 ^ 32 := by
  have key : ∀ (lit ext : Str), lit.length + ext.length ≤ t.length → (∀ c ∈ lit, c.toNat < 0x80) →
      decode bidi t = decodeLoop (ext.length + 1) ext (lit.map UInt8.toNat) 0x80 0 72 →
      decode bidi t = .ok (.error .badInput) ∨ decode bidi t = .ok (.error .overflow) ∨
      ∃ s, decode bidi t = .ok (.ok (s, [])) ∧ s.length ≤ t.length ∧ ∀ c ∈ s, c < 2 ^ 32 := by
    intro lit ext hlen hl hd
    have hl' := map_toNat_lt lit hl
    rcases decodeLoop_sound (lit := lit.map UInt8.toNat) (ext.length + 1) ext (lit.map UInt8.toNat) 0x80 0 72 [] Tr.nil (by decide)
      (by simp only [List.length_map]; omega) (by omega) with ⟨e, he⟩ | ⟨s', n', i', bias', he, htr, _, hn, hsl⟩
    · rw [hd, he]; cases e <;> simp
    · refine Or.inr (Or.inr ⟨s', hd.trans he, ?_, Tr.bound hl' htr hn⟩)
      simp only [List.length_map] at hsl; omega
  rcases decode_cases bidi t with hb | ⟨h1, h2⟩ | ⟨lit, ext, rfl, h2, h3, h4⟩
  · exact Or.inl hb
  · exact key [] t (by simp) (by simp) h2
  · exact key lit ext (by simp) h3 h4

/-- A text RFC 3492 rejects and this decoder accepts: a delimiter with nothing before it. -/
def LoneDelimiter (t : Str) : Prop := ∃ ext, t = 0x2D :: ext ∧ (0x2D : UInt8) ∉ ext

/-- **C32**, soundness: what is decoded is what RFC 3492's decoder computes in unbounded
arithmetic (so no intermediate value wraps), except that a lone leading delimiter is skipped.  The
inserted code points are at least 0x80 (`Run` adds to 0x80 only). -/
theorem C32_sound (bidi : Bool) (t : Str) (ht : t.length + 2 < szMod) (s : List Nat) (r : Str) (h : decode bidi t = .ok (.ok (s, r))) :
    Rfc3492.Decodes t s ∨ ∃ ext, t = 0x2D :: ext ∧ (0x2D : UInt8) ∉ ext ∧ Rfc3492.Decodes ext s := by
  have key : ∀ (lit ext : Str), lit.length + ext.length ≤ t.length → (∀ c ∈ lit, c.toNat < 0x80) →
      decode bidi t = decodeLoop (ext.length + 1) ext (lit.map UInt8.toNat) 0x80 0 72 → Extends lit ext s := by
    intro lit ext hlen hl hd
    rw [hd] at h
    rcases decodeLoop_sound (lit := lit.map UInt8.toNat) (ext.length + 1) ext (lit.map UInt8.toNat) 0x80 0 72 [] Tr.nil (by decide)
      (by simp only [List.length_map]; omega) (by omega) with ⟨e, he⟩ | ⟨s', n', i', bias', he, htr, hrun, hn, hsl⟩
    · rw [h] at he; simp at he
    · rw [h] at he
      simp only [Except.ok.injEq, Prod.mk.injEq] at he
      rw [he.1]; exact hrun
  rcases decode_cases bidi t with hb | ⟨h1, h2⟩ | ⟨lit, ext, rfl, h2, h3, h4⟩
  · rw [h] at hb; simp at hb
  · exact Or.inl (Or.inl ⟨h1, key [] t (by simp) (by simp) h2⟩)
  · have := key lit ext (by simp) h3 h4
    cases lit with
    | nil => exact Or.inr ⟨ext, rfl, h2, Or.inl ⟨h2, this⟩⟩
    | cons c lit => exact Or.inl (Or.inr ⟨c :: lit, ext, rfl, h2, by simp, h3, this⟩)

/-- The decoded code points are the literal ones or at least 0x80. -/
theorem C32_inserted (lit ext : Str) (s : List Nat) (h : Rfc3492.Extends lit ext s) : ∀ c ∈ s, c ∈ lit.map UInt8.toNat ∨ 0x80 ≤ c :=
  (Run.mono h).2.2

/-- **C32**, completeness: what RFC 3492 decodes to a string of Unicode code points (or any 32-bit
values) of reasonable length is decoded, to the same string. -/
theorem C32_complete (bidi : Bool) (t : Str) (s : List Nat) (hs : PunyInput s) (h : Rfc3492.Decodes t s) : decode bidi t = .ok (.ok (s, [])) := by
  obtain ⟨B, L, hB, hBL, hc, hl, hB1, hL1⟩ := hs.bounds
  rcases h with ⟨h1, h2⟩ | ⟨lit, ext, rfl, h2, _, h3, h4⟩
  · rw [decode_none bidi t h1]
    exact decodeLoop_run B L hB hBL h2 hc hl (by simp [SmallBias]) (by simp) (by decide) _ (by omega)
  · rw [decode_some bidi lit ext h2 h3]
    exact decodeLoop_run B L hB hBL h4 hc hl (by simp [SmallBias]) (by simp) (by decide) _ (by omega)

/-- **C32**, exactly: the results of reasonable length are those of RFC 3492, of the text or of what follows a
lone leading delimiter. -/
theorem C32_exact (bidi : Bool) (t : Str) (ht : t.length + 2 < szMod) (s : List Nat) (hs : PunyInput s) :
    decode bidi t = .ok (.ok (s, [])) ↔
      Rfc3492.Decodes t s ∨ ∃ ext, t = 0x2D :: ext ∧ (0x2D : UInt8) ∉ ext ∧ Rfc3492.Decodes ext s := by
  constructor
  · exact C32_sound bidi t ht s []
  · rintro (h | ⟨ext, rfl, he, h⟩)
    · exact C32_complete bidi t s hs h
    · have h' := C32_complete bidi ext s hs h
      rw [decode_none bidi ext he] at h'
      have := decode_some bidi [] ext he (by simp)
      simp only [List.nil_append] at this
      rw [this]; exact h'

/-- RFC 3492's decoder has at most one result of that kind. -/
theorem C32_deterministic (t : Str) (s s' : List Nat) (hs : PunyInput s) (hs' : PunyInput s') (h : Rfc3492.Decodes t s) (h' : Rfc3492.Decodes t s') : s = s' := by
  have e := C32_complete true t s hs h
  rw [C32_complete true t s' hs' h'] at e
  simp only [Except.ok.injEq, Prod.mk.injEq] at e
  exact e.1.symm

/-- No RFC text starts with its only delimiter; the decoder accepts "-tda". -/
theorem C32_lone_counterexample : decode true (b! "-tda") = .ok (.ok ([0xFC], [])) ∧ ¬ ∃ s, Rfc3492.Decodes (b! "-tda") s := by
  refine ⟨by decide +kernel, ?_⟩
  rintro ⟨s, ⟨h, _⟩ | ⟨lit, ext, h, h2, h3, _⟩⟩
  · exact h (by decide)
  · cases lit with
    | nil => exact h3 rfl
    | cons c lit =>
      have e : b! "-tda" = [0x2D, 0x74, 0x64, 0x61] := by decide +kernel
      rw [e] at h
      have : (0x2D : UInt8) ∈ ([0x74, 0x64, 0x61] : Str) := by
        simp only [List.cons_append, List.cons.injEq] at h
        rw [h.2]; simp
      exact absurd this (by decide)

/-- The decoder also accepts values that are no Unicode scalar values: a surrogate, and a value
above 0x10FFFF. -/
theorem C32_not_unicode_counterexample : decode true (b! "ib9b") = .ok (.ok ([0xD800], [])) ∧
    decode true (b! "en32g") = .ok (.ok ([0x110000], [])) := by decide +kernel

/-- **C33**, case: the digits after the last delimiter in lower case give the same result, be it
a string or an error. -/
theorem C33_case (bidi : Bool) (lit ext : Str) (h : (0x2D : UInt8) ∉ ext) :
    decode bidi (lit ++ 0x2D :: ext.map lowerDigit) = decode bidi (lit ++ 0x2D :: ext) ∧
    decode bidi (ext.map lowerDigit) = decode bidi ext := by
  have h' : (0x2D : UInt8) ∉ ext.map lowerDigit := by
    intro hm
    obtain ⟨c, hc, e⟩ := List.mem_map.1 hm
    have : ∀ c : UInt8, lowerDigit c = 0x2D → c = 0x2D := fun c hc => by
      have := forall_byte (P := fun c => !(lowerDigit c == 0x2D) || c == 0x2D) (by decide +kernel) c
      simp at this; exact this.resolve_left (by simp [hc])
    exact h (this c e ▸ hc)
  constructor
  · by_cases hl : ∀ c ∈ lit, c.toNat < 0x80
    · rw [decode_some bidi lit _ h' hl, decode_some bidi lit _ h hl, List.length_map, decodeLoop_lower]
    · rw [decode_bad bidi lit _ h' hl, decode_bad bidi lit _ h hl]
  · rw [decode_none bidi _ h', decode_none bidi _ h, List.length_map, decodeLoop_lower]

/-- **C33**, case: texts that differ in the case of digits only decode alike. -/
theorem C33_case_eq (bidi : Bool) (lit e1 e2 : Str) (h1 : (0x2D : UInt8) ∉ e1) (h2 : (0x2D : UInt8) ∉ e2) (h : e1.map lowerDigit = e2.map lowerDigit) :
    decode bidi (lit ++ 0x2D :: e1) = decode bidi (lit ++ 0x2D :: e2) ∧ decode bidi e1 = decode bidi e2 := by
  rw [← (C33_case bidi lit e1 h1).1, ← (C33_case bidi lit e2 h2).1, ← (C33_case bidi lit e1 h1).2, ← (C33_case bidi lit e2 h2).2, h]
  exact ⟨rfl, rfl⟩

/-- A letter or decimal digit. -/
def AlnumB (c : UInt8) : Prop :=
  (0x30 ≤ c.toNat ∧ c.toNat ≤ 0x39) ∨ (0x41 ≤ c.toNat ∧ c.toNat ≤ 0x5A) ∨ (0x61 ≤ c.toNat ∧ c.toNat ≤ 0x7A)

theorem spells_alnum {txt : Str} {ds : List Nat} (h : Spells txt ds) : ∀ c ∈ txt, AlnumB c := by
  induction h with
  | nil => simp
  | @cons c d t ds hd _ ih =>
    intro x hx
    rcases List.mem_cons.1 hx with rfl | hx
    · rcases hd with h | h
      · have := List.mem_of_getElem? h
        have key : ∀ c ∈ lowerAlphabet, AlnumB c := by
          have : lowerAlphabet.all (fun c => decide ((0x30 ≤ c.toNat ∧ c.toNat ≤ 0x39) ∨ (0x41 ≤ c.toNat ∧ c.toNat ≤ 0x5A) ∨ (0x61 ≤ c.toNat ∧ c.toNat ≤ 0x7A))) = true := by decide +kernel
          intro c hc; simpa [AlnumB] using List.all_eq_true.1 this c hc
        exact key _ this
      · have := List.mem_of_getElem? h
        have key : ∀ c ∈ upperAlphabet, AlnumB c := by
          have : upperAlphabet.all (fun c => decide ((0x30 ≤ c.toNat ∧ c.toNat ≤ 0x39) ∨ (0x41 ≤ c.toNat ∧ c.toNat ≤ 0x5A) ∨ (0x61 ≤ c.toNat ∧ c.toNat ≤ 0x7A))) = true := by decide +kernel
          intro c hc; simpa [AlnumB] using List.all_eq_true.1 this c hc
        exact key _ this
    · exact ih x hx

theorem run_alnum {bias n i out txt s} (h : Run bias n i out txt s) : ∀ c ∈ txt, AlnumB c := by
  induction h with
  | done => simp
  | step h1 _ _ ih =>
    intro c hc
    rcases List.mem_append.1 hc with hc | hc
    · exact spells_alnum h1 c hc
    · exact ih c hc

/-- **C33**, malformed digits: when decoding succeeds, all that follows the last delimiter is
letters and digits, and all that precedes it is ASCII. -/
theorem C33_bad_digit (bidi : Bool) (lit ext : Str) (ht : (lit ++ 0x2D :: ext).length + 2 < szMod) (h : (0x2D : UInt8) ∉ ext) (s : List Nat) (r : Str)
    (hd : decode bidi (lit ++ 0x2D :: ext) = .ok (.ok (s, r)) ∨ (lit = [] ∧ decode bidi ext = .ok (.ok (s, r)))) :
    (∀ c ∈ ext, AlnumB c) ∧ ∀ c ∈ lit, c.toNat < 0x80 := by
  have hlt : lit.length + ext.length + 3 < szMod := by simp at ht; omega
  have key : ∀ (l : Str), l.length ≤ lit.length → decodeLoop (ext.length + 1) ext (l.map UInt8.toNat) 0x80 0 72 = .ok (.ok (s, r)) → ∀ c ∈ ext, AlnumB c := by
    intro l hl hd
    rcases decodeLoop_sound (lit := l.map UInt8.toNat) (ext.length + 1) ext (l.map UInt8.toNat) 0x80 0 72 [] Tr.nil (by decide)
      (by simp only [List.length_map]; omega) (by omega) with ⟨e, he⟩ | ⟨s', n', i', bias', he, htr, hrun, hn, hsl⟩
    · rw [hd] at he; simp at he
    · exact run_alnum hrun
  rcases hd with hd | ⟨rfl, hd⟩
  · by_cases hl : ∀ c ∈ lit, c.toNat < 0x80
    · rw [decode_some bidi lit ext h hl] at hd
      exact ⟨key lit (by omega) hd, hl⟩
    · rw [decode_bad bidi lit ext h hl] at hd; simp at hd
  · rw [decode_none bidi ext h] at hd
    exact ⟨key [] (by simp) hd, by simp⟩

/-- A literal part with a byte that is not ASCII is `bad_input`. -/
theorem C33_bad_literal (bidi : Bool) (lit ext : Str) (h : (0x2D : UInt8) ∉ ext) (c : UInt8) (hc : c ∈ lit) (hb : 0x80 ≤ c.toNat) :
    decode bidi (lit ++ 0x2D :: ext) = .ok (.error .badInput) :=
  decode_bad bidi lit ext h (fun hl => by have := hl c hc; omega)

/-- **C33**, truncation: the extended part of an accepted text is a row of pieces, one for each code point it adds to the literal part.
Cut between two pieces it is still accepted, with one code point fewer for each piece missing, all else in the
same order; cut anywhere else it is bad input. -/
theorem C33_cut (bidi : Bool) (lit ext : Str) (h : (0x2D : UInt8) ∉ ext) (s : List Nat) (r : Str)
    (hd : decode bidi (lit ++ 0x2D :: ext) = .ok (.ok (s, r))) :
    ∃ ts : List Str, ts.flatten = ext ∧ s.length = lit.length + ts.length ∧ (∀ t ∈ ts, t ≠ []) ∧
      (∀ j, j ≤ ts.length → ∃ s', decode bidi (lit ++ 0x2D :: (ts.take j).flatten) = .ok (.ok (s', [])) ∧
        s'.length = lit.length + j ∧ s'.Sublist s) ∧
      (∀ (j : Nat) (t cut more : Str), ts[j]? = some t → t = cut ++ more → cut ≠ [] → more ≠ [] →
        decode bidi (lit ++ 0x2D :: ((ts.take j).flatten ++ cut)) = .ok (.error .badInput)) := by
  by_cases hl : ∀ c ∈ lit, c.toNat < 0x80
  · rw [decode_some bidi lit ext h hl] at hd
    obtain ⟨ts, e1, e2, e3, -, e5, e6⟩ := decodeLoop_pieces _ _ _ _ _ _ _ _ hd
    rw [List.length_map] at e2
    have sub : ∀ (j : Nat) (t cut more : Str), ts[j]? = some t → t = cut ++ more → (0x2D : UInt8) ∉ (ts.take j).flatten ++ cut := by
      intro j t cut more hj ht hm
      apply h
      rw [← e1, ← List.take_append_drop j ts, List.flatten_append]
      have hdj : ts.drop j = t :: ts.drop (j + 1) := by
        obtain ⟨hlt, he⟩ := List.getElem?_eq_some_iff.1 hj
        rw [List.drop_eq_getElem_cons hlt, he]
      rw [hdj, List.flatten_cons, ht]
      simp only [List.mem_append] at hm ⊢
      rcases hm with hm | hm
      · exact Or.inl hm
      · exact Or.inr (Or.inl (Or.inl hm))
    refine ⟨ts, e1, e2, e3, ?_, ?_⟩
    · intro j hj
      have hn : (0x2D : UInt8) ∉ (ts.take j).flatten := by
        intro hm
        apply h
        rw [← e1, ← List.take_append_drop j ts, List.flatten_append]
        exact List.mem_append_left _ hm
      obtain ⟨s', k1, k2, k3⟩ := e5 j hj _ (Nat.lt_succ_self _)
      exact ⟨s', by rw [decode_some bidi lit _ hn hl]; exact k1, by rw [k2, List.length_map], k3⟩
    · intro j t cut more hj ht hc hm
      rw [decode_some bidi lit _ (sub j t cut more hj ht) hl]
      exact e6 j t cut more hj ht hc hm _ (Nat.lt_succ_self _)
  · rw [decode_bad bidi lit ext h hl] at hd
    simp at hd

/-- **C33**, truncation of a text without a delimiter. -/
theorem C33_cut_bare (bidi : Bool) (ext : Str) (h : (0x2D : UInt8) ∉ ext) (s : List Nat) (r : Str)
    (hd : decode bidi ext = .ok (.ok (s, r))) :
    ∃ ts : List Str, ts.flatten = ext ∧ s.length = ts.length ∧ (∀ t ∈ ts, t ≠ []) ∧
      (∀ j, j ≤ ts.length → ∃ s', decode bidi (ts.take j).flatten = .ok (.ok (s', [])) ∧ s'.length = j ∧ s'.Sublist s) ∧
      (∀ (j : Nat) (t cut more : Str), ts[j]? = some t → t = cut ++ more → cut ≠ [] → more ≠ [] →
        decode bidi ((ts.take j).flatten ++ cut) = .ok (.error .badInput)) := by
  have e0 : decode bidi ([] ++ 0x2D :: ext) = decode bidi ext := by
    rw [decode_none bidi ext h, decode_some bidi [] ext h (by simp)]; rfl
  rw [← e0] at hd
  obtain ⟨ts, e1, e2, e3, e5, e6⟩ := C33_cut bidi [] ext h s r hd
  have sub : ∀ x : Str, (∀ c ∈ x, c ∈ ext) → decode bidi x = decode bidi ([] ++ 0x2D :: x) := by
    intro x hx
    have hn : (0x2D : UInt8) ∉ x := fun hm => h (hx _ hm)
    rw [decode_none bidi x hn, decode_some bidi [] x hn (by simp)]
    rfl
  have mem : ∀ j : Nat, ∀ c ∈ (ts.take j).flatten, c ∈ ext := by
    intro j c hc
    rw [← e1, ← List.take_append_drop j ts, List.flatten_append]
    exact List.mem_append_left _ hc
  refine ⟨ts, e1, by simpa using e2, e3, ?_, ?_⟩
  · intro j hj
    rw [sub _ (mem j)]
    simpa using e5 j hj
  · intro j t cut more hj ht hc hm
    rw [sub]
    · exact e6 j t cut more hj ht hc hm
    · intro c hcm
      rcases List.mem_append.1 hcm with hcm | hcm
      · exact mem j c hcm
      · rw [← e1]
        exact List.mem_flatten.2 ⟨t, List.mem_of_getElem? hj, by rw [ht]; exact List.mem_append_left _ hcm⟩

example : decode true (b! "bcher-kva") = .ok (.ok ([0x62, 0xFC, 0x63, 0x68, 0x65, 0x72], [])) := by decide +kernel

example : decode true (b! "bcher-kv!") = .ok (.error .badInput) ∧ decode true (b! "bcher-kv") = .ok (.error .badInput) ∧
    decode true (b! "a-999999999999999999") = .ok (.error .overflow) := by decide +kernel

theorem vli_last {bias k v : Nat} {ds : List Nat} (h : Rfc3492.Vli bias k ds v) : ∃ init d, ds = init ++ [d] ∧ d < 26 := by
  induction h with
  | @last k d h =>
    refine ⟨[], d, rfl, ?_⟩
    unfold Rfc3492.threshold at h
    split at h
    · omega
    · split at h <;> omega
  | @more k d ds v _ _ _ ih =>
    obtain ⟨i, e, rfl, he⟩ := ih
    exact ⟨d :: i, e, rfl, he⟩

theorem spells_last {txt : Str} {ds : List Nat} (h : Rfc3492.Spells txt ds) : ∀ init d, ds = init ++ [d] →
    ∃ t c, txt = t ++ [c] ∧ Rfc3492.DigitVal c d := by
  induction h with
  | nil => intro i d e; simp at e
  | @cons c d t ds hd hs ih =>
    intro i e he
    cases i with
    | nil =>
      simp only [List.nil_append, List.cons.injEq] at he
      obtain ⟨rfl, rfl⟩ := he
      cases hs
      exact ⟨[], c, rfl, hd⟩
    | cons x i =>
      simp only [List.cons_append, List.cons.injEq] at he
      obtain ⟨t', c', rfl, h'⟩ := ih i e he.2
      exact ⟨c :: t', c', rfl, h'⟩

theorem digit_letter {c : UInt8} {d : Nat} (h : Rfc3492.DigitVal c d) (hd : d < 26) : ¬ (0x30 ≤ c.toNat ∧ c.toNat ≤ 0x39) := by
  have key : ∀ d, d < 26 → (∀ c, Rfc3492.lowerAlphabet[d]? = some c → ¬ (0x30 ≤ c.toNat ∧ c.toNat ≤ 0x39)) ∧
      ∀ c, Rfc3492.upperAlphabet[d]? = some c → ¬ (0x30 ≤ c.toNat ∧ c.toNat ≤ 0x39) := by
    have h0 : ∀ d, d < 26 → (Rfc3492.lowerAlphabet[d]?.all fun c => !(decide (0x30 ≤ c.toNat) && decide (c.toNat ≤ 0x39))) = true ∧
        (Rfc3492.upperAlphabet[d]?.all fun c => !(decide (0x30 ≤ c.toNat) && decide (c.toNat ≤ 0x39))) = true := by decide +kernel
    intro d hd
    obtain ⟨h1, h2⟩ := h0 d hd
    exact ⟨fun c hc => by rw [hc] at h1; simp at h1; omega, fun c hc => by rw [hc] at h2; simp at h2; omega⟩
  rcases h with h | h
  · exact (key d hd).1 c h
  · exact (key d hd).2 c h

theorem run_last {bias n i : Nat} {out final : List Nat} {text : Str} (h : Rfc3492.Run bias n i out text final) :
    ∀ t c, text = t ++ [c] → ¬ (0x30 ≤ c.toNat ∧ c.toNat ≤ 0x39) := by
  induction h with
  | done => intro t c e; simp at e
  | @step bias n i out txt rest final ds delta hs hv hr ih =>
    intro t c e
    rcases List.eq_nil_or_concat rest with rfl | ⟨r', c', rfl⟩
    · obtain ⟨init, d, hd, hlt⟩ := vli_last hv
      obtain ⟨t', c', rfl, hdv⟩ := spells_last hs init d hd
      rw [List.append_nil] at e
      have := List.append_inj_right' e rfl
      simp only [List.cons.injEq, and_true] at this
      subst this
      exact digit_letter hdv hlt
    · simp only [List.concat_eq_append] at e ih
      rw [← List.append_assoc] at e
      have := List.append_inj_right' e rfl
      simp only [List.cons.injEq, and_true] at this
      subst this
      exact ih r' c' rfl

/-- **C33**, truncation: no integer ends in a decimal digit (their values, 26 to 35, are not below any threshold), so a text
that does is always rejected. -/
theorem C33_truncated (bidi : Bool) (t : Str) (c : UInt8) (ht : t.length + 3 < szMod) (hc : 0x30 ≤ c.toNat ∧ c.toNat ≤ 0x39) :
    decode bidi (t ++ [c]) = .ok (.error .badInput) ∨ decode bidi (t ++ [c]) = .ok (.error .overflow) := by
  have hl : (t ++ [c]).length + 2 < szMod := by simp; omega
  have fin : ∀ (w : Str) (s : List Nat), Rfc3492.Decodes (w ++ [c]) s → False := by
    rintro w s (⟨-, h⟩ | ⟨lit, ext, e, -, -, -, h⟩)
    · exact run_last h w c rfl hc
    · rcases List.eq_nil_or_concat ext with rfl | ⟨r', c', rfl⟩
      · have := List.append_inj_right' e rfl
        simp only [List.cons.injEq, and_true] at this
        subst this
        revert hc; decide
      · simp only [List.concat_eq_append] at e h
        rw [← List.cons_append, ← List.append_assoc] at e
        have := List.append_inj_right' e rfl
        simp only [List.cons.injEq, and_true] at this
        subst this
        exact run_last h r' c rfl hc
  rcases C32_total bidi (t ++ [c]) hl with h | h | ⟨s, h, -⟩
  · exact Or.inl h
  · exact Or.inr h
  · exfalso
    rcases C32_sound bidi (t ++ [c]) hl s [] h with h | ⟨ext, e, -, h⟩
    · exact fin t s h
    · cases t with
      | nil =>
        simp only [List.nil_append, List.cons.injEq] at e
        obtain ⟨rfl, -⟩ := e
        revert hc; decide
      | cons x t =>
        simp only [List.cons_append, List.cons.injEq] at e
        obtain ⟨-, rfl⟩ := e
        exact fin t s h

example : decode true (b! "bcher-kv5") = .ok (.error .badInput) := by decide +kernel

end Verif
