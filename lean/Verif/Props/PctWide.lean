import Verif.Proofs.PctWide
import Verif.Props.Pct

/-!
# C71: percent coding of text in other character types
-/

set_option linter.unusedSimpArgs false

namespace Verif

open Wide

/-- **C71**, decoding: whatever the character type, decoding through the iterators and through the view succeeds and replaces
exactly the well-formed triplets. -/
theorem C71_decode (s d : List Nat) : (Wide.pctdecode s = .ok d ↔ WideSpec.Decodes s d) ∧ (Wide.pctViewCopy s = .ok d ↔ WideSpec.Decodes s d) := by
  rw [Wide.pctdecode_eq, Wide.pctViewCopy_eq, Wide.decodes_iff]
  constructor <;> exact ⟨fun h => by cases h; rfl, fun h => by rw [h]⟩

/-- **C71**: there always is such a decoding, no longer than the text; without `%` it is the text. -/
theorem C71_decode_total (s : List Nat) : ∃ d, Wide.pctdecode s = .ok d ∧ d.length ≤ s.length ∧ (Wide.needsPctdecode s = false → d = s) := by
  refine ⟨_, Wide.pctdecode_eq s, Wide.decP_length s, fun h => Wide.decP_id fun hm => ?_⟩
  simp only [Wide.needsPctdecode, List.any_eq_false, beq_iff_eq] at h
  exact h _ hm rfl

/-- **C71**, encoding: it looks at, and writes, the low eight bits of a unit alone. -/
theorem C71_encode (s e : List Nat) (es : UInt8) : Wide.pctencode es s = .ok e ↔ WideSpec.Encodes (fun c => needsPctencodeB c es = true) s e := by
  rw [Wide.pctencode_eq, Wide.encodes_iff]
  exact ⟨fun h => by cases h; rfl, fun h => by rw [h]⟩

/-- **C71**: `needs_pctencode` says whether encoding changes the text. -/
theorem C71_needs (s : List Nat) (es : UInt8) : Wide.needsPctencode s es = false ↔ Wide.pctencode es s = .ok s := by
  rw [Wide.pctencode_eq, ← Wide.encP_id_iff]
  exact ⟨fun h => by rw [h], fun h => Except.ok.inj h⟩

/-- **C71**: on text whose units are bytes, both do what they do on bytes. -/
theorem C71_bytes (s : Str) (es : UInt8) :
    (∀ e, pctencode s es = .ok e → Wide.pctencode es (s.map UInt8.toNat) = .ok (e.map UInt8.toNat)) ∧
    (∀ d, pctdecode s = .ok d → Wide.pctdecode (s.map UInt8.toNat) = .ok (d.map UInt8.toNat)) := by
  rw [Wide.pctencode_eq, Wide.pctdecode_eq, Verif.pctencode_eq, Verif.pctdecode_eq, Wide.encP_bytes, Wide.decP_bytes]
  exact ⟨fun e h => by cases h; rfl, fun d h => by cases h; rfl⟩

/-- **C71**: what is left of a text after encoding and decoding: a unit whose low eight bits are in the set has lost all others. -/
theorem C71_left (s : List Nat) (es : UInt8) (h : es ≠ EncSet.none) : ∃ e d, Wide.pctencode es s = .ok e ∧ Wide.pctdecode e = .ok d ∧
    d.length = s.length ∧ ∀ (i : Nat) (c : Nat), s[i]? = some c →
      (needsPctencodeB (UInt8.ofNat (c % 256)) es = true → d[i]? = some (c % 256)) ∧
      (needsPctencodeB (UInt8.ofNat (c % 256)) es = false → d[i]? = some c) := by
  refine ⟨_, _, Wide.pctencode_eq s es, Wide.pctdecode_eq _, ?_, fun i c hc => ?_⟩
  · rw [Wide.decP_encP es s (.inl h)]; simp
  · have e : UInt8.ofNat (c % 256) = UInt8.ofNat c := by apply UInt8.toNat.inj; simp
    rw [Wide.decP_encP es s (.inl h), List.getElem?_map, hc, e]
    exact ⟨fun k => by simp [Wide.kept, Wide.needsUnit, k], fun k => by simp [Wide.kept, Wide.needsUnit, k]⟩

/-- **C71**: so decoding gives back exactly the texts that have no unit above 0xFF with low bits in the set. -/
theorem C71_roundtrip (s : List Nat) (es : UInt8) (h : es ≠ EncSet.none) : (∃ e, Wide.pctencode es s = .ok e ∧ Wide.pctdecode e = .ok s) ↔
    ∀ c ∈ s, 256 ≤ c → needsPctencodeB (UInt8.ofNat (c % 256)) es = false := by
  have e : ∀ c : Nat, UInt8.ofNat (c % 256) = UInt8.ofNat c := fun c => by apply UInt8.toNat.inj; simp
  simp only [e]
  have hk : s.map (Wide.kept es) = s ↔ ∀ c ∈ s, 256 ≤ c → needsPctencodeB (UInt8.ofNat c) es = false := Wide.map_id_iff es s
  rw [← hk, ← Wide.decP_encP es s (.inl h)]
  constructor
  · rintro ⟨x, h1, h2⟩
    rw [Wide.pctencode_eq] at h1; cases h1
    rw [Wide.pctdecode_eq] at h2; exact Except.ok.inj h2
  · intro h1
    exact ⟨_, Wide.pctencode_eq s es, by rw [Wide.pctdecode_eq, h1]⟩

/-- **C71**: what comes out is ASCII exactly if there is no unit above 0x7E that is copied: every one of low bits
outside the set is. -/
theorem C71_ascii (s : List Nat) (es : UInt8) : ∃ e, Wide.pctencode es s = .ok e ∧
    ((∀ c ∈ e, c < 0x80) ↔ ∀ c ∈ s, 0x80 ≤ c → needsPctencodeB (UInt8.ofNat (c % 256)) es = true) := by
  refine ⟨_, Wide.pctencode_eq s es, ?_⟩
  have e : ∀ c : Nat, UInt8.ofNat (c % 256) = UInt8.ofNat c := fun c => by apply UInt8.toNat.inj; simp
  have low : ∀ v, v < 16 → (hexU v).toNat < 0x80 := by decide +kernel
  simp only [Wide.encP, List.mem_flatMap, e]
  constructor
  · intro h c hc h80
    cases hn : needsPctencodeB (UInt8.ofNat c) es with
    | true => rfl
    | false =>
      have := h c ⟨c, hc, by simp [Wide.encU, Wide.needsUnit, hn]⟩
      omega
  · rintro h x ⟨c, hc, hx⟩
    unfold Wide.encU at hx
    split at hx
    · simp only [List.mem_cons, List.not_mem_nil, or_false] at hx
      rcases hx with rfl | rfl | rfl
      · decide
      · exact low _ (by omega)
      · exact low _ (by omega)
    · rename_i hn
      simp only [List.mem_singleton] at hx
      subst hx
      rcases Nat.lt_or_ge x 0x80 with k | k
      · exact k
      · exact absurd (h x hc k) hn

/-- **C71**: U+0120 (G with a dot) becomes `%20`, a space; U+0141 (L with a stroke) is left in the text. -/
theorem C71_counterexample : Wide.pctencode EncSet.component [0x120] = .ok [0x25, 0x32, 0x30] ∧ Wide.pctdecode [0x25, 0x32, 0x30] = .ok [0x20] ∧
    Wide.pctencode EncSet.component [0x141] = .ok [0x141] := by decide +kernel

/-- A text of UTF-16 units for which all is well, and one with a triplet and a wide unit that is decoded. -/
example : ∃ e, Wide.pctencode EncSet.query [0x41, 0x20, 0x25, 0x141] = .ok e ∧ Wide.pctdecode e = .ok [0x41, 0x20, 0x25, 0x141] :=
  (C71_roundtrip _ _ (by decide)).2 (by decide +kernel)
example : Wide.pctdecode [0x3042, 0x25, 0x34, 0x31, 0x25, 0x34, 0x131, 0x25] = .ok [0x3042, 0x41, 0x25, 0x34, 0x131, 0x25] := by decide +kernel

end Verif
