import Verif.Proofs.History

/-!
# UTF transcoding: `well_formed ()` under any sequence of calls (C57)
-/

namespace Verif
open Verif.Unicode Verif.Icu

/-- Any sequence of calls of `operator()` and `end_cp` to a new transcoder from the form `enc` to the form `out` succeeds, and
whatever is called afterwards too; once `well_formed ()` is false it stays false; it is true iff the code units given are a
well-formed text and perhaps the beginning of another sequence, `end_cp` having been called only after well-formed text;
and while it is true, what has been written is exactly the scalar values of that text in the other form, and `partial ()`
is true iff the beginning of a sequence is pending. -/
def FlagIsHonest {ι ο : Type} (T : Transcoder ι ο) (enc : Nat → List ι) (out : Nat → List ο) : Prop :=
  ∀ h : List (Call ι), ∃ st o, calls T T.init h = .ok (st, o) ∧
    (∀ h', ∃ st' o', calls T st h' = .ok (st', o') ∧ (T.wellFormed st' = true → T.wellFormed st = true)) ∧
    (T.wellFormed st = true ↔
      (∃ (cs : List Nat) (p : List ι), (∀ c ∈ cs, Scalar c) ∧ (p = [] ∨ ∃ c q, Scalar c ∧ q ≠ [] ∧ enc c = p ++ q) ∧ given h = cs.flatMap enc ++ p) ∧
      ∀ a b, h = a ++ .endCp :: b → ∃ cs : List Nat, (∀ c ∈ cs, Scalar c) ∧ given a = cs.flatMap enc) ∧
    (T.wellFormed st = true → ∃ (cs : List Nat) (p : List ι), (∀ c ∈ cs, Scalar c) ∧ given h = cs.flatMap enc ++ p ∧ (p = [] ∨ ∃ c q, Scalar c ∧ q ≠ [] ∧ enc c = p ++ q) ∧
      o = cs.flatMap out ∧ (T.isPartial st = true ↔ p ≠ []))

theorem honest_flag {ι ο : Type} {T : Transcoder ι ο} {enc : Nat → List ι} {out : Nat → List ο} {cap : Nat} {Live : List ι → T.σ → Prop} {Dead : T.σ → Prop}
    (H : Honest T enc out cap Live Dead) (F : PrefixFree enc) : FlagIsHonest T enc out := by
  intro h
  obtain ⟨st, o, h1, h2⟩ := H.live F h [] T.init [] [] (by simp) rfl H.init (by simp)
  rw [List.nil_append] at h2
  refine ⟨st, o, h1, ?_, ?_, ?_⟩
  · intro h'
    rcases h2 with ⟨pr, cs, p, k1, k2, k3, k4⟩ | ⟨_, hd⟩
    · obtain ⟨st', o', j1, _⟩ := H.live F h' h st cs p k1 k2 k4 pr.2
      exact ⟨st', o', j1, fun _ => H.liveWf _ _ k4⟩
    · obtain ⟨st', o', j1, j2⟩ := H.dead h' st hd
      refine ⟨st', o', j1, fun e => ?_⟩
      rw [H.deadWf _ j2] at e
      exact absurd e (by simp)
  · rcases h2 with ⟨pr, cs, p, k1, k2, k3, k4⟩ | ⟨np, hd⟩
    · exact ⟨fun _ => pr, fun _ => H.liveWf _ _ k4⟩
    · refine ⟨fun e => ?_, fun e => absurd e np⟩
      rw [H.deadWf _ hd] at e
      exact absurd e (by simp)
  · intro e
    rcases h2 with ⟨pr, cs, p, k1, k2, k3, k4⟩ | ⟨_, hd⟩
    · exact ⟨cs, p, k1, k2, H.liveBegins _ _ k4, by simpa using k3, H.livePartial _ _ k4⟩
    · rw [H.deadWf _ hd] at e
      exact absurd e (by simp)

/-- UTF-32: a scalar value is its own code unit. -/
def utf32 (c : Nat) : List Nat := [c]

theorem C57_utf8_utf32 : FlagIsHonest t8_32 utf8 utf32 := honest_flag honest8_32 prefixFree8
theorem C57_utf16_utf32 : FlagIsHonest t16_32 utf16 utf32 := honest_flag honest16_32 prefixFree16
theorem C57_utf32_utf8 : FlagIsHonest t32_8 utf32 utf8 := honest_flag (simple32_8.honest (fun _ => rfl) utf8_len) prefixFree32
theorem C57_utf32_utf16 : FlagIsHonest t32_16 utf32 utf16 := honest_flag (simple32_16.honest (fun _ => rfl) utf16_len) prefixFree32
theorem C57_utf32_utf32 : FlagIsHonest t32_32 utf32 utf32 :=
  honest_flag (Simple.honest (f := utf32) (cap := 1) simple32_32 (fun _ => rfl) (fun _ => by simp [utf32])) prefixFree32
theorem C57_utf8_utf16 : FlagIsHonest t8_16 utf8 utf16 := honest_flag (tri_honest honest8_32 simple32_16 utf16_len) prefixFree8
theorem C57_utf8_utf8 : FlagIsHonest t8_8 utf8 utf8 := honest_flag (tri_honest honest8_32 simple32_8 utf8_len) prefixFree8
theorem C57_utf16_utf8 : FlagIsHonest t16_8 utf16 utf8 := honest_flag (tri_honest honest16_32 simple32_8 utf8_len) prefixFree16
theorem C57_utf16_utf16 : FlagIsHonest t16_16 utf16 utf16 := honest_flag (tri_honest honest16_32 simple32_16 utf16_len) prefixFree16

/-- After U+00E9 and the first byte of another character all is well; not if `end_cp` is called there. -/
example : ((calls t8_32 t8_32.init [.unit 0xC3, .unit 0xA9, .endCp, .unit 0xC3]).map fun r => (r.1.wf, r.2)) = .ok (true, [0xE9]) ∧
    ((calls t8_32 t8_32.init [.unit 0xC3, .endCp, .unit 0x41]).map fun r => (r.1.wf, r.2)) = .ok (false, [0xFFFD, 0xFFFD]) := by
  decide +kernel

end Verif
