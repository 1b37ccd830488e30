import Verif.Proofs.Icu2

/-!
# UTF transcoding: C40 to C46, C49
-/

set_option linter.unusedSimpArgs false
set_option linter.unusedVariables false

namespace Verif
open Verif.Unicode Verif.Icu

instance : DecidableEq t8_32.σ := inferInstanceAs (DecidableEq St8)
instance : DecidableEq t16_32.σ := inferInstanceAs (DecidableEq St16)

theorem flatMap_fix {α : Type} (f : Nat → List α) : ∀ cs : List Nat, (∀ c ∈ cs, Scalar c) →
    cs.flatMap (fun c => f (if Scalar c then c else 0xFFFD)) = cs.flatMap f := by
  intro cs
  induction cs with
  | nil => intro _; rfl
  | cons c cs ih =>
    intro h
    rw [List.flatMap_cons, List.flatMap_cons, ih (fun d hd => h d (by simp [hd])), if_pos (h c (by simp))]

/-! ### C40: UTF-32 to UTF-8 -/

/-- Every value is written as the UTF-8 form of itself, or of U+FFFD if it is no scalar value;
`well_formed ()` says whether all were. -/
theorem C40_encode (cs : List Nat) : ∃ st, t32_8.run cs = .ok (st, cs.flatMap fun c => utf8 (if Scalar c then c else 0xFFFD)) ∧
    (t32_8.wellFormed st = true ↔ ∀ c ∈ cs, Scalar c) := by
  refine ⟨(cs.all fun c => decide (Scalar c)), (run32to8 cs).trans ?_, ?_⟩
  · rw [List.flatMap_map]; rfl
  · simp [t32_8]

/-- The output is well-formed UTF-8 whatever the input. -/
theorem C40_well_formed (cs : List Nat) : ∃ st out, t32_8.run cs = .ok (st, out) ∧ IsUtf8 out (cs.map fun c => if Scalar c then c else 0xFFFD) := by
  refine ⟨_, _, run32to8 cs, ?_, rfl⟩
  intro c hc
  obtain ⟨d, _, rfl⟩ := List.mem_map.1 hc
  exact fixCp_scalar d

/-- The forms of scalar values are the rows of table 3-7, each of one scalar value only. -/
theorem C40_table (s : Str) : Table37 s ↔ ∃ c, Scalar c ∧ utf8 c = s := table37_iff s

theorem C40_unique {c d : Nat} (hc : Scalar c) (hd : Scalar d) (h : utf8 c = utf8 d) : c = d := by
  have h1 := utf8_shape hc
  rw [h] at h1
  exact shape_inj h1 (utf8_shape hd)

example : (t32_8.run [0x41, 0xE9, 0x20AC, 0x1F600, 0xD800, 0x110000]).map (fun r => (t32_8.wellFormed r.1, r.2)) =
    .ok (false, [0x41, 0xC3, 0xA9, 0xE2, 0x82, 0xAC, 0xF0, 0x9F, 0x98, 0x80, 0xEF, 0xBF, 0xBD, 0xEF, 0xBF, 0xBD]) := by decide +kernel
example : Scalar 0x20AC ∧ ¬ Scalar 0xD800 ∧ ¬ Scalar 0x110000 := by decide

/-! ### C41: UTF-8 to UTF-32 -/

theorem run8 (s : Str) : ∃ st out, t8_32.run s = .ok (st, out) ∧ Reads s out ∧ (t8_32.wellFormed st = true → IsUtf8 s out) := by
  obtain ⟨st', out, st'', e, h1, h2, h3, _, h5⟩ := decode_rest s [] t8_32.init (Or.inl ⟨rfl, rfl⟩)
  exact ⟨st'', out ++ e, run_of_feed h1 h2, by simpa using h3, fun h => by simpa using (h5 h).2⟩

theorem run8_text {s : Str} {cs : List Nat} (h : IsUtf8 s cs) : ∃ st, t8_32.run s = .ok (st, cs) ∧ t8_32.wellFormed st = true := by
  obtain ⟨hc, rfl⟩ := h
  obtain ⟨cp, hf⟩ := feed_text cs hc t8_32.init rfl
  exact ⟨⟨cp, true, 0⟩, (run_of_feed hf (e := []) rfl).trans (by rw [List.append_nil]; rfl), rfl⟩

theorem run8_reads {s : Str} {cs : List Nat} (h : Reads s cs) : ∃ st, t8_32.run s = .ok (st, cs) := by
  obtain ⟨st', out, st'', e, h1, h2, h3⟩ := feed_reads h t8_32.init rfl
  exact ⟨st'', h3 ▸ run_of_feed h1 h2⟩

/-- What is read of a byte string is determined, and is what is written. -/
theorem C41_decode (s : Str) : ∃ st out, t8_32.run s = .ok (st, out) ∧ ∀ cs, Reads s cs ↔ cs = out := by
  obtain ⟨st, out, h1, h2, _⟩ := run8 s
  refine ⟨st, out, h1, fun cs => ⟨fun h => ?_, fun h => h ▸ h2⟩⟩
  obtain ⟨st', h3⟩ := run8_reads h
  exact congrArg Prod.snd (Except.ok.inj (h3.symm.trans h1))

/-- `well_formed ()` says whether the bytes are UTF-8. -/
theorem C41_well_formed (s : Str) : ∃ st out, t8_32.run s = .ok (st, out) ∧ (t8_32.wellFormed st = true ↔ ∃ cs, IsUtf8 s cs) := by
  obtain ⟨st, out, h1, _, h3⟩ := run8 s
  refine ⟨st, out, h1, fun h => ⟨out, h3 h⟩, fun ⟨cs, h⟩ => ?_⟩
  obtain ⟨st', h4, h5⟩ := run8_text h
  have : st' = st := congrArg Prod.fst (Except.ok.inj (h4.symm.trans h1))
  exact this ▸ h5

/-- Then the code points are written. -/
theorem C41_text {s : Str} {cs : List Nat} (h : IsUtf8 s cs) : ∃ st, t8_32.run s = .ok (st, cs) ∧ t8_32.wellFormed st = true := run8_text h

/-- Only scalar values are ever written. -/
theorem C41_scalars (s : Str) : ∃ st out, t8_32.run s = .ok (st, out) ∧ ∀ c ∈ out, Scalar c := by
  obtain ⟨st, out, h1, h2, _⟩ := run8 s
  exact ⟨st, out, h1, reads_scalar h2⟩

example : IsUtf8 [0x41, 0xE2, 0x82, 0xAC] [0x41, 0x20AC] := ⟨by decide, by decide⟩
example : (t8_32.run [0xC0, 0x80, 0x41, 0xED, 0xA0, 0x80, 0xF4, 0x90, 0xE2, 0x82]).map (fun r => (t8_32.wellFormed r.1, r.2)) =
    .ok (false, [0xFFFD, 0xFFFD, 0x41, 0xFFFD, 0xFFFD, 0xFFFD, 0xFFFD]) := by decide +kernel

/-! ### C42: round trips -/

theorem C42_utf32_utf8_utf32 (cs : List Nat) (h : ∀ c ∈ cs, Scalar c) : ∃ st out st', t32_8.run cs = .ok (st, out) ∧ t8_32.run out = .ok (st', cs) ∧
    t32_8.wellFormed st = true ∧ t8_32.wellFormed st' = true := by
  obtain ⟨st, h1, h2⟩ := C40_encode cs
  obtain ⟨st', h3, h4⟩ := run8_text (s := cs.flatMap utf8) ⟨h, rfl⟩
  have e : cs.flatMap (fun c => utf8 (if Scalar c then c else 0xFFFD)) = cs.flatMap utf8 := flatMap_fix _ cs h
  exact ⟨st, _, st', h1, by rw [e]; exact h3, h2.2 h, h4⟩

theorem C42_utf8_utf32_utf8 {s : Str} {cs : List Nat} (h : IsUtf8 s cs) : ∃ st st', t8_32.run s = .ok (st, cs) ∧ t32_8.run cs = .ok (st', s) := by
  obtain ⟨st, h1, _⟩ := run8_text h
  obtain ⟨st1, out, st2, g1, g2, _⟩ := C42_utf32_utf8_utf32 cs h.1
  obtain ⟨st3, g3, _⟩ := C40_encode cs
  refine ⟨st, st1, h1, ?_⟩
  rw [g1]
  have e : cs.flatMap (fun c => utf8 (if Scalar c then c else 0xFFFD)) = cs.flatMap utf8 := flatMap_fix _ cs h.1
  have : out = s := by
    rw [h.2, ← e]
    exact congrArg Prod.snd (Except.ok.inj (g1.symm.trans g3))
  rw [this]

example : ∃ cs : List Nat, cs.length = 4 ∧ ∀ c ∈ cs, Scalar c := ⟨[0, 0x7FF, 0xFFFF, 0x10FFFF], rfl, by decide⟩

/-! ### C43: the decoder stays inside its table -/

/-- Whatever has been fed, the next byte is dealt with: no element of the table out of range is read
(that would be an error), at most one code point is written, and the state is one of eight (a ninth
is only ever taken by `end_cp`). -/
theorem C43_table (s : Str) (b : UInt8) : ∃ st out st' o, t8_32.feed t8_32.init s = .ok (st, out) ∧ t8_32.step st b = .ok (st', o) ∧
    out.length ≤ s.length ∧ o.length ≤ 1 ∧ st'.state ∈ [0, 24, 36, 48, 60, 72, 84, 96] := by
  have key : ∀ (s : Str) (st : St8), (∃ p, At p st) → ∃ st' out, t8_32.feed st s = .ok (st', out) ∧ (∃ p, At p st') ∧ out.length ≤ s.length := by
    intro s
    induction s with
    | nil => intro st h; exact ⟨st, [], rfl, h, Nat.le_refl _⟩
    | cons c s ih =>
      intro st h
      obtain ⟨st', o, st'', e, st3, e3, h1, h2, h3, h4, _⟩ := lawful8_32.step st c h
      obtain ⟨st4, out, g1, g2, g3⟩ := ih st' h2
      refine ⟨st4, o ++ out, feed_cons h1 g1, g2, ?_⟩
      rcases h4 with rfl | ⟨x, rfl⟩ <;> simp <;> omega
  obtain ⟨st, out, h1, h2, h3⟩ := key s t8_32.init ⟨[], Or.inl ⟨rfl, rfl⟩⟩
  obtain ⟨st', o, _, _, _, _, g1, ⟨p, g2⟩, _, g4, _⟩ := lawful8_32.step st b h2
  refine ⟨st, out, st', o, h1, g1, h3, ?_, ?_⟩
  · rcases g4 with rfl | ⟨x, rfl⟩ <;> simp
  · rcases g2 with ⟨_, h⟩ | h
    · rw [h]; simp
    · obtain ⟨l1, l2, l3⟩ := h.live
      unfold Live at l1
      simp only [List.mem_cons, List.not_mem_nil, or_false]
      omega

/-- The field of 21 bits is wide enough: before every byte it holds what the bytes read of the sequence
are worth, so that with one more sequence's bits nothing above bit 20 is lost. -/
theorem C43_width (s : Str) : ∃ st out, t8_32.feed t8_32.init s = .ok (st, out) ∧ (∀ c ∈ out, c < 2 ^ 21) ∧ st.codePoint < 2 ^ 21 := by
  have key : ∀ (s : Str) (st : St8), (∃ p, At p st) → st.codePoint < 2 ^ 21 → ∃ st' out, t8_32.feed st s = .ok (st', out) ∧ (∀ c ∈ out, c < 2 ^ 21) ∧
      st'.codePoint < 2 ^ 21 := by
    intro s
    induction s with
    | nil => intro st h hc; exact ⟨st, [], rfl, by simp, hc⟩
    | cons c s ih =>
      intro st h hc
      obtain ⟨st', o, _, _, _, _, h1, h2, _⟩ := lawful8_32.step st c h
      have h1' : step8to32 st c = .ok (st', o) := h1
      have hw : st'.codePoint < 2 ^ 21 ∧ ∀ x ∈ o, x < 2 ^ 21 := by
        obtain ⟨p, hp⟩ := h
        unfold step8to32 at h1'
        simp only [bind, Except.bind] at h1'
        repeat' split at h1'
        all_goals first
          | (simp at h1'; done)
          | (have e := Except.ok.inj h1'
             have e1 := congrArg Prod.fst e
             have e2 := congrArg Prod.snd e
             simp only at e1 e2
             subst e1 e2
             refine ⟨Nat.mod_lt _ (by decide), ?_⟩
             simp [Nat.mod_lt, replacementChar])
      obtain ⟨st2, out, g1, g2, g3⟩ := ih st' h2 hw.1
      refine ⟨st2, o ++ out, feed_cons h1 g1, ?_, g3⟩
      intro x hx
      rcases List.mem_append.1 hx with hx | hx
      · exact hw.2 x hx
      · exact g2 x hx
  exact key s t8_32.init ⟨[], Or.inl ⟨rfl, rfl⟩⟩ (by decide)

example : (t8_32.feed t8_32.init [0xF4, 0x8F, 0xBF]).map (fun r => r.1.state) = .ok 24 := by decide +kernel

/-! ### C44: UTF-16 -/

theorem C44_encode (cs : List Nat) : ∃ st, t32_16.run cs = .ok (st, cs.flatMap fun c => utf16 (if Scalar c then c else 0xFFFD)) ∧
    (t32_16.wellFormed st = true ↔ ∀ c ∈ cs, Scalar c) := by
  refine ⟨(cs.all fun c => decide (Scalar c)), (run32to16 cs).trans ?_, ?_⟩
  · rw [List.flatMap_map]; rfl
  · simp [t32_16]

theorem run16 (s : List UInt16) : ∃ st out, t16_32.run s = .ok (st, out) ∧ Reads16 s out ∧ (t16_32.wellFormed st = true → IsUtf16 s out) := by
  obtain ⟨st', out, st'', e, h1, h2, h3, h5⟩ := decode16_rest s [] t16_32.init (Or.inl ⟨rfl, rfl⟩)
  exact ⟨st'', out ++ e, run_of_feed h1 h2, by simpa using h3, fun h => by simpa using (h5 h).2⟩

theorem run16_text {s : List UInt16} {cs : List Nat} (h : IsUtf16 s cs) : ∃ st, t16_32.run s = .ok (st, cs) ∧ t16_32.wellFormed st = true := by
  obtain ⟨hc, rfl⟩ := h
  obtain ⟨hi, hf⟩ := feed16_text cs hc t16_32.init rfl
  exact ⟨⟨hi, false, true⟩, (run_of_feed hf (e := []) rfl).trans (by rw [List.append_nil]; rfl), rfl⟩

theorem C44_decode (s : List UInt16) : ∃ st out, t16_32.run s = .ok (st, out) ∧ (∀ cs, Reads16 s cs ↔ cs = out) ∧ (∀ c ∈ out, Scalar c) ∧
    (t16_32.wellFormed st = true ↔ ∃ cs, IsUtf16 s cs) := by
  obtain ⟨st, out, h1, h2, h3⟩ := run16 s
  refine ⟨st, out, h1, fun cs => ⟨fun h => ?_, fun h => h ▸ h2⟩, reads16_scalar h2, fun h => ⟨out, h3 h⟩, fun ⟨cs, h⟩ => ?_⟩
  · obtain ⟨st', o, st'', e, g1, g2, g3⟩ := feed16_reads h t16_32.init rfl
    have := congrArg Prod.snd (Except.ok.inj ((run_of_feed g1 g2).symm.trans h1))
    exact g3.symm.trans this
  · obtain ⟨st', h4, h5⟩ := run16_text h
    have : st' = st := congrArg Prod.fst (Except.ok.inj (h4.symm.trans h1))
    exact this ▸ h5

theorem C44_text {s : List UInt16} {cs : List Nat} (h : IsUtf16 s cs) : ∃ st, t16_32.run s = .ok (st, cs) ∧ t16_32.wellFormed st = true := run16_text h

theorem C44_roundtrip (cs : List Nat) (h : ∀ c ∈ cs, Scalar c) : ∃ st out st', t32_16.run cs = .ok (st, out) ∧ t16_32.run out = .ok (st', cs) := by
  obtain ⟨st, h1, _⟩ := C44_encode cs
  obtain ⟨st', h3, _⟩ := run16_text (s := cs.flatMap utf16) ⟨h, rfl⟩
  have e : cs.flatMap (fun c => utf16 (if Scalar c then c else 0xFFFD)) = cs.flatMap utf16 := flatMap_fix _ cs h
  exact ⟨st, _, st', h1, by rw [e]; exact h3⟩

/-- UTF-8 to UTF-16 (and to UTF-8) is what is read of the bytes, encoded anew. -/
theorem C44_utf8_to (s : Str) : ∃ cs, Reads s cs ∧ (∃ st, t8_16.run s = .ok (st, cs.flatMap utf16) ∧ (t8_16.wellFormed st = true ↔ ∃ cs, IsUtf8 s cs)) ∧
    ∃ st, t8_8.run s = .ok (st, cs.flatMap utf8) ∧ (t8_8.wellFormed st = true ↔ ∃ cs, IsUtf8 s cs) := by
  obtain ⟨st, out, h1, h2, _⟩ := run8 s
  obtain ⟨st', out', h1', h3⟩ := C41_well_formed s
  have e := Except.ok.inj (h1'.symm.trans h1)
  have e1 : st' = st := congrArg Prod.fst e
  have e2 : out' = out := congrArg Prod.snd e
  subst e1 e2
  have hsc := reads_scalar h2
  have hfix : ∀ (f : Nat → List UInt16), out'.flatMap (fun c => f (fixCp c)) = out'.flatMap f := fun f => flatMap_fix f out' hsc
  have hfix8 : ∀ (f : Nat → List UInt8), out'.flatMap (fun c => f (fixCp c)) = out'.flatMap f := fun f => flatMap_fix f out' hsc
  have hall : out'.all (fun c => decide (Scalar c)) = true := by simpa using hsc
  have hQ : ∀ l : List Nat, (l = [] ∨ ∃ c, l = [c]) → l.length ≤ 1 := by
    rintro l (rfl | ⟨c, rfl⟩) <;> simp
  refine ⟨out', h2, ?_, ?_⟩
  · obtain ⟨b, k1, k2⟩ := tri_run lawful8_32 simple32_16 hQ s h1
    refine ⟨(st', b), k1.trans (by rw [hfix]; rfl), ?_⟩
    rw [← h3]
    simp [t8_16, triangulator, k2, hall]
  · obtain ⟨b, k1, k2⟩ := tri_run lawful8_32 simple32_8 hQ s h1
    refine ⟨(st', b), k1.trans (by rw [hfix8]; rfl), ?_⟩
    rw [← h3]
    simp [t8_8, triangulator, k2, hall]

theorem Q16_len (l : List Nat) (h : Q16 l) : l.length ≤ 2 := by
  rcases h with rfl | ⟨c, rfl⟩ | ⟨a, b, rfl, _⟩ <;> simp

/-- UTF-16 to UTF-8 (and to UTF-16) is what is read of the code units, encoded anew. -/
theorem C44_utf16_to (s : List UInt16) : ∃ cs, Reads16 s cs ∧
    (∃ st, t16_8.run s = .ok (st, cs.flatMap utf8) ∧ (t16_8.wellFormed st = true ↔ ∃ cs, IsUtf16 s cs)) ∧
    ∃ st, t16_16.run s = .ok (st, cs.flatMap utf16) ∧ (t16_16.wellFormed st = true ↔ ∃ cs, IsUtf16 s cs) := by
  obtain ⟨st, out, h1, h2, hsc, h3⟩ := C44_decode s
  have h2 := (h2 out).2 rfl
  have hfix : ∀ {α : Type} (f : Nat → List α), out.flatMap (fun c => f (fixCp c)) = out.flatMap f := fun f => flatMap_fix f out hsc
  have hall : out.all (fun c => decide (Scalar c)) = true := by simpa using hsc
  refine ⟨out, h2, ?_, ?_⟩
  · obtain ⟨b, k1, k2⟩ := tri_run lawful16_32 simple32_8 Q16_len s h1
    refine ⟨(st, b), k1.trans (by rw [hfix]; rfl), ?_⟩
    rw [← h3]
    simp [t16_8, triangulator, k2, hall]
  · obtain ⟨b, k1, k2⟩ := tri_run lawful16_32 simple32_16 Q16_len s h1
    refine ⟨(st, b), k1.trans (by rw [hfix]; rfl), ?_⟩
    rw [← h3]
    simp [t16_16, triangulator, k2, hall]

example : IsUtf16 [0x41, 0xD83D, 0xDE00] [0x41, 0x1F600] := ⟨by decide, by decide⟩
example : (t16_32.run [0xD83D, 0x41, 0xDE00, 0xD83D]).map (fun r => (t16_32.wellFormed r.1, r.2)) = .ok (false, [0xFFFD, 0x41, 0xFFFD, 0xFFFD]) := by decide +kernel
example : (t16_8.run [0xD83D, 0xDE00, 0x20AC]).map (fun r => r.2) = .ok [0xF0, 0x9F, 0x98, 0x80, 0xE2, 0x82, 0xAC] := by decide +kernel

/-! ### C45: the lazy view -/

/-- The view yields what the transcoder writes, says the same of the text, and never overruns its
buffer (that would be an error). -/
def ViewAgrees {ι ο : Type} (T : Transcoder ι ο) (cap : Nat) : Prop :=
  ∀ s : List ι, ∃ st out, T.run s = .ok (st, out) ∧ viewRun T cap s = .ok (out, T.wellFormed st)

theorem C45_utf8_utf32 : ViewAgrees t8_32 maxOut32 := lawful8_32.view (by rintro l (rfl | ⟨c, rfl⟩) <;> simp [maxOut32])
theorem C45_utf32_utf8 : ViewAgrees t32_8 maxOut8 :=
  simple32_8.lawful.view (by
    rintro l (rfl | ⟨c, rfl⟩)
    · simp
    · exact utf8_len _)
theorem C45_utf32_utf16 : ViewAgrees t32_16 maxOut16 :=
  simple32_16.lawful.view (by
    rintro l (rfl | ⟨c, rfl⟩)
    · simp
    · exact utf16_len _)
theorem C45_utf32_utf32 : ViewAgrees t32_32 maxOut32 :=
  simple32_32.lawful.view (by rintro l (rfl | ⟨c, rfl⟩) <;> simp [maxOut32])
theorem C45_utf16_utf32 : ViewAgrees t16_32 maxOut16to32 := lawful16_32.view Q16_len

theorem end8_scalars {a : St8} {c : UInt8} {a' : St8} {o : List Nat} {a'' : St8} {e : List Nat} {a3 : St8} {e3 : List Nat}
    (h : t8_32.endCp a'' = .ok (a3, e3)) : e3.all (fun c => decide (Scalar c)) = true := by
  have h : endCp8to32 a'' = .ok (a3, e3) := h
  unfold endCp8to32 at h
  split at h <;> (have e := congrArg Prod.snd (Except.ok.inj h); simp only at e; subst e; decide)

theorem end16_scalars {a'' a3 : St16} {e3 : List Nat}
    (h : t16_32.endCp a'' = .ok (a3, e3)) : e3.all (fun c => decide (Scalar c)) = true := by
  have h : endCp16to32 a'' = .ok (a3, e3) := h
  unfold endCp16to32 at h
  split at h <;> (have e := congrArg Prod.snd (Except.ok.inj h); simp only at e; subst e; decide)

theorem hQ1 : ∀ l : List Nat, (l = [] ∨ ∃ c, l = [c]) → l.length ≤ 1 := by
  rintro l (rfl | ⟨c, rfl⟩) <;> simp

theorem lawful8_16 : Lawful t8_16 (fun l => ∃ m, (fun l => l = [] ∨ ∃ c, l = [c]) m ∧ l = m.flatMap fun c => utf16 (fixCp c)) (fun st => ∃ p, At p st.1) := tri_lawful (cap := 1) lawful8_32 simple32_16 hQ1 (fun a c a' o a'' e a3 e3 _ _ _ h => end8_scalars (a := a) (c := c) (a' := a') (o := o) (e := e) h)
theorem lawful8_8 : Lawful t8_8 (fun l => ∃ m, (fun l => l = [] ∨ ∃ c, l = [c]) m ∧ l = m.flatMap fun c => utf8 (fixCp c)) (fun st => ∃ p, At p st.1) := tri_lawful (cap := 1) lawful8_32 simple32_8 hQ1 (fun a c a' o a'' e a3 e3 _ _ _ h => end8_scalars (a := a) (c := c) (a' := a') (o := o) (e := e) h)
theorem lawful16_8 : Lawful t16_8 (fun l => ∃ m, (Q16) m ∧ l = m.flatMap fun c => utf8 (fixCp c)) (fun st => True) := tri_lawful (cap := 2) lawful16_32 simple32_8 Q16_len (fun a c a' o a'' e a3 e3 _ _ _ h => end16_scalars h)
theorem lawful16_16 : Lawful t16_16 (fun l => ∃ m, (Q16) m ∧ l = m.flatMap fun c => utf16 (fixCp c)) (fun st => True) := tri_lawful (cap := 2) lawful16_32 simple32_16 Q16_len (fun a c a' o a'' e a3 e3 _ _ _ h => end16_scalars h)

theorem C45_utf8_utf16 : ViewAgrees t8_16 maxOut16 :=
  lawful8_16.view (by
    rintro l ⟨m, rfl | ⟨c, rfl⟩, rfl⟩
    · simp
    · simpa [maxOut16] using utf16_len _)
theorem C45_utf8_utf8 : ViewAgrees t8_8 maxOut8 :=
  lawful8_8.view (by
    rintro l ⟨m, rfl | ⟨c, rfl⟩, rfl⟩
    · simp
    · simpa [maxOut8] using utf8_len _)

theorem fixCp_bmp {c : Nat} (h : c < 0x10000) : fixCp c < 0x10000 := by
  unfold fixCp; split <;> omega

theorem C45_utf16_utf8 : ViewAgrees t16_8 maxOut16to8 :=
  lawful16_8.view (by
    rintro l ⟨m, rfl | ⟨c, rfl⟩ | ⟨a, b, rfl, ha, hb⟩, rfl⟩
    · simp
    · have := utf8_len (fixCp c)
      simp [maxOut16to8]; omega
    · have := utf8_len_bmp _ (fixCp_bmp ha)
      have := utf8_len_bmp _ (fixCp_bmp hb)
      simp [maxOut16to8]; omega)
theorem C45_utf16_utf16 : ViewAgrees t16_16 maxOut16 :=
  lawful16_16.view (by
    rintro l ⟨m, rfl | ⟨c, rfl⟩ | ⟨a, b, rfl, ha, hb⟩, rfl⟩
    · simp
    · simpa [maxOut16] using utf16_len _
    · have := utf16_len_bmp _ (fixCp_bmp ha)
      have := utf16_len_bmp _ (fixCp_bmp hb)
      simp [maxOut16]; omega)

example : viewRun t16_8 maxOut16to8 [0xD83D, 0xD83D, 0x41, 0xD83D, 0xDE00] =
    .ok ([0xEF, 0xBF, 0xBD, 0xEF, 0xBF, 0xBD, 0x41, 0xF0, 0x9F, 0x98, 0x80], false) := by decide +kernel
example : viewRun t8_32 maxOut32 [0x41, 0xE2, 0x82] = .ok ([0x41, 0xFFFD], false) := by decide +kernel

/-- For bytes of unknown encoding the view does not agree: the two bytes FE 41 make it write two code
points into a buffer of one; a byte order mark alone leaves it at an element that is not there. -/
theorem C45_bytes_false : ¬ ViewAgrees tx_32 maxOut32 ∧ ¬ ViewAgrees tx_8 maxOut8 ∧ ¬ ViewAgrees tx_16 maxOut16 := by
  refine ⟨fun h => ?_, fun h => ?_, fun h => ?_⟩
  · obtain ⟨st, out, _, h⟩ := h [0xFE, 0x41]
    exact absurd (h.symm.trans (show viewRun tx_32 maxOut32 [0xFE, 0x41] = .error .assertion by decide +kernel)) (by simp)
  · obtain ⟨st, out, _, h⟩ := h [0xFE, 0xFE]
    exact absurd (h.symm.trans (show viewRun tx_8 maxOut8 [0xFE, 0xFE] = .error .assertion by decide +kernel)) (by simp)
  · obtain ⟨st, out, _, h⟩ := h [0xFF, 0xFE, 0x00, 0x41]
    exact absurd (h.symm.trans (show viewRun tx_16 maxOut16 [0xFF, 0xFE, 0x00, 0x41] = .error .assertion by decide +kernel)) (by simp)

theorem C45_bom_only_false : viewRun tx_32 maxOut32 [0xEF, 0xBB, 0xBF] = .error .assertion := by decide +kernel

/-! ### C46: bytes with or without a byte order mark -/

section
variable {ο : Type} {T8 : Transcoder UInt8 ο} {T16 : Transcoder UInt16 ο} {T32 : Transcoder Nat ο}

theorem run_split {ι : Type} {T : Transcoder ι ο} {s : List ι} {st : T.σ} {out : List ο} (h : T.run s = .ok (st, out)) :
    ∃ st' o e, T.feed T.init s = .ok (st', o) ∧ T.endCp st' = .ok (st, e) ∧ out = o ++ e := by
  simp only [Transcoder.run, bind, Except.bind] at h
  split at h
  · simp at h
  · rename_i w hw
    split at h
    · simp at h
    · rename_i x hx
      have h := Except.ok.inj h
      have e1 : x.1 = st := congrArg Prod.fst h
      have e2 : w.2 ++ x.2 = out := congrArg Prod.snd h
      subst e1 e2
      exact ⟨w.1, w.2, x.2, hw, hx, rfl⟩

theorem endX_8 {s : States} {buf : Str} {t t' : T8.σ} {e : List ο} (h : T8.endCp t = .ok (t', e)) :
    (tX T8 T16 T32).endCp ⟨s, buf, .v8 t⟩ = .ok (⟨s, buf, .v8 t'⟩, e) := by
  show endCpX (T8 := T8) (T16 := T16) (T32 := T32) ⟨s, buf, .v8 t⟩ = Except.ok (⟨s, buf, .v8 t'⟩, e)
  simp only [endCpX, h, bind, Except.bind]
theorem endX_16 {s : States} {buf : Str} {t t' : T16.σ} {e : List ο} (h : T16.endCp t = .ok (t', e)) :
    (tX T8 T16 T32).endCp ⟨s, buf, .v16 t⟩ = .ok (⟨s, buf, .v16 t'⟩, e) := by
  show endCpX (T8 := T8) (T16 := T16) (T32 := T32) ⟨s, buf, .v16 t⟩ = Except.ok (⟨s, buf, .v16 t'⟩, e)
  simp only [endCpX, h, bind, Except.bind]
theorem endX_32 {s : States} {buf : Str} {t t' : T32.σ} {e : List ο} (h : T32.endCp t = .ok (t', e)) :
    (tX T8 T16 T32).endCp ⟨s, buf, .v32 t⟩ = .ok (⟨s, buf, .v32 t'⟩, e) := by
  show endCpX (T8 := T8) (T16 := T16) (T32 := T32) ⟨s, buf, .v32 t⟩ = Except.ok (⟨s, buf, .v32 t'⟩, e)
  simp only [endCpX, h, bind, Except.bind]

/-- The byte transcoder converts the bytes `b` like `U` converts `u`, and names the encoding `enc`. -/
def Converts {ι : Type} (T8 : Transcoder UInt8 ο) (T16 : Transcoder UInt16 ο) (T32 : Transcoder Nat ο) (b : Str) (U : Transcoder ι ο) (u : List ι)
    (enc : Encoding) : Prop :=
  ∀ st out, U.run u = .ok (st, out) → ∃ stx, (tX T8 T16 T32).run b = .ok (stx, out) ∧ (tX T8 T16 T32).wellFormed stx = U.wellFormed st ∧
    selectedEncoding (T8 := T8) (T16 := T16) (T32 := T32) stx = .ok enc

/-- The encoding named for each of the five states that the transcoder rests in while it runs. -/
theorem enc_run8 (buf : Str) (v) : selectedEncoding (T8 := T8) (T16 := T16) (T32 := T32) ⟨.run_8, buf, v⟩ = .ok .utf8 := by
  simp only [selectedEncoding, show isRunMode .run_8 = true by decide +kernel, show (States.run_8.code >>> 4) &&& 3 = 2 by decide +kernel, if_true]
  rfl
theorem enc_run16be (buf : Str) (v) : selectedEncoding (T8 := T8) (T16 := T16) (T32 := T32) ⟨.run_16be_byte0, buf, v⟩ = .ok .utf16be := by
  simp only [selectedEncoding, show isRunMode .run_16be_byte0 = true by decide +kernel,
    show (States.run_16be_byte0.code >>> 4) &&& 3 = 0 by decide +kernel, show isLittleEndian .run_16be_byte0 = false by decide +kernel, if_true]
  rfl
theorem enc_run16le (buf : Str) (v) : selectedEncoding (T8 := T8) (T16 := T16) (T32 := T32) ⟨.run_16le_byte0, buf, v⟩ = .ok .utf16le := by
  simp only [selectedEncoding, show isRunMode .run_16le_byte0 = true by decide +kernel,
    show (States.run_16le_byte0.code >>> 4) &&& 3 = 0 by decide +kernel, show isLittleEndian .run_16le_byte0 = true by decide +kernel, if_true]
  rfl
theorem enc_run32be (buf : Str) (v) : selectedEncoding (T8 := T8) (T16 := T16) (T32 := T32) ⟨.run_32be_byte0, buf, v⟩ = .ok .utf32be := by
  simp only [selectedEncoding, show isRunMode .run_32be_byte0 = true by decide +kernel,
    show (States.run_32be_byte0.code >>> 4) &&& 3 = 1 by decide +kernel, show isLittleEndian .run_32be_byte0 = false by decide +kernel, if_true]
  rfl
theorem enc_run32le (buf : Str) (v) : selectedEncoding (T8 := T8) (T16 := T16) (T32 := T32) ⟨.run_32le_byte0, buf, v⟩ = .ok .utf32le := by
  simp only [selectedEncoding, show isRunMode .run_32le_byte0 = true by decide +kernel,
    show (States.run_32le_byte0.code >>> 4) &&& 3 = 1 by decide +kernel, show isLittleEndian .run_32le_byte0 = true by decide +kernel, if_true]
  rfl

/-- A UTF-8 byte order mark. -/
theorem convert_bom8 (s : Str) : Converts T8 T16 T32 ([0xEF, 0xBB, 0xBF] ++ s) T8 s .utf8 := by
  intro st out h
  obtain ⟨t, o, e, h1, h2, rfl⟩ := run_split h
  exact ⟨_, run_of_feed (feed_append (o := []) bom_8 (feedX_8 s _ _ _ _ h1)) (endX_8 h2), rfl, enc_run8 _ _⟩

theorem convert_bom16be (us : List UInt16) : Converts T8 T16 T32 ([0xFE, 0xFF] ++ us.flatMap (bytes16 true)) T16 us .utf16be := by
  intro st out h
  obtain ⟨t, o, e, h1, h2, rfl⟩ := run_split h
  obtain ⟨buf, _, h3⟩ := feedX_16 (T8 := T8) (T32 := T32) true us [0xFE, 0xFF, 0, 0] _ _ _ ⟨_, _, _, _, rfl⟩ h1
  exact ⟨_, run_of_feed (feed_append (o := []) bom_16be h3) (endX_16 h2), rfl, enc_run16be _ _⟩

theorem convert_bom32be (us : List Nat) (hu : ∀ u ∈ us, u < 2 ^ 32) : Converts T8 T16 T32 ([0, 0, 0xFE, 0xFF] ++ us.flatMap (bytes32 true)) T32 us .utf32be := by
  intro st out h
  obtain ⟨t, o, e, h1, h2, rfl⟩ := run_split h
  obtain ⟨buf, _, h3⟩ := feedX_32 (T8 := T8) (T16 := T16) true us hu [0, 0, 0xFE, 0xFF] _ _ _ ⟨_, _, _, _, rfl⟩ (by simpa using h1)
  exact ⟨_, run_of_feed (feed_append (o := []) bom_32be h3) (endX_32 h2), rfl, enc_run32be _ _⟩

theorem convert_bom32le (us : List Nat) (hu : ∀ u ∈ us, u < 2 ^ 32) :
    Converts T8 T16 T32 ([0xFF, 0xFE, 0, 0] ++ us.flatMap (bytes32 false)) T32 (us.map (· % 2 ^ 24)) .utf32le := by
  intro st out h
  obtain ⟨t, o, e, h1, h2, rfl⟩ := run_split h
  obtain ⟨buf, _, h3⟩ := feedX_32 (T8 := T8) (T16 := T16) false us hu [0xFF, 0xFE, 0, 0] _ _ _ ⟨_, _, _, _, rfl⟩ h1
  exact ⟨_, run_of_feed (feed_append (o := []) bom_32le h3) (endX_32 h2), rfl, enc_run32le _ _⟩

theorem convert_bom16le (u : UInt16) (us : List UInt16) (hu : u.toNat % 0x100 ≠ 0) :
    Converts T8 T16 T32 ([0xFF, 0xFE] ++ (u :: us).flatMap (bytes16 false)) T16 (u :: us) .utf16le := by
  intro st out h
  obtain ⟨t, o, e, h1, h2, rfl⟩ := run_split h
  obtain ⟨t1, o1, os, h3, h4, rfl⟩ := feed_split h1
  have hne : UInt8.ofNat (u.toNat % 0x100) ≠ 0 := by
    intro e
    have := congrArg UInt8.toNat e
    rw [toNat_ofNat_lt (by omega)] at this
    exact hu this
  have hs := bom_16le (T8 := T8) (T16 := T16) (T32 := T32) _ hne
  have h5 : (tX T8 T16 T32).step ⟨.run_16le_byte1, [UInt8.ofNat (u.toNat % 0x100), 0xFE, 0, 0], .v16 T16.init⟩ (UInt8.ofNat (u.toNat / 0x100)) =
      .ok (⟨.run_16le_byte0, [UInt8.ofNat (u.toNat % 0x100), 0xFE, 0, 0], .v16 t1⟩, o1) := by
    show stepX (T8 := T8) (T16 := T16) (T32 := T32) ⟨.run_16le_byte1, [UInt8.ofNat (u.toNat % 0x100), 0xFE, 0, 0], .v16 T16.init⟩ (UInt8.ofNat (u.toNat / 0x100)) =
      Except.ok (⟨.run_16le_byte0, [UInt8.ofNat (u.toNat % 0x100), 0xFE, 0, 0], .v16 t1⟩, o1)
    have e : (States.run_16le_byte1 == States.run_16be_byte1) = false := by decide +kernel
    simp only [stepX, Icu.run16, char16From, bufGet, List.getElem?_cons_zero, bind, Except.bind, e, Bool.false_eq_true, if_false, u16_of_bytes u, h3,
      show setByte .run_16le_byte1 0 = .ok .run_16le_byte0 from rfl]
    rfl
  obtain ⟨buf, _, h6⟩ := feedX_16 (T8 := T8) (T32 := T32) false us [UInt8.ofNat (u.toNat % 0x100), 0xFE, 0, 0] _ _ _ ⟨_, _, _, _, rfl⟩ h4
  have h7 := feed_append (o := []) hs (feed_cons h5 h6)
  exact ⟨_, run_of_feed h7 (endX_16 h2), rfl, enc_run16le _ _⟩

theorem convert_none {I8 : T8.σ → Prop} (L8 : Total T8 I8) {s : Str} (h : NoBom s) : Converts T8 T16 T32 s T8 s .utf8 := by
  intro st out hr
  obtain ⟨t, o, e, h1, h2, rfl⟩ := run_split hr
  obtain ⟨buf, h3⟩ := noBom_feed (T16 := T16) (T32 := T32) L8 h h1
  exact ⟨_, run_of_feed h3 (endX_8 h2), rfl, enc_run8 _ _⟩

end

/-- The state machine never fails: no byte is written outside its buffer of four, nothing read outside
the table of byte order marks, and no state is left that is not one of its own. -/
theorem C46_total (s : Str) : (∃ r, tx_8.run s = .ok r) ∧ (∃ r, tx_16.run s = .ok r) ∧ ∃ r, tx_32.run s = .ok r := by
  refine ⟨?_, ?_, ?_⟩
  · obtain ⟨a, b, h⟩ := (totalX lawful8_8.total lawful16_8.total simple32_8.lawful.total).run s
    exact ⟨_, h⟩
  · obtain ⟨a, b, h⟩ := (totalX lawful8_16.total lawful16_16.total simple32_16.lawful.total).run s
    exact ⟨_, h⟩
  · obtain ⟨a, b, h⟩ := (totalX lawful8_32.total lawful16_32.total simple32_32.lawful.total).run s
    exact ⟨_, h⟩

/-- After a UTF-8 byte order mark, the rest is UTF-8. -/
theorem C46_utf8_bom (s : Str) : Converts t8_8 t16_8 t32_8 ([0xEF, 0xBB, 0xBF] ++ s) t8_8 s .utf8 ∧
    Converts t8_16 t16_16 t32_16 ([0xEF, 0xBB, 0xBF] ++ s) t8_16 s .utf8 ∧ Converts t8_32 t16_32 t32_32 ([0xEF, 0xBB, 0xBF] ++ s) t8_32 s .utf8 :=
  ⟨convert_bom8 s, convert_bom8 s, convert_bom8 s⟩

/-- After a UTF-16 (big endian) byte order mark, the rest is UTF-16 (big endian). -/
theorem C46_utf16be_bom (us : List UInt16) : Converts t8_8 t16_8 t32_8 ([0xFE, 0xFF] ++ us.flatMap (bytes16 true)) t16_8 us .utf16be ∧
    Converts t8_16 t16_16 t32_16 ([0xFE, 0xFF] ++ us.flatMap (bytes16 true)) t16_16 us .utf16be ∧
    Converts t8_32 t16_32 t32_32 ([0xFE, 0xFF] ++ us.flatMap (bytes16 true)) t16_32 us .utf16be :=
  ⟨convert_bom16be us, convert_bom16be us, convert_bom16be us⟩

/-- After a UTF-32 (big endian) byte order mark, the rest is UTF-32 (big endian). -/
theorem C46_utf32be_bom (us : List Nat) (hu : ∀ u ∈ us, u < 2 ^ 32) :
    Converts t8_8 t16_8 t32_8 ([0, 0, 0xFE, 0xFF] ++ us.flatMap (bytes32 true)) t32_8 us .utf32be ∧
    Converts t8_16 t16_16 t32_16 ([0, 0, 0xFE, 0xFF] ++ us.flatMap (bytes32 true)) t32_16 us .utf32be ∧
    Converts t8_32 t16_32 t32_32 ([0, 0, 0xFE, 0xFF] ++ us.flatMap (bytes32 true)) t32_32 us .utf32be :=
  ⟨convert_bom32be us hu, convert_bom32be us hu, convert_bom32be us hu⟩

/-- After a UTF-32 (little endian) byte order mark, the rest is UTF-32 (little endian), provided that
no code unit has any of its upper eight bits set. -/
theorem C46_utf32le_bom (us : List Nat) (hu : ∀ u ∈ us, u < 2 ^ 24) :
    Converts t8_8 t16_8 t32_8 ([0xFF, 0xFE, 0, 0] ++ us.flatMap (bytes32 false)) t32_8 us .utf32le ∧
    Converts t8_16 t16_16 t32_16 ([0xFF, 0xFE, 0, 0] ++ us.flatMap (bytes32 false)) t32_16 us .utf32le ∧
    Converts t8_32 t16_32 t32_32 ([0xFF, 0xFE, 0, 0] ++ us.flatMap (bytes32 false)) t32_32 us .utf32le := by
  have e : us.map (· % 2 ^ 24) = us := by
    exact (List.map_congr_left (g := id) (fun u h => Nat.mod_eq_of_lt (hu u h))).trans (List.map_id us)
  have h' : ∀ u ∈ us, u < 2 ^ 32 := fun u h => Nat.lt_trans (hu u h) (by decide)
  refine ⟨?_, ?_, ?_⟩
  · have := convert_bom32le (T8 := t8_8) (T16 := t16_8) (T32 := t32_8) us h'
    rwa [e] at this
  · have := convert_bom32le (T8 := t8_16) (T16 := t16_16) (T32 := t32_16) us h'
    rwa [e] at this
  · have := convert_bom32le (T8 := t8_32) (T16 := t16_32) (T32 := t32_32) us h'
    rwa [e] at this

/-- After a UTF-16 (little endian) byte order mark, the rest is UTF-16 (little endian), provided that
there is some and that the lower byte of the first code unit is not 0. -/
theorem C46_utf16le_bom (u : UInt16) (us : List UInt16) (hu : u.toNat % 0x100 ≠ 0) :
    Converts t8_8 t16_8 t32_8 ([0xFF, 0xFE] ++ (u :: us).flatMap (bytes16 false)) t16_8 (u :: us) .utf16le ∧
    Converts t8_16 t16_16 t32_16 ([0xFF, 0xFE] ++ (u :: us).flatMap (bytes16 false)) t16_16 (u :: us) .utf16le ∧
    Converts t8_32 t16_32 t32_32 ([0xFF, 0xFE] ++ (u :: us).flatMap (bytes16 false)) t16_32 (u :: us) .utf16le :=
  ⟨convert_bom16le u us hu, convert_bom16le u us hu, convert_bom16le u us hu⟩

/-- The byte order marks. -/
def allBoms : List Str := [[0xEF, 0xBB, 0xBF], [0xFE, 0xFF], [0xFF, 0xFE], [0, 0, 0xFE, 0xFF]]

theorem noBom_of {s : Str} (h1 : ∀ b ∈ allBoms, ¬ b <+: s) (h2 : ∀ b ∈ allBoms, ¬ s <+: b) : NoBom s := by
  have p1 := h1 [0xEF, 0xBB, 0xBF] (by simp [allBoms])
  have p2 := h1 [0xFE, 0xFF] (by simp [allBoms])
  have p3 := h1 [0xFF, 0xFE] (by simp [allBoms])
  have p4 := h1 [0, 0, 0xFE, 0xFF] (by simp [allBoms])
  have q1 := h2 [0xEF, 0xBB, 0xBF] (by simp [allBoms])
  have q2 := h2 [0xFE, 0xFF] (by simp [allBoms])
  have q3 := h2 [0xFF, 0xFE] (by simp [allBoms])
  have q4 := h2 [0, 0, 0xFE, 0xFF] (by simp [allBoms])
  cases s with
  | nil => exact absurd (List.nil_prefix) q1
  | cons a s =>
    by_cases ha : a = 0xEF
    · subst ha
      cases s with
      | nil => exact absurd ⟨_, rfl⟩ q1
      | cons b s =>
        by_cases hb : b = 0xBB
        · subst hb
          cases s with
          | nil => exact absurd ⟨_, rfl⟩ q1
          | cons c s => exact .efbb (fun hc => p1 (by subst hc; exact ⟨s, rfl⟩))
        · exact .ef hb
    by_cases ha : a = 0xFE
    · subst ha
      cases s with
      | nil => exact absurd ⟨_, rfl⟩ q2
      | cons b s => exact .fe (fun hc => p2 (by subst hc; exact ⟨s, rfl⟩))
    by_cases ha : a = 0xFF
    · subst ha
      cases s with
      | nil => exact absurd ⟨_, rfl⟩ q3
      | cons b s => exact .ff (fun hc => p3 (by subst hc; exact ⟨s, rfl⟩))
    by_cases ha : a = 0
    · subst ha
      cases s with
      | nil => exact absurd ⟨_, rfl⟩ q4
      | cons b s =>
        by_cases hb : b = 0
        · subst hb
          cases s with
          | nil => exact absurd ⟨_, rfl⟩ q4
          | cons c s =>
            by_cases hc : c = 0xFE
            · subst hc
              cases s with
              | nil => exact absurd ⟨_, rfl⟩ q4
              | cons d s => exact .zzfe (fun hc => p4 (by subst hc; exact ⟨s, rfl⟩))
            · exact .zz hc
        · exact .z hb
    exact .first (by assumption) (by assumption) (by assumption) (by assumption)

/-- Bytes that begin with no byte order mark are UTF-8, unless they end within one. -/
theorem C46_no_bom (s : Str) (h1 : ∀ b ∈ allBoms, ¬ b <+: s) (h2 : ∀ b ∈ allBoms, ¬ s <+: b) :
    Converts t8_8 t16_8 t32_8 s t8_8 s .utf8 ∧ Converts t8_16 t16_16 t32_16 s t8_16 s .utf8 ∧ Converts t8_32 t16_32 t32_32 s t8_32 s .utf8 := by
  have h := noBom_of h1 h2
  exact ⟨convert_none lawful8_8.total h, convert_none lawful8_16.total h, convert_none lawful8_32.total h⟩

/-- The cases of a byte string. -/
theorem classify (s : Str) : s = [] ∨ (∃ st, WithinMark s st) ∨ NoBom s ∨ (∃ t, s = 0xEF :: 0xBB :: 0xBF :: t) ∨ (∃ t, s = 0xFE :: 0xFF :: t) ∨
    (∃ t, s = 0 :: 0 :: 0xFE :: 0xFF :: t) ∨ (∃ t, s = 0xFF :: 0xFE :: 0 :: 0 :: t) ∨ ∃ v t, v ≠ 0 ∧ s = 0xFF :: 0xFE :: v :: t := by
  cases s with
  | nil => exact Or.inl rfl
  | cons a s =>
    by_cases ha : a = 0xEF
    · subst ha
      cases s with
      | nil => exact Or.inr (Or.inl ⟨_, .ef⟩)
      | cons b s =>
        by_cases hb : b = 0xBB
        · subst hb
          cases s with
          | nil => exact Or.inr (Or.inl ⟨_, .efbb⟩)
          | cons c s =>
            by_cases hc : c = 0xBF
            · subst hc; exact Or.inr (Or.inr (Or.inr (Or.inl ⟨_, rfl⟩)))
            · exact Or.inr (Or.inr (Or.inl (.efbb hc)))
        · exact Or.inr (Or.inr (Or.inl (.ef hb)))
    by_cases ha : a = 0xFE
    · subst ha
      cases s with
      | nil => exact Or.inr (Or.inl ⟨_, .fe⟩)
      | cons b s =>
        by_cases hb : b = 0xFF
        · subst hb; exact Or.inr (Or.inr (Or.inr (Or.inr (Or.inl ⟨_, rfl⟩))))
        · exact Or.inr (Or.inr (Or.inl (.fe hb)))
    by_cases ha : a = 0xFF
    · subst ha
      cases s with
      | nil => exact Or.inr (Or.inl ⟨_, .ff⟩)
      | cons b s =>
        by_cases hb : b = 0xFE
        · subst hb
          cases s with
          | nil => exact Or.inr (Or.inl ⟨_, .fffe⟩)
          | cons c s =>
            by_cases hc : c = 0
            · subst hc
              cases s with
              | nil => exact Or.inr (Or.inl ⟨_, .fffez⟩)
              | cons d s =>
                by_cases hd : d = 0
                · subst hd; exact Or.inr (Or.inr (Or.inr (Or.inr (Or.inr (Or.inr (Or.inl ⟨_, rfl⟩))))))
                · exact Or.inr (Or.inr (Or.inl (.fffez hd)))
            · exact Or.inr (Or.inr (Or.inr (Or.inr (Or.inr (Or.inr (Or.inr ⟨_, _, hc, rfl⟩))))))
        · exact Or.inr (Or.inr (Or.inl (.ff hb)))
    by_cases ha : a = 0
    · subst ha
      cases s with
      | nil => exact Or.inr (Or.inl ⟨_, .z⟩)
      | cons b s =>
        by_cases hb : b = 0
        · subst hb
          cases s with
          | nil => exact Or.inr (Or.inl ⟨_, .zz⟩)
          | cons c s =>
            by_cases hc : c = 0xFE
            · subst hc
              cases s with
              | nil => exact Or.inr (Or.inl ⟨_, .zzfe⟩)
              | cons d s =>
                by_cases hd : d = 0xFF
                · subst hd; exact Or.inr (Or.inr (Or.inr (Or.inr (Or.inr (Or.inl ⟨_, rfl⟩)))))
                · exact Or.inr (Or.inr (Or.inl (.zzfe hd)))
            · exact Or.inr (Or.inr (Or.inl (.zz hc)))
        · exact Or.inr (Or.inr (Or.inl (.z hb)))
    exact Or.inr (Or.inr (Or.inl (.first (by assumption) (by assumption) (by assumption) (by assumption))))

theorem built_within {s : Str} {st : States} (h : WithinMark s st) : contentBuilt s = .utf8 (s ++ [0]) := by
  cases h <;> decide +kernel
theorem built_none {s : Str} (h : NoBom s) : contentBuilt s = .utf8 s ∧ (contentStd s = .utf8 s ∨ [0xFF, 0xFE, 0] <+: s) := by
  cases h with
  | first h1 h2 h3 h4 =>
    simp [contentBuilt, contentStd, marks, List.cons_prefix_cons, h1, h2, h3, h4, Ne.symm h1, Ne.symm h2, Ne.symm h3, Ne.symm h4]
  | _ h1 => simp [contentBuilt, contentStd, marks, List.cons_prefix_cons, h1, Ne.symm h1]
theorem built_8 (t : Str) : contentBuilt (0xEF :: 0xBB :: 0xBF :: t) = .utf8 t ∧ contentStd (0xEF :: 0xBB :: 0xBF :: t) = .utf8 t := by
  simp [contentBuilt, contentStd, List.cons_prefix_cons]
theorem built_16be (t : Str) : contentBuilt (0xFE :: 0xFF :: t) = .utf16 true (units16 true t) ∧ contentStd (0xFE :: 0xFF :: t) = .utf16 true (units16 true t) := by
  simp [contentBuilt, contentStd, List.cons_prefix_cons]
theorem built_32be (t : Str) : contentBuilt (0 :: 0 :: 0xFE :: 0xFF :: t) = .utf32 true (units32 true t) ∧
    contentStd (0 :: 0 :: 0xFE :: 0xFF :: t) = .utf32 true (units32 true t) := by
  simp [contentBuilt, contentStd, List.cons_prefix_cons]
theorem built_32le (t : Str) : contentBuilt (0xFF :: 0xFE :: 0 :: 0 :: t) = .utf32 false ((units32 false t).map (· % 0x1000000)) ∧
    contentStd (0xFF :: 0xFE :: 0 :: 0 :: t) = .utf32 false (units32 false t) := by
  simp [contentBuilt, contentStd, List.cons_prefix_cons]
theorem built_16le (v : UInt8) (t : Str) (h : v ≠ 0) : contentBuilt (0xFF :: 0xFE :: v :: t) = .utf16 false (units16 false (v :: t)) ∧
    contentStd (0xFF :: 0xFE :: v :: t) = .utf16 false (units16 false (v :: t)) := by
  simp [contentBuilt, contentStd, List.cons_prefix_cons, h, Ne.symm h]

/-- The byte transcoder delivers what the conversion from the encoding of `k` makes of the code units in `k`; it agrees with
it whether they are well-formed, and names that encoding. -/
def Delivers {ο : Type} (T8 : Transcoder UInt8 ο) (T16 : Transcoder UInt16 ο) (T32 : Transcoder Nat ο) (s : Str) : Content → Prop
  | .utf8 u => Converts T8 T16 T32 s T8 u .utf8
  | .utf16 big us => Converts T8 T16 T32 s T16 us (if big then .utf16be else .utf16le)
  | .utf32 big us => Converts T8 T16 T32 s T32 us (if big then .utf32be else .utf32le)

section
variable {ο : Type} {T8 : Transcoder UInt8 ο} {T16 : Transcoder UInt16 ο} {T32 : Transcoder Nat ο}

theorem enc_runs16 {s : States} (h : Runs16 s) (big : Bool) (hl : isLittleEndian s = !big) (buf : Str) (v) :
    selectedEncoding (T8 := T8) (T16 := T16) (T32 := T32) ⟨s, buf, v⟩ = .ok (if big then .utf16be else .utf16le) := by
  have h1 : isRunMode s = true ∧ (s.code >>> 4) &&& 3 = 0 := by
    rcases h with rfl | rfl | rfl | rfl <;> decide +kernel
  simp only [selectedEncoding, h1.1, h1.2, hl, if_true]
  cases big <;> rfl
theorem enc_runs32 {s : States} (h : Runs32 s) (big : Bool) (hl : isLittleEndian s = !big) (buf : Str) (v) :
    selectedEncoding (T8 := T8) (T16 := T16) (T32 := T32) ⟨s, buf, v⟩ = .ok (if big then .utf32be else .utf32le) := by
  have h1 : isRunMode s = true ∧ (s.code >>> 4) &&& 3 = 1 := by
    rcases h with rfl | rfl | rfl | rfl | rfl | rfl | rfl | rfl <;> decide +kernel
  simp only [selectedEncoding, h1.1, h1.2, hl, if_true]
  cases big <;> rfl

theorem deliver {I8 : T8.σ → Prop} (L8 : Total T8 I8)
    (hz : ∀ p st, WithinMark p st → ∀ t o, T8.feed T8.init (p ++ [0]) = .ok (t, o) → ∀ t' e, T8.endCp t = .ok (t', e) → e = [] ∧ T8.wellFormed t' = T8.wellFormed t)
    (he : T8.endCp T8.init = .ok (T8.init, [])) (s : Str) : Delivers T8 T16 T32 s (contentBuilt s) := by
  rcases classify s with rfl | ⟨w, hw⟩ | h | ⟨t, rfl⟩ | ⟨t, rfl⟩ | ⟨t, rfl⟩ | ⟨t, rfl⟩ | ⟨v, t, hv, rfl⟩
  · have : contentBuilt [] = .utf8 [] := by decide +kernel
    rw [this]
    intro st out h
    have h := Except.ok.inj ((run_of_feed (s := []) (o := []) (e := []) rfl he).symm.trans h)
    have e1 : T8.init = st := congrArg Prod.fst h
    have e2 : [] = out := congrArg Prod.snd h
    subst e1 e2
    have hE : (tX T8 T16 T32).endCp (tX T8 T16 T32).init = .ok (⟨.run_8, [0, 0, 0, 0], .v8 T8.init⟩, []) := by
      show endCpX (T8 := T8) (T16 := T16) (T32 := T32) ⟨.start, [0, 0, 0, 0], .mono⟩ = Except.ok (⟨.run_8, [0, 0, 0, 0], .v8 T8.init⟩, [])
      simp only [endCpX, run8Start, show (States.start != States.start) = false by decide, show isRunMode .start = false by decide,
        Bool.false_eq_true, if_false, Bool.false_and, bind, Except.bind]
    exact ⟨⟨.run_8, [0, 0, 0, 0], .v8 T8.init⟩, run_of_feed (T := tX T8 T16 T32) (s := []) (o := []) (e := []) rfl hE, rfl, enc_run8 _ _⟩
  · rw [built_within hw]
    intro st out h
    obtain ⟨t, o, e, h1, h2, rfl⟩ := run_split h
    obtain ⟨rfl, k2⟩ := hz _ _ hw _ _ h1 _ _ h2
    obtain ⟨buf, h3⟩ := within_end (T16 := T16) (T32 := T32) hw h1
    exact ⟨⟨.run_8, buf, .v8 t⟩, by rw [List.append_nil]; exact h3, k2.symm, enc_run8 _ _⟩
  · rw [(built_none h).1]
    exact convert_none L8 h
  · rw [(built_8 t).1]
    exact convert_bom8 t
  · rw [(built_16be t).1]
    intro st out h
    obtain ⟨u, o, e, h1, h2, rfl⟩ := run_split h
    obtain ⟨w, buf, k1, k2, h3⟩ := feedX_16_all (T8 := T8) (T32 := T32) true t [0xFE, 0xFF, 0, 0] _ _ _ ⟨_, _, _, _, rfl⟩ h1
    exact ⟨_, run_of_feed (feed_append (o := []) bom_16be h3) (endX_16 h2), rfl, enc_runs16 k1 true k2 _ _⟩
  · rw [(built_32be t).1]
    intro st out h
    obtain ⟨u, o, e, h1, h2, rfl⟩ := run_split h
    obtain ⟨w, buf, k1, k2, h3⟩ := feedX_32_all (T8 := T8) (T16 := T16) true t [0, 0, 0xFE, 0xFF] _ _ _ ⟨_, _, _, _, rfl⟩ (by simpa using h1)
    exact ⟨_, run_of_feed (feed_append (o := []) bom_32be h3) (endX_32 h2), rfl, enc_runs32 k1 true k2 _ _⟩
  · rw [(built_32le t).1]
    intro st out h
    obtain ⟨u, o, e, h1, h2, rfl⟩ := run_split h
    obtain ⟨w, buf, k1, k2, h3⟩ := feedX_32_all (T8 := T8) (T16 := T16) false t [0xFF, 0xFE, 0, 0] _ _ _ ⟨_, _, _, _, rfl⟩ h1
    exact ⟨_, run_of_feed (feed_append (o := []) bom_32le h3) (endX_32 h2), rfl, enc_runs32 k1 false k2 _ _⟩
  · rw [(built_16le v t hv).1]
    intro st out h
    obtain ⟨u, o, e, h1, h2, rfl⟩ := run_split h
    have hs := bom_16le (T8 := T8) (T16 := T16) (T32 := T32) v hv
    cases t with
    | nil =>
      have h1 := Except.ok.inj (show Except.ok (T16.init, []) = Except.ok (u, o) from h1)
      have e1 : T16.init = u := congrArg Prod.fst h1
      have e2 : [] = o := congrArg Prod.snd h1
      subst e1 e2
      exact ⟨_, run_of_feed hs (endX_16 h2), rfl, enc_runs16 (Or.inr (Or.inr (Or.inr rfl))) false rfl _ _⟩
    | cons x t =>
      obtain ⟨t1, o1, os, h3, h4, rfl⟩ := feed_split h1
      have h5 : (tX T8 T16 T32).step ⟨.run_16le_byte1, [v, 0xFE, 0, 0], .v16 T16.init⟩ x = .ok (⟨.run_16le_byte0, [v, 0xFE, 0, 0], .v16 t1⟩, o1) := by
        show stepX (T8 := T8) (T16 := T16) (T32 := T32) ⟨.run_16le_byte1, [v, 0xFE, 0, 0], .v16 T16.init⟩ x =
          Except.ok (⟨.run_16le_byte0, [v, 0xFE, 0, 0], .v16 t1⟩, o1)
        have e : (States.run_16le_byte1 == States.run_16be_byte1) = false := by decide +kernel
        have hx := x.toNat_lt
        have hv := v.toNat_lt
        have e' : UInt16.ofNat (x.toNat <<< 8 ||| v.toNat) = UInt16.ofNat (x.toNat * 0x100 + v.toNat) := by
          rw [Nat.or_comm, or_high _ _ _ (by omega), Nat.add_comm]
        have e2 : char16From false [v, 0xFE, 0, 0] x = .ok (UInt16.ofNat (x.toNat * 0x100 + v.toNat)) := by
          rw [← e']; rfl
        have h3' : T16.step T16.init (UInt16.ofNat (x.toNat * 0x100 + v.toNat)) = .ok (t1, o1) := h3
        simp only [stepX, Icu.run16, e, e2, bind, Except.bind, h3', show setByte .run_16le_byte1 0 = .ok .run_16le_byte0 from rfl]
        rw [if_neg (by decide)]
      obtain ⟨w, buf, k1, k2, h6⟩ := feedX_16_all (T8 := T8) (T32 := T32) false t [v, 0xFE, 0, 0] _ _ _ ⟨_, _, _, _, rfl⟩ h4
      have h7 := feed_append (o := []) hs (feed_cons h5 h6)
      exact ⟨_, run_of_feed h7 (endX_16 h2), rfl, enc_runs16 k1 false k2 _ _⟩

end

/-- Feeding the rest of `p`, then a zero byte: is nothing left for `end_cp`? -/
def closed {ο : Type} (T : Transcoder UInt8 ο) (p : Str) : Bool :=
  match T.feed T.init (p ++ [0]) with
  | .ok (t, _) => match T.endCp t with
    | .ok (t', e) => e.isEmpty && (T.wellFormed t' == T.wellFormed t)
    | _ => true
  | _ => true

theorem closed_use {ο : Type} {T : Transcoder UInt8 ο} {p : Str} (h : closed T p = true) : ∀ t o, T.feed T.init (p ++ [0]) = .ok (t, o) → ∀ t' e, T.endCp t = .ok (t', e) →
    e = [] ∧ T.wellFormed t' = T.wellFormed t := by
  intro t o h1 t' e h2
  simpa [closed, h1, h2] using h

/-- **C46**, for every byte string: what the byte transcoder delivers, to each of the three encodings. -/
theorem C46_exact (s : Str) : Delivers t8_8 t16_8 t32_8 s (contentBuilt s) ∧ Delivers t8_16 t16_16 t32_16 s (contentBuilt s) ∧
    Delivers t8_32 t16_32 t32_32 s (contentBuilt s) := by
  refine ⟨deliver lawful8_8.total (fun p st h => closed_use ?_) lawful8_8.endInit s, deliver lawful8_16.total (fun p st h => closed_use ?_) lawful8_16.endInit s,
    deliver lawful8_32.total (fun p st h => closed_use ?_) lawful8_32.endInit s⟩ <;> cases h <;> decide +kernel

/-- **C46**: the content is the one that the Unicode Standard prescribes, unless the text ends within a mark (where the two
bytes `FF FE` are within one), begins with `FF FE 00` and another byte, or is UTF-32 (little endian) with a code unit from
2^24 up. -/
theorem C46_conforms_iff (s : Str) : contentBuilt s = contentStd s ↔
    s ∉ ([[0xEF], [0xEF, 0xBB], [0xFE], [0xFF], [0xFF, 0xFE], [0xFF, 0xFE, 0], [0], [0, 0], [0, 0, 0xFE]] : List Str) ∧
    (∀ v t, s = 0xFF :: 0xFE :: 0 :: v :: t → v = 0) ∧ (∀ t, s = 0xFF :: 0xFE :: 0 :: 0 :: t → ∀ u ∈ units32 false t, u < 2 ^ 24) := by
  rcases classify s with rfl | ⟨w, hw⟩ | h | ⟨t, rfl⟩ | ⟨t, rfl⟩ | ⟨t, rfl⟩ | ⟨t, rfl⟩ | ⟨v, t, hv, rfl⟩
  · simp [contentBuilt, contentStd, marks]
  · cases hw <;> exact ⟨fun h => absurd h (by decide +kernel), fun h => absurd (by decide) h.1⟩
  · cases h with
    | fffez h1 =>
      refine ⟨fun h => ?_, fun h => absurd (h.2.1 _ _ rfl) h1⟩
      simp [contentBuilt, contentStd, marks, List.cons_prefix_cons, h1, Ne.symm h1] at h
    | first h1 h2 h3 h4 =>
      simp [contentBuilt, contentStd, marks, List.cons_prefix_cons, h1, h2, h3, h4, Ne.symm h1, Ne.symm h2, Ne.symm h3, Ne.symm h4]
    | _ h1 => simp [contentBuilt, contentStd, marks, List.cons_prefix_cons, h1, Ne.symm h1]
  · rw [(built_8 t).1, (built_8 t).2]; simp
  · rw [(built_16be t).1, (built_16be t).2]; simp
  · rw [(built_32be t).1, (built_32be t).2]; simp
  · rw [(built_32le t).1, (built_32le t).2]
    have : (units32 false t).map (· % 0x1000000) = units32 false t ↔ ∀ u ∈ units32 false t, u < 2 ^ 24 := by
      generalize units32 false t = us
      induction us with
      | nil => simp
      | cons u us ih =>
        simp only [List.map_cons, List.cons.injEq, ih, List.mem_cons, forall_eq_or_imp]
        refine and_congr ⟨fun h => ?_, fun h => ?_⟩ Iff.rfl <;> omega
    simp [this]
  · rw [(built_16le v t hv).1, (built_16le v t hv).2]; simp [hv]

/-- The code units of bytes are what the bytes were made of; what is left over is dropped, and nothing tells. -/
theorem C46_left_over (big : Bool) (us : List UInt16) (t : Str) (h : t.length < 2) : units16 big (us.flatMap (bytes16 big) ++ t) = us := by
  induction us with
  | nil => 
    match t, h with
    | [], _ => rfl
    | [_], _ => rfl
  | cons u us ih =>
    have := u.toNat_lt
    rw [List.flatMap_cons, List.append_assoc]
    cases big
    · simp only [bytes16, Bool.false_eq_true, if_false, List.cons_append, List.nil_append, units16]
      rw [toNat_ofNat_lt (by omega), toNat_ofNat_lt (by omega), show u.toNat / 256 * 256 + u.toNat % 256 = u.toNat by omega]
      rw [ih]; simp
    · simp only [bytes16, if_true, List.cons_append, List.nil_append, units16]
      rw [toNat_ofNat_lt (by omega), toNat_ofNat_lt (by omega), show u.toNat / 256 * 256 + u.toNat % 256 = u.toNat by omega]
      rw [ih]; simp
theorem C46_left_over32 (big : Bool) (us : List Nat) (hu : ∀ u ∈ us, u < 2 ^ 32) (t : Str) (h : t.length < 4) : units32 big (us.flatMap (bytes32 big) ++ t) = us := by
  induction us with
  | nil => 
    match t, h with
    | [], _ => rfl
    | [_], _ => rfl
    | [_, _], _ => rfl
    | [_, _, _], _ => rfl
  | cons u us ih =>
    have := hu u (by simp)
    rw [List.flatMap_cons, List.append_assoc]
    have ih := ih (fun v hv => hu v (by simp [hv]))
    have e : ((u / 0x1000000 * 0x100 + u / 0x10000 % 0x100) * 0x100 + u / 0x100 % 0x100) * 0x100 + u % 0x100 = u := by omega
    cases big
    · simp only [bytes32, Bool.false_eq_true, if_false, List.reverse_cons, List.reverse_nil, List.cons_append, List.nil_append, units32]
      rw [toNat_ofNat_lt (by omega), toNat_ofNat_lt (by omega), toNat_ofNat_lt (by omega), toNat_ofNat_lt (by omega), e, ih]
    · simp only [bytes32, if_true, List.cons_append, List.nil_append, units32]
      rw [toNat_ofNat_lt (by omega), toNat_ofNat_lt (by omega), toNat_ofNat_lt (by omega), toNat_ofNat_lt (by omega), e, ih]

/-- What is wrong: a text that ends within a byte order mark gains a byte (`FE` yields an additional
U+0000); `FF FE` alone is not an empty UTF-16 text; `FF FE 00 41` is not U+4100; the upper bits of
little endian UTF-32 are lost and the text called well-formed; half a code unit at the end is dropped
and the text called well-formed, nothing being pending. -/
theorem C46_false :
    (tx_32.run [0xFE]).map (fun r => r.2) = .ok [0xFFFD, 0] ∧
    (tx_32.run [0xFF, 0xFE]).map (fun r => r.2) = .ok [0xFFFD, 0xFFFD, 0] ∧
    (tx_32.run [0xFF, 0xFE, 0x00, 0x41]).map (fun r => r.2) = .ok [0xFFFD, 0xFFFD, 0, 0x41] ∧
    (tx_32.run [0xFF, 0xFE, 0, 0, 0x41, 0, 0, 0x01]).map (fun r => (r.2, tx_32.wellFormed r.1)) = .ok ([0x41], true) ∧
    (tx_32.run [0xFE, 0xFF, 0x00, 0x41, 0x00]).map (fun r => (r.2, tx_32.wellFormed r.1, tx_32.isPartial r.1)) = .ok ([0x41], true, false) := by
  decide +kernel

example : (t16_8.run [0x41, 0xD83D, 0xDE00]).map (fun r => r.2) = .ok [0x41, 0xF0, 0x9F, 0x98, 0x80] ∧
    (tx_8.run ([0xFF, 0xFE] ++ ([0x41, 0xD83D, 0xDE00] : List UInt16).flatMap (bytes16 false))).map (fun r => r.2) = .ok [0x41, 0xF0, 0x9F, 0x98, 0x80] := by
  decide +kernel
example : (∀ b ∈ allBoms, ¬ b <+: [0xEF, 0xBB, 0x41]) ∧ ∀ b ∈ allBoms, ¬ ([0xEF, 0xBB, 0x41] : Str) <+: b := by decide +kernel

/-! ### C49: `length` and `index` -/

/-- `length` of a well-formed text is the number of its code points. -/
theorem C49_length_utf8 {s : Str} {cs : List Nat} (h : IsUtf8 s cs) : Icu.length isCodePointStart8 s = cs.length := by
  rw [h.2]; exact length_text (fun c => oneStart8) cs h.1
theorem C49_length_utf16 {s : List UInt16} {cs : List Nat} (h : IsUtf16 s cs) : Icu.length isCodePointStart16 s = cs.length := by
  rw [h.2]; exact length_text (fun c => oneStart16) cs h.1
theorem C49_length_utf32 (cs : List Nat) : Icu.length isCodePointStart32 cs = (cs.filter fun c => decide (Scalar c)).length := by
  have hst : ∀ c, isCodePointStart32 c = decide (Scalar c) := by
    intro c
    unfold isCodePointStart32 maxCodePoint
    by_cases h : Scalar c
    · have h' := h
      unfold Scalar at h'
      simp [isSurrogate_false c h, h]; omega
    · have h' := h
      unfold Scalar at h'
      by_cases hs : isSurrogate c = true
      · simp [hs, h]
      · have := mt (isSurrogate_iff c).2 hs
        simp [h]; omega
  induction cs with
  | nil => rfl
  | cons c cs ih =>
    rw [Icu.length, ih, hst, List.filter_cons]
    by_cases h : Scalar c <;> simp [h]; omega

/-- `index` is the offset of the code point with that number, the end if there are fewer. -/
theorem C49_index_utf8 {s : Str} {cs : List Nat} (h : IsUtf8 s cs) (n : Nat) : Icu.index isCodePointStart8 s n = ((cs.take n).flatMap utf8).length := by
  rw [h.2, Icu.index, indexLoop_text (fun c => oneStart8) n cs h.1 0 0 (by omega)]
  simp
theorem C49_index_utf16 {s : List UInt16} {cs : List Nat} (h : IsUtf16 s cs) (n : Nat) :
    Icu.index isCodePointStart16 s n = ((cs.take n).flatMap utf16).length := by
  rw [h.2, Icu.index, indexLoop_text (fun c => oneStart16) n cs h.1 0 0 (by omega)]
  simp

example : Icu.length isCodePointStart8 [0x41, 0xE2, 0x82, 0xAC, 0x42] = 3 ∧ Icu.index isCodePointStart8 [0x41, 0xE2, 0x82, 0xAC, 0x42] 2 = 4 ∧
    Icu.index isCodePointStart8 [0x41, 0xE2, 0x82, 0xAC, 0x42] 7 = 5 := by decide +kernel

end Verif
