import Verif.Props.Icubaby

/-!
# Chains of transcoders: C75
-/

set_option linter.unusedSimpArgs false
set_option linter.unusedVariables false

namespace Verif
open Verif.Unicode Verif.Icu

/-- The three encodings a transcoder is instantiated with. -/
inductive Enc
  | e8 | e16 | e32

/-- The code units (`char8_t`, `char16_t`, `char32_t`). -/
@[reducible] def Enc.Unit : Enc → Type
  | .e8 => UInt8
  | .e16 => UInt16
  | .e32 => Nat

/-- `icubaby::transcoder<From, To>` (icubaby.hpp, the nine specialisations for character types). -/
@[reducible] def Enc.coder : (a b : Enc) → Transcoder a.Unit b.Unit
  | .e8, .e8 => t8_8
  | .e8, .e16 => t8_16
  | .e8, .e32 => t8_32
  | .e16, .e8 => t16_8
  | .e16, .e16 => t16_16
  | .e16, .e32 => t16_32
  | .e32, .e8 => t32_8
  | .e32, .e16 => t32_16
  | .e32, .e32 => t32_32

/-- The encoding form of a scalar value. -/
@[reducible] def Enc.form : (a : Enc) → Nat → List a.Unit
  | .e8 => utf8
  | .e16 => utf16
  | .e32 => fun c => [c]

/-- Text `s` is converted by `T` to `out`, and `well_formed ()` then returns `ok`. -/
def Converted {ι ο : Type} (T : Transcoder ι ο) (s : List ι) (out : List ο) (ok : Bool) : Prop :=
  ∃ st, T.run s = .ok (st, out) ∧ T.wellFormed st = ok

theorem converted_unique {ι ο : Type} {T : Transcoder ι ο} {s : List ι} {o1 o2 : List ο} {k1 k2 : Bool} (h1 : Converted T s o1 k1) (h2 : Converted T s o2 k2) :
    o1 = o2 ∧ k1 = k2 := by
  obtain ⟨a, h1, rfl⟩ := h1
  obtain ⟨b, h2, rfl⟩ := h2
  have e := Except.ok.inj (h1.symm.trans h2)
  exact ⟨congrArg Prod.snd e, congrArg (fun p => T.wellFormed p.1) e⟩

theorem flatMap_one (cs : List Nat) : cs.flatMap (fun c => [c]) = cs := by
  induction cs with
  | nil => rfl
  | cons c cs ih => rw [List.flatMap_cons, ih]; rfl

theorem flatMap_fixCp {α : Type} (f : Nat → List α) (cs : List Nat) : cs.flatMap (fun c => f (fixCp c)) = (cs.map fixCp).flatMap f := by
  rw [List.flatMap_map]

/-- The three transcoders from an encoding read the same scalar values. -/
theorem chain_reads (a : Enc) (s : List a.Unit) : ∃ (cs : List Nat) (ok : Bool), (∀ c ∈ cs, Scalar c) ∧ ∀ b : Enc, Converted (a.coder b) s (cs.flatMap b.form) ok := by
  cases a with
  | e8 =>
    obtain ⟨cs, hr, ⟨s1, h1, w1⟩, s2, h2, w2⟩ := C44_utf8_to s
    obtain ⟨s3, out, h3, w3⟩ := C41_well_formed s
    obtain ⟨s4, out4, h4, r4⟩ := C41_decode s
    have eo : out4 = out := congrArg Prod.snd (Except.ok.inj (h4.symm.trans h3))
    have ec : cs = out := ((r4 cs).1 hr).trans eo
    subst ec
    refine ⟨cs, t8_32.wellFormed s3, reads_scalar hr, fun b => ?_⟩
    cases b with
    | e8 => exact ⟨s2, h2, Bool.eq_iff_iff.2 (w2.trans w3.symm)⟩
    | e16 => exact ⟨s1, h1, Bool.eq_iff_iff.2 (w1.trans w3.symm)⟩
    | e32 => exact ⟨s3, h3.trans (by rw [flatMap_one]), rfl⟩
  | e16 =>
    obtain ⟨cs, hr, ⟨s1, h1, w1⟩, s2, h2, w2⟩ := C44_utf16_to s
    obtain ⟨s3, out, h3, r3, sc, w3⟩ := C44_decode s
    have ec : cs = out := (r3 cs).1 hr
    subst ec
    refine ⟨cs, t16_32.wellFormed s3, sc, fun b => ?_⟩
    cases b with
    | e8 => exact ⟨s1, h1, Bool.eq_iff_iff.2 (w1.trans w3.symm)⟩
    | e16 => exact ⟨s2, h2, Bool.eq_iff_iff.2 (w2.trans w3.symm)⟩
    | e32 => exact ⟨s3, h3.trans (by rw [flatMap_one]), rfl⟩
  | e32 =>
    refine ⟨List.map fixCp (show List Nat from s), List.all (α := Nat) s (fun c => decide (Scalar c)), ?_, fun b => ?_⟩
    · intro c hc
      obtain ⟨d, _, rfl⟩ := List.mem_map.1 hc
      exact fixCp_scalar d
    · cases b with
      | e8 => exact ⟨_, run32to8 s, rfl⟩
      | e16 => exact ⟨_, run32to16 s, rfl⟩
      | e32 => exact ⟨_, (run32to32 s).trans (by rw [flatMap_one]), rfl⟩

/-- Scalar values in any encoding are read back. -/
theorem chain_text (a b : Enc) (cs : List Nat) (h : ∀ c ∈ cs, Scalar c) : Converted (a.coder b) (cs.flatMap a.form) (cs.flatMap b.form) true := by
  obtain ⟨ds, ok, hd, hr⟩ := chain_reads a (cs.flatMap a.form)
  have key : Converted (a.coder .e32) (cs.flatMap a.form) cs true := by
    cases a with
    | e8 => exact C41_text ⟨h, rfl⟩
    | e16 => exact C44_text ⟨h, rfl⟩
    | e32 =>
      have e : cs.flatMap (Enc.form .e32) = cs := flatMap_one cs
      have hm : cs.map fixCp = cs := by
        rw [← flatMap_one (cs.map fixCp), ← flatMap_fixCp (fun c => [c]) cs]
        exact (flatMap_fix (fun c => [c]) cs h).trans (flatMap_one cs)
      have ha : cs.all (fun c => decide (Scalar c)) = true := by simpa using h
      rw [e]
      exact ⟨_, (run32to32 cs).trans (by rw [hm]), ha⟩
  obtain ⟨e1, e2⟩ := converted_unique (hr .e32) key
  have e1 : ds = cs := (flatMap_one ds).symm.trans e1
  subst e1 e2
  exact hr b

/-- Whatever the text, well-formed or not, converting it to a second encoding and the result to a third gives what converting
it straight to the third gives; the result in between is well-formed; and the first conversion reports exactly the texts the
direct one reports. -/
theorem C75_chain (a b c : Enc) (s : List a.Unit) : ∃ mid out ok, Converted (a.coder b) s mid ok ∧ Converted (b.coder c) mid out true ∧
    Converted (a.coder c) s out ok := by
  obtain ⟨cs, ok, hs, h⟩ := chain_reads a s
  exact ⟨_, _, ok, h b, chain_text b c cs hs, h c⟩

/-- There and back: for a well-formed text, the text itself. -/
theorem C75_back (a b : Enc) (s : List a.Unit) (out : List a.Unit) (ok : Bool) (h : Converted (a.coder a) s out ok) :
    (∃ mid, Converted (a.coder b) s mid ok ∧ Converted (b.coder a) mid out true) ∧ (ok = true → out = s) := by
  constructor
  · obtain ⟨mid, o, k, h1, h2, h3⟩ := C75_chain a b a s
    obtain ⟨rfl, rfl⟩ := converted_unique h h3
    exact ⟨mid, h1, h2⟩
  · rintro rfl
    have key : ∃ cs : List Nat, (∀ c ∈ cs, Scalar c) ∧ s = cs.flatMap a.form := by
      cases a with
      | e8 =>
        obtain ⟨cs, _, _, st, g, w⟩ := C44_utf8_to s
        obtain ⟨st', h, hw⟩ := h
        have : st = st' := congrArg Prod.fst (Except.ok.inj (g.symm.trans h))
        subst this
        obtain ⟨cs, h1, h2⟩ := w.1 hw
        exact ⟨cs, h1, h2⟩
      | e16 =>
        obtain ⟨cs, _, _, st, g, w⟩ := C44_utf16_to s
        obtain ⟨st', h, hw⟩ := h
        have : st = st' := congrArg Prod.fst (Except.ok.inj (g.symm.trans h))
        subst this
        obtain ⟨cs, h1, h2⟩ := w.1 hw
        exact ⟨cs, h1, h2⟩
      | e32 =>
        obtain ⟨st', h, hw⟩ := h
        have e : s.all (fun c => decide (Scalar c)) = st' := congrArg Prod.fst (Except.ok.inj ((run32to32 s).symm.trans h))
        subst e
        have hw : s.all (fun c => decide (Scalar c)) = true := hw
        exact ⟨s, by simpa using hw, (flatMap_one s).symm⟩
    obtain ⟨cs, h1, rfl⟩ := key
    exact (converted_unique h (chain_text a a cs h1)).1

/-- Repairing twice is repairing once: the output of `transcoder<X, X>` is well-formed and left as it is. -/
theorem C75_repair (a : Enc) (s : List a.Unit) : ∃ out ok, Converted (a.coder a) s out ok ∧ Converted (a.coder a) out out true := by
  obtain ⟨mid, out, ok, h1, h2, h3⟩ := C75_chain a a a s
  have e := (converted_unique h1 h3).1
  subst e
  exact ⟨mid, ok, h1, h2⟩

/-- Any number of encodings in between: a chain of transcoders. -/
inductive Chained : (a : Enc) → List a.Unit → (b : Enc) → List b.Unit → Prop
  | one {a b s out ok} : Converted (a.coder b) s out ok → Chained a s b out
  | more {a b c s mid out ok} : Converted (a.coder b) s mid ok → Chained b mid c out → Chained a s c out

theorem chained_text {a b : Enc} {s : List a.Unit} {out : List b.Unit} (h : Chained a s b out) : ∀ cs : List Nat, (∀ c ∈ cs, Scalar c) → s = cs.flatMap a.form →
    out = cs.flatMap b.form := by
  induction h with
  | one h1 =>
    rintro cs hc rfl
    exact (converted_unique h1 (chain_text _ _ cs hc)).1
  | more h1 _ ih =>
    rintro cs hc rfl
    exact ih cs hc (converted_unique h1 (chain_text _ _ cs hc)).1

theorem C75_any_length {a b : Enc} {s : List a.Unit} {out : List b.Unit} (h : Chained a s b out) : ∃ ok, Converted (a.coder b) s out ok := by
  cases h with
  | one h1 => exact ⟨_, h1⟩
  | more h1 h2 =>
    obtain ⟨cs, k, hs, hr⟩ := chain_reads a s
    have := chained_text h2 cs hs (converted_unique h1 (hr _)).1
    subst this
    exact ⟨k, hr b⟩

/-- The buffers of the views' iterators (C45). -/
@[reducible] def Enc.cap : (a b : Enc) → Nat
  | .e8, .e8 => maxOut8
  | .e8, .e16 => maxOut16
  | .e8, .e32 => maxOut32
  | .e16, .e8 => maxOut16to8
  | .e16, .e16 => maxOut16
  | .e16, .e32 => maxOut16to32
  | .e32, .e8 => maxOut8
  | .e32, .e16 => maxOut16
  | .e32, .e32 => maxOut32

/-- `s | transcode<A, B> | transcode<B, C>` yields what `s | transcode<A, C>` yields. -/
theorem C75_views (a b c : Enc) (s : List a.Unit) : ∃ mid out ok, viewRun (a.coder b) (a.cap b) s = .ok (mid, ok) ∧
    viewRun (b.coder c) (b.cap c) mid = .ok (out, true) ∧ viewRun (a.coder c) (a.cap c) s = .ok (out, ok) := by
  have va : ∀ a b : Enc, ViewAgrees (a.coder b) (a.cap b) := by
    intro a b
    cases a <;> cases b
    · exact C45_utf8_utf8
    · exact C45_utf8_utf16
    · exact C45_utf8_utf32
    · exact C45_utf16_utf8
    · exact C45_utf16_utf16
    · exact C45_utf16_utf32
    · exact C45_utf32_utf8
    · exact C45_utf32_utf16
    · exact C45_utf32_utf32
  have key : ∀ (a b : Enc) (s : List a.Unit) (out : List b.Unit) (ok : Bool), Converted (a.coder b) s out ok → viewRun (a.coder b) (a.cap b) s = .ok (out, ok) := by
    rintro a b s out ok ⟨st, h, rfl⟩
    obtain ⟨st', out', h', hv⟩ := va a b s
    have e := Except.ok.inj (h.symm.trans h')
    have e1 : st = st' := congrArg Prod.fst e
    have e2 : out = out' := congrArg Prod.snd e
    subst e1 e2
    exact hv
  obtain ⟨mid, out, ok, h1, h2, h3⟩ := C75_chain a b c s
  exact ⟨mid, out, ok, key _ _ _ _ _ h1, key _ _ _ _ _ h2, key _ _ _ _ _ h3⟩

/-- A truncated sequence before a euro sign, by way of UTF-16. -/
example : Converted (Enc.coder .e8 .e16) [0xF0, 0x9F, 0x41, 0xE2, 0x82, 0xAC] [0xFFFD, 0x20AC] false := ⟨_, rfl, rfl⟩
example : Converted (Enc.coder .e16 .e32) [0xFFFD, 0x20AC] [0xFFFD, 0x20AC] true := ⟨_, rfl, rfl⟩
example : Converted (Enc.coder .e8 .e32) [0xF0, 0x9F, 0x41, 0xE2, 0x82, 0xAC] [0xFFFD, 0x20AC] false := ⟨_, rfl, rfl⟩
example : Chained .e8 [0xC3, 0xA9] .e32 [0xE9] := .more (b := .e16) (mid := [0xE9]) ⟨_, rfl, rfl⟩ (.one ⟨_, rfl, rfl⟩)

end Verif
