import Verif.Proofs.Utf8Dec

/-!
# UTF-16
-/

set_option linter.unusedSimpArgs false
set_option linter.unusedVariables false

namespace Verif.Icu

open Unicode

theorem step32to16_scalar (f : Nat) (wf : Bool) (c : Nat) (h : Scalar c) : step32to16 (f + 1) wf c = .ok (wf, utf16 c) := by
  have hs := isSurrogate_false c h
  unfold Scalar at h
  unfold step32to16 utf16
  have h1 : ¬ c > maxCodePoint := by unfold maxCodePoint; omega
  simp only [hs, h1, decide_false, Bool.or_self, Bool.false_eq_true, if_false]
  by_cases h2 : c < 0x10000
  · rw [if_pos (by omega), if_pos h2]
  · rw [if_neg (by omega), if_neg h2, shr10, and_3ff, show 0xD7C0 + c / 1024 = 0xD800 + (c - 0x10000) / 0x400 by omega,
      show 0xDC00 + c % 1024 = 0xDC00 + (c - 0x10000) % 0x400 by omega]

theorem step32to16_eq (wf : Bool) (c : Nat) : step32to16 2 wf c = .ok (wf && decide (Scalar c), utf16 (fixCp c)) := by
  by_cases h : Scalar c
  · rw [step32to16_scalar 1 wf c h]
    simp [h, fixCp]
  · have hr : Scalar replacementChar := by decide
    have e := step32to16_scalar 0 wf replacementChar hr
    have h' := h
    unfold Scalar at h'
    have hb : (isSurrogate c || decide (c > maxCodePoint)) = true := by
      by_cases hs : isSurrogate c = true
      · simp [hs]
      · have := mt (isSurrogate_iff c).2 hs
        simp [maxCodePoint]; omega
    simp only [fixCp, if_neg h, h, decide_false, Bool.and_false]
    rw [step32to16, if_pos hb, e]
    rfl

theorem feed32to16 (cs : List Nat) : ∀ wf : Bool, t32_16.feed wf cs = .ok ((wf && cs.all fun c => decide (Scalar c)), (cs.map fixCp).flatMap utf16) := by
  induction cs with
  | nil => intro wf; simp [Transcoder.feed]
  | cons c cs ih =>
    intro wf
    have e : t32_16.step wf c = .ok ((wf && decide (Scalar c)), utf16 (fixCp c)) := step32to16_eq wf c
    refine (feed_cons e (ih _)).trans ?_
    simp [List.flatMap_cons, Bool.and_assoc]

theorem run32to16 (cs : List Nat) : t32_16.run cs = .ok ((cs.all fun c => decide (Scalar c)), (cs.map fixCp).flatMap utf16) := by
  have h : t32_16.feed t32_16.init cs = .ok ((cs.all fun c => decide (Scalar c)), (cs.map fixCp).flatMap utf16) := by
    have := feed32to16 cs true
    rwa [Bool.true_and] at this
  refine (run_of_feed h rfl).trans ?_
  rw [List.append_nil]

theorem step32to32_eq (wf : Bool) (c : Nat) : step32to32 wf c = .ok (wf && decide (Scalar c), [fixCp c]) := by
  unfold step32to32 fixCp
  by_cases h : Scalar c
  · have hs := isSurrogate_false c h
    have h' := h
    unfold Scalar at h'
    have h1 : ¬ c > maxCodePoint := by unfold maxCodePoint; omega
    simp [hs, h1, h]
  · have h' := h
    unfold Scalar at h'
    have hb : (decide (c > maxCodePoint) || isSurrogate c) = true := by
      by_cases hs : isSurrogate c = true
      · simp [hs]
      · have := mt (isSurrogate_iff c).2 hs
        simp [maxCodePoint]; omega
    rw [if_pos hb, if_neg h]
    simp [h, replacementChar]

theorem feed32to32 (cs : List Nat) : ∀ wf : Bool, t32_32.feed wf cs = .ok ((wf && cs.all fun c => decide (Scalar c)), cs.map fixCp) := by
  induction cs with
  | nil => intro wf; simp [Transcoder.feed]
  | cons c cs ih =>
    intro wf
    have e : t32_32.step wf c = .ok ((wf && decide (Scalar c)), [fixCp c]) := step32to32_eq wf c
    refine (feed_cons e (ih _)).trans ?_
    simp [Bool.and_assoc]

theorem run32to32 (cs : List Nat) : t32_32.run cs = .ok ((cs.all fun c => decide (Scalar c)), cs.map fixCp) := by
  have h : t32_32.feed t32_32.init cs = .ok ((cs.all fun c => decide (Scalar c)), cs.map fixCp) := by
    have := feed32to32 cs true
    rwa [Bool.true_and] at this
  refine (run_of_feed h rfl).trans ?_
  rw [List.append_nil]

/-! ### Decoding UTF-16 -/

/-- High surrogates. -/
def High (u : UInt16) : Prop := 0xD800 ≤ u.toNat ∧ u.toNat ≤ 0xDBFF
/-- Low surrogates. -/
def Low (u : UInt16) : Prop := 0xDC00 ≤ u.toNat ∧ u.toNat ≤ 0xDFFF

theorem isHigh_iff (u : UInt16) : isHighSurrogate u.toNat = true ↔ High u := by simp [isHighSurrogate, High]
theorem isLow_iff (u : UInt16) : isLowSurrogate u.toNat = true ↔ Low u := by simp [isLowSurrogate, Low]

theorem utf16_bmp {u : UInt16} (h1 : ¬ High u) (h2 : ¬ Low u) : Scalar u.toNat ∧ utf16 u.toNat = [u] := by
  unfold High at h1; unfold Low at h2
  have := u.toNat_lt
  unfold Scalar utf16
  refine ⟨by omega, ?_⟩
  rw [if_pos (by omega)]
  simp

theorem utf16_pair {h l : UInt16} (h1 : High h) (h2 : Low l) :
    Scalar ((h.toNat - 0xD800) * 1024 + (l.toNat - 0xDC00) + 0x10000) ∧ utf16 ((h.toNat - 0xD800) * 1024 + (l.toNat - 0xDC00) + 0x10000) = [h, l] := by
  unfold High at h1; unfold Low at h2
  unfold Scalar utf16
  refine ⟨by omega, ?_⟩
  rw [if_neg (by omega), u16_ofNat_eq (b := h) (by omega), u16_ofNat_eq (b := l) (by omega)]

/-- The shapes of UTF-16. -/
theorem utf16_shape {c : Nat} (hc : Scalar c) : (∃ u : UInt16, ¬ High u ∧ ¬ Low u ∧ utf16 c = [u] ∧ c = u.toNat) ∨
    (∃ h l : UInt16, High h ∧ Low l ∧ utf16 c = [h, l] ∧ c = (h.toNat - 0xD800) * 1024 + (l.toNat - 0xDC00) + 0x10000) := by
  unfold Scalar at hc
  unfold utf16 High Low
  split
  · left
    refine ⟨UInt16.ofNat c, ?_, ?_, rfl, ?_⟩ <;> rw [u16_toNat_ofNat_lt (by omega)] <;> omega
  · right
    refine ⟨_, _, ?_, ?_, rfl, ?_⟩ <;> (repeat rw [u16_toNat_ofNat_lt (by omega)]) <;> omega

theorem adjustedHigh_eq {u : UInt16} (h : High u) : adjustedHigh u.toNat = .ok (u.toNat - 0xD800) := by
  unfold High at h
  unfold adjustedHigh
  rw [if_pos (by omega)]

theorem step16_high (st : St16) (u : UInt16) (h0 : st.hasHigh = false) (h : High u) :
    step16to32 st u = .ok ({ st with high := u.toNat - 0xD800, hasHigh := true }, []) := by
  unfold step16to32
  simp only [h0, if_true, (isHigh_iff u).2 h, adjustedHigh_eq h, bind, Except.bind]
  unfold High at h
  rw [Nat.mod_eq_of_lt (by omega)]

theorem not_low_of_high {u : UInt16} (h : High u) : ¬ Low u := by unfold High at h; unfold Low; omega

theorem isHigh_false {u : UInt16} (h : ¬ High u) : isHighSurrogate u.toNat = false := by
  cases hb : isHighSurrogate u.toNat with
  | false => rfl
  | true => exact absurd ((isHigh_iff u).1 hb) h

theorem isLow_false {u : UInt16} (h : ¬ Low u) : isLowSurrogate u.toNat = false := by
  cases hb : isLowSurrogate u.toNat with
  | false => rfl
  | true => exact absurd ((isLow_iff u).1 hb) h

theorem step16_low (st : St16) (u : UInt16) (h0 : st.hasHigh = false) (h : Low u) :
    step16to32 st u = .ok ({ st with wf := false }, [0xFFFD]) := by
  unfold step16to32
  have : ¬ High u := fun hh => not_low_of_high hh h
  simp [h0, isHigh_false this, (isLow_iff u).2 h, replacementChar]

theorem step16_bmp (st : St16) (u : UInt16) (h0 : st.hasHigh = false) (h1 : ¬ High u) (h2 : ¬ Low u) :
    step16to32 st u = .ok (st, [u.toNat]) := by
  unfold step16to32
  simp [h0, isHigh_false h1, isLow_false h2]

theorem step16_pair (st : St16) (u : UInt16) (h0 : st.hasHigh = true) (h : Low u) :
    step16to32 st u = .ok ({ st with high := 0, hasHigh := false }, [st.high * 1024 + (u.toNat - 0xDC00) + 0x10000]) := by
  unfold step16to32
  simp [h0, (isLow_iff u).2 h, Nat.shiftLeft_eq]

theorem step16_high_high (st : St16) (u : UInt16) (h0 : st.hasHigh = true) (h : High u) :
    step16to32 st u = .ok ({ st with high := u.toNat - 0xD800, wf := false }, [0xFFFD]) := by
  unfold step16to32
  simp only [h0, Bool.true_eq_false, if_false, isLow_false (not_low_of_high h), Bool.false_eq_true, (isHigh_iff u).2 h, if_true,
    adjustedHigh_eq h, bind, Except.bind]
  unfold High at h
  rw [Nat.mod_eq_of_lt (by omega)]
  rfl

theorem step16_high_bmp (st : St16) (u : UInt16) (h0 : st.hasHigh = true) (h1 : ¬ High u) (h2 : ¬ Low u) :
    step16to32 st u = .ok (⟨0, false, false⟩, [0xFFFD, u.toNat]) := by
  unfold step16to32
  simp [h0, isLow_false h2, isHigh_false h1, replacementChar]

/-- The decoder between code units, having read the high surrogate `p`, if any. -/
def At16 (p : List UInt16) (st : St16) : Prop :=
  (p = [] ∧ st.hasHigh = false) ∨ ∃ h, p = [h] ∧ High h ∧ st.hasHigh = true ∧ st.high = h.toNat - 0xD800

theorem isUtf16_cons {c : Nat} {s : List UInt16} {cs : List Nat} (hc : Scalar c) (h : IsUtf16 s cs) : IsUtf16 (utf16 c ++ s) (c :: cs) :=
  ⟨fun d hd => (List.mem_cons.1 hd).elim (fun e => e ▸ hc) (h.1 d), by rw [List.flatMap_cons, ← h.2]⟩

theorem decode16_rest : ∀ (s p : List UInt16) (st : St16), At16 p st → ∃ st' out st'' e, t16_32.feed st s = .ok (st', out) ∧
    t16_32.endCp st' = .ok (st'', e) ∧ Reads16 (p ++ s) (out ++ e) ∧ (st''.wf = true → st.wf = true ∧ IsUtf16 (p ++ s) (out ++ e)) := by
  intro s
  induction s with
  | nil =>
    intro p st h
    rcases h with ⟨rfl, h⟩ | ⟨hh, rfl, h, h1, h2⟩
    · exact ⟨st, [], st, [], rfl, by simp [t16_32, endCp16to32, h], by simpa using Reads16.nil, fun hw => ⟨hw, by simp [IsUtf16]⟩⟩
    · refine ⟨st, [], ⟨0, false, false⟩, [0xFFFD], rfl, by simp [t16_32, endCp16to32, h1, replacementChar], ?_, fun hw => by simp at hw⟩
      exact Reads16.high h.1 h.2 (by simp) Reads16.nil
  | cons u s ih =>
    intro p st h
    rcases h with ⟨rfl, h⟩ | ⟨hh, rfl, h, h1, h2⟩
    · by_cases hu : High u
      · obtain ⟨st', out, st'', e, g1, g2, g3, g4⟩ := ih [u] { st with high := u.toNat - 0xD800, hasHigh := true } (Or.inr ⟨u, rfl, hu, rfl, rfl⟩)
        exact ⟨st', out, st'', e, feed_cons (step16_high st u h hu) g1, g2, g3, g4⟩
      · by_cases hl : Low u
        · obtain ⟨st', out, st'', e, g1, g2, g3, g4⟩ := ih [] { st with wf := false } (Or.inl ⟨rfl, h⟩)
          exact ⟨st', 0xFFFD :: out, st'', e, feed_cons (step16_low st u h hl) g1, g2, Reads16.low hl.1 hl.2 g3, fun hw => absurd (g4 hw).1 (by simp)⟩
        · obtain ⟨st', out, st'', e, g1, g2, g3, g4⟩ := ih [] st (Or.inl ⟨rfl, h⟩)
          obtain ⟨k1, k2⟩ := utf16_bmp hu hl
          refine ⟨st', u.toNat :: out, st'', e, feed_cons (step16_bmp st u h hu hl) g1, g2, ?_, fun hw => ⟨(g4 hw).1, ?_⟩⟩
          · have := Reads16.char k1 g3
            rw [k2] at this
            exact this
          · have := isUtf16_cons k1 (g4 hw).2
            rw [k2] at this
            exact this
    · by_cases hl : Low u
      · obtain ⟨st', out, st'', e, g1, g2, g3, g4⟩ := ih [] { st with high := 0, hasHigh := false } (Or.inl ⟨rfl, rfl⟩)
        obtain ⟨k1, k2⟩ := utf16_pair h hl
        refine ⟨st', (st.high * 1024 + (u.toNat - 0xDC00) + 0x10000) :: out, st'', e, feed_cons (step16_pair st u h1 hl) g1, g2, ?_, fun hw => ⟨(g4 hw).1, ?_⟩⟩
        · have := Reads16.char k1 g3
          rw [k2] at this
          rw [h2]
          exact this
        · have := isUtf16_cons k1 (g4 hw).2
          rw [k2] at this
          rw [h2]
          exact this
      · have hnl : ∀ l, (u :: s).head? = some l → ¬ (0xDC00 ≤ l.toNat ∧ l.toNat ≤ 0xDFFF) := by
          intro l hl'
          simp only [List.head?_cons, Option.some.injEq] at hl'
          subst hl'
          exact hl
        by_cases hu : High u
        · obtain ⟨st', out, st'', e, g1, g2, g3, g4⟩ := ih [u] { st with high := u.toNat - 0xD800, wf := false } (Or.inr ⟨u, rfl, hu, h1, rfl⟩)
          exact ⟨st', 0xFFFD :: out, st'', e, feed_cons (step16_high_high st u h1 hu) g1, g2, Reads16.high h.1 h.2 hnl g3,
            fun hw => absurd (g4 hw).1 (by simp)⟩
        · obtain ⟨st', out, st'', e, g1, g2, g3, g4⟩ := ih [] ⟨0, false, false⟩ (Or.inl ⟨rfl, rfl⟩)
          obtain ⟨k1, k2⟩ := utf16_bmp hu hl
          refine ⟨st', 0xFFFD :: u.toNat :: out, st'', e, feed_cons (step16_high_bmp st u h1 hu hl) g1, g2, ?_, fun hw => absurd (g4 hw).1 (by simp)⟩
          have := Reads16.char k1 g3
          rw [k2] at this
          exact Reads16.high h.1 h.2 hnl this

theorem feed16_text (cs : List Nat) : (∀ c ∈ cs, Scalar c) → ∀ st : St16, st.hasHigh = false → ∃ hi, t16_32.feed st (cs.flatMap utf16) = .ok (⟨hi, false, st.wf⟩, cs) := by
  induction cs with
  | nil =>
    intro _ st h0
    obtain ⟨hi, hh, wf⟩ := st
    simp only at h0
    subst h0
    exact ⟨hi, rfl⟩
  | cons c cs ih =>
    intro h st h0
    rw [List.flatMap_cons]
    rcases utf16_shape (h c (by simp)) with ⟨u, k1, k2, k3, k4⟩ | ⟨hh, l, k1, k2, k3, k4⟩
    · obtain ⟨hi, h2⟩ := ih (fun d hd => h d (by simp [hd])) st h0
      rw [k3]
      refine ⟨hi, ?_⟩
      have := feed_cons (T := t16_32) (step16_bmp st u h0 k1 k2) h2
      rw [← k4] at this
      exact this
    · obtain ⟨hi, h2⟩ := ih (fun d hd => h d (by simp [hd])) ⟨0, false, st.wf⟩ rfl
      rw [k3]
      refine ⟨hi, ?_⟩
      have := feed_cons (T := t16_32) (step16_high st hh h0 k1) (feed_cons (T := t16_32) (step16_pair ⟨hh.toNat - 0xD800, true, st.wf⟩ l rfl k2) h2)
      rw [← k4] at this
      exact this

/-- After a high surrogate, a code unit that is not a low one is read as if there were none, and
U+FFFD is added. -/
theorem feed16_pending (st : St16) (h1 : st.hasHigh = true) (u : UInt16) (hu : ¬ Low u) (s : List UInt16) {st' : St16} {out : List Nat}
    (h : t16_32.feed ⟨0, false, false⟩ (u :: s) = .ok (st', out)) : t16_32.feed st (u :: s) = .ok (st', 0xFFFD :: out) := by
  have split : ∀ {st1 : St16} {o : List Nat}, step16to32 ⟨0, false, false⟩ u = .ok (st1, o) → ∃ os, t16_32.feed st1 s = .ok (st', os) ∧ out = o ++ os := by
    intro st1 o hs
    have hs' : t16_32.step ⟨0, false, false⟩ u = .ok (st1, o) := hs
    simp only [Transcoder.feed, hs', bind, Except.bind] at h
    split at h
    · simp at h
    · rename_i w hw
      have h := Except.ok.inj h
      exact ⟨w.2, by rw [hw]; exact congrArg (fun x => Except.ok (x, w.2)) (congrArg Prod.fst h), (congrArg Prod.snd h).symm⟩
  by_cases hh : High u
  · obtain ⟨os, e1, e2⟩ := split (step16_high ⟨0, false, false⟩ u rfl hh)
    rw [e2]
    have := step16_high_high st u h1 hh
    rw [h1] at this
    exact feed_cons (T := t16_32) (o := [0xFFFD]) this e1
  · obtain ⟨os, e1, e2⟩ := split (step16_bmp ⟨0, false, false⟩ u rfl hh hu)
    rw [e2]
    exact feed_cons (T := t16_32) (step16_high_bmp st u h1 hh hu) e1

theorem feed16_reads {s : List UInt16} {cs : List Nat} (h : Reads16 s cs) : ∀ st : St16, st.hasHigh = false → ∃ st' out st'' e,
    t16_32.feed st s = .ok (st', out) ∧ t16_32.endCp st' = .ok (st'', e) ∧ out ++ e = cs := by
  induction h with
  | nil => intro st h0; exact ⟨st, [], st, [], rfl, by simp [t16_32, endCp16to32, h0], rfl⟩
  | @char c s cs hc _ ih =>
    intro st h0
    obtain ⟨hi, h1⟩ := feed16_text [c] (by simpa using hc) st h0
    obtain ⟨st', out, st'', e, g1, g2, g3⟩ := ih ⟨hi, false, st.wf⟩ rfl
    rw [List.flatMap_cons, List.flatMap_nil, List.append_nil] at h1
    exact ⟨st', c :: out, st'', e, feed_append h1 g1, g2, by simp [g3]⟩
  | @high h s cs h1 h2 h3 _ ih =>
    intro st h0
    have hst := step16_high st h h0 ⟨h1, h2⟩
    obtain ⟨st', out, st'', e, g1, g2, g3⟩ := ih ⟨0, false, false⟩ rfl
    cases s with
    | nil =>
      simp only [Transcoder.feed, Except.ok.injEq, Prod.mk.injEq] at g1
      obtain ⟨rfl, rfl⟩ := g1
      have : e = [] := by
        have g2 : endCp16to32 ⟨0, false, false⟩ = .ok (st'', e) := g2
        have g3 := Except.ok.inj ((show endCp16to32 ⟨0, false, false⟩ = .ok (⟨0, false, false⟩, []) from rfl).symm.trans g2)
        exact (congrArg Prod.snd g3).symm
      refine ⟨_, [], ⟨0, false, false⟩, [0xFFFD], feed_one hst, by simp [t16_32, endCp16to32, replacementChar], ?_⟩
      rw [← g3, this]; rfl
    | cons u s =>
      have := feed16_pending { st with high := h.toNat - 0xD800, hasHigh := true } rfl u (h3 u rfl) s g1
      exact ⟨st', [] ++ 0xFFFD :: out, st'', e, feed_cons hst this, g2, by simp [g3]⟩
  | @low l s cs h1 h2 _ ih =>
    intro st h0
    obtain ⟨st', out, st'', e, g1, g2, g3⟩ := ih { st with wf := false } h0
    exact ⟨st', 0xFFFD :: out, st'', e, feed_cons (step16_low st l h0 ⟨h1, h2⟩) g1, g2, by simp [g3]⟩

theorem reads16_scalar {s : List UInt16} {cs : List Nat} (h : Reads16 s cs) : ∀ c ∈ cs, Scalar c := by
  have hr : Scalar 0xFFFD := by decide
  induction h with
  | nil => simp
  | char hc _ ih => intro c h; exact (List.mem_cons.1 h).elim (fun e => e ▸ hc) (ih c)
  | high _ _ _ _ ih => intro c h; exact (List.mem_cons.1 h).elim (fun e => e ▸ hr) (ih c)
  | low _ _ _ ih => intro c h; exact (List.mem_cons.1 h).elim (fun e => e ▸ hr) (ih c)

end Verif.Icu
