import Verif.Proofs.Utf8

/-!
# UTF-8: what the decoder does to any byte string
-/

set_option linter.unusedSimpArgs false
set_option linter.unusedVariables false

namespace Verif.Icu

open Unicode

theorem trans_tab (b : UInt8) :
    trans 24 (cls b.toNat) = (if 0x80 ≤ b.toNat ∧ b.toNat ≤ 0xBF then 0 else 12) ∧
    trans 36 (cls b.toNat) = (if 0x80 ≤ b.toNat ∧ b.toNat ≤ 0xBF then 24 else 12) ∧
    trans 84 (cls b.toNat) = (if 0x80 ≤ b.toNat ∧ b.toNat ≤ 0xBF then 36 else 12) ∧
    trans 48 (cls b.toNat) = (if 0xA0 ≤ b.toNat ∧ b.toNat ≤ 0xBF then 24 else 12) ∧
    trans 60 (cls b.toNat) = (if 0x80 ≤ b.toNat ∧ b.toNat ≤ 0x9F then 24 else 12) ∧
    trans 72 (cls b.toNat) = (if 0x90 ≤ b.toNat ∧ b.toNat ≤ 0xBF then 36 else 12) ∧
    trans 96 (cls b.toNat) = (if 0x80 ≤ b.toNat ∧ b.toNat ≤ 0x8F then 36 else 12) := by
  have := forall_byte (P := fun b => decide (
    trans 24 (cls b.toNat) = (if 0x80 ≤ b.toNat ∧ b.toNat ≤ 0xBF then 0 else 12) ∧
    trans 36 (cls b.toNat) = (if 0x80 ≤ b.toNat ∧ b.toNat ≤ 0xBF then 24 else 12) ∧
    trans 84 (cls b.toNat) = (if 0x80 ≤ b.toNat ∧ b.toNat ≤ 0xBF then 36 else 12) ∧
    trans 48 (cls b.toNat) = (if 0xA0 ≤ b.toNat ∧ b.toNat ≤ 0xBF then 24 else 12) ∧
    trans 60 (cls b.toNat) = (if 0x80 ≤ b.toNat ∧ b.toNat ≤ 0x9F then 24 else 12) ∧
    trans 72 (cls b.toNat) = (if 0x90 ≤ b.toNat ∧ b.toNat ≤ 0xBF then 36 else 12) ∧
    trans 96 (cls b.toNat) = (if 0x80 ≤ b.toNat ∧ b.toNat ≤ 0x8F then 36 else 12))) (by decide +kernel) b
  exact of_decide_eq_true this

theorem trans_first (b : UInt8) :
    trans 0 (cls b.toNat) = (if b.toNat < 0x80 then 0 else if b.toNat < 0xC2 then 12 else if b.toNat < 0xE0 then 24
      else if b.toNat = 0xE0 then 48 else if b.toNat = 0xED then 60 else if b.toNat < 0xF0 then 36 else if b.toNat = 0xF0 then 72
      else if b.toNat < 0xF4 then 84 else if b.toNat = 0xF4 then 96 else 12) := by
  have := forall_byte (P := fun b => decide (
    trans 0 (cls b.toNat) = (if b.toNat < 0x80 then 0 else if b.toNat < 0xC2 then 12 else if b.toNat < 0xE0 then 24
      else if b.toNat = 0xE0 then 48 else if b.toNat = 0xED then 60 else if b.toNat < 0xF0 then 36 else if b.toNat = 0xF0 then 72
      else if b.toNat < 0xF4 then 84 else if b.toNat = 0xF4 then 96 else 12))) (by decide +kernel) b
  exact of_decide_eq_true this

/-- Neither the beginning of a sequence nor a whole one. -/
def Bad (q : Str) : Prop := ¬ Truncated q ∧ ¬ ∃ c, Scalar c ∧ utf8 c = q

theorem bad_of {q : Str} (h1 : ∀ s cp, ¬ Pend q s cp) (h2 : ∀ c, ¬ Shape c q) : Bad q := by
  refine ⟨fun h => ?_, fun ⟨c, hc, h⟩ => ?_⟩
  · obtain ⟨s, cp, hp⟩ := (truncated_iff q).1 h
    exact h1 s cp hp
  · have := utf8_shape hc
    rw [h] at this
    exact h2 c this

/-- What the decoder does on a byte, after the beginning `p` of a sequence (`p` is empty in the
accepting state). -/
def StepCases (p : Str) (st : St8) (b : UInt8) : Prop :=
  (∃ c, Shape c (p ++ [b]) ∧ step8to32 st b = .ok (⟨c, st.wf, 0⟩, [c])) ∨
  (∃ s cp, Pend (p ++ [b]) s cp ∧ step8to32 st b = .ok (⟨cp, st.wf, s⟩, [])) ∨
  (∃ cp, Bad (p ++ [b]) ∧ step8to32 st b = .ok (⟨cp, false, 0⟩, [0xFFFD]))

theorem step_first (st : St8) (b : UInt8) (h : st.state = 0) : StepCases [] st b := by
  unfold StepCases
  rw [step8_eq st b (Or.inl h), h, trans_first]
  simp only [nextCp, ne_eq, not_true_eq_false, if_false, List.nil_append]
  by_cases h1 : b.toNat < 0x80
  · left
    refine ⟨_, .one h1, ?_⟩
    simp [h1, firstCp]
  by_cases h2 : b.toNat < 0xC2
  · right; right
    refine ⟨_, bad_of ?_ ?_, by simp [h1, h2]; rfl⟩
    · intro s cp hp; cases hp <;> omega
    · intro c hc; cases hc; omega
  by_cases h3 : b.toNat < 0xE0
  · right; left
    exact ⟨_, _, .two (by omega) (by omega), by simp [h1, h2, h3, firstCp]⟩
  by_cases h4 : b.toNat = 0xE0
  · right; left
    exact ⟨_, _, .e0 h4, by simp [h4, firstCp]⟩
  by_cases h5 : b.toNat = 0xED
  · right; left
    exact ⟨_, _, .ed h5, by simp [h5, firstCp]⟩
  by_cases h6 : b.toNat < 0xF0
  · right; left
    exact ⟨_, _, .e (by omega) (by omega) h5, by simp [h1, h2, h3, h4, h5, h6, firstCp]⟩
  by_cases h7 : b.toNat = 0xF0
  · right; left
    exact ⟨_, _, .f0 h7, by simp [h7, firstCp]⟩
  by_cases h8 : b.toNat < 0xF4
  · right; left
    have h9 : b.toNat < 0xF5 := by omega
    exact ⟨_, _, .f (by omega) (by omega), by simp [h1, h2, h3, h4, h5, h6, h7, h8, h9, firstCp]⟩
  by_cases h9 : b.toNat = 0xF4
  · right; left
    exact ⟨_, _, .f4 h9, by simp [h9, firstCp]⟩
  · right; right
    refine ⟨_, bad_of ?_ ?_, by simp [h1, h2, h3, h4, h5, h6, h7, h8, h9]; rfl⟩
    · intro s cp hp; cases hp <;> omega
    · intro c hc; cases hc; omega

theorem cp_next {cp b : Nat} (h : cp < 0x4400) (h1 : 0x80 ≤ b) (h2 : b ≤ 0xBF) : (cp * 64 + b % 64) % 2 ^ 21 = cp * 64 + (b - 0x80) := by
  omega

theorem step_pend {p : Str} {s cp : Nat} (hp : Pend p s cp) (wf : Bool) (b : UInt8) : StepCases p ⟨cp, wf, s⟩ b := by
  obtain ⟨t24, t36, t84, t48, t60, t72, t96⟩ := trans_tab b
  unfold StepCases
  rw [step8_eq ⟨cp, wf, s⟩ b hp.live.1]
  simp only [nextCp, if_pos hp.live.2.1]
  cases hp with
  | two h1 h2 =>
    simp only [t24]
    by_cases hb : 0x80 ≤ b.toNat ∧ b.toNat ≤ 0xBF
    · left
      refine ⟨_, .two h1 h2 hb, ?_⟩
      simp only [if_pos hb, if_true]
      rw [cp_next (by omega) hb.1 hb.2]
    · right; right
      refine ⟨_, bad_of ?_ ?_, by simp [hb]; rfl⟩
      · intro s cp h
        cases h with
        | three h => unfold Lead3 at h; omega
        | four h => unfold Lead4 at h; omega
      · intro c h
        cases h with
        | two _ _ h => exact hb h
  | @e0 a h0 =>
    simp only [t48]
    by_cases hb : 0xA0 ≤ b.toNat ∧ b.toNat ≤ 0xBF
    · right; left
      refine ⟨_, _, .three (Or.inl ⟨h0, hb⟩), ?_⟩
      simp only [if_pos hb]
      rw [cp_next (by omega) (by omega) hb.2, h0]
      simp
    · right; right
      refine ⟨_, bad_of ?_ ?_, by simp [hb]; rfl⟩
      · intro s cp h
        cases h with
        | three h => unfold Lead3 at h; omega
        | four h => unfold Lead4 at h; omega
      · intro c h
        cases h with
        | two h1 h2 h => omega
  | @e a h0 h1 h2 =>
    simp only [t36]
    by_cases hb : 0x80 ≤ b.toNat ∧ b.toNat ≤ 0xBF
    · right; left
      refine ⟨_, _, .three (Or.inr (Or.inr ⟨h0, h1, h2, hb⟩)), ?_⟩
      simp only [if_pos hb]
      rw [cp_next (by omega) hb.1 hb.2]
      simp
    · right; right
      refine ⟨_, bad_of ?_ ?_, by simp [hb]; rfl⟩
      · intro s cp h
        cases h with
        | three h => unfold Lead3 at h; omega
        | four h => unfold Lead4 at h; omega
      · intro c h
        cases h with
        | two h1 h2 h => omega
  | @ed a h0 =>
    simp only [t60]
    by_cases hb : 0x80 ≤ b.toNat ∧ b.toNat ≤ 0x9F
    · right; left
      refine ⟨_, _, .three (Or.inr (Or.inl ⟨h0, hb⟩)), ?_⟩
      simp only [if_pos hb]
      rw [cp_next (by omega) hb.1 (by omega), h0]
      simp
    · right; right
      refine ⟨_, bad_of ?_ ?_, by simp [hb]; rfl⟩
      · intro s cp h
        cases h with
        | three h => unfold Lead3 at h; omega
        | four h => unfold Lead4 at h; omega
      · intro c h
        cases h with
        | two h1 h2 h => omega
  | @f0 a h0 =>
    simp only [t72]
    by_cases hb : 0x90 ≤ b.toNat ∧ b.toNat ≤ 0xBF
    · right; left
      refine ⟨_, _, .four (Or.inl ⟨h0, hb⟩), ?_⟩
      simp only [if_pos hb]
      rw [cp_next (by omega) (by omega) hb.2, h0]
      simp
    · right; right
      refine ⟨_, bad_of ?_ ?_, by simp [hb]; rfl⟩
      · intro s cp h
        cases h with
        | three h => unfold Lead3 at h; omega
        | four h => unfold Lead4 at h; omega
      · intro c h
        cases h with
        | two h1 h2 h => omega
  | @f a h0 h1 =>
    simp only [t84]
    by_cases hb : 0x80 ≤ b.toNat ∧ b.toNat ≤ 0xBF
    · right; left
      refine ⟨_, _, .four (Or.inr (Or.inl ⟨h0, h1, hb⟩)), ?_⟩
      simp only [if_pos hb]
      rw [cp_next (by omega) hb.1 hb.2]
      simp
    · right; right
      refine ⟨_, bad_of ?_ ?_, by simp [hb]; rfl⟩
      · intro s cp h
        cases h with
        | three h => unfold Lead3 at h; omega
        | four h => unfold Lead4 at h; omega
      · intro c h
        cases h with
        | two h1 h2 h => omega
  | @f4 a h0 =>
    simp only [t96]
    by_cases hb : 0x80 ≤ b.toNat ∧ b.toNat ≤ 0x8F
    · right; left
      refine ⟨_, _, .four (Or.inr (Or.inr ⟨h0, hb⟩)), ?_⟩
      simp only [if_pos hb]
      rw [cp_next (by omega) hb.1 (by omega), h0]
      simp
    · right; right
      refine ⟨_, bad_of ?_ ?_, by simp [hb]; rfl⟩
      · intro s cp h
        cases h with
        | three h => unfold Lead3 at h; omega
        | four h => unfold Lead4 at h; omega
      · intro c h
        cases h with
        | two h1 h2 h => omega
  | @three a a' h0 =>
    simp only [t24]
    by_cases hb : 0x80 ≤ b.toNat ∧ b.toNat ≤ 0xBF
    · left
      refine ⟨_, .three h0 hb, ?_⟩
      simp only [if_pos hb, if_true]
      unfold Lead3 at h0
      rw [cp_next (by omega) hb.1 hb.2]
    · right; right
      refine ⟨_, bad_of ?_ ?_, by simp [hb]; rfl⟩
      · intro s cp h
        cases h with
        | four' h _ => unfold Lead4 at h; unfold Lead3 at h0; omega
      · intro c h
        cases h with
        | three _ h => exact hb h
  | @four a a' h0 =>
    simp only [t36]
    by_cases hb : 0x80 ≤ b.toNat ∧ b.toNat ≤ 0xBF
    · right; left
      refine ⟨_, _, .four' h0 hb, ?_⟩
      simp only [if_pos hb]
      unfold Lead4 at h0
      rw [cp_next (by omega) hb.1 hb.2]
      simp
    · right; right
      refine ⟨_, bad_of ?_ ?_, by simp [hb]; rfl⟩
      · intro s cp h
        cases h with
        | four' _ h => exact hb h
      · intro c h
        cases h with
        | three h _ => unfold Lead3 at h; unfold Lead4 at h0; omega
  | @four' a a' a'' h0 h1 =>
    simp only [t24]
    by_cases hb : 0x80 ≤ b.toNat ∧ b.toNat ≤ 0xBF
    · left
      refine ⟨_, .four h0 h1 hb, ?_⟩
      simp only [if_pos hb, if_true]
      unfold Lead4 at h0
      unfold Cont at h1
      rw [cp_next (by omega) hb.1 hb.2]
    · right; right
      refine ⟨_, bad_of ?_ ?_, by simp [hb]; rfl⟩
      · intro s cp h; cases h
      · intro c h
        cases h with
        | four _ _ h => exact hb h

/-! ### Whole texts -/

/-- The decoder between code units, having read the beginning `p` of a sequence. -/
def At (p : Str) (st : St8) : Prop := (p = [] ∧ st.state = 0) ∨ Pend p st.state st.codePoint

theorem At.step {p : Str} {st : St8} (h : At p st) (b : UInt8) : StepCases p st b := by
  rcases h with ⟨rfl, h⟩ | h
  · exact step_first st b h
  · exact step_pend h st.wf b

theorem At.accept {p : Str} {st : St8} (h : At p st) (h0 : st.state = 0) : p = [] := by
  rcases h with ⟨rfl, _⟩ | h
  · rfl
  · exact absurd h0 h.live.2.1

/-- The end of the text. -/
theorem At.end_ {p : Str} {st : St8} (h : At p st) : (p = [] ∧ endCp8to32 st = .ok (st, [])) ∨
    (Truncated p ∧ endCp8to32 st = .ok ({ st with wf := false, state := 12 }, [0xFFFD])) := by
  rcases h with ⟨rfl, h⟩ | h
  · left
    exact ⟨rfl, by simp [endCp8to32, h, Icu.accept]⟩
  · right
    refine ⟨(truncated_iff p).2 ⟨_, _, h⟩, ?_⟩
    have := h.live.2.1
    unfold endCp8to32 Icu.accept
    rw [if_pos this]
    rfl

/-- Decoding the rest `s` of a text after the beginning `p` of a sequence. -/
theorem decode_rest : ∀ (s p : Str) (st : St8), At p st → ∃ st' out st'' e, t8_32.feed st s = .ok (st', out) ∧ t8_32.endCp st' = .ok (st'', e) ∧
    Reads (p ++ s) (out ++ e) ∧ (∃ p', At p' st') ∧ (st''.wf = true → st.wf = true ∧ IsUtf8 (p ++ s) (out ++ e)) := by
  intro s
  induction s with
  | nil =>
    intro p st h
    rcases h.end_ with ⟨rfl, he⟩ | ⟨ht, he⟩
    · exact ⟨st, [], st, [], rfl, he, by simpa using Reads.nil, ⟨_, h⟩, fun hw => ⟨hw, by simp [IsUtf8]⟩⟩
    · exact ⟨st, [], _, [0xFFFD], rfl, he, by simpa using Reads.cut ht, ⟨_, h⟩, fun hw => by simp at hw⟩
  | cons b s ih =>
    intro p st h
    rcases h.step b with ⟨c, hc, hs⟩ | ⟨s', cp, hc, hs⟩ | ⟨cp, hc, hs⟩
    · obtain ⟨st', out, st'', e, h1, h2, h3, h4, h5⟩ := ih [] ⟨c, st.wf, 0⟩ (Or.inl ⟨rfl, rfl⟩)
      obtain ⟨hu, hsc⟩ := shape_utf8 hc
      refine ⟨st', c :: out, st'', e, feed_cons hs h1, h2, ?_, h4, fun hw => ?_⟩
      · have := Reads.char hsc h3
        rw [hu] at this
        simpa using this
      · obtain ⟨hw1, hw2, hw3⟩ := h5 hw
        refine ⟨hw1, fun d hd => ?_, ?_⟩
        · rcases List.mem_cons.1 hd with rfl | hd
          · exact hsc
          · exact hw2 d hd
        · rw [List.cons_append, List.flatMap_cons, hu, ← hw3]; simp
    · obtain ⟨st', out, st'', e, h1, h2, h3, h4, h5⟩ := ih (p ++ [b]) ⟨cp, st.wf, s'⟩ (Or.inr hc)
      refine ⟨st', out, st'', e, feed_cons hs h1, h2, by simpa using h3, h4, fun hw => ?_⟩
      simpa using h5 hw
    · obtain ⟨st', out, st'', e, h1, h2, h3, h4, h5⟩ := ih [] ⟨cp, false, 0⟩ (Or.inl ⟨rfl, rfl⟩)
      refine ⟨st', 0xFFFD :: out, st'', e, feed_cons hs h1, h2, ?_, h4, fun hw => absurd (h5 hw).1 (by simp)⟩
      rw [List.cons_append]
      refine Reads.bad ?_ hc.1 hc.2 (by simpa using h3)
      rcases h with ⟨rfl, _⟩ | h
      · exact Or.inl rfl
      · exact Or.inr ((truncated_iff p).2 ⟨_, _, h⟩)

/-- Feeding the beginning of a sequence. -/
theorem feed_pend {p : Str} {s cp : Nat} (hp : Pend p s cp) (st : St8) (h0 : st.state = 0) : t8_32.feed st p = .ok (⟨cp, st.wf, s⟩, []) := by
  have one : ∀ {a : UInt8} {s cp : Nat}, Pend [a] s cp → ∀ st : St8, st.state = 0 → step8to32 st a = .ok (⟨cp, st.wf, s⟩, []) := by
    intro a s cp hp st h0
    rcases step_first st a h0 with ⟨c, hc, hs⟩ | ⟨s', cp', hc, hs⟩ | ⟨cp', hc, hs⟩
    · exfalso
      cases hc with
      | one h => cases hp <;> omega
    · rw [hs]
      rw [List.nil_append] at hc
      have : s' = s ∧ cp' = cp := by
        cases hc <;> cases hp <;> first | omega | (constructor <;> omega) 
      rw [this.1, this.2]
    · exact absurd ((truncated_iff _).2 ⟨_, _, hp⟩) hc.1
  have more : ∀ {p : Str} {a : UInt8} {s cp s1 cp1 : Nat}, Pend p s1 cp1 → Pend (p ++ [a]) s cp → ∀ wf : Bool,
      step8to32 ⟨cp1, wf, s1⟩ a = .ok (⟨cp, wf, s⟩, []) := by
    intro p a s cp s1 cp1 h1 h2 wf
    rcases step_pend h1 wf a with ⟨c, hc, hs⟩ | ⟨s', cp', hc, hs⟩ | ⟨cp', hc, hs⟩
    · exfalso
      cases h1 with
      | three h => cases hc with | three h' h'' => cases h2 with | four' k k' => unfold Lead3 at h; unfold Lead4 at k; omega
      | four h => cases hc with | three h' h'' => unfold Lead3 at h'; unfold Lead4 at h; omega
      | four' h h' => cases h2
      | two h h' => cases hc with | two => cases h2 with
          | three k => unfold Lead3 at k; omega
          | four k => unfold Lead4 at k; omega
      | e0 h => cases hc with | two => omega
      | e h => cases hc with | two => omega
      | ed h => cases hc with | two => omega
      | f0 h => cases hc with | two => omega
      | f h => cases hc with | two => omega
      | f4 h => cases hc with | two => omega
    · rw [hs]
      have : s' = s ∧ cp' = cp := by
        revert hc h2
        generalize p ++ [a] = q
        intro hc h2
        cases hc with
        | three h => cases h2 with
          | three h' => exact ⟨rfl, rfl⟩
          | four h' => unfold Lead3 at h; unfold Lead4 at h'; omega
        | four h => cases h2 with
          | three h' => unfold Lead3 at h'; unfold Lead4 at h; omega
          | four h' => exact ⟨rfl, rfl⟩
        | four' h k => cases h2 with
          | four' h' => exact ⟨rfl, rfl⟩
        | two => cases h2 <;> first | omega | (constructor <;> omega)
        | e0 => cases h2 <;> first | omega | (constructor <;> omega)
        | e => cases h2 <;> first | omega | (constructor <;> omega)
        | ed => cases h2 <;> first | omega | (constructor <;> omega)
        | f0 => cases h2 <;> first | omega | (constructor <;> omega)
        | f => cases h2 <;> first | omega | (constructor <;> omega)
        | f4 => cases h2 <;> first | omega | (constructor <;> omega)
      rw [this.1, this.2]
    · exact absurd ((truncated_iff _).2 ⟨_, _, h2⟩) hc.1
  have h1 : ∀ {a : UInt8} {s cp : Nat}, Pend [a] s cp → t8_32.feed st [a] = .ok (⟨cp, st.wf, s⟩, []) :=
    fun h => feed_one (one h st h0)
  have lead3 : ∀ {a b : UInt8}, Lead3 a b → ∃ s cp, Pend [a] s cp := by
    rintro a b (⟨h, _⟩ | ⟨h, _⟩ | ⟨h, h', h'', _⟩)
    · exact ⟨_, _, .e0 h⟩
    · exact ⟨_, _, .ed h⟩
    · exact ⟨_, _, .e h h' h''⟩
  have lead4 : ∀ {a b : UInt8}, Lead4 a b → ∃ s cp, Pend [a] s cp := by
    rintro a b (⟨h, _⟩ | ⟨h, h', _⟩ | ⟨h, _⟩)
    · exact ⟨_, _, .f0 h⟩
    · exact ⟨_, _, .f h h'⟩
    · exact ⟨_, _, .f4 h⟩
  have hp' := hp
  cases hp' with
  | @three a b h =>
    obtain ⟨s1, cp1, h2⟩ := lead3 h
    exact feed_append (h1 h2) (feed_one (more (p := [a]) h2 hp st.wf))
  | @four a b h =>
    obtain ⟨s1, cp1, h2⟩ := lead4 h
    exact feed_append (h1 h2) (feed_one (more (p := [a]) h2 hp st.wf))
  | @four' a b d h h' =>
    obtain ⟨s1, cp1, h2⟩ := lead4 h
    have h3 : Pend [a, b] _ _ := .four h
    have := feed_append (h1 h2) (feed_one (more (p := [a]) h2 h3 st.wf))
    exact feed_append this (feed_one (more (p := [a, b]) h3 hp st.wf))
  | _ => exact h1 hp

theorem shape_inj {c c' : Nat} {s : Str} (h : Shape c s) (h' : Shape c' s) : c = c' := by
  cases h <;> cases h' <;> rfl

theorem shape_not_pend {c : Nat} {p : Str} {s cp : Nat} (h : Shape c p) (h' : Pend p s cp) : False := by
  cases h with
  | one h => cases h' <;> omega
  | two h1 h2 => cases h' with
    | three h => unfold Lead3 at h; omega
    | four h => unfold Lead4 at h; omega
  | three h1 h2 => cases h' with
    | four' h _ => unfold Lead3 at h1; unfold Lead4 at h; omega
  | four => cases h'

/-- Feeding a whole sequence. -/
theorem feed_char {c : Nat} (hc : Scalar c) (st : St8) (h0 : st.state = 0) : t8_32.feed st (utf8 c) = .ok (⟨c, st.wf, 0⟩, [c]) := by
  have hsh := utf8_shape hc
  have hne : utf8 c ≠ [] := by
    intro h; rw [h] at hsh; cases hsh
  obtain ⟨p, b, hpb⟩ : ∃ p b, utf8 c = p ++ [b] := ⟨(utf8 c).dropLast, (utf8 c).getLast hne, (List.dropLast_concat_getLast hne).symm⟩
  rw [hpb] at hsh
  rw [hpb]
  have last : ∀ st' : St8, At p st' → step8to32 st' b = .ok (⟨c, st'.wf, 0⟩, [c]) := by
    intro st' hat
    rcases hat.step b with ⟨c', hc', hs⟩ | ⟨s', cp, hc', hs⟩ | ⟨cp, hc', hs⟩
    · rw [hs, shape_inj hsh hc']
    · exact (shape_not_pend hsh hc').elim
    · exact absurd ⟨c, hc, hpb⟩ hc'.2
  cases hp : p with
  | nil =>
    subst hp
    exact feed_one (last st (Or.inl ⟨rfl, h0⟩))
  | cons a r =>
    obtain ⟨s, cp, hpe⟩ := (truncated_iff p).1 ⟨by rw [hp]; simp, c, [b], hc, by simp, hpb⟩
    rw [← hp]
    have h1 := feed_pend hpe st h0
    exact feed_append h1 (feed_one (last ⟨cp, st.wf, s⟩ (Or.inr hpe)))

/-- Feeding a text. -/
theorem feed_text (cs : List Nat) : (∀ c ∈ cs, Scalar c) → ∀ st : St8, st.state = 0 → ∃ cp, t8_32.feed st (cs.flatMap utf8) = .ok (⟨cp, st.wf, 0⟩, cs) := by
  induction cs with
  | nil =>
    intro _ st h0
    refine ⟨st.codePoint, ?_⟩
    obtain ⟨cp, wf, s⟩ := st
    simp only at h0
    subst h0; rfl
  | cons c cs ih =>
    intro h st h0
    obtain ⟨cp, h2⟩ := ih (fun d hd => h d (by simp [hd])) ⟨c, st.wf, 0⟩ rfl
    rw [List.flatMap_cons]
    exact ⟨cp, feed_append (feed_char (h c (by simp)) st h0) h2⟩

/-- `Reads` says what the decoder does. -/
theorem feed_reads {s : Str} {cs : List Nat} (h : Reads s cs) : ∀ st : St8, st.state = 0 → ∃ st' out st'' e, t8_32.feed st s = .ok (st', out) ∧
    t8_32.endCp st' = .ok (st'', e) ∧ out ++ e = cs := by
  induction h with
  | nil => intro st h0; exact ⟨st, [], st, [], rfl, by simp [t8_32, endCp8to32, h0, accept], rfl⟩
  | @char c s cs hc _ ih =>
    intro st h0
    obtain ⟨st', out, st'', e, h1, h2, h3⟩ := ih ⟨c, st.wf, 0⟩ rfl
    exact ⟨st', c :: out, st'', e, feed_append (feed_char hc st h0) h1, h2, by simp [h3]⟩
  | @bad p b s cs hp hb1 hb2 _ ih =>
    intro st h0
    have key : ∀ st' : St8, At p st' → ∃ cp, step8to32 st' b = .ok (⟨cp, false, 0⟩, [0xFFFD]) := by
      intro st' hat
      rcases hat.step b with ⟨c', hc', hs⟩ | ⟨s', cp, hc', hs⟩ | ⟨cp, hc', hs⟩
      · exact absurd ⟨c', (shape_utf8 hc').2, (shape_utf8 hc').1⟩ hb2
      · exact absurd ((truncated_iff _).2 ⟨_, _, hc'⟩) hb1
      · exact ⟨cp, hs⟩
    obtain ⟨st1, hst1, hat⟩ : ∃ st1, t8_32.feed st p = .ok (st1, []) ∧ At p st1 := by
      rcases hp with rfl | hp
      · exact ⟨st, rfl, Or.inl ⟨rfl, h0⟩⟩
      · obtain ⟨s', cp, hpe⟩ := (truncated_iff p).1 hp
        exact ⟨_, feed_pend hpe st h0, Or.inr hpe⟩
    obtain ⟨cp, hs⟩ := key st1 hat
    obtain ⟨st', out, st'', e, h1, h2, h3⟩ := ih ⟨cp, false, 0⟩ rfl
    exact ⟨st', [] ++ ([0xFFFD] ++ out), st'', e, feed_append hst1 (feed_cons hs h1), h2, by simp [h3]⟩
  | @cut p hp =>
    intro st h0
    obtain ⟨s', cp, hpe⟩ := (truncated_iff p).1 hp
    have hne := hpe.live.2.1
    exact ⟨_, [], _, [0xFFFD], feed_pend hpe st h0, by simp [t8_32, endCp8to32, hne, accept]; rfl, rfl⟩

/-- What is read is scalar values. -/
theorem reads_scalar {s : Str} {cs : List Nat} (h : Reads s cs) : ∀ c ∈ cs, Scalar c := by
  have hr : Scalar 0xFFFD := by decide
  induction h with
  | nil => simp
  | char hc _ ih => intro c h; exact (List.mem_cons.1 h).elim (fun e => e ▸ hc) (ih c)
  | bad _ _ _ _ ih => intro c h; exact (List.mem_cons.1 h).elim (fun e => e ▸ hr) (ih c)
  | cut _ => intro c h; simp at h; exact h ▸ hr

end Verif.Icu
