import Verif.Props.Icubaby
import Verif.Proofs.Maximal

/-!
# UTF transcoding: iterators (C50), using a transcoder again (C51), malformed text (C52)
-/

set_option linter.unusedSimpArgs false
set_option linter.unusedVariables false

namespace Verif
open Verif.Unicode Verif.Icu

/-! ### C50: equality of view iterators -/

/-- The iterators of a view after `m` and `n` increments, for all texts: the element there; when an iterator is at the end;
and that the two are equal iff there is no place in the text at which one of the two elements has been written and the other
has not, and one is at the end iff the other is. -/
def IteratorsCompare {ι ο : Type} (T : Transcoder ι ο) (cap : Nat) : Prop :=
  ∀ s : List ι, ∃ st out, T.run s = .ok (st, out) ∧ ∀ m n, m ≤ out.length → n ≤ out.length → ∃ a b, iterN T cap s m = .ok a ∧ iterN T cap s n = .ok b ∧
    (∀ c, out[m]? = some c → a.deref = .ok c) ∧ (a.atEnd = true ↔ m = out.length) ∧
    (a.eq b = true ↔ (∀ p q, s = p ++ q → q ≠ [] → ∀ st o, T.feed T.init p = .ok (st, o) → (o.length ≤ m ↔ o.length ≤ n)) ∧
      (m = out.length ↔ n = out.length))

theorem C50_utf8_utf32 : IteratorsCompare t8_32 maxOut32 := iter_eq lawful8_32 hQ1
theorem C50_utf8_utf16 : IteratorsCompare t8_16 maxOut16 := iter_eq lawful8_16 (by
  rintro l ⟨m, rfl | ⟨c, rfl⟩, rfl⟩
  · simp
  · simpa [maxOut16] using utf16_len _)
theorem C50_utf8_utf8 : IteratorsCompare t8_8 maxOut8 := iter_eq lawful8_8 (by
  rintro l ⟨m, rfl | ⟨c, rfl⟩, rfl⟩
  · simp
  · simpa [maxOut8] using utf8_len _)
theorem C50_utf16_utf32 : IteratorsCompare t16_32 maxOut16to32 := iter_eq lawful16_32 Q16_len
theorem C50_utf16_utf8 : IteratorsCompare t16_8 maxOut16to8 := iter_eq lawful16_8 (by
  rintro l ⟨m, rfl | ⟨c, rfl⟩ | ⟨a, b, rfl, ha, hb⟩, rfl⟩
  · simp
  · have := utf8_len (fixCp c)
    simp [maxOut16to8]; omega
  · have := utf8_len_bmp _ (fixCp_bmp ha)
    have := utf8_len_bmp _ (fixCp_bmp hb)
    simp [maxOut16to8]; omega)
theorem C50_utf16_utf16 : IteratorsCompare t16_16 maxOut16 := iter_eq lawful16_16 (by
  rintro l ⟨m, rfl | ⟨c, rfl⟩ | ⟨a, b, rfl, ha, hb⟩, rfl⟩
  · simp
  · simpa [maxOut16] using utf16_len _
  · have := utf16_len_bmp _ (fixCp_bmp ha)
    have := utf16_len_bmp _ (fixCp_bmp hb)
    simp [maxOut16]; omega)
theorem C50_utf32_utf8 : IteratorsCompare t32_8 maxOut8 := iter_eq simple32_8.lawful (by
  rintro l (rfl | ⟨c, rfl⟩)
  · simp
  · exact utf8_len _)
theorem C50_utf32_utf16 : IteratorsCompare t32_16 maxOut16 := iter_eq simple32_16.lawful (by
  rintro l (rfl | ⟨c, rfl⟩)
  · simp
  · exact utf16_len _)
theorem C50_utf32_utf32 : IteratorsCompare t32_32 maxOut32 := iter_eq simple32_32.lawful (by rintro l (rfl | ⟨c, rfl⟩) <;> simp [maxOut32])

theorem iter_one {ι ο : Type} {T : Transcoder ι ο} {Q : List ο → Prop} {I : T.σ → Prop} (L : Lawful T Q I) (hQ : ∀ l, Q l → l.length ≤ 1) (s : List ι) :
    ∃ st out, T.run s = .ok (st, out) ∧ ∀ m n, m ≤ out.length → n ≤ out.length → ∃ a b,
      iterN T 1 s m = .ok a ∧ iterN T 1 s n = .ok b ∧ (a.eq b = true ↔ m = n) := by
  obtain ⟨st, out, h⟩ := L.run s
  refine ⟨st, out, h, fun m n hm hn => ?_⟩
  obtain ⟨a, a1, _, a3, a4⟩ := iter_moves L hQ s h m hm
  obtain ⟨b, b1, _, b3, b4⟩ := iter_moves L hQ s h n hn
  refine ⟨a, b, a1, b1, ⟨fun e => ?_, fun e => ?_⟩⟩
  · simp only [ViewIt.eq, beq_iff_eq] at e
    rcases Nat.lt_trichotomy m n with h | h | h
    · have := b4 m h a a1; omega
    · exact h
    · have := a4 n h b b1; omega
  · subst e
    rw [a1] at b1
    cases b1
    simp [ViewIt.eq]

/-- In the views to UTF-32 from UTF-8, which the library uses, and from UTF-32, two iterators are equal iff they are at the
same element. -/
theorem C50_utf8_utf32_same (s : Str) : ∃ st out, t8_32.run s = .ok (st, out) ∧ ∀ m n, m ≤ out.length → n ≤ out.length → ∃ a b,
    iterN t8_32 maxOut32 s m = .ok a ∧ iterN t8_32 maxOut32 s n = .ok b ∧ (a.eq b = true ↔ m = n) := iter_one lawful8_32 hQ1 s
theorem C50_utf32_utf32_same (s : List Nat) : ∃ st out, t32_32.run s = .ok (st, out) ∧ ∀ m n, m ≤ out.length → n ≤ out.length → ∃ a b,
    iterN t32_32 maxOut32 s m = .ok a ∧ iterN t32_32 maxOut32 s n = .ok b ∧ (a.eq b = true ↔ m = n) :=
  iter_one simple32_32.lawful (by rintro l (rfl | ⟨c, rfl⟩) <;> simp) s

/-- Where a code point is several code units long this fails: `begin () == ++begin ()`. -/
theorem C50_false : ∃ a b x y, iterN t32_8 maxOut8 [0xE9] 0 = .ok a ∧ iterN t32_8 maxOut8 [0xE9] 1 = .ok b ∧ a.deref = .ok x ∧ b.deref = .ok y ∧ x ≠ y ∧
    a.eq b = true :=
  ⟨⟨[0xE9], [], [0xC3, 0xA9], true, true⟩, ⟨[0xE9], [], [0xA9], true, true⟩, 0xC3, 0xA9, rfl, rfl, rfl, rfl, by decide, rfl⟩

example : (t8_32.run [0x41, 0xC3, 0xA9]).map (fun r => r.2) = .ok [0x41, 0xE9] := by decide +kernel


/-- To the view from UTF-16 to UTF-32 it happens after an unpaired surrogate. -/
theorem C50_false_utf16 : ∃ a b x y, iterN t16_32 maxOut16to32 [0xD83D, 0x41] 0 = .ok a ∧ iterN t16_32 maxOut16to32 [0xD83D, 0x41] 1 = .ok b ∧ a.deref = .ok x ∧
    b.deref = .ok y ∧ x ≠ y ∧ a.eq b = true :=
  ⟨⟨[0xD83D, 0x41], [], [0xFFFD, 0x41], ⟨0, false, false⟩, false⟩, ⟨[0xD83D, 0x41], [], [0x41], ⟨0, false, false⟩, false⟩, 0xFFFD, 0x41, rfl, rfl, rfl, rfl,
    by decide, rfl⟩

/-! ### C51: using a transcoder again after `end_cp` -/

/-- What is fed to the transcoder in the state `st`, up to `end_cp`, is transcoded as by a new transcoder. -/
def AsNew {ι ο : Type} (T : Transcoder ι ο) (st : T.σ) : Prop :=
  ∀ t, ∃ st2 o2 st3 e2 st4, T.feed st t = .ok (st2, o2) ∧ T.endCp st2 = .ok (st3, e2) ∧ T.run t = .ok (st4, o2 ++ e2)

/-- After any text and `end_cp` nothing is pending, and another text is transcoded as by a new transcoder. -/
def Reusable {ι ο : Type} (T : Transcoder ι ο) (s : List ι) : Prop :=
  ∃ st o st' e, T.feed T.init s = .ok (st, o) ∧ T.endCp st = .ok (st', e) ∧ T.isPartial st' = false ∧ AsNew T st'

/-- After any text and `end_cp` a code point is still pending; `end_cp` writes another replacement character; and the first
code unit of another text is lost: a replacement character `r` takes its place, and the rest is transcoded as by a new
transcoder. -/
def LosesOne {ι ο : Type} (T : Transcoder ι ο) (s : List ι) (r : List ο) : Prop :=
  ∃ st o st' e, T.feed T.init s = .ok (st, o) ∧ T.endCp st = .ok (st', e) ∧ T.isPartial st' = true ∧
    (∃ st2, T.endCp st' = .ok (st2, r)) ∧ ∀ b, ∃ st2, T.step st' b = .ok (st2, r) ∧ AsNew T st2

theorem reusable_utf16 (s : List UInt16) : ∃ st o st' e, t16_32.feed t16_32.init s = .ok (st, o) ∧ t16_32.endCp st = .ok (st', e) ∧
    t16_32.isPartial st' = false ∧ AsNew t16_32 st' ∧ e.length ≤ 2 := by
  obtain ⟨st, o, h1, h2⟩ := lawful16_32.total.feed s t16_32.init lawful16_32.total.init
  obtain ⟨_, st', e, h3⟩ := h2
  have hp : st'.hasHigh = false := by
    have h3 : endCp16to32 st = .ok (st', e) := h3
    unfold endCp16to32 at h3
    cases hx : st.hasHigh with
    | false =>
      rw [if_neg (by simp [hx])] at h3
      have e := congrArg Prod.fst (Except.ok.inj h3)
      exact (congrArg St16.hasHigh e).symm.trans hx
    | true =>
      rw [if_pos hx] at h3
      have e := congrArg Prod.fst (Except.ok.inj h3)
      exact (congrArg St16.hasHigh e).symm
  have hl : e.length ≤ 2 := by
    have h3 : endCp16to32 st = .ok (st', e) := h3
    unfold endCp16to32 at h3
    split at h3 <;> (have e := congrArg Prod.snd (Except.ok.inj h3); simp only at e; subst e; simp)
  refine ⟨st, o, st', e, h1, h3, hp, fun t => ?_, hl⟩
  obtain ⟨st2, o2, st3, e2, k1, k2, k3, _⟩ := decode16_rest t [] st' (Or.inl ⟨rfl, hp⟩)
  obtain ⟨st4, out, r1, r2, _⟩ := C44_decode t
  have : o2 ++ e2 = out := (r2 _).1 (by simpa using k3)
  exact ⟨st2, o2, st3, e2, st4, k1, k2, this ▸ r1⟩


theorem C51_utf16_utf32 (s : List UInt16) : Reusable t16_32 s := by
  obtain ⟨st, o, st', e, h1, h2, h3, h4, _⟩ := reusable_utf16 s
  exact ⟨st, o, st', e, h1, h2, h3, h4⟩
theorem C51_utf16_utf8 (s : List UInt16) : Reusable t16_8 s := by
  obtain ⟨st, o, st', e, h1, h2, h3, h4, h5⟩ := reusable_utf16 s
  obtain ⟨b1, k1⟩ := tri_feed (cap := 2) lawful16_32 simple32_8 Q16_len s _ t32_8.init trivial h1
  obtain ⟨b2, k2, _⟩ := tri_end (cap := 2) simple32_8 (b := b1) h2 h5
  exact ⟨_, _, _, _, k1, k2, h3, tri_ready lawful16_32 simple32_8 Q16_len trivial b2 h4⟩
theorem C51_utf16_utf16 (s : List UInt16) : Reusable t16_16 s := by
  obtain ⟨st, o, st', e, h1, h2, h3, h4, h5⟩ := reusable_utf16 s
  obtain ⟨b1, k1⟩ := tri_feed (cap := 2) lawful16_32 simple32_16 Q16_len s _ t32_16.init trivial h1
  obtain ⟨b2, k2, _⟩ := tri_end (cap := 2) simple32_16 (b := b1) h2 h5
  exact ⟨_, _, _, _, k1, k2, h3, tri_ready lawful16_32 simple32_16 Q16_len trivial b2 h4⟩

theorem C51_utf32_utf8 (s : List Nat) : Reusable t32_8 s := by
  obtain ⟨st, h, _⟩ := simple32_8.feed s t32_8.init
  exact ⟨st, _, st, [], h, rfl, rfl, simple_ready simple32_8 st⟩
theorem C51_utf32_utf16 (s : List Nat) : Reusable t32_16 s := by
  obtain ⟨st, h, _⟩ := simple32_16.feed s t32_16.init
  exact ⟨st, _, st, [], h, rfl, rfl, simple_ready simple32_16 st⟩
theorem C51_utf32_utf32 (s : List Nat) : Reusable t32_32 s := by
  obtain ⟨st, h, _⟩ := simple32_32.feed s t32_32.init
  exact ⟨st, _, st, [], h, rfl, rfl, simple_ready simple32_32 st⟩

theorem ready8 (st : St8) (h : st.state = 0) : AsNew t8_32 st := by
  intro t
  obtain ⟨st2, o2, st3, e2, k1, k2, k3, _⟩ := decode_rest t [] st (Or.inl ⟨rfl, h⟩)
  obtain ⟨st4, out, r1, r2⟩ := C41_decode t
  have : o2 ++ e2 = out := (r2 _).1 (by simpa using k3)
  exact ⟨st2, o2, st3, e2, st4, k1, k2, this ▸ r1⟩

theorem whole_or_cut (s : Str) : ∃ st o, t8_32.feed t8_32.init s = .ok (st, o) ∧
    ((st.state = 0 ∧ ReadsWhole s o) ∨ (st.state ≠ 0 ∧ ∃ a p, s = a ++ p ∧ ReadsWhole a o ∧ Truncated p)) := by
  obtain ⟨st, o, a, p, h1, h2, h3, h4⟩ := feed_whole s [] t8_32.init (Or.inl ⟨rfl, rfl⟩)
  rw [List.nil_append] at h3
  refine ⟨st, o, h1, ?_⟩
  rcases h2 with ⟨rfl, h⟩ | h
  · rw [List.append_nil] at h3
    subst h3
    exact Or.inl ⟨h, h4⟩
  · exact Or.inr ⟨h.live.2.1, a, p, h3, h4, (truncated_iff p).2 ⟨_, _, h⟩⟩

theorem whole_reads {s : Str} {cs : List Nat} (h : ReadsWhole s cs) : Reads s cs := by
  induction h with
  | nil => exact .nil
  | char hc _ ih => exact .char hc ih
  | bad h0 h1 h2 _ ih => exact .bad h0 h1 h2 ih

theorem whole_feed {s : Str} {cs : List Nat} (h : ReadsWhole s cs) : ∀ st : St8, st.state = 0 → ∃ st', t8_32.feed st s = .ok (st', cs) ∧ st'.state = 0 := by
  induction h with
  | nil => intro st h0; exact ⟨st, rfl, h0⟩
  | @char c s cs hc _ ih =>
    intro st h0
    obtain ⟨st', h1, h2⟩ := ih ⟨c, st.wf, 0⟩ rfl
    exact ⟨st', feed_append (feed_char hc st h0) h1, h2⟩
  | @bad p b s cs hp hb1 hb2 _ ih =>
    intro st h0
    obtain ⟨st1, hst1, hat⟩ : ∃ st1, t8_32.feed st p = .ok (st1, []) ∧ At p st1 := by
      rcases hp with rfl | hp
      · exact ⟨st, rfl, Or.inl ⟨rfl, h0⟩⟩
      · obtain ⟨s', cp, hpe⟩ := (truncated_iff p).1 hp
        exact ⟨_, feed_pend hpe st h0, Or.inr hpe⟩
    obtain ⟨cp, hs⟩ : ∃ cp, step8to32 st1 b = .ok (⟨cp, false, 0⟩, [0xFFFD]) := by
      rcases hat.step b with ⟨c', hc', hs⟩ | ⟨s', cp, hc', hs⟩ | ⟨cp, hc', hs⟩
      · exact absurd ⟨c', (shape_utf8 hc').2, (shape_utf8 hc').1⟩ hb2
      · exact absurd ((truncated_iff _).2 ⟨_, _, hc'⟩) hb1
      · exact ⟨cp, hs⟩
    obtain ⟨st', h1, h2⟩ := ih ⟨cp, false, 0⟩ rfl
    exact ⟨st', feed_append (o := []) hst1 (feed_cons (o := [0xFFFD]) hs h1), h2⟩

/-- Every text is one or the other, and only one: it ends inside a sequence or it does not. -/
theorem C51_utf8_cases (s : Str) : (∃ cs, ReadsWhole s cs) ↔ ¬ ∃ a p cs, s = a ++ p ∧ ReadsWhole a cs ∧ Truncated p := by
  constructor
  · rintro ⟨cs, h⟩ ⟨a, p, ds, rfl, h1, h2⟩
    obtain ⟨st, k1, k2⟩ := whole_feed h t8_32.init rfl
    obtain ⟨st1, k3, k4⟩ := whole_feed h1 t8_32.init rfl
    obtain ⟨s', cp, hpe⟩ := (truncated_iff p).1 h2
    have k5 := feed_append k3 (feed_pend hpe st1 k4)
    have e : st = ⟨cp, st1.wf, s'⟩ := congrArg Prod.fst (Except.ok.inj (k1.symm.trans k5))
    rw [e] at k2
    exact hpe.live.2.1 k2
  · intro h
    obtain ⟨st, o, h1, h2 | ⟨_, a, p, h2, h3, h4⟩⟩ := whole_or_cut s
    · exact ⟨o, h2.2⟩
    · exact absurd ⟨a, p, o, h2, h3, h4⟩ h

theorem whole_end {s : Str} {cs : List Nat} (h : ReadsWhole s cs) : ∃ st : St8, t8_32.feed t8_32.init s = .ok (st, cs) ∧ t8_32.endCp st = .ok (st, []) ∧ st.state = 0 := by
  obtain ⟨st, h1, h2⟩ := whole_feed h t8_32.init rfl
  exact ⟨st, h1, by simp [t8_32, endCp8to32, h2, accept], h2⟩

theorem cut_end {a p : Str} {cs : List Nat} (h : ReadsWhole a cs) (hp : Truncated p) : ∃ (st : St8) (cp : Nat), t8_32.feed t8_32.init (a ++ p) = .ok (st, cs) ∧
    t8_32.endCp st = .ok (⟨cp, false, 12⟩, [0xFFFD]) := by
  obtain ⟨st1, k3, k4⟩ := whole_feed h t8_32.init rfl
  obtain ⟨s', cp, hpe⟩ := (truncated_iff p).1 hp
  have k5 := feed_append k3 (feed_pend hpe st1 k4)
  have hne := hpe.live.2.1
  refine ⟨_, cp, by rw [k5, List.append_nil], ?_⟩
  simp [t8_32, endCp8to32, hne, accept, reject, replacementChar]

/-- From UTF-8: all is well unless the text ends inside a sequence; if it does, the next byte is lost. -/
theorem C51_utf8_utf32 (s : Str) : ((∃ cs, ReadsWhole s cs) → Reusable t8_32 s) ∧
    ((∃ a p cs, s = a ++ p ∧ ReadsWhole a cs ∧ Truncated p) → LosesOne t8_32 s [0xFFFD]) := by
  constructor
  · rintro ⟨cs, h⟩
    obtain ⟨st, h1, h2, h3⟩ := whole_end h
    exact ⟨st, _, st, _, h1, h2, by simp [t8_32, h3, accept], ready8 st h3⟩
  · rintro ⟨a, p, cs, rfl, h, hp⟩
    obtain ⟨st, cp, h1, h2⟩ := cut_end h hp
    refine ⟨st, _, _, _, h1, h2, rfl, ⟨_, rfl⟩, fun b => ?_⟩
    obtain ⟨cp', h3⟩ := step_reject cp false b
    exact ⟨_, h3, ready8 _ rfl⟩

theorem lift8 {ο : Type} {B : Transcoder Nat ο} {f : Nat → List ο} {g : Nat → Bool} (S : Simple B f g) (s : Str) :
    ((∃ cs, ReadsWhole s cs) → Reusable (triangulator 1 t8_32 B) s) ∧
    ((∃ a p cs, s = a ++ p ∧ ReadsWhole a cs ∧ Truncated p) → LosesOne (triangulator 1 t8_32 B) s ([0xFFFD].flatMap f)) := by
  constructor
  · rintro ⟨cs, h⟩
    obtain ⟨st, h1, h2, h3⟩ := whole_end h
    obtain ⟨b1, k1⟩ := tri_feed (cap := 1) lawful8_32 S hQ1 s _ B.init ⟨[], Or.inl ⟨rfl, rfl⟩⟩ h1
    obtain ⟨b2, k2, _⟩ := tri_end (cap := 1) S (b := b1) h2 (by simp)
    exact ⟨_, _, _, _, k1, k2, by simp [triangulator, t8_32, h3, accept], tri_ready lawful8_32 S hQ1 ⟨[], Or.inl ⟨rfl, h3⟩⟩ b2 (ready8 st h3)⟩
  · rintro ⟨a, p, cs, rfl, h, hp⟩
    obtain ⟨st, cp, h1, h2⟩ := cut_end h hp
    obtain ⟨b1, k1⟩ := tri_feed (cap := 1) lawful8_32 S hQ1 (a ++ p) _ B.init ⟨[], Or.inl ⟨rfl, rfl⟩⟩ h1
    obtain ⟨b2, k2, _⟩ := tri_end (cap := 1) S (b := b1) h2 (by simp)
    have h3 : t8_32.endCp ⟨cp, false, 12⟩ = .ok (⟨cp, false, 12⟩, [0xFFFD]) := rfl
    obtain ⟨b3, k3, _⟩ := tri_end (cap := 1) S (b := b2) h3 (by simp)
    refine ⟨_, _, _, _, k1, k2, rfl, ⟨_, k3⟩, fun b => ?_⟩
    obtain ⟨cp', h4⟩ := step_reject cp false b
    obtain ⟨b4, k4, _⟩ := tri_step (cap := 1) (A := t8_32) S (b := b2) h4 (by simp)
    exact ⟨_, k4, tri_ready lawful8_32 S hQ1 ⟨[], Or.inl ⟨rfl, rfl⟩⟩ b4 (ready8 _ rfl)⟩

theorem C51_utf8_utf8 (s : Str) : ((∃ cs, ReadsWhole s cs) → Reusable t8_8 s) ∧
    ((∃ a p cs, s = a ++ p ∧ ReadsWhole a cs ∧ Truncated p) → LosesOne t8_8 s [0xEF, 0xBF, 0xBD]) := by
  have := lift8 simple32_8 s
  rwa [show ([0xFFFD] : List Nat).flatMap (fun c => utf8 (fixCp c)) = [0xEF, 0xBF, 0xBD] by decide +kernel] at this
theorem C51_utf8_utf16 (s : Str) : ((∃ cs, ReadsWhole s cs) → Reusable t8_16 s) ∧
    ((∃ a p cs, s = a ++ p ∧ ReadsWhole a cs ∧ Truncated p) → LosesOne t8_16 s [0xFFFD]) := by
  have := lift8 simple32_16 s
  rwa [show ([0xFFFD] : List Nat).flatMap (fun c => utf16 (fixCp c)) = [0xFFFD] by decide +kernel] at this

example : Truncated [0xC3] ∧ ReadsWhole [0x41] [0x41] :=
  ⟨⟨by simp, 0xE9, [0xA9], by decide, by simp, by decide +kernel⟩, ReadsWhole.char (c := 0x41) (s := []) (by decide) .nil⟩

/-- If it did, a code point is still pending after `end_cp`, and the first byte of the next text is
lost. -/
theorem C51_false : ∃ st o st' e st2, t8_32.feed t8_32.init [0xC3] = .ok (st, o) ∧ t8_32.endCp st = .ok (st', e) ∧ t8_32.isPartial st' = true ∧
    t8_32.feed st' [0x41] = .ok (st2, [0xFFFD]) :=
  ⟨⟨3, true, 24⟩, [], ⟨3, false, 12⟩, [0xFFFD], ⟨0xC1, false, 0⟩, by decide +kernel, by decide +kernel, by decide +kernel, by decide +kernel⟩


/-! ### C52: malformed UTF-8 does not hide what follows -/

/-- What is recommended is determined: each text is read in exactly one way. -/
theorem C52_standard (s : Str) : ∃ cs, ∀ ds, ReadsMaximal s ds ↔ ds = cs := by
  obtain ⟨cs, h⟩ := readsMaximal_exists s
  exact ⟨cs, fun ds => ⟨fun h' => readsMaximal_unique h' h, fun e => e ▸ h⟩⟩

/-- Where no sequence is broken off the decoder does what is recommended. -/
theorem C52_agrees (s : Str) (h : Unbroken s) : ∃ st out, t8_32.run s = .ok (st, out) ∧ ∀ cs, ReadsMaximal s cs ↔ cs = out := by
  obtain ⟨cs, h1, h2⟩ := unbroken_both h
  obtain ⟨st, h3⟩ := run8_reads h1
  exact ⟨st, cs, h3, fun ds => ⟨fun h' => readsMaximal_unique h' h2, fun e => e ▸ h2⟩⟩

/-- Where one is broken off, the byte that does so is lost with it, and nothing else: the text after it is read as by a new
decoder. -/
theorem C52_swallows (p : Str) (b : UInt8) (s : Str) (h0 : Truncated p) (h1 : ¬ Truncated (p ++ [b])) (h2 : ¬ ∃ c, Scalar c ∧ utf8 c = p ++ [b]) :
    ∃ st st' out, t8_32.run (p ++ b :: s) = .ok (st, 0xFFFD :: out) ∧ t8_32.run s = .ok (st', out) := by
  obtain ⟨st', out, h3, h4, _⟩ := run8 s
  obtain ⟨st, h5⟩ := run8_reads (Reads.bad (Or.inr h0) h1 h2 h4)
  exact ⟨st, st', out, h5, h3⟩

theorem shape_lead {c : Nat} {t : Str} (h : Shape c t) : ∃ b r, t = b :: r ∧ ¬ Cont b ∧ ∀ x ∈ r, Cont x := by
  cases h with
  | one h => exact ⟨_, [], rfl, by unfold Cont; omega, by simp⟩
  | two h1 h2 h3 => exact ⟨_, _, rfl, by unfold Cont; omega, by simpa using h3⟩
  | @three a b d h1 h2 =>
    unfold Lead3 at h1
    refine ⟨_, _, rfl, by unfold Cont; omega, ?_⟩
    intro x hx
    simp only [List.mem_cons, List.not_mem_nil, or_false] at hx
    rcases hx with rfl | rfl
    · unfold Cont; omega
    · exact h2
  | @four a b d e h1 h2 h3 =>
    unfold Lead4 at h1
    refine ⟨_, _, rfl, by unfold Cont; omega, ?_⟩
    intro x hx
    simp only [List.mem_cons, List.not_mem_nil, or_false] at hx
    rcases hx with rfl | rfl | rfl
    · unfold Cont; omega
    · exact h2
    · exact h3

theorem cont_feed : ∀ (r : Str), (∀ x ∈ r, Cont x) → ∀ st : St8, st.state = 0 → ∃ st' o, t8_32.feed st r = .ok (st', o) ∧ st'.state = 0 := by
  intro r
  induction r with
  | nil => intro _ st h0; exact ⟨st, [], rfl, h0⟩
  | cons b r ih =>
    intro h st h0
    have hb := h b (by simp)
    unfold Cont at hb
    rcases step_first st b h0 with ⟨c, hc, hs⟩ | ⟨s', cp, hc, hs⟩ | ⟨cp, hc, hs⟩
    · cases hc; omega
    · rw [List.nil_append] at hc
      cases hc <;> omega
    · obtain ⟨st', o, h1, h2⟩ := ih (fun x hx => h x (by simp [hx])) ⟨cp, false, 0⟩ rfl
      exact ⟨st', _, feed_cons hs h1, h2⟩

/-- Whatever came before, of a well-formed text that follows at most the first character is lost. -/
theorem C52_resynchronises (s : Str) {t : Str} {c : Nat} {cs : List Nat} (ht : IsUtf8 t (c :: cs)) : ∃ st out, t8_32.run (s ++ t) = .ok (st, out ++ cs) := by
  obtain ⟨hc, rfl⟩ := ht
  have hsc := hc c (by simp)
  have hcs : ∀ d ∈ cs, Scalar d := fun d hd => hc d (by simp [hd])
  obtain ⟨st, o, h1, ⟨p, h2⟩, _⟩ := lawful8_32.total.feed s t8_32.init lawful8_32.total.init
  obtain ⟨st1, o1, h3, h4⟩ : ∃ st1 o1, t8_32.feed st (utf8 c) = .ok (st1, o1) ∧ st1.state = 0 := by
    rcases h2 with ⟨rfl, h2⟩ | h2
    · exact ⟨_, _, feed_char hsc st h2, rfl⟩
    · obtain ⟨b, r, e, hb, hr⟩ := shape_lead (utf8_shape hsc)
      rw [e]
      have step : ∃ cp, step8to32 st b = .ok (⟨cp, false, 0⟩, [0xFFFD]) := by
        have hp : p ≠ [] := by
          intro e; subst e; cases h2
        have last : ∀ q : Str, q = p ++ [b] → ∃ a m, q = a :: (m ++ [b]) := by
          intro q e
          cases p with
          | nil => exact absurd rfl hp
          | cons a p => exact ⟨a, p, e⟩
        rcases step_pend h2 st.wf b with ⟨c', hc', hs⟩ | ⟨s', cp, hc', hs⟩ | ⟨cp, hc', hs⟩
        · exfalso
          obtain ⟨a, r', k1, k2, k3⟩ := shape_lead hc'
          obtain ⟨a', m, k4⟩ := last _ rfl
          rw [k1] at k4
          simp only [List.cons.injEq] at k4
          exact hb (k3 b (by rw [k4.2]; simp))
        · exfalso
          obtain ⟨_, d, q, hd, _, e'⟩ := (truncated_iff _).2 ⟨_, _, hc'⟩
          obtain ⟨a, r', k1, k2, k3⟩ := shape_lead (utf8_shape hd)
          obtain ⟨a', m, k4⟩ := last _ rfl
          rw [e', k4] at k1
          simp only [List.cons_append, List.cons.injEq] at k1
          exact hb (k3 b (by rw [← k1.2]; simp))
        · exact ⟨cp, hs⟩
      obtain ⟨cp, hs⟩ := step
      obtain ⟨st', o', k1, k2⟩ := cont_feed r hr ⟨cp, false, 0⟩ rfl
      exact ⟨st', _, feed_cons hs k1, k2⟩
  obtain ⟨cp, h5⟩ := feed_text cs hcs st1 h4
  have h6 := feed_append h1 (feed_append h3 h5)
  rw [← List.flatMap_cons] at h6
  refine ⟨⟨cp, st1.wf, 0⟩, o ++ o1, (run_of_feed h6 (e := []) rfl).trans ?_⟩
  rw [List.append_nil, List.append_assoc]

/-- The text "C3 41" is not read as the Unicode Standard wants it, the `A` being lost. -/
theorem C52_false : (∀ cs, ReadsMaximal [0xC3, 0x41] cs → cs = [0xFFFD, 0x41]) ∧ ReadsMaximal [0xC3, 0x41] [0xFFFD, 0x41] ∧
    ∃ st, t8_32.run [0xC3, 0x41] = .ok (st, [0xFFFD]) := by
  have nt : ¬ Truncated [0xC3, 0x41] := by
    intro h
    obtain ⟨s, cp, hp⟩ := (truncated_iff _).1 h
    cases hp with
    | three h => simp [Lead3] at h
    | four h => simp [Lead4] at h
  have ns : ∀ c, Scalar c → utf8 c ≠ [0xC3, 0x41] := by
    intro c hc e
    have := utf8_shape hc
    rw [e] at this
    cases this with
    | two _ _ h => simp [Cont] at h
  have tr : Truncated [0xC3] := ⟨by simp, 0xE9, [0xA9], by decide, by simp, by decide +kernel⟩
  have ns1 : ∀ c, Scalar c → utf8 c ≠ [0xC3] := by
    intro c hc e
    have := utf8_shape hc
    rw [e] at this
    cases this with
    | one h => simp at h
  have n41 : ¬ Truncated [0x41] := by
    intro h
    obtain ⟨s, cp, hp⟩ := (truncated_iff _).1 h
    cases hp <;> simp_all
  have one41 : ∀ cs, ReadsMaximal [0x41] cs → cs = [0x41] := by
    intro cs h
    obtain ⟨t, ht, h⟩ : ∃ t, t = [0x41] ∧ ReadsMaximal t cs := ⟨_, rfl, h⟩
    cases h with
    | nil => simp at ht
    | @char c s cs hc hr =>
      cases hu : utf8 c with
      | nil => exact absurd hu (utf8_ne c)
      | cons a r =>
        rw [hu] at ht
        simp only [List.cons_append, List.cons.injEq, List.append_eq_nil_iff] at ht
        obtain ⟨rfl, rfl, rfl⟩ := ht
        have e : c = 0x41 := by
          have h1 := utf8_shape hc
          rw [hu] at h1
          cases h1
          rfl
        subst e
        obtain ⟨t, ht, hr⟩ : ∃ t, t = [] ∧ ReadsMaximal t cs := ⟨_, rfl, hr⟩
        cases hr with
        | nil => rfl
        | @char c' _ _ _ _ => exact absurd (List.append_eq_nil_iff.1 ht).1 (utf8_ne c')
        | lone => simp at ht
        | subpart => simp at ht
        | cut hcut => subst ht; exact absurd rfl hcut.1
    | @lone b s cs h1 h2 h =>
      simp only [List.cons.injEq] at ht
      obtain ⟨rfl, rfl⟩ := ht
      exact absurd ⟨0x41, by decide, by decide +kernel⟩ h2
    | @subpart p b s cs h1 h2 h3 h =>
      cases p with
      | nil => exact absurd rfl h1.1
      | cons a p => simp at ht
    | cut h => subst ht; exact absurd h n41
  refine ⟨?_, ?_, ⟨⟨0xC1, false, 0⟩, by decide +kernel⟩⟩
  · intro cs h
    obtain ⟨t, ht, h⟩ : ∃ t, t = [0xC3, 0x41] ∧ ReadsMaximal t cs := ⟨_, rfl, h⟩
    cases h with
    | nil => simp at ht
    | @char c s cs hc h =>
      cases hu : utf8 c with
      | nil => exact absurd hu (utf8_ne c)
      | cons a r =>
        rw [hu] at ht
        cases r with
        | nil =>
          simp only [List.cons_append, List.nil_append, List.cons.injEq] at ht
          obtain ⟨rfl, rfl⟩ := ht
          exact absurd hu (ns1 c hc)
        | cons a' r =>
          simp only [List.cons_append, List.cons.injEq, List.append_eq_nil_iff] at ht
          obtain ⟨rfl, rfl, rfl, rfl⟩ := ht
          exact absurd hu (ns c hc)
    | @lone b s cs h1 h2 h =>
      simp only [List.cons.injEq] at ht
      obtain ⟨rfl, rfl⟩ := ht
      exact absurd tr h1
    | @subpart p b s cs h1 h2 h3 h =>
      cases p with
      | nil => exact absurd rfl h1.1
      | cons a p =>
        cases p with
        | nil =>
          simp only [List.cons_append, List.nil_append, List.cons.injEq] at ht
          obtain ⟨rfl, rfl, rfl⟩ := ht
          rw [one41 _ h]
        | cons a' p => simp at ht
    | cut h => subst ht; exact absurd h nt
  · have : ReadsMaximal [0x41] [0x41] := ReadsMaximal.char (c := 0x41) (s := []) (by decide) .nil
    exact ReadsMaximal.subpart (p := [0xC3]) tr nt (fun ⟨c, hc, e⟩ => ns c hc e) this

example : Unbroken [0x80, 0x41, 0xC3] :=
  .lone (by intro h; obtain ⟨s, cp, hp⟩ := (truncated_iff _).1 h; cases hp <;> simp_all) (by
    rintro ⟨c, hc, e⟩
    have := utf8_shape hc
    rw [e] at this
    cases this with
    | one h => simp at h) (.char (c := 0x41) (s := [0xC3]) (by decide) (.cut ⟨by simp, 0xE9, [0xA9], by decide, by simp, by decide +kernel⟩))
example : IsUtf8 [0xC3, 0xA9] [0xE9] := ⟨by decide, by decide⟩


end Verif
