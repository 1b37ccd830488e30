import Verif.Proofs.View

/-!
# Bytes of unknown encoding
-/

set_option linter.unusedSimpArgs false
set_option linter.unusedVariables false

namespace Verif.Icu
open Verif.Unicode

/-- A transcoder that never fails. -/
structure Total {ι ο : Type} (T : Transcoder ι ο) (I : T.σ → Prop) : Prop where
  init : I T.init
  step : ∀ st c, I st → ∃ st' o, T.step st c = .ok (st', o) ∧ I st'
  end_ : ∀ st, I st → ∃ st' o, T.endCp st = .ok (st', o)

theorem Lawful.total {ι ο : Type} {T : Transcoder ι ο} {Q : List ο → Prop} {I : T.σ → Prop} (L : Lawful T Q I) :
    Total T (fun st => I st ∧ ∃ st' o, T.endCp st = .ok (st', o)) where
  init := ⟨L.init, _, _, L.endInit⟩
  step st c hi := by
    obtain ⟨st', o, st'', e, st3, e3, h1, h2, h3, h4, h5, _⟩ := L.step st c hi.1
    exact ⟨st', o, h1, h2, _, _, h5⟩
  end_ st hi := hi.2

theorem Total.feed {ι ο : Type} {T : Transcoder ι ο} {I : T.σ → Prop} (L : Total T I) : ∀ (s : List ι) (st : T.σ), I st →
    ∃ st' o, T.feed st s = .ok (st', o) ∧ I st' := by
  intro s
  induction s with
  | nil => intro st hi; exact ⟨st, [], rfl, hi⟩
  | cons c s ih =>
    intro st hi
    obtain ⟨st1, o1, h1, h2⟩ := L.step st c hi
    obtain ⟨st2, o2, h3, h4⟩ := ih st1 h2
    exact ⟨st2, o1 ++ o2, feed_cons h1 h3, h4⟩

theorem Total.run {ι ο : Type} {T : Transcoder ι ο} {I : T.σ → Prop} (L : Total T I) (s : List ι) : ∃ st o, T.run s = .ok (st, o) := by
  obtain ⟨st, o, h1, h2⟩ := L.feed s T.init L.init
  obtain ⟨st', e, h3⟩ := L.end_ st h2
  exact ⟨st', o ++ e, run_of_feed h1 h3⟩

section
variable {ο : Type} {T8 : Transcoder UInt8 ο} {T16 : Transcoder UInt16 ο} {T32 : Transcoder Nat ο}

/-- The states in which the encoding is not yet known, those of each encoding. -/
def Runs8 (s : States) : Prop := s = .run_8
/-- As `Runs8`. -/
def Runs16 (s : States) : Prop := s = .run_16be_byte0 ∨ s = .run_16be_byte1 ∨ s = .run_16le_byte0 ∨ s = .run_16le_byte1
/-- As `Runs8`. -/
def Runs32 (s : States) : Prop := s = .run_32be_byte0 ∨ s = .run_32be_byte1 ∨ s = .run_32be_byte2 ∨ s = .run_32be_byte3 ∨ s = .run_32le_byte0 ∨
  s = .run_32le_byte1 ∨ s = .run_32le_byte2 ∨ s = .run_32le_byte3
/-- As `Runs8`. -/
def Unknown (s : States) : Prop := ¬ Runs8 s ∧ ¬ Runs16 s ∧ ¬ Runs32 s

instance (s : States) : Decidable (Runs8 s) := by unfold Runs8; infer_instance
instance (s : States) : Decidable (Runs16 s) := by unfold Runs16; infer_instance
instance (s : States) : Decidable (Runs32 s) := by unfold Runs32; infer_instance
instance (s : States) : Decidable (Unknown s) := by unfold Unknown; infer_instance

/-- The members agree with each other. -/
def InvX (I8 : T8.σ → Prop) (I16 : T16.σ → Prop) (I32 : T32.σ → Prop) (st : StX T8 T16 T32) : Prop :=
  (∃ a b c d, st.buffer = [a, b, c, d]) ∧
  ((Unknown st.state ∧ st.var = .mono) ∨ (Runs8 st.state ∧ ∃ t, st.var = .v8 t ∧ I8 t) ∨ (Runs16 st.state ∧ ∃ t, st.var = .v16 t ∧ I16 t) ∨
    (Runs32 st.state ∧ ∃ t, st.var = .v32 t ∧ I32 t))

theorem isRunMode_unknown {s : States} (h : Unknown s) : isRunMode s = false := by
  revert h; cases s <;> decide +kernel

theorem byteNo_lt (s : States) : byteNo s < 4 := by cases s <;> decide +kernel

theorem run8Start_ok {I8 : T8.σ → Prop} (L8 : Total T8 I8) {s : States} {buf : Str} (hb : ∃ a b c d, buf = [a, b, c, d])
    (hs : isRunMode s = false) (copy : Bool) : ∃ t o, run8Start (T8 := T8) (T16 := T16) (T32 := T32) ⟨s, buf, .mono⟩ copy = .ok (⟨.run_8, buf, .v8 t⟩, o) ∧
      I8 t ∧ (if copy then T8.feed T8.init (buf.take (byteNo s + 1)) = .ok (t, o) else t = T8.init ∧ o = []) := by
  obtain ⟨a, b, c, d, rfl⟩ := hb
  have := byteNo_lt s
  cases copy with
  | false => exact ⟨T8.init, [], by simp [run8Start, hs, bind, Except.bind], L8.init, by simp⟩
  | true =>
    obtain ⟨t, o, h1, h2⟩ := L8.feed (([a, b, c, d] : Str).take (byteNo s + 1)) T8.init L8.init
    refine ⟨t, o, ?_, h2, by simpa using h1⟩
    simp only [run8Start, hs, Bool.false_eq_true, if_false, bind, Except.bind, Bool.true_and, List.length_cons, List.length_nil, if_true, h1]
    rw [if_neg (by simp; omega)]

theorem setLoop {a b c d v : UInt8} {n : Nat} (h : n < 4) : ∃ w x y z, bufSet [a, b, c, d] n v = .ok [w, x, y, z] := by
  have : n = 0 ∨ n = 1 ∨ n = 2 ∨ n = 3 := by omega
  rcases this with rfl | rfl | rfl | rfl <;> exact ⟨_, _, _, _, rfl⟩

/-- The state machine never fails. -/
theorem totalX {I8 : T8.σ → Prop} {I16 : T16.σ → Prop} {I32 : T32.σ → Prop} (L8 : Total T8 I8) (L16 : Total T16 I16) (L32 : Total T32 I32) :
    Total (tX T8 T16 T32) (InvX I8 I16 I32) where
  init := ⟨⟨_, _, _, _, rfl⟩, Or.inl ⟨show Unknown .start by decide +kernel, rfl⟩⟩
  step := by
    rintro ⟨s, buf, var⟩ v ⟨⟨a, b, c, d, hbuf⟩, hi⟩
    simp only at hbuf hi
    subst hbuf
    have start8 : ∀ (s : States) (buf : Str) (copy : Bool), (∃ a b c d, buf = [a, b, c, d]) → isRunMode s = false → ∃ st' o,
        run8Start (T8 := T8) (T16 := T16) (T32 := T32) ⟨s, buf, .mono⟩ copy = .ok (st', o) ∧ InvX I8 I16 I32 st' := by
      intro s buf copy hb hs
      obtain ⟨t, o, h1, h2, _⟩ := run8Start_ok (T16 := T16) (T32 := T32) L8 hb hs copy
      exact ⟨_, _, h1, hb, Or.inr (Or.inl ⟨rfl, t, rfl, h2⟩)⟩
    have bomS : ∀ (s s' : States) (w : UInt8), isRunMode s = false → bomByte s = .ok w → nextByte s = .ok s' → Unknown s' → ∃ st' o,
        bomStep (T8 := T8) (T16 := T16) (T32 := T32) ⟨s, [a, b, c, d], .mono⟩ v = .ok (st', o) ∧ InvX I8 I16 I32 st' := by
      intro s s' w hs hw hn hu
      obtain ⟨a', b', c', d', hset⟩ := setLoop (a := a) (b := b) (c := c) (d := d) (v := v) (byteNo_lt s)
      simp only [bomStep, hset, bind, Except.bind, hw, hn]
      by_cases hv : (v == w) = true
      · rw [if_pos hv]
        exact ⟨_, _, rfl, ⟨_, _, _, _, rfl⟩, Or.inl ⟨hu, rfl⟩⟩
      · rw [if_neg hv]
        exact start8 _ _ _ ⟨_, _, _, _, rfl⟩ hs
    have runB : ∀ (s s' : States) (var : Variant T8 T16 T32), nextByte s = .ok s' → (∀ buf, (∃ a b c d, buf = [a, b, c, d]) → InvX I8 I16 I32 ⟨s', buf, var⟩) →
        ∃ st' o, runByte (T8 := T8) (T16 := T16) (T32 := T32) ⟨s, [a, b, c, d], var⟩ v = .ok (st', o) ∧ InvX I8 I16 I32 st' := by
      intro s s' var hn hI
      obtain ⟨a', b', c', d', hset⟩ := setLoop (a := a) (b := b) (c := c) (d := d) (v := v) (byteNo_lt s)
      simp only [runByte, hset, bind, Except.bind, hn]
      exact ⟨_, _, rfl, hI _ ⟨_, _, _, _, rfl⟩⟩
    have last32 : ∀ (s s2 : States), isRunMode s = false → byteNo s = 3 → startRunMode s = .ok s2 → Runs32 s2 → ∃ st' o,
        bom32Last (T8 := T8) (T16 := T16) (T32 := T32) ⟨s, [a, b, c, d], .mono⟩ v = .ok (st', o) ∧ InvX I8 I16 I32 st' := by
      intro s s2 hs hn h2 hr
      have hset : bufSet [a, b, c, d] 3 v = .ok [a, b, c, v] := rfl
      simp only [bom32Last, hn, ne_eq, not_true_eq_false, if_false, hset, bind, Except.bind, h2]
      by_cases hv : (v == if isLittleEndian s = true then 0x00 else 0xFF) = true
      · rw [if_pos hv]
        exact ⟨_, _, rfl, ⟨_, _, _, _, rfl⟩, Or.inr (Or.inr (Or.inr ⟨hr, _, rfl, L32.init⟩))⟩
      · rw [if_neg hv]
        exact start8 _ _ _ ⟨_, _, _, _, rfl⟩ hs
    rcases hi with ⟨h1, rfl⟩ | ⟨h1, t, rfl, ht⟩ | ⟨h1, t, rfl, ht⟩ | ⟨h1, t, rfl, ht⟩
    · show ∃ st' o, stepX _ _ = _ ∧ _
      have hr := isRunMode_unknown h1
      cases s with
      | start =>
        simp only [stepX, startState, show bufSet [a, b, c, d] 0 v = .ok [v, b, c, d] from rfl, bind, Except.bind]
        repeat' split
        · exact ⟨_, _, rfl, ⟨_, _, _, _, rfl⟩, Or.inl ⟨show Unknown .utf8_bom_byte1 by decide +kernel, rfl⟩⟩
        · exact ⟨_, _, rfl, ⟨_, _, _, _, rfl⟩, Or.inl ⟨show Unknown .utf16_be_bom_byte1 by decide +kernel, rfl⟩⟩
        · exact ⟨_, _, rfl, ⟨_, _, _, _, rfl⟩, Or.inl ⟨show Unknown .utf32_or_16_le_bom_byte1 by decide +kernel, rfl⟩⟩
        · exact ⟨_, _, rfl, ⟨_, _, _, _, rfl⟩, Or.inl ⟨show Unknown .utf32_or_16_be_bom_byte1 by decide +kernel, rfl⟩⟩
        · exact start8 _ _ _ ⟨_, _, _, _, rfl⟩ hr
      | utf8_bom_byte1 => exact bomS _ .utf8_bom_byte2 0xBB hr rfl rfl (by decide +kernel)
      | utf8_bom_byte2 =>
        obtain ⟨a', b', c', d', hset⟩ := setLoop (a := a) (b := b) (c := c) (d := d) (v := v) (byteNo_lt .utf8_bom_byte2)
        simp only [stepX, hset, bind, Except.bind, show bomByte .utf8_bom_byte2 = .ok 0xBF from rfl]
        exact start8 _ _ _ ⟨_, _, _, _, rfl⟩ hr
      | utf16_be_bom_byte1 =>
        obtain ⟨a', b', c', d', hset⟩ := setLoop (a := a) (b := b) (c := c) (d := d) (v := v) (byteNo_lt .utf16_be_bom_byte1)
        simp only [stepX, hset, bind, Except.bind, show bomByte .utf16_be_bom_byte1 = .ok 0xFF from rfl]
        split
        · have hle : isLittleEndian .utf16_be_bom_byte1 = false := by decide +kernel
          simp only [run16Start, hr, hle, Bool.false_eq_true, if_false]
          exact ⟨_, _, rfl, ⟨_, _, _, _, rfl⟩, Or.inr (Or.inr (Or.inl ⟨Or.inl rfl, _, rfl, L16.init⟩))⟩
        · exact start8 _ _ _ ⟨_, _, _, _, rfl⟩ hr
      | utf32_or_16_le_bom_byte2 =>
        simp only [stepX]
        split
        · simp only [run16Start, hr, Bool.false_eq_true, if_false, bind, Except.bind, show bufSet [a, b, c, d] 0 v = .ok [v, b, c, d] from rfl]
          exact ⟨_, _, rfl, ⟨_, _, _, _, rfl⟩, Or.inr (Or.inr (Or.inl ⟨show Runs16 .run_16le_byte1 by decide +kernel, _, rfl, L16.init⟩))⟩
        · exact bomS _ .utf32_le_bom_byte3 0 hr rfl rfl (by decide +kernel)
      | utf32_or_16_le_bom_byte1 => exact bomS _ .utf32_or_16_le_bom_byte2 0xFE hr rfl rfl (by decide +kernel)
      | utf32_or_16_be_bom_byte1 => exact bomS _ .utf32_be_bom_byte2 0 hr rfl rfl (by decide +kernel)
      | utf32_be_bom_byte2 => exact bomS _ .utf32_be_bom_byte3 0xFE hr rfl rfl (by decide +kernel)
      | utf32_le_bom_byte3 => exact last32 _ .run_32le_byte0 hr rfl rfl (by decide +kernel)
      | utf32_be_bom_byte3 => exact last32 _ .run_32be_byte0 hr rfl rfl (by decide +kernel)
      | _ => exact absurd h1 (by decide +kernel)
    · show ∃ st' o, stepX _ _ = _ ∧ _
      unfold Runs8 at h1
      subst h1
      obtain ⟨t', o, g1, g2⟩ := L8.step t v ht
      simp only [stepX, g1, bind, Except.bind]
      exact ⟨_, _, rfl, ⟨_, _, _, _, rfl⟩, Or.inr (Or.inl ⟨rfl, _, rfl, g2⟩)⟩
    · show ∃ st' o, stepX _ _ = _ ∧ _
      have hI : ∀ s', Runs16 s' → ∀ (t : T16.σ), I16 t → ∀ buf, (∃ a b c d, buf = [a, b, c, d]) → InvX (T8 := T8) (T32 := T32) I8 I16 I32 ⟨s', buf, .v16 t⟩ :=
        fun s' hs' t ht buf hb => ⟨hb, Or.inr (Or.inr (Or.inl ⟨hs', _, rfl, ht⟩))⟩
      rcases h1 with rfl | rfl | rfl | rfl
      · exact runB _ .run_16be_byte1 _ rfl (hI _ (by decide +kernel) t ht)
      · obtain ⟨t', o, g1, g2⟩ := L16.step t (UInt16.ofNat ((a.toNat <<< 8) ||| v.toNat)) ht
        have g1' : T16.step t (if (States.run_16be_byte1 == States.run_16be_byte1) = true then UInt16.ofNat (a.toNat <<< 8 ||| v.toNat) else UInt16.ofNat (v.toNat <<< 8 ||| a.toNat)) = .ok (t', o) := g1
        simp only [stepX, run16, char16From, bufGet, List.getElem?_cons_zero, bind, Except.bind, g1', show setByte .run_16be_byte1 0 = .ok .run_16be_byte0 from rfl]
        exact ⟨_, _, rfl, hI _ (by decide +kernel) _ g2 _ ⟨_, _, _, _, rfl⟩⟩
      · exact runB _ .run_16le_byte1 _ rfl (hI _ (by decide +kernel) t ht)
      · obtain ⟨t', o, g1, g2⟩ := L16.step t (UInt16.ofNat ((v.toNat <<< 8) ||| a.toNat)) ht
        have g1' : T16.step t (if (States.run_16le_byte1 == States.run_16be_byte1) = true then UInt16.ofNat (a.toNat <<< 8 ||| v.toNat) else UInt16.ofNat (v.toNat <<< 8 ||| a.toNat)) = .ok (t', o) := g1
        simp only [stepX, run16, char16From, bufGet, List.getElem?_cons_zero, bind, Except.bind, g1', show setByte .run_16le_byte1 0 = .ok .run_16le_byte0 from rfl]
        exact ⟨_, _, rfl, hI _ (by decide +kernel) _ g2 _ ⟨_, _, _, _, rfl⟩⟩
    · show ∃ st' o, stepX _ _ = _ ∧ _
      have hI : ∀ s', Runs32 s' → ∀ (t : T32.σ), I32 t → ∀ buf, (∃ a b c d, buf = [a, b, c, d]) → InvX (T8 := T8) (T16 := T16) I8 I16 I32 ⟨s', buf, .v32 t⟩ :=
        fun s' hs' t ht buf hb => ⟨hb, Or.inr (Or.inr (Or.inr ⟨hs', _, rfl, ht⟩))⟩
      rcases h1 with rfl | rfl | rfl | rfl | rfl | rfl | rfl | rfl
      · exact runB _ .run_32be_byte1 _ rfl (hI _ (by decide +kernel) t ht)
      · exact runB _ .run_32be_byte2 _ rfl (hI _ (by decide +kernel) t ht)
      · exact runB _ .run_32be_byte3 _ rfl (hI _ (by decide +kernel) t ht)
      · obtain ⟨t', o, g1, g2⟩ := L32.step t ((a.toNat <<< 24) ||| (b.toNat <<< 16) ||| (c.toNat <<< 8) ||| v.toNat) ht
        refine ⟨⟨.run_32be_byte0, [a, b, c, d], .v32 t'⟩, o, ?_, hI _ (by decide +kernel) _ g2 _ ⟨_, _, _, _, rfl⟩⟩
        simp only [stepX, run32]
        rw [if_neg (by decide +kernel)]
        have e : char32FromBig [a, b, c, d] v = .ok ((a.toNat <<< 24) ||| (b.toNat <<< 16) ||| (c.toNat <<< 8) ||| v.toNat) := rfl
        simp only [beq_self_eq_true, if_true, e, bind, Except.bind, g1, show setByte .run_32be_byte3 0 = .ok .run_32be_byte0 from rfl]
        rfl
      · exact runB _ .run_32le_byte1 _ rfl (hI _ (by decide +kernel) t ht)
      · exact runB _ .run_32le_byte2 _ rfl (hI _ (by decide +kernel) t ht)
      · exact runB _ .run_32le_byte3 _ rfl (hI _ (by decide +kernel) t ht)
      · obtain ⟨t', o, g1, g2⟩ := L32.step t ((v.toNat <<< 24) % 256 ||| (c.toNat <<< 16) ||| (b.toNat <<< 8) ||| a.toNat) ht
        refine ⟨⟨.run_32le_byte0, [a, b, c, d], .v32 t'⟩, o, ?_, hI _ (by decide +kernel) _ g2 _ ⟨_, _, _, _, rfl⟩⟩
        simp only [stepX, run32]
        rw [if_neg (by decide +kernel)]
        have e : char32FromLittle [a, b, c, d] v = .ok ((v.toNat <<< 24) % 256 ||| (c.toNat <<< 16) ||| (b.toNat <<< 8) ||| a.toNat) := rfl
        have e' : (States.run_32le_byte3 == States.run_32be_byte3) = false := by decide +kernel
        simp only [e', Bool.false_eq_true, if_false, e, bind, Except.bind, g1, show setByte .run_32le_byte3 0 = .ok .run_32le_byte0 from rfl]
        rfl
  end_ := by
    rintro ⟨s, buf, var⟩ ⟨hb, hi⟩
    show ∃ st' o, endCpX _ = _
    simp only at hb hi
    rcases hi with ⟨h1, rfl⟩ | ⟨h1, t, rfl, ht⟩ | ⟨h1, t, rfl, ht⟩ | ⟨h1, t, rfl, ht⟩
    · obtain ⟨t, o, h, _⟩ := run8Start_ok (T16 := T16) (T32 := T32) L8 hb (isRunMode_unknown h1) (s != .start)
      exact ⟨_, _, h⟩
    · obtain ⟨t', o, g⟩ := L8.end_ t ht
      simp only [endCpX, g, bind, Except.bind]
      exact ⟨_, _, rfl⟩
    · obtain ⟨t', o, g⟩ := L16.end_ t ht
      simp only [endCpX, g, bind, Except.bind]
      exact ⟨_, _, rfl⟩
    · obtain ⟨t', o, g⟩ := L32.end_ t ht
      simp only [endCpX, g, bind, Except.bind]
      exact ⟨_, _, rfl⟩

/-! ### Texts of known encoding -/

theorem stepX_byte {s s' : States} {buf buf' : Str} {var : Variant T8 T16 T32} {v : UInt8}
    (hs : s ∈ ([.run_16be_byte0, .run_16le_byte0, .run_32be_byte0, .run_32be_byte1, .run_32be_byte2, .run_32le_byte0, .run_32le_byte1, .run_32le_byte2] : List States))
    (hn : nextByte s = .ok s') (hb : bufSet buf (byteNo s) v = .ok buf') :
    (tX T8 T16 T32).step ⟨s, buf, var⟩ v = .ok (⟨s', buf', var⟩, []) := by
  have h : stepX (T8 := T8) (T16 := T16) (T32 := T32) ⟨s, buf, var⟩ v = runByte ⟨s, buf, var⟩ v := by
    simp only [List.mem_cons, List.not_mem_nil, or_false] at hs
    rcases hs with rfl | rfl | rfl | rfl | rfl | rfl | rfl | rfl <;> rfl
  have h2 : runByte (T8 := T8) (T16 := T16) (T32 := T32) ⟨s, buf, var⟩ v = .ok (⟨s', buf', var⟩, []) := by
    simp only [runByte, hb, hn, bind, Except.bind]
  exact h.trans h2

theorem feedX_8 (s : Str) : ∀ (buf : Str) (t t' : T8.σ) (o : List ο), T8.feed t s = .ok (t', o) →
    (tX T8 T16 T32).feed ⟨.run_8, buf, .v8 t⟩ s = .ok (⟨.run_8, buf, .v8 t'⟩, o) := by
  induction s with
  | nil =>
    intro buf t t' o h
    have h := Except.ok.inj (show Except.ok (t, []) = Except.ok (t', o) from h)
    have e1 : t = t' := congrArg Prod.fst h
    have e2 : [] = o := congrArg Prod.snd h
    subst e1 e2; rfl
  | cons c s ih =>
    intro buf t t' o h
    simp only [Transcoder.feed, bind, Except.bind] at h
    split at h
    · simp at h
    · rename_i w hw
      split at h
      · simp at h
      · rename_i x hx
        have h := Except.ok.inj h
        have e1 : x.1 = t' := congrArg Prod.fst h
        have e2 : w.2 ++ x.2 = o := congrArg Prod.snd h
        subst e1 e2
        have : (tX T8 T16 T32).step ⟨.run_8, buf, .v8 t⟩ c = .ok (⟨.run_8, buf, .v8 w.1⟩, w.2) := by
          have h : stepX (T8 := T8) (T16 := T16) (T32 := T32) ⟨.run_8, buf, .v8 t⟩ c = .ok (⟨.run_8, buf, .v8 w.1⟩, w.2) := by
            simp only [stepX, hw, bind, Except.bind]
          exact h
        exact feed_cons this (ih buf w.1 x.1 x.2 hx)

theorem feed_split {ι ο : Type} {T : Transcoder ι ο} {st st'' : T.σ} {c : ι} {s : List ι} {out : List ο} (h : T.feed st (c :: s) = .ok (st'', out)) :
    ∃ st' o os, T.step st c = .ok (st', o) ∧ T.feed st' s = .ok (st'', os) ∧ out = o ++ os := by
  simp only [Transcoder.feed, bind, Except.bind] at h
  split at h
  · simp at h
  · rename_i w hw
    split at h
    · simp at h
    · rename_i x hx
      have h := Except.ok.inj h
      have e1 : x.1 = st'' := congrArg Prod.fst h
      have e2 : w.2 ++ x.2 = out := congrArg Prod.snd h
      subst e1 e2
      exact ⟨w.1, w.2, x.2, hw, hx, rfl⟩

theorem u16_of_bytes (u : UInt16) : UInt16.ofNat (((UInt8.ofNat (u.toNat / 0x100)).toNat <<< 8) ||| (UInt8.ofNat (u.toNat % 0x100)).toNat) = u := by
  have := u.toNat_lt
  rw [toNat_ofNat_lt (by omega), toNat_ofNat_lt (by omega), Nat.or_comm, or_high _ _ _ (by omega)]
  exact u16_ofNat_eq (by omega)

/-- One UTF-16 code unit. -/
theorem stepX_16 (big : Bool) (buf : Str) (hb : ∃ a b c d, buf = [a, b, c, d]) (u : UInt16) {t t' : T16.σ} {o : List ο} (h : T16.step t u = .ok (t', o)) :
    ∃ buf', (∃ a b c d, buf' = [a, b, c, d]) ∧
      (tX T8 T16 T32).feed ⟨if big then .run_16be_byte0 else .run_16le_byte0, buf, .v16 t⟩ (bytes16 big u) =
        .ok (⟨if big then .run_16be_byte0 else .run_16le_byte0, buf', .v16 t'⟩, o) := by
  obtain ⟨a, b, c, d, rfl⟩ := hb
  have hu := u16_of_bytes u
  cases big with
  | true =>
    refine ⟨[UInt8.ofNat (u.toNat / 0x100), b, c, d], ⟨_, _, _, _, rfl⟩, ?_⟩
    have h1 : (tX T8 T16 T32).step ⟨.run_16be_byte0, [a, b, c, d], .v16 t⟩ (UInt8.ofNat (u.toNat / 0x100)) =
      .ok (⟨.run_16be_byte1, [UInt8.ofNat (u.toNat / 0x100), b, c, d], .v16 t⟩, []) := stepX_byte (by decide +kernel) rfl rfl
    have h2 : (tX T8 T16 T32).step ⟨.run_16be_byte1, [UInt8.ofNat (u.toNat / 0x100), b, c, d], .v16 t⟩ (UInt8.ofNat (u.toNat % 0x100)) =
      .ok (⟨.run_16be_byte0, [UInt8.ofNat (u.toNat / 0x100), b, c, d], .v16 t'⟩, o) := by
      show stepX (T8 := T8) (T16 := T16) (T32 := T32) ⟨.run_16be_byte1, [UInt8.ofNat (u.toNat / 0x100), b, c, d], .v16 t⟩ (UInt8.ofNat (u.toNat % 0x100)) = Except.ok (⟨.run_16be_byte0, [UInt8.ofNat (u.toNat / 0x100), b, c, d], .v16 t'⟩, o)
      simp only [stepX, run16, char16From, bufGet, List.getElem?_cons_zero, bind, Except.bind, beq_self_eq_true, if_true, hu, h,
        show setByte .run_16be_byte1 0 = .ok .run_16be_byte0 from rfl]
      rfl
    exact feed_cons (o := []) h1 (feed_one h2)
  | false =>
    refine ⟨[UInt8.ofNat (u.toNat % 0x100), b, c, d], ⟨_, _, _, _, rfl⟩, ?_⟩
    have h1 : (tX T8 T16 T32).step ⟨.run_16le_byte0, [a, b, c, d], .v16 t⟩ (UInt8.ofNat (u.toNat % 0x100)) =
      .ok (⟨.run_16le_byte1, [UInt8.ofNat (u.toNat % 0x100), b, c, d], .v16 t⟩, []) := stepX_byte (by decide +kernel) rfl rfl
    have h2 : (tX T8 T16 T32).step ⟨.run_16le_byte1, [UInt8.ofNat (u.toNat % 0x100), b, c, d], .v16 t⟩ (UInt8.ofNat (u.toNat / 0x100)) =
      .ok (⟨.run_16le_byte0, [UInt8.ofNat (u.toNat % 0x100), b, c, d], .v16 t'⟩, o) := by
      show stepX (T8 := T8) (T16 := T16) (T32 := T32) ⟨.run_16le_byte1, [UInt8.ofNat (u.toNat % 0x100), b, c, d], .v16 t⟩ (UInt8.ofNat (u.toNat / 0x100)) = Except.ok (⟨.run_16le_byte0, [UInt8.ofNat (u.toNat % 0x100), b, c, d], .v16 t'⟩, o)
      have e : (States.run_16le_byte1 == States.run_16be_byte1) = false := by decide +kernel
      simp only [stepX, run16, char16From, bufGet, List.getElem?_cons_zero, bind, Except.bind, e, Bool.false_eq_true, if_false, hu, h,
        show setByte .run_16le_byte1 0 = .ok .run_16le_byte0 from rfl]
      rfl
    exact feed_cons (o := []) h1 (feed_one h2)

theorem feedX_16 (big : Bool) (us : List UInt16) : ∀ (buf : Str) (t t' : T16.σ) (o : List ο), (∃ a b c d, buf = [a, b, c, d]) → T16.feed t us = .ok (t', o) →
    ∃ buf', (∃ a b c d, buf' = [a, b, c, d]) ∧
      (tX T8 T16 T32).feed ⟨if big then .run_16be_byte0 else .run_16le_byte0, buf, .v16 t⟩ (us.flatMap (bytes16 big)) =
        .ok (⟨if big then .run_16be_byte0 else .run_16le_byte0, buf', .v16 t'⟩, o) := by
  induction us with
  | nil =>
    intro buf t t' o hb h
    have h := Except.ok.inj (show Except.ok (t, []) = Except.ok (t', o) from h)
    have e1 : t = t' := congrArg Prod.fst h
    have e2 : [] = o := congrArg Prod.snd h
    subst e1 e2
    exact ⟨buf, hb, rfl⟩
  | cons u us ih =>
    intro buf t t' o hb h
    obtain ⟨t1, o1, os, h1, h2, rfl⟩ := feed_split h
    obtain ⟨buf1, hb1, g1⟩ := stepX_16 (T8 := T8) (T32 := T32) big buf hb u h1
    obtain ⟨buf2, hb2, g2⟩ := ih buf1 t1 t' os hb1 h2
    exact ⟨buf2, hb2, by rw [List.flatMap_cons]; exact feed_append g1 g2⟩

theorem u32_of_bytes (u : Nat) (h : u < 2 ^ 32) : ((UInt8.ofNat (u / 0x1000000)).toNat <<< 24) ||| ((UInt8.ofNat (u / 0x10000 % 0x100)).toNat <<< 16) |||
    ((UInt8.ofNat (u / 0x100 % 0x100)).toNat <<< 8) ||| (UInt8.ofNat (u % 0x100)).toNat = u := by
  rw [toNat_ofNat_lt (by omega), toNat_ofNat_lt (by omega), toNat_ofNat_lt (by omega), toNat_ofNat_lt (by omega)]
  rw [Nat.or_assoc, Nat.or_assoc, Nat.or_comm ((u / 256 % 256) <<< 8), or_high _ _ _ (by omega), Nat.or_comm ((u / 65536 % 256) <<< 16), or_high _ _ _ (by omega),
    Nat.or_comm ((u / 16777216) <<< 24), or_high _ _ _ (by omega)]
  omega

theorem u24_of_bytes (u : Nat) : ((UInt8.ofNat (u / 0x1000000)).toNat <<< 24) % 256 ||| ((UInt8.ofNat (u / 0x10000 % 0x100)).toNat <<< 16) |||
    ((UInt8.ofNat (u / 0x100 % 0x100)).toNat <<< 8) ||| (UInt8.ofNat (u % 0x100)).toNat = u % 2 ^ 24 := by
  have : ((UInt8.ofNat (u / 0x1000000)).toNat <<< 24) % 256 = 0 := by rw [Nat.shiftLeft_eq]; omega
  rw [this, Nat.zero_or, toNat_ofNat_lt (by omega), toNat_ofNat_lt (by omega), toNat_ofNat_lt (by omega)]
  rw [Nat.or_assoc, Nat.or_comm ((u / 256 % 256) <<< 8), or_high _ _ _ (by omega), Nat.or_comm ((u / 65536 % 256) <<< 16), or_high _ _ _ (by omega)]
  omega

/-- One UTF-32 code unit: from little-endian bytes, only its low 24 bits. -/
theorem stepX_32 (big : Bool) (buf : Str) (hb : ∃ a b c d, buf = [a, b, c, d]) (u : Nat) (hu : u < 2 ^ 32) {t t' : T32.σ} {o : List ο}
    (h : T32.step t (if big then u else u % 2 ^ 24) = .ok (t', o)) :
    ∃ buf', (∃ a b c d, buf' = [a, b, c, d]) ∧
      (tX T8 T16 T32).feed ⟨if big then .run_32be_byte0 else .run_32le_byte0, buf, .v32 t⟩ (bytes32 big u) =
        .ok (⟨if big then .run_32be_byte0 else .run_32le_byte0, buf', .v32 t'⟩, o) := by
  obtain ⟨a, b, c, d, rfl⟩ := hb
  have e1 := u32_of_bytes u hu
  have e2 := u24_of_bytes u
  generalize hx1 : UInt8.ofNat (u / 0x1000000) = x1 at *
  generalize hx2 : UInt8.ofNat (u / 0x10000 % 0x100) = x2 at *
  generalize hx3 : UInt8.ofNat (u / 0x100 % 0x100) = x3 at *
  generalize hx4 : UInt8.ofNat (u % 0x100) = x4 at *
  cases big with
  | true =>
    have hbytes : bytes32 true u = [x1, x2, x3, x4] := by simp only [bytes32, hx1, hx2, hx3, hx4, if_true]
    rw [hbytes]
    refine ⟨[x1, x2, x3, d], ⟨_, _, _, _, rfl⟩, ?_⟩
    have h1 : (tX T8 T16 T32).step ⟨.run_32be_byte0, [a, b, c, d], .v32 t⟩ x1 = .ok (⟨.run_32be_byte1, [x1, b, c, d], .v32 t⟩, []) := stepX_byte (by decide +kernel) rfl rfl
    have h2 : (tX T8 T16 T32).step ⟨.run_32be_byte1, [x1, b, c, d], .v32 t⟩ x2 = .ok (⟨.run_32be_byte2, [x1, x2, c, d], .v32 t⟩, []) := stepX_byte (by decide +kernel) rfl rfl
    have h3 : (tX T8 T16 T32).step ⟨.run_32be_byte2, [x1, x2, c, d], .v32 t⟩ x3 = .ok (⟨.run_32be_byte3, [x1, x2, x3, d], .v32 t⟩, []) := stepX_byte (by decide +kernel) rfl rfl
    have h4 : (tX T8 T16 T32).step ⟨.run_32be_byte3, [x1, x2, x3, d], .v32 t⟩ x4 = .ok (⟨.run_32be_byte0, [x1, x2, x3, d], .v32 t'⟩, o) := by
      show stepX (T8 := T8) (T16 := T16) (T32 := T32) ⟨.run_32be_byte3, [x1, x2, x3, d], .v32 t⟩ x4 = Except.ok (⟨.run_32be_byte0, [x1, x2, x3, d], .v32 t'⟩, o)
      simp only [stepX, run32]
      rw [if_neg (by decide +kernel)]
      have e : char32FromBig [x1, x2, x3, d] x4 = .ok u :=
        (show _ = Except.ok _ from rfl).trans (congrArg Except.ok e1)
      have h : T32.step t u = .ok (t', o) := h
      simp only [beq_self_eq_true, if_true, e, bind, Except.bind, h, show setByte .run_32be_byte3 0 = .ok .run_32be_byte0 from rfl]
    exact feed_cons (o := []) h1 (feed_cons (o := []) h2 (feed_cons (o := []) h3 (feed_one h4)))
  | false =>
    have hbytes : bytes32 false u = [x4, x3, x2, x1] := by
      simp only [bytes32, hx1, hx2, hx3, hx4, Bool.false_eq_true, if_false, List.reverse_cons, List.reverse_nil, List.nil_append, List.cons_append]
    rw [hbytes]
    refine ⟨[x4, x3, x2, d], ⟨_, _, _, _, rfl⟩, ?_⟩
    have h1 : (tX T8 T16 T32).step ⟨.run_32le_byte0, [a, b, c, d], .v32 t⟩ x4 = .ok (⟨.run_32le_byte1, [x4, b, c, d], .v32 t⟩, []) := stepX_byte (by decide +kernel) rfl rfl
    have h2 : (tX T8 T16 T32).step ⟨.run_32le_byte1, [x4, b, c, d], .v32 t⟩ x3 = .ok (⟨.run_32le_byte2, [x4, x3, c, d], .v32 t⟩, []) := stepX_byte (by decide +kernel) rfl rfl
    have h3 : (tX T8 T16 T32).step ⟨.run_32le_byte2, [x4, x3, c, d], .v32 t⟩ x2 = .ok (⟨.run_32le_byte3, [x4, x3, x2, d], .v32 t⟩, []) := stepX_byte (by decide +kernel) rfl rfl
    have h4 : (tX T8 T16 T32).step ⟨.run_32le_byte3, [x4, x3, x2, d], .v32 t⟩ x1 = .ok (⟨.run_32le_byte0, [x4, x3, x2, d], .v32 t'⟩, o) := by
      show stepX (T8 := T8) (T16 := T16) (T32 := T32) ⟨.run_32le_byte3, [x4, x3, x2, d], .v32 t⟩ x1 = Except.ok (⟨.run_32le_byte0, [x4, x3, x2, d], .v32 t'⟩, o)
      simp only [stepX, run32]
      rw [if_neg (by decide +kernel)]
      have e' : (States.run_32le_byte3 == States.run_32be_byte3) = false := by decide +kernel
      have e : char32FromLittle [x4, x3, x2, d] x1 = .ok (u % 2 ^ 24) :=
        (show _ = Except.ok _ from rfl).trans (congrArg Except.ok e2)
      have h : T32.step t (u % 2 ^ 24) = .ok (t', o) := h
      simp only [e', Bool.false_eq_true, if_false, e, bind, Except.bind, h, show setByte .run_32le_byte3 0 = .ok .run_32le_byte0 from rfl]
    exact feed_cons (o := []) h1 (feed_cons (o := []) h2 (feed_cons (o := []) h3 (feed_one h4)))

theorem feedX_32 (big : Bool) (us : List Nat) : (∀ u ∈ us, u < 2 ^ 32) → ∀ (buf : Str) (t t' : T32.σ) (o : List ο), (∃ a b c d, buf = [a, b, c, d]) →
    T32.feed t (us.map fun u => if big then u else u % 2 ^ 24) = .ok (t', o) →
    ∃ buf', (∃ a b c d, buf' = [a, b, c, d]) ∧
      (tX T8 T16 T32).feed ⟨if big then .run_32be_byte0 else .run_32le_byte0, buf, .v32 t⟩ (us.flatMap (bytes32 big)) =
        .ok (⟨if big then .run_32be_byte0 else .run_32le_byte0, buf', .v32 t'⟩, o) := by
  induction us with
  | nil =>
    intro _ buf t t' o hb h
    have h := Except.ok.inj (show Except.ok (t, []) = Except.ok (t', o) from h)
    have e1 : t = t' := congrArg Prod.fst h
    have e2 : [] = o := congrArg Prod.snd h
    subst e1 e2
    exact ⟨buf, hb, rfl⟩
  | cons u us ih =>
    intro hu buf t t' o hb h
    obtain ⟨t1, o1, os, h1, h2, rfl⟩ := feed_split h
    obtain ⟨buf1, hb1, g1⟩ := stepX_32 (T8 := T8) (T16 := T16) big buf hb u (hu u (by simp)) h1
    obtain ⟨buf2, hb2, g2⟩ := ih (fun v hv => hu v (by simp [hv])) buf1 t1 t' os hb1 h2
    exact ⟨buf2, hb2, by rw [List.flatMap_cons]; exact feed_append g1 g2⟩

/-! ### Byte order marks -/

theorem stepX_start (v : UInt8) (s : States) (h : (v = 0xEF ∧ s = .utf8_bom_byte1) ∨ (v = 0xFE ∧ s = .utf16_be_bom_byte1) ∨
    (v = 0xFF ∧ s = .utf32_or_16_le_bom_byte1) ∨ (v = 0 ∧ s = .utf32_or_16_be_bom_byte1)) :
    (tX T8 T16 T32).step (tX T8 T16 T32).init v = .ok (⟨s, [v, 0, 0, 0], .mono⟩, []) := by
  have e : bufSet [0, 0, 0, 0] 0 v = .ok [v, 0, 0, 0] := rfl
  have : stepX (T8 := T8) (T16 := T16) (T32 := T32) ⟨.start, [0, 0, 0, 0], .mono⟩ v = .ok (⟨s, [v, 0, 0, 0], .mono⟩, []) := by
    simp only [stepX, startState, e, bind, Except.bind]
    rcases h with ⟨rfl, rfl⟩ | ⟨rfl, rfl⟩ | ⟨rfl, rfl⟩ | ⟨rfl, rfl⟩ <;> rfl
  exact this

theorem stepX_bom {s s' : States} {buf buf' : Str} {v : UInt8}
    (hs : s ∈ ([.utf8_bom_byte1, .utf32_or_16_le_bom_byte1, .utf32_or_16_be_bom_byte1, .utf32_be_bom_byte2] : List States) ∨
      s = .utf32_or_16_le_bom_byte2 ∧ v = 0)
    (hw : bomByte s = .ok v) (hn : nextByte s = .ok s') (hb : bufSet buf (byteNo s) v = .ok buf') :
    (tX T8 T16 T32).step ⟨s, buf, .mono⟩ v = .ok (⟨s', buf', .mono⟩, []) := by
  have h : stepX (T8 := T8) (T16 := T16) (T32 := T32) ⟨s, buf, .mono⟩ v = bomStep ⟨s, buf, .mono⟩ v := by
    rcases hs with hs | ⟨rfl, rfl⟩
    · simp only [List.mem_cons, List.not_mem_nil, or_false] at hs
      rcases hs with rfl | rfl | rfl | rfl <;> rfl
    · rfl
  have h2 : bomStep (T8 := T8) (T16 := T16) (T32 := T32) ⟨s, buf, .mono⟩ v = .ok (⟨s', buf', .mono⟩, []) := by
    simp only [bomStep, hb, hw, hn, bind, Except.bind, beq_self_eq_true, if_true]
  exact h.trans h2

theorem bom_8 : (tX T8 T16 T32).feed (tX T8 T16 T32).init [0xEF, 0xBB, 0xBF] = .ok (⟨.run_8, [0xEF, 0xBB, 0xBF, 0], .v8 T8.init⟩, []) := by
  have h3 : (tX T8 T16 T32).step ⟨.utf8_bom_byte2, [0xEF, 0xBB, 0, 0], .mono⟩ 0xBF = .ok (⟨.run_8, [0xEF, 0xBB, 0xBF, 0], .v8 T8.init⟩, []) := by
    show stepX (T8 := T8) (T16 := T16) (T32 := T32) ⟨.utf8_bom_byte2, [0xEF, 0xBB, 0, 0], .mono⟩ 0xBF = Except.ok (⟨.run_8, [0xEF, 0xBB, 0xBF, 0], .v8 T8.init⟩, [])
    simp only [stepX, show bufSet [0xEF, 0xBB, 0, 0] (byteNo .utf8_bom_byte2) 0xBF = .ok [0xEF, 0xBB, 0xBF, 0] from rfl, bind, Except.bind,
      show bomByte .utf8_bom_byte2 = .ok 0xBF from rfl, run8Start, show isRunMode .utf8_bom_byte2 = false from rfl]
    rfl
  exact feed_cons (o := []) (stepX_start 0xEF _ (by simp)) (feed_cons (o := []) (stepX_bom (s := .utf8_bom_byte1) (v := 0xBB) (Or.inl (by decide)) rfl rfl rfl) (feed_one h3))

theorem bom_16be : (tX T8 T16 T32).feed (tX T8 T16 T32).init [0xFE, 0xFF] = .ok (⟨.run_16be_byte0, [0xFE, 0xFF, 0, 0], .v16 T16.init⟩, []) := by
  have h3 : (tX T8 T16 T32).step ⟨.utf16_be_bom_byte1, [0xFE, 0, 0, 0], .mono⟩ 0xFF = .ok (⟨.run_16be_byte0, [0xFE, 0xFF, 0, 0], .v16 T16.init⟩, []) := by
    show stepX (T8 := T8) (T16 := T16) (T32 := T32) ⟨.utf16_be_bom_byte1, [0xFE, 0, 0, 0], .mono⟩ 0xFF = Except.ok (⟨.run_16be_byte0, [0xFE, 0xFF, 0, 0], .v16 T16.init⟩, [])
    simp only [stepX, show bufSet [0xFE, 0, 0, 0] (byteNo .utf16_be_bom_byte1) 0xFF = .ok [0xFE, 0xFF, 0, 0] from rfl, bind, Except.bind,
      show bomByte .utf16_be_bom_byte1 = .ok 0xFF from rfl, run16Start, show isRunMode .utf16_be_bom_byte1 = false from rfl,
      show isLittleEndian .utf16_be_bom_byte1 = false from rfl, beq_self_eq_true, if_true, Bool.false_eq_true, if_false]
  exact feed_cons (o := []) (stepX_start 0xFE _ (by simp)) (feed_one h3)

theorem stepX_last32 {s s' : States} {a b c v : UInt8} (hs : s = .utf32_le_bom_byte3 ∧ v = 0 ∧ s' = .run_32le_byte0 ∨ s = .utf32_be_bom_byte3 ∧ v = 0xFF ∧ s' = .run_32be_byte0) :
    (tX T8 T16 T32).step ⟨s, [a, b, c, 0], .mono⟩ v = .ok (⟨s', [a, b, c, v], .v32 T32.init⟩, []) := by
  have h : stepX (T8 := T8) (T16 := T16) (T32 := T32) ⟨s, [a, b, c, 0], .mono⟩ v = .ok (⟨s', [a, b, c, v], .v32 T32.init⟩, []) := by
    rcases hs with ⟨rfl, rfl, rfl⟩ | ⟨rfl, rfl, rfl⟩
    · simp only [stepX, bom32Last, show byteNo .utf32_le_bom_byte3 = 3 from rfl, ne_eq, not_true_eq_false, if_false,
        show bufSet [a, b, c, 0] 3 0 = .ok [a, b, c, 0] from rfl, show isLittleEndian .utf32_le_bom_byte3 = true from rfl, if_true, beq_self_eq_true,
        show startRunMode .utf32_le_bom_byte3 = .ok .run_32le_byte0 from rfl, bind, Except.bind]
    · simp only [stepX, bom32Last, show byteNo .utf32_be_bom_byte3 = 3 from rfl, ne_eq, not_true_eq_false, if_false,
        show bufSet [a, b, c, 0] 3 0xFF = .ok [a, b, c, 0xFF] from rfl, show isLittleEndian .utf32_be_bom_byte3 = false from rfl, Bool.false_eq_true, beq_self_eq_true,
        show startRunMode .utf32_be_bom_byte3 = .ok .run_32be_byte0 from rfl, bind, Except.bind, if_true]
  exact h

theorem pre_32be : (tX T8 T16 T32).feed (tX T8 T16 T32).init [0, 0] = .ok (⟨.utf32_be_bom_byte2, [0, 0, 0, 0], .mono⟩, []) :=
  feed_cons (o := []) (stepX_start 0 _ (by simp)) (feed_one (stepX_bom (s := .utf32_or_16_be_bom_byte1) (v := 0) (Or.inl (by decide)) rfl rfl rfl))

theorem pre_32be' : (tX T8 T16 T32).feed (tX T8 T16 T32).init [0, 0, 0xFE] = .ok (⟨.utf32_be_bom_byte3, [0, 0, 0xFE, 0], .mono⟩, []) :=
  feed_append (o := []) (s := [0, 0]) pre_32be (feed_one (stepX_bom (s := .utf32_be_bom_byte2) (v := 0xFE) (Or.inl (by decide)) rfl rfl rfl))

theorem bom_32be : (tX T8 T16 T32).feed (tX T8 T16 T32).init [0, 0, 0xFE, 0xFF] = .ok (⟨.run_32be_byte0, [0, 0, 0xFE, 0xFF], .v32 T32.init⟩, []) :=
  feed_append (o := []) (s := [0, 0, 0xFE]) pre_32be' (feed_one (stepX_last32 (Or.inr ⟨rfl, rfl, rfl⟩)))

theorem pre_16le : (tX T8 T16 T32).feed (tX T8 T16 T32).init [0xFF, 0xFE] = .ok (⟨.utf32_or_16_le_bom_byte2, [0xFF, 0xFE, 0, 0], .mono⟩, []) :=
  feed_cons (o := []) (stepX_start 0xFF _ (by simp)) (feed_one (stepX_bom (s := .utf32_or_16_le_bom_byte1) (v := 0xFE) (Or.inl (by decide)) rfl rfl rfl))

theorem pre_32le : (tX T8 T16 T32).feed (tX T8 T16 T32).init [0xFF, 0xFE, 0] = .ok (⟨.utf32_le_bom_byte3, [0xFF, 0xFE, 0, 0], .mono⟩, []) :=
  feed_append (o := []) (s := [0xFF, 0xFE]) pre_16le (feed_one (stepX_bom (s := .utf32_or_16_le_bom_byte2) (v := 0) (Or.inr ⟨rfl, rfl⟩) rfl rfl rfl))

theorem bom_32le : (tX T8 T16 T32).feed (tX T8 T16 T32).init [0xFF, 0xFE, 0, 0] = .ok (⟨.run_32le_byte0, [0xFF, 0xFE, 0, 0], .v32 T32.init⟩, []) :=
  feed_append (o := []) (s := [0xFF, 0xFE, 0]) pre_32le (feed_one (stepX_last32 (Or.inl ⟨rfl, rfl, rfl⟩)))

theorem bom_16le (v : UInt8) (h : v ≠ 0) : (tX T8 T16 T32).feed (tX T8 T16 T32).init [0xFF, 0xFE, v] =
    .ok (⟨.run_16le_byte1, [v, 0xFE, 0, 0], .v16 T16.init⟩, []) := by
  have h2 : (tX T8 T16 T32).step ⟨.utf32_or_16_le_bom_byte2, [0xFF, 0xFE, 0, 0], .mono⟩ v = .ok (⟨.run_16le_byte1, [v, 0xFE, 0, 0], .v16 T16.init⟩, []) := by
    show stepX (T8 := T8) (T16 := T16) (T32 := T32) ⟨.utf32_or_16_le_bom_byte2, [0xFF, 0xFE, 0, 0], .mono⟩ v = Except.ok (⟨.run_16le_byte1, [v, 0xFE, 0, 0], .v16 T16.init⟩, [])
    have : (v != 0) = true := by simpa using h
    simp only [stepX, this, if_true, run16Start, show isRunMode .utf32_or_16_le_bom_byte2 = false from rfl, bind, Except.bind, Bool.false_eq_true, if_false,
      show bufSet [0xFF, 0xFE, 0, 0] 0 v = .ok [v, 0xFE, 0, 0] from rfl]
  exact feed_append (o := []) pre_16le (feed_one h2)

/-- The beginning of the text decides that it has no byte order mark. -/
theorem plain_8 {I8 : T8.σ → Prop} (L8 : Total T8 I8) {p : Str} {s : States} {buf : Str} {v : UInt8} (hb : ∃ a b c d, buf = [a, b, c, d])
    (h : (tX T8 T16 T32).feed (tX T8 T16 T32).init p = .ok (⟨s, buf, .mono⟩, []))
    (hs : isRunMode s = false) (hst : ∀ st o, run8Start (T8 := T8) (T16 := T16) (T32 := T32) ⟨s, (buf.set (byteNo s) v), .mono⟩ true = .ok (st, o) →
      stepX (T8 := T8) (T16 := T16) (T32 := T32) ⟨s, buf, .mono⟩ v = .ok (st, o)) (hp : (buf.set (byteNo s) v).take (byteNo s + 1) = p ++ [v])
    (rest : Str) {t : T8.σ} {o : List ο} (hr : T8.feed T8.init (p ++ v :: rest) = .ok (t, o)) :
    ∃ buf', (tX T8 T16 T32).feed (tX T8 T16 T32).init (p ++ v :: rest) = .ok (⟨.run_8, buf', .v8 t⟩, o) := by
  have hb' : ∃ a b c d, buf.set (byteNo s) v = [a, b, c, d] := by
    obtain ⟨a, b, c, d, rfl⟩ := hb
    have := byteNo_lt s
    have : byteNo s = 0 ∨ byteNo s = 1 ∨ byteNo s = 2 ∨ byteNo s = 3 := by omega
    rcases this with e | e | e | e <;> rw [e] <;> exact ⟨_, _, _, _, rfl⟩
  obtain ⟨t1, o1, h1, h2, h3⟩ := run8Start_ok (T16 := T16) (T32 := T32) L8 hb' hs true
  simp only [if_true, hp] at h3
  obtain ⟨t2, o2, h4, _⟩ := L8.feed rest t1 h2
  have e := Except.ok.inj ((feed_append h3 h4).symm.trans (by simpa using hr))
  have e1 : t2 = t := congrArg Prod.fst e
  have e2 : o1 ++ o2 = o := congrArg Prod.snd e
  subst e1 e2
  refine ⟨buf.set (byteNo s) v, ?_⟩
  have := feed_append (T := tX T8 T16 T32) h (feed_cons (hst _ _ h1) (feedX_8 rest _ t1 t2 o2 h4))
  simpa using this

/-- Texts whose first bytes rule out every byte order mark. -/
inductive NoBom : Str → Prop
  | first {v rest} : v ≠ 0xEF → v ≠ 0xFE → v ≠ 0xFF → v ≠ 0 → NoBom (v :: rest)
  | ef {v rest} : v ≠ 0xBB → NoBom (0xEF :: v :: rest)
  | efbb {v rest} : v ≠ 0xBF → NoBom (0xEF :: 0xBB :: v :: rest)
  | fe {v rest} : v ≠ 0xFF → NoBom (0xFE :: v :: rest)
  | ff {v rest} : v ≠ 0xFE → NoBom (0xFF :: v :: rest)
  | z {v rest} : v ≠ 0 → NoBom (0 :: v :: rest)
  | zz {v rest} : v ≠ 0xFE → NoBom (0 :: 0 :: v :: rest)
  | zzfe {v rest} : v ≠ 0xFF → NoBom (0 :: 0 :: 0xFE :: v :: rest)
  | fffez {v rest} : v ≠ 0 → NoBom (0xFF :: 0xFE :: 0 :: v :: rest)

theorem noBom_feed {I8 : T8.σ → Prop} (L8 : Total T8 I8) {s : Str} (h : NoBom s) {t : T8.σ} {o : List ο} (hr : T8.feed T8.init s = .ok (t, o)) :
    ∃ buf', (tX T8 T16 T32).feed (tX T8 T16 T32).init s = .ok (⟨.run_8, buf', .v8 t⟩, o) := by
  cases h with
  | @first v rest h1 h2 h3 h4 =>
    refine plain_8 (p := []) (s := .start) (buf := [0, 0, 0, 0]) L8 ⟨_, _, _, _, rfl⟩ rfl rfl ?_ rfl rest hr
    intro st o h
    have e1 : (v == 0xEF) = false := by simpa using h1
    have e2 : (v == 0xFE) = false := by simpa using h2
    have e3 : (v == 0xFF) = false := by simpa using h3
    have e4 : (v == 0x00) = false := by simpa using h4
    simp only [stepX, startState, show bufSet [0, 0, 0, 0] 0 v = .ok [v, 0, 0, 0] from rfl, bind, Except.bind, e1, e2, e3, e4, Bool.false_eq_true, if_false]
    exact h
  | @ef v rest h1 =>
    refine plain_8 (p := [0xEF]) (s := .utf8_bom_byte1) (buf := [0xEF, 0, 0, 0]) L8 ⟨_, _, _, _, rfl⟩ (feed_one (stepX_start 0xEF _ (by simp))) rfl ?_ rfl rest hr
    intro st o h
    have e1 : (v == 0xBB) = false := by simpa using h1
    simp only [stepX, bomStep, show bufSet [0xEF, 0, 0, 0] (byteNo .utf8_bom_byte1) v = .ok [0xEF, v, 0, 0] from rfl,
      show bomByte .utf8_bom_byte1 = .ok 0xBB from rfl, bind, Except.bind, e1, Bool.false_eq_true, if_false]
    exact h
  | @efbb v rest h1 =>
    refine plain_8 (p := [0xEF, 0xBB]) (s := .utf8_bom_byte2) (buf := [0xEF, 0xBB, 0, 0]) L8 ⟨_, _, _, _, rfl⟩ (feed_cons (o := []) (stepX_start 0xEF _ (by simp)) (feed_one (stepX_bom (s := .utf8_bom_byte1) (v := 0xBB) (Or.inl (by decide)) rfl rfl rfl))) rfl ?_ rfl rest hr
    intro st o h
    have e1 : (v != 0xBF) = true := by simpa using h1
    simp only [stepX, show bufSet [0xEF, 0xBB, 0, 0] (byteNo .utf8_bom_byte2) v = .ok [0xEF, 0xBB, v, 0] from rfl,
      show bomByte .utf8_bom_byte2 = .ok 0xBF from rfl, bind, Except.bind, e1]
    exact h
  | @fe v rest h1 =>
    refine plain_8 (p := [0xFE]) (s := .utf16_be_bom_byte1) (buf := [0xFE, 0, 0, 0]) L8 ⟨_, _, _, _, rfl⟩ (feed_one (stepX_start 0xFE _ (by simp))) rfl ?_ rfl rest hr
    intro st o h
    have e1 : (v == 0xFF) = false := by simpa using h1
    simp only [stepX, show bufSet [0xFE, 0, 0, 0] (byteNo .utf16_be_bom_byte1) v = .ok [0xFE, v, 0, 0] from rfl,
      show bomByte .utf16_be_bom_byte1 = .ok 0xFF from rfl, bind, Except.bind, e1, Bool.false_eq_true, if_false]
    exact h
  | @ff v rest h1 =>
    refine plain_8 (p := [0xFF]) (s := .utf32_or_16_le_bom_byte1) (buf := [0xFF, 0, 0, 0]) L8 ⟨_, _, _, _, rfl⟩ (feed_one (stepX_start 0xFF _ (by simp))) rfl ?_ rfl rest hr
    intro st o h
    have e1 : (v == 0xFE) = false := by simpa using h1
    simp only [stepX, bomStep, show bufSet [0xFF, 0, 0, 0] (byteNo .utf32_or_16_le_bom_byte1) v = .ok [0xFF, v, 0, 0] from rfl,
      show bomByte .utf32_or_16_le_bom_byte1 = .ok 0xFE from rfl, bind, Except.bind, e1, Bool.false_eq_true, if_false]
    exact h
  | @z v rest h1 =>
    refine plain_8 (p := [0]) (s := .utf32_or_16_be_bom_byte1) (buf := [0, 0, 0, 0]) L8 ⟨_, _, _, _, rfl⟩ (feed_one (stepX_start 0 _ (by simp))) rfl ?_ rfl rest hr
    intro st o h
    have e1 : (v == 0) = false := by simpa using h1
    simp only [stepX, bomStep, show bufSet [0, 0, 0, 0] (byteNo .utf32_or_16_be_bom_byte1) v = .ok [0, v, 0, 0] from rfl,
      show bomByte .utf32_or_16_be_bom_byte1 = .ok 0 from rfl, bind, Except.bind, e1, Bool.false_eq_true, if_false]
    exact h
  | @zz v rest h1 =>
    refine plain_8 (p := [0, 0]) (s := .utf32_be_bom_byte2) (buf := [0, 0, 0, 0]) L8 ⟨_, _, _, _, rfl⟩ pre_32be rfl ?_ rfl rest hr
    intro st o h
    have e1 : (v == 0xFE) = false := by simpa using h1
    simp only [stepX, bomStep, show bufSet [0, 0, 0, 0] (byteNo .utf32_be_bom_byte2) v = .ok [0, 0, v, 0] from rfl,
      show bomByte .utf32_be_bom_byte2 = .ok 0xFE from rfl, bind, Except.bind, e1, Bool.false_eq_true, if_false]
    exact h
  | @zzfe v rest h1 =>
    refine plain_8 (p := [0, 0, 0xFE]) (s := .utf32_be_bom_byte3) (buf := [0, 0, 0xFE, 0]) L8 ⟨_, _, _, _, rfl⟩ pre_32be' rfl ?_ rfl rest hr
    intro st o h
    have e1 : (v == if isLittleEndian .utf32_be_bom_byte3 = true then 0x00 else 0xFF) = false := by
      rw [show isLittleEndian .utf32_be_bom_byte3 = false from rfl]
      simpa using h1
    simp only [stepX, bom32Last, show byteNo .utf32_be_bom_byte3 = 3 from rfl, ne_eq, not_true_eq_false, if_false,
      show bufSet [0, 0, 0xFE, 0] 3 v = .ok [0, 0, 0xFE, v] from rfl, bind, Except.bind, e1, Bool.false_eq_true]
    exact h
  | @fffez v rest h1 =>
    refine plain_8 (p := [0xFF, 0xFE, 0]) (s := .utf32_le_bom_byte3) (buf := [0xFF, 0xFE, 0, 0]) L8 ⟨_, _, _, _, rfl⟩ pre_32le rfl ?_ rfl rest hr
    intro st o h
    have e1 : (v == if isLittleEndian .utf32_le_bom_byte3 = true then 0x00 else 0xFF) = false := by
      rw [show isLittleEndian .utf32_le_bom_byte3 = true from rfl]
      simpa using h1
    simp only [stepX, bom32Last, show byteNo .utf32_le_bom_byte3 = 3 from rfl, ne_eq, not_true_eq_false, if_false,
      show bufSet [0xFF, 0xFE, 0, 0] 3 v = .ok [0xFF, 0xFE, 0, v] from rfl, bind, Except.bind, e1, Bool.false_eq_true]
    exact h

/-! ### Code units and what is left over -/

theorem units16_split (big : Bool) : ∀ s : Str, ∃ t, t.length < 2 ∧ s = (units16 big s).flatMap (bytes16 big) ++ t
  | [] => ⟨[], by simp, rfl⟩
  | [a] => ⟨[a], by simp, rfl⟩
  | a :: b :: s => by
    obtain ⟨t, h1, h2⟩ := units16_split big s
    refine ⟨t, h1, ?_⟩
    have ha := a.toNat_lt
    have hb := b.toNat_lt
    have key : bytes16 big (UInt16.ofNat (if big then a.toNat * 0x100 + b.toNat else b.toNat * 0x100 + a.toNat)) = [a, b] := by
      cases big
      · have e : (UInt16.ofNat (b.toNat * 0x100 + a.toNat)).toNat = b.toNat * 0x100 + a.toNat := by
          rw [UInt16.toNat_ofNat']; omega
        simp only [bytes16, Bool.false_eq_true, if_false, e]
        rw [show (b.toNat * 0x100 + a.toNat) / 0x100 = b.toNat by omega, show (b.toNat * 0x100 + a.toNat) % 0x100 = a.toNat by omega]
        simp
      · have e : (UInt16.ofNat (a.toNat * 0x100 + b.toNat)).toNat = a.toNat * 0x100 + b.toNat := by
          rw [UInt16.toNat_ofNat']; omega
        simp only [bytes16, if_true, e]
        rw [show (a.toNat * 0x100 + b.toNat) / 0x100 = a.toNat by omega, show (a.toNat * 0x100 + b.toNat) % 0x100 = b.toNat by omega]
        simp
    rw [units16, List.flatMap_cons, key, List.append_assoc, ← h2]; rfl

theorem units32_split (big : Bool) : ∀ s : Str, (∃ t, t.length < 4 ∧ s = (units32 big s).flatMap (bytes32 big) ++ t) ∧ ∀ u ∈ units32 big s, u < 2 ^ 32
  | [] => ⟨⟨[], by simp, rfl⟩, by simp [units32]⟩
  | [a] => ⟨⟨[a], by simp, rfl⟩, by simp [units32]⟩
  | [a, b] => ⟨⟨[a, b], by simp, rfl⟩, by simp [units32]⟩
  | [a, b, c] => ⟨⟨[a, b, c], by simp, rfl⟩, by simp [units32]⟩
  | a :: b :: c :: d :: s => by
    obtain ⟨⟨t, h1, h2⟩, h3⟩ := units32_split big s
    have ha := a.toNat_lt
    have hb := b.toNat_lt
    have hc := c.toNat_lt
    have hd := d.toNat_lt
    have key : ∀ w x y z : UInt8, bytes32 true (((w.toNat * 0x100 + x.toNat) * 0x100 + y.toNat) * 0x100 + z.toNat) = [w, x, y, z] := by
      intro w x y z
      have := w.toNat_lt
      have := x.toNat_lt
      have := y.toNat_lt
      have := z.toNat_lt
      simp only [bytes32, if_true]
      rw [show (((w.toNat * 0x100 + x.toNat) * 0x100 + y.toNat) * 0x100 + z.toNat) / 0x1000000 = w.toNat by omega,
        show (((w.toNat * 0x100 + x.toNat) * 0x100 + y.toNat) * 0x100 + z.toNat) / 0x10000 % 0x100 = x.toNat by omega,
        show (((w.toNat * 0x100 + x.toNat) * 0x100 + y.toNat) * 0x100 + z.toNat) / 0x100 % 0x100 = y.toNat by omega,
        show (((w.toNat * 0x100 + x.toNat) * 0x100 + y.toNat) * 0x100 + z.toNat) % 0x100 = z.toNat by omega]
      simp
    have krev : ∀ n, bytes32 false n = (bytes32 true n).reverse := fun n => rfl
    refine ⟨⟨t, h1, ?_⟩, ?_⟩
    · cases big
      · rw [units32, List.flatMap_cons, if_neg (by simp), krev, key, List.append_assoc, ← h2]; rfl
      · rw [units32, List.flatMap_cons, if_pos rfl, key, List.append_assoc, ← h2]; rfl
    · intro u hu
      rw [units32] at hu
      rcases List.mem_cons.1 hu with rfl | hu
      · cases big <;> simp <;> omega
      · exact h3 u hu

/-- All of a text after the mark of UTF-16. -/
theorem feedX_16_all (big : Bool) (s : Str) (buf : Str) (t t' : T16.σ) (o : List ο) (hb : ∃ a b c d, buf = [a, b, c, d])
    (h : T16.feed t (units16 big s) = .ok (t', o)) : ∃ st buf', Runs16 st ∧ isLittleEndian st = !big ∧
      (tX T8 T16 T32).feed ⟨if big then .run_16be_byte0 else .run_16le_byte0, buf, .v16 t⟩ s = .ok (⟨st, buf', .v16 t'⟩, o) := by
  obtain ⟨tl, h1, h2⟩ := units16_split big s
  obtain ⟨buf', hb', h3⟩ := feedX_16 (T8 := T8) (T32 := T32) big _ buf t t' o hb h
  obtain ⟨a, b, c, d, rfl⟩ := hb'
  match tl, h1 with
  | [], _ =>
    rw [List.append_nil] at h2
    rw [← h2] at h3
    refine ⟨_, _, ?_, ?_, h3⟩
    · cases big
      · exact Or.inr (Or.inr (Or.inl rfl))
      · exact Or.inl rfl
    · cases big <;> rfl
  | [v], _ =>
    cases big with
    | true =>
      have hs : (tX T8 T16 T32).step ⟨.run_16be_byte0, [a, b, c, d], .v16 t'⟩ v = .ok (⟨.run_16be_byte1, [v, b, c, d], .v16 t'⟩, []) :=
        stepX_byte (by decide +kernel) rfl rfl
      have := feed_append h3 (feed_one hs)
      rw [← h2, List.append_nil] at this
      exact ⟨_, _, Or.inr (Or.inl rfl), rfl, this⟩
    | false =>
      have hs : (tX T8 T16 T32).step ⟨.run_16le_byte0, [a, b, c, d], .v16 t'⟩ v = .ok (⟨.run_16le_byte1, [v, b, c, d], .v16 t'⟩, []) :=
        stepX_byte (by decide +kernel) rfl rfl
      have := feed_append h3 (feed_one hs)
      rw [← h2, List.append_nil] at this
      exact ⟨_, _, Or.inr (Or.inr (Or.inr rfl)), rfl, this⟩

/-- All of a text after the mark of UTF-32. -/
theorem feedX_32_all (big : Bool) (s : Str) (buf : Str) (t t' : T32.σ) (o : List ο) (hb : ∃ a b c d, buf = [a, b, c, d])
    (h : T32.feed t ((units32 big s).map fun u => if big then u else u % 2 ^ 24) = .ok (t', o)) : ∃ st buf', Runs32 st ∧ isLittleEndian st = !big ∧
      (tX T8 T16 T32).feed ⟨if big then .run_32be_byte0 else .run_32le_byte0, buf, .v32 t⟩ s = .ok (⟨st, buf', .v32 t'⟩, o) := by
  obtain ⟨⟨tl, h1, h2⟩, hu⟩ := units32_split big s
  obtain ⟨buf', hb', h3⟩ := feedX_32 (T8 := T8) (T16 := T16) big _ hu buf t t' o hb h
  obtain ⟨a, b, c, d, rfl⟩ := hb'
  have tail : ∀ tl : Str, tl.length < 4 → ∃ st buf', Runs32 st ∧ isLittleEndian st = !big ∧
      (tX T8 T16 T32).feed ⟨if big then .run_32be_byte0 else .run_32le_byte0, [a, b, c, d], .v32 t'⟩ tl = .ok (⟨st, buf', .v32 t'⟩, []) := by
    intro tl hl
    cases big with
    | true =>
      have s0 : ∀ v a b c d, (tX T8 T16 T32).step ⟨.run_32be_byte0, [a, b, c, d], .v32 t'⟩ v = .ok (⟨.run_32be_byte1, [v, b, c, d], .v32 t'⟩, []) :=
        fun _ _ _ _ _ => stepX_byte (by decide +kernel) rfl rfl
      have s1 : ∀ v a b c d, (tX T8 T16 T32).step ⟨.run_32be_byte1, [a, b, c, d], .v32 t'⟩ v = .ok (⟨.run_32be_byte2, [a, v, c, d], .v32 t'⟩, []) :=
        fun _ _ _ _ _ => stepX_byte (by decide +kernel) rfl rfl
      have s2 : ∀ v a b c d, (tX T8 T16 T32).step ⟨.run_32be_byte2, [a, b, c, d], .v32 t'⟩ v = .ok (⟨.run_32be_byte3, [a, b, v, d], .v32 t'⟩, []) :=
        fun _ _ _ _ _ => stepX_byte (by decide +kernel) rfl rfl
      match tl, hl with
      | [], _ => exact ⟨.run_32be_byte0, _, by simp [Runs32], rfl, rfl⟩
      | [v], _ => exact ⟨.run_32be_byte1, _, by simp [Runs32], rfl, feed_one (s0 ..)⟩
      | [v, w], _ => exact ⟨.run_32be_byte2, _, by simp [Runs32], rfl, feed_cons (o := []) (s0 ..) (feed_one (s1 ..))⟩
      | [v, w, x], _ => exact ⟨.run_32be_byte3, _, by simp [Runs32], rfl, feed_cons (o := []) (s0 ..) (feed_cons (o := []) (s1 ..) (feed_one (s2 ..)))⟩
    | false =>
      have s0 : ∀ v a b c d, (tX T8 T16 T32).step ⟨.run_32le_byte0, [a, b, c, d], .v32 t'⟩ v = .ok (⟨.run_32le_byte1, [v, b, c, d], .v32 t'⟩, []) :=
        fun _ _ _ _ _ => stepX_byte (by decide +kernel) rfl rfl
      have s1 : ∀ v a b c d, (tX T8 T16 T32).step ⟨.run_32le_byte1, [a, b, c, d], .v32 t'⟩ v = .ok (⟨.run_32le_byte2, [a, v, c, d], .v32 t'⟩, []) :=
        fun _ _ _ _ _ => stepX_byte (by decide +kernel) rfl rfl
      have s2 : ∀ v a b c d, (tX T8 T16 T32).step ⟨.run_32le_byte2, [a, b, c, d], .v32 t'⟩ v = .ok (⟨.run_32le_byte3, [a, b, v, d], .v32 t'⟩, []) :=
        fun _ _ _ _ _ => stepX_byte (by decide +kernel) rfl rfl
      match tl, hl with
      | [], _ => exact ⟨.run_32le_byte0, _, by simp [Runs32], rfl, rfl⟩
      | [v], _ => exact ⟨.run_32le_byte1, _, by simp [Runs32], rfl, feed_one (s0 ..)⟩
      | [v, w], _ => exact ⟨.run_32le_byte2, _, by simp [Runs32], rfl, feed_cons (o := []) (s0 ..) (feed_one (s1 ..))⟩
      | [v, w, x], _ => exact ⟨.run_32le_byte3, _, by simp [Runs32], rfl, feed_cons (o := []) (s0 ..) (feed_cons (o := []) (s1 ..) (feed_one (s2 ..)))⟩
  obtain ⟨st, buf2, k1, k2, k3⟩ := tail tl h1
  have := feed_append h3 k3
  rw [← h2, List.append_nil] at this
  exact ⟨st, buf2, k1, k2, this⟩

/-- Texts that end within a mark, and the state they leave. -/
inductive WithinMark : Str → States → Prop
  | ef : WithinMark [0xEF] .utf8_bom_byte1
  | efbb : WithinMark [0xEF, 0xBB] .utf8_bom_byte2
  | fe : WithinMark [0xFE] .utf16_be_bom_byte1
  | ff : WithinMark [0xFF] .utf32_or_16_le_bom_byte1
  | fffe : WithinMark [0xFF, 0xFE] .utf32_or_16_le_bom_byte2
  | fffez : WithinMark [0xFF, 0xFE, 0] .utf32_le_bom_byte3
  | z : WithinMark [0] .utf32_or_16_be_bom_byte1
  | zz : WithinMark [0, 0] .utf32_be_bom_byte2
  | zzfe : WithinMark [0, 0, 0xFE] .utf32_be_bom_byte3

theorem within_feed {p : Str} {s : States} (h : WithinMark p s) : ∃ buf, (∃ a b c d, buf = [a, b, c, d]) ∧ isRunMode s = false ∧ (s == .start) = false ∧
    buf.take (byteNo s + 1) = p ++ [0] ∧ (tX T8 T16 T32).feed (tX T8 T16 T32).init p = .ok (⟨s, buf, .mono⟩, []) := by
  cases h with
  | ef => exact ⟨_, ⟨_, _, _, _, rfl⟩, rfl, by decide, rfl, feed_one (stepX_start 0xEF _ (by simp))⟩
  | efbb => exact ⟨_, ⟨_, _, _, _, rfl⟩, rfl, by decide, rfl, feed_cons (o := []) (stepX_start 0xEF _ (by simp)) (feed_one (stepX_bom (s := .utf8_bom_byte1) (v := 0xBB) (Or.inl (by decide)) rfl rfl rfl))⟩
  | fe => exact ⟨_, ⟨_, _, _, _, rfl⟩, rfl, by decide, rfl, feed_one (stepX_start 0xFE _ (by simp))⟩
  | ff => exact ⟨_, ⟨_, _, _, _, rfl⟩, rfl, by decide, rfl, feed_one (stepX_start 0xFF _ (by simp))⟩
  | fffe => exact ⟨_, ⟨_, _, _, _, rfl⟩, rfl, by decide, rfl, pre_16le⟩
  | fffez => exact ⟨_, ⟨_, _, _, _, rfl⟩, rfl, by decide, rfl, pre_32le⟩
  | z => exact ⟨_, ⟨_, _, _, _, rfl⟩, rfl, by decide, rfl, feed_one (stepX_start 0 _ (by simp))⟩
  | zz => exact ⟨_, ⟨_, _, _, _, rfl⟩, rfl, by decide, rfl, pre_32be⟩
  | zzfe => exact ⟨_, ⟨_, _, _, _, rfl⟩, rfl, by decide, rfl, pre_32be'⟩

/-- `end_cp` within a mark: the bytes kept, and one more, are taken for UTF-8. -/
theorem within_end {p : Str} {s : States} (h : WithinMark p s) {t : T8.σ} {o : List ο} (hf : T8.feed T8.init (p ++ [0]) = .ok (t, o)) :
    ∃ buf, (tX T8 T16 T32).run p = .ok (⟨.run_8, buf, .v8 t⟩, o) := by
  obtain ⟨buf, hb, h1, h2, h3, h4⟩ := within_feed (T8 := T8) (T16 := T16) (T32 := T32) h
  refine ⟨buf, ?_⟩
  have h5 : (tX T8 T16 T32).endCp ⟨s, buf, .mono⟩ = .ok (⟨.run_8, buf, .v8 t⟩, o) := by
    show endCpX (T8 := T8) (T16 := T16) (T32 := T32) ⟨s, buf, .mono⟩ = Except.ok (⟨.run_8, buf, .v8 t⟩, o)
    have hn : (s != .start) = true := by simp only [bne, h2, Bool.not_false]
    have hl : ¬ (byteNo s + 1 > buf.length) := by
      obtain ⟨a, b, c, d, rfl⟩ := hb
      have := byteNo_lt s
      simp; omega
    simp only [endCpX, run8Start, hn, h1, h3, hf, Bool.false_eq_true, if_false, bind, Except.bind, Bool.true_and, decide_eq_true_eq, if_true]
    rw [if_neg (by simpa using hl)]
  exact run_of_feed h4 h5

end

end Verif.Icu
