import Verif.Proofs.ByteCalls
import Verif.Props.Icubaby
import Verif.Props.IcuHistory

/-!
# UTF transcoding: bytes of unknown encoding, under any sequence of calls (C69)
-/

set_option linter.unusedSimpArgs false
set_option linter.unusedVariables false

namespace Verif
open Verif.Unicode Verif.Icu

/-- The calls `h` to a new transcoder of bytes have the effect of the calls `l` to a new transcoder `T` from an encoding: the
same output, `well_formed ()` and `partial ()`; and `selected_encoding ()` is `e`. -/
def SameAs {ο : Type} (T8 : Transcoder UInt8 ο) (T16 : Transcoder UInt16 ο) (T32 : Transcoder Nat ο) (h : List (Call UInt8)) {ι : Type} (T : Transcoder ι ο)
    (l : List (Call ι)) (e : Encoding) : Prop :=
  ∃ st t o, calls (tX T8 T16 T32) (tX T8 T16 T32).init h = .ok (st, o) ∧ calls T T.init l = .ok (t, o) ∧
    wellFormedX st = T.wellFormed t ∧ partialX st = T.isPartial t ∧ selectedEncoding st = .ok e

/-- The calls `h` to a new transcoder of bytes have the effect that the content `k` stands for. -/
def Amounts {ο : Type} (T8 : Transcoder UInt8 ο) (T16 : Transcoder UInt16 ο) (T32 : Transcoder Nat ο) (h : List (Call UInt8)) : CallContent → Prop
  | .undecided => ∃ st, calls (tX T8 T16 T32) (tX T8 T16 T32).init h = .ok (st, []) ∧ wellFormedX st = true ∧ (partialX st = true ↔ h ≠ []) ∧
      selectedEncoding st = .ok .unknown
  | .utf8 l => SameAs T8 T16 T32 h T8 l .utf8
  | .utf16 big l => SameAs T8 T16 T32 h T16 l (if big then .utf16be else .utf16le)
  | .utf32 big l => SameAs T8 T16 T32 h T32 l (if big then .utf32be else .utf32le)

section
variable {ο : Type} {T8 : Transcoder UInt8 ο} {T16 : Transcoder UInt16 ο} {T32 : Transcoder Nat ο}

/-- The states reached, with what has been called inside. -/
inductive Reached : StX T8 T16 T32 → List ο → CallContent → Prop
  | mono {s buf} : selectedEncoding (T8 := T8) (T16 := T16) (T32 := T32) ⟨s, buf, .mono⟩ = .ok .unknown → Reached ⟨s, buf, .mono⟩ [] .undecided
  | v8 {l t o buf} : calls T8 T8.init l = .ok (t, o) → Reached ⟨.run_8, buf, .v8 t⟩ o (.utf8 l)
  | v16 {big l t o p buf} : (∃ a b c d, buf = [a, b, c, d] ∧ (p = none ∨ p = some a)) → calls T16 T16.init l = .ok (t, o) →
      Reached ⟨st16 big p, buf, .v16 t⟩ o (.utf16 big l)
  | v32 {big l t o p buf} : (∃ a b c d, buf = [a, b, c, d] ∧ (p = [] ∨ p = [a] ∨ p = [a, b] ∨ p = [a, b, c])) → calls T32 T32.init l = .ok (t, o) →
      Reached ⟨st32 big p, buf, .v32 t⟩ o (.utf32 big l)

/-- Inner transcoders never fail. -/
def AllSucceed {ι ο : Type} (T : Transcoder ι ο) : Prop := ∀ h, ∃ st o, calls T T.init h = .ok (st, o)

theorem FlagIsHonest.all {ι ο : Type} {T : Transcoder ι ο} {enc : Nat → List ι} {out : Nat → List ο} (h : FlagIsHonest T enc out) : AllSucceed T := by
  intro l
  obtain ⟨st, o, h1, _⟩ := h l
  exact ⟨st, o, h1⟩

theorem unknown_enc {s : States} (h : isRunMode s = false) (buf : Str) (v) : selectedEncoding (T8 := T8) (T16 := T16) (T32 := T32) ⟨s, buf, v⟩ = .ok .unknown := by
  simp only [selectedEncoding, h, Bool.false_eq_true, if_false]

theorem calls_reached {I8 : T8.σ → Prop} (L8 : Total T8 I8) (A8 : AllSucceed T8) (A16 : AllSucceed T16) (A32 : AllSucceed T32) (h : List (Call UInt8)) :
    ∃ st o, calls (tX T8 T16 T32) (tX T8 T16 T32).init h = .ok (st, o) ∧ Reached st o (callContent h) ∧
      (callContent h = .undecided → (partialX st = true ↔ h ≠ [])) := by
  have hh := lead_after h
  have hr := afterLead_cases h
  obtain ⟨k, hk⟩ : ∃ k, k = callContent h := ⟨_, rfl⟩
  rw [← hk]
  unfold callContent at hk
  generalize hs : lead h = s at *
  generalize hrr : afterLead h = r at *
  subst hh
  rcases classify s with rfl | ⟨w, hw⟩ | hn | ⟨t, rfl⟩ | ⟨t, rfl⟩ | ⟨t, rfl⟩ | ⟨t, rfl⟩ | ⟨v, t, hv, rfl⟩
  · rcases hr with rfl | ⟨r, rfl⟩
    · have e : k = .undecided := by rw [hk]; decide +kernel
      subst e
      exact ⟨_, _, rfl, .mono (unknown_enc (by decide +kernel) _ _), fun _ => by simp [partialX, tX]⟩
    · have e : k = .utf8 r := by rw [hk]; simp [marks]
      subst e
      have hE : (tX T8 T16 T32).endCp (tX T8 T16 T32).init = .ok (⟨.run_8, [0, 0, 0, 0], .v8 T8.init⟩, []) := by
        show endCpX (T8 := T8) (T16 := T16) (T32 := T32) ⟨.start, [0, 0, 0, 0], .mono⟩ = Except.ok (⟨.run_8, [0, 0, 0, 0], .v8 T8.init⟩, [])
        simp only [endCpX, run8Start, show (States.start != States.start) = false by decide, show isRunMode .start = false by decide,
          Bool.false_eq_true, if_false, Bool.false_and, bind, Except.bind]
      obtain ⟨t, o, g⟩ := A8 r
      exact ⟨_, _, calls_end (o := []) hE (callsX_8 g), .v8 g, nofun⟩
  · obtain ⟨buf, hb, h1, h2, h3, h4⟩ := within_feed (T8 := T8) (T16 := T16) (T32 := T32) hw
    have hne : s ≠ [] := by cases hw <;> simp
    rcases hr with rfl | ⟨r, rfl⟩
    · have e : k = .undecided := by rw [hk]; cases hw <;> decide +kernel
      subst e
      rw [List.append_nil]
      refine ⟨_, _, (calls_map s _).trans h4, .mono (unknown_enc h1 _ _), fun _ => ?_⟩
      have : (w != .start) = true := by simp [bne, h2]
      simp [partialX, this, hne]
    · have e : k = .utf8 ((s ++ [0]).map .unit ++ r) := by
        rw [hk]
        cases hw <;> simp [marks, List.cons_prefix_cons]
      subst e
      obtain ⟨t, o, g⟩ := A8 ((s ++ [0]).map .unit ++ r)
      obtain ⟨t1, o1, o2, g1, g2, rfl⟩ := calls_append_inv g
      rw [calls_map] at g1
      obtain ⟨t1', o1', k1, _, k2⟩ := run8Start_ok (T16 := T16) (T32 := T32) L8 hb h1 true
      simp only [if_true, h3] at k2
      obtain ⟨e1, e2⟩ := ok_pair (k2.symm.trans g1)
      subst e1 e2
      have hE : (tX T8 T16 T32).endCp ⟨w, buf, .mono⟩ = .ok (⟨.run_8, buf, .v8 t1'⟩, o1') := by
        show endCpX (T8 := T8) (T16 := T16) (T32 := T32) ⟨w, buf, .mono⟩ = Except.ok (⟨.run_8, buf, .v8 t1'⟩, o1')
        have : (w != .start) = true := by simp [bne, h2]
        simp only [endCpX, this]
        exact k1
      exact ⟨_, _, calls_append ((calls_map s _).trans h4) (calls_end hE (callsX_8 g2)), .v8 g, nofun⟩
  · have e : k = .utf8 (s.map .unit ++ r) := by
      rw [hk]
      cases hn with
      | first h1 h2 h3 h4 =>
        simp [marks, List.cons_prefix_cons, h1, h2, h3, h4, Ne.symm h1, Ne.symm h2, Ne.symm h3, Ne.symm h4]
      | _ h1 => simp [marks, List.cons_prefix_cons, h1, Ne.symm h1]
    subst e
    obtain ⟨t, o, g⟩ := A8 (s.map .unit ++ r)
    obtain ⟨t1, o1, o2, g1, g2, rfl⟩ := calls_append_inv g
    rw [calls_map] at g1
    obtain ⟨buf, g3⟩ := noBom_feed (T16 := T16) (T32 := T32) L8 hn g1
    exact ⟨_, _, calls_append ((calls_map s _).trans g3) (callsX_8 g2), .v8 g, nofun⟩
  · have e : k = .utf8 (t.map .unit ++ r) := by rw [hk]; simp [List.cons_prefix_cons]
    subst e
    obtain ⟨u, o, g⟩ := A8 (t.map .unit ++ r)
    exact ⟨_, _, calls_append (h := ([0xEF, 0xBB, 0xBF] : Str).map .unit) (o := []) ((calls_map _ _).trans bom_8) (callsX_8 g), .v8 g, nofun⟩
  · have e : k = .utf16 true (callUnits16 true none (t.map .unit ++ r)) := by rw [hk]; simp [List.cons_prefix_cons]
    subst e
    obtain ⟨u, o, g⟩ := A16 (callUnits16 true none (t.map .unit ++ r))
    obtain ⟨q, buf, gb, g1⟩ := callsX_16 (T8 := T8) (T32 := T32) true (p := none) (buf := [0xFE, 0xFF, 0, 0]) ⟨_, _, _, _, rfl, Or.inl rfl⟩ g
    exact ⟨_, _, calls_append (h := ([0xFE, 0xFF] : Str).map .unit) (o := []) ((calls_map _ _).trans bom_16be) g1, .v16 gb g, nofun⟩
  · have e : k = .utf32 true (callUnits32 true [] (t.map .unit ++ r)) := by rw [hk]; simp [List.cons_prefix_cons]
    subst e
    obtain ⟨u, o, g⟩ := A32 (callUnits32 true [] (t.map .unit ++ r))
    obtain ⟨q, buf, gb, g1⟩ := callsX_32 (T8 := T8) (T16 := T16) true (p := []) (buf := [0, 0, 0xFE, 0xFF]) ⟨_, _, _, _, rfl, Or.inl rfl⟩ g
    exact ⟨_, _, calls_append (h := ([0, 0, 0xFE, 0xFF] : Str).map .unit) (o := []) ((calls_map _ _).trans bom_32be) g1, .v32 gb g, nofun⟩
  · have e : k = .utf32 false (callUnits32 false [] (t.map .unit ++ r)) := by rw [hk]; simp [List.cons_prefix_cons]
    subst e
    obtain ⟨u, o, g⟩ := A32 (callUnits32 false [] (t.map .unit ++ r))
    obtain ⟨q, buf, gb, g1⟩ := callsX_32 (T8 := T8) (T16 := T16) false (p := []) (buf := [0xFF, 0xFE, 0, 0]) ⟨_, _, _, _, rfl, Or.inl rfl⟩ g
    exact ⟨_, _, calls_append (h := ([0xFF, 0xFE, 0, 0] : Str).map .unit) (o := []) ((calls_map _ _).trans bom_32le) g1, .v32 gb g, nofun⟩
  · have e : k = .utf16 false (callUnits16 false none (.unit v :: (t.map .unit ++ r))) := by
      rw [hk]; simp [List.cons_prefix_cons, hv, Ne.symm hv]
    subst e
    obtain ⟨u, o, g⟩ := A16 (callUnits16 false none (.unit v :: (t.map .unit ++ r)))
    have g' : calls T16 T16.init (callUnits16 false (some v) (t.map .unit ++ r)) = .ok (u, o) := g
    obtain ⟨q, buf, gb, g1⟩ := callsX_16 (T8 := T8) (T32 := T32) false (p := some v) (buf := [v, 0xFE, 0, 0]) ⟨_, _, _, _, rfl, Or.inr rfl⟩ g'
    exact ⟨_, _, calls_append (h := ([0xFF, 0xFE, v] : Str).map .unit) (o := []) ((calls_map _ _).trans (bom_16le v hv)) g1, .v16 gb g, nofun⟩

theorem amounts {I8 : T8.σ → Prop} (L8 : Total T8 I8) (A8 : AllSucceed T8) (A16 : AllSucceed T16) (A32 : AllSucceed T32) (h : List (Call UInt8)) :
    Amounts T8 T16 T32 h (callContent h) := by
  obtain ⟨st, o, h1, h2, h3⟩ := calls_reached L8 A8 A16 A32 h
  generalize callContent h = k at *
  cases h2 with
  | mono he => exact ⟨_, h1, rfl, h3 rfl, he⟩
  | v8 g => exact ⟨_, _, _, h1, g, rfl, rfl, enc_run8 _ _⟩
  | v16 hb g => exact ⟨_, _, _, h1, g, rfl, rfl, enc_runs16 (st16_runs _ _).1 _ (st16_runs _ _).2 _ _⟩
  | v32 hb g => exact ⟨_, _, _, h1, g, rfl, rfl, enc_runs32 (st32_runs _ _).1 _ (st32_runs _ _).2 _ _⟩

/-- Whatever is called on a transcoder of bytes, it stays usable: more calls succeed, `selected_encoding ()` does not
change once it is known, and `well_formed ()` does not become true again. -/
def Settles {ο : Type} (T8 : Transcoder UInt8 ο) (T16 : Transcoder UInt16 ο) (T32 : Transcoder Nat ο) : Prop :=
  ∀ h h' : List (Call UInt8), ∃ st o st' o', calls (tX T8 T16 T32) (tX T8 T16 T32).init h = .ok (st, o) ∧ calls (tX T8 T16 T32) st h' = .ok (st', o') ∧
    (wellFormedX st' = true → wellFormedX st = true) ∧ ∀ e, selectedEncoding st = .ok e → e ≠ .unknown → selectedEncoding st' = .ok e

/-- As C57: the flag of the inner transcoder. -/
def FlagSettles {ι ο : Type} (T : Transcoder ι ο) : Prop := ∀ h st o, calls T T.init h = .ok (st, o) →
  ∀ h', ∃ st' o', calls T st h' = .ok (st', o') ∧ (T.wellFormed st' = true → T.wellFormed st = true)

theorem FlagIsHonest.settles {ι ο : Type} {T : Transcoder ι ο} {enc : Nat → List ι} {out : Nat → List ο} (h : FlagIsHonest T enc out) : FlagSettles T := by
  intro l st o hl
  obtain ⟨st', o', h1, h2, _⟩ := h l
  obtain ⟨rfl, rfl⟩ := ok_pair (h1.symm.trans hl)
  exact h2

theorem settles {I8 : T8.σ → Prop} (L8 : Total T8 I8) (A8 : AllSucceed T8) (A16 : AllSucceed T16) (A32 : AllSucceed T32)
    (F8 : FlagSettles T8) (F16 : FlagSettles T16) (F32 : FlagSettles T32) : Settles T8 T16 T32 := by
  intro h h'
  obtain ⟨st2, o2, k1, _⟩ := calls_reached (T16 := T16) (T32 := T32) L8 A8 A16 A32 (h ++ h')
  obtain ⟨st, o, st', j1, j2, rfl⟩ := calls_append_inv k1
  refine ⟨st, o, _, _, j1, j2, ?_⟩
  obtain ⟨st0, o0, h1, h2, _⟩ := calls_reached (T16 := T16) (T32 := T32) L8 A8 A16 A32 h
  obtain ⟨e1, e2⟩ := ok_pair (h1.symm.trans j1)
  subst e1 e2
  generalize callContent h = k at h2
  cases h2 with
  | mono he =>
    refine ⟨fun _ => rfl, fun e h1 h2 => ?_⟩
    rw [he] at h1
    exact absurd (Except.ok.inj h1).symm h2
  | @v8 l t _ buf g =>
    obtain ⟨t', o', g1, g2⟩ := F8 l t _ g h'
    obtain ⟨e1, e2⟩ := ok_pair ((callsX_8 (T16 := T16) (T32 := T32) (buf := buf) g1).symm.trans j2)
    subst e1
    refine ⟨g2, fun e h1 _ => ?_⟩
    rw [enc_run8] at h1 ⊢; exact h1
  | @v16 big l t _ p buf hb g =>
    obtain ⟨t', o', g1, g2⟩ := F16 l t _ g (callUnits16 big p h')
    obtain ⟨q, buf', gb, g3⟩ := callsX_16 (T8 := T8) (T32 := T32) big hb g1
    obtain ⟨e1, e2⟩ := ok_pair (g3.symm.trans j2)
    subst e1
    refine ⟨g2, fun e h1 _ => ?_⟩
    rw [enc_runs16 (st16_runs _ _).1 _ (st16_runs _ _).2] at h1 ⊢; exact h1
  | @v32 big l t _ p buf hb g =>
    obtain ⟨t', o', g1, g2⟩ := F32 l t _ g (callUnits32 big p h')
    obtain ⟨q, buf', gb, g3⟩ := callsX_32 (T8 := T8) (T16 := T16) big hb g1
    obtain ⟨e1, e2⟩ := ok_pair (g3.symm.trans j2)
    subst e1
    refine ⟨g2, fun e h1 _ => ?_⟩
    rw [enc_runs32 (st32_runs _ _).1 _ (st32_runs _ _).2] at h1 ⊢; exact h1

end

/-- **C69**: what any sequence of calls to a transcoder of bytes has the effect of, to each of the three encodings. -/
theorem C69_exact (h : List (Call UInt8)) : Amounts t8_8 t16_8 t32_8 h (callContent h) ∧ Amounts t8_16 t16_16 t32_16 h (callContent h) ∧
    Amounts t8_32 t16_32 t32_32 h (callContent h) :=
  ⟨amounts lawful8_8.total C57_utf8_utf8.all C57_utf16_utf8.all C57_utf32_utf8.all h,
    amounts lawful8_16.total C57_utf8_utf16.all C57_utf16_utf16.all C57_utf32_utf16.all h,
    amounts lawful8_32.total C57_utf8_utf32.all C57_utf16_utf32.all C57_utf32_utf32.all h⟩

/-- **C69**: it stays usable, its choice of an encoding is final, and so is a `well_formed ()` of false. -/
theorem C69_settles : Settles t8_8 t16_8 t32_8 ∧ Settles t8_16 t16_16 t32_16 ∧ Settles t8_32 t16_32 t32_32 :=
  ⟨settles lawful8_8.total C57_utf8_utf8.all C57_utf16_utf8.all C57_utf32_utf8.all C57_utf8_utf8.settles C57_utf16_utf8.settles C57_utf32_utf8.settles,
    settles lawful8_16.total C57_utf8_utf16.all C57_utf16_utf16.all C57_utf32_utf16.all C57_utf8_utf16.settles C57_utf16_utf16.settles C57_utf32_utf16.settles,
    settles lawful8_32.total C57_utf8_utf32.all C57_utf16_utf32.all C57_utf32_utf32.all C57_utf8_utf32.settles C57_utf16_utf32.settles C57_utf32_utf32.settles⟩

/-- What is wrong: `end_cp` before any byte settles on UTF-8, so that a byte order mark after it is text; `end_cp` between
the two bytes of a UTF-16 code unit neither drops the byte nor reports it, and `partial ()` does not tell of it. -/
theorem C69_false :
    ((calls tx_32 tx_32.init [.endCp, .unit 0xEF, .unit 0xBB, .unit 0xBF]).map fun r => r.2) = .ok [0xFEFF] ∧
    ((calls tx_32 tx_32.init [.unit 0xFE, .unit 0xFF, .unit 0x00]).map fun r => (r.2, tx_32.isPartial r.1, tx_32.wellFormed r.1)) = .ok ([], false, true) ∧
    ((calls tx_32 tx_32.init [.unit 0xFE, .unit 0xFF, .unit 0x00, .endCp, .unit 0x41]).map fun r => (r.2, tx_32.wellFormed r.1)) = .ok ([0x41], true) := by
  decide +kernel

/-- A mark of UTF-16 (big endian), half a surrogate pair, `end_cp` and a letter: as UTF-16 transcoders have it. -/
example : callContent [.unit 0xFE, .unit 0xFF, .unit 0xD8, .unit 0x3D, .endCp, .unit 0x00, .unit 0x41] = .utf16 true [.unit 0xD83D, .endCp, .unit 0x41] ∧
    ((calls t16_32 t16_32.init [.unit 0xD83D, .endCp, .unit 0x41]).map fun r => (r.2, t16_32.wellFormed r.1)) = .ok ([0xFFFD, 0x41], false) ∧
    callContent [.unit 0xFF, .unit 0xFE, .endCp, .unit 0x41] = .utf8 [.unit 0xFF, .unit 0xFE, .unit 0, .unit 0x41] ∧
    callContent [.unit 0xFF, .unit 0xFE] = .undecided := by
  decide +kernel

end Verif
