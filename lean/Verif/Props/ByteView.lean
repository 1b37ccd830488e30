import Verif.Proofs.ByteView
import Verif.Props.ByteCalls

/-!
# UTF transcoding: loops over the view of bytes of unknown encoding (C89)
-/

set_option linter.unusedSimpArgs false
set_option linter.unusedVariables false

namespace Verif
open Verif.Unicode Verif.Icu

/-- A loop over the view of `s` through the transcoder `T`, whose iterator has room for `K` elements, reaches its end: no
assertion fails, nothing is written outside that room, and no element is read that is not there. -/
def LoopsOver {ι ο : Type} (T : Transcoder ι ο) (K : Nat) (s : List ι) : Prop := ∃ out wf, viewRun T K s = .ok (out, wf)

/-- A loop over the view of `s` that reaches its end yields what the transcoder makes of `s`, and `well_formed ()` of the
view is then that of the transcoder. -/
def AgreesWhenDefined {ι ο : Type} (T : Transcoder ι ο) (K : Nat) : Prop := ∀ s out wf, viewRun T K s = .ok (out, wf) →
  ∃ st, T.run s = .ok (st, out) ∧ wf = T.wellFormed st

/-- The shortest beginnings of texts that show that there is no byte order mark. -/
inductive Deciding : Str → Prop
  | first {v} : v ≠ 0xEF → v ≠ 0xFE → v ≠ 0xFF → v ≠ 0 → Deciding [v]
  | ef {v} : v ≠ 0xBB → Deciding [0xEF, v]
  | efbb {v} : v ≠ 0xBF → Deciding [0xEF, 0xBB, v]
  | fe {v} : v ≠ 0xFF → Deciding [0xFE, v]
  | ff {v} : v ≠ 0xFE → Deciding [0xFF, v]
  | z {v} : v ≠ 0 → Deciding [0, v]
  | zz {v} : v ≠ 0xFE → Deciding [0, 0, v]
  | zzfe {v} : v ≠ 0xFF → Deciding [0, 0, 0xFE, v]
  | fffez {v} : v ≠ 0 → Deciding [0xFF, 0xFE, 0, v]

/-- The proper beginnings of marks (FF FE among them, being one of FF FE 00 00). -/
def partialMarks : List Str := [[0xEF], [0xEF, 0xBB], [0xFE], [0xFF], [0xFF, 0xFE], [0xFF, 0xFE, 0], [0], [0, 0], [0, 0, 0xFE]]

theorem loopsOver_iff {ι ο : Type} {T : Transcoder ι ο} {K : Nat} {s : List ι} (hs : s ≠ []) : LoopsOver T K s ↔ Runs T K T.init s := by
  rw [← view_runs s hs]
  exact ⟨fun ⟨a, b, h⟩ => ⟨_, h⟩, fun ⟨⟨a, b⟩, h⟩ => ⟨a, b, h⟩⟩

theorem loopsOver_nil {ι ο : Type} {T : Transcoder ι ο} {K : Nat} : viewRun T K [] = .ok ([], true) := by
  simp [viewRun, viewBegin, viewLoop, ViewIt.atEnd, bind, Except.bind]

theorem Deciding.shape {p : Str} (h : Deciding p) : NoBom p ∧ ∃ p' v, p = p' ++ [v] ∧ (p' = [] ∨ ∃ s, WithinMark p' s) := by
  cases h with
  | @first v a b c d => exact ⟨.first a b c d, [], v, rfl, Or.inl rfl⟩
  | @ef v a => exact ⟨.ef a, [0xEF], v, rfl, Or.inr ⟨_, .ef⟩⟩
  | @efbb v a => exact ⟨.efbb a, [0xEF, 0xBB], v, rfl, Or.inr ⟨_, .efbb⟩⟩
  | @fe v a => exact ⟨.fe a, [0xFE], v, rfl, Or.inr ⟨_, .fe⟩⟩
  | @ff v a => exact ⟨.ff a, [0xFF], v, rfl, Or.inr ⟨_, .ff⟩⟩
  | @z v a => exact ⟨.z a, [0], v, rfl, Or.inr ⟨_, .z⟩⟩
  | @zz v a => exact ⟨.zz a, [0, 0], v, rfl, Or.inr ⟨_, .zz⟩⟩
  | @zzfe v a => exact ⟨.zzfe a, [0, 0, 0xFE], v, rfl, Or.inr ⟨_, .zzfe⟩⟩
  | @fffez v a => exact ⟨.fffez a, [0xFF, 0xFE, 0], v, rfl, Or.inr ⟨_, .fffez⟩⟩

section
variable {ο : Type} {T8 : Transcoder UInt8 ο} {T16 : Transcoder UInt16 ο} {T32 : Transcoder Nat ο} {K : Nat}

theorem within_silent {p : Str} (h : p = [] ∨ ∃ s, WithinMark p s) : ∃ st, (tX T8 T16 T32).feed (tX T8 T16 T32).init p = .ok (st, []) := by
  rcases h with rfl | ⟨s, hw⟩
  · exact ⟨_, rfl⟩
  · obtain ⟨buf, _, _, _, _, h⟩ := within_feed (T8 := T8) (T16 := T16) (T32 := T32) hw
    exact ⟨_, h⟩

theorem feed_snoc {ι : Type} {T : Transcoder ι ο} {st st' st'' : T.σ} {p : List ι} {v : ι} {o o' : List ο} (h : T.feed st p = .ok (st', o))
    (h' : T.feed st (p ++ [v]) = .ok (st'', o')) : ∃ o1, T.step st' v = .ok (st'', o1) ∧ o' = o ++ o1 := by
  rw [← calls_map, List.map_append] at h'
  obtain ⟨a, b, c, g1, g2, g3⟩ := calls_append_inv h'
  rw [calls_map] at g1 g2
  obtain ⟨rfl, rfl⟩ := ok_pair (g1.symm.trans h)
  obtain ⟨x, y, z, k1, k2, k3⟩ := feed_split g2
  obtain ⟨rfl, rfl⟩ := ok_pair (show Except.ok (x, []) = Except.ok (st'', z) from k2)
  exact ⟨y, k1, by rw [g3, k3, List.append_nil]⟩

/-- Texts without a mark. -/
theorem plain_loops {Q : List ο → Prop} {I : T8.σ → Prop} (L : Lawful T8 Q I) (hQ : ∀ l, Q l → l.length ≤ K) {p : Str} (hp : Deciding p) (r : Str) :
    ∃ t o t' o', T8.feed T8.init p = .ok (t, o) ∧ T8.run p = .ok (t', o') ∧
      (LoopsOver (tX T8 T16 T32) K (p ++ r) ↔ (r = [] ∧ o'.length ≤ K) ∨ (r ≠ [] ∧ o.length ≤ K)) ∧
      ((∃ p' v t0, p = p' ++ [v] ∧ T8.feed T8.init p' = .ok (t0, [])) → o'.length ≤ K ∧ o.length ≤ K) := by
  obtain ⟨hn, p', v, rfl, hw⟩ := hp.shape
  obtain ⟨t0, o0, f1, f2⟩ := L.total.feed p' T8.init L.total.init
  obtain ⟨t, o1, t', e, t3, e3, h1, h2, h3, h4, h5, h6, h6', h7, h8, h9, h10, h11⟩ := L.step t0 v f2.1
  have hfeed : T8.feed T8.init (p' ++ [v]) = .ok (t, o0 ++ o1) := feed_append f1 (feed_one h1)
  have hrun : T8.run (p' ++ [v]) = .ok (t', (o0 ++ o1) ++ e) := run_of_feed hfeed h5
  refine ⟨t, o0 ++ o1, t', _, hfeed, hrun, ?_, ?_⟩
  · obtain ⟨buf, g1⟩ := noBom_feed (T16 := T16) (T32 := T32) L.total hn hfeed
    obtain ⟨st, g2⟩ := within_silent (T8 := T8) (T16 := T16) (T32 := T32) hw
    obtain ⟨o2, g3, g4⟩ := feed_snoc g2 g1
    rw [List.nil_append] at g4
    subst g4
    rw [loopsOver_iff (by simp), List.append_assoc, runs_silent p' g2 (by simp)]
    cases r with
    | nil =>
      rw [show [v] ++ ([] : Str) = [v] from rfl, runs_one g3 (endX8 h5) (endX8 h9)]
      have hne : o0 ++ o1 ++ e ≠ [] := by
        intro h
        obtain ⟨k1, k2⟩ := List.append_eq_nil_iff.1 h
        exact h8 (List.append_eq_nil_iff.1 k1).2 k2
      simp only [ne_eq, hne, not_false_eq_true, true_and, hQ _ h10, and_true, not_true_eq_false, false_and, or_false]
    | cons d r =>
      rw [show [v] ++ d :: r = v :: d :: r from rfl, runs_more g3]
      have := runs_8 (T16 := T16) (T32 := T32) L hQ buf (d :: r) t h2 (by simp)
      simp only [this, and_true, reduceCtorEq, false_and, false_or, ne_eq, not_false_eq_true, true_and]
  · rintro ⟨q, w, t1, e1, e2⟩
    obtain ⟨rfl, hvw⟩ := List.append_inj' e1 rfl
    obtain ⟨_, rfl⟩ := ok_pair (f1.symm.trans e2)
    rw [List.nil_append]
    exact ⟨hQ _ h7, hQ _ h4⟩

/-- UTF-8 after its mark. -/
theorem mark8_loops {Q : List ο → Prop} {I : T8.σ → Prop} (L : Lawful T8 Q I) (hQ : ∀ l, Q l → l.length ≤ K) (r : Str) :
    LoopsOver (tX T8 T16 T32) K ([0xEF, 0xBB, 0xBF] ++ r) ↔ r ≠ [] := by
  rw [loopsOver_iff (by simp)]
  cases r with
  | nil =>
    have h2 : (tX T8 T16 T32).feed (tX T8 T16 T32).init [0xEF, 0xBB] = .ok (⟨.utf8_bom_byte2, [0xEF, 0xBB, 0, 0], .mono⟩, []) :=
      feed_cons (o := []) (stepX_start 0xEF _ (by simp)) (feed_one (stepX_bom (s := .utf8_bom_byte1) (v := 0xBB) (Or.inl (by decide)) rfl rfl rfl))
    obtain ⟨o, g3, g4⟩ := feed_snoc (p := [0xEF, 0xBB]) (v := 0xBF) h2 bom_8
    rw [List.nil_append] at g4
    subst g4
    rw [show ([0xEF, 0xBB, 0xBF] ++ [] : Str) = [0xEF, 0xBB] ++ [0xBF] from rfl, runs_silent [0xEF, 0xBB] h2 (by simp),
      runs_one g3 (endX8 L.endInit) (endX8 L.endInit)]
    simp
  | cons d r =>
    rw [runs_silent [0xEF, 0xBB, 0xBF] bom_8 (by simp)]
    simp only [ne_eq, reduceCtorEq, not_false_eq_true, iff_true]
    exact runs_8 L hQ _ _ _ L.init (by simp)

/-- UTF-32 after its mark. -/
theorem mark32_loops {f : Nat → List ο} {g : Nat → Bool} (S : Simple T32 f g) (hf : ∀ c, (f c).length ≤ K) (r : Str) :
    (LoopsOver (tX T8 T16 T32) K ([0, 0, 0xFE, 0xFF] ++ r) ↔ r ≠ [] ∧ r.length % 4 = 0) ∧
    (LoopsOver (tX T8 T16 T32) K ([0xFF, 0xFE, 0, 0] ++ r) ↔ r ≠ [] ∧ r.length % 4 = 0) := by
  rw [loopsOver_iff (by simp), loopsOver_iff (by simp)]
  cases r with
  | nil =>
    obtain ⟨o, g3, g4⟩ := feed_snoc (p := [0, 0, 0xFE]) (v := 0xFF) (pre_32be' (T8 := T8) (T16 := T16) (T32 := T32)) bom_32be
    obtain ⟨o', k3, k4⟩ := feed_snoc (p := [0xFF, 0xFE, 0]) (v := 0) (pre_32le (T8 := T8) (T16 := T16) (T32 := T32)) bom_32le
    rw [List.nil_append] at g4 k4
    subst g4 k4
    rw [show ([0, 0, 0xFE, 0xFF] ++ [] : Str) = [0, 0, 0xFE] ++ [0xFF] from rfl, runs_silent [0, 0, 0xFE] pre_32be' (by simp),
      show ([0xFF, 0xFE, 0, 0] ++ [] : Str) = [0xFF, 0xFE, 0] ++ [0] from rfl, runs_silent [0xFF, 0xFE, 0] pre_32le (by simp),
      runs_one g3 (show (tX T8 T16 T32).endCp _ = _ from endX32 (S.end_ _)) (show (tX T8 T16 T32).endCp _ = _ from endX32 (S.end_ _)),
      runs_one k3 (show (tX T8 T16 T32).endCp _ = _ from endX32 (S.end_ _)) (show (tX T8 T16 T32).endCp _ = _ from endX32 (S.end_ _))]
    simp
  | cons d r =>
    rw [runs_silent [0, 0, 0xFE, 0xFF] bom_32be (by simp), runs_silent [0xFF, 0xFE, 0, 0] bom_32le (by simp)]
    simp only [ne_eq, reduceCtorEq, not_false_eq_true, true_and]
    exact ⟨runs_32 S hf true (d :: r) _ _ _ _ _ (by simp), runs_32 S hf false (d :: r) _ _ _ _ _ (by simp)⟩

/-- What decides for UTF-16: the bytes after the mark are whole code units; or one byte is left over after a high surrogate.
Then U+FFFD for a high surrogate, together with the code unit after it, must fit. -/
def Fits16 (fits : UInt16 → Prop) (both : Prop) (big : Bool) (r : Str) : Prop :=
  Orderly fits (units16 big r) ∧ ((r ≠ [] ∧ r.length % 2 = 0 ∧ (both ∨ ¬ TwoHighs (units16 big r))) ∨ (r.length % 2 = 1 ∧ EndsHigh (units16 big r)))

theorem fits16_iff {hi : T16.σ → Bool} {rr : Nat} {fits : UInt16 → Prop} (S : Sized T16 hi K rr fits) (big : Bool) {r : Str} (hr : r ≠ []) :
    ((r.length % 2 = 0 ∧ Runs T16 K T16.init (units16 big r)) ∨ (r.length % 2 = 1 ∧ RunsTail T16 K T16.init (units16 big r))) ↔
      Fits16 fits (rr + rr ≤ K) big r := by
  have hi0 : hi T16.init = true ↔ High 0 := by rw [S.init]; simp [zero_low]
  rw [S.tail _ _ 0 hi0, orderly_zero, ends_zero]
  have hm : r.length % 2 = 0 ∨ r.length % 2 = 1 := by omega
  unfold Fits16
  rcases hm with hm | hm
  · have hu : units16 big r ≠ [] := by
      match r, hr, hm with
      | [_], _, hm => simp at hm
      | _ :: _ :: _, _, _ => simp [units16]
    rw [S.runs _ _ 0 hi0 hu, orderly_zero, two_zero hu]
    simp [hm, hr]
  · simp [hm]

/-- UTF-16 after its mark. -/
theorem mark16_loops {Q : List ο → Prop} {I : T16.σ → Prop} (L : Lawful T16 Q I) {hi : T16.σ → Bool} {rr : Nat} {fits : UInt16 → Prop}
    (S : Sized T16 hi K rr fits) (r : Str) : (LoopsOver (tX T8 T16 T32) K ([0xFE, 0xFF] ++ r) ↔ Fits16 fits (rr + rr ≤ K) true r) ∧
    (r ≠ [] → r.head? ≠ some 0 → (LoopsOver (tX T8 T16 T32) K ([0xFF, 0xFE] ++ r) ↔ Fits16 fits (rr + rr ≤ K) false r)) := by
  constructor
  · rw [loopsOver_iff (by simp)]
    cases r with
    | nil =>
      have h1 : (tX T8 T16 T32).feed (tX T8 T16 T32).init [0xFE] = .ok (⟨.utf16_be_bom_byte1, [0xFE, 0, 0, 0], .mono⟩, []) := feed_one (stepX_start 0xFE _ (by simp))
      obtain ⟨o, g3, g4⟩ := feed_snoc (p := [0xFE]) (v := 0xFF) h1 bom_16be
      rw [List.nil_append] at g4
      subst g4
      rw [show ([0xFE, 0xFF] ++ [] : Str) = [0xFE] ++ [0xFF] from rfl, runs_silent [0xFE] h1 (by simp),
        runs_one g3 (show (tX T8 T16 T32).endCp _ = _ from endX16 L.endInit) (show (tX T8 T16 T32).endCp _ = _ from endX16 L.endInit)]
      simp [Fits16]
    | cons d r =>
      rw [runs_silent [0xFE, 0xFF] bom_16be (by simp), ← fits16_iff S true (by simp)]
      exact runs_16 L true (d :: r) _ _ _ _ _ L.init ⟨_, _, _, _, L.endInit, L.endInit⟩ (by simp)
  · intro hr h0
    rw [loopsOver_iff (by simp), ← fits16_iff S false hr]
    cases r with
    | nil => exact absurd rfl hr
    | cons v r =>
      have hv : v ≠ 0 := by simpa using h0
      cases r with
      | nil =>
        obtain ⟨o, g3, g4⟩ := feed_snoc (p := [0xFF, 0xFE]) (v := v) (pre_16le (T8 := T8) (T16 := T16) (T32 := T32)) (bom_16le v hv)
        rw [List.nil_append] at g4
        subst g4
        rw [runs_silent [0xFF, 0xFE] pre_16le (by simp),
          runs_one g3 (show (tX T8 T16 T32).endCp _ = _ from endX16 L.endInit) (show (tX T8 T16 T32).endCp _ = _ from endX16 L.endInit),
          show units16 false [v] = [] from rfl, tail_nil L.endInit L.endInit]
        simp
      | cons w r =>
        rw [show ([0xFF, 0xFE] ++ v :: w :: r : Str) = [0xFF, 0xFE, v] ++ w :: r from rfl, runs_silent [0xFF, 0xFE, v] (bom_16le v hv) (by simp)]
        have hl : (v :: w :: r).length % 2 = r.length % 2 := by simp only [List.length_cons]; omega
        rw [hl]
        exact runs_16' L false v w r _ _ _ _ L.init

/-- The transcoders from an encoding: `end_cp` twice leaves `well_formed ()` as it is after the first. -/
def EndTwice {ι : Type} (T : Transcoder ι ο) : Prop := ∀ st st' e st'' e', T.endCp st = .ok (st', e) → T.endCp st' = .ok (st'', e') →
  T.wellFormed st'' = T.wellFormed st'

theorem Simple.endTwice {T : Transcoder Nat ο} {f : Nat → List ο} {g : Nat → Bool} (S : Simple T f g) : EndTwice T := by
  intro st st' e st'' e' h1 h2
  rw [S.end_] at h1 h2
  rw [(ok_pair h2).1]

theorem decided {p : Str} (h : p ≠ []) (hm : ¬ ∃ w, WithinMark p w) : callContent (p.map .unit) ≠ .undecided := by
  have e1 : lead (p.map (Call.unit (ι := UInt8))) = p := by
    clear h hm
    induction p with
    | nil => rfl
    | cons a p ih => simp [lead, ih]
  have e2 : afterLead (p.map (Call.unit (ι := UInt8))) = [] := by
    clear h hm e1
    induction p with
    | nil => rfl
    | cons a p ih => simpa [afterLead] using ih
  unfold callContent
  rw [e1, e2]
  rcases classify p with rfl | hw | hn | ⟨t, rfl⟩ | ⟨t, rfl⟩ | ⟨t, rfl⟩ | ⟨t, rfl⟩ | ⟨v, t, hv, rfl⟩
  · exact absurd rfl h
  · exact absurd hw hm
  · cases hn with
    | first h1 h2 h3 h4 => simp [marks, List.cons_prefix_cons, h1, h2, h3, h4, Ne.symm h1, Ne.symm h2, Ne.symm h3, Ne.symm h4]
    | _ h1 => simp [marks, List.cons_prefix_cons, h1, Ne.symm h1]
  · simp [List.cons_prefix_cons]
  · simp [List.cons_prefix_cons]
  · simp [List.cons_prefix_cons]
  · simp [List.cons_prefix_cons]
  · simp [List.cons_prefix_cons, hv, Ne.symm hv]

theorem withinMark_mem {p : Str} {w : States} (h : WithinMark p w) : p ∈ partialMarks := by
  cases h <;> decide

/-- What is yielded agrees. -/
theorem agrees {I8 : T8.σ → Prop} (L8 : Total T8 I8) (A8 : AllSucceed T8) (A16 : AllSucceed T16) (A32 : AllSucceed T32)
    (hS : Settles T8 T16 T32) (E8 : EndTwice T8) (E16 : EndTwice T16) (E32 : EndTwice T32) (hI : T8.wellFormed T8.init = true)
    (hW : ∀ p ∈ partialMarks, ∀ t o t' e, T8.feed T8.init (p ++ [0]) = .ok (t, o) → T8.endCp t = .ok (t', e) → T8.wellFormed t' = T8.wellFormed t) :
    AgreesWhenDefined (tX T8 T16 T32) K := by
  intro s out wf h
  by_cases hs : s = []
  · subst hs
    rw [loopsOver_nil] at h
    obtain ⟨rfl, rfl⟩ := ok_pair h
    have hE : (tX T8 T16 T32).endCp (tX T8 T16 T32).init = .ok (⟨.run_8, [0, 0, 0, 0], .v8 T8.init⟩, []) := by
      show endCpX (T8 := T8) (T16 := T16) (T32 := T32) ⟨.start, [0, 0, 0, 0], .mono⟩ = Except.ok (⟨.run_8, [0, 0, 0, 0], .v8 T8.init⟩, [])
      simp only [endCpX, run8Start, show (States.start != States.start) = false by decide, show isRunMode .start = false by decide,
        Bool.false_eq_true, if_false, Bool.false_and, bind, Except.bind]
    exact ⟨_, run_of_feed (s := []) (o := []) rfl hE, hI.symm⟩
  · rw [view_eq s hs] at h
    have fin : ∀ {st'' : StX T8 T16 T32}, RestOk (tX T8 T16 T32) (tX T8 T16 T32).init s st'' out → wf = (true && wellFormedX st'') →
        ∃ st, (tX T8 T16 T32).run s = .ok (st, out) ∧ wf = (tX T8 T16 T32).wellFormed st :=
      fun g1 g2 => ⟨_, g1.run, by rw [g2]; simp [tX]⟩
    refine (fun hx => ?_ : (∃ st'', RestOk (tX T8 T16 T32) (tX T8 T16 T32).init s st'' out ∧ wf = (true && wellFormedX st'') ∧
        ((tX T8 T16 T32).wellFormed st'' = true → (tX T8 T16 T32).wellFormed (tX T8 T16 T32).init = true)) → _)
      (spec_sound (R := fun st => ∃ p o, (tX T8 T16 T32).feed (tX T8 T16 T32).init p = .ok (st, o)) ?_ ?_ s _ _ _ _ ⟨[], [], rfl⟩ hs h)
    · obtain ⟨st'', g1, g2, _⟩ := hx
      exact fin g1 g2
    · rintro st c st' o ⟨p, o', hp⟩ hst
      refine ⟨⟨p ++ [c], o' ++ o, feed_append hp (feed_one hst)⟩, ?_⟩
      obtain ⟨a, b, a', b', k1, k2, k3, _⟩ := hS (p.map .unit) [.unit c]
      rw [calls_map, hp] at k1
      obtain ⟨rfl, rfl⟩ := ok_pair k1
      obtain ⟨x, y, z, j1, j2, j3⟩ := calls_unit_inv k2
      obtain ⟨rfl, rfl⟩ := ok_pair (hst.symm.trans j1)
      obtain ⟨rfl, rfl⟩ := calls_nil_inv j2
      exact k3
    · rintro st0 c o st st' e st'' e' ⟨p0, o', hp0⟩ hst h1 h2
      have hp := feed_append hp0 (feed_one hst)
      have hne : p0 ++ [c] ≠ [] := by simp
      generalize p0 ++ [c] = p at hp hne
      generalize o' ++ o = oo at hp
      constructor
      · obtain ⟨a, b, a', b', k1, k2, k3, _⟩ := hS (p.map .unit) [.endCp]
        rw [calls_map, hp] at k1
        obtain ⟨rfl, rfl⟩ := ok_pair k1
        obtain ⟨x, y, z, j1, j2, j3⟩ := calls_end_inv k2
        obtain ⟨rfl, rfl⟩ := ok_pair (h1.symm.trans j1)
        obtain ⟨rfl, rfl⟩ := calls_nil_inv j2
        exact k3
      · by_cases hm : ∃ w, WithinMark p w
        · obtain ⟨w, hw⟩ := hm
          obtain ⟨t, o, ht⟩ := A8 ((p ++ [0]).map .unit ++ [.endCp])
          obtain ⟨t1, o1, o2, m1, m2, m3⟩ := calls_append_inv ht
          obtain ⟨t2, o3, o4, m4, m5, m6⟩ := calls_end_inv m2
          rw [calls_map] at m1
          obtain ⟨buf, k⟩ := within_end (T16 := T16) (T32 := T32) hw m1
          obtain ⟨a1, a2, a3, j1, j2, j3⟩ := run_split k
          obtain ⟨rfl, rfl⟩ := ok_pair (hp.symm.trans j1)
          obtain ⟨rfl, rfl⟩ := ok_pair (h1.symm.trans j2)
          obtain ⟨rfl, rfl⟩ := ok_pair ((endX8 m4).symm.trans h2)
          exact hW p (withinMark_mem hw) _ _ _ _ m1 m4
        · obtain ⟨st2, o2, k1, k2, _⟩ := calls_reached (T16 := T16) (T32 := T32) L8 A8 A16 A32 (p.map .unit)
          rw [calls_map] at k1
          obtain ⟨rfl, rfl⟩ := ok_pair (k1.symm.trans hp)
          have hd := decided hne hm
          generalize callContent (p.map .unit) = k at k2 hd
          cases k2 with
          | mono he => exact absurd rfl hd
          | @v8 l t _ buf g =>
            obtain ⟨t', x, ht⟩ := A8 (l ++ [.endCp, .endCp])
            obtain ⟨t1, o1, o2, m1, m2, m3⟩ := calls_append_inv ht
            obtain ⟨rfl, rfl⟩ := ok_pair (m1.symm.trans g)
            obtain ⟨t2, o3, o4, m4, m5, m6⟩ := calls_end_inv m2
            obtain ⟨t3, o5, o6, m7, m8, m9⟩ := calls_end_inv m5
            obtain ⟨rfl, rfl⟩ := ok_pair (h1.symm.trans (endX8 m4))
            obtain ⟨rfl, rfl⟩ := ok_pair (h2.symm.trans (endX8 m7))
            exact E8 _ _ _ _ _ m4 m7
          | @v16 big l t _ q buf hb g =>
            obtain ⟨t', x, ht⟩ := A16 (l ++ [.endCp, .endCp])
            obtain ⟨t1, o1, o2, m1, m2, m3⟩ := calls_append_inv ht
            obtain ⟨rfl, rfl⟩ := ok_pair (m1.symm.trans g)
            obtain ⟨t2, o3, o4, m4, m5, m6⟩ := calls_end_inv m2
            obtain ⟨t3, o5, o6, m7, m8, m9⟩ := calls_end_inv m5
            obtain ⟨rfl, rfl⟩ := ok_pair (h1.symm.trans (endX16 m4))
            obtain ⟨rfl, rfl⟩ := ok_pair (h2.symm.trans (endX16 m7))
            exact E16 _ _ _ _ _ m4 m7
          | @v32 big l t _ q buf hb g =>
            obtain ⟨t', x, ht⟩ := A32 (l ++ [.endCp, .endCp])
            obtain ⟨t1, o1, o2, m1, m2, m3⟩ := calls_append_inv ht
            obtain ⟨rfl, rfl⟩ := ok_pair (m1.symm.trans g)
            obtain ⟨t2, o3, o4, m4, m5, m6⟩ := calls_end_inv m2
            obtain ⟨t3, o5, o6, m7, m8, m9⟩ := calls_end_inv m5
            obtain ⟨rfl, rfl⟩ := ok_pair (h1.symm.trans (endX32 m4))
            obtain ⟨rfl, rfl⟩ := ok_pair (h2.symm.trans (endX32 m7))
            exact E32 _ _ _ _ _ m4 m7

end

theorem endTwice8_32 : EndTwice t8_32 := by
  intro st st' e st'' e' h1 h2
  have h1 : endCp8to32 st = .ok (st', e) := h1
  have h2 : endCp8to32 st' = .ok (st'', e') := h2
  show st''.wf = st'.wf
  unfold endCp8to32 at h1 h2
  by_cases hs : st.state ≠ accept
  · rw [if_pos hs] at h1
    obtain ⟨rfl, _⟩ := ok_pair h1
    rw [if_pos (by simp [accept, reject])] at h2
    obtain ⟨rfl, _⟩ := ok_pair h2
    rfl
  · rw [if_neg hs] at h1
    obtain ⟨rfl, _⟩ := ok_pair h1
    rw [if_neg hs] at h2
    obtain ⟨rfl, _⟩ := ok_pair h2
    rfl

theorem endTwice16_32 : EndTwice t16_32 := by
  intro st st' e st'' e' h1 h2
  have h1 : endCp16to32 st = .ok (st', e) := h1
  have h2 : endCp16to32 st' = .ok (st'', e') := h2
  show st''.wf = st'.wf
  unfold endCp16to32 at h1 h2
  cases hs : st.hasHigh with
  | true =>
    rw [if_pos hs] at h1
    obtain ⟨rfl, _⟩ := ok_pair h1
    obtain ⟨rfl, _⟩ := ok_pair (show Except.ok (_, []) = Except.ok (st'', e') from h2)
    rfl
  | false =>
    rw [if_neg (by simp [hs])] at h1
    obtain ⟨rfl, _⟩ := ok_pair h1
    rw [if_neg (by simp [hs])] at h2
    obtain ⟨rfl, _⟩ := ok_pair h2
    rfl

/-- Through UTF-32, if what `end_cp` writes are scalar values, and not more than fit. -/
theorem endTwice_tri {ι ο : Type} {A : Transcoder ι Nat} {B : Transcoder Nat ο} {f : Nat → List ο} {g : Nat → Bool} {cap : Nat} (S : Simple B f g)
    (hA : ∀ st, ∃ st' e, A.endCp st = .ok (st', e) ∧ e.length ≤ cap ∧ e.all g = true) (E : EndTwice A) : EndTwice (triangulator cap A B) := by
  rintro ⟨a, b⟩ ⟨a', b'⟩ e ⟨a'', b''⟩ e' h1 h2
  obtain ⟨x, ex, k1, k2, k3⟩ := hA a
  obtain ⟨b1, t1, t2⟩ := tri_end (cap := cap) (B := B) S (b := b) k1 k2
  obtain ⟨j1, _⟩ := ok_pair (h1.symm.trans t1)
  obtain ⟨rfl, rfl⟩ : a' = x ∧ b' = b1 := ⟨congrArg Prod.fst j1, congrArg Prod.snd j1⟩
  obtain ⟨y, ey, k4, k5, k6⟩ := hA a'
  obtain ⟨b2, t3, t4⟩ := tri_end (cap := cap) (B := B) S (b := b') k4 k5
  obtain ⟨j2, _⟩ := ok_pair (h2.symm.trans t3)
  obtain ⟨rfl, rfl⟩ : a'' = y ∧ b'' = b2 := ⟨congrArg Prod.fst j2, congrArg Prod.snd j2⟩
  simp only [triangulator, t4, k6, Bool.and_true, E _ _ _ _ _ k1 k4]

theorem end8_scalar (st : St8) : ∃ st' e, t8_32.endCp st = .ok (st', e) ∧ e.length ≤ 1 ∧ e.all (fun c => decide (Scalar c)) = true := by
  show ∃ st' e, endCp8to32 st = .ok (st', e) ∧ e.length ≤ 1 ∧ e.all (fun c => decide (Scalar c)) = true
  unfold endCp8to32
  by_cases hs : st.state ≠ accept
  · rw [if_pos hs]; exact ⟨_, _, rfl, by simp, by decide⟩
  · rw [if_neg hs]; exact ⟨_, _, rfl, by simp, by decide⟩

theorem end16_scalar (st : St16) : ∃ st' e, t16_32.endCp st = .ok (st', e) ∧ e.length ≤ 2 ∧ e.all (fun c => decide (Scalar c)) = true := by
  show ∃ st' e, endCp16to32 st = .ok (st', e) ∧ e.length ≤ 2 ∧ e.all (fun c => decide (Scalar c)) = true
  unfold endCp16to32
  cases hs : st.hasHigh with
  | true => rw [if_pos rfl]; exact ⟨_, _, rfl, by simp, by decide⟩
  | false => rw [if_neg (by simp)]; exact ⟨_, _, rfl, by simp, by decide⟩

/-- Whether `well_formed ()` stays as it is if a text is ended. -/
def endKeeps {ο : Type} (T : Transcoder UInt8 ο) (s : Str) : Bool :=
  match T.feed T.init s with
  | .ok (t, _) => match T.endCp t with
    | .ok (t', _) => T.wellFormed t' == T.wellFormed t
    | .error _ => false
  | .error _ => false

theorem endKeeps_spec {ο : Type} {T : Transcoder UInt8 ο} (h : ∀ p ∈ partialMarks, endKeeps T (p ++ [0]) = true) : ∀ p ∈ partialMarks, ∀ t o t' e,
    T.feed T.init (p ++ [0]) = .ok (t, o) → T.endCp t = .ok (t', e) → T.wellFormed t' = T.wellFormed t := by
  intro p hp t o t' e h1 h2
  have := h p hp
  rw [endKeeps, h1] at this
  simp only [h2] at this
  simpa using this

/-- **C89**: where a loop over the view of bytes reaches its end, it yields what the transcoder of bytes makes of them, and
the view's `well_formed ()` is then the transcoder's. -/
theorem C89_agrees : AgreesWhenDefined tx_8 maxOut8 ∧ AgreesWhenDefined tx_16 maxOut16 ∧ AgreesWhenDefined tx_32 maxOut32 :=
  ⟨agrees lawful8_8.total C57_utf8_utf8.all C57_utf16_utf8.all C57_utf32_utf8.all C69_settles.1 (endTwice_tri simple32_8 end8_scalar endTwice8_32)
      (endTwice_tri simple32_8 end16_scalar endTwice16_32) (Simple.endTwice simple32_8) rfl (endKeeps_spec (by decide +kernel)),
    agrees lawful8_16.total C57_utf8_utf16.all C57_utf16_utf16.all C57_utf32_utf16.all C69_settles.2.1 (endTwice_tri simple32_16 end8_scalar endTwice8_32)
      (endTwice_tri simple32_16 end16_scalar endTwice16_32) (Simple.endTwice simple32_16) rfl (endKeeps_spec (by decide +kernel)),
    agrees lawful8_32.total C57_utf8_utf32.all C57_utf16_utf32.all C57_utf32_utf32.all C69_settles.2.2 endTwice8_32
      endTwice16_32 (Simple.endTwice simple32_32) rfl (endKeeps_spec (by decide +kernel))⟩

theorem hQ8_8 : ∀ l : Str, (∃ m : List Nat, (m = [] ∨ ∃ c, m = [c]) ∧ l = m.flatMap fun c => utf8 (fixCp c)) → l.length ≤ maxOut8 := by
  rintro l ⟨m, rfl | ⟨c, rfl⟩, rfl⟩
  · simp
  · simpa [maxOut8] using utf8_len _
theorem hQ8_16 : ∀ l : List UInt16, (∃ m : List Nat, (m = [] ∨ ∃ c, m = [c]) ∧ l = m.flatMap fun c => utf16 (fixCp c)) → l.length ≤ maxOut16 := by
  rintro l ⟨m, rfl | ⟨c, rfl⟩, rfl⟩
  · simp
  · simpa [maxOut16] using utf16_len _

/-- **C89**: after the mark of UTF-8, a loop reaches its end unless there is nothing after the mark. -/
theorem C89_utf8 (r : Str) : (LoopsOver tx_8 maxOut8 ([0xEF, 0xBB, 0xBF] ++ r) ↔ r ≠ []) ∧ (LoopsOver tx_16 maxOut16 ([0xEF, 0xBB, 0xBF] ++ r) ↔ r ≠ []) ∧
    (LoopsOver tx_32 maxOut32 ([0xEF, 0xBB, 0xBF] ++ r) ↔ r ≠ []) :=
  ⟨mark8_loops lawful8_8 hQ8_8 r, mark8_loops lawful8_16 hQ8_16 r, mark8_loops lawful8_32 hQ1 r⟩

/-- **C89**: after a mark of UTF-32, a loop reaches its end exactly if there are whole code units, and at least one. -/
theorem C89_utf32 (r : Str) (m : Str) (hm : m = [0, 0, 0xFE, 0xFF] ∨ m = [0xFF, 0xFE, 0, 0]) :
    (LoopsOver tx_8 maxOut8 (m ++ r) ↔ r ≠ [] ∧ r.length % 4 = 0) ∧ (LoopsOver tx_16 maxOut16 (m ++ r) ↔ r ≠ [] ∧ r.length % 4 = 0) ∧
    (LoopsOver tx_32 maxOut32 (m ++ r) ↔ r ≠ [] ∧ r.length % 4 = 0) := by
  have a := mark32_loops (T8 := t8_8) (T16 := t16_8) (K := maxOut8) simple32_8 (fun c => utf8_len _) r
  have b := mark32_loops (T8 := t8_16) (T16 := t16_16) (K := maxOut16) simple32_16 (fun c => utf16_len _) r
  have c := mark32_loops (T8 := t8_32) (T16 := t16_32) (K := maxOut32) simple32_32 (fun c => by simp [maxOut32]) r
  rcases hm with rfl | rfl
  · exact ⟨a.1, b.1, c.1⟩
  · exact ⟨a.2, b.2, c.2⟩

/-- **C89**: after the mark of UTF-16 (big endian).  To UTF-16, anything goes that does not end within a code unit (unless a
high surrogate is pending).  To UTF-8, there must be no high surrogate before a code unit that is no surrogate and not ASCII,
nor two at the end; to UTF-32, none before a code unit that is no surrogate, nor two at the end. -/
theorem C89_utf16be (r : Str) : (LoopsOver tx_8 maxOut8 ([0xFE, 0xFF] ++ r) ↔ Fits16 (fun u => u.toNat < 0x80) False true r) ∧
    (LoopsOver tx_16 maxOut16 ([0xFE, 0xFF] ++ r) ↔ Fits16 (fun _ => True) True true r) ∧
    (LoopsOver tx_32 maxOut32 ([0xFE, 0xFF] ++ r) ↔ Fits16 (fun _ => False) False true r) :=
  ⟨((mark16_loops (T8 := t8_8) (T32 := t32_8) lawful16_8 sized_8 r).1).trans (by simp), ((mark16_loops (T8 := t8_16) (T32 := t32_16) lawful16_16 sized_16 r).1).trans (by simp),
    ((mark16_loops (T8 := t8_32) (T32 := t32_32) lawful16_32 sized_32 r).1).trans (by simp)⟩

/-- **C89**: the same for little endian, where the first byte after the mark must not be 0. -/
theorem C89_utf16le (r : Str) (h : r ≠ []) (h0 : r.head? ≠ some 0) :
    (LoopsOver tx_8 maxOut8 ([0xFF, 0xFE] ++ r) ↔ Fits16 (fun u => u.toNat < 0x80) False false r) ∧
    (LoopsOver tx_16 maxOut16 ([0xFF, 0xFE] ++ r) ↔ Fits16 (fun _ => True) True false r) ∧
    (LoopsOver tx_32 maxOut32 ([0xFF, 0xFE] ++ r) ↔ Fits16 (fun _ => False) False false r) :=
  ⟨((mark16_loops (T8 := t8_8) (T32 := t32_8) lawful16_8 sized_8 r).2 h h0).trans (by simp),
    ((mark16_loops (T8 := t8_16) (T32 := t32_16) lawful16_16 sized_16 r).2 h h0).trans (by simp),
    ((mark16_loops (T8 := t8_32) (T32 := t32_32) lawful16_32 sized_32 r).2 h h0).trans (by simp)⟩

/-- A text `p ++ r` without a mark, where `p` shows that there is none: what UTF-8 conversion delivers for `p` (with the end
of the text, if `p` is all of it) must fit. -/
def FirstFits {ο : Type} (T : Transcoder UInt8 ο) (K : Nat) (p r : Str) : Prop :=
  (r = [] ∧ ∃ t o, T.run p = .ok (t, o) ∧ o.length ≤ K) ∨ (r ≠ [] ∧ ∃ t o, T.feed T.init p = .ok (t, o) ∧ o.length ≤ K)

theorem firstFits_iff {ο : Type} {T8 : Transcoder UInt8 ο} {T16 : Transcoder UInt16 ο} {T32 : Transcoder Nat ο} {K : Nat} {Q : List ο → Prop} {I : T8.σ → Prop}
    (L : Lawful T8 Q I) (hQ : ∀ l, Q l → l.length ≤ K) {p : Str} (hp : Deciding p) (r : Str) : LoopsOver (tX T8 T16 T32) K (p ++ r) ↔ FirstFits T8 K p r := by
  obtain ⟨t, o, t', o', h1, h2, h3, _⟩ := plain_loops (T16 := T16) (T32 := T32) L hQ hp r
  rw [h3]
  constructor
  · rintro (⟨a, b⟩ | ⟨a, b⟩)
    · exact Or.inl ⟨a, _, _, h2, b⟩
    · exact Or.inr ⟨a, _, _, h1, b⟩
  · rintro (⟨a, x, y, b, c⟩ | ⟨a, x, y, b, c⟩)
    · obtain ⟨rfl, rfl⟩ := ok_pair (h2.symm.trans b); exact Or.inl ⟨a, c⟩
    · obtain ⟨rfl, rfl⟩ := ok_pair (h1.symm.trans b); exact Or.inr ⟨a, c⟩

/-- **C89**: texts without a mark. -/
theorem C89_unmarked (p : Str) (hp : Deciding p) (r : Str) : (LoopsOver tx_8 maxOut8 (p ++ r) ↔ FirstFits t8_8 maxOut8 p r) ∧
    (LoopsOver tx_16 maxOut16 (p ++ r) ↔ FirstFits t8_16 maxOut16 p r) ∧ (LoopsOver tx_32 maxOut32 (p ++ r) ↔ FirstFits t8_32 maxOut32 p r) :=
  ⟨firstFits_iff lawful8_8 hQ8_8 hp r, firstFits_iff lawful8_16 hQ8_16 hp r, firstFits_iff lawful8_32 hQ1 hp r⟩

/-- A loop over the view of a text reaches its end, whatever the target. -/
def LoopsAlways (s : Str) : Prop := LoopsOver tx_8 maxOut8 s ∧ LoopsOver tx_16 maxOut16 s ∧ LoopsOver tx_32 maxOut32 s

/-- **C89**: texts that are only the beginning of a mark. -/
theorem C89_partial_mark : ∀ p ∈ partialMarks, (LoopsOver tx_8 maxOut8 p ↔ p ∈ [[0xEF], [0xEF, 0xBB], [0xFE], [0xFF], [0], [0, 0]]) ∧
    (LoopsOver tx_16 maxOut16 p ↔ p ∈ [[0xEF], [0xEF, 0xBB], [0xFE], [0xFF], [0]]) ∧ (LoopsOver tx_32 maxOut32 p ↔ p ∈ [[0xEF], [0xEF, 0xBB]]) := by
  have key : ∀ {ο : Type} (T : Transcoder UInt8 ο) (K : Nat) (p : Str), LoopsOver T K p ↔ (viewRun T K p).isOk = true := by
    intro ο T K p
    unfold LoopsOver
    cases viewRun T K p with
    | error e => exact ⟨fun ⟨_, _, h⟩ => by simp at h, fun h => by simp [Except.isOk, Except.toBool] at h⟩
    | ok r => exact ⟨fun _ => rfl, fun _ => ⟨r.1, r.2, rfl⟩⟩
  simp only [key]
  decide +kernel

/-- **C89**: a text that does not begin with one of the bytes 00, FE and FF, and is not just the mark of UTF-8, always does. -/
theorem C89_always (s : Str) (h0 : s.head? ≠ some 0x00) (hfe : s.head? ≠ some 0xFE) (hff : s.head? ≠ some 0xFF) (hm : s ≠ [0xEF, 0xBB, 0xBF]) :
    LoopsAlways s := by
  by_cases hs : s = []
  · subst hs
    exact ⟨⟨_, _, loopsOver_nil⟩, ⟨_, _, loopsOver_nil⟩, ⟨_, _, loopsOver_nil⟩⟩
  · have key : ∀ (p r : Str), Deciding p → (∃ p' v, p = p' ++ [v] ∧ p' ∈ [[], [0xEF], [0xEF, 0xBB]]) → LoopsAlways (p ++ r) := by
      rintro p r hp ⟨p', v, rfl, hp'⟩
      have e8 : ∀ q ∈ ([[], [0xEF], [0xEF, 0xBB]] : List Str), ∃ t, t8_8.feed t8_8.init q = .ok (t, []) := by
        intro q hq
        simp only [List.mem_cons, List.not_mem_nil, or_false] at hq
        rcases hq with rfl | rfl | rfl <;> exact ⟨_, rfl⟩
      have e16 : ∀ q ∈ ([[], [0xEF], [0xEF, 0xBB]] : List Str), ∃ t, t8_16.feed t8_16.init q = .ok (t, []) := by
        intro q hq
        simp only [List.mem_cons, List.not_mem_nil, or_false] at hq
        rcases hq with rfl | rfl | rfl <;> exact ⟨_, rfl⟩
      have e32 : ∀ q ∈ ([[], [0xEF], [0xEF, 0xBB]] : List Str), ∃ t, t8_32.feed t8_32.init q = .ok (t, []) := by
        intro q hq
        simp only [List.mem_cons, List.not_mem_nil, or_false] at hq
        rcases hq with rfl | rfl | rfl <;> exact ⟨_, rfl⟩
      refine ⟨?_, ?_, ?_⟩
      · obtain ⟨t, o, t', o', _, _, h3, h4⟩ := plain_loops (T16 := t16_8) (T32 := t32_8) lawful8_8 hQ8_8 hp r
        obtain ⟨t0, ht⟩ := e8 p' hp'
        obtain ⟨k1, k2⟩ := h4 ⟨p', v, t0, rfl, ht⟩
        refine h3.2 ?_
        by_cases hr : r = []
        · exact Or.inl ⟨hr, k1⟩
        · exact Or.inr ⟨hr, k2⟩
      · obtain ⟨t, o, t', o', _, _, h3, h4⟩ := plain_loops (T16 := t16_16) (T32 := t32_16) lawful8_16 hQ8_16 hp r
        obtain ⟨t0, ht⟩ := e16 p' hp'
        obtain ⟨k1, k2⟩ := h4 ⟨p', v, t0, rfl, ht⟩
        refine h3.2 ?_
        by_cases hr : r = []
        · exact Or.inl ⟨hr, k1⟩
        · exact Or.inr ⟨hr, k2⟩
      · obtain ⟨t, o, t', o', _, _, h3, h4⟩ := plain_loops (T16 := t16_32) (T32 := t32_32) lawful8_32 hQ1 hp r
        obtain ⟨t0, ht⟩ := e32 p' hp'
        obtain ⟨k1, k2⟩ := h4 ⟨p', v, t0, rfl, ht⟩
        refine h3.2 ?_
        by_cases hr : r = []
        · exact Or.inl ⟨hr, k1⟩
        · exact Or.inr ⟨hr, k2⟩
    match s, hs with
    | a :: s, _ =>
      have a0 : a ≠ 0 := by simpa using h0
      have a1 : a ≠ 0xFE := by simpa using hfe
      have a2 : a ≠ 0xFF := by simpa using hff
      by_cases ha : a = 0xEF
      · subst ha
        match s with
        | [] =>
          have := C89_partial_mark [0xEF] (by decide)
          exact ⟨this.1.2 (by decide), this.2.1.2 (by decide), this.2.2.2 (by decide)⟩
        | b :: s =>
          by_cases hb : b = 0xBB
          · subst hb
            match s with
            | [] =>
              have := C89_partial_mark [0xEF, 0xBB] (by decide)
              exact ⟨this.1.2 (by decide), this.2.1.2 (by decide), this.2.2.2 (by decide)⟩
            | c :: s =>
              by_cases hc : c = 0xBF
              · subst hc
                have hne : s ≠ [] := by rintro rfl; exact hm rfl
                have := C89_utf8 s
                exact ⟨this.1.2 hne, this.2.1.2 hne, this.2.2.2 hne⟩
              · exact key [0xEF, 0xBB, c] s (.efbb hc) ⟨[0xEF, 0xBB], c, rfl, by simp⟩
          · exact key [0xEF, b] s (.ef hb) ⟨[0xEF], b, rfl, by simp⟩
      · exact key [a] s (.first ha a1 a2 a0) ⟨[], a, rfl, by simp⟩

/-- **C89**: these are all the texts. -/
theorem C89_cases (s : Str) : s = [] ∨ s ∈ partialMarks ∨ (∃ p r, Deciding p ∧ s = p ++ r) ∨
    (∃ r m, m ∈ ([[0xEF, 0xBB, 0xBF], [0xFE, 0xFF], [0, 0, 0xFE, 0xFF], [0xFF, 0xFE, 0, 0]] : List Str) ∧ s = m ++ r) ∨
    (∃ r, r ≠ [] ∧ r.head? ≠ some 0 ∧ s = [0xFF, 0xFE] ++ r) := by
  rcases classify s with rfl | ⟨w, hw⟩ | hn | ⟨t, rfl⟩ | ⟨t, rfl⟩ | ⟨t, rfl⟩ | ⟨t, rfl⟩ | ⟨v, t, hv, rfl⟩
  · exact Or.inl rfl
  · exact Or.inr (Or.inl (withinMark_mem hw))
  · refine Or.inr (Or.inr (Or.inl ?_))
    cases hn with
    | first a b c d => exact ⟨_, _, .first a b c d, rfl⟩
    | ef a => exact ⟨_, _, .ef a, rfl⟩
    | efbb a => exact ⟨_, _, .efbb a, rfl⟩
    | fe a => exact ⟨_, _, .fe a, rfl⟩
    | ff a => exact ⟨_, _, .ff a, rfl⟩
    | z a => exact ⟨_, _, .z a, rfl⟩
    | zz a => exact ⟨_, _, .zz a, rfl⟩
    | zzfe a => exact ⟨_, _, .zzfe a, rfl⟩
    | fffez a => exact ⟨_, _, .fffez a, rfl⟩
  · exact Or.inr (Or.inr (Or.inr (Or.inl ⟨t, [0xEF, 0xBB, 0xBF], by simp, rfl⟩)))
  · exact Or.inr (Or.inr (Or.inr (Or.inl ⟨t, [0xFE, 0xFF], by simp, rfl⟩)))
  · exact Or.inr (Or.inr (Or.inr (Or.inl ⟨t, [0, 0, 0xFE, 0xFF], by simp, rfl⟩)))
  · exact Or.inr (Or.inr (Or.inr (Or.inl ⟨t, [0xFF, 0xFE, 0, 0], by simp, rfl⟩)))
  · exact Or.inr (Or.inr (Or.inr (Or.inr ⟨v :: t, by simp, by simpa using hv, rfl⟩)))

/-! ### Well-formed texts -/

/-- Loops over the views of `s` yield the text `cs` in each of the three encodings, `well_formed ()` being true then. -/
def YieldsText (s : Str) (cs : List Nat) : Prop := viewRun tx_8 maxOut8 s = .ok (cs.flatMap utf8, true) ∧
  viewRun tx_16 maxOut16 s = .ok (cs.flatMap utf16, true) ∧ viewRun tx_32 maxOut32 s = .ok (cs, true)

/-- A transcoder of bytes makes the text `cs` of `s`. -/
def RunsText (s : Str) (cs : List Nat) : Prop := (∃ st, tx_8.run s = .ok (st, cs.flatMap utf8) ∧ tx_8.wellFormed st = true) ∧
  (∃ st, tx_16.run s = .ok (st, cs.flatMap utf16) ∧ tx_16.wellFormed st = true) ∧ ∃ st, tx_32.run s = .ok (st, cs) ∧ tx_32.wellFormed st = true

theorem agrees_ok {ι ο : Type} {T : Transcoder ι ο} {K : Nat} (A : AgreesWhenDefined T K) {s : List ι} {out : List ο} (h : LoopsOver T K s)
    (hr : ∃ st, T.run s = .ok (st, out) ∧ T.wellFormed st = true) : viewRun T K s = .ok (out, true) := by
  obtain ⟨o, wf, h⟩ := h
  obtain ⟨st, h1, h2⟩ := A _ _ _ h
  obtain ⟨st', h3, h4⟩ := hr
  obtain ⟨rfl, rfl⟩ := ok_pair (h1.symm.trans h3)
  rw [h, h2, h4]

theorem yields_of {s : Str} {cs : List Nat} (h : LoopsAlways s) (hr : RunsText s cs) : YieldsText s cs :=
  ⟨agrees_ok C89_agrees.1 h.1 hr.1, agrees_ok C89_agrees.2.1 h.2.1 hr.2.1, agrees_ok C89_agrees.2.2 h.2.2 hr.2.2⟩

theorem converts_ok {ι ο : Type} {T8 : Transcoder UInt8 ο} {T16 : Transcoder UInt16 ο} {T32 : Transcoder Nat ο} {b : Str} {U : Transcoder ι ο} {u : List ι}
    {enc : Encoding} {out : List ο} (h : Converts T8 T16 T32 b U u enc) (hr : ∃ st, U.run u = .ok (st, out) ∧ U.wellFormed st = true) :
    ∃ st, (tX T8 T16 T32).run b = .ok (st, out) ∧ (tX T8 T16 T32).wellFormed st = true := by
  obtain ⟨st, h1, h2⟩ := hr
  obtain ⟨x, h3, h4, _⟩ := h _ _ h1
  exact ⟨x, h3, h4.trans h2⟩

theorem text8 {s : Str} {cs : List Nat} (h : IsUtf8 s cs) : (∃ st, t8_8.run s = .ok (st, cs.flatMap utf8) ∧ t8_8.wellFormed st = true) ∧
    (∃ st, t8_16.run s = .ok (st, cs.flatMap utf16) ∧ t8_16.wellFormed st = true) ∧ ∃ st, t8_32.run s = .ok (st, cs) ∧ t8_32.wellFormed st = true := by
  obtain ⟨cs', h1, ⟨st, h2, h3⟩, ⟨st', h4, h5⟩⟩ := C44_utf8_to s
  obtain ⟨st2, g1, g2⟩ := C41_text h
  obtain ⟨st3, out, g3, g4⟩ := C41_decode s
  obtain ⟨_, e⟩ := ok_pair (g1.symm.trans g3)
  obtain rfl : cs' = cs := ((g4 cs').1 h1).trans e.symm
  exact ⟨⟨_, h4, h5.2 ⟨_, h⟩⟩, ⟨_, h2, h3.2 ⟨_, h⟩⟩, _, g1, g2⟩

theorem text16 {s : List UInt16} {cs : List Nat} (h : IsUtf16 s cs) : (∃ st, t16_8.run s = .ok (st, cs.flatMap utf8) ∧ t16_8.wellFormed st = true) ∧
    (∃ st, t16_16.run s = .ok (st, cs.flatMap utf16) ∧ t16_16.wellFormed st = true) ∧ ∃ st, t16_32.run s = .ok (st, cs) ∧ t16_32.wellFormed st = true := by
  obtain ⟨cs', h1, ⟨st, h2, h3⟩, ⟨st', h4, h5⟩⟩ := C44_utf16_to s
  obtain ⟨st2, g1, g2⟩ := C44_text h
  obtain ⟨st3, out, g3, g4, _⟩ := C44_decode s
  obtain ⟨_, e⟩ := ok_pair (g1.symm.trans g3)
  obtain rfl : cs' = cs := ((g4 cs').1 h1).trans e.symm
  exact ⟨⟨_, h2, h3.2 ⟨_, h⟩⟩, ⟨_, h4, h5.2 ⟨_, h⟩⟩, _, g1, g2⟩

theorem simple_run {ο : Type} {T : Transcoder Nat ο} {f : Nat → List ο} (S : Simple T (fun c => f (fixCp c)) (fun c => decide (Scalar c))) {cs : List Nat}
    (h : ∀ c ∈ cs, Scalar c) : ∃ st, T.run cs = .ok (st, cs.flatMap f) ∧ T.wellFormed st = true := by
  obtain ⟨st, h1, h2⟩ := S.feed cs T.init
  have e : (cs.flatMap fun c => f (fixCp c)) = cs.flatMap f := by
    clear h1 h2
    induction cs with
    | nil => rfl
    | cons c cs ih =>
      rw [List.flatMap_cons, List.flatMap_cons, ih (fun d hd => h d (List.mem_cons_of_mem _ hd)), fixCp_of (h c (by simp))]
  rw [e] at h1
  refine ⟨st, by simpa using run_of_feed h1 (S.end_ st), ?_⟩
  rw [h2, S.wfInit, Bool.true_and, List.all_eq_true]
  intro c hc
  simpa using h c hc

theorem text32 {cs : List Nat} (h : ∀ c ∈ cs, Scalar c) : (∃ st, t32_8.run cs = .ok (st, cs.flatMap utf8) ∧ t32_8.wellFormed st = true) ∧
    (∃ st, t32_16.run cs = .ok (st, cs.flatMap utf16) ∧ t32_16.wellFormed st = true) ∧ ∃ st, t32_32.run cs = .ok (st, cs) ∧ t32_32.wellFormed st = true := by
  refine ⟨simple_run simple32_8 h, simple_run simple32_16 h, ?_⟩
  obtain ⟨st, h1, h2⟩ := simple_run (f := fun c => [c]) simple32_32 h
  exact ⟨st, by simpa using h1, h2⟩

theorem units16_bytes (big : Bool) (us : List UInt16) : units16 big (us.flatMap (bytes16 big)) = us ∧ (us.flatMap (bytes16 big)).length % 2 = 0 := by
  induction us with
  | nil => exact ⟨rfl, rfl⟩
  | cons u us ih =>
    have hu := u.toNat_lt
    have e1 : (UInt8.ofNat (u.toNat / 0x100)).toNat = u.toNat / 0x100 := by simp; omega
    have e2 : (UInt8.ofNat (u.toNat % 0x100)).toNat = u.toNat % 0x100 := by simp
    rw [List.flatMap_cons]
    cases big with
    | true =>
      rw [show bytes16 true u = [UInt8.ofNat (u.toNat / 0x100), UInt8.ofNat (u.toNat % 0x100)] from rfl]
      refine ⟨?_, by simp only [List.cons_append, List.nil_append, List.length_cons]; omega⟩
      simp only [List.cons_append, List.nil_append, units16, e1, e2, ih.1, if_true, List.cons.injEq, and_true]
      rw [show u.toNat / 0x100 * 0x100 + u.toNat % 0x100 = u.toNat by omega, UInt16.ofNat_toNat]
    | false =>
      rw [show bytes16 false u = [UInt8.ofNat (u.toNat % 0x100), UInt8.ofNat (u.toNat / 0x100)] from rfl]
      refine ⟨?_, by simp only [List.cons_append, List.nil_append, List.length_cons]; omega⟩
      simp only [List.cons_append, List.nil_append, units16, e1, e2, ih.1, Bool.false_eq_true, if_false, List.cons.injEq, and_true]
      rw [show u.toNat / 0x100 * 0x100 + u.toNat % 0x100 = u.toNat by omega, UInt16.ofNat_toNat]

theorem bytes32_length (big : Bool) (us : List Nat) : (us.flatMap (bytes32 big)).length % 4 = 0 := by
  induction us with
  | nil => rfl
  | cons u us ih =>
    have : (bytes32 big u).length = 4 := by cases big <;> simp [bytes32]
    rw [List.flatMap_cons, List.length_append, this]; omega

theorem utf16_cases {c : Nat} (hc : Scalar c) : (∃ u, utf16 c = [u] ∧ ¬ High u) ∨ ∃ u l, utf16 c = [u, l] ∧ Low l := by
  by_cases hb : c < 0x10000
  · refine Or.inl ⟨_, if_pos hb, ?_⟩
    simp only [High, UInt16.toNat_ofNat']
    unfold Scalar at hc; omega
  · refine Or.inr ⟨_, _, if_neg hb, ?_⟩
    simp only [Low, UInt16.toNat_ofNat']
    omega

/-- Well-formed UTF-16 is in order. -/
theorem orderly_text {fits : UInt16 → Prop} (cs : List Nat) (h : ∀ c ∈ cs, Scalar c) : ∀ p : UInt16, ¬ High p →
    Orderly fits (p :: cs.flatMap utf16) ∧ ¬ TwoHighs (p :: cs.flatMap utf16) := by
  induction cs with
  | nil => intro p hp; exact ⟨trivial, id⟩
  | cons c cs ih =>
    intro p hp
    have ih := ih (fun d hd => h d (List.mem_cons_of_mem _ hd))
    rw [List.flatMap_cons]
    generalize cs.flatMap utf16 = rest at *
    rcases utf16_cases (h c (by simp)) with ⟨u, e, hu⟩ | ⟨u, l, e, hl⟩
    · rw [e]
      obtain ⟨k1, k2⟩ := ih _ hu
      refine ⟨⟨fun h => absurd h hp, k1⟩, ?_⟩
      cases rest with
      | nil => exact fun h => hp h.1
      | cons d rest => exact k2
    · rw [e]
      have hnl : ¬ High l := fun h => not_low_of_high h hl
      obtain ⟨k1, k2⟩ := ih _ hnl
      refine ⟨⟨fun h => absurd h hp, fun _ _ h => absurd hl h, k1⟩, ?_⟩
      cases rest with
      | nil => exact fun h => hnl h.2
      | cons d rest => exact k2

theorem fits_text {fits : UInt16 → Prop} {both : Prop} (big : Bool) {cs : List Nat} (hne : cs ≠ []) (h : ∀ c ∈ cs, Scalar c) :
    Fits16 fits both big ((cs.flatMap utf16).flatMap (bytes16 big)) := by
  obtain ⟨e1, e2⟩ := units16_bytes big (cs.flatMap utf16)
  obtain ⟨k1, k2⟩ := orderly_text (fits := fits) cs h 0 zero_low
  have hu : cs.flatMap utf16 ≠ [] := by
    cases cs with
    | nil => exact absurd rfl hne
    | cons c cs => rw [List.flatMap_cons]; simp [utf16_ne]
  unfold Fits16
  rw [e1]
  refine ⟨(orderly_zero _).1 k1, Or.inl ⟨?_, e2, Or.inr (fun h => k2 ((two_zero hu).2 h))⟩⟩
  intro h0
  rw [h0] at e1
  exact hu e1.symm

theorem flat_ne {ι : Type} {f : Nat → List ι} (hf : ∀ c, f c ≠ []) {cs : List Nat} (h : cs ≠ []) : cs.flatMap f ≠ [] := by
  cases cs with
  | nil => exact absurd rfl h
  | cons c cs => rw [List.flatMap_cons]; simp [hf]

/-- **C89**: a well-formed text that is not empty, after its mark, is yielded as it is (in little-endian UTF-16, provided that
the lower byte of the first code unit is not 0). -/
theorem C89_text (cs : List Nat) (hne : cs ≠ []) (h : ∀ c ∈ cs, Scalar c) :
    YieldsText ([0xEF, 0xBB, 0xBF] ++ cs.flatMap utf8) cs ∧
    YieldsText ([0xFE, 0xFF] ++ (cs.flatMap utf16).flatMap (bytes16 true)) cs ∧
    ((∀ u, (cs.flatMap utf16).head? = some u → u.toNat % 0x100 ≠ 0) → YieldsText ([0xFF, 0xFE] ++ (cs.flatMap utf16).flatMap (bytes16 false)) cs) ∧
    YieldsText ([0x00, 0x00, 0xFE, 0xFF] ++ cs.flatMap (bytes32 true)) cs ∧
    YieldsText ([0xFF, 0xFE, 0x00, 0x00] ++ cs.flatMap (bytes32 false)) cs := by
  have h8 := text8 (s := cs.flatMap utf8) ⟨h, rfl⟩
  have h16 := text16 (s := cs.flatMap utf16) ⟨h, rfl⟩
  have h32 := text32 h
  have hb : ∀ c ∈ cs, c < 2 ^ 24 := by
    intro c hc
    have := h c hc
    unfold Scalar at this; omega
  have hb' : ∀ c ∈ cs, c < 2 ^ 32 := fun c hc => by have := hb c hc; omega
  have hu : cs.flatMap utf16 ≠ [] := flat_ne utf16_ne hne
  refine ⟨yields_of ?_ ?_, yields_of ?_ ?_, fun h0 => ?_, yields_of ?_ ?_, yields_of ?_ ?_⟩
  · have hn := flat_ne utf8_ne hne
    have := C89_utf8 (cs.flatMap utf8)
    exact ⟨this.1.2 hn, this.2.1.2 hn, this.2.2.2 hn⟩
  · have := C46_utf8_bom (cs.flatMap utf8)
    exact ⟨converts_ok this.1 h8.1, converts_ok this.2.1 h8.2.1, converts_ok this.2.2 h8.2.2⟩
  · have := C89_utf16be ((cs.flatMap utf16).flatMap (bytes16 true))
    exact ⟨this.1.2 (fits_text true hne h), this.2.1.2 (fits_text true hne h), this.2.2.2 (fits_text true hne h)⟩
  · have := C46_utf16be_bom (cs.flatMap utf16)
    exact ⟨converts_ok this.1 h16.1, converts_ok this.2.1 h16.2.1, converts_ok this.2.2 h16.2.2⟩
  · have hfit := fun (fits : UInt16 → Prop) (both : Prop) => fits_text (fits := fits) (both := both) false hne h
    generalize hus : cs.flatMap utf16 = us at *
    cases us with
    | nil => exact absurd rfl hu
    | cons u us =>
      have hu0 := h0 u rfl
      have e : (UInt8.ofNat (u.toNat % 0x100)) ≠ 0 := by
        intro hh
        have := congrArg UInt8.toNat hh
        simp at this; omega
      refine yields_of ?_ ?_
      · have := C89_utf16le ((u :: us).flatMap (bytes16 false)) (by simp [bytes16]) (by simpa [bytes16] using e)
        exact ⟨this.1.2 (hfit _ _), this.2.1.2 (hfit _ _), this.2.2.2 (hfit _ _)⟩
      · have := C46_utf16le_bom u us hu0
        exact ⟨converts_ok this.1 h16.1, converts_ok this.2.1 (by rw [hus]; exact h16.2.1), converts_ok this.2.2 h16.2.2⟩
  · have hn : cs.flatMap (bytes32 true) ≠ [] := flat_ne (fun c => by simp [bytes32]) hne
    have := C89_utf32 (cs.flatMap (bytes32 true)) _ (Or.inl rfl)
    have hl := bytes32_length true cs
    exact ⟨this.1.2 ⟨hn, hl⟩, this.2.1.2 ⟨hn, hl⟩, this.2.2.2 ⟨hn, hl⟩⟩
  · have := C46_utf32be_bom cs hb'
    exact ⟨converts_ok this.1 h32.1, converts_ok this.2.1 h32.2.1, converts_ok this.2.2 h32.2.2⟩
  · have hn : cs.flatMap (bytes32 false) ≠ [] := flat_ne (fun c => by simp [bytes32]) hne
    have := C89_utf32 (cs.flatMap (bytes32 false)) _ (Or.inr rfl)
    have hl := bytes32_length false cs
    exact ⟨this.1.2 ⟨hn, hl⟩, this.2.1.2 ⟨hn, hl⟩, this.2.2.2 ⟨hn, hl⟩⟩
  · have := C46_utf32le_bom cs hb
    exact ⟨converts_ok this.1 h32.1, converts_ok this.2.1 h32.2.1, converts_ok this.2.2 h32.2.2⟩

/-- What is wrong: a mark with nothing after it is the end of no loop; well-formed UTF-8 without a mark that begins with a
zero character overruns the room of the view to UTF-32; and so does ill-formed UTF-16 that the view from UTF-16 accepts. -/
theorem C89_false : ¬ LoopsOver tx_32 maxOut32 [0xFE, 0xFF] ∧ ¬ LoopsOver tx_32 maxOut32 [0x00, 0x41] ∧
    ¬ LoopsOver tx_8 maxOut8 [0xFE, 0xFF, 0xD8, 0x00, 0x00, 0xE9] ∧ LoopsOver t16_8 maxOut16to8 [0xD800, 0x00E9] := by
  refine ⟨fun h => ?_, fun h => ?_, fun h => ?_, ?_⟩
  · obtain ⟨a, b, h⟩ := h
    exact absurd (h.symm.trans (show viewRun tx_32 maxOut32 [0xFE, 0xFF] = .error .assertion by decide +kernel)) (by simp)
  · obtain ⟨a, b, h⟩ := h
    exact absurd (h.symm.trans (show viewRun tx_32 maxOut32 [0x00, 0x41] = .error .assertion by decide +kernel)) (by simp)
  · obtain ⟨a, b, h⟩ := h
    exact absurd (h.symm.trans (show viewRun tx_8 maxOut8 [0xFE, 0xFF, 0xD8, 0x00, 0x00, 0xE9] = .error .assertion by decide +kernel)) (by simp)
  · exact ⟨_, _, show viewRun t16_8 maxOut16to8 [0xD800, 0x00E9] = .ok ([0xEF, 0xBF, 0xBD, 0xC3, 0xA9], false) by decide +kernel⟩

/-- "é" in UTF-16 (big endian), with its mark, as UTF-8; and "A", of which half a code unit follows, is not the end of a loop. -/
example : viewRun tx_8 maxOut8 [0xFE, 0xFF, 0x00, 0xE9] = .ok ([0xC3, 0xA9], true) ∧ viewRun tx_8 maxOut8 [0xFE, 0xFF, 0x00, 0x41, 0x00] = .error .assertion ∧
    Fits16 (fun u => u.toNat < 0x80) False true [0xD8, 0x00, 0x41] ∧ viewRun tx_8 maxOut8 [0xFE, 0xFF, 0xD8, 0x00, 0x41] = .ok ([0xEF, 0xBF, 0xBD], false) := by
  refine ⟨by decide +kernel, by decide +kernel, ⟨by simp [units16, Orderly], Or.inr ⟨rfl, 0xD800, rfl, by simp [High]⟩⟩, by decide +kernel⟩
/-- A text without a mark: the byte FE is not UTF-8, and neither is what follows it. -/
example : Deciding [0xFE, 0xC3] ∧ FirstFits t8_32 maxOut32 [0xFE, 0xC3] [0xA9] ∧ viewRun tx_32 maxOut32 [0xFE, 0xC3, 0xA9] = .ok ([0xFFFD, 0xE9], false) :=
  ⟨.fe (by decide), Or.inr ⟨by simp, _, _, rfl, by decide⟩, by decide +kernel⟩

end Verif
