import Verif.Proofs.ViewExact

/-!
# When a loop over the view of bytes is defined
-/

namespace Verif.Icu
open Verif.Unicode
set_option linter.unusedSimpArgs false

section
variable {ι ο : Type} {T : Transcoder ι ο} {K : Nat}

/-- A loop over the view of a text that is not empty reaches its end. -/
inductive Runs (T : Transcoder ι ο) (K : Nat) : T.σ → List ι → Prop
  | last {st st' st'' st3 c o e e'} : T.step st c = .ok (st', o) → T.endCp st' = .ok (st'', e) → (o ++ e).length ≤ K → o ++ e ≠ [] →
      T.endCp st'' = .ok (st3, e') → e'.length ≤ K → Runs T K st [c]
  | more {st st' c d s o} : T.step st c = .ok (st', o) → o.length ≤ K → Runs T K st' (d :: s) → Runs T K st (c :: d :: s)

/-- The same where the last code unit is followed by something for which nothing is written. -/
inductive RunsTail (T : Transcoder ι ο) (K : Nat) : T.σ → List ι → Prop
  | nil {st st' st'' e e'} : T.endCp st = .ok (st', e) → e.length ≤ K → e ≠ [] → T.endCp st' = .ok (st'', e') → e'.length ≤ K → RunsTail T K st []
  | cons {st st' c s o} : T.step st c = .ok (st', o) → o.length ≤ K → RunsTail T K st' s → RunsTail T K st (c :: s)

theorem runs_one {st st' st'' st3 : T.σ} {c : ι} {o e e' : List ο} (h1 : T.step st c = .ok (st', o)) (h2 : T.endCp st' = .ok (st'', e))
    (h3 : T.endCp st'' = .ok (st3, e')) : Runs T K st [c] ↔ (o ++ e).length ≤ K ∧ o ++ e ≠ [] ∧ e'.length ≤ K := by
  constructor
  · intro h
    cases h with
    | last g1 g2 g3 g4 g5 g6 =>
      obtain ⟨rfl, rfl⟩ := ok_pair (h1.symm.trans g1)
      obtain ⟨rfl, rfl⟩ := ok_pair (h2.symm.trans g2)
      obtain ⟨rfl, rfl⟩ := ok_pair (h3.symm.trans g5)
      exact ⟨g3, g4, g6⟩
  · rintro ⟨g1, g2, g3⟩
    exact .last h1 h2 g1 g2 h3 g3

theorem runs_more {st st' : T.σ} {c d : ι} {s : List ι} {o : List ο} (h1 : T.step st c = .ok (st', o)) :
    Runs T K st (c :: d :: s) ↔ o.length ≤ K ∧ Runs T K st' (d :: s) := by
  constructor
  · intro h
    cases h with
    | more g1 g2 g3 =>
      obtain ⟨rfl, rfl⟩ := ok_pair (h1.symm.trans g1)
      exact ⟨g2, g3⟩
  · rintro ⟨g1, g2⟩
    exact .more h1 g1 g2

theorem tail_nil {st st' st'' : T.σ} {e e' : List ο} (h1 : T.endCp st = .ok (st', e)) (h2 : T.endCp st' = .ok (st'', e')) :
    RunsTail T K st [] ↔ e.length ≤ K ∧ e ≠ [] ∧ e'.length ≤ K := by
  constructor
  · intro h
    cases h with
    | nil g1 g2 g3 g4 g5 =>
      obtain ⟨rfl, rfl⟩ := ok_pair (h1.symm.trans g1)
      obtain ⟨rfl, rfl⟩ := ok_pair (h2.symm.trans g4)
      exact ⟨g2, g3, g5⟩
  · rintro ⟨g1, g2, g3⟩
    exact .nil h1 g1 g2 h2 g3

theorem tail_cons {st st' : T.σ} {c : ι} {s : List ι} {o : List ο} (h1 : T.step st c = .ok (st', o)) :
    RunsTail T K st (c :: s) ↔ o.length ≤ K ∧ RunsTail T K st' s := by
  constructor
  · intro h
    cases h with
    | cons g1 g2 g3 =>
      obtain ⟨rfl, rfl⟩ := ok_pair (h1.symm.trans g1)
      exact ⟨g2, g3⟩
  · rintro ⟨g1, g2⟩
    exact .cons h1 g1 g2

theorem runs_spec (s : List ι) : ∀ (st : T.σ) (wf : Bool), s ≠ [] → ((∃ r, viewSpec T K st wf s = .ok r) ↔ Runs T K st s) := by
  induction s with
  | nil => intro _ _ h; exact absurd rfl h
  | cons c s ih =>
    intro st wf _
    rw [viewSpec]
    cases h1 : T.step st c with
    | error e =>
      refine ⟨fun ⟨r, h⟩ => by simp [bind, Except.bind] at h, fun h => ?_⟩
      cases h with
      | last g _ _ _ _ _ => rw [h1] at g; simp at g
      | more g _ _ => rw [h1] at g; simp at g
    | ok p =>
      obtain ⟨st', o⟩ := p
      simp only [bind, Except.bind]
      cases s with
      | nil =>
        simp only [List.isEmpty_nil, if_true, lastChunk]
        cases h2 : T.endCp st' with
        | error e =>
          refine ⟨fun ⟨r, h⟩ => ?_, fun h => ?_⟩
          · split at h
            · simp at h
            · simp [bind, Except.bind] at h
          · cases h with
            | last g g' _ _ _ _ =>
              obtain ⟨rfl, rfl⟩ := ok_pair (h1.symm.trans g)
              rw [h2] at g'; simp at g'
        | ok p =>
          obtain ⟨st'', e⟩ := p
          simp only [bind, Except.bind]
          cases h3 : T.endCp st'' with
          | error e =>
            refine ⟨fun ⟨r, h⟩ => ?_, fun h => ?_⟩
            · simp only at h
              repeat' split at h
              all_goals simp at h
            · cases h with
              | last g g' _ _ g'' _ =>
                obtain ⟨rfl, rfl⟩ := ok_pair (h1.symm.trans g)
                obtain ⟨rfl, rfl⟩ := ok_pair (h2.symm.trans g')
                rw [h3] at g''; simp at g''
          | ok p =>
            obtain ⟨st3, e'⟩ := p
            rw [runs_one h1 h2 h3]
            refine ⟨fun ⟨r, h⟩ => ?_, fun ⟨k1, k2, k3⟩ => ?_⟩
            · by_cases k0 : o.length > K
              · rw [if_pos k0] at h; simp at h
              · rw [if_neg k0] at h
                by_cases k1 : (o ++ e).length > K
                · rw [if_pos k1] at h; simp at h
                · rw [if_neg k1] at h
                  by_cases k2 : o ++ e = []
                  · rw [if_pos k2] at h; simp at h
                  · rw [if_neg k2] at h
                    by_cases k3 : e'.length > K
                    · simp only at h; rw [if_pos k3] at h; simp at h
                    · exact ⟨by omega, k2, by omega⟩
            · have : o.length ≤ (o ++ e).length := by simp
              simp only
              rw [if_neg (by omega), if_neg (by omega), if_neg k2, if_neg (by omega)]
              exact ⟨_, rfl⟩
      | cons d s =>
        rw [runs_more h1, show (d :: s).isEmpty = false from rfl]
        simp only [Bool.false_eq_true, if_false]
        rw [← ih st' (if o.isEmpty = true then wf else wf && T.wellFormed st') (by simp)]
        generalize viewSpec T K st' (if o.isEmpty = true then wf else wf && T.wellFormed st') (d :: s) = x
        by_cases k0 : o.length > K
        · rw [if_pos k0]
          exact ⟨fun ⟨r, h⟩ => by simp at h, fun h => by omega⟩
        · rw [if_neg k0]
          cases x with
          | error e => exact ⟨fun ⟨r, h⟩ => by simp at h, fun ⟨_, r, h⟩ => by simp at h⟩
          | ok q => exact ⟨fun _ => ⟨by omega, _, rfl⟩, fun _ => ⟨_, rfl⟩⟩

/-- A loop over a view is defined, exactly when. -/
theorem view_runs (s : List ι) (hs : s ≠ []) : (∃ r, viewRun T K s = .ok r) ↔ Runs T K T.init s := by
  rw [view_eq s hs, runs_spec s _ _ hs]

theorem runs_silent (p : List ι) : ∀ {st st' : T.σ} {r : List ι}, T.feed st p = .ok (st', []) → r ≠ [] → (Runs T K st (p ++ r) ↔ Runs T K st' r) := by
  intro st st' r h hr
  have hpr : p ++ r ≠ [] := by simp [hr]
  rw [← runs_spec (p ++ r) st true hpr, ← runs_spec r st' true hr, spec_silent p st st' true r h hr]

theorem Lawful.runs {Q : List ο → Prop} {I : T.σ → Prop} (L : Lawful T Q I) (hQ : ∀ l, Q l → l.length ≤ K) (s : List ι) : ∀ st : T.σ, I st → s ≠ [] → Runs T K st s := by
  induction s with
  | nil => intro _ _ h; exact absurd rfl h
  | cons c s ih =>
    intro st hi _
    obtain ⟨st', o, st'', e, st3, e3, h1, h2, h3, h4, h5, h6, h6', h7, h8, h9, h10, h11⟩ := L.step st c hi
    cases s with
    | nil =>
      refine .last h1 h5 (hQ _ h7) (fun h => ?_) h9 (hQ _ h10)
      obtain ⟨g1, g2⟩ := List.append_eq_nil_iff.1 h
      exact h8 g1 g2
    | cons d s => exact .more h1 (hQ _ h4) (ih st' h2 (by simp))

/-- The result, where there is one, is that of the transcoder. -/
theorem spec_sound {R : T.σ → Prop} (hstep : ∀ st c st' o, R st → T.step st c = .ok (st', o) → R st' ∧ (T.wellFormed st' = true → T.wellFormed st = true))
    (hend : ∀ st0 c o st st' e st'' e', R st0 → T.step st0 c = .ok (st, o) → T.endCp st = .ok (st', e) → T.endCp st' = .ok (st'', e') →
      (T.wellFormed st' = true → T.wellFormed st = true) ∧ T.wellFormed st'' = T.wellFormed st') (s : List ι) :
    ∀ (st : T.σ) (wf : Bool) (out : List ο) (w : Bool), R st → s ≠ [] → viewSpec T K st wf s = .ok (out, w) →
      ∃ st'', RestOk T st s st'' out ∧ w = (wf && T.wellFormed st'') ∧ (T.wellFormed st'' = true → T.wellFormed st = true) := by
  induction s with
  | nil => intro _ _ _ _ _ h; exact absurd rfl h
  | cons c s ih =>
    intro st wf out w hR _ h
    rw [viewSpec] at h
    cases h1 : T.step st c with
    | error e => rw [h1] at h; simp [bind, Except.bind] at h
    | ok p =>
      obtain ⟨st', o⟩ := p
      rw [h1] at h
      simp only [bind, Except.bind] at h
      obtain ⟨k1, k2⟩ := hstep st c st' o hR h1
      by_cases k0 : o.length > K
      · rw [if_pos k0] at h; simp at h
      · rw [if_neg k0] at h
        cases s with
        | nil =>
          simp only [List.isEmpty_nil, if_true, lastChunk] at h
          cases h2 : T.endCp st' with
          | error e => rw [h2] at h; simp [bind, Except.bind] at h
          | ok p =>
            obtain ⟨st'', e⟩ := p
            rw [h2] at h
            simp only [bind, Except.bind] at h
            by_cases j1 : (o ++ e).length > K
            · rw [if_pos j1] at h; simp at h
            · rw [if_neg j1] at h
              by_cases j2 : o ++ e = []
              · rw [if_pos j2] at h; simp at h
              · rw [if_neg j2] at h
                cases h3 : T.endCp st'' with
                | error e => rw [h3] at h; simp at h
                | ok p =>
                  obtain ⟨st3, e'⟩ := p
                  rw [h3] at h
                  simp only at h
                  by_cases j3 : e'.length > K
                  · rw [if_pos j3] at h; simp at h
                  · rw [if_neg j3] at h
                    obtain ⟨rfl, rfl⟩ := ok_pair h
                    obtain ⟨g1, g2⟩ := hend _ _ _ _ _ _ _ _ hR h1 h2 h3
                    refine ⟨st'', ⟨st', o, e, feed_one h1, h2, rfl⟩, ?_, fun h => k2 (g1 h)⟩
                    rw [g2]; cases wf <;> cases T.wellFormed st'' <;> rfl
        | cons d s =>
          rw [show (d :: s).isEmpty = false from rfl] at h
          simp only [Bool.false_eq_true, if_false] at h
          cases h2 : viewSpec T K st' (if o.isEmpty = true then wf else wf && T.wellFormed st') (d :: s) with
          | error e => rw [h2] at h; simp at h
          | ok q =>
            obtain ⟨out', w'⟩ := q
            rw [h2] at h
            obtain ⟨rfl, rfl⟩ := ok_pair h
            obtain ⟨st'', g1, g2, g3⟩ := ih st' _ out' w' k1 (by simp) h2
            refine ⟨st'', g1.cons h1, ?_, fun h => k2 (g3 h)⟩
            simp only
            rw [g2]
            cases hw : T.wellFormed st'' with
            | false => simp
            | true =>
              rw [g3 hw]
              cases o.isEmpty <;> simp

end

section
variable {ο : Type} {T8 : Transcoder UInt8 ο} {T16 : Transcoder UInt16 ο} {T32 : Transcoder Nat ο} {K : Nat}

theorem stepX_8 {buf : Str} {t t' : T8.σ} {c : UInt8} {o : List ο} (h : T8.step t c = .ok (t', o)) :
    (tX T8 T16 T32).step ⟨.run_8, buf, .v8 t⟩ c = .ok (⟨.run_8, buf, .v8 t'⟩, o) := by
  show stepX (T8 := T8) (T16 := T16) (T32 := T32) ⟨.run_8, buf, .v8 t⟩ c = Except.ok (⟨.run_8, buf, .v8 t'⟩, o)
  simp only [stepX, h, bind, Except.bind]

theorem endX8 {s : States} {buf : Str} {t t' : T8.σ} {o : List ο} (h : T8.endCp t = .ok (t', o)) :
    (tX T8 T16 T32).endCp ⟨s, buf, .v8 t⟩ = .ok (⟨s, buf, .v8 t'⟩, o) := by
  show endCpX (T8 := T8) (T16 := T16) (T32 := T32) ⟨s, buf, .v8 t⟩ = Except.ok (⟨s, buf, .v8 t'⟩, o)
  simp only [endCpX, h, bind, Except.bind]

theorem runs_8 {Q : List ο → Prop} {I : T8.σ → Prop} (L : Lawful T8 Q I) (hQ : ∀ l, Q l → l.length ≤ K) (buf : Str) (s : Str) :
    ∀ t : T8.σ, I t → s ≠ [] → Runs (tX T8 T16 T32) K ⟨.run_8, buf, .v8 t⟩ s := by
  induction s with
  | nil => intro _ _ h; exact absurd rfl h
  | cons c s ih =>
    intro st hi _
    obtain ⟨st', o, st'', e, st3, e3, h1, h2, h3, h4, h5, h6, h6', h7, h8, h9, h10, h11⟩ := L.step st c hi
    cases s with
    | nil =>
      refine Runs.last (T := tX T8 T16 T32) (stepX_8 h1) (endX8 h5) (hQ _ h7) (fun h => ?_) (endX8 h9) (hQ _ h10)
      obtain ⟨g1, g2⟩ := List.append_eq_nil_iff.1 h
      exact h8 g1 g2
    | cons d s => exact Runs.more (T := tX T8 T16 T32) (stepX_8 h1) (hQ _ h4) (ih st' h2 (by simp))

theorem byte16 (big : Bool) (a b c d v : UInt8) (t : T16.σ) :
    (tX T8 T16 T32).step ⟨st16 big none, [a, b, c, d], .v16 t⟩ v = .ok (⟨st16 big (some v), [v, b, c, d], .v16 t⟩, []) := by
  cases big with
  | true => exact stepX_byte (s := .run_16be_byte0) (s' := .run_16be_byte1) (by decide +kernel) rfl rfl
  | false => exact stepX_byte (s := .run_16le_byte0) (s' := .run_16le_byte1) (by decide +kernel) rfl rfl

/-- Whether a number of bytes leaves one over. -/
def leaves (n k : Nat) : Bool := n % k != 0

/-- The bytes of UTF-16. -/
theorem runs_16 {Q : List ο → Prop} {I : T16.σ → Prop} (L : Lawful T16 Q I) (big : Bool) : ∀ (s : Str) (a b c d : UInt8) (t : T16.σ), I t →
    (∃ st' e st'' e', T16.endCp t = .ok (st', e) ∧ T16.endCp st' = .ok (st'', e')) → s ≠ [] →
    (Runs (tX T8 T16 T32) K ⟨st16 big none, [a, b, c, d], .v16 t⟩ s ↔
      (s.length % 2 = 0 ∧ Runs T16 K t (units16 big s)) ∨ (s.length % 2 = 1 ∧ RunsTail T16 K t (units16 big s)))
  | [], _, _, _, _, _, _, _, h => absurd rfl h
  | [v], a, b, c, d, t, hi, he, _ => by
    obtain ⟨st', e, st'', e', h1, h2⟩ := he
    rw [runs_one (byte16 big a b c d v t) (show (tX T8 T16 T32).endCp _ = _ from endX16 h1) (show (tX T8 T16 T32).endCp _ = _ from endX16 h2),
      show units16 big [v] = [] from rfl, tail_nil h1 h2]
    simp
  | v :: w :: s, a, b, c, d, t, hi, he, _ => by
    obtain ⟨st', o, st'', e, st3, e3, h1, h2, h3, h4, h5, h6, h6', h7, h8, h9, h10, h11⟩ :=
      L.step t (UInt16.ofNat (if big then v.toNat * 0x100 + w.toNat else w.toNat * 0x100 + v.toNat)) hi
    have hx : (tX T8 T16 T32).step ⟨st16 big (some v), [v, b, c, d], .v16 t⟩ w = .ok (⟨st16 big none, [v, b, c, d], .v16 st'⟩, o) := stepX_16b big h1
    rw [runs_more (byte16 big a b c d v t), show units16 big (v :: w :: s) = _ :: units16 big s from rfl]
    simp only [List.length_nil, Nat.zero_le, true_and]
    have hl : (v :: w :: s).length % 2 = s.length % 2 := by simp only [List.length_cons]; omega
    rw [hl]
    cases s with
    | nil =>
      rw [runs_one hx (show (tX T8 T16 T32).endCp _ = _ from endX16 h5) (show (tX T8 T16 T32).endCp _ = _ from endX16 h9), show units16 big [] = [] from rfl,
        runs_one h1 h5 h9]
      simp
    | cons x s =>
      rw [runs_more hx, runs_16 L big (x :: s) v b c d st' h2 ⟨_, _, _, _, h5, h9⟩ (by simp)]
      rw [tail_cons h1]
      cases s with
      | nil => simp
      | cons y s =>
        rw [show units16 big (x :: y :: s) = _ :: units16 big s from rfl, runs_more h1]
        constructor
        · rintro ⟨g1, ⟨g2, g3⟩ | ⟨g2, g3⟩⟩
          · exact Or.inl ⟨g2, g1, g3⟩
          · exact Or.inr ⟨g2, g1, g3⟩
        · rintro (⟨g2, g1, g3⟩ | ⟨g2, g1, g3⟩)
          · exact ⟨g1, Or.inl ⟨g2, g3⟩⟩
          · exact ⟨g1, Or.inr ⟨g2, g3⟩⟩

/-- The same with the first byte of a code unit read. -/
theorem runs_16' {Q : List ο → Prop} {I : T16.σ → Prop} (L : Lawful T16 Q I) (big : Bool) (v w : UInt8) (s : Str) (b c d : UInt8) (t : T16.σ) (hi : I t) :
    (Runs (tX T8 T16 T32) K ⟨st16 big (some v), [v, b, c, d], .v16 t⟩ (w :: s) ↔
      (s.length % 2 = 0 ∧ Runs T16 K t (units16 big (v :: w :: s))) ∨ (s.length % 2 = 1 ∧ RunsTail T16 K t (units16 big (v :: w :: s)))) := by
  obtain ⟨st', o, st'', e, st3, e3, h1, h2, h3, h4, h5, h6, h6', h7, h8, h9, h10, h11⟩ :=
    L.step t (UInt16.ofNat (if big then v.toNat * 0x100 + w.toNat else w.toNat * 0x100 + v.toNat)) hi
  have hx : (tX T8 T16 T32).step ⟨st16 big (some v), [v, b, c, d], .v16 t⟩ w = .ok (⟨st16 big none, [v, b, c, d], .v16 st'⟩, o) := stepX_16b big h1
  rw [show units16 big (v :: w :: s) = _ :: units16 big s from rfl]
  cases s with
  | nil =>
    rw [runs_one hx (show (tX T8 T16 T32).endCp _ = _ from endX16 h5) (show (tX T8 T16 T32).endCp _ = _ from endX16 h9), show units16 big [] = [] from rfl,
      runs_one h1 h5 h9]
    simp
  | cons x s =>
    rw [runs_more hx, runs_16 L big (x :: s) v b c d st' h2 ⟨_, _, _, _, h5, h9⟩ (by simp)]
    rw [tail_cons h1]
    cases s with
    | nil => simp
    | cons y s =>
      rw [show units16 big (x :: y :: s) = _ :: units16 big s from rfl, runs_more h1]
      constructor
      · rintro ⟨g1, ⟨g2, g3⟩ | ⟨g2, g3⟩⟩
        · exact Or.inl ⟨g2, g1, g3⟩
        · exact Or.inr ⟨g2, g1, g3⟩
      · rintro (⟨g2, g1, g3⟩ | ⟨g2, g1, g3⟩)
        · exact ⟨g1, Or.inl ⟨g2, g3⟩⟩
        · exact ⟨g1, Or.inr ⟨g2, g3⟩⟩

theorem byte32_0 (big : Bool) (a b c d v : UInt8) (t : T32.σ) :
    (tX T8 T16 T32).step ⟨st32 big [], [a, b, c, d], .v32 t⟩ v = .ok (⟨st32 big [v], [v, b, c, d], .v32 t⟩, []) := by
  cases big with
  | true => exact stepX_byte (s := .run_32be_byte0) (s' := .run_32be_byte1) (by decide +kernel) rfl rfl
  | false => exact stepX_byte (s := .run_32le_byte0) (s' := .run_32le_byte1) (by decide +kernel) rfl rfl
theorem byte32_1 (big : Bool) (a b c d v : UInt8) (t : T32.σ) :
    (tX T8 T16 T32).step ⟨st32 big [a], [a, b, c, d], .v32 t⟩ v = .ok (⟨st32 big [a, v], [a, v, c, d], .v32 t⟩, []) := by
  cases big with
  | true => exact stepX_byte (s := .run_32be_byte1) (s' := .run_32be_byte2) (by decide +kernel) rfl rfl
  | false => exact stepX_byte (s := .run_32le_byte1) (s' := .run_32le_byte2) (by decide +kernel) rfl rfl
theorem byte32_2 (big : Bool) (a b c d v : UInt8) (t : T32.σ) :
    (tX T8 T16 T32).step ⟨st32 big [a, b], [a, b, c, d], .v32 t⟩ v = .ok (⟨st32 big [a, b, v], [a, b, v, d], .v32 t⟩, []) := by
  cases big with
  | true => exact stepX_byte (s := .run_32be_byte2) (s' := .run_32be_byte3) (by decide +kernel) rfl rfl
  | false => exact stepX_byte (s := .run_32le_byte2) (s' := .run_32le_byte3) (by decide +kernel) rfl rfl

/-- The bytes of UTF-32. -/
theorem runs_32 {f : Nat → List ο} {g : Nat → Bool} (S : Simple T32 f g) (hf : ∀ c, (f c).length ≤ K) (big : Bool) : ∀ (s : Str) (a b c d : UInt8) (t : T32.σ), s ≠ [] →
    (Runs (tX T8 T16 T32) K ⟨st32 big [], [a, b, c, d], .v32 t⟩ s ↔ s.length % 4 = 0)
  | [], _, _, _, _, _, h => absurd rfl h
  | [v], a, b, c, d, t, _ => by
    rw [runs_one (byte32_0 big a b c d v t) (show (tX T8 T16 T32).endCp _ = _ from endX32 (S.end_ _)) (show (tX T8 T16 T32).endCp _ = _ from endX32 (S.end_ _))]
    simp
  | [v, w], a, b, c, d, t, _ => by
    rw [runs_more (byte32_0 big a b c d v t), runs_one (byte32_1 big v b c d w t) (show (tX T8 T16 T32).endCp _ = _ from endX32 (S.end_ _)) (show (tX T8 T16 T32).endCp _ = _ from endX32 (S.end_ _))]
    simp
  | [v, w, x], a, b, c, d, t, _ => by
    rw [runs_more (byte32_0 big a b c d v t), runs_more (byte32_1 big v b c d w t), runs_one (byte32_2 big v w c d x t) (show (tX T8 T16 T32).endCp _ = _ from endX32 (S.end_ _)) (show (tX T8 T16 T32).endCp _ = _ from endX32 (S.end_ _))]
    simp
  | v :: w :: x :: y :: s, a, b, c, d, t, _ => by
    rw [runs_more (byte32_0 big a b c d v t), runs_more (byte32_1 big v b c d w t), runs_more (byte32_2 big v w c d x t)]
    simp only [List.length_nil, Nat.zero_le, true_and]
    obtain ⟨t', h1, _⟩ := S.step t (if big then ((v.toNat * 0x100 + w.toNat) * 0x100 + x.toNat) * 0x100 + y.toNat
        else (((y.toNat * 0x100 + x.toNat) * 0x100 + w.toNat) * 0x100 + v.toNat) % 0x1000000)
    have hx : (tX T8 T16 T32).step ⟨st32 big [v, w, x], [v, w, x, d], .v32 t⟩ y = .ok (⟨st32 big [], [v, w, x, d], .v32 t'⟩, _) := stepX_32d big h1
    have hl : (v :: w :: x :: y :: s).length % 4 = s.length % 4 := by simp only [List.length_cons]; omega
    rw [hl]
    cases s with
    | nil =>
      rw [runs_one hx (show (tX T8 T16 T32).endCp _ = _ from endX32 (S.end_ _)) (show (tX T8 T16 T32).endCp _ = _ from endX32 (S.end_ _))]
      simp [hf, S.ne]
    | cons z s =>
      rw [runs_more hx, runs_32 S hf big (z :: s) v w x d t' (by simp)]
      exact ⟨And.right, fun h => ⟨hf _, h⟩⟩

end
end Verif.Icu

namespace Verif.Icu
open Verif.Unicode
set_option linter.unusedSimpArgs false

/-- Wherever a high surrogate is followed by a code unit that is no surrogate, that one is among `fits`. -/
def Orderly (fits : UInt16 → Prop) : List UInt16 → Prop
  | a :: b :: s => (High a → ¬ High b → ¬ Low b → fits b) ∧ Orderly fits (b :: s)
  | _ => True

/-- The text ends with two high surrogates. -/
def TwoHighs : List UInt16 → Prop
  | [a, b] => High a ∧ High b
  | _ :: b :: c :: s => TwoHighs (b :: c :: s)
  | _ => False

/-- The text ends with a high surrogate. -/
def EndsHigh (us : List UInt16) : Prop := ∃ h, us.getLast? = some h ∧ High h

/-- The sizes of what a conversion from UTF-16 writes: `r` elements for U+FFFD, more than `K` only for U+FFFD with a code unit
that is not among `fits`. -/
structure Sized {ο : Type} (T : Transcoder UInt16 ο) (hi : T.σ → Bool) (K r : Nat) (fits : UInt16 → Prop) : Prop where
  init : hi T.init = false
  pos : 0 < r
  le : r ≤ K
  step : ∀ st p u, (hi st = true ↔ High p) → ∃ st' o, T.step st u = .ok (st', o) ∧ (hi st' = true ↔ High u) ∧
    (o.length ≤ K ↔ (High p → ¬ High u → ¬ Low u → fits u)) ∧ (High u → High p → o.length = r) ∧ (High u → ¬ High p → o = []) ∧ (¬ High u → o ≠ [])
  end_ : ∀ st p, (hi st = true ↔ High p) → ∃ st' e, T.endCp st = .ok (st', e) ∧ hi st' = false ∧ (High p → e.length = r) ∧ (¬ High p → e = [])

section
variable {ο : Type} {T : Transcoder UInt16 ο} {hi : T.σ → Bool} {K r : Nat} {fits : UInt16 → Prop}

theorem zero_low : ¬ High 0 := by simp [High]

theorem Sized.endTwice (S : Sized T hi K r fits) (st : T.σ) (p : UInt16) (h : hi st = true ↔ High p) : ∃ st' e st'', T.endCp st = .ok (st', e) ∧
    T.endCp st' = .ok (st'', []) ∧ (High p → e.length = r) ∧ (¬ High p → e = []) := by
  obtain ⟨st', e, h1, h2, h3, h4⟩ := S.end_ st p h
  obtain ⟨st'', e', g1, _, _, g4⟩ := S.end_ st' 0 (by rw [h2]; simp [zero_low])
  exact ⟨st', e, st'', h1, by rw [g1, g4 zero_low], h3, h4⟩

theorem Sized.runs (S : Sized T hi K r fits) : ∀ (s : List UInt16) (st : T.σ) (p : UInt16), (hi st = true ↔ High p) → s ≠ [] →
    (Runs T K st s ↔ Orderly fits (p :: s) ∧ (r + r ≤ K ∨ ¬ TwoHighs (p :: s)))
  | [], _, _, _, h => absurd rfl h
  | [u], st, p, hh, _ => by
    obtain ⟨st', o, h1, h2, h3, h4, h5, h6⟩ := S.step st p u hh
    obtain ⟨st'', e, st3, g1, g2, g3, g4⟩ := S.endTwice st' u h2
    have hp := S.pos
    have hl := S.le
    rw [runs_one h1 g1 g2]
    simp only [Orderly, TwoHighs, and_true, List.length_append, List.length_nil, Nat.zero_le]
    by_cases hu : High u
    · have e1 := g3 hu
      have hne : e ≠ [] := by rintro rfl; simp at e1; omega
      by_cases hpp : High p
      · have := h4 hu hpp
        simp only [hu, hpp, not_true_eq_false, not_false_eq_true, false_implies, true_implies, implies_true, and_true, true_and, and_self,
          or_false, List.append_eq_nil_iff, ne_eq, hne, and_false, this, e1]
      · have := h5 hu hpp
        subst this
        simp only [hu, hpp, not_true_eq_false, not_false_eq_true, false_implies, true_implies, implies_true, and_true, true_and, and_false, false_and,
          or_true, List.nil_append, ne_eq, hne, List.length_nil, e1, iff_true]
        omega
    · have := g4 hu
      subst this
      have ho := h6 hu
      simp only [hu, List.append_nil, List.length_nil, Nat.add_zero, and_false, not_false_eq_true, or_true, and_true, ne_eq, ho, h3]
  | u :: w :: s, st, p, hh, _ => by
    obtain ⟨st', o, h1, h2, h3, h4, h5, h6⟩ := S.step st p u hh
    rw [runs_more h1, S.runs (w :: s) st' u h2 (by simp), h3]
    rw [show TwoHighs (p :: u :: w :: s) = TwoHighs (u :: w :: s) by cases s <;> rfl]
    simp only [Orderly]
    constructor
    · rintro ⟨a, ⟨b, c⟩, d⟩; exact ⟨⟨a, b, c⟩, d⟩
    · rintro ⟨⟨a, b, c⟩, d⟩; exact ⟨a, ⟨b, c⟩, d⟩

theorem Sized.tail (S : Sized T hi K r fits) : ∀ (s : List UInt16) (st : T.σ) (p : UInt16), (hi st = true ↔ High p) →
    (RunsTail T K st s ↔ Orderly fits (p :: s) ∧ EndsHigh (p :: s))
  | [], st, p, hh => by
    obtain ⟨st'', e, st3, g1, g2, g3, g4⟩ := S.endTwice st p hh
    have hp := S.pos
    have hl := S.le
    rw [tail_nil g1 g2]
    simp only [Orderly, EndsHigh, true_and, List.getLast?_singleton, Option.some.injEq, exists_eq_left', List.length_nil, Nat.zero_le, and_true]
    by_cases hu : High p
    · have e1 := g3 hu
      have hne : e ≠ [] := by rintro rfl; simp at e1; omega
      simp [hu, hne, e1, hl]
    · simp [hu, g4 hu]
  | u :: s, st, p, hh => by
    obtain ⟨st', o, h1, h2, h3, h4, h5, h6⟩ := S.step st p u hh
    rw [tail_cons h1, S.tail s st' u h2, h3]
    simp only [Orderly, EndsHigh, List.getLast?_cons_cons, and_assoc]

theorem orderly_zero (s : List UInt16) : Orderly fits (0 :: s) ↔ Orderly fits s := by
  cases s with
  | nil => simp [Orderly]
  | cons a s => simp [Orderly, zero_low]

theorem two_zero {s : List UInt16} (h : s ≠ []) : TwoHighs (0 :: s) ↔ TwoHighs s := by
  match s, h with
  | [a], _ => simp [TwoHighs, zero_low]
  | a :: b :: s, _ => rfl

theorem ends_zero (s : List UInt16) : EndsHigh (0 :: s) ↔ EndsHigh s := by
  cases s with
  | nil => simp [EndsHigh, zero_low]
  | cons a s => simp [EndsHigh, List.getLast?_cons_cons]

end

theorem sized_32 : Sized t16_32 (fun st => st.hasHigh) 1 1 (fun _ => False) where
  init := rfl
  pos := by omega
  le := by omega
  step st p u hh := by
    cases hs : st.hasHigh with
    | false =>
      have hp : ¬ High p := by rw [← hh, hs]; simp
      by_cases hu : High u
      · exact ⟨_, _, step16_high st u hs hu, by simp [hu], by simp [hp], by simp [hp], by simp, by simp [hu]⟩
      · by_cases hl : Low u
        · exact ⟨_, _, step16_low st u hs hl, by simp [hu, hs], by simp [hp], by simp [hu], by simp [hu], by simp⟩
        · exact ⟨_, _, step16_bmp st u hs hu hl, by simp [hu, hs], by simp [hp], by simp [hu], by simp [hu], by simp⟩
    | true =>
      have hp : High p := by rw [← hh, hs]
      by_cases hl : Low u
      · have hu : ¬ High u := by simp only [High, Low] at *; omega
        exact ⟨_, _, step16_pair st u hs hl, by simp [hu], by simp [hl], by simp [hu], by simp [hu], by simp⟩
      · by_cases hu : High u
        · exact ⟨_, _, step16_high_high st u hs hu, by simp [hu, hs], by simp [hu], by simp [hp], by simp [hp], by simp [hu]⟩
        · exact ⟨_, _, step16_high_bmp st u hs hu hl, by simp [hu], by simp [hp, hu, hl], by simp [hu], by simp [hu], by simp⟩
  end_ st p hh := by
    cases hs : st.hasHigh with
    | false =>
      have hp : ¬ High p := by rw [← hh, hs]; simp
      exact ⟨_, _, end16_none st hs, hs, by simp [hp], by simp⟩
    | true =>
      have hp : High p := by rw [← hh, hs]
      exact ⟨_, _, end16_some st hs, rfl, by simp, by simp [hp]⟩

section
variable {ο : Type} {B : Transcoder Nat ο} {f : Nat → List ο} {g : Nat → Bool}

theorem tri16_high (S : Simple B f g) (st : St16) (b : B.σ) (u : UInt16) (hs : st.hasHigh = false) (hu : High u) :
    ∃ b' h, (triangulator 2 t16_32 B).step (st, b) u = .ok ((⟨h, true, st.wf⟩, b'), []) := by
  obtain ⟨b', k, _⟩ := tri_step (A := t16_32) (cap := 2) S (b := b) (step16_high st u hs hu) (by simp)
  exact ⟨b', _, k⟩
theorem tri16_one (S : Simple B f g) (st : St16) (b : B.σ) (u : UInt16) (h : (st.hasHigh = false ∧ ¬ High u) ∨ (st.hasHigh = true ∧ Low u)) :
    ∃ b' h w c, (triangulator 2 t16_32 B).step (st, b) u = .ok ((⟨h, false, w⟩, b'), f c) := by
  rcases h with ⟨hs, hu⟩ | ⟨hs, hl⟩
  · by_cases hl : Low u
    · obtain ⟨b', k, _⟩ := tri_step (A := t16_32) (cap := 2) S (b := b) (step16_low st u hs hl) (by simp)
      rw [hs] at k
      exact ⟨b', _, _, _, by simpa using k⟩
    · obtain ⟨b', k, _⟩ := tri_step (A := t16_32) (cap := 2) S (b := b) (step16_bmp st u hs hu hl) (by simp)
      obtain ⟨h, i, w⟩ := st
      cases hs
      exact ⟨b', h, w, _, by simpa using k⟩
  · obtain ⟨b', k, _⟩ := tri_step (A := t16_32) (cap := 2) S (b := b) (step16_pair st u hs hl) (by simp)
    generalize st.high * 1024 + (u.toNat - 0xDC00) + 0x10000 = c at k
    exact ⟨b', _, _, c, by simpa using k⟩
theorem tri16_two (S : Simple B f g) (st : St16) (b : B.σ) (u : UInt16) (hs : st.hasHigh = true) (hu : High u) :
    ∃ b' h w, (triangulator 2 t16_32 B).step (st, b) u = .ok ((⟨h, true, w⟩, b'), f 0xFFFD) := by
  obtain ⟨b', k, _⟩ := tri_step (A := t16_32) (cap := 2) S (b := b) (step16_high_high st u hs hu) (by simp)
  rw [hs] at k
  exact ⟨b', _, _, by simpa using k⟩
theorem tri16_broken (S : Simple B f g) (st : St16) (b : B.σ) (u : UInt16) (hs : st.hasHigh = true) (hu : ¬ High u) (hl : ¬ Low u) :
    ∃ b' h w, (triangulator 2 t16_32 B).step (st, b) u = .ok ((⟨h, false, w⟩, b'), f 0xFFFD ++ f u.toNat) := by
  obtain ⟨b', k, _⟩ := tri_step (A := t16_32) (cap := 2) S (b := b) (step16_high_bmp st u hs hu hl) (by simp)
  exact ⟨b', _, _, by simpa using k⟩
theorem tri16_end0 (S : Simple B f g) (st : St16) (b : B.σ) (hs : st.hasHigh = false) :
    ∃ b', (triangulator 2 t16_32 B).endCp (st, b) = .ok ((st, b'), []) := by
  obtain ⟨b', k, _⟩ := tri_end (A := t16_32) (cap := 2) (B := B) S (b := b) (end16_none st hs) (by simp)
  exact ⟨b', k⟩
theorem tri16_end1 (S : Simple B f g) (st : St16) (b : B.σ) (hs : st.hasHigh = true) :
    ∃ b', (triangulator 2 t16_32 B).endCp (st, b) = .ok ((⟨0, false, false⟩, b'), f 0xFFFD) := by
  obtain ⟨b', k, _⟩ := tri_end (A := t16_32) (cap := 2) (B := B) S (b := b) (end16_some st hs) (by simp)
  exact ⟨b', by simpa using k⟩

/-- Through UTF-32. -/
theorem sized_tri (S : Simple B f g) {K r : Nat} {fits : UInt16 → Prop}
    (hr : (f 0xFFFD).length = r) (h0 : 0 < r) (hK : ∀ c, (f c).length ≤ K) (hf : ∀ u : UInt16, ¬ High u → ¬ Low u → (r + (f u.toNat).length ≤ K ↔ fits u)) :
    Sized (triangulator 2 t16_32 B) (fun st => st.1.hasHigh) K r fits where
  init := rfl
  pos := h0
  le := by rw [← hr]; exact hK _
  step := by
    rintro ⟨st, b⟩ p u hh
    simp only at hh
    have hne : ∀ c, f c ≠ [] := S.ne
    cases hs : st.hasHigh with
    | false =>
      have hp : ¬ High p := by rw [← hh, hs]; simp
      by_cases hu : High u
      · obtain ⟨b', h, k⟩ := tri16_high S st b u hs hu
        exact ⟨_, _, k, by simp [hu], by simp [hp], by simp [hp], by simp, by simp [hu]⟩
      · obtain ⟨b', h, w, c, k⟩ := tri16_one S st b u (Or.inl ⟨hs, hu⟩)
        exact ⟨_, _, k, by simp [hu], by simp [hp, hK], by simp [hu], by simp [hu], by simp [hne]⟩
    | true =>
      have hp : High p := by rw [← hh, hs]
      by_cases hl : Low u
      · have hu : ¬ High u := fun h => not_low_of_high h hl
        obtain ⟨b', h, w, c, k⟩ := tri16_one S st b u (Or.inr ⟨hs, hl⟩)
        exact ⟨_, _, k, by simp [hu], by simp [hl, hK], by simp [hu], by simp [hu], by simp [hne]⟩
      · by_cases hu : High u
        · obtain ⟨b', h, w, k⟩ := tri16_two S st b u hs hu
          exact ⟨_, _, k, by simp [hu], by simp [hu, hK], fun _ _ => hr, by simp [hp], by simp [hu]⟩
        · obtain ⟨b', h, w, k⟩ := tri16_broken S st b u hs hu hl
          refine ⟨_, _, k, by simp [hu], ?_, by simp [hu], by simp [hu], by simp [hne]⟩
          rw [List.length_append, hr, hf u hu hl]
          exact ⟨fun h _ _ _ => h, fun h => h hp hu hl⟩
  end_ := by
    rintro ⟨st, b⟩ p hh
    simp only at hh
    cases hs : st.hasHigh with
    | false =>
      have hp : ¬ High p := by rw [← hh, hs]; simp
      obtain ⟨b', k⟩ := tri16_end0 S st b hs
      exact ⟨_, _, k, hs, by simp [hp], by simp⟩
    | true =>
      have hp : High p := by rw [← hh, hs]
      obtain ⟨b', k⟩ := tri16_end1 S st b hs
      exact ⟨_, _, k, rfl, fun _ => hr, by simp [hp]⟩

end

theorem fix_plain (u : UInt16) (h : ¬ High u) (h' : ¬ Low u) : fixCp u.toNat = u.toNat := by
  have := u.toNat_lt
  simp only [High, Low] at h h'
  unfold fixCp
  rw [if_pos]
  unfold Scalar
  omega

theorem sized_8 : Sized t16_8 (fun st => st.1.hasHigh) 4 3 (fun u => u.toNat < 0x80) :=
  sized_tri simple32_8 (by decide +kernel) (by omega) (fun c => utf8_len _) (fun u h h' => by
    have := u.toNat_lt
    rw [fix_plain u h h']
    unfold utf8
    by_cases k : u.toNat < 0x80
    · simp [k]
    · rw [if_neg k]
      by_cases k2 : u.toNat < 0x800
      · simp [k2, k]
      · rw [if_neg k2, if_pos (by omega)]; simp [k])

theorem sized_16 : Sized t16_16 (fun st => st.1.hasHigh) 2 1 (fun _ => True) :=
  sized_tri simple32_16 (by decide +kernel) (by omega) (fun c => utf16_len _) (fun u h h' => by
    have := u.toNat_lt
    rw [fix_plain u h h', utf16_len_bmp _ (by omega)]
    simp)

end Verif.Icu
