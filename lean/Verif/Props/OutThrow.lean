import Verif.Model.OutThrow
import Verif.Props.IcuHistory

/-!
# Property C84: transcoders writing to an output iterator that throws
-/

set_option linter.unusedSimpArgs false

namespace Verif.Icu.Thr

variable {σ τ ι ο β : Type}

/-! ### Specification -/

/-- A call with members `st` that writes `os` and leaves the members `st'`.  If one of the writes throws, the characters before it have been
written and nothing else, and the exception is passed on, with the members `bad`. -/
def Passes (x : TM σ ο) (st st' : σ) (os : List ο) (bad : σ) : Prop := ∀ (o : Nat → Bool) (out : List ο) (n : Nat),
  ((∀ i, i < os.length → o (n + i) = false) → x o ⟨st, out, n⟩ = .ok (.done, ⟨st', out ++ os, n + os.length⟩)) ∧
  (∀ i, i < os.length → o (n + i) = true → (∀ j, j < i → o (n + j) = false) → x o ⟨st, out, n⟩ = .ok (.thrown, ⟨bad, out ++ os.take i, n + i + 1⟩))

/-- The same, but an exception ends the program. -/
def Ends (x : TM σ ο) (st st' : σ) (os : List ο) : Prop := ∀ (o : Nat → Bool) (out : List ο) (n : Nat),
  ((∀ i, i < os.length → o (n + i) = false) → x o ⟨st, out, n⟩ = .ok (.done, ⟨st', out ++ os, n + os.length⟩)) ∧
  (∀ i, i < os.length → o (n + i) = true → (∀ j, j < i → o (n + j) = false) →
    ∃ bad, x o ⟨st, out, n⟩ = .ok (.terminated, ⟨bad, out ++ os.take i, n + i + 1⟩))

/-- What is left of a text if the writes an oracle names are lost. -/
def kept (o : Nat → Bool) : Nat → List ο → List ο
  | _, [] => []
  | n, c :: cs => if o n then kept o (n + 1) cs else c :: kept o (n + 1) cs

/-! ### Proof -/

theorem puts_does (os : List ο) (st : σ) : Passes (puts os) st st os st := by
  induction os with
  | nil => intro o out n; exact ⟨fun _ => by simp [puts, done], fun i h => absurd h (Nat.not_lt_zero i)⟩
  | cons c os ih =>
    intro o out n
    have ih' := ih o (out ++ [c]) (n + 1)
    by_cases h0 : o n = true
    · refine ⟨fun h => ?_, fun i hi h1 h2 => ?_⟩
      · have := h 0 (by simp); simp [h0] at this
      · cases i with
        | zero => simp [puts, andThen, put, h0]
        | succ i => have := h2 0 (by omega); simp [h0] at this
    · have h0' : o n = false := by simpa using h0
      refine ⟨fun h => ?_, fun i hi h1 h2 => ?_⟩
      · have := ih'.1 (fun i hi => by have := h (i + 1) (by simp; omega); rwa [show n + 1 + i = n + (i + 1) by omega])
        simp only [puts, andThen, put, h0', Bool.false_eq_true, if_false]
        rw [this]
        simp; omega
      · cases i with
        | zero => simp at h1; simp [h0'] at h1
        | succ i =>
          have := ih'.2 i (by simpa using hi) (by rwa [show n + 1 + i = n + (i + 1) by omega])
            (fun j hj => by have := h2 (j + 1) (by omega); rwa [show n + 1 + j = n + (j + 1) by omega])
          simp only [puts, andThen, put, h0', Bool.false_eq_true, if_false]
          rw [this]
          simp; omega

theorem sealed_does {f : σ → M (σ × List ο)} {st st' : σ} {os : List ο} (h : f st = .ok (st', os)) : Ends (sealed f) st st' os := by
  intro o out n
  obtain ⟨h1, h2⟩ := puts_does os st o out n
  refine ⟨fun k => ?_, fun i a b c => ⟨st, ?_⟩⟩
  · simp only [sealed, noexcept, read, lift, h, andThen, h1 k, assign]
  · simp only [sealed, noexcept, read, lift, h, andThen, h2 i a b c, assign]

theorem Ends.second {x : TM τ ο} {st st' : τ} {os : List ο} (h : Ends x st st' os) (a : σ) : Ends (second x) (a, st) (a, st') os := by
  intro o out n
  obtain ⟨h1, h2⟩ := h o out n
  refine ⟨fun k => ?_, fun i p q r => ?_⟩
  · simp only [Thr.second, h1 k]
  · obtain ⟨bad, e⟩ := h2 i p q r
    exact ⟨(a, bad), by simp only [Thr.second, e]⟩

theorem Ends.andThen {x y : TM σ ο} {a b c : σ} {os ps : List ο} (hx : Ends x a b os) (hy : Ends y b c ps) : Ends (andThen x y) a c (os ++ ps) := by
  intro o out n
  obtain ⟨h1, h2⟩ := hx o out n
  obtain ⟨k1, k2⟩ := hy o (out ++ os) (n + os.length)
  refine ⟨fun k => ?_, fun i p q r => ?_⟩
  · unfold Thr.andThen
    rw [h1 (fun i hi => k i (by simp; omega))]
    simp only []
    rw [k1 (fun i hi => by have := k (os.length + i) (by simp; omega); rwa [Nat.add_assoc])]
    simp [Nat.add_assoc]
  · unfold Thr.andThen
    rcases Nat.lt_or_ge i os.length with hi | hi
    · obtain ⟨bad, e⟩ := h2 i hi q r
      exact ⟨bad, by rw [e]; simp [List.take_append_of_le_length (Nat.le_of_lt hi)]⟩
    · rw [h1 (fun j hj => r j (by omega))]
      simp only []
      obtain ⟨bad, e⟩ := k2 (i - os.length) (by simp at p; omega) (by rwa [Nat.add_assoc, show os.length + (i - os.length) = i by omega])
        (fun j hj => by rw [Nat.add_assoc]; exact r _ (by omega))
      refine ⟨bad, ?_⟩
      rw [e, List.take_append, List.take_of_length_le hi]
      simp; omega

theorem Ends.done (st : σ) : Ends (done : TM σ ο) st st [] := fun o out n =>
  ⟨fun _ => by simp [Thr.done], fun i h => absurd h (Nat.not_lt_zero i)⟩

theorem feed_cons {T : Transcoder ι ο} {st : T.σ} {c : ι} {cs : List ι} {r : T.σ × List ο} (h : T.feed st (c :: cs) = .ok r) :
    ∃ st1 o1 o2, T.step st c = .ok (st1, o1) ∧ T.feed st1 cs = .ok (r.1, o2) ∧ r.2 = o1 ++ o2 := by
  simp only [Transcoder.feed, bind, Except.bind] at h
  cases h1 : T.step st c with
  | error e => rw [h1] at h; simp at h
  | ok x =>
    rw [h1] at h
    simp only at h
    cases h2 : T.feed x.1 cs with
    | error e => rw [h2] at h; simp at h
    | ok y =>
      rw [h2] at h
      simp only [Except.ok.injEq] at h
      exact ⟨x.1, x.2, y.2, rfl, by rw [h2, ← h], by rw [← h]⟩

/-- Feeding code points to the second half. -/
theorem feed_ends {B : Transcoder Nat ο} {C : Coder B.σ Nat ο} (hB : ∀ st c st' os, B.step st c = .ok (st', os) → Ends (C.step c) st st' os) (a : σ) :
    ∀ (us : List Nat) (st st' : B.σ) (os : List ο), B.feed st us = .ok (st', os) → Ends (forEach (fun u => second (C.step u)) us) (a, st) (a, st') os := by
  intro us
  induction us with
  | nil =>
    intro st st' os h
    simp only [Transcoder.feed, Except.ok.injEq, Prod.mk.injEq] at h
    obtain ⟨h1, h2⟩ := h
    rw [← h1, ← h2]
    exact Ends.done _
  | cons u us ih =>
    intro st st' os h
    obtain ⟨s1, o1, o2, e1, e2, e3⟩ := feed_cons h
    simp only at e2 e3
    rw [e3]
    exact ((hB _ _ _ _ e1).second a).andThen (ih _ _ _ e2)

theorem Ends.first {st : σ × τ} {st' : σ × τ} {os : List ο} {a : σ} {y : TM (σ × τ) ο} (h : Ends y (a, st.2) st' os) :
    Ends (Thr.andThen (assign fun s => (a, s.2)) y) st st' os := by
  intro o out n
  exact h o out n

theorem tri_step {A : Transcoder ι Nat} {B : Transcoder Nat ο} {C : Coder B.σ Nat ο} {cap : Nat}
    (hB : ∀ st c st' os, B.step st c = .ok (st', os) → Ends (C.step c) st st' os) {st st' : A.σ × B.σ} {c : ι} {os : List ο}
    (h : (triangulator cap A B).step st c = .ok (st', os)) : Ends ((tri cap A.step A.endCp C).step c) st st' os := by
  have e0 : (triangulator cap A B).step st c = (A.step st.1 c >>= fun x => if x.2.length > cap then .error .assertion else triCopy A B x.2 (x.1, st.2)) := rfl
  rw [e0] at h
  cases h1 : A.step st.1 c with
  | error e => rw [h1] at h; simp [bind, Except.bind] at h
  | ok x =>
    rw [h1] at h
    simp only [bind, Except.bind] at h
    by_cases hc : x.2.length > cap
    · rw [if_pos hc] at h; simp at h
    · rw [if_neg hc] at h
      simp only [triCopy, bind, Except.bind] at h
      cases h2 : B.feed st.2 x.2 with
      | error e => rw [h2] at h; simp at h
      | ok y =>
        rw [h2] at h
        obtain ⟨h3, h4⟩ := Prod.mk.inj (Except.ok.inj h)
        rw [← h3, ← h4]
        have := (feed_ends hB x.1 x.2 st.2 y.1 y.2 h2).first (st := st)
        intro o out n
        have k := this o out n
        simp only [tri, read, lift, h1, if_neg hc]
        exact k

theorem tri_end {A : Transcoder ι Nat} {B : Transcoder Nat ο} {C : Coder B.σ Nat ο} {cap : Nat}
    (hB : ∀ st c st' os, B.step st c = .ok (st', os) → Ends (C.step c) st st' os) (hE : ∀ st st' os, B.endCp st = .ok (st', os) → Ends C.endCp st st' os)
    {st st' : A.σ × B.σ} {os : List ο}
    (h : (triangulator cap A B).endCp st = .ok (st', os)) : Ends (tri cap A.step A.endCp C).endCp st st' os := by
  have e0 : (triangulator cap A B).endCp st = (A.endCp st.1 >>= fun x => if x.2.length > cap then .error .assertion else
    (triCopy A B x.2 (x.1, st.2) >>= fun y => B.endCp y.1.2 >>= fun z => .ok ((y.1.1, z.1), y.2 ++ z.2))) := rfl
  rw [e0] at h
  cases h1 : A.endCp st.1 with
  | error e => rw [h1] at h; simp [bind, Except.bind] at h
  | ok x =>
    rw [h1] at h
    simp only [bind, Except.bind] at h
    by_cases hc : x.2.length > cap
    · rw [if_pos hc] at h; simp at h
    · rw [if_neg hc] at h
      simp only [triCopy, bind, Except.bind] at h
      cases h2 : B.feed st.2 x.2 with
      | error e => rw [h2] at h; simp at h
      | ok y =>
        rw [h2] at h
        simp only at h
        cases h5 : B.endCp y.1 with
        | error e => rw [h5] at h; simp at h
        | ok z =>
          rw [h5] at h
          obtain ⟨h3, h4⟩ := Prod.mk.inj (Except.ok.inj h)
          rw [← h3, ← h4]
          have := ((feed_ends hB x.1 x.2 st.2 y.1 y.2 h2).andThen ((hE _ _ _ h5).second x.1)).first (st := st)
          intro o out n
          have k := this o out n
          simp only [tri, read, lift, h1, if_neg hc]
          exact k

theorem nothing {st st' : σ} {os : List ο} (h : (.ok (st, []) : M (σ × List ο)) = .ok (st', os)) : Ends (done : TM σ ο) st st' os := by
  simp only [Except.ok.injEq, Prod.mk.injEq] at h
  rw [← h.1, ← h.2]
  exact Ends.done _

end Verif.Icu.Thr

namespace Verif
open Icu Icu.Thr

/-- **C84**: `operator()` of these transcoders is `noexcept`, or writes through one that is: a write that throws ends the program.  What was
written before is a prefix of what would have been written. -/
theorem C84_ends_32_8 {st c st' os} (h : t32_8.step st c = .ok (st', os)) : Ends (c32_8.step c) st st' os := sealed_does h
theorem C84_ends_32_16 {st c st' os} (h : t32_16.step st c = .ok (st', os)) : Ends (c32_16.step c) st st' os := sealed_does h
theorem C84_ends_16_32 {st c st' os} (h : t16_32.step st c = .ok (st', os)) : Ends (c16_32.step c) st st' os := sealed_does h
theorem C84_ends_8_16 {st c st' os} (h : t8_16.step st c = .ok (st', os)) : Ends (c8_16.step c) st st' os :=
  tri_step (A := t8_32) (B := t32_16) (fun _ _ _ _ => C84_ends_32_16) h
theorem C84_ends_16_8 {st c st' os} (h : t16_8.step st c = .ok (st', os)) : Ends (c16_8.step c) st st' os :=
  tri_step (A := t16_32) (B := t32_8) (fun _ _ _ _ => C84_ends_32_8) h
theorem C84_ends_8_8 {st c st' os} (h : t8_8.step st c = .ok (st', os)) : Ends (c8_8.step c) st st' os :=
  tri_step (A := t8_32) (B := t32_8) (fun _ _ _ _ => C84_ends_32_8) h
theorem C84_ends_16_16 {st c st' os} (h : t16_16.step st c = .ok (st', os)) : Ends (c16_16.step c) st st' os :=
  tri_step (A := t16_32) (B := t32_16) (fun _ _ _ _ => C84_ends_32_16) h

/-- **C84**: the same of the transcoders of bytes (`tx_8`, `tx_16`, `tx_32`), `end_cp` included. -/
theorem C84_ends_bytes {ο : Type} (T : Transcoder UInt8 ο) {st st' : T.σ} {os : List ο} :
    (∀ c, T.step st c = .ok (st', os) → Ends ((cX T).step c) st st' os) ∧ (T.endCp st = .ok (st', os) → Ends (cX T).endCp st st' os) :=
  ⟨fun _ h => sealed_does h, fun h => sealed_does h⟩

/-- **C84**: the same of `end_cp` of the transcoders that go through UTF-32. -/
theorem C84_end_8_16 {st st' os} (h : t8_16.endCp st = .ok (st', os)) : Ends c8_16.endCp st st' os :=
  tri_end (A := t8_32) (B := t32_16) (fun _ _ _ _ => C84_ends_32_16) (fun _ _ _ => nothing) h
theorem C84_end_16_8 {st st' os} (h : t16_8.endCp st = .ok (st', os)) : Ends c16_8.endCp st st' os :=
  tri_end (A := t16_32) (B := t32_8) (fun _ _ _ _ => C84_ends_32_8) (fun _ _ _ => nothing) h
theorem C84_end_8_8 {st st' os} (h : t8_8.endCp st = .ok (st', os)) : Ends c8_8.endCp st st' os :=
  tri_end (A := t8_32) (B := t32_8) (fun _ _ _ _ => C84_ends_32_8) (fun _ _ _ => nothing) h
theorem C84_end_16_16 {st st' os} (h : t16_16.endCp st = .ok (st', os)) : Ends c16_16.endCp st st' os :=
  tri_end (A := t16_32) (B := t32_16) (fun _ _ _ _ => C84_ends_32_16) (fun _ _ _ => nothing) h

/-- **C84**: `operator()` from UTF-8 to UTF-32 and from UTF-32 to UTF-32 passes the exception on, and leaves the transcoder as if the write
had succeeded: the code point is lost and must not be fed again. -/
theorem C84_passes_8_32 {st c st' os} (h : t8_32.step st c = .ok (st', os)) : Passes (c8_32.step c) st st' os st' := by
  have e0 : t8_32.step st c = Icu.step8to32 st c := rfl
  rw [e0] at h
  unfold Icu.step8to32 at h
  simp only [bind, Except.bind] at h
  have hs : c8_32.step c = Thr.step8to32 c := rfl
  rw [hs]
  unfold Thr.step8to32
  cases h1 : utf8At c.toNat with
  | error e => rw [h1] at h; simp at h
  | ok type =>
    rw [h1] at h
    simp only at h
    cases h2 : utf8At (256 + St8.state st + type) with
    | error e => rw [h2] at h; simp at h
    | ok s =>
      rw [h2] at h
      simp only at h
      by_cases ha : s % 2 ^ 8 = accept
      · rw [if_pos ha] at h
        obtain ⟨h3, h4⟩ := Prod.mk.inj (Except.ok.inj h)
        clear h e0 hs; subst h3; subst h4
        intro o out n
        refine ⟨fun k => ?_, fun i a b c => ?_⟩
        · have k0 := k 0 (by simp)
          simp only [Thr.lift, Thr.read, andThen, assign, put, h2]
          simp_all [Thr.andThen, assign, put, Thr.done]
        · have hi : i = 0 := by simpa using a
          subst hi
          simp only [Thr.lift, Thr.read, andThen, assign, put, h2]
          simp_all [Thr.andThen, assign, put, Thr.done]
      · rw [if_neg ha] at h
        by_cases hr : s % 2 ^ 8 = reject
        · rw [if_pos hr] at h
          obtain ⟨h3, h4⟩ := Prod.mk.inj (Except.ok.inj h)
          clear h e0 hs; subst h3; subst h4
          intro o out n
          refine ⟨fun k => ?_, fun i a b c => ?_⟩
          · have k0 := k 0 (by simp)
            simp only [Thr.lift, Thr.read, andThen, assign, put, h2]
            simp_all [Thr.andThen, assign, put, Thr.done]
          · have hi : i = 0 := by simpa using a
            subst hi
            simp only [Thr.lift, Thr.read, andThen, assign, put, h2]
            simp_all [Thr.andThen, assign, put, Thr.done]
        · rw [if_neg hr] at h
          obtain ⟨h3, h4⟩ := Prod.mk.inj (Except.ok.inj h)
          clear h e0 hs; subst h3; subst h4
          intro o out n
          refine ⟨fun k => ?_, fun i a b c => ?_⟩
          · simp only [Thr.lift, Thr.read, andThen, assign, put, h2, done]
            simp_all [Thr.andThen, assign, put, Thr.done]
          · simp at a

theorem C84_passes_32_32 {st c st' os} (h : t32_32.step st c = .ok (st', os)) : Passes (c32_32.step c) st st' os st' := by
  have e0 : t32_32.step st c = Icu.step32to32 st c := rfl
  rw [e0] at h
  unfold Icu.step32to32 at h
  have hs : c32_32.step c = if decide (c > maxCodePoint) || isSurrogate c then andThen (assign fun _ => false) (put replacementChar) else put c := rfl
  rw [hs]
  cases hb : (decide (c > maxCodePoint) || isSurrogate c) with
  | true =>
    rw [hb] at h
    obtain ⟨h3, h4⟩ := Prod.mk.inj (Except.ok.inj h)
    clear h e0 hs; subst h3; subst h4
    intro o out n
    refine ⟨fun k => ?_, fun i a b c => ?_⟩
    · have k0 := k 0 (by simp)
      simp_all [andThen, assign, put]
    · have hi : i = 0 := by simpa using a
      subst hi
      simp_all [andThen, assign, put]
  | false =>
    rw [hb] at h
    obtain ⟨h3, h4⟩ := Prod.mk.inj (Except.ok.inj h)
    clear h e0 hs; subst h3; subst h4
    intro o out n
    refine ⟨fun k => ?_, fun i a b c => ?_⟩
    · have k0 := k 0 (by simp)
      simp_all [andThen, assign, put]
    · have hi : i = 0 := by simpa using a
      subst hi
      simp_all [andThen, assign, put]

/-- **C84**: `end_cp` from UTF-8 and from UTF-16 to UTF-32 passes the exception on too; there the replacement character is not lost, and
`partial ()` and `well_formed ()` say what they said before: calling `end_cp` again does what the call that failed should have done. -/
theorem C84_end_8_32 (st : St8) : ∃ st' os bad, t8_32.endCp st = .ok (st', os) ∧ Passes c8_32.endCp st st' os bad ∧
    t8_32.endCp bad = .ok (st', os) ∧ Passes c8_32.endCp bad st' os bad ∧
    t8_32.isPartial bad = t8_32.isPartial st ∧ t8_32.wellFormed bad = t8_32.wellFormed st := by
  have he : c8_32.endCp = Thr.endCp8to32 := rfl
  rw [he]
  show ∃ st' os bad, Icu.endCp8to32 st = .ok (st', os) ∧ Passes Thr.endCp8to32 st st' os bad ∧
    Icu.endCp8to32 bad = .ok (st', os) ∧ Passes Thr.endCp8to32 bad st' os bad ∧
    decide (St8.state bad ≠ accept) = decide (St8.state st ≠ accept) ∧ St8.wf bad = St8.wf st
  have hne : reject ≠ accept := by decide
  by_cases h : St8.state st = accept
  · refine ⟨st, [], st, by unfold Icu.endCp8to32; rw [if_neg (by simpa using h)], ?_, by unfold Icu.endCp8to32; rw [if_neg (by simpa using h)], ?_, rfl, rfl⟩ <;>
    · intro o out n
      refine ⟨fun k => ?_, fun i a => by simp at a⟩
      simp [Thr.endCp8to32, Thr.read, h, Thr.done]
  · refine ⟨{ st with wf := false, state := reject }, [replacementChar], { st with state := reject },
      by unfold Icu.endCp8to32; rw [if_pos (by simpa using h)], ?_, by unfold Icu.endCp8to32; rw [if_pos (by simpa using hne)], ?_, by simp [h, hne], rfl⟩
    · intro o out n
      refine ⟨fun k => ?_, fun i a b c => ?_⟩
      · have k0 := k 0 (by simp)
        simp_all [Thr.endCp8to32, Thr.read, Thr.andThen, assign, put]
      · have hi : i = 0 := by simpa using a
        subst hi
        simp_all [Thr.endCp8to32, Thr.read, Thr.andThen, assign, put]
    · intro o out n
      refine ⟨fun k => ?_, fun i a b c => ?_⟩
      · have k0 := k 0 (by simp)
        simp_all [Thr.endCp8to32, Thr.read, Thr.andThen, assign, put]
      · have hi : i = 0 := by simpa using a
        subst hi
        simp_all [Thr.endCp8to32, Thr.read, Thr.andThen, assign, put]

theorem C84_end_16_32 (st : St16) : ∃ st' os, t16_32.endCp st = .ok (st', os) ∧ Passes c16_32.endCp st st' os st := by
  have he : c16_32.endCp = Thr.endCp16to32 := rfl
  rw [he]
  show ∃ st' os, Icu.endCp16to32 st = .ok (st', os) ∧ Passes Thr.endCp16to32 st st' os st
  cases h : St16.hasHigh st with
  | false =>
    refine ⟨st, [], by unfold Icu.endCp16to32; rw [h]; rfl, ?_⟩
    intro o out n
    refine ⟨fun k => ?_, fun i a => by simp at a⟩
    simp [Thr.endCp16to32, Thr.read, h, Thr.done]
  | true =>
    refine ⟨⟨0, false, false⟩, [replacementChar], by unfold Icu.endCp16to32; rw [h]; rfl, ?_⟩
    intro o out n
    refine ⟨fun k => ?_, fun i a b c => ?_⟩
    · have k0 := k 0 (by simp)
      simp_all [Thr.endCp16to32, Thr.read, Thr.andThen, assign, put]
    · have hi : i = 0 := by simpa using a
      subst hi
      simp_all [Thr.endCp16to32, Thr.read, Thr.andThen, assign, put]

/-- A call that passes exceptions on, leaving the members as if nothing had happened, and that writes at most one character. -/
theorem Icu.Thr.catching_does {σ ο : Type} {x : TM σ ο} {st st' : σ} {os : List ο} (h : Passes x st st' os st') (h1 : os.length ≤ 1) (o : Nat → Bool) (out : List ο) (n : Nat) :
    catching x o ⟨st, out, n⟩ = .ok (.done, ⟨st', out ++ kept o n os, n + os.length⟩) := by
  obtain ⟨k1, k2⟩ := h o out n
  unfold catching
  cases os with
  | nil => rw [k1 (fun i hi => absurd hi (Nat.not_lt_zero i))]; simp [kept]
  | cons c os =>
    have : os = [] := by cases os with | nil => rfl | cons d os => simp at h1
    subst this
    cases hn : o n with
    | true => rw [k2 0 (by simp) (by simpa using hn) (fun j hj => absurd hj (Nat.not_lt_zero j))]; simp [kept, hn]
    | false => rw [k1 (fun i hi => by have : i = 0 := by simpa using hi
                                      subst this; simpa using hn)]; simp [kept, hn]

theorem Icu.Thr.kept_append {ο : Type} (o : Nat → Bool) : ∀ (a b : List ο) (n : Nat), kept o n (a ++ b) = kept o n a ++ kept o (n + a.length) b
  | [], b, n => by simp [kept]
  | c :: a, b, n => by
    simp only [List.cons_append, kept, Icu.Thr.kept_append o a b, List.length_cons]
    rw [show n + 1 + a.length = n + (a.length + 1) by omega]
    cases o n <;> simp

theorem Icu.Thr.resume {ι ο : Type} (T : Transcoder ι ο) (C : Coder T.σ ι ο) (h : ∀ st c st' os, T.step st c = .ok (st', os) → Passes (C.step c) st st' os st' ∧ os.length ≤ 1)
    (o : Nat → Bool) : ∀ (s : List ι) (st st' : T.σ) (os : List ο) (out : List ο) (n : Nat), T.feed st s = .ok (st', os) →
    forEach (fun c => catching (C.step c)) s o ⟨st, out, n⟩ = .ok (.done, ⟨st', out ++ kept o n os, n + os.length⟩)
  | [], st, st', os, out, n, e => by
    simp only [Transcoder.feed, Except.ok.injEq, Prod.mk.injEq] at e
    rw [← e.1, ← e.2]
    simp [forEach, Thr.done, kept]
  | c :: s, st, st', os, out, n, e => by
    obtain ⟨s1, o1, o2, e1, e2, e3⟩ := feed_cons e
    simp only at e2 e3
    obtain ⟨h1, h2⟩ := h _ _ _ _ e1
    have k := catching_does h1 h2 o out n
    have k2 := Icu.Thr.resume T C h o s s1 st' o2 (out ++ kept o n o1) (n + o1.length) e2
    simp only [forEach, Thr.andThen, k]
    rw [k2, e3, kept_append]
    simp [Nat.add_assoc]

theorem Icu.Thr.one_8_32 {st c st' os} (h : t8_32.step st c = .ok (st', os)) : os.length ≤ 1 := by
  have e0 : t8_32.step st c = Icu.step8to32 st c := rfl
  rw [e0] at h
  unfold Icu.step8to32 at h
  simp only [bind, Except.bind] at h
  cases h1 : utf8At c.toNat with
  | error e => rw [h1] at h; simp at h
  | ok type =>
    rw [h1] at h
    simp only at h
    cases h2 : utf8At (256 + St8.state st + type) with
    | error e => rw [h2] at h; simp at h
    | ok s =>
      rw [h2] at h
      simp only at h
      by_cases ha : s % 2 ^ 8 = accept
      · rw [if_pos ha] at h; rw [← (Prod.mk.inj (Except.ok.inj h)).2]; simp
      · rw [if_neg ha] at h
        by_cases hr : s % 2 ^ 8 = reject
        · rw [if_pos hr] at h; rw [← (Prod.mk.inj (Except.ok.inj h)).2]; simp
        · rw [if_neg hr] at h; rw [← (Prod.mk.inj (Except.ok.inj h)).2]; simp

theorem Icu.Thr.one_32_32 {st c st' os} (h : t32_32.step st c = .ok (st', os)) : os.length ≤ 1 := by
  have e0 : t32_32.step st c = Icu.step32to32 st c := rfl
  rw [e0] at h
  unfold Icu.step32to32 at h
  split at h <;> · rw [← (Prod.mk.inj (Except.ok.inj h)).2]; simp

/-- **C84**: so a program that catches the exceptions of the transcoder from UTF-8 to UTF-32 and feeds the rest of its text gets what it would have
got, without exactly the code points whose writes threw, and the transcoder says the same of the text. -/
theorem C84_resume_8_32 (o : Nat → Bool) (s : Str) {st' os} (h : t8_32.feed t8_32.init s = .ok (st', os)) :
    forEach (fun c => catching (c8_32.step c)) s o ⟨t8_32.init, [], 0⟩ = .ok (.done, ⟨st', kept o 0 os, os.length⟩) := by
  have k := resume t8_32 c8_32 (fun _ _ _ _ e => ⟨C84_passes_8_32 e, one_8_32 e⟩) o s t8_32.init st' os [] 0 h
  rw [List.nil_append, Nat.zero_add] at k
  exact k

theorem C84_resume_32_32 (o : Nat → Bool) (s : List Nat) {st' os} (h : t32_32.feed t32_32.init s = .ok (st', os)) :
    forEach (fun c => catching (c32_32.step c)) s o ⟨t32_32.init, [], 0⟩ = .ok (.done, ⟨st', kept o 0 os, os.length⟩) := by
  have k := resume t32_32 c32_32 (fun _ _ _ _ e => ⟨C84_passes_32_32 e, one_32_32 e⟩) o s t32_32.init st' os [] 0 h
  rw [List.nil_append, Nat.zero_add] at k
  exact k

/-- Refusing the second of three code points: the rest is converted; from UTF-32 to UTF-8 the program ends in the middle of a character. -/
example : (forEach (fun c => catching (c8_32.step c)) [0x41, 0xC3, 0xBC, 0x42] (fun n => n == 1) ⟨⟨0, true, 0⟩, [], 0⟩).toOption.map (fun r => (r.1, r.2.out)) =
    some (.done, [0x41, 0x42]) := by decide +kernel
example : (forEach c32_8.step [0x41, 0xFC, 0x42] (fun n => n == 2) ⟨true, [], 0⟩).toOption.map (fun r => (r.1, r.2.out)) =
    some (.terminated, [0x41, 0xC3]) := by decide +kernel
example : (forEach c8_8.step [0x41, 0xC3, 0xBC, 0x42] (fun n => n == 2) ⟨(⟨0, true, 0⟩, true), [], 0⟩).toOption.map (fun r => (r.1, r.2.out)) =
    some (.terminated, [0x41, 0xC3]) := by decide +kernel

end Verif
