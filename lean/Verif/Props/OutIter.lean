import Verif.Model.OutIter
import Verif.Props.ByteCalls
import Verif.Props.IcuHistory

/-!
# Property C81: the output iterator adaptor of icubaby
-/

set_option linter.unusedSimpArgs false

namespace Verif.Icu.Out

variable {ι ο W P : Type}

/-! ### Specification -/

/-- The calls of the transcoder that a program makes, in order, whichever adaptor it uses. -/
def callsOf : List (Op ι) → List (Call ι)
  | [] => []
  | .assign _ c :: ops => .unit c :: callsOf ops
  | .post _ c :: ops => .unit c :: callsOf ops
  | .endCp _ :: ops => .endCp :: callsOf ops
  | .copy _ :: ops => callsOf ops
  | .set _ _ :: ops => callsOf ops

/-- The program names only adaptors it has; it ends with `n` of them. -/
inductive Named : List (Op ι) → Nat → Prop
  | nil : Named [] 1
  | assign {ops n i c} : Named ops n → i < n → Named (ops ++ [.assign i c]) n
  | post {ops n i c} : Named ops n → i < n → Named (ops ++ [.post i c]) n
  | endCp {ops n i} : Named ops n → i < n → Named (ops ++ [.endCp i]) n
  | copy {ops n i} : Named ops n → i < n → Named (ops ++ [.copy i]) (n + 1)
  | set {ops n i j} : Named ops n → i < n → j < n → Named (ops ++ [.set i j]) n

/-- The program writes only through the adaptor it has last written through, or a copy of that; `bs` tells which adaptors
these are at its end. -/
inductive InTurn : List (Op ι) → List Bool → Prop
  | nil : InTurn [] [true]
  | assign {ops bs} {i : Nat} {c} : InTurn ops bs → bs[i]? = some true → InTurn (ops ++ [.assign i c]) ((bs.map fun _ => false).set i true)
  | endCp {ops bs} {i : Nat} : InTurn ops bs → bs[i]? = some true → InTurn (ops ++ [.endCp i]) ((bs.map fun _ => false).set i true)
  | copy {ops bs} {i : Nat} {b} : InTurn ops bs → bs[i]? = some b → InTurn (ops ++ [.copy i]) (bs ++ [b])
  | set {ops bs} {i j : Nat} {a b} : InTurn ops bs → bs[i]? = some a → bs[j]? = some b → InTurn (ops ++ [.set i j]) (bs.set i b)

/-- The array `w` with `o` written over it from position `p` on. -/
def over (w : List ο) (p : Nat) (o : List ο) : List ο := w.take p ++ o ++ w.drop (p + o.length)

/-! ### Proof -/

theorem calls_append (T : Transcoder ι ο) : ∀ (a b : List (Call ι)) (st : T.σ), calls T st (a ++ b) = calls T st a >>= fun x => calls T x.1 b >>= fun y => .ok (y.1, x.2 ++ y.2) := by
  intro a
  induction a with
  | nil => intro b st; simp only [List.nil_append, calls, bind, Except.bind]; cases calls T st b <;> rfl
  | cons k a ih =>
    intro b st
    cases k with
    | unit c =>
      simp only [List.cons_append, calls, bind, Except.bind]
      cases T.step st c with
      | error e => rfl
      | ok x =>
        simp only [ih, bind, Except.bind]
        cases calls T x.1 a with
        | error e => rfl
        | ok y =>
          simp only
          cases calls T y.1 b with
          | error e => rfl
          | ok z => simp
    | endCp =>
      simp only [List.cons_append, calls, bind, Except.bind]
      cases T.endCp st with
      | error e => rfl
      | ok x =>
        simp only [ih, bind, Except.bind]
        cases calls T x.1 a with
        | error e => rfl
        | ok y =>
          simp only
          cases calls T y.1 b with
          | error e => rfl
          | ok z => simp

theorem callsOf_append (a b : List (Op ι)) : callsOf (a ++ b) = callsOf a ++ callsOf b := by
  induction a with
  | nil => rfl
  | cons o a ih => cases o <;> simp [callsOf, ih]

theorem program_snoc (T : Transcoder ι ο) (D : Dest ο W P) (w : W) (p : P) (ops : List (Op ι)) (o : Op ι) :
    program T D w p (ops ++ [o]) = program T D w p ops >>= fun x => x.step D o := by
  unfold program
  rw [List.foldlM_append]
  congr 1
  funext x
  simp only [List.foldlM_cons, List.foldlM_nil]
  cases x.step D o <;> rfl

/-- The calls of a program with one more operation. -/
theorem calls_snoc (T : Transcoder ι ο) {ops : List (Op ι)} {o : Op ι} {st : T.σ} {out : List ο} (h : calls T T.init (callsOf (ops ++ [o])) = .ok (st, out)) :
    ∃ st1 out1 os, calls T T.init (callsOf ops) = .ok (st1, out1) ∧ calls T st1 (callsOf [o]) = .ok (st, os) ∧ out = out1 ++ os := by
  rw [callsOf_append, calls_append] at h
  cases h1 : calls T T.init (callsOf ops) with
  | error e => rw [h1] at h; simp [bind, Except.bind] at h
  | ok x =>
    rw [h1] at h
    simp only [bind, Except.bind] at h
    cases h2 : calls T x.1 (callsOf [o]) with
    | error e => rw [h2] at h; simp at h
    | ok y =>
      rw [h2] at h
      simp only [Except.ok.injEq, Prod.mk.injEq] at h
      exact ⟨x.1, x.2, y.2, rfl, by rw [h2, ← h.1], h.2.symm⟩

theorem calls_unit {T : Transcoder ι ο} {st st' : T.σ} {c : ι} {os : List ο} (h : calls T st [.unit c] = .ok (st', os)) : T.step st c = .ok (st', os) := by
  simp only [calls, bind, Except.bind] at h
  cases h1 : T.step st c with
  | error e => rw [h1] at h; simp at h
  | ok x => rw [h1] at h; simp at h; rw [← h.1, ← h.2]

theorem calls_end {T : Transcoder ι ο} {st st' : T.σ} {os : List ο} (h : calls T st [.endCp] = .ok (st', os)) : T.endCp st = .ok (st', os) := by
  simp only [calls, bind, Except.bind] at h
  cases h1 : T.endCp st with
  | error e => rw [h1] at h; simp at h
  | ok x => rw [h1] at h; simp at h; rw [← h.1, ← h.2]

theorem calls_none {T : Transcoder ι ο} {st st' : T.σ} {os : List ο} (h : calls T st [] = .ok (st', os)) : st' = st ∧ os = [] := by
  simp only [calls, Except.ok.injEq, Prod.mk.injEq] at h
  exact ⟨h.1.symm, h.2.symm⟩

theorem putAll_appender : ∀ (os w : List ο) (p : Unit), putAll (appender ο) w p os = .ok (w ++ os, ()) := by
  intro os
  induction os with
  | nil => intro w p; simp [putAll]
  | cons c os ih =>
    intro w p
    have : (appender ο).put w p c = .ok (w ++ [c], ()) := rfl
    rw [putAll, this]
    simp only [bind, Except.bind]
    rw [ih]
    simp

theorem putAll_pointer : ∀ (os w : List ο) (p : Nat), p ≤ w.length →
    (p + os.length ≤ w.length → putAll (pointer ο) w p os = .ok (over w p os, p + os.length)) ∧ (w.length < p + os.length → putAll (pointer ο) w p os = .error .outOfRange) := by
  intro os
  induction os with
  | nil => intro w p hp; exact ⟨fun _ => by simp [putAll, over], fun h => by simp at h; omega⟩
  | cons c os ih =>
    intro w p hp
    by_cases hlt : p < w.length
    · have e : (pointer ο).put w p c = .ok (w.set p c, p + 1) := if_pos hlt
      obtain ⟨h1, h2⟩ := ih (w.set p c) (p + 1) (by simp; omega)
      rw [putAll, e]
      simp only [bind, Except.bind]
      constructor
      · intro hl
        rw [h1 (by simp at hl ⊢; omega)]
        congr 2
        · unfold over
          have e1 : (w.set p c).take (p + 1) = w.take p ++ [c] := by
            rw [List.take_add_one, List.take_set_of_le (Nat.le_refl p), List.getElem?_set_self hlt]
            rfl
          have e2 : (w.set p c).drop (p + 1 + os.length) = w.drop (p + (c :: os).length) := by
            rw [List.drop_set_of_lt (by omega)]
            congr 1
            simp; omega
          rw [e1, e2]
          simp
        · simp; omega
      · intro hl
        exact h2 (by simp at hl ⊢; omega)
    · have e : (pointer ο).put w p c = .error .outOfRange := if_neg hlt
      rw [putAll, e]
      exact ⟨fun h => by simp at h; omega, fun _ => rfl⟩

theorem get_lt {T : Transcoder ι ο} {x : World T W P} {i : Nat} (h : i < x.its.length) : ∃ p, x.get i = .ok p ∧ x.its[i]? = some p := by
  refine ⟨x.its[i], ?_, List.getElem?_eq_getElem h⟩
  unfold World.get
  rw [List.getElem?_eq_getElem h]

theorem appended (T : Transcoder ι ο) (w : List ο) {ops : List (Op ι)} {n : Nat} (h : Named ops n) : ∀ {st : T.σ} {out : List ο}, calls T T.init (callsOf ops) = .ok (st, out) →
    ∃ x, program T (appender ο) w () ops = .ok x ∧ x.st = st ∧ x.w = w ++ out ∧ x.its.length = n := by
  have step : ∀ (x : World T (List ο) Unit) (p : Unit) {r : M (T.σ × List ο)} {st os}, r = .ok (st, os) → x.call (appender ο) p r = .ok (st, x.w ++ os, ()) := by
    intro x p r st os hr
    unfold World.call
    rw [hr]
    simp only [bind, Except.bind, putAll_appender os x.w p]
  induction h with
  | nil =>
    intro st out h
    obtain ⟨rfl, rfl⟩ := calls_none h
    exact ⟨_, rfl, rfl, by simp, rfl⟩
  | @assign ops n i c _ hi ih =>
    intro st out h
    obtain ⟨st1, out1, os, h1, h2, rfl⟩ := calls_snoc T h
    obtain ⟨x, e1, e2, e3, e4⟩ := ih h1
    obtain ⟨p, e5, _⟩ := get_lt (x := x) (i := i) (by omega)
    have e6 := step x p (r := T.step x.st c) (by rw [e2]; exact calls_unit h2)
    refine ⟨⟨st, x.w ++ os, x.its.set i ()⟩, ?_, rfl, by show x.w ++ os = _; rw [e3, List.append_assoc], by simpa using e4⟩
    rw [program_snoc, e1]
    show (x.get i >>= fun p => x.call (appender ο) p (T.step x.st c) >>= fun y => .ok ⟨y.1, y.2.1, x.its.set i y.2.2⟩ : M (World T (List ο) Unit)) = _
    rw [e5]
    simp only [bind, Except.bind, e6]
  | @post ops n i c _ hi ih =>
    intro st out h
    obtain ⟨st1, out1, os, h1, h2, rfl⟩ := calls_snoc T h
    obtain ⟨x, e1, e2, e3, e4⟩ := ih h1
    obtain ⟨p, e5, _⟩ := get_lt (x := x) (i := i) (by omega)
    have e6 := step x p (r := T.step x.st c) (by rw [e2]; exact calls_unit h2)
    refine ⟨⟨st, x.w ++ os, x.its⟩, ?_, rfl, by show x.w ++ os = _; rw [e3, List.append_assoc], e4⟩
    rw [program_snoc, e1]
    show (x.get i >>= fun p => x.call (appender ο) p (T.step x.st c) >>= fun y => .ok ⟨y.1, y.2.1, x.its⟩ : M (World T (List ο) Unit)) = _
    rw [e5]
    simp only [bind, Except.bind, e6]
  | @endCp ops n i _ hi ih =>
    intro st out h
    obtain ⟨st1, out1, os, h1, h2, rfl⟩ := calls_snoc T h
    obtain ⟨x, e1, e2, e3, e4⟩ := ih h1
    obtain ⟨p, e5, _⟩ := get_lt (x := x) (i := i) (by omega)
    have e6 := step x p (r := T.endCp x.st) (by rw [e2]; exact calls_end h2)
    refine ⟨⟨st, x.w ++ os, x.its.set i ()⟩, ?_, rfl, by show x.w ++ os = _; rw [e3, List.append_assoc], by simpa using e4⟩
    rw [program_snoc, e1]
    show (x.get i >>= fun p => x.call (appender ο) p (T.endCp x.st) >>= fun y => .ok ⟨y.1, y.2.1, x.its.set i y.2.2⟩ : M (World T (List ο) Unit)) = _
    rw [e5]
    simp only [bind, Except.bind, e6]
  | @copy ops n i _ hi ih =>
    intro st out h
    obtain ⟨st1, out1, os, h1, h2, rfl⟩ := calls_snoc T h
    obtain ⟨rfl, rfl⟩ := calls_none h2
    obtain ⟨x, e1, e2, e3, e4⟩ := ih h1
    obtain ⟨p, e5, _⟩ := get_lt (x := x) (i := i) (by omega)
    refine ⟨⟨x.st, x.w, x.its ++ [p]⟩, ?_, e2, by simpa using e3, by simp [e4]⟩
    rw [program_snoc, e1]
    show (x.get i >>= fun p => .ok { x with its := x.its ++ [p] }) = _
    rw [e5]; rfl
  | @set ops n i j _ hi hj ih =>
    intro st out h
    obtain ⟨st1, out1, os, h1, h2, rfl⟩ := calls_snoc T h
    obtain ⟨rfl, rfl⟩ := calls_none h2
    obtain ⟨x, e1, e2, e3, e4⟩ := ih h1
    obtain ⟨p, e5, _⟩ := get_lt (x := x) (i := i) (by omega)
    obtain ⟨q, e6, _⟩ := get_lt (x := x) (i := j) (by omega)
    refine ⟨⟨x.st, x.w, x.its.set i q⟩, ?_, e2, by simpa using e3, by simp [e4]⟩
    rw [program_snoc, e1]
    show (x.get i >>= fun _ => x.get j >>= fun p => .ok { x with its := x.its.set i p }) = _
    rw [e5]
    simp only [bind, Except.bind, e6]

theorem over_over (w : List ο) (p : Nat) (a b : List ο) (h : p + a.length ≤ w.length) : over (over w p a) (p + a.length) b = over w p (a ++ b) := by
  unfold over
  have l1 : (w.take p ++ a).length = p + a.length := by simp; omega
  rw [List.take_append_of_le_length (by rw [l1]; exact Nat.le_refl _), List.take_of_length_le (by rw [l1]; exact Nat.le_refl _)]
  rw [List.drop_append, l1, List.drop_of_length_le (by rw [l1]; omega), show p + a.length + b.length - (p + a.length) = b.length by omega, List.drop_drop, List.length_append]
  simp only [List.nil_append, List.append_assoc]
  rw [Nat.add_assoc]

theorem over_length (w : List ο) (p : Nat) (a : List ο) (h : p + a.length ≤ w.length) : (over w p a).length = w.length := by
  unfold over
  simp; omega

theorem pointed (T : Transcoder ι ο) (w : List ο) (p : Nat) (hp : p ≤ w.length) {ops : List (Op ι)} {bs : List Bool} (h : InTurn ops bs) :
    ∀ {st : T.σ} {out : List ο}, calls T T.init (callsOf ops) = .ok (st, out) →
    (p + out.length ≤ w.length → ∃ x : World T (List ο) Nat, program T (pointer ο) w p ops = .ok x ∧ x.st = st ∧ x.w = over w p out ∧ x.its.length = bs.length ∧
      ∀ i : Nat, bs[i]? = some true → x.its[i]? = some (p + out.length)) ∧
    (w.length < p + out.length → program T (pointer ο) w p ops = .error .outOfRange) := by
  have write : ∀ {ops : List (Op ι)} {bs : List Bool} {i : Nat} {st1 st out1 os} {f : T.σ → M (T.σ × List ο)} {o : Op ι},
      (p + List.length out1 ≤ w.length → ∃ x : World T (List ο) Nat, program T (pointer ο) w p ops = .ok x ∧ x.st = st1 ∧ x.w = over w p out1 ∧ x.its.length = bs.length ∧
        ∀ i : Nat, bs[i]? = some true → x.its[i]? = some (p + out1.length)) ∧
      (w.length < p + out1.length → program T (pointer ο) w p ops = .error .outOfRange) → bs[i]? = some true → f st1 = .ok (st, os) →
      (∀ x : World T (List ο) Nat, x.step (pointer ο) o = x.get i >>= fun p => x.call (pointer ο) p (f x.st) >>= fun y => .ok ⟨y.1, y.2.1, x.its.set i y.2.2⟩) →
      (p + (out1 ++ os).length ≤ w.length → ∃ x : World T (List ο) Nat, program T (pointer ο) w p (ops ++ [o]) = .ok x ∧ x.st = st ∧ x.w = over w p (out1 ++ os) ∧
        x.its.length = ((bs.map fun _ => false).set i true).length ∧
        ∀ j : Nat, ((bs.map fun _ => false).set i true)[j]? = some true → x.its[j]? = some (p + (out1 ++ os).length)) ∧
      (w.length < p + (out1 ++ os).length → program T (pointer ο) w p (ops ++ [o]) = .error .outOfRange) := by
    intro ops bs i st1 st out1 os f o ih hi hf ho
    rw [program_snoc, List.length_append]
    have put : ∀ x : World T (List ο) Nat, x.st = st1 → x.w = over w p out1 → x.its[i]? = some (p + out1.length) → p + out1.length ≤ w.length →
        (p + out1.length + os.length ≤ w.length → x.step (pointer ο) o = .ok ⟨st, over w p (out1 ++ os), x.its.set i (p + out1.length + os.length)⟩) ∧
        (w.length < p + out1.length + os.length → x.step (pointer ο) o = .error .outOfRange) := by
      intro x k1 k2 k3 k4
      have g : x.get i = .ok (p + out1.length) := by unfold World.get; rw [k3]
      have wl : List.length x.w = w.length := by rw [k2]; exact over_length w p out1 k4
      obtain ⟨q1, q2⟩ := putAll_pointer os x.w (p + out1.length) (by rw [wl]; exact k4)
      rw [ho x, g, k1, hf]
      rw [wl] at q1 q2
      constructor
      · intro k5
        have := q1 k5
        simp only [bind, Except.bind, World.call, this]
        rw [k2, over_over w p out1 os k4]
      · intro k5
        have := q2 k5
        simp only [bind, Except.bind, World.call, this]
    constructor
    · intro hl
      obtain ⟨x, e1, e2, e3, e4, e5⟩ := ih.1 (by omega)
      refine ⟨_, by rw [e1]; exact (put x e2 e3 (e5 i hi) (by omega)).1 (by omega), rfl, rfl, by simp [e4], ?_⟩
      intro j hj
      by_cases e : i = j
      · subst e
        have : i < x.its.length := by rw [e4]; exact (List.getElem?_eq_some_iff.1 hi).1
        show (x.its.set i _)[i]? = _
        rw [List.getElem?_set_self this, ← Nat.add_assoc]
      · rw [List.getElem?_set_ne e, List.getElem?_map] at hj
        cases hb : bs[j]? <;> rw [hb] at hj <;> simp at hj
    · intro hl
      by_cases hfit : p + out1.length ≤ w.length
      · obtain ⟨x, e1, e2, e3, e4, e5⟩ := ih.1 hfit
        rw [e1]
        exact (put x e2 e3 (e5 i hi) hfit).2 (by omega)
      · rw [ih.2 (by omega)]
        rfl
  induction h with
  | nil =>
    intro st out h
    obtain ⟨rfl, rfl⟩ := calls_none h
    refine ⟨fun _ => ⟨_, rfl, rfl, by simp [over], rfl, ?_⟩, fun h => by simp at h; omega⟩
    intro i hi
    match i with
    | 0 => rfl
    | i + 1 => simp at hi
  | @assign ops bs i c _ hi ih =>
    intro st out h
    obtain ⟨st1, out1, os, h1, h2, rfl⟩ := calls_snoc T h
    exact write (f := fun s => T.step s c) (ih h1) hi (calls_unit h2) (fun _ => rfl)
  | @endCp ops bs i _ hi ih =>
    intro st out h
    obtain ⟨st1, out1, os, h1, h2, rfl⟩ := calls_snoc T h
    exact write (f := T.endCp) (ih h1) hi (calls_end h2) (fun _ => rfl)
  | @copy ops bs i b _ hi ih =>
    intro st out h
    obtain ⟨st1, out1, os, h1, h2, rfl⟩ := calls_snoc T h
    have e := calls_none h2
    rw [e.2, List.append_nil, program_snoc]
    obtain ⟨k1, k2⟩ := ih h1
    refine ⟨fun hl => ?_, fun hl => by rw [k2 hl]; rfl⟩
    obtain ⟨x, e1, e2, e3, e4, e5⟩ := k1 hl
    obtain ⟨q, g1, g2⟩ := get_lt (x := x) (i := i) (by rw [e4]; exact (List.getElem?_eq_some_iff.1 hi).1)
    refine ⟨⟨x.st, x.w, x.its ++ [q]⟩, ?_, by rw [e.1]; exact e2, e3, by simp [e4], ?_⟩
    · rw [e1]
      show (x.get i >>= fun p => .ok { x with its := x.its ++ [p] }) = _
      rw [g1]; rfl
    · intro j hj
      show (x.its ++ [q])[j]? = _
      rcases Nat.lt_trichotomy j bs.length with hlt | heq | hgt
      · rw [List.getElem?_append_left hlt] at hj
        rw [List.getElem?_append_left (by rw [e4]; exact hlt)]
        exact e5 j hj
      · subst heq
        rw [List.getElem?_concat_length] at hj
        cases hj
        rw [← e4, List.getElem?_concat_length, ← g2]
        exact e5 i hi
      · rw [List.getElem?_eq_none (by simp; omega)] at hj
        simp at hj
  | @set ops bs i k a b _ hi hk ih =>
    intro st out h
    obtain ⟨st1, out1, os, h1, h2, rfl⟩ := calls_snoc T h
    have e := calls_none h2
    rw [e.2, List.append_nil, program_snoc]
    obtain ⟨k1, k2⟩ := ih h1
    refine ⟨fun hl => ?_, fun hl => by rw [k2 hl]; rfl⟩
    obtain ⟨x, e1, e2, e3, e4, e5⟩ := k1 hl
    obtain ⟨q, g1, g2⟩ := get_lt (x := x) (i := k) (by rw [e4]; exact (List.getElem?_eq_some_iff.1 hk).1)
    obtain ⟨q', g1', g2'⟩ := get_lt (x := x) (i := i) (by rw [e4]; exact (List.getElem?_eq_some_iff.1 hi).1)
    refine ⟨⟨x.st, x.w, x.its.set i q⟩, ?_, by rw [e.1]; exact e2, e3, by simp [e4], ?_⟩
    · rw [e1]
      show (x.get i >>= fun _ => x.get k >>= fun p => .ok { x with its := x.its.set i p }) = _
      rw [g1', ]
      simp only [bind, Except.bind, g1]
    · intro j hj
      show (x.its.set i q)[j]? = _
      by_cases he : i = j
      · subst he
        rw [List.getElem?_set_self (List.getElem?_eq_some_iff.1 hi).1] at hj
        cases hj
        rw [List.getElem?_set_self (List.getElem?_eq_some_iff.1 g2').1, ← g2]
        exact e5 k hk
      · rw [List.getElem?_set_ne he] at hj ⊢
        exact e5 j hj


/-- `*it++ = c` for each unit of a text. -/
theorem posted (T : Transcoder ι ο) (w : List ο) (p : Nat) (hp : p ≤ w.length) : ∀ (s : List ι) {st0 st : T.σ} {out : List ο}, calls T st0 (s.map .unit) = .ok (st, out) →
    ∃ os : List (List ο), os.flatten = out ∧ os.length = s.length ∧
      ((∀ o ∈ os, p + o.length ≤ w.length) → (s.map (Op.post 0)).foldlM (World.step (pointer ο)) (⟨st0, w, [p]⟩ : World T (List ο) Nat) =
        .ok ⟨st, os.foldl (fun v o => over v p o) w, [p]⟩) := by
  intro s
  induction s generalizing w with
  | nil =>
    intro st0 st out h
    obtain ⟨rfl, rfl⟩ := calls_none h
    exact ⟨[], rfl, rfl, fun _ => rfl⟩
  | cons c s ih =>
    intro st0 st out h
    rw [List.map_cons, show (Call.unit c :: s.map Call.unit) = [Call.unit c] ++ s.map Call.unit from rfl, calls_append] at h
    cases h1 : calls T st0 [.unit c] with
    | error e => rw [h1] at h; simp [bind, Except.bind] at h
    | ok x =>
      rw [h1] at h
      simp only [bind, Except.bind] at h
      cases h2 : calls T x.1 (s.map .unit) with
      | error e => rw [h2] at h; simp at h
      | ok y =>
        rw [h2] at h
        simp only [Except.ok.injEq, Prod.mk.injEq] at h
        obtain ⟨e1, e2⟩ := h
        by_cases hfit : p + x.2.length ≤ w.length
        · obtain ⟨os, k1, k2, k3⟩ := ih (over w p x.2) (by rw [over_length w p x.2 hfit]; exact hp) h2
          refine ⟨x.2 :: os, by rw [List.flatten_cons, k1, e2], by simp [k2], fun ho => ?_⟩
          rw [List.map_cons, List.foldlM_cons]
          have hs : World.step (pointer ο) (⟨st0, w, [p]⟩ : World T (List ο) Nat) (.post 0 c) = .ok ⟨x.1, over w p x.2, [p]⟩ := by
            show (World.call (pointer ο) ⟨st0, w, [p]⟩ p (T.step st0 c) >>= fun y => .ok ⟨y.1, y.2.1, [p]⟩ : M (World T (List ο) Nat)) = _
            rw [calls_unit h1]
            simp only [World.call, bind, Except.bind, (putAll_pointer x.2 w p hp).1 hfit]
          rw [hs]
          rw [over_length w p x.2 hfit] at k3
          rw [List.foldl_cons, ← e1]
          exact k3 (fun o h => ho o (List.mem_cons_of_mem _ h))
        · obtain ⟨os, k1, k2, k3⟩ := ih w hp h2
          refine ⟨x.2 :: os, by rw [List.flatten_cons, k1, e2], by simp [k2], fun ho => absurd (ho x.2 (List.mem_cons_self ..)) hfit⟩

end Verif.Icu.Out

namespace Verif
open Verif.Unicode Verif.Icu Verif.Icu.Out

/-! ### C81 -/

/-- C81: writing through adaptors of `std::back_inserter` appends what the transcoder makes of all the units in the order in which they are
written, whichever copies of the adaptor are used for it and with whatever form of `++`. -/
theorem C81_appending {ι ο : Type} (T : Transcoder ι ο) (w : List ο) (ops : List (Op ι)) (n : Nat) (h : Named ops n) (st : T.σ) (out : List ο)
    (hc : calls T T.init (callsOf ops) = .ok (st, out)) :
    ∃ x, program T (appender ο) w () ops = .ok x ∧ x.st = st ∧ x.w = w ++ out := by
  obtain ⟨x, h1, h2, h3, _⟩ := appended T w h hc
  exact ⟨x, h1, h2, h3⟩

/-- C81: writing through adaptors of a pointer into an array writes it to the array, from the pointer on, if it fits - and past the end of the array if it does
not - provided each time the adaptor last written through is used, or a copy of it. -/
theorem C81_pointer {ι ο : Type} (T : Transcoder ι ο) (w : List ο) (p : Nat) (hp : p ≤ w.length) (ops : List (Op ι)) (bs : List Bool) (h : InTurn ops bs) (st : T.σ) (out : List ο)
    (hc : calls T T.init (callsOf ops) = .ok (st, out)) :
    (p + out.length ≤ w.length → ∃ x, program T (pointer ο) w p ops = .ok x ∧ x.st = st ∧ x.w = w.take p ++ out ++ w.drop (p + out.length) ∧
      ∀ i : Nat, bs[i]? = some true → x.its[i]? = some (p + out.length)) ∧
    (w.length < p + out.length → program T (pointer ο) w p ops = .error .outOfRange) := by
  obtain ⟨h1, h2⟩ := pointed T w p hp h hc
  refine ⟨fun hl => ?_, h2⟩
  obtain ⟨x, k1, k2, k3, _, k5⟩ := h1 hl
  exact ⟨x, k1, k2, k3, k5⟩

/-- C81: in particular `t.end_cp (std::copy (text.begin (), text.end (), it))` writes what a loop that calls the transcoder does. -/
theorem C81_copy {ι ο : Type} (T : Transcoder ι ο) (s : List ι) (st : T.σ) (out : List ο) (hr : T.run s = .ok (st, out)) (w : List ο) (p : Nat) :
    (∃ x, program T (appender ο) w () (s.map (.assign 0) ++ [.endCp 0]) = .ok x ∧ x.st = st ∧ x.w = w ++ out) ∧
    (p + out.length ≤ w.length → ∃ x, program T (pointer ο) w p (s.map (.assign 0) ++ [.endCp 0]) = .ok x ∧ x.st = st ∧ x.w = w.take p ++ out ++ w.drop (p + out.length) ∧
      x.its = [p + out.length]) := by
  have hc : ∀ (s : List ι) (st0 st : T.σ) (out : List ο), (T.feed st0 s >>= fun x => T.endCp x.1 >>= fun y => .ok (y.1, x.2 ++ y.2)) = .ok (st, out) →
      calls T st0 (callsOf (s.map (Op.assign 0) ++ [Op.endCp 0])) = .ok (st, out) := by
    intro s
    induction s with
    | nil =>
      intro st0 st out h
      simp only [Transcoder.feed, bind, Except.bind] at h
      simp only [List.map_nil, List.nil_append, callsOf, calls, bind, Except.bind]
      cases he : T.endCp st0 with
      | error e => rw [he] at h; simp at h
      | ok y => rw [he] at h; simpa using h
    | cons c s ih =>
      intro st0 st out h
      simp only [Transcoder.feed, bind, Except.bind] at h
      simp only [List.map_cons, List.cons_append, callsOf, calls, bind, Except.bind]
      cases h1 : T.step st0 c with
      | error e => rw [h1] at h; simp at h
      | ok x =>
        rw [h1] at h
        simp only at h ⊢
        cases h2 : T.feed x.1 s with
        | error e => rw [h2] at h; simp at h
        | ok y =>
          rw [h2] at h
          simp only at h
          cases h3 : T.endCp y.1 with
          | error e => rw [h3] at h; simp at h
          | ok z =>
            rw [h3] at h
            simp only [Except.ok.injEq, Prod.mk.injEq] at h
            have := ih x.1 z.1 (y.2 ++ z.2) (by rw [h2]; simp only [bind, Except.bind, h3])
            rw [this]
            simp [h.1, ← h.2]
  have hc := hc s T.init st out (by
    simpa only [Transcoder.run] using hr)
  have named : ∀ s : List ι, Named (s.map (Op.assign 0)) 1 := by
    intro s
    suffices h : ∀ l : List ι, Named (l.reverse.map (Op.assign 0)) 1 by simpa using h s.reverse
    intro l
    induction l with
    | nil => exact .nil
    | cons c l ih => rw [List.reverse_cons, List.map_append]; exact ih.assign (by decide)
  have turn : ∀ s : List ι, InTurn (s.map (Op.assign 0)) [true] := by
    intro s
    suffices h : ∀ l : List ι, InTurn (l.reverse.map (Op.assign 0)) [true] by simpa using h s.reverse
    intro l
    induction l with
    | nil => exact .nil
    | cons c l ih => rw [List.reverse_cons, List.map_append]; exact ih.assign (i := 0) rfl
  refine ⟨C81_appending T w _ 1 ((named s).endCp (by decide)) st out hc, fun hl => ?_⟩
  obtain ⟨x, k1, k2, k3, k4, k5⟩ := (pointed T w p (by omega) ((turn s).endCp (i := 0) rfl) hc).1 hl
  refine ⟨x, k1, k2, k3, ?_⟩
  have l : x.its.length = 1 := k4
  match hx : x.its, l with
  | [q], _ =>
    have := k5 0 rfl
    rw [hx] at this
    simpa using this

/-- C81: the calls succeed, for all twelve transcoders. -/
theorem C81_calls : (∀ h, ∃ r, calls t8_8 t8_8.init h = .ok r) ∧ (∀ h, ∃ r, calls t8_16 t8_16.init h = .ok r) ∧ (∀ h, ∃ r, calls t8_32 t8_32.init h = .ok r) ∧
    (∀ h, ∃ r, calls t16_8 t16_8.init h = .ok r) ∧ (∀ h, ∃ r, calls t16_16 t16_16.init h = .ok r) ∧ (∀ h, ∃ r, calls t16_32 t16_32.init h = .ok r) ∧
    (∀ h, ∃ r, calls t32_8 t32_8.init h = .ok r) ∧ (∀ h, ∃ r, calls t32_16 t32_16.init h = .ok r) ∧ (∀ h, ∃ r, calls t32_32 t32_32.init h = .ok r) ∧
    (∀ h, ∃ r, calls tx_8 tx_8.init h = .ok r) ∧ (∀ h, ∃ r, calls tx_16 tx_16.init h = .ok r) ∧ (∀ h, ∃ r, calls tx_32 tx_32.init h = .ok r) := by
  have f : ∀ {ι ο : Type} {T : Transcoder ι ο} {enc : Nat → List ι} {out : Nat → List ο}, FlagIsHonest T enc out → ∀ h, ∃ r, calls T T.init h = .ok r := by
    intro ι ο T enc out H h
    obtain ⟨st, o, h1, _⟩ := H h
    exact ⟨_, h1⟩
  exact ⟨f C57_utf8_utf8, f C57_utf8_utf16, f C57_utf8_utf32, f C57_utf16_utf8, f C57_utf16_utf16, f C57_utf16_utf32, f C57_utf32_utf8, f C57_utf32_utf16, f C57_utf32_utf32,
    fun h => by obtain ⟨_, _, _, _, k, _⟩ := C69_settles.1 h []; exact ⟨_, k⟩,
    fun h => by obtain ⟨_, _, _, _, k, _⟩ := C69_settles.2.1 h []; exact ⟨_, k⟩,
    fun h => by obtain ⟨_, _, _, _, k, _⟩ := C69_settles.2.2 h []; exact ⟨_, k⟩⟩

/-- C81: but with `*it++ = c`, which output iterators must allow in place of `*it = c; ++it`, an adaptor of a pointer stays where it is: what the
transcoder writes for each unit is written over what it wrote for those before. -/
theorem C81_post {ι ο : Type} (T : Transcoder ι ο) (w : List ο) (p : Nat) (hp : p ≤ w.length) (s : List ι) (st : T.σ) (out : List ο)
    (hc : calls T T.init (s.map .unit) = .ok (st, out)) :
    ∃ os : List (List ο), os.flatten = out ∧ os.length = s.length ∧
      ((∀ o ∈ os, p + o.length ≤ w.length) → program T (pointer ο) w p (s.map (.post 0)) =
        .ok ⟨st, os.foldl (fun v o => v.take p ++ o ++ v.drop (p + o.length)) w, [p]⟩) :=
  posted T w p hp s hc

/-- C81: so that of the text "AB" only "B" is left. -/
theorem C81_post_counterexample :
    (program t8_32 (pointer Nat) [0, 0, 0] 0 [.post 0 0x41, .post 0 0x42, .endCp 0]).map (fun x => (x.w, x.its)) = .ok ([0x42, 0, 0], [0]) ∧
    (program t8_32 (pointer Nat) [0, 0, 0] 0 [.assign 0 0x41, .assign 0 0x42, .endCp 0]).map (fun x => (x.w, x.its)) = .ok ([0x41, 0x42, 0], [2]) ∧
    (program t8_32 (appender Nat) [] () [.post 0 0x41, .post 0 0x42, .endCp 0]).map (fun x => x.w) = .ok [0x41, 0x42] := by
  decide +kernel

/-- A copy of the adaptor is used after the original: the second unit of a pair goes through it. -/
example : InTurn [.assign 0 (0xD83D : UInt16), .copy 0, .assign 1 0xDE00] [false, true] ∧
    (program t16_8 (pointer UInt8) [0, 0, 0, 0, 0] 0 [.assign 0 0xD83D, .copy 0, .assign 1 0xDE00]).map (fun x => (x.w, x.its)) = .ok ([0xF0, 0x9F, 0x98, 0x80, 0], [0, 4]) :=
  ⟨((InTurn.nil.assign (i := 0) rfl).copy (i := 0) rfl).assign (i := 1) rfl, by decide +kernel⟩

end Verif
