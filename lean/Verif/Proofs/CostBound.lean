import Verif.Proofs.Cost

/-!
# A static bound on the steps of a grammar

`Gr.bounds` computes, for a grammar in which whatever is repeated consumes something and takes time in proportion to it,
coefficients of a linear bound; `Gr.bounds_sound` proves them right.
-/

namespace Verif.Cost
open Rule (ofSV failed)

set_option linter.unusedSimpArgs false

variable {α β γ : Type}

/-- Coefficients.  A successful match consumes between `lo` and `hi` characters and leaves at most `qa * k + qb` accept
functions, having consumed `k`.  With `n` characters of text it takes at most `sa * k + sn * n + sb` steps; a failed one (or
one that faults) at most `fn * n + fb`. -/
structure Bd where
  lo : Nat
  hi : Option Nat
  qa : Nat
  qb : Nat
  sa : Nat
  sn : Nat
  sb : Nat
  fn : Nat
  fb : Nat
  deriving DecidableEq, Repr

def Bd.Upto (b : Bd) (k : Nat) : Prop := ∀ m, b.hi = some m → k ≤ m

/-- The bounds hold of a match function. -/
def Bd.Holds (b : Bd) (cm : CMatcher α) : Prop := ∀ t : SV,
  (∀ h acc, (cm (ofSV t)).1 = .ok (some (h, acc)) →
    h.size ≤ t.size ∧ b.lo ≤ h.size ∧ b.Upto h.size ∧ acc.length ≤ b.qa * h.size + b.qb ∧
    (cm (ofSV t)).2 ≤ b.sa * h.size + b.sn * t.size + b.sb) ∧
  ((∀ h acc, (cm (ofSV t)).1 ≠ .ok (some (h, acc))) → (cm (ofSV t)).2 ≤ b.fn * t.size + b.fb)

/-- The bounds hold of the outcome of some calls on a rule with `n` characters left and `q` accept functions gathered. -/
def Bd.Out (b : Bd) (n q : Nat) (x : CM (Rule α)) : Prop :=
  (∀ t' acc, x.1 = .ok ⟨some t', acc⟩ → ∃ k, n = k + t'.size ∧ b.lo ≤ k ∧ b.Upto k ∧
    acc.length ≤ q + b.qa * k + b.qb ∧ x.2 ≤ q + b.sa * k + b.sn * n + b.sb) ∧
  (∀ acc, x.1 = .ok ⟨none, acc⟩ → acc = []) ∧
  ((∀ t' acc, x.1 ≠ .ok ⟨some t', acc⟩) → x.2 ≤ q + b.fn * n + b.fb)

/-- The bounds hold of one call. -/
def Bd.Step (b : Bd) (f : Rule α → CM (Rule α)) : Prop :=
  (∀ t acc, b.Out t.size acc.length (f ⟨some t, acc⟩)) ∧ (f ⟨none, []⟩).1 = .ok ⟨none, []⟩ ∧ (f ⟨none, []⟩).2 ≤ 1

theorem andThen_ok {x : CM β} {f : β → CM γ} {b : β} (h : x.1 = .ok b) : andThen x f = ((f b).1, x.2 + (f b).2) := by
  simp [andThen, h]

theorem andThen_error {x : CM β} {f : β → CM γ} {e : Fault} (h : x.1 = .error e) : andThen x f = (.error e, x.2) := by
  simp [andThen, h]

/-- The bounds of one call after others. -/
def Bd.after (c g : Bd) : Bd where
  lo := c.lo + g.lo
  hi := match c.hi, g.hi with
    | some a, some b => some (a + b)
    | _, _ => none
  qa := max c.qa g.qa
  qb := c.qb + g.qb
  sa := max (c.sa + c.qa) g.sa
  sn := c.sn + g.sn
  sb := c.sb + c.qb + g.sb
  fn := max c.fn (c.sn + g.fn + match c.hi with
    | some _ => 0
    | none => c.sa + c.qa)
  fb := max (c.fb + 1) (c.sb + c.qb + g.fb + match c.hi with
    | some h => (c.sa + c.qa) * h
    | none => 0)

theorem Bd.out_after {c g : Bd} {n : Nat} {x : CM (Rule α)} {f : Rule α → CM (Rule α)} (hx : c.Out n 0 x) (hf : g.Step f) :
    (c.after g).Out n 0 (andThen x f) := by
  obtain ⟨hx1, hx2, hx3⟩ := hx
  obtain ⟨hf1, hf2, hf3⟩ := hf
  have dead : x.2 ≤ c.fn * n + c.fb → x.2 + 1 ≤ 0 + (c.after g).fn * n + (c.after g).fb := by
    intro h
    have h1 : c.fn * n ≤ (c.after g).fn * n := Nat.mul_le_mul_right _ (Nat.le_max_left _ _)
    have h2 : c.fb + 1 ≤ (c.after g).fb := Nat.le_max_left _ _
    omega
  cases hr : x.1 with
  | error e =>
    rw [andThen_error hr]
    have := hx3 (by intro t' acc; simp [hr])
    refine ⟨by simp, by simp, fun _ => ?_⟩
    have := dead (by omega)
    show x.2 ≤ _
    omega
  | ok r =>
    obtain ⟨tail, acc⟩ := r
    rw [andThen_ok hr]
    cases tail with
    | none =>
      have ha := hx2 acc hr
      subst ha
      have := hx3 (by intro t' acc; simp [hr])
      rw [hf2]
      refine ⟨by simp, by simp, fun _ => ?_⟩
      have := dead (by omega)
      show x.2 + _ ≤ _
      omega
    | some t =>
      obtain ⟨k, hn, hlo, hup, hq, hs⟩ := hx1 t acc hr
      obtain ⟨hg1, hg2, hg3⟩ := hf1 t acc
      have hm : t.size ≤ n := by omega
      have hsn : g.sn * t.size ≤ g.sn * n := Nat.mul_le_mul_left _ hm
      have hfn : g.fn * t.size ≤ g.fn * n := Nat.mul_le_mul_left _ hm
      refine ⟨?_, hg2, ?_⟩
      · intro t' acc' hr'
        obtain ⟨k', hn', hlo', hup', hq', hs'⟩ := hg1 t' acc' hr'
        refine ⟨k + k', by omega, Nat.add_le_add hlo hlo', ?_, ?_, ?_⟩
        · intro m hm
          simp only [Bd.after] at hm
          cases hch : c.hi with
          | none => simp [hch] at hm
          | some a =>
            cases hgh : g.hi with
            | none => simp [hch, hgh] at hm
            | some b =>
              simp only [hch, hgh, Option.some.injEq] at hm
              have := hup a hch
              have := hup' b hgh
              omega
        · have h1 : c.qa * k ≤ (c.after g).qa * k := Nat.mul_le_mul_right _ (Nat.le_max_left _ _)
          have h2 : g.qa * k' ≤ (c.after g).qa * k' := Nat.mul_le_mul_right _ (Nat.le_max_right _ _)
          rw [Nat.mul_add]
          simp only [Bd.after] at h1 h2 ⊢
          omega
        · have h1 : (c.sa + c.qa) * k ≤ (c.after g).sa * k := Nat.mul_le_mul_right _ (Nat.le_max_left _ _)
          have h2 : g.sa * k' ≤ (c.after g).sa * k' := Nat.mul_le_mul_right _ (Nat.le_max_right _ _)
          rw [Nat.add_mul] at h1
          have h3 : (c.after g).sn * n = c.sn * n + g.sn * n := Nat.add_mul _ _ _
          have h4 : (c.after g).sb = c.sb + c.qb + g.sb := rfl
          rw [Nat.mul_add]
          show x.2 + _ ≤ _
          omega
      · intro hno
        have hg := hg3 hno
        have h1 : (c.sn + g.fn + match c.hi with
            | some _ => 0
            | none => c.sa + c.qa) * n ≤ (c.after g).fn * n := Nat.mul_le_mul_right _ (Nat.le_max_right _ _)
        have h2 : c.sb + c.qb + g.fb + (match c.hi with
            | some h => (c.sa + c.qa) * h
            | none => 0) ≤ (c.after g).fb := Nat.le_max_right _ _
        have hA : (c.sa + c.qa) * k = c.sa * k + c.qa * k := Nat.add_mul _ _ _
        show x.2 + _ ≤ _
        cases hch : c.hi with
        | none =>
          simp only [hch] at h1 h2
          have h3 : (c.sa + c.qa) * k ≤ (c.sa + c.qa) * n := Nat.mul_le_mul_left _ (by omega)
          have h4 : (c.sn + g.fn + (c.sa + c.qa)) * n = c.sn * n + g.fn * n + (c.sa + c.qa) * n := by
            rw [Nat.add_mul, Nat.add_mul]
          omega
        | some a =>
          simp only [hch] at h1 h2
          have h3 : (c.sa + c.qa) * k ≤ (c.sa + c.qa) * a := Nat.mul_le_mul_left _ (hup a hch)
          have h4 : (c.sn + g.fn + 0) * n = c.sn * n + g.fn * n := by rw [Nat.add_zero, Nat.add_mul]
          omega

/-! ### The calls -/

/-- `concat` -/
def Bd.concat (g : Bd) (accept : Nat) : Bd :=
  { g with qb := g.qb + accept, sa := g.sa + g.qa, sb := g.sb + g.qb + 3 + 2 * accept, fb := g.fb + 2 }

/-- One accept function, or none. -/
def number (a : Option α) : Nat := match a with
  | some _ => 1
  | none => 0

theorem joinMatched_ok {t h : SV} {acc acc' : Acceptors α} (hh : h.size ≤ t.size) :
    ∃ t' : SV, Rule.joinMatched ⟨some t, acc⟩ (h, acc') = .ok ⟨some t', acc ++ acc'⟩ ∧ t.size = h.size + t'.size := by
  refine ⟨⟨t.ptr + h.size, t.chars.drop h.size⟩, ?_, ?_⟩
  · simp only [Rule.joinMatched, SV.substrFrom, hh, if_true]; rfl
  · simp only [SV.size, List.length_drop] at *; omega

theorem Bd.step_concat {g : Bd} {cm : CMatcher α} (hg : g.Holds cm) (a : Option α) : (g.concat (number a)).Step (concatImpl cm a false) := by
  refine ⟨?_, by simp [concatImpl], by simp [concatImpl]⟩
  intro t acc
  obtain ⟨h1, h2⟩ := hg t
  cases hr : (cm (ofSV t)).1 with
  | error e =>
    have := h2 (by simp [hr])
    have e : concatImpl cm a false ⟨some t, acc⟩ = tick 1 (.error e, (tick 1 (cm (ofSV t))).2) := by
      simp only [concatImpl]; rw [andThen_error (by rw [tick_fst, hr])]
    rw [e]
    refine ⟨by simp, by simp, fun _ => ?_⟩
    simp only [tick_snd, Bd.concat, number]; omega
  | ok o =>
    cases o with
    | none =>
      have := h2 (by simp [hr])
      have e : concatImpl cm a false ⟨some t, acc⟩ = tick 1 (.ok failed, (tick 1 (cm (ofSV t))).2 + 0) := by
        simp only [concatImpl]; rw [andThen_ok (by rw [tick_fst, hr])]; rfl
      rw [e]
      refine ⟨by simp [failed], by simp [failed], fun _ => ?_⟩
      simp only [tick_snd, Bd.concat, number]; omega
    | some y =>
      obtain ⟨h, acc'⟩ := y
      obtain ⟨k1, k2, k3, k4, k5⟩ := h1 h acc' hr
      have hA : (g.sa + g.qa) * h.size = g.sa * h.size + g.qa * h.size := Nat.add_mul _ _ _
      cases a with
      | none =>
        obtain ⟨t', hj, ht⟩ := joinMatched_ok (acc := acc) (acc' := acc') k1
        have e : concatImpl cm none false ⟨some t, acc⟩ =
            tick 1 (.ok ⟨some t', acc ++ acc'⟩, (tick 1 (cm (ofSV t))).2 + (1 + acc.length + acc'.length + 0)) := by
          simp only [concatImpl]; rw [andThen_ok (by rw [tick_fst, hr])]; simp [joinMatched, hj]
        rw [e]
        refine ⟨?_, by simp, fun h => absurd rfl (h t' (acc ++ acc'))⟩
        intro t'' acc'' he
        simp only [tick_fst, Except.ok.injEq, Rule.mk.injEq, Option.some.injEq] at he
        obtain ⟨rfl, rfl⟩ := he
        refine ⟨h.size, ht, k2, k3, ?_, ?_⟩
        · simp only [List.length_append, Bd.concat, number]; omega
        · simp only [tick_snd, Bd.concat, number]; omega
      | some x =>
        obtain ⟨t', hj, ht⟩ := joinMatched_ok (acc := acc) (acc' := acc' ++ [(x, h)]) k1
        have e : concatImpl cm (some x) false ⟨some t, acc⟩ =
            tick 1 (.ok ⟨some t', acc ++ (acc' ++ [(x, h)])⟩, (tick 1 (cm (ofSV t))).2 + (1 + (1 + acc.length + (acc'.length + 1)))) := by
          simp only [concatImpl]; rw [andThen_ok (by rw [tick_fst, hr])]; simp [joinMatched, hj]
        rw [e]
        refine ⟨?_, by simp, fun h => absurd rfl (h t' _)⟩
        intro t'' acc'' he
        simp only [tick_fst, Except.ok.injEq, Rule.mk.injEq, Option.some.injEq] at he
        obtain ⟨rfl, rfl⟩ := he
        refine ⟨h.size, ht, k2, k3, ?_, ?_⟩
        · simp only [List.length_append, Bd.concat, number, List.length_cons, List.length_nil]; omega
        · simp only [tick_snd, Bd.concat, number]; omega

/-- `optional` -/
def Bd.optional (g : Bd) : Bd :=
  { g with lo := 0, sa := g.sa + 2 * g.qa, sn := g.sn + g.fn, sb := g.sb + 2 * g.qb + g.fb + 5, fb := g.fb + 3 }

theorem Bd.step_optional {g : Bd} {cm : CMatcher α} (hg : g.Holds cm) : g.optional.Step (optionalA cm none) := by
  refine ⟨?_, by simp [optionalA], by simp [optionalA]⟩
  intro t acc
  obtain ⟨h1, h2⟩ := hg t
  cases hr : (cm (ofSV t)).1 with
  | error e =>
    have := h2 (by simp [hr])
    have e1 : concatImpl cm none true (ofSV t) = tick 1 (.error e, (tick 1 (cm (ofSV t))).2) := by
      simp only [concatImpl, ofSV]; rw [andThen_error (by rw [tick_fst]; exact hr)]
    have e2 : optionalA cm none ⟨some t, acc⟩ = tick 1 (.error e, 1 + (1 + (cm (ofSV t)).2)) := by
      simp only [optionalA]; rw [andThen_error (e := e) (by rw [e1]; rfl), e1]; rfl
    rw [e2]
    refine ⟨by simp, by simp, fun _ => ?_⟩
    simp only [tick_snd, Bd.optional]; omega
  | ok o =>
    cases o with
    | none =>
      have := h2 (by simp [hr])
      have e1 : concatImpl cm none true (ofSV t) = tick 1 (.ok (ofSV t), (tick 1 (cm (ofSV t))).2 + 0) := by
        simp only [concatImpl, ofSV]; rw [andThen_ok (b := none) (by rw [tick_fst]; exact hr)]; rfl
      have e2 : optionalA cm none ⟨some t, acc⟩ = tick 1 (.ok ⟨some t, acc⟩, 1 + (1 + (cm (ofSV t)).2) + (1 + acc.length)) := by
        simp only [optionalA]; rw [andThen_ok (b := ofSV t) (by rw [e1]; rfl), e1]
        simp [joinRule, ofSV, Rule.joinRule, tick, ret]
      rw [e2]
      refine ⟨?_, by simp, fun h => absurd rfl (h t acc)⟩
      intro t'' acc'' he
      simp only [tick_fst, Except.ok.injEq, Rule.mk.injEq, Option.some.injEq] at he
      obtain ⟨rfl, rfl⟩ := he
      refine ⟨0, by omega, Nat.le_refl _, fun m _ => Nat.zero_le m, by omega, ?_⟩
      have : (g.sn + g.fn) * t.size = g.sn * t.size + g.fn * t.size := Nat.add_mul _ _ _
      simp only [tick_snd, Bd.optional, Nat.mul_zero]; omega
    | some y =>
      obtain ⟨h, acc'⟩ := y
      obtain ⟨k1, k2, k3, k4, k5⟩ := h1 h acc' hr
      obtain ⟨t', hj, ht⟩ := joinMatched_ok (acc := []) (acc' := acc') k1
      have e1 : concatImpl cm none true (ofSV t) = tick 1 (.ok ⟨some t', acc'⟩, (tick 1 (cm (ofSV t))).2 + (1 + acc'.length)) := by
        simp only [concatImpl, ofSV]; rw [andThen_ok (b := some (h, acc')) (by rw [tick_fst]; exact hr)]
        simp only [joinMatched, hj]; simp [tick, ret, ofSV]
      have e2 : optionalA cm none ⟨some t, acc⟩ = tick 1 (.ok ⟨some t', acc ++ acc'⟩,
          1 + (1 + (cm (ofSV t)).2 + (1 + acc'.length)) + (1 + acc.length + acc'.length)) := by
        simp only [optionalA]; rw [andThen_ok (b := ⟨some t', acc'⟩) (by rw [e1]; rfl), e1]
        simp [joinRule, ofSV, Rule.joinRule, tick, ret]
      rw [e2]
      refine ⟨?_, by simp, fun h => absurd rfl (h t' _)⟩
      intro t'' acc'' he
      simp only [tick_fst, Except.ok.injEq, Rule.mk.injEq, Option.some.injEq] at he
      obtain ⟨rfl, rfl⟩ := he
      refine ⟨h.size, ht, Nat.zero_le _, k3, ?_, ?_⟩
      · simp only [List.length_append, Bd.optional]; omega
      · have h1 : (g.sn + g.fn) * t.size = g.sn * t.size + g.fn * t.size := Nat.add_mul _ _ _
        have h2 : (g.sa + 2 * g.qa) * h.size = g.sa * h.size + 2 * (g.qa * h.size) := by rw [Nat.add_mul, Nat.mul_assoc]
        simp only [tick_snd, Bd.optional]; omega

/-- `alternative` without arguments -/
def Bd.none : Bd := { lo := 1, hi := some 0, qa := 0, qb := 0, sa := 0, sn := 0, sb := 0, fn := 0, fb := 1 }

/-- `alternative` -/
def Bd.orElse (g rest : Bd) : Bd where
  lo := min g.lo rest.lo
  hi := match g.hi, rest.hi with
    | some a, some b => some (max a b)
    | _, _ => Option.none
  qa := max g.qa rest.qa
  qb := max g.qb rest.qb
  sa := max (g.sa + g.qa) rest.sa
  sn := max g.sn (g.fn + rest.sn)
  sb := max (g.sb + g.qb + 3) (2 + g.fb + rest.sb)
  fn := g.fn + rest.fn
  fb := 2 + g.fb + rest.fb

theorem Bd.step_none : Bd.none.Step (alternative ([] : List (CMatcher α))) := by
  refine ⟨?_, rfl, by simp [alternative]⟩
  intro t acc
  refine ⟨?_, ?_, fun _ => ?_⟩
  · intro t' acc' h; simp [alternative, failed] at h
  · intro acc' h; simp [alternative, failed] at h; exact h
  · simp [alternative, Bd.none]

theorem Bd.step_orElse {g rest : Bd} {cm : CMatcher α} {cms : List (CMatcher α)} (hg : g.Holds cm)
    (hr : rest.Step (alternative cms)) : (g.orElse rest).Step (alternative (cm :: cms)) := by
  refine ⟨?_, by simp [alternative], by simp [alternative]⟩
  intro t acc
  obtain ⟨h1, h2⟩ := hg t
  obtain ⟨r1, r2, r3⟩ := hr.1 t acc
  have hF : (g.fn + rest.fn) * t.size = g.fn * t.size + rest.fn * t.size := Nat.add_mul _ _ _
  cases hr : (cm (ofSV t)).1 with
  | error e =>
    have := h2 (by simp [hr])
    have e : alternative (cm :: cms) ⟨some t, acc⟩ = tick 1 (.error e, (tick 1 (cm (ofSV t))).2) := by
      rw [alternative]; simp only []; rw [andThen_error (by rw [tick_fst, hr])]
    rw [e]
    refine ⟨by simp, by simp, fun _ => ?_⟩
    simp only [tick_snd, Bd.orElse]; omega
  | ok o =>
    cases o with
    | none =>
      have := h2 (by simp [hr])
      have e : alternative (cm :: cms) ⟨some t, acc⟩ =
          tick 1 ((alternative cms ⟨some t, acc⟩).1, (tick 1 (cm (ofSV t))).2 + (alternative cms ⟨some t, acc⟩).2) := by
        rw [alternative]; simp only []; rw [andThen_ok (by rw [tick_fst, hr])]
      rw [e]
      refine ⟨?_, r2, ?_⟩
      · intro t' acc' h
        obtain ⟨k, hk, hlo, hup, hq, hs⟩ := r1 t' acc' h
        refine ⟨k, hk, Nat.le_trans (Nat.min_le_right _ _) hlo, ?_, ?_, ?_⟩
        · intro m hm
          simp only [Bd.orElse] at hm
          cases hch : g.hi with
          | none => simp [hch] at hm
          | some a =>
            cases hgh : rest.hi with
            | none => simp [hch, hgh] at hm
            | some b =>
              simp only [hch, hgh, Option.some.injEq] at hm
              have := hup b hgh
              omega
        · have a1 : rest.qa * k ≤ (g.orElse rest).qa * k := Nat.mul_le_mul_right _ (Nat.le_max_right _ _)
          have a2 : rest.qb ≤ (g.orElse rest).qb := Nat.le_max_right _ _
          omega
        · have a1 : rest.sa * k ≤ (g.orElse rest).sa * k := Nat.mul_le_mul_right _ (Nat.le_max_right _ _)
          have a2 : (g.fn + rest.sn) * t.size ≤ (g.orElse rest).sn * t.size := Nat.mul_le_mul_right _ (Nat.le_max_right _ _)
          rw [Nat.add_mul] at a2
          have a3 : 2 + g.fb + rest.sb ≤ (g.orElse rest).sb := Nat.le_max_right _ _
          simp only [tick_snd]
          omega
      · intro hno
        have := r3 hno
        simp only [tick_snd, Bd.orElse]; omega
    | some y =>
      obtain ⟨h, acc'⟩ := y
      obtain ⟨k1, k2, k3, k4, k5⟩ := h1 h acc' hr
      obtain ⟨t', hj, ht⟩ := joinMatched_ok (acc := acc) (acc' := acc') k1
      have e : alternative (cm :: cms) ⟨some t, acc⟩ =
          tick 1 (.ok ⟨some t', acc ++ acc'⟩, (tick 1 (cm (ofSV t))).2 + (1 + acc.length + acc'.length + 0)) := by
        rw [alternative]; simp only []; rw [andThen_ok (by rw [tick_fst, hr])]; simp [joinMatched, hj]
      rw [e]
      refine ⟨?_, by simp, fun h => absurd rfl (h t' (acc ++ acc'))⟩
      intro t'' acc'' he
      simp only [tick_fst, Except.ok.injEq, Rule.mk.injEq, Option.some.injEq] at he
      obtain ⟨rfl, rfl⟩ := he
      refine ⟨h.size, ht, Nat.le_trans (Nat.min_le_left _ _) k2, ?_, ?_, ?_⟩
      · intro m hm
        simp only [Bd.orElse] at hm
        cases hch : g.hi with
        | none => simp [hch] at hm
        | some a =>
          cases hgh : rest.hi with
          | none => simp [hch, hgh] at hm
          | some b =>
            simp only [hch, hgh, Option.some.injEq] at hm
            have := k3 a hch
            omega
      · have a1 : g.qa * h.size ≤ (g.orElse rest).qa * h.size := Nat.mul_le_mul_right _ (Nat.le_max_left _ _)
        have a2 : g.qb ≤ (g.orElse rest).qb := Nat.le_max_left _ _
        rw [List.length_append]
        omega
      · have a1 : (g.sa + g.qa) * h.size ≤ (g.orElse rest).sa * h.size := Nat.mul_le_mul_right _ (Nat.le_max_left _ _)
        rw [Nat.add_mul] at a1
        have a2 : g.sn * t.size ≤ (g.orElse rest).sn * t.size := Nat.mul_le_mul_right _ (Nat.le_max_left _ _)
        have a3 : g.sb + g.qb + 3 ≤ (g.orElse rest).sb := Nat.le_max_left _ _
        simp only [tick_snd]
        omega

/-! ### `star` -/

/-- The steps of one turn of the loop per character consumed. -/
def Bd.turn (g : Bd) : Nat := g.sa + g.sb + 1 + g.qa + g.qb

/-- The steps of a match beyond the upper bound, per character and at least. -/
def Bd.over (g : Bd) (max : Nat) : Nat × Nat :=
  if max = uintMax then (0, 0) else
    match g.hi with
    | some h => (0, g.sa * h + g.sb)
    | Option.none => (g.sa, g.sb)

/-- The longest text a repetition can match. -/
def Bd.reps (g : Bd) (max : Nat) : Option Nat :=
  if max < uintMax then
    match g.hi with
    | some h => some (max * h)
    | Option.none => Option.none
  else Option.none

/-- `star` -/
def Bd.star (g : Bd) (max : Nat) : Bd where
  lo := 0
  hi := g.reps max
  qa := g.qa + g.qb
  qb := 0
  sa := g.turn
  sn := g.fn + (g.over max).1
  sb := 2 + g.fb + (g.over max).2
  fn := g.fn + (g.over max).1 + (match g.reps max with
    | some _ => 0
    | Option.none => g.turn)
  fb := 2 + g.fb + (g.over max).2 + (match g.reps max with
    | some h => g.turn * h
    | Option.none => 0)

theorem Bd.starLoop_bound {g : Bd} {cm : CMatcher α} (hg : g.Holds cm) (hlo : 1 ≤ g.lo) (hsn : g.sn = 0) (max : Nat) (hmax : max ≤ uintMax) :
    ∀ fuel count (str : SV) length acc, (max < uintMax → count ≤ max) → ∃ k, k ≤ str.size ∧
      (∀ h, g.hi = some h → max < uintMax → k + count * h ≤ max * h) ∧
      (starLoop cm max fuel count str length acc).2 ≤ g.turn * k + (g.fn + (g.over max).1) * str.size + (1 + g.fb + (g.over max).2) ∧
      (∀ c l a, (starLoop cm max fuel count str length acc).1 = .ok (c, l, a) →
        l = length + k ∧ a.length ≤ acc.length + (g.qa + g.qb) * k) := by
  intro fuel
  induction fuel with
  | zero =>
    intro count str length acc hc
    exact ⟨0, Nat.zero_le _, fun h _ hm => by have := Nat.mul_le_mul_right h (hc hm); omega, by simp [starLoop], by simp [starLoop]⟩
  | succ fuel ih =>
    intro count str length acc hc
    obtain ⟨h1, h2⟩ := hg str
    have hF : (g.fn + (g.over max).1) * str.size = g.fn * str.size + (g.over max).1 * str.size := Nat.add_mul _ _ _
    have hz : ∀ h, g.hi = some h → max < uintMax → 0 + count * h ≤ max * h := fun h _ hm => by
      have := Nat.mul_le_mul_right h (hc hm); omega
    cases hr : (cm (ofSV str)).1 with
    | error e =>
      have := h2 (by simp [hr])
      have e : starLoop cm max (fuel + 1) count str length acc = (.error e, (tick 1 (cm (ofSV str))).2) := by
        rw [starLoop]; rw [andThen_error (by rw [tick_fst, hr])]
      rw [e]
      exact ⟨0, Nat.zero_le _, hz, by simp only [tick_snd]; omega, by simp⟩
    | ok o =>
      cases o with
      | none =>
        have := h2 (by simp [hr])
        have e : starLoop cm max (fuel + 1) count str length acc = (.ok (count, length, acc), (tick 1 (cm (ofSV str))).2 + 0) := by
          rw [starLoop]; rw [andThen_ok (by rw [tick_fst, hr])]; rfl
        rw [e]
        refine ⟨0, Nat.zero_le _, hz, by simp only [tick_snd]; omega, ?_⟩
        intro c l a he
        simp only [Except.ok.injEq, Prod.mk.injEq] at he
        obtain ⟨-, rfl, rfl⟩ := he
        omega
      | some y =>
        obtain ⟨h, a⟩ := y
        obtain ⟨k1, k2, k3, k4, k5⟩ := h1 h a hr
        rw [hsn, Nat.zero_mul] at k5
        by_cases hover : (count + 1) % uintMod > max
        · have e : starLoop cm max (fuel + 1) count str length acc =
              (.ok ((count + 1) % uintMod, length, acc), (tick 1 (cm (ofSV str))).2 + 0) := by
            rw [starLoop]; rw [andThen_ok (by rw [tick_fst, hr])]; simp only [hover, if_true]; rfl
          rw [e]
          have hne : max ≠ uintMax := by
            intro hm; subst hm
            have : (count + 1) % uintMod < uintMod := Nat.mod_lt _ (by decide)
            have : uintMod = uintMax + 1 := rfl
            omega
          have hov : g.sa * h.size + g.sb ≤ (g.over max).1 * str.size + (g.over max).2 := by
            simp only [Bd.over, hne, if_false]
            cases hh : g.hi with
            | none =>
              have := Nat.mul_le_mul_left g.sa k1
              simp only []; omega
            | some m =>
              have := Nat.mul_le_mul_left g.sa (k3 m hh)
              simp only []; omega
          refine ⟨0, Nat.zero_le _, hz, by simp only [tick_snd]; omega, ?_⟩
          intro c l a' he
          simp only [Except.ok.injEq, Prod.mk.injEq] at he
          obtain ⟨-, rfl, rfl⟩ := he
          omega
        · have hsz : (⟨str.ptr + h.size, str.chars.drop h.size⟩ : SV).size + h.size = str.size := by
            simp only [SV.size, List.length_drop] at *; omega
          have hrm : str.removePrefix h.size = .ok ⟨str.ptr + h.size, str.chars.drop h.size⟩ := by
            simp only [SV.removePrefix, SV.substrFrom, k1, if_true]
          generalize hstr' : (⟨str.ptr + h.size, str.chars.drop h.size⟩ : SV) = str' at hsz hrm
          have hc' : max < uintMax → (count + 1) % uintMod ≤ max ∧ (count + 1) % uintMod = count + 1 := by
            intro hm
            have := hc hm
            have : uintMod = uintMax + 1 := rfl
            exact ⟨by omega, Nat.mod_eq_of_lt (by omega)⟩
          obtain ⟨k, i1, i2, i3, i4⟩ := ih ((count + 1) % uintMod) str' (length + h.size) (acc ++ a) (fun hm => (hc' hm).1)
          have e : starLoop cm max (fuel + 1) count str length acc =
              ((starLoop cm max fuel ((count + 1) % uintMod) str' (length + h.size) (acc ++ a)).1,
               (tick 1 (cm (ofSV str))).2 + (a.length + (0 + (starLoop cm max fuel ((count + 1) % uintMod) str' (length + h.size) (acc ++ a)).2))) := by
            rw [starLoop]; rw [andThen_ok (by rw [tick_fst, hr])]; simp only [hover, if_false]
            rw [andThen_ok (b := str') (by rw [ret_fst, hrm])]; rfl
          rw [e]
          refine ⟨h.size + k, by omega, ?_, ?_, ?_⟩
          · intro m hm hlt
            have j1 := i2 m hm hlt
            have j2 := k3 m hm
            rw [(hc' hlt).2, Nat.add_mul] at j1
            omega
          · have j1 : (g.fn + (g.over max).1) * str'.size ≤ (g.fn + (g.over max).1) * str.size := Nat.mul_le_mul_left _ (by omega)
            have hp : 1 ≤ h.size := Nat.le_trans hlo k2
            have j2 : g.sb ≤ g.sb * h.size := Nat.le_mul_of_pos_right _ hp
            have j3 : g.qb ≤ g.qb * h.size := Nat.le_mul_of_pos_right _ hp
            have j4 : g.turn * (h.size + k) = g.sa * h.size + g.sb * h.size + h.size + g.qa * h.size + g.qb * h.size + g.turn * k := by
              rw [Nat.mul_add]; simp only [Bd.turn, Nat.add_mul, Nat.one_mul]
            simp only [tick_snd]
            omega
          · intro c l a' he
            obtain ⟨j1, j2⟩ := i4 c l a' he
            refine ⟨by omega, ?_⟩
            have hp : 1 ≤ h.size := Nat.le_trans hlo k2
            have j3 : g.qb ≤ g.qb * h.size := Nat.le_mul_of_pos_right _ hp
            rw [List.length_append] at j2
            have j4 : (g.qa + g.qb) * (h.size + k) = g.qa * h.size + g.qb * h.size + (g.qa + g.qb) * k := by
              rw [Nat.mul_add, Nat.add_mul]
            omega

theorem Bd.step_star {g : Bd} {cm : CMatcher α} (hg : g.Holds cm) (hlo : 1 ≤ g.lo) (hsn : g.sn = 0) (min max : Nat) (hmax : max ≤ uintMax) :
    (g.star max).Step (Cost.star cm min max) := by
  refine ⟨?_, by simp [Cost.star], by simp [Cost.star]⟩
  intro t acc
  obtain ⟨fuel, hfuel⟩ : ∃ f, f = t.size + max + 2 := ⟨_, rfl⟩
  obtain ⟨k, h1, h2, h3, h4⟩ := Bd.starLoop_bound hg hlo hsn max hmax fuel 0 t 0 acc (fun _ => Nat.zero_le _)
  have hup : (g.star max).Upto k := by
    intro m hm
    simp only [Bd.star, Bd.reps] at hm
    split at hm
    · cases hh : g.hi with
      | none => simp [hh] at hm
      | some a =>
        simp only [hh, Option.some.injEq] at hm
        have := h2 a hh ‹_›
        omega
    · simp at hm
  have hfail : g.turn * k + (g.fn + (g.over max).1) * t.size + (1 + g.fb + (g.over max).2) + 1 ≤ (g.star max).fn * t.size + (g.star max).fb := by
    simp only [Bd.star]
    cases hh : g.reps max with
    | none =>
      have j1 : g.turn * k ≤ g.turn * t.size := Nat.mul_le_mul_left _ h1
      have j2 := Nat.add_mul (g.fn + (g.over max).1) g.turn t.size
      simp only [hh]; omega
    | some a =>
      have j1 : g.turn * k ≤ g.turn * a := Nat.mul_le_mul_left _ (hup a hh)
      simp only [hh, Nat.add_zero]; omega
  have hstar : Cost.star cm min max ⟨some t, acc⟩ = tick 1 (tick acc.length (andThen (starLoop cm max fuel 0 t 0 acc) fun x =>
        if x.1 < min then ret (.ok failed)
        else andThen (ret (t.substrFrom x.2.1)) fun t' => ret (.ok ⟨some t', x.2.2⟩))) := by
    simp only [Cost.star, hfuel]
  rw [hstar]
  generalize starLoop cm max fuel 0 t 0 acc = lp at *
  cases hr : lp.1 with
  | error e =>
    rw [andThen_error hr]
    refine ⟨by simp, by simp, fun _ => ?_⟩
    simp only [tick_snd]; omega
  | ok x =>
    obtain ⟨c, l, a⟩ := x
    obtain ⟨j1, j2⟩ := h4 c l a hr
    rw [andThen_ok hr]
    simp only []
    by_cases hlt : c < min
    · simp only [hlt, if_true]
      refine ⟨by simp [failed], by simp [failed], fun _ => ?_⟩
      simp only [tick_snd, ret_snd]; omega
    · simp only [hlt, if_false]
      have hl : l ≤ t.size := by omega
      have hsub : t.substrFrom l = .ok ⟨t.ptr + l, t.chars.drop l⟩ := by
        simp only [SV.substrFrom, hl, if_true]
      have hsz : t.size = k + (⟨t.ptr + l, t.chars.drop l⟩ : SV).size := by
        simp only [SV.size, List.length_drop] at *; omega
      rw [andThen_ok (b := ⟨t.ptr + l, t.chars.drop l⟩) (by rw [ret_fst, hsub])]
      refine ⟨?_, by simp, fun h => absurd rfl (h _ a)⟩
      intro t' acc' he
      simp only [tick_fst, ret_fst, Except.ok.injEq, Rule.mk.injEq, Option.some.injEq] at he
      obtain ⟨rfl, rfl⟩ := he
      refine ⟨k, hsz, Nat.zero_le _, hup, ?_, ?_⟩
      · simp only [Bd.star]; omega
      · simp only [tick_snd, ret_snd, Bd.star]; omega

/-! ### Match functions -/

/-- `single_char` -/
def Bd.chr : Bd := { lo := 1, hi := some 1, qa := 0, qb := 0, sa := 0, sn := 0, sb := 1, fn := 0, fb := 1 }
/-- a look-ahead -/
def Bd.look : Bd := { lo := 0, hi := some 0, qa := 0, qb := 0, sa := 0, sn := 0, sb := 1, fn := 0, fb := 1 }
/-- the rule itself -/
def Bd.nil : Bd := { lo := 0, hi := some 0, qa := 0, qb := 0, sa := 0, sn := 0, sb := 0, fn := 0, fb := 0 }
/-- `matched` -/
def Bd.matched (c : Bd) : Bd := { c with sa := c.sa + c.qa, sb := c.sb + c.qb + 1, fb := c.fb + 1 }

mutual
/-- The coefficients of a match function, if the analysis succeeds. -/
def Gr.bounds : Gr α → Option Bd
  | .chr _ => some .chr
  | .look _ => some .look
  | .rule c => c.bounds.map Bd.matched
/-- The coefficients of a chain of calls. -/
def Chain.bounds : Chain α → Option Bd
  | .nil => some .nil
  | .concat c g a => do return (← c.bounds).after ((← g.bounds).concat (number a))
  | .optional c g => do return (← c.bounds).after (← g.bounds).optional
  | .star c g _ max => do
      let b ← g.bounds
      if 1 ≤ b.lo ∧ b.sn = 0 ∧ max ≤ uintMax then return (← c.bounds).after (b.star max) else Option.none
  | .alternative c gs => do return (← c.bounds).after (← gs.bounds)
/-- The coefficients of `alternative`. -/
def Alts.bounds : Alts α → Option Bd
  | .nil => some .none
  | .cons g gs => do return (← g.bounds).orElse (← gs.bounds)
end

theorem Bd.holds_chr (p : UInt8 → M Bool) : Bd.chr.Holds (singleCharP (α := α) p) := by
  intro t
  obtain ⟨ptr, l⟩ := t
  constructor
  · intro h acc he
    simp only [singleCharP, tick_fst, ret_fst, Rule.singleCharP, ofSV] at he
    cases l with
    | nil => simp at he
    | cons c l =>
      simp only [] at he
      cases hp : p c with
      | error e => simp [hp, bind, Except.bind] at he
      | ok b =>
        cases b with
        | false => simp [hp, bind, Except.bind, pure, Except.pure] at he
        | true =>
          simp [hp, bind, Except.bind, pure, Except.pure, SV.substr] at he
          obtain ⟨rfl, rfl⟩ := he
          refine ⟨?_, ?_, ?_, ?_, ?_⟩
          · simp [SV.size]
          · simp [SV.size, Bd.chr]
          · intro m hm; simp [Bd.chr] at hm; simp [SV.size, ← hm]
          · simp
          · simp [singleCharP, Bd.chr]
  · intro _; simp [singleCharP, Bd.chr]

theorem Bd.holds_look (p : SV → Bool) : Bd.look.Holds (fun r : Rule α => tick 1 (ret (lookM p r))) := by
  intro t
  constructor
  · intro h acc he
    simp only [tick_fst, ret_fst, lookM, ofSV] at he
    cases hp : p t with
    | false => simp [hp] at he
    | true =>
      simp [hp, bind, Except.bind, pure, Except.pure, SV.substr] at he
      obtain ⟨rfl, rfl⟩ := he
      refine ⟨?_, ?_, ?_, ?_, ?_⟩ <;> simp [SV.size, Bd.look, Bd.Upto]
  · intro _; simp [Bd.look]

theorem Bd.holds_rule {c : Bd} {ch : Rule α → CM (Rule α)} (h : ∀ t, c.Out t.size 0 (ch (ofSV t))) :
    c.matched.Holds fun r => andThen (ch r) (Cost.matched r) := by
  intro t
  obtain ⟨h1, h2, h3⟩ := h t
  cases hr : (ch (ofSV t)).1 with
  | error e =>
    have := h3 (by simp [hr])
    simp only []
    rw [andThen_error hr]
    refine ⟨by simp, fun _ => ?_⟩
    simp only [Bd.matched]; omega
  | ok r =>
    obtain ⟨tail, acc⟩ := r
    simp only []
    rw [andThen_ok hr]
    cases tail with
    | none =>
      have ha := h2 acc hr
      subst ha
      have := h3 (by simp [hr])
      refine ⟨by simp [Cost.matched, Rule.matched], fun _ => ?_⟩
      simp only [Cost.matched, tick_snd, ret_snd, List.length_nil, Bd.matched]; omega
    | some t' =>
      obtain ⟨k, hn, hlo, hup, hq, hs⟩ := h1 t' acc hr
      have hA : (c.sa + c.qa) * k = c.sa * k + c.qa * k := Nat.add_mul _ _ _
      have hle : t'.size ≤ t.size := by omega
      have hm : (Cost.matched (ofSV t) ⟨some t', acc⟩).1 = .ok (some (⟨t.ptr + 0, (t.chars.drop 0).take (t.size - t'.size)⟩, acc)) := by
        simp only [Cost.matched, tick_fst, ret_fst, Rule.matched, ofSV, hle, if_true, SV.substr, Nat.zero_le]
        rfl
      rw [hm]
      refine ⟨?_, fun h => absurd rfl (h _ _)⟩
      intro h' acc' he
      simp only [Except.ok.injEq, Option.some.injEq, Prod.mk.injEq] at he
      obtain ⟨rfl, rfl⟩ := he
      have hsz : (⟨t.ptr + 0, (t.chars.drop 0).take (t.size - t'.size)⟩ : SV).size = k := by
        simp only [SV.size, List.drop_zero, List.length_take] at *; omega
      rw [hsz]
      refine ⟨by omega, hlo, hup, ?_, ?_⟩
      · simp only [Bd.matched]; omega
      · simp only [Cost.matched, tick_snd, ret_snd, Bd.matched]; omega

mutual
/-- The coefficients are right. -/
theorem Gr.bounds_sound : ∀ (g : Gr α) (b : Bd), g.bounds = some b → b.Holds g.steps
  | .chr p, b, h => by
      simp only [Gr.bounds, Option.some.injEq] at h; subst h
      exact Bd.holds_chr p
  | .look p, b, h => by
      simp only [Gr.bounds, Option.some.injEq] at h; subst h
      exact Bd.holds_look p
  | .rule c, b, h => by
      simp only [Gr.bounds, Option.map_eq_some_iff] at h
      obtain ⟨c', hc, rfl⟩ := h
      exact Bd.holds_rule (Chain.bounds_sound c c' hc)
/-- The coefficients are right. -/
theorem Chain.bounds_sound : ∀ (c : Chain α) (b : Bd), c.bounds = some b → ∀ t, b.Out t.size 0 (c.steps (ofSV t))
  | .nil, b, h => by
      simp only [Chain.bounds, Option.some.injEq] at h; subst h
      intro t
      refine ⟨?_, by simp [Chain.steps, ofSV], by simp [Chain.steps, Bd.nil]⟩
      intro t' acc he
      simp only [Chain.steps, ret_fst, ofSV, Except.ok.injEq, Rule.mk.injEq, Option.some.injEq] at he
      obtain ⟨rfl, rfl⟩ := he
      exact ⟨0, by omega, Nat.le_refl _, fun m _ => Nat.zero_le m, by simp, by simp [Chain.steps]⟩
  | .concat c g a, b, h => by
      simp only [Chain.bounds, Option.bind_eq_bind, Option.bind_eq_some_iff] at h
      obtain ⟨b1, h1, b2, h2, h3⟩ := h
      simp only [Option.pure_def, Option.some.injEq] at h3; subst h3
      intro t
      exact Bd.out_after (Chain.bounds_sound c b1 h1 t) (Bd.step_concat (Gr.bounds_sound g b2 h2) a)
  | .optional c g, b, h => by
      simp only [Chain.bounds, Option.bind_eq_bind, Option.bind_eq_some_iff] at h
      obtain ⟨b1, h1, b2, h2, h3⟩ := h
      simp only [Option.pure_def, Option.some.injEq] at h3; subst h3
      intro t
      exact Bd.out_after (Chain.bounds_sound c b1 h1 t) (Bd.step_optional (Gr.bounds_sound g b2 h2))
  | .star c g min max, b, h => by
      simp only [Chain.bounds, Option.bind_eq_bind, Option.bind_eq_some_iff] at h
      obtain ⟨b2, h2, h⟩ := h
      split at h
      · rename_i hc
        simp only [Option.bind_eq_some_iff] at h
        obtain ⟨b1, h1, h3⟩ := h
        simp only [Option.pure_def, Option.some.injEq] at h3; subst h3
        intro t
        exact Bd.out_after (Chain.bounds_sound c b1 h1 t) (Bd.step_star (Gr.bounds_sound g b2 h2) hc.1 hc.2.1 min max hc.2.2)
      · simp at h
  | .alternative c gs, b, h => by
      simp only [Chain.bounds, Option.bind_eq_bind, Option.bind_eq_some_iff] at h
      obtain ⟨b1, h1, b2, h2, h3⟩ := h
      simp only [Option.pure_def, Option.some.injEq] at h3; subst h3
      intro t
      exact Bd.out_after (Chain.bounds_sound c b1 h1 t) (Alts.bounds_sound gs b2 h2)
/-- The coefficients are right. -/
theorem Alts.bounds_sound : ∀ (gs : Alts α) (b : Bd), gs.bounds = some b → b.Step (alternative gs.steps)
  | .nil, b, h => by
      simp only [Alts.bounds, Option.some.injEq] at h; subst h
      exact Bd.step_none
  | .cons g gs, b, h => by
      simp only [Alts.bounds, Option.bind_eq_bind, Option.bind_eq_some_iff] at h
      obtain ⟨b1, h1, b2, h2, h3⟩ := h
      simp only [Option.pure_def, Option.some.injEq] at h3; subst h3
      exact Bd.step_orElse (Gr.bounds_sound g b1 h1) (Alts.bounds_sound gs b2 h2)
end

end Verif.Cost
