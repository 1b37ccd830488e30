import Verif.Proofs.Bytes
import Verif.Proofs.History

/-!
# The byte transcoder under any sequence of calls
-/

set_option linter.unusedSimpArgs false
set_option linter.unusedVariables false

namespace Verif.Icu
open Verif.Unicode

section
variable {ι ο : Type} {T : Transcoder ι ο}

theorem ok_pair {α β ε : Type} {a a' : α} {b b' : β} (h : (Except.ok (a, b) : Except ε (α × β)) = .ok (a', b')) : a = a' ∧ b = b' := by
  have h := Except.ok.inj h
  exact ⟨congrArg Prod.fst h, congrArg Prod.snd h⟩

theorem calls_unit_inv {st st'' : T.σ} {c : ι} {h : List (Call ι)} {out : List ο} (hc : calls T st (.unit c :: h) = .ok (st'', out)) :
    ∃ st' o os, T.step st c = .ok (st', o) ∧ calls T st' h = .ok (st'', os) ∧ out = o ++ os := by
  simp only [calls, bind, Except.bind] at hc
  split at hc
  · simp at hc
  · rename_i w hw
    split at hc
    · simp at hc
    · rename_i x hx
      obtain ⟨e1, e2⟩ := ok_pair hc
      subst e1 e2
      exact ⟨w.1, w.2, x.2, hw, hx, rfl⟩

theorem calls_end_inv {st st'' : T.σ} {h : List (Call ι)} {out : List ο} (hc : calls T st (.endCp :: h) = .ok (st'', out)) :
    ∃ st' o os, T.endCp st = .ok (st', o) ∧ calls T st' h = .ok (st'', os) ∧ out = o ++ os := by
  simp only [calls, bind, Except.bind] at hc
  split at hc
  · simp at hc
  · rename_i w hw
    split at hc
    · simp at hc
    · rename_i x hx
      obtain ⟨e1, e2⟩ := ok_pair hc
      subst e1 e2
      exact ⟨w.1, w.2, x.2, hw, hx, rfl⟩

theorem calls_nil_inv {st st' : T.σ} {out : List ο} (hc : calls T st [] = .ok (st', out)) : st = st' ∧ out = [] := by
  obtain ⟨h1, h2⟩ := ok_pair (show Except.ok (st, []) = Except.ok (st', out) from hc)
  exact ⟨h1, h2.symm⟩

theorem calls_append {h h' : List (Call ι)} : ∀ {st st' st'' : T.σ} {o os : List ο}, calls T st h = .ok (st', o) → calls T st' h' = .ok (st'', os) →
    calls T st (h ++ h') = .ok (st'', o ++ os) := by
  induction h with
  | nil =>
    intro st st' st'' o os h1 h2
    obtain ⟨rfl, rfl⟩ := calls_nil_inv h1
    exact h2
  | cons x h ih =>
    intro st st' st'' o os h1 h2
    cases x with
    | unit c =>
      obtain ⟨a, b, d, g1, g2, rfl⟩ := calls_unit_inv h1
      rw [List.append_assoc]
      exact calls_unit g1 (ih g2 h2)
    | endCp =>
      obtain ⟨a, b, d, g1, g2, rfl⟩ := calls_end_inv h1
      rw [List.append_assoc]
      exact calls_end g1 (ih g2 h2)

theorem calls_append_inv {h h' : List (Call ι)} : ∀ {st st'' : T.σ} {out : List ο}, calls T st (h ++ h') = .ok (st'', out) →
    ∃ st' o os, calls T st h = .ok (st', o) ∧ calls T st' h' = .ok (st'', os) ∧ out = o ++ os := by
  induction h with
  | nil => intro st st'' out h1; exact ⟨st, [], out, rfl, h1, rfl⟩
  | cons x h ih =>
    intro st st'' out h1
    cases x with
    | unit c =>
      obtain ⟨a, b, d, g1, g2, rfl⟩ := calls_unit_inv h1
      obtain ⟨a', b', d', g3, g4, rfl⟩ := ih g2
      exact ⟨a', _, d', calls_unit g1 g3, g4, by rw [List.append_assoc]⟩
    | endCp =>
      obtain ⟨a, b, d, g1, g2, rfl⟩ := calls_end_inv h1
      obtain ⟨a', b', d', g3, g4, rfl⟩ := ih g2
      exact ⟨a', _, d', calls_end g1 g3, g4, by rw [List.append_assoc]⟩

theorem calls_map (s : List ι) : ∀ (st : T.σ), calls T st (s.map .unit) = T.feed st s := by
  induction s with
  | nil => intro st; rfl
  | cons c s ih =>
    intro st
    simp only [List.map_cons, calls, Transcoder.feed, bind, Except.bind]
    cases T.step st c with
    | error e => rfl
    | ok w => simp only [ih]

theorem lead_after (h : List (Call ι)) : h = (lead h).map .unit ++ afterLead h := by
  induction h with
  | nil => rfl
  | cons x h ih =>
    cases x with
    | unit c => show _ = Call.unit c :: ((lead h).map .unit ++ afterLead h); rw [← ih]
    | endCp => rfl

theorem afterLead_cases (h : List (Call ι)) : afterLead h = [] ∨ ∃ r, afterLead h = .endCp :: r := by
  induction h with
  | nil => exact Or.inl rfl
  | cons x h ih =>
    cases x with
    | unit c => exact ih
    | endCp => exact Or.inr ⟨h, rfl⟩

end

section
variable {ο : Type} {T8 : Transcoder UInt8 ο} {T16 : Transcoder UInt16 ο} {T32 : Transcoder Nat ο}

theorem callsX_8 {h : List (Call UInt8)} : ∀ {buf : Str} {t t' : T8.σ} {o : List ο}, calls T8 t h = .ok (t', o) →
    calls (tX T8 T16 T32) ⟨.run_8, buf, .v8 t⟩ h = .ok (⟨.run_8, buf, .v8 t'⟩, o) := by
  induction h with
  | nil =>
    intro buf t t' o h
    obtain ⟨rfl, rfl⟩ := calls_nil_inv h
    rfl
  | cons x h ih =>
    intro buf t t' o hc
    cases x with
    | unit c =>
      obtain ⟨a, b, d, g1, g2, rfl⟩ := calls_unit_inv hc
      have : stepX (T8 := T8) (T16 := T16) (T32 := T32) ⟨.run_8, buf, .v8 t⟩ c = .ok (⟨.run_8, buf, .v8 a⟩, b) := by
        simp only [stepX, g1, bind, Except.bind]
      exact calls_unit (T := tX T8 T16 T32) this (ih g2)
    | endCp =>
      obtain ⟨a, b, d, g1, g2, rfl⟩ := calls_end_inv hc
      have : endCpX (T8 := T8) (T16 := T16) (T32 := T32) ⟨.run_8, buf, .v8 t⟩ = .ok (⟨.run_8, buf, .v8 a⟩, b) := by
        simp only [endCpX, g1, bind, Except.bind]
      exact calls_end (T := tX T8 T16 T32) this (ih g2)

theorem endX16 {s : States} {buf : Str} {t t' : T16.σ} {o : List ο} (h : T16.endCp t = .ok (t', o)) :
    endCpX (T8 := T8) (T16 := T16) (T32 := T32) ⟨s, buf, .v16 t⟩ = .ok (⟨s, buf, .v16 t'⟩, o) := by
  simp only [endCpX, h, bind, Except.bind]
theorem endX32 {s : States} {buf : Str} {t t' : T32.σ} {o : List ο} (h : T32.endCp t = .ok (t', o)) :
    endCpX (T8 := T8) (T16 := T16) (T32 := T32) ⟨s, buf, .v32 t⟩ = .ok (⟨s, buf, .v32 t'⟩, o) := by
  simp only [endCpX, h, bind, Except.bind]

/-- The state that goes with the byte `p`, if any, of a UTF-16 code unit. -/
def st16 (big : Bool) (p : Option UInt8) : States :=
  match big, p with
  | true, none => .run_16be_byte0
  | true, some _ => .run_16be_byte1
  | false, none => .run_16le_byte0
  | false, some _ => .run_16le_byte1

theorem st16_runs (big : Bool) (p : Option UInt8) : Runs16 (st16 big p) ∧ isLittleEndian (st16 big p) = !big := by
  cases big <;> cases p <;> exact ⟨by simp [st16, Runs16], by simp only [st16]; decide +kernel⟩

theorem stepX_16b (big : Bool) {a b c d v : UInt8} {t t' : T16.σ} {o : List ο}
    (h : T16.step t (UInt16.ofNat (if big then a.toNat * 0x100 + v.toNat else v.toNat * 0x100 + a.toNat)) = .ok (t', o)) :
    stepX (T8 := T8) (T16 := T16) (T32 := T32) ⟨st16 big (some a), [a, b, c, d], .v16 t⟩ v = .ok (⟨st16 big none, [a, b, c, d], .v16 t'⟩, o) := by
  have ha := a.toNat_lt
  have hv := v.toNat_lt
  cases big with
  | false =>
    show stepX (T8 := T8) (T16 := T16) (T32 := T32) ⟨.run_16le_byte1, [a, b, c, d], .v16 t⟩ v = .ok (⟨.run_16le_byte0, [a, b, c, d], .v16 t'⟩, o)
    have e : (States.run_16le_byte1 == States.run_16be_byte1) = false := by decide +kernel
    have e' : UInt16.ofNat (v.toNat <<< 8 ||| a.toNat) = UInt16.ofNat (v.toNat * 0x100 + a.toNat) := by
      rw [Nat.or_comm, or_high _ _ _ (by omega), Nat.add_comm]
    have e2 : char16From false [a, b, c, d] v = .ok (UInt16.ofNat (v.toNat * 0x100 + a.toNat)) := by rw [← e']; rfl
    have h3' : T16.step t (UInt16.ofNat (v.toNat * 0x100 + a.toNat)) = .ok (t', o) := h
    simp only [stepX, Icu.run16, e, e2, bind, Except.bind, h3', show setByte .run_16le_byte1 0 = .ok .run_16le_byte0 from rfl]
    rw [if_neg (by decide)]
  | true =>
    show stepX (T8 := T8) (T16 := T16) (T32 := T32) ⟨.run_16be_byte1, [a, b, c, d], .v16 t⟩ v = .ok (⟨.run_16be_byte0, [a, b, c, d], .v16 t'⟩, o)
    have e' : UInt16.ofNat (a.toNat <<< 8 ||| v.toNat) = UInt16.ofNat (a.toNat * 0x100 + v.toNat) := by
      rw [Nat.or_comm, or_high _ _ _ (by omega), Nat.add_comm]
    have e2 : char16From true [a, b, c, d] v = .ok (UInt16.ofNat (a.toNat * 0x100 + v.toNat)) := by rw [← e']; rfl
    have h3' : T16.step t (UInt16.ofNat (a.toNat * 0x100 + v.toNat)) = .ok (t', o) := h
    simp only [stepX, Icu.run16, beq_self_eq_true, e2, bind, Except.bind, h3', show setByte .run_16be_byte1 0 = .ok .run_16be_byte0 from rfl]
    rw [if_neg (by decide)]

theorem callsX_16 (big : Bool) {h : List (Call UInt8)} : ∀ {p : Option UInt8} {buf : Str} {t t' : T16.σ} {o : List ο}, (∃ a b c d, buf = [a, b, c, d] ∧ (p = none ∨ p = some a)) →
    calls T16 t (callUnits16 big p h) = .ok (t', o) →
    ∃ q buf', (∃ a b c d, buf' = [a, b, c, d] ∧ (q = none ∨ q = some a)) ∧
      calls (tX T8 T16 T32) ⟨st16 big p, buf, .v16 t⟩ h = .ok (⟨st16 big q, buf', .v16 t'⟩, o) := by
  induction h with
  | nil =>
    intro p buf t t' o hb h
    have e : callUnits16 big p [] = [] := by cases p <;> rfl
    rw [e] at h
    obtain ⟨rfl, rfl⟩ := calls_nil_inv h
    exact ⟨p, buf, hb, rfl⟩
  | cons x h ih =>
    intro p buf t t' o hb hc
    cases x with
    | endCp =>
      have e : callUnits16 big p (.endCp :: h) = .endCp :: callUnits16 big p h := by cases p <;> rfl
      rw [e] at hc
      obtain ⟨a, b, d, g1, g2, rfl⟩ := calls_end_inv hc
      obtain ⟨q, buf', gb, g3⟩ := ih hb g2
      exact ⟨q, buf', gb, calls_end (T := tX T8 T16 T32) (endX16 g1) g3⟩
    | unit v =>
      obtain ⟨a, b, c, d, rfl, hp⟩ := hb
      cases p with
      | none =>
        have hs : (tX T8 T16 T32).step ⟨st16 big none, [a, b, c, d], .v16 t⟩ v = .ok (⟨st16 big (some v), [v, b, c, d], .v16 t⟩, []) := by
          cases big with
          | true => exact stepX_byte (s := .run_16be_byte0) (s' := .run_16be_byte1) (by decide +kernel) rfl rfl
          | false => exact stepX_byte (s := .run_16le_byte0) (s' := .run_16le_byte1) (by decide +kernel) rfl rfl
        obtain ⟨q, buf', gb, g3⟩ := ih (p := some v) (buf := [v, b, c, d]) ⟨_, _, _, _, rfl, Or.inr rfl⟩ (show calls T16 t (callUnits16 big (some v) h) = _ from hc)
        exact ⟨q, buf', gb, calls_unit (o := []) hs g3⟩
      | some w =>
        obtain rfl : w = a := by simpa using hp
        obtain ⟨t1, o1, o2, g1, g2, rfl⟩ := calls_unit_inv (show calls T16 t (.unit _ :: callUnits16 big none h) = _ from hc)
        obtain ⟨q, buf', gb, g3⟩ := ih (p := none) (buf := [w, b, c, d]) ⟨_, _, _, _, rfl, Or.inl rfl⟩ g2
        exact ⟨q, buf', gb, calls_unit (T := tX T8 T16 T32) (stepX_16b big g1) g3⟩

/-- The state that goes with the bytes `p` of a UTF-32 code unit. -/
def st32 (big : Bool) (p : Str) : States :=
  match big, p with
  | true, [] => .run_32be_byte0
  | true, [_] => .run_32be_byte1
  | true, [_, _] => .run_32be_byte2
  | true, _ => .run_32be_byte3
  | false, [] => .run_32le_byte0
  | false, [_] => .run_32le_byte1
  | false, [_, _] => .run_32le_byte2
  | false, _ => .run_32le_byte3

theorem st32_runs (big : Bool) (p : Str) : Runs32 (st32 big p) ∧ isLittleEndian (st32 big p) = !big := by
  match big, p with
  | true, [] => exact ⟨by simp [st32, Runs32], by simp only [st32]; decide +kernel⟩
  | true, [_] => exact ⟨by simp [st32, Runs32], by simp only [st32]; decide +kernel⟩
  | true, [_, _] => exact ⟨by simp [st32, Runs32], by simp only [st32]; decide +kernel⟩
  | true, _ :: _ :: _ :: _ => exact ⟨by simp [st32, Runs32], by simp only [st32]; decide +kernel⟩
  | false, [] => exact ⟨by simp [st32, Runs32], by simp only [st32]; decide +kernel⟩
  | false, [_] => exact ⟨by simp [st32, Runs32], by simp only [st32]; decide +kernel⟩
  | false, [_, _] => exact ⟨by simp [st32, Runs32], by simp only [st32]; decide +kernel⟩
  | false, _ :: _ :: _ :: _ => exact ⟨by simp [st32, Runs32], by simp only [st32]; decide +kernel⟩

theorem join_be (a b c v : UInt8) : (a.toNat <<< 24) ||| (b.toNat <<< 16) ||| (c.toNat <<< 8) ||| v.toNat =
    ((a.toNat * 0x100 + b.toNat) * 0x100 + c.toNat) * 0x100 + v.toNat := by
  have := a.toNat_lt
  have := b.toNat_lt
  have := c.toNat_lt
  have := v.toNat_lt
  rw [Nat.or_assoc, Nat.or_assoc, Nat.or_comm (c.toNat <<< 8), or_high _ _ _ (by omega), Nat.or_comm (b.toNat <<< 16), or_high _ _ _ (by omega),
    Nat.or_comm (a.toNat <<< 24), or_high _ _ _ (by omega)]
  omega

theorem join_le (a b c v : UInt8) : (v.toNat <<< 24) % 256 ||| (c.toNat <<< 16) ||| (b.toNat <<< 8) ||| a.toNat =
    (((v.toNat * 0x100 + c.toNat) * 0x100 + b.toNat) * 0x100 + a.toNat) % 0x1000000 := by
  have := a.toNat_lt
  have := b.toNat_lt
  have := c.toNat_lt
  have := v.toNat_lt
  have : (v.toNat <<< 24) % 256 = 0 := by rw [Nat.shiftLeft_eq]; omega
  rw [this, Nat.zero_or, Nat.or_assoc, Nat.or_comm (b.toNat <<< 8), or_high _ _ _ (by omega), Nat.or_comm (c.toNat <<< 16), or_high _ _ _ (by omega)]
  omega

theorem stepX_32d (big : Bool) {a b c d v : UInt8} {t t' : T32.σ} {o : List ο}
    (h : T32.step t (if big then ((a.toNat * 0x100 + b.toNat) * 0x100 + c.toNat) * 0x100 + v.toNat
        else (((v.toNat * 0x100 + c.toNat) * 0x100 + b.toNat) * 0x100 + a.toNat) % 0x1000000) = .ok (t', o)) :
    stepX (T8 := T8) (T16 := T16) (T32 := T32) ⟨st32 big [a, b, c], [a, b, c, d], .v32 t⟩ v = .ok (⟨st32 big [], [a, b, c, d], .v32 t'⟩, o) := by
  cases big with
  | true =>
    show stepX (T8 := T8) (T16 := T16) (T32 := T32) ⟨.run_32be_byte3, [a, b, c, d], .v32 t⟩ v = Except.ok (⟨.run_32be_byte0, [a, b, c, d], .v32 t'⟩, o)
    simp only [stepX, run32]
    rw [if_neg (by decide +kernel)]
    have e : char32FromBig [a, b, c, d] v = .ok (((a.toNat * 0x100 + b.toNat) * 0x100 + c.toNat) * 0x100 + v.toNat) :=
      (show _ = Except.ok _ from rfl).trans (congrArg Except.ok (join_be a b c v))
    have h : T32.step t (((a.toNat * 0x100 + b.toNat) * 0x100 + c.toNat) * 0x100 + v.toNat) = .ok (t', o) := h
    simp only [beq_self_eq_true, if_true, e, bind, Except.bind, h, show setByte .run_32be_byte3 0 = .ok .run_32be_byte0 from rfl]
  | false =>
    show stepX (T8 := T8) (T16 := T16) (T32 := T32) ⟨.run_32le_byte3, [a, b, c, d], .v32 t⟩ v = Except.ok (⟨.run_32le_byte0, [a, b, c, d], .v32 t'⟩, o)
    simp only [stepX, run32]
    rw [if_neg (by decide +kernel)]
    have e' : (States.run_32le_byte3 == States.run_32be_byte3) = false := by decide +kernel
    have e : char32FromLittle [a, b, c, d] v = .ok ((((v.toNat * 0x100 + c.toNat) * 0x100 + b.toNat) * 0x100 + a.toNat) % 0x1000000) :=
      (show _ = Except.ok _ from rfl).trans (congrArg Except.ok (join_le a b c v))
    have h : T32.step t ((((v.toNat * 0x100 + c.toNat) * 0x100 + b.toNat) * 0x100 + a.toNat) % 0x1000000) = .ok (t', o) := h
    simp only [e', Bool.false_eq_true, if_false, e, bind, Except.bind, h, show setByte .run_32le_byte3 0 = .ok .run_32le_byte0 from rfl]

theorem callsX_32 (big : Bool) {h : List (Call UInt8)} : ∀ {p : Str} {buf : Str} {t t' : T32.σ} {o : List ο},
    (∃ a b c d, buf = [a, b, c, d] ∧ (p = [] ∨ p = [a] ∨ p = [a, b] ∨ p = [a, b, c])) →
    calls T32 t (callUnits32 big p h) = .ok (t', o) →
    ∃ q buf', (∃ a b c d, buf' = [a, b, c, d] ∧ (q = [] ∨ q = [a] ∨ q = [a, b] ∨ q = [a, b, c])) ∧
      calls (tX T8 T16 T32) ⟨st32 big p, buf, .v32 t⟩ h = .ok (⟨st32 big q, buf', .v32 t'⟩, o) := by
  induction h with
  | nil =>
    intro p buf t t' o hb h
    have e : callUnits32 big p [] = [] := by simp [callUnits32]
    rw [e] at h
    obtain ⟨rfl, rfl⟩ := calls_nil_inv h
    exact ⟨p, buf, hb, rfl⟩
  | cons x h ih =>
    intro p buf t t' o hb hc
    cases x with
    | endCp =>
      have e : callUnits32 big p (.endCp :: h) = .endCp :: callUnits32 big p h := by simp [callUnits32]
      rw [e] at hc
      obtain ⟨a, b, d, g1, g2, rfl⟩ := calls_end_inv hc
      obtain ⟨q, buf', gb, g3⟩ := ih hb g2
      exact ⟨q, buf', gb, calls_end (T := tX T8 T16 T32) (endX32 g1) g3⟩
    | unit v =>
      obtain ⟨a, b, c, d, rfl, hp⟩ := hb
      rcases hp with rfl | rfl | rfl | rfl
      · have hs : (tX T8 T16 T32).step ⟨st32 big [], [a, b, c, d], .v32 t⟩ v = .ok (⟨st32 big [v], [v, b, c, d], .v32 t⟩, []) := by
          cases big with
          | true => exact stepX_byte (s := .run_32be_byte0) (s' := .run_32be_byte1) (by decide +kernel) rfl rfl
          | false => exact stepX_byte (s := .run_32le_byte0) (s' := .run_32le_byte1) (by decide +kernel) rfl rfl
        obtain ⟨q, buf', gb, g3⟩ := ih (p := [v]) (buf := [v, b, c, d]) ⟨_, _, _, _, rfl, by simp⟩ (show calls T32 t (callUnits32 big [v] h) = _ from hc)
        exact ⟨q, buf', gb, calls_unit (o := []) hs g3⟩
      · have hs : (tX T8 T16 T32).step ⟨st32 big [a], [a, b, c, d], .v32 t⟩ v = .ok (⟨st32 big [a, v], [a, v, c, d], .v32 t⟩, []) := by
          cases big with
          | true => exact stepX_byte (s := .run_32be_byte1) (s' := .run_32be_byte2) (by decide +kernel) rfl rfl
          | false => exact stepX_byte (s := .run_32le_byte1) (s' := .run_32le_byte2) (by decide +kernel) rfl rfl
        obtain ⟨q, buf', gb, g3⟩ := ih (p := [a, v]) (buf := [a, v, c, d]) ⟨_, _, _, _, rfl, by simp⟩ (show calls T32 t (callUnits32 big [a, v] h) = _ from hc)
        exact ⟨q, buf', gb, calls_unit (o := []) hs g3⟩
      · have hs : (tX T8 T16 T32).step ⟨st32 big [a, b], [a, b, c, d], .v32 t⟩ v = .ok (⟨st32 big [a, b, v], [a, b, v, d], .v32 t⟩, []) := by
          cases big with
          | true => exact stepX_byte (s := .run_32be_byte2) (s' := .run_32be_byte3) (by decide +kernel) rfl rfl
          | false => exact stepX_byte (s := .run_32le_byte2) (s' := .run_32le_byte3) (by decide +kernel) rfl rfl
        obtain ⟨q, buf', gb, g3⟩ := ih (p := [a, b, v]) (buf := [a, b, v, d]) ⟨_, _, _, _, rfl, by simp⟩ (show calls T32 t (callUnits32 big [a, b, v] h) = _ from hc)
        exact ⟨q, buf', gb, calls_unit (o := []) hs g3⟩
      · obtain ⟨t1, o1, o2, g1, g2, rfl⟩ := calls_unit_inv (show calls T32 t (.unit _ :: callUnits32 big [] h) = _ from hc)
        obtain ⟨q, buf', gb, g3⟩ := ih (p := []) (buf := [a, b, c, d]) ⟨_, _, _, _, rfl, by simp⟩ g2
        exact ⟨q, buf', gb, calls_unit (T := tX T8 T16 T32) (stepX_32d big g1) g3⟩

end
end Verif.Icu
