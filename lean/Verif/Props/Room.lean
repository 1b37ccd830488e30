import Verif.Proofs.Room
import Verif.Props.ByteView

/-!
# C90: how much a transcoder writes
-/

set_option linter.unusedSimpArgs false

namespace Verif
open Icu Unicode

/-- `k` code units of room for each code unit of input are enough for what a new transcoder makes of a text, and `k` for each
call are enough for any sequence of calls.  No smaller number will do, however long the text. -/
def Room {ι ο : Type} (T : Transcoder ι ο) (k : Nat) : Prop :=
  (∀ s st out, T.run s = .ok (st, out) → out.length ≤ k * s.length) ∧
  (∀ h st out, calls T T.init h = .ok (st, out) → out.length ≤ k * h.length) ∧
  (∀ n, ∃ s st out, s.length = n ∧ T.run s = .ok (st, out) ∧ out.length = k * n)

/-- One call, after any others, writes at most `m` code units, and there is one that writes as many. -/
def PerCall {ι ο : Type} (T : Transcoder ι ο) (m : Nat) : Prop :=
  (∀ h x st o st' o', calls T T.init h = .ok (st, o) → calls T st [x] = .ok (st', o') → o'.length ≤ m) ∧
  ∃ h x st o st' o', calls T T.init h = .ok (st, o) ∧ calls T st [x] = .ok (st', o') ∧ o'.length = m

section
variable {ι ο : Type} {T : Transcoder ι ο} {k : Nat} {w : T.σ → Nat}

/-- A code unit that is always written as the same `k` code units. -/
theorem full {c : ι} {st1 st2 st3 : T.σ} {o : List ο} (h0 : T.endCp T.init = .ok (st3, [])) (h1 : T.step T.init c = .ok (st1, o)) (h2 : T.step st1 c = .ok (st1, o))
    (h3 : T.endCp st1 = .ok (st2, [])) (ho : o.length = k) (n : Nat) : ∃ s st out, s.length = n ∧ T.run s = .ok (st, out) ∧ out.length = k * n := by
  have key : ∀ n, ∃ out, T.feed st1 (List.replicate n c) = .ok (st1, out) ∧ out.length = k * n := by
    intro n
    induction n with
    | zero => exact ⟨[], rfl, rfl⟩
    | succ n ih =>
      obtain ⟨out, e1, e2⟩ := ih
      exact ⟨o ++ out, feed_cons h2 e1, by rw [List.length_append, ho, e2, Nat.mul_succ, Nat.add_comm]⟩
  cases n with
  | zero => exact ⟨[], st3, [], rfl, run_of_feed (o := []) rfl h0, rfl⟩
  | succ n =>
    obtain ⟨out, e1, e2⟩ := key n
    refine ⟨c :: List.replicate n c, st2, (o ++ out) ++ [], by simp, run_of_feed (feed_cons h1 e1) h3, ?_⟩
    rw [List.append_nil, List.length_append, ho, e2, Nat.mul_succ, Nat.add_comm]

theorem room_of (R : Rationed T k w) (hf : ∀ n, ∃ s st out, s.length = n ∧ T.run s = .ok (st, out) ∧ out.length = k * n) : Room T k := by
  refine ⟨fun s st out h => R.run h, fun h st out hc => ?_, hf⟩
  have := R.calls h _ _ _ hc
  rw [R.init] at this
  omega

end

/-- **C90**: how much room the output needs, for each of the transcoders of known encoding. -/
theorem C90_room : Room t8_8 3 ∧ Room t8_16 1 ∧ Room t8_32 1 ∧ Room t16_8 3 ∧ Room t16_16 1 ∧ Room t16_32 1 ∧ Room t32_8 4 ∧ Room t32_16 2 ∧ Room t32_32 1 :=
  ⟨room_of rationed8_8 (full (c := 0x80) rfl rfl rfl rfl rfl), room_of rationed8_16 (full (c := 0x61) rfl rfl rfl rfl rfl),
    room_of rationed8_32 (full (c := 0x61) rfl rfl rfl rfl rfl), room_of rationed16_8 (full (c := 0xFFFD) rfl rfl rfl rfl rfl),
    room_of rationed16_16 (full (c := 0x61) rfl rfl rfl rfl rfl), room_of rationed16_32 (full (c := 0x61) rfl rfl rfl rfl rfl),
    room_of rationed32_8 (full (c := 0x10FFFF) rfl rfl rfl rfl rfl), room_of rationed32_16 (full (c := 0x10FFFF) rfl rfl rfl rfl rfl),
    room_of rationed32_32 (full (c := 0x61) rfl rfl rfl rfl rfl)⟩

/-! ### One call -/

section
variable {ι ο : Type} {T : Transcoder ι ο} {m : Nat}

theorem calls_one {st st' : T.σ} {x : Call ι} {o : List ο} (h : calls T st [x] = .ok (st', o)) :
    (∃ c, x = .unit c ∧ T.step st c = .ok (st', o)) ∨ (x = .endCp ∧ T.endCp st = .ok (st', o)) := by
  cases x with
  | unit c =>
    obtain ⟨a, b, d, h1, h2, rfl⟩ := calls_unit_inv h
    obtain ⟨rfl, rfl⟩ := calls_nil_inv h2
    exact Or.inl ⟨c, rfl, by rw [List.append_nil]; exact h1⟩
  | endCp =>
    obtain ⟨a, b, d, h1, h2, rfl⟩ := calls_end_inv h
    obtain ⟨rfl, rfl⟩ := calls_nil_inv h2
    exact Or.inr ⟨rfl, by rw [List.append_nil]; exact h1⟩

/-- In no state a call writes more than `m`. -/
structure Capped (T : Transcoder ι ο) (m : Nat) : Prop where
  step : ∀ st c st' o, T.step st c = .ok (st', o) → o.length ≤ m
  end_ : ∀ st st' o, T.endCp st = .ok (st', o) → o.length ≤ m

theorem perCall_of (C : Capped T m) (h : ∃ h x st o st' o', calls T T.init h = .ok (st, o) ∧ calls T st [x] = .ok (st', o') ∧ o'.length = m) : PerCall T m := by
  refine ⟨fun h x st o st' o' _ h2 => ?_, h⟩
  rcases calls_one h2 with ⟨c, _, h3⟩ | ⟨_, h3⟩
  · exact C.step _ _ _ _ h3
  · exact C.end_ _ _ _ h3

end

section
variable {ο : Type} {f : Nat → List ο} {g : Nat → Bool} {B : Transcoder Nat ο} {m cap : Nat}

theorem flat_one {c : Nat} : [c].flatMap f = f c := by simp

theorem capped8 (S : Simple B f g) (hf : ∀ c, (f c).length ≤ m) : Capped (triangulator cap t8_32 B) m where
  step st c st' o h := by
    obtain ⟨mid, h1, rfl⟩ := tri_step_inv (A := t8_32) S h
    rcases step8_kinds h1 with ⟨rfl, _⟩ | ⟨rfl, _⟩ | ⟨cp, rfl, _⟩
    · simp
    · rw [flat_one]; exact hf _
    · rw [flat_one]; exact hf _
  end_ st st' o h := by
    obtain ⟨mid, h1, rfl⟩ := tri_end_inv (A := t8_32) S h
    rcases end8_kinds h1 with ⟨rfl, _⟩ | ⟨rfl, _⟩
    · simp
    · rw [flat_one]; exact hf _

theorem capped16 (S : Simple B f g) (hf : ∀ c, (f c).length ≤ m) (h2 : ∀ c, c < 0x10000 → (f 0xFFFD).length + (f c).length ≤ m) :
    Capped (triangulator cap t16_32 B) m where
  step st c st' o h := by
    obtain ⟨mid, h1, rfl⟩ := tri_step_inv (A := t16_32) S h
    rcases step16_kinds h1 with ⟨rfl, _⟩ | ⟨rfl, _⟩ | ⟨cp, rfl, _⟩ | ⟨cp, rfl, _⟩ | ⟨cp, rfl, h0, _⟩
    · simp
    · rw [flat_one]; exact hf _
    · rw [flat_one]; exact hf _
    · rw [flat_one]; exact hf _
    · rw [List.flatMap_cons, List.length_append, flat_one]; exact h2 _ h0
  end_ st st' o h := by
    obtain ⟨mid, h1, rfl⟩ := tri_end_inv (A := t16_32) S h
    rcases end16_kinds h1 with ⟨rfl, _⟩ | ⟨rfl, _⟩
    · simp
    · rw [flat_one]; exact hf _

theorem capped32 (S : Simple B f g) (hf : ∀ c, (f c).length ≤ m) : Capped B m where
  step st c st' o h := (rationed32 S hf).step _ _ _ _ h
  end_ st st' o h := ((rationed32 S hf).end_ _ _ _ h).2

end

theorem capped8_32 : Capped t8_32 1 where
  step st c st' o h := by
    rcases step8_kinds h with ⟨rfl, _⟩ | ⟨rfl, _⟩ | ⟨cp, rfl, _⟩ <;> simp
  end_ st st' o h := by
    rcases end8_kinds h with ⟨rfl, _⟩ | ⟨rfl, _⟩ <;> simp

theorem capped16_32 : Capped t16_32 2 where
  step st c st' o h := by
    rcases step16_kinds h with ⟨rfl, _⟩ | ⟨rfl, _⟩ | ⟨cp, rfl, _⟩ | ⟨cp, rfl, _⟩ | ⟨cp, rfl, h0, _⟩ <;> simp
  end_ st st' o h := by
    rcases end16_kinds h with ⟨rfl, _⟩ | ⟨rfl, _⟩ <;> simp

theorem capped8_8 : Capped t8_8 4 := capped8 simple32_8 (fun _ => utf8_len _)
theorem capped8_16 : Capped t8_16 2 := capped8 simple32_16 (fun _ => utf16_len _)
theorem capped16_8 : Capped t16_8 6 := capped16 simple32_8 (fun _ => Nat.le_trans (utf8_len _) (by omega))
  (fun c h => by
    have a := utf8_len_bmp (fixCp 0xFFFD) (fix_lt (by omega) (by omega))
    have b := utf8_len_bmp (fixCp c) (fix_lt h (by omega))
    omega)
theorem capped16_16 : Capped t16_16 2 := capped16 simple32_16 (fun _ => utf16_len _)
  (fun c h => by
    have a := utf16_len_bmp (fixCp 0xFFFD) (fix_lt (by omega) (by omega))
    have b := utf16_len_bmp (fixCp c) (fix_lt h (by omega))
    omega)
theorem capped32_8 : Capped t32_8 4 := capped32 simple32_8 (fun _ => utf8_len _)
theorem capped32_16 : Capped t32_16 2 := capped32 simple32_16 (fun _ => utf16_len _)
theorem capped32_32 : Capped t32_32 1 := capped32 simple32_32 (fun _ => by simp)

/-- **C90**: the most that one call writes: the size of the array in the iterator of the view. -/
theorem C90_call : PerCall t8_8 maxOut8 ∧ PerCall t8_16 maxOut16 ∧ PerCall t8_32 maxOut32 ∧ PerCall t16_8 maxOut16to8 ∧ PerCall t16_16 maxOut16 ∧
    PerCall t16_32 maxOut16to32 ∧ PerCall t32_8 maxOut8 ∧ PerCall t32_16 maxOut16 ∧ PerCall t32_32 maxOut32 :=
  ⟨perCall_of capped8_8 ⟨[.unit 0xF0, .unit 0x9F, .unit 0x98], .unit 0x80, _, _, _, _, rfl, rfl, rfl⟩,
    perCall_of capped8_16 ⟨[.unit 0xF0, .unit 0x9F, .unit 0x98], .unit 0x80, _, _, _, _, rfl, rfl, rfl⟩,
    perCall_of capped8_32 ⟨[], .unit 0x61, _, _, _, _, rfl, rfl, rfl⟩,
    perCall_of capped16_8 ⟨[.unit 0xD902], .unit 0xFFFF, _, _, _, _, rfl, rfl, rfl⟩,
    perCall_of capped16_16 ⟨[.unit 0xD902], .unit 0xFFFF, _, _, _, _, rfl, rfl, rfl⟩,
    perCall_of capped16_32 ⟨[.unit 0xD902], .unit 0xFFFF, _, _, _, _, rfl, rfl, rfl⟩,
    perCall_of capped32_8 ⟨[], .unit 0x10FFFF, _, _, _, _, rfl, rfl, rfl⟩,
    perCall_of capped32_16 ⟨[], .unit 0x10FFFF, _, _, _, _, rfl, rfl, rfl⟩,
    perCall_of capped32_32 ⟨[], .unit 0x10FFFF, _, _, _, _, rfl, rfl, rfl⟩⟩

/-! ### Bytes of unknown encoding -/

section
variable {ο : Type} {T8 : Transcoder UInt8 ο} {T16 : Transcoder UInt16 ο} {T32 : Transcoder Nat ο} {k m : Nat}

theorem given_units16 (big : Bool) : ∀ (h : List (Call UInt8)) (p : Option UInt8), (callUnits16 big p h).length ≤ h.length := by
  intro h
  induction h with
  | nil => intro p; cases p <;> simp [callUnits16]
  | cons x h ih =>
    intro p
    cases x with
    | endCp => cases p <;> simpa [callUnits16] using ih _
    | unit c => cases p with
      | none => simp only [callUnits16, List.length_cons]; have := ih (some c); omega
      | some a => simp only [callUnits16, List.length_cons]; have := ih none; omega

theorem given_units32 (big : Bool) : ∀ (h : List (Call UInt8)) (p : Str), p.length < 4 → 4 * (given (callUnits32 big p h)).length ≤ h.length + p.length := by
  intro h
  induction h with
  | nil => intro p _; simp [callUnits32, given]
  | cons x h ih =>
    intro p hp
    cases x with
    | endCp => simp only [callUnits32, given, List.length_cons]; have := ih p hp; omega
    | unit v =>
      match p, hp with
      | [], _ => simp only [callUnits32, List.length_cons]; have := ih ([] ++ [v]) (by simp); simp at this ⊢; omega
      | [a], _ => simp only [callUnits32, List.length_cons]; have := ih ([a] ++ [v]) (by simp); simp at this ⊢; omega
      | [a, b], _ => simp only [callUnits32, List.length_cons]; have := ih ([a, b] ++ [v]) (by simp); simp at this ⊢; omega
      | [a, b, c], _ => simp only [callUnits32, given, List.length_cons]; have := ih [] (by simp); simp at this ⊢; omega
      | a :: b :: c :: d :: p, hp => simp at hp; omega

theorem calls_given {f : Nat → List ο} {g : Nat → Bool} (S : Simple T32 f g) (hf : ∀ c, (f c).length ≤ m) : ∀ (h : List (Call Nat)) (st st' : T32.σ) (out : List ο),
    calls T32 st h = .ok (st', out) → out.length ≤ m * (given h).length := by
  intro h
  induction h with
  | nil =>
    intro st st' out hc
    obtain ⟨_, rfl⟩ := calls_nil_inv hc
    simp
  | cons x h ih =>
    intro st st' out hc
    cases x with
    | unit c =>
      obtain ⟨st1, o, os, h1, h2, rfl⟩ := calls_unit_inv hc
      have a := (rationed32 S hf).step _ _ _ _ h1
      have b := ih _ _ _ h2
      simp only [given, List.length_cons, List.length_append, Nat.mul_succ]
      omega
    | endCp =>
      obtain ⟨st1, o, os, h1, h2, rfl⟩ := calls_end_inv hc
      rw [S.end_] at h1
      obtain ⟨_, rfl⟩ := ok_pair h1
      exact ih _ _ _ h2

theorem same_out {ι : Type} {T : Transcoder ι ο} {h : List (Call UInt8)} {l : List (Call ι)} {e : Encoding} (hA : SameAs T8 T16 T32 h T l e)
    {st : StX T8 T16 T32} {out : List ο} (hc : calls (tX T8 T16 T32) (tX T8 T16 T32).init h = .ok (st, out)) : ∃ t, calls T T.init l = .ok (t, out) := by
  obtain ⟨st', t, o, h1, h2, _⟩ := hA
  rw [h1] at hc
  obtain ⟨_, rfl⟩ := ok_pair hc
  exact ⟨t, h2⟩

theorem callsX_room {w8 : T8.σ → Nat} {w16 : T16.σ → Nat} {f : Nat → List ο} {g : Nat → Bool} (R8 : Rationed T8 k w8) (R16 : Rationed T16 k w16)
    (S : Simple T32 f g) (hf : ∀ c, (f c).length ≤ 4 * k) (hA : ∀ h, Amounts T8 T16 T32 h (callContent h)) (h : List (Call UInt8)) (st : StX T8 T16 T32)
    (out : List ο) (hc : calls (tX T8 T16 T32) (tX T8 T16 T32).init h = .ok (st, out)) : out.length ≤ k * h.length := by
  have hA := hA h
  have c8 : ∀ {l e}, SameAs T8 T16 T32 h T8 l e → l.length ≤ h.length → out.length ≤ k * h.length := by
    intro l e hs hl
    obtain ⟨t, ht⟩ := same_out hs hc
    have := R8.calls _ _ _ _ ht
    rw [R8.init] at this
    have := Nat.mul_le_mul_left k hl
    omega
  have c16 : ∀ {l e}, SameAs T8 T16 T32 h T16 l e → l.length ≤ h.length → out.length ≤ k * h.length := by
    intro l e hs hl
    obtain ⟨t, ht⟩ := same_out hs hc
    have := R16.calls _ _ _ _ ht
    rw [R16.init] at this
    have := Nat.mul_le_mul_left k hl
    omega
  have c32 : ∀ {big e}, SameAs T8 T16 T32 h T32 (callUnits32 big [] (h.drop 4)) e → out.length ≤ k * h.length := by
    intro big e hs
    obtain ⟨t, ht⟩ := same_out hs hc
    have a := calls_given S hf _ _ _ _ ht
    have b := given_units32 big (h.drop 4) [] (by simp)
    rw [List.length_drop, List.length_nil] at b
    have c := Nat.mul_le_mul_left k (show 4 * (given (callUnits32 big [] (h.drop 4))).length ≤ h.length by omega)
    rw [← Nat.mul_assoc, Nat.mul_comm k 4] at c
    omega
  have hd : ∀ n, (h.drop n).length ≤ h.length := fun n => by rw [List.length_drop]; omega
  unfold callContent at hA
  by_cases h1 : [0xEF, 0xBB, 0xBF] <+: lead h
  · rw [if_pos h1] at hA; exact c8 hA (hd 3)
  rw [if_neg h1] at hA
  by_cases h2 : [0xFE, 0xFF] <+: lead h
  · rw [if_pos h2] at hA; exact c16 hA (Nat.le_trans (given_units16 _ _ _) (hd 2))
  rw [if_neg h2] at hA
  by_cases h3 : [0x00, 0x00, 0xFE, 0xFF] <+: lead h
  · rw [if_pos h3] at hA; exact c32 hA
  rw [if_neg h3] at hA
  by_cases h4 : [0xFF, 0xFE, 0x00, 0x00] <+: lead h
  · rw [if_pos h4] at hA; exact c32 hA
  rw [if_neg h4] at hA
  by_cases h5 : [0xFF, 0xFE] <+: lead h ∧ 2 < (lead h).length ∧ (lead h)[2]? ≠ some 0
  · rw [if_pos h5] at hA; exact c16 hA (Nat.le_trans (given_units16 _ _ _) (hd 2))
  rw [if_neg h5] at hA
  by_cases h6 : ∃ m ∈ marks, lead h <+: m
  · rw [if_pos h6] at hA
    have hl : h.length = (lead h).length + (afterLead h).length := by
      have := congrArg List.length (lead_after h)
      rwa [List.length_append, List.length_map] at this
    by_cases h7 : afterLead h = []
    · rw [if_pos h7] at hA
      obtain ⟨st', h8, _⟩ := hA
      rw [h8] at hc
      obtain ⟨_, rfl⟩ := ok_pair hc
      simp
    · rw [if_neg h7] at hA
      have hp : 0 < (afterLead h).length := List.length_pos_iff.2 h7
      by_cases h8 : lead h = []
      · rw [if_pos h8] at hA
        exact c8 hA (by rw [List.length_tail]; omega)
      · rw [if_neg h8] at hA
        exact c8 hA (by simp only [List.length_append, List.length_map, List.length_tail, List.length_cons, List.length_nil]; omega)
  · rw [if_neg h6] at hA; exact c8 hA (Nat.le_refl _)

/-- The states in which the encoding is known pass a call on. -/
theorem stepX_kinds {st st' : StX T8 T16 T32} {v : UInt8} {o : List ο} (hr : isRunMode st.state = true) (h : stepX st v = .ok (st', o)) :
    o = [] ∨ (∃ t t', T8.step t v = .ok (t', o)) ∨ (∃ t u t', T16.step t u = .ok (t', o)) ∨ ∃ t u t', T32.step t u = .ok (t', o) := by
  have hb : ∀ {st : StX T8 T16 T32}, runByte st v = .ok (st', o) → o = [] := by
    intro st h
    simp only [runByte, bind, Except.bind] at h
    split at h
    · simp at h
    · split at h
      · simp at h
      · exact (ok_pair h).2.symm
  have h16 : ∀ {st : StX T8 T16 T32}, Icu.run16 st v = .ok (st', o) → ∃ t u t', T16.step t u = .ok (t', o) := by
    intro st h
    simp only [Icu.run16, bind, Except.bind] at h
    split at h
    · simp at h
    · split at h
      · split at h
        · simp at h
        · split at h
          · simp at h
          · rename_i x hx
            split at h
            · simp at h
            · exact ⟨_, _, x.1, by rw [hx, ← (ok_pair h).2]⟩
      · simp at h
  have h32 : ∀ {st : StX T8 T16 T32}, Icu.run32 st v = .ok (st', o) → ∃ t u t', T32.step t u = .ok (t', o) := by
    intro st h
    simp only [Icu.run32, bind, Except.bind] at h
    split at h
    · simp at h
    · split at h
      · split at h
        all_goals
          split at h
          · simp at h
          · split at h
            · simp at h
            · rename_i x hx
              split at h
              · simp at h
              · exact ⟨_, _, x.1, by rw [hx, ← (ok_pair h).2]⟩
      · simp at h
  obtain ⟨s, buf, var⟩ := st
  cases s with
  | run_8 =>
    cases var with
    | v8 t =>
      simp only [stepX, bind, Except.bind] at h
      split at h
      · simp at h
      · rename_i x hx
        exact Or.inr (Or.inl ⟨t, x.1, by rw [hx, ← (ok_pair h).2]⟩)
    | mono => simp [stepX] at h
    | v16 t => simp [stepX] at h
    | v32 t => simp [stepX] at h
  | run_16be_byte1 => exact Or.inr (Or.inr (Or.inl (h16 h)))
  | run_16le_byte1 => exact Or.inr (Or.inr (Or.inl (h16 h)))
  | run_32be_byte3 => exact Or.inr (Or.inr (Or.inr (h32 h)))
  | run_32le_byte3 => exact Or.inr (Or.inr (Or.inr (h32 h)))
  | run_16be_byte0 => exact Or.inl (hb h)
  | run_16le_byte0 => exact Or.inl (hb h)
  | run_32be_byte0 => exact Or.inl (hb h)
  | run_32be_byte1 => exact Or.inl (hb h)
  | run_32be_byte2 => exact Or.inl (hb h)
  | run_32le_byte0 => exact Or.inl (hb h)
  | run_32le_byte1 => exact Or.inl (hb h)
  | run_32le_byte2 => exact Or.inl (hb h)
  | _ => exact absurd hr (by dsimp only; decide +kernel)

theorem endX_kinds {st st' : StX T8 T16 T32} {o : List ο} (hr : isRunMode st.state = true) (h : endCpX st = .ok (st', o)) :
    (∃ t t', T8.endCp t = .ok (t', o)) ∨ (∃ t t', T16.endCp t = .ok (t', o)) ∨ ∃ t t', T32.endCp t = .ok (t', o) := by
  obtain ⟨s, buf, var⟩ := st
  cases var with
  | mono => simp [endCpX, run8Start, show isRunMode s = true from hr] at h
  | v8 t =>
    simp only [endCpX, bind, Except.bind] at h
    split at h
    · simp at h
    · rename_i x hx
      exact Or.inl ⟨t, x.1, by rw [hx, ← (ok_pair h).2]⟩
  | v16 t =>
    simp only [endCpX, bind, Except.bind] at h
    split at h
    · simp at h
    · rename_i x hx
      exact Or.inr (Or.inl ⟨t, x.1, by rw [hx, ← (ok_pair h).2]⟩)
  | v32 t =>
    simp only [endCpX, bind, Except.bind] at h
    split at h
    · simp at h
    · rename_i x hx
      exact Or.inr (Or.inr ⟨t, x.1, by rw [hx, ← (ok_pair h).2]⟩)

/-- Texts of which a mark may come. -/
def openTexts : List Str := [] :: partialMarks

theorem prefix_open {s : Str} (h : ∃ m ∈ marks, s <+: m) (h1 : ¬ [0xEF, 0xBB, 0xBF] <+: s) (h2 : ¬ [0xFE, 0xFF] <+: s)
    (h3 : ¬ [0x00, 0x00, 0xFE, 0xFF] <+: s) (h4 : ¬ [0xFF, 0xFE, 0x00, 0x00] <+: s) : s ∈ openTexts := by
  have key : (marks.all fun m => (List.range 5).all fun n => decide (¬ [0xEF, 0xBB, 0xBF] <+: m.take n → ¬ [0xFE, 0xFF] <+: m.take n →
      ¬ [0x00, 0x00, 0xFE, 0xFF] <+: m.take n → ¬ [0xFF, 0xFE, 0x00, 0x00] <+: m.take n → m.take n ∈ openTexts)) = true := by decide +kernel
  obtain ⟨m, hm, hs⟩ := h
  have e := List.prefix_iff_eq_take.1 hs
  have hl : s.length ≤ 4 := by
    have h5 := hs.length_le
    have : ∀ m ∈ marks, m.length ≤ 4 := by decide
    exact Nat.le_trans h5 (this m hm)
  have := of_decide_eq_true (List.all_eq_true.1 (List.all_eq_true.1 key m hm) s.length (by simp; omega))
  rw [← e] at this
  exact this h1 h2 h3 h4

/-- A transcoder that does not know the encoding yet has been given the beginning of a mark, and nothing else. -/
theorem open_calls (hA : ∀ h, Amounts T8 T16 T32 h (callContent h)) {h : List (Call UInt8)} {st : StX T8 T16 T32} {o : List ο}
    (hc : calls (tX T8 T16 T32) (tX T8 T16 T32).init h = .ok (st, o)) (hr : isRunMode st.state = false) : ∃ p ∈ openTexts, h = p.map .unit := by
  have hA := hA h
  have hu : selectedEncoding st = .ok .unknown := by simp [selectedEncoding, hr]
  have no : ∀ {ι : Type} {T : Transcoder ι ο} {l : List (Call ι)} {e : Encoding}, e ≠ .unknown → ¬ SameAs T8 T16 T32 h T l e := by
    intro ι T l e he hs
    obtain ⟨st', t, o', h1, _, _, _, h2⟩ := hs
    rw [h1] at hc
    obtain ⟨rfl, _⟩ := ok_pair hc
    rw [hu] at h2
    exact he (Except.ok.inj h2).symm
  unfold callContent at hA
  by_cases h1 : [0xEF, 0xBB, 0xBF] <+: lead h
  · rw [if_pos h1] at hA; exact absurd hA (no (by simp))
  rw [if_neg h1] at hA
  by_cases h2 : [0xFE, 0xFF] <+: lead h
  · rw [if_pos h2] at hA; exact absurd hA (no (by simp))
  rw [if_neg h2] at hA
  by_cases h3 : [0x00, 0x00, 0xFE, 0xFF] <+: lead h
  · rw [if_pos h3] at hA; exact absurd hA (no (by simp))
  rw [if_neg h3] at hA
  by_cases h4 : [0xFF, 0xFE, 0x00, 0x00] <+: lead h
  · rw [if_pos h4] at hA; exact absurd hA (no (by simp))
  rw [if_neg h4] at hA
  by_cases h5 : [0xFF, 0xFE] <+: lead h ∧ 2 < (lead h).length ∧ (lead h)[2]? ≠ some 0
  · rw [if_pos h5] at hA; exact absurd hA (no (by simp))
  rw [if_neg h5] at hA
  by_cases h6 : ∃ m ∈ marks, lead h <+: m
  · rw [if_pos h6] at hA
    by_cases h7 : afterLead h = []
    · refine ⟨lead h, prefix_open h6 h1 h2 h3 h4, ?_⟩
      have := lead_after h
      rwa [h7, List.append_nil] at this
    · rw [if_neg h7] at hA
      by_cases h8 : lead h = []
      · rw [if_pos h8] at hA; exact absurd hA (no (by simp))
      · rw [if_neg h8] at hA; exact absurd hA (no (by simp))
  · rw [if_neg h6] at hA; exact absurd hA (no (by simp))

/-- The number of code units that a sequence of calls writes. -/
def written (T : Transcoder UInt8 ο) (h : List (Call UInt8)) : Nat :=
  match calls T T.init h with
  | .ok r => r.2.length
  | .error _ => 0

theorem perCallX (C8 : Capped T8 m) (C16 : Capped T16 m) (C32 : Capped T32 m) (hA : ∀ h, Amounts T8 T16 T32 h (callContent h))
    (ho : ∀ p ∈ openTexts, (∀ v, written (tX T8 T16 T32) (p.map .unit ++ [.unit v]) ≤ m) ∧ written (tX T8 T16 T32) (p.map .unit ++ [.endCp]) ≤ m)
    {h : List (Call UInt8)} {x : Call UInt8} {st st' : StX T8 T16 T32} {o o' : List ο} (hc : calls (tX T8 T16 T32) (tX T8 T16 T32).init h = .ok (st, o))
    (hx : calls (tX T8 T16 T32) st [x] = .ok (st', o')) : o'.length ≤ m := by
  cases hr : isRunMode st.state with
  | true =>
    rcases calls_one hx with ⟨c, _, h3⟩ | ⟨_, h3⟩
    · rcases stepX_kinds hr h3 with rfl | ⟨t, t', h4⟩ | ⟨t, u, t', h4⟩ | ⟨t, u, t', h4⟩
      · simp
      · exact C8.step _ _ _ _ h4
      · exact C16.step _ _ _ _ h4
      · exact C32.step _ _ _ _ h4
    · rcases endX_kinds hr h3 with ⟨t, t', h4⟩ | ⟨t, t', h4⟩ | ⟨t, t', h4⟩
      · exact C8.end_ _ _ _ h4
      · exact C16.end_ _ _ _ h4
      · exact C32.end_ _ _ _ h4
  | false =>
    obtain ⟨p, hp, rfl⟩ := open_calls hA hc hr
    have hw : (o ++ o').length ≤ m := by
      have hcx := calls_append hc hx
      have := ho p hp
      cases x with
      | unit v =>
        have := this.1 v
        unfold written at this
        rwa [hcx] at this
      | endCp =>
        have := this.2
        unfold written at this
        rwa [hcx] at this
    rw [List.length_append] at hw
    omega

end

/-- `k` code units of room for each call are enough for any sequence of calls; for a text, `k` for each byte and one more,
which is only needed by some beginnings of marks. -/
def RoomBytes {ο : Type} (T : Transcoder UInt8 ο) (k : Nat) : Prop :=
  (∀ s st out, T.run s = .ok (st, out) → out.length ≤ k * s.length + 1 ∧
    (s ∉ ([[0xFE], [0xFF], [0xFF, 0xFE], [0xFF, 0xFE, 0], [0], [0, 0], [0, 0, 0xFE]] : List Str) → out.length ≤ k * s.length)) ∧
  (∀ h st out, calls T T.init h = .ok (st, out) → out.length ≤ k * h.length) ∧
  (∀ n, ∃ s st out, s.length = n ∧ T.run s = .ok (st, out) ∧ out.length = k * n)

section
variable {ο : Type} {T8 : Transcoder UInt8 ο} {T16 : Transcoder UInt16 ο} {T32 : Transcoder Nat ο} {k : Nat}

theorem units16_len (big : Bool) : ∀ s : Str, (units16 big s).length ≤ s.length := by
  intro s
  obtain ⟨t, _, h⟩ := units16_split big s
  have h2 : ∀ us : List UInt16, (us.flatMap (bytes16 big)).length = 2 * us.length := by
    intro us
    induction us with
    | nil => rfl
    | cons u us ih =>
      rw [List.flatMap_cons, List.length_append, ih, show (bytes16 big u).length = 2 by cases big <;> rfl, List.length_cons]
      omega
  have h3 := congrArg List.length h
  rw [List.length_append, h2] at h3
  omega

theorem units32_len (big : Bool) : ∀ s : Str, 4 * (units32 big s).length ≤ s.length := by
  intro s
  obtain ⟨⟨t, _, h⟩, _⟩ := units32_split big s
  have h2 : ∀ us : List Nat, (us.flatMap (bytes32 big)).length = 4 * us.length := by
    intro us
    induction us with
    | nil => rfl
    | cons u us ih =>
      rw [List.flatMap_cons, List.length_append, ih, show (bytes32 big u).length = 4 by cases big <;> rfl, List.length_cons]
      omega
  have h3 := congrArg List.length h
  rw [List.length_append, h2] at h3
  omega

/-- What a text is made into fits, unless it is only the beginning of a mark. -/
theorem runX_room {w8 : T8.σ → Nat} {w16 : T16.σ → Nat} {I8 : T8.σ → Prop} {I16 : T16.σ → Prop} {f : Nat → List ο} {g : Nat → Bool}
    (R8 : Rationed T8 k w8) (R16 : Rationed T16 k w16) (L8 : Total T8 I8) (L16 : Total T16 I16)
    (S : Simple T32 f g) (hf : ∀ c, (f c).length ≤ 4 * k) (hD : ∀ s, Delivers T8 T16 T32 s (contentBuilt s)) {s : Str} {st : StX T8 T16 T32} {out : List ο}
    (hr : (tX T8 T16 T32).run s = .ok (st, out)) (hs : s ∉ partialMarks) : out.length ≤ k * s.length := by
  have hD := hD s
  have go : ∀ {ι : Type} {T : Transcoder ι ο} {u : List ι} {e : Encoding}, Converts T8 T16 T32 s T u e → (∃ t o, T.run u = .ok (t, o)) → ∃ t, T.run u = .ok (t, out) := by
    intro ι T u e hc ⟨t, o, ht⟩
    obtain ⟨stx, h1, _⟩ := hc t o ht
    rw [h1] at hr
    rw [(ok_pair hr).2] at ht
    exact ⟨t, ht⟩
  have c8 : ∀ {u e}, Converts T8 T16 T32 s T8 u e → u.length ≤ s.length → out.length ≤ k * s.length := by
    intro u e hc hl
    obtain ⟨t, ht⟩ := go hc (L8.run u)
    exact Nat.le_trans (R8.run ht) (Nat.mul_le_mul_left k hl)
  have c16 : ∀ {u e}, Converts T8 T16 T32 s T16 u e → u.length ≤ s.length → out.length ≤ k * s.length := by
    intro u e hc hl
    obtain ⟨t, ht⟩ := go hc (L16.run u)
    exact Nat.le_trans (R16.run ht) (Nat.mul_le_mul_left k hl)
  have c32 : ∀ {u e}, Converts T8 T16 T32 s T32 u e → 4 * u.length ≤ s.length → out.length ≤ k * s.length := by
    intro u e hc hl
    obtain ⟨t, ht⟩ := go hc (S.lawful.total.run u)
    have a := (rationed32 S hf).run ht
    have c := Nat.mul_le_mul_left k hl
    rw [← Nat.mul_assoc, Nat.mul_comm k 4] at c
    omega
  have hd : ∀ n, (s.drop n).length ≤ s.length := fun n => by rw [List.length_drop]; omega
  unfold contentBuilt at hD
  by_cases h1 : [0xEF, 0xBB, 0xBF] <+: s
  · rw [if_pos h1] at hD; exact c8 hD (hd 3)
  rw [if_neg h1] at hD
  by_cases h2 : [0xFE, 0xFF] <+: s
  · rw [if_pos h2] at hD; exact c16 hD (Nat.le_trans (units16_len _ _) (hd 2))
  rw [if_neg h2] at hD
  by_cases h3 : [0x00, 0x00, 0xFE, 0xFF] <+: s
  · rw [if_pos h3] at hD; exact c32 hD (Nat.le_trans (units32_len _ _) (hd 4))
  rw [if_neg h3] at hD
  by_cases h4 : [0xFF, 0xFE, 0x00, 0x00] <+: s
  · rw [if_pos h4] at hD; exact c32 hD (by rw [List.length_map]; exact Nat.le_trans (units32_len _ _) (hd 4))
  rw [if_neg h4] at hD
  by_cases h5 : [0xFF, 0xFE] <+: s ∧ 2 < s.length ∧ s[2]? ≠ some 0
  · rw [if_pos h5] at hD; exact c16 hD (Nat.le_trans (units16_len _ _) (hd 2))
  rw [if_neg h5] at hD
  by_cases h6 : s ≠ [] ∧ ∃ m ∈ marks, s <+: m
  · have := prefix_open h6.2 h1 h2 h3 h4
    rcases List.mem_cons.1 this with h7 | h7
    · exact absurd h7 h6.1
    · exact absurd h7 hs
  · rw [if_neg h6] at hD; exact c8 hD (Nat.le_refl _)

theorem run_written {T : Transcoder UInt8 ο} {s : Str} {st : T.σ} {out : List ο} (h : T.run s = .ok (st, out)) :
    written T (s.map .unit ++ [.endCp]) = out.length := by
  obtain ⟨st', o, e, h1, h2, rfl⟩ := run_inv h
  have := calls_append ((calls_map s _).trans h1) (calls_end h2 (show calls T st [] = .ok (st, []) from rfl))
  rw [List.append_nil] at this
  unfold written
  rw [this]

theorem roomBytes_of {T : Transcoder UInt8 ο} (h1 : ∀ s st out, T.run s = .ok (st, out) → s ∉ partialMarks → out.length ≤ k * s.length)
    (h2 : ∀ h st out, calls T T.init h = .ok (st, out) → out.length ≤ k * h.length)
    (h3 : ∀ p ∈ partialMarks, written T (p.map .unit ++ [.endCp]) ≤ k * p.length + 1)
    (h4 : ∀ p ∈ ([[0xEF], [0xEF, 0xBB]] : List Str), written T (p.map .unit ++ [.endCp]) ≤ k * p.length)
    (hf : ∀ n, ∃ s st out, s.length = n ∧ T.run s = .ok (st, out) ∧ out.length = k * n) : RoomBytes T k := by
  refine ⟨fun s st out h => ?_, h2, hf⟩
  by_cases hs : s ∈ partialMarks
  · rw [← run_written h]
    refine ⟨h3 s hs, fun hn => h4 s ?_⟩
    have : ∀ p ∈ partialMarks, p ∉ ([[0xFE], [0xFF], [0xFF, 0xFE], [0xFF, 0xFE, 0], [0], [0, 0], [0, 0, 0xFE]] : List Str) → p ∈ ([[0xEF], [0xEF, 0xBB]] : List Str) := by
      decide +kernel
    exact this s hs hn
  · have := h1 s st out h hs
    exact ⟨by omega, fun _ => this⟩

end

/-- **C90**: how much room the output needs for bytes of unknown encoding. -/
theorem C90_bytes : RoomBytes tx_8 3 ∧ RoomBytes tx_16 1 ∧ RoomBytes tx_32 1 :=
  ⟨roomBytes_of (fun s st out h hs => runX_room rationed8_8 rationed16_8 lawful8_8.total lawful16_8.total simple32_8 (fun _ => Nat.le_trans (utf8_len _) (by omega))
        (fun s => (C46_exact s).1) h hs)
      (fun h st out hc => callsX_room rationed8_8 rationed16_8 simple32_8 (fun _ => Nat.le_trans (utf8_len _) (by omega)) (fun h => (C69_exact h).1) h st out hc)
      (by decide +kernel) (by decide +kernel) (full (c := 0x80) (o := [0xEF, 0xBF, 0xBD]) rfl rfl rfl rfl rfl),
    roomBytes_of (fun s st out h hs => runX_room rationed8_16 rationed16_16 lawful8_16.total lawful16_16.total simple32_16 (fun _ => Nat.le_trans (utf16_len _) (by omega))
        (fun s => (C46_exact s).2.1) h hs)
      (fun h st out hc => callsX_room rationed8_16 rationed16_16 simple32_16 (fun _ => Nat.le_trans (utf16_len _) (by omega)) (fun h => (C69_exact h).2.1) h st out hc)
      (by decide +kernel) (by decide +kernel) (full (c := 0x61) (o := [0x61]) rfl rfl rfl rfl rfl),
    roomBytes_of (fun s st out h hs => runX_room rationed8_32 rationed16_32 lawful8_32.total lawful16_32.total simple32_32 (fun _ => by simp)
        (fun s => (C46_exact s).2.2) h hs)
      (fun h st out hc => callsX_room rationed8_32 rationed16_32 simple32_32 (fun _ => by simp) (fun h => (C69_exact h).2.2) h st out hc)
      (by decide +kernel) (by decide +kernel) (full (c := 0x61) (o := [0x61]) rfl rfl rfl rfl rfl)⟩

/-- Texts of which a mark may come, and one more call: decided by running them. -/
theorem open_written {ο : Type} {T : Transcoder UInt8 ο} {m : Nat}
    (h : (openTexts.all fun p => (List.range 256).all (fun v => decide (written T (p.map .unit ++ [.unit (UInt8.ofNat v)]) ≤ m)) && decide (written T (p.map .unit ++ [.endCp]) ≤ m)) = true) :
    ∀ p ∈ openTexts, (∀ v, written T (p.map .unit ++ [.unit v]) ≤ m) ∧ written T (p.map .unit ++ [.endCp]) ≤ m := by
  intro p hp
  have := List.all_eq_true.1 h p hp
  rw [Bool.and_eq_true] at this
  exact ⟨fun v => of_decide_eq_true (forall_byte (P := fun v => decide (written T (p.map .unit ++ [.unit v]) ≤ m)) this.1 v), of_decide_eq_true this.2⟩

/-- **C90**: the most that one call writes for bytes of unknown encoding: more than the array in the iterator of the view holds. -/
theorem C90_bytes_call : PerCall tx_8 10 ∧ PerCall tx_16 4 ∧ PerCall tx_32 4 ∧ maxOut8 = 4 ∧ maxOut16 = 2 ∧ maxOut32 = 1 :=
  ⟨⟨fun h x st o st' o' hc hx => perCallX ⟨fun _ _ _ _ h => Nat.le_trans (capped8_8.step _ _ _ _ h) (by omega), fun _ _ _ h => Nat.le_trans (capped8_8.end_ _ _ _ h) (by omega)⟩
        ⟨fun _ _ _ _ h => Nat.le_trans (capped16_8.step _ _ _ _ h) (by omega), fun _ _ _ h => Nat.le_trans (capped16_8.end_ _ _ _ h) (by omega)⟩
        ⟨fun _ _ _ _ h => Nat.le_trans (capped32_8.step _ _ _ _ h) (by omega), fun _ _ _ h => Nat.le_trans (capped32_8.end_ _ _ _ h) (by omega)⟩
        (fun h => (C69_exact h).1) (open_written (by decide +kernel)) hc hx,
      [.unit 0xFF, .unit 0xFE, .unit 0], .unit 0xFF, _, _, _, _, rfl, rfl, rfl⟩,
    ⟨fun h x st o st' o' hc hx => perCallX ⟨fun _ _ _ _ h => Nat.le_trans (capped8_16.step _ _ _ _ h) (by omega), fun _ _ _ h => Nat.le_trans (capped8_16.end_ _ _ _ h) (by omega)⟩
        ⟨fun _ _ _ _ h => Nat.le_trans (capped16_16.step _ _ _ _ h) (by omega), fun _ _ _ h => Nat.le_trans (capped16_16.end_ _ _ _ h) (by omega)⟩
        ⟨fun _ _ _ _ h => Nat.le_trans (capped32_16.step _ _ _ _ h) (by omega), fun _ _ _ h => Nat.le_trans (capped32_16.end_ _ _ _ h) (by omega)⟩
        (fun h => (C69_exact h).2.1) (open_written (by decide +kernel)) hc hx,
      [.unit 0xFF, .unit 0xFE, .unit 0], .unit 0xFF, _, _, _, _, rfl, rfl, rfl⟩,
    ⟨fun h x st o st' o' hc hx => perCallX ⟨fun _ _ _ _ h => Nat.le_trans (capped8_32.step _ _ _ _ h) (by omega), fun _ _ _ h => Nat.le_trans (capped8_32.end_ _ _ _ h) (by omega)⟩
        ⟨fun _ _ _ _ h => Nat.le_trans (capped16_32.step _ _ _ _ h) (by omega), fun _ _ _ h => Nat.le_trans (capped16_32.end_ _ _ _ h) (by omega)⟩
        ⟨fun _ _ _ _ h => Nat.le_trans (capped32_32.step _ _ _ _ h) (by omega), fun _ _ _ h => Nat.le_trans (capped32_32.end_ _ _ _ h) (by omega)⟩
        (fun h => (C69_exact h).2.2) (open_written (by decide +kernel)) hc hx,
      [.unit 0xFF, .unit 0xFE, .unit 0], .unit 0xFF, _, _, _, _, rfl, rfl, rfl⟩, rfl, rfl, rfl⟩

/-- "é", malformed UTF-8, and a lone byte FE, with the sizes of what becomes of them. -/
example : (t8_8.run [0xC3, 0xA9]).map (fun r => r.2.length) = .ok 2 ∧ (t8_8.run [0xFF, 0xC3]).map (fun r => r.2.length) = .ok 6 ∧
    (t16_8.run [0xD83D, 0xFFFF]).map (fun r => r.2.length) = .ok 6 ∧ (tx_8.run [0xFE]).map (fun r => r.2.length) = .ok 4 := by decide +kernel

end Verif
