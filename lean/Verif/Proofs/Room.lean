import Verif.Proofs.ByteCalls

/-!
# How much a transcoder writes

A potential argument: what is pending in a state is at most `w` code units of output, and a call writes at most `k` more than
it takes from what is pending.
-/

namespace Verif.Icu
open Verif.Unicode

/-- A call writes at most `k` code units more than it takes from what is pending; `end_cp` writes what is pending. -/
structure Rationed {ι ο : Type} (T : Transcoder ι ο) (k : Nat) (w : T.σ → Nat) : Prop where
  init : w T.init = 0
  step : ∀ st c st' o, T.step st c = .ok (st', o) → o.length + w st' ≤ k + w st
  end_ : ∀ st st' e, T.endCp st = .ok (st', e) → e.length ≤ w st ∧ e.length + w st' ≤ k + w st

section
variable {ι ο : Type} {T : Transcoder ι ο} {k : Nat} {w : T.σ → Nat}

theorem Rationed.calls (R : Rationed T k w) : ∀ (h : List (Call ι)) (st st' : T.σ) (out : List ο), calls T st h = .ok (st', out) →
    out.length + w st' ≤ k * h.length + w st := by
  intro h
  induction h with
  | nil =>
    intro st st' out hc
    obtain ⟨rfl, rfl⟩ := calls_nil_inv hc
    simp
  | cons x h ih =>
    intro st st' out hc
    have key : ∀ (st1 : T.σ) (o os : List ο), o.length + w st1 ≤ k + w st → os.length + w st' ≤ k * h.length + w st1 →
        (o ++ os).length + w st' ≤ k * (x :: h).length + w st := by
      intro st1 o os h1 h2
      rw [List.length_append, List.length_cons, Nat.mul_succ]
      omega
    cases x with
    | unit c =>
      obtain ⟨st1, o, os, h1, h2, rfl⟩ := calls_unit_inv hc
      exact key st1 o os (R.step _ _ _ _ h1) (ih _ _ _ h2)
    | endCp =>
      obtain ⟨st1, o, os, h1, h2, rfl⟩ := calls_end_inv hc
      exact key st1 o os (R.end_ _ _ _ h1).2 (ih _ _ _ h2)

theorem run_inv {s : List ι} {st : T.σ} {out : List ο} (h : T.run s = .ok (st, out)) :
    ∃ st' o e, T.feed T.init s = .ok (st', o) ∧ T.endCp st' = .ok (st, e) ∧ out = o ++ e := by
  simp only [Transcoder.run, bind, Except.bind] at h
  split at h
  · simp at h
  · rename_i v hv
    split at h
    · simp at h
    · rename_i x hx
      obtain ⟨rfl, rfl⟩ := ok_pair h
      exact ⟨v.1, v.2, x.2, hv, hx, rfl⟩

theorem Rationed.run (R : Rationed T k w) {s : List ι} {st : T.σ} {out : List ο} (h : T.run s = .ok (st, out)) : out.length ≤ k * s.length := by
  obtain ⟨st', o, e, h1, h2, rfl⟩ := run_inv h
  have a := R.calls (s.map .unit) _ _ _ ((calls_map s _).trans h1)
  have b := (R.end_ _ _ _ h2).1
  rw [R.init, List.length_map] at a
  rw [List.length_append]
  omega

end

/-! ### From UTF-8 and UTF-16 to UTF-32 -/

/-- Something is pending. -/
def due8 (k : Nat) (st : St8) : Nat := if st.state = accept then 0 else k
/-- Something is pending. -/
def due16 (k : Nat) (st : St16) : Nat := if st.hasHigh then k else 0

/-- What a call of the transcoder from UTF-8 to UTF-32 writes. -/
theorem step8_kinds {st st' : St8} {c : UInt8} {o : List Nat} (h : step8to32 st c = .ok (st', o)) :
    (o = [] ∧ st'.state ≠ accept) ∨ (o = [0xFFFD] ∧ st'.state = accept) ∨ (∃ cp, o = [cp] ∧ st'.state = accept ∧ (st.state = accept → cp < 0x80)) := by
  have low : ∀ b : UInt8, ∀ t u, utf8At b.toNat = .ok t → utf8At (256 + accept + t) = .ok u → u % 2 ^ 8 = accept → ((0xFF >>> t) &&& b.toNat) % 2 ^ 21 < 0x80 := by
    intro b
    have := forall_byte (P := fun b => match utf8At b.toNat with
      | .ok t => match utf8At (256 + accept + t) with
        | .ok u => decide (u % 2 ^ 8 = accept → ((0xFF >>> t) &&& b.toNat) % 2 ^ 21 < 0x80)
        | .error _ => true
      | .error _ => true) (by decide +kernel) b
    intro t u h1 h2
    simp only [h1, h2] at this
    exact of_decide_eq_true this
  simp only [step8to32, bind, Except.bind] at h
  split at h
  · simp at h
  · rename_i t ht
    split at h
    · simp at h
    · rename_i u hu
      by_cases h1 : u % 2 ^ 8 = accept
      · rw [if_pos h1] at h
        obtain ⟨rfl, rfl⟩ := ok_pair h
        refine Or.inr (Or.inr ⟨_, rfl, h1, fun hs => ?_⟩)
        rw [if_neg (by simp [hs])]
        exact low c t u ht (by rw [← hs]; exact hu) h1
      · rw [if_neg h1] at h
        by_cases h2 : u % 2 ^ 8 = reject
        · rw [if_pos h2] at h
          obtain ⟨rfl, rfl⟩ := ok_pair h
          exact Or.inr (Or.inl ⟨rfl, rfl⟩)
        · rw [if_neg h2] at h
          obtain ⟨rfl, rfl⟩ := ok_pair h
          exact Or.inl ⟨rfl, h1⟩

theorem end8_kinds {st st' : St8} {o : List Nat} (h : endCp8to32 st = .ok (st', o)) :
    (o = [] ∧ st' = st) ∨ (o = [0xFFFD] ∧ st.state ≠ accept ∧ st'.state ≠ accept) := by
  unfold endCp8to32 at h
  by_cases h1 : st.state = accept
  · rw [if_neg (by simp [h1])] at h
    obtain ⟨rfl, rfl⟩ := ok_pair h
    exact Or.inl ⟨rfl, rfl⟩
  · rw [if_pos h1] at h
    obtain ⟨rfl, rfl⟩ := ok_pair h
    exact Or.inr ⟨rfl, h1, show reject ≠ accept by decide⟩

/-- What a call of the transcoder from UTF-16 to UTF-32 writes. -/
theorem step16_kinds {st st' : St16} {c : UInt16} {o : List Nat} (h : step16to32 st c = .ok (st', o)) :
    (o = [] ∧ st.hasHigh = false) ∨ (o = [0xFFFD] ∧ st'.hasHigh = st.hasHigh) ∨ (∃ cp, o = [cp] ∧ cp < 0x10000 ∧ st.hasHigh = false ∧ st'.hasHigh = false) ∨
      (∃ cp, o = [cp] ∧ st.hasHigh = true ∧ st'.hasHigh = false) ∨ (∃ cp, o = [0xFFFD, cp] ∧ cp < 0x10000 ∧ st.hasHigh = true ∧ st'.hasHigh = false) := by
  have hlt := c.toNat_lt
  unfold step16to32 at h
  cases hh : st.hasHigh with
  | false =>
    rw [hh] at h
    simp only [if_true, bind, Except.bind] at h
    by_cases h1 : isHighSurrogate c.toNat = true
    · rw [if_pos h1] at h
      split at h
      · simp at h
      · obtain ⟨rfl, rfl⟩ := ok_pair h
        exact Or.inl ⟨rfl, rfl⟩
    · rw [if_neg h1] at h
      by_cases h2 : isLowSurrogate c.toNat = true
      · rw [if_pos h2] at h
        obtain ⟨rfl, rfl⟩ := ok_pair h
        exact Or.inr (Or.inl ⟨rfl, rfl⟩)
      · rw [if_neg h2] at h
        obtain ⟨rfl, rfl⟩ := ok_pair h
        exact Or.inr (Or.inr (Or.inl ⟨_, rfl, by omega, rfl, hh⟩))
  | true =>
    rw [hh] at h
    simp only [Bool.true_eq_false, if_false, bind, Except.bind] at h
    by_cases h2 : isLowSurrogate c.toNat = true
    · rw [if_pos h2] at h
      obtain ⟨rfl, rfl⟩ := ok_pair h
      exact Or.inr (Or.inr (Or.inr (Or.inl ⟨_, rfl, rfl, rfl⟩)))
    · rw [if_neg h2] at h
      by_cases h1 : isHighSurrogate c.toNat = true
      · rw [if_pos h1] at h
        split at h
        · simp at h
        · obtain ⟨rfl, rfl⟩ := ok_pair h
          exact Or.inr (Or.inl ⟨rfl, rfl⟩)
      · rw [if_neg h1] at h
        obtain ⟨rfl, rfl⟩ := ok_pair h
        exact Or.inr (Or.inr (Or.inr (Or.inr ⟨_, rfl, by omega, rfl, rfl⟩)))

theorem end16_kinds {st st' : St16} {o : List Nat} (h : endCp16to32 st = .ok (st', o)) :
    (o = [] ∧ st' = st) ∨ (o = [0xFFFD] ∧ st.hasHigh = true ∧ st'.hasHigh = false) := by
  unfold endCp16to32 at h
  cases h1 : st.hasHigh with
  | false =>
    rw [if_neg (by simp [h1])] at h
    obtain ⟨rfl, rfl⟩ := ok_pair h
    exact Or.inl ⟨rfl, rfl⟩
  | true =>
    rw [if_pos h1] at h
    obtain ⟨rfl, rfl⟩ := ok_pair h
    exact Or.inr ⟨rfl, rfl, rfl⟩

/-! ### Through UTF-32 -/

section
variable {ι ο : Type} {A : Transcoder ι Nat} {B : Transcoder Nat ο} {f : Nat → List ο} {g : Nat → Bool} {cap : Nat}

theorem tri_step_inv (S : Simple B f g) {st st' : A.σ × B.σ} {c : ι} {o : List ο} (h : (triangulator cap A B).step st c = .ok (st', o)) :
    ∃ mid, A.step st.1 c = .ok (st'.1, mid) ∧ o = mid.flatMap f := by
  simp only [triangulator, bind, Except.bind] at h
  split at h
  · simp at h
  · rename_i v hv
    by_cases hl : v.2.length > cap
    · rw [if_pos hl] at h; simp at h
    · rw [if_neg hl] at h
      obtain ⟨b', h1, _⟩ := S.feed v.2 st.2
      simp only [triCopy, bind, Except.bind, h1] at h
      obtain ⟨rfl, rfl⟩ := ok_pair h
      exact ⟨_, hv, rfl⟩

theorem tri_end_inv (S : Simple B f g) {st st' : A.σ × B.σ} {o : List ο} (h : (triangulator cap A B).endCp st = .ok (st', o)) :
    ∃ mid, A.endCp st.1 = .ok (st'.1, mid) ∧ o = mid.flatMap f := by
  simp only [triangulator, bind, Except.bind] at h
  split at h
  · simp at h
  · rename_i v hv
    by_cases hl : v.2.length > cap
    · rw [if_pos hl] at h; simp at h
    · rw [if_neg hl] at h
      obtain ⟨b', h1, _⟩ := S.feed v.2 st.2
      simp only [triCopy, bind, Except.bind, h1, S.end_, List.append_nil] at h
      obtain ⟨rfl, rfl⟩ := ok_pair h
      exact ⟨_, hv, rfl⟩

end

section
variable {ο : Type} {f : Nat → List ο} {k : Nat}

theorem step8_ration (hr : (f 0xFFFD).length ≤ k) (ha : ∀ c, c < 0x80 → (f c).length ≤ k) (hf : ∀ c, (f c).length ≤ k + k)
    {st st' : St8} {c : UInt8} {o : List Nat} (h : step8to32 st c = .ok (st', o)) : (o.flatMap f).length + due8 k st' ≤ k + due8 k st := by
  rcases step8_kinds h with ⟨rfl, h1⟩ | ⟨rfl, h1⟩ | ⟨cp, rfl, h1, h2⟩
  · simp only [due8, if_neg h1, List.flatMap_nil, List.length_nil]; omega
  · simp only [due8, if_pos h1, List.flatMap_cons, List.flatMap_nil, List.append_nil]; omega
  · simp only [due8, if_pos h1, List.flatMap_cons, List.flatMap_nil, List.append_nil]
    by_cases h3 : st.state = accept
    · rw [if_pos h3]; exact Nat.le_trans (ha _ (h2 h3)) (Nat.le_refl _)
    · rw [if_neg h3]; exact hf cp

theorem end8_ration (hr : (f 0xFFFD).length ≤ k) {st st' : St8} {o : List Nat} (h : endCp8to32 st = .ok (st', o)) :
    (o.flatMap f).length ≤ due8 k st ∧ (o.flatMap f).length + due8 k st' ≤ k + due8 k st := by
  rcases end8_kinds h with ⟨rfl, rfl⟩ | ⟨rfl, h1, h2⟩
  · simp
  · simp only [due8, if_neg h1, if_neg h2, List.flatMap_cons, List.flatMap_nil, List.append_nil]; omega

theorem step16_ration (hr : (f 0xFFFD).length ≤ k) (ha : ∀ c, c < 0x10000 → (f c).length ≤ k) (hf : ∀ c, (f c).length ≤ k + k)
    {st st' : St16} {c : UInt16} {o : List Nat} (h : step16to32 st c = .ok (st', o)) : (o.flatMap f).length + due16 k st' ≤ k + due16 k st := by
  rcases step16_kinds h with ⟨rfl, h1⟩ | ⟨rfl, h1⟩ | ⟨cp, rfl, h0, h1, h2⟩ | ⟨cp, rfl, h1, h2⟩ | ⟨cp, rfl, h0, h1, h2⟩
  · simp only [due16, h1, List.flatMap_nil, List.length_nil]; split <;> simp
  · simp only [due16, h1, List.flatMap_cons, List.flatMap_nil, List.append_nil]; omega
  · have := ha cp h0
    simp [due16, h1, h2]; omega
  · have := hf cp
    simp [due16, h1, h2]; omega
  · have := ha cp h0
    simp [due16, h1, h2]; omega

theorem end16_ration (hr : (f 0xFFFD).length ≤ k) {st st' : St16} {o : List Nat} (h : endCp16to32 st = .ok (st', o)) :
    (o.flatMap f).length ≤ due16 k st ∧ (o.flatMap f).length + due16 k st' ≤ k + due16 k st := by
  rcases end16_kinds h with ⟨rfl, rfl⟩ | ⟨rfl, h1, h2⟩
  · simp
  · simp [due16, h1, h2]; omega

variable {B : Transcoder Nat ο} {g : Nat → Bool} {cap : Nat}

theorem rationed8 (S : Simple B f g) (hr : (f 0xFFFD).length ≤ k) (ha : ∀ c, c < 0x80 → (f c).length ≤ k) (hf : ∀ c, (f c).length ≤ k + k) :
    Rationed (triangulator cap t8_32 B) k (fun st => due8 k st.1) where
  init := rfl
  step st c st' o h := by
    obtain ⟨mid, h1, rfl⟩ := tri_step_inv (A := t8_32) S h
    exact step8_ration hr ha hf h1
  end_ st st' e h := by
    obtain ⟨mid, h1, rfl⟩ := tri_end_inv (A := t8_32) S h
    exact end8_ration hr h1

theorem rationed16 (S : Simple B f g) (hr : (f 0xFFFD).length ≤ k) (ha : ∀ c, c < 0x10000 → (f c).length ≤ k) (hf : ∀ c, (f c).length ≤ k + k) :
    Rationed (triangulator cap t16_32 B) k (fun st => due16 k st.1) where
  init := rfl
  step st c st' o h := by
    obtain ⟨mid, h1, rfl⟩ := tri_step_inv (A := t16_32) S h
    exact step16_ration hr ha hf h1
  end_ st st' e h := by
    obtain ⟨mid, h1, rfl⟩ := tri_end_inv (A := t16_32) S h
    exact end16_ration hr h1

theorem rationed32 (S : Simple B f g) (hf : ∀ c, (f c).length ≤ k) : Rationed B k (fun _ => 0) where
  init := rfl
  step st c st' o h := by
    obtain ⟨st1, h1, _⟩ := S.step st c
    rw [h1] at h
    obtain ⟨_, rfl⟩ := ok_pair h
    exact hf c
  end_ st st' e h := by
    rw [S.end_] at h
    obtain ⟨_, rfl⟩ := ok_pair h
    simp

end

theorem single_flat (o : List Nat) : o.flatMap (fun c => [c]) = o := by
  induction o with
  | nil => rfl
  | cons c o ih => rw [List.flatMap_cons, ih]; rfl

theorem rationed8_32 : Rationed t8_32 1 (due8 1) where
  init := rfl
  step st c st' o h := by
    have := step8_ration (f := fun c => [c]) (k := 1) (by simp) (by simp) (by simp) h
    rwa [single_flat] at this
  end_ st st' e h := by
    have := end8_ration (f := fun c => [c]) (k := 1) (by simp) h
    rwa [single_flat] at this

theorem rationed16_32 : Rationed t16_32 1 (due16 1) where
  init := rfl
  step st c st' o h := by
    have := step16_ration (f := fun c => [c]) (k := 1) (by simp) (by simp) (by simp) h
    rwa [single_flat] at this
  end_ st st' e h := by
    have := end16_ration (f := fun c => [c]) (k := 1) (by simp) h
    rwa [single_flat] at this

theorem fix_lt {c n : Nat} (h : c < n) (h' : 0xFFFD < n) : fixCp c < n := by
  unfold fixCp; split <;> omega

theorem utf8_len_ascii {c : Nat} (h : c < 0x80) : (utf8 (fixCp c)).length ≤ 3 := utf8_len_bmp _ (fix_lt (by omega) (by omega))

theorem rationed8_8 : Rationed t8_8 3 (fun st => due8 3 st.1) :=
  rationed8 simple32_8 (utf8_len_bmp _ (fix_lt (by omega) (by omega))) (fun _ h => utf8_len_ascii h) (fun c => Nat.le_trans (utf8_len _) (by omega))
theorem rationed8_16 : Rationed t8_16 1 (fun st => due8 1 st.1) :=
  rationed8 simple32_16 (Nat.le_of_eq (utf16_len_bmp _ (fix_lt (by omega) (by omega)))) (fun _ h => Nat.le_of_eq (utf16_len_bmp _ (fix_lt (by omega) (by omega))))
    (fun _ => utf16_len _)
theorem rationed16_8 : Rationed t16_8 3 (fun st => due16 3 st.1) :=
  rationed16 simple32_8 (utf8_len_bmp _ (fix_lt (by omega) (by omega))) (fun _ h => utf8_len_bmp _ (fix_lt h (by omega))) (fun c => Nat.le_trans (utf8_len _) (by omega))
theorem rationed16_16 : Rationed t16_16 1 (fun st => due16 1 st.1) :=
  rationed16 simple32_16 (Nat.le_of_eq (utf16_len_bmp _ (fix_lt (by omega) (by omega)))) (fun _ h => Nat.le_of_eq (utf16_len_bmp _ (fix_lt h (by omega))))
    (fun _ => utf16_len _)
theorem rationed32_8 : Rationed t32_8 4 (fun _ => 0) := rationed32 simple32_8 (fun _ => utf8_len _)
theorem rationed32_16 : Rationed t32_16 2 (fun _ => 0) := rationed32 simple32_16 (fun _ => utf16_len _)
theorem rationed32_32 : Rationed t32_32 1 (fun _ => 0) := rationed32 simple32_32 (fun _ => by simp)

end Verif.Icu
