import Verif.Proofs.Bytes

/-!
# Counting code points, positions of view iterators
-/

set_option linter.unusedSimpArgs false
set_option linter.unusedVariables false

namespace Verif.Icu
open Verif.Unicode

theorem cp8_low (b : UInt8) : isCodePointStart8 b = decide (¬ (0x80 ≤ b.toNat ∧ b.toNat ≤ 0xBF)) := by
  have := forall_byte (P := fun b => decide (isCodePointStart8 b = decide (¬ (0x80 ≤ b.toNat ∧ b.toNat ≤ 0xBF)))) (by decide +kernel) b
  exact of_decide_eq_true this

/-- The sequences in which exactly the first code unit starts a code point. -/
def OneStart {ι : Type} (start : ι → Bool) (l : List ι) : Prop := ∃ a r, l = a :: r ∧ start a = true ∧ ∀ b ∈ r, start b = false

theorem oneStart8 {c : Nat} (hc : Scalar c) : OneStart isCodePointStart8 (utf8 c) := by
  have h := utf8_shape hc
  generalize utf8 c = s at h
  have co : ∀ b : UInt8, Cont b → isCodePointStart8 b = false := by
    intro b hb; rw [cp8_low]; unfold Cont at hb; simp [hb]
  have le : ∀ b : UInt8, (b.toNat < 0x80 ∨ 0xC0 ≤ b.toNat) → isCodePointStart8 b = true := by
    intro b hb; rw [cp8_low]; simp; omega
  cases h with
  | one h => exact ⟨_, [], rfl, le _ (Or.inl h), by simp⟩
  | two h1 h2 h3 => exact ⟨_, _, rfl, le _ (by omega), by simp; exact co _ h3⟩
  | @three a b d h1 h2 =>
    unfold Lead3 at h1
    refine ⟨_, _, rfl, le _ (by omega), ?_⟩
    intro x hx
    simp only [List.mem_cons, List.not_mem_nil, or_false] at hx
    rcases hx with rfl | rfl
    · exact co _ (by unfold Cont; omega)
    · exact co _ h2
  | @four a b d e h1 h2 h3 =>
    unfold Lead4 at h1
    refine ⟨_, _, rfl, le _ (by omega), ?_⟩
    intro x hx
    simp only [List.mem_cons, List.not_mem_nil, or_false] at hx
    rcases hx with rfl | rfl | rfl
    · exact co _ (by unfold Cont; omega)
    · exact co _ h2
    · exact co _ h3

theorem oneStart16 {c : Nat} (hc : Scalar c) : OneStart isCodePointStart16 (utf16 c) := by
  rcases utf16_shape hc with ⟨u, k1, k2, k3, k4⟩ | ⟨hh, l, k1, k2, k3, k4⟩
  · exact ⟨u, [], k3, by simp [isCodePointStart16, isLow_false k2], by simp⟩
  · exact ⟨hh, [l], k3, by simp [isCodePointStart16, isLow_false (not_low_of_high k1)], by simp [isCodePointStart16, (isLow_iff l).2 k2]⟩

theorem length_none {ι : Type} {start : ι → Bool} : ∀ (l s : List ι), (∀ b ∈ l, start b = false) → length start (l ++ s) = length start s := by
  intro l
  induction l with
  | nil => intro s _; rfl
  | cons a l ih =>
    intro s h
    rw [List.cons_append, length, ih s (fun b hb => h b (by simp [hb])), h a (by simp)]
    simp

theorem length_text {ι : Type} {start : ι → Bool} {f : Nat → List ι} (h : ∀ c, Scalar c → OneStart start (f c)) (cs : List Nat) :
    (∀ c ∈ cs, Scalar c) → length start (cs.flatMap f) = cs.length := by
  induction cs with
  | nil => intro _; rfl
  | cons c cs ih =>
    intro hcs
    obtain ⟨a, r, h1, h2, h3⟩ := h c (hcs c (by simp))
    rw [List.flatMap_cons, h1, List.cons_append, length, h2, length_none r _ h3, ih (fun d hd => hcs d (by simp [hd]))]
    simp; omega

theorem indexLoop_none {ι : Type} {start : ι → Bool} (pos : Nat) : ∀ (l s : List ι) (count off : Nat), (∀ b ∈ l, start b = false) →
    indexLoop start pos (l ++ s) count off = indexLoop start pos s count (off + l.length) := by
  intro l
  induction l with
  | nil => intro s count off _; rfl
  | cons a l ih =>
    intro s count off h
    rw [List.cons_append, indexLoop, h a (by simp)]
    simp only [Bool.false_eq_true, if_false]
    rw [ih s count (off + 1) (fun b hb => h b (by simp [hb])), List.length_cons]
    congr 1; omega

theorem indexLoop_text {ι : Type} {start : ι → Bool} {f : Nat → List ι} (h : ∀ c, Scalar c → OneStart start (f c)) (pos : Nat) (cs : List Nat) :
    (∀ c ∈ cs, Scalar c) → ∀ count off, count ≤ pos → indexLoop start pos (cs.flatMap f) count off = off + ((cs.take (pos - count)).flatMap f).length := by
  induction cs with
  | nil => intro _ count off _; simp [indexLoop]
  | cons c cs ih =>
    intro hcs count off hle
    obtain ⟨a, r, h1, h2, h3⟩ := h c (hcs c (by simp))
    rw [List.flatMap_cons, h1, List.cons_append, indexLoop, h2]
    simp only [if_true]
    by_cases e : count = pos
    · simp [e]
    · rw [if_neg e, indexLoop_none pos r _ _ _ h3, ih (fun d hd => hcs d (by simp [hd])) _ _ (by omega)]
      obtain ⟨k, hk⟩ : ∃ k, pos - count = k + 1 := ⟨pos - count - 1, by omega⟩
      rw [hk, show pos - (count + 1) = k by omega, List.take_succ_cons, List.flatMap_cons, h1]
      simp; omega

/-! ### Iterators of the view from UTF-8 to UTF-32 -/

/-- The iterator after `n` increments. -/
def iterN {ι ο : Type} (T : Transcoder ι ο) (cap : Nat) (s : List ι) : Nat → M (ViewIt ι ο T)
  | 0 => viewBegin T cap s
  | n + 1 => do (← iterN T cap s n).incr T cap

/-- With chunks of one element, every increment moves on in the input. -/
theorem iter_moves {ι ο : Type} {T : Transcoder ι ο} {Q : List ο → Prop} {I : T.σ → Prop} (L : Lawful T Q I) (hQ : ∀ l, Q l → l.length ≤ 1) (s : List ι)
    {st : T.σ} {out : List ο} (h : T.run s = .ok (st, out)) : ∀ n, n ≤ out.length → ∃ it, iterN T 1 s n = .ok it ∧ it.next.length ≤ it.current.length ∧
      ((n < out.length ∧ it.next.length < it.current.length ∧ ∃ wf, Ahead T 1 I it (out.drop n) wf) ∨ (n = out.length ∧ it.current = [])) ∧
      ∀ m, m < n → ∀ it', iterN T 1 s m = .ok it' → it.current.length < it'.current.length := by
  intro n
  induction n with
  | zero =>
    intro _
    by_cases hs : s = []
    · subst hs
      have h' := Except.ok.inj ((run_of_feed (s := []) (o := []) (e := []) rfl L.endInit).symm.trans h)
      have e2 : [] = out := congrArg Prod.snd h'
      subst e2
      exact ⟨_, rfl, Nat.le_refl _, Or.inr ⟨rfl, rfl⟩, by intro m hm; omega⟩
    · obtain ⟨st', o, r, _⟩ := L.rest s T.init L.init hs
      have h' := Except.ok.inj (r.run.symm.trans h)
      have e1 : st' = st := congrArg Prod.fst h'
      have e2 : o = out := congrArg Prod.snd h'
      subst e1 e2
      obtain ⟨it, k1, k2, k3, k4⟩ := L.fill hQ { current := s, next := s, buf := [], tr := T.init, parentWf := true } rfl L.init hs r (fun _ => rfl)
      have hse : s.isEmpty = false := by simpa using hs
      simp only at k3 k4
      have hl : 0 < o.length := by
        obtain ⟨_, b2, _, b4⟩ := k2
        have : 0 < it.buf.length := List.length_pos_iff.2 b2
        rcases b4 with ⟨_, _, _, _, _, _, e, _⟩ | ⟨_, e, _⟩ <;> rw [e] <;> simp <;> omega
      exact ⟨it, by simp only [iterN, viewBegin, hse, Bool.false_eq_true, if_false, k1], by rw [k4]; omega, Or.inl ⟨hl, by rw [k4]; omega, _, k2⟩, by intro m hm; omega⟩
  | succ n ih =>
    intro hn
    obtain ⟨it, i1, i0, i2, i3⟩ := ih (by omega)
    rcases i2 with ⟨hlt, i4, wf, ha⟩ | ⟨he, _⟩
    · obtain ⟨a1, a2, a3, a4⟩ := ha
      obtain ⟨c, hbuf⟩ : ∃ c, it.buf = [c] := by
        cases hb : it.buf with
        | nil => exact absurd hb a2
        | cons c b =>
          rw [hb, List.length_cons] at a3
          have : b = [] := List.length_eq_zero_iff.1 (by omega)
          exact ⟨c, by rw [this]⟩
      have hinc : it.incr T 1 = Icu.fill T 1 { it with buf := [] } := by simp [ViewIt.incr, hbuf]
      have drop : ∀ x, out.drop n = c :: x → out.drop (n + 1) = x ∧ out.length = n + 1 + x.length := by
        intro x hx
        have := congrArg List.length hx
        rw [List.length_drop, List.length_cons] at this
        refine ⟨?_, by omega⟩
        rw [← List.drop_drop, hx]; rfl
      have less : ∀ it1 : ViewIt ι ο T, it1.current = it.next → ∀ m, m < n + 1 → ∀ it', iterN T 1 s m = .ok it' → it1.current.length < it'.current.length := by
        intro it1 hc m hm it' hit'
        rw [hc]
        by_cases e : m = n
        · subst e
          rw [i1] at hit'
          cases hit'
          exact i4
        · have := i3 m (by omega) it' hit'
          omega
      rcases a4 with ⟨n1, n2, n3, st'', rest, n4, n5, n6⟩ | ⟨n1, n2, n3, n4, st3, e3, n5, n6, n7⟩
      · obtain ⟨it', k1, k2, k3, k4⟩ := L.fill hQ { it with buf := [] } rfl n2 n1 n4 n3
        rw [hbuf] at n5
        obtain ⟨d1, d2⟩ := drop rest n5
        have hl : 0 < rest.length := by
          obtain ⟨_, b2, _, b4⟩ := k2
          have : 0 < it'.buf.length := List.length_pos_iff.2 b2
          rcases b4 with ⟨_, _, _, _, _, _, e, _⟩ | ⟨_, e, _⟩ <;> rw [e] <;> simp <;> omega
        simp only at k3 k4
        refine ⟨it', by simp only [iterN, i1, bind, Except.bind, hinc, k1], by rw [k4]; omega, Or.inl ⟨by omega, by rw [k4]; exact k3, _, by rw [d1]; exact k2⟩, less it' k4⟩
      · rw [hbuf] at n2
        obtain ⟨d1, d2⟩ := drop [] n2
        have k1 : Icu.fill T 1 { it with buf := [] } = .ok { current := [], next := [], buf := e3, tr := st3, parentWf := it.parentWf && T.wellFormed st3 } := by
          unfold Icu.fill
          simp only [List.isEmpty_nil, Bool.not_true, Bool.false_eq_true, if_false, n1, Icu.fillLoop, bind, Except.bind, if_true, n5, List.nil_append]
          rw [if_neg (by omega)]
        refine ⟨_, by simp only [iterN, i1, bind, Except.bind, hinc, k1]; rfl, Nat.le_refl _, Or.inr ⟨by simp at d2; omega, rfl⟩, less _ n1.symm⟩
    · omega

end Verif.Icu
