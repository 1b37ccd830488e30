import Verif.Proofs.IterPos

/-!
# The reading that the Unicode Standard recommends exists and is unique
-/

set_option linter.unusedSimpArgs false
set_option linter.unusedVariables false

namespace Verif.Unicode
open Verif.Icu

theorem not_truncated_utf8 {c : Nat} (hc : Scalar c) : ¬ Truncated (utf8 c) := by
  intro h
  obtain ⟨s, cp, hp⟩ := (truncated_iff _).1 h
  have hs := utf8_shape hc
  generalize utf8 c = t at hp hs
  cases hs with
  | one h1 => cases hp <;> omega
  | two h1 h2 h3 => cases hp with
    | three h => unfold Lead3 at h; omega
    | four h => unfold Lead4 at h; omega
  | three h1 h2 => cases hp with
    | four' h _ => unfold Lead4 at h; unfold Lead3 at h1; omega
  | four h1 h2 h3 => cases hp

theorem truncated_prefix {p q : Str} (h : Truncated (p ++ q)) (hp : p ≠ []) : Truncated p := by
  obtain ⟨_, c, r, hc, hr, e⟩ := h
  exact ⟨hp, c, q ++ r, hc, by simp [hr], by rw [e]; simp⟩

theorem truncated_of_utf8 {c : Nat} {p q : Str} (hc : Scalar c) (e : utf8 c = p ++ q) (hp : p ≠ []) (hq : q ≠ []) : Truncated p := ⟨hp, c, q, hc, hq, e⟩

/-- Of two texts that begin the same text one begins the other. -/
theorem comparable {p q s t : Str} (h : p ++ s = q ++ t) : (∃ r, q = p ++ r ∧ s = r ++ t) ∨ ∃ r, p = q ++ r ∧ t = r ++ s := by
  rcases List.append_eq_append_iff.1 h with ⟨r, h1, h2⟩ | ⟨r, h1, h2⟩
  · exact Or.inl ⟨r, h1, h2⟩
  · exact Or.inr ⟨r, h1, h2⟩

theorem utf8_inj {c d : Nat} (hc : Scalar c) (hd : Scalar d) (h : utf8 c = utf8 d) : c = d := by
  have h1 := utf8_shape hc
  rw [h] at h1
  exact shape_inj h1 (utf8_shape hd)

theorem char_char {c d : Nat} {s t : Str} (hc : Scalar c) (hd : Scalar d) (h : utf8 c ++ s = utf8 d ++ t) : c = d ∧ s = t := by
  rcases comparable h with ⟨r, h1, h2⟩ | ⟨r, h1, h2⟩
  · by_cases hr : r = []
    · subst hr
      rw [List.append_nil] at h1
      have e : d = c := utf8_inj hd hc h1
      exact ⟨e.symm, by simpa using h2⟩
    · exact absurd (truncated_of_utf8 hd h1 (utf8_ne c) hr) (not_truncated_utf8 hc)
  · by_cases hr : r = []
    · subst hr
      rw [List.append_nil] at h1
      have e : c = d := utf8_inj hc hd h1
      exact ⟨e, by simpa using h2.symm⟩
    · exact absurd (truncated_of_utf8 hc h1 (utf8_ne d) hr) (not_truncated_utf8 hd)

/-- No text that begins with a scalar value begins with an error. -/
theorem char_bad {c : Nat} {s t p : Str} {b : UInt8} (hc : Scalar c) (hp : p = [] ∨ Truncated p) (h1 : ¬ Truncated (p ++ [b]))
    (h2 : ¬ ∃ c, Scalar c ∧ utf8 c = p ++ [b]) (h : utf8 c ++ s = p ++ b :: t) : False := by
  have h : utf8 c ++ s = (p ++ [b]) ++ t := by rw [h]; simp
  rcases comparable h with ⟨r, k1, k2⟩ | ⟨r, k1, k2⟩
  · -- `utf8 c` begins `p ++ [b]`
    by_cases hr : r = []
    · subst hr; exact h2 ⟨c, hc, by simpa using k1.symm⟩
    · have hp' : ∃ r', p = utf8 c ++ r' := by
        rcases List.eq_nil_or_concat r with e | ⟨r', x, e⟩
        · exact absurd e hr
        · subst e
          rw [List.concat_eq_append, ← List.append_assoc] at k1
          exact ⟨r', (List.append_inj' k1 rfl).1⟩
      obtain ⟨r', e⟩ := hp'
      rcases hp with hp | hp
      · rw [hp] at e
        exact utf8_ne c (List.append_eq_nil_iff.1 e.symm).1
      · rw [e] at hp
        exact not_truncated_utf8 hc (truncated_prefix hp (utf8_ne c))
  · by_cases hr : r = []
    · subst hr; exact h2 ⟨c, hc, by simpa using k1⟩
    · exact h1 (truncated_of_utf8 hc k1 (by simp) hr)

theorem char_cut {c : Nat} {s p : Str} (hc : Scalar c) (hp : Truncated p) (h : utf8 c ++ s = p) : False := by
  subst h
  exact not_truncated_utf8 hc (truncated_prefix hp (utf8_ne c))

theorem bad_bad {p q s t : Str} {a b : UInt8} (hp : p = [] ∨ Truncated p) (hq : q = [] ∨ Truncated q) (h1 : ¬ Truncated (p ++ [a])) (h2 : ¬ Truncated (q ++ [b]))
    (h : p ++ a :: s = q ++ b :: t) : p = q ∧ a = b ∧ s = t := by
  rcases comparable h with ⟨r, k1, k2⟩ | ⟨r, k1, k2⟩
  · cases r with
    | nil =>
      rw [List.append_nil] at k1
      simp only [List.nil_append, List.cons.injEq] at k2
      exact ⟨k1.symm, k2⟩
    | cons x r =>
      simp only [List.cons_append, List.cons.injEq] at k2
      obtain ⟨rfl, _⟩ := k2
      rcases hq with hq | hq
      · rw [hq] at k1; simp at k1
      · rw [k1, show p ++ a :: r = (p ++ [a]) ++ r by simp] at hq
        exact absurd (truncated_prefix hq (by simp)) h1
  · cases r with
    | nil =>
      rw [List.append_nil] at k1
      simp only [List.nil_append, List.cons.injEq] at k2
      exact ⟨k1, k2.1.symm, k2.2.symm⟩
    | cons x r =>
      simp only [List.cons_append, List.cons.injEq] at k2
      obtain ⟨rfl, _⟩ := k2
      rcases hp with hp | hp
      · rw [hp] at k1; simp at k1
      · rw [k1, show q ++ b :: r = (q ++ [b]) ++ r by simp] at hp
        exact absurd (truncated_prefix hp (by simp)) h2

theorem bad_cut {p q s : Str} {a : UInt8} (h1 : ¬ Truncated (p ++ [a])) (hq : Truncated q) (h : p ++ a :: s = q) : False := by
  subst h
  rw [show p ++ a :: s = (p ++ [a]) ++ s by simp] at hq
  exact h1 (truncated_prefix hq (by simp))

/-- The reading is unique. -/
theorem readsMaximal_unique {s : Str} {cs : List Nat} (h : ReadsMaximal s cs) : ∀ {cs' : List Nat}, ReadsMaximal s cs' → cs = cs' := by
  have nilUnique : ∀ {t : Str} {cs' : List Nat}, ReadsMaximal t cs' → t = [] → cs' = [] := by
    intro t cs' h ht
    cases h with
    | nil => rfl
    | @char c s cs hc _ => exact absurd (List.append_eq_nil_iff.1 ht).1 (utf8_ne c)
    | lone => simp at ht
    | subpart => simp at ht
    | cut hp => exact absurd ht hp.1
  induction h with
  | nil => intro cs' h'; exact (nilUnique h' rfl).symm
  | @char c s cs hc _ ih =>
    intro cs' h'
    obtain ⟨t, ht, h'⟩ : ∃ t, utf8 c ++ s = t ∧ ReadsMaximal t cs' := ⟨_, rfl, h'⟩
    cases h' with
    | nil => exact absurd (List.append_eq_nil_iff.1 ht).1 (utf8_ne c)
    | @char d t ds hd k =>
      obtain ⟨rfl, rfl⟩ := char_char hc hd ht
      rw [ih k]
    | lone h1 h2 k => exact (char_bad (p := []) hc (Or.inl rfl) h1 h2 ht).elim
    | subpart h0 h1 h2 k => exact (char_bad hc (Or.inr h0) h1 h2 ht).elim
    | cut h0 => exact (char_cut hc h0 ht).elim
  | @lone b s cs h1 h2 _ ih =>
    intro cs' h'
    obtain ⟨t, ht, h'⟩ : ∃ t, b :: s = t ∧ ReadsMaximal t cs' := ⟨_, rfl, h'⟩
    cases h' with
    | nil => simp at ht
    | char hd k => exact (char_bad (p := []) hd (Or.inl rfl) h1 h2 ht.symm).elim
    | lone k1 k2 k =>
      simp only [List.cons.injEq] at ht
      obtain ⟨rfl, rfl⟩ := ht
      rw [ih k]
    | @subpart p a s' _ k0 k1 k2 k =>
      have := (bad_bad (p := []) (q := p) (Or.inl rfl) (Or.inr k0) h1 k1 ht).1
      exact absurd this.symm k0.1
    | cut k0 => exact (bad_cut (p := []) h1 k0 ht).elim
  | @subpart p b s cs h0 h1 h2 _ ih =>
    intro cs' h'
    obtain ⟨t, ht, h'⟩ : ∃ t, p ++ b :: s = t ∧ ReadsMaximal t cs' := ⟨_, rfl, h'⟩
    cases h' with
    | nil => simp at ht
    | char hd k => exact (char_bad hd (Or.inr h0) h1 h2 ht.symm).elim
    | @lone a s' _ k1 k2 k =>
      have := (bad_bad (p := p) (q := []) (Or.inr h0) (Or.inl rfl) h1 k1 ht).1
      exact absurd this h0.1
    | subpart k0 k1 k2 k =>
      obtain ⟨rfl, rfl, rfl⟩ := bad_bad (Or.inr h0) (Or.inr k0) h1 k1 ht
      rw [ih k]
    | cut k0 => exact (bad_cut h1 k0 ht).elim
  | @cut p h0 =>
    intro cs' h'
    obtain ⟨t, ht, h'⟩ : ∃ t, p = t ∧ ReadsMaximal t cs' := ⟨_, rfl, h'⟩
    cases h' with
    | nil => exact absurd ht h0.1
    | char hd k => exact (char_cut hd h0 ht.symm).elim
    | lone h1 h2 k => exact (bad_cut (p := []) h1 h0 ht.symm).elim
    | subpart k0 k1 k2 k => exact (bad_cut k1 h0 ht.symm).elim
    | cut => rfl

/-- Every text can be read. -/
theorem readsMaximal_exists (s : Str) : ∃ cs, ReadsMaximal s cs := by
  have main : ∀ n (p s : Str), 2 * s.length + min p.length 1 < n → p = [] ∨ Truncated p → ∃ cs, ReadsMaximal (p ++ s) cs := by
    intro n
    induction n with
    | zero => intro p s h; omega
    | succ n ih =>
      intro p s hn hp
      cases s with
      | nil =>
        rcases hp with rfl | hp
        · exact ⟨[], .nil⟩
        · exact ⟨[0xFFFD], by rw [List.append_nil]; exact .cut hp⟩
      | cons b s =>
        have hs : 2 * s.length + 1 < n := by rw [List.length_cons] at hn; omega
        have hle : ∀ q : Str, 2 * s.length + min q.length 1 < n := fun q => by have := Nat.min_le_right q.length 1; omega
        by_cases h1 : Truncated (p ++ [b])
        · obtain ⟨cs, h⟩ := ih (p ++ [b]) s (hle _) (Or.inr h1)
          exact ⟨cs, by simpa using h⟩
        · by_cases h2 : ∃ c, Scalar c ∧ utf8 c = p ++ [b]
          · obtain ⟨c, hc, e⟩ := h2
            obtain ⟨cs, h⟩ := ih [] s (hle _) (Or.inl rfl)
            refine ⟨c :: cs, ?_⟩
            have := ReadsMaximal.char hc h
            rw [e] at this
            simpa using this
          · rcases hp with rfl | hp
            · obtain ⟨cs, h⟩ := ih [] s (hle _) (Or.inl rfl)
              exact ⟨_, .lone h1 h2 h⟩
            · have hl : min p.length 1 = 1 := by
                have := List.length_pos_iff.2 hp.1
                exact Nat.min_eq_right this
              obtain ⟨cs, h⟩ := ih [] (b :: s) (by rw [hl] at hn; simpa using (by omega : 2 * (b :: s).length < n)) (Or.inl rfl)
              exact ⟨_, .subpart hp h1 h2 h⟩
  have := main (2 * s.length + 1) [] s (by simp) (Or.inl rfl)
  simpa using this

theorem unbroken_both {s : Str} (h : Unbroken s) : ∃ cs, Reads s cs ∧ ReadsMaximal s cs := by
  induction h with
  | nil => exact ⟨[], .nil, .nil⟩
  | char hc _ ih => obtain ⟨cs, h1, h2⟩ := ih; exact ⟨_, .char hc h1, .char hc h2⟩
  | @lone b s h1 h2 _ ih => obtain ⟨cs, k1, k2⟩ := ih; exact ⟨_, .bad (p := []) (Or.inl rfl) h1 h2 k1, .lone h1 h2 k2⟩
  | cut hp => exact ⟨_, .cut hp, .cut hp⟩

end Verif.Unicode
