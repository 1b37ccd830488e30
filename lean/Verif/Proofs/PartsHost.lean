import Verif.Spec.Parts
import Verif.Props.Icubaby
import Verif.Props.Punycode
import Verif.Props.Ranges

/-!
# Host names, label by label
-/

set_option linter.unusedSimpArgs false

namespace Verif.Codec

open PartsSpec Unicode

/-! ### Labels -/

section
variable {α : Type} {sep : α}

theorem joined_cons (l : List α) {ls : List (List α)} (h : ls ≠ []) : joined sep (l :: ls) = l ++ sep :: joined sep ls := by
  cases ls with
  | nil => exact absurd rfl h
  | cons m ls => rfl

theorem Labels.single {l : List α} (h : sep ∉ l) : Labels sep l [l] := ⟨by simp, by simpa using h, rfl⟩

theorem Labels.cons {l s : List α} {ls : List (List α)} (h : sep ∉ l) (hs : Labels sep s ls) : Labels sep (l ++ sep :: s) (l :: ls) := by
  obtain ⟨h1, h2, h3⟩ := hs
  refine ⟨by simp, ?_, by rw [joined_cons l h1, h3]⟩
  intro x hx
  rcases List.mem_cons.1 hx with rfl | hx
  · exact h
  · exact h2 x hx

theorem append_sep_unique {l l' s s' : List α} (h : sep ∉ l) (h' : sep ∉ l') (e : l ++ sep :: s = l' ++ sep :: s') : l = l' ∧ s = s' := by
  induction l generalizing l' with
  | nil =>
    cases l' with
    | nil => exact ⟨rfl, by simpa using e⟩
    | cons x l' =>
      simp only [List.nil_append, List.cons_append, List.cons.injEq] at e
      exact absurd (by simp [e.1]) h'
  | cons x l ih =>
    cases l' with
    | nil =>
      simp only [List.nil_append, List.cons_append, List.cons.injEq] at e
      exact absurd (by simp [e.1]) h
    | cons y l' =>
      simp only [List.cons_append, List.cons.injEq] at e
      obtain ⟨rfl, e⟩ := e
      obtain ⟨rfl, rfl⟩ := ih (fun hm => h (by simp [hm])) (fun hm => h' (by simp [hm])) e
      exact ⟨rfl, rfl⟩

theorem Labels.unique {s : List α} {ls ls' : List (List α)} (h : Labels sep s ls) (h' : Labels sep s ls') : ls = ls' := by
  induction ls generalizing s ls' with
  | nil => exact absurd rfl h.1
  | cons l ls ih =>
    obtain ⟨_, h2, h3⟩ := h
    obtain ⟨k1, k2, k3⟩ := h'
    cases ls' with
    | nil => exact absurd rfl k1
    | cons l' ls' =>
      have hl := h2 l (by simp)
      have hl' := k2 l' (by simp)
      by_cases e : ls = []
      · subst e
        by_cases e' : ls' = []
        · subst e'; rw [h3] at k3; simp only [joined] at k3; rw [k3]
        · rw [h3, joined_cons l' e'] at k3
          simp only [joined] at k3
          exact absurd (by rw [k3]; simp) hl
      · by_cases e' : ls' = []
        · subst e'
          rw [k3, joined_cons l e] at h3
          simp only [joined] at h3
          exact absurd (by rw [h3]; simp) hl'
        · rw [h3, joined_cons l e, joined_cons l' e'] at k3
          obtain ⟨rfl, e2⟩ := append_sep_unique hl hl' k3
          rw [ih (s := joined sep ls) ⟨e, fun x hx => h2 x (by simp [hx]), rfl⟩ ⟨e', fun x hx => k2 x (by simp [hx]), e2⟩]

theorem mem_joined {ls : List (List α)} {l : List α} (h : l ∈ ls) {x : α} (hx : x ∈ l) : x ∈ joined sep ls := by
  induction ls with
  | nil => simp at h
  | cons m ls ih =>
    by_cases e : ls = []
    · subst e; simp only [List.mem_singleton] at h; subst h; exact hx
    · rw [joined_cons m e]
      rcases List.mem_cons.1 h with rfl | h
      · simp [hx]
      · simp [ih h]

theorem length_le_joined {ls : List (List α)} {l : List α} (h : l ∈ ls) : l.length ≤ (joined sep ls).length := by
  induction ls with
  | nil => simp at h
  | cons m ls ih =>
    by_cases e : ls = []
    · subst e; simp only [List.mem_singleton] at h; subst h; exact Nat.le_refl _
    · rw [joined_cons m e]
      rcases List.mem_cons.1 h with rfl | h
      · simp
      · have := ih h; simp; omega

end

/-! ### The iterator and what is before it -/

/-- The iterator yields these code points before it reaches the end, moving on each time. -/
def Stands (it : CpIter) : List Nat → Prop
  | [] => it.atEnd = true
  | c :: cs => it.atEnd = false ∧ it.deref = .ok c ∧
      ∃ it', it.incr Icu.t8_32 Icu.maxOut32 = .ok it' ∧ Stands it' cs

open Icu in
theorem stands_iterN (s : Str) {st : t8_32.σ} {out : List Nat} (h : t8_32.run s = .ok (st, out)) :
    ∀ k n, n + k = out.length → ∀ it, iterN t8_32 maxOut32 s n = .ok it → Stands it (out.drop n) := by
  intro k
  induction k with
  | zero =>
    intro n hn it hit
    obtain ⟨a, a1, _, a3, _⟩ := iter_moves lawful8_32 hQ1 s h n (by omega)
    have e : a = it := Except.ok.inj (a1.symm.trans hit)
    subst e
    rw [List.drop_eq_nil_of_le (by omega)]
    rcases a3 with ⟨k1, _⟩ | ⟨_, k2⟩
    · omega
    · simp [Stands, ViewIt.atEnd, k2]
  | succ k ih =>
    intro n hn it hit
    obtain ⟨a, a1, _, a3, _⟩ := iter_moves lawful8_32 hQ1 s h n (by omega)
    have e : a = it := Except.ok.inj (a1.symm.trans hit)
    subst e
    obtain ⟨b, b1, _⟩ := iter_moves lawful8_32 hQ1 s h (n + 1) (by omega)
    rcases a3 with ⟨k1, _, wf, k2, k3, k4, k5⟩ | ⟨k1, _⟩
    · have hb : ∃ c x, a.buf = [c] ∧ out.drop n = c :: x := by
        cases hb : a.buf with
        | nil => exact absurd hb k3
        | cons c b =>
          rcases k5 with ⟨_, _, _, _, rest, _, e, _⟩ | ⟨_, e, _⟩
          · rw [hb] at e k4; exact ⟨c, b ++ rest, by simp at k4 ⊢; exact k4, e⟩
          · rw [hb] at e k4; exact ⟨c, b, by simp at k4 ⊢; exact k4, e⟩
      obtain ⟨c, x, hb, hx⟩ := hb
      have hd : out.drop (n + 1) = x := by rw [← List.drop_drop, hx]; rfl
      rw [hx]
      refine ⟨by simpa [ViewIt.atEnd] using k2, by simp [ViewIt.deref, hb], b, ?_, ?_⟩
      · have a1' : iterN t8_32 maxOut32 s n = .ok a := hit
        have b1' : (do (← iterN t8_32 maxOut32 s n).incr t8_32 maxOut32) = .ok b := b1
        rw [a1'] at b1'
        exact b1'
      · rw [← hd]; exact ih (n + 1) (by omega) b b1
    · omega

/-- The first iterator stands before all that is read of the text. -/
theorem cpBegin_stands (s : Str) : ∃ it out, cpBegin s = .ok it ∧ Reads s out ∧ Stands it out ∧ out.length ≤ s.length ∧ ∀ c ∈ out, Scalar c := by
  obtain ⟨st, out, h, h2, _⟩ := run8 s
  obtain ⟨it, h3, _⟩ := Icu.iter_moves Icu.lawful8_32 hQ1 s h 0 (by omega)
  refine ⟨it, out, h3, h2, stands_iterN s h out.length 0 (by omega) it h3, ?_, ?_⟩
  · have len : ∀ n, n ≤ out.length → ∀ it', Icu.iterN Icu.t8_32 1 s n = .ok it' → it'.current.length + n ≤ s.length := by
      intro n
      induction n with
      | zero =>
        intro _ it' hit
        have : it'.current = s := by
          unfold Icu.iterN Icu.viewBegin at hit
          simp only at hit
          split at hit
          · cases hit; rfl
          · unfold Icu.fill at hit
            simp only [List.isEmpty_nil, Bool.not_true, Bool.false_eq_true, if_false, bind, Except.bind] at hit
            repeat' split at hit
            all_goals first | (cases hit; done) | (cases hit; rfl)
        rw [this]; simp
      | succ n ih =>
        intro hn it' hit
        obtain ⟨a, a1, _, _, _⟩ := Icu.iter_moves Icu.lawful8_32 hQ1 s h n (by omega)
        obtain ⟨b, b1, _, _, b4⟩ := Icu.iter_moves Icu.lawful8_32 hQ1 s h (n + 1) hn
        have e : b = it' := Except.ok.inj (b1.symm.trans hit)
        subst e
        have := b4 n (by omega) a a1
        have := ih (by omega) a a1
        omega
    obtain ⟨a, a1, _⟩ := Icu.iter_moves Icu.lawful8_32 hQ1 s h out.length (Nat.le_refl _)
    have := len out.length (Nat.le_refl _) a a1
    omega
  · obtain ⟨st', out', h4, h5⟩ := C41_scalars s
    have : out' = out := congrArg Prod.snd (Except.ok.inj (h4.symm.trans h))
    exact this ▸ h5

theorem labelLoop_eq : ∀ (fuel : Nat) (it : CpIter) (cs : List Nat), Stands it cs → cs.length < fuel →
    ∃ it', labelLoop fuel it = .ok (cs.takeWhile isNotDot, it') ∧ Stands it' (cs.dropWhile isNotDot) := by
  intro fuel
  induction fuel with
  | zero => intro _ _ _ h; omega
  | succ fuel ih =>
    intro it cs h hl
    cases cs with
    | nil => exact ⟨it, by simp only [labelLoop, show it.atEnd = true from h, if_true, List.takeWhile_nil], h⟩
    | cons c cs =>
      obtain ⟨h1, h2, it', h3, h4⟩ := h
      by_cases hc : isNotDot c = true
      · obtain ⟨it'', h5, h6⟩ := ih it' cs h4 (by simp at hl; omega)
        refine ⟨it'', ?_, by rw [List.dropWhile_cons_of_pos hc]; exact h6⟩
        simp only [labelLoop, h1, h2, h3, h5, hc, Bool.false_eq_true, if_false, if_true, bind, Except.bind, List.takeWhile_cons_of_pos hc]
      · have hc' : isNotDot c = false := by simpa using hc
        refine ⟨it, ?_, by rw [List.dropWhile_cons_of_neg hc]; exact ⟨h1, h2, it', h3, h4⟩⟩
        simp only [labelLoop, h1, h2, hc', Bool.false_eq_true, if_false, bind, Except.bind, List.takeWhile_cons_of_neg hc]

/-! ### Encoding -/

/-- How `puny_encoded` writes a label. -/
def LabelE (l : List Nat) (e : Str) : Prop := ∃ t flag, Puny.encode l true = .ok (t, flag) ∧ e = (if flag then idnaPrefix else []) ++ t

theorem punyInput_of {l : List Nat} (h : ∀ c ∈ l, Scalar c) (hl : l.length ≤ 2 ^ 37) : PunyInput l :=
  Or.inr ⟨fun c hc => by have := h c hc; unfold Scalar at this; omega, hl⟩

/-- A text up to the first full stop, and what follows. -/
theorem span_dot (cs : List Nat) : 0x2E ∉ cs.takeWhile isNotDot ∧
    (cs.dropWhile isNotDot = [] ∧ cs = cs.takeWhile isNotDot ∨ ∃ r, cs.dropWhile isNotDot = 0x2E :: r ∧ cs = cs.takeWhile isNotDot ++ 0x2E :: r) := by
  induction cs with
  | nil => simp
  | cons c cs ih =>
    by_cases hc : isNotDot c = true
    · rw [List.takeWhile_cons_of_pos hc, List.dropWhile_cons_of_pos hc]
      obtain ⟨h1, h2⟩ := ih
      refine ⟨?_, ?_⟩
      · simp only [List.mem_cons, not_or]
        exact ⟨fun e => by subst e; simp [isNotDot] at hc, h1⟩
      · rcases h2 with ⟨h2, h3⟩ | ⟨r, h2, h3⟩
        · exact Or.inl ⟨h2, by rw [← h3]⟩
        · refine Or.inr ⟨r, h2, ?_⟩
          rw [List.cons_append, ← h3]
    · rw [List.takeWhile_cons_of_neg hc, List.dropWhile_cons_of_neg hc]
      have : c = 0x2E := by simpa [isNotDot] using hc
      exact ⟨by simp, Or.inr ⟨cs, by rw [this], by rw [this]; rfl⟩⟩

theorem encodeLabel (l : List Nat) (h : ∀ c ∈ l, Scalar c) (hl : l.length ≤ 2 ^ 37) :
    ∃ t, Puny.encode l true = .ok (t, l.any fun c => decide (0x80 ≤ c)) := by
  obtain ⟨t, flag, h1, h2, _⟩ := C31_shape l (punyInput_of h hl).small true
  have : flag = l.any fun c => decide (0x80 ≤ c) := by
    rw [Bool.eq_iff_iff, h2]; simp
  exact ⟨t, this ▸ h1⟩

theorem punyEncodedLoop_eq (bound : Nat) : ∀ (fuel : Nat) (cs : List Nat) (it : CpIter), Stands it cs → cs.length < fuel → cs.length < bound →
    (∀ c ∈ cs, Scalar c) → cs.length ≤ 2 ^ 37 → ∃ ls es, Labels 0x2E cs ls ∧ Each LabelE ls es ∧
      punyEncodedLoop bound fuel it = .ok (joined 0x2E es, cs.any fun c => decide (0x80 ≤ c)) := by
  intro fuel
  induction fuel with
  | zero => intro cs it _ h; omega
  | succ fuel ih =>
    intro cs it hst hf hb hs hl
    obtain ⟨it', h1, h2⟩ := labelLoop_eq bound it cs hst hb
    obtain ⟨hd, hr⟩ := span_dot cs
    have hsub : ∀ c ∈ cs.takeWhile isNotDot, c ∈ cs := fun c hc => (List.takeWhile_prefix _).subset hc
    have hlen : (cs.takeWhile isNotDot).length ≤ cs.length := (List.takeWhile_prefix _).length_le
    obtain ⟨t, ht⟩ := encodeLabel (cs.takeWhile isNotDot) (fun c hc => hs c (hsub c hc)) (by omega)
    rcases hr with ⟨hr, he⟩ | ⟨r, hr, he⟩
    · rw [hr] at h2
      refine ⟨[cs.takeWhile isNotDot], [_], by rw [← he] at hd ⊢; exact Labels.single hd, .cons ⟨t, _, ht, rfl⟩ .nil, ?_⟩
      simp only [punyEncodedLoop, h1, ht, bind, Except.bind, show it'.atEnd = true from h2, if_true, joined]
      rw [← he]
    · rw [hr] at h2
      obtain ⟨k1, k2, it'', k3, k4⟩ := h2
      have hlr : (cs.takeWhile isNotDot).length + 1 + r.length = cs.length := by
        have := congrArg List.length he; simp at this; omega
      obtain ⟨ls, es, i1, i2, i3⟩ := ih r it'' k4 (by omega) (by omega) (fun c hc => hs c (by rw [he]; simp [hc])) (by omega)
      refine ⟨cs.takeWhile isNotDot :: ls, _ :: es, ?_, .cons ⟨t, _, ht, rfl⟩ i2, ?_⟩
      · have := Labels.cons hd i1
        rwa [← he] at this
      · have hes : es ≠ [] := by
          intro e; subst e; cases i2; exact i1.1 rfl
        simp only [punyEncodedLoop, h1, ht, bind, Except.bind, k1, Bool.false_eq_true, if_false, k3, i3]
        rw [joined_cons _ hes]
        congr 2
        have e2 : cs.any (fun c => decide (0x80 ≤ c)) = (cs.takeWhile isNotDot ++ 0x2E :: r).any fun c => decide (0x80 ≤ c) := by rw [← he]
        rw [e2, List.any_append, List.any_cons]
        simp

/-- What `puny_encoded` does to a host name. -/
theorem punyEncoded_eq (s : Str) (hl : s.length ≤ 2 ^ 37) : ∃ cs ls es, Reads s cs ∧ (∀ c ∈ cs, Scalar c) ∧ cs.length ≤ s.length ∧ Labels 0x2E cs ls ∧ Each LabelE ls es ∧
    punyEncoded s = .ok (joined 0x2E es, cs.any fun c => decide (0x80 ≤ c)) := by
  obtain ⟨it, cs, h1, h2, h3, h4, h5⟩ := cpBegin_stands s
  obtain ⟨ls, es, h6, h7, h8⟩ := punyEncodedLoop_eq (s.length + 1) (s.length + 1) cs it h3 (by omega) (by omega) h5 (by omega)
  refine ⟨cs, ls, es, h2, h5, h4, h6, h7, ?_⟩
  simp only [punyEncoded, h1, bind, Except.bind, h8]

/-- The labels written are as specified. -/
theorem labelE_spec {l : List Nat} {e : Str} (h : ∀ c ∈ l, Scalar c) (hl : l.length ≤ 2 ^ 37) (he : LabelE l e) : LabelEncodes l e := by
  obtain ⟨t, flag, h1, rfl⟩ := he
  have hp := punyInput_of h hl
  obtain ⟨t', flag', h2, h3, h4, _⟩ := C31_shape l hp.small true
  rw [h1] at h2
  cases h2
  cases flag with
  | false =>
    simp only [Bool.false_eq_true, if_false, List.nil_append]
    refine .ascii (fun c hc => ?_) (C29_plain l hp t h1)
    have : ¬ ∃ c ∈ l, 0x80 ≤ c := fun h => by have := h3.2 h; simp at this
    exact Nat.lt_of_not_le fun hh => this ⟨c, hc, hh⟩
  | true =>
    simp only [if_true]
    rcases h4 with ⟨_, h4, _⟩ | ⟨basics, ext, b1, b2, b3⟩
    · simp at h4
    · have hr := C29_rfc l hp true t true h1 (Or.inl rfl)
      rw [b2] at hr ⊢
      exact .puny (h3.1 rfl) b1 b3 hr

theorem each_labels {sep : Nat} {cs : List Nat} {ls : List (List Nat)} (h : Labels sep cs ls) (hs : ∀ c ∈ cs, Scalar c) (hl : cs.length ≤ 2 ^ 37) :
    ∀ l ∈ ls, (∀ c ∈ l, Scalar c) ∧ l.length ≤ 2 ^ 37 := by
  obtain ⟨_, _, rfl⟩ := h
  exact fun l hm => ⟨fun c hc => hs c (mem_joined hm hc), Nat.le_trans (length_le_joined hm) hl⟩

/-! ### Decoding -/

/-- How `puny_decoded` reads a label. -/
inductive LabelD : Str → Str → Prop
  | plain {l} : ¬ idnaPrefix <+: l → LabelD l l
  | puny {t s} : Puny.decode false t = .ok (.ok (s, [])) → LabelD (idnaPrefix ++ t) (utf8Of s)

/-- A label that cannot be read. -/
def LabelBad (l : Str) (e : Puny.Err) : Prop := ∃ t, l = idnaPrefix ++ t ∧ Puny.decode false t = .ok (.error e)

theorem span_dotB (s : Str) : 0x2E ∉ s.takeWhile (fun c => isNotDot c.toNat) ∧
    (s.drop (s.takeWhile (fun c => isNotDot c.toNat)).length = [] ∧ s = s.takeWhile (fun c => isNotDot c.toNat) ∨
     ∃ r, s.drop (s.takeWhile (fun c => isNotDot c.toNat)).length = 0x2E :: r ∧ s = s.takeWhile (fun c => isNotDot c.toNat) ++ 0x2E :: r) := by
  induction s with
  | nil => simp
  | cons c s ih =>
    by_cases hc : isNotDot c.toNat = true
    · rw [List.takeWhile_cons_of_pos (p := fun c : UInt8 => isNotDot c.toNat) hc]
      obtain ⟨h1, h2⟩ := ih
      refine ⟨?_, ?_⟩
      · simp only [List.mem_cons, not_or]
        exact ⟨fun e => by subst e; simp [isNotDot] at hc, h1⟩
      · rw [List.length_cons, List.drop_succ_cons]
        rcases h2 with ⟨h2, h3⟩ | ⟨r, h2, h3⟩
        · exact Or.inl ⟨h2, by rw [← h3]⟩
        · exact Or.inr ⟨r, h2, by rw [List.cons_append, ← h3]⟩
    · rw [List.takeWhile_cons_of_neg (p := fun c : UInt8 => isNotDot c.toNat) hc]
      have : c = 0x2E := by
        have : c.toNat = 0x2E := by simpa [isNotDot] using hc
        exact UInt8.toNat.inj this
      subst this
      exact ⟨by simp, Or.inr ⟨s, by simp, rfl⟩⟩

theorem viewRun_utf8Of (s : List Nat) : ∃ w, Icu.viewRun Icu.t32_8 Icu.maxOut8 s = .ok (utf8Of s, w) := by
  obtain ⟨st, out, h1, h2⟩ := C45_utf32_utf8 s
  obtain ⟨st', h3, _⟩ := C40_encode s
  have : out = utf8Of s := congrArg Prod.snd (Except.ok.inj (h1.symm.trans h3))
  exact ⟨_, this ▸ h2⟩

theorem starts_iff (l : Str) : startsWith (· == ·) id id l idnaPrefix = true ↔ idnaPrefix <+: l := C47_startsWith_prefix l idnaPrefix

/-- A label is read, or cannot be. -/
theorem label_cases (l : Str) (hl : l.length + 2 < szMod) : (∃ d, LabelD l d) ∨ ∃ e, LabelBad l e := by
  by_cases h : idnaPrefix <+: l
  · obtain ⟨t, rfl⟩ := h
    rcases C32_total false t (by simp at hl; omega) with h | h | ⟨s, h, _⟩
    · exact Or.inr ⟨_, t, rfl, h⟩
    · exact Or.inr ⟨_, t, rfl, h⟩
    · exact Or.inl ⟨_, .puny h⟩
  · exact Or.inl ⟨_, .plain h⟩

theorem LabelD.inv {l d : Str} (h : LabelD l d) : (¬ idnaPrefix <+: l ∧ d = l) ∨ ∃ t s, l = idnaPrefix ++ t ∧ Puny.decode false t = .ok (.ok (s, [])) ∧ d = utf8Of s := by
  cases h with
  | plain h => exact Or.inl ⟨h, rfl⟩
  | puny h => exact Or.inr ⟨_, _, rfl, h, rfl⟩

theorem LabelD.unique {l d d' : Str} (h : LabelD l d) (h' : LabelD l d') : d = d' := by
  rcases h.inv with ⟨a, rfl⟩ | ⟨t, s, rfl, a, rfl⟩ <;> rcases h'.inv with ⟨b, rfl⟩ | ⟨t', s', e, b, rfl⟩
  · rfl
  · exact absurd ⟨_, e.symm⟩ a
  · exact absurd ⟨t, rfl⟩ b
  · have e := List.append_cancel_left e
    subst e
    rw [a] at b
    cases b; rfl

theorem LabelD.not_bad {l d : Str} {e : Puny.Err} (h : LabelD l d) : ¬ LabelBad l e := by
  rintro ⟨t, rfl, ht⟩
  rcases h.inv with ⟨a, _⟩ | ⟨t', s, e, a, rfl⟩
  · exact a ⟨t, rfl⟩
  · have e := List.append_cancel_left e
    subst e
    rw [a] at ht; simp at ht

/-- One iteration of the loop. -/
theorem punyDecodedLoop_step (fuel : Nat) (s l : Str) (hl : s.takeWhile (fun c => isNotDot c.toNat) = l) (r : Str)
    (hr : s.drop l.length = r) :
    (∀ e, LabelBad l e → punyDecodedLoop (fuel + 1) s = .ok ([], .error e)) ∧
    (∀ d, LabelD l d → r = [] → punyDecodedLoop (fuel + 1) s = .ok (d, .ok (decide (idnaPrefix <+: l)))) ∧
    (∀ d c r' out res, LabelD l d → r = c :: r' → punyDecodedLoop fuel r' = .ok (out, res) →
      punyDecodedLoop (fuel + 1) s = .ok (d ++ 0x2E :: out, res.map (decide (idnaPrefix <+: l) || ·))) := by
  subst hr
  refine ⟨?_, ?_, ?_⟩
  · rintro e ⟨t, rfl, ht⟩
    have hs : startsWith (· == ·) id id (idnaPrefix ++ t) idnaPrefix = true := (starts_iff _).2 ⟨t, rfl⟩
    simp only [punyDecodedLoop, hl, hs, if_true, bind, Except.bind, List.drop_left, ht]
  · intro d hd hr
    cases hd with
    | plain hp =>
      have hs : startsWith (· == ·) id id l idnaPrefix = false := by rw [Bool.eq_false_iff]; exact fun h => hp ((starts_iff _).1 h)
      simp only [punyDecodedLoop, hl, hs, Bool.false_eq_true, if_false, bind, Except.bind, hr, decide_eq_false hp]
    | @puny t x ht =>
      have hs : startsWith (· == ·) id id (idnaPrefix ++ t) idnaPrefix = true := (starts_iff _).2 ⟨t, rfl⟩
      obtain ⟨w, hw⟩ := viewRun_utf8Of x
      have : decide (idnaPrefix <+: idnaPrefix ++ t) = true := decide_eq_true ⟨t, rfl⟩
      simp only [punyDecodedLoop, hl, hs, if_true, bind, Except.bind, List.drop_left, ht, hw, hr, List.nil_append, this]
  · intro d c r' out res hd hr hrec
    cases hd with
    | plain hp =>
      have hs : startsWith (· == ·) id id l idnaPrefix = false := by rw [Bool.eq_false_iff]; exact fun h => hp ((starts_iff _).1 h)
      simp only [punyDecodedLoop, hl, hs, Bool.false_eq_true, if_false, bind, Except.bind, hr, decide_eq_false hp, hrec]
    | @puny t x ht =>
      have hs : startsWith (· == ·) id id (idnaPrefix ++ t) idnaPrefix = true := (starts_iff _).2 ⟨t, rfl⟩
      obtain ⟨w, hw⟩ := viewRun_utf8Of x
      have : decide (idnaPrefix <+: idnaPrefix ++ t) = true := decide_eq_true ⟨t, rfl⟩
      simp only [punyDecodedLoop, hl, hs, if_true, bind, Except.bind, List.drop_left, ht, hw, hr, List.nil_append, this, hrec]

theorem punyDecodedLoop_eq : ∀ (fuel : Nat) (s : Str), s.length < fuel → s.length + 2 < szMod → ∃ ls, Labels 0x2E s ls ∧
    ((∃ ds, Each LabelD ls ds ∧ punyDecodedLoop fuel s = .ok (joined 0x2E ds, .ok (ls.any fun l => decide (idnaPrefix <+: l)))) ∨
     ∃ pre l post out e, ls = pre ++ l :: post ∧ (∀ x ∈ pre, ∃ d, LabelD x d) ∧ LabelBad l e ∧ punyDecodedLoop fuel s = .ok (out, .error e)) := by
  intro fuel
  induction fuel with
  | zero => intro s h; omega
  | succ fuel ih =>
    intro s hf hl
    obtain ⟨hd, hr⟩ := span_dotB s
    have hlen : (s.takeWhile (fun c => isNotDot c.toNat)).length ≤ s.length := (List.takeWhile_prefix _).length_le
    obtain ⟨l, hl'⟩ : ∃ l, s.takeWhile (fun c => isNotDot c.toNat) = l := ⟨_, rfl⟩
    rw [hl'] at hd hr hlen
    obtain ⟨s1, s2, s3⟩ := punyDecodedLoop_step fuel s l hl' _ rfl
    rcases hr with ⟨hr, he⟩ | ⟨r, hr, he⟩
    · refine ⟨[l], by rw [he]; exact Labels.single hd, ?_⟩
      rcases label_cases l (by omega) with ⟨d, h⟩ | ⟨e, h⟩
      · exact Or.inl ⟨[d], .cons h .nil, by rw [s2 d h hr]; simp [joined]⟩
      · exact Or.inr ⟨[], l, [], [], e, rfl, by simp, h, s1 e h⟩
    · have hlr : l.length + 1 + r.length = s.length := by
        have := congrArg List.length he; simp at this; omega
      obtain ⟨ls, i1, i2⟩ := ih r (by omega) (by omega)
      refine ⟨l :: ls, by rw [he]; exact Labels.cons hd i1, ?_⟩
      rcases label_cases l (by omega) with ⟨d, h⟩ | ⟨e, h⟩
      · rcases i2 with ⟨ds, i2, i3⟩ | ⟨pre, l', post, out, e, i2, i3, i4, i5⟩
        · refine Or.inl ⟨d :: ds, .cons h i2, ?_⟩
          have hds : ds ≠ [] := by
            intro e; subst e; cases i2; exact i1.1 rfl
          rw [s3 d _ r _ _ h hr i3, joined_cons _ hds]
          rfl
        · refine Or.inr ⟨l :: pre, l', post, d ++ 0x2E :: out, e, by rw [i2]; rfl, ?_, i4, ?_⟩
          · intro x hx
            rcases List.mem_cons.1 hx with rfl | hx
            · exact ⟨d, h⟩
            · exact i3 x hx
          · rw [s3 d _ r _ _ h hr i5]; rfl
      · exact Or.inr ⟨[], l, ls, [], e, rfl, by simp, h, s1 e h⟩

/-- What `puny_decoded` does to a host name. -/
theorem punyDecoded_eq (s : Str) (hl : s.length + 2 < szMod) : ∃ ls, Labels 0x2E s ls ∧
    ((∃ ds, Each LabelD ls ds ∧ punyDecoded s = .ok (joined 0x2E ds, .ok (ls.any fun l => decide (idnaPrefix <+: l)))) ∨
     ∃ pre l post out e, ls = pre ++ l :: post ∧ (∀ x ∈ pre, ∃ d, LabelD x d) ∧ LabelBad l e ∧ punyDecoded s = .ok (out, .error e)) :=
  punyDecodedLoop_eq _ s (by omega) hl

theorem takeWhile_dotB {l : Str} (h : 0x2E ∉ l) (r : Str) : (l ++ 0x2E :: r).takeWhile (fun c => isNotDot c.toNat) = l ∧ l.takeWhile (fun c => isNotDot c.toNat) = l := by
  induction l with
  | nil => simp [isNotDot]
  | cons c l ih =>
    simp only [List.mem_cons, not_or] at h
    have hc : isNotDot c.toNat = true := by
      unfold isNotDot
      rw [bne_iff_ne]
      intro e
      exact h.1 (UInt8.toNat.inj e).symm
    obtain ⟨h1, h2⟩ := ih h.2
    simp only [List.cons_append, List.takeWhile_cons, hc, if_true, h1, h2, and_self]

/-- Labels that can be read are read, without a bound on their size. -/
theorem punyDecodedLoop_of : ∀ (ls : List Str) (fuel : Nat) (s : Str) (ds : List Str), Labels 0x2E s ls → Each LabelD ls ds → s.length < fuel →
    punyDecodedLoop fuel s = .ok (joined 0x2E ds, .ok (ls.any fun l => decide (idnaPrefix <+: l))) := by
  intro ls
  induction ls with
  | nil => intro fuel s ds h; exact absurd rfl h.1
  | cons l ls ih =>
    intro fuel s ds h hd hf
    cases hd with
    | @cons _ d _ ds h1 h2 =>
    obtain ⟨fuel, rfl⟩ : ∃ n, fuel = n + 1 := ⟨fuel - 1, by omega⟩
    obtain ⟨_, k2, k3⟩ := h
    have hl := k2 l (by simp)
    by_cases e : ls = []
    · subst e
      cases h2
      simp only [joined] at k3
      subst k3
      obtain ⟨_, s2, _⟩ := punyDecodedLoop_step fuel s s (takeWhile_dotB hl []).2 _ rfl
      rw [s2 d h1 (by simp)]
      simp [joined]
    · rw [joined_cons l e] at k3
      have hds : ds ≠ [] := by
        intro e'; subst e'; cases h2; exact e rfl
      obtain ⟨_, _, s3⟩ := punyDecodedLoop_step fuel s l (by rw [k3]; exact (takeWhile_dotB hl _).1) _ rfl
      have hrec := ih fuel (joined 0x2E ls) ds ⟨e, fun x hx => k2 x (by simp [hx]), rfl⟩ h2 (by rw [k3] at hf; simp at hf; omega)
      rw [s3 d 0x2E (joined 0x2E ls) _ _ h1 (by rw [k3]; simp) hrec, joined_cons d hds]
      rfl

theorem punyDecoded_of {ls : List Str} {s : Str} {ds : List Str} (h : Labels 0x2E s ls) (hd : Each LabelD ls ds) :
    punyDecoded s = .ok (joined 0x2E ds, .ok (ls.any fun l => decide (idnaPrefix <+: l))) := punyDecodedLoop_of ls _ s ds h hd (by omega)

theorem labelD_spec {l d : Str} (hl : l.length + 2 < szMod) (h : LabelD l d) : LabelDecodes l d := by
  cases h with
  | plain h => exact .plain h
  | @puny t s h => exact .puny (C32_sound false t (by simp at hl; omega) s [] h)

end Verif.Codec
