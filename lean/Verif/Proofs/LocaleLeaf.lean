import Verif.Proofs.LocaleGrammar
import Verif.Spec.Locale
import Verif.Spec.Components

/-!
# What a locale can change of the tests of single characters
-/

namespace Verif.Loc
open Cost (Gr Chain Alts)

set_option linter.unusedSimpArgs false

variable {L : Locale}

theorem lower_of_not_alpha (h : Standard L) {c : UInt8} (hc : L.alpha c = false) : L.lower c = c := by
  rcases h.lower c with e | ⟨e, _⟩
  · exact e
  · rw [hc] at e; cases e

theorem lower_eq_iff (h : Standard L) {c b : UInt8} (hc : L.alpha c = false) : L.lower b = c ↔ b = c := by
  constructor
  · intro e
    rcases h.lower b with e' | ⟨_, e'⟩
    · rw [← e', e]
    · rw [e, hc] at e'; cases e'
  · rintro rfl
    exact lower_of_not_alpha h hc

theorem named_alpha : ∀ c ∈ named, c.toNat < 0x80 ∧ (c = 0x76 ∨ isAlphaB c = false) := by decide

theorem named_lower : ∀ c ∈ named, toLowerB c = c := by decide

theorem lowerB_eq : ∀ c ∈ named, c ≠ 0x76 → ∀ b : UInt8, (toLowerB b = c ↔ b = c) := by
  intro c hc hv b
  have := forall_byte (P := fun b => decide (∀ c ∈ named, c ≠ 0x76 → (toLowerB b = c ↔ b = c))) (by decide +kernel) b
  exact (of_decide_eq_true this) c hc hv

theorem lowerB_v (b : UInt8) : toLowerB b = 0x76 ↔ b = 0x76 ∨ b = 0x56 := by
  have := forall_byte (P := fun b => decide (toLowerB b = 0x76 ↔ b = 0x76 ∨ b = 0x56)) (by decide +kernel) b
  exact of_decide_eq_true this

/-- A named character is recognised in every locale as in the "C" locale. -/
theorem lower_named (h : Standard L) {c : UInt8} (hc : c ∈ named) : L.lower c = c ∧ ∀ b, (L.lower b = c ↔ toLowerB b = c) := by
  obtain ⟨h1, h2⟩ := named_alpha c hc
  by_cases hv : c = 0x76
  · subst hv
    exact ⟨(h.letterV _).2 (.inl rfl), fun b => by rw [h.letterV, lowerB_v]⟩
  · have ha : L.alpha c = false := by
      rw [h.ascii c h1]
      rcases h2 with h2 | h2
      · exact absurd h2 hv
      · exact h2
    exact ⟨lower_of_not_alpha h ha, fun b => by rw [lower_eq_iff h ha, lowerB_eq c hc hv]⟩

theorem plain_signed {e : Env} (hs : e.pl.charSigned = true) (b : UInt8) : plain e b = b := by
  unfold plain
  rw [if_neg]
  rintro ⟨h, _⟩
  rw [hs] at h; cases h

theorem plain_ascii {e : Env} {b : UInt8} (hb : b.toNat < 0x80) : plain e b = b := by
  unfold plain
  rw [if_neg]
  rintro ⟨_, h, _⟩
  omega

theorem plain_cases (e : Env) (b : UInt8) : (plain e b = b ∧ ¬ Foreign e b) ∨ (plain e b = 0x67 ∧ Foreign e b) := by
  unfold plain
  by_cases h : Foreign e b
  · exact .inr ⟨if_pos h, h⟩
  · exact .inl ⟨if_neg h, h⟩

theorem ascii_of_named {c : UInt8} (hc : c ∈ named) : c.toNat < 0x80 := (named_alpha c hc).1

theorem not_eof_ascii {e : Env} {c : UInt8} (h : c.toNat < 0x80) : e.eof c = false := by
  unfold Env.eof
  have : (c == 0xFF) = false := by
    rw [beq_eq_false_iff_ne]
    rintro rfl
    simp at h
  simp [this]

theorem tolower_ascii {e : Env} {c : UInt8} (h : c.toNat < 0x80) : e.tolower c = .ok (Int.ofNat (e.loc.lower c).toNat) := by
  unfold Env.tolower ctype
  have : ctypeOk e.pl c = true := by simp [ctypeOk, h]
  simp [this, not_eof_ascii h]

/-- What a `<cctype>` function makes of a byte. -/
theorem byte_cases (e : Env) (b : UInt8) : ctypeOk e.pl b = false ∧ e.pl.charSigned = true ∨
    (e.eof b = true ∧ b = 0xFF ∧ e.pl.charSigned = true ∧ ctypeOk e.pl b = true) ∨
    (e.eof b = false ∧ ctypeOk e.pl b = true ∧ ctypeOk e.pl (plain e b) = true ∧ e.eof (plain e b) = false ∧
      (e.pl.charSigned = true → b.toNat < 0x80)) := by
  cases hs : e.pl.charSigned with
  | true =>
    by_cases h : b.toNat < 0x80
    · exact .inr (.inr ⟨not_eof_ascii h, by simp [ctypeOk, h], by rw [plain_ascii h]; simp [ctypeOk, h],
        by rw [plain_ascii h]; exact not_eof_ascii h, fun _ => h⟩)
    · by_cases hf : b = 0xFF
      · subst hf
        exact .inr (.inl ⟨by simp [Env.eof, hs], rfl, rfl, by simp [ctypeOk]⟩)
      · left
        refine ⟨?_, rfl⟩
        have : b.toNat ≠ 0xFF := by
          intro h'
          exact hf (UInt8.toNat_inj.1 (by rw [h']; rfl))
        simp [ctypeOk, hs, h, this]
  | false => exact .inr (.inr ⟨by simp [Env.eof, hs], by simp [ctypeOk, hs], by simp [ctypeOk, hs], by simp [Env.eof, hs], fun h => by cases h⟩)

/-- Outside ASCII, and where `<cctype>` may be asked, a letter is foreign. -/
theorem alpha_plain {e : Env} (h : Standard e.loc) {b : UInt8} (hs : e.pl.charSigned = true → b.toNat < 0x80) :
    e.loc.alpha b = isAlphaB (plain e b) := by
  rcases plain_cases e b with ⟨h1, h2⟩ | ⟨h1, h2⟩
  · rw [h1]
    by_cases hb : b.toNat < 0x80
    · exact h.ascii b hb
    · have hs' : e.pl.charSigned = false := by
        cases hc : e.pl.charSigned with
        | false => rfl
        | true => exact absurd (hs hc) hb
      have ha : e.loc.alpha b = false := by
        cases hc : e.loc.alpha b with
        | false => rfl
        | true => exact absurd ⟨hs', by omega, hc⟩ h2
      rw [ha]
      have := forall_byte (P := fun b => decide (¬ b.toNat < 0x80 → isAlphaB b = false)) (by decide +kernel) b
      exact ((of_decide_eq_true this) hb).symm
  · rw [h1, h2.2.2]; rfl

theorem high_plain {e : Env} {b : UInt8} (h : Foreign e b) (p : UInt8 → Bool) (hp : ∀ c : UInt8, 0x80 ≤ c.toNat → p c = false)
    (hg : p 0x67 = false) : p b = p (plain e b) := by
  have : plain e b = 0x67 := if_pos h
  rw [this, hp b h.2.1, hg]

/-- A test no letter passes gives the same answer. -/
theorem test_plain (e : Env) (b : UInt8) (p : UInt8 → Bool) (hp : ∀ c : UInt8, 0x80 ≤ c.toNat → p c = false)
    (hg : p 0x67 = false) : p b = p (plain e b) := by
  rcases plain_cases e b with ⟨h1, _⟩ | ⟨_, h2⟩
  · rw [h1]
  · exact high_plain h2 p hp hg

theorem digit_high (c : UInt8) (h : 0x80 ≤ c.toNat) : isDigitB c = false := by
  have := forall_byte (P := fun b => decide (0x80 ≤ b.toNat → isDigitB b = false)) (by decide +kernel) c
  exact (of_decide_eq_true this) h
theorem xdigit_high (c : UInt8) (h : 0x80 ≤ c.toNat) : isXDigitB c = false := by
  have := forall_byte (P := fun b => decide (0x80 ≤ b.toNat → isXDigitB b = false)) (by decide +kernel) c
  exact (of_decide_eq_true this) h
theorem sub_high (c : UInt8) (h : 0x80 ≤ c.toNat) : Grammar.isSubDelim c = false := by
  have := forall_byte (P := fun b => decide (0x80 ≤ b.toNat → Grammar.isSubDelim b = false)) (by decide +kernel) c
  exact (of_decide_eq_true this) h
theorem eq_high (k c : UInt8) (hk : k.toNat < 0x80) (h : 0x80 ≤ c.toNat) : (c == k) = false := by
  rw [beq_eq_false_iff_ne]; rintro rfl; omega

/-- A `<cctype>` function of the locale and the same function of the "C" locale. -/
theorem ctype_plain {β : Type} {e : Env} {b : UInt8} {p q : UInt8 → β}
    (hf : e.eof b = true → p 0xFF = q 0xFF)
    (h : e.eof b = false → e.eof (plain e b) = false → (e.pl.charSigned = true → b.toNat < 0x80) → p b = q (plain e b)) :
    ctype e.pl p b = ctype e.pl q (plain e b) := by
  rcases byte_cases e b with ⟨h1, h2⟩ | ⟨h1, rfl, h3, h4⟩ | ⟨h1, h2, h3, h4, h5⟩
  · rw [plain_signed h2]; simp [ctype, h1]
  · rw [plain_signed h3]; simp [ctype, h4, hf h1]
  · simp [ctype, h2, h3, h h1 h4 h5]

theorem isalpha_plain {e : Env} (h : Standard e.loc) (b : UInt8) : e.isalpha b = Verif.isalpha e.pl (plain e b) := by
  refine ctype_plain (p := fun c => !e.eof c && e.loc.alpha c) (q := isAlphaB) ?_ ?_
  · intro he
    have : e.eof 0xFF = true := by
      unfold Env.eof at he ⊢
      simp at he ⊢
      exact he.1
    simp [this]
    decide
  · intro h1 _ h3
    simp only [h1, Bool.not_false, Bool.true_and]
    exact alpha_plain h h3

theorem isdigit_plain (e : Env) (b : UInt8) : e.isdigit b = Verif.isdigit e.pl (plain e b) :=
  ctype_plain (p := isDigitB) (q := isDigitB) (fun _ => rfl) fun _ _ _ => test_plain e b _ digit_high (by decide)

theorem isxdigit_plain (e : Env) (b : UInt8) : e.isxdigit b = Verif.isxdigit e.pl (plain e b) :=
  ctype_plain (p := isXDigitB) (q := isXDigitB) (fun _ => rfl) fun _ _ _ => test_plain e b _ xdigit_high (by decide)

theorem isalnum_plain {e : Env} (h : Standard e.loc) (b : UInt8) : e.isalnum b = Verif.isalnum e.pl (plain e b) := by
  refine ctype_plain (p := fun c => !e.eof c && e.loc.alnum c) (q := fun c => isAlphaB c || isDigitB c) ?_ ?_
  · intro he
    have : e.eof 0xFF = true := by
      unfold Env.eof at he ⊢
      simp at he ⊢
      exact he.1
    simp [this]
    decide
  · intro h1 _ h3
    simp only [h1, Bool.not_false, Bool.true_and, h.alnum b]
    rw [alpha_plain h h3, test_plain e b isDigitB digit_high (by decide)]

/-- The outcome of `single_char (c)`, as a function of the byte looked at. -/
theorem ch_out {e : Env} {c b : UInt8} (hc : c.toNat < 0x80) :
    (do let c2 ← e.tolower c; return c2 == (← e.tolower b) : M Bool) =
    ctype e.pl (fun d => Int.ofNat (e.loc.lower c).toNat == if e.eof d then -1 else Int.ofNat (e.loc.lower d).toNat) b := by
  rw [tolower_ascii hc]
  unfold Env.tolower ctype
  by_cases h : ctypeOk e.pl b
  · simp only [h, if_true]; rfl
  · simp only [h]; rfl

theorem ch_outC {pl : Plat} {c b : UInt8} (hc : c.toNat < 0x80) :
    (do let c2 ← tolower pl c; return c2 == (← tolower pl b) : M Bool) = ctype pl (fun d => toLowerB c == toLowerB d) b := by
  rw [Cost.Uri.tolower_ascii pl c hc]
  unfold tolower ctype
  by_cases h : ctypeOk pl b
  · simp only [h, if_true]; rfl
  · simp only [h]; rfl

theorem sim_ch {e : Env} (h : Standard e.loc) {c : UInt8} (hc : c ∈ named) :
    SimG (fun _ => True) (plain e) (ch e c) (Cost.Uri.ch e.pl c) := by
  refine .chr fun b _ => ?_
  rw [ch_out (ascii_of_named hc), ch_outC (ascii_of_named hc)]
  obtain ⟨h1, h2⟩ := lower_named h hc
  have h3 := named_lower c hc
  refine ctype_plain ?_ ?_
  · intro he
    have he' : e.eof 0xFF = true := by
      unfold Env.eof at he ⊢
      simp at he ⊢
      exact he.1
    have h4 : (toLowerB c == toLowerB 0xFF) = false := by
      rw [h3]
      exact (by decide : ∀ c ∈ named, (c == toLowerB 0xFF) = false) c hc
    simp only [he', if_true, h4, beq_eq_false_iff_ne]
    exact fun h => by cases h
  · intro he _ _
    simp only [he, h1, h3]
    rw [Bool.eq_iff_iff]
    simp only [Bool.false_eq_true, if_false, beq_iff_eq]
    have e1 : (Int.ofNat c.toNat = Int.ofNat (e.loc.lower b).toNat) ↔ e.loc.lower b = c := by
      constructor
      · intro x; exact UInt8.toNat_inj.1 (Int.ofNat.inj x).symm
      · intro x; rw [x]
    rw [e1, h2 b, eq_comm (a := c)]
    rcases plain_cases e b with ⟨p1, _⟩ | ⟨p1, p2⟩
    · rw [p1]
    · rw [p1]
      constructor
      · intro x
        exfalso
        have : b.toNat < 0x80 := by
          rw [← x] at hc
          have := forall_byte (P := fun b => decide (toLowerB b ∈ named → b.toNat < 0x80)) (by decide +kernel) b
          exact (of_decide_eq_true this) hc
        have := p2.2.1
        omega
      · intro x
        exfalso
        rw [← x] at hc
        revert hc
        decide

theorem range_out {e : Env} {x y b : UInt8} (hx : x.toNat < 0x80) (hy : y.toNat < 0x80) :
    (do let f ← e.tolower x; let l ← e.tolower y; let cl ← e.tolower b; return decide (f ≤ cl) && decide (cl ≤ l) : M Bool) =
    ctype e.pl (fun d => decide (Int.ofNat (e.loc.lower x).toNat ≤ if e.eof d then -1 else Int.ofNat (e.loc.lower d).toNat) &&
      decide ((if e.eof d then -1 else Int.ofNat (e.loc.lower d).toNat) ≤ Int.ofNat (e.loc.lower y).toNat)) b := by
  rw [tolower_ascii hx, tolower_ascii hy]
  unfold Env.tolower ctype
  by_cases h : ctypeOk e.pl b
  · simp only [h, if_true]; rfl
  · simp only [h]; rfl

theorem range_outC {pl : Plat} {x y b : UInt8} (hx : x.toNat < 0x80) (hy : y.toNat < 0x80) :
    (do let f ← tolower pl x; let l ← tolower pl y; let cl ← tolower pl b
        return decide (f.toNat ≤ cl.toNat) && decide (cl.toNat ≤ l.toNat) : M Bool) =
    ctype pl (fun d => decide ((toLowerB x).toNat ≤ (toLowerB d).toNat) && decide ((toLowerB d).toNat ≤ (toLowerB y).toNat)) b := by
  rw [Cost.Uri.tolower_ascii pl x hx, Cost.Uri.tolower_ascii pl y hy]
  unfold tolower ctype
  by_cases h : ctypeOk pl b
  · simp only [h, if_true]; rfl
  · simp only [h]; rfl

theorem ranges_digits : ∀ c ∈ ranges, isDigitB c.1 = true ∧ isDigitB c.2 = true := by decide

theorem digit_ascii {c : UInt8} (h : isDigitB c = true) : c.toNat < 0x80 ∧ isAlphaB c = false ∧ toLowerB c = c := by
  have := forall_byte (P := fun c => decide (isDigitB c = true → c.toNat < 0x80 ∧ isAlphaB c = false ∧ toLowerB c = c))
    (by decide +kernel) c
  exact (of_decide_eq_true this) h

theorem digit_of_between {x y c : UInt8} (hx : isDigitB x = true) (hy : isDigitB y = true) (h1 : x.toNat ≤ c.toNat)
    (h2 : c.toNat ≤ y.toNat) : isDigitB c = true := by
  simp [isDigitB] at *
  omega

theorem sim_range {e : Env} (h : Standard e.loc) {x y : UInt8} (hx : isDigitB x = true) (hy : isDigitB y = true) :
    SimG (fun _ => True) (plain e) (range e x y) (Cost.Uri.range e.pl x y) := by
  refine .chr fun b _ => ?_
  obtain ⟨x1, x2, x3⟩ := digit_ascii hx
  obtain ⟨y1, y2, y3⟩ := digit_ascii hy
  have lx : e.loc.lower x = x := lower_of_not_alpha h (by rw [h.ascii x x1, x2])
  have ly : e.loc.lower y = y := lower_of_not_alpha h (by rw [h.ascii y y1, y2])
  rw [range_out x1 y1, range_outC x1 y1]
  refine ctype_plain ?_ ?_
  · intro he
    have he' : e.eof 0xFF = true := by
      unfold Env.eof at he ⊢
      simp at he ⊢
      exact he.1
    have h4 : (toLowerB 0xFF).toNat = 255 := by decide
    have h5 : decide ((toLowerB 0xFF).toNat ≤ (toLowerB y).toNat) = false := by
      rw [h4, y3]; simp; omega
    have h6 : decide (Int.ofNat (e.loc.lower x).toNat ≤ -1) = false := by
      simp only [decide_eq_false_iff_not, Int.ofNat_eq_natCast]; omega
    simp only [he', if_true, h5, h6, Bool.and_false, Bool.false_and]
  · intro he _ _
    simp only [he, lx, ly, x3, y3, Bool.false_eq_true, if_false]
    rw [Bool.eq_iff_iff]
    simp only [Bool.and_eq_true, decide_eq_true_eq, Int.ofNat_eq_natCast, Int.ofNat_le]
    have key : ∀ c : UInt8, (x.toNat ≤ (toLowerB c).toNat ∧ (toLowerB c).toNat ≤ y.toNat) ↔ (x.toNat ≤ c.toNat ∧ c.toNat ≤ y.toNat) := by
      intro c
      constructor
      · rintro ⟨a, b⟩
        have := digit_of_between hx hy a b
        have e2 := forall_byte (P := fun c => decide (isDigitB (toLowerB c) = true → toLowerB c = c)) (by decide +kernel) c
        rw [(of_decide_eq_true e2) this] at a b
        exact ⟨a, b⟩
      · rintro ⟨a, b⟩
        have := digit_of_between hx hy a b
        rw [(digit_ascii this).2.2]
        exact ⟨a, b⟩
    have keyL : (x.toNat ≤ (e.loc.lower b).toNat ∧ (e.loc.lower b).toNat ≤ y.toNat) ↔ (x.toNat ≤ b.toNat ∧ b.toNat ≤ y.toNat) := by
      constructor
      · rintro ⟨a, c⟩
        have hd := digit_ascii (digit_of_between hx hy a c)
        rcases h.lower b with e1 | ⟨_, e1⟩
        · rw [e1] at a c; exact ⟨a, c⟩
        · rw [h.ascii _ hd.1, hd.2.1] at e1; cases e1
      · rintro ⟨a, c⟩
        have hd := digit_ascii (digit_of_between hx hy a c)
        rw [lower_of_not_alpha h (by rw [h.ascii _ hd.1, hd.2.1])]
        exact ⟨a, c⟩
    rw [keyL, key]
    rcases plain_cases e b with ⟨p1, _⟩ | ⟨p1, p2⟩
    · rw [p1]
    · rw [p1]
      have := p2.2.1
      constructor
      · rintro ⟨a, c⟩; omega
      · rintro ⟨a, c⟩
        exfalso
        have : isDigitB 0x67 = true := digit_of_between hx hy a c
        revert this
        decide

/-- The locale changes no test of a character but by its letters outside ASCII. -/
theorem fits {e : Env} (h : Standard e.loc) : Fits (fun _ => True) (plain e) e where
  ch _ hc := sim_ch h hc
  range c hc := sim_range h (ranges_digits c hc).1 (ranges_digits c hc).2
  alpha := .chr fun b _ => isalpha_plain h b
  digit := .chr fun b _ => isdigit_plain e b
  hexdig := .chr fun b _ => isxdigit_plain e b
  unreserved := .chr fun b _ => by
    rw [isalnum_plain h b]
    rw [test_plain e b (· == 0x2D) (fun c => eq_high _ c (by decide)) (by decide),
      test_plain e b (· == 0x2E) (fun c => eq_high _ c (by decide)) (by decide),
      test_plain e b (· == 0x5F) (fun c => eq_high _ c (by decide)) (by decide),
      test_plain e b (· == 0x7E) (fun c => eq_high _ c (by decide)) (by decide)]
  subDelims := .chr fun b _ => congrArg Except.ok (test_plain e b _ sub_high (by decide))
  notColon := .look fun s _ => by
    obtain ⟨a, l⟩ := s
    cases l with
    | nil => rfl
    | cons c l =>
      show ((some c : Option UInt8) != some 0x3A) = ((some (plain e c) : Option UInt8) != some 0x3A)
      have := test_plain e c (· == 0x3A) (fun c => eq_high _ c (by decide)) (by decide)
      simp only [bne, Option.some_beq_some] at *
      rw [this]

theorem okTrue (s : SV) : OkV (fun _ => True) s := fun _ _ => trivial

/-- Any match function of the grammar. -/
theorem run_plain {e : Env} {g : Gr Act} {m : Matcher Act} {g' : Gr Act} (hg : SimG (fun _ => True) (plain e) g g') (hm : g'.run = m)
    (s : SV) : runGrammar m (plainV e s) = (runGrammar g.run s).map (Option.map (plainP e)) := by
  rw [← hm]
  exact runGrammar_rn (simG hg) (okTrue s)

theorem split_plain {e : Env} (h : Standard e.loc) (s : SV) :
    Verif.split e.pl (plainV e s) = (split e s).map (Option.map (plainP e)) :=
  run_plain (sim_URI (fits h)) (Cost.Uri.run_URI e.pl) s

theorem splitReference_plain {e : Env} (h : Standard e.loc) (s : SV) :
    Verif.splitReference e.pl (plainV e s) = (splitReference e s).map (Option.map (plainP e)) :=
  run_plain (sim_URIReference (fits h)) (Cost.Uri.run_URIReference e.pl) s

theorem field_plain {e : Env} {g g' : Gr Act} {m : Matcher Act} (hg : SimG (fun _ => True) (plain e) g g') (hm : g'.run = m)
    (s : SV) : Verif.fieldOk m (plainV e s) = Verif.fieldOk g.run s := by
  unfold fieldOk
  rw [run_plain hg hm s]
  rcases runGrammar g.run s with f | _ | q <;> rfl

theorem opt_plain {e : Env} {g g' : Gr Act} {m : Matcher Act} (hg : SimG (fun _ => True) (plain e) g g') (hm : g'.run = m)
    (s : Option SV) : Verif.optOk m (s.map (plainV e)) = Verif.optOk g.run s := by
  cases s with
  | none => rfl
  | some s => exact field_plain hg hm s

theorem all_plain {e : Env} {ok ok' : SV → M Bool} (h : ∀ s, ok' (plainV e s) = ok s) : ∀ l : List SV,
    allOk ok' (l.map (plainV e)) = allOk ok l
  | [] => rfl
  | s :: l => by
    show (ok' (plainV e s) >>= fun b => if b then allOk ok' (l.map (plainV e)) else pure false) = (ok s >>= fun b => if b then allOk ok l else pure false)
    rw [h s, all_plain h l]

theorem authority_plain {e : Env} (h : Standard e.loc) (a : Authority SV) :
    Verif.Authority.valid e.pl (a.map (plainV e)) = authorityValid e a := by
  unfold Verif.Authority.valid authorityValid
  have h1 := opt_plain (sim_userinfo (fits h)) (Cost.Uri.run_userinfo e.pl) a.userinfo
  have h2 := field_plain (sim_host (fits h)) (Cost.Uri.run_host e.pl) a.host
  have h3 := opt_plain (sim_port (fits h)) (Cost.Uri.run_port e.pl) a.port
  simp only [Authority.map, h1, h2, h3]

theorem valid_plain {e : Env} (h : Standard e.loc) (p : Parts SV) : Verif.Parts.valid e.pl (plainP e p) = valid e p := by
  obtain ⟨sc, au, pa, q, fr⟩ := p
  cases sc with
  | none => rfl
  | some sc =>
    have h1 := field_plain (sim_scheme (fits h)) (Cost.Uri.run_scheme e.pl) sc
    have h2 := fun a => authority_plain h a
    have h3 : Verif.Path.valid e.pl (pa.map (plainV e)) = pathValid e pa :=
      all_plain (fun s => field_plain (sim_segment (fits h)) (Cost.Uri.run_segment e.pl) s) pa.segments
    have h4 := opt_plain (sim_query (fits h)) (Cost.Uri.run_query e.pl) q
    have h5 := opt_plain (sim_fragment (fits h)) (Cost.Uri.run_fragment e.pl) fr
    unfold Verif.Parts.valid valid plainP Parts.map
    simp only [Option.map_some, h1, h3, h4, h5]
    cases au with
    | none => rfl
    | some a => simp only [Option.map_some, h2]

end Verif.Loc

namespace Verif.Loc
open Cost (Gr Chain Alts)

variable {α : Type} {P Q : UInt8 → Prop} {f : UInt8 → UInt8}

theorem rnV_id (s : SV) : rnV id s = s := by simp [rnV]
theorem rnP_id (p : Parts SV) : rnP id p = p := by
  obtain ⟨sc, au, ⟨ab, sg⟩, q, fr⟩ := p
  have : rnV id = id := funext rnV_id
  simp only [rnP, Parts.map, Path.map, this, Option.map_id, List.map_id, id]
  cases au with
  | none => rfl
  | some a =>
    obtain ⟨u, h, pt⟩ := a
    simp [Authority.map]

theorem rnV_fixed {s : SV} (h : ∀ b ∈ s.chars, f b = b) : rnV f s = s := by
  obtain ⟨a, l⟩ := s
  have : l.map f = l := by
    conv => rhs; rw [← List.map_id l]
    exact List.map_congr_left fun b hb => h b hb
  simp [rnV, this]

mutual
/-- Characters that are not renamed. -/
theorem fixG (hQ : ∀ b, Q b → P b ∧ f b = b) : ∀ {g g' : Gr α}, SimG P f g g' → SimG Q id g g'
  | .chr p, _, h => by
    cases h with
    | chr h => exact .chr fun b hb => by rw [h b (hQ b hb).1, (hQ b hb).2]; rfl
  | .look p, _, h => by
    cases h with
    | look h =>
      exact .look fun s hs => by
        rw [h s fun b hb => (hQ b (hs b hb)).1, rnV_fixed fun b hb => (hQ b (hs b hb)).2, rnV_id]
  | .rule c, _, h => by
    cases h with
    | rule h => exact .rule (fixC hQ h)
theorem fixC (hQ : ∀ b, Q b → P b ∧ f b = b) : ∀ {c c' : Chain α}, SimC P f c c' → SimC Q id c c'
  | .nil, _, h => by
    cases h with
    | nil => exact .nil
  | .concat c g a, _, h => by
    cases h with
    | concat h hg => exact .concat (fixC hQ h) (fixG hQ hg)
  | .optional c g, _, h => by
    cases h with
    | optional h hg => exact .optional (fixC hQ h) (fixG hQ hg)
  | .star c g min max, _, h => by
    cases h with
    | star h hg => exact .star (fixC hQ h) (fixG hQ hg)
  | .alternative c gs, _, h => by
    cases h with
    | alternative h hg => exact .alternative (fixC hQ h) (fixA hQ hg)
theorem fixA (hQ : ∀ b, Q b → P b ∧ f b = b) : ∀ {gs gs' : Alts α}, SimA P f gs gs' → SimA Q id gs gs'
  | .nil, _, h => by
    cases h with
    | nil => exact .nil
  | .cons g gs, _, h => by
    cases h with
    | cons h hs => exact .cons (fixG hQ h) (fixA hQ hs)
end

theorem run_same {e : Env} {g g' : Gr Act} {m : Matcher Act} (hg : SimG (fun _ => True) (plain e) g g') (hm : g'.run = m)
    {s : SV} (hs : ∀ b ∈ s.chars, ¬ Foreign e b) : runGrammar g.run s = runGrammar m s := by
  have h := fixG (Q := fun b => ¬ Foreign e b) (fun b hb => ⟨trivial, if_neg hb⟩) hg
  have := runGrammar_rn (simG h) (s := s) hs
  rw [hm, rnV_id] at this
  rw [this]
  have hi : rnP id = id := funext rnP_id
  rcases runGrammar g.run s with f | _ | q <;> simp [Except.map, hi]

theorem plainV_same {e : Env} {s : SV} (hs : ∀ b ∈ s.chars, ¬ Foreign e b) : plainV e s = s :=
  rnV_fixed fun b hb => if_neg (hs b hb)

theorem plainP_same {e : Env} {p : Parts SV} (hs : ∀ v ∈ p.views, ∀ b ∈ v.chars, ¬ Foreign e b) : plainP e p = p := by
  obtain ⟨sc, au, ⟨ab, sg⟩, q, fr⟩ := p
  have ho : ∀ o : Option SV, (∀ v, o = some v → plainV e v = v) → o.map (plainV e) = o := by
    intro o h
    cases o with
    | none => rfl
    | some v => simp [h v rfl]
  have hv : ∀ v ∈ (⟨sc, au, ⟨ab, sg⟩, q, fr⟩ : Parts SV).views, plainV e v = v := fun v h => plainV_same (hs v h)
  simp only [Parts.views, List.mem_append, Option.mem_toList] at hv
  have h1 := ho sc fun v h => hv v (by simp [h])
  have h4 := ho q fun v h => hv v (by simp [h])
  have h5 := ho fr fun v h => hv v (by simp [h])
  have h3 : sg.map (plainV e) = sg := by
    conv => rhs; rw [← List.map_id sg]
    exact List.map_congr_left fun v h => hv v (by simp [h])
  have h2 : au.map (·.map (plainV e)) = au := by
    cases au with
    | none => rfl
    | some a =>
      obtain ⟨u, h, pt⟩ := a
      have e1 := ho u fun v h => hv v (by simp [h])
      have e2 := ho pt fun v h => hv v (by simp [h])
      have e3 := hv h (by simp)
      simp [Authority.map, e1, e2, e3]
  simp only [plainP, Parts.map, Path.map, h1, h2, h3, h4, h5]

end Verif.Loc
