import Verif.Model.Rule
import Verif.Props.Pct

/-!
# Property C80: the matchers of single characters of rule.hpp
-/

set_option linter.unusedSimpArgs false

namespace Verif

/-! ### Specification -/

/-- `std::tolower`, `std::isalpha` etc. may not be called with the character: `char` is signed, and it is negative and not
`EOF`. -/
def NotForCtype (pl : Plat) (c : UInt8) : Prop := pl.charSigned = true ∧ 0x80 ≤ c.toNat ∧ c.toNat ≠ 0xFF

/-- The matcher matches one character, of those that `P` allows: nothing else is matched, taken or passed to an accept function. -/
def MatchesOne {α : Type} (pl : Plat) (m : Matcher α) (P : UInt8 → Prop) : Prop :=
  ∀ r : Rule α,
    (r.tail = none → m r = .ok none) ∧
    ∀ sv : SV, r.tail = some sv →
      (sv.chars = [] → m r = .ok none) ∧
      ∀ c rest, sv.chars = c :: rest →
        (NotForCtype pl c → m r = .error .ctype) ∧
        (¬ NotForCtype pl c → P c → m r = .ok (some (⟨sv.ptr, [c]⟩, []))) ∧
        (¬ NotForCtype pl c → ¬ P c → m r = .ok none)

def CapitalLetter (c : UInt8) : Prop := c ∈ (b! "ABCDEFGHIJKLMNOPQRSTUVWXYZ" : Str)
def SmallLetter (c : UInt8) : Prop := c ∈ (b! "abcdefghijklmnopqrstuvwxyz" : Str)
def DecDigit (c : UInt8) : Prop := c ∈ (b! "0123456789" : Str)

instance (c : UInt8) : Decidable (CapitalLetter c) := inferInstanceAs (Decidable (_ ∈ _))
instance (c : UInt8) : Decidable (SmallLetter c) := inferInstanceAs (Decidable (_ ∈ _))
instance (c : UInt8) : Decidable (DecDigit c) := inferInstanceAs (Decidable (_ ∈ _))

/-- Equal, or the capital and the small form of a letter. -/
def SameLetter (c d : UInt8) : Prop := c = d ∨ (CapitalLetter c ∧ d = c + 0x20) ∨ (CapitalLetter d ∧ c = d + 0x20)

/-- The value of the small form of a letter, or of a character that is no capital letter. -/
def SmallForm (c : UInt8) (n : Nat) : Prop := (CapitalLetter c ∧ n = c.toNat + 32) ∨ (¬ CapitalLetter c ∧ n = c.toNat)

/-! ### Proof -/

theorem notFor_iff (pl : Plat) (c : UInt8) : NotForCtype pl c ↔ ctypeOk pl c = false := by
  obtain ⟨b⟩ := pl
  cases b with
  | false => simp [NotForCtype, ctypeOk]
  | true => simp [NotForCtype, ctypeOk]

theorem capital_iff (c : UInt8) : CapitalLetter c ↔ 0x41 ≤ c.toNat ∧ c.toNat ≤ 0x5A :=
  byte_prop (fun c => CapitalLetter c ↔ 0x41 ≤ c.toNat ∧ c.toNat ≤ 0x5A) (by decide +kernel) c

theorem small_iff (c : UInt8) : SmallLetter c ↔ 0x61 ≤ c.toNat ∧ c.toNat ≤ 0x7A :=
  byte_prop (fun c => SmallLetter c ↔ 0x61 ≤ c.toNat ∧ c.toNat ≤ 0x7A) (by decide +kernel) c

theorem lower_nat (c : UInt8) : (toLowerB c).toNat = if 0x41 ≤ c.toNat ∧ c.toNat ≤ 0x5A then c.toNat + 32 else c.toNat :=
  byte_prop (fun c => (toLowerB c).toNat = if 0x41 ≤ c.toNat ∧ c.toNat ≤ 0x5A then c.toNat + 32 else c.toNat) (by decide +kernel) c

theorem smallForm_iff (c : UInt8) (n : Nat) : SmallForm c n ↔ n = (toLowerB c).toNat := by
  rw [lower_nat, SmallForm, capital_iff]
  by_cases h : 0x41 ≤ c.toNat ∧ c.toNat ≤ 0x5A
  · rw [if_pos h]; simp [h]
  · rw [if_neg h]; simp only [h, false_and, false_or, not_false_eq_true, true_and]

theorem sameLetter_iff (c d : UInt8) : SameLetter c d ↔ toLowerB c = toLowerB d := by
  have inj : ∀ x y : UInt8, x = y ↔ x.toNat = y.toNat := fun x y => ⟨fun h => by rw [h], fun h => UInt8.toNat_inj.1 h⟩
  have add : ∀ x : UInt8, CapitalLetter x → (x + 0x20).toNat = x.toNat + 32 := by
    intro x hx
    exact (byte_prop (fun x => CapitalLetter x → (x + 0x20).toNat = x.toNat + 32) (by decide +kernel) x) hx
  rw [inj (toLowerB c), lower_nat, lower_nat]
  unfold SameLetter
  constructor
  · rintro (rfl | ⟨h, rfl⟩ | ⟨h, rfl⟩)
    · rfl
    · rw [add _ h]
      rw [capital_iff] at h
      rw [if_pos h, if_neg (by omega)]
    · rw [add _ h]
      rw [capital_iff] at h
      rw [if_pos h, if_neg (by omega)]
  · intro h
    by_cases h1 : 0x41 ≤ c.toNat ∧ c.toNat ≤ 0x5A
    · by_cases h2 : 0x41 ≤ d.toNat ∧ d.toNat ≤ 0x5A
      · rw [if_pos h1, if_pos h2] at h
        exact .inl ((inj _ _).2 (by omega))
      · rw [if_pos h1, if_neg h2] at h
        refine .inr (.inl ⟨(capital_iff c).2 h1, (inj _ _).2 ?_⟩)
        rw [add _ ((capital_iff c).2 h1)]
        omega
    · by_cases h2 : 0x41 ≤ d.toNat ∧ d.toNat ≤ 0x5A
      · rw [if_neg h1, if_pos h2] at h
        refine .inr (.inr ⟨(capital_iff d).2 h2, (inj _ _).2 ?_⟩)
        rw [add _ ((capital_iff d).2 h2)]
        omega
      · rw [if_neg h1, if_neg h2] at h
        exact .inl ((inj _ _).2 h)

theorem matchesOne {α : Type} {pl : Plat} {P : UInt8 → Prop} {f : UInt8 → M Bool} {g : UInt8 → Bool} (h : ∀ c, f c = ctype pl g c) (hg : ∀ c, g c = true ↔ P c) :
    MatchesOne (α := α) pl (Rule.singleCharP f) P := by
  intro r
  refine ⟨fun e => by simp [Rule.singleCharP, e], fun sv e => ⟨fun e2 => by simp [Rule.singleCharP, e, e2], fun c rest e2 => ?_⟩⟩
  rw [notFor_iff, ← hg]
  refine ⟨fun k => ?_, fun k k2 => ?_, fun k k2 => ?_⟩
  · simp [Rule.singleCharP, e, e2, h, ctype, k, bind, Except.bind]
  · have k : ctypeOk pl c = true := by simpa using k
    simp [Rule.singleCharP, e, e2, h, ctype, k, bind, Except.bind, k2, SV.substr, pure, Except.pure]
  · have k : ctypeOk pl c = true := by simpa using k
    have k2 : g c = false := by simpa using k2
    simp [Rule.singleCharP, e, e2, h, ctype, k, bind, Except.bind, k2, pure, Except.pure]

/-! ### C80 -/

/-- C80: `single_char (c)` matches the character `c`, and its other form if it is a letter. -/
theorem C80_single_char {α : Type} (pl : Plat) (c : UInt8) (hc : ¬ NotForCtype pl c) : MatchesOne (α := α) pl (fun r => Rule.singleChar pl c r) (SameLetter c) := by
  have hc : ctypeOk pl c = true := by rw [notFor_iff] at hc; simpa using hc
  have e : (fun r : Rule α => Rule.singleChar pl c r) = Rule.singleCharP (fun d => do return toLowerB c == (← tolower pl d)) := by
    funext r
    simp [Rule.singleChar, tolower, ctype, hc, bind, Except.bind]
  rw [e]
  refine matchesOne (g := fun d => toLowerB c == toLowerB d) (fun d => ?_) (fun d => ?_)
  · cases hd : ctypeOk pl d <;> simp [tolower, ctype, hd, bind, Except.bind, pure, Except.pure]
  · rw [sameLetter_iff]; simp

/-- C80: `alpha`, `digit` and `hexdig` match the characters of the rules of that name in RFC 5234 (`hexdig` in both forms). -/
theorem C80_classes {α : Type} (pl : Plat) :
    MatchesOne (α := α) pl (Rule.alpha pl) (fun c => CapitalLetter c ∨ SmallLetter c) ∧
    MatchesOne (α := α) pl (Rule.digit pl) DecDigit ∧
    MatchesOne (α := α) pl (Rule.hexdig pl) (fun c => c ∈ (b! "0123456789ABCDEFabcdef" : Str)) :=
  ⟨matchesOne (fun _ => rfl) (fun c => byte_prop (fun c => isAlphaB c = true ↔ CapitalLetter c ∨ SmallLetter c) (by decide +kernel) c),
    matchesOne (fun _ => rfl) (fun c => byte_prop (fun c => isDigitB c = true ↔ DecDigit c) (by decide +kernel) c),
    matchesOne (fun _ => rfl) (fun c => byte_prop (fun c => isXDigitB c = true ↔ c ∈ (b! "0123456789ABCDEFabcdef" : Str)) (by decide +kernel) c)⟩

/-- C80: `char_range (a, b)` compares small forms. -/
theorem C80_char_range {α : Type} (pl : Plat) (a b : UInt8) (ha : a.toNat < 0x80) (hb : b.toNat < 0x80) :
    MatchesOne (α := α) pl (fun r => Rule.charRange pl a b r) (fun c => ∃ x y z, SmallForm a x ∧ SmallForm c y ∧ SmallForm b z ∧ x ≤ y ∧ y ≤ z) := by
  have e : (fun r : Rule α => Rule.charRange pl a b r) = Rule.singleCharP (fun c => do
      let cl ← tolower pl c
      return decide ((toLowerB a).toNat ≤ cl.toNat) && decide (cl.toNat ≤ (toLowerB b).toNat)) := by
    funext r
    simp [Rule.charRange, tolower, ctype, ctypeOk, ha, hb, bind, Except.bind]
  rw [e]
  refine matchesOne (g := fun c => decide ((toLowerB a).toNat ≤ (toLowerB c).toNat) && decide ((toLowerB c).toNat ≤ (toLowerB b).toNat)) (fun d => ?_) (fun d => ?_)
  · cases hd : ctypeOk pl d <;> simp [tolower, ctype, hd, bind, Except.bind, pure, Except.pure]
  · simp [smallForm_iff]

/-- C80: so a range of digits, or of letters of one case, is that range (of letters in both forms) ... -/
theorem C80_char_range_plain {α : Type} (pl : Plat) (a b : UInt8) (h : (DecDigit a ∧ DecDigit b) ∨ (CapitalLetter a ∧ CapitalLetter b) ∨ (SmallLetter a ∧ SmallLetter b)) :
    MatchesOne (α := α) pl (fun r => Rule.charRange pl a b r) (fun c => ∃ d, SameLetter c d ∧ a.toNat ≤ d.toNat ∧ d.toNat ≤ b.toNat) := by
  have dig : ∀ c, DecDigit c ↔ 0x30 ≤ c.toNat ∧ c.toNat ≤ 0x39 :=
    fun c => byte_prop (fun c => DecDigit c ↔ 0x30 ≤ c.toNat ∧ c.toNat ≤ 0x39) (by decide +kernel) c
  have add : ∀ x : UInt8, CapitalLetter x → (x + 0x20).toNat = x.toNat + 32 := by
    intro x hx
    exact (byte_prop (fun x => CapitalLetter x → (x + 0x20).toNat = x.toNat + 32) (by decide +kernel) x) hx
  have sub : ∀ x : UInt8, SmallLetter x → CapitalLetter (x - 0x20) ∧ x = (x - 0x20) + 0x20 ∧ (x - 0x20).toNat = x.toNat - 32 := by
    intro x hx
    exact (byte_prop (fun x => SmallLetter x → CapitalLetter (x - 0x20) ∧ x = (x - 0x20) + 0x20 ∧ (x - 0x20).toNat = x.toNat - 32) (by decide +kernel) x) hx
  have hab : a.toNat < 0x80 ∧ b.toNat < 0x80 := by
    rcases h with h | h | h
    · rw [dig, dig] at h; omega
    · rw [capital_iff, capital_iff] at h; omega
    · rw [small_iff, small_iff] at h; omega
  have key : ∀ c, (∃ x y z, SmallForm a x ∧ SmallForm c y ∧ SmallForm b z ∧ x ≤ y ∧ y ≤ z) ↔ ∃ d, SameLetter c d ∧ a.toNat ≤ d.toNat ∧ d.toNat ≤ b.toNat := by
    intro c
    simp only [smallForm_iff, lower_nat]
    have el : (∃ x y z, x = (if 0x41 ≤ a.toNat ∧ a.toNat ≤ 0x5A then a.toNat + 32 else a.toNat) ∧
        y = (if 0x41 ≤ c.toNat ∧ c.toNat ≤ 0x5A then c.toNat + 32 else c.toNat) ∧
        z = (if 0x41 ≤ b.toNat ∧ b.toNat ≤ 0x5A then b.toNat + 32 else b.toNat) ∧ x ≤ y ∧ y ≤ z) ↔
      ((if 0x41 ≤ a.toNat ∧ a.toNat ≤ 0x5A then a.toNat + 32 else a.toNat) ≤ (if 0x41 ≤ c.toNat ∧ c.toNat ≤ 0x5A then c.toNat + 32 else c.toNat) ∧
        (if 0x41 ≤ c.toNat ∧ c.toNat ≤ 0x5A then c.toNat + 32 else c.toNat) ≤ (if 0x41 ≤ b.toNat ∧ b.toNat ≤ 0x5A then b.toNat + 32 else b.toNat)) := by simp
    rw [el]
    have same : ∀ d, SameLetter c d → d = c ∨ (CapitalLetter c ∧ d.toNat = c.toNat + 32) ∨ (CapitalLetter d ∧ c.toNat = d.toNat + 32) := by
      rintro d (rfl | ⟨h1, rfl⟩ | ⟨h1, rfl⟩)
      · exact .inl rfl
      · exact .inr (.inl ⟨h1, add _ h1⟩)
      · exact .inr (.inr ⟨h1, add _ h1⟩)
    have cap := capital_iff
    have form : ∀ x : UInt8, ∃ n, n = (if 0x41 ≤ x.toNat ∧ x.toNat ≤ 0x5A then x.toNat + 32 else x.toNat) ∧
        ((0x41 ≤ x.toNat ∧ x.toNat ≤ 0x5A ∧ n = x.toNat + 32) ∨ (¬ (0x41 ≤ x.toNat ∧ x.toNat ≤ 0x5A) ∧ n = x.toNat)) := by
      intro x
      by_cases hx : 0x41 ≤ x.toNat ∧ x.toNat ≤ 0x5A
      · exact ⟨_, rfl, .inl ⟨hx.1, hx.2, if_pos hx⟩⟩
      · exact ⟨_, rfl, .inr ⟨hx, if_neg hx⟩⟩
    obtain ⟨la, ea, fa⟩ := form a
    obtain ⟨lb, eb, fb⟩ := form b
    obtain ⟨lc, ec, fc⟩ := form c
    rw [← ea, ← eb, ← ec]
    clear ea eb ec el
    constructor
    · intro k
      by_cases hc : 0x41 ≤ c.toNat ∧ c.toNat ≤ 0x5A
      · rcases h with ⟨h1, h2⟩ | ⟨h1, h2⟩ | ⟨h1, h2⟩
        · rw [dig] at h1 h2; omega
        · rw [cap] at h1 h2; exact ⟨c, .inl rfl, by omega⟩
        · rw [small_iff] at h1 h2
          have hc' := (cap c).2 hc
          exact ⟨c + 0x20, .inr (.inl ⟨hc', rfl⟩), by rw [add c hc']; omega⟩
      · rcases h with ⟨h1, h2⟩ | ⟨h1, h2⟩ | ⟨h1, h2⟩
        · rw [dig] at h1 h2; exact ⟨c, .inl rfl, by omega⟩
        · rw [cap] at h1 h2
          have hs : SmallLetter c := (small_iff c).2 (by omega)
          obtain ⟨s1, s2, s3⟩ := sub c hs
          exact ⟨c - 0x20, .inr (.inr ⟨s1, s2⟩), by omega⟩
        · rw [small_iff] at h1 h2; exact ⟨c, .inl rfl, by omega⟩
    · rintro ⟨d, k1, k2⟩
      have h' : (0x30 ≤ a.toNat ∧ b.toNat ≤ 0x39) ∨ (0x41 ≤ a.toNat ∧ a.toNat ≤ 0x5A ∧ 0x41 ≤ b.toNat ∧ b.toNat ≤ 0x5A) ∨ (0x61 ≤ a.toNat ∧ 0x61 ≤ b.toNat ∧ b.toNat ≤ 0x7A) := by
        rcases h with ⟨h1, h2⟩ | ⟨h1, h2⟩ | ⟨h1, h2⟩
        · rw [dig] at h1 h2; omega
        · rw [cap] at h1 h2; omega
        · rw [small_iff] at h1 h2; omega
      rcases same d k1 with rfl | ⟨k, k3⟩ | ⟨k, k3⟩
      · omega
      · rw [cap] at k; omega
      · rw [cap] at k; omega
  have := C80_char_range (α := α) pl a b hab.1 hab.2
  have e : (fun c => ∃ x y z, SmallForm a x ∧ SmallForm c y ∧ SmallForm b z ∧ x ≤ y ∧ y ≤ z) = (fun c => ∃ d, SameLetter c d ∧ a.toNat ≤ d.toNat ∧ d.toNat ≤ b.toNat) :=
    funext fun c => propext (key c)
  rw [← e]
  exact this

/-- C80: ... but one from a capital letter to a character between the capital and the small letters matches nothing, not even its ends ... -/
theorem C80_char_range_counterexample (pl : Plat) : CapitalLetter 0x41 ∧ (0x41 : UInt8) ≤ 0x5F ∧
    (Rule.charRange (α := Nat) pl 0x41 0x5F (Rule.ofSV ⟨0, b! "A"⟩)).toOption = some none ∧
    (Rule.charRange (α := Nat) pl 0x41 0x5F (Rule.ofSV ⟨0, b! "_"⟩)).toOption = some none := by
  obtain ⟨b⟩ := pl
  cases b <;> decide +kernel

/-- C80: ... and one from a digit to a capital letter matches characters that lie between the capital and the small letters. -/
theorem C80_char_range_wide (pl : Plat) : (0x5A : UInt8) < 0x5F ∧
    (Rule.charRange (α := Nat) pl 0x30 0x5A (Rule.ofSV ⟨0, b! "_"⟩)).toOption = some (some (⟨0, b! "_"⟩, [])) := by
  obtain ⟨b⟩ := pl
  cases b <;> decide +kernel

/-- `single_char ('Z')` matches both forms, and no other letter. -/
example : (Rule.singleChar (α := Nat) ⟨true⟩ 0x5A (Rule.ofSV ⟨0, b! "zoo"⟩)).toOption = some (some (⟨0, b! "z"⟩, [])) ∧
    (Rule.singleChar (α := Nat) ⟨true⟩ 0x5A (Rule.ofSV ⟨0, b! "yoo"⟩)).toOption = some none := by decide +kernel

end Verif
