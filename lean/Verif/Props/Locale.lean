import Verif.Proofs.LocaleLeaf
import Verif.Props.Safety

/-!
# Property C74: what the locale of the program can change

`e : Loc.Env` is a platform and a locale; `Loc.split e` is `split` run there.  `Loc.Standard` says what is asked of a locale:
ISO C's rules, and that it extends ASCII.  `Loc.Foreign e b`: `b` is a letter of the locale outside ASCII, and `char` is
unsigned.
-/

namespace Verif
open Spec
open Loc (Env Locale Standard Foreign plain plainV plainP)

/-- C74: `split` in a locale finds in a text exactly the components that it finds in the "C" locale when each foreign letter
is replaced by a `g`: it accepts the same texts, and the components have the same boundaries (`plainP` keeps the addresses). -/
theorem C74_split (e : Env) (h : Standard e.loc) (s : SV) :
    (Loc.split e s).map (Option.map (plainP e)) = split e.pl (plainV e s) := (Loc.split_plain h s).symm

/-- C74 for `split_reference`. -/
theorem C74_reference (e : Env) (h : Standard e.loc) (s : SV) :
    (Loc.splitReference e s).map (Option.map (plainP e)) = splitReference e.pl (plainV e s) :=
  (Loc.splitReference_plain h s).symm

/-- C74 for `valid ()`. -/
theorem C74_valid (e : Env) (h : Standard e.loc) (p : Parts SV) : Loc.valid e p = (plainP e p).valid e.pl :=
  (Loc.valid_plain h p).symm

/-- C74: without foreign letters in the text the locale changes nothing. -/
theorem C74_same (e : Env) (h : Standard e.loc) :
    (∀ s : SV, (∀ b ∈ s.chars, ¬ Foreign e b) → Loc.split e s = split e.pl s ∧ Loc.splitReference e s = splitReference e.pl s) ∧
    (∀ s t : SV, (∀ b ∈ s.chars, ¬ Foreign e b) → (∀ b ∈ t.chars, ¬ Foreign e b) → ∀ strict,
      Loc.joinStr e s t strict = joinStr e.pl s t strict) ∧
    (∀ p : Parts SV, (∀ v ∈ p.views, ∀ b ∈ v.chars, ¬ Foreign e b) → Loc.valid e p = p.valid e.pl) := by
  have h1 : ∀ s : SV, (∀ b ∈ s.chars, ¬ Foreign e b) → Loc.split e s = split e.pl s := fun s hs =>
    Loc.run_same (Loc.sim_URI (Loc.fits h)) (Cost.Uri.run_URI e.pl) hs
  have h2 : ∀ s : SV, (∀ b ∈ s.chars, ¬ Foreign e b) → Loc.splitReference e s = splitReference e.pl s := fun s hs =>
    Loc.run_same (Loc.sim_URIReference (Loc.fits h)) (Cost.Uri.run_URIReference e.pl) hs
  refine ⟨fun s hs => ⟨h1 s hs, h2 s hs⟩, fun s t hs ht strict => ?_, fun p hp => ?_⟩
  · unfold Loc.joinStr joinStr
    rw [h1 s hs, h2 t ht]
    rfl
  · rw [C74_valid e h p, Loc.plainP_same hp]

/-- C74: so it changes nothing for ASCII text, on any platform. -/
theorem C74_ascii (e : Env) (h : Standard e.loc) (s : SV) (hs : ∀ b ∈ s.chars, b.toNat < 0x80) :
    Loc.split e s = split e.pl s ∧ Loc.splitReference e s = splitReference e.pl s :=
  (C74_same e h).1 s fun b hb ⟨_, h', _⟩ => by have := hs b hb; omega

/-- C74: it changes nothing at all where `char` is signed (not even what is undefined) ... -/
theorem C74_signed (e : Env) (h : Standard e.loc) (hs : e.pl.charSigned = true) (s : SV) :
    Loc.split e s = split e.pl s ∧ Loc.splitReference e s = splitReference e.pl s :=
  (C74_same e h).1 s fun b _ ⟨h', _⟩ => by rw [hs] at h'; cases h'

/-- C74: ... and in a locale whose letters outside ASCII take more than a byte, as in UTF-8. -/
theorem C74_multibyte (e : Env) (h : Standard e.loc) (ha : ∀ b : UInt8, 0x80 ≤ b.toNat → e.loc.alpha b = false) (s : SV) :
    Loc.split e s = split e.pl s ∧ Loc.splitReference e s = splitReference e.pl s :=
  (C74_same e h).1 s fun b _ ⟨_, h1, h2⟩ => by rw [ha b h1] at h2; cases h2

/-- C74: but where there is a foreign letter, `split`, `split_reference` and `valid ()` take it for a URI character: a text
RFC 3986 does not allow is accepted, which is rejected in the "C" locale. -/
theorem C74_foreign (e : Env) (h : Standard e.loc) (b : UInt8) (hb : Foreign e b) (a : Nat) :
    (∃ q, Loc.split e ⟨a, b! "x:" ++ [b]⟩ = .ok (some q) ∧ Loc.valid e q = .ok true) ∧
    (∃ q, Loc.splitReference e ⟨a, b! "x:" ++ [b]⟩ = .ok (some q)) ∧
    ¬ Abnf.URI (b! "x:" ++ [b]) ∧ split e.pl ⟨a, b! "x:" ++ [b]⟩ = .ok none := by
  have hp : plainV e ⟨a, b! "x:" ++ [b]⟩ = ⟨a, b! "x:g"⟩ := by
    have e1 : plain e 0x78 = 0x78 := Loc.plain_ascii (by decide)
    have e2 : plain e 0x3A = 0x3A := Loc.plain_ascii (by decide)
    have e3 : plain e b = 0x67 := if_pos hb
    simp [plainV, e1, e2, e3]
  obtain ⟨hb1, hb2, hb3⟩ := hb
  have hn : ¬ CharSafe (b! "x:" ++ [b]) := by
    intro hc
    have := hc.1 b (by simp)
    have k := forall_byte (P := fun b => decide (0x80 ≤ b.toNat → ¬ b ∈ uriChars)) (by decide +kernel) b
    exact (of_decide_eq_true k) hb2 this
  have hpl : e.pl = arm := by
    obtain ⟨⟨x⟩, L⟩ := e
    cases x
    · rfl
    · cases hb1
  have s1 := C74_split e h ⟨a, b! "x:" ++ [b]⟩
  have s2 := C74_reference e h ⟨a, b! "x:" ++ [b]⟩
  have v : ∀ q, Loc.valid e q = (plainP e q).valid e.pl := C74_valid e h
  rw [hp, hpl] at s1 s2
  obtain ⟨q1, r1, _⟩ := (C02_split_exact arm ⟨a, b! "x:g"⟩ _).2 ((C02_split_exact arm ⟨0, b! "x:g"⟩ _).1
    (run_text (p := ⟨some (b! "x"), none, ⟨false, [b! "g"]⟩, none, none⟩) (by decide +kernel)))
  obtain ⟨q2, r2, _⟩ := (C03_splitReference_exact arm ⟨a, b! "x:g"⟩ _).2 ((C03_splitReference_exact arm ⟨0, b! "x:g"⟩ _).1
    (run_text (p := ⟨some (b! "x"), none, ⟨false, [b! "g"]⟩, none, none⟩) (by decide +kernel)))
  have r3 := C07_split_valid arm _ q1 r1
  rw [r1] at s1
  rw [r2] at s2
  refine ⟨?_, ?_, fun hu => hn (safe_URI _ hu), (C53_rejected e.pl ⟨a, b! "x:" ++ [b]⟩ hn (.inl hb1)).1⟩
  · revert s1
    rcases Loc.split e ⟨a, b! "x:" ++ [b]⟩ with f | _ | q <;> intro s1
    · cases s1
    · cases s1
    · refine ⟨q, rfl, ?_⟩
      have : plainP e q = q1 := Option.some.inj (Except.ok.inj s1)
      rw [v, this, hpl, r3]
  · revert s2
    rcases Loc.splitReference e ⟨a, b! "x:" ++ [b]⟩ with f | _ | q <;> intro s2
    · cases s2
    · cases s2
    · exact ⟨q, rfl⟩

/-- C74, the other direction: whatever a locale makes `split` accept is a URI once each foreign letter is replaced, and the
components are those of a derivation of it. -/
theorem C74_sound (e : Env) (h : Standard e.loc) (s : SV) (q : Parts SV) (hq : Loc.split e s = .ok (some q)) :
    Abnf.URIDerives (s.chars.map (plain e)) (plainP e q).text := by
  have := C74_split e h s
  rw [hq] at this
  exact (C01_split_sound e.pl (plainV e s) (plainP e q) this.symm).2

/-! The hypotheses are met: ISO 8859-1 as in Western Europe, and ISO 8859-9 as in Turkey, where the lower case of `I` is
not `i` and another letter's is. -/

/-- The "C" locale. -/
def localeC : Locale := ⟨isAlphaB, fun b => isAlphaB b || isDigitB b, toLowerB⟩

/-- ISO 8859-1. -/
def latin1 : Locale where
  alpha b := isAlphaB b || b == 0xAA || b == 0xB5 || b == 0xBA || (decide (0xC0 ≤ b.toNat) && b != 0xD7 && b != 0xF7)
  alnum b := isDigitB b || isAlphaB b || b == 0xAA || b == 0xB5 || b == 0xBA || (decide (0xC0 ≤ b.toNat) && b != 0xD7 && b != 0xF7)
  lower b := if 0xC0 ≤ b.toNat ∧ b.toNat ≤ 0xDE ∧ b ≠ 0xD7 then b + 0x20 else toLowerB b

/-- ISO 8859-9 with Turkish case rules. -/
def turkish : Locale := { latin1 with
  lower := fun b => if b = 0x49 then 0xFD else if b = 0xDD then 0x69 else latin1.lower b }

/-- The conditions of `Standard` for one byte. -/
def standardAt (L : Locale) (b : UInt8) : Bool :=
  decide (L.alnum b = (L.alpha b || isDigitB b)) &&
  decide (L.lower b = b ∨ (L.alpha b = true ∧ L.alpha (L.lower b) = true)) &&
  decide (b.toNat < 0x80 → L.alpha b = isAlphaB b) && decide (L.lower b = 0x76 ↔ b = 0x76 ∨ b = 0x56)

theorem standard_of {L : Locale} (h : ∀ b, standardAt L b = true) : Standard L := by
  have h' : ∀ b, ((L.alnum b = (L.alpha b || isDigitB b) ∧ (L.lower b = b ∨ (L.alpha b = true ∧ L.alpha (L.lower b) = true))) ∧
      (b.toNat < 0x80 → L.alpha b = isAlphaB b)) ∧ (L.lower b = 0x76 ↔ b = 0x76 ∨ b = 0x56) := fun b => by
    have := h b
    unfold standardAt at this
    simp only [Bool.and_eq_true, decide_eq_true_eq] at this
    exact this
  exact ⟨fun b => (h' b).1.1.1, fun b => (h' b).1.1.2, fun b => (h' b).1.2, fun b => (h' b).2⟩

theorem localeC_standard : Standard localeC := standard_of fun b => forall_byte (P := standardAt localeC) (by decide +kernel) b
theorem latin1_standard : Standard latin1 := standard_of fun b => forall_byte (P := standardAt latin1) (by decide +kernel) b
theorem turkish_standard : Standard turkish := standard_of fun b => forall_byte (P := standardAt turkish) (by decide +kernel) b

/-- The base model is the model of this file in the "C" locale. -/
theorem C74_base (pl : Plat) (s : SV) : Loc.split ⟨pl, localeC⟩ s = split pl s ∧ Loc.splitReference ⟨pl, localeC⟩ s = splitReference pl s :=
  C74_multibyte ⟨pl, localeC⟩ localeC_standard (fun b hb => by
    have k := forall_byte (P := fun b => decide (0x80 ≤ b.toNat → isAlphaB b = false)) (by decide +kernel) b
    exact (of_decide_eq_true k) hb) s

/-- `é` is foreign in ISO 8859-1 where `char` is unsigned. -/
example : Foreign ⟨arm, latin1⟩ 0xE9 := by decide
/-- There `http://h/caf` + `é` is accepted; in the "C" locale it is not. -/
example : (Loc.split ⟨arm, latin1⟩ ⟨0, b! "http://h/caf" ++ [0xE9]⟩).map (Option.map fun q => q.text.path.segments) =
    .ok (some [b! "caf" ++ [0xE9]]) ∧ split arm ⟨0, b! "http://h/caf" ++ [0xE9]⟩ = .ok none := by decide +kernel
/-- Turkish capitals make no difference: the IPvFuture literal `[V1.I]` and the scheme `FILE`. -/
example : Loc.split ⟨arm, turkish⟩ ⟨0, b! "FILE://[V1.I]/I"⟩ = split arm ⟨0, b! "FILE://[V1.I]/I"⟩ :=
  (C74_ascii ⟨arm, turkish⟩ turkish_standard _ (by decide)).1
example : ∃ q, split arm ⟨0, b! "FILE://[V1.I]/I"⟩ = .ok (some q) ∧ q.text =
    ⟨some (b! "FILE"), some ⟨none, b! "[V1.I]", none⟩, ⟨true, [b! "I"]⟩, none, none⟩ := run_text (by decide +kernel)

end Verif
