import Verif.Proofs.Valid
import Verif.Spec.Chars

/-!
# Sentences of the RFC 3986 grammar are character-safe
-/

namespace Verif
open Spec Abnf

theorem charSafe_nil : CharSafe [] := ⟨by simp, by simp⟩

theorem charSafe_append {s t : Str} (hs : CharSafe s) (ht : CharSafe t) : CharSafe (s ++ t) := by
  refine ⟨fun c hc => (List.mem_append.1 hc).elim (hs.1 c) (ht.1 c), ?_⟩
  intro a b e
  rcases List.append_eq_append_iff.1 e with ⟨u, h1, h2⟩ | ⟨u, h1, h2⟩
  · exact ht.2 u b h2
  · cases u with
    | nil => simp at h2; exact ht.2 [] b h2.symm
    | cons c u =>
      simp only [List.cons_append, List.cons.injEq] at h2
      obtain ⟨rfl, rfl⟩ := h2
      obtain ⟨x, y, t', rfl, hx, hy⟩ := hs.2 a u h1
      exact ⟨x, y, t' ++ t, rfl, hx, hy⟩

theorem charSafe_flatten {l : List Str} (h : ∀ s ∈ l, CharSafe s) : CharSafe l.flatten := by
  induction l with
  | nil => exact charSafe_nil
  | cons s l ih =>
    rw [List.flatten_cons]
    exact charSafe_append (h s (by simp)) (ih fun t ht => h t (by simp [ht]))

theorem charSafe_one {c : UInt8} (h : c ∈ uriChars) (hp : c ≠ 0x25) : CharSafe [c] := by
  refine ⟨by simpa using h, ?_⟩
  intro a b e
  cases a with
  | nil => simp at e; exact absurd e.1 hp
  | cons d a => simp at e

def Safe (L : Lang) : Prop := ∀ s, L s → CharSafe s

theorem safe_cat {A B : Lang} (hA : Safe A) (hB : Safe B) : Safe (cat A B) := by
  rintro _ ⟨a, b, rfl, ha, hb⟩; exact charSafe_append (hA a ha) (hB b hb)
theorem safe_alt {A B : Lang} (hA : Safe A) (hB : Safe B) : Safe (alt A B) := by
  rintro s (h | h)
  · exact hA s h
  · exact hB s h
theorem safe_opt {A : Lang} (hA : Safe A) : Safe (opt A) := by
  rintro s (rfl | h)
  · exact charSafe_nil
  · exact hA s h
theorem safe_rep {A : Lang} {m n} (hA : Safe A) : Safe (rep m n A) := by
  rintro _ ⟨es, rfl, h, _⟩; exact charSafe_flatten fun e he => hA e (h e he)

def okByte (c : UInt8) : Bool := uriChars.contains c && c != 0x25
theorem okByte_safe {c : UInt8} (h : okByte c = true) : CharSafe [c] := by
  simp only [okByte, Bool.and_eq_true, List.contains_iff_mem, bne_iff_ne, ne_eq] at h
  exact charSafe_one h.1 h.2
theorem safe_lit {t : Str} (h : t.all okByte = true) : Safe (lit t) := by
  rintro s rfl
  induction s with
  | nil => exact charSafe_nil
  | cons c s ih =>
    simp only [List.all_cons, Bool.and_eq_true] at h
    exact charSafe_append (s := [c]) (okByte_safe h.1) (ih h.2)
theorem safe_range {a b : Nat} (h : ∀ c : UInt8, a ≤ c.toNat → c.toNat ≤ b → okByte c = true) : Safe (range a b) := by
  rintro s ⟨c, rfl, h1, h2⟩
  exact okByte_safe (h c h1 h2)

theorem safe_ALPHA : Safe ALPHA :=
  safe_alt (safe_range fun c h1 h2 => by
      have := forall_byte (P := fun c => decide (0x41 ≤ c.toNat → c.toNat ≤ 0x5A → okByte c = true)) (by decide +kernel) c
      exact of_decide_eq_true this h1 h2)
    (safe_range fun c h1 h2 => by
      have := forall_byte (P := fun c => decide (0x61 ≤ c.toNat → c.toNat ≤ 0x7A → okByte c = true)) (by decide +kernel) c
      exact of_decide_eq_true this h1 h2)
theorem digit_ok {a b : Nat} (ha : 0x30 ≤ a) (hb : b ≤ 0x39) (c : UInt8) (h1 : a ≤ c.toNat) (h2 : c.toNat ≤ b) :
    okByte c = true := by
  have := forall_byte (P := fun c => decide (0x30 ≤ c.toNat → c.toNat ≤ 0x39 → okByte c = true)) (by decide +kernel) c
  exact of_decide_eq_true this (Nat.le_trans ha h1) (Nat.le_trans h2 hb)
theorem safe_dig {a b : Nat} (ha : 0x30 ≤ a) (hb : b ≤ 0x39) : Safe (range a b) := safe_range (digit_ok ha hb)
theorem safe_DIGIT : Safe DIGIT := safe_dig (by decide) (by decide)
theorem hex_mem {c : UInt8} (h : HEXDIG [c]) : c ∈ hexChars := by
  have := forall_byte (P := fun c => decide (isXDigitB c = true → c ∈ hexChars)) (by decide +kernel) c
  obtain ⟨d, e, hd⟩ := (HEXDIG_cls _).1 h
  simp at e; subst e
  exact of_decide_eq_true this hd
theorem safe_HEXDIG : Safe HEXDIG := by
  intro s h
  obtain ⟨c, rfl, hc⟩ := (HEXDIG_cls _).1 h
  have := forall_byte (P := fun c => decide (isXDigitB c = true → okByte c = true)) (by decide +kernel) c
  exact okByte_safe (of_decide_eq_true this hc)
theorem safe_pct : Safe pctEncoded := by
  rintro _ ⟨_, _, rfl, rfl, x, y, rfl, hx, hy⟩
  obtain ⟨x', rfl, -⟩ := (HEXDIG_cls _).1 hx
  obtain ⟨y', rfl, -⟩ := (HEXDIG_cls _).1 hy
  have hx' := safe_HEXDIG _ hx
  have hy' := safe_HEXDIG _ hy
  have hxy := charSafe_append hx' hy'
  refine ⟨?_, ?_⟩
  · intro c hc
    rcases List.mem_append.1 hc with h | h
    · simp at h; subst h; decide +kernel
    · exact hxy.1 c h
  · intro a b e
    cases a with
    | nil =>
      have e' : [x'] ++ [y'] = b := by
        have : (0x25 : UInt8) :: ([x'] ++ [y']) = 0x25 :: b := e
        exact (List.cons.inj this).2
      exact ⟨x', y', [], e'.symm, hex_mem hx, hex_mem hy⟩
    | cons d a =>
      have e' : [x'] ++ [y'] = a ++ 0x25 :: b := by
        have : (0x25 : UInt8) :: ([x'] ++ [y']) = d :: (a ++ 0x25 :: b) := e
        exact (List.cons.inj this).2
      exact hxy.2 a b e'

macro "safe_tac" : tactic =>
  `(tactic| repeat' first
      | exact safe_ALPHA | exact safe_DIGIT | exact safe_HEXDIG | exact safe_pct
      | exact safe_lit (by decide +kernel)
      | exact safe_dig (by decide) (by decide)
      | apply safe_cat | apply safe_alt | apply safe_opt | apply safe_rep)

theorem safe_sub : Safe subDelims := by unfold subDelims; safe_tac
theorem safe_unres : Safe unreserved := by unfold unreserved; safe_tac
theorem safe_pchar : Safe pchar :=
  safe_alt safe_unres (safe_alt safe_pct (safe_alt safe_sub (safe_alt (safe_lit (by decide +kernel)) (safe_lit (by decide +kernel)))))
theorem safe_query : Safe query :=
  safe_rep (safe_alt safe_pchar (safe_alt (safe_lit (by decide +kernel)) (safe_lit (by decide +kernel))))
theorem safe_segment : Safe segment := safe_rep safe_pchar
theorem safe_slashes : Safe (many (lit (b! "/") ⬝ segment)) := safe_rep (safe_cat (safe_lit (by decide +kernel)) safe_segment)
theorem safe_reg : Safe regName := safe_rep (safe_alt safe_unres (safe_alt safe_pct safe_sub))
theorem safe_decOctet : Safe decOctet := by unfold decOctet times; safe_tac
theorem safe_ip4 : Safe IPv4address := by
  unfold IPv4address
  repeat' first | exact safe_decOctet | exact safe_lit (by decide +kernel) | apply safe_cat
theorem safe_h16 : Safe h16 := safe_rep safe_HEXDIG
theorem safe_h16c : Safe h16c := safe_cat safe_h16 (safe_lit (by decide +kernel))
theorem safe_ls32 : Safe ls32 := safe_alt (safe_cat safe_h16 (safe_cat (safe_lit (by decide +kernel)) safe_h16)) safe_ip4
theorem safe_ip6 : Safe IPv6address := by
  unfold IPv6address times upTo
  repeat' first
    | exact safe_h16 | exact safe_h16c | exact safe_ls32 | exact safe_lit (by decide +kernel)
    | apply safe_cat | apply safe_alt | apply safe_opt | apply safe_rep
theorem safe_future : Safe IPvFuture := by
  unfold IPvFuture many1
  repeat' first
    | exact safe_HEXDIG | exact safe_unres | exact safe_sub | exact safe_lit (by decide +kernel)
    | apply safe_cat | apply safe_alt | apply safe_opt | apply safe_rep
theorem safe_host : Safe host :=
  safe_alt (safe_cat (safe_lit (by decide +kernel)) (safe_cat (safe_alt safe_ip6 safe_future) (safe_lit (by decide +kernel))))
    (safe_alt safe_ip4 safe_reg)
theorem safe_userinfo : Safe userinfo :=
  safe_rep (safe_alt safe_unres (safe_alt safe_pct (safe_alt safe_sub (safe_lit (by decide +kernel)))))
theorem safe_authority : Safe authority :=
  safe_cat (safe_opt (safe_cat safe_userinfo (safe_lit (by decide +kernel))))
    (safe_cat safe_host (safe_opt (safe_cat (safe_lit (by decide +kernel)) (safe_rep safe_DIGIT))))
theorem safe_tailQF : Safe (opt (lit (b! "?") ⬝ query) ⬝ opt (lit (b! "#") ⬝ fragment)) :=
  safe_cat (safe_opt (safe_cat (safe_lit (by decide +kernel)) safe_query))
    (safe_opt (safe_cat (safe_lit (by decide +kernel)) safe_query))
theorem safe_abempty : Safe (lit (b! "//") ⬝ authority ⬝ pathAbempty) :=
  safe_cat (safe_lit (by decide +kernel)) (safe_cat safe_authority safe_slashes)
theorem safe_absolute : Safe pathAbsolute :=
  safe_cat (safe_lit (by decide +kernel)) (safe_opt (safe_cat (safe_rep safe_pchar) safe_slashes))
theorem safe_rootless : Safe pathRootless := safe_cat (safe_rep safe_pchar) safe_slashes
theorem safe_noscheme : Safe pathNoscheme :=
  safe_cat (safe_rep (safe_alt safe_unres (safe_alt safe_pct (safe_alt safe_sub (safe_lit (by decide +kernel)))))) safe_slashes
theorem safe_URI : Safe URI := by
  unfold URI
  refine safe_cat ?_ (safe_cat (safe_lit (by decide +kernel)) (safe_cat ?_ safe_tailQF))
  · unfold scheme many; safe_tac
  · exact safe_alt safe_abempty (safe_alt safe_absolute (safe_alt safe_rootless (safe_rep safe_pchar)))
theorem safe_relativeRef : Safe relativeRef :=
  safe_cat (safe_alt safe_abempty (safe_alt safe_absolute (safe_alt safe_noscheme (safe_rep safe_pchar)))) safe_tailQF
theorem safe_reference : Safe URIReference := safe_alt safe_URI safe_relativeRef

end Verif

/-! ### Character sets of the components -/

namespace Verif
open Spec Abnf

/-- Every byte of every sentence satisfies `P`. -/
def Over (P : UInt8 → Bool) (L : Lang) : Prop := ∀ s, L s → ∀ c ∈ s, P c = true

theorem over_cat {P} {A B : Lang} (hA : Over P A) (hB : Over P B) : Over P (cat A B) := by
  rintro _ ⟨a, b, rfl, ha, hb⟩ c hc
  exact (List.mem_append.1 hc).elim (hA a ha c) (hB b hb c)
theorem over_alt {P} {A B : Lang} (hA : Over P A) (hB : Over P B) : Over P (alt A B) := by
  rintro s (h | h)
  · exact hA s h
  · exact hB s h
theorem over_opt {P} {A : Lang} (hA : Over P A) : Over P (opt A) := by
  rintro s (rfl | h)
  · simp
  · exact hA s h
theorem over_rep {P} {A : Lang} {m n} (hA : Over P A) : Over P (rep m n A) := by
  rintro _ ⟨es, rfl, h, _⟩ c hc
  obtain ⟨e, he, hc⟩ := List.mem_flatten.1 hc
  exact hA e (h e he) c hc
theorem over_lit {P} {t : Str} (h : t.all P = true) : Over P (lit t) := by
  rintro s rfl; exact List.all_eq_true.1 h
theorem over_range {P : UInt8 → Bool} {a b : Nat}
    (h : (List.range 256).all (fun n => decide (a ≤ (UInt8.ofNat n).toNat → (UInt8.ofNat n).toNat ≤ b → P (UInt8.ofNat n) = true)) = true) :
    Over P (range a b) := by
  rintro s ⟨c, rfl, h1, h2⟩ d hd
  simp at hd; subst hd
  exact of_decide_eq_true (forall_byte (P := fun c => decide (a ≤ c.toNat → c.toNat ≤ b → P c = true)) h d) h1 h2

macro "over_tac" : tactic =>
  `(tactic| repeat' first
      | exact over_lit (by decide +kernel)
      | exact over_range (by decide +kernel)
      | apply over_cat | apply over_alt | apply over_opt | apply over_rep)

/-- Not one of the delimiters `ds`. -/
def noneOf (ds : Str) (c : UInt8) : Bool := !ds.contains c

theorem over_scheme : Over (noneOf (b! ":/?#[]@%")) scheme := by
  unfold scheme many ALPHA DIGIT; over_tac
theorem over_userinfo : Over (noneOf (b! "/?#[]@")) userinfo := by
  unfold userinfo many unreserved pctEncoded subDelims HEXDIG ALPHA DIGIT; over_tac
theorem over_host : Over (noneOf (b! "/?#@")) host := by
  unfold host IPLiteral IPvFuture regName many many1 unreserved pctEncoded subDelims
  unfold IPv6address ls32 h16c h16 IPv4address decOctet times upTo HEXDIG ALPHA DIGIT
  over_tac
theorem over_port : Over (fun c => (b! "0123456789").contains c) port := by
  unfold port many DIGIT; over_tac
theorem over_segment : Over (noneOf (b! "/?#[]")) segment := by
  unfold segment many pchar unreserved pctEncoded subDelims HEXDIG ALPHA DIGIT; over_tac
theorem over_query : Over (noneOf (b! "#[]")) query := by
  unfold query many pchar unreserved pctEncoded subDelims HEXDIG ALPHA DIGIT; over_tac

theorem noneOf_iff {ds : Str} {c : UInt8} : noneOf ds c = true ↔ c ∉ ds := by simp [noneOf]

end Verif
