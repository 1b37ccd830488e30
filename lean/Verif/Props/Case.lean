import Verif.Props.Strict
import Verif.Model.PartsCodec

/-!
# C108: upper and lower case
-/

namespace Verif
set_option linter.unusedSimpArgs false

/-! ### Specification -/

/-- `A`-`Z` become `a`-`z`. -/
def lower (c : UInt8) : UInt8 := if 0x41 ≤ c ∧ c ≤ 0x5A then c + 0x20 else c

/-- Two texts that differ in nothing but the case of ASCII letters. -/
def CaseEq (s t : Str) : Prop := s.map lower = t.map lower

instance (s t : Str) : Decidable (CaseEq s t) := inferInstanceAs (Decidable (s.map lower = t.map lower))

/-- Two values that differ in nothing but the case of ASCII letters. -/
def PartsCaseEq (p q : Parts Str) : Prop := p.map (List.map lower) = q.map (List.map lower)

/-! ### Proofs -/

/-- The other case of a letter. -/
def flipCase (c : UInt8) : UInt8 := if 0x41 ≤ c ∧ c ≤ 0x5A then c + 0x20 else if 0x61 ≤ c ∧ c ≤ 0x7A then c - 0x20 else c

theorem lower_cases {c d : UInt8} (h : lower c = lower d) : d = c ∨ d = flipCase c := by
  have key : ∀ c : UInt8, (lower c = c ∧ flipCase (lower c) = lower c ∧ flipCase c = c) ∨ (lower c = c ∧ flipCase (lower c) = flipCase c) ∨
      (lower c = flipCase c ∧ flipCase (lower c) = c) := by
    intro c; exact byte_prop (fun c => (lower c = c ∧ flipCase (lower c) = lower c ∧ flipCase c = c) ∨ (lower c = c ∧ flipCase (lower c) = flipCase c) ∨
      (lower c = flipCase c ∧ flipCase (lower c) = c)) (by decide +kernel) c
  have kf : ∀ c : UInt8, flipCase (flipCase c) = c := by
    intro c; exact byte_prop (fun c => flipCase (flipCase c) = c) (by decide +kernel) c
  have k1 : ∀ c : UInt8, lower c = c ∨ lower c = flipCase c := by
    intro c; rcases key c with h | h | h
    · exact Or.inl h.1
    · exact Or.inl h.1
    · exact Or.inr h.1
  rcases k1 c with h1 | h1 <;> rcases k1 d with h2 | h2
  · left; rw [← h2, ← h, h1]
  · right; rw [h2, h1] at h; rw [h, kf]
  · right; rw [h1, h2] at h; exact h.symm
  · left; rw [h1, h2] at h; have := congrArg flipCase h; rw [kf, kf] at this; exact this.symm

namespace CaseEq

theorem refl (s : Str) : CaseEq s s := rfl
theorem symm {s t : Str} (h : CaseEq s t) : CaseEq t s := Eq.symm h
theorem length {s t : Str} (h : CaseEq s t) : s.length = t.length := by simpa using congrArg List.length h
theorem append {a b c d : Str} (h : CaseEq a b) (k : CaseEq c d) : CaseEq (a ++ c) (b ++ d) := by
  unfold CaseEq at *; rw [List.map_append, List.map_append, h, k]

theorem pieces {a b s : Str} (h : CaseEq (a ++ b) s) : ∃ a' b', s = a' ++ b' ∧ CaseEq a a' ∧ CaseEq b b' := by
  unfold CaseEq at h
  rw [List.map_append] at h
  obtain ⟨a', b', rfl, h1, h2⟩ := List.map_eq_append_iff.1 h.symm
  exact ⟨a', b', rfl, h1.symm, h2.symm⟩

theorem nil {s : Str} (h : CaseEq [] s) : s = [] := by
  have := h.length; simpa using this.symm

theorem single {c : UInt8} {s : Str} (h : CaseEq [c] s) : ∃ d, s = [d] ∧ lower c = lower d := by
  match s with
  | [] => simp [CaseEq] at h
  | [d] => exact ⟨d, rfl, by simpa [CaseEq] using h⟩
  | _ :: _ :: _ => simp [CaseEq] at h

/-- Text without letters has no other case. -/
theorem lit {t s : Str} (h : CaseEq t s) (ht : t.all (fun c => flipCase c == c) = true) : s = t := by
  induction t generalizing s with
  | nil => exact h.nil
  | cons c t ih =>
    obtain ⟨x, y, rfl, h1, h2⟩ := pieces (a := [c]) (b := t) h
    obtain ⟨d, rfl, h3⟩ := h1.single
    simp only [List.all_cons, Bool.and_eq_true, beq_iff_eq] at ht
    rw [ih h2 ht.2]
    rcases lower_cases h3 with h | h
    · rw [h]; rfl
    · rw [h, ht.1]; rfl

theorem count {s t : Str} (h : CaseEq s t) (c : UInt8) (hc : flipCase c = c) : s.count c = t.count c := by
  induction s generalizing t with
  | nil => rw [h.nil]
  | cons x s ih =>
    obtain ⟨a, b, rfl, h1, h2⟩ := pieces (a := [x]) (b := s) h
    obtain ⟨d, rfl, h3⟩ := h1.single
    rw [List.singleton_append, List.count_cons, List.count_cons, ih h2]
    have : (x == c) = (d == c) := by
      have kf : ∀ c : UInt8, flipCase (flipCase c) = c := by
        intro c; exact byte_prop (fun c => flipCase (flipCase c) = c) (by decide +kernel) c
      rcases lower_cases h3 with h | h
      · rw [h]
      · subst h
        by_cases hx : x = c
        · rw [hx, hc]
        · have hy : flipCase x ≠ c := fun e => hx (by rw [← kf x, e, hc])
          rw [beq_eq_false_iff_ne.2 hx, beq_eq_false_iff_ne.2 hy]
    rw [this]

end CaseEq

/-- Whether a text is in the language does not depend on its case. -/
def CaseClosed (L : Lang) : Prop := ∀ s t, CaseEq s t → L s → L t

theorem cc_cat {A B : Lang} (hA : CaseClosed A) (hB : CaseClosed B) : CaseClosed (Abnf.cat A B) := by
  rintro s t h ⟨a, b, rfl, h1, h2⟩
  obtain ⟨a', b', rfl, k1, k2⟩ := h.pieces
  exact ⟨a', b', rfl, hA _ _ k1 h1, hB _ _ k2 h2⟩

theorem cc_alt {A B : Lang} (hA : CaseClosed A) (hB : CaseClosed B) : CaseClosed (Abnf.alt A B) := by
  rintro s t h (h1 | h1)
  · exact Or.inl (hA _ _ h h1)
  · exact Or.inr (hB _ _ h h1)

theorem cc_opt {A : Lang} (hA : CaseClosed A) : CaseClosed (Abnf.opt A) := by
  rintro s t h (rfl | h1)
  · exact Or.inl h.nil
  · exact Or.inr (hA _ _ h h1)

theorem cc_flatten {A : Lang} (hA : CaseClosed A) : ∀ (es : List Str) (t : Str), CaseEq es.flatten t → (∀ e ∈ es, A e) →
    ∃ es' : List Str, t = es'.flatten ∧ (∀ e ∈ es', A e) ∧ es'.length = es.length := by
  intro es
  induction es with
  | nil => intro t h _; exact ⟨[], by simpa using CaseEq.nil h, by simp, rfl⟩
  | cons e es ih =>
    intro t h k
    rw [List.flatten_cons] at h
    obtain ⟨a, b, rfl, h1, h2⟩ := h.pieces
    obtain ⟨es', rfl, k1, k2⟩ := ih b h2 (fun x hx => k x (by simp [hx]))
    refine ⟨a :: es', by simp, ?_, by simp [k2]⟩
    intro x hx
    rcases List.mem_cons.1 hx with rfl | hx
    · exact hA _ _ h1 (k e (by simp))
    · exact k1 x hx

theorem cc_rep {A : Lang} (m : Nat) (n : Option Nat) (hA : CaseClosed A) : CaseClosed (Abnf.rep m n A) := by
  rintro s t h ⟨es, rfl, h1, h2, h3⟩
  obtain ⟨es', rfl, k1, k2⟩ := cc_flatten hA es t h h1
  exact ⟨es', rfl, k1, by omega, by rw [k2]; exact h3⟩

theorem cc_lit {l : Str} (hl : l.all (fun c => flipCase c == c) = true) : CaseClosed (Abnf.lit l) := by
  rintro s t h rfl
  exact h.lit hl

theorem cc_cls {L : Lang} {f : UInt8 → Bool} (h : ∀ u, L u ↔ Cls f u) (hf : ∀ c, f c = true → f (flipCase c) = true) : CaseClosed L := by
  intro s t k hs
  obtain ⟨c, rfl, hc⟩ := (h s).1 hs
  obtain ⟨d, rfl, hd⟩ := k.single
  refine (h _).2 ⟨d, rfl, ?_⟩
  rcases lower_cases hd with rfl | rfl
  · exact hc
  · exact hf _ hc

theorem cc_ALPHA : CaseClosed Abnf.ALPHA :=
  cc_cls ALPHA_cls (fun c => byte_prop (fun c => isAlphaB c = true → isAlphaB (flipCase c) = true) (by decide +kernel) c)
theorem cc_DIGIT : CaseClosed Abnf.DIGIT :=
  cc_cls DIGIT_cls (fun c => byte_prop (fun c => isDigitB c = true → isDigitB (flipCase c) = true) (by decide +kernel) c)
theorem cc_HEXDIG : CaseClosed Abnf.HEXDIG :=
  cc_cls HEXDIG_cls (fun c => byte_prop (fun c => isXDigitB c = true → isXDigitB (flipCase c) = true) (by decide +kernel) c)
theorem cc_range {a b : Nat} (h : b < 0x41) : CaseClosed (Abnf.range a b) := by
  refine cc_cls (range_cls a b) (fun c hc => ?_)
  simp only [Bool.and_eq_true, decide_eq_true_eq] at hc ⊢
  have : flipCase c = c := by
    have := byte_prop (fun c => c.toNat < 0x41 → flipCase c = c) (by decide +kernel) c
    exact this (by omega)
  rw [this]; exact hc

theorem cc_subDelims : CaseClosed Abnf.subDelims := by
  repeat' first | apply cc_alt | exact cc_lit (by decide)
theorem cc_unreserved : CaseClosed Abnf.unreserved := by
  repeat' first | exact cc_ALPHA | exact cc_DIGIT | exact cc_lit (by decide) | apply cc_alt
theorem cc_pct : CaseClosed Abnf.pctEncoded := cc_cat (cc_lit (by decide)) (cc_cat cc_HEXDIG cc_HEXDIG)
theorem cc_pchar : CaseClosed Abnf.pchar := by
  repeat' first | exact cc_unreserved | exact cc_pct | exact cc_subDelims | exact cc_lit (by decide) | apply cc_alt
theorem cc_query : CaseClosed Abnf.query := cc_rep _ _ (cc_alt cc_pchar (cc_alt (cc_lit (by decide)) (cc_lit (by decide))))
theorem cc_fragment : CaseClosed Abnf.fragment := cc_query
theorem cc_segment : CaseClosed Abnf.segment := cc_rep _ _ cc_pchar
theorem cc_segmentNz : CaseClosed Abnf.segmentNz := cc_rep _ _ cc_pchar
theorem cc_segmentNzNc : CaseClosed Abnf.segmentNzNc := by
  refine cc_rep _ _ ?_
  repeat' first | exact cc_unreserved | exact cc_pct | exact cc_subDelims | exact cc_lit (by decide) | apply cc_alt
theorem cc_regName : CaseClosed Abnf.regName := cc_rep _ _ (cc_alt cc_unreserved (cc_alt cc_pct cc_subDelims))
theorem cc_userinfo : CaseClosed Abnf.userinfo :=
  cc_rep _ _ (cc_alt cc_unreserved (cc_alt cc_pct (cc_alt cc_subDelims (cc_lit (by decide)))))
theorem cc_decOctet : CaseClosed Abnf.decOctet := by
  unfold Abnf.decOctet
  repeat' first | exact cc_DIGIT | exact cc_lit (by decide) | exact cc_range (by decide) | exact cc_rep _ _ cc_DIGIT | apply cc_alt | apply cc_cat
theorem cc_IPv4address : CaseClosed Abnf.IPv4address := by
  unfold Abnf.IPv4address
  repeat' first | exact cc_decOctet | exact cc_lit (by decide) | apply cc_cat
theorem cc_h16 : CaseClosed Abnf.h16 := cc_rep _ _ cc_HEXDIG
theorem cc_ls32 : CaseClosed Abnf.ls32 := cc_alt (cc_cat cc_h16 (cc_cat (cc_lit (by decide)) cc_h16)) cc_IPv4address
theorem cc_h16c : CaseClosed Abnf.h16c := cc_cat cc_h16 (cc_lit (by decide))
theorem cc_IPv6address : CaseClosed Abnf.IPv6address := by
  unfold Abnf.IPv6address
  repeat' first | exact cc_h16 | exact cc_ls32 | exact cc_h16c | exact cc_lit (by decide) | exact cc_rep _ _ cc_h16c | apply cc_alt | apply cc_cat | apply cc_opt
theorem cc_v : CaseClosed (Abnf.alt (Abnf.lit (b! "v")) (Abnf.lit (b! "V"))) :=
  cc_cls (alt_cls (lit_cls _) (lit_cls _)) (fun c => byte_prop (fun c => (c == 0x76 || c == 0x56) = true → (flipCase c == 0x76 || flipCase c == 0x56) = true) (by decide +kernel) c)
theorem cc_IPvFuture : CaseClosed Abnf.IPvFuture :=
  cc_cat cc_v (cc_cat (cc_rep _ _ cc_HEXDIG) (cc_cat (cc_lit (by decide)) (cc_rep _ _ (cc_alt cc_unreserved (cc_alt cc_subDelims (cc_lit (by decide)))))))
theorem cc_IPLiteral : CaseClosed Abnf.IPLiteral := cc_cat (cc_lit (by decide)) (cc_cat (cc_alt cc_IPv6address cc_IPvFuture) (cc_lit (by decide)))
theorem cc_port : CaseClosed Abnf.port := cc_rep _ _ cc_DIGIT
theorem cc_host : CaseClosed Abnf.host := cc_alt cc_IPLiteral (cc_alt cc_IPv4address cc_regName)
theorem cc_scheme : CaseClosed Abnf.scheme := by
  refine cc_cat cc_ALPHA (cc_rep _ _ ?_)
  repeat' first | exact cc_ALPHA | exact cc_DIGIT | exact cc_lit (by decide) | apply cc_alt

theorem cc_FutureCounted : CaseClosed Abnf.FutureCounted := by
  rintro s t h hs c x y hc hx rfl
  obtain ⟨s1, s2, rfl, k1, k2⟩ := h.symm.pieces
  obtain ⟨s3, y', rfl, k3, k4⟩ := k1.pieces
  obtain ⟨s4, dot, rfl, k5, k6⟩ := k3.pieces
  obtain ⟨s5, x', rfl, k7, k8⟩ := k5.pieces
  obtain ⟨o, c', rfl, k9, k10⟩ := k7.pieces
  cases k9.lit (by decide)
  cases k2.lit (by decide)
  cases k6.lit (by decide)
  obtain ⟨d, rfl, -⟩ := k10.single
  have hv : Abnf.alt (Abnf.lit (b! "v")) (Abnf.lit (b! "V")) [d] := cc_v _ _ k10 (by
    rcases hc with rfl | rfl
    · exact Or.inl rfl
    · exact Or.inr rfl)
  have := hs d x' y' (by
    rcases hv with h | h
    · left; simpa [Abnf.lit] using h
    · right; simpa [Abnf.lit] using h) (cc_rep _ _ cc_HEXDIG _ _ k8 hx) rfl
  rw [k8.length, k4.length]
  exact this

theorem cc_HostAccepted : CaseClosed Abnf.HostAccepted := by
  rintro s t h (⟨h1, h2⟩ | h1 | ⟨h1, h2⟩)
  · exact Or.inl ⟨cc_IPLiteral _ _ h h1, cc_FutureCounted _ _ h h2⟩
  · exact Or.inr (Or.inl (cc_IPv4address _ _ h h1))
  · refine Or.inr (Or.inr ⟨cc_regName _ _ h h1, ?_⟩)
    rintro u v rfl hu
    obtain ⟨u', v', rfl, k1, k2⟩ := h.symm.pieces
    exact h2 u' v' rfl (cc_IPv4address _ _ k1 hu)

/-! ### Components -/

def OptCaseEq (a b : Option Str) : Prop := a.map (List.map lower) = b.map (List.map lower)

theorem oc_some {a : Str} {o : Option Str} (h : OptCaseEq (some a) o) : ∃ b, o = some b ∧ CaseEq a b := by
  cases o with
  | none => simp [OptCaseEq] at h
  | some b => exact ⟨b, rfl, by simpa [OptCaseEq, CaseEq] using h⟩

theorem oc_none {o : Option Str} (h : OptCaseEq none o) : o = none := by
  cases o with
  | none => rfl
  | some b => simp [OptCaseEq] at h

theorem oc_mk {a b : Str} (h : CaseEq a b) : OptCaseEq (some a) (some b) := by
  unfold OptCaseEq; exact congrArg some h

theorem oc_all {L : Lang} (hL : CaseClosed L) {a b : Option Str} (h : OptCaseEq a b) (k : ∀ t, a = some t → L t) : ∀ t, b = some t → L t := by
  rintro t rfl
  cases a with
  | none => cases oc_none h
  | some a =>
    obtain ⟨b, hb, h'⟩ := oc_some h
    cases hb
    exact hL _ _ h' (k a rfl)

theorem oc_text {d : Str} (hd : d.all (fun c => flipCase c == c) = true) {o : Option Str} {s : Str} (h : CaseEq (Abnf.optText d o) s) :
    ∃ o', s = Abnf.optText d o' ∧ OptCaseEq o o' := by
  cases o with
  | none => exact ⟨none, h.nil, rfl⟩
  | some t =>
    obtain ⟨a, b, rfl, h1, h2⟩ := CaseEq.pieces h
    cases h1.lit hd
    exact ⟨some b, rfl, oc_mk h2⟩

theorem oc_slashes : ∀ (gs : List Str) (s : Str), CaseEq (Abnf.slashes gs) s → (∀ g ∈ gs, Abnf.segment g) →
    ∃ gs', s = Abnf.slashes gs' ∧ gs.map (List.map lower) = gs'.map (List.map lower) ∧ (∀ g ∈ gs', Abnf.segment g) := by
  intro gs
  induction gs with
  | nil => intro s h _; exact ⟨[], by simpa [Abnf.slashes] using CaseEq.nil h, rfl, by simp⟩
  | cons g gs ih =>
    intro s h k
    rw [show Abnf.slashes (g :: gs) = (b! "/" ++ g) ++ Abnf.slashes gs from by simp [Abnf.slashes]] at h
    obtain ⟨a, b, rfl, h1, h2⟩ := h.pieces
    obtain ⟨sl, g', rfl, h3, h4⟩ := h1.pieces
    cases h3.lit (by decide)
    obtain ⟨gs', rfl, k1, k2⟩ := ih b h2 (fun x hx => k x (by simp [hx]))
    refine ⟨g' :: gs', by simp [Abnf.slashes], ?_, ?_⟩
    · simp only [List.map_cons, k1]; rw [h4]
    · intro x hx
      rcases List.mem_cons.1 hx with rfl | hx
      · exact cc_segment _ _ h4 (k g (by simp))
      · exact k2 x hx

theorem oc_authority {a : Authority Str} {s : Str} (h : CaseEq (Abnf.authorityText a) s) (k : Abnf.AuthorityOk a) :
    ∃ a', s = Abnf.authorityText a' ∧ a.map (List.map lower) = a'.map (List.map lower) ∧ Abnf.AuthorityOk a' := by
  obtain ⟨u, h0, p⟩ := a
  obtain ⟨k1, k2, k3⟩ := k
  unfold Abnf.authorityText at h
  obtain ⟨x, z, rfl, h1, h2⟩ := h.pieces
  obtain ⟨x, y, rfl, h3, h4⟩ := h1.pieces
  have hu : ∃ u', x = (match u' with | none => [] | some u => u ++ b! "@") ∧ OptCaseEq u u' := by
    cases u with
    | none => exact ⟨none, h3.nil, rfl⟩
    | some u =>
      obtain ⟨u', at', rfl, e1, e2⟩ := CaseEq.pieces h3
      cases e2.lit (by decide)
      exact ⟨some u', rfl, oc_mk e1⟩
  have hp : ∃ p', z = (match p' with | none => [] | some p => b! ":" ++ p) ∧ OptCaseEq p p' := by
    cases p with
    | none => exact ⟨none, h2.nil, rfl⟩
    | some p =>
      obtain ⟨cl, p', rfl, e1, e2⟩ := CaseEq.pieces h2
      cases e1.lit (by decide)
      exact ⟨some p', rfl, oc_mk e2⟩
  obtain ⟨u', rfl, e1⟩ := hu
  obtain ⟨p', rfl, e2⟩ := hp
  refine ⟨⟨u', y, p'⟩, rfl, ?_, ⟨oc_all cc_userinfo e1 k1, cc_host _ _ h4 k2, oc_all cc_port e2 k3⟩⟩
  simp only [Authority.map, Authority.mk.injEq]
  exact ⟨e1, h4, e2⟩

theorem oc_part {first : Lang} (hf : CaseClosed first) {t s : Str} {A : Option (Authority Str)} {P : Path Str} (h : CaseEq t s)
    (k : Abnf.PartDerives first t A P) : ∃ A' P', Abnf.PartDerives first s A' P' ∧
      A.map (·.map (List.map lower)) = A'.map (·.map (List.map lower)) ∧ P.map (List.map lower) = P'.map (List.map lower) := by
  cases k with
  | abempty a gs h1 h2 =>
    obtain ⟨x, z, rfl, e1, e2⟩ := h.pieces
    obtain ⟨x, y, rfl, e3, e4⟩ := e1.pieces
    cases e3.lit (by decide)
    obtain ⟨a', rfl, e5, e6⟩ := oc_authority e4 h1
    obtain ⟨gs', rfl, e7, e8⟩ := oc_slashes gs z e2 h2
    refine ⟨some a', _, .abempty a' gs' e6 e8, congrArg some e5, ?_⟩
    have hl : gs.isEmpty = gs'.isEmpty := by
      have := congrArg List.length e7
      simp only [List.length_map] at this
      cases gs <;> cases gs' <;> simp at this ⊢
    simp only [Path.map, hl, e7]
  | root =>
    cases h.lit (by decide)
    exact ⟨none, _, .root, rfl, rfl⟩
  | absolute g gs h1 h2 =>
    obtain ⟨x, z, rfl, e1, e2⟩ := h.pieces
    obtain ⟨x, y, rfl, e3, e4⟩ := e1.pieces
    cases e3.lit (by decide)
    obtain ⟨gs', rfl, e7, e8⟩ := oc_slashes gs z e2 h2
    refine ⟨none, _, .absolute y gs' (cc_segmentNz _ _ e4 h1) e8, rfl, ?_⟩
    simp only [Path.map, List.map_cons, e7]
    rw [e4]
  | rootless g gs h1 h2 =>
    obtain ⟨y, z, rfl, e4, e2⟩ := h.pieces
    obtain ⟨gs', rfl, e7, e8⟩ := oc_slashes gs z e2 h2
    refine ⟨none, _, .rootless y gs' (hf _ _ e4 h1) e8, rfl, ?_⟩
    simp only [Path.map, List.map_cons, e7]
    rw [e4]
  | empty =>
    cases h.nil
    exact ⟨none, _, .empty, rfl, rfl⟩

theorem oc_uri {s t : Str} {p : Parts Str} (h : CaseEq s t) (k : Abnf.URIDerives s p) : ∃ q, Abnf.URIDerives t q ∧ PartsCaseEq p q := by
  obtain ⟨sch, u, h1, h2, h3, h4, h5, rfl⟩ := k
  obtain ⟨x, f, rfl, e1, e2⟩ := h.pieces
  obtain ⟨x, q, rfl, e3, e4⟩ := e1.pieces
  obtain ⟨x, u', rfl, e5, e6⟩ := e3.pieces
  obtain ⟨c, cl, rfl, e7, e8⟩ := e5.pieces
  cases e8.lit (by decide)
  obtain ⟨q', rfl, e9⟩ := oc_text (by decide) e4
  obtain ⟨f', rfl, e10⟩ := oc_text (by decide) e2
  obtain ⟨A', P', e11, e12, e13⟩ := oc_part cc_segmentNz e6 h3
  refine ⟨⟨some c, A', P', q', f'⟩, ⟨c, u', rfl, cc_scheme _ _ e7 h2, e11, oc_all cc_query e9 h4, oc_all cc_fragment e10 h5, rfl⟩, ?_⟩
  simp only [PartsCaseEq, Parts.map, h1, Parts.mk.injEq]
  exact ⟨congrArg some e7, e12, e13, e9, e10⟩

theorem oc_relative {s t : Str} {p : Parts Str} (h : CaseEq s t) (k : Abnf.RelativeDerives s p) : ∃ q, Abnf.RelativeDerives t q ∧ PartsCaseEq p q := by
  obtain ⟨u, h1, h3, h4, h5, rfl⟩ := k
  obtain ⟨x, f, rfl, e1, e2⟩ := h.pieces
  obtain ⟨u', q, rfl, e6, e4⟩ := e1.pieces
  obtain ⟨q', rfl, e9⟩ := oc_text (by decide) e4
  obtain ⟨f', rfl, e10⟩ := oc_text (by decide) e2
  obtain ⟨A', P', e11, e12, e13⟩ := oc_part cc_segmentNzNc e6 h3
  refine ⟨⟨none, A', P', q', f'⟩, ⟨u', rfl, e11, oc_all cc_query e9 h4, oc_all cc_fragment e10 h5, rfl⟩, ?_⟩
  simp only [PartsCaseEq, Parts.map, h1, Parts.mk.injEq]
  exact ⟨trivial, e12, e13, e9, e10⟩

theorem pce_fields {p q : Parts Str} (h : PartsCaseEq p q) : OptCaseEq p.scheme q.scheme ∧
    p.authority.map (·.map (List.map lower)) = q.authority.map (·.map (List.map lower)) ∧
    p.path.absolute = q.path.absolute ∧ p.path.segments.map (List.map lower) = q.path.segments.map (List.map lower) ∧
    OptCaseEq p.query q.query ∧ OptCaseEq p.fragment q.fragment := by
  simp only [PartsCaseEq, Parts.map, Parts.mk.injEq, Path.map, Path.mk.injEq] at h
  exact ⟨h.1, h.2.1, h.2.2.1.1, h.2.2.1.2, h.2.2.2.1, h.2.2.2.2⟩

theorem PartsCaseEq.symm {p q : Parts Str} (h : PartsCaseEq p q) : PartsCaseEq q p := Eq.symm h

theorem pce_authority {p q : Parts Str} (h : PartsCaseEq p q) {b : Authority Str} (hb : q.authority = some b) :
    ∃ a, p.authority = some a ∧ OptCaseEq a.userinfo b.userinfo ∧ CaseEq a.host b.host ∧ OptCaseEq a.port b.port := by
  have := (pce_fields h).2.1
  rw [hb] at this
  cases ha : p.authority with
  | none => simp [ha] at this
  | some a =>
    simp only [ha, Option.map_some, Option.some.injEq, Authority.map, Authority.mk.injEq] at this
    exact ⟨a, rfl, this⟩

theorem oc_host {p q : Parts Str} (h : PartsCaseEq p q) (k : Abnf.HostOk p) : Abnf.HostOk q := by
  intro b hb
  obtain ⟨a, ha, -, e, -⟩ := pce_authority h hb
  exact cc_HostAccepted _ _ e (k a ha)

theorem oc_counted {p q : Parts Str} (h : PartsCaseEq p q) (k : Abnf.PathCounted p) : Abnf.PathCounted q := by
  intro hA g gs hg hne
  obtain ⟨-, h2, -, h4, -⟩ := pce_fields h
  have hA' : p.authority = none := by
    cases e : p.authority with
    | none => rfl
    | some a => simp [e, hA] at h2
  rw [hg] at h4
  cases hs : p.path.segments with
  | nil => simp [hs] at h4
  | cons x xs =>
    simp only [hs, List.map_cons, List.cons.injEq] at h4
    have hx : CaseEq x g := h4.1
    have := k hA' x xs hs (by rintro rfl; exact hne hx.nil)
    unfold Abnf.units at *
    rw [← hx.length, ← hx.count 0x25 (by decide)]
    exact this

/-! ### The property -/

/-- **C108**: whether `split` accepts a text does not depend on the case of its letters, and neither does where it cuts. -/
theorem C108_split (pl : Plat) (s t : Str) (p : Parts Str) (h : CaseEq s t) (k : SplitsTo pl s p) : ∃ q, SplitsTo pl t q ∧ PartsCaseEq p q := by
  obtain ⟨k1, k2, k3⟩ := splitsTo_iff.1 k
  obtain ⟨q, e1, e2⟩ := oc_uri h k1
  exact ⟨q, splitsTo_iff.2 ⟨e1, oc_host e2 k2, oc_counted e2 k3⟩, e2⟩

/-- **C108** for `split_reference`. -/
theorem C108_reference (pl : Plat) (s t : Str) (p : Parts Str) (h : CaseEq s t) (k : ReadsTo pl s p) : ∃ q, ReadsTo pl t q ∧ PartsCaseEq p q := by
  obtain ⟨k1, k2, k3⟩ := readsTo_iff.1 k
  rcases k1 with k1 | k1
  · obtain ⟨q, e1, e2⟩ := oc_uri h k1
    exact ⟨q, readsTo_iff.2 ⟨Or.inl e1, oc_host e2 k2, oc_counted e2 k3⟩, e2⟩
  · obtain ⟨q, e1, e2⟩ := oc_relative h k1
    exact ⟨q, readsTo_iff.2 ⟨Or.inr e1, oc_host e2 k2, oc_counted e2 k3⟩, e2⟩

/-- **C108** for `valid`. -/
theorem C108_valid (pl : Plat) (p q : Parts SV) (h : PartsCaseEq p.text q.text) (k : p.valid pl = .ok true) : q.valid pl = .ok true := by
  have k := C13_valid_sound pl p k
  apply C13_valid_complete
  obtain ⟨k1, k2, k3, k4, k5, k6, k7⟩ := k
  obtain ⟨h1, h2, h3, h4, h5, h6⟩ := pce_fields h
  generalize p.text = p at *
  generalize q.text = q at *
  refine ⟨?_, ?_, ?_, ?_, ?_, oc_all cc_query h5 k6, oc_all cc_fragment h6 k7⟩
  · obtain ⟨s, hs, hs'⟩ := k1
    rw [hs] at h1
    obtain ⟨t, ht, e⟩ := oc_some h1
    exact ⟨t, ht, cc_scheme _ _ e hs'⟩
  · intro b hb
    obtain ⟨a, ha, e, -, -⟩ := pce_authority h hb
    exact oc_all cc_userinfo e (k2 a ha)
  · intro b hb
    obtain ⟨a, ha, -, e, -⟩ := pce_authority h hb
    exact cc_HostAccepted _ _ e (k3 a ha)
  · intro b hb
    obtain ⟨a, ha, -, -, e⟩ := pce_authority h hb
    exact oc_all cc_port e (k4 a ha)
  · intro g hg
    have hm : g.map lower ∈ q.path.segments.map (List.map lower) := List.mem_map_of_mem hg
    rw [← h4] at hm
    obtain ⟨x, hx, e⟩ := List.mem_map.1 hm
    exact cc_segment _ _ e (k5 x hx)

theorem caseEq_dot {g : Str} (t : Str) (ht : t.all (fun c => flipCase c == c && lower c == c) = true) : g.map lower = t ↔ g = t := by
  have hl : t.map lower = t := by
    have : ∀ c ∈ t, lower c = c := by
      intro c hc
      have := List.all_eq_true.1 ht c hc
      simp at this
      exact this.2
    conv => rhs; rw [← List.map_id t]
    exact List.map_congr_left this
  constructor
  · intro h
    refine (CaseEq.lit (t := t) (s := g) ?_ ?_)
    · unfold CaseEq; rw [hl, h]
    · rw [List.all_eq_true] at ht ⊢
      intro c hc
      have := ht c hc
      simp only [Bool.and_eq_true] at this
      exact this.1
  · rintro rfl; exact hl

theorem stackRun_lower : ∀ (gs st : List Str), stackRun (List.map lower) st gs = stackRun id st gs := by
  intro gs
  induction gs with
  | nil => intro st; rfl
  | cons g gs ih =>
    intro st
    simp only [stackRun, id, caseEq_dot (b! ".") (by decide), caseEq_dot (b! "..") (by decide), ih]

theorem rdsSegs_lower (gs : List Str) : (rdsSegs id [] gs).map (List.map lower) = rdsSegs id [] (gs.map (List.map lower)) := by
  have e := stackRun_map (List.map lower) id (List.map lower) (fun _ => rfl) gs []
  rw [stackRun_lower] at e
  simp only [List.map_nil] at e
  simp only [rdsSegs, List.map_id]
  rw [← e]
  have hd : dirEnd false (gs.map (List.map lower)) = dirEnd false gs := by
    unfold dirEnd
    rw [List.getLast?_map]
    cases gs.getLast? with
    | none => rfl
    | some g =>
      have : isDot (g.map lower) = isDot g := by
        have h1 := caseEq_dot (g := g) (b! ".") (by decide)
        have h2 := caseEq_dot (g := g) (b! "..") (by decide)
        rw [Bool.eq_iff_iff]
        unfold isDot
        rw [Bool.or_eq_true, Bool.or_eq_true, beq_iff_eq, beq_iff_eq, beq_iff_eq, beq_iff_eq, h1, h2]
      simp [this]
  rw [hd]
  cases dirEnd false gs with
  | false => simp
  | true =>
    simp only [if_true, List.getLast?_map]
    cases (stackRun id [] gs).getLast? with
    | none => simp
    | some b => cases h : b.isEmpty <;> simp [h]

theorem rdsT_lower (p : Path Str) : (rdsT p).map (List.map lower) = rdsT (p.map (List.map lower)) := by
  simp only [rdsT, Path.map, rdsSegs_lower]

theorem mapMk (a : Bool) (gs : List Str) : Path.map (List.map lower) ⟨a, gs⟩ = ⟨a, gs.map (List.map lower)⟩ := rfl

theorem joinT_lower (b r : Parts Str) : (joinT b r true).map (List.map lower) = joinT (b.map (List.map lower)) (r.map (List.map lower)) true := by
  obtain ⟨bs, ba, ⟨bab, bg⟩, bq, bf⟩ := b
  obtain ⟨rs, ra, ⟨rab, rg⟩, rq, rf⟩ := r
  have hm : ∀ gs : List Str, (gs.map (List.map lower)).isEmpty = gs.isEmpty := by intro gs; cases gs <;> rfl
  cases rs with
  | some s => simp [joinT, Parts.map, rdsT_lower, mapMk]
  | none =>
    cases ra with
    | some a => simp [joinT, Parts.map, rdsT_lower, mapMk]
    | none =>
      cases rg with
      | nil => cases rq <;> simp [joinT, Parts.map, mapMk]
      | cons g gs =>
        cases rab with
        | true => simp [joinT, Parts.map, rdsT_lower, mapMk]
        | false => simp [joinT, Parts.map, rdsT_lower, mapMk, mergeT_kept, keptOf, List.map_take]

/-- **C108** for `join`, with `strict`. -/
theorem C108_join (pl : Plat) (base base' s s' : Str) (t : Parts Str) (hb : CaseEq base base') (hs : CaseEq s s')
    (k : ResolvesTo pl base s true t) : ∃ t', ResolvesTo pl base' s' true t' ∧ PartsCaseEq t t' := by
  obtain ⟨b, r, h1, h2, rfl⟩ := resolvesTo_iff.1 k
  obtain ⟨b', k1, k2⟩ := C108_split pl _ _ _ hb h1
  obtain ⟨r', k3, k4⟩ := C108_reference pl _ _ _ hs h2
  refine ⟨_, resolvesTo_iff.2 ⟨b', r', k1, k3, rfl⟩, ?_⟩
  unfold PartsCaseEq at *
  rw [joinT_lower, joinT_lower, k2, k4]

theorem hex_flip (c : UInt8) : hex2dec (flipCase c) = hex2dec c := byte_prop (fun c => hex2dec (flipCase c) = hex2dec c) (by decide +kernel) c

theorem caseEq_cons {c : UInt8} {s t : Str} (h : CaseEq (c :: s) t) : ∃ d u, t = d :: u ∧ (d = c ∨ d = flipCase c) ∧ lower c = lower d ∧ CaseEq s u := by
  obtain ⟨a, b, rfl, h1, h2⟩ := CaseEq.pieces (a := [c]) (b := s) h
  obtain ⟨d, rfl, h3⟩ := h1.single
  exact ⟨d, b, rfl, lower_cases h3, h3, h2⟩

theorem caseEq_mk {c d : UInt8} {s t : Str} (h : lower c = lower d) (k : CaseEq s t) : CaseEq (c :: s) (d :: t) := by
  unfold CaseEq at *; rw [List.map_cons, List.map_cons, h, k]

theorem caseEq_decP : ∀ (n : Nat) (s t : Str), s.length ≤ n → CaseEq s t → CaseEq (decP s) (decP t) := by
  intro n
  induction n with
  | zero =>
    intro s t hn h
    cases s with
    | nil => rw [h.nil]; rfl
    | cons c s => simp at hn
  | succ n ih =>
    intro s t hn h
    match s, hn, h with
    | [], _, h => rw [h.nil]; rfl
    | [c], hn, h =>
      obtain ⟨d, u, rfl, -, h2, h3⟩ := caseEq_cons h
      cases h3.nil
      exact caseEq_mk h2 rfl
    | [c, x], hn, h =>
      obtain ⟨d, u, rfl, -, h2, h3⟩ := caseEq_cons h
      obtain ⟨d', u, rfl, -, h4, h5⟩ := caseEq_cons h3
      cases h5.nil
      exact caseEq_mk h2 (caseEq_mk h4 rfl)
    | c :: x :: y :: s, hn, h =>
      obtain ⟨c', u, rfl, h1, h2, h3⟩ := caseEq_cons h
      obtain ⟨x', v, rfl, h4, h5, h6⟩ := caseEq_cons h3
      obtain ⟨y', w, rfl, h7, h8, h9⟩ := caseEq_cons h6
      have hx : hex2dec x' = hex2dec x := by rcases h4 with rfl | rfl <;> simp [hex_flip]
      have hy : hex2dec y' = hex2dec y := by rcases h7 with rfl | rfl <;> simp [hex_flip]
      have hc : c' = 0x25 ↔ c = 0x25 := by
        rcases h1 with rfl | rfl
        · exact Iff.rfl
        · exact byte_prop (fun c => flipCase c = 0x25 ↔ c = 0x25) (by decide +kernel) c
      have ht : tripletB x' y' = tripletB x y := by simp only [tripletB, hx, hy]
      have hB : byteB x' y' = byteB x y := by simp only [byteB, hx, hy]
      by_cases hk : c = 0x25 ∧ tripletB x y = true
      · simp only [decP]
        rw [if_pos hk, if_pos ⟨hc.2 hk.1, by rw [ht]; exact hk.2⟩, hB]
        exact caseEq_mk rfl (ih _ _ (by simp at hn; omega) h9)
      · have hk' : ¬ (c' = 0x25 ∧ tripletB x' y' = true) := by rw [hc, ht]; exact hk
        rw [decP, decP, if_neg hk, if_neg hk']
        exact caseEq_mk h2 (ih _ _ (by simp at hn ⊢; omega) h3)

/-- **C108** for `pctdecode`. -/
theorem C108_pctdecode (s t d : Str) (h : CaseEq s t) (k : pctdecode s = .ok d) : ∃ e, pctdecode t = .ok e ∧ CaseEq d e := by
  rw [pctdecode_eq] at k
  cases k
  exact ⟨_, pctdecode_eq t, caseEq_decP _ s t (Nat.le_refl _) h⟩

/-- Letters are never encoded. -/
theorem encB_letter (c es : UInt8) (h : flipCase c ≠ c) : encB es c = [c] := by
  have h1 := C24_union c es 0xFF
  have h2 : es ||| 0xFF = 0xFF := byte_prop (fun es => es ||| 0xFF = 0xFF) (by decide +kernel) es
  have h3 : needsPctencodeB c 0xFF = false := byte_prop (fun c => flipCase c ≠ c → needsPctencodeB c 0xFF = false) (by decide +kernel) c h
  rw [h2, h3] at h1
  have h4 : needsPctencodeB c es = false := by revert h1; cases needsPctencodeB c es <;> simp
  simp [encB, h4]

/-- **C108** for `pctencode`, whatever the set. -/
theorem C108_pctencode (s t e : Str) (es : UInt8) (h : CaseEq s t) (k : pctencode s es = .ok e) : ∃ e', pctencode t es = .ok e' ∧ CaseEq e e' := by
  rw [pctencode_eq] at k
  cases k
  refine ⟨_, pctencode_eq t es, ?_⟩
  induction s generalizing t with
  | nil => rw [h.nil]; rfl
  | cons c s ih =>
    obtain ⟨d, u, rfl, h1, h2, h3⟩ := caseEq_cons h
    have hc : CaseEq (encB es c) (encB es d) := by
      rcases h1 with rfl | rfl
      · rfl
      · by_cases hf : flipCase c = c
        · rw [hf]; rfl
        · have kf : flipCase (flipCase c) = c := byte_prop (fun c => flipCase (flipCase c) = c) (by decide +kernel) c
          rw [encB_letter c es hf, encB_letter (flipCase c) es (by rw [kf]; exact fun e => hf e.symm)]
          exact caseEq_mk h2 rfl
    exact hc.append (ih u h3)

/-! ### The hypotheses are met, and needed -/

/-- `HTTP://[2001:DB8::A]/%C3%BC` and `http://[2001:db8::a]/%c3%bc`. -/
example (pl : Plat) : CaseEq (b! "HTTP://[2001:DB8::A]/%C3%BC") (b! "http://[2001:db8::a]/%c3%bc") ∧
    SplitsTo pl (b! "HTTP://[2001:DB8::A]/%C3%BC") ⟨some (b! "HTTP"), some ⟨none, b! "[2001:DB8::A]", none⟩, ⟨true, [b! "%C3%BC"]⟩, none, none⟩ :=
  ⟨by decide, c91_splits pl (run_text (by obtain ⟨b⟩ := pl; cases b <;> decide +kernel))⟩

example : pctdecode (b! "%C3%bcA") = .ok [0xC3, 0xBC, 0x41] ∧ pctdecode (b! "%c3%Bca") = .ok [0xC3, 0xBC, 0x61] := by decide +kernel

/-- **C108**, counterexample: without `strict`, `join` depends on the case of the schemes. -/
theorem C108_join_counterexample (pl : Plat) : CaseEq (b! "HTTP:g") (b! "http:g") ∧
    ResolvesTo pl (b! "http://a/b") (b! "HTTP:g") false ⟨some (b! "HTTP"), none, ⟨false, [b! "g"]⟩, none, none⟩ ∧
    ResolvesTo pl (b! "http://a/b") (b! "http:g") false ⟨some (b! "http"), some ⟨none, b! "a", none⟩, ⟨true, [b! "b", b! "g"]⟩, none, none⟩ := by
  refine ⟨by decide, C107_case_counterexample pl false, ?_⟩
  exact c107_resolves (strict := false) (base := b! "http://a/b") (s := b! "http:g")
      (b := ⟨some (b! "http"), some ⟨none, b! "a", none⟩, ⟨true, [b! "b"]⟩, none, none⟩)
      (r := ⟨some (b! "http"), none, ⟨false, [b! "g"]⟩, none, none⟩) pl
      (run_text (by obtain ⟨b⟩ := pl; cases b <;> decide +kernel)) (run_text (by obtain ⟨b⟩ := pl; cases b <;> decide +kernel))

/-- **C108**, counterexample: `puny_decoded` knows the prefix of an encoded label in lower case only.  `xn--TDA` is decoded (to `ü`),
`XN--TDA` is left as it is. -/
theorem C108_prefix_counterexample : CaseEq (b! "xn--TDA") (b! "XN--TDA") ∧
    Codec.punyDecoded (b! "xn--TDA") = .ok ([0xC3, 0xBC], .ok true) ∧ Codec.punyDecoded (b! "XN--TDA") = .ok (b! "XN--TDA", .ok false) := by
  decide +kernel

end Verif
