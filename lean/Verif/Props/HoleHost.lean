import Verif.Props.Fill

/-!
# Property C120: holes in the authority of a template
-/

namespace Verif.HoleHost
open Short Append Fill
set_option linter.unusedSimpArgs false

/-! ### Specification -/

/-- The text of a URI up to its host. -/
def upToHost (p : Parts Str) (A : Authority Str) : Str := Abnf.optText [] p.scheme ++ b! "://" ++ (match A.userinfo with | none => [] | some u => u ++ b! "@")

/-- The text of a URI up to its userinfo. -/
def upToUser (p : Parts Str) : Str := Abnf.optText [] p.scheme ++ b! "://"

/-! ### Proofs -/

theorem reg_fill {a b e : Str} (h : Abnf.regName (a ++ b)) (ha : ¬ InTriplet a) (he : Abnf.regName e) : Abnf.regName (a ++ e ++ b) := by
  have k : Abnf.regName a := many_cut reg_elem h ha
  exact many_both (many_both k he) (many_go reg_elem (by decide +kernel) k h)

theorem user_fill {a b e : Str} (h : Abnf.userinfo (a ++ b)) (ha : ¬ InTriplet a) (he : Abnf.userinfo e) : Abnf.userinfo (a ++ e ++ b) := by
  have k : Abnf.userinfo a := many_cut user_elem h ha
  exact many_both (many_both k he) (many_go user_elem (by decide +kernel) k h)

/-- Another authority in the place of the first. -/
theorem other_authority {p : Parts Str} {A B : Authority Str} {sch : Str} (hs : p.scheme = some sch) (hA : p.authority = some A) {s : Str} (d : Abnf.URIDerives s p) (hB : Abnf.AuthorityOk B) :
    s = sch ++ b! "://" ++ Abnf.authorityText A ++ rest p ∧
    Abnf.URIDerives (sch ++ b! "://" ++ Abnf.authorityText B ++ rest p) { p with authority := some B } := by
  obtain ⟨sc, A', P, q, f⟩ := p
  obtain ⟨sch', t, h1, h2, h3, h4, h5, h6⟩ := d
  simp only at h1 h3 h4 h5 h6 hs hA ⊢
  subst hA
  obtain rfl := Option.some.inj (hs.symm.trans h1)
  cases h3 with
  | abempty _ gs ha hgs =>
    have e1 := part_text (Abnf.PartDerives.abempty (first := Abnf.segmentNz) A gs ha hgs)
    have e2 : Abnf.slashes gs = pathText ⟨!gs.isEmpty, gs⟩ := by
      simp only [Option.map_some, Abnf.optText, List.append_assoc] at e1
      exact List.append_cancel_left (List.append_cancel_left e1)
    refine ⟨?_, ⟨sch, _, hs, h2, .abempty B gs hB hgs, h4, h5, ?_⟩⟩
    · rw [h6, rest, ← e2]; simp
    · rw [rest, ← e2]; simp

end Verif.HoleHost

/-! ### The property -/

namespace Verif
open Short Append Fill HoleHost PctSpec

/-- **C120**: a hole in a host which is a name (the text up to the hole is `u`). Any text of name characters and triplets can be filled in; the result is accepted
exactly if `split` accepts the new host, and then just the host has changed. -/
theorem C120_host (pl : Plat) (v a b e : Str) (p q : Parts Str) (A : Authority Str) (hA : p.authority = some A) (hh : A.host = a ++ b)
    (hp : SplitsTo pl (upToHost p A ++ a ++ v) p) (hr : Abnf.regName (a ++ b)) (ha : ¬ InTriplet a) (he : Abnf.regName e) :
    SplitsTo pl (upToHost p A ++ a ++ e ++ v) q ↔ Abnf.HostAccepted (a ++ e ++ b) ∧ q = { p with authority := some { A with host := a ++ e ++ b } } := by
  obtain ⟨d, ho, hc⟩ := splitsTo_iff.1 hp
  obtain ⟨sch, h1, -, h3, -⟩ := pieces d
  have hB : Abnf.AuthorityOk { A with host := a ++ e ++ b } :=
    ⟨(h3 A hA).userinfo, Or.inr (Or.inr (reg_fill hr ha he)), (h3 A hA).port⟩
  obtain ⟨e1, d2⟩ := other_authority h1 hA d hB
  have e2 : upToHost p A ++ a ++ e ++ v = sch ++ b! "://" ++ Abnf.authorityText { A with host := a ++ e ++ b } ++ rest p := by
    have hv : v = b ++ ((match A.port with | none => [] | some t => b! ":" ++ t) ++ rest p) := by
      simp only [upToHost, h1, Abnf.optText, Abnf.authorityText, hh, List.append_assoc, List.nil_append] at e1
      exact List.append_cancel_left (List.append_cancel_left (List.append_cancel_left (List.append_cancel_left e1)))
    rw [hv]
    simp only [upToHost, h1, Abnf.optText, Abnf.authorityText, List.append_assoc, List.nil_append]
    rfl
  rw [← e2] at d2
  constructor
  · intro hq
    obtain ⟨dq, oq, -⟩ := splitsTo_iff.1 hq
    obtain rfl := derives_unique (Or.inl dq) (Or.inl d2)
    exact ⟨oq _ rfl, rfl⟩
  · rintro ⟨k, rfl⟩
    refine splitsTo_iff.2 ⟨d2, ?_, ?_⟩
    · intro B hB; obtain rfl := Option.some.inj hB; exact k
    · intro h; cases h

/-- **C120**: the new host is accepted if it does not begin with an IPv4 address, in particular if it does not begin with a digit. -/
theorem C120_accepted (h : Str) (hr : Abnf.regName h) (h0 : ∀ c, h.head? = some c → ¬ (0x30 ≤ c ∧ c ≤ 0x39)) : Abnf.HostAccepted h := by
  refine Or.inr (Or.inr ⟨hr, ?_⟩)
  rintro u v rfl hu
  have : ∃ c, u.head? = some c ∧ 0x30 ≤ c ∧ c ≤ 0x39 := by
    obtain ⟨a, t, ha, rfl⟩ := ipv4_head hu
    have hne : a ≠ [] := by
      rcases ha with ⟨c, rfl, _⟩ | ⟨_, _, rfl, ⟨c, rfl, _⟩, _⟩ | ⟨_, _, rfl, rfl, _⟩ | ⟨_, _, rfl, rfl, _⟩ | ⟨_, _, rfl, rfl, _⟩ <;> simp
    cases a with
    | nil => exact absurd rfl hne
    | cons c a =>
      have k := byte_prop (fun c => isDigitB c = true → 0x30 ≤ c ∧ c ≤ 0x39) (by decide +kernel) c (only_decOctet _ ha c (by simp))
      exact ⟨c, rfl, k⟩
  obtain ⟨c, hc, k⟩ := this
  exact h0 c (by cases u <;> simp_all) k

/-- **C120**: a hole in the userinfo: anything that may be in a userinfo. -/
theorem C120_userinfo (pl : Plat) (v a b e : Str) (p : Parts Str) (A : Authority Str) (hA : p.authority = some A) (hh : A.userinfo = some (a ++ b))
    (hp : SplitsTo pl (upToUser p ++ a ++ v) p) (ha : ¬ InTriplet a) (he : Abnf.userinfo e) :
    SplitsTo pl (upToUser p ++ a ++ e ++ v) { p with authority := some { A with userinfo := some (a ++ e ++ b) } } := by
  obtain ⟨d, ho, hc⟩ := splitsTo_iff.1 hp
  obtain ⟨sch, h1, -, h3, -⟩ := pieces d
  have hB : Abnf.AuthorityOk { A with userinfo := some (a ++ e ++ b) } :=
    ⟨by rintro _ ⟨⟩; exact user_fill ((h3 A hA).userinfo _ hh) ha he, (h3 A hA).host, (h3 A hA).port⟩
  obtain ⟨e1, d2⟩ := other_authority h1 hA d hB
  have e2 : upToUser p ++ a ++ e ++ v = sch ++ b! "://" ++ Abnf.authorityText { A with userinfo := some (a ++ e ++ b) } ++ rest p := by
    have hv : v = b ++ (b! "@" ++ (A.host ++ ((match A.port with | none => [] | some t => b! ":" ++ t) ++ rest p))) := by
      simp only [upToUser, h1, Abnf.optText, Abnf.authorityText, hh, List.append_assoc, List.nil_append] at e1
      exact List.append_cancel_left (List.append_cancel_left (List.append_cancel_left e1))
    rw [hv]
    simp only [upToUser, h1, Abnf.optText, Abnf.authorityText, List.append_assoc, List.nil_append]
    rfl
  rw [← e2] at d2
  refine splitsTo_iff.2 ⟨d2, ?_, ?_⟩
  · intro B hB; obtain rfl := Option.some.inj hB; exact ho A hA
  · intro h; cases h

/-- **C120**: text encoded by `pctencode` with the component set can be put into both; so what is filled in cannot end the host or begin a userinfo, a port or a path. -/
theorem C120_encoded (x e : Str) (he : pctencode x EncSet.component = .ok e) : Abnf.regName e ∧ Abnf.userinfo e := by
  have h := C28_regName x e _ (Or.inr (Or.inl rfl)) he
  refine ⟨h, ?_⟩
  obtain ⟨es, rfl, he, -, -⟩ := h
  refine ⟨es, rfl, fun y hy => ?_, Nat.zero_le _, by simp⟩
  have mono := byte_prop (fun c => isRegChar c = true → isUserChar c = true) (by decide +kernel)
  rcases (reg_elem y).1 (he y hy) with ⟨c, rfl, hc⟩ | h
  · exact (user_elem _).2 (Or.inl ⟨c, rfl, mono c hc⟩)
  · exact (user_elem _).2 (Or.inr h)

/-- **C120**, where it fails: an IPv4 address, filled in before a dot, is not accepted; and what is filled in unencoded can take the place of the host. -/
theorem C120_counterexample :
    split x86 ⟨4096, b! "s://" ++ b! "1.2.3.4" ++ b! ".h/"⟩ = .ok none ∧
    (split x86 ⟨4096, b! "s://" ++ b! "x/" ++ b! ".h/"⟩).map (·.bind (·.text.authority.map (·.host))) = .ok (some (b! "x")) ∧
    (split x86 ⟨4096, b! "s://h" ++ b! "@x" ++ b! "/"⟩).map (·.bind (·.text.authority.map (·.host))) = .ok (some (b! "x")) := by
  decide +kernel

example : SplitsTo x86 (b! "s://u@" ++ b! "a." ++ b! ".h:1/") ⟨some (b! "s"), some ⟨some (b! "u"), b! "a..h", some (b! "1")⟩, ⟨true, [[]]⟩, none, none⟩ ∧
    upToHost ⟨some (b! "s"), some ⟨some (b! "u"), b! "a..h", some (b! "1")⟩, ⟨true, [[]]⟩, none, none⟩ ⟨some (b! "u"), b! "a..h", some (b! "1")⟩ = b! "s://u@" ∧
    SplitsTo x86 (b! "s://u@" ++ b! "a." ++ b! "x%2F" ++ b! ".h:1/") ⟨some (b! "s"), some ⟨some (b! "u"), b! "a.x%2F.h", some (b! "1")⟩, ⟨true, [[]]⟩, none, none⟩ :=
  ⟨c91_splits x86 (run_text (by decide +kernel)), by decide +kernel, c91_splits x86 (run_text (by decide +kernel))⟩

end Verif
