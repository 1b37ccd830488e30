import Verif.Proofs.Valid

/-!
# Properties C01-C09, C12-C14: parsing, composition, validity, comparison

`sv : SV` is the caller's view (address and bytes), `pl : Plat` the platform (signedness of
`char`).  `q.text` is the result with the addresses forgotten.  The specification is in
`Verif/Spec/Abnf.lean` (RFC 3986) and `Verif/Spec/Components.lean`.
-/

namespace Verif

/-- A platform with signed `char`, as x86-64 Linux. -/
def x86 : Plat := ⟨true⟩
/-- A platform with unsigned `char`, as AArch64 Linux. -/
def arm : Plat := ⟨false⟩

/-- From a computed outcome to the statement used in the theorems. -/
theorem run_text {x : M (Option (Parts SV))} {p : Parts Str} (h : x.map (·.map Parts.text) = .ok (some p)) :
    ∃ q, x = .ok (some q) ∧ q.text = p := by
  rcases x with f | _ | q
  · simp [Except.map] at h
  · simp [Except.map] at h
  · simp [Except.map] at h; exact ⟨q, rfl, h⟩

/-! ### C01 -/

/-- C01: what `split` accepts is a sentence of `URI`, and the components returned are those of a
derivation. -/
theorem C01_split_sound (pl : Plat) (sv : SV) (q : Parts SV) (e : split pl sv = .ok (some q)) :
    Abnf.URI sv.chars ∧ Abnf.URIDerives sv.chars q.text :=
  ⟨URI_lang.2 ⟨_, (split_spec e).1⟩, (split_spec e).1⟩

/-- The text of the components of `http://u@h:8/a/b?q#f`. -/
def exParts : Parts Str :=
  ⟨some (b! "http"), some ⟨some (b! "u"), b! "h", some (b! "8")⟩, ⟨true, [b! "a", b! "b"]⟩,
   some (b! "q"), some (b! "f")⟩
/-- The same text as a view somewhere in memory. -/
def exView : SV := ⟨4096, b! "http://u@h:8/a/b?q#f"⟩

/-- C01 is about something: a URI with every component is accepted. -/
theorem exSplit : ∃ q, split x86 exView = .ok (some q) ∧ q.text = exParts :=
  run_text (by decide +kernel)

/-! ### C02 -/

/-- C02 in full, for texts of any length: `split` returns exactly the components of the derivations
from `URI` with a host the code accepts and a first segment it does not miscount (`HostOk` and
`PathCounted`; the first excludes reg-names with a proper IPv4 prefix, both exclude `1*`
repetitions of `k * 2^32` elements). -/
theorem C02_split_exact (pl : Plat) (sv : SV) (p : Parts Str) :
    (∃ q, split pl sv = .ok (some q) ∧ q.text = p) ↔
    Abnf.URIDerives sv.chars p ∧ Abnf.HostOk p ∧ Abnf.PathCounted p := by
  constructor
  · rintro ⟨q, e, rfl⟩
    exact ⟨(split_spec e).1, (split_spec e).2.1, split_counted e⟩
  · rintro ⟨h1, h2, h3⟩
    exact split_complete h1 h2 h3

/-- The conditions of `C02_split_exact` in plain words for texts below 4 GiB: the host is a dotted quad or
does not begin with one. -/
theorem derives_accepted {s : Str} {p : Parts Str} (h : Abnf.ReferenceDerives s p) (hlen : s.length < 2 ^ 32)
    (hhost : ∀ a, p.authority = some a → Abnf.IPv4address a.host ∨ ∀ u v, a.host = u ++ v → ¬ Abnf.IPv4address u) :
    Abnf.HostOk p ∧ Abnf.PathCounted p := by
  have hpart : ∀ {first t}, Abnf.PartDerives first t p.authority p.path → t.length ≤ s.length →
      (∀ a, p.authority = some a → a.host.length ≤ s.length) ∧ (∀ g ∈ p.path.segments, g.length ≤ s.length) := by
    intro first t ht hl
    generalize p.authority = A at ht
    generalize p.path = P at ht
    have hsl : ∀ {gs : List Str} {g}, g ∈ gs → g.length ≤ (Abnf.slashes gs).length := by
      intro gs g hg
      induction gs with
      | nil => simp at hg
      | cons x gs ih =>
        simp only [Abnf.slashes, List.map_cons, List.flatten_cons, List.length_append] at ih ⊢
        rcases List.mem_cons.1 hg with rfl | hg
        · omega
        · have := ih hg; omega
    cases ht with
    | abempty a gs h1 h2 =>
      simp only [List.length_append, Abnf.authorityText] at hl
      refine ⟨?_, fun g hg => by have := hsl hg; simp only [List.length_append] at this; omega⟩
      intro b e
      cases e
      omega
    | root => exact ⟨by simp, by simp⟩
    | absolute g gs h1 h2 =>
      simp only [List.length_append] at hl
      refine ⟨by simp, fun x hx => ?_⟩
      rcases List.mem_cons.1 hx with rfl | hx
      · omega
      · have := hsl hx; omega
    | rootless g gs h1 h2 =>
      simp only [List.length_append] at hl
      refine ⟨by simp, fun x hx => ?_⟩
      rcases List.mem_cons.1 hx with rfl | hx
      · omega
      · have := hsl hx; omega
    | empty => exact ⟨by simp, by simp⟩
  have hb : (∀ a, p.authority = some a → a.host.length ≤ s.length) ∧ (∀ g ∈ p.path.segments, g.length ≤ s.length) := by
    rcases h with ⟨_, t, _, _, h, _, _, e⟩ | ⟨t, _, h, _, _, e⟩
    · exact hpart h (by rw [e]; simp only [List.length_append]; omega)
    · exact hpart h (by rw [e]; simp only [List.length_append]; omega)
  refine ⟨fun a ha => ?_, pathCounted_of_short fun g hg => ⟨(derives_components h).2.2.1 g hg, by have := hb.2 g hg; omega⟩⟩
  refine hostAccepted_of_short (by have := hb.1 a ha; omega) ?_
  have hh : Abnf.host a.host := by
    rcases h with ⟨_, _, _, _, h, _⟩ | ⟨_, _, h, _⟩ <;> exact (part_authority h a ha).host
  rcases hh with h1 | h1 | h1
  · exact Or.inl h1
  · exact Or.inr (Or.inl h1)
  · rcases hhost a ha with h2 | h2
    · exact Or.inr (Or.inl h2)
    · exact Or.inr (Or.inr ⟨h1, h2⟩)

/-- C02 for texts below 4 GiB whose host is a dotted quad or does not begin with one: every
sentence of `URI` is accepted, on every platform, with the components of the derivation. -/
theorem C02_split_complete (pl : Plat) (sv : SV) (p : Parts Str) (h : Abnf.URIDerives sv.chars p)
    (hlen : sv.chars.length < 2 ^ 32)
    (hhost : ∀ a, p.authority = some a → Abnf.IPv4address a.host ∨ ∀ u v, a.host = u ++ v → ¬ Abnf.IPv4address u) :
    ∃ q, split pl sv = .ok (some q) ∧ q.text = p :=
  have h' := derives_accepted (Or.inl h) hlen hhost
  split_complete h h'.1 h'.2

/-- The other sentences are all rejected: the exception of C02 is exact. -/
theorem C02_split_rejects_bad_host (pl : Plat) (sv : SV) (p : Parts Str) (h : Abnf.URIDerives sv.chars p)
    (hhost : ¬ (Abnf.HostOk p ∧ Abnf.PathCounted p)) : split pl sv = .ok none := by
  cases e : split pl sv with
  | error f => exact absurd (split_fault e).2 (not_unsafe (ascii_reference (Or.inl h)))
  | ok o =>
    cases o with
    | none => rfl
    | some q =>
      have h1 := split_spec e
      have := derives_unique (Or.inl h) (Or.inl h1.1)
      subst this
      exact absurd ⟨h1.2.1, split_counted e⟩ hhost

/-- Texts that are not sentences of `URI` are rejected (unless a `<cctype>` call is undefined). -/
theorem C02_split_rejects (pl : Plat) (sv : SV) (h : ¬ Abnf.URI sv.chars) (hs : CtypeSafe pl sv.chars) :
    split pl sv = .ok none := by
  cases e : split pl sv with
  | error f => exact absurd (split_fault e).2 (not_unsafe_of_safe hs)
  | ok o =>
    cases o with
    | none => rfl
    | some q => exact absurd (C01_split_sound pl sv q e).1 h

theorem digit_lang (c : UInt8) (h1 : 0x30 ≤ c.toNat) (h2 : c.toNat ≤ 0x39) : Abnf.decOctet [c] :=
  Or.inl ⟨c, rfl, h1, h2⟩

theorem flatten_singletons (s : Str) : s = (s.map ([·])).flatten := by
  induction s with
  | nil => rfl
  | cons c s ih => simp only [List.map_cons, List.flatten_cons, List.singleton_append, ← ih]

theorem regName_of (s : Str) (h : ∀ c ∈ s, isRegChar c = true) : Abnf.regName s :=
  ⟨s.map ([·]), flatten_singletons s, by
    intro e he
    obtain ⟨c, hc, rfl⟩ := List.mem_map.1 he
    exact (reg_elem _).2 (Or.inl ⟨c, rfl, h c hc⟩), by simp, by simp⟩

/-- The unrestricted C02 is false of the code: `http://1.2.3.4.com/` is a sentence of `URI`
(its host is a reg-name) that `split` rejects. -/
theorem C02_counterexample : Abnf.URI (b! "http://1.2.3.4.com/") ∧ split x86 ⟨4096, b! "http://1.2.3.4.com/"⟩ = .ok none := by
  refine ⟨URI_lang.2 ⟨⟨some (b! "http"), some ⟨none, b! "1.2.3.4.com", none⟩, ⟨true, [[]]⟩, none, none⟩, b! "http",
    b! "//1.2.3.4.com/", rfl, ?_, ?_, by simp, by simp, rfl⟩, by decide +kernel⟩
  · exact (field_scheme x86).sound ⟨0, _⟩ (by decide +kernel)
  · exact .abempty ⟨none, b! "1.2.3.4.com", none⟩ [[]] ⟨by simp, Or.inr (Or.inr (regName_of _ (by decide))), by simp⟩
      (by intro g hg; simp at hg; subst hg; exact ⟨[], rfl, by simp, by simp, by simp⟩)

/-- The other exception of C02: `s:` and then `n` times `a`, `n` a positive multiple of 2^32, is a sentence of `URI`,
and rejected. -/
theorem C02_count_counterexample (pl : Plat) (ptr n : Nat) (h0 : 0 < n) (hn : n % 2 ^ 32 = 0) :
    Abnf.URI (b! "s:" ++ List.replicate n (0x61 : UInt8)) ∧
      split pl ⟨ptr, b! "s:" ++ List.replicate n (0x61 : UInt8)⟩ = .ok none := by
  have hseg : Abnf.segmentNz (List.replicate n 0x61) := by
    refine ⟨List.replicate n [0x61], by simp, fun e he => ?_, by simp only [List.length_replicate]; omega, fun b hb => ?_⟩
    · rw [(List.mem_replicate.1 he).2]
      exact (pchar_elem _).2 (Or.inl ⟨0x61, rfl, by decide⟩)
    · cases hb
  have hd : Abnf.URIDerives (b! "s:" ++ List.replicate n 0x61)
      ⟨some (b! "s"), none, ⟨false, [List.replicate n 0x61]⟩, none, none⟩ := by
    refine ⟨b! "s", List.replicate n 0x61, rfl, (field_scheme x86).sound ⟨0, _⟩ (by decide +kernel), ?_, by simp, by simp, by
      simp [Abnf.optText]⟩
    have := Abnf.PartDerives.rootless (first := Abnf.segmentNz) (List.replicate n 0x61) [] hseg (by simp)
    simpa [Abnf.slashes] using this
  refine ⟨URI_lang.2 ⟨_, hd⟩, C02_split_rejects_bad_host pl _ _ hd fun h => ?_⟩
  refine h.2 rfl _ [] rfl (fun e => ?_) ?_
  · have := congrArg List.length e
    simp only [List.length_replicate, List.length_nil] at this
    omega
  · have hu : Abnf.units (List.replicate n (0x61 : UInt8)) = n := by
      simp [Abnf.units, List.count_replicate]
    rw [hu]
    exact hn
/-- There is such an `n`. -/
example : ∃ n : Nat, 0 < n ∧ n % 2 ^ 32 = 0 := ⟨2 ^ 32, by decide, by decide⟩

/-- The hypotheses of C02 hold of a URI with every component, and of an IPv6 host. -/
example : Abnf.URIDerives exView.chars exParts ∧ Abnf.HostOk exParts ∧ Abnf.PathCounted exParts ∧
    exView.chars.length < 2 ^ 32 := by
  obtain ⟨q, e, h⟩ := exSplit
  rw [← h]
  exact ⟨(split_spec e).1, (split_spec e).2.1, split_counted e, by decide⟩
example : ∀ a, exParts.authority = some a → Abnf.IPv4address a.host ∨ ∀ u v, a.host = u ++ v → ¬ Abnf.IPv4address u := by
  rintro a e
  cases e
  refine Or.inr fun u v e hu => ?_
  have h1 : ∀ c ∈ u, isV4Char c = true := only_ipv4 u hu
  cases u with
  | nil =>
    obtain ⟨x, t, hx, e⟩ := ipv4_head hu
    obtain ⟨c, t', rfl, -⟩ := h16_head (decOctet_h16 hx)
    simp at e
  | cons c u =>
    have e' : (0x68 : UInt8) = c := by simpa using (List.cons.inj e).1
    have := h1 c (by simp)
    rw [← e'] at this
    exact absurd this (by decide)
example : ∃ q, split x86 ⟨4096, b! "ldap://[2001:db8::7]/c=GB?one"⟩ = .ok (some q) ∧
    q.text = ⟨some (b! "ldap"), some ⟨none, b! "[2001:db8::7]", none⟩, ⟨true, [b! "c=GB"]⟩, some (b! "one"), none⟩ :=
  run_text (by decide +kernel)

/-! ### C03 -/

/-- C03, soundness. -/
theorem C03_splitReference_sound (pl : Plat) (sv : SV) (q : Parts SV) (e : splitReference pl sv = .ok (some q)) :
    Abnf.URIReference sv.chars ∧ Abnf.ReferenceDerives sv.chars q.text :=
  ⟨reference_lang.2 ⟨_, (splitReference_spec e).1⟩, (splitReference_spec e).1⟩

/-- C03 in full, with the exceptions of C02. -/
theorem C03_splitReference_exact (pl : Plat) (sv : SV) (p : Parts Str) :
    (∃ q, splitReference pl sv = .ok (some q) ∧ q.text = p) ↔
    Abnf.ReferenceDerives sv.chars p ∧ Abnf.HostOk p ∧ Abnf.PathCounted p := by
  constructor
  · rintro ⟨q, e, rfl⟩
    exact ⟨(splitReference_spec e).1, (splitReference_spec e).2.1, splitReference_counted e⟩
  · rintro ⟨h1, h2, h3⟩
    exact splitReference_complete h1 h2 h3

/-- C03, completeness for texts below 4 GiB whose host is a dotted quad or does not begin with one. -/
theorem C03_splitReference_complete (pl : Plat) (sv : SV) (p : Parts Str)
    (h : Abnf.ReferenceDerives sv.chars p) (hlen : sv.chars.length < 2 ^ 32)
    (hhost : ∀ a, p.authority = some a → Abnf.IPv4address a.host ∨ ∀ u v, a.host = u ++ v → ¬ Abnf.IPv4address u) :
    ∃ q, splitReference pl sv = .ok (some q) ∧ q.text = p :=
  have h' := derives_accepted h hlen hhost
  splitReference_complete h h'.1 h'.2

/-- C03: the exception is exact. -/
theorem C03_splitReference_rejects_bad_host (pl : Plat) (sv : SV) (p : Parts Str) (h : Abnf.ReferenceDerives sv.chars p)
    (hhost : ¬ (Abnf.HostOk p ∧ Abnf.PathCounted p)) : splitReference pl sv = .ok none := by
  cases e : splitReference pl sv with
  | error f => exact absurd (splitReference_fault e).2 (not_unsafe (ascii_reference h))
  | ok o =>
    cases o with
    | none => rfl
    | some q =>
      have h1 := splitReference_spec e
      have := derives_unique h h1.1
      subst this
      exact absurd ⟨h1.2.1, splitReference_counted e⟩ hhost

/-- C03: texts that are not references are rejected. -/
theorem C03_splitReference_rejects (pl : Plat) (sv : SV) (h : ¬ Abnf.URIReference sv.chars) (hs : CtypeSafe pl sv.chars) :
    splitReference pl sv = .ok none := by
  cases e : splitReference pl sv with
  | error f => exact absurd (splitReference_fault e).2 (not_unsafe_of_safe hs)
  | ok o =>
    cases o with
    | none => rfl
    | some q => exact absurd (C03_splitReference_sound pl sv q e).1 h

/-- C03: a reference with a scheme is exactly what `split` accepts. -/
theorem C03_reference_with_scheme (pl : Plat) (sv : SV) (q : Parts SV)
    (e : splitReference pl sv = .ok (some q)) :
    (q.scheme ≠ none ↔ ∃ r, split pl sv = .ok (some r)) ∧ (∀ r, split pl sv = .ok (some r) → r.text = q.text) := by
  have h := splitReference_spec e
  refine ⟨⟨?_, ?_⟩, ?_⟩
  · intro hs
    rcases h.1 with h1 | h1
    · obtain ⟨r, hr, -⟩ := split_complete (pl := pl) h1 h.2.1 (splitReference_counted e); exact ⟨r, hr⟩
    · obtain ⟨t, h2, -⟩ := h1
      simp [Parts.text, Parts.map, hs] at h2
  · rintro ⟨r, hr⟩ hn
    have h2 := split_spec hr
    have := derives_unique (Or.inl h2.1) h.1
    obtain ⟨s, t, h3, -⟩ := h2.1
    rw [this] at h3
    simp [Parts.text, Parts.map, hn] at h3
  · intro r hr
    exact derives_unique (Or.inl (split_spec hr).1) h.1

example : ∃ q, splitReference x86 ⟨4096, b! "../g;x=1?y#z"⟩ = .ok (some q) ∧
    q.text = ⟨none, none, ⟨false, [b! "..", b! "g;x=1"]⟩, some (b! "y"), some (b! "z")⟩ :=
  run_text (by decide +kernel)
example : splitReference x86 ⟨4096, b! "a b"⟩ = .ok none := by decide +kernel

/-! ### C04 -/

/-- C04: the components returned are the groups of the regular expression of appendix B, and the
path is cut at exactly its slashes. -/
theorem C04_appendixB (pl : Plat) (sv : SV) (q : Parts SV)
    (e : split pl sv = .ok (some q) ∨ splitReference pl sv = .ok (some q)) :
    AppendixB.parse sv.chars = groupsOf q.text ∧ (∀ g ∈ q.text.path.segments, NoSlash g) ∧
    (∀ a, q.text.authority = some a → (0x40 : UInt8) ∉ a.host ∧ ∀ u, a.userinfo = some u → (0x40 : UInt8) ∉ u) ∧
    (∀ a, q.text.authority = some a → ∀ t, a.port = some t → ∀ c ∈ t, 0x30 ≤ c.toNat ∧ c.toNat ≤ 0x39) := by
  have h : Abnf.ReferenceDerives sv.chars q.text := by
    rcases e with e | e
    · exact Or.inl (split_spec e).1
    · exact (splitReference_spec e).1
  obtain ⟨h1, h2, h3, -⟩ := derives_components h
  refine ⟨appendixB_of_derives h, fun g hg => segment_noSlash (h3 g hg), ?_, ?_⟩
  · intro a ha
    have hh : Abnf.host a.host := by
      rcases h with ⟨_, _, _, _, h, _⟩ | ⟨_, _, h, _⟩ <;> exact (part_authority h a ha).host
    refine ⟨fun hm => ?_, fun u hu hm => ?_⟩
    · have := only_host _ hh _ hm; revert this; decide
    · have := only_userinfo _ (h1 a ha u hu) _ hm; revert this; decide
  · intro a ha t ht c hc
    have := only_port _ (h2 a ha t ht) _ hc
    simpa [isDigitB] using this

/-- C04: the components are a function of the text alone: a text has at most one derivation. -/
theorem C04_unique (s : Str) (p p' : Parts Str) (h : Abnf.ReferenceDerives s p) (h' : Abnf.ReferenceDerives s p') : p = p' :=
  derives_unique h h'

example : AppendixB.parse exView.chars = ⟨some (b! "http"), some (b! "u@h:8"), b! "/a/b", some (b! "q"), some (b! "f")⟩ := by decide +kernel

/-! ### C05 -/

/-- C05: `compose` gives back the text that was parsed. -/
theorem C05_compose_split (pl : Plat) (sv : SV) (q : Parts SV)
    (e : split pl sv = .ok (some q) ∨ splitReference pl sv = .ok (some q)) : compose q = sv.chars := by
  have h : Abnf.ReferenceDerives sv.chars q.text := by
    rcases e with e | e
    · exact Or.inl (split_spec e).1
    · exact (splitReference_spec e).1
  rw [compose_text, recompose_rooted (rooted_of_reference h), recompose_of_derives h]

/-- C05: `compose` is the recomposition of RFC 3986 section 5.3 for every parts value, a path
behind an authority being made absolute first. -/
theorem C05_compose_is_recomposition (p : Parts SV) : compose p = recompose (rooted p.text) := compose_text p

/-! ### C06 -/

/-- C06 for paths of the shape section 3.3 demands (and, beyond 4 GiB, a first segment that is not
miscounted): `split` gives back what was composed. -/
theorem C06_split_compose (pl : Plat) (p : Parts SV) (ptr : Nat) (hv : p.valid pl = .ok true)
    (hs : PathShape p.text) (hc : Abnf.PathCounted p.text) :
    ∃ q, split pl ⟨ptr, compose p⟩ = .ok (some q) ∧ Parts.eq q p = true := by
  obtain ⟨r, h1, h2, h3⟩ := derives_of_components (valid_sound hv) hs
  rw [← compose_text] at h1
  have hc' : Abnf.PathCounted r := by
    intro ha g gs e
    rw [h3.2.1] at ha
    rw [h3.2.2.2.2.1] at e
    exact hc ha g gs e
  obtain ⟨q, h4, rfl⟩ := split_complete (pl := pl) (sv := ⟨ptr, compose p⟩) h1 h2 hc'
  exact ⟨q, h4, partsEq_iff.2 h3⟩

/-- The second condition holds when no segment of the value has 4 GiB. -/
theorem valid_counted {pl : Plat} {p : Parts SV} (hv : p.valid pl = .ok true)
    (hl : ∀ g ∈ p.path.segments, g.chars.length < 2 ^ 32) : Abnf.PathCounted p.text := by
  refine pathCounted_of_short fun g hg => ⟨(valid_sound hv).path g hg, ?_⟩
  simp only [Parts.text, Parts.map, Path.map, List.mem_map] at hg
  obtain ⟨v, hv, rfl⟩ := hg
  exact hl v hv

/-- C06: without that the composed text is never parsed back to an equal value. -/
theorem C06_shape_needed (pl : Plat) (p : Parts SV) (ptr : Nat) (q : Parts SV)
    (e : split pl ⟨ptr, compose p⟩ = .ok (some q)) (h : Parts.eq q p = true) :
    PathShape p.text ∧ Abnf.PathCounted p.text := by
  have h1 := derives_shape (Or.inl (split_spec e).1)
  have h1' := split_counted e
  obtain ⟨-, h2, -, -, h5, h6⟩ := partsEq_iff.1 h
  constructor
  · intro hA
    have hA' := h2.trans hA
    have := h1 hA'
    rw [h5, h6 hA'] at this
    exact this
  · intro hA g gs e
    exact h1' (h2.trans hA) g gs (h5.trans e)

/-- C06 in full: the exact condition under which `split` undoes `compose`. -/
theorem C06_split_compose_exact (pl : Plat) (p : Parts SV) (ptr : Nat) (hv : p.valid pl = .ok true) :
    (∃ q, split pl ⟨ptr, compose p⟩ = .ok (some q) ∧ Parts.eq q p = true) ↔
    PathShape p.text ∧ Abnf.PathCounted p.text :=
  ⟨fun ⟨q, e, h⟩ => C06_shape_needed pl p ptr q e h, fun h => C06_split_compose pl p ptr hv h.1 h.2⟩

/-- A view of a text, at any address. -/
def vw (s : Str) : SV := ⟨4096, s⟩

/-- The unrestricted C06 is false of the code: a valid value whose composition is rejected. -/
theorem C06_counterexample :
    let p : Parts SV := ⟨some (vw (b! "s")), none, ⟨true, [vw [], vw (b! "a:b:c")]⟩, none, none⟩
    p.valid x86 = .ok true ∧ split x86 ⟨4096, compose p⟩ = .ok none := by decide +kernel

/-- Hypotheses of C06 met: an authority with a path, and a rootless path. -/
example : (⟨some (vw (b! "s")), some ⟨none, vw (b! "h"), none⟩, ⟨false, [vw (b! "a"), vw []]⟩, none, none⟩ : Parts SV).valid x86
    = .ok true := by decide +kernel
example : PathShape (⟨some (vw (b! "s")), none, ⟨false, [vw (b! "a:b"), vw []]⟩, none, none⟩ : Parts SV).text := by
  simp [PathShape, Parts.text, Parts.map, Path.map, vw]

/-! ### C07 -/

/-- C07: what `split` returns is `valid ()`. -/
theorem C07_split_valid (pl : Plat) (sv : SV) (q : Parts SV)
    (e : split pl sv = .ok (some q)) : q.valid pl = .ok true := by
  have h := split_spec e
  refine valid_complete (derives_componentsOk (Or.inl h.1) h.2.1 ?_)
  obtain ⟨s, t, h1, -⟩ := h.1
  rw [h1]; simp

/-- C07: a parsed reference is valid exactly if it has a scheme. -/
theorem C07_splitReference_valid (pl : Plat) (sv : SV) (q : Parts SV)
    (e : splitReference pl sv = .ok (some q)) : q.valid pl = .ok q.scheme.isSome := by
  have h := splitReference_spec e
  cases hs : q.scheme with
  | none => rw [valid_chk, hs]; rfl
  | some s =>
    refine valid_complete (derives_componentsOk h.1 h.2.1 ?_)
    simp [Parts.text, Parts.map, hs]

example : ∃ q, split arm exView = .ok (some q) ∧ q.valid arm = .ok true := by
  obtain ⟨q, e, -⟩ := run_text (x := split arm exView) (p := exParts) (by decide +kernel)
  exact ⟨q, e, C07_split_valid arm exView q e⟩

/-! ### C08 -/

/-- C08: every view returned is a sub-range of the input with the bytes found there, except the
segment of the path `/` of a URI without authority, which is a default-constructed (null, empty)
view. -/
theorem C08_views_alias_input (pl : Plat) (sv : SV) (q : Parts SV)
    (e : split pl sv = .ok (some q) ∨ splitReference pl sv = .ok (some q)) :
    ∀ v ∈ q.views, SubView v sv ∨ (v = ⟨0, []⟩ ∧ q.authority = none ∧ q.path = ⟨true, [⟨0, []⟩]⟩) := by
  rcases e with e | e
  · exact (split_spec e).2.2
  · exact (splitReference_spec e).2.2

/-- The exception happens. -/
example : splitReference x86 ⟨4096, b! "/"⟩ = .ok (some ⟨none, none, ⟨true, [⟨0, []⟩]⟩, none, none⟩) := by decide +kernel
example : split x86 exView = .ok (some ⟨some ⟨4096, b! "http"⟩,
    some ⟨some ⟨4103, b! "u"⟩, ⟨4105, b! "h"⟩, some ⟨4107, b! "8"⟩⟩, ⟨true, [⟨4109, b! "a"⟩, ⟨4111, b! "b"⟩]⟩,
    some ⟨4113, b! "q"⟩, some ⟨4115, b! "f"⟩⟩) := by decide +kernel

/-! ### C09 -/

/-- C09: the only way parsing can go wrong is a `<cctype>` call on a negative value, and that
needs a byte from 0x80 up on a platform with signed `char`.  In particular no access out of
range, no `back ()` of an empty vector, and termination, for every input. -/
theorem C09_parse_faults (pl : Plat) (sv : SV) (f : Fault)
    (e : split pl sv = .error f ∨ splitReference pl sv = .error f) :
    f = .ctype ∧ pl.charSigned = true ∧ ∃ c ∈ sv.chars, 0x80 ≤ c.toNat := by
  have : f = .ctype ∧ Unsafe pl sv.chars := by
    rcases e with e | e
    · exact split_fault e
    · exact splitReference_fault e
  obtain ⟨h1, c, hc, h2⟩ := this
  simp only [ctypeOk, Bool.or_eq_false_iff, Bool.not_eq_false', decide_eq_false_iff_not] at h2
  exact ⟨h1, h2.1.1, c, hc, by omega⟩

/-- C09 for `valid`. -/
theorem C09_valid_faults (pl : Plat) (p : Parts SV) (f : Fault) (e : p.valid pl = .error f) :
    f = .ctype ∧ pl.charSigned = true ∧ ∃ v ∈ p.views, ∃ c ∈ v.chars, 0x80 ≤ c.toNat := by
  obtain ⟨h1, v, hv, c, hc, h2⟩ := valid_fault e
  simp only [ctypeOk, Bool.or_eq_false_iff, Bool.not_eq_false', decide_eq_false_iff_not] at h2
  exact ⟨h1, h2.1.1, v, hv, c, hc, by omega⟩

/-- C09, positive form: with unsigned `char` or 7-bit text every call returns. -/
theorem C09_defined (pl : Plat) (sv : SV) (h : CtypeSafe pl sv.chars) :
    (∃ o, split pl sv = .ok o) ∧ (∃ o, splitReference pl sv = .ok o) := by
  constructor
  · cases e : split pl sv with
    | ok o => exact ⟨o, rfl⟩
    | error f => exact absurd (split_fault e).2 (not_unsafe_of_safe h)
  · cases e : splitReference pl sv with
    | ok o => exact ⟨o, rfl⟩
    | error f => exact absurd (splitReference_fault e).2 (not_unsafe_of_safe h)

/-- The unrestricted C09 is false of the code: an UTF-8 `é` in the path, signed `char`. -/
theorem C09_counterexample : split x86 ⟨4096, b! "http://h/" ++ [0xC3, 0xA9]⟩ = .error .ctype := by decide +kernel
example : split arm ⟨4096, b! "http://h/" ++ [0xC3, 0xA9]⟩ = .ok none := by decide +kernel

/-! ### C12 -/

/-- C12, for hosts of any length: a bracketed host is accepted iff it is an IP-literal (and, if it is
an `IPvFuture`, does not have a `1*` repetition of `k * 2^32` characters). -/
theorem C12_bracketed_host_exact (pl : Plat) (h : SV) (hb : h.chars.head? = some 0x5B) :
    (Authority.mk none h none).valid pl = .ok true ↔ Abnf.IPLiteral h.chars ∧ Abnf.FutureCounted h.chars := by
  constructor
  · intro e
    rcases (authority_valid_sound e).2.1 with h1 | h1 | h1
    · exact h1
    · cases hx : (Authority.map SV.chars (Authority.mk none h none)).host with
      | nil => rw [hx] at h1; have : h.chars = [] := hx; simp [this] at hb
      | cons c t =>
        have hc : h.chars = c :: t := hx
        rw [hc] at hb; simp at hb; subst hb
        rw [hx] at h1
        have := only_ipv4 _ h1 0x5B (by simp); exact absurd this (by decide)
    · cases hx : (Authority.map SV.chars (Authority.mk none h none)).host with
      | nil => rw [hx] at h1; have : h.chars = [] := hx; simp [this] at hb
      | cons c t =>
        have hc : h.chars = c :: t := hx
        rw [hc] at hb; simp at hb; subst hb
        rw [hx] at h1
        have := only_regName _ h1.1 0x5B (by simp); exact absurd this (by decide)
  · intro e
    exact authority_valid_complete (by simp [Authority.map]) (Or.inl e) (by simp [Authority.map])

/-- C12: a bracketed host is accepted iff it is an IP-literal. -/
theorem C12_bracketed_host (pl : Plat) (h : SV) (hb : h.chars.head? = some 0x5B) (hlen : h.chars.length < 2 ^ 32) :
    (Authority.mk none h none).valid pl = .ok true ↔ Abnf.IPLiteral h.chars :=
  (C12_bracketed_host_exact pl h hb).trans ⟨And.left, fun e => ⟨e, futureCounted_of_short hlen e⟩⟩

/-- C12: the IPv4 matcher accepts exactly the dotted quads of dec-octets. -/
theorem C12_ipv4 (pl : Plat) (h : SV) :
    fieldOk (Grammar.ipv4address pl) h = .ok true ↔ Abnf.IPv4address h.chars :=
  ⟨(field_ipv4 pl).sound h, fun e => (field_ipv4 pl).complete' (only_mono only_ipv4 (by byte_tac)) e⟩

/-- The bytes of the decimal representation of a number, most significant digit first. -/
def decimal (n : Nat) : Str :=
  if n < 10 then [UInt8.ofNat (0x30 + n)]
  else if n < 100 then [UInt8.ofNat (0x30 + n / 10), UInt8.ofNat (0x30 + n % 10)]
  else [UInt8.ofNat (0x30 + n / 100), UInt8.ofNat (0x30 + n / 10 % 10), UInt8.ofNat (0x30 + n % 10)]

theorem digit_byte {c : UInt8} {a b : Nat} (h1 : a ≤ c.toNat) (h2 : c.toNat ≤ b) (ha : 0x30 ≤ a) (hb : b ≤ 0x39) :
    ∃ k, k < 10 ∧ a ≤ 0x30 + k ∧ 0x30 + k ≤ b ∧ c = UInt8.ofNat (0x30 + k) :=
  ⟨c.toNat - 0x30, by omega, by omega, by omega, by
    rw [show 0x30 + (c.toNat - 0x30) = c.toNat by omega]; simp⟩

/-- C12: dec-octets are the decimal numbers up to 255 without leading zeros. -/
theorem C12_decOctet (s : Str) : Abnf.decOctet s ↔ ∃ n, n < 256 ∧ s = decimal n := by
  constructor
  · rintro (⟨c, rfl, h1, h2⟩ | ⟨_, _, rfl, ⟨c, rfl, h1, h2⟩, d, rfl, h3, h4⟩ | ⟨_, _, rfl, rfl, h⟩ |
      ⟨_, _, rfl, rfl, _, _, rfl, ⟨c, rfl, h1, h2⟩, d, rfl, h3, h4⟩ | ⟨_, _, rfl, rfl, c, rfl, h1, h2⟩)
    · obtain ⟨k, hk, -, -, rfl⟩ := digit_byte h1 h2 (by decide) (by decide)
      exact ⟨k, by omega, by simp [decimal, hk]⟩
    · obtain ⟨k, hk, h5, -, rfl⟩ := digit_byte h1 h2 (by decide) (by decide)
      obtain ⟨j, hj, -, -, rfl⟩ := digit_byte h3 h4 (by decide) (by decide)
      refine ⟨k * 10 + j, by omega, ?_⟩
      have a1 : ¬ k * 10 + j < 10 := by omega
      have a2 : k * 10 + j < 100 := by omega
      have a3 : (k * 10 + j) / 10 = k := by omega
      have a4 : (k * 10 + j) % 10 = j := by omega
      simp [decimal, a1, a2, a3, a4]
    · obtain ⟨es, rfl, h1, h2, h3⟩ := h
      have h3 := h3 2 rfl
      match es, h2, h3 with
      | [x, y], _, _ =>
        obtain ⟨c, rfl, h4, h5⟩ := h1 x (by simp)
        obtain ⟨d, rfl, h6, h7⟩ := h1 y (by simp)
        obtain ⟨k, hk, -, -, rfl⟩ := digit_byte h4 h5 (by decide) (by decide)
        obtain ⟨j, hj, -, -, rfl⟩ := digit_byte h6 h7 (by decide) (by decide)
        refine ⟨100 + k * 10 + j, by omega, ?_⟩
        have a1 : ¬ 100 + k * 10 + j < 10 := by omega
        have a2 : ¬ 100 + k * 10 + j < 100 := by omega
        have a3 : (100 + k * 10 + j) / 10 % 10 = k := by omega
        have a4 : (100 + k * 10 + j) % 10 = j := by omega
        have a5 : (100 + k * 10 + j) / 100 = 1 := by omega
        simp [decimal, a1, a2, a3, a4, a5]
    · obtain ⟨k, hk, h5, h5', rfl⟩ := digit_byte h1 h2 (by decide) (by decide)
      obtain ⟨j, hj, -, -, rfl⟩ := digit_byte h3 h4 (by decide) (by decide)
      refine ⟨200 + k * 10 + j, by omega, ?_⟩
      have a1 : ¬ 200 + k * 10 + j < 10 := by omega
      have a2 : ¬ 200 + k * 10 + j < 100 := by omega
      have a3 : (200 + k * 10 + j) / 10 % 10 = k := by omega
      have a4 : (200 + k * 10 + j) % 10 = j := by omega
      have a5 : (200 + k * 10 + j) / 100 = 2 := by omega
      simp [decimal, a1, a2, a3, a4, a5]
    · obtain ⟨j, hj, h5, h5', rfl⟩ := digit_byte h1 h2 (by decide) (by decide)
      refine ⟨250 + j, by omega, ?_⟩
      have a1 : ¬ 250 + j < 10 := by omega
      have a2 : ¬ 250 + j < 100 := by omega
      have a3 : (250 + j) / 10 % 10 = 5 := by omega
      have a4 : (250 + j) % 10 = j := by omega
      have a5 : (250 + j) / 100 = 2 := by omega
      simp [decimal, a1, a2, a3, a4, a5]
  · rintro ⟨n, hn, rfl⟩
    have b : ∀ k, k < 10 → (UInt8.ofNat (0x30 + k)).toNat = 0x30 + k := by
      intro k hk; simp; omega
    have d : ∀ k, k < 10 → Abnf.DIGIT [UInt8.ofNat (0x30 + k)] := by
      intro k hk; exact ⟨_, rfl, by rw [b k hk]; omega, by rw [b k hk]; omega⟩
    simp only [decimal]
    split
    · exact Or.inl (d n (by omega))
    · split
      · refine Or.inr (Or.inl ⟨[_], [_], rfl, ⟨_, rfl, ?_, ?_⟩, d _ (by omega)⟩)
        · rw [b _ (by omega)]; omega
        · rw [b _ (by omega)]; omega
      · by_cases h2 : n < 200
        · refine Or.inr (Or.inr (Or.inl ⟨[_], [_, _], rfl, ?_, [[_], [_]], rfl, ?_, by simp, by simp⟩))
          · have : n / 100 = 1 := by omega
            rw [this]; rfl
          · intro e he
            simp only [List.mem_cons, List.not_mem_nil, or_false] at he
            rcases he with rfl | rfl
            · exact d _ (by omega)
            · exact d _ (by omega)
        · have e2 : n / 100 = 2 := by omega
          rw [e2]
          by_cases h3 : n < 250
          · refine Or.inr (Or.inr (Or.inr (Or.inl ⟨[_], [_, _], rfl, rfl, [_], [_], rfl, ⟨_, rfl, ?_, ?_⟩, d _ (by omega)⟩)))
            · rw [b _ (by omega)]; omega
            · rw [b _ (by omega)]; omega
          · have e5 : n / 10 % 10 = 5 := by omega
            rw [e5]
            refine Or.inr (Or.inr (Or.inr (Or.inr ⟨[_, _], [_], rfl, rfl, ⟨_, rfl, ?_, ?_⟩⟩)))
            · rw [b _ (by omega)]; omega
            · rw [b _ (by omega)]; omega

example : (Authority.mk none (vw (b! "[1:2::255.0.1.2]")) none).valid x86 = .ok true := by decide +kernel
example : (Authority.mk none (vw (b! "[1:2:3:4:5:6:7:8:9]")) none).valid x86 = .ok false := by decide +kernel
example : fieldOk (Grammar.ipv4address x86) (vw (b! "1.2.3.256")) = .ok false := by decide +kernel

/-! ### C13 -/

/-- C13, soundness: a valid value has a scheme, and every component is a sentence of its rule. -/
theorem C13_valid_sound (pl : Plat) (p : Parts SV) (h : p.valid pl = .ok true) : ComponentsOk p.text := valid_sound h

/-- C13, completeness. -/
theorem C13_valid_complete (pl : Plat) (p : Parts SV) (h : ComponentsOk p.text) : p.valid pl = .ok true := valid_complete h

/-- C13 for invalid values: the answer is `false`. -/
theorem C13_invalid (pl : Plat) (p : Parts SV) (h : ¬ ComponentsOk p.text) (hs : ∀ v ∈ p.views, CtypeSafe pl v.chars) :
    p.valid pl = .ok false := by
  cases e : p.valid pl with
  | error f =>
    obtain ⟨-, v, hv, h2⟩ := valid_fault e
    exact absurd h2 (not_unsafe_of_safe (hs v hv))
  | ok b =>
    cases b with
    | false => rfl
    | true => exact absurd (valid_sound e) h

example : (⟨some (vw (b! "s")), none, ⟨false, [vw (b! "a/b")]⟩, none, none⟩ : Parts SV).valid x86 = .ok false := by decide +kernel

/-! ### C14 -/

/-- C14: `operator==` is equality of the components (the absolute flag only matters without an
authority). -/
theorem C14_eq_spec (p q : Parts SV) : Parts.eq p q = true ↔ SameComponents p.text q.text := partsEq_iff

/-- C14: it is an equivalence. -/
theorem C14_equivalence : (∀ p : Parts SV, Parts.eq p p = true) ∧
    (∀ p q : Parts SV, Parts.eq p q = true → Parts.eq q p = true) ∧
    (∀ p q r : Parts SV, Parts.eq p q = true → Parts.eq q r = true → Parts.eq p r = true) := by
  refine ⟨fun p => partsEq_iff.2 ⟨rfl, rfl, rfl, rfl, rfl, fun _ => rfl⟩, fun p q h => ?_, fun p q r h h' => ?_⟩
  · exact partsEq_iff.2 (sameComponents_symm (partsEq_iff.1 h))
  · exact partsEq_iff.2 (sameComponents_trans (partsEq_iff.1 h) (partsEq_iff.1 h'))

/-- C14: equal values compose to the same text. -/
theorem C14_compose_congr (p q : Parts SV) (h : Parts.eq p q = true) : compose p = compose q := by
  rw [compose_text, compose_text, sameComponents_compose (partsEq_iff.1 h)]

/-- Two different values that compare equal. -/
example : Parts.eq ⟨some (vw (b! "s")), some ⟨none, vw (b! "h"), none⟩, ⟨false, [vw (b! "a")]⟩, none, none⟩
    ⟨some ⟨7, b! "s"⟩, some ⟨none, vw (b! "h"), none⟩, ⟨true, [vw (b! "a")]⟩, none, none⟩ = true := by decide +kernel

end Verif
