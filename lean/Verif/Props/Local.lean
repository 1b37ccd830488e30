import Verif.Props.Begins
import Verif.Props.Depends
import Verif.Props.Composed

/-!
# Property C117: which references stay on the server of the base
-/

namespace Verif
set_option linter.unusedSimpArgs false

/-! ### Specification -/

/-- The text does not begin with two slashes, and has no colon before its first `/`, `?` or `#`. -/
def StaysOnServer (t : Str) : Prop := ¬ b! "//" <+: t ∧ (0x3A : UInt8) ∉ beforeSlash t

/-! ### Proofs -/

theorem beforeSlash_of {u v : Str} (hu : ∀ c ∈ u, ends c = false) (hv : ∀ c, v.head? = some c → ends c = true) : beforeSlash (u ++ v) = u :=
  (takeWhile_stop (f := fun c => !oneOf (b! "/?#") c) (u := u) (v := v) (fun c hc => by have := hu c hc; simpa [ends] using this)
    (fun c hc => by have := hv c hc; simpa [ends] using this)).1

theorem uri_colon {s : Str} {p : Parts Str} (d : Abnf.URIDerives s p) : (0x3A : UInt8) ∈ beforeSlash s := by
  obtain ⟨sch, t, h1, h2, h3, h4, h5, rfl⟩ := d
  have hs : ∀ c ∈ sch ++ b! ":", ends c = false := by
    intro c hc
    rcases List.mem_append.1 hc with hc | hc
    · have := only_scheme sch h2 c hc
      exact (of_decide_eq_true (forall_byte (P := fun c => decide (isSchemeChar c = true → ends c = false)) (by decide +kernel) c)) this
    · exact (by decide : ∀ c ∈ b! ":", ends c = false) c hc
  unfold beforeSlash
  simp only [List.append_assoc]
  rw [← List.append_assoc, List.takeWhile_append_of_pos (fun c hc => by have := hs c hc; simpa [ends] using this)]
  simp

theorem rel_colon {s : Str} {p : Parts Str} (d : Abnf.RelativeDerives s p) : (0x3A : UInt8) ∉ beforeSlash s := by
  obtain ⟨sc, A, P, q, f⟩ := p
  obtain ⟨t, h1, h3, h4, h5, rfl⟩ := d
  simp only at h1 h3 h4 h5 ⊢
  have sl : ∀ v : Str, beforeSlash (0x2F :: v) = [] := fun v => by simp [beforeSlash, oneOf]
  cases h3 with
  | abempty a gs ha hgs => simp [sl]
  | root => simp [sl]
  | absolute g gs hg hgs => simp [sl]
  | rootless g gs hg hgs =>
    have := beforeSlash_of (u := g) (v := Abnf.slashes gs ++ Abnf.optText (b! "?") q ++ Abnf.optText (b! "#") f)
      (segment_ends (segmentNzNc_segment hg)) tail_head
    simp only [List.append_assoc] at this ⊢
    rw [this]
    exact segmentNzNc_no_colon hg
  | empty =>
    have := beforeSlash_of (u := []) (v := Abnf.slashes [] ++ Abnf.optText (b! "?") q ++ Abnf.optText (b! "#") f) (by simp) tail_head
    simp only [Abnf.slashes, List.map_nil, List.flatten_nil, List.nil_append] at this ⊢
    rw [this]; simp

theorem rel_slashes {s : Str} {p : Parts Str} (d : Abnf.RelativeDerives s p) : b! "//" <+: s ↔ p.authority ≠ none := by
  have hr : Readers.Habits.Reasonable ⟨b! "/?#", false, false⟩ := ⟨fun c h => h, fun c h => Or.inl h⟩
  have h := Readers.relative_read d hr
  constructor
  · rintro ⟨x, rfl⟩ h0
    rw [h0] at h
    simp [Readers.behindSlashes] at h
  · intro hA
    have : Readers.behindSlashes s ≠ none := by
      intro h0
      rw [h0] at h
      exact hA (by simpa using h.symm)
    match s, this with
    | 0x2F :: 0x2F :: t, _ => exact ⟨t, rfl⟩
    | [], h => exact absurd rfl h
    | [c], h => exact absurd (by unfold Readers.behindSlashes; split <;> simp_all) h
    | c :: d :: t, h =>
      unfold Readers.behindSlashes at h
      split at h
      · rename_i e; cases e; exact ⟨_, rfl⟩
      · exact absurd rfl h

theorem staysOnServer_iff {pl : Plat} {ref : SV} {r : Parts SV} (e : splitReference pl ref = .ok (some r)) :
    StaysOnServer ref.chars ↔ r.scheme = none ∧ r.authority = none := by
  have ts : r.text.scheme = r.scheme.map SV.chars := rfl
  have ta : r.text.authority = none ↔ r.authority = none := by simp [Parts.text, Parts.map]
  rcases (splitReference_spec e).1 with d | d
  · constructor
    · intro h; exact absurd (uri_colon d) h.2
    · rintro ⟨h, -⟩
      obtain ⟨sch, t, h1, _⟩ := d
      rw [ts, h] at h1; simp at h1
  · have h0 : r.scheme = none := by
      obtain ⟨t, h1, _⟩ := d
      rw [ts] at h1; simpa using h1
    constructor
    · intro h
      refine ⟨h0, ta.1 ?_⟩
      apply Classical.byContradiction
      intro hA
      exact h.1 ((rel_slashes d).2 hA)
    · rintro ⟨-, hA⟩
      exact ⟨fun h => (rel_slashes d).1 h (ta.2 hA), rel_colon d⟩

theorem join_keeps {b r : Parts SV} {strict : Bool} (h1 : r.scheme = none) (h2 : r.authority = none) :
    (join b r strict).scheme = b.scheme ∧ (join b r strict).authority = b.authority := by
  have : (if (!strict && optEq SV.eq r.scheme b.scheme) = true then none else r.scheme) = none := by rw [h1]; split <;> rfl
  simp only [join, this, h2]
  split
  · exact ⟨rfl, rfl⟩
  · split <;> exact ⟨rfl, rfl⟩

theorem joinStr_parts {pl : Plat} {base ref : SV} {strict : Bool} {b r : Parts SV} (hb : split pl base = .ok (some b))
    (hr : splitReference pl ref = .ok (some r)) : joinStr pl base ref strict = .ok (some (join b r strict)) := by
  rw [joinStr, hb]
  simp only [bind, Except.bind]
  rw [hr]
  rfl

theorem joinStr_reads {pl : Plat} {base ref : SV} {strict : Bool} {b q : Parts SV} (hb : split pl base = .ok (some b))
    (hq : joinStr pl base ref strict = .ok (some q)) : ∃ r, splitReference pl ref = .ok (some r) ∧ q = join b r strict := by
  rw [joinStr, hb] at hq
  simp only [bind, Except.bind] at hq
  cases hr : splitReference pl ref with
  | error e => rw [hr] at hq; cases hq
  | ok x =>
    rw [hr] at hq
    cases x with
    | none => cases hq
    | some r => cases hq; exact ⟨r, rfl, rfl⟩

/-! ### The property -/

/-- **C117**: a reference that does not begin with two slashes and has no colon before its first `/`, `?` or `#` resolves to the scheme and authority of the base,
whatever the base. -/
theorem C117_stays (pl : Plat) (base ref : SV) (strict : Bool) (b q : Parts SV) (hb : split pl base = .ok (some b))
    (hq : joinStr pl base ref strict = .ok (some q)) (h : StaysOnServer ref.chars) : q.scheme = b.scheme ∧ q.authority = b.authority := by
  obtain ⟨r, hr, rfl⟩ := joinStr_reads hb hq
  obtain ⟨h1, h2⟩ := (staysOnServer_iff hr).1 h
  exact join_keeps h1 h2

/-- **C117**: and of the references that are accepted only these do so with every base. -/
theorem C117_exact (pl : Plat) (ref : SV) (strict : Bool) (r : Parts SV) (hr : splitReference pl ref = .ok (some r)) : StaysOnServer ref.chars ↔
    ∀ (base : SV) (b q : Parts SV), split pl base = .ok (some b) → joinStr pl base ref strict = .ok (some q) →
      q.text.scheme = b.text.scheme ∧ q.text.authority = b.text.authority := by
  constructor
  · intro h base b q hb hq
    obtain ⟨h1, h2⟩ := C117_stays pl base ref strict b q hb hq h
    have e1 : ∀ p : Parts SV, p.text.scheme = p.scheme.map SV.chars := fun _ => rfl
    have e2 : ∀ p : Parts SV, p.text.authority = p.authority.map (Authority.map SV.chars) := fun _ => rfl
    rw [e1, e1, e2, e2, h1, h2]; exact ⟨rfl, rfl⟩
  · intro h
    rw [staysOnServer_iff hr]
    have bases : ∀ x ∈ [b! "s://x", b! "s://y", b! "t://x"], (split pl ⟨0, x⟩).map (·.map fun p => (p.text.scheme, p.text.authority)) =
        .ok (some (some (x.take 1), some ⟨none, x.drop 4, none⟩)) := by
      intro x hx
      simp only [List.mem_cons, List.not_mem_nil, or_false] at hx
      rcases hx with rfl | rfl | rfl <;> (obtain ⟨c⟩ := pl; cases c <;> decide +kernel)
    have get : ∀ x ∈ [b! "s://x", b! "s://y", b! "t://x"], ∃ b, split pl ⟨0, x⟩ = .ok (some b) ∧ b.text.scheme = some (x.take 1) ∧ b.text.authority = some ⟨none, x.drop 4, none⟩ := by
      intro x hx
      have := bases x hx
      cases e : split pl ⟨0, x⟩ with
      | error e' => rw [e] at this; cases this
      | ok o =>
        rw [e] at this
        cases o with
        | none => simp [Except.map] at this
        | some b => simp [Except.map] at this; exact ⟨b, rfl, this.1, this.2⟩
    have use := fun (x : Str) (b : Parts SV) (hb : split pl ⟨0, x⟩ = .ok (some b)) => h ⟨0, x⟩ b _ hb (joinStr_parts hb hr)
    have hsc : r.scheme = none := by
      cases e : r.scheme with
      | none => rfl
      | some c =>
        exfalso
        have far : ∀ (b : Parts SV), b.text.scheme ≠ some c.chars → (join b r strict).text.scheme = some c.chars := by
          intro b hne
          have : ¬ TakenRelative b r strict := by
            rintro (h0 | ⟨-, h0⟩)
            · rw [e] at h0; cases h0
            · exact hne (by rw [← h0]; simp [Parts.text, Parts.map, e])
          rw [join_absolute this]; simp [Parts.text, Parts.map, e]
        obtain ⟨b1, k1, k2, k3⟩ := get (b! "s://x") (by simp)
        obtain ⟨b2, l1, l2, l3⟩ := get (b! "t://x") (by simp)
        by_cases hc : c.chars = b! "s"
        · have hn : b2.text.scheme ≠ some c.chars := by rw [l2, hc]; decide
          have := (use _ _ l1).1
          rw [far b2 hn] at this
          exact hn this.symm
        · have hn : b1.text.scheme ≠ some c.chars := by rw [k2]; intro h; exact hc (Option.some.inj h).symm
          have := (use _ _ k1).1
          rw [far b1 hn] at this
          exact hn this.symm
    refine ⟨hsc, ?_⟩
    cases e : r.authority with
    | none => rfl
    | some a =>
      exfalso
      have far : ∀ b : Parts SV, (join b r strict).text.authority = some (a.map SV.chars) := by
        intro b
        have : (if (!strict && optEq SV.eq r.scheme b.scheme) = true then none else r.scheme) = none := by rw [hsc]; split <;> rfl
        simp only [join, this, e]
        simp [Parts.text, Parts.map]
      obtain ⟨b1, k1, k2, k3⟩ := get (b! "s://x") (by simp)
      obtain ⟨b2, l1, l2, l3⟩ := get (b! "s://y") (by simp)
      have h1 := (use _ _ k1).2
      have h2 := (use _ _ l1).2
      rw [far] at h1 h2
      rw [h1, k3, l3] at h2
      exact absurd h2 (by decide)

/-- **C117**, where tests of the first character err: `//x` begins with a slash, and `a:b` with a letter; `./a:b` and `/\\x` are no such cases (the second is not accepted). -/
theorem C117_counterexample :
    ((joinStr x86 ⟨4096, b! "s://h/"⟩ ⟨8192, b! "//x"⟩ true).map (·.map compose) = .ok (some (b! "s://x"))) ∧
    ((joinStr x86 ⟨4096, b! "s://h/"⟩ ⟨8192, b! "a:b"⟩ true).map (·.map compose) = .ok (some (b! "a:b"))) ∧
    StaysOnServer (b! "./a:b") ∧ ((joinStr x86 ⟨4096, b! "s://h/d/f"⟩ ⟨8192, b! "./a:b"⟩ true).map (·.map compose) = .ok (some (b! "s://h/d/a:b"))) ∧
    splitReference x86 ⟨4096, b! "/\\x"⟩ = .ok none := by
  refine ⟨by decide +kernel, by decide +kernel, ?_, by decide +kernel, by decide +kernel⟩
  unfold StaysOnServer; decide +kernel

end Verif
