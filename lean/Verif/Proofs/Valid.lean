import Verif.Proofs.Views

/-!
# `valid`, `split` and `split_reference` in terms of the specification
-/

namespace Verif

set_option linter.unusedSimpArgs false

theorem authority_valid_sound {pl} {a : Authority SV} (h : a.valid pl = .ok true) :
    (∀ u, (a.map SV.chars).userinfo = some u → Abnf.userinfo u) ∧ Abnf.HostAccepted (a.map SV.chars).host ∧
    (∀ u, (a.map SV.chars).port = some u → Abnf.port u) := by
  rw [authority_valid_chk, chk_true] at h
  exact ⟨optOk_sound (field_userinfo pl) (h _ (by simp)), (field_host pl).sound _ (h _ (by simp)),
    optOk_sound (field_port pl) (h _ (by simp))⟩

theorem authority_valid_complete {pl} {a : Authority SV}
    (h1 : ∀ u, (a.map SV.chars).userinfo = some u → Abnf.userinfo u) (h2 : Abnf.HostAccepted (a.map SV.chars).host)
    (h3 : ∀ u, (a.map SV.chars).port = some u → Abnf.port u) : a.valid pl = .ok true := by
  rw [authority_valid_chk, chk_true]
  intro x hx
  simp only [List.mem_cons, List.not_mem_nil, or_false] at hx
  rcases hx with rfl | rfl | rfl
  · exact optOk_complete (field_userinfo pl) ascii_userinfo h1
  · exact (field_host pl).complete' ascii_host h2
  · exact optOk_complete (field_port pl) ascii_port h3

theorem valid_sound {pl} {p : Parts SV} (h : p.valid pl = .ok true) : ComponentsOk p.text := by
  rw [valid_chk] at h
  obtain ⟨sch, A, P, q, f⟩ := p
  cases sch with
  | none => simp at h
  | some s =>
    simp only [chk_true] at h
    have hA : ∀ a, (Parts.text ⟨some s, A, P, q, f⟩).authority = some a →
        (∀ u, a.userinfo = some u → Abnf.userinfo u) ∧ Abnf.HostAccepted a.host ∧ (∀ u, a.port = some u → Abnf.port u) := by
      intro a ha
      cases A with
      | none => simp [Parts.text, Parts.map] at ha
      | some b =>
        simp only [Parts.text, Parts.map, Option.map_some, Option.some.injEq] at ha
        subst ha
        exact authority_valid_sound (pl := pl) (h (authOk pl (some b)) (by simp))
    refine ⟨⟨s.chars, rfl, (field_scheme pl).sound _ (h _ (by simp))⟩, fun a ha => (hA a ha).1, fun a ha => (hA a ha).2.1,
      fun a ha => (hA a ha).2.2, ?_, optOk_sound (field_query pl) (h _ (by simp)),
      optOk_sound (field_fragment pl) (h _ (by simp))⟩
    have hp := h (Path.valid pl P) (by simp)
    rw [Path.valid, allOk_chk, chk_true] at hp
    intro g hg
    simp only [Parts.text, Parts.map, Path.map, List.mem_map] at hg
    obtain ⟨v, hv, rfl⟩ := hg
    exact (field_segment pl).sound _ (hp _ (List.mem_map_of_mem hv))

theorem valid_complete {pl} {p : Parts SV} (h : ComponentsOk p.text) : p.valid pl = .ok true := by
  rw [valid_chk]
  obtain ⟨sch, A, P, q, f⟩ := p
  obtain ⟨⟨s, h1, h2⟩, hu, hh, hpo, hpa, hq, hf⟩ := h
  cases sch with
  | none => simp [Parts.text, Parts.map] at h1
  | some sv =>
    simp only [Parts.text, Parts.map, Option.map_some, Option.some.injEq] at h1
    subst h1
    simp only [chk_true]
    intro x hx
    simp only [List.mem_cons, List.not_mem_nil, or_false] at hx
    rcases hx with rfl | rfl | rfl | rfl | rfl
    · exact (field_scheme pl).complete' ascii_scheme h2
    · cases A with
      | none => rfl
      | some a => exact authority_valid_complete (hu _ rfl) (hh _ rfl) (hpo _ rfl)
    · rw [Path.valid, allOk_chk, chk_true]
      intro y hy
      obtain ⟨g, hg, rfl⟩ := List.mem_map.1 hy
      refine (field_segment pl).complete' ascii_segment (hpa _ ?_)
      simp only [Parts.text, Parts.map, Path.map]
      exact List.mem_map_of_mem hg
    · exact optOk_complete (field_query pl) ascii_query hq
    · exact optOk_complete (field_fragment pl) ascii_query hf

theorem authority_valid_fault {pl} {a : Authority SV} {e} (h : a.valid pl = .error e) :
    e = .ctype ∧ ∃ v ∈ a.userinfo.toList ++ [a.host] ++ a.port.toList, Unsafe pl v.chars := by
  rw [authority_valid_chk] at h
  obtain ⟨x, hx, hx'⟩ := chk_error h
  simp only [List.mem_cons, List.not_mem_nil, or_false] at hx
  rcases hx with rfl | rfl | rfl
  · obtain ⟨h1, v, hv, h2⟩ := optOk_fault (field_userinfo pl) hx'
    exact ⟨h1, v, by simp at hv; simp [hv], h2⟩
  · have := (field_host pl).fault _ _ hx'
    exact ⟨this.1, a.host, by simp, this.2⟩
  · obtain ⟨h1, v, hv, h2⟩ := optOk_fault (field_port pl) hx'
    exact ⟨h1, v, by simp at hv; simp [hv], h2⟩

theorem valid_fault {pl} {p : Parts SV} {e} (h : p.valid pl = .error e) :
    e = .ctype ∧ ∃ v ∈ p.views, Unsafe pl v.chars := by
  rw [valid_chk] at h
  obtain ⟨sch, A, P, q, f⟩ := p
  cases sch with
  | none => simp at h
  | some sv =>
    simp only [Parts.views, List.mem_append] at h ⊢
    obtain ⟨x, hx, hx'⟩ := chk_error h
    simp only [List.mem_cons, List.not_mem_nil, or_false] at hx
    rcases hx with rfl | rfl | rfl | rfl | rfl
    · have := (field_scheme pl).fault _ _ hx'
      exact ⟨this.1, sv, by simp, this.2⟩
    · cases A with
      | none => simp [authOk, pure, Except.pure] at hx'
      | some a =>
        obtain ⟨h1, v, hv, h2⟩ := authority_valid_fault hx'
        refine ⟨h1, v, ?_, h2⟩
        simp only [List.mem_append] at hv ⊢
        exact Or.inl (Or.inl (Or.inl (Or.inr hv)))
    · rw [Path.valid, allOk_chk] at hx'
      obtain ⟨y, hy, hy'⟩ := chk_error hx'
      obtain ⟨g, hg, rfl⟩ := List.mem_map.1 hy
      have := (field_segment pl).fault _ _ hy'
      exact ⟨this.1, g, by simp [hg], this.2⟩
    · obtain ⟨h1, v, hv, h2⟩ := optOk_fault (field_query pl) hx'
      exact ⟨h1, v, by simp at hv; simp [hv], h2⟩
    · obtain ⟨h1, v, hv, h2⟩ := optOk_fault (field_fragment pl) hx'
      exact ⟨h1, v, by simp at hv; simp [hv], h2⟩

/-! ### `split` -/

theorem split_spec {pl sv q} (e : split pl sv = .ok (some q)) :
    Abnf.URIDerives sv.chars q.text ∧ Abnf.HostOk q.text ∧
    (∀ v ∈ q.views, SubView v sv ∨ (v = SV.null ∧ q.authority = none ∧ q.path = ⟨true, [SV.null]⟩)) := by
  obtain ⟨acc, ⟨p, h1⟩, h2, h3, h4⟩ := runGrammar_sound (PG.den_URI pl) sound_URI e
  rw [runs_UriR h1] at h2
  simp only [Option.some.injEq] at h2
  subst h2
  refine ⟨h1.derives, h1.hostOk, ?_⟩
  intro v hv
  rcases views_uriR (Or.inl h1) h4 v hv with h | h
  · obtain ⟨a, ha, rfl⟩ := List.mem_map.1 h
    exact Or.inl (h3 a ha)
  · exact Or.inr h

theorem split_counted {pl sv q} (e : split pl sv = .ok (some q)) : Abnf.PathCounted q.text := by
  obtain ⟨acc, ⟨p, h1⟩, h2, h3, h4⟩ := runGrammar_sound (PG.den_URI pl) sound_URI e
  rw [runs_UriR h1] at h2
  simp only [Option.some.injEq] at h2
  subst h2
  exact h1.counted

theorem splitReference_counted {pl sv q} (e : splitReference pl sv = .ok (some q)) : Abnf.PathCounted q.text := by
  obtain ⟨acc, ⟨p, h1⟩, h2, h3, h4⟩ := runGrammar_sound (PG.den_URIReference pl) sound_URIReference e
  have h5 : runs (content acc) Parts.init = some p := by
    rcases h1 with h1 | h1
    · exact runs_UriR h1
    · exact runs_RelR h1
  rw [h5] at h2
  simp only [Option.some.injEq] at h2
  subst h2
  rcases h1 with h1 | h1 <;> exact h1.counted

theorem splitReference_spec {pl sv q} (e : splitReference pl sv = .ok (some q)) :
    Abnf.ReferenceDerives sv.chars q.text ∧ Abnf.HostOk q.text ∧
    (∀ v ∈ q.views, SubView v sv ∨ (v = SV.null ∧ q.authority = none ∧ q.path = ⟨true, [SV.null]⟩)) := by
  obtain ⟨acc, ⟨p, h1⟩, h2, h3, h4⟩ := runGrammar_sound (PG.den_URIReference pl) sound_URIReference e
  have h5 : runs (content acc) Parts.init = some p := by
    rcases h1 with h1 | h1
    · exact runs_UriR h1
    · exact runs_RelR h1
  rw [h5] at h2
  simp only [Option.some.injEq] at h2
  subst h2
  refine ⟨?_, ?_, ?_⟩
  · rcases h1 with h1 | h1
    · exact Or.inl h1.derives
    · exact Or.inr h1.derives
  · rcases h1 with h1 | h1 <;> exact h1.hostOk
  intro v hv
  rcases views_uriR h1 h4 v hv with h | h
  · obtain ⟨a, ha, rfl⟩ := List.mem_map.1 h
    exact Or.inl (h3 a ha)
  · exact Or.inr h

theorem split_complete {pl} {sv : SV} {p} (h : Abnf.URIDerives sv.chars p) (ho : Abnf.HostOk p)
    (hc : Abnf.PathCounted p) : ∃ q, split pl sv = .ok (some q) ∧ q.text = p := by
  obtain ⟨a, ha⟩ := UriR.ofDerives h ho hc
  exact runGrammar_complete (PG.den_URI pl) (URI_complete ha) (not_unsafe (ascii_reference (Or.inl h))) (runs_UriR ha)

theorem splitReference_complete {pl} {sv : SV} {p} (h : Abnf.ReferenceDerives sv.chars p) (ho : Abnf.HostOk p)
    (hc : Abnf.PathCounted p) : ∃ q, splitReference pl sv = .ok (some q) ∧ q.text = p := by
  have : ∃ a, (UriR p sv.chars a ∨ RelR p sv.chars a) ∧ runs a Parts.init = some p := by
    rcases h with h | h
    · obtain ⟨a, ha⟩ := UriR.ofDerives h ho hc; exact ⟨a, Or.inl ha, runs_UriR ha⟩
    · obtain ⟨a, ha⟩ := RelR.ofDerives h ho hc; exact ⟨a, Or.inr ha, runs_RelR ha⟩
  obtain ⟨a, ha, hr⟩ := this
  exact runGrammar_complete (PG.den_URIReference pl) (URIReference_complete ha) (not_unsafe (ascii_reference h)) hr

theorem split_fault {pl sv f} (e : split pl sv = .error f) : f = .ctype ∧ Unsafe pl sv.chars :=
  runGrammar_fault (PG.den_URI pl) sound_URI uriR_runs e

theorem splitReference_fault {pl sv f} (e : splitReference pl sv = .error f) : f = .ctype ∧ Unsafe pl sv.chars :=
  runGrammar_fault (PG.den_URIReference pl) sound_URIReference refR_runs e

/-! ### Derivations and components -/

theorem part_hostOk_components {first : Lang} {t A P} (h : Abnf.PartDerives first t A P)
    (hs : ∀ g, first g → Abnf.segment g) : (∀ a, A = some a → Abnf.AuthorityOk a) ∧ ∀ g ∈ P.segments, Abnf.segment g :=
  ⟨part_authority h, part_segments hs h⟩

theorem derives_components {s p} (h : Abnf.ReferenceDerives s p) :
    (∀ a, p.authority = some a → ∀ u, a.userinfo = some u → Abnf.userinfo u) ∧
    (∀ a, p.authority = some a → ∀ t, a.port = some t → Abnf.port t) ∧
    (∀ g ∈ p.path.segments, Abnf.segment g) ∧ (∀ q, p.query = some q → Abnf.query q) ∧
    (∀ f, p.fragment = some f → Abnf.fragment f) ∧ (∀ s, p.scheme = some s → Abnf.scheme s) := by
  rcases h with ⟨sch, t, h1, h2, h3, h4, h5, rfl⟩ | ⟨t, h1, h3, h4, h5, rfl⟩
  · exact ⟨fun a ha => (part_authority h3 a ha).userinfo, fun a ha => (part_authority h3 a ha).port,
      part_segments (fun g => segmentNz_segment) h3, h4, h5, by rw [h1]; rintro _ ⟨⟩; exact h2⟩
  · exact ⟨fun a ha => (part_authority h3 a ha).userinfo, fun a ha => (part_authority h3 a ha).port,
      part_segments (fun g => segmentNzNc_segment) h3, h4, h5, by rw [h1]; simp⟩

theorem derives_componentsOk {s p} (h : Abnf.ReferenceDerives s p) (ho : Abnf.HostOk p) (hs : p.scheme ≠ none) :
    ComponentsOk p := by
  obtain ⟨h1, h2, h3, h4, h5, h6⟩ := derives_components h
  cases hx : p.scheme with
  | none => exact absurd hx hs
  | some s => exact ⟨⟨s, hx, h6 s hx⟩, h1, ho, h2, h3, h4, h5⟩

theorem derives_shape {s p} (h : Abnf.ReferenceDerives s p) : PathShape p := by
  have key : ∀ {first : Lang} {t A P}, (∀ g, first g → g ≠ []) → Abnf.PartDerives first t A P → A = none →
      match P.absolute, P.segments with
      | a, [] => a = false
      | true, g :: gs => g ≠ [] ∨ gs = []
      | false, g :: _ => g ≠ [] := by
    intro first t A P hne h hA
    cases h with
    | abempty => simp at hA
    | root => simp
    | absolute g gs hg _ => exact Or.inl (segmentNz_ne hg)
    | rootless g gs hg _ => exact hne _ hg
    | empty => rfl
  rcases h with ⟨sch, t, h1, h2, h3, h4, h5, rfl⟩ | ⟨t, h1, h3, h4, h5, rfl⟩
  · intro hA; exact key (fun g => segmentNz_ne) h3 hA
  · intro hA; exact key (fun g => segmentNzNc_ne) h3 hA

theorem segmentNz_of {g} (h : Abnf.segment g) (hne : g ≠ []) : Abnf.segmentNz g := by
  obtain ⟨es, rfl, h1, -, -⟩ := h
  refine ⟨es, rfl, h1, ?_, by simp⟩
  cases es with
  | nil => simp at hne
  | cons => simp

/-- Components of the right shape can be put together. -/
theorem derives_of_components {p : Parts Str} (h : ComponentsOk p) (hs : PathShape p) :
    ∃ r, Abnf.URIDerives (recompose (rooted p)) r ∧ Abnf.HostOk r ∧ SameComponents r p := by
  obtain ⟨sch, A, ⟨ab, gs⟩, q, f⟩ := p
  obtain ⟨⟨s, h1, h2⟩, hu, hh, hpo, hpa, hq, hf⟩ := h
  simp only at h1; subst h1
  cases A with
  | some a =>
    refine ⟨⟨some s, some a, ⟨!gs.isEmpty, gs⟩, q, f⟩, ⟨s, _, rfl, h2,
      .abempty a gs ⟨hu a rfl, hostAccepted_host (hh a rfl), hpo a rfl⟩ hpa, hq, hf, ?_⟩, ?_, ?_⟩
    · cases gs <;> cases ab <;> simp [recompose, rooted, pathText, slashes_nil, slashes_cons]
    · exact hh
    · simp [SameComponents]
  | none =>
    have hs := hs rfl
    refine ⟨⟨some s, none, ⟨ab, gs⟩, q, f⟩, ⟨s, pathText ⟨ab, gs⟩, rfl, h2, ?_, hq, hf, ?_⟩, by simp [Abnf.HostOk], by simp [SameComponents]⟩
    · cases gs with
      | nil => cases hs; exact .empty
      | cons g gs =>
        cases ab with
        | true =>
          have hs : g ≠ [] ∨ gs = [] := hs
          by_cases hg : g = []
          · have : gs = [] := by rcases hs with h | h <;> simp_all
            subst hg this
            exact .root
          · have := Abnf.PartDerives.absolute (first := Abnf.segmentNz) g gs (segmentNz_of (hpa g (by simp)) hg)
              (fun x hx => hpa x (by simp [hx]))
            simpa [pathText] using this
        | false =>
          have hs : g ≠ [] := hs
          have := Abnf.PartDerives.rootless (first := Abnf.segmentNz) g gs (segmentNz_of (hpa g (by simp)) hs)
              (fun x hx => hpa x (by simp [hx]))
          simpa [pathText] using this
    · simp [recompose, rooted]

theorem subView_length {v sv : SV} (h : SubView v sv) : v.chars.length ≤ sv.chars.length := by
  obtain ⟨a, b, e, -⟩ := h
  rw [e]; simp; omega

/-! ### `operator==` -/

theorem svEq_iff {a b : SV} : SV.eq a b = true ↔ a.chars = b.chars := by simp [SV.eq]

theorem svEq_iff' : ∀ a b : SV, SV.eq a b = true ↔ SV.chars a = SV.chars b := fun _ _ => svEq_iff

theorem optEq_iff {σ : Type} {τ : Type} {eq : σ → σ → Bool} {f : σ → τ} (h : ∀ a b, eq a b = true ↔ f a = f b) {a b : Option σ} :
    optEq eq a b = true ↔ a.map f = b.map f := by
  cases a <;> cases b <;> simp [optEq, h]

theorem vecEq_iff {σ : Type} {τ : Type} {eq : σ → σ → Bool} {f : σ → τ} (h : ∀ a b, eq a b = true ↔ f a = f b) {a b : List σ} :
    vecEq eq a b = true ↔ a.map f = b.map f := by
  induction a generalizing b with
  | nil => cases b <;> simp [vecEq]
  | cons x a ih => cases b <;> simp [vecEq, h, ih]

theorem authEq_iff {a b : Authority SV} : Authority.eq a b = true ↔ a.map SV.chars = b.map SV.chars := by
  obtain ⟨u, h, p⟩ := a
  obtain ⟨u', h', p'⟩ := b
  simp [Authority.eq, Authority.map, optEq_iff svEq_iff', svEq_iff, and_assoc]

theorem pathEq_iff {a b : Path SV} : Path.eq a b = true ↔ a.map SV.chars = b.map SV.chars := by
  obtain ⟨u, h⟩ := a
  obtain ⟨u', h'⟩ := b
  simp [Path.eq, Path.map, vecEq_iff svEq_iff']

theorem partsEq_iff {a b : Parts SV} : Parts.eq a b = true ↔ SameComponents a.text b.text := by
  obtain ⟨s, A, P, q, f⟩ := a
  obtain ⟨s', A', P', q', f'⟩ := b
  have e1 : ∀ o o' : Option SV, optEq SV.eq o o' = true ↔ o.map SV.chars = o'.map SV.chars :=
    fun o o' => optEq_iff svEq_iff'
  have e2 : ∀ o o' : Option (Authority SV), optEq Authority.eq o o' = true ↔ o.map (·.map SV.chars) = o'.map (·.map SV.chars) :=
    fun o o' => optEq_iff (f := fun x => Authority.map SV.chars x) (fun _ _ => authEq_iff)
  have e3 : ∀ o o' : List SV, vecEq SV.eq o o' = true ↔ o.map SV.chars = o'.map SV.chars :=
    fun o o' => vecEq_iff svEq_iff'
  simp only [Parts.eq, SameComponents, Parts.text, Parts.map]
  by_cases h1 : optEq SV.eq s s' = true
  · by_cases h2 : optEq Authority.eq A A' = true
    · by_cases h3 : optEq SV.eq q q' = true
      · by_cases h4 : optEq SV.eq f f' = true
        · simp only [h1, h2, h3, h4, Bool.not_true, Bool.or_self, Bool.false_eq_true, if_false]
          rw [e1] at h1 h3 h4
          rw [e2] at h2
          simp only [h1, h2, h3, h4, true_and]
          cases A with
          | none =>
            cases A' with
            | none =>
              have := pathEq_iff (a := P) (b := P')
              obtain ⟨ab, gs⟩ := P
              obtain ⟨ab', gs'⟩ := P'
              simp only [Path.map, Path.mk.injEq] at this
              simp [this, Path.map, and_comm]
            | some => simp at h2
          | some a =>
            cases A' with
            | none => simp at h2
            | some a' => simp [e3, Path.map]
        · simp only [h4, if_true, Bool.false_eq_true, false_iff]
          simp only [Bool.not_false, Bool.or_true, if_true, Bool.false_eq_true, false_iff]
          rintro ⟨-, -, -, h, -⟩; exact h4 ((e1 _ _).2 h)
      · simp only [h3, if_true, Bool.false_eq_true, false_iff]
        simp only [Bool.not_false, Bool.or_true, Bool.true_or, if_true, Bool.false_eq_true, false_iff]
        rintro ⟨-, -, h, -⟩; exact h3 ((e1 _ _).2 h)
    · simp only [h2, if_true, Bool.false_eq_true, false_iff]
      simp only [Bool.not_false, Bool.or_true, Bool.true_or, if_true, Bool.false_eq_true, false_iff]
      rintro ⟨-, h, -⟩; exact h2 ((e2 _ _).2 h)
  · simp only [h1, if_true, Bool.false_eq_true, false_iff]
    simp only [Bool.not_false, Bool.true_or, if_true, Bool.false_eq_true, false_iff]
    rintro ⟨h, -⟩; exact h1 ((e1 _ _).2 h)

theorem sameComponents_symm {p q} (h : SameComponents p q) : SameComponents q p := by
  obtain ⟨h1, h2, h3, h4, h5, h6⟩ := h
  exact ⟨h1.symm, h2.symm, h3.symm, h4.symm, h5.symm, fun h => (h6 (h2.trans h)).symm⟩

theorem sameComponents_trans {p q r} (h : SameComponents p q) (h' : SameComponents q r) : SameComponents p r := by
  obtain ⟨h1, h2, h3, h4, h5, h6⟩ := h
  obtain ⟨h1', h2', h3', h4', h5', h6'⟩ := h'
  exact ⟨h1.trans h1', h2.trans h2', h3.trans h3', h4.trans h4', h5.trans h5', fun h => (h6 h).trans (h6' (h2 ▸ h))⟩

theorem sameComponents_compose {p q} (h : SameComponents p q) : recompose (rooted p) = recompose (rooted q) := by
  obtain ⟨s, A, ⟨ab, gs⟩, qq, f⟩ := p
  obtain ⟨s', A', ⟨ab', gs'⟩, qq', f'⟩ := q
  obtain ⟨h1, h2, h3, h4, h5, h6⟩ := h
  simp only at h1 h2 h3 h4 h5 h6
  subst h1 h2 h3 h4 h5
  cases A with
  | none => rw [h6 rfl]
  | some a => simp [rooted]

end Verif
