import Verif.Proofs.Resolve
import Verif.Props.Parse

/-!
# Properties C15 to C21: reference resolution
-/

namespace Verif

set_option linter.unusedSimpArgs false

/-! ### What parsing guarantees about paths -/

theorem pathWf_part {first : Lang} {t A P} (hne : ∀ g, first g → g ≠ []) (hs : ∀ g, first g → Abnf.segment g)
    (h : Abnf.PartDerives first t A P) : PathWf P ∧ (A.isSome = true → P.absolute = !P.segments.isEmpty) := by
  have hn : ∀ g ∈ P.segments, NoSlash g := fun g hg => segment_noSlash (part_segments hs h g hg)
  cases h with
  | abempty a gs _ _ =>
    refine ⟨⟨hn, ?_, ?_⟩, fun _ => rfl⟩
    · intro h; simp only at h; subst h; rfl
    · intro h g gs' e; simp only at e; subst e; simp at h
  | root => exact ⟨⟨hn, by simp, by simp⟩, by simp⟩
  | absolute g gs _ _ => exact ⟨⟨hn, by simp, by simp⟩, by simp⟩
  | rootless g gs h _ =>
    refine ⟨⟨hn, by simp, ?_⟩, by simp⟩
    intro _ g' gs' e
    simp only [List.cons.injEq] at e
    rw [← e.1]; exact hne g h
  | empty => exact ⟨⟨hn, by simp, by simp⟩, by simp⟩

/-- Every parsed value has a path of the form `PathWf`, absolute or empty behind an authority. -/
theorem parsed_path {pl sv} {q : Parts SV} (e : split pl sv = .ok (some q) ∨ splitReference pl sv = .ok (some q)) :
    PathWf q.text.path ∧ (q.text.authority.isSome = true → q.text.path.absolute = !q.text.path.segments.isEmpty) := by
  have h : Abnf.ReferenceDerives sv.chars q.text := by
    rcases e with e | e
    · exact Or.inl (split_spec e).1
    · exact (splitReference_spec e).1
  rcases h with ⟨_, _, _, _, h, _⟩ | ⟨_, _, h, _⟩
  · exact pathWf_part (fun g => segmentNz_ne) (fun g => segmentNz_segment) h
  · exact pathWf_part (fun g => segmentNzNc_ne) (fun g => segmentNzNc_segment) h

theorem pathText_empty {P : Path Str} (h : PathWf P) : pathText P = [] ↔ P.segments = [] := by
  obtain ⟨ab, gs⟩ := P
  obtain ⟨-, -, h3⟩ := h
  cases gs with
  | nil => simp [pathText]
  | cons g gs =>
    cases ab with
    | true => simp [pathText]
    | false => have := h3 rfl g gs rfl; simp [pathText, this]

theorem pathText_head {P : Path Str} (h : PathWf P) (hne : P.segments ≠ []) : (pathText P).head? = some 0x2F ↔ P.absolute = true := by
  obtain ⟨ab, gs⟩ := P
  obtain ⟨h1, -, h3⟩ := h
  cases gs with
  | nil => exact absurd rfl hne
  | cons g gs =>
    cases ab with
    | true => simp [pathText]
    | false =>
      obtain ⟨c, g', rfl⟩ := List.exists_cons_of_ne_nil (h3 rfl g gs rfl)
      have hc : c ≠ 0x2F := by rintro rfl; exact h1 (0x2F :: g') (by simp) (by simp)
      simp [pathText, hc]

/-! ### C15, C16 -/

/-- The scheme `join` goes by: the reference's, unless it is to be ignored. -/
theorem refScheme_text (b r : Parts SV) (strict : Bool) :
    (if !strict && optEq SV.eq r.scheme b.scheme then none else r.scheme).map SV.chars =
      if ¬ strict = true ∧ r.text.scheme = b.text.scheme then none else r.text.scheme := by
  have e : optEq SV.eq r.scheme b.scheme = true ↔ r.text.scheme = b.text.scheme := optEq_iff svEq_iff'
  simp only [Bool.and_eq_true, e, Bool.not_eq_true']
  by_cases h : strict = false ∧ r.text.scheme = b.text.scheme
  · rw [if_pos h, if_pos ⟨by simp [h.1], h.2⟩]; rfl
  · rw [if_neg h, if_neg (fun h' => h ⟨by simpa using h'.1, h'.2⟩)]; rfl

/-- The outcome of `join`, case by case, with the path handling left open. -/
theorem join_text' (mrg : Groups → Str → Str) (dots : Str → Str) (b r : Parts SV) (strict : Bool) (hr : PathWf r.text.path) :
    let X := Rfc.resolveWith mrg dots (groupsOf b.text) (groupsOf r.text) strict
    let T := groupsOf (join b r strict).text
    T.scheme = X.scheme ∧ T.authority = X.authority ∧ T.query = X.query ∧ T.fragment = X.fragment ∧
    ((¬ Merges b.text r.text strict ∧ (join b r strict).path = b.path ∧ (join b r strict).authority = b.authority ∧
        r.text.path.segments = [] ∧ T.path = X.path) ∨
     (¬ Merges b.text r.text strict ∧ (join b r strict).path = r.path.removeDotSegments ∧
        ((join b r strict).authority = r.authority ∨ ((join b r strict).authority = b.authority ∧ r.path.absolute = true)) ∧
        X.path = dots (pathText r.text.path)) ∨
     (Merges b.text r.text strict ∧ (join b r strict).path = (merge b r).removeDotSegments ∧ (join b r strict).authority = b.authority ∧
        X.path = dots (mrg (groupsOf b.text) (pathText r.text.path)))) := by
  intro X T
  have hsch := refScheme_text b r strict
  have hm : ∀ s, (if ¬ strict = true ∧ r.text.scheme = b.text.scheme then none else r.text.scheme) = some s → ¬ Merges b.text r.text strict := by
    rintro s h ⟨h1 | ⟨h1, h2⟩, -⟩
    · simp [h1] at h
    · simp [h1, h2] at h
  have hm' : (if ¬ strict = true ∧ r.text.scheme = b.text.scheme then none else r.text.scheme) = none →
      r.text.scheme = none ∨ (strict = false ∧ r.text.scheme = b.text.scheme) := by
    intro h
    by_cases hc : ¬ strict = true ∧ r.text.scheme = b.text.scheme
    · exact Or.inr ⟨by simpa using hc.1, hc.2⟩
    · rw [if_neg hc] at h; exact Or.inl h
  have he : r.path.segments = [] ↔ r.text.path.segments = [] := by simp [Parts.text, Parts.map, Path.map]
  have hab : r.text.path.absolute = r.path.absolute := rfl
  have hau : r.text.authority = r.authority.map (·.map SV.chars) := rfl
  simp only [X, T, Rfc.resolveWith, join]
  generalize (if (!strict && optEq SV.eq r.scheme b.scheme) = true then none else r.scheme) = rs at *
  have hg : (groupsOf r.text).scheme = r.text.scheme := rfl
  have hg' : (groupsOf b.text).scheme = b.text.scheme := rfl
  simp only [hg, hg']
  generalize (if ¬ strict = true ∧ r.text.scheme = b.text.scheme then none else r.text.scheme) = rt at *
  subst hsch
  cases rs with
  | some s =>
    have hm1 := hm s.chars rfl
    simp only [Option.map_some, Option.isSome_some, if_true]
    refine ⟨rfl, rfl, rfl, rfl, Or.inr (Or.inl ⟨hm1, (by first | trivial | rfl), Or.inl (by first | trivial | rfl), rfl⟩)⟩
  | none =>
    have hm1 := hm' rfl
    simp only [Option.map_none, Option.isSome_none, Bool.false_eq_true, if_false]
    cases ha : r.authority with
    | some a =>
      have h1 : (groupsOf r.text).authority.isSome = true := by simp [groupsOf, Parts.text, Parts.map, ha]
      simp only [h1, if_true]
      refine ⟨rfl, by simp [groupsOf, Parts.text, Parts.map, ha], rfl, rfl, Or.inr (Or.inl ⟨?_, (by first | trivial | rfl), Or.inl (by first | trivial | rfl), rfl⟩)⟩
      rintro ⟨-, h2, -⟩
      rw [hau, ha] at h2; simp at h2
    | none =>
      have h1 : (groupsOf r.text).authority.isSome = false := by simp [groupsOf, Parts.text, Parts.map, ha]
      have hpe : (groupsOf r.text).path = [] ↔ r.path.segments = [] := by
        rw [he]; exact pathText_empty hr
      simp only [h1, Bool.false_eq_true, if_false, hpe]
      by_cases hp : r.path.segments = []
      · have hpe' : r.path.empty = true := by simp [Path.empty, hp]
        have hnm : ¬ Merges b.text r.text strict := by rintro ⟨-, -, h, -⟩; exact h (he.1 hp)
        simp only [hp, if_true, hpe']
        refine ⟨rfl, rfl, ?_, rfl, Or.inl ⟨hnm, (by first | trivial | rfl), (by first | trivial | rfl), he.1 hp, rfl⟩⟩
        cases hq : r.query <;> simp [groupsOf, Parts.text, Parts.map, hq]
      · have hpe' : r.path.empty = false := by
          cases hx : r.path.segments with
          | nil => exact absurd hx hp
          | cons => simp [Path.empty, hx]
        have hhd : (groupsOf r.text).path.head? = some 0x2F ↔ r.path.absolute = true := by
          rw [← hab]; exact pathText_head hr (fun h => hp (he.2 h))
        simp only [hp, if_false, hpe', Bool.false_eq_true, hhd]
        cases hx : r.path.absolute with
        | true =>
          have hnm : ¬ Merges b.text r.text strict := by rintro ⟨-, -, -, h⟩; rw [hab, hx] at h; simp at h
          simp only [if_true]
          exact ⟨rfl, rfl, rfl, rfl, Or.inr (Or.inl ⟨hnm, (by first | trivial | rfl), Or.inr ⟨(by first | trivial | rfl), (by first | trivial | rfl)⟩, rfl⟩)⟩
        | false =>
          have hmm : Merges b.text r.text strict := ⟨hm1, by rw [hau, ha]; rfl, fun h => hp (he.2 h), by rw [hab, hx]⟩
          simp only [Bool.false_eq_true, if_false]
          exact ⟨rfl, rfl, rfl, rfl, Or.inr (Or.inr ⟨hmm, (by first | trivial | rfl), (by first | trivial | rfl), rfl⟩)⟩

/-- The RFC's resolution. -/
theorem resolve_eq (B R : Groups) (strict : Bool) :
    Rfc.resolve B R strict = Rfc.resolveWith Rfc.merge Rfc.removeDotSegments B R strict := rfl

theorem join_text (b r : Parts SV) (strict : Bool) (hr : PathWf r.text.path) :
    let X := Rfc.resolve (groupsOf b.text) (groupsOf r.text) strict
    let T := groupsOf (join b r strict).text
    T.scheme = X.scheme ∧ T.authority = X.authority ∧ T.query = X.query ∧ T.fragment = X.fragment ∧
    ((¬ Merges b.text r.text strict ∧ (join b r strict).path = b.path ∧ (join b r strict).authority = b.authority ∧
        r.text.path.segments = [] ∧ T.path = X.path) ∨
     (¬ Merges b.text r.text strict ∧ (join b r strict).path = r.path.removeDotSegments ∧
        ((join b r strict).authority = r.authority ∨ ((join b r strict).authority = b.authority ∧ r.path.absolute = true)) ∧
        X.path = Rfc.removeDotSegments (pathText r.text.path)) ∨
     (Merges b.text r.text strict ∧ (join b r strict).path = (merge b r).removeDotSegments ∧ (join b r strict).authority = b.authority ∧
        X.path = Rfc.removeDotSegments (Rfc.merge (groupsOf b.text) (pathText r.text.path)))) :=
  join_text' Rfc.merge Rfc.removeDotSegments b r strict hr

/-- C15.  For all base and reference values (the reference's path being such as parsing yields),
scheme, authority, query and fragment of `join` are those of the section 5.2.2 pseudo-code, in
strict and non-strict mode. -/
theorem C15_join_components (b r : Parts SV) (strict : Bool) (hr : PathWf r.text.path) :
    let X := Rfc.resolve (groupsOf b.text) (groupsOf r.text) strict
    let T := groupsOf (join b r strict).text
    T.scheme = X.scheme ∧ T.authority = X.authority ∧ T.query = X.query ∧ T.fragment = X.fragment := by
  have h := join_text b r strict hr
  exact ⟨h.1, h.2.1, h.2.2.1, h.2.2.2.1⟩

/-- C15 for strings: the components in question, taken by the regular expression of appendix B. -/
theorem C15_join_strings (pl : Plat) (base ref : SV) (strict : Bool) (t : Parts SV) (h : joinStr pl base ref strict = .ok (some t)) :
    let X := Rfc.resolve (AppendixB.parse base.chars) (AppendixB.parse ref.chars) strict
    let T := groupsOf t.text
    T.scheme = X.scheme ∧ T.authority = X.authority ∧ T.query = X.query ∧ T.fragment = X.fragment := by
  simp only [joinStr, bind, Except.bind] at h
  cases e1 : split pl base with
  | error f => rw [e1] at h; simp at h
  | ok o =>
    rw [e1] at h
    cases o with
    | none => simp [pure, Except.pure] at h
    | some b =>
      simp only at h
      cases e2 : splitReference pl ref with
      | error f => rw [e2] at h; simp at h
      | ok o =>
        rw [e2] at h
        cases o with
        | none => simp [pure, Except.pure] at h
        | some r =>
          simp only [pure, Except.pure, Except.ok.injEq, Option.some.injEq] at h
          subst h
          rw [(C04_appendixB pl base b (Or.inl e1)).1, (C04_appendixB pl ref r (Or.inr e2)).1]
          exact C15_join_components b r strict (parsed_path (Or.inr e2)).1

/-- C16: `merge` is section 5.2.3 exactly when the base path does not consist of one segment.
(The result of `merge` is what `join` removes the dot segments of.) -/
theorem C16_merge_exact (b r : Parts SV) (hb : PathWf b.text.path) (hr : r.path.segments ≠ []) (hr' : r.path.absolute = false) :
    (merge b r).toStr = Rfc.merge (groupsOf b.text) r.path.toStr ↔ b.path.segments.length ≠ 1 := by
  rw [toStr_text, toStr_text]
  exact merge_text b r hb hr hr'

/-- C16: what `merge` yields for every base, as a text. -/
theorem C16_merge_built (b r : Parts SV) (hb : PathWf b.text.path) (hr : r.path.segments ≠ []) (hr' : r.path.absolute = false) :
    (merge b r).toStr = Rfc.mergeBuilt (groupsOf b.text) r.path.toStr := by
  rw [toStr_text, toStr_text]
  exact merge_built b r hb hr hr'

/-- C16 (and C15, C17 together), for values with paths such as parsing yields: `join` is the whole
of section 5.2, with exactly the deviations spelled out in `mergeBuilt` and `removeDotSegmentsBuilt`. -/
theorem C16_join_is_resolve (b r : Parts SV) (strict : Bool) (hb : PathWf b.text.path) (hr : PathWf r.text.path) :
    groupsOf (join b r strict).text =
      Rfc.resolveWith Rfc.mergeBuilt Rfc.removeDotSegmentsBuilt (groupsOf b.text) (groupsOf r.text) strict := by
  obtain ⟨h1, h2, h3, h4, h5⟩ := join_text' Rfc.mergeBuilt Rfc.removeDotSegmentsBuilt b r strict hr
  have hp : (groupsOf (join b r strict).text).path =
      (Rfc.resolveWith Rfc.mergeBuilt Rfc.removeDotSegmentsBuilt (groupsOf b.text) (groupsOf r.text) strict).path := by
    rcases h5 with ⟨-, -, -, -, h5⟩ | ⟨h0, h5, -, h6⟩ | ⟨h0, h5, -, h6⟩
    · exact h5
    · rw [h6]
      show pathText ((join b r strict).path.map SV.chars) = _
      rw [h5, rds_built _ hr]
      rfl
    · have hne : r.path.segments ≠ [] := by
        have := h0.2.2.1; intro h; apply this; simp [Parts.text, Parts.map, Path.map, h]
      rw [h6]
      show pathText ((join b r strict).path.map SV.chars) = _
      rw [h5, rds_built _ (merge_wf b r hb hr hne h0.2.2.2), merge_built b r hb hne h0.2.2.2]
  generalize groupsOf (join b r strict).text = T at *
  generalize Rfc.resolveWith Rfc.mergeBuilt Rfc.removeDotSegmentsBuilt (groupsOf b.text) (groupsOf r.text) strict = X at *
  obtain ⟨a1, a2, a3, a4, a5⟩ := T
  obtain ⟨b1, b2, b3, b4, b5⟩ := X
  simp only at h1 h2 h3 h4 hp
  rw [h1, h2, h3, h4, hp]

/-- The text of a string is recovered from its groups by section 5.3. -/
theorem recompose_groups (p : Parts Str) : recompose p = Rfc.recompose (groupsOf p) := by
  obtain ⟨s, a, P, q, f⟩ := p
  cases s <;> cases a <;> simp [recompose, Rfc.recompose, groupsOf, Abnf.optText]

/-- A path behind an authority stays absolute or empty. -/
theorem join_rooted (b r : Parts SV) (strict : Bool) (hr : PathWf r.text.path)
    (hb' : b.text.authority.isSome = true → b.text.path.absolute = !b.text.path.segments.isEmpty)
    (hr' : r.text.authority.isSome = true → r.text.path.absolute = !r.text.path.segments.isEmpty) :
    pathText ((rooted (join b r strict).text).path) = pathText (join b r strict).text.path := by
  have key : ∀ P : Path Str, ∀ A : Option (Authority Str), (A.isSome = true → P.segments ≠ [] → P.absolute = true) →
      pathText { P with absolute := P.absolute || A.isSome } = pathText P := by
    rintro ⟨ab, gs⟩ A h
    cases hA : A.isSome with
    | false => simp
    | true =>
      cases gs with
      | nil => rfl
      | cons g gs => have := h hA (by simp); simp only at this; subst this; rfl
  obtain ⟨-, -, -, -, h5⟩ := join_text b r strict hr
  refine key _ _ fun hA hne => ?_
  have hT : (join b r strict).text.authority = (join b r strict).authority.map (·.map SV.chars) := rfl
  have hTp : (join b r strict).text.path.absolute = (join b r strict).path.absolute := rfl
  have hbA : b.text.authority = b.authority.map (·.map SV.chars) := rfl
  have hrA : r.text.authority = r.authority.map (·.map SV.chars) := rfl
  have hemp : ∀ P : Path SV, P.segments = [] → P.removeDotSegments.segments = [] := by
    intro P h; rw [rds_eq]; simp [h, rdsSegs, stackRun, dirEnd]
  rcases h5 with ⟨-, h5, h6, -, -⟩ | ⟨-, h5, h6, -⟩ | ⟨h0, h5, h6, -⟩
  · have e : (join b r strict).text.path = b.text.path := by simp only [Parts.text, Parts.map, h5]
    rw [hT, h6, ← hbA] at hA
    rw [e] at hne ⊢
    rw [hb' hA]
    cases hx : b.text.path.segments with
    | nil => exact absurd hx hne
    | cons => rfl
  · rw [hTp, h5, rds_eq]
    rcases h6 with h6 | ⟨-, h6⟩
    · rw [hT, h6, ← hrA] at hA
      have := hr' hA
      cases hx : r.path.segments with
      | nil =>
        exfalso; apply hne
        show (join b r strict).path.segments.map SV.chars = []
        rw [h5, hemp _ hx]; rfl
      | cons g gs => simp [Parts.text, Parts.map, Path.map, hx] at this; exact this
    · exact h6
  · rw [hTp, h5, rds_eq]
    rw [hT, h6, ← hbA] at hA
    have hA' : b.authority.isSome = true := by rw [hbA] at hA; simpa using hA
    have := hb' hA
    simp only [merge]
    cases hx : b.path.segments with
    | nil => simp [hA', Path.empty, hx]
    | cons g gs =>
      simp [Parts.text, Parts.map, Path.map, hx] at this
      simp [Path.empty, hx, this]

/-- C16, end to end: for strings that parse, composing the join gives the string section 5.2 prescribes, computed from
the two strings by appendix B, 5.2.2-5.2.4 and 5.3, with exactly the deviations of `mergeBuilt` and
`removeDotSegmentsBuilt`. -/
theorem C16_join_strings (pl : Plat) (base ref : SV) (strict : Bool) (b r : Parts SV)
    (e1 : split pl base = .ok (some b)) (e2 : splitReference pl ref = .ok (some r)) :
    ∃ t, joinStr pl base ref strict = .ok (some t) ∧
      compose t = Rfc.recompose (Rfc.resolveWith Rfc.mergeBuilt Rfc.removeDotSegmentsBuilt
        (AppendixB.parse base.chars) (AppendixB.parse ref.chars) strict) := by
  refine ⟨join b r strict, by simp [joinStr, e1, e2, bind, Except.bind, pure, Except.pure], ?_⟩
  have hb := parsed_path (Or.inl e1)
  have hr := parsed_path (Or.inr e2)
  rw [(C04_appendixB pl base b (Or.inl e1)).1, (C04_appendixB pl ref r (Or.inr e2)).1,
    ← C16_join_is_resolve b r strict hb.1 hr.1, compose_text, recompose_groups]
  congr 1
  simp only [groupsOf]
  rw [join_rooted b r strict hr.1 hb.2 hr.2]
  rfl

/-- Where neither deviation applies the two resolutions are one. -/
theorem resolveWith_conforms (B R : Groups) (strict : Bool) (hm : ¬ (B.path ≠ [] ∧ 0x2F ∉ B.path.drop 1))
    (hd : ∀ path, path = R.path ∨ path = Rfc.merge B R.path → Rfc.shortStart path = false ∧ Rfc.shortEnd path = false) :
    Rfc.resolveWith Rfc.mergeBuilt Rfc.removeDotSegmentsBuilt B R strict = Rfc.resolve B R strict := by
  have e1 : Rfc.mergeBuilt B R.path = Rfc.merge B R.path := by rw [Rfc.mergeBuilt, if_neg hm]
  have e2 : ∀ path, path = R.path ∨ path = Rfc.merge B R.path → Rfc.removeDotSegmentsBuilt path = Rfc.removeDotSegments path := by
    intro path h
    simp [Rfc.removeDotSegmentsBuilt, hd path h]
  rw [resolve_eq]
  simp only [Rfc.resolveWith, e1, e2 R.path (Or.inl rfl), e2 _ (Or.inr rfl)]

/-- C16: the string of section 5.2 itself, where the base path is empty or has two segments or more, and removing dot
segments does not come to an empty segment before a final dot segment or climb over the start of a relative path. -/
theorem C16_join_conforms (pl : Plat) (base ref : SV) (strict : Bool) (b r : Parts SV)
    (e1 : split pl base = .ok (some b)) (e2 : splitReference pl ref = .ok (some r))
    (hm : b.path.segments.length ≠ 1)
    (hd : ∀ path, path = (AppendixB.parse ref.chars).path ∨ path = Rfc.merge (AppendixB.parse base.chars) (AppendixB.parse ref.chars).path →
      Rfc.shortStart path = false ∧ Rfc.shortEnd path = false) :
    ∃ t, joinStr pl base ref strict = .ok (some t) ∧
      compose t = Rfc.recompose (Rfc.resolve (AppendixB.parse base.chars) (AppendixB.parse ref.chars) strict) := by
  obtain ⟨t, h1, h2⟩ := C16_join_strings pl base ref strict b r e1 e2
  refine ⟨t, h1, h2.trans ?_⟩
  rw [resolveWith_conforms _ _ _ ?_ hd]
  have hb := parsed_path (Or.inl e1)
  rintro ⟨k1, k2⟩
  rw [(C04_appendixB pl base b (Or.inl e1)).1] at k1 k2
  change pathText b.text.path ≠ [] at k1
  change 0x2F ∉ (pathText b.text.path).drop 1 at k2
  have hseg := segmentsOf_pathText hb.1
  have hl : b.text.path.segments.length = b.path.segments.length := by simp [Parts.text, Parts.map, Path.map]
  apply hm
  rw [← hl, ← hseg]
  rw [Rfc.segmentsOf, if_neg k1]
  split
  · rw [splitSlash_noSlash _ k2]; rfl
  · rename_i hh
    have : NoSlash (pathText b.text.path) := by
      intro hmem
      cases hx : pathText b.text.path with
      | nil => exact k1 hx
      | cons c t =>
        rw [hx] at hmem k2 hh
        rcases List.mem_cons.1 hmem with h | h
        · exact hh (by simp [← h])
        · exact k2 (by simpa using h)
    rw [splitSlash_noSlash _ this]; rfl

/-- The unrestricted C16 is false of the code: resolving "c" against "http://a/b" must give
"http://a/c". -/
theorem C16_counterexample :
    (joinStr x86 ⟨4096, b! "http://a/b"⟩ ⟨8192, b! "c"⟩ true).map (·.map compose) = .ok (some (b! "http://a/b/c")) ∧
    Rfc.recompose (Rfc.resolve (AppendixB.parse (b! "http://a/b")) (AppendixB.parse (b! "c")) true) = b! "http://a/c" := by
  decide +kernel

/-! RFC 3986 section 5.4: some of the examples, evaluated in the specification and in the model. -/

/-- The base of section 5.4. -/
def rfcBase : Str := b! "http://a/b/c/d;p?q"
/-- Model and specification agree that the reference resolves to the target. -/
def rfcCase (ref target : Str) : Bool :=
  decide ((joinStr x86 ⟨4096, rfcBase⟩ ⟨8192, ref⟩ true).map (·.map compose) = .ok (some target)) &&
  decide (Rfc.recompose (Rfc.resolve (AppendixB.parse rfcBase) (AppendixB.parse ref) true) = target)
example : rfcCase (b! "g:h") (b! "g:h") = true := by decide +kernel
example : rfcCase (b! "./g/.") (b! "http://a/b/c/g/") = true := by decide +kernel
example : rfcCase (b! "?y") (b! "http://a/b/c/d;p?y") = true := by decide +kernel
example : rfcCase (b! "../../../g") (b! "http://a/g") = true := by decide +kernel
example : rfcCase (b! "//g") (b! "http://g") = true := by decide +kernel
example : rfcCase (b! "g;x=1/../y") (b! "http://a/b/c/y") = true := by decide +kernel
example : rfcCase (b! "..") (b! "http://a/b/") = true := by decide +kernel
example : rfcCase [] (b! "http://a/b/c/d;p?q") = true := by decide +kernel

/-- Hypotheses of C16 met: "../g" against the base of section 5.4. -/
example : ∃ b r, split x86 ⟨4096, rfcBase⟩ = .ok (some b) ∧ splitReference x86 ⟨8192, b! "../g"⟩ = .ok (some r) ∧
    Merges b.text r.text true ∧ b.path.segments.length ≠ 1 ∧
    ∀ path, path = (AppendixB.parse (b! "../g")).path ∨ path = Rfc.merge (AppendixB.parse rfcBase) (AppendixB.parse (b! "../g")).path →
      Rfc.shortStart path = false ∧ Rfc.shortEnd path = false := by
  refine ⟨⟨some ⟨4096, b! "http"⟩, some ⟨none, ⟨4103, b! "a"⟩, none⟩, ⟨true, [⟨4105, b! "b"⟩, ⟨4107, b! "c"⟩, ⟨4109, b! "d;p"⟩]⟩,
    some ⟨4113, b! "q"⟩, none⟩, ⟨none, none, ⟨false, [⟨8192, b! ".."⟩, ⟨8195, b! "g"⟩]⟩, none, none⟩, by decide +kernel, by decide +kernel,
    ⟨Or.inl rfl, rfl, by simp [Parts.text, Parts.map, Path.map], rfl⟩, by decide, ?_⟩
  rintro path (rfl | rfl) <;> decide +kernel
/-- The deviations at work: a base path of one segment; a relative path losing its first segment. -/
example : Rfc.mergeBuilt ⟨some (b! "http"), some (b! "a"), b! "/b", none, none⟩ (b! "c") = b! "/b/c" := by decide +kernel
example : (joinStr x86 ⟨4096, b! "s:a/b"⟩ ⟨8192, b! "../../c"⟩ true).map (·.map compose) = .ok (some (b! "s:c")) ∧
    Rfc.recompose (Rfc.resolve (AppendixB.parse (b! "s:a/b")) (AppendixB.parse (b! "../../c")) true) = b! "s:/c" := by decide +kernel

/-! ### C17 -/

/-- C17: on absolute paths, `remove_dot_segments` is section 5.2.4 (on the string form), except
that when the last segment is a dot segment and the RFC's result ends with "//", one of the two
slashes is missing. -/
theorem C17_absolute_exact (p : Path SV) (ha : p.absolute = true) (hn : ∀ g ∈ p.segments, NoSlash g.chars) :
    let r := Rfc.removeDotSegments p.toStr
    let exc := lastDot (p.segments.map SV.chars) = true ∧ b! "//" <:+ r
    (p.removeDotSegments.toStr = r ↔ ¬ exc) ∧ (exc → p.removeDotSegments.toStr ++ b! "/" = r) := by
  obtain ⟨ab, gs⟩ := p
  simp only at ha hn
  subst ha
  have hn' : ∀ g ∈ gs.map SV.chars, NoSlash g := by
    intro g hg; obtain ⟨v, hv, rfl⟩ := List.mem_map.1 hg; exact hn v hv
  have h := rds_absolute _ hn'
  simp only [toStr_text, rds_text]
  simp only [Path.map, pathText_abs]
  refine ⟨⟨fun e hx => ?_, h.1⟩, h.2⟩
  have h2 := h.2 hx
  rw [e] at h2
  have := congrArg List.length h2
  simp at this

/-- C17 for every path (no segment containing a slash): section 5.2.4 yields what `remove_dot_segments` yields between
two texts `x` and `y`.  `x` is a slash if a relative path loses its first segment to a `..`, and `y` is a slash if the last
segment is a dot segment and an empty segment comes before the end; otherwise they are empty. -/
theorem C17_exact (p : Path SV) (hn : ∀ g ∈ p.segments, NoSlash g.chars) :
    ∃ x y, SlashIf (p.absolute = false ∧ climbs (p.segments.map SV.chars) = true) x ∧
      SlashIf (lastDot (p.segments.map SV.chars) = true ∧ (b! "//" <:+ Rfc.removeDotSegments p.toStr ∨
        (p.absolute = false ∧ climbs (p.segments.map SV.chars) = false ∧ Rfc.removeDotSegments p.toStr = b! "/"))) y ∧
      Rfc.removeDotSegments p.toStr = x ++ p.removeDotSegments.toStr ++ y := by
  rw [toStr_text, toStr_text]; exact rds_built_raw p hn

/-- C17 on texts, for paths such as parsing yields. -/
theorem C17_remove_dot_segments (p : Path SV) (h : PathWf (p.map SV.chars)) :
    p.removeDotSegments.toStr = Rfc.removeDotSegmentsBuilt p.toStr := by
  rw [toStr_text, toStr_text]; exact rds_built p h

/-- C17: and so it is section 5.2.4 exactly when neither deviation applies. -/
theorem C17_conforms_iff (p : Path SV) (h : PathWf (p.map SV.chars)) :
    p.removeDotSegments.toStr = Rfc.removeDotSegments p.toStr ↔ Rfc.shortStart p.toStr = false ∧ Rfc.shortEnd p.toStr = false := by
  have hn : ∀ g ∈ p.segments, NoSlash g.chars := fun g hg => h.noSlash g.chars (List.mem_map_of_mem hg)
  obtain ⟨x, y, hx, hy, e⟩ := rds_built_raw p hn
  have h1 := shortStart_pathText h
  have h2 := shortEnd_pathText h
  have e1 : (p.map SV.chars).absolute = p.absolute := rfl
  have e2 : (p.map SV.chars).segments = p.segments.map SV.chars := rfl
  rw [e1, e2] at h1 h2
  rw [← h1] at hx
  rw [← h2] at hy
  rw [toStr_text, toStr_text, e]
  constructor
  · intro k
    have k' := congrArg List.length k
    rcases hx with ⟨a1, rfl⟩ | ⟨a1, rfl⟩ <;> rcases hy with ⟨a2, rfl⟩ | ⟨a2, rfl⟩
    · simp at k'; omega
    · simp at k'
    · simp at k'
    · exact ⟨by simpa using a1, by simpa using a2⟩
  · rintro ⟨k1, k2⟩
    rcases hx with ⟨a1, rfl⟩ | ⟨a1, rfl⟩
    · rw [k1] at a1; simp at a1
    · rcases hy with ⟨a2, rfl⟩ | ⟨a2, rfl⟩
      · rw [k2] at a2; simp at a2
      · simp

/-- C17 is about something: paths with dot segments at every position, and where neither deviation applies. -/
example : Rfc.removeDotSegmentsBuilt (b! "/../a/./b/../c/..") = b! "/a/" ∧ Rfc.shortStart (b! "/../a/./b/../c/..") = false ∧
    Rfc.shortEnd (b! "/../a/./b/../c/..") = false := by decide +kernel
example : Rfc.removeDotSegmentsBuilt (b! "./a/b/..") = b! "a/" ∧ Rfc.shortStart (b! "./a/b/..") = false ∧
    Rfc.shortEnd (b! "./a/b/..") = false := by decide +kernel

/-- The unrestricted C17 is false of the code: "/a//." should become "/a//"; and for the relative
"a/../b", "/b". -/
theorem C17_counterexample :
    (Path.mk true [vw (b! "a"), vw [], vw (b! ".")]).removeDotSegments.toStr = b! "/a/" ∧
    Rfc.removeDotSegments (b! "/a//.") = b! "/a//" ∧
    (Path.mk false [vw (b! "a"), vw (b! ".."), vw (b! "b")]).removeDotSegments.toStr = b! "b" ∧
    Rfc.removeDotSegments (b! "a/../b") = b! "/b" := by decide +kernel

/-! ### C18 -/

theorem isDot_iff (g : Str) : isDot g = false ↔ g ≠ b! "." ∧ g ≠ b! ".." := by
  simp [isDot]

/-- C18: afterwards no segment is a dot segment. -/
theorem C18_no_dots (p : Path SV) : ∀ g ∈ p.removeDotSegments.segments, g.chars ≠ b! "." ∧ g.chars ≠ b! ".." := by
  intro g hg
  rw [rds_eq] at hg
  exact (isDot_iff _).1 (rdsSegs_nodot SV.chars SV.null rfl _ g hg)

/-- C18: a path without dot segments is unchanged. -/
theorem C18_unchanged (p : Path SV) (h : ∀ g ∈ p.segments, g.chars ≠ b! "." ∧ g.chars ≠ b! "..") : p.removeDotSegments = p := by
  rw [rds_eq, rdsSegs_id _ _ _ fun g hg => (isDot_iff _).2 (h g hg)]

/-- C18: a second call changes nothing. -/
theorem C18_idempotent (p : Path SV) : p.removeDotSegments.removeDotSegments = p.removeDotSegments :=
  C18_unchanged _ (C18_no_dots p)

/-- C18: the absolute flag is unchanged. -/
theorem C18_absolute (p : Path SV) : p.removeDotSegments.absolute = p.absolute := by rw [rds_eq]

/-- C18: what remains are original segments, in order, perhaps followed by one empty segment. -/
theorem C18_segments (p : Path SV) : ∃ l tail, p.removeDotSegments.segments = l ++ tail ∧ l.Sublist p.segments ∧
    (tail = [] ∨ tail = [⟨0, []⟩]) := by
  rw [rds_eq]
  rcases rdsSegs_sub SV.chars SV.null p.segments with h | ⟨l, h1, h2⟩
  · exact ⟨_, [], by simp, h, Or.inl rfl⟩
  · exact ⟨l, [SV.null], h1, h2, Or.inr rfl⟩

example : (Path.mk true [vw (b! "a"), vw (b! ".."), vw (b! ".."), vw (b! "b"), vw (b! ".")]).removeDotSegments =
    Path.mk true [vw (b! "b"), SV.null] := by decide +kernel

/-! ### C19 -/

/-- C19. -/
theorem C19_join_strings (pl : Plat) (base ref : SV) (strict : Bool) (t : Parts SV) :
    joinStr pl base ref strict = .ok (some t) ↔
      ∃ b r, split pl base = .ok (some b) ∧ splitReference pl ref = .ok (some r) ∧ t = join b r strict := by
  simp only [joinStr, bind, Except.bind, pure, Except.pure]
  cases split pl base with
  | error f => simp
  | ok o =>
    cases o with
    | none => simp
    | some b =>
      cases splitReference pl ref with
      | error f => simp
      | ok o => cases o <;> simp [eq_comm]

/-- C19: it fails (returns no value) exactly when an argument does not parse. -/
theorem C19_join_fails (pl : Plat) (base ref : SV) (strict : Bool) (h1 : CtypeSafe pl base.chars) (h2 : CtypeSafe pl ref.chars) :
    joinStr pl base ref strict = .ok none ↔ split pl base = .ok none ∨ splitReference pl ref = .ok none := by
  obtain ⟨o1, e1⟩ := (C09_defined pl base h1).1
  obtain ⟨o2, e2⟩ := (C09_defined pl ref h2).2
  simp only [joinStr, bind, Except.bind, pure, Except.pure, e1, e2]
  cases o1 <;> cases o2 <;> simp

/-- C19: it faults only if parsing one of them does. -/
theorem C19_join_faults (pl : Plat) (base ref : SV) (strict : Bool) (f : Fault) (h : joinStr pl base ref strict = .error f) :
    split pl base = .error f ∨ splitReference pl ref = .error f := by
  simp only [joinStr, bind, Except.bind, pure, Except.pure] at h
  cases e1 : split pl base with
  | error g => rw [e1] at h; simp at h; simp [h]
  | ok o =>
    rw [e1] at h
    cases o with
    | none => simp at h
    | some b =>
      simp only at h
      cases e2 : splitReference pl ref with
      | error g => rw [e2] at h; simp at h; simp [h]
      | ok o => rw [e2] at h; cases o <;> simp at h

example : ∃ t, joinStr x86 exView ⟨8192, b! "../x?y"⟩ true = .ok (some t) ∧
    t.text = ⟨some (b! "http"), some ⟨some (b! "u"), b! "h", some (b! "8")⟩, ⟨true, [b! "x"]⟩, some (b! "y"), none⟩ :=
  run_text (by decide +kernel)

/-! ### C20 -/

/-- C20: in strict mode a reference with a scheme ignores the base. -/
theorem C20_scheme_ignores_base (b b' r : Parts SV) (h : r.scheme ≠ none) : join b r true = join b' r true := by
  cases hr : r.scheme with
  | none => exact absurd hr h
  | some s => simp [join, hr]

/-- C20: a reference without scheme, authority and path yields the base with the reference's
fragment, and its query if it has one. -/
theorem C20_query_fragment_reference (b : Parts SV) (q f : Option SV) (strict : Bool) :
    join b ⟨none, none, ⟨false, []⟩, q, f⟩ strict =
      { b with query := if q.isSome then q else b.query, fragment := f } := by
  simp [join, Path.empty]

/-- C20: the empty reference yields the base without its fragment. -/
theorem C20_empty_reference (b : Parts SV) (strict : Bool) : join b Parts.init strict = { b with fragment := none } := by
  simp [join, Path.empty, Parts.init]

/-- C20: the same for strings: the empty string. -/
theorem C20_empty_string (pl : Plat) (base : SV) (b : Parts SV) (ptr : Nat) (strict : Bool) (e : split pl base = .ok (some b)) :
    joinStr pl base ⟨ptr, []⟩ strict = .ok (some { b with fragment := none }) := by
  have h : ∃ q, splitReference pl ⟨ptr, []⟩ = .ok (some q) ∧ q.text = ⟨none, none, ⟨false, []⟩, none, none⟩ :=
    C03_splitReference_complete pl ⟨ptr, []⟩ ⟨none, none, ⟨false, []⟩, none, none⟩
      (Or.inr ⟨[], rfl, .empty, by simp, by simp, rfl⟩) (by simp) (by intro a ha; simp at ha)
  obtain ⟨q, e2, hq⟩ := h
  obtain ⟨s, A, ⟨ab, gs⟩, qq, f⟩ := q
  simp [Parts.text, Parts.map, Path.map] at hq
  obtain ⟨rfl, rfl, ⟨rfl, rfl⟩, rfl, rfl⟩ := hq
  simp only [joinStr, e, e2, bind, Except.bind, pure, Except.pure]
  rw [C20_query_fragment_reference]
  simp

/-- C20: resolving a reference without a scheme gives the base's scheme. -/
theorem C20_scheme_of_base (b r : Parts SV) (strict : Bool) (h : r.scheme = none) : (join b r strict).scheme = b.scheme := by
  simp only [join, h]
  have : (if (!strict && optEq SV.eq none b.scheme) = true then (none : Option SV) else none) = none := by split <;> rfl
  rw [this]
  cases r.authority with
  | some a => rfl
  | none => simp only; split <;> (try split) <;> rfl

/-- C20: a base with a scheme never yields a result without one. -/
theorem C20_result_has_scheme (b r : Parts SV) (strict : Bool) (h : b.scheme ≠ none) : (join b r strict).scheme ≠ none := by
  simp only [join]
  generalize (if (!strict && optEq SV.eq r.scheme b.scheme) = true then none else r.scheme) = x
  cases x with
  | some s => simp
  | none =>
    cases r.authority with
    | some a => exact h
    | none => simp only; split <;> (try split) <;> exact h

/-! ### C21 -/

/-- C21, first half: no dot segments, unless the path is the base's own. -/
theorem C21_no_dots (b r : Parts SV) (strict : Bool) (hr : PathWf r.text.path) :
    (∀ g ∈ (join b r strict).path.segments, g.chars ≠ b! "." ∧ g.chars ≠ b! "..") ∨
    (r.path.segments = [] ∧ (join b r strict).path = b.path) := by
  obtain ⟨-, -, -, -, h5⟩ := join_text b r strict hr
  rcases h5 with ⟨-, h5, -, h6, -⟩ | ⟨-, h5, -, -⟩ | ⟨-, h5, -, -⟩
  · right; exact ⟨by simpa [Parts.text, Parts.map, Path.map] using h6, h5⟩
  · left; rw [h5]; exact C18_no_dots _
  · left; rw [h5]; exact C18_no_dots _

theorem segment_nil : Abnf.segment [] := ⟨[], rfl, by simp, by simp, by simp⟩

theorem rds_segment {P : Path SV} (h : ∀ g ∈ P.segments, Abnf.segment g.chars) : ∀ g ∈ P.removeDotSegments.segments, Abnf.segment g.chars := by
  intro g hg
  obtain ⟨l, tl, h1, h2, h3⟩ := C18_segments P
  rw [h1] at hg
  rcases List.mem_append.1 hg with hg | hg
  · exact h g (h2.subset hg)
  · rcases h3 with rfl | rfl
    · simp at hg
    · simp at hg; subst hg; exact segment_nil

theorem join_components_ok (b r : Parts SV) (strict : Bool) (hb : ComponentsOk b.text)
    (hs : ∀ s, r.text.scheme = some s → Abnf.scheme s)
    (hu : ∀ a, r.text.authority = some a → ∀ u, a.userinfo = some u → Abnf.userinfo u)
    (hh : ∀ a, r.text.authority = some a → Abnf.HostAccepted a.host)
    (hp : ∀ a, r.text.authority = some a → ∀ t, a.port = some t → Abnf.port t)
    (hpa : ∀ g ∈ r.text.path.segments, Abnf.segment g) (hq : ∀ q, r.text.query = some q → Abnf.query q)
    (hf : ∀ f, r.text.fragment = some f → Abnf.fragment f) : ComponentsOk (join b r strict).text := by
  have memB : ∀ g ∈ b.path.segments, Abnf.segment g.chars := fun g hg => hb.path g.chars (by simp [Parts.text, Parts.map, Path.map]; exact ⟨g, hg, rfl⟩)
  have memR : ∀ g ∈ r.path.segments, Abnf.segment g.chars := fun g hg => hpa g.chars (by simp [Parts.text, Parts.map, Path.map]; exact ⟨g, hg, rfl⟩)
  have memM : ∀ g ∈ (merge b r).segments, Abnf.segment g.chars := by
    intro g hg
    simp only [merge] at hg
    split at hg
    · exact memR g hg
    · rcases List.mem_append.1 hg with h | h
      · exact memB g (List.mem_of_mem_take h)
      · exact memR g h
  have toText : ∀ P : Path SV, (∀ g ∈ P.segments, Abnf.segment g.chars) → ∀ g ∈ (P.map SV.chars).segments, Abnf.segment g := by
    intro P h g hg
    obtain ⟨v, hv, rfl⟩ := List.mem_map.1 hg
    exact h v hv
  have hR := toText _ (rds_segment memR)
  have hM := toText _ (rds_segment memM)
  have hB := toText _ memB
  simp only [join]
  have hrs : ∀ s, (if (!strict && optEq SV.eq r.scheme b.scheme) = true then none else r.scheme) = some s → Abnf.scheme s.chars := by
    intro s h
    split at h
    · simp at h
    · exact hs s.chars (by simp [Parts.text, Parts.map, h])
  generalize (if (!strict && optEq SV.eq r.scheme b.scheme) = true then none else r.scheme) = x at *
  cases x with
  | some s =>
    exact ⟨⟨s.chars, rfl, hrs s rfl⟩, hu, hh, hp, hR, hq, hf⟩
  | none =>
    cases ha : r.authority with
    | some a =>
      have e : r.text.authority = some (a.map SV.chars) := by simp [Parts.text, Parts.map, ha]
      rw [e] at hu hh hp
      exact ⟨hb.scheme, hu, hh, hp, hR, hq, hf⟩
    | none =>
      simp only
      split
      · refine ⟨hb.scheme, hb.userinfo, hb.host, hb.port, hB, ?_, hf⟩
        cases hx : r.query with
        | none => exact hb.query
        | some q => intro q' h; exact hq q' (by simp [Parts.text, Parts.map, hx] at h ⊢; exact h)
      · split
        · exact ⟨hb.scheme, hb.userinfo, hb.host, hb.port, hR, hq, hf⟩
        · exact ⟨hb.scheme, hb.userinfo, hb.host, hb.port, hM, hq, hf⟩

/-- The join of parsed strings has well-formed components. -/
theorem join_parsed_ok {pl base ref} {b r : Parts SV} (strict : Bool) (e1 : split pl base = .ok (some b))
    (e2 : splitReference pl ref = .ok (some r)) : ComponentsOk (join b r strict).text := by
  have h1 := split_spec e1
  have h2 := splitReference_spec e2
  have hb : ComponentsOk b.text := derives_componentsOk (Or.inl h1.1) h1.2.1 (by
    obtain ⟨s, t, h, -⟩ := h1.1; rw [h]; simp)
  obtain ⟨a1, a2, a3, a4, a5, a6⟩ := derives_components h2.1
  exact join_components_ok b r strict hb a6 a1 h2.2.1 a2 a3 a4 a5

theorem pathCounted_congr {p q : Parts Str} (h1 : p.authority = q.authority) (h2 : p.path.segments = q.path.segments)
    (hc : Abnf.PathCounted p) : Abnf.PathCounted q := by
  intro ha g gs e
  exact hc (h1.trans ha) g gs (h2.trans e)

/-- C21, second half, with its exact condition: the path has the shape section 3.3 demands, and the first segment is not
one of those of C02 that no parse accepts. -/
theorem C21_compose_split_exact (pl : Plat) (base ref : SV) (strict : Bool) (t : Parts SV) (ptr : Nat)
    (h : joinStr pl base ref strict = .ok (some t)) :
    (∃ q, split pl ⟨ptr, compose t⟩ = .ok (some q) ∧ Parts.eq q t = true) ↔ PathShape t.text ∧ Abnf.PathCounted t.text := by
  obtain ⟨b, r, e1, e2, rfl⟩ := (C19_join_strings pl base ref strict t).1 h
  constructor
  · rintro ⟨q, h4, h5⟩
    exact C06_shape_needed pl _ ptr q h4 h5
  · rintro ⟨hs, hc⟩
    obtain ⟨p, h1, h2, h3⟩ := derives_of_components (join_parsed_ok strict e1 e2) hs
    rw [← compose_text] at h1
    obtain ⟨q, h4, rfl⟩ := split_complete (pl := pl) (sv := ⟨ptr, compose (join b r strict)⟩) h1 h2
      (pathCounted_congr h3.2.1.symm h3.2.2.2.2.1.symm hc)
    exact ⟨q, h4, partsEq_iff.2 h3⟩

/-- C21: with an authority in the base or the reference (and no other scheme), the composed text
is always parsed back to the same value, and the value is valid. -/
theorem C21_compose_split_authority (pl : Plat) (base ref : SV) (strict : Bool) (t : Parts SV) (ptr : Nat)
    (h : joinStr pl base ref strict = .ok (some t)) (ha : t.authority ≠ none) :
    ∃ q, split pl ⟨ptr, compose t⟩ = .ok (some q) ∧ Parts.eq q t = true := by
  refine (C21_compose_split_exact pl base ref strict t ptr h).2 ⟨fun hn => ?_, fun hn => ?_⟩ <;>
  · exfalso; apply ha
    simpa [Parts.text, Parts.map] using hn

/-- C21: for results whose segments are shorter than 4 GiB the shape is all that matters. -/
theorem C21_compose_split_short (pl : Plat) (base ref : SV) (strict : Bool) (t : Parts SV) (ptr : Nat)
    (h : joinStr pl base ref strict = .ok (some t)) (hl : ∀ g ∈ t.path.segments, g.chars.length < 2 ^ 32) :
    PathShape t.text ↔ ∃ q, split pl ⟨ptr, compose t⟩ = .ok (some q) ∧ Parts.eq q t = true := by
  rw [C21_compose_split_exact pl base ref strict t ptr h]
  obtain ⟨b, r, e1, e2, rfl⟩ := (C19_join_strings pl base ref strict t).1 h
  refine ⟨fun hs => ⟨hs, pathCounted_of_short fun g hg => ⟨(join_parsed_ok strict e1 e2).path g hg, ?_⟩⟩, fun h => h.1⟩
  simp only [Parts.text, Parts.map, Path.map, List.mem_map] at hg
  obtain ⟨v, hv, rfl⟩ := hg
  exact hl v hv

/-- The unrestricted C21 is false of the code: "/.//b" against "s:/a" composes to "s://b", which
has an authority. -/
theorem C21_counterexample :
    (joinStr x86 ⟨4096, b! "s:/a"⟩ ⟨8192, b! "/.//b"⟩ true).map (·.map compose) = .ok (some (b! "s://b")) ∧
    (split x86 ⟨4096, b! "s://b"⟩).map (·.map fun p => (p.text.authority, p.text.path)) =
      .ok (some (some ⟨none, b! "b", none⟩, ⟨false, []⟩)) := by decide +kernel

/-- Hypotheses of C21 met. -/
example : ∃ t, joinStr x86 exView ⟨8192, b! "../x?y"⟩ true = .ok (some t) ∧ t.authority ≠ none ∧ (compose t).length < 2 ^ 32 := by
  obtain ⟨t, h1, h2⟩ := run_text (x := joinStr x86 exView ⟨8192, b! "../x?y"⟩ true)
    (p := ⟨some (b! "http"), some ⟨some (b! "u"), b! "h", some (b! "8")⟩, ⟨true, [b! "x"]⟩, some (b! "y"), none⟩) (by decide +kernel)
  refine ⟨t, h1, ?_, ?_⟩
  · intro h; simp [Parts.text, Parts.map, h] at h2
  · rw [compose_text, h2]; decide

end Verif
