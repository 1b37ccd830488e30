import Verif.Props.Depends
import Verif.Props.Safety

/-!
# C97: resolving references step by step
-/

namespace Verif
set_option linter.unusedSimpArgs false

/-! ### Removing dot segments -/

theorem rdsSegs_ne {gs : List Str} (h : gs ≠ []) : rdsSegs id [] gs ≠ [] := by
  simp only [rdsSegs]
  split
  · cases e : (stackRun id [] gs).getLast? with
    | none => simp
    | some b =>
      simp only
      split
      · intro h0; rw [h0] at e; simp at e
      · simp
  · rename_i hd
    cases e : gs.getLast? with
    | none => simp at e; exact absurd e h
    | some g =>
      have hg : isDot g = false := by
        simp only [List.map_id, dirEnd, e] at hd
        cases hx : isDot g <;> simp_all
      have := stackRun_last_push [] gs g e hg
      intro h0; rw [h0] at this; simp at this

theorem rdsSegs_stack {gs : List Str} (h : lastDot gs = false) : rdsSegs id [] gs = stackRun id [] gs := by
  simp only [rdsSegs, List.map_id, dirEnd]
  cases e : gs.getLast? with
  | none => simp at e; subst e; rfl
  | some g =>
    have hg : isDot g = false := by rw [← lastDot_some e]; exact h
    have := stackRun_last_push [] gs g e hg
    simp only [hg, Bool.false_or, this, id_eq]
    split
    · rfl
    · rfl

theorem noUnder_of : ∀ (gs : List Str) (d : Nat), sinks d gs = false → noUnder d gs := by
  intro gs
  induction gs with
  | nil => intro d _; trivial
  | cons g gs ih =>
    intro d h
    simp only [sinks] at h
    simp only [noUnder]
    split
    · rw [if_pos (by assumption)] at h; exact ih d h
    · rw [if_neg (by assumption)] at h
      split
      · rw [if_pos (by assumption)] at h
        simp only [Bool.or_eq_false_iff, beq_eq_false_iff_ne] at h
        exact ⟨by omega, ih _ h.2⟩
      · rw [if_neg (by assumption)] at h; exact ih _ h

theorem stackRun_under (S : List Str) : ∀ (gs D : List Str), noUnder D.length gs → stackRun id (S ++ D) gs = S ++ stackRun id D gs := by
  induction S with
  | nil => intro gs D _; rfl
  | cons s S ih =>
    intro gs D h
    have hm : ∀ (gs : List Str) (d e : Nat), d ≤ e → noUnder d gs → noUnder e gs := by
      intro gs
      induction gs with
      | nil => intro d e _ _; trivial
      | cons g gs ih =>
        intro d e hde h
        simp only [noUnder] at h ⊢
        split
        · rw [if_pos (by assumption)] at h; exact ih _ _ hde h
        · rw [if_neg (by assumption)] at h
          split
          · rw [if_pos (by assumption)] at h; exact ⟨by omega, ih _ _ (by omega) h.2⟩
          · rw [if_neg (by assumption)] at h; exact ih _ _ (by omega) h
    rw [List.cons_append, stackRun_noUnder s gs (S ++ D) (hm gs _ _ (by simp) h), ih gs D h]
    rfl

/-! ### `join` on text -/

/-- What `merge` puts before the segments of the reference, and whether the result is absolute. -/
def baseDir (b : Parts Str) : Path Str :=
  if b.authority.isSome && b.path.segments.isEmpty then ⟨true, []⟩
  else ⟨b.path.absolute, b.path.segments.take (if b.path.segments.length > 1 then b.path.segments.length - 1 else b.path.segments.length)⟩

theorem mergeT_dir (b r : Parts Str) : mergeT b r = ⟨(baseDir b).absolute, (baseDir b).segments ++ r.path.segments⟩ := by
  simp only [mergeT, baseDir]
  split <;> rfl

theorem mergeT_ne {b r : Parts Str} (h : r.path.segments ≠ []) : (rdsT (mergeT b r)).segments ≠ [] := by
  rw [mergeT_dir]
  exact rdsSegs_ne (by simp [h])

theorem rdsT_ne {p : Path Str} (h : p.segments ≠ []) : (rdsT p).segments ≠ [] := rdsSegs_ne h

theorem rdsT_nodot {p : Path Str} (h : ∀ g ∈ p.segments, isDot g = false) : rdsT p = p := by
  obtain ⟨a, gs⟩ := p
  simp only [rdsT, rdsSegs_id id [] gs h]

/-- Strict resolution, case by case. -/
theorem joinT_scheme {b r : Parts Str} (h : r.scheme ≠ none) : joinT b r true = ⟨r.scheme, r.authority, rdsT r.path, r.query, r.fragment⟩ := by
  simp [joinT, h]
theorem joinT_authority {b r : Parts Str} (h : r.scheme = none) (ha : r.authority.isSome = true) :
    joinT b r true = ⟨b.scheme, r.authority, rdsT r.path, r.query, r.fragment⟩ := by
  simp [joinT, h, ha]
theorem joinT_empty {b r : Parts Str} (h : r.scheme = none) (ha : r.authority = none) (hp : r.path.segments = []) :
    joinT b r true = ⟨b.scheme, b.authority, b.path, if r.query.isSome then r.query else b.query, r.fragment⟩ := by
  simp [joinT, h, ha, hp]
theorem joinT_root {b r : Parts Str} (h : r.scheme = none) (ha : r.authority = none) (hp : r.path.segments ≠ []) (hr : r.path.absolute = true) :
    joinT b r true = ⟨b.scheme, b.authority, rdsT r.path, r.query, r.fragment⟩ := by
  simp [joinT, h, ha, hp, hr]
theorem joinT_merge {b r : Parts Str} (h : r.scheme = none) (ha : r.authority = none) (hp : r.path.segments ≠ []) (hr : r.path.absolute = false) :
    joinT b r true = ⟨b.scheme, b.authority, rdsT (mergeT b r), r.query, r.fragment⟩ := by
  simp [joinT, h, ha, hp, hr]

theorem joinT_scheme_of (b r : Parts Str) : (joinT b r true).scheme = if r.scheme.isSome then r.scheme else b.scheme := by
  cases h : r.scheme with
  | some s => rw [joinT_scheme (by simp [h])]; simp [h]
  | none =>
    simp only [joinT, h, or_true, if_true]
    split
    · rfl
    · split
      · rfl
      · split <;> rfl

theorem joinT_authority_of (b r : Parts Str) : (joinT b r true).authority = if r.scheme.isSome || r.authority.isSome then r.authority else b.authority := by
  cases h : r.scheme with
  | some s => rw [joinT_scheme (by simp [h])]; simp
  | none =>
    cases ha : r.authority with
    | some a => rw [joinT_authority h (by simp [ha])]; simp [ha]
    | none =>
      simp only [joinT, h, ha, or_true, if_true]
      simp only [Option.isSome_none, Bool.false_eq_true, if_false, Bool.or_self]
      split
      · rfl
      · split <;> rfl

theorem rdsT_absolute (p : Path Str) : (rdsT p).absolute = p.absolute := rfl

theorem assoc_steps (b r1 r2 : Parts Str) (h : r2.scheme ≠ none ∨ r2.authority ≠ none ∨ r2.path.segments = [] ∨ r2.path.absolute = true) :
    joinT (joinT b r1 true) r2 true = joinT b (joinT r1 r2 true) true := by
  by_cases h2 : r2.scheme = none
  · cases ha2 : r2.authority with
    | some a =>
      have hs : r2.authority.isSome = true := by simp [ha2]
      rw [joinT_authority h2 hs, joinT_authority (b := r1) h2 hs, joinT_scheme_of]
      by_cases h1 : r1.scheme = none
      · rw [joinT_authority (b := b) (by exact h1) (by exact hs)]
        simp [h1, rdsT_idem]
      · rw [joinT_scheme (b := b) (by exact h1)]
        simp [Option.isSome_iff_ne_none.2 h1, rdsT_idem]
    | none =>
      by_cases hp2 : r2.path.segments = []
      · rw [joinT_empty h2 ha2 hp2, joinT_empty (b := r1) h2 ha2 hp2]
        by_cases h1 : r1.scheme = none
        · cases ha1 : r1.authority with
          | some a => rw [joinT_authority (b := b) (r := r1) h1 (by simp [ha1]), joinT_authority (b := b) (by exact h1) (by simp)]; simp [ha1]
          | none =>
            by_cases hp1 : r1.path.segments = []
            · rw [joinT_empty (b := b) (r := r1) h1 ha1 hp1, joinT_empty (b := b) (by exact h1) (by rfl) (by exact hp1)]
              cases r2.query <;> simp
            · by_cases hr1 : r1.path.absolute = true
              · rw [joinT_root (b := b) (r := r1) h1 ha1 hp1 hr1, joinT_root (b := b) (by exact h1) (by rfl) (by exact hp1) (by exact hr1)]
              · have hr1 : r1.path.absolute = false := by simpa using hr1
                rw [joinT_merge (b := b) (r := r1) h1 ha1 hp1 hr1, joinT_merge (b := b) (by exact h1) (by rfl) (by exact hp1) (by exact hr1)]
                rfl
        · rw [joinT_scheme (b := b) (r := r1) h1, joinT_scheme (b := b) (by exact h1)]
      · have hr2 : r2.path.absolute = true := by
          rcases h with h | h | h | h
          · exact absurd h2 h
          · exact absurd ha2 h
          · exact absurd h hp2
          · exact h
        rw [joinT_root h2 ha2 hp2 hr2, joinT_root (b := r1) h2 ha2 hp2 hr2, joinT_scheme_of, joinT_authority_of]
        by_cases h1 : r1.scheme = none
        · cases ha1 : r1.authority with
          | some a => rw [joinT_authority (b := b) (by exact h1) (by simp)]; simp [h1, rdsT_idem]
          | none => rw [joinT_root (b := b) (by exact h1) (by rfl) (by exact rdsT_ne hp2) (by exact hr2)]; simp [h1, rdsT_idem]
        · rw [joinT_scheme (b := b) (by exact h1)]
          simp [Option.isSome_iff_ne_none.2 h1, rdsT_idem]
  · rw [joinT_scheme h2, joinT_scheme (b := r1) h2, joinT_scheme (b := b) (by exact h2)]
    simp [rdsT_idem]

theorem mergeT_path {b b' r : Parts Str} (h1 : b.authority.isSome = b'.authority.isSome) (h2 : b.path = b'.path) : mergeT b r = mergeT b' r := by
  simp only [mergeT, h1, h2]

theorem assoc_rooted (b r1 r2 : Parts Str) (h : r1.scheme ≠ none ∨ r1.authority ≠ none ∨ (r1.path.absolute = true ∧ r1.path.segments ≠ []))
    (hd : ∀ g ∈ r1.path.segments, isDot g = false) : joinT (joinT b r1 true) r2 true = joinT b (joinT r1 r2 true) true := by
  by_cases hx : r2.scheme ≠ none ∨ r2.authority ≠ none ∨ r2.path.segments = [] ∨ r2.path.absolute = true
  · exact assoc_steps b r1 r2 hx
  · simp only [not_or, Classical.not_not, Bool.not_eq_true, ne_eq] at hx
    obtain ⟨h2, ha2, hp2, hr2⟩ := hx
    rw [joinT_merge h2 ha2 hp2 hr2, joinT_merge (b := r1) h2 ha2 hp2 hr2, joinT_scheme_of, joinT_authority_of]
    by_cases h1 : r1.scheme = none
    · cases ha1 : r1.authority with
      | some a =>
        rw [joinT_authority (b := b) (r := r1) h1 (by simp [ha1]), joinT_authority (b := b) (by exact h1) (by simp), rdsT_nodot hd]
        simp only [h1, rdsT_idem, Option.isSome_none, Option.isSome_some, Bool.or_true, if_true, Bool.false_eq_true, if_false]
        rw [mergeT_path (b' := r1) (by simp [ha1]) (by rfl)]
      | none =>
        obtain ⟨hr1, hp1⟩ : r1.path.absolute = true ∧ r1.path.segments ≠ [] := by
          rcases h with h | h | h
          · exact absurd h1 h
          · exact absurd ha1 h
          · exact h
        have habs : (rdsT (mergeT r1 r2)).absolute = true := by
          rw [rdsT_absolute, mergeT_dir]
          simp only [baseDir]
          split <;> simp [hr1]
        rw [joinT_root (b := b) (r := r1) h1 ha1 hp1 hr1, joinT_root (b := b) (by exact h1) (by rfl) (by exact mergeT_ne hp2) (by exact habs), rdsT_nodot hd]
        simp only [h1, ha1, rdsT_idem, Option.isSome_none, Bool.or_self, Bool.false_eq_true, if_false]
        have : mergeT ⟨b.scheme, b.authority, r1.path, r1.query, r1.fragment⟩ r2 = mergeT r1 r2 := by
          simp only [mergeT, hp1, Bool.and_eq_true, List.isEmpty_iff, and_false, if_false]
        rw [this]
    · rw [joinT_scheme (b := b) (r := r1) h1, joinT_scheme (b := b) (by exact h1), rdsT_nodot hd]
      simp only [Option.isSome_iff_ne_none.2 h1, Bool.true_or, if_true, rdsT_idem]

theorem lastDot_append (xs : List Str) {ys : List Str} (h : ys ≠ []) : lastDot (xs ++ ys) = lastDot ys := by
  simp only [lastDot, getLast?_append' xs h]

theorem lastDot_nodot {gs : List Str} (h : ∀ g ∈ gs, isDot g = false) : lastDot gs = false := by
  cases e : gs.getLast? with
  | none => exact lastDot_none e
  | some g => rw [lastDot_some e]; exact h g (List.mem_of_getLast? e)

theorem assoc_relative (b r1 r2 : Parts Str) (h1 : r1.scheme = none) (ha1 : r1.authority = none) (hr1 : r1.path.absolute = false)
    (hd : ∀ g ∈ r1.path.segments, isDot g = false) (hl : r1.path.segments.length ≠ 1)
    (hs : sinks (r1.path.segments.length - 1) r2.path.segments = false) (hld : lastDot r2.path.segments = false) :
    joinT (joinT b r1 true) r2 true = joinT b (joinT r1 r2 true) true := by
  by_cases hx : r2.scheme ≠ none ∨ r2.authority ≠ none ∨ r2.path.segments = [] ∨ r2.path.absolute = true
  · exact assoc_steps b r1 r2 hx
  · simp only [not_or, Classical.not_not, Bool.not_eq_true, ne_eq] at hx
    obtain ⟨h2, ha2, hp2, hr2⟩ := hx
    have hD : baseDir r1 = ⟨false, r1.path.segments.take (r1.path.segments.length - 1)⟩ := by
      simp only [baseDir, ha1, Option.isSome_none, Bool.false_and, Bool.false_eq_true, if_false, hr1]
      split
      · rfl
      · have : r1.path.segments = [] := by
          cases e : r1.path.segments with
          | nil => rfl
          | cons x xs => rw [e] at hl; simp at hl; rename_i hn; rw [e] at hn; cases xs <;> simp_all
        simp [this]
    generalize hDD : r1.path.segments.take (r1.path.segments.length - 1) = D at hD
    have hDl : D.length = r1.path.segments.length - 1 := by rw [← hDD, List.length_take]; omega
    have hDn : ∀ g ∈ D, isDot g = false := fun g hg => hd g (by rw [← hDD] at hg; exact List.mem_of_mem_take hg)
    have hu : noUnder D.length r2.path.segments := by rw [hDl]; exact noUnder_of _ _ hs
    -- the reference resolved against the reference
    have e1 : rdsT (mergeT r1 r2) = ⟨false, stackRun id D r2.path.segments⟩ := by
      rw [mergeT_dir, hD]
      simp only [rdsT]
      rw [rdsSegs_stack (by rw [lastDot_append _ hp2]; exact hld), stackRun_append, stackRun_id id D [] hDn]
      rfl
    have hne : stackRun id D r2.path.segments ≠ [] := by
      have := mergeT_ne (b := r1) hp2
      rw [e1] at this
      exact this
    have hTn : ∀ g ∈ stackRun id D r2.path.segments, isDot g = false := stackRun_nodot id _ D hDn
    generalize hT : stackRun id D r2.path.segments = T at *
    have hTl : lastDot T = false := lastDot_nodot hTn
    -- what the base contributes
    generalize hS : stackRun id [] (baseDir b).segments = S
    have hSn : ∀ g ∈ S, isDot g = false := hS ▸ stackRun_nodot id _ [] (by simp)
    have eR : ∀ q f, joinT b ⟨none, none, ⟨false, T⟩, q, f⟩ true = ⟨b.scheme, b.authority, ⟨(baseDir b).absolute, S ++ T⟩, q, f⟩ := fun q f => by
      rw [joinT_merge (by rfl) (by rfl) (by exact hne) (by rfl), mergeT_dir]
      simp only [rdsT]
      rw [rdsSegs_stack (by rw [lastDot_append _ hne]; exact hTl), stackRun_append, hS, stackRun_id id T S hTn]
    rw [joinT_merge (b := r1) h2 ha2 hp2 hr2, e1, h1, ha1, eR, joinT_merge h2 ha2 hp2 hr2, joinT_scheme_of, joinT_authority_of]
    simp only [h1, ha1, Option.isSome_none, Bool.or_self, Bool.false_eq_true, if_false]
    suffices hm : rdsT (mergeT (joinT b r1 true) r2) = ⟨(baseDir b).absolute, S ++ T⟩ by rw [hm]
    have key : ∀ (x : Path Str), x.absolute = (baseDir b).absolute → stackRun id [] x.segments = S ++ D → rdsT ⟨x.absolute, x.segments ++ r2.path.segments⟩ = ⟨(baseDir b).absolute, S ++ T⟩ := by
      intro x hx1 hx2
      simp only [rdsT, hx1]
      rw [rdsSegs_stack (by rw [lastDot_append _ hp2]; exact hld), stackRun_append, hx2, stackRun_under S _ D hu, hT]
    rw [mergeT_dir]
    by_cases hp1 : r1.path.segments = []
    · have hD0 : D = [] := by rw [← hDD, hp1]; rfl
      have hbd : baseDir (joinT b r1 true) = baseDir b := by
        rw [joinT_empty h1 ha1 hp1]; rfl
      rw [hbd]
      exact key (baseDir b) rfl (by rw [hS, hD0, List.append_nil])
    · have hlen : 2 ≤ r1.path.segments.length := by
        have := List.length_pos_iff.2 hp1
        omega
      have hj : joinT b r1 true = ⟨b.scheme, b.authority, ⟨(baseDir b).absolute, S ++ r1.path.segments⟩, r1.query, r1.fragment⟩ := by
        rw [joinT_merge h1 ha1 hp1 hr1, mergeT_dir]
        simp only [rdsT]
        rw [rdsSegs_stack (by rw [lastDot_append _ hp1]; exact lastDot_nodot hd), stackRun_append, hS, stackRun_id id _ S hd]
      have hbd : baseDir (joinT b r1 true) = ⟨(baseDir b).absolute, S ++ D⟩ := by
        rw [hj]
        have hemp : (S ++ r1.path.segments).isEmpty = false := by
          cases e : S ++ r1.path.segments with
          | nil => simp at e; exact absurd e.2 hp1
          | cons => rfl
        have hgt : (S ++ r1.path.segments).length > 1 := by simp; omega
        have htk : (S ++ r1.path.segments).take ((S ++ r1.path.segments).length - 1) = S ++ D := by
          rw [List.take_append, List.take_of_length_le (by simp; omega), ← hDD, List.length_append]
          congr 2
          omega
        rw [baseDir]
        simp only [hemp, Bool.and_false, Bool.false_eq_true, if_false, hgt, if_true, htk]
      rw [hbd]
      refine key ⟨(baseDir b).absolute, S ++ D⟩ rfl ?_
      exact stackRun_id id (S ++ D) [] fun g hg => by
        rcases List.mem_append.1 hg with hg | hg
        · exact hSn g hg
        · exact hDn g hg

/-! ### C97 -/

theorem text_nodot {r : Parts SV} (hd : ∀ g ∈ r.path.segments, g.chars ≠ b! "." ∧ g.chars ≠ b! "..") : ∀ g ∈ r.text.path.segments, isDot g = false := by
  intro g hg
  obtain ⟨v, hv, rfl⟩ := List.mem_map.1 hg
  have := hd v hv
  simp [isDot, this]

theorem text_segments (r : Parts SV) : r.text.path.segments = r.path.segments.map SV.chars := rfl

/-- **C97.** Resolving a reference and then another one against the result comes to the same as resolving the second against the first,
and then the result against the base: whatever the base and the first reference are, if the second has a scheme, an authority, an
absolute path or no path. -/
theorem C97_second_rooted (b r1 r2 : Parts SV) (h : r2.scheme ≠ none ∨ r2.authority ≠ none ∨ r2.path.segments = [] ∨ r2.path.absolute = true) :
    (join (join b r1 true) r2 true).text = (join b (join r1 r2 true) true).text := by
  rw [joinT_text, joinT_text, joinT_text, joinT_text]
  refine assoc_steps _ _ _ ?_
  rcases h with h | h | h | h
  · exact Or.inl (by simpa [Parts.text, Parts.map] using h)
  · exact Or.inr (Or.inl (by simpa [Parts.text, Parts.map] using h))
  · exact Or.inr (Or.inr (Or.inl (by simpa [Parts.text, Parts.map, Path.map] using h)))
  · exact Or.inr (Or.inr (Or.inr h))

/-- **C97.** The same for any second reference, if the first has a scheme, an authority or an absolute path, and no dot segments. -/
theorem C97_first_rooted (b r1 r2 : Parts SV) (h : r1.scheme ≠ none ∨ r1.authority ≠ none ∨ (r1.path.absolute = true ∧ r1.path.segments ≠ []))
    (hd : ∀ g ∈ r1.path.segments, g.chars ≠ b! "." ∧ g.chars ≠ b! "..") :
    (join (join b r1 true) r2 true).text = (join b (join r1 r2 true) true).text := by
  rw [joinT_text, joinT_text, joinT_text, joinT_text]
  refine assoc_rooted _ _ _ ?_ (text_nodot hd)
  rcases h with h | h | ⟨h, h'⟩
  · exact Or.inl (by simpa [Parts.text, Parts.map] using h)
  · exact Or.inr (Or.inl (by simpa [Parts.text, Parts.map] using h))
  · exact Or.inr (Or.inr ⟨h, by simpa [Parts.text, Parts.map, Path.map] using h'⟩)

/-- **C97.** The same if the first is relative: a path without dot segments that does not consist of one segment; and the second has
no `..` at a point where nothing is left of the directory of the first, and does not end with a dot segment. -/
theorem C97_relative (b r1 r2 : Parts SV) (h1 : r1.scheme = none) (ha : r1.authority = none) (hr : r1.path.absolute = false)
    (hd : ∀ g ∈ r1.path.segments, g.chars ≠ b! "." ∧ g.chars ≠ b! "..") (hl : r1.path.segments.length ≠ 1)
    (hs : sinks (r1.path.segments.length - 1) (r2.path.segments.map SV.chars) = false) (hld : lastDot (r2.path.segments.map SV.chars) = false) :
    (join (join b r1 true) r2 true).text = (join b (join r1 r2 true) true).text := by
  rw [joinT_text, joinT_text, joinT_text, joinT_text]
  have hlen : r1.text.path.segments.length = r1.path.segments.length := by rw [text_segments, List.length_map]
  exact assoc_relative _ _ _ (by simpa [Parts.text, Parts.map] using h1) (by simpa [Parts.text, Parts.map] using ha) hr (text_nodot hd)
    (by rw [hlen]; exact hl) (by rw [hlen]; exact hs) hld

/-- The two ways to resolve a chain of references given as strings, composed. -/
def bothWays (base r1 r2 : Str) (strict : Bool) : Option (Str × Str) :=
  match (split x86 ⟨4096, base⟩).toOption.bind id, (splitReference x86 ⟨8192, r1⟩).toOption.bind id, (splitReference x86 ⟨12288, r2⟩).toOption.bind id with
  | some b, some p1, some p2 => some (compose (join (join b p1 strict) p2 strict), compose (join b (join p1 p2 strict) strict))
  | _, _, _ => none

/-- Cases the theorems speak of. -/
example : bothWays (b! "http://h/x/y?q") (b! "//k/a/b") (b! "../c?r") true = some (b! "http://k/c?r", b! "http://k/c?r") ∧
    bothWays (b! "http://h/x/../y/z") (b! "a/b/c") (b! "../d#f") true = some (b! "http://h/y/a/d#f", b! "http://h/y/a/d#f") ∧
    bothWays (b! "http://h/x/y") (b! "../a/..") (b! "?q") true = some (b! "http://h/?q", b! "http://h/?q") := by decide +kernel

/-- **C97.** None of the conditions can be left out.  In turn: the first reference ends with a dot segment; it is a relative path of
one segment; the second climbs out of it; the second ends with a dot segment; resolution is not strict. -/
theorem C97_counterexamples :
    bothWays (b! "http://h/x") (b! "/a/..") (b! "q") true = some (b! "http://h//q", b! "http://h/a/q") ∧
    bothWays (b! "http://h/x/y") (b! "a") (b! "c") true = some (b! "http://h/x/c", b! "http://h/x/a/c") ∧
    bothWays (b! "http://h/x/y/z") (b! "a/b") (b! "../../c") true = some (b! "http://h/x/c", b! "http://h/x/y/c") ∧
    bothWays (b! "http://h/a//b") [] (b! ".") true = some (b! "http://h/a/", b! "http://h/a//") ∧
    bothWays (b! "http://h/x/y") (b! "/a/b") (b! "http:c") false = some (b! "http://h/a/c", b! "http://h/x/c") := by decide +kernel

end Verif
