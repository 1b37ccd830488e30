import Verif.Props.Resolve

/-!
# `join` as a function of the text alone
-/

namespace Verif
set_option linter.unusedSimpArgs false

/-- `remove_dot_segments` on text. -/
def rdsT (p : Path Str) : Path Str := ⟨p.absolute, rdsSegs id [] p.segments⟩

/-- `merge` on text. -/
def mergeT (b r : Parts Str) : Path Str :=
  if b.authority.isSome && b.path.segments.isEmpty then ⟨true, r.path.segments⟩
  else ⟨b.path.absolute,
    b.path.segments.take (if b.path.segments.length > 1 then b.path.segments.length - 1 else b.path.segments.length) ++
      r.path.segments⟩

/-- `join` on text. -/
def joinT (b r : Parts Str) (strict : Bool) : Parts Str :=
  if (¬ strict = true ∧ r.scheme = b.scheme) ∨ r.scheme = none then
    if r.authority.isSome then ⟨b.scheme, r.authority, rdsT r.path, r.query, r.fragment⟩
    else if r.path.segments = [] then
      ⟨b.scheme, b.authority, b.path, if r.query.isSome then r.query else b.query, r.fragment⟩
    else if r.path.absolute then ⟨b.scheme, b.authority, rdsT r.path, r.query, r.fragment⟩
    else ⟨b.scheme, b.authority, rdsT (mergeT b r), r.query, r.fragment⟩
  else ⟨r.scheme, r.authority, rdsT r.path, r.query, r.fragment⟩

theorem rdsT_text (p : Path SV) : (p.removeDotSegments).map SV.chars = rdsT (p.map SV.chars) := rds_text p

theorem mergeT_text (b r : Parts SV) : (merge b r).map SV.chars = mergeT b.text r.text := by
  have h1 : b.text.authority.isSome = b.authority.isSome := by simp [Parts.text, Parts.map]
  have h2 : b.text.path.segments.isEmpty = b.path.empty := by simp [Parts.text, Parts.map, Path.map, Path.empty]
  have h3 : b.text.path.segments.length = b.path.segments.length := by simp [Parts.text, Parts.map, Path.map]
  simp only [merge, mergeT, h1, h2, h3]
  cases hc : b.authority.isSome && b.path.empty
  · simp [Path.map, Parts.text, Parts.map, List.map_take]
  · simp [Path.map, Parts.text, Parts.map]

theorem iteMap (x y : Option SV) : (if (x.map SV.chars).isSome = true then x.map SV.chars else y.map SV.chars) =
    (if x.isSome = true then x else y).map SV.chars := by
  cases x <;> rfl

theorem joinT_text (b r : Parts SV) (strict : Bool) : (join b r strict).text = joinT b.text r.text strict := by
  have hsch := refScheme_text b r strict
  have hm := mergeT_text b r
  have hr := rdsT_text r.path
  have hmr := rdsT_text (merge b r)
  simp only [join]
  generalize (if (!strict && optEq SV.eq r.scheme b.scheme) = true then none else r.scheme) = rs at *
  have hcond : ((¬ strict = true ∧ r.text.scheme = b.text.scheme) ∨ r.text.scheme = none) ↔ rs = none := by
    have : rs = none ↔ rs.map SV.chars = none := by simp
    rw [this, hsch]
    by_cases h : ¬ strict = true ∧ r.text.scheme = b.text.scheme
    · simp [h]
    · rw [if_neg h]; exact ⟨fun h' => h'.elim (fun h'' => absurd h'' h) id, Or.inr⟩
  simp only [joinT]
  cases rs with
  | some s =>
    have hnc : ¬ ((¬ strict = true ∧ r.text.scheme = b.text.scheme) ∨ r.text.scheme = none) := fun h => by simpa using hcond.1 h
    simp only [if_neg hnc]
    have hne : ¬ (¬ strict = true ∧ r.text.scheme = b.text.scheme) := fun h => by simpa using hcond.1 (Or.inl h)
    rw [if_neg hne] at hsch
    simp only [← hsch]
    simp only [Parts.text, Parts.map, hr]
  | none =>
    rw [if_pos (hcond.2 rfl)]
    have h1 : r.text.authority.isSome = r.authority.isSome := by simp [Parts.text, Parts.map]
    have h2 : r.text.path.segments = [] ↔ r.path.segments = [] := by simp [Parts.text, Parts.map, Path.map]
    have h3 : r.text.path.absolute = r.path.absolute := rfl
    rw [h1]
    cases ha : r.authority with
    | some a => simp only [Option.isSome_some, if_true, Parts.text, Parts.map, hr, ha, Option.map_some]
    | none =>
      simp only [Option.isSome_none, Bool.false_eq_true, if_false]
      by_cases hp : r.path.segments = []
      · have hpe : r.path.empty = true := by simp [Path.empty, hp]
        have hq : (if r.text.query.isSome = true then r.text.query else b.text.query) =
            (if r.query.isSome = true then r.query else b.query).map SV.chars := iteMap r.query b.query
        rw [if_pos (h2.2 hp), hpe, hq]
        simp only [if_true, Parts.text, Parts.map]
      · have hpe : r.path.empty = false := by
          cases hx : r.path.segments with
          | nil => exact absurd hx hp
          | cons => simp [Path.empty, hx]
        rw [if_neg (fun h => hp (h2.1 h)), hpe, h3]
        simp only [Bool.false_eq_true, if_false]
        cases r.path.absolute with
        | true => simp only [if_true, Parts.text, Parts.map, hr]
        | false => simp only [Bool.false_eq_true, if_false, Parts.text, Parts.map, hmr, hm]

theorem joinT_congr {b b' r r' : Parts Str} (strict : Bool) (hb : SameComponents b b') (hr : SameComponents r r') :
    SameComponents (joinT b r strict) (joinT b' r' strict) := by
  obtain ⟨s, A, ⟨ab, P⟩, q, f⟩ := b
  obtain ⟨s', A', ⟨ab', P'⟩, q', f'⟩ := b'
  obtain ⟨rs, rA, ⟨rab, rP⟩, rq, rf⟩ := r
  obtain ⟨rs', rA', ⟨rab', rP'⟩, rq', rf'⟩ := r'
  obtain ⟨h1, h2, h3, h4, h5, h6⟩ := hb
  obtain ⟨g1, g2, g3, g4, g5, g6⟩ := hr
  simp only at h1 h2 h3 h4 h5 h6 g1 g2 g3 g4 g5 g6
  subst h1 h2 h3 h4 h5 g1 g2 g3 g4 g5
  simp only [joinT, mergeT, rdsT]
  by_cases hc : (¬ strict = true ∧ rs = s) ∨ rs = none
  · simp only [if_pos hc]
    cases rA with
    | some a => simp [SameComponents]
    | none =>
      have := g6 rfl; subst this
      simp only [Option.isSome_none, Bool.false_eq_true, if_false]
      by_cases hp : rP = []
      · simp only [if_pos hp]; exact ⟨rfl, rfl, rfl, rfl, rfl, h6⟩
      · simp only [if_neg hp]
        cases rab with
        | true => simp [SameComponents]
        | false =>
          simp only [Bool.false_eq_true, if_false]
          refine ⟨rfl, rfl, rfl, rfl, ?_, ?_⟩
          · split <;> rfl
          · rintro rfl; have := h6 rfl; subst this; rfl
  · simp only [if_neg hc]; exact ⟨rfl, rfl, rfl, rfl, rfl, g6⟩

theorem rdsT_idem (p : Path Str) : rdsT (rdsT p) = rdsT p := by
  simp only [rdsT]
  rw [rdsSegs_id id [] _ (rdsSegs_nodot id [] rfl p.segments)]

theorem rdsT_fixed_iff (p : Path Str) : (rdsT p).segments = p.segments ↔ ∀ g ∈ p.segments, isDot g = false := by
  constructor
  · intro h g hg
    rw [← h] at hg
    exact rdsSegs_nodot id [] rfl p.segments g hg
  · intro h; exact rdsSegs_id id [] _ h

end Verif
