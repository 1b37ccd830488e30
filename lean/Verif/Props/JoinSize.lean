import Verif.Props.Depends
import Verif.Props.Parse
import Verif.Props.Resolve

/-!
# C93: how long a resolved reference can be
-/

namespace Verif
set_option linter.unusedSimpArgs false

/-! ### Specification -/

/-- Resolving one reference after the other, each against the result of the one before. -/
def joinAll (strict : Bool) (b : Parts SV) (rs : List (Parts SV)) : Parts SV := rs.foldl (fun t r => join t r strict) b

/-- The path of the base has at most one segment, and there is something before the path of the reference: it or an authority. -/
def ShortBase (b : Parts Str) : Prop := b.path.segments.length ≤ 1 ∧ (b.authority ≠ none ∨ b.path.segments ≠ [] ∨ b.path.absolute = true)

/-! ### Proofs -/

/-- Length of the segments with a slash each. -/
def weight (gs : List Str) : Nat := (Abnf.slashes gs).length

theorem weight_nil : weight [] = 0 := rfl
theorem weight_cons (g : Str) (gs : List Str) : weight (g :: gs) = g.length + 1 + weight gs := by
  simp [weight, slashes_cons]; omega
theorem weight_append (a b : List Str) : weight (a ++ b) = weight a + weight b := by simp [weight, slashes_append]

theorem weight_dropLast (l : List Str) : weight l.dropLast ≤ weight l := by
  rcases List.eq_nil_or_concat l with rfl | ⟨x, y, rfl⟩
  · simp
  · rw [List.concat_eq_append, List.dropLast_concat, weight_append]; omega

theorem weight_run (gs st : List Str) : weight (stackRun id st gs) ≤ weight st + weight gs := by
  induction gs generalizing st with
  | nil => simp [stackRun, weight_nil]
  | cons g gs ih =>
    rw [weight_cons]
    simp only [stackRun]
    split
    · have := ih st; omega
    · split
      · have := ih st.dropLast; have := weight_dropLast st; omega
      · have := ih (st ++ [g]); rw [weight_append, weight_cons, weight_nil] at this; omega

theorem weight_rds (gs : List Str) : weight (rdsSegs id [] gs) ≤ weight gs := by
  have h0 := weight_run gs []
  rw [weight_nil, Nat.zero_add] at h0
  simp only [rdsSegs, List.map_id]
  by_cases hd : dirEnd false gs = true
  · rw [if_pos hd]
    -- something was removed if a segment is added
    have hadd : (stackRun id [] gs).getLast? ≠ some [] → weight (stackRun id [] gs ++ [[]]) ≤ weight gs := by
      intro hne
      rw [weight_append, weight_cons, weight_nil]
      rcases List.eq_nil_or_concat gs with rfl | ⟨x, g, rfl⟩
      · simp [dirEnd] at hd
      · rw [List.concat_eq_append] at *
        simp only [dirEnd, List.getLast?_append, List.getLast?_singleton, Option.some_or, Bool.or_eq_true] at hd
        by_cases hdot : isDot g = true
        · have hx := weight_run x []
          rw [weight_nil, Nat.zero_add] at hx
          rw [weight_append, weight_cons, weight_nil]
          rw [stackRun_append]
          have hg : 1 ≤ g.length := by
            simp only [isDot, Bool.or_eq_true, beq_iff_eq] at hdot
            rcases hdot with rfl | rfl <;> simp
          have hs : weight (stackRun id (stackRun id [] x) [g]) ≤ weight (stackRun id [] x) := by
            simp only [isDot, Bool.or_eq_true, beq_iff_eq] at hdot
            rcases hdot with rfl | rfl
            · simp [stackRun]
            · simpa [stackRun] using weight_dropLast _
          simp only [List.length_nil]
          omega
        · have hf : isDot g = false := by simpa using hdot
          have := stackRun_last_push [] (x ++ [g]) g (by simp) hf
          rcases hd with hd | hd
          · exact absurd hd hdot
          · simp only [List.isEmpty_iff] at hd
            rw [this, hd] at hne
            exact absurd rfl hne
    split
    · rename_i hl
      exact hadd (by rw [hl]; simp)
    · rename_i b hl
      split
      · exact h0
      · rename_i hb
        refine hadd (by rw [hl]; intro k; cases k; simp at hb)
  · rw [if_neg hd]; exact h0

theorem pathText_length (ab : Bool) (gs : List Str) :
    (gs = [] → weight gs = 0 ∧ (pathText ⟨ab, gs⟩).length = 0) ∧
    (gs ≠ [] → 1 ≤ weight gs ∧ (pathText ⟨ab, gs⟩).length + (if ab then 0 else 1) = weight gs) := by
  refine ⟨by rintro rfl; simp [weight_nil, pathText], fun h => ?_⟩
  have hs := slashes_join gs h
  have h1 : weight gs = (joinText gs).length + 1 := by rw [weight, hs]; simp
  refine ⟨by omega, ?_⟩
  cases ab with
  | true => rw [pathText_abs]; simp [weight]
  | false => rw [pathText_rel]; simp [h1]

theorem pathText_le {ab : Bool} {gs gs' : List Str} (h : weight gs' ≤ weight gs) : (pathText ⟨ab, gs'⟩).length ≤ (pathText ⟨ab, gs⟩).length := by
  have h1 := pathText_length ab gs
  have h2 := pathText_length ab gs'
  by_cases k : gs = []
  · have k' : gs' = [] := by
      rcases Decidable.em (gs' = []) with e | e
      · exact e
      · have := (h2.2 e).1; have := (h1.1 k).1; omega
    rw [k, k']; exact Nat.le_refl _
  · have h1 := h1.2 k
    by_cases k' : gs' = []
    · have := (h2.1 k').2; omega
    · have h2 := h2.2 k'; omega

theorem pathText_flag (gs : List Str) (ab : Bool) : (pathText ⟨false, gs⟩).length ≤ (pathText ⟨ab, gs⟩).length ∧
    (pathText ⟨ab, gs⟩).length ≤ (pathText ⟨true, gs⟩).length ∧ (pathText ⟨true, gs⟩).length ≤ (pathText ⟨false, gs⟩).length + 1 := by
  have h1 := pathText_length false gs
  have h2 := pathText_length true gs
  by_cases k : gs = []
  · subst k; simp [pathText]
  · have h1 := h1.2 k
    have h2 := h2.2 k
    simp only [if_true, if_false, Bool.false_eq_true] at h1 h2
    cases ab <;> omega

/-- The length of what stands before the path, and after it. -/
def lead1 (p : Parts Str) : Nat :=
  (match p.scheme with | some s => s.length + 1 | none => 0)
def lead2 (p : Parts Str) : Nat :=
  (match p.authority with | some a => 2 + (Abnf.authorityText a).length | none => 0)
def trail1 (p : Parts Str) : Nat := (Abnf.optText (b! "?") p.query).length
def trail2 (p : Parts Str) : Nat := (Abnf.optText (b! "#") p.fragment).length

theorem compose_length (p : Parts SV) : (compose p).length =
    lead1 p.text + lead2 p.text + (pathText ⟨p.text.path.absolute || p.text.authority.isSome, p.text.path.segments⟩).length + trail1 p.text + trail2 p.text := by
  rw [compose_text]
  generalize p.text = q
  obtain ⟨sch, A, P, qu, fr⟩ := q
  simp only [recompose, rooted, List.length_append, lead1, lead2, trail1, trail2]
  cases sch <;> cases A <;> simp <;> omega

theorem mergeT_weight (b r : Parts Str) (h : r.path.segments ≠ []) :
    (ShortBase b → weight (mergeT b r).segments ≤ weight b.path.segments + weight r.path.segments) ∧
    (¬ ShortBase b → weight (mergeT b r).segments + 1 ≤ weight b.path.segments + weight r.path.segments ∨
      (b.path.segments = [] ∧ (mergeT b r).segments = r.path.segments ∧ (mergeT b r).absolute = false ∧ b.authority = none)) := by
  unfold mergeT
  by_cases h1 : (b.authority.isSome && b.path.segments.isEmpty) = true
  · rw [if_pos h1]
    simp only [Bool.and_eq_true, List.isEmpty_iff] at h1
    refine ⟨fun _ => by simp, fun k => absurd ⟨by rw [h1.2]; simp, Or.inl (by intro e; rw [e] at h1; simp at h1)⟩ k⟩
  · rw [if_neg h1]
    simp only [weight_append]
    by_cases h2 : b.path.segments.length > 1
    · rw [if_pos h2]
      have hw : weight (b.path.segments.take (b.path.segments.length - 1)) + 1 ≤ weight b.path.segments := by
        rw [← List.dropLast_eq_take]
        rcases List.eq_nil_or_concat b.path.segments with e | ⟨x, y, e⟩
        · rw [e] at h2; simp at h2
        · rw [e, List.concat_eq_append, List.dropLast_concat, weight_append, weight_cons]; omega
      exact ⟨fun k => by omega, fun _ => Or.inl (by omega)⟩
    · rw [if_neg h2, List.take_length]
      refine ⟨fun _ => Nat.le_refl _, fun k => Or.inr ?_⟩
      have hs : b.path.segments = [] := by
        rcases Decidable.em (b.path.segments = []) with e | e
        · exact e
        · exact absurd ⟨by omega, Or.inr (Or.inl e)⟩ k
      have ha : b.authority = none := by
        cases ha : b.authority with
        | none => rfl
        | some a => exact absurd ⟨by omega, Or.inl (by rw [ha]; simp)⟩ k
      have hf : b.path.absolute = false := by
        cases hf : b.path.absolute with
        | false => rfl
        | true => exact absurd ⟨by omega, Or.inr (Or.inr hf)⟩ k
      rw [hs]
      exact ⟨rfl, rfl, hf, ha⟩

theorem mergeT_length (b r : Parts Str) (h : r.path.segments ≠ []) (h' : r.path.absolute = false) :
    (pathText ⟨(mergeT b r).absolute || b.authority.isSome, (mergeT b r).segments⟩).length ≤
      (pathText ⟨b.path.absolute || b.authority.isSome, b.path.segments⟩).length + (pathText ⟨false, r.path.segments⟩).length + 1 ∧
    (¬ ShortBase b → (pathText ⟨(mergeT b r).absolute || b.authority.isSome, (mergeT b r).segments⟩).length ≤
      (pathText ⟨b.path.absolute || b.authority.isSome, b.path.segments⟩).length + (pathText ⟨false, r.path.segments⟩).length) := by
  have hw := mergeT_weight b r h
  have lr := (pathText_length false r.path.segments).2 h
  have lb := pathText_length (b.path.absolute || b.authority.isSome) b.path.segments
  have lm := pathText_length ((mergeT b r).absolute || b.authority.isSome) (mergeT b r).segments
  have hab : b.path.segments ≠ [] → (mergeT b r).absolute = b.path.absolute := by
    intro k
    unfold mergeT
    rw [if_neg (by simp [k])]
  simp only [if_false, Bool.false_eq_true] at lr
  have hle : weight (mergeT b r).segments ≤ weight b.path.segments + weight r.path.segments := by
    rcases Classical.em (ShortBase b) with k | k
    · exact hw.1 k
    · rcases hw.2 k with e | e
      · omega
      · rw [e.2.1]; omega
  have hm : (mergeT b r).segments ≠ [] := by
    unfold mergeT
    split <;> simp [h]
  have lm := lm.2 hm
  refine ⟨?_, fun k => ?_⟩
  · rcases Decidable.em (b.path.segments = []) with e | e
    · have := lb.1 e; omega
    · rw [hab e] at lm ⊢
      have := lb.2 e; omega
  · rcases hw.2 k with e | ⟨e1, e2, e3, e4⟩
    · rcases Decidable.em (b.path.segments = []) with e' | e'
      · have := lb.1 e'; omega
      · rw [hab e'] at lm ⊢
        have := lb.2 e'; omega
    · rw [e2, e3, e4]; simp

theorem joinT_length (b r : Parts Str) (strict : Bool) :
    let L := fun p : Parts Str => lead1 p + lead2 p + (pathText ⟨p.path.absolute || p.authority.isSome, p.path.segments⟩).length + trail1 p + trail2 p
    L (joinT b r strict) ≤ L b + L r + 1 ∧ (¬ (Merges b r strict ∧ ShortBase b) → L (joinT b r strict) ≤ L b + L r) := by
  intro L
  unfold joinT
  by_cases h1 : (¬ strict = true ∧ r.scheme = b.scheme) ∨ r.scheme = none
  · rw [if_pos h1]
    by_cases h2 : r.authority.isSome = true
    · rw [if_pos h2]
      have := pathText_le (ab := r.path.absolute || r.authority.isSome) (weight_rds r.path.segments)
      simp only [L, rdsT, lead1, lead2, trail1, trail2] at this ⊢
      omega
    · rw [if_neg h2]
      have h2n : r.authority = none := by cases h : r.authority <;> simp [h] at h2 ⊢
      by_cases h3 : r.path.segments = []
      · rw [if_pos h3]
        have hq : (Abnf.optText (b! "?") (if r.query.isSome = true then r.query else b.query)).length ≤
            (Abnf.optText (b! "?") b.query).length + (Abnf.optText (b! "?") r.query).length := by
          cases hq : r.query <;> simp [Abnf.optText]
        simp only [L, lead1, lead2, trail1, trail2] at hq ⊢
        omega
      · rw [if_neg h3]
        by_cases h4 : r.path.absolute = true
        · rw [if_pos h4]
          have := pathText_le (ab := true) (weight_rds r.path.segments)
          simp only [L, rdsT, lead1, lead2, trail1, trail2, h4, Bool.true_or] at this ⊢
          omega
        · rw [if_neg h4]
          have h4f : r.path.absolute = false := by simpa using h4
          have hm : Merges b r strict := ⟨by
            rcases h1 with h | h
            · exact Or.inr ⟨by simpa using h.1, h.2⟩
            · exact Or.inl h, h2n, h3, h4f⟩
          have hw := mergeT_weight b r h3
          have hr := weight_rds (mergeT b r).segments
          have hp := pathText_le (ab := (mergeT b r).absolute || b.authority.isSome) hr
          have lr := (pathText_length false r.path.segments).2 h3
          simp only [if_false, Bool.false_eq_true] at lr
          -- the length of the merged path
          have hlen := mergeT_length b r h3 h4f
          simp only [L, rdsT, lead1, lead2, trail1, trail2, h2n, h4f, Option.isSome_none, Bool.or_false] at hp hlen ⊢
          refine ⟨by omega, fun k => ?_⟩
          have := hlen.2 (fun hs => k ⟨hm, hs⟩)
          omega
  · rw [if_neg h1]
    have := pathText_le (ab := r.path.absolute || r.authority.isSome) (weight_rds r.path.segments)
    simp only [L, rdsT, lead1, lead2, trail1, trail2] at this ⊢
    omega

/-- **C93**: resolution makes at most the lengths of base and reference together, and one slash. -/
theorem C93_join (b r : Parts SV) (strict : Bool) : (compose (join b r strict)).length ≤ (compose b).length + (compose r).length + 1 := by
  rw [compose_length, compose_length, compose_length, joinT_text]
  exact (joinT_length b.text r.text strict).1

/-- **C93**: the slash is added only if a path is merged with one of at most one segment. -/
theorem C93_join_exact (b r : Parts SV) (strict : Bool) (h : ¬ (Merges b.text r.text strict ∧ ShortBase b.text)) :
    (compose (join b r strict)).length ≤ (compose b).length + (compose r).length := by
  rw [compose_length, compose_length, compose_length, joinT_text]
  exact (joinT_length b.text r.text strict).2 h

/-- **C93**: removing dot segments never makes a path longer. -/
theorem C93_dots (p : Parts SV) : (compose { p with path := p.path.removeDotSegments }).length ≤ (compose p).length := by
  rw [compose_length, compose_length]
  have h := pathText_le (ab := p.text.path.absolute || p.text.authority.isSome) (weight_rds p.text.path.segments)
  have e : (p.path.removeDotSegments).map SV.chars = _ := rdsT_text p.path
  have e1 : ({ p with path := p.path.removeDotSegments } : Parts SV).text = { p.text with path := rdsT p.text.path } := by
    simp only [Parts.text, Parts.map, e]
  rw [e1]
  simp only [rdsT, lead1, lead2, trail1, trail2] at h ⊢
  omega

/-- **C93**, for texts. -/
theorem C93_texts (pl : Plat) (base ref : SV) (strict : Bool) (t : Parts SV) (h : joinStr pl base ref strict = .ok (some t)) :
    (compose t).length ≤ base.chars.length + ref.chars.length + 1 := by
  obtain ⟨b, r, hb, hr, rfl⟩ := (C19_join_strings pl base ref strict t).1 h
  have := C93_join b r strict
  rwa [C05_compose_split pl base b (Or.inl hb), C05_compose_split pl ref r (Or.inr hr)] at this

/-- **C93**: any number of references resolved one after the other. -/
theorem C93_chain (b : Parts SV) (rs : List (Parts SV)) (strict : Bool) :
    (compose (joinAll strict b rs)).length ≤ (compose b).length + (rs.map (fun r => (compose r).length + 1)).sum := by
  induction rs generalizing b with
  | nil => simp [joinAll]
  | cons r rs ih =>
    have h1 := ih (join b r strict)
    have h2 := C93_join b r strict
    simp only [joinAll, List.foldl_cons, List.map_cons, List.sum_cons] at h1 ⊢
    omega

/-- C93: both bounds are attained. -/
theorem C93_attained :
    (joinStr x86 ⟨4096, b! "s://h"⟩ ⟨8192, b! "g"⟩ true).map (·.map compose) = .ok (some (b! "s://h" ++ b! "/" ++ b! "g")) ∧
    (joinStr x86 ⟨4096, b! "s:x"⟩ ⟨8192, b! "g"⟩ true).map (·.map compose) = .ok (some (b! "s:x" ++ b! "/" ++ b! "g")) ∧
    (joinStr x86 ⟨4096, b! "s://h/a/"⟩ ⟨8192, b! "g?q"⟩ true).map (·.map compose) = .ok (some (b! "s://h/a/" ++ b! "g?q")) := by decide +kernel

/-- C93: a chain of three references, of which the first two add a slash. -/
example : let b : Parts SV := ⟨some ⟨1, b! "s"⟩, some ⟨none, ⟨9, b! "h"⟩, none⟩, ⟨false, []⟩, none, none⟩
    let r : Parts SV := ⟨none, none, ⟨false, [⟨5, b! "g"⟩]⟩, none, none⟩
    ShortBase b.text ∧ Merges b.text r.text true ∧ ShortBase (join b r true).text ∧ compose (joinAll true b [r, r, r]) = b! "s://h/g/g" :=
  ⟨⟨by decide, Or.inl (by decide +kernel)⟩, ⟨Or.inl rfl, rfl, by decide, rfl⟩, ⟨by decide +kernel, Or.inl (by decide +kernel)⟩, by decide +kernel⟩

end Verif
