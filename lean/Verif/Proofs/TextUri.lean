import Verif.Proofs.Fields

/-!
# Facts about derivations at the level of text: recomposition, appendix B, uniqueness
-/

namespace Verif

set_option linter.unusedSimpArgs false

theorem slashes_nil : Abnf.slashes [] = [] := rfl
theorem slashes_cons (g : Str) (gs : List Str) : Abnf.slashes (g :: gs) = 0x2F :: (g ++ Abnf.slashes gs) := rfl

/-! ### `compose` is recomposition -/

theorem toStr_go (sep acc : Str) (gs : List SV) :
    Path.toStr.go sep acc gs = acc ++ (match gs.map SV.chars with
      | [] => []
      | g :: r => sep ++ g ++ Abnf.slashes r) := by
  induction gs generalizing sep acc with
  | nil => simp [Path.toStr.go]
  | cons g gs ih =>
    simp only [Path.toStr.go, ih, List.map_cons]
    cases gs with
    | nil => simp [slashes_nil]
    | cons h t => simp [slashes_cons]

theorem toStr_text (p : Path SV) : p.toStr = pathText (p.map SV.chars) := by
  obtain ⟨ab, gs⟩ := p
  simp only [Path.toStr, toStr_go, pathText, Path.map, List.nil_append]
  cases gs <;> cases ab <;> simp

theorem authToStr_text (a : Authority SV) : a.toStr = Abnf.authorityText (a.map SV.chars) := by
  obtain ⟨u, h, po⟩ := a
  have e : ∀ v : SV, (if !v.chars.isEmpty then v.chars else []) = v.chars := by
    intro v; cases v.chars <;> rfl
  simp only [Authority.toStr, Abnf.authorityText, Authority.map, e]
  cases u <;> cases po <;> simp [e]

theorem compose_text (p : Parts SV) : compose p = recompose (rooted p.text) := by
  obtain ⟨sch, au, ⟨ab, gs⟩, q, f⟩ := p
  simp only [compose, recompose, rooted, Parts.text, Parts.map, toStr_text, Path.map]
  cases q <;> cases f <;> cases sch <;> cases au <;> cases gs <;> cases ab <;>
    simp [authToStr_text, pathText, Path.empty, Abnf.optText]

/-! ### Derivations -/

theorem part_text {first : Lang} {t A p} (h : Abnf.PartDerives first t A p) :
    t = Abnf.optText (b! "//") (A.map Abnf.authorityText) ++ pathText p := by
  cases h with
  | abempty a gs _ _ => cases gs <;> simp [pathText, slashes_nil, slashes_cons, Abnf.optText]
  | root => rfl
  | absolute g gs _ _ => simp [pathText, Abnf.optText]
  | rootless g gs _ _ => simp [pathText, Abnf.optText]
  | empty => rfl

theorem recompose_of_derives {s p} (h : Abnf.ReferenceDerives s p) : recompose p = s := by
  rcases h with ⟨sch, t, h1, h2, h3, h4, h5, rfl⟩ | ⟨t, h1, h3, h4, h5, rfl⟩ <;>
  · have := part_text h3
    obtain ⟨sc, A, P, q, f⟩ := p
    simp only at this h1
    subst this h1
    cases A <;> simp [recompose, Abnf.optText]

theorem rooted_of_part {first : Lang} {t p} (h : Abnf.PartDerives first t p.authority p.path) : rooted p = p ∨ p.path.segments = [] := by
  obtain ⟨sch, A, P, q, f⟩ := p
  simp only at h
  cases h with
  | abempty a gs _ _ => cases gs <;> simp [rooted]
  | _ => simp [rooted]

theorem recompose_rooted {p : Parts Str} (h : rooted p = p ∨ p.path.segments = []) : recompose (rooted p) = recompose p := by
  rcases h with h | h
  · rw [h]
  · simp [recompose, rooted, pathText, h]

theorem rooted_of_reference {s p} (h : Abnf.ReferenceDerives s p) : rooted p = p ∨ p.path.segments = [] := by
  rcases h with ⟨sch, t, h1, h2, h3, h4, h5, rfl⟩ | ⟨t, h1, h3, h4, h5, rfl⟩ <;> exact rooted_of_part h3

/-! ### Appendix B -/

theorem takeWhile_stop {f : UInt8 → Bool} {u v : Str} (hu : ∀ c ∈ u, f c = true) (hv : ∀ c, v.head? = some c → f c = false) :
    (u ++ v).takeWhile f = u ∧ (u ++ v).dropWhile f = v := by
  induction u with
  | nil =>
    cases v with
    | nil => simp
    | cons c v => have := hv c rfl; simp [this]
  | cons c u ih =>
    have h1 := hu c (by simp)
    have := ih fun d hd => hu d (by simp [hd])
    simp [h1, this]

theorem authorityText_only {a} (h : Abnf.AuthorityOk a) : ∀ c ∈ Abnf.authorityText a, (!oneOf (b! "/?#") c) = true := by
  intro c hc
  simp only [Abnf.authorityText, List.mem_append] at hc
  rcases hc with (hc | hc) | hc
  · cases hu : a.userinfo with
    | none => simp [hu] at hc
    | some u =>
      simp only [hu, List.mem_append] at hc
      rcases hc with hc | hc
      · exact only_mono only_userinfo (g := fun c => !oneOf (b! "/?#") c) (by byte_tac) _ (h.userinfo u hu) c hc
      · simp at hc; subst hc; decide
  · exact only_mono only_host (g := fun c => !oneOf (b! "/?#") c) (by byte_tac) _ h.host c hc
  · cases hp : a.port with
    | none => simp [hp] at hc
    | some u =>
      simp only [hp, List.mem_append] at hc
      rcases hc with hc | hc
      · simp at hc; subst hc; decide
      · exact only_mono only_port (g := fun c => !oneOf (b! "/?#") c) (by byte_tac) _ (h.port u hp) c hc

theorem slashes_only {gs : List Str} (h : ∀ g ∈ gs, Abnf.segment g) : ∀ c ∈ Abnf.slashes gs, (!oneOf (b! "?#") c) = true := by
  intro c hc
  obtain ⟨e, he, hc⟩ := List.mem_flatten.1 hc
  obtain ⟨g, hg, rfl⟩ := List.mem_map.1 he
  rcases List.mem_cons.1 hc with rfl | hc
  · decide
  · exact only_mono only_segment (g := fun c => !oneOf (b! "?#") c) (by byte_tac) _ (h g hg) c hc

theorem segmentNzNc_segment {g} (h : Abnf.segmentNzNc g) : Abnf.segment g := by
  obtain ⟨es, rfl, h1, h2, h3⟩ := h
  refine ⟨es, rfl, ?_, by simp, by simp⟩
  intro e he
  have := (nc_elem e).1 (h1 e he)
  rw [pchar_elem]
  rcases this with ⟨c, rfl, hc⟩ | h
  · exact Or.inl ⟨c, rfl, (byte_imp (f := isNcChar) (g := isPChar) (by decide +kernel)) c hc⟩
  · exact Or.inr h

theorem segmentNz_segment {g} (h : Abnf.segmentNz g) : Abnf.segment g := by
  obtain ⟨es, rfl, h1, h2, h3⟩ := h
  exact ⟨es, rfl, h1, by simp, by simp⟩

theorem part_segments {first : Lang} (hf : ∀ g, first g → Abnf.segment g) {t A p} (h : Abnf.PartDerives first t A p) :
    ∀ g ∈ p.segments, Abnf.segment g := by
  cases h with
  | abempty a gs _ h => exact h
  | root => intro g hg; simp at hg; subst hg; exact ⟨[], rfl, by simp, by simp, by simp⟩
  | absolute g gs h1 h2 =>
    intro x hx; rcases List.mem_cons.1 hx with rfl | hx
    · exact segmentNz_segment h1
    · exact h2 x hx
  | rootless g gs h1 h2 =>
    intro x hx; rcases List.mem_cons.1 hx with rfl | hx
    · exact hf _ h1
    · exact h2 x hx
  | empty => simp

theorem pathText_only {p : Path Str} (h : ∀ g ∈ p.segments, Abnf.segment g) : ∀ c ∈ pathText p, (!oneOf (b! "?#") c) = true := by
  obtain ⟨ab, gs⟩ := p
  cases gs with
  | nil => simp [pathText]
  | cons g gs =>
    intro c hc
    simp only [pathText, List.mem_append] at hc
    rcases hc with (hc | hc) | hc
    · cases ab <;> simp at hc; subst hc; decide
    · exact only_mono only_segment (g := fun c => !oneOf (b! "?#") c) (by byte_tac) _ (h g (by simp)) c hc
    · exact slashes_only (fun g hg => h g (by simp [hg])) c hc

/-- The part after the scheme. -/
theorem appendixB_tail {first : Lang} {t A p} {q f : Option Str} (hf : ∀ g, first g → Abnf.segment g)
    (hne : ∀ g, first g → g ≠ []) (h : Abnf.PartDerives first t A p)
    (hq : ∀ x, q = some x → Abnf.query x) :
    let s := t ++ Abnf.optText (b! "?") q ++ Abnf.optText (b! "#") f
    let a := AppendixB.authority s
    let pr := AppendixB.query (a.2.dropWhile (!oneOf (b! "?#") ·))
    a.1 = A.map Abnf.authorityText ∧ a.2.takeWhile (!oneOf (b! "?#") ·) = pathText p ∧ pr.1 = q ∧
      AppendixB.fragment pr.2 = f := by
  intro s a pr
  have tf := tail_follow q f
  have ha : a = (A.map Abnf.authorityText, pathText p ++ (Abnf.optText (b! "?") q ++ Abnf.optText (b! "#") f)) := by
    have hs : s = t ++ (Abnf.optText (b! "?") q ++ Abnf.optText (b! "#") f) := by simp [s]
    simp only [a, hs]
    generalize Abnf.optText (b! "?") q ++ Abnf.optText (b! "#") f = v at tf
    -- a path not beginning with "//" leaves the authority out
    cases h with
    | abempty au gs hA hgs =>
      have := takeWhile_stop (f := fun c => !oneOf (b! "/?#") c) (u := Abnf.authorityText au) (v := Abnf.slashes gs ++ v)
        (authorityText_only hA) (by
          intro c hc
          rcases slashes_follow (gs := gs) tf c hc with rfl | rfl | rfl <;> decide)
      have e : (b! "//" : Str) ++ Abnf.authorityText au ++ Abnf.slashes gs ++ v =
        0x2F :: 0x2F :: (Abnf.authorityText au ++ (Abnf.slashes gs ++ v)) := by simp
      rw [e]
      simp only [AppendixB.authority, and_self, if_true, this]
      cases gs <;> simp [pathText, slashes_nil, slashes_cons]
    | root =>
      cases v with
      | nil => rfl
      | cons c v =>
        rcases tf c rfl with rfl | rfl <;> simp [AppendixB.authority, pathText, slashes_nil]
    | absolute g gs hg _ =>
      have hg1 := only_segmentNz _ hg
      cases g with
      | nil => obtain ⟨c, t, h⟩ := rep1_head (fun u hu => by
            rintro rfl; rcases (pchar_elem _).1 hu with ⟨c, h, -⟩ | ⟨_, _, h, -⟩ <;> simp at h) hg
               simp at h
      | cons c g =>
        have : c ≠ 0x2F := by
          have := hg1 c (by simp)
          rintro rfl; revert this; decide
        simp [AppendixB.authority, pathText, this]
    | rootless g gs hg _ =>
      cases g with
      | nil => exact absurd rfl (hne _ hg)
      | cons c g =>
        have : c ≠ 0x2F := by
          have := only_segment _ (hf _ hg) c (by simp)
          rintro rfl; revert this; decide
        cases hx : g ++ Abnf.slashes gs ++ v with
        | nil => simp [pathText, List.append_eq_nil_iff] at hx ⊢; simp [hx, AppendixB.authority]
        | cons d r =>
          have e : c :: g ++ Abnf.slashes gs ++ v = c :: d :: r := by simp [← hx]
          have e2 : pathText ⟨false, (c :: g) :: gs⟩ ++ v = c :: d :: r := by simp [pathText, ← hx]
          rw [e, e2]
          simp [AppendixB.authority, this]
    | empty =>
      cases v with
      | nil => rfl
      | cons c v =>
        cases v with
        | nil => rfl
        | cons d v => rcases tf c rfl with rfl | rfl <;> simp [AppendixB.authority, pathText]
  have hp := takeWhile_stop (f := fun c => !oneOf (b! "?#") c) (u := pathText p)
    (v := Abnf.optText (b! "?") q ++ Abnf.optText (b! "#") f) (pathText_only (part_segments hf h)) (by
      intro c hc
      rcases tf c hc with rfl | rfl <;> decide)
  have hpr : pr = (q, Abnf.optText (b! "#") f) := by
    simp only [pr, ha, hp.2]
    cases q with
    | none =>
      cases f with
      | none => rfl
      | some f => simp [AppendixB.query, Abnf.optText]
    | some q =>
      have := takeWhile_stop (f := fun c => !oneOf (b! "#") c) (u := q) (v := Abnf.optText (b! "#") f)
        (only_mono only_query (g := fun c => !oneOf (b! "#") c) (by byte_tac) _ (hq q rfl)) (by
          intro c hc
          have := fragment_follow f c hc
          subst this; decide)
      simp only [Abnf.optText, List.cons_append, List.nil_append, AppendixB.query, if_true]
      simp only [Abnf.optText, List.cons_append, List.nil_append] at this
      rw [this.1, this.2]
  refine ⟨by rw [ha], by rw [ha]; exact hp.1, by rw [hpr], ?_⟩
  rw [hpr]
  cases f <;> rfl

theorem segmentNz_ne {g} (h : Abnf.segmentNz g) : g ≠ [] := by
  obtain ⟨c, t, h⟩ := rep1_head (fun u hu => by
            rintro rfl; rcases (pchar_elem _).1 hu with ⟨c, h, -⟩ | ⟨_, _, h, -⟩ <;> simp at h) h
  simp [h]

theorem segmentNzNc_ne {g} (h : Abnf.segmentNzNc g) : g ≠ [] := by
  obtain ⟨c, t, h⟩ := rep1_head (fun u hu => by
            rintro rfl; rcases (nc_elem _).1 hu with ⟨c, h, -⟩ | ⟨_, _, h, -⟩ <;> simp at h) h
  simp [h]

theorem scheme_ne {g} (h : Abnf.scheme g) : g ≠ [] := by
  obtain ⟨x, y, rfl, hx, -⟩ := h
  obtain ⟨c, rfl, -⟩ := (ALPHA_cls x).1 hx
  simp

theorem appendixB_of_derives {s p} (h : Abnf.ReferenceDerives s p) : AppendixB.parse s = groupsOf p := by
  rcases h with ⟨sch, t, h1, h2, h3, h4, h5, rfl⟩ | ⟨t, h1, h3, h4, h5, rfl⟩
  · have hs : AppendixB.scheme (sch ++ b! ":" ++ t ++ Abnf.optText (b! "?") p.query ++ Abnf.optText (b! "#") p.fragment) =
        (some sch, t ++ Abnf.optText (b! "?") p.query ++ Abnf.optText (b! "#") p.fragment) := by
      have := takeWhile_stop (f := fun c => !oneOf (b! ":/?#") c) (u := sch)
        (v := 0x3A :: (t ++ Abnf.optText (b! "?") p.query ++ Abnf.optText (b! "#") p.fragment))
        (only_mono only_scheme (g := fun c => !oneOf (b! ":/?#") c) (by byte_tac) _ h2) (by intro c hc; simp at hc; subst hc; decide)
      have e : sch ++ b! ":" ++ t ++ Abnf.optText (b! "?") p.query ++ Abnf.optText (b! "#") p.fragment =
        sch ++ 0x3A :: (t ++ Abnf.optText (b! "?") p.query ++ Abnf.optText (b! "#") p.fragment) := by simp
      rw [e]
      simp only [AppendixB.scheme, this, true_and, ne_eq, scheme_ne h2, not_false_iff, if_true]
    have := appendixB_tail (f := p.fragment) (fun g => segmentNz_segment) (fun g => segmentNz_ne) h3 h4
    simp only at this
    simp only [AppendixB.parse, hs, groupsOf, h1, this]
  · have hs : AppendixB.scheme (t ++ Abnf.optText (b! "?") p.query ++ Abnf.optText (b! "#") p.fragment) =
        (none, t ++ Abnf.optText (b! "?") p.query ++ Abnf.optText (b! "#") p.fragment) := by
      -- the text before the first delimiter is not followed by ':'
      have tf := tail_follow p.query p.fragment
      rw [List.append_assoc]
      generalize Abnf.optText (b! "?") p.query ++ Abnf.optText (b! "#") p.fragment = v at tf
      have key : ∀ u w : Str, (∀ c ∈ u, (!oneOf (b! ":/?#") c) = true) → SegFollow w → AppendixB.scheme (u ++ w) = (none, u ++ w) := by
        intro u w hu hw
        have := takeWhile_stop (f := fun c => !oneOf (b! ":/?#") c) hu (v := w) (by
          intro c hc; rcases hw c hc with rfl | rfl | rfl <;> decide)
        simp only [AppendixB.scheme, this]
        cases w with
        | nil => rfl
        | cons c w => rcases hw c rfl with rfl | rfl | rfl <;> simp
      generalize p.authority = A at h3
      generalize p.path = P at h3
      cases h3 with
      | abempty a gs _ _ => exact key [] _ (by simp) (by intro c hc; simp at hc; simp [hc.symm])
      | root => exact key [] _ (by simp) (by intro c hc; simp at hc; simp [hc.symm])
      | absolute g gs _ _ => exact key [] _ (by simp) (by intro c hc; simp at hc; simp [hc.symm])
      | rootless g gs hg _ =>
        rw [List.append_assoc]
        exact key g _ (only_mono only_segmentNzNc (g := fun c => !oneOf (b! ":/?#") c) (by byte_tac) _ hg) (slashes_follow tf)
      | empty => exact key [] _ (by simp) (by simpa using tf.seg)
    have := appendixB_tail (f := p.fragment) (fun g => segmentNzNc_segment) (fun g => segmentNzNc_ne) h3 h4
    simp only at this
    simp only [AppendixB.parse, hs, groupsOf, h1, this]

/-! ### Uniqueness -/

/-- Splitting at the first delimiter is unambiguous. -/
theorem split_unique {d : UInt8} {u v u' v' : Str} (hu : d ∉ u) (hu' : d ∉ u') (e : u ++ d :: v = u' ++ d :: v') :
    u = u' ∧ v = v' := by
  induction u generalizing u' with
  | nil =>
    cases u' with
    | nil => simpa using e
    | cons c u' => simp at e; exact absurd e.1 (by rintro rfl; simp at hu')
  | cons c u ih =>
    cases u' with
    | nil => simp at e; exact absurd e.1.symm (by rintro rfl; simp at hu)
    | cons c' u' =>
      simp only [List.cons_append, List.cons.injEq] at e
      have := ih (by simp at hu; exact hu.2) (by simp at hu'; exact hu'.2) e.2
      simp [e.1, this]

/-- Segments are determined by the text. -/
theorem slashes_unique {g g' : Str} {gs gs' : List Str} (hg : ∀ x ∈ g :: gs, NoSlash x) (hg' : ∀ x ∈ g' :: gs', NoSlash x)
    (e : g ++ Abnf.slashes gs = g' ++ Abnf.slashes gs') : g :: gs = g' :: gs' := by
  induction gs generalizing g g' gs' with
  | nil =>
    cases gs' with
    | nil => simpa [slashes_nil] using e
    | cons h t =>
      exfalso
      simp only [slashes_nil, List.append_nil, slashes_cons] at e
      exact hg g (by simp) (by rw [e]; simp)
  | cons h t ih =>
    cases gs' with
    | nil =>
      exfalso
      simp only [slashes_nil, List.append_nil, slashes_cons] at e
      exact hg' g' (by simp) (by rw [← e]; simp)
    | cons h' t' =>
      simp only [slashes_cons] at e
      have := split_unique (hg g (by simp)) (hg' g' (by simp)) e
      have h2 := ih (fun x hx => hg x (List.mem_cons_of_mem _ hx)) (fun x hx => hg' x (List.mem_cons_of_mem _ hx)) this.2
      rw [this.1, h2]

theorem segment_noSlash {g} (h : Abnf.segment g) : NoSlash g := by
  intro hm
  have := only_segment _ h _ hm
  revert this; decide

/-- A host with a colon ends with a bracket. -/
theorem host_colon {h} (hh : Abnf.host h) (hm : (0x3A : UInt8) ∈ h) : h.getLast? = some 0x5D := by
  rcases hh with h | h | h
  · obtain ⟨a, b, rfl, -, c, d, rfl, -, rfl⟩ := h
    simp [List.getLast?_append]
  · have := only_ipv4 _ h _ hm; exact absurd this (by decide)
  · have := (only_rep (f := fun c => !(c == 0x3A)) (only_elem reg_elem (by byte_tac) (by decide) (by byte_tac))) _ h _ hm
    exact absurd this (by decide)

theorem hostport_unique {h h' : Str} {p p' : Option Str} (hh : Abnf.host h) (hh' : Abnf.host h')
    (hp : ∀ x, p = some x → Abnf.port x) (hp' : ∀ x, p' = some x → Abnf.port x)
    (e : h ++ Abnf.optText (b! ":") p = h' ++ Abnf.optText (b! ":") p') : h = h' ∧ p = p' := by
  have digits : ∀ {x : Str}, Abnf.port x → (0x3A : UInt8) ∉ x ∧ (0x5D : UInt8) ∉ x := by
    intro x hx
    constructor <;> intro hm <;> have := only_port _ hx _ hm <;> revert this <;> decide
  have mixed : ∀ {h h' x : Str}, Abnf.host h → Abnf.port x → h = h' ++ 0x3A :: x → False := by
    intro h h' x hh hx e
    have h1 := host_colon hh (by rw [e]; simp)
    have h2 := (digits hx).2
    rw [e] at h1
    rw [List.getLast?_append] at h1
    cases x with
    | nil => simp at h1
    | cons c x =>
      rw [List.getLast?_cons_cons] at h1
      simp only [List.getLast?_eq_some_getLast (List.cons_ne_nil c x), Option.some_or, Option.some.injEq] at h1
      exact h2 (h1 ▸ List.getLast_mem _)
  cases p with
  | none =>
    cases p' with
    | none => simpa [Abnf.optText] using e
    | some x => exact (mixed hh (hp' x rfl) (by simpa [Abnf.optText] using e)).elim
  | some y =>
    cases p' with
    | none => exact (mixed hh' (hp y rfl) (by simpa [Abnf.optText] using e.symm)).elim
    | some x =>
      have e2 : y.reverse ++ 0x3A :: h.reverse = x.reverse ++ 0x3A :: h'.reverse := by
        have := congrArg List.reverse e
        simpa [Abnf.optText] using this
      have := split_unique (by simpa using (digits (hp y rfl)).1) (by simpa using (digits (hp' x rfl)).1) e2
      have h1 := List.reverse_inj.1 this.1
      have h2 := List.reverse_inj.1 this.2
      exact ⟨h2, by rw [h1]⟩

theorem authorityText_eq (a : Authority Str) : Abnf.authorityText a =
    (match a.userinfo with | none => [] | some u => u ++ b! "@") ++ (a.host ++ Abnf.optText (b! ":") a.port) := by
  obtain ⟨u, h, p⟩ := a
  cases u <;> cases p <;> simp [Abnf.authorityText, Abnf.optText]

theorem authority_unique {a a' : Authority Str} (h : Abnf.AuthorityOk a) (h' : Abnf.AuthorityOk a')
    (e : Abnf.authorityText a = Abnf.authorityText a') : a = a' := by
  have noAt : ∀ {a : Authority Str}, Abnf.AuthorityOk a → (0x40 : UInt8) ∉ a.host ++ Abnf.optText (b! ":") a.port := by
    intro a h hm
    rcases List.mem_append.1 hm with hm | hm
    · have := only_host _ h.host _ hm; revert this; decide
    · cases hp : a.port with
      | none => simp [hp, Abnf.optText] at hm
      | some x =>
        simp only [hp, Abnf.optText, List.mem_append] at hm
        rcases hm with hm | hm
        · simp at hm
        · have := only_port _ (h.port x hp) _ hm; revert this; decide
  have noAtU : ∀ {u}, Abnf.userinfo u → (0x40 : UInt8) ∉ u := by
    intro u h hm; have := only_userinfo _ h _ hm; revert this; decide
  rw [authorityText_eq, authorityText_eq] at e
  have n1 := noAt h
  have n2 := noAt h'
  obtain ⟨u, hh, p⟩ := a
  obtain ⟨u', hh', p'⟩ := a'
  cases u with
  | none =>
    cases u' with
    | none =>
      have := hostport_unique h.host h'.host h.port h'.port (by simpa using e)
      simp only at this
      rw [this.1, this.2]
    | some x =>
      exfalso; apply n1
      simp only [List.nil_append] at e
      rw [e]; simp
  | some y =>
    cases u' with
    | none =>
      exfalso; apply n2
      simp only [List.nil_append] at e
      rw [← e]; simp
    | some x =>
      have := split_unique (d := 0x40) (noAtU (h.userinfo y rfl)) (noAtU (h'.userinfo x rfl)) (by simpa using e)
      have h3 := hostport_unique h.host h'.host h.port h'.port this.2
      simp only at h3
      rw [this.1, h3.1, h3.2]

theorem part_authority {first : Lang} {t A p} (h : Abnf.PartDerives first t A p) : ∀ a, A = some a → Abnf.AuthorityOk a := by
  cases h with
  | abempty a gs h _ => rintro _ ⟨⟩; exact h
  | _ => simp

theorem part_abs {first : Lang} {t A p} (h : Abnf.PartDerives first t A p) (hne : ∀ g, first g → g ≠ [])
    (hs : ∀ g, first g → Abnf.segment g) :
    p.absolute = ((pathText p).head? == some 0x2F) ∧ (pathText p = [] → p.segments = []) := by
  cases h with
  | abempty a gs h _ => cases gs <;> simp [pathText]
  | root => simp [pathText]
  | absolute g gs _ _ => simp [pathText]
  | rootless g gs hg _ =>
    cases g with
    | nil => exact absurd rfl (hne _ hg)
    | cons c g =>
      have := segment_noSlash (hs _ hg)
      simp [NoSlash] at this
      simp [pathText, Ne.symm this.1]
  | empty => simp [pathText]

theorem part_unique {first : Lang} {t t' A p p'} (hne : ∀ g, first g → g ≠ []) (hs : ∀ g, first g → Abnf.segment g)
    (h : Abnf.PartDerives first t A p) (h' : Abnf.PartDerives first t' A p') (e : pathText p = pathText p') : p = p' := by
  have a1 := part_abs h hne hs
  have a2 := part_abs h' hne hs
  have n1 := fun x hx => segment_noSlash (part_segments hs h x hx)
  have n2 := fun x hx => segment_noSlash (part_segments hs h' x hx)
  obtain ⟨ab, gs⟩ := p
  obtain ⟨ab', gs'⟩ := p'
  have hab : ab = ab' := by
    have b1 := a1.1; have b2 := a2.1; rw [e] at b1; rw [← b2] at b1; exact b1
  subst hab
  cases gs with
  | nil =>
    have := a2.2 (by rw [← e]; rfl)
    simp only at this
    rw [this]
  | cons g gs =>
    cases gs' with
    | nil => have := a1.2 (by rw [e]; rfl); simp at this
    | cons g' gs' =>
      have := slashes_unique n1 n2 (by
        simp only [pathText, List.append_assoc] at e
        exact List.append_cancel_left e)
      rw [this]

/-- A text has at most one derivation. -/
theorem derives_unique {s p q} (h : Abnf.ReferenceDerives s p) (h' : Abnf.ReferenceDerives s q) : p = q := by
  have e : groupsOf p = groupsOf q := by rw [← appendixB_of_derives h, ← appendixB_of_derives h']
  obtain ⟨sc, A, P, q1, f1⟩ := p
  obtain ⟨sc', A', P', q2, f2⟩ := q
  simp only [groupsOf, Groups.mk.injEq] at e
  obtain ⟨e1, e2, e3, e4, e5⟩ := e
  subst e1 e4 e5
  have key : ∀ {first : Lang} {t t'}, (∀ g, first g → g ≠ []) → (∀ g, first g → Abnf.segment g) →
      Abnf.PartDerives first t A P → Abnf.PartDerives first t' A' P' → A = A' ∧ P = P' := by
    intro first t t' h1 h2 h3 h4
    have hA : A = A' := by
      cases A with
      | none => cases A' <;> simp_all
      | some a =>
        cases A' with
        | none => simp at e2
        | some a' =>
          simp only [Option.map_some, Option.some.injEq] at e2
          rw [authority_unique (part_authority h3 _ rfl) (part_authority h4 _ rfl) e2]
    subst hA
    exact ⟨rfl, part_unique h1 h2 h3 h4 e3⟩
  rcases h with ⟨sch, t, h1, h2, h3, h4, h5, rfl⟩ | ⟨t, h1, h3, h4, h5, rfl⟩ <;>
  rcases h' with ⟨sch', t', h1', h2', h3', h4', h5', e'⟩ | ⟨t', h1', h3', h4', h5', e'⟩
  · have := key (fun g => segmentNz_ne) (fun g => segmentNz_segment) h3 h3'; rw [this.1, this.2]
  · simp only at h1 h1'; rw [h1] at h1'; simp at h1'
  · simp only at h1 h1'; rw [h1] at h1'; simp at h1'
  · have := key (fun g => segmentNzNc_ne) (fun g => segmentNzNc_segment) h3 h3'; rw [this.1, this.2]

end Verif
