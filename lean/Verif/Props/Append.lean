import Verif.Props.Lists
import Verif.Props.Short
import Verif.Props.Local

/-!
# Property C118: text appended to an accepted text
-/

namespace Verif.Append
set_option linter.unusedSimpArgs false

/-! ### Specification -/

/-- The text of a URI behind its authority (behind the colon of its scheme, without one). -/
def rest (p : Parts Str) : Str := pathText p.path ++ Abnf.optText (b! "?") p.query ++ Abnf.optText (b! "#") p.fragment

/-- What can be appended to a URI without a change of its server: after an authority something that ends it, after a scheme alone anything but two
slashes, and after a scheme and a single slash anything but another slash. -/
structure KeepsServer (p : Parts Str) (x : Str) : Prop where
  authority : p.authority ≠ none → rest p = [] → ∀ c, x.head? = some c → c ∈ b! "/?#"
  scheme : p.authority = none → rest p = [] → ¬ b! "//" <+: x
  root : p.authority = none → rest p = b! "/" → ¬ b! "/" <+: x

/-! ### Proofs -/

/-- The text of a URI in three pieces. -/
theorem pieces {s : Str} {p : Parts Str} (d : Abnf.URIDerives s p) :
    ∃ sch, p.scheme = some sch ∧ Abnf.scheme sch ∧ (∀ a, p.authority = some a → Abnf.AuthorityOk a) ∧
      (p.authority ≠ none → ∀ c, (rest p).head? = some c → ends c = true) ∧ (p.authority = none → ¬ b! "//" <+: rest p) ∧
      s = sch ++ b! ":" ++ (Abnf.optText (b! "//") (p.authority.map Abnf.authorityText) ++ rest p) := by
  obtain ⟨sc, A, P, q, f⟩ := p
  obtain ⟨sch, t, h1, h2, h3, h4, h5, rfl⟩ := d
  simp only at h1 h3 ⊢
  refine ⟨sch, h1, h2, ?_, ?_, ?_, ?_⟩
  · intro a ha; exact part_authority h3 a ha
  · intro hA
    cases h3 with
    | abempty a gs ha hgs =>
      intro c hc
      refine tail_head (gs := gs) (q := q) (f := f) c ?_
      have : pathText ⟨!gs.isEmpty, gs⟩ = Abnf.slashes gs := by cases gs <;> simp [pathText, Abnf.slashes]
      have e2 := part_text (.abempty a gs ha hgs : Abnf.PartDerives Abnf.segmentNz _ _ _)
      simp only [Option.map_some, Abnf.optText, List.append_assoc] at e2
      have e3 := List.append_cancel_left (List.append_cancel_left e2)
      rw [e3]; exact hc
    | _ => exact absurd rfl hA
  · intro hA
    have two : ∀ {v : Str}, b! "//" <+: v → v.head? = some 0x2F ∧ v.tail.head? = some 0x2F := by
      rintro _ ⟨x, rfl⟩; exact ⟨rfl, rfl⟩
    cases h3 with
    | abempty a gs ha hgs => exact absurd hA (by simp)
    | root =>
      intro h
      have := (two h).2
      exact Readers.opt_head (q := q) (f := f) (by simpa [rest, pathText, Abnf.slashes] using this)
    | absolute g gs hg hgs =>
      intro h
      have := (two h).2
      exact Readers.segment_head (segmentNz_segment hg) (segmentNz_ne hg) (v := Abnf.slashes gs ++ (Abnf.optText (b! "?") q ++ Abnf.optText (b! "#") f))
        (by simpa [rest, pathText] using this)
    | rootless g gs hg hgs =>
      intro h
      have := (two h).1
      exact Readers.segment_head (segmentNz_segment hg) (segmentNz_ne hg) (v := Abnf.slashes gs ++ (Abnf.optText (b! "?") q ++ Abnf.optText (b! "#") f))
        (by simpa [rest, pathText] using this)
    | empty =>
      intro h
      exact Readers.opt_head (q := q) (f := f) (by simpa [rest, pathText, Abnf.slashes] using (two h).1)
  · rw [part_text h3]; simp [rest]

theorem scheme_cut {s s' t t' : Str} (h : Abnf.scheme s) (h' : Abnf.scheme s') (e : s ++ b! ":" ++ t = s' ++ b! ":" ++ t') : s = s' ∧ t = t' := by
  have k := fun (x y : Str) (hx : Abnf.scheme x) => Readers.cutFirst_some (c := 0x3A) (s := x) (t := y) (Readers.scheme_noColon hx)
  have e2 : ∀ x y : Str, x ++ b! ":" ++ y = x ++ 0x3A :: y := by simp
  rw [e2, e2] at e
  have := k s t h
  rw [e, k s' t' h'] at this
  simp only [Option.some.injEq, Prod.mk.injEq] at this
  exact ⟨this.1.symm, this.2.symm⟩

/-- Two texts, one of which begins with the other. -/
theorem both {u x : Str} {p q : Parts Str} (hp : Abnf.URIDerives u p) (hq : Abnf.URIDerives (u ++ x) q) :
    q.scheme = p.scheme ∧ (q.authority = p.authority ↔ KeepsServer p x) ∧ (q.authority = p.authority → rest q = rest p ++ x) := by
  obtain ⟨sch, h1, h2, h3, h4, h5, h6⟩ := pieces hp
  obtain ⟨sch', k1, k2, k3, k4, k5, k6⟩ := pieces hq
  rw [h6, List.append_assoc] at k6
  obtain ⟨rfl, e⟩ := scheme_cut h2 k2 k6
  refine ⟨by rw [h1, k1], ?_⟩
  cases hA : p.authority with
  | none =>
    have n1 := h5 hA
    cases hB : q.authority with
    | none =>
      rw [hA, hB] at e
      simp only [Option.map_none, Abnf.optText, List.nil_append] at e
      refine ⟨⟨fun _ => ⟨fun h => absurd hA h, fun _ h0 => ?_, fun _ h0 => ?_⟩, fun _ => rfl⟩, fun _ => e.symm⟩
      · have := k5 hB; rwa [← e, h0] at this
      · rintro ⟨y, rfl⟩
        exact k5 hB (by rw [← e, h0]; exact ⟨y, rfl⟩)
    | some a =>
      rw [hA, hB] at e
      simp only [Option.map_none, Option.map_some, Abnf.optText, List.nil_append] at e
      refine ⟨⟨fun h => by simp at h, fun hk => ?_⟩, fun h => by simp at h⟩
      exfalso
      cases hr : rest p with
      | nil => exact hk.scheme hA hr (by rw [hr, List.nil_append] at e; rw [e]; exact ⟨_, by simp only [List.append_assoc]; rfl⟩)
      | cons c r =>
        rw [hr] at e n1
        simp only [List.cons_append, List.cons.injEq, List.nil_append] at e
        obtain ⟨rfl, e⟩ := e
        cases r with
        | nil => exact hk.root hA hr ⟨_, by rw [List.nil_append] at e; exact e.symm⟩
        | cons d r =>
          simp only [List.cons_append, List.cons.injEq, List.nil_append] at e
          obtain ⟨rfl, e⟩ := e
          exact n1 ⟨r, rfl⟩
  | some a =>
    have ha := h4 (by rw [hA]; simp)
    cases hB : q.authority with
    | none =>
      rw [hA, hB] at e
      simp only [Option.map_none, Option.map_some, Abnf.optText, List.nil_append] at e
      exact absurd ⟨_, by rw [← e]; simp only [List.append_assoc]; rfl⟩ (k5 hB)
    | some a' =>
      have hb := k4 (by rw [hB]; simp)
      rw [hA, hB] at e
      simp only [Option.map_some, Abnf.optText, List.append_assoc] at e
      have e := List.append_cancel_left e
      refine ⟨⟨fun h => ?_, fun hk => ?_⟩, fun h => ?_⟩
      · obtain rfl := Option.some.inj h
        refine ⟨fun _ h0 c hc => ?_, fun h => (by rw [hA] at h; cases h), fun h => (by rw [hA] at h; cases h)⟩
        have := List.append_cancel_left e
        rw [h0, List.nil_append] at this
        exact ends_iff.1 (hb c (this ▸ hc))
      · have hh : ∀ c, (rest p ++ x).head? = some c → ends c = true := by
          intro c hc
          cases hr : rest p with
          | nil => rw [hr, List.nil_append] at hc; exact ends_iff.2 (hk.authority (by rw [hA]; simp) hr c hc)
          | cons d r => rw [hr] at hc ha; exact ha c hc
        obtain ⟨e1, -⟩ := cut_same (authority_ends (h3 a hA)) (authority_ends (k3 a' hB)) hh hb e
        rw [authority_same (h3 a hA) (k3 a' hB) e1]
      · obtain rfl := Option.some.inj h
        exact (List.append_cancel_left e).symm

/-- What a text of characters and triplets goes on with is one, too. -/
theorem many_go {f : UInt8 → Bool} {L : Lang} (hL : ∀ u, L u ↔ ElemL f u) (hp : f 0x25 = false) {u v : Str} (h1 : Abnf.many L u) (h2 : Abnf.many L (u ++ v)) : Abnf.many L v := by
  obtain ⟨es, rfl, he, -, -⟩ := h1
  obtain ⟨fs, e, hf, -, -⟩ := h2
  have key : ∀ es fs : List Str, (∀ x ∈ es, L x) → (∀ x ∈ fs, L x) → es.flatten ++ v = fs.flatten → ∃ gs : List Str, v = gs.flatten ∧ ∀ x ∈ gs, L x := by
    intro es
    induction es with
    | nil => intro fs _ hf e; exact ⟨fs, by simpa using e, hf⟩
    | cons x es ih =>
      intro fs he hf e
      cases fs with
      | nil =>
        exfalso
        rcases (hL x).1 (he x (by simp)) with ⟨c, rfl, -⟩ | ⟨a, b, rfl, -⟩ <;> simp at e
      | cons y fs =>
        have hx := (hL x).1 (he x (by simp))
        have hy := (hL y).1 (hf y (by simp))
        have : es.flatten ++ v = fs.flatten := by
          rcases hx with ⟨c, rfl, hc⟩ | ⟨a, b, rfl, -, -⟩ <;> rcases hy with ⟨d, rfl, hd⟩ | ⟨a', b', rfl, -, -⟩
          · simp only [List.flatten_cons, List.append_assoc, List.cons_append, List.nil_append, List.cons.injEq] at e; exact e.2
          · simp only [List.flatten_cons, List.append_assoc, List.cons_append, List.nil_append, List.cons.injEq] at e
            rw [e.1, hp] at hc; cases hc
          · simp only [List.flatten_cons, List.append_assoc, List.cons_append, List.nil_append, List.cons.injEq] at e
            rw [← e.1, hp] at hd; cases hd
          · simp only [List.flatten_cons, List.append_assoc, List.cons_append, List.nil_append, List.cons.injEq] at e; exact e.2.2.2
        exact ih fs (fun z hz => he z (by simp [hz])) (fun z hz => hf z (by simp [hz])) this
  obtain ⟨gs, e2, hg⟩ := key es fs he hf e
  exact ⟨gs, e2, hg, Nat.zero_le _, by simp⟩

theorem query_go {u v : Str} (h1 : Abnf.query u) (h2 : Abnf.query (u ++ v)) : Abnf.query v := many_go query_elem (by decide +kernel) h1 h2

theorem path_plain {s : Str} {p : Parts Str} (d : Abnf.URIDerives s p) : (∀ c ∈ pathText p.path, c ∉ b! "?#") ∧ (∀ t, p.query = some t → (0x23 : UInt8) ∉ t) := by
  obtain ⟨sch, t, h1, h2, h3, h4, h5, rfl⟩ := d
  obtain ⟨k1, k2⟩ := part_delims (fun g => segmentNz_segment) h3
  rw [part_text h3] at k1 k2
  refine ⟨fun c hc h => ?_, fun t ht h => ?_⟩
  · simp only [List.mem_cons, List.not_mem_nil, or_false] at h
    rcases h with rfl | rfl
    · exact k1 (by simp [hc])
    · exact k2 (by simp [hc])
  · have := only_query t (h4 t ht) _ h
    exact absurd this (by decide +kernel)

/-- Where the first of two texts that begin alike has no delimiter, the second only adds to it. -/
theorem longer {P Q T x : Str} {ds : Str} (hP : ∀ c ∈ P, c ∉ ds) (hT : ∀ c, T.head? = some c → c ∈ ds) (e : Q ++ T = P ++ x) : ∃ y, Q = P ++ y ∧ x = y ++ T := by
  rcases List.append_eq_append_iff.1 e with ⟨w, h1, h2⟩ | ⟨y, rfl, rfl⟩
  · cases w with
    | nil => exact ⟨[], by simpa using h1.symm, by simpa using h2.symm⟩
    | cons c w => exact absurd (hT c (by rw [h2]; rfl)) (hP c (by rw [h1]; simp))
  · exact ⟨y, rfl, rfl⟩

theorem tails {q f : Option Str} : ∀ c, (Abnf.optText (b! "?") q ++ Abnf.optText (b! "#") f).head? = some c → c ∈ b! "?#" := by
  intro c hc
  cases q <;> cases f <;> simp [Abnf.optText] at hc <;> subst hc <;> decide

end Verif.Append

/-! ### The property -/

namespace Verif
open Append

/-- **C118**: text appended to a URI changes nothing about its scheme, and exactly some texts change its authority. -/
theorem C118_server (pl : Plat) (u x : Str) (p q : Parts Str) (hp : SplitsTo pl u p) (hq : SplitsTo pl (u ++ x) q) :
    q.scheme = p.scheme ∧ (q.authority = p.authority ↔ KeepsServer p x) :=
  have h := both (splitsTo_iff.1 hp).1 (splitsTo_iff.1 hq).1
  ⟨h.1, h.2.1⟩

/-- **C118**: appended to a URI without query and fragment, it goes on with the path and then begins these. -/
theorem C118_path (pl : Plat) (u x : Str) (p q : Parts Str) (hp : SplitsTo pl u p) (hq : SplitsTo pl (u ++ x) q) (hk : KeepsServer p x)
    (h1 : p.query = none) (h2 : p.fragment = none) :
    ∃ y, pathText q.path = pathText p.path ++ y ∧ x = y ++ Abnf.optText (b! "?") q.query ++ Abnf.optText (b! "#") q.fragment := by
  have dp := (splitsTo_iff.1 hp).1
  have h := both dp (splitsTo_iff.1 hq).1
  have e := h.2.2 (h.2.1.2 hk)
  simp only [rest, h1, h2, Abnf.optText, List.append_nil] at e
  rw [List.append_assoc] at e
  obtain ⟨y, h3, h4⟩ := longer (path_plain dp).1 tails e
  exact ⟨y, h3, by rw [h4, List.append_assoc]⟩

/-- **C118**: to one with a query and no fragment exactly more of a query, and a fragment, can be appended; that is all that is changed. -/
theorem C118_query (pl : Plat) (u x y : Str) (p q : Parts Str) (hp : SplitsTo pl u p) (hy : p.query = some y) (hf : p.fragment = none) :
    SplitsTo pl (u ++ x) q ↔ ∃ y' f', x = y' ++ Abnf.optText (b! "#") f' ∧ Abnf.query y' ∧ (∀ t, f' = some t → Abnf.fragment t) ∧
      q = { p with query := some (y ++ y'), fragment := f' } := by
  obtain ⟨dp, ho, hc⟩ := splitsTo_iff.1 hp
  have make : ∀ y' f', x = y' ++ Abnf.optText (b! "#") f' → Abnf.query y' → (∀ t, f' = some t → Abnf.fragment t) →
      Abnf.URIDerives (u ++ x) { p with query := some (y ++ y'), fragment := f' } := by
    intro y' f' hx k1 k2
    obtain ⟨sch, t, h1, h2, h3, h4, h5, h6⟩ := dp
    refine ⟨sch, t, h1, h2, h3, ?_, k2, ?_⟩
    · rintro _ ⟨⟩; exact many_both (h4 y hy) k1
    · rw [h6, hx, hy, hf]; simp [Abnf.optText]
  constructor
  · intro hq
    have dq := (splitsTo_iff.1 hq).1
    have h := both dp dq
    have hk : KeepsServer p x := by
      refine ⟨fun _ h => ?_, fun _ h => ?_, fun _ h => ?_⟩
      · simp [rest, hy, Abnf.optText] at h
      · simp [rest, hy, Abnf.optText] at h
      · have : (0x3F : UInt8) ∈ rest p := by simp [rest, hy, Abnf.optText]
        rw [h] at this; exact absurd this (by decide)
    have e : pathText q.path ++ (Abnf.optText (b! "?") q.query ++ Abnf.optText (b! "#") q.fragment) = pathText p.path ++ (b! "?" ++ y ++ x) := by
      have := h.2.2 (h.2.1.2 hk)
      simpa [rest, hf, hy, Abnf.optText] using this
    obtain ⟨w, e1, e2⟩ := longer (path_plain dp).1 (tails (q := q.query) (f := q.fragment)) e
    -- the path of the longer text cannot go on, since a question mark follows
    have hw : w = [] := by
      cases w with
      | nil => rfl
      | cons c w =>
        obtain ⟨k, -⟩ := path_plain dq
        have : c = 0x3F := by
          simp only [List.cons_append, List.nil_append, List.cons.injEq] at e2; exact e2.1.symm
        exact absurd (by rw [this]; decide) (k c (by rw [e1]; simp))
    subst hw
    rw [List.nil_append] at e2
    obtain ⟨-, k2⟩ := path_plain dp
    cases hz : q.query with
    | none => rw [hz] at e2; cases hg : q.fragment <;> rw [hg] at e2 <;> simp [Abnf.optText] at e2
    | some z =>
      rw [hz] at e2
      simp only [Abnf.optText, List.cons_append, List.nil_append, List.cons.injEq, true_and] at e2
      obtain ⟨y', h7, h8⟩ := longer (P := y) (Q := z) (T := Abnf.optText (b! "#") q.fragment) (x := x) (ds := b! "#")
        (by intro c hc h; simp only [List.mem_cons, List.not_mem_nil, or_false] at h; subst h; exact k2 y hy hc)
        (by intro c hc; cases hg : q.fragment <;> rw [hg] at hc <;> simp [Abnf.optText] at hc; subst hc; decide) (by simpa [Abnf.optText] using e2.symm)
      obtain ⟨-, -, -, d4, d5, -⟩ := derives_components (Or.inl dq)
      obtain ⟨-, -, -, c4, -, -⟩ := derives_components (Or.inl dp)
      have hq' : Abnf.query y' := query_go (c4 y hy) (h7 ▸ d4 z hz)
      exact ⟨y', q.fragment, h8, hq', d5, derives_unique (Or.inl dq) (Or.inl (make y' q.fragment h8 hq' d5))⟩
  · rintro ⟨y', f', h1, h2, h3, rfl⟩
    exact splitsTo_iff.2 ⟨make y' f' h1 h2 h3, ho, hc⟩

/-- **C118**: to one with a fragment exactly more of the fragment can be appended, and only the fragment is changed. -/
theorem C118_fragment (pl : Plat) (u x f : Str) (p q : Parts Str) (hp : SplitsTo pl u p) (hf : p.fragment = some f) :
    SplitsTo pl (u ++ x) q ↔ Abnf.fragment x ∧ q = { p with fragment := some (f ++ x) } := by
  obtain ⟨dp, ho, hc⟩ := splitsTo_iff.1 hp
  have make : Abnf.fragment x → Abnf.URIDerives (u ++ x) { p with fragment := some (f ++ x) } := by
    intro k1
    obtain ⟨sch, t, h1, h2, h3, h4, h5, h6⟩ := dp
    refine ⟨sch, t, h1, h2, h3, h4, ?_, ?_⟩
    · rintro _ ⟨⟩; exact many_both (h5 f hf) k1
    · rw [h6, hf]; simp [Abnf.optText]
  constructor
  · intro hq
    have dq := (splitsTo_iff.1 hq).1
    have h := both dp dq
    have hk : KeepsServer p x := by
      refine ⟨fun _ h => ?_, fun _ h => ?_, fun _ h => ?_⟩
      · simp [rest, hf, Abnf.optText] at h
      · simp [rest, hf, Abnf.optText] at h
      · have : (0x23 : UInt8) ∈ rest p := by simp [rest, hf, Abnf.optText]
        rw [h] at this; exact absurd this (by decide)
    have e : pathText q.path ++ Abnf.optText (b! "?") q.query ++ Abnf.optText (b! "#") q.fragment = pathText p.path ++ Abnf.optText (b! "?") p.query ++ (b! "#" ++ f ++ x) := by
      have := h.2.2 (h.2.1.2 hk)
      simpa [rest, hf, Abnf.optText] using this
    have noHash : ∀ {s : Str} {r : Parts Str}, Abnf.URIDerives s r → ∀ c ∈ pathText r.path ++ Abnf.optText (b! "?") r.query, (fun c : UInt8 => !decide (c = 0x23)) c = true := by
      intro s r d c hc
      obtain ⟨k1, k2⟩ := path_plain d
      simp only [Bool.not_eq_true', decide_eq_false_iff_not]
      rintro rfl
      rcases List.mem_append.1 hc with hc | hc
      · exact k1 _ hc (by decide)
      · cases hz : r.query with
        | none => rw [hz] at hc; simp [Abnf.optText] at hc
        | some z => rw [hz] at hc; simp [Abnf.optText] at hc; exact k2 z hz hc
    have c1 := (takeWhile_stop (v := Abnf.optText (b! "#") q.fragment) (noHash dq) (by
      intro c hc; cases hg : q.fragment <;> rw [hg] at hc <;> simp [Abnf.optText] at hc; subst hc; decide)).2
    have c2 := (takeWhile_stop (v := b! "#" ++ f ++ x) (noHash dp) (by intro c hc; simp at hc; subst hc; decide)).2
    have e3 : Abnf.optText (b! "#") q.fragment = b! "#" ++ f ++ x := by
      rw [← c1, ← c2, e]
    cases hg : q.fragment with
    | none => rw [hg] at e3; simp [Abnf.optText] at e3
    | some g =>
      rw [hg] at e3
      simp only [Abnf.optText, List.append_assoc] at e3
      have e4 := List.append_cancel_left e3
      obtain ⟨-, -, -, -, d5, -⟩ := derives_components (Or.inl dq)
      obtain ⟨-, -, -, -, c5, -⟩ := derives_components (Or.inl dp)
      have hx : Abnf.fragment x := query_go (c5 f hf) (e4 ▸ d5 g hg)
      exact ⟨hx, derives_unique (Or.inl dq) (Or.inl (make hx))⟩
  · rintro ⟨h1, rfl⟩
    exact splitsTo_iff.2 ⟨make h1, ho, hc⟩

/-- **C118**, the texts that change the server: `.x`, `@x` and `:1` behind an authority, `/x` behind the path `/` of a URI without one. -/
theorem C118_counterexample :
    ([b! "s://h", b! "s://h.x", b! "s://h@x", b! "s:/", b! "s://x"].map fun s => (split x86 ⟨4096, s⟩).map (·.bind (·.text.authority.map fun a => (a.userinfo, a.host)))) =
      [.ok (some (none, b! "h")), .ok (some (none, b! "h.x")), .ok (some (some (b! "h"), b! "x")), .ok none, .ok (some (none, b! "x"))] := by
  decide +kernel

example : SplitsTo x86 (b! "s://h/a?b") ⟨some (b! "s"), some ⟨none, b! "h", none⟩, ⟨true, [b! "a"]⟩, some (b! "b"), none⟩ ∧
    SplitsTo x86 (b! "s://h/a?b" ++ b! "&c#d") ⟨some (b! "s"), some ⟨none, b! "h", none⟩, ⟨true, [b! "a"]⟩, some (b! "b&c"), some (b! "d")⟩ ∧
    SplitsTo x86 (b! "s://h/a#f") ⟨some (b! "s"), some ⟨none, b! "h", none⟩, ⟨true, [b! "a"]⟩, none, some (b! "f")⟩ :=
  ⟨c91_splits x86 (run_text (by decide +kernel)), c91_splits x86 (run_text (by decide +kernel)), c91_splits x86 (run_text (by decide +kernel))⟩

end Verif
