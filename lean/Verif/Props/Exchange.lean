import Verif.Props.Composed

/-!
# C91: components can be cut off, added and exchanged
-/

namespace Verif
set_option linter.unusedSimpArgs false

/-! ### Specification -/

/-- `p` is what `split_reference` reads in some text. -/
def Occurs (pl : Plat) (p : Parts Str) : Prop := ∃ s q, splitReference pl s = .ok (some q) ∧ q.text = p

/-- `split` reads the text `s`, wherever it is, as `p`. -/
def SplitsTo (pl : Plat) (s : Str) (p : Parts Str) : Prop := ∀ ptr, ∃ q, split pl ⟨ptr, s⟩ = .ok (some q) ∧ q.text = p

/-- `split_reference` reads the text `s`, wherever it is, as `p`. -/
def ReadsTo (pl : Plat) (s : Str) (p : Parts Str) : Prop := ∀ ptr, ∃ q, splitReference pl ⟨ptr, s⟩ = .ok (some q) ∧ q.text = p

/-- Everything before the first `/`, `?` or `#`. -/
def beforeSlash (s : Str) : Str := s.takeWhile (!oneOf (b! "/?#") ·)

/-! ### Proofs -/

theorem splitsTo_iff {pl : Plat} {s : Str} {p : Parts Str} : SplitsTo pl s p ↔ Abnf.URIDerives s p ∧ Abnf.HostOk p ∧ Abnf.PathCounted p :=
  ⟨fun h => (C02_split_exact pl ⟨0, s⟩ p).1 (h 0), fun h ptr => (C02_split_exact pl ⟨ptr, s⟩ p).2 h⟩

theorem readsTo_iff {pl : Plat} {s : Str} {p : Parts Str} : ReadsTo pl s p ↔ Abnf.ReferenceDerives s p ∧ Abnf.HostOk p ∧ Abnf.PathCounted p :=
  ⟨fun h => (C03_splitReference_exact pl ⟨0, s⟩ p).1 (h 0), fun h ptr => (C03_splitReference_exact pl ⟨ptr, s⟩ p).2 h⟩

theorem occurs_iff {pl : Plat} {p : Parts Str} : Occurs pl p ↔ ∃ s, ReadsTo pl s p := by
  constructor
  · rintro ⟨s, q, h⟩
    exact ⟨s.chars, readsTo_iff.2 ((C03_splitReference_exact pl s p).1 ⟨q, h⟩)⟩
  · rintro ⟨s, h⟩
    obtain ⟨q, h⟩ := h 0
    exact ⟨_, q, h⟩

/-- The text of hier-part or relative-part has no `?` and no `#`. -/
theorem part_delims {first : Lang} {t A P} (hf : ∀ g, first g → Abnf.segment g) (h : Abnf.PartDerives first t A P) :
    (0x3F : UInt8) ∉ t ∧ (0x23 : UInt8) ∉ t := by
  have key : ∀ c ∈ t, (!oneOf (b! "?#") c) = true := by
    intro c hc
    rw [part_text h] at hc
    rcases List.mem_append.1 hc with hc | hc
    · cases hA : A with
      | none => simp [hA, Abnf.optText] at hc
      | some a =>
        rw [hA] at hc
        rcases List.mem_append.1 hc with hc | hc
        · exact (by decide : ∀ c ∈ b! "//", (!oneOf (b! "?#") c) = true) c hc
        · have := authorityText_only (part_authority h a hA) c hc
          exact of_decide_eq_true (forall_byte (P := fun c => decide ((!oneOf (b! "/?#") c) = true → (!oneOf (b! "?#") c) = true)) (by decide +kernel) c) this
    · exact pathText_only (part_segments hf h) c hc
  constructor
  · intro hm; have := key _ hm; revert this; decide
  · intro hm; have := key _ hm; revert this; decide

theorem query_noHash {q : Str} (h : Abnf.query q) : (0x23 : UInt8) ∉ q := by
  intro hm
  have := only_mono only_query (g := fun c => c != 0x23) (by byte_tac) _ h _ hm
  simp at this

theorem scheme_delims {s : Str} (h : Abnf.scheme s) : (0x3F : UInt8) ∉ s ∧ (0x23 : UInt8) ∉ s ∧ (0x3A : UInt8) ∉ s := by
  refine ⟨fun hm => ?_, fun hm => ?_, fun hm => ?_⟩ <;> have := only_scheme _ h _ hm <;> revert this <;> decide

theorem noHash_before {x : Str} {q : Option Str} (hx : (0x23 : UInt8) ∉ x) (hq : ∀ t, q = some t → Abnf.query t) :
    (0x23 : UInt8) ∉ x ++ Abnf.optText (b! "?") q := by
  intro hm
  rcases List.mem_append.1 hm with hm | hm
  · exact hx hm
  · cases q with
    | none => simp [Abnf.optText] at hm
    | some t =>
      rcases List.mem_append.1 hm with hm | hm
      · revert hm; decide
      · exact query_noHash (hq t rfl) hm

/-- Cutting at the first occurrence of a delimiter. -/
theorem cut_opt {d : UInt8} {x s f : Str} {g : Option Str} (hx : d ∉ x) (hs : d ∉ s) (e : x ++ Abnf.optText [d] g = s ++ [d] ++ f) :
    x = s ∧ g = some f := by
  cases g with
  | none =>
    simp only [Abnf.optText, List.append_nil] at e
    rw [e] at hx; simp at hx
  | some g =>
    have : x ++ d :: g = s ++ d :: f := by simpa [Abnf.optText] using e
    obtain ⟨h1, h2⟩ := split_unique hx hs this
    exact ⟨h1, by rw [h2]⟩

theorem uri_fragment {s f : Str} {p : Parts Str} (h : (0x23 : UInt8) ∉ s) :
    Abnf.URIDerives (s ++ b! "#" ++ f) p ↔ Abnf.fragment f ∧ p.fragment = some f ∧ Abnf.URIDerives s { p with fragment := none } := by
  constructor
  · rintro ⟨c, t, h1, h2, h3, h4, h5, h6⟩
    have hn := part_delims (fun g => segmentNz_segment) h3
    have hc := scheme_delims h2
    have hb : (0x23 : UInt8) ∉ c ++ b! ":" ++ t := by simp [hn.2, hc.2.1]
    obtain ⟨e1, e2⟩ := cut_opt (noHash_before hb h4) h h6.symm
    exact ⟨h5 f e2, e2, c, t, h1, h2, h3, h4, by simp, by simp [Abnf.optText, ← e1]⟩
  · rintro ⟨h0, e, c, t, h1, h2, h3, h4, -, h6⟩
    refine ⟨c, t, h1, h2, h3, h4, ?_, ?_⟩
    · intro g hg; rw [e] at hg; cases hg; exact h0
    · rw [h6, e]; simp [Abnf.optText]

theorem rel_fragment {s f : Str} {p : Parts Str} (h : (0x23 : UInt8) ∉ s) :
    Abnf.RelativeDerives (s ++ b! "#" ++ f) p ↔ Abnf.fragment f ∧ p.fragment = some f ∧ Abnf.RelativeDerives s { p with fragment := none } := by
  constructor
  · rintro ⟨t, h1, h3, h4, h5, h6⟩
    have hn := part_delims (fun g => segmentNzNc_segment) h3
    obtain ⟨e1, e2⟩ := cut_opt (noHash_before hn.2 h4) h h6.symm
    exact ⟨h5 f e2, e2, t, h1, h3, h4, by simp, by simp [Abnf.optText, ← e1]⟩
  · rintro ⟨h0, e, t, h1, h3, h4, -, h6⟩
    refine ⟨t, h1, h3, h4, ?_, ?_⟩
    · intro g hg; rw [e] at hg; cases hg; exact h0
    · rw [h6, e]; simp [Abnf.optText]

theorem no_fragment {x s q : Str} {f : Option Str} (hs : (0x23 : UInt8) ∉ s) (hq : (0x23 : UInt8) ∉ q)
    (e : s ++ b! "?" ++ q = x ++ Abnf.optText (b! "#") f) : f = none := by
  cases f with
  | none => rfl
  | some f =>
    exfalso
    have : (0x23 : UInt8) ∈ s ++ b! "?" ++ q := by rw [e]; simp [Abnf.optText]
    simp [hs, hq] at this

theorem uri_query {s q : Str} {p : Parts Str} (h : (0x3F : UInt8) ∉ s) (h' : (0x23 : UInt8) ∉ s) (hq : (0x23 : UInt8) ∉ q) :
    Abnf.URIDerives (s ++ b! "?" ++ q) p ↔ Abnf.query q ∧ p.query = some q ∧ Abnf.URIDerives s { p with query := none } := by
  constructor
  · rintro ⟨c, t, h1, h2, h3, h4, h5, h6⟩
    have hn := part_delims (fun g => segmentNz_segment) h3
    have hc := scheme_delims h2
    have hf := no_fragment h' hq h6
    rw [hf] at h6
    have hb : (0x3F : UInt8) ∉ c ++ b! ":" ++ t := by simp [hn.1, hc.1]
    obtain ⟨e1, e2⟩ := cut_opt hb h (by simpa only [Abnf.optText, List.append_nil] using h6.symm)
    exact ⟨h4 q e2, e2, c, t, h1, h2, h3, by simp, h5, by simp [Abnf.optText, ← e1, hf]⟩
  · rintro ⟨h0, e, c, t, h1, h2, h3, -, h5, h6⟩
    refine ⟨c, t, h1, h2, h3, ?_, h5, ?_⟩
    · intro g hg; rw [e] at hg; cases hg; exact h0
    · have hf : p.fragment = none := by
        cases hf : p.fragment with
        | none => rfl
        | some f => rw [h6] at h'; simp [Abnf.optText, hf] at h'
      rw [h6, e]; simp [Abnf.optText, hf]

theorem rel_query {s q : Str} {p : Parts Str} (h : (0x3F : UInt8) ∉ s) (h' : (0x23 : UInt8) ∉ s) (hq : (0x23 : UInt8) ∉ q) :
    Abnf.RelativeDerives (s ++ b! "?" ++ q) p ↔ Abnf.query q ∧ p.query = some q ∧ Abnf.RelativeDerives s { p with query := none } := by
  constructor
  · rintro ⟨t, h1, h3, h4, h5, h6⟩
    have hn := part_delims (fun g => segmentNzNc_segment) h3
    have hf := no_fragment h' hq h6
    rw [hf] at h6
    obtain ⟨e1, e2⟩ := cut_opt hn.1 h (by simpa only [Abnf.optText, List.append_nil] using h6.symm)
    exact ⟨h4 q e2, e2, t, h1, h3, by simp, h5, by simp [Abnf.optText, ← e1, hf]⟩
  · rintro ⟨h0, e, t, h1, h3, -, h5, h6⟩
    refine ⟨t, h1, h3, ?_, h5, ?_⟩
    · intro g hg; rw [e] at hg; cases hg; exact h0
    · have hf : p.fragment = none := by
        cases hf : p.fragment with
        | none => rfl
        | some f => rw [h6] at h'; simp [Abnf.optText, hf] at h'
      rw [h6, e]; simp [Abnf.optText, hf]

theorem fragment_noHash {f : Str} (h : Abnf.fragment f) : (0x23 : UInt8) ∉ f := query_noHash h

theorem part_mono {t A P} (h : Abnf.PartDerives Abnf.segmentNzNc t A P) : Abnf.PartDerives Abnf.segmentNz t A P := by
  cases h with
  | abempty a gs h1 h2 => exact .abempty a gs h1 h2
  | root => exact .root
  | absolute g gs h1 h2 => exact .absolute g gs h1 h2
  | rootless g gs h1 h2 =>
    refine .rootless g gs ?_ h2
    obtain ⟨es, rfl, k1, k2, k3⟩ := h1
    refine ⟨es, rfl, fun e he => ?_, k2, k3⟩
    rcases k1 e he with k | k | k | k
    · exact Or.inl k
    · exact Or.inr (Or.inl k)
    · exact Or.inr (Or.inr (Or.inl k))
    · exact Or.inr (Or.inr (Or.inr (Or.inr k)))
  | empty => exact .empty

theorem uri_scheme {c s : Str} {p : Parts Str} (hc : Abnf.scheme c) (h : Abnf.URIDerives (c ++ b! ":" ++ s) p) :
    p.scheme = some c ∧ ∃ t, Abnf.PartDerives Abnf.segmentNz t p.authority p.path ∧
    (∀ q, p.query = some q → Abnf.query q) ∧ (∀ f, p.fragment = some f → Abnf.fragment f) ∧
    s = t ++ Abnf.optText (b! "?") p.query ++ Abnf.optText (b! "#") p.fragment := by
  obtain ⟨c', t, h1, h2, h3, h4, h5, h6⟩ := h
  have e : c ++ 0x3A :: s = c' ++ 0x3A :: (t ++ Abnf.optText (b! "?") p.query ++ Abnf.optText (b! "#") p.fragment) := by simpa using h6
  obtain ⟨k1, k2⟩ := split_unique (scheme_delims hc).2.2 (scheme_delims h2).2.2 e
  subst k1
  exact ⟨h1, t, h3, h4, h5, k2⟩

theorem takeWhile_left {f : UInt8 → Bool} : ∀ {x y : Str}, (∀ c ∈ x, f c = true) → ∀ c ∈ x, c ∈ (x ++ y).takeWhile f
  | d :: x, y, h, c, hc => by
    rw [List.cons_append, List.takeWhile_cons, if_pos (h d (by simp))]
    rcases List.mem_cons.1 hc with rfl | hc
    · simp
    · exact List.mem_cons_of_mem _ (takeWhile_left (fun e he => h e (by simp [he])) c hc)

theorem scheme_before {c : Str} (h : Abnf.scheme c) : ∀ x ∈ c, (!oneOf (b! "/?#") x) = true :=
  only_mono only_scheme (g := fun c => !oneOf (b! "/?#") c) (by byte_tac) _ h

/-! ### Theorems -/

/-- **C91**, the fragment: a text with `#` is a reference exactly if what follows is a fragment and what comes before is a reference, and
it is read as that with this fragment. -/
theorem C91_fragment (pl : Plat) (s f : Str) (p : Parts Str) (h : (0x23 : UInt8) ∉ s) :
    (ReadsTo pl (s ++ b! "#" ++ f) p ↔ Abnf.fragment f ∧ p.fragment = some f ∧ ReadsTo pl s { p with fragment := none }) ∧
    (SplitsTo pl (s ++ b! "#" ++ f) p ↔ Abnf.fragment f ∧ p.fragment = some f ∧ SplitsTo pl s { p with fragment := none }) := by
  simp only [readsTo_iff, splitsTo_iff, Abnf.ReferenceDerives, uri_fragment h, rel_fragment h]
  constructor
  · constructor
    · rintro ⟨⟨h1, h2, h3⟩ | ⟨h1, h2, h3⟩, k1, k2⟩
      · exact ⟨h1, h2, Or.inl h3, k1, k2⟩
      · exact ⟨h1, h2, Or.inr h3, k1, k2⟩
    · rintro ⟨h1, h2, h3 | h3, k1, k2⟩
      · exact ⟨Or.inl ⟨h1, h2, h3⟩, k1, k2⟩
      · exact ⟨Or.inr ⟨h1, h2, h3⟩, k1, k2⟩
  · constructor
    · rintro ⟨⟨h1, h2, h3⟩, k1, k2⟩
      exact ⟨h1, h2, h3, k1, k2⟩
    · rintro ⟨h1, h2, h3, k1, k2⟩
      exact ⟨⟨h1, h2, h3⟩, k1, k2⟩

/-- **C91**, the query. -/
theorem C91_query (pl : Plat) (s q : Str) (p : Parts Str) (h : (0x3F : UInt8) ∉ s) (h' : (0x23 : UInt8) ∉ s) (hq : (0x23 : UInt8) ∉ q) :
    (ReadsTo pl (s ++ b! "?" ++ q) p ↔ Abnf.query q ∧ p.query = some q ∧ ReadsTo pl s { p with query := none }) ∧
    (SplitsTo pl (s ++ b! "?" ++ q) p ↔ Abnf.query q ∧ p.query = some q ∧ SplitsTo pl s { p with query := none }) := by
  simp only [readsTo_iff, splitsTo_iff, Abnf.ReferenceDerives, uri_query h h' hq, rel_query h h' hq]
  constructor
  · constructor
    · rintro ⟨⟨h1, h2, h3⟩ | ⟨h1, h2, h3⟩, k1, k2⟩
      · exact ⟨h1, h2, Or.inl h3, k1, k2⟩
      · exact ⟨h1, h2, Or.inr h3, k1, k2⟩
    · rintro ⟨h1, h2, h3 | h3, k1, k2⟩
      · exact ⟨Or.inl ⟨h1, h2, h3⟩, k1, k2⟩
      · exact ⟨Or.inr ⟨h1, h2, h3⟩, k1, k2⟩
  · constructor
    · rintro ⟨⟨h1, h2, h3⟩, k1, k2⟩
      exact ⟨h1, h2, h3, k1, k2⟩
    · rintro ⟨h1, h2, h3, k1, k2⟩
      exact ⟨⟨h1, h2, h3⟩, k1, k2⟩

/-- **C91**, the scheme: one is as good as another. -/
theorem C91_scheme (pl : Plat) (c c' s : Str) (p : Parts Str) (hc : Abnf.scheme c) (hc' : Abnf.scheme c') :
    SplitsTo pl (c ++ b! ":" ++ s) p ↔ p.scheme = some c ∧ SplitsTo pl (c' ++ b! ":" ++ s) { p with scheme := some c' } := by
  simp only [splitsTo_iff]
  constructor
  · rintro ⟨h, k1, k2⟩
    obtain ⟨h1, t, h3, h4, h5, h6⟩ := uri_scheme hc h
    exact ⟨h1, ⟨c', t, rfl, hc', h3, h4, h5, by simp [h6]⟩, k1, k2⟩
  · rintro ⟨h1, h, k1, k2⟩
    obtain ⟨-, t, h3, h4, h5, h6⟩ := uri_scheme hc' h
    exact ⟨⟨c, t, h1, hc, h3, h4, h5, by rw [h6]; simp⟩, k1, k2⟩

/-- **C91**, the scheme: a relative reference is what is left of a URI without its scheme, if there is no `:` before the first `/`, `?`
or `#`. -/
theorem C91_relative (pl : Plat) (c s : Str) (p : Parts Str) (hc : Abnf.scheme c) (h : (0x3A : UInt8) ∉ beforeSlash s) :
    SplitsTo pl (c ++ b! ":" ++ s) p ↔ p.scheme = some c ∧ ReadsTo pl s { p with scheme := none } := by
  simp only [splitsTo_iff, readsTo_iff]
  constructor
  · rintro ⟨hd, k1, k2⟩
    obtain ⟨h1, t, h3, h4, h5, h6⟩ := uri_scheme hc hd
    refine ⟨h1, Or.inr ⟨t, rfl, part_nc h3 ?_, h4, h5, h6⟩, k1, k2⟩
    intro hA hab g gs hg hm
    apply h
    have hpt := part_text h3
    rw [hA] at hpt
    have hP : pathText p.path = g ++ Abnf.slashes gs := by
      obtain ⟨_, _, ⟨ab, gs'⟩, _, _⟩ := p
      simp only at hab hg
      subst hab hg
      simp [pathText]
    have hseg := part_segments (fun g => segmentNz_segment) h3 g (by rw [hg]; simp)
    rw [h6, hpt, hP]
    simp only [Option.map_none, Abnf.optText, List.nil_append, List.append_assoc]
    exact takeWhile_left (only_mono only_segment (g := fun c => !oneOf (b! "/?#") c) (by byte_tac) _ hseg) _ hm
  · rintro ⟨h1, hd, k1, k2⟩
    refine ⟨?_, k1, k2⟩
    rcases hd with ⟨_, _, e, _⟩ | ⟨t, _, h3, h4, h5, h6⟩
    · cases e
    · exact ⟨c, t, h1, hc, part_mono h3, h4, h5, by rw [h6]; simp⟩

/-- **C91**: the components of a reference are independent of each other.  A value is read from some text exactly if each of its
components is read from some text, the path without an authority if it has none and (then) without a scheme if it has none. -/
theorem C91_independent (pl : Plat) (r : Parts Str) :
    Occurs pl r ↔
    (∀ c, r.scheme = some c → ∃ p, Occurs pl p ∧ p.scheme = some c) ∧
    (∀ a, r.authority = some a →
      (∀ u, a.userinfo = some u → ∃ p b, Occurs pl p ∧ p.authority = some b ∧ b.userinfo = some u) ∧
      (∃ p b, Occurs pl p ∧ p.authority = some b ∧ b.host = a.host) ∧
      (∀ t, a.port = some t → ∃ p b, Occurs pl p ∧ p.authority = some b ∧ b.port = some t)) ∧
    (∃ p, Occurs pl p ∧ p.path = r.path ∧ (p.authority = none ↔ r.authority = none) ∧ (r.authority = none → r.scheme = none → p.scheme = none)) ∧
    (∀ q, r.query = some q → ∃ p, Occurs pl p ∧ p.query = some q) ∧
    (∀ f, r.fragment = some f → ∃ p, Occurs pl p ∧ p.fragment = some f) := by
  constructor
  · intro h
    exact ⟨fun c e => ⟨r, h, e⟩, fun a e => ⟨fun u k => ⟨r, a, h, e, k⟩, ⟨r, a, h, e, rfl⟩, fun t k => ⟨r, a, h, e, k⟩⟩,
      ⟨r, h, rfl, Iff.rfl, fun _ => id⟩, fun q e => ⟨r, h, e⟩, fun f e => ⟨r, h, e⟩⟩
  · rintro ⟨hS, hA, ⟨p, hp, e, hpa, hps⟩, hQ, hF⟩
    have comp : ∀ {p}, Occurs pl p → ∃ s, Abnf.ReferenceDerives s p ∧ Abnf.HostOk p ∧ Abnf.PathCounted p := fun h => by
      obtain ⟨s, h⟩ := occurs_iff.1 h
      exact ⟨s, readsTo_iff.1 h⟩
    have h1 : ∀ c, r.scheme = some c → Abnf.scheme c := by
      intro c k
      obtain ⟨p, h, k⟩ := hS c k
      obtain ⟨s, h, -⟩ := comp h
      exact (derives_components h).2.2.2.2.2 c k
    have h2 : ∀ q, r.query = some q → Abnf.query q := by
      intro c k
      obtain ⟨p, h, k⟩ := hQ c k
      obtain ⟨s, h, -⟩ := comp h
      exact (derives_components h).2.2.2.1 c k
    have h3 : ∀ q, r.fragment = some q → Abnf.fragment q := by
      intro c k
      obtain ⟨p, h, k⟩ := hF c k
      obtain ⟨s, h, -⟩ := comp h
      exact (derives_components h).2.2.2.2.1 c k
    have h4 : ∀ a, r.authority = some a → Abnf.AuthorityOk a ∧ Abnf.HostAccepted a.host := by
      intro a k
      obtain ⟨k1, k2, k3⟩ := hA a k
      have hh : Abnf.HostAccepted a.host := by
        obtain ⟨p, b, h, e1, e2⟩ := k2
        obtain ⟨s, _, h, -⟩ := comp h
        rw [← e2]; exact h b e1
      refine ⟨⟨?_, hostAccepted_host hh, ?_⟩, hh⟩
      · intro u e
        obtain ⟨p, b, h, e1, e2⟩ := k1 u e
        obtain ⟨s, h, -⟩ := comp h
        exact (derives_components h).1 b e1 u e2
      · intro u e
        obtain ⟨p, b, h, e1, e2⟩ := k3 u e
        obtain ⟨s, h, -⟩ := comp h
        exact (derives_components h).2.1 b e1 u e2
    obtain ⟨s, hd, -, hc⟩ := comp hp
    -- the part between scheme and query
    have hpart : ∃ t, Abnf.PartDerives Abnf.segmentNz t r.authority r.path ∧ (r.scheme = none → Abnf.PartDerives Abnf.segmentNzNc t r.authority r.path) := by
      cases hAu : r.authority with
      | some a =>
        have hgs := (derives_components hd).2.2.1
        have hab : r.path.absolute = !r.path.segments.isEmpty := by
          rw [← e]
          have : p.authority ≠ none := fun k => by rw [hpa.1 k] at hAu; cases hAu
          have key : ∀ {first : Lang} {t A P}, Abnf.PartDerives first t A P → A ≠ none → P.absolute = !P.segments.isEmpty := by
            intro first t A P h hne
            cases h with
            | abempty => rfl
            | _ => exact absurd rfl hne
          rcases hd with ⟨_, t, _, _, h3, _⟩ | ⟨t, _, h3, _⟩
          · exact key h3 this
          · exact key h3 this
        have hP : r.path = ⟨!r.path.segments.isEmpty, r.path.segments⟩ := by
          obtain ⟨_, _, ⟨ab, gs⟩, _, _⟩ := r
          simp only at hab
          rw [hab]
        rw [hP]
        rw [e] at hgs
        exact ⟨_, .abempty a r.path.segments (h4 a hAu).1 hgs, fun _ => .abempty a r.path.segments (h4 a hAu).1 hgs⟩
      | none =>
        have hpn := hpa.2 hAu
        rw [hAu] at hps
        rw [← e, ← hpn]
        rcases hd with ⟨c, t, k1, _, k3, _⟩ | ⟨t, _, k3, _⟩
        · refine ⟨t, k3, fun k => ?_⟩
          have := hps rfl k
          rw [k1] at this; cases this
        · exact ⟨t, part_mono k3, fun _ => k3⟩
    obtain ⟨t, k1, k2⟩ := hpart
    have hcr : Abnf.PathCounted r := by
      intro hn g gs k
      exact hc (hpa.2 hn) g gs (e ▸ k)
    refine occurs_iff.2 ?_
    cases hs : r.scheme with
    | none => exact ⟨_, readsTo_iff.2 ⟨Or.inr ⟨t, hs, k2 hs, h2, h3, rfl⟩, fun a ha => (h4 a ha).2, hcr⟩⟩
    | some c => exact ⟨_, readsTo_iff.2 ⟨Or.inl ⟨c, t, hs, h1 c hs, k1, h2, h3, rfl⟩, fun a ha => (h4 a ha).2, hcr⟩⟩

/-! ### The hypotheses are met, and needed -/

theorem c91_reads {s : Str} {p : Parts Str} (pl : Plat) (h : ∃ q, splitReference pl ⟨0, s⟩ = .ok (some q) ∧ q.text = p) : ReadsTo pl s p :=
  readsTo_iff.2 ((C03_splitReference_exact pl ⟨0, s⟩ p).1 h)

theorem c91_splits {s : Str} {p : Parts Str} (pl : Plat) (h : ∃ q, split pl ⟨0, s⟩ = .ok (some q) ∧ q.text = p) : SplitsTo pl s p :=
  splitsTo_iff.2 ((C02_split_exact pl ⟨0, s⟩ p).1 h)

/-- `a/b?c#d` and `a/b?c`. -/
example (pl : Plat) : ReadsTo pl (b! "a/b?c" ++ b! "#" ++ b! "d") ⟨none, none, ⟨false, [b! "a", b! "b"]⟩, some (b! "c"), some (b! "d")⟩ :=
  c91_reads pl (run_text (by obtain ⟨b⟩ := pl; cases b <;> decide +kernel))

/-- `s://h/b?c` and `s://h/b`. -/
example (pl : Plat) : SplitsTo pl (b! "s://h/b" ++ b! "?" ++ b! "c?") ⟨some (b! "s"), some ⟨none, b! "h", none⟩, ⟨true, [b! "b"]⟩, some (b! "c?"), none⟩ :=
  c91_splits pl (run_text (by obtain ⟨b⟩ := pl; cases b <;> decide +kernel))

/-- `s:x/b` and, with another scheme or none, `t:x/b` and `x/b`. -/
example (pl : Plat) : SplitsTo pl (b! "s" ++ b! ":" ++ b! "x/b:c") ⟨some (b! "s"), none, ⟨false, [b! "x", b! "b:c"]⟩, none, none⟩ ∧
    (0x3A : UInt8) ∉ beforeSlash (b! "x/b:c") :=
  ⟨c91_splits pl (run_text (by obtain ⟨b⟩ := pl; cases b <;> decide +kernel)), by decide⟩

/-- **C91**, counterexample: without its scheme, `s:a:b` is not `a:b` as a path but a URI with the scheme `a`. -/
theorem C91_relative_counterexample (pl : Plat) :
    SplitsTo pl (b! "s:a:b") ⟨some (b! "s"), none, ⟨false, [b! "a:b"]⟩, none, none⟩ ∧
    ReadsTo pl (b! "a:b") ⟨some (b! "a"), none, ⟨false, [b! "b"]⟩, none, none⟩ :=
  ⟨c91_splits pl (run_text (by obtain ⟨b⟩ := pl; cases b <;> decide +kernel)), c91_reads pl (run_text (by obtain ⟨b⟩ := pl; cases b <;> decide +kernel))⟩

/-- **C91**, counterexample: the path `//b` occurs after an authority (`//h//b`) but not without one, where it would be one. -/
theorem C91_path_counterexample (pl : Plat) :
    Occurs pl ⟨none, some ⟨none, b! "h", none⟩, ⟨true, [[], b! "b"]⟩, none, none⟩ ∧ ¬ Occurs pl ⟨none, none, ⟨true, [[], b! "b"]⟩, none, none⟩ := by
  refine ⟨occurs_iff.2 ⟨b! "//h//b", c91_reads pl (run_text (by obtain ⟨b⟩ := pl; cases b <;> decide +kernel))⟩, fun h => ?_⟩
  obtain ⟨s, h⟩ := occurs_iff.1 h
  have := derives_shape (readsTo_iff.1 h).1 rfl
  simp at this

end Verif
