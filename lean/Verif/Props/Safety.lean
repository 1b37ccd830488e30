import Verif.Proofs.CharSafe
import Verif.Props.Parse
import Verif.Proofs.JoinText

/-!
# Properties C53, C55, C56: character safety, `operator==` as a congruence, results of `join`
-/

namespace Verif
open Spec

/-! ### C53 -/

/-- C53: what `split` and `split_reference` accept consists of URI characters only, and every `%` in it begins a
percent-encoded octet. -/
theorem C53_accepted (pl : Plat) (sv : SV) (q : Parts SV)
    (e : split pl sv = .ok (some q) ∨ splitReference pl sv = .ok (some q)) : CharSafe sv.chars := by
  rcases e with e | e
  · exact safe_URI _ (C01_split_sound pl sv q e).1
  · exact safe_reference _ (C03_splitReference_sound pl sv q e).1

/-- C53, the other way round: a text with any other byte, or with a stray `%`, is rejected (unless a `<cctype>` call is
undefined). -/
theorem C53_rejected (pl : Plat) (sv : SV) (h : ¬ CharSafe sv.chars) (hs : CtypeSafe pl sv.chars) :
    split pl sv = .ok none ∧ splitReference pl sv = .ok none :=
  ⟨C02_split_rejects pl sv (fun h' => h (safe_URI _ h')) hs,
   C03_splitReference_rejects pl sv (fun h' => h (safe_reference _ h')) hs⟩

/-- C53, every component of a `valid()` value is character-safe and contains none of the delimiters that end it in a
composed URI; the port is digits. -/
theorem C53_components (pl : Plat) (p : Parts SV) (h : p.valid pl = .ok true) :
    (∀ v ∈ p.views, CharSafe v.chars) ∧
    (∀ v, p.scheme = some v → ∀ c ∈ v.chars, c ∉ b! ":/?#[]@%") ∧
    (∀ a, p.authority = some a →
      (∀ v, a.userinfo = some v → ∀ c ∈ v.chars, c ∉ b! "/?#[]@") ∧
      (∀ c ∈ a.host.chars, c ∉ b! "/?#@") ∧
      (∀ v, a.port = some v → ∀ c ∈ v.chars, c ∈ b! "0123456789")) ∧
    (∀ v ∈ p.path.segments, ∀ c ∈ v.chars, c ∉ b! "/?#[]") ∧
    (∀ v, p.query = some v → ∀ c ∈ v.chars, c ∉ b! "#[]") ∧
    (∀ v, p.fragment = some v → ∀ c ∈ v.chars, c ∉ b! "#[]") := by
  have ok := valid_sound h
  obtain ⟨sch, auth, ⟨ab, segs⟩, qu, fr⟩ := p
  have hsch : ∀ v, sch = some v → Abnf.scheme v.chars := by
    rintro v rfl
    obtain ⟨s, e, hs⟩ := ok.scheme
    simp [Parts.text, Parts.map] at e; subst e; exact hs
  have hu : ∀ a, auth = some a → ∀ v, a.userinfo = some v → Abnf.userinfo v.chars := by
    rintro ⟨u, h', p'⟩ rfl v rfl
    exact ok.userinfo ⟨some v.chars, h'.chars, p'.map (·.chars)⟩ (by simp [Parts.text, Parts.map, Authority.map]) _ rfl
  have hh : ∀ a, auth = some a → Abnf.host a.host.chars := by
    rintro ⟨u, h', p'⟩ rfl
    exact hostAccepted_host (ok.host ⟨u.map (·.chars), h'.chars, p'.map (·.chars)⟩ (by simp [Parts.text, Parts.map, Authority.map]))
  have hp : ∀ a, auth = some a → ∀ v, a.port = some v → Abnf.port v.chars := by
    rintro ⟨u, h', p'⟩ rfl v rfl
    exact ok.port ⟨u.map (·.chars), h'.chars, some v.chars⟩ (by simp [Parts.text, Parts.map, Authority.map]) _ rfl
  have hg : ∀ v ∈ segs, Abnf.segment v.chars := by
    intro v hv
    exact ok.path v.chars (by simp only [Parts.text, Parts.map, Path.map]; exact List.mem_map_of_mem hv)
  have hq : ∀ v, qu = some v → Abnf.query v.chars := by
    rintro v rfl; exact ok.query _ (by simp [Parts.text, Parts.map])
  have hf : ∀ v, fr = some v → Abnf.fragment v.chars := by
    rintro v rfl; exact ok.fragment _ (by simp [Parts.text, Parts.map])
  refine ⟨?_, fun v e c hc => noneOf_iff.1 (over_scheme _ (hsch v e) c hc),
    fun a e => ⟨fun v e' c hc => noneOf_iff.1 (over_userinfo _ (hu a e v e') c hc),
      fun c hc => noneOf_iff.1 (over_host _ (hh a e) c hc),
      fun v e' c hc => by simpa using over_port _ (hp a e v e') c hc⟩,
    fun v e c hc => noneOf_iff.1 (over_segment _ (hg v e) c hc),
    fun v e c hc => noneOf_iff.1 (over_query _ (hq v e) c hc),
    fun v e c hc => noneOf_iff.1 (over_query _ (hf v e) c hc)⟩
  intro v hv
  simp only [Parts.views, List.mem_append, Option.mem_toList] at hv
  rcases hv with (((hv | hv) | hv) | hv) | hv
  · refine safe_cat ?_ ?_ _ (hsch v hv)
    · exact safe_ALPHA
    · unfold Abnf.many; safe_tac
  · cases auth with
    | none => simp at hv
    | some a =>
      simp only [List.mem_append, Option.mem_toList, List.mem_singleton] at hv
      rcases hv with (hv | hv) | hv
      · exact safe_userinfo _ (hu a rfl v hv)
      · subst hv; exact safe_host _ (hh a rfl)
      · exact safe_rep safe_DIGIT _ (hp a rfl v hv)
  · exact safe_segment _ (hg v hv)
  · exact safe_query _ (hq v hv)
  · exact safe_query _ (hf v hv)

/-- Not vacuous: accepted texts exist, and a space, a control, a non-ASCII byte (on a platform with unsigned `char`) and
a stray `%` each make a text unsafe. -/
example : ∃ q, split x86 exView = .ok (some q) := (exSplit).imp fun _ h => h.1
example : ¬ CharSafe (b! "http://h/a b") ∧ ¬ CharSafe (b! "http://h/a%2") ∧ ¬ CharSafe (b! "http://h/\n") := by
  refine ⟨fun h => absurd (h.1 0x20 (by decide)) (by decide), fun h => ?_, fun h => absurd (h.1 0x0A (by decide)) (by decide)⟩
  obtain ⟨x, y, t, e, -⟩ := h.2 (b! "http://h/a") (b! "2") (by decide)
  simp at e

/-! ### C54 -/

/-- C54: resolving a resolved reference again changes nothing, exactly when the reference took nothing but its path, or
the base has no dot segments: in strict mode, or when the result has an authority. -/
theorem C54_join_idempotent (b r : Parts SV) (strict : Bool) (hb : b.scheme ≠ none)
    (hm : strict = true ∨ (join b r strict).authority ≠ none) :
    Parts.eq (join b (join b r strict) strict) (join b r strict) = true ↔
      ((r.scheme = none ∨ (strict = false ∧ r.text.scheme = b.text.scheme)) ∧ r.authority = none ∧ r.path.segments = [] →
        ∀ g ∈ b.path.segments, g.chars ≠ b! "." ∧ g.chars ≠ b! "..") := by
  rw [partsEq_iff, joinT_text, joinT_text]
  have hm' : strict = true ∨ (joinT b.text r.text strict).authority ≠ none := by
    rw [← joinT_text]; simpa [Parts.text, Parts.map] using hm
  have hb' : b.text.scheme ≠ none := by simpa [Parts.text, Parts.map] using hb
  have e1 : r.scheme = none ↔ r.text.scheme = none := by simp [Parts.text, Parts.map]
  have e2 : r.authority = none ↔ r.text.authority = none := by simp [Parts.text, Parts.map]
  have e3 : r.path.segments = [] ↔ r.text.path.segments = [] := by simp [Parts.text, Parts.map, Path.map]
  have e4 : (∀ g ∈ b.path.segments, g.chars ≠ b! "." ∧ g.chars ≠ b! "..") ↔ ∀ g ∈ b.text.path.segments, isDot g = false := by
    simp only [Parts.text, Parts.map, Path.map, List.mem_map, forall_exists_index, and_imp, forall_apply_eq_imp_iff₂, isDot_iff]
  rw [e1, e2, e3, e4]
  generalize b.text = B at *
  generalize r.text = R at *
  clear e1 e2 e3 e4 hm hb b r
  -- the outer join keeps everything but the path
  have key : ∀ T : Parts Str, T.scheme ≠ none → (strict = true ∨ T.authority ≠ none) →
      (joinT B T strict) = ⟨T.scheme, T.authority, rdsT T.path, T.query, T.fragment⟩ := by
    intro T hT hs
    simp only [joinT]
    by_cases hc : (¬ strict = true ∧ T.scheme = B.scheme) ∨ T.scheme = none
    · rw [if_pos hc]
      rcases hc with ⟨h1, h2⟩ | h
      · rw [if_pos (by rcases hs with h | h; exact absurd h h1; exact Option.isSome_iff_ne_none.2 h), h2]
      · exact absurd h hT
    · rw [if_neg hc]
  have hsch : (joinT B R strict).scheme ≠ none := by
    simp only [joinT]
    split
    · (repeat' split) <;> exact hb'
    · rename_i h; exact fun h' => h (Or.inr h')
  rw [key _ hsch hm']
  have hsame : ∀ T : Parts Str, SameComponents ⟨T.scheme, T.authority, rdsT T.path, T.query, T.fragment⟩ T ↔
      (rdsT T.path).segments = T.path.segments := by
    intro T
    exact ⟨fun h => h.2.2.2.2.1, fun h => ⟨rfl, rfl, rfl, rfl, h, fun _ => rfl⟩⟩
  rw [hsame]
  by_cases hc : ((¬ strict = true ∧ R.scheme = B.scheme) ∨ R.scheme = none) ∧ R.authority = none ∧ R.path.segments = []
  · have hP : (joinT B R strict).path = B.path := by
      simp only [joinT]; rw [if_pos hc.1, if_neg (by simp [hc.2.1]), if_pos hc.2.2]
    rw [hP, rdsT_fixed_iff]
    refine ⟨fun h _ => h, fun h => h ⟨?_, hc.2⟩⟩
    rcases hc.1 with ⟨h1, h2⟩ | h
    · exact Or.inr ⟨by simpa using h1, h2⟩
    · exact Or.inl h
  · have hP : ∃ P, (joinT B R strict).path = rdsT P := by
      simp only [joinT]
      by_cases h1 : (¬ strict = true ∧ R.scheme = B.scheme) ∨ R.scheme = none
      · rw [if_pos h1]
        by_cases h2 : R.authority.isSome = true
        · rw [if_pos h2]; exact ⟨_, rfl⟩
        · rw [if_neg h2, if_neg (fun h3 => hc ⟨h1, by simpa using h2, h3⟩)]
          split <;> exact ⟨_, rfl⟩
      · rw [if_neg h1]; exact ⟨_, rfl⟩
    obtain ⟨P, hP⟩ := hP
    rw [hP, rdsT_idem]
    refine ⟨fun _ h => absurd ⟨?_, h.2⟩ hc, fun _ => rfl⟩
    rcases h.1 with h1 | ⟨h1, h2⟩
    · exact Or.inr h1
    · exact Or.inl ⟨by simp [h1], h2⟩

/-- The exception is real: a base whose path has dot segments, and the empty reference. -/
theorem C54_counterexample : ∃ b r t u, split x86 ⟨4096, b! "http://h/a/../b"⟩ = .ok (some b) ∧
    splitReference x86 ⟨8192, b! "#f"⟩ = .ok (some r) ∧ t = join b r true ∧ u = join b t true ∧
    Parts.eq u t = false ∧ compose t = b! "http://h/a/../b#f" ∧ compose u = b! "http://h/b#f" := by
  obtain ⟨b, e1, h1⟩ := run_text (x := split x86 ⟨4096, b! "http://h/a/../b"⟩)
    (p := ⟨some (b! "http"), some ⟨none, b! "h", none⟩, ⟨true, [b! "a", b! "..", b! "b"]⟩, none, none⟩) (by decide +kernel)
  obtain ⟨r, e2, h2⟩ := run_text (x := splitReference x86 ⟨8192, b! "#f"⟩)
    (p := ⟨none, none, ⟨false, []⟩, none, some (b! "f")⟩) (by decide +kernel)
  refine ⟨b, r, _, _, e1, e2, rfl, rfl, ?_, ?_, ?_⟩
  · rw [Bool.eq_false_iff, Ne, partsEq_iff, joinT_text, joinT_text, h1, h2]
    intro h
    exact absurd h.2.2.2.2.1 (by decide +kernel)
  · rw [compose_text, joinT_text, h1, h2]; decide +kernel
  · rw [compose_text, joinT_text, joinT_text, h1, h2]; decide +kernel

/-- The hypotheses are met by a base with a scheme, in strict mode. -/
example : ∃ b, split x86 ⟨4096, b! "http://h/a/../b"⟩ = .ok (some b) ∧ b.scheme ≠ none := by
  obtain ⟨b, e1, h1⟩ := run_text (x := split x86 ⟨4096, b! "http://h/a/../b"⟩)
    (p := ⟨some (b! "http"), some ⟨none, b! "h", none⟩, ⟨true, [b! "a", b! "..", b! "b"]⟩, none, none⟩) (by decide +kernel)
  exact ⟨b, e1, by intro h; have := congrArg Parts.scheme h1; simp [Parts.text, Parts.map, h] at this⟩

/-! ### C55 -/

/-- C55: values that compare equal resolve to values that compare equal. -/
theorem C55_join_congr (b b' r r' : Parts SV) (strict : Bool) (hb : Parts.eq b b' = true) (hr : Parts.eq r r' = true) :
    Parts.eq (join b r strict) (join b' r' strict) = true := by
  rw [partsEq_iff, joinT_text, joinT_text]
  exact joinT_congr strict (partsEq_iff.1 hb) (partsEq_iff.1 hr)

theorem componentsOk_congr {p q : Parts Str} (h : SameComponents p q) (hp : ComponentsOk p) : ComponentsOk q := by
  obtain ⟨h1, h2, h3, h4, h5, -⟩ := h
  obtain ⟨k1, k2, k3, k4, k5, k6, k7⟩ := hp
  rw [h1] at k1; rw [h2] at k2 k3 k4; rw [h3] at k6; rw [h4] at k7; rw [h5] at k5
  exact ⟨k1, k2, k3, k4, k5, k6, k7⟩

/-- C55: values that compare equal are `valid()` together. -/
theorem C55_valid_congr (pl : Plat) (p q : Parts SV) (h : Parts.eq p q = true) :
    p.valid pl = .ok true ↔ q.valid pl = .ok true := by
  have h' := partsEq_iff.1 h
  constructor
  · intro hv
    exact valid_complete (componentsOk_congr h' (valid_sound hv))
  · intro hv
    exact valid_complete (componentsOk_congr (sameComponents_symm h') (valid_sound hv))

theorem views_chars (p : Parts SV) : p.views.map SV.chars =
    p.text.scheme.toList ++ (match p.text.authority with
      | none => []
      | some a => a.userinfo.toList ++ [a.host] ++ a.port.toList) ++
    p.text.path.segments ++ p.text.query.toList ++ p.text.fragment.toList := by
  obtain ⟨s, A, P, q, f⟩ := p
  have ho : ∀ o : Option SV, o.toList.map SV.chars = (o.map SV.chars).toList := by
    intro o; cases o <;> rfl
  cases A with
  | none => simp [Parts.views, Parts.text, Parts.map, Path.map, ho]
  | some a => simp [Parts.views, Parts.text, Parts.map, Path.map, Authority.map, ho]

/-- C55: where the calls are defined at all, `valid()` gives the same answer for values that compare equal. -/
theorem C55_valid_same (pl : Plat) (p q : Parts SV) (h : Parts.eq p q = true)
    (hs : ∀ v ∈ p.views, CtypeSafe pl v.chars) : ∃ b, p.valid pl = .ok b ∧ q.valid pl = .ok b := by
  have hq : ∀ v ∈ q.views, CtypeSafe pl v.chars := by
    intro v hv
    have e : q.views.map SV.chars = p.views.map SV.chars := by
      obtain ⟨h1, h2, h3, h4, h5, -⟩ := partsEq_iff.1 h
      rw [views_chars, views_chars, h1, h2, h3, h4, h5]
    have := List.mem_map_of_mem (f := SV.chars) hv
    rw [e] at this
    obtain ⟨w, hw, e⟩ := List.mem_map.1 this
    rw [← e]
    exact hs w hw
  have tot : ∀ r : Parts SV, (∀ v ∈ r.views, CtypeSafe pl v.chars) → ∃ b, r.valid pl = .ok b := by
    intro r hr
    cases e : r.valid pl with
    | ok b => exact ⟨b, rfl⟩
    | error f =>
      obtain ⟨-, v, hv, hu⟩ := valid_fault e
      exact absurd hu (not_unsafe_of_safe (hr v hv))
  obtain ⟨b, e1⟩ := tot p hs
  obtain ⟨b', e2⟩ := tot q hq
  have := C55_valid_congr pl p q h
  rw [e1, e2] at this
  refine ⟨b, e1, ?_⟩
  rw [e2]
  cases b <;> cases b' <;> simp at this ⊢

/-- C55: two parses of texts compare equal exactly when the texts are the same. -/
theorem C55_parse_injective (pl pl' : Plat) (s t : SV) (p q : Parts SV)
    (e1 : split pl s = .ok (some p) ∨ splitReference pl s = .ok (some p))
    (e2 : split pl' t = .ok (some q) ∨ splitReference pl' t = .ok (some q)) :
    Parts.eq p q = true ↔ s.chars = t.chars := by
  constructor
  · intro h
    rw [← C05_compose_split pl s p e1, ← C05_compose_split pl' t q e2, C14_compose_congr p q h]
  · intro h
    have h1 : Abnf.ReferenceDerives s.chars p.text := e1.elim (fun e => Or.inl (split_spec e).1) fun e => (splitReference_spec e).1
    have h2 : Abnf.ReferenceDerives t.chars q.text := e2.elim (fun e => Or.inl (split_spec e).1) fun e => (splitReference_spec e).1
    rw [← h] at h2
    rw [partsEq_iff, derives_unique h1 h2]
    exact ⟨rfl, rfl, rfl, rfl, rfl, fun _ => rfl⟩

example : Parts.eq ⟨some (vw (b! "s")), some ⟨none, vw (b! "h"), none⟩, ⟨false, [vw (b! "a")]⟩, none, none⟩
    ⟨some ⟨7, b! "s"⟩, some ⟨none, vw (b! "h"), none⟩, ⟨true, [vw (b! "a")]⟩, none, none⟩ = true := by decide +kernel

/-! ### C56 -/

theorem rds_views {p : Path SV} {v : SV} (h : v ∈ p.removeDotSegments.segments) : v ∈ p.segments ∨ v = ⟨0, []⟩ := by
  obtain ⟨l, t, e, hl, ht⟩ := C18_segments p
  rw [e] at h
  rcases List.mem_append.1 h with h | h
  · exact Or.inl (hl.mem h)
  · rcases ht with rfl | rfl
    · simp at h
    · exact Or.inr (by simpa using h)

/-- C56: `join` invents no text: every view of the result is a view of the base or of the reference, or the null view
(an empty segment). -/
theorem C56_join_views (b r : Parts SV) (strict : Bool) :
    ∀ v ∈ (join b r strict).views, v ∈ b.views ∨ v ∈ r.views ∨ v = ⟨0, []⟩ := by
  intro v hv
  have hmem : ∀ p : Parts SV, v ∈ p.views ↔ v ∈ p.scheme ∨ (∃ a, p.authority = some a ∧ (v ∈ a.userinfo ∨ v = a.host ∨ v ∈ a.port)) ∨
      v ∈ p.path.segments ∨ v ∈ p.query ∨ v ∈ p.fragment := by
    intro p
    obtain ⟨s, A, P, q, f⟩ := p
    cases A <;> simp [Parts.views, or_assoc]
  have hM : v ∈ (merge b r).segments → v ∈ b.path.segments ∨ v ∈ r.path.segments := by
    intro h
    simp only [merge] at h
    split at h
    · exact Or.inr h
    · exact (List.mem_append.1 h).imp List.mem_of_mem_take id
  rw [hmem] at hv ⊢
  rw [hmem]
  simp only [join] at hv
  have hrs : ∀ s, (if (!strict && optEq SV.eq r.scheme b.scheme) = true then none else r.scheme) = some s → r.scheme = some s := by
    intro s; split
    · simp
    · exact id
  generalize (if (!strict && optEq SV.eq r.scheme b.scheme) = true then none else r.scheme) = rs at *
  cases rs with
  | some s =>
    have := hrs s rfl
    simp only at hv
    rcases hv with h | h | h | h | h
    · exact Or.inr (Or.inl (Or.inl (by rw [this]; exact h)))
    · exact Or.inr (Or.inl (Or.inr (Or.inl h)))
    · rcases rds_views h with h | h
      · exact Or.inr (Or.inl (Or.inr (Or.inr (Or.inl h))))
      · exact Or.inr (Or.inr h)
    · exact Or.inr (Or.inl (Or.inr (Or.inr (Or.inr (Or.inl h)))))
    · exact Or.inr (Or.inl (Or.inr (Or.inr (Or.inr (Or.inr h)))))
  | none =>
    simp only at hv
    cases ha : r.authority with
    | some a =>
      rw [ha] at hv
      simp only at hv
      rcases hv with h | h | h | h | h
      · exact Or.inl (Or.inl h)
      · exact Or.inr (Or.inl (Or.inr (Or.inl h)))
      · rcases rds_views h with h | h
        · exact Or.inr (Or.inl (Or.inr (Or.inr (Or.inl h))))
        · exact Or.inr (Or.inr h)
      · exact Or.inr (Or.inl (Or.inr (Or.inr (Or.inr (Or.inl h)))))
      · exact Or.inr (Or.inl (Or.inr (Or.inr (Or.inr (Or.inr h)))))
    | none =>
      rw [ha] at hv
      simp only at hv
      split at hv
      · simp only at hv
        rcases hv with h | h | h | h | h
        · exact Or.inl (Or.inl h)
        · exact Or.inl (Or.inr (Or.inl h))
        · exact Or.inl (Or.inr (Or.inr (Or.inl h)))
        · split at h
          · exact Or.inr (Or.inl (Or.inr (Or.inr (Or.inr (Or.inl h)))))
          · exact Or.inl (Or.inr (Or.inr (Or.inr (Or.inl h))))
        · exact Or.inr (Or.inl (Or.inr (Or.inr (Or.inr (Or.inr h)))))
      · split at hv <;> simp only at hv
        · rcases hv with h | h | h | h | h
          · exact Or.inl (Or.inl h)
          · exact Or.inl (Or.inr (Or.inl h))
          · rcases rds_views h with h | h
            · exact Or.inr (Or.inl (Or.inr (Or.inr (Or.inl h))))
            · exact Or.inr (Or.inr h)
          · exact Or.inr (Or.inl (Or.inr (Or.inr (Or.inr (Or.inl h)))))
          · exact Or.inr (Or.inl (Or.inr (Or.inr (Or.inr (Or.inr h)))))
        · rcases hv with h | h | h | h | h
          · exact Or.inl (Or.inl h)
          · exact Or.inl (Or.inr (Or.inl h))
          · rcases rds_views h with h | h
            · rcases hM h with h | h
              · exact Or.inl (Or.inr (Or.inr (Or.inl h)))
              · exact Or.inr (Or.inl (Or.inr (Or.inr (Or.inl h))))
            · exact Or.inr (Or.inr h)
          · exact Or.inr (Or.inl (Or.inr (Or.inr (Or.inr (Or.inl h)))))
          · exact Or.inr (Or.inl (Or.inr (Or.inr (Or.inr (Or.inr h)))))

/-- C56: every view of the result of the string overload lies inside one of the two argument strings, or is null. -/
theorem C56_join_strings_views (pl : Plat) (base ref : SV) (strict : Bool) (t : Parts SV)
    (h : joinStr pl base ref strict = .ok (some t)) :
    ∀ v ∈ t.views, SubView v base ∨ SubView v ref ∨ v = ⟨0, []⟩ := by
  obtain ⟨b, r, e1, e2, rfl⟩ := (C19_join_strings pl base ref strict t).1 h
  intro v hv
  rcases C56_join_views b r strict v hv with h | h | h
  · rcases C08_views_alias_input pl base b (Or.inl e1) v h with h | h
    · exact Or.inl h
    · exact Or.inr (Or.inr h.1)
  · rcases C08_views_alias_input pl ref r (Or.inr e2) v h with h | h
    · exact Or.inr (Or.inl h)
    · exact Or.inr (Or.inr h.1)
  · exact Or.inr (Or.inr h)

/-- C56: the result of the string overload is `valid()`. -/
theorem C56_join_strings_valid (pl : Plat) (base ref : SV) (strict : Bool) (t : Parts SV)
    (h : joinStr pl base ref strict = .ok (some t)) :
    t.valid pl = .ok true := by
  obtain ⟨b, r, e1, e2, rfl⟩ := (C19_join_strings pl base ref strict t).1 h
  exact valid_complete (join_parsed_ok strict e1 e2)

/-- `http://a/b/c/d;p?q` and `../../../g`. -/
example : ∃ t, joinStr x86 ⟨4096, b! "http://a/b/c/d;p?q"⟩ ⟨8192, b! "../../../g"⟩ true = .ok (some t) ∧
    t.text = ⟨some (b! "http"), some ⟨none, b! "a", none⟩, ⟨true, [b! "g"]⟩, none, none⟩ :=
  run_text (by decide +kernel)

end Verif
