import Verif.Props.Assoc
import Verif.Props.Exchange

/-!
# C102: shorter references to the same place

Given a base and a target, which references resolve to the target.
-/

set_option linter.unusedSimpArgs false

namespace Verif

/-- No segment of the path is `.` or `..`. -/
def Undotted (p : Path Str) : Prop := ∀ g ∈ p.segments, g ≠ b! "." ∧ g ≠ b! ".."

theorem isDot_false {g : Str} : isDot g = false ↔ g ≠ b! "." ∧ g ≠ b! ".." := by simp [isDot]

theorem rdsT_plain {p : Path Str} : rdsT p = p ↔ Undotted p := by
  constructor
  · intro h g hg
    exact isDot_false.1 ((rdsT_fixed_iff p).1 (by rw [h]) g hg)
  · intro h
    exact rdsT_nodot fun g hg => isDot_false.2 (h g hg)

theorem parts_ext {p q : Parts Str} : p = q ↔ p.scheme = q.scheme ∧ p.authority = q.authority ∧ p.path = q.path ∧ p.query = q.query ∧ p.fragment = q.fragment := by
  obtain ⟨a, b, c, d, e⟩ := p
  obtain ⟨a', b', c', d', e'⟩ := q
  simp

/-- **C102**: the scheme can be left out of a target with an authority exactly if it is that of the base and the path has no dot segments. -/
theorem C102_scheme (b t r : Parts SV) (strict : Bool) (ht : t.authority ≠ none) (hr : r.text = { t.text with scheme := none }) :
    (join b r strict).text = t.text ↔ b.text.scheme = t.text.scheme ∧ Undotted t.text.path := by
  have ha : t.text.authority.isSome = true := by
    cases h : t.authority with
    | none => exact absurd h ht
    | some a => simp [Parts.text, Parts.map, h]
  have e : (join b r strict).text = ⟨b.text.scheme, t.text.authority, rdsT t.text.path, t.text.query, t.text.fragment⟩ := by
    rw [joinT_text, hr]
    simp [joinT, ha]
  rw [e, parts_ext]
  simp [rdsT_plain]

/-- **C102**: scheme and authority can be left out of a target whose path begins with a slash exactly if they are those of the base and
the path has no dot segments. -/
theorem C102_authority (b t r : Parts SV) (strict : Bool) (h1 : t.path.absolute = true) (h2 : t.path.segments ≠ [])
    (hr : r.text = { t.text with scheme := none, authority := none }) :
    (join b r strict).text = t.text ↔ b.text.scheme = t.text.scheme ∧ b.text.authority = t.text.authority ∧ Undotted t.text.path := by
  have k1 : t.text.path.absolute = true := h1
  have k2 : t.text.path.segments ≠ [] := by simpa [Parts.text, Parts.map, Path.map] using h2
  have e : (join b r strict).text = ⟨b.text.scheme, b.text.authority, rdsT t.text.path, t.text.query, t.text.fragment⟩ := by
    rw [joinT_text, hr]
    simp [joinT, k1, k2]
  rw [e, parts_ext]
  simp [rdsT_plain]

/-- **C102**: everything up to the query can be left out exactly if it is as in the base, and the base has no query if the target has
none. -/
theorem C102_query (b t r : Parts SV) (strict : Bool) (hr : r.text = ⟨none, none, ⟨false, []⟩, t.text.query, t.text.fragment⟩) :
    (join b r strict).text = t.text ↔ b.text.scheme = t.text.scheme ∧ b.text.authority = t.text.authority ∧ b.text.path = t.text.path ∧
      (t.text.query = none → b.text.query = none) := by
  have e : (join b r strict).text = ⟨b.text.scheme, b.text.authority, b.text.path, if t.text.query.isSome then t.text.query else b.text.query, t.text.fragment⟩ := by
    rw [joinT_text, hr]
    simp [joinT]
  rw [e, parts_ext]
  cases hq : t.text.query <;> simp

/-- **C102**: everything but the fragment can be left out exactly if it is as in the base. -/
theorem C102_fragment (b t r : Parts SV) (strict : Bool) (hr : r.text = ⟨none, none, ⟨false, []⟩, none, t.text.fragment⟩) :
    (join b r strict).text = t.text ↔ b.text.scheme = t.text.scheme ∧ b.text.authority = t.text.authority ∧ b.text.path = t.text.path ∧
      b.text.query = t.text.query := by
  have e : (join b r strict).text = ⟨b.text.scheme, b.text.authority, b.text.path, b.text.query, t.text.fragment⟩ := by
    rw [joinT_text, hr]
    simp [joinT]
  rw [e, parts_ext]
  simp

theorem stackRun_up : ∀ (n : Nat) (st : List Str), stackRun id st (List.replicate n (b! "..")) = st.take (st.length - n) := by
  intro n
  induction n with
  | zero => intro st; simp [stackRun]
  | succ n ih =>
    intro st
    rw [List.replicate_succ, stackRun, if_neg (by decide), if_pos (by rfl), ih, List.dropLast_eq_take, List.take_take]
    congr 1
    simp
    omega

/-- Going up as many times as there are segments in `d2`, and then down `gs`. -/
theorem rdsSegs_up {d1 d2 gs : List Str} (h1 : ∀ g ∈ d1 ++ d2, isDot g = false) (h2 : ∀ g ∈ gs, isDot g = false) (hne : gs ≠ []) :
    rdsSegs id [] (d1 ++ d2 ++ (List.replicate d2.length (b! "..") ++ gs)) = d1 ++ gs := by
  have e : stackRun id [] (d1 ++ d2 ++ List.replicate d2.length (b! "..")) = stackRun id [] d1 := by
    rw [stackRun_append, stackRun_id id _ _ h1, stackRun_up, stackRun_id id _ _ fun g hg => h1 g (by simp [hg])]
    simp
  rw [← List.append_assoc, rdsSegs_append hne e]
  exact rdsSegs_id id [] _ fun g hg => by
    rcases List.mem_append.1 hg with k | k
    · exact h1 g (by simp [k])
    · exact h2 g k

theorem join_up (b t r : Parts SV) (strict : Bool) (ab : Bool) (dir d1 d2 gs : List Str) (hm : mergeT b.text r.text = ⟨ab, dir ++ r.text.path.segments⟩)
    (hdir : dir = d1 ++ d2) (h1 : ∀ g ∈ dir, g ≠ b! "." ∧ g ≠ b! "..") (h2 : ∀ g ∈ gs, g ≠ b! "." ∧ g ≠ b! "..") (hne : gs ≠ [])
    (hr : r.text = ⟨none, none, ⟨false, List.replicate d2.length (b! "..") ++ gs⟩, t.text.query, t.text.fragment⟩) :
    (join b r strict).text = t.text ↔ b.text.scheme = t.text.scheme ∧ b.text.authority = t.text.authority ∧ t.text.path = ⟨ab, d1 ++ gs⟩ := by
  have e : (join b r strict).text = ⟨b.text.scheme, b.text.authority, ⟨ab, d1 ++ gs⟩, t.text.query, t.text.fragment⟩ := by
    rw [joinT_text]
    have hm' := hm
    rw [joinT_relative (by rw [hr]) (by rw [hr]) (by rw [hr]; simp [hne]) (by rw [hr]), hm]
    simp only [rdsT]
    rw [hr]
    simp only
    rw [hdir, rdsSegs_up (by rw [← hdir]; exact fun g hg => isDot_false.2 (h1 g hg)) (fun g hg => isDot_false.2 (h2 g hg)) hne]
  rw [e, parts_ext]
  simp [eq_comm]

/-- **C102**, relative paths: from a base path with more than one segment, `..` as often as `d2` has segments and then `gs` leads to
`d1` and `gs`, where `d1` and `d2` are what is before the last segment of the base. -/
theorem C102_relative (b t r : Parts SV) (strict : Bool) (d1 d2 gs : List Str) (last : Str) (hb : b.text.path.segments = d1 ++ d2 ++ [last]) (hd : d1 ++ d2 ≠ [])
    (h1 : ∀ g ∈ d1 ++ d2, g ≠ b! "." ∧ g ≠ b! "..") (h2 : ∀ g ∈ gs, g ≠ b! "." ∧ g ≠ b! "..") (hne : gs ≠ [])
    (hr : r.text = ⟨none, none, ⟨false, List.replicate d2.length (b! "..") ++ gs⟩, t.text.query, t.text.fragment⟩) :
    (join b r strict).text = t.text ↔
      b.text.scheme = t.text.scheme ∧ b.text.authority = t.text.authority ∧ t.text.path = ⟨b.text.path.absolute, d1 ++ gs⟩ := by
  refine join_up b t r strict _ (d1 ++ d2) d1 d2 gs ?_ rfl h1 h2 hne hr
  have hl : 0 < (d1 ++ d2).length := List.length_pos_iff.2 hd
  rw [mergeT, hb]
  have : (d1 ++ d2 ++ [last]).isEmpty = false := by simp
  rw [this, Bool.and_false, if_neg (by simp)]
  simp only [List.length_append, List.length_singleton] at hl ⊢
  rw [if_pos (by omega), show d1.length + d2.length + 1 - 1 = (d1 ++ d2).length by simp, List.take_left]

/-- **C102**, a base path of one segment: the library keeps it, so what is beside it is reached with one `..` more. -/
theorem C102_relative_one (b t r : Parts SV) (strict : Bool) (gs : List Str) (x : Str) (hb : b.text.path.segments = [x]) (hx : x ≠ b! "." ∧ x ≠ b! "..")
    (h2 : ∀ g ∈ gs, g ≠ b! "." ∧ g ≠ b! "..") (hne : gs ≠ []) :
    (r.text = ⟨none, none, ⟨false, b! ".." :: gs⟩, t.text.query, t.text.fragment⟩ →
      ((join b r strict).text = t.text ↔ b.text.scheme = t.text.scheme ∧ b.text.authority = t.text.authority ∧ t.text.path = ⟨b.text.path.absolute, gs⟩)) ∧
    (r.text = ⟨none, none, ⟨false, gs⟩, t.text.query, t.text.fragment⟩ →
      ((join b r strict).text = t.text ↔ b.text.scheme = t.text.scheme ∧ b.text.authority = t.text.authority ∧ t.text.path = ⟨b.text.path.absolute, x :: gs⟩)) := by
  have hm : mergeT b.text r.text = ⟨b.text.path.absolute, [x] ++ r.text.path.segments⟩ := by
    rw [mergeT, hb]
    simp
  exact ⟨fun hr => join_up b t r strict _ [x] [] [x] gs hm rfl (by simpa using hx) h2 hne hr,
    fun hr => join_up b t r strict _ [x] [x] [] gs hm rfl (by simpa using hx) h2 hne hr⟩

/-- **C102**, a base with an authority and no path. -/
theorem C102_relative_none (b t r : Parts SV) (strict : Bool) (gs : List Str) (hb : b.text.path.segments = []) (ha : b.authority ≠ none)
    (h2 : ∀ g ∈ gs, g ≠ b! "." ∧ g ≠ b! "..") (hne : gs ≠ [])
    (hr : r.text = ⟨none, none, ⟨false, gs⟩, t.text.query, t.text.fragment⟩) :
    (join b r strict).text = t.text ↔ b.text.scheme = t.text.scheme ∧ b.text.authority = t.text.authority ∧ t.text.path = ⟨true, gs⟩ := by
  refine join_up b t r strict _ [] [] [] gs ?_ rfl (by simp) h2 hne hr
  have : b.text.authority.isSome = true := by
    cases h : b.authority with
    | none => exact absurd h ha
    | some a => simp [Parts.text, Parts.map, h]
  rw [mergeT, hb]
  simp [this]

/-! ### Texts -/

/-- **C102**, for texts: the target without its scheme and colon. -/
theorem C102_text_scheme (pl : Plat) (base : SV) (b : Parts SV) (c rest : Str) (t : Parts Str) (strict : Bool) (ptr : Nat)
    (eb : split pl base = .ok (some b)) (hc : Abnf.scheme c) (et : SplitsTo pl (c ++ b! ":" ++ rest) t) (ha : t.authority ≠ none) :
    ∃ q, joinStr pl base ⟨ptr, rest⟩ strict = .ok (some q) ∧ (q.text = t ↔ b.text.scheme = some c ∧ Undotted t.path) := by
  have hb : (0x3A : UInt8) ∉ beforeSlash rest := by
    obtain ⟨hd, -, -⟩ := splitsTo_iff.1 et
    obtain ⟨-, u, h3, -, -, h6⟩ := uri_scheme hc hd
    have := part_text h3
    cases hA : t.authority with
    | none => exact absurd hA ha
    | some a =>
      rw [hA] at this
      rw [h6, this]
      simp [beforeSlash, Abnf.optText, oneOf]
  obtain ⟨hs, hr⟩ := (C91_relative pl c rest t hc hb).1 et
  obtain ⟨r, e1, e2⟩ := hr ptr
  refine ⟨_, (C19_join_strings pl base _ strict _).2 ⟨b, r, eb, e1, rfl⟩, ?_⟩
  obtain ⟨t', e3, e4⟩ := et 0
  have hA : t'.authority ≠ none := by
    intro h
    apply ha
    rw [← e4]
    simp [Parts.text, Parts.map, h]
  have := C102_scheme b t' r strict hA (by rw [e2, e4])
  rw [e4, hs] at this
  exact this

/-- Cases the theorems speak of. -/
example : (joinStr x86 ⟨4096, b! "http://h/a/b/c"⟩ ⟨8192, b! "../x/y?q"⟩ true).toOption.map (·.map (·.text)) =
    some (some ⟨some (b! "http"), some ⟨none, b! "h", none⟩, ⟨true, [b! "a", b! "x", b! "y"]⟩, some (b! "q"), none⟩) := by decide +kernel
example : (joinStr x86 ⟨4096, b! "http://h/a"⟩ ⟨8192, b! "../b"⟩ true).toOption.map (·.map (·.text)) =
    some (some ⟨some (b! "http"), some ⟨none, b! "h", none⟩, ⟨true, [b! "b"]⟩, none, none⟩) := by decide +kernel
example : (joinStr x86 ⟨4096, b! "http://h/a"⟩ ⟨8192, b! "//g/b?c"⟩ true).toOption.map (·.map (·.text)) =
    some (some ⟨some (b! "http"), some ⟨none, b! "g", none⟩, ⟨true, [b! "b"]⟩, some (b! "c"), none⟩) := by decide +kernel

/-- **C102**, counterexamples: a target with dot segments is not reached without its scheme, and not with it either; and `b` beside the
only segment `a` is not reached by the reference `b`. -/
theorem C102_counterexamples :
    (joinStr x86 ⟨4096, b! "http://h/a"⟩ ⟨8192, b! "//h/x/../b"⟩ true).toOption.map (·.map (compose ·)) = some (some (b! "http://h/b")) ∧
    (joinStr x86 ⟨4096, b! "http://h/a"⟩ ⟨8192, b! "http://h/x/../b"⟩ true).toOption.map (·.map (compose ·)) = some (some (b! "http://h/b")) ∧
    (joinStr x86 ⟨4096, b! "http://h/a"⟩ ⟨8192, b! "b"⟩ true).toOption.map (·.map (compose ·)) = some (some (b! "http://h/a/b")) := by
  decide +kernel

/-- The hypotheses of `C102_relative` met: from `http://h/a/b/c` to `http://h/a/x/y?q`. -/
example (b t r : Parts SV) (hb : b.text = ⟨some (b! "http"), some ⟨none, b! "h", none⟩, ⟨true, [b! "a", b! "b", b! "c"]⟩, none, none⟩)
    (ht : t.text = ⟨some (b! "http"), some ⟨none, b! "h", none⟩, ⟨true, [b! "a", b! "x", b! "y"]⟩, some (b! "q"), none⟩)
    (hr : r.text = ⟨none, none, ⟨false, [b! "..", b! "x", b! "y"]⟩, some (b! "q"), none⟩) : (join b r true).text = t.text :=
  (C102_relative b t r true [b! "a"] [b! "b"] [b! "x", b! "y"] (b! "c") (by rw [hb]; rfl) (by simp) (by decide) (by decide) (by simp)
    (by rw [hr, ht]; rfl)).2 (by rw [hb, ht]; decide)

end Verif
