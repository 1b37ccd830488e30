import Verif.Props.Exchange
import Verif.Props.Depends

/-!
# C107: what the `strict` argument of `join` changes
-/

namespace Verif
set_option linter.unusedSimpArgs false

/-- Reference `s`, against `base`, resolves to the components `t`. -/
def ResolvesTo (pl : Plat) (base s : Str) (strict : Bool) (t : Parts Str) : Prop :=
  ∀ p p', ∃ q, joinStr pl ⟨p, base⟩ ⟨p', s⟩ strict = .ok (some q) ∧ q.text = t

/-! ### Proofs -/

theorem appendixB_scheme {c s : Str} (hc : Abnf.scheme c) : (AppendixB.parse (c ++ b! ":" ++ s)).scheme = some c := by
  have := takeWhile_stop (f := fun c => !oneOf (b! ":/?#") c) (u := c) (v := 0x3A :: s)
    (only_mono only_scheme (g := fun c => !oneOf (b! ":/?#") c) (by byte_tac) _ hc) (by intro c hc; simp at hc; subst hc; decide)
  have e : c ++ b! ":" ++ s = c ++ 0x3A :: s := by simp
  rw [e]
  simp only [AppendixB.parse, AppendixB.scheme, this, true_and, ne_eq, scheme_ne hc, not_false_iff, if_true]

/-- A text that begins with a scheme and a colon is read by `split_reference` as `split` reads it. -/
theorem reads_scheme {pl : Plat} {c s : Str} {p : Parts Str} (hc : Abnf.scheme c) : ReadsTo pl (c ++ b! ":" ++ s) p ↔ SplitsTo pl (c ++ b! ":" ++ s) p := by
  simp only [splitsTo_iff, readsTo_iff]
  constructor
  · rintro ⟨h, k⟩
    refine ⟨?_, k⟩
    have h' := appendixB_of_derives h
    rcases h with h | ⟨_, h1, _⟩
    · exact h
    · have := congrArg Groups.scheme h'
      rw [appendixB_scheme hc] at this
      simp [groupsOf, h1] at this
  · rintro ⟨h, k⟩
    exact ⟨Or.inl h, k⟩

theorem resolvesTo_iff {pl : Plat} {base s : Str} {strict : Bool} {t : Parts Str} : ResolvesTo pl base s strict t ↔
    ∃ b r, SplitsTo pl base b ∧ ReadsTo pl s r ∧ t = joinT b r strict := by
  constructor
  · intro h
    obtain ⟨q, hq, rfl⟩ := h 0 0
    obtain ⟨b, r, h1, h2, rfl⟩ := (C19_join_strings ..).1 hq
    exact ⟨b.text, r.text, splitsTo_iff.2 ((C02_split_exact pl _ _).1 ⟨b, h1, rfl⟩), readsTo_iff.2 ((C03_splitReference_exact pl _ _).1 ⟨r, h2, rfl⟩), joinT_text ..⟩
  · rintro ⟨b, r, h1, h2, rfl⟩ p p'
    obtain ⟨b, k1, rfl⟩ := h1 p
    obtain ⟨r, k2, rfl⟩ := h2 p'
    exact ⟨_, (C19_join_strings ..).2 ⟨b, r, k1, k2, rfl⟩, joinT_text ..⟩

theorem splitsTo_unique {pl : Plat} {s : Str} {p p' : Parts Str} (h : SplitsTo pl s p) (h' : SplitsTo pl s p') : p = p' := by
  obtain ⟨q, k, rfl⟩ := h 0
  obtain ⟨q', k', rfl⟩ := h' 0
  rw [k] at k'
  rw [Option.some.inj (Except.ok.inj k')]

/-! ### The property -/

/-- **C107**: `strict` makes no difference unless the reference has a scheme, and it is, byte for byte, that of the base. -/
theorem C107_otherwise (b r : Parts SV) (h : r.scheme = none ∨ r.text.scheme ≠ b.text.scheme) : join b r false = join b r true := by
  by_cases hs : r.scheme = none
  · rw [join_taken (Or.inl hs), join_taken (strict := true) (Or.inl hs)]
  · have hd := h.resolve_left hs
    rw [join_absolute, join_absolute]
    · rintro (e | ⟨e, -⟩)
      · exact hs e
      · cases e
    · rintro (e | ⟨-, e⟩)
      · exact hs e
      · exact hd e

/-- **C107**: if it is, then without `strict` the reference is resolved as if it had no scheme, and with `strict` as if there were no base. -/
theorem C107_scheme (b r : Parts SV) (s : Str) (h : r.text.scheme = some s) (e : b.text.scheme = some s) :
    join b r false = join b { r with scheme := none } true ∧
    join b r true = ⟨r.scheme, r.authority, r.path.removeDotSegments, r.query, r.fragment⟩ := by
  refine ⟨join_taken (Or.inr ⟨rfl, h.trans e.symm⟩), join_absolute ?_⟩
  rintro (e | ⟨e, -⟩)
  · simp [Parts.text, Parts.map, e] at h
  · cases e

theorem rdsT_nil (a : Bool) : rdsT ⟨a, []⟩ = ⟨a, []⟩ := by cases a <;> decide

/-- **C107**: when it is, the two results have the same text in exactly these cases: the reference has an authority; or neither has one
and the path of the reference begins with a slash, or is empty and neither the path nor the query of the base is taken, or is merged with
that of the base into what it would be alone. -/
theorem C107_same (b r : Parts SV) (s : Str) (h : r.text.scheme = some s) (e : b.text.scheme = some s) :
    (join b r false).text = (join b r true).text ↔
      r.authority ≠ none ∨
      (b.authority = none ∧
        ((r.path.segments = [] ∧ b.text.path = r.text.path ∧ (r.query ≠ none ∨ b.query = none)) ∨
         (r.path.segments ≠ [] ∧ r.path.absolute = true) ∨
         (r.path.segments ≠ [] ∧ r.path.absolute = false ∧ b.path.absolute = false ∧
            ((merge b r).removeDotSegments.map SV.chars).segments = (r.path.removeDotSegments.map SV.chars).segments))) := by
  have hA : ∀ p : Parts SV, p.authority = none ↔ p.text.authority = none := by intro p; simp [Parts.text, Parts.map]
  have hQ : ∀ p : Parts SV, p.query = none ↔ p.text.query = none := by intro p; simp [Parts.text, Parts.map]
  have hS : r.path.segments = [] ↔ r.text.path.segments = [] := by simp [Parts.text, Parts.map, Path.map]
  have hB : ∀ p : Parts SV, p.path.absolute = p.text.path.absolute := by intro p; rfl
  rw [joinT_text, joinT_text, rdsT_text, rdsT_text, mergeT_text]
  simp only [hA, hQ, hS, hB, ne_eq]
  have hp : r.path.map SV.chars = r.text.path := rfl
  rw [hp]
  generalize r.text = r at *
  generalize b.text = b at *
  obtain ⟨bs, ba, bp, bq, bf⟩ := b
  obtain ⟨rs, ra, rp, rq, rf⟩ := r
  simp only at h e
  subst h e
  cases ra with
  | some a => simp [joinT]
  | none =>
    simp only [joinT]
    by_cases hn : rp.segments = []
    · obtain ⟨ra, rg⟩ := rp
      simp only at hn
      subst hn
      cases rq <;> cases bq <;> simp [rdsT_nil]
    · cases hab : rp.absolute with
      | true => simp [hn, hab]
      | false =>
        simp only [hn, hab]
        simp [mergeT_kept]
        intro hba
        subst hba
        constructor
        · intro hh
          have h1 := congrArg Path.absolute hh
          have h2 := congrArg Path.segments hh
          simp [rdsT, hab] at h1
          exact ⟨h1, h2⟩
        · rintro ⟨h1, h2⟩
          simp only [Option.isSome_none, Bool.false_and, Bool.or_false] at h2 ⊢
          show Path.mk bp.absolute _ = Path.mk rp.absolute _
          rw [h1, hab]
          rw [h1] at h2
          exact congrArg _ h2

/-- **C107** for text: without `strict`, the scheme of the base in front of a reference changes nothing, provided that what follows it has no
`:` before its first `/`, `?` or `#`. -/
theorem C107_prefix (pl : Plat) (base c s : Str) (b t : Parts Str) (strict : Bool) (hb : SplitsTo pl base b) (hc : b.scheme = some c)
    (h : (0x3A : UInt8) ∉ beforeSlash s) : ResolvesTo pl base (c ++ b! ":" ++ s) false t ↔ ResolvesTo pl base s strict t := by
  have hcs : Abnf.scheme c := by
    obtain ⟨⟨c', _, h1, h2, _⟩, -⟩ := splitsTo_iff.1 hb
    rw [hc] at h1
    cases h1
    exact h2
  simp only [resolvesTo_iff]
  constructor
  · rintro ⟨b', r, h1, h2, rfl⟩
    cases splitsTo_unique hb h1
    obtain ⟨h3, h4⟩ := (C91_relative pl c s r hcs h).1 ((reads_scheme hcs).1 h2)
    exact ⟨b, _, hb, h4, by simp [joinT, h3, hc, mergeT]⟩
  · rintro ⟨b', r, h1, h2, rfl⟩
    cases splitsTo_unique hb h1
    have hn : r.scheme = none := by
      obtain ⟨h2, -⟩ := readsTo_iff.1 h2
      rcases h2 with ⟨c', u, e1, e2, e3, e4, e5, rfl⟩ | ⟨_, h1, _⟩
      · refine absurd ?_ h
        simp only [List.append_assoc]
        rw [← List.append_assoc c']
        refine takeWhile_left (x := c' ++ b! ":") ?_ _ (by simp)
        intro x hx
        rcases List.mem_append.1 hx with hx | hx
        · exact scheme_before e2 x hx
        · simp at hx; subst hx; decide
      · exact h1
    have h3 : SplitsTo pl (c ++ b! ":" ++ s) { r with scheme := some c } := by
      refine (C91_relative pl c s _ hcs h).2 ⟨rfl, ?_⟩
      simp only [← hn]
      exact h2
    exact ⟨b, _, hb, (reads_scheme hcs).2 h3, by simp [joinT, hn, hc, mergeT]⟩

/-- **C107**: so, without `strict`, the scheme of the base and a colon alone refer to the base without its fragment.  With `strict` they
are a URI of their own, with an empty path. -/
theorem C107_alone (pl : Plat) (base c : Str) (b : Parts Str) (hb : SplitsTo pl base b) (hc : b.scheme = some c) :
    ResolvesTo pl base (c ++ b! ":") false { b with fragment := none } ∧
    ResolvesTo pl base (c ++ b! ":") true ⟨some c, none, ⟨false, []⟩, none, none⟩ := by
  have hcs : Abnf.scheme c := by
    obtain ⟨⟨c', _, h1, h2, _⟩, -⟩ := splitsTo_iff.1 hb
    rw [hc] at h1
    cases h1
    exact h2
  have he : ReadsTo pl [] ⟨none, none, ⟨false, []⟩, none, none⟩ := c91_reads pl (run_text (by obtain ⟨b⟩ := pl; cases b <;> decide +kernel))
  have h1 := (C107_prefix pl base c [] b { b with fragment := none } true hb hc (by decide)).2
    (resolvesTo_iff.2 ⟨b, _, hb, he, by simp [joinT]⟩)
  have h2 : ReadsTo pl (c ++ b! ":" ++ []) ⟨some c, none, ⟨false, []⟩, none, none⟩ :=
    (reads_scheme hcs).2 ((C91_relative pl c [] _ hcs (by decide)).2 ⟨rfl, he⟩)
  rw [List.append_nil] at h1 h2
  exact ⟨h1, resolvesTo_iff.2 ⟨b, _, hb, h2, by simp [joinT, rdsT_nil]⟩⟩

/-! ### The hypotheses are met, and needed -/

theorem c107_resolves {base s : Str} {strict : Bool} {b r : Parts Str} (pl : Plat) (h1 : ∃ q, split pl ⟨0, base⟩ = .ok (some q) ∧ q.text = b)
    (h2 : ∃ q, splitReference pl ⟨0, s⟩ = .ok (some q) ∧ q.text = r) : ResolvesTo pl base s strict (joinT b r strict) :=
  resolvesTo_iff.2 ⟨b, r, c91_splits pl h1, c91_reads pl h2, rfl⟩

/-- `http:g` against `http://a/b/c?q` is `http://a/b/g` or, with `strict`, `http:g` (RFC 3986, 5.4.2). -/
example (pl : Plat) : ResolvesTo pl (b! "http://a/b/c?q") (b! "http:g") false ⟨some (b! "http"), some ⟨none, b! "a", none⟩, ⟨true, [b! "b", b! "g"]⟩, none, none⟩ ∧
    ResolvesTo pl (b! "http://a/b/c?q") (b! "http:g") true ⟨some (b! "http"), none, ⟨false, [b! "g"]⟩, none, none⟩ :=
  ⟨c107_resolves (strict := false) (b := ⟨some (b! "http"), some ⟨none, b! "a", none⟩, ⟨true, [b! "b", b! "c"]⟩, some (b! "q"), none⟩)
      (r := ⟨some (b! "http"), none, ⟨false, [b! "g"]⟩, none, none⟩) pl
      (run_text (by obtain ⟨b⟩ := pl; cases b <;> decide +kernel)) (run_text (by obtain ⟨b⟩ := pl; cases b <;> decide +kernel)),
   c107_resolves (strict := true) (b := ⟨some (b! "http"), some ⟨none, b! "a", none⟩, ⟨true, [b! "b", b! "c"]⟩, some (b! "q"), none⟩)
      (r := ⟨some (b! "http"), none, ⟨false, [b! "g"]⟩, none, none⟩) pl
      (run_text (by obtain ⟨b⟩ := pl; cases b <;> decide +kernel)) (run_text (by obtain ⟨b⟩ := pl; cases b <;> decide +kernel))⟩

/-- `s:../z` against `s:x/y` is `s:z` in both modes: the last case of `C107_same`. -/
example (pl : Plat) (strict : Bool) : ResolvesTo pl (b! "s:x/y") (b! "s:../z") strict ⟨some (b! "s"), none, ⟨false, [b! "z"]⟩, none, none⟩ := by
  have := c107_resolves (strict := strict) (base := b! "s:x/y") (s := b! "s:../z")
      (b := ⟨some (b! "s"), none, ⟨false, [b! "x", b! "y"]⟩, none, none⟩)
      (r := ⟨some (b! "s"), none, ⟨false, [b! "..", b! "z"]⟩, none, none⟩) pl
      (run_text (by obtain ⟨b⟩ := pl; cases b <;> decide +kernel)) (run_text (by obtain ⟨b⟩ := pl; cases b <;> decide +kernel))
  cases strict <;> exact this

/-- **C107**, counterexample: schemes are compared byte for byte, although their case has no meaning (RFC 3986, 3.1).  Against
`http://a/b`, `HTTP:g` is `HTTP:g`, with `strict` or without. -/
theorem C107_case_counterexample (pl : Plat) (strict : Bool) :
    ResolvesTo pl (b! "http://a/b") (b! "HTTP:g") strict ⟨some (b! "HTTP"), none, ⟨false, [b! "g"]⟩, none, none⟩ := by
  have := c107_resolves (strict := strict) (base := b! "http://a/b") (s := b! "HTTP:g")
      (b := ⟨some (b! "http"), some ⟨none, b! "a", none⟩, ⟨true, [b! "b"]⟩, none, none⟩)
      (r := ⟨some (b! "HTTP"), none, ⟨false, [b! "g"]⟩, none, none⟩) pl
      (run_text (by obtain ⟨b⟩ := pl; cases b <;> decide +kernel)) (run_text (by obtain ⟨b⟩ := pl; cases b <;> decide +kernel))
  cases strict <;> exact this

/-- **C107**, counterexample: the condition on the colon is needed.  Against `s://h/a`, `s:b:c` is `s://h/b:c` without `strict`, but `b:c` is
`b:c`. -/
theorem C107_colon_counterexample (pl : Plat) (strict : Bool) :
    ResolvesTo pl (b! "s://h/a") (b! "s:b:c") false ⟨some (b! "s"), some ⟨none, b! "h", none⟩, ⟨true, [b! "a", b! "b:c"]⟩, none, none⟩ ∧
    ResolvesTo pl (b! "s://h/a") (b! "b:c") strict ⟨some (b! "b"), none, ⟨false, [b! "c"]⟩, none, none⟩ := by
  have h1 := c107_resolves (strict := false) (base := b! "s://h/a") (s := b! "s:b:c")
      (b := ⟨some (b! "s"), some ⟨none, b! "h", none⟩, ⟨true, [b! "a"]⟩, none, none⟩)
      (r := ⟨some (b! "s"), none, ⟨false, [b! "b:c"]⟩, none, none⟩) pl
      (run_text (by obtain ⟨b⟩ := pl; cases b <;> decide +kernel)) (run_text (by obtain ⟨b⟩ := pl; cases b <;> decide +kernel))
  have h2 := c107_resolves (strict := strict) (base := b! "s://h/a") (s := b! "b:c")
      (b := ⟨some (b! "s"), some ⟨none, b! "h", none⟩, ⟨true, [b! "a"]⟩, none, none⟩)
      (r := ⟨some (b! "b"), none, ⟨false, [b! "c"]⟩, none, none⟩) pl
      (run_text (by obtain ⟨b⟩ := pl; cases b <;> decide +kernel)) (run_text (by obtain ⟨b⟩ := pl; cases b <;> decide +kernel))
  refine ⟨h1, ?_⟩
  cases strict <;> exact h2

end Verif
