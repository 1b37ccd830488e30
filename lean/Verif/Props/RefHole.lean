import Verif.Props.Fill
import Verif.Props.PctSearch
import Verif.Props.Apart
import Verif.Props.Lists

/-!
# Property C124: templates of references
-/

namespace Verif.RefHole
open Short Fill PctSpec Moved Apart
set_option linter.unusedSimpArgs false

/-! ### Specification -/

/-- The text of the authority of a reference, with its slashes. -/
def server (p : Parts Str) : Str := Abnf.optText (b! "//") (p.authority.map Abnf.authorityText)

/-! ### Proofs -/

theorem colon_filled {u v e : Str} (h : (0x3A : UInt8) ∉ beforeSlash (u ++ v)) (he : (0x3A : UInt8) ∉ e ∨ ∃ c ∈ u, c ∈ b! "/?#") : (0x3A : UInt8) ∉ beforeSlash (u ++ e ++ v) := by
  unfold beforeSlash at *
  by_cases hu : ∃ c ∈ u, oneOf (b! "/?#") c = true
  · have key : ∀ w : Str, (u ++ w).takeWhile (!oneOf (b! "/?#") ·) = u.takeWhile (!oneOf (b! "/?#") ·) := by
      intro w
      rw [List.takeWhile_append]
      split
      · rename_i hl
        obtain ⟨c, hc, k⟩ := hu
        have e := (List.takeWhile_prefix (p := fun c => !oneOf (b! "/?#") c) (l := u)).eq_of_length hl
        have : c ∈ u.takeWhile (!oneOf (b! "/?#") ·) := by rw [e]; exact hc
        have := List.all_eq_true.1 (List.all_takeWhile (p := fun c => !oneOf (b! "/?#") c) (l := u)) c this
        simp [k] at this
      · rfl
    rw [key] at h
    rw [List.append_assoc, key]
    exact h
  · have hu' : ∀ c ∈ u, oneOf (b! "/?#") c = false := by
      intro c hc
      cases k : oneOf (b! "/?#") c with
      | false => rfl
      | true => exact absurd ⟨c, hc, k⟩ hu
    have he' : (0x3A : UInt8) ∉ e := by
      rcases he with he | ⟨c, hc, k⟩
      · exact he
      · exfalso
        have := hu' c hc
        simp only [List.mem_cons, List.not_mem_nil, or_false] at k
        rcases k with rfl | rfl | rfl <;> exact absurd this (by decide)
    rw [List.takeWhile_append_of_pos (fun c hc => by simp [hu' c hc])] at h
    rw [List.append_assoc, List.takeWhile_append_of_pos (fun c hc => by simp [hu' c hc])]
    intro hm
    rcases List.mem_append.1 hm with hm | hm
    · exact h (List.mem_append.2 (Or.inl hm))
    · rw [List.takeWhile_append] at hm
      split at hm
      · rcases List.mem_append.1 hm with hm | hm
        · exact he' hm
        · exact h (List.mem_append.2 (Or.inr hm))
      · exact he' ((List.takeWhile_prefix _).subset hm)

/-- A hole does not change the scheme; it may be taken off, or put on. -/
theorem FilledIn.scheme {e : Str} {p q : Parts Str} {a b : Str} (h : FilledIn e p a b q) (x : Option Str) : q.scheme = p.scheme ∧
    FilledIn e { p with scheme := x } a b { q with scheme := x } := by
  cases h with
  | segment ds a b gs h => exact ⟨rfl, .segment (p := { p with scheme := x }) ds a b gs h⟩
  | query a b h => exact ⟨rfl, .query (p := { p with scheme := x }) a b h⟩
  | fragment a b h => exact ⟨rfl, .fragment (p := { p with scheme := x }) a b h⟩

/-- The template with a scheme before it. -/
theorem with_scheme {pl : Plat} {u v : Str} {p : Parts Str} {c : UInt8} (hp : ReadsTo pl (u ++ v) p) (hs : p.scheme = none) (hf : server p ++ [c] <+: u) (hu : ¬ InTriplet u) :
    SplitsTo pl (b! "s:" ++ u ++ v) { p with scheme := some (b! "s") } ∧ beginning { p with scheme := some (b! "s") } ++ [c] <+: b! "s:" ++ u ∧ ¬ InTriplet (b! "s:" ++ u) ∧
    (0x3A : UInt8) ∉ beforeSlash (u ++ v) := by
  have hcolon : (0x3A : UInt8) ∉ beforeSlash (u ++ v) := by
    rcases (readsTo_iff.1 hp).1 with d | d
    · obtain ⟨sch, t, k, -⟩ := d
      rw [hs] at k; cases k
    · exact rel_colon d
  have hsch : Abnf.scheme (b! "s") := by
    obtain ⟨h, -⟩ := splitsTo_iff.1 (c91_splits (s := b! "s:") (p := ⟨some (b! "s"), none, ⟨false, []⟩, none, none⟩) x86 (run_text (by decide +kernel)))
    obtain ⟨s', t, k1, k2, -⟩ := h
    simp only [Option.some.injEq] at k1
    rw [k1]; exact k2
  refine ⟨?_, ?_, fun h => hu ?_, hcolon⟩
  · rw [List.append_assoc]
    refine (C91_relative pl (b! "s") (u ++ v) _ hsch hcolon).2 ⟨rfl, ?_⟩
    obtain ⟨sc, A, P, q, f⟩ := p
    simp only at hs ⊢
    subst hs
    exact hp
  · obtain ⟨t, rfl⟩ := hf
    exact ⟨t, by simp [beginning, server, Abnf.optText]⟩
  · exact PctSearch.InTriplet.tail (PctSearch.InTriplet.tail h (by decide)) (by decide)

/-- Taking the scheme off again. -/
theorem without_scheme {pl : Plat} {u v e a b : Str} {p q : Parts Str} (hs : p.scheme = none) (hc : (0x3A : UInt8) ∉ beforeSlash (u ++ e ++ v))
    (h : FilledIn e { p with scheme := some (b! "s") } a b q) (hq : SplitsTo pl (b! "s:" ++ u ++ e ++ v) q) :
    FilledIn e p a b { q with scheme := none } ∧ ReadsTo pl (u ++ e ++ v) { q with scheme := none } := by
  obtain ⟨k1, k2⟩ := FilledIn.scheme h none
  have e1 : ({ ({ p with scheme := some (b! "s") } : Parts Str) with scheme := none } : Parts Str) = p := by
    obtain ⟨sc, A, P, q, f⟩ := p
    simp only at hs ⊢
    rw [hs]
  rw [e1] at k2
  refine ⟨k2, ?_⟩
  obtain ⟨d, -⟩ := splitsTo_iff.1 hq
  obtain ⟨s', t, j1, j2, -⟩ := d
  have j3 : s' = b! "s" := by rw [k1] at j1; simpa using j1.symm
  subst j3
  have e2 : b! "s:" ++ u ++ e ++ v = b! "s" ++ b! ":" ++ (u ++ e ++ v) := by simp
  rw [e2] at hq
  exact ((C91_relative pl (b! "s") (u ++ e ++ v) q j2 hc).1 hq).2

theorem run_plain : ∀ (gs st : List Str), (∀ g ∈ gs, isDot g = false) → stackRun id st gs = st ++ gs
  | [], st, _ => by simp [stackRun]
  | g :: gs, st, h => by
    obtain ⟨h1, h2⟩ := (isDot_iff g).1 (h g (by simp))
    simp only [stackRun, id]
    rw [if_neg h1, if_neg h2, run_plain gs _ fun x hx => h x (by simp [hx])]; simp

theorem ended_plain {gs : List Str} (h : ∀ g ∈ gs, isDot g = false) (st : List Str) (h0 : gs ≠ []) : ended (dirEnd false gs) (st ++ gs) = st ++ gs := by
  rw [ended_append h0]
  congr 1
  cases hl : gs.getLast? with
  | none => exact absurd (List.getLast?_eq_none_iff.1 hl) h0
  | some g =>
    have hg := h g (List.mem_of_getLast? hl)
    cases g with
    | nil => simp [ended, asDirectory, hl, dirEnd]
    | cons x y => simp [ended, dirEnd, hl, hg]

/-- Resolution of a relative reference without dot segments. -/
theorem joinT_plain {b r : Parts Str} (h : r.scheme = none) (hd : ∀ g ∈ r.path.segments, isDot g = false) :
    joinT b r true = match r.authority with
      | some a => ⟨b.scheme, some a, r.path, r.query, r.fragment⟩
      | none =>
        if r.path.segments = [] then ⟨b.scheme, b.authority, b.path, if r.query.isSome then r.query else b.query, r.fragment⟩
        else if r.path.absolute then ⟨b.scheme, b.authority, r.path, r.query, r.fragment⟩
        else ⟨b.scheme, b.authority, ⟨b.path.absolute || (b.authority.isSome && b.path.segments.isEmpty), stackRun id [] (keptOf b.path.segments) ++ r.path.segments⟩, r.query, r.fragment⟩ := by
  cases a : r.authority with
  | some x => rw [joinT_authority h (by rw [a]; rfl), a, rdsT_nodot hd]
  | none =>
    by_cases p : r.path.segments = []
    · rw [joinT_empty h a p]; simp [p]
    cases ab : r.path.absolute with
    | true => rw [joinT_root h a p ab, rdsT_nodot hd]; simp [p]
    | false =>
      rw [joinT_relative h a p ab, mergeT_kept]
      simp only [rdsT, rdsSegs_ended, dirEnd_last p, stackRun_append, run_plain _ _ hd, ended_plain hd _ p, p, if_false]
      rfl

theorem resolved_filled {e a b : Str} {base r q : Parts Str} (hf : FilledIn e r a b q) (h : r.scheme = none) (hd : ∀ g ∈ r.path.segments, isDot g = false)
    (hq : isDot (a ++ e ++ b) = false) : FilledIn e (joinT base r true) a b (joinT base q true) := by
  have hd' : ∀ g ∈ q.path.segments, isDot g = false := by
    cases hf with
    | segment ds a b gs hs =>
      intro g hg
      rcases List.mem_append.1 hg with hg | hg
      · exact hd g (by rw [hs]; simp [hg])
      · rcases List.mem_cons.1 hg with rfl | hg
        · exact hq
        · exact hd g (by rw [hs]; simp [hg])
    | _ => exact hd
  rw [joinT_plain h hd, joinT_plain ((FilledIn.scheme hf none).1.trans h) hd']
  obtain ⟨sc, A, P, qu, f⟩ := r
  cases hf with
  | segment ds a b gs hs =>
    simp only at hs
    cases A with
    | some x => exact .segment (p := ⟨base.scheme, some x, P, qu, f⟩) ds a b gs hs
    | none =>
      have n1 : P.segments ≠ [] := by rw [hs]; simp
      have n2 : ds ++ (a ++ e ++ b) :: gs ≠ [] := by simp
      simp only [n1, n2, if_false]
      cases hab : P.absolute with
      | true =>
        have := FilledIn.segment (e := e) (p := ⟨base.scheme, base.authority, P, qu, f⟩) ds a b gs hs
        simpa [hab] using this
      | false =>
        have := FilledIn.segment (e := e) (p := ⟨base.scheme, base.authority, ⟨base.path.absolute || (base.authority.isSome && base.path.segments.isEmpty),
          stackRun id [] (keptOf base.path.segments) ++ P.segments⟩, qu, f⟩) (stackRun id [] (keptOf base.path.segments) ++ ds) a b gs (by simp [hs])
        simpa using this
  | query a b hs =>
    simp only at hs
    subst hs
    cases A with
    | some x => exact .query (p := ⟨base.scheme, some x, P, _, f⟩) a b rfl
    | none =>
      simp only
      split
      · exact .query (p := ⟨base.scheme, base.authority, base.path, some (a ++ b), f⟩) a b rfl
      · split
        · exact .query (p := ⟨base.scheme, base.authority, P, some (a ++ b), f⟩) a b rfl
        · exact .query (p := ⟨base.scheme, base.authority, ⟨_, _⟩, some (a ++ b), f⟩) a b rfl
  | fragment a b hs =>
    simp only at hs
    subst hs
    cases A with
    | some x => exact .fragment (p := ⟨base.scheme, some x, P, _, _⟩) a b rfl
    | none =>
      simp only
      split
      · exact .fragment (p := ⟨base.scheme, base.authority, base.path, _, some (a ++ b)⟩) a b rfl
      · split
        · exact .fragment (p := ⟨base.scheme, base.authority, P, _, some (a ++ b)⟩) a b rfl
        · exact .fragment (p := ⟨base.scheme, base.authority, ⟨_, _⟩, _, some (a ++ b)⟩) a b rfl

end Verif.RefHole

/-! ### The property -/

namespace Verif
open Short Fill RefHole PctSpec Moved Apart

/-- **C124**: a template of a reference is a text `u ++ v` that `split_reference` reads without a scheme, with a hole behind its authority and one more character, and not inside of
a triplet. Whatever segment text is filled in - without a colon, or behind a `/`, `?` or `#` - just the one component that the hole is in has changed. -/
theorem C124_filled (pl : Plat) (u v e : Str) (c : UInt8) (p : Parts Str) (hp : ReadsTo pl (u ++ v) p) (hs : p.scheme = none) (hf : server p ++ [c] <+: u) (hu : ¬ InTriplet u)
    (he : Abnf.segment e) (hc : (0x3A : UInt8) ∉ e ∨ ∃ c ∈ u, c ∈ b! "/?#") (hl : (u ++ e ++ v).length + 2 < 2 ^ 32) :
    ∃ a b q, FilledIn e p a b q ∧ ReadsTo pl (u ++ e ++ v) q := by
  obtain ⟨k1, k2, k3, k4⟩ := with_scheme hp hs hf hu
  obtain ⟨a, b, q, h1, -, -, h2⟩ := C119_filled pl (b! "s:" ++ u) v e c _ k1 k2 k3 he (by simp only [List.length_append] at *; simp; omega)
  obtain ⟨j1, j2⟩ := without_scheme hs (colon_filled k4 hc) h1 h2
  exact ⟨a, b, _, j1, j2⟩

/-- **C124**: any text at all, encoded by `pctencode` as a component, can be filled in; what it is in decodes to what is beside it and the text itself between. -/
theorem C124_encoded (pl : Plat) (u v x e : Str) (c : UInt8) (p : Parts Str) (hp : ReadsTo pl (u ++ v) p) (hs : p.scheme = none) (hf : server p ++ [c] <+: u) (hu : ¬ InTriplet u)
    (es : UInt8) (hes : es = EncSet.component ∨ es = EncSet.formUrlencoded) (he : pctencode x es = .ok e) (hl : (u ++ e ++ v).length + 2 < 2 ^ 32) :
    ∃ a b q, FilledIn e p a b q ∧ ReadsTo pl (u ++ e ++ v) q ∧
      ∀ da db, pctdecode a = .ok da → pctdecode b = .ok db → pctdecode (a ++ b) = .ok (da ++ db) ∧ pctdecode (a ++ e ++ b) = .ok (da ++ x ++ db) := by
  obtain ⟨k1, k2, k3, k4⟩ := with_scheme hp hs hf hu
  obtain ⟨a, b, q, h1, h2, h3⟩ := C119_encoded pl (b! "s:" ++ u) v x e c _ k1 k2 k3 es hes he (by simp only [List.length_append] at *; simp; omega)
  have hcolon : (0x3A : UInt8) ∉ e := by
    have hn : needsPctencode [0x3A] es = true := by rcases hes with rfl | rfl <;> decide +kernel
    exact (C114_exact es 0x3A).1 ⟨hn, by decide⟩ x e he
  obtain ⟨j1, j2⟩ := without_scheme hs (colon_filled k4 (Or.inl hcolon)) h1 h2
  exact ⟨a, b, _, j1, j2, h3⟩

/-- **C124**: and then resolution fills the hole in the resolved template: if neither the template nor what is made of it has dot segments, the one component differs. -/
theorem C124_resolved (pl : Plat) (u v e : Str) (c : UInt8) (p : Parts Str) (hp : ReadsTo pl (u ++ v) p) (hs : p.scheme = none) (hf : server p ++ [c] <+: u) (hu : ¬ InTriplet u)
    (he : Abnf.segment e) (hc : (0x3A : UInt8) ∉ e ∨ ∃ c ∈ u, c ∈ b! "/?#") (hl : (u ++ e ++ v).length + 2 < 2 ^ 32)
    (hd : ∀ g ∈ p.path.segments, g ≠ b! "." ∧ g ≠ b! "..") :
    ∃ a b, ∀ base bp ptr, split pl base = .ok (some bp) → a ++ e ++ b ≠ b! "." ∧ a ++ e ++ b ≠ b! ".." →
      ∃ t t', joinStr pl base ⟨ptr, u ++ v⟩ true = .ok (some t) ∧ joinStr pl base ⟨ptr, u ++ e ++ v⟩ true = .ok (some t') ∧ FilledIn e t.text a b t'.text := by
  obtain ⟨a, b, q, h1, h2⟩ := C124_filled pl u v e c p hp hs hf hu he hc hl
  refine ⟨a, b, fun base bp ptr hb hn => ?_⟩
  obtain ⟨x, hx, rfl⟩ := hp ptr
  obtain ⟨y, hy, rfl⟩ := h2 ptr
  refine ⟨join bp x true, join bp y true, by rw [joinStr, hb]; simp only [bind, Except.bind, hx]; rfl, by rw [joinStr, hb]; simp only [bind, Except.bind, hy]; rfl, ?_⟩
  rw [joinT_text, joinT_text]
  exact resolved_filled h1 hs (fun g hg => (isDot_iff g).2 (hd g hg)) ((isDot_iff _).2 hn)

/-- **C124**, the holes that are no good: at the very beginning (`/x` and `s:/x`), where the text can become a scheme; and with a colon in the first segment. -/
theorem C124_counterexamples :
    (splitReference x86 ⟨4096, b! "/x"⟩).map (·.map Parts.text) = .ok (some ⟨none, none, ⟨true, [b! "x"]⟩, none, none⟩) ∧
    (splitReference x86 ⟨4096, b! "s:" ++ b! "/x"⟩).map (·.map Parts.text) = .ok (some ⟨some (b! "s"), none, ⟨true, [b! "x"]⟩, none, none⟩) ∧
    (splitReference x86 ⟨4096, b! "ab"⟩).map (·.map Parts.text) = .ok (some ⟨none, none, ⟨false, [b! "ab"]⟩, none, none⟩) ∧
    (splitReference x86 ⟨4096, b! "a" ++ b! ":" ++ b! "b"⟩).map (·.map Parts.text) = .ok (some ⟨some (b! "a"), none, ⟨false, [b! "b"]⟩, none, none⟩) := by
  decide +kernel

/-- A template: `../x/` and `?k`, with `a:b` between. -/
example : ReadsTo x86 (b! "../x/" ++ b! "?k") ⟨none, none, ⟨false, [b! "..", b! "x", []]⟩, some (b! "k"), none⟩ ∧
    server ⟨none, none, ⟨false, [b! "..", b! "x", []]⟩, some (b! "k"), none⟩ ++ b! "." <+: b! "../x/" ∧ (∃ c ∈ b! "../x/", c ∈ b! "/?#") ∧
    ReadsTo x86 (b! "../x/" ++ b! "a:b" ++ b! "?k") ⟨none, none, ⟨false, [b! "..", b! "x", b! "a:b"]⟩, some (b! "k"), none⟩ :=
  ⟨c91_reads x86 (run_text (by decide +kernel)), ⟨b! "./x/", by decide +kernel⟩, ⟨0x2F, by decide, by decide⟩, c91_reads x86 (run_text (by decide +kernel))⟩

end Verif
