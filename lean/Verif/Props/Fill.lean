import Verif.Props.Append
import Verif.Props.Pieces

/-!
# Property C119: filling the holes of a template
-/

namespace Verif.Fill
open Short Append
set_option linter.unusedSimpArgs false

/-! ### Specification -/

/-- `q` is `p` but for one segment, or the query, or the fragment, which is `a ++ b` in `p` and `a ++ e ++ b` in `q`. -/
inductive FilledIn (e : Str) (p : Parts Str) : Str → Str → Parts Str → Prop
  | segment (ds : List Str) (a b : Str) (gs : List Str) : p.path.segments = ds ++ (a ++ b) :: gs →
      FilledIn e p a b { p with path := ⟨p.path.absolute, ds ++ (a ++ e ++ b) :: gs⟩ }
  | query (a b : Str) : p.query = some (a ++ b) → FilledIn e p a b { p with query := some (a ++ e ++ b) }
  | fragment (a b : Str) : p.fragment = some (a ++ b) → FilledIn e p a b { p with fragment := some (a ++ e ++ b) }

/-! ### Proofs -/

theorem segment_query {e : Str} (h : Abnf.segment e) : Abnf.query e := by
  obtain ⟨es, rfl, he, -, -⟩ := h
  refine ⟨es, rfl, fun x hx => ?_, Nat.zero_le _, by simp⟩
  have mono := byte_prop (fun c => isPChar c = true → isQueryChar c = true) (by decide +kernel)
  rcases (pchar_elem x).1 (he x hx) with ⟨c, rfl, hc⟩ | h
  · exact (query_elem _).2 (Or.inl ⟨c, rfl, mono c hc⟩)
  · exact (query_elem _).2 (Or.inr h)

theorem segment_fill {a b e : Str} (h : Abnf.segment (a ++ b)) (ha : ¬ InTriplet a) (he : Abnf.segment e) : Abnf.segment (a ++ e ++ b) := by
  have k := segment_cut h ha
  exact many_both (many_both k he) (many_go pchar_elem (by decide +kernel) k h)

theorem query_fill {a b e : Str} (h : Abnf.query (a ++ b)) (ha : ¬ InTriplet a) (he : Abnf.segment e) : Abnf.query (a ++ e ++ b) := by
  have k : Abnf.query a := many_cut query_elem h ha
  exact many_both (many_both k (segment_query he)) (query_go k h)

theorem slashes_fill {x e : Str} (he : Abnf.segment e) : ∀ {gs : List Str} {w : Str}, (∀ g ∈ gs, Abnf.segment g) → Abnf.slashes gs = w ++ x → w ≠ [] → ¬ InTriplet w →
    ∃ ds a b gs', gs = ds ++ (a ++ b) :: gs' ∧ w ++ e ++ x = Abnf.slashes (ds ++ (a ++ e ++ b) :: gs') ∧ Abnf.segment (a ++ e ++ b) ∧ a <:+ w ∧ b <+: x
  | _, [], _, _, h, _ => absurd rfl h
  | [], c :: w, _, h, _, _ => by simp [Abnf.slashes] at h
  | g :: gs, c :: w, hg, h, _, hc => by
    have e1 : ∀ (g : Str) gs, Abnf.slashes (g :: gs) = 0x2F :: (g ++ Abnf.slashes gs) := by simp [Abnf.slashes]
    rw [e1, List.cons_append, List.cons.injEq] at h
    obtain ⟨rfl, h⟩ := h
    have hw : ¬ InTriplet w := fun k => hc (k.behind [0x2F])
    have inFirst : ∀ y, g = w ++ y → x = y ++ Abnf.slashes gs → ∃ ds a b gs', g :: gs = ds ++ (a ++ b) :: gs' ∧
        0x2F :: w ++ e ++ x = Abnf.slashes (ds ++ (a ++ e ++ b) :: gs') ∧ Abnf.segment (a ++ e ++ b) ∧ a <:+ 0x2F :: w ∧ b <+: x := by
      rintro y rfl rfl
      exact ⟨[], w, y, gs, rfl, by rw [List.nil_append, e1]; simp, segment_fill (hg _ (by simp)) hw he, ⟨[0x2F], rfl⟩, ⟨_, rfl⟩⟩
    rcases List.append_eq_append_iff.1 h with ⟨w', rfl, e2⟩ | ⟨y, rfl, e2⟩
    · by_cases h0 : w' = []
      · subst h0; exact inFirst [] (by simp) (by simpa using e2.symm)
      obtain ⟨ds, a, b, gs', rfl, k2, k3, k4, k5⟩ := slashes_fill he (fun y hy => hg y (by simp [hy])) e2 h0 (fun k => hw (k.behind g))
      refine ⟨g :: ds, a, b, gs', rfl, ?_, k3, k4.trans ⟨0x2F :: g, rfl⟩, k5⟩
      show 0x2F :: (g ++ w') ++ e ++ x = Abnf.slashes (g :: (ds ++ (a ++ e ++ b) :: gs'))
      rw [e1, ← k2]; simp
    · exact inFirst y rfl e2

theorem first_fill {x e g : Str} {gs : List Str} {w : Str} (he : Abnf.segment e) (hg : Abnf.segment g) (hgs : ∀ g ∈ gs, Abnf.segment g)
    (h : g ++ Abnf.slashes gs = w ++ x) (hw : ¬ InTriplet w) :
    ∃ a b g' gs', (∃ ds es fs, g :: gs = ds ++ (a ++ b) :: fs ∧ g' :: gs' = ds ++ (a ++ e ++ b) :: fs ∧ es = fs) ∧ w ++ e ++ x = g' ++ Abnf.slashes gs' ∧
      Abnf.segment g' ∧ (∀ z ∈ gs', Abnf.segment z) ∧ (g ≠ [] → g' ≠ []) ∧ a <:+ w ∧ b <+: x := by
  have inFirst : ∀ y, g = w ++ y → x = y ++ Abnf.slashes gs → ∃ a b g' gs', (∃ ds es fs, g :: gs = ds ++ (a ++ b) :: fs ∧ g' :: gs' = ds ++ (a ++ e ++ b) :: fs ∧ es = fs) ∧
      w ++ e ++ x = g' ++ Abnf.slashes gs' ∧ Abnf.segment g' ∧ (∀ z ∈ gs', Abnf.segment z) ∧ (g ≠ [] → g' ≠ []) ∧ a <:+ w ∧ b <+: x := by
    rintro y rfl rfl
    refine ⟨w, y, w ++ e ++ y, gs, ⟨[], gs, gs, rfl, rfl, rfl⟩, by simp, segment_fill hg hw he, hgs, ?_, List.suffix_refl _, ⟨_, rfl⟩⟩
    intro h h0
    apply h
    simp only [List.append_eq_nil_iff] at h0 ⊢
    exact ⟨h0.1.1, h0.2⟩
  rcases List.append_eq_append_iff.1 h with ⟨w', rfl, e2⟩ | ⟨y, rfl, e2⟩
  · by_cases h0 : w' = []
    · subst h0; exact inFirst [] (by simp) (by simpa using e2.symm)
    obtain ⟨ds, a, b, gs', rfl, k2, k3, k4, k5⟩ := slashes_fill he hgs e2 h0 (fun k => hw (k.behind g))
    refine ⟨a, b, g, ds ++ (a ++ e ++ b) :: gs', ⟨g :: ds, gs', gs', rfl, rfl, rfl⟩, ?_, hg, ?_, fun h => h, k4.trans ⟨g, rfl⟩, k5⟩
    · rw [← k2]; simp
    · intro z hz
      rcases List.mem_append.1 hz with hz | hz
      · exact hgs z (by simp [hz])
      · rcases List.mem_cons.1 hz with rfl | hz
        · exact k3
        · exact hgs z (by simp [hz])
  · exact inFirst y rfl e2

theorem part_fill {t : Str} {A P} (d : Abnf.PartDerives Abnf.segmentNz t A P) {w x e : Str} (he : Abnf.segment e)
    (h : t = Abnf.optText (b! "//") (A.map Abnf.authorityText) ++ (w ++ x)) (h0 : w ≠ []) (hw : ¬ InTriplet w) :
    ∃ ds a b gs, P.segments = ds ++ (a ++ b) :: gs ∧ a <:+ w ∧ b <+: x ∧
      Abnf.PartDerives Abnf.segmentNz (Abnf.optText (b! "//") (A.map Abnf.authorityText) ++ (w ++ e ++ x)) A ⟨P.absolute, ds ++ (a ++ e ++ b) :: gs⟩ := by
  cases d with
  | abempty a gs ha hgs =>
    have e2 : Abnf.slashes gs = w ++ x := by simpa [Abnf.optText] using h
    obtain ⟨ds, a', b, gs', rfl, k2, k3, k4, k5⟩ := slashes_fill he hgs e2 h0 hw
    refine ⟨ds, a', b, gs', rfl, k4, k5, ?_⟩
    have := Abnf.PartDerives.abempty (first := Abnf.segmentNz) a (ds ++ (a' ++ e ++ b) :: gs') ha (by
      intro z hz
      rcases List.mem_append.1 hz with hz | hz
      · exact hgs z (by simp [hz])
      · rcases List.mem_cons.1 hz with rfl | hz
        · exact k3
        · exact hgs z (by simp [hz]))
    rw [k2]
    have hE : ∀ z : List Str, (ds ++ (a' ++ b) :: z).isEmpty = (ds ++ (a' ++ e ++ b) :: z).isEmpty := by intro z; cases ds <;> rfl
    show Abnf.PartDerives Abnf.segmentNz _ (some a) ⟨!(ds ++ (a' ++ b) :: gs').isEmpty, _⟩
    rw [hE]
    have e3 : Abnf.optText (b! "//") ((some a).map Abnf.authorityText) ++ Abnf.slashes (ds ++ (a' ++ e ++ b) :: gs') =
        b! "//" ++ Abnf.authorityText a ++ Abnf.slashes (ds ++ (a' ++ e ++ b) :: gs') := rfl
    rw [e3]; exact this
  | root =>
    match w, h, h0, hw with
    | [], _, h0, _ => exact absurd rfl h0
    | c :: w, h, _, _ =>
      simp only [Option.map_none, Abnf.optText, List.nil_append, List.cons_append, List.cons.injEq] at h
      obtain ⟨rfl, h⟩ := h
      obtain ⟨rfl, rfl⟩ := List.append_eq_nil_iff.1 h.symm
      refine ⟨[], [], [], [], rfl, List.nil_suffix, List.nil_prefix, ?_⟩
      by_cases h1 : e = []
      · subst h1; exact .root
      · have := Abnf.PartDerives.absolute (first := Abnf.segmentNz) e [] (segmentNz_of he h1) (by simp)
        simpa [Abnf.optText, Abnf.slashes] using this
  | absolute g gs hg hgs =>
    match w, h, h0, hw with
    | [], _, h0, _ => exact absurd rfl h0
    | c :: w, h, _, hw =>
      simp only [Option.map_none, Abnf.optText, List.nil_append, List.cons_append, List.cons.injEq] at h
      obtain ⟨rfl, h⟩ := h
      have hw' : ¬ InTriplet w := fun k => hw (k.behind [0x2F])
      obtain ⟨a, b, g', gs', ⟨ds, es, fs, k1, k2, -⟩, k3, k4, k5, k6, k7, k8⟩ := first_fill he (segmentNz_segment hg) hgs h hw'
      refine ⟨ds, a, b, fs, k1, k7.trans ⟨[0x2F], rfl⟩, k8, ?_⟩
      have := Abnf.PartDerives.absolute (first := Abnf.segmentNz) g' gs' (segmentNz_of k4 (k6 (segmentNz_ne hg))) k5
      rw [← k2]
      have e3 : (0x2F :: w) ++ e ++ x = b! "/" ++ g' ++ Abnf.slashes gs' := by
        rw [List.append_assoc, List.append_assoc, ← k3]; simp
      rw [e3]; simpa [Abnf.optText] using this
  | rootless g gs hg hgs =>
    simp only [Option.map_none, Abnf.optText, List.nil_append] at h
    obtain ⟨a, b, g', gs', ⟨ds, es, fs, k1, k2, -⟩, k3, k4, k5, k6, k7, k8⟩ := first_fill he (segmentNz_segment hg) hgs h hw
    refine ⟨ds, a, b, fs, k1, k7, k8, ?_⟩
    have := Abnf.PartDerives.rootless (first := Abnf.segmentNz) g' gs' (segmentNz_of k4 (k6 (segmentNz_ne hg))) k5
    rw [← k2, k3]; simpa [Abnf.optText] using this
  | empty =>
    simp only [Option.map_none, Abnf.optText, List.nil_append] at h
    exact absurd (List.append_eq_nil_iff.1 h.symm).1 h0

/-- A hole in an optional piece, behind its delimiter. -/
theorem opt_hole {c : UInt8} {q : Option Str} {w x : Str} (h : Abnf.optText [c] q = w ++ x) (h0 : w ≠ []) : ∃ a, w = c :: a ∧ q = some (a ++ x) := by
  cases w with
  | nil => exact absurd rfl h0
  | cons d w =>
    cases q with
    | none => simp [Abnf.optText] at h
    | some t =>
      simp only [Abnf.optText, List.cons_append, List.nil_append, List.cons.injEq] at h
      obtain ⟨rfl, rfl⟩ := h
      exact ⟨w, rfl, rfl⟩

theorem uri_fill {p : Parts Str} {u v e : Str} (d : Abnf.URIDerives (u ++ v) p) {c : UInt8} (hf : beginning p ++ [c] <+: u) (hu : ¬ InTriplet u) (he : Abnf.segment e) :
    ∃ a b q, FilledIn e p a b q ∧ a <:+ u ∧ b <+: v ∧ Abnf.URIDerives (u ++ e ++ v) q := by
  obtain ⟨sc, A, P, q, f⟩ := p
  obtain ⟨sch, t, h1, h2, h3, h4, h5, h6⟩ := d
  simp only at h1 h3 h4 h5 h6 hf ⊢
  subst h1
  obtain ⟨r, rfl⟩ := hf
  have hne : [c] ++ r ≠ [] := by simp
  rw [List.append_assoc (beginning _) [c] r] at h6 hu ⊢
  generalize [c] ++ r = r at *
  obtain ⟨b, hb⟩ := part_front h3
  have hr : ¬ InTriplet r := fun k => hu (k.behind _)
  have hfr : beginning ⟨some sch, A, P, q, f⟩ = sch ++ b! ":" ++ Abnf.optText (b! "//") (A.map Abnf.authorityText) := rfl
  rw [hfr] at h6 hu ⊢
  have e2 : b ++ (Abnf.optText (b! "?") q ++ Abnf.optText (b! "#") f) = r ++ v := by
    rw [hb] at h6
    simp only [List.append_assoc] at h6
    exact (List.append_cancel_left (List.append_cancel_left (List.append_cancel_left h6))).symm
  have inPath : ∀ x, b = r ++ x → v = x ++ (Abnf.optText (b! "?") q ++ Abnf.optText (b! "#") f) →
      ∃ a b q', FilledIn e ⟨some sch, A, P, q, f⟩ a b q' ∧ a <:+ sch ++ b! ":" ++ Abnf.optText (b! "//") (A.map Abnf.authorityText) ++ r ∧ b <+: v ∧
        Abnf.URIDerives (sch ++ b! ":" ++ Abnf.optText (b! "//") (A.map Abnf.authorityText) ++ r ++ e ++ v) q' := by
    rintro x rfl rfl
    obtain ⟨ds, a, b', gs, k1, k2, k3, k4⟩ := part_fill h3 he hb hne hr
    exact ⟨a, b', _, .segment ds a b' gs k1, k2.trans ⟨_, rfl⟩, k3.trans ⟨_, rfl⟩, ⟨sch, _, rfl, h2, k4, h4, h5, by simp⟩⟩
  rcases List.append_eq_append_iff.1 e2 with ⟨r2, rfl, e3⟩ | ⟨x, hx, e3⟩
  · by_cases h0 : r2 = []
    · subst h0; exact inPath [] (by simp) (by simpa using e3.symm)
    have hr2 : ¬ InTriplet r2 := fun k => hr (k.behind _)
    have inQuery : ∀ x, Abnf.optText (b! "?") q = r2 ++ x → v = x ++ Abnf.optText (b! "#") f →
        ∃ a b' q', FilledIn e ⟨some sch, A, P, q, f⟩ a b' q' ∧ a <:+ sch ++ b! ":" ++ Abnf.optText (b! "//") (A.map Abnf.authorityText) ++ (b ++ r2) ∧ b' <+: v ∧
          Abnf.URIDerives (sch ++ b! ":" ++ Abnf.optText (b! "//") (A.map Abnf.authorityText) ++ (b ++ r2) ++ e ++ v) q' := by
      rintro x hx rfl
      obtain ⟨a, rfl, rfl⟩ := opt_hole hx h0
      refine ⟨a, x, _, .query a x rfl, ⟨sch ++ b! ":" ++ Abnf.optText (b! "//") (A.map Abnf.authorityText) ++ b ++ [0x3F], by simp⟩, ⟨_, rfl⟩, ⟨sch, t, rfl, h2, h3, ?_, h5, ?_⟩⟩
      · rintro _ ⟨⟩; exact query_fill (h4 _ rfl) (fun k => hr2 (k.behind [0x3F])) he
      · rw [hb]; simp [Abnf.optText]
    rcases List.append_eq_append_iff.1 e3 with ⟨r3, rfl, e4⟩ | ⟨x, e4, e5⟩
    · by_cases h0' : r3 = []
      · subst h0'; exact inQuery [] (by simp) (by simpa using e4.symm)
      obtain ⟨a, rfl, rfl⟩ := opt_hole e4 h0'
      refine ⟨a, v, _, .fragment a v rfl, ⟨sch ++ b! ":" ++ Abnf.optText (b! "//") (A.map Abnf.authorityText) ++ (b ++ Abnf.optText (b! "?") q) ++ [0x23], by simp⟩, ⟨[], by simp⟩,
        ⟨sch, t, rfl, h2, h3, h4, ?_, ?_⟩⟩
      · rintro _ ⟨⟩; exact query_fill (h5 _ rfl) (fun k => hr2 (by have := k.behind (Abnf.optText (b! "?") q ++ [0x23]); rwa [List.append_assoc] at this)) he
      · rw [hb]; simp [Abnf.optText]
    · exact inQuery x e4 e5
  · exact inPath x hx e3

theorem straddles_cut {s t : Str} (h : Straddles s t) : InTriplet s := by
  obtain ⟨a, l, b, p, q, -, ⟨rfl, -⟩ | ⟨rfl, -⟩⟩ := h
  · exact ⟨p, Or.inl rfl⟩
  · exact ⟨p, Or.inr ⟨a, rfl⟩⟩

theorem decP_encP_append {es : UInt8} (h : es ≠ 0) (s t : Str) : decP (encP es s ++ t) = s ++ decP t := by
  induction s with
  | nil => rfl
  | cons c s ih =>
    by_cases hc : needsPctencodeB c es = true
    · have : encP es (c :: s) = 0x25 :: hexU (c.toNat / 16) :: hexU (c.toNat % 16) :: encP es s := by simp [encP, encB, hc]
      obtain ⟨h1, h2⟩ := encP_triplet c
      rw [this, List.cons_append, List.cons_append, List.cons_append, decP, if_pos ⟨rfl, h1⟩, h2, ih]; rfl
    · have : encP es (c :: s) = c :: encP es s := by simp [encP, encB, hc]
      rw [this, List.cons_append, decP_copy, ih]; rfl
      rintro rfl
      exact hc (percent_needs es h)

end Verif.Fill

/-! ### The property -/

namespace Verif
open Short Fill PctSpec

/-- **C119**: a template is an accepted text `u ++ v` with a hole between `u` and `v`, which is behind the authority and the delimiter that follows it, and
not inside of a triplet.  Whatever segment text is filled in, the result is accepted, and just the one component that the hole is in has changed. -/
theorem C119_filled (pl : Plat) (u v e : Str) (c : UInt8) (p : Parts Str) (hp : SplitsTo pl (u ++ v) p) (hf : beginning p ++ [c] <+: u) (hu : ¬ InTriplet u)
    (he : Abnf.segment e) (hl : (u ++ e ++ v).length < 2 ^ 32) : ∃ a b q, FilledIn e p a b q ∧ a <:+ u ∧ b <+: v ∧ SplitsTo pl (u ++ e ++ v) q := by
  obtain ⟨d, ho, hc⟩ := splitsTo_iff.1 hp
  obtain ⟨a, b, q, h1, h2, h3, h4⟩ := uri_fill d hf hu he
  refine ⟨a, b, q, h1, h2, h3, splitsTo_iff.2 ⟨h4, ?_, ?_⟩⟩
  · cases h1 <;> exact ho
  · intro hA g gs hg hne
    have hs := (derives_components (Or.inl h4)).2.2.1 g (by rw [hg]; simp)
    refine units_of_short hs hne (Nat.lt_of_le_of_lt ?_ hl)
    have e1 := recompose_of_derives (Or.inl h4)
    rw [← e1]
    simp only [recompose, pathText, hg, List.length_append]
    omega

/-- **C119**: in particular any text that `pctencode` has encoded as a component; and the component it is in then decodes to what the parts beside it
decode to, with the text itself between. -/
theorem C119_encoded (pl : Plat) (u v x e : Str) (c : UInt8) (p : Parts Str) (hp : SplitsTo pl (u ++ v) p) (hf : beginning p ++ [c] <+: u) (hu : ¬ InTriplet u)
    (es : UInt8) (hes : es = EncSet.component ∨ es = EncSet.formUrlencoded) (he : pctencode x es = .ok e)
    (hl : (u ++ e ++ v).length < 2 ^ 32) :
    ∃ a b q, FilledIn e p a b q ∧ SplitsTo pl (u ++ e ++ v) q ∧
      ∀ da db, pctdecode a = .ok da → pctdecode b = .ok db → pctdecode (a ++ b) = .ok (da ++ db) ∧ pctdecode (a ++ e ++ b) = .ok (da ++ x ++ db) := by
  have hn : es ≠ EncSet.none := by rcases hes with rfl | rfl <;> decide
  rw [pctencode_eq] at he
  obtain rfl := Except.ok.inj he
  have hseg := (encP_chars hes x).2
  obtain ⟨a, b, q, h1, ⟨u', rfl⟩, -, h3⟩ := C119_filled pl u v _ c p hp hf hu hseg hl
  refine ⟨a, b, q, h1, h3, fun da db ha hb => ?_⟩
  have na : ∀ t, ¬ Straddles a t := fun t k => hu ((straddles_cut k).behind u')
  refine ⟨(C99_pieces a b da db ha hb).2 (na b), ?_⟩
  rw [pctdecode_eq] at *
  obtain rfl := Except.ok.inj ha
  obtain rfl := Except.ok.inj hb
  rw [List.append_assoc, List.append_assoc, decP_append (na _), decP_encP_append hn]

/-- **C119**: a dot segment that a hole makes disappears with others when the text is resolved; if the template has none and the hole makes none,
resolution leaves the text as it is. -/
theorem C119_resolved (pl : Plat) (u v e : Str) (c : UInt8) (p : Parts Str) (hp : SplitsTo pl (u ++ v) p) (hf : beginning p ++ [c] <+: u) (hu : ¬ InTriplet u)
    (he : Abnf.segment e) (hl : (u ++ e ++ v).length < 2 ^ 32) (hd : ∀ g ∈ p.path.segments, g ≠ b! "." ∧ g ≠ b! "..") :
    ∃ a b q, FilledIn e p a b q ∧ SplitsTo pl (u ++ e ++ v) q ∧ (a ++ e ++ b ≠ b! "." ∧ a ++ e ++ b ≠ b! ".." →
      ∀ base ptr r, joinStr pl base ⟨ptr, u ++ e ++ v⟩ true = .ok (some r) → r.text = q) := by
  obtain ⟨a, b, q, h1, -, -, h3⟩ := C119_filled pl u v e c p hp hf hu he hl
  refine ⟨a, b, q, h1, h3, fun hab base ptr r hr => ?_⟩
  obtain ⟨bp, hb⟩ : ∃ bp, split pl base = .ok (some bp) := by
    cases hs : split pl base with
    | error x => rw [joinStr, hs] at hr; cases hr
    | ok o =>
      cases o with
      | none => rw [joinStr, hs] at hr; cases hr
      | some bp => exact ⟨bp, rfl⟩
  obtain ⟨x, hx, rfl⟩ := joinStr_reads hb hr
  have hq := splitsTo_iff.1 h3
  obtain ⟨y, hy, hyq⟩ := (readsTo_iff.2 ⟨Or.inl hq.1, hq.2⟩ : ReadsTo pl (u ++ e ++ v) q) ptr
  rw [hx] at hy
  obtain rfl := Option.some.inj (Except.ok.inj hy)
  subst hyq
  have hs : x.scheme ≠ none := by
    obtain ⟨sch, t, k, -⟩ := hq.1
    intro h0
    have : x.text.scheme = x.scheme.map SV.chars := rfl
    rw [this, h0] at k; cases k
  have hn : ∀ g ∈ x.text.path.segments, g ≠ b! "." ∧ g ≠ b! ".." := by
    generalize x.text = q at *
    cases h1 with
    | segment ds a b gs hs =>
      intro g hg
      rcases List.mem_append.1 hg with hg | hg
      · exact hd g (by rw [hs]; simp [hg])
      · rcases List.mem_cons.1 hg with rfl | hg
        · exact hab
        · exact hd g (by rw [hs]; simp [hg])
    | _ => exact hd
  have hrd : x.path.removeDotSegments = x.path := C18_unchanged _ fun g hg => hn g.chars (List.mem_map.2 ⟨g, hg, rfl⟩)
  cases hr : x.scheme with
  | none => exact absurd hr hs
  | some s =>
    have : join bp x true = x := by
      obtain ⟨sc, A, P, q, f⟩ := x
      simp only at hr hrd
      simp [join, hr, hrd]
    rw [this]

/-- **C119**, the holes that are no good: in the authority, and inside of a triplet. -/
theorem C119_counterexample :
    ([b! "s://h/", b! "s://hx/"].map fun s => (split x86 ⟨4096, s⟩).map (·.bind (·.text.authority.map (·.host)))) = [.ok (some (b! "h")), .ok (some (b! "hx"))] ∧
    ((split x86 ⟨4096, b! "s://h/%41"⟩).map (·.map (·.text.path.segments)) = .ok (some [b! "%41"])) ∧ split x86 ⟨4096, b! "s://h/%" ++ b! "x" ++ b! "41"⟩ = .ok none ∧
    (split x86 ⟨4096, b! "s://h/%4" ++ b! "2" ++ b! "1"⟩).map (·.map (·.text.path.segments)) = .ok (some [b! "%421"]) := by
  decide +kernel

example : SplitsTo x86 (b! "s://h/a/" ++ b! "?b") ⟨some (b! "s"), some ⟨none, b! "h", none⟩, ⟨true, [b! "a", []]⟩, some (b! "b"), none⟩ ∧
    beginning ⟨some (b! "s"), some ⟨none, b! "h", none⟩, ⟨true, [b! "a", []]⟩, some (b! "b"), none⟩ ++ b! "/" <+: b! "s://h/a/" ∧
    pctencode (b! "/../?x") EncSet.component = .ok (b! "%2F..%2F%3Fx") ∧
    SplitsTo x86 (b! "s://h/a/" ++ b! "%2F..%2F%3Fx" ++ b! "?b") ⟨some (b! "s"), some ⟨none, b! "h", none⟩, ⟨true, [b! "a", b! "%2F..%2F%3Fx"]⟩, some (b! "b"), none⟩ :=
  ⟨c91_splits x86 (run_text (by decide +kernel)), ⟨b! "a/", by decide +kernel⟩, by decide +kernel, c91_splits x86 (run_text (by decide +kernel))⟩

end Verif
