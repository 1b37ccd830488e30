import Verif.Props.Exchange
import Verif.Props.Safety

/-!
# Property C116: accepted texts cut short
-/

namespace Verif.Short
set_option linter.unusedSimpArgs false

/-! ### Specification -/

/-- The text ends inside of a triplet: in `%`, or in `%` and one more character. -/
def InTriplet (u : Str) : Prop := ∃ t, u = t ++ [0x25] ∨ ∃ x, u = t ++ [0x25, x]

/-- The text of a URI up to the end of its authority, or without one of its scheme. -/
def beginning (p : Parts Str) : Str :=
  Abnf.optText [] p.scheme ++ b! ":" ++ Abnf.optText (b! "//") (p.authority.map Abnf.authorityText)

/-! ### Proofs -/

theorem InTriplet.behind {w : Str} (a : Str) (h : InTriplet w) : InTriplet (a ++ w) := by
  obtain ⟨t, rfl | ⟨x, rfl⟩⟩ := h
  · exact ⟨a ++ t, Or.inl (by simp)⟩
  · exact ⟨a ++ t, Or.inr ⟨x, by simp⟩⟩

/-- What can be left of a text of characters and triplets. -/
theorem many_cut {f : UInt8 → Bool} {L : Lang} (hL : ∀ u, L u ↔ ElemL f u) {u v : Str} (h : Abnf.many L (u ++ v)) (hc : ¬ InTriplet u) : Abnf.many L u := by
  obtain ⟨es, e, he, -, -⟩ := h
  have key : ∀ (es : List Str) (u : Str), (∀ e ∈ es, L e) → u ++ v = es.flatten → ¬ InTriplet u → ∃ fs : List Str, u = fs.flatten ∧ ∀ x ∈ fs, L x := by
    intro es
    induction es with
    | nil =>
      intro u _ e _
      have : u = [] := by have := congrArg List.length e; simp at this; exact this.1
      exact ⟨[], by simp [this], by simp⟩
    | cons x es ih =>
      intro u he e hc
      have hx := he x (by simp)
      rcases (hL x).1 hx with ⟨c, rfl, hcl⟩ | ⟨h1, h2, rfl, k1, k2⟩
      · cases u with
        | nil => exact ⟨[], rfl, by simp⟩
        | cons d u =>
          simp only [List.cons_append, List.flatten_cons, List.nil_append, List.cons.injEq] at e
          obtain ⟨rfl, e⟩ := e
          obtain ⟨fs, rfl, hf⟩ := ih u (fun y hy => he y (by simp [hy])) e (fun k => hc (k.behind [d]))
          exact ⟨[d] :: fs, rfl, fun y hy => by
            rcases List.mem_cons.1 hy with rfl | hy
            · exact hx
            · exact hf y hy⟩
      · match u, e, hc with
        | [], _, _ => exact ⟨[], rfl, by simp⟩
        | [a], e, hc =>
          simp only [List.cons_append, List.flatten_cons, List.nil_append, List.cons.injEq] at e
          exact absurd ⟨[], Or.inl (by rw [e.1]; rfl)⟩ hc
        | [a, b], e, hc =>
          simp only [List.cons_append, List.flatten_cons, List.nil_append, List.cons.injEq] at e
          exact absurd ⟨[], Or.inr ⟨b, by rw [e.1]; rfl⟩⟩ hc
        | a :: b :: c :: u, e, hc =>
          simp only [List.cons_append, List.flatten_cons, List.nil_append, List.cons.injEq] at e
          obtain ⟨rfl, rfl, rfl, e9⟩ := e
          obtain ⟨fs, rfl, hf⟩ := ih u (fun y hy => he y (by simp [hy])) e9 (fun k => hc (k.behind [0x25, b, c]))
          exact ⟨[0x25, b, c] :: fs, rfl, fun y hy => by
            rcases List.mem_cons.1 hy with rfl | hy
            · exact hx
            · exact hf y hy⟩
  obtain ⟨fs, e2, hf⟩ := key es u he e hc
  exact ⟨fs, e2, hf, Nat.zero_le _, by simp⟩

theorem segment_cut {u v : Str} (h : Abnf.segment (u ++ v)) (hc : ¬ InTriplet u) : Abnf.segment u := many_cut pchar_elem h hc

theorem slashes_cut {x : Str} : ∀ {gs : List Str} {w : Str}, (∀ g ∈ gs, Abnf.segment g) → Abnf.slashes gs = w ++ x → ¬ InTriplet w →
    ∃ gs', w = Abnf.slashes gs' ∧ ∀ g ∈ gs', Abnf.segment g
  | _, [], _, _, _ => ⟨[], rfl, by simp⟩
  | [], c :: w, _, e, _ => by simp [Abnf.slashes] at e
  | g :: gs, c :: w, hg, e, hc => by
    have e1 : Abnf.slashes (g :: gs) = 0x2F :: (g ++ Abnf.slashes gs) := by simp [Abnf.slashes]
    rw [e1, List.cons_append, List.cons.injEq] at e
    obtain ⟨rfl, e⟩ := e
    have hw : ¬ InTriplet w := fun k => hc (k.behind [0x2F])
    rcases List.append_eq_append_iff.1 e with ⟨w', rfl, e2⟩ | ⟨y, rfl, e2⟩
    · obtain ⟨gs', rfl, h2⟩ := slashes_cut (fun y hy => hg y (by simp [hy])) e2 (fun k => hw (k.behind g))
      exact ⟨g :: gs', by simp [Abnf.slashes], fun y hy => by
        rcases List.mem_cons.1 hy with rfl | hy
        · exact hg _ (by simp)
        · exact h2 y hy⟩
    · exact ⟨[w], by simp [Abnf.slashes], fun z hz => by
        have : z = w := by simpa using hz
        rw [this]
        exact segment_cut (v := y) (hg _ (by simp)) hw⟩

theorem first_cut {x : Str} {g : Str} {gs : List Str} {w : Str} (hg : Abnf.segment g) (hgs : ∀ g ∈ gs, Abnf.segment g)
    (e : g ++ Abnf.slashes gs = w ++ x) (hw : ¬ InTriplet w) : ∃ g' gs', w = g' ++ Abnf.slashes gs' ∧ Abnf.segment g' ∧ (∀ g ∈ gs', Abnf.segment g) ∧ (w ≠ [] → g ≠ [] → g' ≠ []) := by
  rcases List.append_eq_append_iff.1 e with ⟨w', rfl, e2⟩ | ⟨y, rfl, e2⟩
  · obtain ⟨gs', rfl, h2⟩ := slashes_cut hgs e2 (fun k => hw (k.behind g))
    exact ⟨g, gs', rfl, hg, h2, fun _ h => h⟩
  · exact ⟨w, [], by simp [Abnf.slashes], segment_cut hg hw, by simp, fun h _ => h⟩

/-- What can be left of `hier-part` behind the authority. -/
theorem part_cut {t : Str} {A P} (d : Abnf.PartDerives Abnf.segmentNz t A P) {w x : Str}
    (e : t = Abnf.optText (b! "//") (A.map Abnf.authorityText) ++ (w ++ x)) (hw : ¬ InTriplet w) :
    ∃ P', Abnf.PartDerives Abnf.segmentNz (Abnf.optText (b! "//") (A.map Abnf.authorityText) ++ w) A P' := by
  cases d with
  | abempty a gs ha hgs =>
    have e2 : Abnf.slashes gs = w ++ x := by simpa [Abnf.optText] using e
    obtain ⟨gs', rfl, h2⟩ := slashes_cut hgs e2 hw
    exact ⟨_, .abempty a gs' ha h2⟩
  | root =>
    match w, e with
    | [], _ => exact ⟨_, .empty⟩
    | c :: w, e =>
      simp only [Option.map_none, Abnf.optText, List.nil_append, List.cons_append, List.cons.injEq] at e
      obtain ⟨rfl, e⟩ := e
      obtain rfl : w = [] := (List.append_eq_nil_iff.1 e.symm).1
      exact ⟨_, .root⟩
  | absolute g gs hg hgs =>
    match w, e, hw with
    | [], _, _ => exact ⟨_, .empty⟩
    | c :: w, e, hw =>
      simp only [Option.map_none, Abnf.optText, List.nil_append, List.cons_append, List.cons.injEq] at e
      obtain ⟨rfl, e⟩ := e
      have hw' : ¬ InTriplet w := fun k => hw (k.behind [0x2F])
      by_cases h0 : w = []
      · subst h0; exact ⟨_, .root⟩
      obtain ⟨g', gs', rfl, h1, h2, h3⟩ := first_cut (segmentNz_segment hg) hgs e hw'
      exact ⟨_, .absolute g' gs' (segmentNz_of h1 (h3 h0 (segmentNz_ne hg))) h2⟩
  | rootless g gs hg hgs =>
    simp only [Option.map_none, Abnf.optText, List.nil_append] at e
    by_cases h0 : w = []
    · subst h0; exact ⟨_, .empty⟩
    obtain ⟨g', gs', rfl, h1, h2, h3⟩ := first_cut (segmentNz_segment hg) hgs e hw
    exact ⟨_, .rootless g' gs' (segmentNz_of h1 (h3 h0 (segmentNz_ne hg))) h2⟩
  | empty =>
    simp only [Option.map_none, Abnf.optText, List.nil_append] at e
    obtain rfl : w = [] := (List.append_eq_nil_iff.1 e.symm).1
    exact ⟨_, .empty⟩

theorem part_front {first : Lang} {t : Str} {A P} (d : Abnf.PartDerives first t A P) : ∃ b, t = Abnf.optText (b! "//") (A.map Abnf.authorityText) ++ b :=
  ⟨_, part_text d⟩

/-- What can be left of an optional piece. -/
theorem opt_cut {c : UInt8} {L : Lang} {q : Option Str} {w x : Str} (hL : ∀ u v, L (u ++ v) → ¬ InTriplet u → L u) (hq : ∀ t, q = some t → L t)
    (e : Abnf.optText [c] q = w ++ x) (hw : ¬ InTriplet w) : ∃ q', w = Abnf.optText [c] q' ∧ ∀ t, q' = some t → L t := by
  cases w with
  | nil => exact ⟨none, rfl, by simp⟩
  | cons d w =>
    cases q with
    | none => simp [Abnf.optText] at e
    | some t =>
      simp only [Abnf.optText, List.cons_append, List.nil_append, List.cons.injEq] at e
      obtain ⟨rfl, e⟩ := e
      refine ⟨some w, rfl, fun t' h => ?_⟩
      have : w = t' := Option.some.inj h
      subst this
      exact hL w x (e ▸ hq t rfl) (fun k => hw (k.behind [c]))

theorem uri_cut {s : Str} {p : Parts Str} (d : Abnf.URIDerives s p) {u v : Str} (e : s = u ++ v) (hf : beginning p <+: u) (hc : ¬ InTriplet u) :
    ∃ q : Parts Str, Abnf.URIDerives u q ∧ q.scheme = p.scheme ∧ q.authority = p.authority := by
  obtain ⟨sc, A, P, q, f⟩ := p
  obtain ⟨sch, t, h1, h2, h3, h4, h5, h6⟩ := d
  simp only at h1 h3 h4 h5 h6 hf ⊢
  subst h1
  obtain ⟨r, rfl⟩ := hf
  obtain ⟨b, hb⟩ := part_front h3
  have hr : ¬ InTriplet r := fun k => hc (k.behind _)
  have hfr : beginning ⟨some sch, A, P, q, f⟩ = sch ++ b! ":" ++ Abnf.optText (b! "//") (A.map Abnf.authorityText) := rfl
  rw [hfr] at e hc ⊢
  have e2 : b ++ (Abnf.optText (b! "?") q ++ Abnf.optText (b! "#") f) = r ++ v := by
    rw [h6, hb] at e
    simp only [List.append_assoc] at e
    exact List.append_cancel_left (List.append_cancel_left (List.append_cancel_left e))
  generalize hFA : Abnf.optText (b! "//") (A.map Abnf.authorityText) = FA at *
  have fin : ∀ (b' : Str) P' q' f', Abnf.PartDerives Abnf.segmentNz (FA ++ b') A P' → (∀ t, q' = some t → Abnf.query t) →
      (∀ t, f' = some t → Abnf.fragment t) → r = b' ++ Abnf.optText (b! "?") q' ++ Abnf.optText (b! "#") f' →
      ∃ x : Parts Str, Abnf.URIDerives (sch ++ b! ":" ++ FA ++ r) x ∧ x.scheme = some sch ∧ x.authority = A := by
    intro b' P' q' f' k1 k2 k3 k4
    exact ⟨⟨some sch, A, P', q', f'⟩, ⟨sch, FA ++ b', rfl, h2, k1, k2, k3, by rw [k4]; simp⟩, rfl, rfl⟩
  have hfa : ∀ (b' : Str) P', Abnf.PartDerives Abnf.segmentNz (Abnf.optText (b! "//") (A.map Abnf.authorityText) ++ b') A P' → Abnf.PartDerives Abnf.segmentNz (FA ++ b') A P' := by
    intro b' P' k; rwa [hFA] at k
  rcases List.append_eq_append_iff.1 e2 with ⟨r2, rfl, e3⟩ | ⟨x, rfl, e3⟩
  · have hr2 : ¬ InTriplet r2 := fun k => hr (k.behind _)
    rcases List.append_eq_append_iff.1 e3 with ⟨r3, rfl, e4⟩ | ⟨x, e4, e5⟩
    · obtain ⟨f', rfl, k⟩ := opt_cut (L := Abnf.fragment) (fun u v => many_cut query_elem) h5 e4 (fun k => hr2 (k.behind _))
      exact fin b P q f' (hb ▸ h3) h4 k (by simp)
    · obtain ⟨q', rfl, k⟩ := opt_cut (L := Abnf.query) (fun u v => many_cut query_elem) h4 e4 hr2
      exact fin b P q' none (hb ▸ h3) k (by simp) (by simp [Abnf.optText])
  · obtain ⟨P', k⟩ := part_cut (x := x) (w := r) h3 (by rw [hFA]; exact hb) hr
    exact fin r P' none none (hfa _ _ k) (by simp) (by simp) (by simp [Abnf.optText])

end Verif.Short

/-! ### The property -/

namespace Verif
open Short

theorem safe_not_cut {u : Str} (h : Spec.CharSafe u) : ¬ InTriplet u := by
  rintro ⟨t, rfl | ⟨x, rfl⟩⟩
  · obtain ⟨x, y, t', e, -⟩ := h.2 t [] rfl
    simp at e
  · obtain ⟨y, z, t', e, -⟩ := h.2 t [x] rfl
    simp at e

/-- **C116**: what is left of an accepted text that is cut behind its authority (behind the colon if it has none) is accepted exactly if it does not
end inside of a triplet.  (`2^32`: C01.) -/
theorem C116_cut (pl : Plat) (s u : Str) (p : Parts Str) (h : SplitsTo pl s p) (hu : u <+: s) (hf : beginning p <+: u) (hl : u.length < 2 ^ 32) :
    (∃ q, SplitsTo pl u q) ↔ ¬ InTriplet u := by
  constructor
  · rintro ⟨q, hq⟩
    obtain ⟨r, e, -⟩ := hq 0
    exact safe_not_cut (C53_accepted pl ⟨0, u⟩ r (Or.inl e))
  · intro hc
    obtain ⟨d, ho, -⟩ := splitsTo_iff.1 h
    obtain ⟨v, rfl⟩ := hu
    obtain ⟨q, k1, k2, k3⟩ := uri_cut d rfl hf hc
    refine ⟨q, splitsTo_iff.2 ⟨k1, ?_, ?_⟩⟩
    · intro a ha; exact ho a (by rw [← k3]; exact ha)
    · intro hA g gs hg hne
      have hs := (derives_components (Or.inl k1)).2.2.1 g (by rw [hg]; simp)
      refine units_of_short hs hne (Nat.lt_of_le_of_lt ?_ hl)
      have e := recompose_of_derives (Or.inl k1)
      rw [← e]
      simp only [recompose, pathText, hg, List.length_append]
      omega

/-- **C116**: and it has the same scheme and authority, so that it leads to the same server. -/
theorem C116_same (pl : Plat) (s u : Str) (p q : Parts Str) (h : SplitsTo pl s p) (hu : u <+: s) (hf : beginning p <+: u) (hq : SplitsTo pl u q) :
    q.scheme = p.scheme ∧ q.authority = p.authority := by
  obtain ⟨r, e, -⟩ := hq 0
  have hc := safe_not_cut (C53_accepted pl ⟨0, u⟩ r (Or.inl e))
  obtain ⟨v, rfl⟩ := hu
  obtain ⟨q', k1, k2, k3⟩ := uri_cut (splitsTo_iff.1 h).1 rfl hf hc
  rw [derives_unique (Or.inl (splitsTo_iff.1 hq).1) (Or.inl k1)]
  exact ⟨k2, k3⟩

/-- **C116**, why it must not be cut inside of the authority: then the userinfo is taken for the host, and the password for the port. -/
theorem C116_counterexample :
    ([b! "http://user:12@h/", b! "http://user:12", b! "http://user"].map fun s => (split x86 ⟨4096, s⟩).map (·.bind (·.text.authority.map fun a => (a.host, a.port)))) =
      [.ok (some (b! "h", none)), .ok (some (b! "user", some (b! "12"))), .ok (some (b! "user", none))] := by
  decide +kernel

example : SplitsTo x86 (b! "s://h/a%20b?c") ⟨some (b! "s"), some ⟨none, b! "h", none⟩, ⟨true, [b! "a%20b"]⟩, some (b! "c"), none⟩ ∧
    beginning ⟨some (b! "s"), some ⟨none, b! "h", none⟩, ⟨true, [b! "a%20b"]⟩, some (b! "c"), none⟩ = b! "s://h" ∧
    split x86 ⟨0, b! "s://h/a%2"⟩ = .ok none ∧ (split x86 ⟨0, b! "s://h/a%20"⟩).map Option.isSome = .ok true :=
  ⟨c91_splits x86 (run_text (by decide +kernel)), by decide +kernel, by decide +kernel, by decide +kernel⟩

end Verif
