import Verif.Proofs.CompleteUri
import Verif.Spec.Components

/-!
# From the grammar to `split`, `split_reference` and `valid`
-/

namespace Verif
open Peg

set_option linter.unusedSimpArgs false

theorem not_unsafe_of_safe {pl s} (h : CtypeSafe pl s) : ¬ Unsafe pl s := by
  rintro ⟨c, hc, h1⟩
  simp only [ctypeOk] at h1
  rcases h with h | h
  · simp [h] at h1
  · have := h c hc; simp at h1; omega

/-- Accepted: what comes out. -/
theorem runGrammar_sound {pl : Plat} {m : Matcher Act} {p : PG.P} {R : Rel} (h : Denotes pl m p) (hs : Sound p R)
    {sv : SV} {q : Parts SV} (e : runGrammar m sv = .ok (some q)) :
    ∃ acc : Acceptors Act, R sv.chars (content acc) ∧ runs (content acc) Parts.init = some q.text ∧
      (∀ a ∈ acc, Within a.2 sv) ∧ acc.foldlM (fun s a => runAct s a.1 a.2) Parts.init = .ok q := by
  have := runGrammar_spec h sv
  rw [e] at this
  obtain ⟨acc, h1, h2, h3, h4⟩ := this
  exact ⟨acc, (hs _ _ _ _ h1).2, h2, h3, h4⟩

/-- Matched by the pure function: what the code does. -/
theorem runGrammar_complete {pl : Plat} {m : Matcher Act} {p : PG.P} (h : Denotes pl m p) {sv : SV} {a}
    (e : p sv.chars = some (sv.chars, a, [])) (hsafe : ¬ Unsafe pl sv.chars) {r : Parts Str}
    (hr : runs a Parts.init = some r) : ∃ q, runGrammar m sv = .ok (some q) ∧ q.text = r := by
  have := runGrammar_spec h sv
  cases hx : runGrammar m sv with
  | error f =>
    rw [hx] at this
    rcases this with ⟨-, h1⟩ | ⟨-, a', h1, h2⟩
    · exact absurd h1 hsafe
    · rw [e] at h1
      simp only [Option.some.injEq, Prod.mk.injEq, true_and, and_true] at h1
      subst h1
      rw [hr] at h2; simp at h2
  | ok o =>
    rw [hx] at this
    cases o with
    | none => exact absurd e (this a)
    | some q =>
      obtain ⟨acc, h1, h2, -⟩ := this
      rw [e] at h1
      simp only [Option.some.injEq, Prod.mk.injEq, true_and, and_true] at h1
      subst h1
      rw [hr] at h2
      simp only [Option.some.injEq] at h2
      exact ⟨q, rfl, h2.symm⟩

/-- When the acceptors can always be run, the only fault is `<cctype>`. -/
theorem runGrammar_fault {pl : Plat} {m : Matcher Act} {p : PG.P} {R : Rel} (h : Denotes pl m p) (hs : Sound p R)
    (hR : ∀ s a, R s a → runs a Parts.init ≠ none) {sv : SV} {f : Fault} (e : runGrammar m sv = .error f) :
    f = .ctype ∧ Unsafe pl sv.chars := by
  have := runGrammar_spec h sv
  rw [e] at this
  rcases this with h1 | ⟨-, a', h1, h2⟩
  · exact h1
  · exact absurd h2 (hR _ _ (hs _ _ _ _ h1).2)

theorem uriR_runs : ∀ s a, (∃ p, UriR p s a) → runs a Parts.init ≠ none := by
  rintro s a ⟨p, h⟩; rw [runs_UriR h]; simp
theorem refR_runs : ∀ s a, (∃ p, UriR p s a ∨ RelR p s a) → runs a Parts.init ≠ none := by
  rintro s a ⟨p, h | h⟩
  · rw [runs_UriR h]; simp
  · rw [runs_RelR h]; simp
theorem plain_runs {L : Lang} : ∀ s a, Plain L s a → runs a Parts.init ≠ none := by
  rintro s a ⟨-, rfl⟩; simp [runs]

/-! ### Fields -/

/-- A field matcher of the code with its language. -/
structure FieldRule (pl : Plat) (m : Matcher Act) (L : Lang) : Prop where
  sound : ∀ sv, fieldOk m sv = .ok true → L sv.chars
  complete : ∀ sv, L sv.chars → ¬ Unsafe pl sv.chars → fieldOk m sv = .ok true
  fault : ∀ sv f, fieldOk m sv = .error f → f = .ctype ∧ Unsafe pl sv.chars

theorem field_of {pl : Plat} {m : Matcher Act} {p : PG.P} {L : Lang} (h : Denotes pl m p) (hs : Sound p (Plain L))
    (hc : ∀ s, L s → p s = some (s, [], [])) : FieldRule pl m L := by
  refine ⟨?_, ?_, ?_⟩
  · intro sv e
    simp only [fieldOk, bind, Except.bind, pure, Except.pure] at e
    cases hx : runGrammar m sv with
    | error f => rw [hx] at e; simp at e
    | ok o =>
      rw [hx] at e
      cases o with
      | none => simp at e
      | some q =>
        obtain ⟨acc, h1, -⟩ := runGrammar_sound h hs hx
        exact h1.1
  · intro sv hL hu
    obtain ⟨q, e, -⟩ := runGrammar_complete h (hc _ hL) hu (r := Parts.init) rfl
    simp [fieldOk, bind, Except.bind, pure, Except.pure, e]
  · intro sv f e
    simp only [fieldOk, bind, Except.bind, pure, Except.pure] at e
    cases hx : runGrammar m sv with
    | error f' =>
      rw [hx] at e
      simp only [Except.error.injEq] at e
      subst e
      exact runGrammar_fault h hs plain_runs hx
    | ok o => rw [hx] at e; simp at e

theorem nil_follow (f : UInt8 → Bool) : NotHead f [] := by simp [NotHead]

theorem field_scheme (pl) : FieldRule pl (Grammar.scheme pl) Abnf.scheme := by
  refine field_of (PG.den_scheme pl) sound_scheme ?_
  rintro s ⟨x, y, rfl, hx, hy⟩
  obtain ⟨c, rfl, hc⟩ := (ALPHA_cls x).1 hx
  have := seq_some (chr_some y hc) (by
    have := complete_rep_cls scheme_cls 0 hy (nil_follow _) (Nat.zero_le _)
    rwa [List.append_nil] at this)
  rw [PG.scheme, schemeElem_eq]
  exact this

theorem field_userinfo (pl) : FieldRule pl (Grammar.userinfo pl) Abnf.userinfo := by
  refine field_of (PG.den_userinfo pl) sound_userinfo ?_
  intro s hs
  rw [PG.userinfo, userinfoElem_eq]
  have := complete_rep_elem user_elem (by decide) 0 hs (nil_follow _) (Nat.zero_le _)
  rwa [List.append_nil] at this

theorem field_host (pl) : FieldRule pl (Grammar.host pl) Abnf.HostAccepted := by
  refine field_of (PG.den_host pl) (sound_langeq sound_host' fun u h => h.2) ?_
  intro s hs
  have := host_complete hs (v := []) (by simp [HostFollow])
  rwa [List.append_nil] at this

theorem field_port (pl) : FieldRule pl (Grammar.port pl) Abnf.port := by
  refine field_of (PG.den_port pl) sound_port ?_
  intro s hs
  have := complete_rep_cls DIGIT_cls 0 hs (nil_follow _) (Nat.zero_le _)
  rwa [List.append_nil] at this

theorem field_segment (pl) : FieldRule pl (Grammar.segment pl) Abnf.segment := by
  refine field_of (PG.den_segment pl) sound_segment ?_
  intro s hs
  have := segment_complete 0 hs (v := []) (by simp [SegFollow]) (Nat.zero_le _)
  rwa [List.append_nil] at this

theorem field_query (pl) : FieldRule pl (Grammar.query pl) Abnf.query := by
  refine field_of (PG.den_query pl) sound_query ?_
  intro s hs
  have := query_complete hs (v := []) (by simp [QueryFollow])
  rwa [List.append_nil] at this

theorem field_fragment (pl) : FieldRule pl (Grammar.fragment pl) Abnf.fragment := by
  refine field_of (PG.den_fragment pl) sound_query ?_
  intro s hs
  have := query_complete hs (v := []) (by simp [QueryFollow])
  rwa [List.append_nil] at this

theorem field_ipv4 (pl) : FieldRule pl (Grammar.ipv4address pl) Abnf.IPv4address := by
  refine field_of (PG.den_ipv4address pl) sound_ipv4address ?_
  intro s hs
  have := ipv4_complete hs (nil_follow _)
  rwa [List.append_nil] at this

theorem field_ipLiteral (pl) : FieldRule pl (Grammar.ipLiteral pl)
    (fun u => Abnf.IPLiteral u ∧ Abnf.FutureCounted u) := by
  refine field_of (PG.den_ipLiteral pl) sound_ipLiteral' ?_
  intro s hs
  have := ipLiteral_complete hs.1 (v := []) hs.2
  rwa [List.append_nil] at this

/-- Everything a field accepts is ASCII when its language is. -/
theorem FieldRule.complete' {pl m L} (h : FieldRule pl m L) (hL : Only isAscii L) {sv : SV} (hs : L sv.chars) :
    fieldOk m sv = .ok true :=
  h.complete sv hs (not_unsafe (hL _ hs))

/-! ### `valid` -/

theorem hostAccepted_host {h} (hh : Abnf.HostAccepted h) : Abnf.host h := by
  rcases hh with h | h | h
  · exact Or.inl h.1
  · exact Or.inr (Or.inl h)
  · exact Or.inr (Or.inr h.1)

theorem futureCounted_of_short {h : Str} (hl : h.length < 2 ^ 32) (hi : Abnf.IPLiteral h) : Abnf.FutureCounted h := by
  rintro c x y hc hx rfl
  simp only [List.length_append, List.length_cons, List.length_nil] at hl
  obtain ⟨_, _, e, rfl, w, _, rfl, hw, rfl⟩ := hi
  simp only [List.append_assoc, List.cons_append, List.nil_append, List.cons.injEq, true_and] at e
  rcases hw with hw | ⟨l, _, rfl, hl', x', _, rfl, hx', _, y', rfl, rfl, hy'⟩
  · exfalso
    cases w with
    | nil => simp at e
    | cons d w =>
      simp only [List.cons_append, List.cons.injEq] at e
      have := only_ipv6c _ hw d (by simp)
      rw [← e.1] at this
      rcases hc with rfl | rfl <;> revert this <;> decide
  · have hdot : ∀ {z : Str}, (∀ d ∈ z, isXDigitB d = true) → (0x2E : UInt8) ∉ z := by
      intro z hz hm
      have := hz _ hm
      revert this; decide
    have hl2 : ∃ c', l = [c'] := by rcases hl' with rfl | rfl <;> exact ⟨_, rfl⟩
    obtain ⟨c', rfl⟩ := hl2
    simp only [List.append_assoc, List.cons_append, List.nil_append, List.cons.injEq] at e
    have o1 : ∀ d ∈ x', isXDigitB d = true := only_rep (f := isXDigitB) (only_cls HEXDIG_cls fun _ h => h) _ hx'
    have o2 : ∀ d ∈ x, isXDigitB d = true := only_rep (f := isXDigitB) (only_cls HEXDIG_cls fun _ h => h) _ hx
    obtain ⟨rfl, e2⟩ := split_at_unique (hdot o2) (hdot o1) e.2
    have := List.append_cancel_right e2
    subst this
    obtain ⟨cx, tx, ex⟩ := rep1_head (fun u hu => by obtain ⟨c, rfl, _⟩ := (HEXDIG_cls u).1 hu; simp) hx'
    obtain ⟨cy, ty, ey⟩ := rep1_head (fun u hu => by obtain ⟨c, rfl, _⟩ := (future_cls u).1 hu; simp) hy'
    have p1 : 0 < x.length := by rw [ex]; simp
    have p2 : 0 < y.length := by rw [ey]; simp
    omega

/-- An RFC 3986 host below 4 GiB without a proper IPv4 prefix is accepted. -/
theorem hostAccepted_of_short {h : Str} (hl : h.length < 2 ^ 32)
    (hh : Abnf.IPLiteral h ∨ Abnf.IPv4address h ∨ (Abnf.regName h ∧ ∀ u v, h = u ++ v → ¬ Abnf.IPv4address u)) :
    Abnf.HostAccepted h :=
  hh.imp (fun h => ⟨h, futureCounted_of_short hl h⟩) id

/-- A segment below 4 GiB is not miscounted. -/
theorem units_of_short {g : Str} (hg : Abnf.segment g) (hne : g ≠ []) (hl : g.length < 2 ^ 32) : Abnf.units g % 2 ^ 32 ≠ 0 := by
  obtain ⟨es, rfl, he, -, -⟩ := hg
  have h1 := elem_units (f := _) (by decide) fun e h => (pchar_elem e).1 (he e h)
  have h2 : Abnf.units es.flatten ≤ es.flatten.length := Nat.sub_le _ _
  have h3 : 0 < es.length := by
    cases es with
    | nil => simp at hne
    | cons => simp
  omega

theorem pathCounted_of_short {p : Parts Str} (h : ∀ g ∈ p.path.segments, Abnf.segment g ∧ g.length < 2 ^ 32) :
    Abnf.PathCounted p := by
  intro _ g gs e hg
  have := h g (by simp [e])
  exact units_of_short this.1 hg this.2

theorem ascii_scheme : Only isAscii Abnf.scheme := only_mono only_scheme (by byte_tac)
theorem ascii_userinfo : Only isAscii Abnf.userinfo := only_mono only_userinfo (by byte_tac)
theorem ascii_host : Only isAscii Abnf.HostAccepted :=
  fun u hu => only_mono only_host (g := isAscii) (by byte_tac) u (hostAccepted_host hu)
theorem ascii_port : Only isAscii Abnf.port := only_mono only_port (by byte_tac)
theorem ascii_segment : Only isAscii Abnf.segment := only_mono only_segment (by byte_tac)
theorem ascii_query : Only isAscii Abnf.query := only_mono only_query (by byte_tac)

/-- Lift a field check to an optional field. -/
theorem optOk_sound {pl m L} (h : FieldRule pl m L) {o : Option SV} (e : optOk m o = .ok true) :
    ∀ t, o.map SV.chars = some t → L t := by
  intro t ht
  cases o with
  | none => simp at ht
  | some v => simp at ht; subst ht; exact h.sound v e

theorem optOk_complete {pl m L} (h : FieldRule pl m L) (hL : Only isAscii L) {o : Option SV}
    (ht : ∀ t, o.map SV.chars = some t → L t) : optOk m o = .ok true := by
  cases o with
  | none => rfl
  | some v => exact h.complete' hL (ht v.chars rfl)

theorem optOk_fault {pl m L} (h : FieldRule pl m L) {o : Option SV} {f} (e : optOk m o = .error f) :
    f = .ctype ∧ ∃ v ∈ o, Unsafe pl v.chars := by
  cases o with
  | none => simp [optOk] at e
  | some v => have := h.fault v f e; exact ⟨this.1, v, rfl, this.2⟩

/-- Checks run in order up to the first failure. -/
def chk : List (M Bool) → M Bool
  | [] => .ok true
  | a :: l => match a with
    | .error f => .error f
    | .ok false => .ok false
    | .ok true => chk l

theorem chk_true {l : List (M Bool)} : chk l = .ok true ↔ ∀ x ∈ l, x = .ok true := by
  induction l with
  | nil => simp [chk]
  | cons a l ih =>
    rcases a with f | _ | _ <;> simp [chk, ih]

theorem chk_error {l : List (M Bool)} {f} (e : chk l = .error f) : ∃ x ∈ l, x = .error f := by
  induction l with
  | nil => simp [chk] at e
  | cons a l ih =>
    rcases a with g | _ | _
    · simp [chk] at e; subst e; exact ⟨_, by simp, rfl⟩
    · simp [chk] at e
    · obtain ⟨x, h1, h2⟩ := ih e; exact ⟨x, by simp [h1], h2⟩

theorem allOk_chk (ok : SV → M Bool) (gs : List SV) : allOk ok gs = chk (gs.map ok) := by
  induction gs with
  | nil => rfl
  | cons g gs ih =>
    simp only [allOk, bind, Except.bind, pure, Except.pure, List.map, chk, ih]
    generalize ok g = x
    rcases x with f | _ | _ <;> simp

theorem chk3 (a b c : M Bool) : (do
    if !(← a) then return false
    if !(← b) then return false
    if !(← c) then return false
    return true) = chk [a, b, c] := by
  rcases a with f | _ | _ <;> rcases b with g | _ | _ <;> rcases c with h | _ | _ <;> rfl

theorem chk5 (a b c d e : M Bool) : (do
    if !(← a) then return false
    if !(← b) then return false
    if !(← c) then return false
    if !(← d) then return false
    if !(← e) then return false
    return true) = chk [a, b, c, d, e] := by
  rcases a with f | _ | _ <;> rcases b with g | _ | _ <;> rcases c with h | _ | _ <;>
    rcases d with i | _ | _ <;> rcases e with j | _ | _ <;> rfl

theorem authority_valid_chk {pl} {a : Authority SV} : a.valid pl =
    chk [optOk (Grammar.userinfo pl) a.userinfo, fieldOk (Grammar.host pl) a.host,
      optOk (Grammar.port pl) a.port] := chk3 _ _ _

/-- The authority part of `parts::valid`. -/
def authOk (pl : Plat) : Option (Authority SV) → M Bool
  | none => pure true
  | some a => a.valid pl

theorem valid_chk {pl} {p : Parts SV} : p.valid pl = match p.scheme with
    | none => .ok false
    | some s => chk [fieldOk (Grammar.scheme pl) s, authOk pl p.authority, p.path.valid pl,
        optOk (Grammar.query pl) p.query, optOk (Grammar.fragment pl) p.fragment] := by
  obtain ⟨sch, au, pa, q, f⟩ := p
  cases sch with
  | none => rfl
  | some s => cases au <;> exact chk5 _ _ _ _ _

end Verif
