import Verif.Spec.Calls
import Verif.Proofs.IterPos
import Verif.Proofs.Maximal

/-!
# Transcoders under any sequence of calls
-/

set_option linter.unusedSimpArgs false

namespace Verif.Icu
open Verif.Unicode

section
variable {ι ο : Type} {T : Transcoder ι ο}

/-- A sequence of calls to a transcoder: icubaby.hpp:555-603. -/
def calls (T : Transcoder ι ο) : T.σ → List (Call ι) → M (T.σ × List ο)
  | st, [] => .ok (st, [])
  | st, .unit c :: h => do
      let (st, o) ← T.step st c
      let (st, os) ← calls T st h
      .ok (st, o ++ os)
  | st, .endCp :: h => do
      let (st, o) ← T.endCp st
      let (st, os) ← calls T st h
      .ok (st, o ++ os)

/-- `p` is a beginning of the form `enc` of a scalar value, but not all of it. -/
def Begins (enc : Nat → List ι) (p : List ι) : Prop := ∃ c q, Scalar c ∧ q ≠ [] ∧ enc c = p ++ q

theorem calls_unit {st st' st'' : T.σ} {c : ι} {h : List (Call ι)} {o os : List ο} (h1 : T.step st c = .ok (st', o))
    (h2 : calls T st' h = .ok (st'', os)) : calls T st (.unit c :: h) = .ok (st'', o ++ os) := by
  simp only [calls, bind, Except.bind, h1, h2]

theorem calls_end {st st' st'' : T.σ} {h : List (Call ι)} {o os : List ο} (h1 : T.endCp st = .ok (st', o))
    (h2 : calls T st' h = .ok (st'', os)) : calls T st (.endCp :: h) = .ok (st'', o ++ os) := by
  simp only [calls, bind, Except.bind, h1, h2]

/-- What is used of a transcoder, from the form `enc` to the form `out`: `Live p st` in the states of well-formed input so
far, `p` being pending; `Dead st` in the other states. -/
structure Honest (T : Transcoder ι ο) (enc : Nat → List ι) (out : Nat → List ο) (cap : Nat) (Live : List ι → T.σ → Prop) (Dead : T.σ → Prop) : Prop where
  init : Live [] T.init
  liveWf : ∀ p st, Live p st → T.wellFormed st = true
  livePartial : ∀ p st, Live p st → (T.isPartial st = true ↔ p ≠ [])
  liveBegins : ∀ p st, Live p st → p = [] ∨ Begins enc p
  deadWf : ∀ st, Dead st → T.wellFormed st = false
  step : ∀ p st c, Live p st → ∃ st' o, T.step st c = .ok (st', o) ∧ o.length ≤ cap ∧
    ((∃ d, Scalar d ∧ enc d = p ++ [c] ∧ o = out d ∧ Live [] st') ∨ (Begins enc (p ++ [c]) ∧ o = [] ∧ Live (p ++ [c]) st') ∨
      (¬ Begins enc (p ++ [c]) ∧ (¬ ∃ d, Scalar d ∧ enc d = p ++ [c]) ∧ Dead st'))
  end_ : ∀ p st, Live p st → ∃ st' o, T.endCp st = .ok (st', o) ∧ o.length ≤ cap ∧ ((p = [] ∧ o = [] ∧ Live [] st') ∨ (p ≠ [] ∧ Dead st'))
  deadStep : ∀ st c, Dead st → ∃ st' o, T.step st c = .ok (st', o) ∧ o.length ≤ cap ∧ Dead st'
  deadEnd : ∀ st, Dead st → ∃ st' o, T.endCp st = .ok (st', o) ∧ o.length ≤ cap ∧ Dead st'

variable {enc : Nat → List ι} {out : Nat → List ο} {cap : Nat} {Live : List ι → T.σ → Prop} {Dead : T.σ → Prop}

theorem Honest.dead (H : Honest T enc out cap Live Dead) : ∀ (h : List (Call ι)) (st : T.σ), Dead st → ∃ st' o, calls T st h = .ok (st', o) ∧ Dead st' := by
  intro h
  induction h with
  | nil => intro st hd; exact ⟨st, [], rfl, hd⟩
  | cons x h ih =>
    intro st hd
    cases x with
    | unit c =>
      obtain ⟨st1, o, h1, _, h2⟩ := H.deadStep st c hd
      obtain ⟨st2, os, h3, h4⟩ := ih st1 h2
      exact ⟨_, _, calls_unit h1 h3, h4⟩
    | endCp =>
      obtain ⟨st1, o, h1, _, h2⟩ := H.deadEnd st hd
      obtain ⟨st2, os, h3, h4⟩ := ih st1 h2
      exact ⟨_, _, calls_end h1 h3, h4⟩

/-- A prefix-free form. -/
structure PrefixFree (enc : Nat → List ι) : Prop where
  ne : ∀ c, Scalar c → enc c ≠ []
  inj : ∀ c d s t, Scalar c → Scalar d → enc c ++ s = enc d ++ t → c = d ∧ s = t

theorem compare {p q s t : List ι} (h : p ++ s = q ++ t) : (∃ r, q = p ++ r ∧ s = r ++ t) ∨ ∃ r, p = q ++ r ∧ t = r ++ s := by
  rcases List.append_eq_append_iff.1 h with ⟨r, h1, h2⟩ | ⟨r, h1, h2⟩
  · exact Or.inl ⟨r, h1, h2⟩
  · exact Or.inr ⟨r, h1, h2⟩

theorem not_begins (F : PrefixFree enc) {c : Nat} {p r : List ι} (hc : Scalar c) (e : p = enc c ++ r) : ¬ Begins enc p := by
  rintro ⟨d, q, hd, hq, e'⟩
  rw [e, List.append_assoc] at e'
  have h := (F.inj d c [] (r ++ q) hd hc (by rw [List.append_nil]; exact e')).2
  exact hq (List.append_eq_nil_iff.1 h.symm).2

/-- The rest of a text after some whole sequences. -/
theorem text_rest (F : PrefixFree enc) : ∀ (cs cs' : List Nat) (x p' : List ι), (∀ c ∈ cs, Scalar c) → (∀ c ∈ cs', Scalar c) → (p' = [] ∨ Begins enc p') →
    cs.flatMap enc ++ x = cs'.flatMap enc ++ p' → ∃ ds : List Nat, (∀ c ∈ ds, Scalar c) ∧ x = ds.flatMap enc ++ p' := by
  intro cs
  induction cs with
  | nil => intro cs' x p' _ h2 _ e; exact ⟨cs', h2, by simpa using e⟩
  | cons c cs ih =>
    intro cs' x p' h1 h2 h3 e
    have hc := h1 c (by simp)
    cases cs' with
    | nil =>
      exfalso
      simp only [List.flatMap_cons, List.flatMap_nil, List.nil_append, List.append_assoc] at e
      rcases h3 with rfl | h3
      · have := (List.append_eq_nil_iff.1 e).1
        exact F.ne c hc this
      · exact not_begins F hc e.symm h3
    | cons c' cs' =>
      simp only [List.flatMap_cons, List.append_assoc] at e
      obtain ⟨_, e⟩ := F.inj c c' _ _ hc (h2 c' (by simp)) e
      exact ih cs' x p' (fun d hd => h1 d (by simp [hd])) (fun d hd => h2 d (by simp [hd])) h3 e

theorem begins_prefix {p q : List ι} (h : Begins enc (p ++ q)) : Begins enc p := by
  obtain ⟨c, r, h1, h2, h3⟩ := h
  exact ⟨c, q ++ r, h1, by simp [h2], by rw [h3, List.append_assoc]⟩

/-- A pending sequence continues to the code unit after it in a text that is well-formed so far. -/
theorem text_next (F : PrefixFree enc) {cs cs' : List Nat} {p p' r : List ι} {c : ι} (h1 : ∀ c ∈ cs, Scalar c) (h2 : ∀ c ∈ cs', Scalar c)
    (hp : p = [] ∨ Begins enc p) (hp' : p' = [] ∨ Begins enc p') (e : cs.flatMap enc ++ (p ++ c :: r) = cs'.flatMap enc ++ p') :
    Begins enc (p ++ [c]) ∨ ∃ d, Scalar d ∧ enc d = p ++ [c] := by
  obtain ⟨ds, h3, e⟩ := text_rest F _ _ _ _ h1 h2 hp' e
  cases ds with
  | nil =>
    simp only [List.flatMap_nil, List.nil_append] at e
    rcases hp' with rfl | hp'
    · simp at e
    · subst e
      rw [List.append_cons] at hp'
      exact Or.inl (begins_prefix hp')
  | cons d ds =>
    have hd := h3 d (by simp)
    simp only [List.flatMap_cons, List.append_assoc] at e
    rcases compare e with ⟨t, k1, k2⟩ | ⟨t, k1, k2⟩
    · cases t with
      | nil =>
        rw [List.append_nil] at k1
        rcases hp with rfl | hp
        · exact absurd k1 (F.ne d hd)
        · exact absurd hp (not_begins F (r := []) hd (by simpa using k1.symm))
      | cons x t =>
        simp only [List.cons_append, List.cons.injEq] at k2
        obtain ⟨rfl, _⟩ := k2
        cases t with
        | nil => exact Or.inr ⟨d, hd, k1⟩
        | cons y t => exact Or.inl ⟨d, y :: t, hd, by simp, by rw [k1]; simp⟩
    · rcases hp with rfl | hp
      · have := (List.append_eq_nil_iff.1 k1.symm).1
        exact absurd this (F.ne d hd)
      · exact absurd hp (not_begins F hd k1)

/-- A pending sequence is not the end of a well-formed text. -/
theorem text_end (F : PrefixFree enc) {cs cs' : List Nat} {p : List ι} (h1 : ∀ c ∈ cs, Scalar c) (h2 : ∀ c ∈ cs', Scalar c)
    (hp : Begins enc p) (e : cs.flatMap enc ++ p = cs'.flatMap enc) : p = [] := by
  obtain ⟨ds, h3, e⟩ := text_rest F _ _ _ [] h1 h2 (Or.inl rfl) (by simpa using e)
  cases ds with
  | nil => simpa using e
  | cons d ds =>
    simp only [List.flatMap_cons, List.append_assoc] at e
    exact absurd hp (not_begins F (h3 d (by simp)) e)

/-- The code units given are a well-formed text and perhaps a beginning of a sequence, and `end_cp` was only called where the
code units given until then were a well-formed text. -/
def Proper (enc : Nat → List ι) (h : List (Call ι)) : Prop :=
  (∃ (cs : List Nat) (p : List ι), (∀ c ∈ cs, Scalar c) ∧ (p = [] ∨ Begins enc p) ∧ given h = cs.flatMap enc ++ p) ∧
  ∀ a b, h = a ++ .endCp :: b → ∃ cs : List Nat, (∀ c ∈ cs, Scalar c) ∧ given a = cs.flatMap enc

theorem given_append (a b : List (Call ι)) : given (a ++ b) = given a ++ given b := by
  induction a with
  | nil => rfl
  | cons x a ih => cases x <;> simp [given, ih]

theorem flat_snoc {α : Type} (f : Nat → List α) (cs : List Nat) (d : Nat) : (cs ++ [d]).flatMap f = cs.flatMap f ++ f d := by simp

/-- From a live state, any further calls. -/
theorem Honest.live (H : Honest T enc out cap Live Dead) (F : PrefixFree enc) : ∀ (h done : List (Call ι)) (st : T.σ) (cs : List Nat) (p : List ι),
    (∀ c ∈ cs, Scalar c) → given done = cs.flatMap enc ++ p → Live p st →
    (∀ a b, done = a ++ .endCp :: b → ∃ ds : List Nat, (∀ c ∈ ds, Scalar c) ∧ given a = ds.flatMap enc) → ∃ st' o, calls T st h = .ok (st', o) ∧
      ((Proper enc (done ++ h) ∧ ∃ (cs' : List Nat) (p' : List ι), (∀ c ∈ cs', Scalar c) ∧ given (done ++ h) = cs'.flatMap enc ++ p' ∧ cs.flatMap out ++ o = cs'.flatMap out ∧ Live p' st') ∨
       (¬ Proper enc (done ++ h) ∧ Dead st')) := by
  intro h
  induction h with
  | nil =>
    intro done st cs p h1 h2 h3 h4
    refine ⟨st, [], rfl, Or.inl ?_⟩
    rw [List.append_nil]
    exact ⟨⟨⟨cs, p, h1, H.liveBegins _ _ h3, h2⟩, h4⟩, cs, p, h1, h2, by simp, h3⟩
  | cons x h ih =>
    intro done st cs p h1 h2 h3 h4
    cases x with
    | unit c =>
      obtain ⟨st1, o, k1, _, k2⟩ := H.step p st c h3
      have hne : ∀ a b, done ++ [Call.unit c] = a ++ .endCp :: b → ∃ ds : List Nat, (∀ c ∈ ds, Scalar c) ∧ given a = ds.flatMap enc := by
        intro a b e
        rcases List.eq_nil_or_concat b with rfl | ⟨b, y, rfl⟩
        · have := congrArg List.getLast? e
          simp at this
        · rw [List.concat_eq_append] at e
          have : done ++ [Call.unit c] = (a ++ .endCp :: b) ++ [y] := by rw [e]; simp
          exact h4 a b (List.append_inj_left' this rfl)
      have eg : done ++ Call.unit c :: h = (done ++ [Call.unit c]) ++ h := by simp
      rcases k2 with ⟨d, hd, e, rfl, k3⟩ | ⟨k3, rfl, k4⟩ | ⟨k3, k4, k5⟩
      · have hcs : ∀ c ∈ cs ++ [d], Scalar c := by
          intro x hx
          rcases List.mem_append.1 hx with hx | hx
          · exact h1 x hx
          · simp at hx; subst hx; exact hd
        obtain ⟨st', os, j1, j2⟩ := ih (done ++ [Call.unit c]) st1 (cs ++ [d]) [] hcs
          (by rw [given_append, h2, List.append_nil, flat_snoc, e, List.append_assoc]; rfl) k3 hne
        refine ⟨st', _, calls_unit k1 j1, ?_⟩
        rw [eg]
        rw [flat_snoc, List.append_assoc (cs.flatMap out)] at j2
        exact j2
      · obtain ⟨st', os, j1, j2⟩ := ih (done ++ [Call.unit c]) st1 cs (p ++ [c]) h1 (by rw [given_append, h2, List.append_assoc]; rfl) k4 hne
        refine ⟨st', _, calls_unit k1 j1, ?_⟩
        rw [eg, List.nil_append]
        exact j2
      · obtain ⟨st', os, j1, j2⟩ := H.dead h st1 k5
        refine ⟨st', _, calls_unit k1 j1, Or.inr ⟨?_, j2⟩⟩
        rintro ⟨⟨cs', p', m1, m2, m3⟩, _⟩
        rw [given_append, h2, List.append_assoc] at m3
        rcases text_next F h1 m1 (H.liveBegins _ _ h3) m2 m3 with m4 | m4
        · exact k3 m4
        · exact k4 m4
    | endCp =>
      obtain ⟨st1, o, k1, _, k2⟩ := H.end_ p st h3
      rcases k2 with ⟨rfl, rfl, k3⟩ | ⟨k3, k4⟩
      · have hne : ∀ a b, done ++ [Call.endCp] = a ++ .endCp :: b → ∃ ds : List Nat, (∀ c ∈ ds, Scalar c) ∧ given a = ds.flatMap enc := by
          intro a b e
          rcases List.eq_nil_or_concat b with rfl | ⟨b, y, rfl⟩
          · have := List.append_inj_left' e rfl
            subst this
            exact ⟨cs, h1, by simpa using h2⟩
          · rw [List.concat_eq_append] at e
            have : done ++ [Call.endCp] = (a ++ .endCp :: b) ++ [y] := by rw [e]; simp
            exact h4 a b (List.append_inj_left' this rfl)
        obtain ⟨st', os, j1, j2⟩ := ih (done ++ [Call.endCp]) st1 cs [] h1 (by rw [given_append, h2]; simp [given]) k3 hne
        refine ⟨st', _, calls_end k1 j1, ?_⟩
        have eg : done ++ Call.endCp :: h = (done ++ [Call.endCp]) ++ h := by simp
        rw [eg, List.nil_append]
        exact j2
      · obtain ⟨st', os, j1, j2⟩ := H.dead h st1 k4
        refine ⟨st', _, calls_end k1 j1, Or.inr ⟨?_, j2⟩⟩
        rintro ⟨_, m⟩
        obtain ⟨ds, m1, m2⟩ := m done h rfl
        rw [h2] at m2
        rcases H.liveBegins _ _ h3 with hb | hb
        · exact k3 hb
        · exact k3 (text_end F h1 m1 hb m2)

end

/-! ### The transcoders -/

theorem prefixFree8 : PrefixFree utf8 where
  ne c _ := utf8_ne c
  inj c d s t hc hd h := char_char hc hd h

theorem prefixFree16 : PrefixFree utf16 where
  ne c _ := utf16_ne c
  inj c d s t hc hd h := by
    rcases utf16_shape hc with ⟨u, a1, a2, a3, a4⟩ | ⟨u, v, a1, a2, a3, a4⟩ <;> rcases utf16_shape hd with ⟨u', b1, b2, b3, b4⟩ | ⟨u', v', b1, b2, b3, b4⟩ <;>
      rw [a3, b3] at h <;> simp only [List.cons_append, List.nil_append, List.cons.injEq] at h
    · obtain ⟨rfl, rfl⟩ := h
      exact ⟨by omega, rfl⟩
    · obtain ⟨rfl, _⟩ := h
      exact absurd b1 a1
    · obtain ⟨rfl, _⟩ := h
      exact absurd a1 b1
    · obtain ⟨rfl, rfl, rfl⟩ := h
      exact ⟨by omega, rfl⟩

theorem prefixFree32 : PrefixFree (fun c => [c]) where
  ne c _ := by simp
  inj c d s t _ _ h := by simpa using h

theorem begins8 {p : Str} (hp : p ≠ []) : Begins utf8 p ↔ Truncated p := by
  constructor
  · rintro ⟨c, q, h1, h2, h3⟩; exact ⟨hp, c, q, h1, h2, h3⟩
  · rintro ⟨_, c, q, h1, h2, h3⟩; exact ⟨c, q, h1, h2, h3⟩

theorem snoc_ne {α : Type} (p : List α) (c : α) : p ++ [c] ≠ [] := by simp

theorem honest8_32 : Honest t8_32 utf8 (fun c => [c]) 1 (fun p st => At p st ∧ st.wf = true) (fun st => ((∃ p, At p st) ∨ st.state = 12) ∧ st.wf = false) where
  init := ⟨Or.inl ⟨rfl, rfl⟩, rfl⟩
  liveWf p st h := h.2
  livePartial p st h := by
    rcases h.1 with ⟨rfl, h0⟩ | h
    · have h0 : St8.state st = 0 := h0
      simp [t8_32, h0, accept]
    · have h1 : St8.state st ≠ 0 := h.live.2.1
      have h2 : p ≠ [] := by intro e; subst e; cases h
      simp [t8_32, h1, h2, accept]
  liveBegins p st h := by
    rcases h.1 with ⟨rfl, h⟩ | h
    · exact Or.inl rfl
    · have h2 : p ≠ [] := by intro e; subst e; cases h
      exact Or.inr ((begins8 h2).2 ((truncated_iff p).2 ⟨_, _, h⟩))
  deadWf st h := h.2
  step p st c h := by
    rcases h.1.step c with ⟨d, h1, h2⟩ | ⟨s, cp, h1, h2⟩ | ⟨cp, h1, h2⟩
    · exact ⟨_, _, h2, by simp, Or.inl ⟨d, (shape_utf8 h1).2, (shape_utf8 h1).1, rfl, Or.inl ⟨rfl, rfl⟩, h.2⟩⟩
    · exact ⟨_, _, h2, by simp, Or.inr (Or.inl ⟨(begins8 (snoc_ne _ _)).2 ((truncated_iff _).2 ⟨_, _, h1⟩), rfl, Or.inr h1, h.2⟩)⟩
    · exact ⟨_, _, h2, by simp, Or.inr (Or.inr ⟨fun hb => h1.1 ((begins8 (snoc_ne _ _)).1 hb), h1.2, Or.inl ⟨[], Or.inl ⟨rfl, rfl⟩⟩, rfl⟩)⟩
  end_ p st h := by
    rcases h.1.end_ with ⟨h1, h2⟩ | ⟨h1, h2⟩
    · exact ⟨_, _, h2, by simp, Or.inl ⟨h1, rfl, h1 ▸ h⟩⟩
    · exact ⟨_, _, h2, by simp, Or.inr ⟨h1.1, Or.inr rfl, rfl⟩⟩
  deadStep st c h := by
    rcases h.1 with ⟨p, h1⟩ | h1
    · rcases h1.step c with ⟨d, h1, h2⟩ | ⟨s, cp, h1, h2⟩ | ⟨cp, h1, h2⟩
      · exact ⟨_, _, h2, by simp, Or.inl ⟨[], Or.inl ⟨rfl, rfl⟩⟩, h.2⟩
      · exact ⟨_, _, h2, by simp, Or.inl ⟨_, Or.inr h1⟩, h.2⟩
      · exact ⟨_, _, h2, by simp, Or.inl ⟨[], Or.inl ⟨rfl, rfl⟩⟩, rfl⟩
    · obtain ⟨cp, wf, s⟩ := st
      obtain rfl : s = 12 := h1
      obtain ⟨cp', h2⟩ := step_reject cp wf c
      exact ⟨_, _, h2, by simp, Or.inl ⟨[], Or.inl ⟨rfl, rfl⟩⟩, rfl⟩
  deadEnd st h := by
    rcases h.1 with ⟨p, h1⟩ | h1
    · rcases h1.end_ with ⟨h1, h2⟩ | ⟨h1, h2⟩
      · exact ⟨_, _, h2, by simp, h⟩
      · exact ⟨_, _, h2, by simp, Or.inr rfl, rfl⟩
    · refine ⟨{ st with wf := false, state := 12 }, [0xFFFD], ?_, by simp, Or.inr rfl, rfl⟩
      simp [t8_32, endCp8to32, h1, accept, reject, replacementChar]

theorem begins16 {p : List UInt16} (hp : p ≠ []) : Begins utf16 p ↔ ∃ h, p = [h] ∧ High h := by
  constructor
  · rintro ⟨c, q, h1, h2, h3⟩
    rcases utf16_shape h1 with ⟨u, a1, a2, a3, a4⟩ | ⟨u, v, a1, a2, a3, a4⟩ <;> rw [a3] at h3
    · cases p with
      | nil => exact absurd rfl hp
      | cons x p =>
        simp only [List.cons_append, List.cons.injEq] at h3
        have := (List.append_eq_nil_iff.1 h3.2.symm).2
        exact absurd this h2
    · cases p with
      | nil => exact absurd rfl hp
      | cons x p =>
        simp only [List.cons_append, List.cons.injEq] at h3
        obtain ⟨rfl, h3⟩ := h3
        cases p with
        | nil => exact ⟨_, rfl, a1⟩
        | cons y p =>
          simp only [List.cons_append, List.cons.injEq] at h3
          have := (List.append_eq_nil_iff.1 h3.2.symm).2
          exact absurd this h2
  · rintro ⟨h, rfl, hh⟩
    have hl : Low 0xDC00 := by unfold Low; decide
    have := utf16_pair hh hl
    exact ⟨_, [0xDC00], this.1, by simp, this.2⟩

theorem honest16_32 : Honest t16_32 utf16 (fun c => [c]) 2 (fun p st => At16 p st ∧ st.wf = true) (fun st => st.wf = false) where
  init := ⟨Or.inl ⟨rfl, rfl⟩, rfl⟩
  liveWf p st h := h.2
  livePartial p st h := by
    rcases h.1 with ⟨rfl, h0⟩ | ⟨u, rfl, _, h0, _⟩
    · have h0 : St16.hasHigh st = false := h0
      simp [t16_32, h0]
    · have h0 : St16.hasHigh st = true := h0
      simp [t16_32, h0]
  liveBegins p st h := by
    rcases h.1 with ⟨rfl, h⟩ | ⟨u, rfl, h, _⟩
    · exact Or.inl rfl
    · exact Or.inr ((begins16 (by simp)).2 ⟨u, rfl, h⟩)
  deadWf st h := h
  step p st c h := by
    rcases h.1 with ⟨rfl, h0⟩ | ⟨u, rfl, hu, h0, hh⟩
    · by_cases hc : High c
      · exact ⟨_, _, step16_high st c h0 hc, by simp, Or.inr (Or.inl ⟨(begins16 (by simp)).2 ⟨c, rfl, hc⟩, rfl, Or.inr ⟨c, rfl, hc, rfl, rfl⟩, h.2⟩)⟩
      · by_cases hl : Low c
        · refine ⟨_, _, step16_low st c h0 hl, by simp, Or.inr (Or.inr ⟨?_, ?_, rfl⟩)⟩
          · intro hb
            obtain ⟨x, e, hx⟩ := (begins16 (by simp)).1 hb
            simp at e; subst e; exact hc hx
          · rintro ⟨d, hd, e⟩
            rcases utf16_shape hd with ⟨u, a1, a2, a3, a4⟩ | ⟨u, v, a1, a2, a3, a4⟩ <;> rw [a3] at e <;> simp at e
            subst e; exact a2 hl
        · obtain ⟨h1, h2⟩ := utf16_bmp hc hl
          exact ⟨_, _, step16_bmp st c h0 hc hl, by simp, Or.inl ⟨_, h1, h2, rfl, Or.inl ⟨rfl, h0⟩, h.2⟩⟩
    · by_cases hl : Low c
      · have hp := utf16_pair hu hl
        refine ⟨_, _, step16_pair st c h0 hl, by simp, Or.inl ⟨_, hp.1, hp.2, ?_, Or.inl ⟨rfl, rfl⟩, h.2⟩⟩
        rw [hh]
      · have hb : ¬ Begins utf16 ([u] ++ [c]) := by
          intro hb
          obtain ⟨x, e, hx⟩ := (begins16 (by simp)).1 hb
          simp at e
        have hn : ¬ ∃ d, Scalar d ∧ utf16 d = [u] ++ [c] := by
          rintro ⟨d, hd, e⟩
          rcases utf16_shape hd with ⟨u, a1, a2, a3, a4⟩ | ⟨u, v, a1, a2, a3, a4⟩ <;> rw [a3] at e <;> simp at e
          obtain ⟨rfl, rfl⟩ := e
          exact hl a2
        by_cases hc : High c
        · exact ⟨_, _, step16_high_high st c h0 hc, by simp, Or.inr (Or.inr ⟨hb, hn, rfl⟩)⟩
        · exact ⟨_, _, step16_high_bmp st c h0 hc hl, by simp, Or.inr (Or.inr ⟨hb, hn, rfl⟩)⟩
  end_ p st h := by
    rcases h.1 with ⟨rfl, h0⟩ | ⟨u, rfl, hu, h0, hh⟩
    · exact ⟨_, _, end16_none st h0, by simp, Or.inl ⟨rfl, rfl, h⟩⟩
    · exact ⟨_, _, end16_some st h0, by simp, Or.inr ⟨by simp, rfl⟩⟩
  deadStep st c h := by
    cases h0 : st.hasHigh with
    | false =>
      by_cases hc : High c
      · exact ⟨_, _, step16_high st c h0 hc, by simp, h⟩
      · by_cases hl : Low c
        · exact ⟨_, _, step16_low st c h0 hl, by simp, rfl⟩
        · exact ⟨_, _, step16_bmp st c h0 hc hl, by simp, h⟩
    | true =>
      by_cases hl : Low c
      · exact ⟨_, _, step16_pair st c h0 hl, by simp, h⟩
      · by_cases hc : High c
        · exact ⟨_, _, step16_high_high st c h0 hc, by simp, rfl⟩
        · exact ⟨_, _, step16_high_bmp st c h0 hc hl, by simp, rfl⟩
  deadEnd st h := by
    cases h0 : st.hasHigh with
    | false => exact ⟨_, _, end16_none st h0, by simp, h⟩
    | true => exact ⟨_, _, end16_some st h0, by simp, rfl⟩

theorem fixCp_of {c : Nat} (h : Scalar c) : fixCp c = c := by simp [fixCp, h]

theorem begins32 (p : List Nat) (hp : p ≠ []) : ¬ Begins (fun c => [c]) p := by
  rintro ⟨c, q, _, h2, h3⟩
  cases p with
  | nil => exact hp rfl
  | cons x p => simp at h3; exact h2 h3.2.2

theorem Simple.honest {ο : Type} {T : Transcoder Nat ο} {f : Nat → List ο} {cap : Nat} (S : Simple T (fun c => f (fixCp c)) (fun c => decide (Scalar c)))
    (hp : ∀ st, T.isPartial st = false) (hl : ∀ c, (f c).length ≤ cap) :
    Honest T (fun c => [c]) f cap (fun p st => p = [] ∧ T.wellFormed st = true) (fun st => T.wellFormed st = false) where
  init := ⟨rfl, S.wfInit⟩
  liveWf p st h := h.2
  livePartial p st h := by simp [hp, h.1]
  liveBegins p st h := Or.inl h.1
  deadWf st h := h
  step p st c h := by
    obtain ⟨rfl, h⟩ := h
    obtain ⟨st', h1, h2⟩ := S.step st c
    rw [h, Bool.true_and] at h2
    refine ⟨st', _, h1, hl _, ?_⟩
    by_cases hc : Scalar c
    · exact Or.inl ⟨c, hc, rfl, by simp only [fixCp_of hc], rfl, by simpa [hc] using h2⟩
    · refine Or.inr (Or.inr ⟨begins32 _ (by simp), ?_, by simpa [hc] using h2⟩)
      rintro ⟨d, hd, e⟩
      simp at e; subst e; exact hc hd
  end_ p st h := ⟨st, [], S.end_ st, by simp, Or.inl ⟨h.1, rfl, rfl, h.2⟩⟩
  deadStep st c h := by
    obtain ⟨st', h1, h2⟩ := S.step st c
    exact ⟨st', _, h1, hl _, by rw [h2, h, Bool.false_and]⟩
  deadEnd st h := ⟨st, [], S.end_ st, by simp, h⟩

theorem flat_len {ο : Type} (f : Nat → List ο) (m : Nat) (h : ∀ c, (f c).length ≤ m) (l : List Nat) : (l.flatMap f).length ≤ l.length * m := by
  induction l with
  | nil => simp
  | cons c l ih =>
    have := h c
    simp only [List.flatMap_cons, List.length_append, List.length_cons, Nat.add_mul]
    omega

theorem tri_honest {ι ο : Type} {A : Transcoder ι Nat} {B : Transcoder Nat ο} {enc : Nat → List ι} {f : Nat → List ο} {cap m : Nat} {Live : List ι → A.σ → Prop}
    {Dead : A.σ → Prop} (H : Honest A enc (fun c => [c]) cap Live Dead) (S : Simple B (fun c => f (fixCp c)) (fun c => decide (Scalar c)))
    (hl : ∀ c, (f c).length ≤ m) : Honest (triangulator cap A B) enc f (cap * m) (fun p st => Live p st.1 ∧ B.wellFormed st.2 = true)
      (fun st => Dead st.1) where
  init := ⟨H.init, S.wfInit⟩
  liveWf p st h := by simp [triangulator, H.liveWf _ _ h.1, h.2]
  livePartial p st h := H.livePartial _ _ h.1
  liveBegins p st h := H.liveBegins _ _ h.1
  deadWf st h := by simp [triangulator, H.deadWf _ h]
  step p st c h := by
    obtain ⟨a, b⟩ := st
    obtain ⟨a', o, h1, h2, h3⟩ := H.step p a c h.1
    obtain ⟨b', k1, k2⟩ := tri_step S (b := b) h1 h2
    have hb : B.wellFormed b = true := h.2
    have hlen : (o.flatMap fun c => f (fixCp c)).length ≤ cap * m := Nat.le_trans (flat_len _ m (fun c => hl _) o) (Nat.mul_le_mul_right m h2)
    refine ⟨_, _, k1, hlen, ?_⟩
    rcases h3 with ⟨d, hd, e, rfl, h4⟩ | ⟨h4, rfl, h5⟩ | ⟨h4, h5, h6⟩
    · exact Or.inl ⟨d, hd, e, by simp [fixCp_of hd], h4, by rw [k2, hb]; simp [hd]⟩
    · exact Or.inr (Or.inl ⟨h4, rfl, h5, by rw [k2, hb]; rfl⟩)
    · exact Or.inr (Or.inr ⟨h4, h5, h6⟩)
  end_ p st h := by
    obtain ⟨a, b⟩ := st
    obtain ⟨a', o, h1, h2, h3⟩ := H.end_ p a h.1
    obtain ⟨b', k1, k2⟩ := tri_end S (b := b) h1 h2
    have hb : B.wellFormed b = true := h.2
    have hlen : (o.flatMap fun c => f (fixCp c)).length ≤ cap * m := Nat.le_trans (flat_len _ m (fun c => hl _) o) (Nat.mul_le_mul_right m h2)
    refine ⟨_, _, k1, hlen, ?_⟩
    rcases h3 with ⟨rfl, rfl, h4⟩ | ⟨h4, h5⟩
    · exact Or.inl ⟨rfl, rfl, h4, by rw [k2, hb]; rfl⟩
    · exact Or.inr ⟨h4, h5⟩
  deadStep st c h := by
    obtain ⟨a, b⟩ := st
    obtain ⟨a', o, h1, h2, h3⟩ := H.deadStep a c h
    obtain ⟨b', k1, k2⟩ := tri_step S (b := b) h1 h2
    exact ⟨_, _, k1, Nat.le_trans (flat_len _ m (fun c => hl _) o) (Nat.mul_le_mul_right m h2), h3⟩
  deadEnd st h := by
    obtain ⟨a, b⟩ := st
    obtain ⟨a', o, h1, h2, h3⟩ := H.deadEnd a h
    obtain ⟨b', k1, k2⟩ := tri_end S (b := b) h1 h2
    exact ⟨_, _, k1, Nat.le_trans (flat_len _ m (fun c => hl _) o) (Nat.mul_le_mul_right m h2), h3⟩

end Verif.Icu
