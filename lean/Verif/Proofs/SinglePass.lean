import Verif.Model.SinglePass
import Verif.Proofs.View

/-!
# The lazy view over a single-pass range
-/

set_option linter.unusedSimpArgs false
set_option linter.unusedVariables false

namespace Verif.Icu
open Verif.Unicode

section
variable {ι ο : Type} {T : Transcoder ι ο} {Q : List ο → Prop} {I : T.σ → Prop}

/-- What is written for a text but its last code unit. -/
structure ButLast (T : Transcoder ι ο) (st : T.σ) (s : List ι) (o : List ο) : Prop where
  ex : ∃ a, T.feed st s.dropLast = .ok (a, o)

theorem ButLast.cons {st st' : T.σ} {c : ι} {s : List ι} {o os : List ο} (hs : s ≠ []) (h : T.step st c = .ok (st', o)) (h' : ButLast T st' s os) :
    ButLast T st (c :: s) (o ++ os) := by
  obtain ⟨a, h'⟩ := h'
  cases s with
  | nil => exact absurd rfl hs
  | cons d s => exact ⟨a, feed_cons (s := (d :: s).dropLast) h h'⟩

theorem butLast_one (st : T.σ) (c : ι) : ButLast T st [c] [] := ⟨st, rfl⟩

theorem Lawful.butLast (L : Lawful T Q I) : ∀ (s : List ι) (st : T.σ), I st → ∃ o, ButLast T st s o := by
  intro s
  induction s with
  | nil => intro st _; exact ⟨[], st, rfl⟩
  | cons c s ih =>
    intro st hi
    cases s with
    | nil => exact ⟨[], butLast_one st c⟩
    | cons d s =>
      obtain ⟨st', o, _, _, _, _, h1, h2, _⟩ := L.step st c hi
      obtain ⟨os, h⟩ := ih st' h2
      exact ⟨o ++ os, h.cons (by simp) h1⟩

theorem ButLast.unique {st : T.σ} {s : List ι} {o o' : List ο} (h : ButLast T st s o) (h' : ButLast T st s o') : o = o' := by
  obtain ⟨a, h⟩ := h
  obtain ⟨b, h'⟩ := h'
  exact congrArg Prod.snd (Except.ok.inj (h.symm.trans h'))

theorem fillLoop_butLast (L : Lawful T Q I) {cap : Nat} : ∀ (s : List ι) (st st' : T.σ) (rest : List ι) (o : List ο), I st → s ≠ [] →
    fillLoop T cap st s = .ok (st', rest, o) → (rest ≠ [] → ∀ os, ButLast T st' rest os → ButLast T st s (o ++ os)) ∧ (rest = [] → ButLast T st s []) := by
  intro s
  induction s with
  | nil => intro st _ _ _ _ h; exact absurd rfl h
  | cons c s ih =>
    intro st st' rest o hi _ h
    obtain ⟨a, oa, _, _, _, _, h1, h2, _⟩ := L.step st c hi
    rw [Icu.fillLoop] at h
    simp only [h1, bind, Except.bind] at h
    by_cases hl : oa.length > cap
    · rw [if_pos hl] at h; simp at h
    · rw [if_neg hl] at h
      by_cases ho : oa = []
      · subst ho
        rw [if_pos (by rfl)] at h
        cases s with
        | nil =>
          have h := Except.ok.inj h
          have e2 : rest = [] := (congrArg (fun x => x.2.1) h).symm
          exact ⟨fun hr => absurd e2 hr, fun _ => butLast_one st c⟩
        | cons d s =>
          obtain ⟨g1, g2⟩ := ih a st' rest o h2 (by simp) h
          refine ⟨fun hr os hos => ?_, fun hr => ?_⟩
          · exact (g1 hr os hos).cons (o := []) (by simp) h1
          · exact (g2 hr).cons (o := []) (by simp) h1
      · rw [if_neg (by simpa using ho)] at h
        have h := Except.ok.inj h
        have e1 : a = st' := congrArg Prod.fst h
        have e2 : s = rest := congrArg (fun x => x.2.1) h
        have e3 : oa = o := congrArg (fun x => x.2.2) h
        subst e1 e2 e3
        refine ⟨fun hr os hos => hos.cons hr h1, ?_⟩
        rintro rfl
        exact butLast_one st c

/-- An iterator that is not at the end, and what it has before it. -/
theorem Lawful.sharedFill (L : Lawful T Q I) {cap : Nat} (hQ : ∀ l, Q l → l.length ≤ cap) (it : ViewIt ι ο T) (hb : it.buf = []) (hi : I it.tr)
    (hn : it.next ≠ []) {st'' : T.σ} {out : List ο} (hr : RestOk T it.tr it.next st'' out) (hw : T.wellFormed it.tr = true → it.parentWf = true) :
    ∃ it', fillShared T cap it = .ok it' ∧ it'.current = it'.next ∧ it'.buf ≠ [] ∧ it'.buf.length ≤ cap ∧ it'.next.length < it.next.length ∧
      ((it'.next = [] ∧ it'.parentWf = T.wellFormed st'' ∧ ButLast T it.tr it.next []) ∨
       (it'.next ≠ [] ∧ I it'.tr ∧ (T.wellFormed it'.tr = true → it'.parentWf = true) ∧ (∃ rest, RestOk T it'.tr it'.next st'' rest) ∧
         ∀ os, ButLast T it'.tr it'.next os → ButLast T it.tr it.next (it'.buf ++ os))) := by
  obtain ⟨it', k1, ⟨k2, k3, k4, k5⟩, k6, k7⟩ := L.fill hQ it hb hi hn hr hw
  refine ⟨{ it' with current := it'.next }, by simp only [fillShared, bind, Except.bind, k1], rfl, k3, k4, k6, ?_⟩
  obtain ⟨st', rest, o, g1, g2, g3, g4, g5, g6, g7, g8⟩ := L.fillLoop hQ it.next it.tr hi hn
  obtain ⟨f1, f2⟩ := fillLoop_butLast L it.next it.tr st' rest o hi hn g1
  have e : it'.next = rest ∧ (rest ≠ [] → it'.buf = o ∧ it'.tr = st') := by
    unfold Icu.fill at k1
    simp only [hb, List.isEmpty_nil, Bool.not_true, Bool.false_eq_true, if_false, g1, bind, Except.bind] at k1
    by_cases hrest : rest = []
    · subst hrest
      simp only [List.isEmpty_nil, if_true] at k1
      split at k1
      · simp at k1
      · split at k1
        · simp at k1
        · have := Except.ok.inj k1
          subst this
          exact ⟨rfl, fun h => absurd rfl h⟩
    · have he : rest.isEmpty = false := by simpa using hrest
      simp only [he, Bool.false_eq_true, if_false, List.append_nil] at k1
      split at k1
      · simp at k1
      · have := Except.ok.inj k1
        subst this
        exact ⟨rfl, fun _ => ⟨rfl, rfl⟩⟩
  obtain ⟨e1, e2⟩ := e
  rcases k5 with ⟨n1, n2, n3, st3, r, n4, n5, n6⟩ | ⟨n1, n2, n3, n4, n5⟩
  · right
    have hrest : rest ≠ [] := e1 ▸ n1
    obtain ⟨e3, e4⟩ := e2 hrest
    have u : RestOk T it.tr it.next st3 (o ++ r) := g7 _ _ (by rw [← e4, ← e1]; exact n4)
    have : st3 = st'' := by
      obtain ⟨a, b, d, k1, k2, _⟩ := u
      obtain ⟨a', b', d', k1', k2', _⟩ := hr
      rw [k1] at k1'
      have e1 := Except.ok.inj k1'
      have e2 : a = a' := congrArg Prod.fst e1
      subst e2
      rw [k2] at k2'
      exact congrArg Prod.fst (Except.ok.inj k2')
    subst this
    refine ⟨n1, n2, n3, ⟨r, n4⟩, fun os hos => ?_⟩
    show ButLast T it.tr it.next (it'.buf ++ os)
    rw [e3]
    exact f1 hrest os (by rw [← e4, ← e1]; exact hos)
  · left
    refine ⟨n1, n3.symm, f2 ?_⟩
    rw [← e1]; exact n1

theorem Lawful.sharedLoop (L : Lawful T Q I) {cap : Nat} (hQ : ∀ l, Q l → l.length ≤ cap) : ∀ (fuel : Nat) (it : ViewIt ι ο T) (st'' : T.σ) (os : List ο),
    it.current = it.next → it.buf ≠ [] → it.buf.length ≤ cap → it.next ≠ [] → I it.tr → (T.wellFormed it.tr = true → it.parentWf = true) →
    (∃ rest, RestOk T it.tr it.next st'' rest) → ButLast T it.tr it.next os → it.buf.length + cap * it.next.length < fuel →
    ∃ it', sharedLoop T cap fuel it = .ok (it', it.buf ++ os) ∧ it'.parentWf = T.wellFormed st'' := by
  intro fuel
  induction fuel with
  | zero => intro it _ _ _ _ _ _ _ _ _ _ h; omega
  | succ fuel ih =>
    intro it st'' os hc hb hl hn hi hw hr ho hf
    cases hbuf : it.buf with
    | nil => exact absurd hbuf hb
    | cons c b =>
      have hat : it.atEnd = false := by
        unfold ViewIt.atEnd
        rw [hc]
        simpa using hn
      have hd : it.deref = .ok c := by simp [ViewIt.deref, hbuf]
      have red : ∀ {it1 it2 : ViewIt ι ο T} {cs : List ο}, sharedIncr T cap it = .ok it1 → Icu.sharedLoop T cap fuel it1 = .ok (it2, cs) →
          Icu.sharedLoop T cap (fuel + 1) it = .ok (it2, c :: cs) := by
        intro it1 it2 cs h1 h2
        rw [Icu.sharedLoop, hat]
        simp only [Bool.false_eq_true, if_false, hd, h1, h2, bind, Except.bind]
      rw [hbuf, List.length_cons] at hf hl
      by_cases hbe : b = []
      · subst hbe
        have hinc : sharedIncr T cap it = fillShared T cap { it with buf := [] } := by simp [sharedIncr, hbuf]
        obtain ⟨rest, hr⟩ := hr
        obtain ⟨it', k1, k2, k3, k4, k5, k6⟩ := L.sharedFill hQ { it with buf := [] } rfl hi hn hr hw
        have k5 : it'.next.length + 1 ≤ it.next.length := k5
        rcases k6 with ⟨n1, n2, n3⟩ | ⟨n1, n2, n3, n4, n5⟩
        · have : os = [] := ho.unique n3
          subst this
          cases fuel with
          | zero =>
            have := Nat.mul_le_mul_left cap k5
            rw [Nat.mul_add] at this
            omega
          | succ f =>
            refine ⟨it', red (hinc.trans k1) ?_, n2⟩
            rw [Icu.sharedLoop]
            have : it'.atEnd = true := by unfold ViewIt.atEnd; rw [k2, n1]; rfl
            rw [this]
            rfl
        · obtain ⟨os', ho'⟩ := L.butLast it'.next it'.tr n2
          have e : os = it'.buf ++ os' := ho.unique (n5 os' ho')
          obtain ⟨it2, j1, j2⟩ := ih it' st'' os' k2 k3 k4 n1 n2 n3 n4 ho' (by
            have := Nat.mul_le_mul_left cap k5
            rw [Nat.mul_add] at this
            omega)
          rw [e]
          exact ⟨it2, red (hinc.trans k1) j1, j2⟩
      · have hinc : sharedIncr T cap it = .ok { it with buf := b } := by simp [sharedIncr, hbuf, hbe]
        obtain ⟨it2, j1, j2⟩ := ih { it with buf := b } st'' os hc hbe (by show b.length ≤ cap; omega) hn hi hw hr ho (by show b.length + cap * it.next.length < fuel; omega)
        exact ⟨it2, red hinc j1, j2⟩

/-- What the output lacks is never nothing. -/
theorem Lawful.lost (L : Lawful T Q I) : ∀ (s : List ι) (st : T.σ), I st → s ≠ [] → ∀ st'' out o, RestOk T st s st'' out → ButLast T st s o →
    ∃ lost, lost ≠ [] ∧ out = o ++ lost := by
  intro s
  induction s with
  | nil => intro _ _ h; exact absurd rfl h
  | cons c s ih =>
    intro st hi _ st'' out o hr hb
    obtain ⟨st', o1, st2, e, st3, e3, h1, h2, h3, h4, h5, h6, h6', h7, h8, _⟩ := L.step st c hi
    cases s with
    | nil =>
      obtain ⟨a, b, d, k1, k2, rfl⟩ := hr
      have e1 := Except.ok.inj ((feed_one h1).symm.trans k1)
      have ea : st' = a := congrArg Prod.fst e1
      have eb : o1 = b := congrArg Prod.snd e1
      subst ea eb
      have ed : e = d := congrArg Prod.snd (Except.ok.inj (h5.symm.trans k2))
      subst ed
      have : o = [] := hb.unique (butLast_one st c)
      subst this
      refine ⟨o1 ++ e, ?_, rfl⟩
      intro h
      exact h8 (List.append_eq_nil_iff.1 h).1 (List.append_eq_nil_iff.1 h).2
    | cons d s =>
      obtain ⟨stR, outR, r1, _⟩ := L.rest (d :: s) st' h2 (by simp)
      obtain ⟨os, hos⟩ := L.butLast (d :: s) st' h2
      obtain ⟨lost, l1, l2⟩ := ih st' h2 (by simp) stR outR os r1 hos
      have e1 : o = o1 ++ os := hb.unique (hos.cons (by simp) h1)
      have e2 : out = o1 ++ outR := by
        obtain ⟨a, b, d, k1, k2, k3⟩ := hr
        obtain ⟨a', b', d', k1', k2', k3'⟩ := r1.cons h1
        rw [k1] at k1'
        have e1 := Except.ok.inj k1'
        have ea : a = a' := congrArg Prod.fst e1
        have eb : b = b' := congrArg Prod.snd e1
        subst ea
        rw [k2] at k2'
        rw [k3, k3', eb, show d = d' from congrArg Prod.snd (Except.ok.inj k2')]
      exact ⟨lost, l1, by rw [e1, e2, l2, List.append_assoc]⟩

theorem Lawful.single (L : Lawful T Q I) {cap : Nat} (hQ : ∀ l, Q l → l.length ≤ cap) (s : List ι) (hs : s ≠ []) :
    ∃ st out a o lost, T.run s = .ok (st, out) ∧ T.feed T.init s.dropLast = .ok (a, o) ∧ sharedRun T cap s = .ok (o, T.wellFormed st) ∧ lost ≠ [] ∧ out = o ++ lost := by
  obtain ⟨st, out, r, _⟩ := L.rest s T.init L.init hs
  obtain ⟨o, ho⟩ := L.butLast s T.init L.init
  obtain ⟨lost, l1, l2⟩ := L.lost s T.init L.init hs st out o r ho
  obtain ⟨a, ha⟩ := ho
  refine ⟨st, out, a, o, lost, r.run, ha, ?_, l1, l2⟩
  have ho : ButLast T T.init s o := ⟨a, ha⟩
  obtain ⟨it, k1, k2, k3, k4, k5, k6⟩ := L.sharedFill hQ { current := s, next := s, buf := [], tr := T.init, parentWf := true } rfl L.init hs r (fun _ => rfl)
  have hse : s.isEmpty = false := by simpa using hs
  have k5 : it.next.length + 1 ≤ s.length := k5
  have := Nat.mul_le_mul_left cap k5
  rw [Nat.mul_add] at this
  simp only [sharedRun, sharedBegin, hse, Bool.false_eq_true, if_false, bind, Except.bind, k1]
  rcases k6 with ⟨n1, n2, n3⟩ | ⟨n1, n2, n3, n4, n5⟩
  · have e : o = [] := ho.unique n3
    subst e
    have : it.atEnd = true := by unfold ViewIt.atEnd; rw [k2, n1]; rfl
    rw [Icu.sharedLoop, this]
    simp only [if_true, n2]
  · obtain ⟨os, hos⟩ := L.butLast it.next it.tr n2
    obtain ⟨it', j1, j2⟩ := L.sharedLoop hQ (cap * s.length + 1) it st os k2 k3 k4 n1 n2 n3 n4 hos (by omega)
    have e : o = it.buf ++ os := ho.unique (n5 os hos)
    rw [j1]
    simp only [j2, e]

end

end Verif.Icu
