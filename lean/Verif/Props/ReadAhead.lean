import Verif.Props.IcuInPlace

/-!
# C95: how far a transcode view reads
-/

set_option linter.unusedSimpArgs false

namespace Verif
open Icu Unicode

/-! ### Specification -/

/-- The iterators that a loop over the view of `s` goes through, with the number of increments. -/
inductive Passes {ι ο : Type} (T : Transcoder ι ο) (cap : Nat) (s : List ι) : Nat → ViewIt ι ο T → Prop
  | first {it} : viewBegin T cap s = .ok it → Passes T cap s 0 it
  | next {n it it'} : Passes T cap s n it → it.atEnd = false → it.incr T cap = .ok it' → Passes T cap s (n + 1) it'

/-- How much the view reads: `begin` and each increment read at most `k` code units.  An increment reads nothing while there is more of the character
to be yielded, and if something is left of the text at least one code unit after that.  All that was read before the last code unit gives nothing to yield:
a character is yielded as soon as its last code unit was read.  What was read and what is yielded do not depend on the rest of the text, as long
as there is one. -/
structure ReadsAhead {ι ο : Type} (T : Transcoder ι ο) (cap k : Nat) : Prop where
  begin : ∀ s it, viewBegin T cap s = .ok it → ∃ r, s = r ++ it.next ∧ r.length ≤ k ∧ (s ≠ [] → r ≠ [])
  within : ∀ s n it it', Passes T cap s n it → it.atEnd = false → it.incr T cap = .ok it' → 1 < it.buf.length → it'.next = it.next
  between : ∀ s n it it', Passes T cap s n it → it.atEnd = false → it.incr T cap = .ok it' → it.buf.length = 1 →
    ∃ r, it.next = r ++ it'.next ∧ r.length ≤ k ∧ (it.next ≠ [] → r ≠ [])
  prompt : ∀ s n it, Passes T cap s n it → it.next ≠ [] → ∃ r c, s = r ++ c :: it.next ∧
    ∃ st st' d o, T.feed T.init r = .ok (st, d) ∧ T.step st c = .ok (st', o) ∧ o ≠ [] ∧ it.buf <:+ o
  forward : ∀ p t t' n it, t ≠ [] → t' ≠ [] → Passes T cap (p ++ t) n it → t.length ≤ it.next.length →
    ∃ it' u, Passes T cap (p ++ t') n it' ∧ it.next = u ++ t ∧ it'.next = u ++ t' ∧ it'.buf = it.buf ∧ it'.tr = it.tr ∧ it'.parentWf = it.parentWf

/-! ### Proofs -/

section
variable {ι ο : Type} {T : Transcoder ι ο} {cap k : Nat} {I : T.σ → Prop}

/-- In the states `I`, fewer than `k` code units in a row give nothing. -/
structure Talkative (T : Transcoder ι ο) (k : Nat) (I : T.σ → Prop) : Prop where
  init : I T.init
  step : ∀ st c st' o, I st → T.step st c = .ok (st', o) → I st'
  silent : ∀ st s st', I st → T.feed st s = .ok (st', []) → s.length < k

theorem feed_cons_inv' {st st' : T.σ} {c : ι} {s : List ι} {d : List ο} (h : T.feed st (c :: s) = .ok (st', d)) :
    ∃ st1 o os, T.step st c = .ok (st1, o) ∧ T.feed st1 s = .ok (st', os) ∧ d = o ++ os := by
  simp only [Transcoder.feed, bind, Except.bind] at h
  split at h
  · simp at h
  · rename_i v hv
    split at h
    · simp at h
    · rename_i x hx
      obtain ⟨rfl, rfl⟩ := ok_pair h
      exact ⟨v.1, v.2, x.2, hv, hx, rfl⟩

theorem Talkative.feed (R : Talkative T k I) : ∀ (s : List ι) (st st' : T.σ) (d : List ο), I st → T.feed st s = .ok (st', d) → I st' := by
  intro s
  induction s with
  | nil => intro st st' d hi h; obtain ⟨rfl, _⟩ := ok_pair h; exact hi
  | cons c s ih =>
    intro st st' d hi h
    obtain ⟨a, o, os, h1, h2, _⟩ := feed_cons_inv' h
    exact ih _ _ _ (R.step _ _ _ _ hi h1) h2

/-- What the loop of `fill` reads. -/
theorem fillLoop_reads : ∀ (s : List ι) (st st' : T.σ) (rest : List ι) (o : List ο), fillLoop T cap st s = .ok (st', rest, o) →
    (rest = [] ∧ o = [] ∧ T.feed st s = .ok (st', [])) ∨
    ∃ p c st1, s = p ++ c :: rest ∧ T.feed st p = .ok (st1, []) ∧ T.step st1 c = .ok (st', o) ∧ o ≠ [] ∧ o.length ≤ cap := by
  intro s
  induction s with
  | nil =>
    intro st st' rest o h
    have h := Except.ok.inj h
    simp only [Prod.mk.injEq] at h
    obtain ⟨rfl, rfl, rfl⟩ := h
    exact Or.inl ⟨rfl, rfl, rfl⟩
  | cons c s ih =>
    intro st st' rest o h
    rw [fillLoop_cons] at h
    simp only [bind, Except.bind] at h
    split at h
    · simp at h
    · rename_i v hv
      by_cases h1 : v.2.length > cap
      · rw [if_pos h1] at h; simp at h
      · rw [if_neg h1] at h
        by_cases h2 : v.2.isEmpty = true
        · rw [if_pos h2] at h
          have hv' : T.step st c = .ok (v.1, []) := by rw [hv]; congr 1; exact Prod.ext rfl (List.isEmpty_iff.1 h2)
          rcases ih _ _ _ _ h with ⟨rfl, rfl, e⟩ | ⟨p, c', st1, e1, e2, e3, e4⟩
          · exact Or.inl ⟨rfl, rfl, by simpa using feed_cons hv' e⟩
          · exact Or.inr ⟨c :: p, c', st1, by rw [e1]; rfl, by simpa using feed_cons hv' e2, e3, e4⟩
        · rw [if_neg h2] at h
          have h := Except.ok.inj h
          simp only [Prod.mk.injEq] at h
          obtain ⟨rfl, rfl, rfl⟩ := h
          exact Or.inr ⟨[], c, st, rfl, rfl, hv, by simpa using h2, by omega⟩

/-- The other way round. -/
theorem fillLoop_of : ∀ (p : List ι) (st st1 st' : T.σ) (c : ι) (rest : List ι) (o : List ο), T.feed st p = .ok (st1, []) → T.step st1 c = .ok (st', o) → o ≠ [] → o.length ≤ cap →
    fillLoop T cap st (p ++ c :: rest) = .ok (st', rest, o) := by
  intro p
  induction p with
  | nil =>
    intro st st1 st' c rest o h h1 h2 h3
    obtain ⟨rfl, _⟩ := ok_pair h
    rw [List.nil_append, fillLoop_cons, h1]
    have : o.isEmpty = false := by simpa using h2
    simp only [bind, Except.bind, if_neg (show ¬ o.length > cap by omega), this, Bool.false_eq_true, if_false]
  | cons b p ih =>
    intro st st1 st' c rest o h h1 h2 h3
    obtain ⟨a, x, y, k1, k2, k3⟩ := feed_cons_inv' h
    have hx : x = [] := (List.append_eq_nil_iff.1 k3.symm).1
    have hy : y = [] := (List.append_eq_nil_iff.1 k3.symm).2
    subst hx; subst hy
    rw [List.cons_append, fillLoop_cons, k1]
    simp only [bind, Except.bind, List.length_nil, Nat.not_lt_zero, gt_iff_lt, if_false, List.isEmpty_nil, if_true]
    exact ih a st1 st' c rest o k2 h1 h2 h3

/-- A fill that does not come to the end of the text, or one that does. -/
theorem fill_reads {it it' : ViewIt ι ο T} (hb : it.buf = []) (h : fill T cap it = .ok it') : it'.current = it.next ∧
    ((it'.next = [] ∧ ∃ p st1, it.next.length ≤ p.length + 1 ∧ T.feed it.tr p = .ok (st1, [])) ∨
    (it'.next ≠ [] ∧ ∃ p c st1, it.next = p ++ c :: it'.next ∧ T.feed it.tr p = .ok (st1, []) ∧ T.step st1 c = .ok (it'.tr, it'.buf) ∧ it'.buf ≠ [] ∧
      it'.buf.length ≤ cap ∧ it'.parentWf = (it.parentWf && T.wellFormed it'.tr))) := by
  rw [fill_eq it hb] at h
  simp only [bind, Except.bind] at h
  split at h
  · simp at h
  · rename_i q hq
    obtain ⟨st', rest, o⟩ := q
    split at h
    · simp at h
    · rename_i e he
      split at h
      · simp at h
      · have h := Except.ok.inj h
        subst h
        refine ⟨rfl, ?_⟩
        rcases fillLoop_reads _ _ _ _ _ hq with ⟨rfl, rfl, e1⟩ | ⟨p, c, st1, e1, e2, e3, e4, e5⟩
        · exact Or.inl ⟨rfl, it.next, st', by omega, e1⟩
        · cases rest with
          | nil => exact Or.inl ⟨rfl, p, st1, by rw [e1]; simp, e2⟩
          | cons r rest =>
            simp only [List.isEmpty_cons, Bool.false_eq_true, if_false] at he
            have he := Except.ok.inj he
            subst he
            simp only [List.append_nil]
            exact Or.inr ⟨by simp, p, c, st1, e1, e2, e3, e4, e5, trivial⟩

/-- The iterators of a loop: what was read, and what of it gave nothing. -/
theorem passes_inv (R : Talkative T k I) {s : List ι} {n : Nat} {it : ViewIt ι ο T} (h : Passes T cap s n it) :
    it.next ≠ [] → I it.tr ∧ ∃ r c, s = r ++ c :: it.next ∧ ∃ st d o, T.feed T.init r = .ok (st, d) ∧ T.step st c = .ok (it.tr, o) ∧ o ≠ [] ∧ it.buf <:+ o := by
  have hfill : ∀ {it it' : ViewIt ι ο T}, it.buf = [] → fill T cap it = .ok it' → (∃ q d, s = q ++ it.next ∧ T.feed T.init q = .ok (it.tr, d)) → it'.next ≠ [] →
      I it'.tr ∧ ∃ r c, s = r ++ c :: it'.next ∧ ∃ st d o, T.feed T.init r = .ok (st, d) ∧ T.step st c = .ok (it'.tr, o) ∧ o ≠ [] ∧ it'.buf <:+ o := by
    intro it it' hb hf ⟨q, d, e1, e2⟩ hne
    rcases (fill_reads hb hf).2 with ⟨k1, _⟩ | ⟨_, p, c, st1, k1, k2, k3, k4, _⟩
    · exact absurd k1 hne
    · have hfd := feed_append e2 k2
      exact ⟨R.step _ _ _ _ (R.feed _ _ _ _ R.init hfd) k3, q ++ p, c, by rw [e1, k1, List.append_assoc], st1, _, _, hfd, k3, k4, List.suffix_refl _⟩
  induction h with
  | @first it h =>
    simp only [viewBegin] at h
    by_cases hs : s.isEmpty = true
    · rw [if_pos hs] at h
      have h := Except.ok.inj h
      subst h
      intro hne
      exact absurd (List.isEmpty_iff.1 hs) hne
    · rw [if_neg hs] at h
      exact hfill rfl h ⟨[], [], rfl, rfl⟩
  | @next n it it' _ hat h ih =>
    intro hne
    simp only [ViewIt.incr] at h
    cases hb : it.buf with
    | nil => rw [hb] at h; simp at h
    | cons x b =>
      rw [hb] at h
      simp only at h
      by_cases he : b.isEmpty = true
      · rw [if_pos he] at h
        have hn0 : it.next ≠ [] := by
          intro e
          rcases (fill_reads (it := { it with buf := b }) (List.isEmpty_iff.1 he) h).2 with ⟨k1, _⟩ | ⟨_, p, c, st1, k1, _⟩
          · exact hne k1
          · simp only [e] at k1; simp at k1
        obtain ⟨_, r, c, e1, st, d, o, e2, e3, e4, e5⟩ := ih hn0
        exact hfill (it := { it with buf := b }) (List.isEmpty_iff.1 he) h ⟨r ++ [c], d ++ o, by simp [e1], feed_append e2 (feed_one e3)⟩ hne
      · rw [if_neg he] at h
        have h := Except.ok.inj h
        subst h
        obtain ⟨hi, r, c, e1, st, d, o, e2, e3, e4, e5⟩ := ih hne
        refine ⟨hi, r, c, e1, st, d, o, e2, e3, e4, ?_⟩
        rw [hb] at e5
        exact (List.suffix_cons x b).trans e5

theorem fill_of {it : ViewIt ι ο T} {p rest : List ι} {c : ι} {st1 st' : T.σ} {o : List ο} (hb : it.buf = []) (hn : it.next = p ++ c :: rest) (hr : rest ≠ [])
    (h1 : T.feed it.tr p = .ok (st1, [])) (h2 : T.step st1 c = .ok (st', o)) (h3 : o ≠ []) (h4 : o.length ≤ cap) :
    fill T cap it = .ok ⟨it.next, rest, o, st', it.parentWf && T.wellFormed st'⟩ := by
  rw [fill_eq it hb, hn, fillLoop_of p _ _ _ _ _ _ h1 h2 h3 h4]
  have : rest.isEmpty = false := by simpa using hr
  simp only [bind, Except.bind, this, Bool.false_eq_true, if_false, List.append_nil, if_neg (show ¬ o.length > cap by omega)]

theorem fill_le {it it' : ViewIt ι ο T} (hb : it.buf = []) (h : fill T cap it = .ok it') : it'.next.length ≤ it.next.length := by
  rcases (fill_reads hb h).2 with ⟨k1, _⟩ | ⟨_, p, c, st1, k1, _⟩
  · rw [k1]; simp
  · rw [k1]; simp; omega

/-- A text cut where a fill stopped. -/
theorem cut_eq {p t q : List ι} {c : ι} {rest : List ι} (h : p ++ t = q ++ c :: rest) (hl : t.length ≤ rest.length) : ∃ u, rest = u ++ t ∧ p = q ++ c :: u := by
  have hlen := congrArg List.length h
  simp only [List.length_append, List.length_cons] at hlen
  have h1 : rest = rest.take (rest.length - t.length) ++ t := by
    have h2 := congrArg (List.drop p.length) h
    rw [List.drop_left, List.drop_append, List.drop_eq_nil_of_le (by omega), List.nil_append,
      show p.length - q.length = (rest.length - t.length) + 1 by omega, List.drop_succ_cons] at h2
    exact (List.take_append_drop (rest.length - t.length) rest).symm.trans (by rw [← h2])
  refine ⟨rest.take (rest.length - t.length), h1, ?_⟩
  have h3 : p ++ t = (q ++ c :: rest.take (rest.length - t.length)) ++ t := by
    rw [h, List.append_assoc, List.cons_append, ← h1]
  exact List.append_cancel_right h3

/-- One text in place of another after what was read. -/
theorem passes_forward {p t t' : List ι} (ht : t ≠ []) (ht' : t' ≠ []) {n : Nat} {it : ViewIt ι ο T} (h : Passes T cap (p ++ t) n it) (hl : t.length ≤ it.next.length) :
    ∃ it' u, Passes T cap (p ++ t') n it' ∧ it'.atEnd = false ∧ it.next = u ++ t ∧ it'.next = u ++ t' ∧ it'.buf = it.buf ∧ it'.tr = it.tr ∧ it'.parentWf = it.parentWf := by
  have htl : 0 < t.length := List.length_pos_iff.2 ht
  induction h with
  | @first it h =>
    have hs : (p ++ t).isEmpty = false := by simp [ht]
    have hs' : (p ++ t').isEmpty = false := by simp [ht']
    simp only [viewBegin, hs, Bool.false_eq_true, if_false] at h
    rcases (fill_reads (it := ⟨p ++ t, p ++ t, [], T.init, true⟩) rfl h).2 with ⟨k1, _⟩ | ⟨_, q, c, st1, k1, k2, k3, k4, k5, k6⟩
    · rw [k1] at hl; simp at hl; exact absurd hl ht
    · obtain ⟨u, e1, e2⟩ := cut_eq k1 hl
      have hf := fill_of (cap := cap) (it := ⟨p ++ t', p ++ t', [], T.init, true⟩) (p := q) (rest := u ++ t') (c := c) rfl (by simp [e2]) (by simp [ht']) k2 k3 k4 k5
      have hp : Passes T cap (p ++ t') 0 ⟨p ++ t', u ++ t', it.buf, it.tr, true && T.wellFormed it.tr⟩ :=
        .first (by simp only [viewBegin, hs', Bool.false_eq_true, if_false]; exact hf)
      refine ⟨_, u, hp, by simp only [ViewIt.atEnd]; exact hs', e1, rfl, rfl, rfl, ?_⟩
      rw [k6]
  | @next n it it2 hp hat h ih =>
    simp only [ViewIt.incr] at h
    cases hb : it.buf with
    | nil => rw [hb] at h; simp at h
    | cons x b =>
      rw [hb] at h
      simp only at h
      by_cases he : b.isEmpty = true
      · rw [if_pos he] at h
        have hle := fill_le (it := { it with buf := b }) (List.isEmpty_iff.1 he) h
        obtain ⟨it3, u, e1, e2, e3, e4, e5, e6, e7⟩ := ih (Nat.le_trans hl hle)
        rcases (fill_reads (it := { it with buf := b }) (List.isEmpty_iff.1 he) h).2 with ⟨k1, _⟩ | ⟨_, q, c, st1, k1, k2, k3, k4, k5, k6⟩
        · rw [k1] at hl; simp at hl; exact absurd hl ht
        · simp only at k1
          rw [e3] at k1
          obtain ⟨v, f1, f2⟩ := cut_eq k1 hl
          have hf := fill_of (cap := cap) (it := { it3 with buf := b }) (p := q) (rest := v ++ t') (c := c) (List.isEmpty_iff.1 he) (by simp [e4, f2]) (by simp [ht'])
            (by simp only [e6]; exact k2) k3 k4 k5
          have hp : Passes T cap (p ++ t') (n + 1) ⟨it3.next, v ++ t', it2.buf, it2.tr, it3.parentWf && T.wellFormed it2.tr⟩ :=
            .next e1 e2 (by simp only [ViewIt.incr, e5, hb]; rw [if_pos he]; exact hf)
          refine ⟨_, v, hp, by simp [ViewIt.atEnd, e4, ht'], f1, rfl, rfl, rfl, ?_⟩
          simp only [e7]; rw [k6]
      · rw [if_neg he] at h
        have h := Except.ok.inj h
        subst h
        obtain ⟨it3, u, e1, e2, e3, e4, e5, e6, e7⟩ := ih hl
        exact ⟨{ it3 with buf := b }, u, .next e1 e2 (by simp only [ViewIt.incr, e5, hb]; rw [if_neg he]), e2, e3, e4, rfl, e6, e7⟩

theorem reads_of {it it' : ViewIt ι ο T} (R : Talkative T k I) (hb : it.buf = []) (hi : it.next ≠ [] → I it.tr) (h : fill T cap it = .ok it') :
    ∃ r, it.next = r ++ it'.next ∧ r.length ≤ k ∧ (it.next ≠ [] → r ≠ []) := by
  by_cases hn : it.next = []
  · refine ⟨[], ?_, by simp, fun k => absurd hn k⟩
    have := fill_le hb h
    rw [hn] at this ⊢
    simp at this
    simp [this]
  · rcases (fill_reads hb h).2 with ⟨k1, p, st1, k2, k3⟩ | ⟨_, p, c, st1, k1, k2, _⟩
    · have := R.silent _ _ _ (hi hn) k3
      exact ⟨it.next, by rw [k1]; simp, by omega, fun k => k⟩
    · have := R.silent _ _ _ (hi hn) k2
      exact ⟨p ++ [c], by rw [k1]; simp, by simp; omega, fun _ => by simp⟩

theorem readsAhead_of (R : Talkative T k I) : ReadsAhead T cap k where
  begin s it h := by
    simp only [viewBegin] at h
    by_cases hs : s.isEmpty = true
    · rw [if_pos hs] at h
      have h := Except.ok.inj h
      subst h
      exact ⟨[], rfl, by simp, fun k => absurd (List.isEmpty_iff.1 hs) k⟩
    · rw [if_neg hs] at h
      exact reads_of (it := ⟨s, s, [], T.init, true⟩) R rfl (fun _ => R.init) h
  within s n it it' _ _ h hl := by
    simp only [ViewIt.incr] at h
    cases hb : it.buf with
    | nil => rw [hb] at h; simp at h
    | cons x b =>
      rw [hb] at h hl
      simp only at h
      have he : b.isEmpty = false := by cases b <;> simp at hl ⊢
      simp only [he, Bool.false_eq_true, if_false] at h
      have h := Except.ok.inj h
      subst h; rfl
  between s n it it' hp _ h hl := by
    simp only [ViewIt.incr] at h
    cases hb : it.buf with
    | nil => rw [hb] at h; simp at h
    | cons x b =>
      rw [hb] at h hl
      simp only at h
      have he : b = [] := List.eq_nil_of_length_eq_zero (by simpa using hl)
      subst he
      simp only [List.isEmpty_nil, if_true] at h
      exact reads_of (it := { it with buf := [] }) R rfl (fun hne => (passes_inv R hp hne).1) h
  prompt s n it hp hne := by
    obtain ⟨_, r, c, e1, st, d, o, e2, e3, e4, e5⟩ := passes_inv R hp hne
    exact ⟨r, c, e1, st, _, d, o, e2, e3, e4, e5⟩
  forward p t t' n it ht ht' hp hl := by
    obtain ⟨it', u, e1, _, e3, e4, e5, e6, e7⟩ := passes_forward ht ht' hp hl
    exact ⟨it', u, e1, e3, e4, e5, e6, e7⟩

end

/-! ### The nine transcoders -/

theorem pend_short {p : Str} {s cp : Nat} (h : Pend p s cp) : p.length ≤ 3 := by
  cases h <;> simp

theorem at_short {p : Str} {st : St8} (h : At p st) : p.length ≤ 3 := by
  rcases h with ⟨rfl, _⟩ | h
  · simp
  · exact pend_short h

/-- What a step from UTF-8 that gives nothing does. -/
theorem silent8_step {st st' : St8} {p : Str} {b : UInt8} (ha : At p st) (h : step8to32 st b = .ok (st', [])) : At (p ++ [b]) st' := by
  rcases ha.step b with ⟨c, h1, h2⟩ | ⟨s, cp, h1, h2⟩ | ⟨cp, h1, h2⟩
  · rw [h2] at h; obtain ⟨_, k⟩ := ok_pair h; simp at k
  · rw [h2] at h; obtain ⟨rfl, _⟩ := ok_pair h; exact Or.inr h1
  · rw [h2] at h; obtain ⟨_, k⟩ := ok_pair h; simp at k

theorem at_step8 {st st' : St8} {p : Str} {b : UInt8} {o : List Nat} (ha : At p st) (h : step8to32 st b = .ok (st', o)) : ∃ p', At p' st' := (wf_step8 ha h).1

theorem talk8 : Talkative t8_32 4 (fun st => ∃ p, At p st) where
  init := ⟨[], Or.inl ⟨rfl, rfl⟩⟩
  step st c st' o hi h := by
    obtain ⟨p, hp⟩ := hi
    exact at_step8 hp h
  silent st s st' hi h := by
    obtain ⟨p, hp⟩ := hi
    have key : ∀ (s : Str) (p : Str) (st st' : St8), At p st → t8_32.feed st s = .ok (st', []) → At (p ++ s) st' := by
      intro s
      induction s with
      | nil => intro p st st' hp h; obtain ⟨rfl, _⟩ := ok_pair h; simpa using hp
      | cons c s ih =>
        intro p st st' hp h
        obtain ⟨a, x, y, k1, k2, k3⟩ := feed_cons_inv' h
        have hx : x = [] := (List.append_eq_nil_iff.1 k3.symm).1
        have hy : y = [] := (List.append_eq_nil_iff.1 k3.symm).2
        subst hx; subst hy
        have := ih _ _ _ (silent8_step hp k1) k2
        simpa using this
    have := at_short (key s p st st' hp h)
    rw [List.length_append] at this
    omega

theorem silent16_step {st st' : St16} {c : UInt16} (h : step16to32 st c = .ok (st', [])) : st.hasHigh = false ∧ st'.hasHigh = true := by
  rcases step16_kinds h with ⟨_, k⟩ | ⟨k, _⟩ | ⟨_, k, _⟩ | ⟨_, k, _⟩ | ⟨_, k, _⟩
  · refine ⟨k, ?_⟩
    simp only [step16to32, k, Bool.not_false, if_true, bind, Except.bind] at h
    split at h
    · split at h
      · simp at h
      · obtain ⟨rfl, _⟩ := ok_pair h; rfl
    · split at h
      · obtain ⟨_, k⟩ := ok_pair h; simp at k
      · obtain ⟨_, k⟩ := ok_pair h; simp at k
  all_goals simp at k

theorem talk16 : Talkative t16_32 2 (fun _ => True) where
  init := trivial
  step _ _ _ _ _ _ := trivial
  silent st s st' _ h := by
    rcases s with _ | ⟨c, _ | ⟨d, s⟩⟩
    · simp
    · simp
    · obtain ⟨a, x, y, k1, k2, k3⟩ := feed_cons_inv' h
      have hx : x = [] := (List.append_eq_nil_iff.1 k3.symm).1
      have hy : y = [] := (List.append_eq_nil_iff.1 k3.symm).2
      subst hx; subst hy
      obtain ⟨a', x, y, l1, l2, l3⟩ := feed_cons_inv' k2
      have hx : x = [] := (List.append_eq_nil_iff.1 l3.symm).1
      subst hx
      have e1 := (silent16_step k1).2
      have e2 := (silent16_step l1).1
      have e1 : St16.hasHigh a = true := e1
      rw [e1] at e2; simp at e2

section
variable {ι ο : Type} {f : Nat → List ο} {g : Nat → Bool} {A : Transcoder ι Nat} {B : Transcoder Nat ο} {cap k : Nat} {I : A.σ → Prop}

theorem talk_simple {h : ι → List ο} {g : ι → Bool} {T : Transcoder ι ο} (S : Simple T h g) : Talkative T 1 (fun _ => True) where
  init := trivial
  step _ _ _ _ _ _ := trivial
  silent st s st' _ hf := by
    cases s with
    | nil => simp
    | cons c s =>
      obtain ⟨a, x, y, k1, k2, k3⟩ := feed_cons_inv' hf
      obtain ⟨st1, e, _⟩ := S.step st c
      rw [e] at k1
      obtain ⟨_, rfl⟩ := ok_pair k1
      exact absurd (List.append_eq_nil_iff.1 k3.symm).1 (S.ne c)

theorem talk_tri (S : Simple B f g) (R : Talkative A k I) : Talkative (triangulator cap A B) k (fun st => I st.1) where
  init := R.init
  step st c st' o hi h := by
    obtain ⟨mid, h1, _⟩ := tri_step_inv S h
    exact R.step _ _ _ _ hi h1
  silent st s st' hi h := by
    have key : ∀ (s : List ι) (st st' : A.σ × B.σ), (triangulator cap A B).feed st s = .ok (st', []) → A.feed st.1 s = .ok (st'.1, []) := by
      intro s
      induction s with
      | nil => intro st st' h; obtain ⟨rfl, _⟩ := ok_pair h; rfl
      | cons c s ih =>
        intro st st' h
        obtain ⟨a, x, y, k1, k2, k3⟩ := feed_cons_inv' h
        have hx : x = [] := (List.append_eq_nil_iff.1 k3.symm).1
        have hy : y = [] := (List.append_eq_nil_iff.1 k3.symm).2
        subst hx; subst hy
        obtain ⟨mid, h1, h2⟩ := tri_step_inv S k1
        have hm := flatMap_ne S h2.symm
        subst hm
        simpa using feed_cons h1 (ih _ _ k2)
    exact R.silent _ _ _ hi (key s st st' h)

end

/-- **C95**: how far a view reads, for the nine conversions: up to four code units of UTF-8 for each character, two of UTF-16, one of UTF-32. -/
theorem C95_ahead : ReadsAhead t8_8 maxOut8 4 ∧ ReadsAhead t8_16 maxOut16 4 ∧ ReadsAhead t8_32 maxOut32 4 ∧
    ReadsAhead t16_8 maxOut16to8 2 ∧ ReadsAhead t16_16 maxOut16 2 ∧ ReadsAhead t16_32 maxOut16to32 2 ∧
    ReadsAhead t32_8 maxOut8 1 ∧ ReadsAhead t32_16 maxOut16 1 ∧ ReadsAhead t32_32 maxOut32 1 :=
  ⟨readsAhead_of (talk_tri simple32_8 talk8), readsAhead_of (talk_tri simple32_16 talk8), readsAhead_of talk8,
    readsAhead_of (talk_tri simple32_8 talk16), readsAhead_of (talk_tri simple32_16 talk16), readsAhead_of talk16,
    readsAhead_of (talk_simple simple32_8), readsAhead_of (talk_simple simple32_16), readsAhead_of (talk_simple simple32_32)⟩

/-- C95: the bounds are attained, in `begin` and by an increment. -/
theorem C95_attained :
    (viewBegin t8_32 maxOut32 [0xF0, 0x9F, 0x98, 0x80, 0x41]).map (fun it => (it.buf, it.next)) = .ok ([0x1F600], [0x41]) ∧
    (viewBegin t8_32 maxOut32 [0x41, 0xF0, 0x9F, 0x98, 0x80, 0x41] >>= fun it => it.incr t8_32 maxOut32).map (fun it => (it.buf, it.next)) = .ok ([0x1F600], [0x41]) ∧
    (viewBegin t16_32 maxOut16to32 [0xD83D, 0xDE00, 0x41]).map (fun it => (it.buf, it.next)) = .ok ([0x1F600], [0x41]) ∧
    (viewBegin t32_8 maxOut8 [0x20AC, 0x41]).map (fun it => (it.buf, it.next)) = .ok ([0xE2, 0x82, 0xAC], [0x41]) := by decide +kernel

/-! Hypotheses met. -/

example : ∃ it it' : ViewIt UInt8 Nat t8_32, Passes t8_32 maxOut32 [0x41, 0xC3, 0xA9, 0x42] 0 it ∧ Passes t8_32 maxOut32 [0x41, 0xC3, 0xA9, 0x42] 1 it' ∧
    it.next = [0xC3, 0xA9, 0x42] ∧ it'.next = [0x42] ∧ it'.buf = [0xE9] :=
  ⟨_, _, .first rfl, .next (.first rfl) rfl rfl, rfl, rfl, rfl⟩

end Verif
