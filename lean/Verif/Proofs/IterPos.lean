import Verif.Proofs.Icu2

/-!
# Positions of view iterators, for every transcoder
-/

set_option linter.unusedSimpArgs false
set_option linter.unusedVariables false

namespace Verif.Icu
open Verif.Unicode

variable {ι ο : Type} {T : Transcoder ι ο} {Q : List ο → Prop} {I : T.σ → Prop}

/-- The number of elements written for the first `k` elements of a text. -/
def emitted (T : Transcoder ι ο) (s : List ι) (k : Nat) : Nat :=
  match T.feed T.init (s.take k) with
  | .ok (_, o) => o.length
  | .error _ => 0

theorem emitted_of {s : List ι} {k : Nat} {st : T.σ} {o : List ο} (h : T.feed T.init (s.take k) = .ok (st, o)) : emitted T s k = o.length := by
  simp [emitted, h]

theorem emitted_mono (L : Lawful T Q I) (s : List ι) (i j : Nat) (h : i ≤ j) : emitted T s i ≤ emitted T s j := by
  obtain ⟨st, o, h1, h2⟩ := L.total.feed (s.take i) T.init L.total.init
  obtain ⟨st', o', h3, _⟩ := L.total.feed ((s.drop i).take (j - i)) st h2
  have h4 := feed_append h1 h3
  have e : s.take i ++ (s.drop i).take (j - i) = s.take j := by
    rw [show j = i + (j - i) by omega, List.take_add]; simp
  rw [e] at h4
  rw [emitted_of h1, emitted_of h4]
  simp

/-- The loop of `fill` takes elements up to the first for which something is written. -/
theorem fillLoop_takes {cap : Nat} : ∀ (s : List ι) (st : T.σ) {st' : T.σ} {rest : List ι} {o : List ο}, fillLoop T cap st s = .ok (st', rest, o) → s ≠ [] →
    ∃ j, 0 < j ∧ j ≤ s.length ∧ rest = s.drop j ∧ T.feed st (s.take j) = .ok (st', o) ∧ ∀ i, i < j → ∃ sti, T.feed st (s.take i) = .ok (sti, []) := by
  intro s
  induction s with
  | nil => intro st st' rest o _ h; exact absurd rfl h
  | cons c s ih =>
    intro st st' rest o h _
    rw [fillLoop] at h
    simp only [bind, Except.bind] at h
    split at h
    · simp at h
    · rename_i v hv
      obtain ⟨st1, o1⟩ := v
      simp only at h
      split at h
      · simp at h
      · split at h
        · rename_i ho
          have ho : o1 = [] := by simpa using ho
          subst ho
          by_cases hs : s = []
          · subst hs
            simp only [fillLoop, Except.ok.injEq, Prod.mk.injEq] at h
            obtain ⟨rfl, rfl, rfl⟩ := h
            refine ⟨1, by omega, by simp, rfl, feed_one hv, fun i hi => ?_⟩
            have : i = 0 := by omega
            subst this
            exact ⟨st, rfl⟩
          · obtain ⟨j, j1, j2, j3, j4, j5⟩ := ih st1 h hs
            refine ⟨j + 1, by omega, by simp; omega, by rw [j3]; rfl, feed_cons (o := []) hv j4, fun i hi => ?_⟩
            cases i with
            | zero => exact ⟨st, rfl⟩
            | succ i =>
              obtain ⟨sti, h⟩ := j5 i (by omega)
              exact ⟨sti, feed_cons (o := []) hv h⟩
        · simp only [Except.ok.injEq, Prod.mk.injEq] at h
          obtain ⟨rfl, rfl, rfl⟩ := h
          refine ⟨1, by omega, by simp, rfl, feed_one hv, fun i hi => ?_⟩
          have : i = 0 := by omega
          subst this
          exact ⟨st, rfl⟩

/-- Where an iterator before element `m` is: it was made from the elements `k0` to `k1` of the input. -/
def Place (T : Transcoder ι ο) (s : List ι) (it : ViewIt ι ο T) (m : Nat) (k0 k1 : Nat) : Prop :=
  it.current = s.drop k0 ∧ it.next = s.drop k1 ∧ k0 < k1 ∧ k1 ≤ s.length ∧ (∀ k, k0 ≤ k → k < k1 → emitted T s k = emitted T s k0) ∧
  (∀ k, k < k0 → emitted T s k < emitted T s k0) ∧ emitted T s k0 ≤ m ∧
  (k1 < s.length → ∃ o, T.feed T.init (s.take k1) = .ok (it.tr, o) ∧ o.length = m + it.buf.length)

theorem place_fill {cap : Nat} {s : List ι} {it it' : ViewIt ι ο T} {k : Nat} {o : List ο} (hk : k < s.length) (hn : it.next = s.drop k)
    (hf : T.feed T.init (s.take k) = .ok (it.tr, o)) (hb : ∀ i, i < k → emitted T s i < emitted T s k) (h : fill T cap it = .ok it') :
    ∃ k1, Place T s it' o.length k k1 := by
  unfold fill at h
  split at h
  · simp at h
  · simp only [bind, Except.bind] at h
    split at h
    · simp at h
    · rename_i v hv
      obtain ⟨st1, rest, o1⟩ := v
      simp only at h
      have hne : it.next ≠ [] := by
        rw [hn]; intro e
        have := congrArg List.length e
        simp at this; omega
      obtain ⟨j, j1, j2, j3, j4, j5⟩ := fillLoop_takes it.next it.tr hv hne
      rw [hn, List.length_drop] at j2
      have take : ∀ i, s.take k ++ it.next.take i = s.take (k + i) := by
        intro i; rw [hn, List.take_add]
      have ek : emitted T s k = o.length := emitted_of hf
      have quiet : ∀ i, i < j → emitted T s (k + i) = o.length := by
        intro i hi
        obtain ⟨sti, h⟩ := j5 i hi
        have := feed_append hf h
        rw [take, List.append_nil] at this
        exact emitted_of this
      have last := feed_append hf j4
      rw [take] at last
      have hr : rest = s.drop (k + j) := by rw [j3, hn, List.drop_drop]
      by_cases hre : rest = []
      · subst hre
        simp only [List.isEmpty_nil, if_true] at h
        split at h
        · simp at h
        · rename_i w hw
          obtain ⟨st2, e⟩ := w
          simp only at h
          split at h
          · simp at h
          · have h := Except.ok.inj h
            have hlen : k + j = s.length := by
              have := congrArg List.length hr
              simp at this; omega
            subst h
            refine ⟨k + j, hn, hr, by omega, by omega, fun i h1 h2 => ?_, hb, by omega, fun h => by omega⟩
            rw [show i = k + (i - k) by omega, quiet _ (by omega), ek]
      · have hre' : rest.isEmpty = false := by simpa using hre
        simp only [hre', Bool.false_eq_true, if_false] at h
        split at h
        · simp at h
        · have h := Except.ok.inj h
          subst h
          refine ⟨k + j, hn, hr, by omega, by omega, fun i h1 h2 => ?_, hb, by omega, fun h => ?_⟩
          · rw [show i = k + (i - k) by omega, quiet _ (by omega), ek]
          · exact ⟨_, last, by simp⟩

/-- The position of the iterator after `n` increments, and the element there. -/
theorem iter_place (L : Lawful T Q I) {cap : Nat} (hQ : ∀ l, Q l → l.length ≤ cap) (s : List ι) {st : T.σ} {out : List ο} (h : T.run s = .ok (st, out)) :
    ∀ n, n ≤ out.length → ∃ it, iterN T cap s n = .ok it ∧
      ((n < out.length ∧ (∃ wf, Ahead T cap I it (out.drop n) wf) ∧ ∃ k0 k1, Place T s it n k0 k1) ∨ (n = out.length ∧ it.current = [])) := by
  intro n
  induction n with
  | zero =>
    intro _
    by_cases hs : s = []
    · subst hs
      have h' := Except.ok.inj ((run_of_feed (s := []) (o := []) (e := []) rfl L.endInit).symm.trans h)
      have e2 : [] = out := congrArg Prod.snd h'
      subst e2
      exact ⟨_, rfl, Or.inr ⟨rfl, rfl⟩⟩
    · obtain ⟨st', o, r, _⟩ := L.rest s T.init L.init hs
      have h' := Except.ok.inj (r.run.symm.trans h)
      have e1 : st' = st := congrArg Prod.fst h'
      have e2 : o = out := congrArg Prod.snd h'
      subst e1 e2
      obtain ⟨it, k1, k2, _⟩ := L.fill hQ { current := s, next := s, buf := [], tr := T.init, parentWf := true } rfl L.init hs r (fun _ => rfl)
      have hse : s.isEmpty = false := by simpa using hs
      have hl : 0 < o.length := by
        obtain ⟨_, b2, _, b4⟩ := k2
        have : 0 < it.buf.length := List.length_pos_iff.2 b2
        rcases b4 with ⟨_, _, _, _, _, _, e, _⟩ | ⟨_, e, _⟩ <;> rw [e] <;> simp <;> omega
      obtain ⟨k, hp⟩ := place_fill (s := s) (k := 0) (o := []) (List.length_pos_iff.2 hs) rfl rfl (fun i hi => by omega) k1
      exact ⟨it, by simp only [iterN, viewBegin, hse, Bool.false_eq_true, if_false, k1], Or.inl ⟨hl, ⟨_, k2⟩, 0, k, hp⟩⟩
  | succ n ih =>
    intro hn
    obtain ⟨it, i1, i2⟩ := ih (by omega)
    rcases i2 with ⟨hlt, ⟨wf, ha⟩, k0, k1, hp⟩ | ⟨he, _⟩
    · obtain ⟨a1, a2, a3, a4⟩ := ha
      obtain ⟨p1, p2, p3, p4, p5, p6, p7, p8⟩ := hp
      cases hbuf : it.buf with
      | nil => exact absurd hbuf a2
      | cons c b =>
        have drop : ∀ x, out.drop n = c :: x → out.drop (n + 1) = x ∧ out.length = n + 1 + x.length := by
          intro x hx
          have := congrArg List.length hx
          rw [List.length_drop, List.length_cons] at this
          refine ⟨?_, by omega⟩
          rw [← List.drop_drop, hx]; rfl
        by_cases hb : b = []
        · subst hb
          have hinc : it.incr T cap = Icu.fill T cap { it with buf := [] } := by simp [ViewIt.incr, hbuf]
          rcases a4 with ⟨n1, n2, n3, st'', rest, n4, n5, n6⟩ | ⟨n1, n2, n3, n4, st3, e3, n5, n6, n7⟩
          · obtain ⟨it', q1, q2, q3, q4⟩ := L.fill hQ { it with buf := [] } rfl n2 n1 n4 n3
            rw [hbuf] at n5
            obtain ⟨d1, d2⟩ := drop rest n5
            have hl : 0 < rest.length := by
              obtain ⟨_, b2, _, b4⟩ := q2
              have : 0 < it'.buf.length := List.length_pos_iff.2 b2
              rcases b4 with ⟨_, _, _, _, _, _, e, _⟩ | ⟨_, e, _⟩ <;> rw [e] <;> simp <;> omega
            have hk : k1 < s.length := by
              have : it.next.length ≠ 0 := by simpa using n1
              rw [p2, List.length_drop] at this
              omega
            obtain ⟨o, f1, f2⟩ := p8 hk
            rw [hbuf] at f2
            obtain ⟨k2, hp⟩ := place_fill (it := { it with buf := [] }) hk p2 f1 (fun i hi => by
              rw [emitted_of f1, f2]
              simp only [List.length_cons, List.length_nil]
              by_cases e : i < k0
              · have := p6 i e; omega
              · have := p5 i (by omega) hi; omega) q1
            rw [show o.length = n + 1 from f2] at hp
            exact ⟨it', by simp only [iterN, i1, bind, Except.bind, hinc, q1], Or.inl ⟨by omega, ⟨_, by rw [d1]; exact q2⟩, k1, k2, hp⟩⟩
          · rw [hbuf] at n2
            obtain ⟨d1, d2⟩ := drop [] n2
            have q1 : Icu.fill T cap { it with buf := [] } = .ok { current := [], next := [], buf := e3, tr := st3, parentWf := it.parentWf && T.wellFormed st3 } := by
              unfold Icu.fill
              simp only [List.isEmpty_nil, Bool.not_true, Bool.false_eq_true, if_false, n1, Icu.fillLoop, bind, Except.bind, if_true, n5, List.nil_append]
              rw [if_neg (by omega)]
            refine ⟨_, by simp only [iterN, i1, bind, Except.bind, hinc, q1]; rfl, Or.inr ⟨by simp at d2; omega, rfl⟩⟩
        · have hinc : it.incr T cap = .ok { it with buf := b } := by simp [ViewIt.incr, hbuf, hb]
          have hlen : b.length ≤ cap := by rw [hbuf, List.length_cons] at a3; omega
          have hbl : 0 < b.length := List.length_pos_iff.2 hb
          have hp' : Place T s { it with buf := b } (n + 1) k0 k1 := by
            refine ⟨p1, p2, p3, p4, p5, p6, by omega, fun h => ?_⟩
            obtain ⟨o, f1, f2⟩ := p8 h
            exact ⟨o, f1, by rw [f2, hbuf, List.length_cons]; simp only; omega⟩
          rcases a4 with ⟨n1, n2, n3, st'', rest, n4, n5, n6⟩ | ⟨n1, n2, n3, n4, st3, e3, n5⟩
          · rw [hbuf, List.cons_append] at n5
            obtain ⟨d1, d2⟩ := drop _ n5
            rw [List.length_append] at d2
            exact ⟨{ it with buf := b }, by simp only [iterN, i1, bind, Except.bind, hinc], Or.inl ⟨by omega, ⟨wf, a1, hb, hlen, Or.inl ⟨n1, n2, n3, st'', rest, n4, d1, n6⟩⟩, k0, k1, hp'⟩⟩
          · rw [hbuf] at n2
            obtain ⟨d1, d2⟩ := drop _ n2
            exact ⟨{ it with buf := b }, by simp only [iterN, i1, bind, Except.bind, hinc], Or.inl ⟨by omega, ⟨wf, a1, hb, hlen, Or.inr ⟨n1, d1, n3, n4, st3, e3, n5⟩⟩, k0, k1, hp'⟩⟩
    · omega

/-- The elements `m` and `n` are written for the same element of the input: there is no place in the input that is after one
of them has been written and before the other has. -/
def SameUnit (T : Transcoder ι ο) (s : List ι) (m n : Nat) : Prop :=
  ∀ p q, s = p ++ q → q ≠ [] → ∀ st o, T.feed T.init p = .ok (st, o) → (o.length ≤ m ↔ o.length ≤ n)

theorem sameUnit_iff (L : Lawful T Q I) (s : List ι) (m n : Nat) : SameUnit T s m n ↔ ∀ k, k < s.length → (emitted T s k ≤ m ↔ emitted T s k ≤ n) := by
  constructor
  · intro h k hk
    obtain ⟨st, o, h1, _⟩ := L.total.feed (s.take k) T.init L.total.init
    rw [emitted_of h1]
    refine h (s.take k) (s.drop k) (List.take_append_drop k s).symm ?_ st o h1
    intro e
    have := congrArg List.length e
    simp at this; omega
  · rintro h p q rfl hq st o ho
    have hk : p.length < (p ++ q).length := by
      have := List.length_pos_iff.2 hq
      simp; omega
    have := h p.length hk
    have e : emitted T (p ++ q) p.length = o.length := emitted_of (st := st) (by simpa using ho)
    rwa [e] at this

theorem Place.le_iff (L : Lawful T Q I) {s : List ι} {it : ViewIt ι ο T} {m k0 k1 : Nat} (h : Place T s it m k0 k1) (hb : it.buf ≠ []) (k : Nat) (hk : k < s.length) :
    emitted T s k ≤ m ↔ k < k1 := by
  obtain ⟨p1, p2, p3, p4, p5, p6, p7, p8⟩ := h
  constructor
  · intro h
    by_cases hk1 : k < k1
    · exact hk1
    · exfalso
      obtain ⟨o, f1, f2⟩ := p8 (by omega)
      have := emitted_mono L s k1 k (by omega)
      rw [emitted_of f1] at this
      have := List.length_pos_iff.2 hb
      omega
  · intro h
    by_cases e : k < k0
    · have := p6 k e; omega
    · have := p5 k (by omega) h; omega

theorem place_eq (L : Lawful T Q I) {s : List ι} {a b : ViewIt ι ο T} {m n k0 k1 j0 j1 : Nat} (ha : Place T s a m k0 k1) (hb : Place T s b n j0 j1)
    (ha' : a.buf ≠ []) (hb' : b.buf ≠ []) : a.eq b = true ↔ SameUnit T s m n := by
  have la := ha.le_iff L ha'
  have lb := hb.le_iff L hb'
  rw [sameUnit_iff L]
  have ea : a.current.length = s.length - k0 := by rw [ha.1, List.length_drop]
  have eb : b.current.length = s.length - j0 := by rw [hb.1, List.length_drop]
  obtain ⟨p1, p2, p3, p4, p5, p6, p7, p8⟩ := ha
  obtain ⟨q1, q2, q3, q4, q5, q6, q7, q8⟩ := hb
  clear p8 q8
  simp only [ViewIt.eq, beq_iff_eq, ea, eb]
  constructor
  · intro h
    have h : k0 = j0 := by omega
    subst h
    have : k1 = j1 := by
      rcases Nat.lt_trichotomy k1 j1 with h | h | h
      · exfalso
        have h1 := la k1 (by omega)
        have h2 := q5 k1 (by omega) h
        omega
      · exact h
      · exfalso
        have h1 := lb j1 (by omega)
        have h2 := p5 j1 (by omega) h
        omega
    subst this
    intro k hk
    rw [la k hk, lb k hk]
  · intro h
    have : k1 = j1 := by
      rcases Nat.lt_trichotomy k1 j1 with h' | h' | h'
      · have := h k1 (by omega)
        have h1 := la k1 (by omega)
        have h2 := lb k1 (by omega)
        omega
      · exact h'
      · have := h j1 (by omega)
        have h1 := la j1 (by omega)
        have h2 := lb j1 (by omega)
        omega
    subst this
    rcases Nat.lt_trichotomy k0 j0 with h' | h' | h'
    · have h1 := q6 k0 h'
      have h2 := p5 j0 (by omega) (by omega)
      omega
    · rw [h']
    · have h1 := p6 j0 h'
      have h2 := q5 k0 (by omega) (by omega)
      omega

/-- Equality of iterators, for every transcoder. -/
theorem iter_eq (L : Lawful T Q I) {cap : Nat} (hQ : ∀ l, Q l → l.length ≤ cap) (s : List ι) : ∃ st out, T.run s = .ok (st, out) ∧
    ∀ m n, m ≤ out.length → n ≤ out.length → ∃ a b, iterN T cap s m = .ok a ∧ iterN T cap s n = .ok b ∧
      (∀ c, out[m]? = some c → a.deref = .ok c) ∧ (a.atEnd = true ↔ m = out.length) ∧
      (a.eq b = true ↔ SameUnit T s m n ∧ (m = out.length ↔ n = out.length)) := by
  obtain ⟨st, out, h⟩ := L.run s
  refine ⟨st, out, h, fun m n hm hn => ?_⟩
  obtain ⟨a, a1, a2⟩ := iter_place L hQ s h m hm
  obtain ⟨b, b1, b2⟩ := iter_place L hQ s h n hn
  refine ⟨a, b, a1, b1, ?_, ?_, ?_⟩
  · intro c hc
    rcases a2 with ⟨k1, ⟨wf, k2⟩, k3⟩ | ⟨k1, _⟩
    · obtain ⟨_, b2, _, b4⟩ := k2
      cases hbuf : a.buf with
      | nil => exact absurd hbuf b2
      | cons d r =>
        have hd : (out.drop m)[0]? = some d := by
          rcases b4 with ⟨_, _, _, _, _, _, e, _⟩ | ⟨_, e, _⟩ <;> rw [e, hbuf] <;> simp
        rw [List.getElem?_drop, Nat.add_zero, hc] at hd
        cases hd
        simp [ViewIt.deref, hbuf]
    · rw [k1] at hc
      simp at hc
  · rcases a2 with ⟨k1, ⟨wf, k2⟩, k3⟩ | ⟨k1, k2⟩
    · constructor
      · intro e; exact absurd (by simpa [ViewIt.atEnd] using e) k2.1
      · omega
    · simp [ViewIt.atEnd, k1, k2]
  · rcases a2 with ⟨ka, ⟨wa, xa⟩, i0, i1, pa⟩ | ⟨ka, xa⟩ <;> rcases b2 with ⟨kb, ⟨wb, xb⟩, j0, j1, pb⟩ | ⟨kb, xb⟩
    · rw [place_eq L pa pb xa.2.1 xb.2.1]
      constructor
      · intro h; exact ⟨h, by omega⟩
      · exact fun h => h.1
    · have : a.current.length ≠ 0 := by simpa using xa.1
      constructor
      · intro e; simp only [ViewIt.eq, xb, beq_iff_eq, List.length_nil] at e; exact absurd e this
      · intro e; omega
    · have : b.current.length ≠ 0 := by simpa using xb.1
      constructor
      · intro e; simp only [ViewIt.eq, xa, beq_iff_eq, List.length_nil] at e; exact absurd e.symm this
      · intro e; omega
    · refine ⟨fun _ => ⟨?_, by omega⟩, fun _ => by simp [ViewIt.eq, xa, xb]⟩
      rw [ka, kb]
      exact fun _ _ _ _ _ _ _ => Iff.rfl

/-! ### Using the UTF-8 decoder again -/

/-- The decoder after a text: what it has written and the beginning of a sequence that it has pending. -/
theorem feed_whole : ∀ (s p : Str) (st : St8), At p st → ∃ st' o a p', t8_32.feed st s = .ok (st', o) ∧ At p' st' ∧ p ++ s = a ++ p' ∧ ReadsWhole a o := by
  intro s
  induction s with
  | nil => intro p st h; exact ⟨st, [], [], p, rfl, h, by simp, .nil⟩
  | cons b s ih =>
    intro p st h
    rcases h.step b with ⟨c, hc, hs⟩ | ⟨s', cp, hc, hs⟩ | ⟨cp, hc, hs⟩
    · obtain ⟨st', o, a, p', h1, h2, h3, h4⟩ := ih [] ⟨c, st.wf, 0⟩ (Or.inl ⟨rfl, rfl⟩)
      obtain ⟨hu, hsc⟩ := shape_utf8 hc
      refine ⟨st', c :: o, p ++ [b] ++ a, p', feed_cons hs h1, h2, ?_, ?_⟩
      · rw [List.nil_append] at h3
        rw [h3]; simp
      · have := ReadsWhole.char hsc h4
        rwa [hu] at this
    · obtain ⟨st', o, a, p', h1, h2, h3, h4⟩ := ih (p ++ [b]) ⟨cp, st.wf, s'⟩ (Or.inr hc)
      exact ⟨st', o, a, p', feed_cons hs h1, h2, by rw [← h3]; simp, h4⟩
    · obtain ⟨st', o, a, p', h1, h2, h3, h4⟩ := ih [] ⟨cp, false, 0⟩ (Or.inl ⟨rfl, rfl⟩)
      refine ⟨st', 0xFFFD :: o, p ++ b :: a, p', feed_cons hs h1, h2, ?_, ?_⟩
      · rw [List.nil_append] at h3
        rw [h3]; simp
      · refine .bad ?_ hc.1 hc.2 h4
        rcases h with ⟨rfl, _⟩ | h
        · exact Or.inl rfl
        · exact Or.inr ((truncated_iff p).2 ⟨_, _, h⟩)

/-- In the rejecting state every byte is lost. -/
theorem step_reject (cp : Nat) (wf : Bool) (b : UInt8) : ∃ cp', step8to32 ⟨cp, wf, 12⟩ b = .ok (⟨cp', false, 0⟩, [0xFFFD]) := by
  have h : trans 12 (cls b.toNat) = 12 := by
    have := forall_byte (P := fun b => decide (trans 12 (cls b.toNat) = 12)) (by decide +kernel) b
    exact of_decide_eq_true this
  refine ⟨nextCp 12 cp b.toNat, ?_⟩
  rw [step8_eq _ _ (by simp [Live])]
  simp only [h]
  rfl

/-! ### Using any transcoder again -/

/-- A transcoder from which a text is transcoded as from a new one. -/
def Ready {ι ο : Type} (T : Transcoder ι ο) (st : T.σ) : Prop :=
  ∀ t, ∃ st2 o2 st3 e2 st4, T.feed st t = .ok (st2, o2) ∧ T.endCp st2 = .ok (st3, e2) ∧ T.run t = .ok (st4, o2 ++ e2)

section
variable {ι ο : Type} {A : Transcoder ι Nat} {B : Transcoder Nat ο} {Q : List Nat → Prop} {I : A.σ → Prop} {f : Nat → List ο} {g : Nat → Bool} {cap : Nat}

theorem tri_feed (L : Lawful A Q I) (S : Simple B f g) (hQ : ∀ l, Q l → l.length ≤ cap) : ∀ (s : List ι) (a : A.σ) (b : B.σ), I a →
    ∀ {a' : A.σ} {o : List Nat}, A.feed a s = .ok (a', o) → ∃ b', (triangulator cap A B).feed (a, b) s = .ok ((a', b'), o.flatMap f) := by
  intro s
  induction s with
  | nil =>
    intro a b _ a' o h
    have h := Except.ok.inj (show Except.ok (a, []) = Except.ok (a', o) from h)
    have e1 : a = a' := congrArg Prod.fst h
    have e2 : [] = o := congrArg Prod.snd h
    subst e1 e2
    exact ⟨b, rfl⟩
  | cons c s ih =>
    intro a b hi a' o h
    obtain ⟨a1, o1, os, h1, h2, rfl⟩ := feed_split h
    obtain ⟨st', o', st'', e, st3, e3, k1, k2, k3, k4, _⟩ := L.step a c hi
    rw [h1] at k1
    have k1 := Except.ok.inj k1
    have e1 : a1 = st' := congrArg Prod.fst k1
    have e2 : o1 = o' := congrArg Prod.snd k1
    subst e1 e2
    obtain ⟨b1, t1, _⟩ := tri_step (cap := cap) S (b := b) h1 (hQ _ k4)
    obtain ⟨b2, t2⟩ := ih a1 b1 k2 h2
    exact ⟨b2, by rw [List.flatMap_append]; exact feed_cons t1 t2⟩

theorem tri_ready (L : Lawful A Q I) (S : Simple B f g) (hQ : ∀ l, Q l → l.length ≤ cap) {a : A.σ} (hi : I a) (b : B.σ) (h : Ready A a) :
    Ready (triangulator cap A B) (a, b) := by
  intro t
  obtain ⟨st2, o2, st3, e2, st4, h1, h2, h3⟩ := h t
  obtain ⟨b4, r4, _⟩ := tri_run (cap := cap) L S hQ t h3
  by_cases ht : t = []
  · subst ht
    have e0 := Except.ok.inj (show Except.ok (a, []) = Except.ok (st2, o2) from h1)
    have e1 : a = st2 := congrArg Prod.fst e0
    have e3 : [] = o2 := congrArg Prod.snd e0
    subst e1 e3
    have h4 := Except.ok.inj ((run_of_feed (T := A) (s := []) rfl L.endInit).symm.trans h3)
    have e4 : [] = [] ++ e2 := congrArg Prod.snd h4
    rw [List.nil_append] at e4
    subst e4
    obtain ⟨b1, t1, _⟩ := tri_end (cap := cap) (B := B) S (b := b) h2 (by simp)
    exact ⟨(a, b), [], _, _, _, rfl, t1, r4⟩
  · obtain ⟨b', k, _⟩ := tri_rest (cap := cap) L S hQ t a b hi ht st3 (o2 ++ e2) ⟨st2, o2, e2, h1, h2, rfl⟩
    obtain ⟨x, y, z, k1, k2, k3⟩ := k
    rw [k3] at r4
    exact ⟨x, y, _, z, _, k1, k2, r4⟩

end

theorem simple_ready {ι ο : Type} {T : Transcoder ι ο} {f : ι → List ο} {g : ι → Bool} (S : Simple T f g) (st : T.σ) : Ready T st := by
  intro t
  obtain ⟨st2, h1, _⟩ := S.feed t st
  obtain ⟨st4, h2, _⟩ := S.feed t T.init
  exact ⟨st2, _, st2, [], st4, h1, S.end_ _, run_of_feed h2 (S.end_ _)⟩

end Verif.Icu
