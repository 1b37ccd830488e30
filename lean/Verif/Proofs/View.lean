import Verif.Proofs.Utf16

/-!
# The lazy view, and conversions through UTF-32
-/

set_option linter.unusedSimpArgs false
set_option linter.unusedVariables false

namespace Verif.Icu
open Verif.Unicode

/-- A transcoder of which every chunk written between two code units satisfies `Q`, that never
swallows the last code unit, and that keeps `well_formed ()` false. -/
structure Lawful {ι ο : Type} (T : Transcoder ι ο) (Q : List ο → Prop) (I : T.σ → Prop) : Prop where
  init : I T.init
  wfInit : T.wellFormed T.init = true
  endInit : T.endCp T.init = .ok (T.init, [])
  step : ∀ st c, I st → ∃ st' o st'' e st3 e3, T.step st c = .ok (st', o) ∧ I st' ∧
    (T.wellFormed st' = true → T.wellFormed st = true) ∧ Q o ∧ T.endCp st' = .ok (st'', e) ∧
    (T.wellFormed st'' = true → T.wellFormed st' = true) ∧ Q e ∧ Q (o ++ e) ∧ (o = [] → e ≠ []) ∧ T.endCp st'' = .ok (st3, e3) ∧ Q e3 ∧
    T.wellFormed st3 = T.wellFormed st''

section
variable {ι ο : Type} {T : Transcoder ι ο} {Q : List ο → Prop} {I : T.σ → Prop}

theorem Lawful.mono {Q' : List ο → Prop} (L : Lawful T Q I) (h : ∀ l, Q l → Q' l) : Lawful T Q' I where
  init := L.init
  wfInit := L.wfInit
  endInit := L.endInit
  step st c hi := by
    obtain ⟨st', o, st'', e, st3, e3, h1, h2, h3, h4, h5, h6, h6', h7, h8, h9, h10, h11⟩ := L.step st c hi
    exact ⟨st', o, st'', e, st3, e3, h1, h2, h3, h _ h4, h5, h6, h _ h6', h _ h7, h8, h9, h _ h10, h11⟩

/-- The rest of a text. -/
structure RestOk (T : Transcoder ι ο) (st : T.σ) (s : List ι) (st'' : T.σ) (out : List ο) : Prop where
  ex : ∃ st' o e, T.feed st s = .ok (st', o) ∧ T.endCp st' = .ok (st'', e) ∧ out = o ++ e

theorem RestOk.cons {st st' st'' : T.σ} {c : ι} {s : List ι} {o out : List ο} (h : T.step st c = .ok (st', o)) (h' : RestOk T st' s st'' out) :
    RestOk T st (c :: s) st'' (o ++ out) := by
  obtain ⟨a, b, d, h1, h2, h3⟩ := h'
  exact ⟨a, o ++ b, d, feed_cons h h1, h2, by rw [h3, List.append_assoc]⟩

theorem RestOk.run {st'' : T.σ} {s : List ι} {out : List ο} (h : RestOk T T.init s st'' out) : T.run s = .ok (st'', out) := by
  obtain ⟨a, b, d, h1, h2, rfl⟩ := h
  exact run_of_feed h1 h2

theorem Lawful.rest (L : Lawful T Q I) : ∀ (s : List ι) (st : T.σ), I st → s ≠ [] → ∃ st'' out, RestOk T st s st'' out ∧
    (T.wellFormed st'' = true → T.wellFormed st = true) := by
  intro s
  induction s with
  | nil => intro st _ h; exact absurd rfl h
  | cons c s ih =>
    intro st hi _
    obtain ⟨st', o, st'', e, st3, e3, h1, h2, h3, h4, h5, h6, h6', h7, h8, h9, h10, h11⟩ := L.step st c hi
    cases s with
    | nil => exact ⟨st'', o ++ e, ⟨st', o, e, feed_one h1, h5, rfl⟩, fun h => h3 (h6 h)⟩
    | cons d s =>
      obtain ⟨st4, out, r1, r2⟩ := ih st' h2 (by simp)
      exact ⟨st4, o ++ out, r1.cons h1, fun h => h3 (r2 h)⟩

theorem Lawful.run (L : Lawful T Q I) (s : List ι) : ∃ st out, T.run s = .ok (st, out) := by
  by_cases hs : s = []
  · subst hs
    exact ⟨T.init, [], run_of_feed (s := []) (o := []) (e := []) rfl L.endInit⟩
  · obtain ⟨st, out, h, _⟩ := L.rest s T.init L.init hs
    exact ⟨st, out, h.run⟩

/-- The loop of `fill` up to the first chunk, and the rest of the text from there. -/
theorem Lawful.fillLoop (L : Lawful T Q I) {cap : Nat} (hQ : ∀ l, Q l → l.length ≤ cap) : ∀ (s : List ι) (st : T.σ), I st → s ≠ [] →
    ∃ st' rest o, fillLoop T cap st s = .ok (st', rest, o) ∧ I st' ∧ rest.length < s.length ∧ Q o ∧
      (T.wellFormed st' = true → T.wellFormed st = true) ∧ (rest ≠ [] → o ≠ []) ∧
      (∀ st'' out, RestOk T st' rest st'' out → RestOk T st s st'' (o ++ out)) ∧
      (rest = [] → ∃ st'' e st3 e3, T.endCp st' = .ok (st'', e) ∧ (T.wellFormed st'' = true → T.wellFormed st' = true) ∧ Q (o ++ e) ∧ o ++ e ≠ [] ∧
        T.endCp st'' = .ok (st3, e3) ∧ Q e3 ∧ T.wellFormed st3 = T.wellFormed st'') := by
  intro s
  induction s with
  | nil => intro st _ h; exact absurd rfl h
  | cons c s ih =>
    intro st hi _
    obtain ⟨st', o, st'', e, st3, e3, h1, h2, h3, h4, h5, h6, h6', h7, h8, h9, h10, h11⟩ := L.step st c hi
    have hl := hQ o h4
    by_cases ho : o = []
    · subst ho
      cases s with
      | nil =>
        refine ⟨st', [], [], by simp [Icu.fillLoop, h1, bind, Except.bind], h2, by simp, h4, h3, by simp, fun _ _ r => r.cons h1, fun _ => ?_⟩
        exact ⟨st'', e, st3, e3, h5, h6, h7, by simpa using h8 rfl, h9, h10, h11⟩
      | cons d s =>
        obtain ⟨a, b, d', g1, g2, g3, g4, g5, g6, g7, g8⟩ := ih st' h2 (by simp)
        refine ⟨a, b, d', ?_, g2, by simp only [List.length_cons] at *; omega, g4, fun h => h3 (g5 h), g6, fun _ _ r => ?_, g8⟩
        · rw [Icu.fillLoop]
          simp [h1, bind, Except.bind, g1]
        · exact (g7 _ _ r).cons (o := []) h1
    · refine ⟨st', s, o, ?_, h2, by simp, h4, h3, fun _ => ho, fun _ _ r => r.cons h1, fun hs => ?_⟩
      · rw [Icu.fillLoop]
        simp only [h1, bind, Except.bind]
        rw [if_neg (by omega), if_neg (by simpa using ho)]
      · exact ⟨st'', e, st3, e3, h5, h6, h7, by simp [ho], h9, h10, h11⟩

/-- What an iterator that is not at the end has before it. -/
def Ahead (T : Transcoder ι ο) (cap : Nat) (I : T.σ → Prop) (it : ViewIt ι ο T) (out : List ο) (wf : Bool) : Prop :=
  it.current ≠ [] ∧ it.buf ≠ [] ∧ it.buf.length ≤ cap ∧
  ((it.next ≠ [] ∧ I it.tr ∧ (T.wellFormed it.tr = true → it.parentWf = true) ∧ ∃ st'' rest, RestOk T it.tr it.next st'' rest ∧ out = it.buf ++ rest ∧
      wf = T.wellFormed st'') ∨
   (it.next = [] ∧ out = it.buf ∧ wf = it.parentWf ∧ wf = T.wellFormed it.tr ∧ ∃ st3 e3, T.endCp it.tr = .ok (st3, e3) ∧ e3.length ≤ cap ∧
      T.wellFormed st3 = T.wellFormed it.tr))

/-- `fill` with input left. -/
theorem Lawful.fill (L : Lawful T Q I) {cap : Nat} (hQ : ∀ l, Q l → l.length ≤ cap) (it : ViewIt ι ο T) (hb : it.buf = []) (hi : I it.tr)
    (hn : it.next ≠ []) {st'' : T.σ} {out : List ο} (hr : RestOk T it.tr it.next st'' out) (hw : T.wellFormed it.tr = true → it.parentWf = true) :
    ∃ it', fill T cap it = .ok it' ∧ Ahead T cap I it' out (T.wellFormed st'') ∧ it'.next.length < it.next.length ∧ it'.current = it.next := by
  obtain ⟨st', rest, o, g1, g2, g3, g4, g5, g6, g7, g8⟩ := L.fillLoop hQ it.next it.tr hi hn
  have uniq : ∀ st1 out1, RestOk T it.tr it.next st1 out1 → st1 = st'' ∧ out1 = out := by
    intro st1 out1 ⟨a, b, d, k1, k2, k3⟩
    obtain ⟨a', b', d', k1', k2', k3'⟩ := hr
    rw [k1] at k1'
    have e1 := Except.ok.inj k1'
    have e2 : a = a' := congrArg Prod.fst e1
    have e3 : b = b' := congrArg Prod.snd e1
    subst e2
    rw [k2] at k2'
    have e4 := Except.ok.inj k2'
    exact ⟨congrArg Prod.fst e4, by rw [k3, k3', e3, show d = d' from congrArg Prod.snd e4]⟩
  by_cases hrest : rest = []
  · subst hrest
    obtain ⟨st2, e, st3, e3, f1, f2, f3, f4, f5, f6, f7⟩ := g8 rfl
    have hl := hQ _ f3
    obtain ⟨u1, u2⟩ := uniq _ _ (g7 st2 e ⟨st', [], e, rfl, f1, rfl⟩)
    subst u1
    refine ⟨{ current := it.next, next := [], buf := o ++ e, tr := st2, parentWf := it.parentWf && T.wellFormed st2 }, ?_, ?_, g3, rfl⟩
    · unfold Icu.fill
      simp only [hb, List.isEmpty_nil, Bool.not_true, Bool.false_eq_true, if_false, g1, bind, Except.bind, if_true, f1]
      rw [if_neg (by omega)]
    · have : T.wellFormed st2 = (it.parentWf && T.wellFormed st2) := by
        cases hx : T.wellFormed st2 with
        | false => simp
        | true => rw [hw (g5 (f2 hx))]; rfl
      exact ⟨hn, f4, hl, Or.inr ⟨rfl, u2.symm, this, rfl, st3, e3, f5, hQ _ f6, f7⟩⟩
  · have hl := hQ _ g4
    obtain ⟨st2, out2, r1, r2⟩ := L.rest rest st' g2 hrest
    obtain ⟨u1, u2⟩ := uniq _ _ (g7 st2 out2 r1)
    subst u1
    refine ⟨{ current := it.next, next := rest, buf := o ++ [], tr := st', parentWf := it.parentWf && T.wellFormed st' }, ?_, ?_, g3, rfl⟩
    · unfold Icu.fill
      have : rest.isEmpty = false := by simpa using hrest
      simp only [hb, List.isEmpty_nil, Bool.not_true, Bool.false_eq_true, if_false, g1, bind, Except.bind, this]
      rw [if_neg (by simpa using hl)]
    · refine ⟨hn, by simpa using g6 hrest, by simpa using hl, Or.inl ⟨hrest, g2, fun h => ?_, st2, out2, r1, by simp [← u2], rfl⟩⟩
      simp only [h, Bool.and_true]
      exact hw (g5 h)

/-- The loop to the end. -/
theorem Lawful.viewLoop (L : Lawful T Q I) {cap : Nat} (hQ : ∀ l, Q l → l.length ≤ cap) : ∀ (fuel : Nat) (it : ViewIt ι ο T) (out : List ο) (wf : Bool),
    Ahead T cap I it out wf → it.buf.length + cap * it.next.length < fuel →
    ∃ it', viewLoop T cap fuel it = .ok (it', out) ∧ it'.parentWf = wf := by
  intro fuel
  induction fuel with
  | zero => intro it out wf _ h; omega
  | succ fuel ih =>
    intro it out wf ha hf
    obtain ⟨a1, a2, a3, a4⟩ := ha
    cases hbuf : it.buf with
    | nil => exact absurd hbuf a2
    | cons c b =>
      have hat : it.atEnd = false := by simpa [ViewIt.atEnd] using a1
      have hd : it.deref = .ok c := by simp [ViewIt.deref, hbuf]
      have red : ∀ {it1 it2 : ViewIt ι ο T} {cs : List ο}, it.incr T cap = .ok it1 → Icu.viewLoop T cap fuel it1 = .ok (it2, cs) →
          Icu.viewLoop T cap (fuel + 1) it = .ok (it2, c :: cs) := by
        intro it1 it2 cs h1 h2
        rw [Icu.viewLoop, hat]
        simp only [Bool.false_eq_true, if_false, hd, h1, h2, bind, Except.bind]
      rw [hbuf, List.length_cons] at hf
      by_cases hb : b = []
      · subst hb
        have hinc : it.incr T cap = Icu.fill T cap { it with buf := [] } := by simp [ViewIt.incr, hbuf]
        rcases a4 with ⟨n1, n2, n3, st'', rest, n4, n5, n6⟩ | ⟨n1, n2, n3, n4, st3, e3, n5, n6, n7⟩
        · obtain ⟨it', k1, k2, k3, k4⟩ := L.fill hQ { it with buf := [] } rfl n2 n1 n4 n3
          have hbl : it'.buf.length ≤ cap := k2.2.2.1
          obtain ⟨it2, j1, j2⟩ := ih it' rest (T.wellFormed st'') k2 (by
            have k3 : it'.next.length + 1 ≤ it.next.length := k3
            have := Nat.mul_le_mul_left cap k3
            rw [Nat.mul_add] at this
            omega)
          rw [n5, hbuf]
          exact ⟨it2, red (hinc.trans k1) j1, by rw [j2, n6]⟩
        · have k1 : Icu.fill T cap { it with buf := [] } = .ok { current := [], next := [], buf := e3, tr := st3, parentWf := it.parentWf && T.wellFormed st3 } := by
            unfold Icu.fill
            simp only [List.isEmpty_nil, Bool.not_true, Bool.false_eq_true, if_false, n1, Icu.fillLoop, bind, Except.bind, if_true, n5, List.nil_append]
            rw [if_neg (by omega)]
          rw [n2, hbuf]
          cases fuel with
          | zero => omega
          | succ f =>
            refine ⟨_, red (hinc.trans k1) (by rw [Icu.viewLoop]; simp [ViewIt.atEnd]; rfl), ?_⟩
            simp only [n7, ← n4, ← n3]
            cases wf <;> rfl
      · have hinc : it.incr T cap = .ok { it with buf := b } := by simp [ViewIt.incr, hbuf, hb]
        have hlen : b.length ≤ cap := by rw [hbuf, List.length_cons] at a3; omega
        rcases a4 with ⟨n1, n2, n3, st'', rest, n4, n5, n6⟩ | ⟨n1, n2, n3, n4, st3, e3, n5⟩
        · obtain ⟨it2, j1, j2⟩ := ih { it with buf := b } (b ++ rest) wf
            ⟨a1, hb, hlen, Or.inl ⟨n1, n2, n3, st'', rest, n4, rfl, n6⟩⟩ (by simp only; omega)
          refine ⟨it2, ?_, j2⟩
          rw [n5, hbuf]
          exact red hinc j1
        · obtain ⟨it2, j1, j2⟩ := ih { it with buf := b } b wf
            ⟨a1, hb, hlen, Or.inr ⟨n1, rfl, n3, n4, st3, e3, n5⟩⟩ (by simp only; omega)
          refine ⟨it2, ?_, j2⟩
          rw [n2, hbuf]
          exact red hinc j1

/-- The view yields what the transcoder writes, and agrees with it whether the text is well-formed. -/
theorem Lawful.view (L : Lawful T Q I) {cap : Nat} (hQ : ∀ l, Q l → l.length ≤ cap) (s : List ι) :
    ∃ st out, T.run s = .ok (st, out) ∧ viewRun T cap s = .ok (out, T.wellFormed st) := by
  by_cases hs : s = []
  · subst hs
    refine ⟨T.init, [], run_of_feed (s := []) (o := []) (e := []) rfl L.endInit, ?_⟩
    simp only [viewRun, viewBegin, List.isEmpty_nil, if_true, bind, Except.bind, Icu.viewLoop, ViewIt.atEnd, L.wfInit]
  · obtain ⟨st, out, r, _⟩ := L.rest s T.init L.init hs
    refine ⟨st, out, r.run, ?_⟩
    obtain ⟨it, k1, k2, k3, k4⟩ := L.fill hQ { current := s, next := s, buf := [], tr := T.init, parentWf := true } rfl L.init hs r (fun _ => rfl)
    obtain ⟨it', j1, j2⟩ := L.viewLoop hQ (cap * s.length + 1) it out _ k2 (by
      have k3 : it.next.length + 1 ≤ s.length := k3
      have := Nat.mul_le_mul_left cap k3
      have := k2.2.2.1
      rw [Nat.mul_add] at *
      omega)
    have hse : s.isEmpty = false := by simpa using hs
    simp only [viewRun, viewBegin, hse, Bool.false_eq_true, if_false, bind, Except.bind, k1, j1, j2]

end

/-! ### The transcoders are lawful -/

/-- Transcoders that write something for every code unit and need no `end_cp`. -/
structure Simple {ι ο : Type} (T : Transcoder ι ο) (f : ι → List ο) (g : ι → Bool) : Prop where
  wfInit : T.wellFormed T.init = true
  step : ∀ st c, ∃ st', T.step st c = .ok (st', f c) ∧ T.wellFormed st' = (T.wellFormed st && g c)
  end_ : ∀ st, T.endCp st = .ok (st, [])
  ne : ∀ c, f c ≠ []

theorem Simple.feed {ι ο : Type} {T : Transcoder ι ο} {f : ι → List ο} {g : ι → Bool} (S : Simple T f g) : ∀ (s : List ι) (st : T.σ),
    ∃ st', T.feed st s = .ok (st', s.flatMap f) ∧ T.wellFormed st' = (T.wellFormed st && s.all g) := by
  intro s
  induction s with
  | nil => intro st; exact ⟨st, rfl, by simp⟩
  | cons c s ih =>
    intro st
    obtain ⟨st1, h1, h2⟩ := S.step st c
    obtain ⟨st2, h3, h4⟩ := ih st1
    exact ⟨st2, feed_cons h1 h3, by rw [h4, h2, List.all_cons, Bool.and_assoc]⟩

theorem Simple.lawful {ι ο : Type} {T : Transcoder ι ο} {f : ι → List ο} {g : ι → Bool} (S : Simple T f g) :
    Lawful T (fun l => l = [] ∨ ∃ c, l = f c) (fun _ => True) where
  init := trivial
  wfInit := S.wfInit
  endInit := S.end_ _
  step st c _ := by
    obtain ⟨st', h1, h2⟩ := S.step st c
    refine ⟨st', f c, st', [], st', [], h1, trivial, ?_, Or.inr ⟨c, rfl⟩, S.end_ _, id, Or.inl rfl, Or.inr ⟨c, by simp⟩, fun h => absurd h (S.ne c),
      S.end_ _, Or.inl rfl, rfl⟩
    rw [h2]
    simp only [Bool.and_eq_true]
    exact And.left

theorem utf8_ne (c : Nat) : utf8 c ≠ [] := by
  unfold utf8; repeat' split
  all_goals simp

theorem utf8_len (c : Nat) : (utf8 c).length ≤ 4 := by
  unfold utf8; repeat' split
  all_goals simp

theorem utf8_len_bmp (c : Nat) (h : c < 0x10000) : (utf8 c).length ≤ 3 := by
  unfold utf8; repeat' split
  all_goals first | omega | simp

theorem utf16_ne (c : Nat) : utf16 c ≠ [] := by
  unfold utf16; split <;> simp

theorem utf16_len (c : Nat) : (utf16 c).length ≤ 2 := by
  unfold utf16; split <;> simp

theorem utf16_len_bmp (c : Nat) (h : c < 0x10000) : (utf16 c).length = 1 := by
  unfold utf16; simp [h]

theorem simple32_8 : Simple t32_8 (fun c => utf8 (fixCp c)) (fun c => decide (Scalar c)) where
  wfInit := rfl
  step st c := ⟨_, step32to8_eq st c, rfl⟩
  end_ _ := rfl
  ne c := utf8_ne _

theorem simple32_16 : Simple t32_16 (fun c => utf16 (fixCp c)) (fun c => decide (Scalar c)) where
  wfInit := rfl
  step st c := ⟨_, step32to16_eq st c, rfl⟩
  end_ _ := rfl
  ne c := utf16_ne _

theorem simple32_32 : Simple t32_32 (fun c => [fixCp c]) (fun c => decide (Scalar c)) where
  wfInit := rfl
  step st c := ⟨_, step32to32_eq st c, rfl⟩
  end_ _ := rfl
  ne c := by simp

theorem lawful8_32 : Lawful t8_32 (fun l => l = [] ∨ ∃ c, l = [c]) (fun st => ∃ p, At p st) where
  init := ⟨[], Or.inl ⟨rfl, rfl⟩⟩
  wfInit := rfl
  endInit := rfl
  step st b := by
    rintro ⟨p, hp⟩
    rcases hp.step b with ⟨c, hc, hs⟩ | ⟨s', cp, hc, hs⟩ | ⟨cp, hc, hs⟩
    · exact ⟨⟨c, st.wf, 0⟩, [c], ⟨c, st.wf, 0⟩, [], ⟨c, st.wf, 0⟩, [], hs, ⟨[], Or.inl ⟨rfl, rfl⟩⟩, id, Or.inr ⟨_, rfl⟩, rfl, id, Or.inl rfl,
        Or.inr ⟨c, rfl⟩, by simp, rfl, Or.inl rfl, rfl⟩
    · have hne := hc.live.2.1
      refine ⟨⟨cp, st.wf, s'⟩, [], ⟨cp, false, 12⟩, [0xFFFD], ⟨cp, false, 12⟩, [0xFFFD], hs, ⟨_, Or.inr hc⟩, id, Or.inl rfl, ?_, ?_, Or.inr ⟨_, rfl⟩,
        Or.inr ⟨_, rfl⟩, by simp, rfl, Or.inr ⟨_, rfl⟩, rfl⟩
      · simp [t8_32, endCp8to32, hne, accept, reject, replacementChar]
      · intro h; exact absurd h (by simp [t8_32])
    · exact ⟨⟨cp, false, 0⟩, [0xFFFD], ⟨cp, false, 0⟩, [], ⟨cp, false, 0⟩, [], hs, ⟨[], Or.inl ⟨rfl, rfl⟩⟩, fun h => absurd h (by simp [t8_32]),
        Or.inr ⟨_, rfl⟩, rfl, id, Or.inl rfl, Or.inr ⟨_, rfl⟩, by simp, rfl, Or.inl rfl, rfl⟩

/-- The chunks of the UTF-16 decoder. -/
def Q16 (l : List Nat) : Prop := l = [] ∨ (∃ c, l = [c]) ∨ ∃ a b, l = [a, b] ∧ a < 0x10000 ∧ b < 0x10000

theorem end16_none (st : St16) (h : st.hasHigh = false) : t16_32.endCp st = .ok (st, []) := by simp [t16_32, endCp16to32, h]
theorem end16_some (st : St16) (h : st.hasHigh = true) : t16_32.endCp st = .ok (⟨0, false, false⟩, [0xFFFD]) := by
  simp [t16_32, endCp16to32, h, replacementChar]

theorem lawful16_32 : Lawful t16_32 Q16 (fun _ => True) where
  init := trivial
  wfInit := rfl
  endInit := rfl
  step st u _ := by
    have h0 : Q16 [] := Or.inl rfl
    have h1 : ∀ c, Q16 [c] := fun c => Or.inr (Or.inl ⟨c, rfl⟩)
    cases hh : st.hasHigh with
    | false =>
      by_cases hu : High u
      · refine ⟨_, [], ⟨0, false, false⟩, [0xFFFD], ⟨0, false, false⟩, [], step16_high st u hh hu, trivial, id, h0, end16_some _ rfl,
          fun h => absurd h (by simp [t16_32]), h1 _, h1 _, by simp, rfl, h0, rfl⟩
      · by_cases hl : Low u
        · exact ⟨_, [0xFFFD], _, [], _, [], step16_low st u hh hl, trivial, fun h => absurd h (by simp [t16_32]), h1 _, end16_none _ hh, id, h0, h1 _,
            by simp, end16_none _ hh, h0, rfl⟩
        · exact ⟨_, [u.toNat], _, [], _, [], step16_bmp st u hh hu hl, trivial, id, h1 _, end16_none _ hh, id, h0, h1 _,
            by simp, end16_none _ hh, h0, rfl⟩
    | true =>
      by_cases hl : Low u
      · exact ⟨_, _, _, [], _, [], step16_pair st u hh hl, trivial, id, h1 _, end16_none _ rfl, id, h0, h1 _, by simp, end16_none _ rfl, h0, rfl⟩
      · by_cases hu : High u
        · exact ⟨_, [0xFFFD], ⟨0, false, false⟩, [0xFFFD], ⟨0, false, false⟩, [], step16_high_high st u hh hu, trivial,
            fun h => absurd h (by simp [t16_32]), h1 _, end16_some _ hh, fun h => absurd h (by simp [t16_32]), h1 _,
            Or.inr (Or.inr ⟨_, _, rfl, by omega, by omega⟩), by simp, rfl, h0, rfl⟩
        · have := u.toNat_lt
          have h2 : Q16 [0xFFFD, u.toNat] := Or.inr (Or.inr ⟨_, _, rfl, by omega, by omega⟩)
          exact ⟨_, [0xFFFD, u.toNat], _, [], _, [], step16_high_bmp st u hh hu hl, trivial, fun h => absurd h (by simp [t16_32]), h2,
            end16_none _ rfl, id, h0, h2, by simp, end16_none _ rfl, h0, rfl⟩

/-! ### Through UTF-32 -/

section
variable {ι ο : Type} {A : Transcoder ι Nat} {B : Transcoder Nat ο} {Q : List Nat → Prop} {I : A.σ → Prop} {f : Nat → List ο} {g : Nat → Bool} {cap : Nat}

theorem tri_step (S : Simple B f g) {a a' : A.σ} {b : B.σ} {c : ι} {o : List Nat} (h : A.step a c = .ok (a', o)) (hl : o.length ≤ cap) :
    ∃ b', (triangulator cap A B).step (a, b) c = .ok ((a', b'), o.flatMap f) ∧ B.wellFormed b' = (B.wellFormed b && o.all g) := by
  obtain ⟨b', h1, h2⟩ := S.feed o b
  refine ⟨b', ?_, h2⟩
  simp only [triangulator, triCopy, h, bind, Except.bind, h1]
  rw [if_neg (by omega)]

theorem tri_end (S : Simple B f g) {a a' : A.σ} {b : B.σ} {o : List Nat} (h : A.endCp a = .ok (a', o)) (hl : o.length ≤ cap) :
    ∃ b', (triangulator cap A B).endCp (a, b) = .ok ((a', b'), o.flatMap f) ∧ B.wellFormed b' = (B.wellFormed b && o.all g) := by
  obtain ⟨b', h1, h2⟩ := S.feed o b
  refine ⟨b', ?_, h2⟩
  simp only [triangulator, triCopy, h, bind, Except.bind, h1, S.end_, List.append_nil]
  rw [if_neg (by omega)]

theorem tri_rest (L : Lawful A Q I) (S : Simple B f g) (hQ : ∀ l, Q l → l.length ≤ cap) : ∀ (s : List ι) (a : A.σ) (b : B.σ), I a → s ≠ [] →
    ∀ a'' out, RestOk A a s a'' out → ∃ b'', RestOk (triangulator cap A B) (a, b) s (a'', b'') (out.flatMap f) ∧
      B.wellFormed b'' = (B.wellFormed b && out.all g) := by
  intro s
  induction s with
  | nil => intro _ _ _ h; exact absurd rfl h
  | cons c s ih =>
    intro a b hi _ a'' out hr
    obtain ⟨st', o, st'', e, st3, e3, h1, h2, h3, h4, h5, h6, h6', h7, h8, h9, h10, h11⟩ := L.step a c hi
    have hl1 := hQ _ h4
    have hl2 := hQ _ h6'
    obtain ⟨b1, t1, t2⟩ := tri_step (cap := cap) S (b := b) h1 hl1
    obtain ⟨x, y, z, k1, k2, k3⟩ := hr
    simp only [Transcoder.feed, h1, bind, Except.bind] at k1
    split at k1
    · simp at k1
    · rename_i w hw
      have k1 := Except.ok.inj k1
      have e1 : w.1 = x := congrArg Prod.fst k1
      have e2 : o ++ w.2 = y := congrArg Prod.snd k1
      subst e1 e2
      cases s with
      | nil =>
        have e3 := Except.ok.inj (show Except.ok (st', []) = Except.ok w from hw)
        subst e3
        rw [h5] at k2
        have k2 := Except.ok.inj k2
        have e4 : st'' = a'' := congrArg Prod.fst k2
        have e5 : e = z := congrArg Prod.snd k2
        subst e4 e5
        obtain ⟨b2, t3, t4⟩ := tri_end (cap := cap) (B := B) S (b := b1) h5 hl2
        refine ⟨b2, ⟨_, _, _, feed_one t1, t3, ?_⟩, ?_⟩
        · rw [k3]; simp
        · rw [t4, t2, k3]; simp [Bool.and_assoc]
      | cons d s =>
        obtain ⟨b2, t3, t4⟩ := ih st' b1 h2 (by simp) a'' (w.2 ++ z) ⟨w.1, w.2, z, hw, k2, rfl⟩
        refine ⟨b2, ?_, ?_⟩
        · have := t3.cons t1
          rw [k3]
          simpa using this
        · rw [t4, t2, k3]; simp [Bool.and_assoc]

/-- A conversion through UTF-32 is the composition of the two. -/
theorem tri_run (L : Lawful A Q I) (S : Simple B f g) (hQ : ∀ l, Q l → l.length ≤ cap) (s : List ι) {a : A.σ} {out : List Nat} (h : A.run s = .ok (a, out)) :
    ∃ b, (triangulator cap A B).run s = .ok ((a, b), out.flatMap f) ∧ B.wellFormed b = out.all g := by
  by_cases hs : s = []
  · subst hs
    have h' := Except.ok.inj ((run_of_feed (T := A) (s := []) rfl L.endInit).symm.trans h)
    have e1 : A.init = a := congrArg Prod.fst h'
    have e2 : [] = out := congrArg Prod.snd h'
    subst e1 e2
    obtain ⟨b, t1, t2⟩ := tri_end (cap := cap) (B := B) S (b := B.init) L.endInit (by simp)
    exact ⟨b, run_of_feed (T := triangulator cap A B) (s := []) rfl t1, by rw [t2, S.wfInit]; rfl⟩
  · obtain ⟨st, o, r, _⟩ := L.rest s A.init L.init hs
    have h' := Except.ok.inj (r.run.symm.trans h)
    have e1 : st = a := congrArg Prod.fst h'
    have e2 : o = out := congrArg Prod.snd h'
    subst e1 e2
    obtain ⟨b, t1, t2⟩ := tri_rest L S hQ s A.init B.init L.init hs _ _ r
    exact ⟨b, RestOk.run t1, by rw [t2, S.wfInit, Bool.true_and]⟩

theorem flatMap_ne (S : Simple B f g) {l : List Nat} (h : l.flatMap f = []) : l = [] := by
  cases l with
  | nil => rfl
  | cons c l =>
    rw [List.flatMap_cons] at h
    exact absurd (List.append_eq_nil_iff.1 h).1 (S.ne c)

/-- A conversion through UTF-32 is lawful. -/
theorem tri_lawful (L : Lawful A Q I) (S : Simple B f g) (hQ : ∀ l, Q l → l.length ≤ cap) 
    (hg2 : ∀ a c a' o a'' e a3 e3, I a → A.step a c = .ok (a', o) → A.endCp a' = .ok (a'', e) → A.endCp a'' = .ok (a3, e3) → e3.all g = true) :
    Lawful (triangulator cap A B) (fun l => ∃ m, Q m ∧ l = m.flatMap f) (fun st => I st.1) where
  init := L.init
  wfInit := by simp [triangulator, L.wfInit, S.wfInit]
  endInit := by
    simp only [triangulator, triCopy, L.endInit, bind, Except.bind, List.length_nil, Transcoder.feed, S.end_]
    rw [if_neg (by omega)]
    rfl
  step st c hi := by
    obtain ⟨st', o, st'', e, st3, e3, h1, h2, h3, h4, h5, h6, h6', h7, h8, h9, h10, h11⟩ := L.step st.1 c hi
    obtain ⟨b1, t1, t2⟩ := tri_step (cap := cap) S (b := st.2) h1 (hQ _ h4)
    obtain ⟨b2, t3, t4⟩ := tri_end (cap := cap) (B := B) S (b := b1) h5 (hQ _ h6')
    obtain ⟨b3, t5, t6⟩ := tri_end (cap := cap) (B := B) S (b := b2) h9 (hQ _ h10)
    refine ⟨(st', b1), _, (st'', b2), _, (st3, b3), _, t1, h2, ?_, ⟨o, h4, rfl⟩, t3, ?_, ⟨e, h6', rfl⟩, ⟨o ++ e, h7, by simp⟩, ?_, t5, ⟨e3, h10, rfl⟩, ?_⟩
    · simp only [triangulator, Bool.and_eq_true, t2]
      exact fun h => ⟨h3 h.1, h.2.1⟩
    · simp only [triangulator, Bool.and_eq_true, t4]
      exact fun h => ⟨h6 h.1, h.2.1⟩
    · exact fun ho he => h8 (flatMap_ne S ho) (flatMap_ne S he)
    · simp only [triangulator, h11, t6]
      rw [hg2 st.1 c _ _ _ _ _ _ hi h1 h5 h9]
      simp

end

end Verif.Icu
