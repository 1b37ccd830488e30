import Verif.Model.Views
import Verif.Props.Shared

/-!
# Property C79: copies of a transcode view
-/

set_option linter.unusedSimpArgs false

namespace Verif.Icu
open Verif.Unicode

/-! ### Specification -/

/-- The farther of two places, if there are any. -/
def farther : Option Nat → Nat → Option Nat
  | none, k => some k
  | some r, k => some (max r k)

/-- After a program that never increments an iterator that is at the end (element `n`) and names only views and
iterators it has: for each view, the last element that an iterator of it has been at, or an iterator of the view it was
copied from before it was copied; for each iterator, its view and the number of elements it has passed. -/
inductive Places (n : Nat) : List ManyOp → List (Option Nat) → List (Nat × Nat) → Prop
  | nil : Places n [] [none] []
  | copyView {ops vs ps v r} : Places n ops vs ps → vs[v]? = some r → Places n (ops ++ [.copyView v]) (vs ++ [r]) ps
  | begin {ops vs ps v r} : Places n ops vs ps → vs[v]? = some r → Places n (ops ++ [.begin v]) (vs.set v (farther r 0)) (ps ++ [(v, 0)])
  | copy {ops vs ps i p} : Places n ops vs ps → ps[i]? = some p → Places n (ops ++ [.copy i]) vs (ps ++ [p])
  | assign {ops vs ps i j p q} : Places n ops vs ps → ps[i]? = some p → ps[j]? = some q → Places n (ops ++ [.assign i j]) vs (ps.set i q)
  | incr {ops vs ps i v k r} : Places n ops vs ps → ps[i]? = some (v, k) → k < n → vs[v]? = some r →
      Places n (ops ++ [.incr i]) (vs.set v (farther r (k + 1))) (ps.set i (v, k + 1))

/-- Whatever a program does with the copies of a view and their iterators: each iterator is at the element it should be
at; two iterators are equal only if they are of the same view, and of two of the same view as they would be
without the others; it is the end of its own view alone; and `well_formed ()` of a view is what it would be if it was the
only one and one iterator had gone as far as the farthest of its own: in particular it is true as long as it has
none, and tells whether the input is well-formed once one of its own has been at the end. -/
def ViewsAgree {ι ο : Type} (T : Transcoder ι ο) (cap : Nat) : Prop :=
  ∀ s : List ι, ∃ st out, T.run s = .ok (st, out) ∧ ∀ ops vs ps, Places out.length ops vs ps → ∃ w, useViews T cap s ops = .ok w ∧
    (∀ (i v k : Nat), ps[i]? = some (v, k) → ∃ it, w.its[i]? = some (v, it) ∧ (∀ c, out[k]? = some c → it.deref = .ok c) ∧
      (∀ u r, vs[u]? = some r → (w.isEnd i u = .ok true ↔ k = out.length ∧ v = u))) ∧
    (∀ (i j v u k m : Nat) (a b : ViewIt ι ο T), ps[i]? = some (v, k) → ps[j]? = some (u, m) → iterN T cap s k = .ok a → iterN T cap s m = .ok b →
      (w.same i j = .ok true ↔ a.eq b = true ∧ v = u)) ∧
    (∀ v : Nat, vs[v]? = some none → w.wellFormed v = .ok true) ∧
    (∀ (v k : Nat) (a : ViewIt ι ο T), vs[v]? = some (some k) → iterN T cap s k = .ok a → w.wellFormed v = .ok a.parentWf) ∧
    ∀ v : Nat, vs[v]? = some (some out.length) → w.wellFormed v = .ok (T.wellFormed st)

/-! ### Proof -/

section
variable {ι ο : Type} {T : Transcoder ι ο} {Q : List ο → Prop} {I : T.σ → Prop}

/-- What holds after any program; `g k` is the flag after `k` increments of one iterator. -/
structure ManyInv (T : Transcoder ι ο) (cap : Nat) (s : List ι) (n : Nat) (g : Nat → Bool) (w : Many ι ο T) (vs : List (Option Nat)) (ps : List (Nat × Nat)) : Prop where
  wfs : w.wfs = vs.map (fun r => match r with | none => true | some k => g k)
  far : ∀ (v r : Nat), vs[v]? = some (some r) → r ≤ n
  len : w.its.length = ps.length
  at' : ∀ (i v k : Nat), ps[i]? = some (v, k) → ∃ r a b, vs[v]? = some (some r) ∧ k ≤ r ∧ iterN T cap s k = .ok a ∧ w.its[i]? = some (v, { a with parentWf := b })

theorem set_map {α β : Type} (f : α → β) (l : List α) (i : Nat) (a : α) : (l.set i a).map f = (l.map f).set i (f a) := by
  rw [List.map_set]

/-- A view's place only moves on. -/
theorem farther_mono {vs : List (Option Nat)} {v u r k : Nat} {x : Option Nat} (hx : vs[v]? = some x) (h : vs[u]? = some (some r)) :
    ∃ r', (vs.set v (farther x k))[u]? = some (some r') ∧ r ≤ r' := by
  by_cases e : v = u
  · subst e
    rw [hx] at h
    cases h
    exact ⟨max r k, by rw [List.getElem?_set_self (List.getElem?_eq_some_iff.1 hx).1]; rfl, by omega⟩
  · exact ⟨r, by rw [List.getElem?_set_ne e]; exact h, Nat.le_refl _⟩

theorem farther_self {vs : List (Option Nat)} {v k : Nat} {x : Option Nat} (hx : vs[v]? = some x) :
    ∃ r', (vs.set v (farther x k))[v]? = some (some r') ∧ k ≤ r' := by
  rw [List.getElem?_set_self (List.getElem?_eq_some_iff.1 hx).1]
  cases x with
  | none => exact ⟨k, rfl, Nat.le_refl _⟩
  | some r => exact ⟨max r k, rfl, by omega⟩

theorem farther_le {vs : List (Option Nat)} {v k n : Nat} {x : Option Nat} (hx : vs[v]? = some x) (hk : k ≤ n) (h : ∀ (u r : Nat), vs[u]? = some (some r) → r ≤ n) :
    ∀ (u r : Nat), (vs.set v (farther x k))[u]? = some (some r) → r ≤ n := by
  intro u r hu
  by_cases e : v = u
  · subst e
    rw [List.getElem?_set_self (List.getElem?_eq_some_iff.1 hx).1] at hu
    cases x with
    | none => cases hu; exact hk
    | some y =>
      have := h v y hx
      cases hu; omega
  · rw [List.getElem?_set_ne e] at hu
    exact h u r hu

theorem many_run {cap : Nat} {s : List ι} {n : Nat} (g : Nat → Bool) (hok : ∀ k, k ≤ n → ∃ a, iterN T cap s k = .ok a ∧ a.parentWf = g k)
    (hdown : ∀ k m, k ≤ m → m ≤ n → g m = true → g k = true) {ops : List ManyOp} {vs : List (Option Nat)} {ps : List (Nat × Nat)} (h : Places n ops vs ps) :
    ∃ w, useViews T cap s ops = .ok w ∧ ManyInv T cap s n g w vs ps := by
  have app : ∀ {ops o w w'}, useViews T cap s ops = .ok w → w.step T cap s o = .ok w' → useViews T cap s (ops ++ [o]) = .ok w' := by
    intro ops o w w' h1 h2
    unfold useViews at *
    rw [List.foldlM_append, h1]
    simp [bind, Except.bind, h2, pure, Except.pure]
  have gmax : ∀ k m, k ≤ n → m ≤ n → g (max k m) = (g k && g m) := by
    intro k m hk hm
    rcases Nat.le_total k m with e | e
    · rw [Nat.max_eq_right e]
      cases hg : g m with
      | false => simp
      | true => rw [hdown k m e hm hg]; rfl
    · rw [Nat.max_eq_left e]
      cases hg : g k with
      | false => simp
      | true => rw [hdown m k e hk hg]; rfl
  have wf : ∀ {w : Many ι ο T} {vs : List (Option Nat)} {ps} {v : Nat} {r}, ManyInv T cap s n g w vs ps → vs[v]? = some r → w.wellFormed v = .ok (match r with | none => true | some k => g k) := by
    intro w vs ps v r hi hv
    unfold Many.wellFormed
    rw [hi.wfs, List.getElem?_map, hv]
    rfl
  have get : ∀ {w : Many ι ο T} {vs ps} {i : Nat} {it}, ManyInv T cap s n g w vs ps → w.its[i]? = some it → w.get i = .ok it := by
    intro w vs ps i it hi hv
    unfold Many.get
    rw [hv]
  have out : ∀ {ps : List (Nat × Nat)} {l : List (Nat × ViewIt ι ο T)} {p x} {i : Nat} {q}, l.length = ps.length → (ps ++ [p])[i]? = some q →
      (ps[i]? = some q ∧ ((l ++ [x])[i]? = l[i]?)) ∨ (q = p ∧ (l ++ [x])[i]? = some x) := by
    intro ps l p x i q hl hq
    rcases Nat.lt_trichotomy i ps.length with hlt | heq | hgt
    · rw [List.getElem?_append_left hlt] at hq
      exact .inl ⟨hq, List.getElem?_append_left (by rw [hl]; exact hlt)⟩
    · subst heq
      rw [List.getElem?_concat_length] at hq
      cases hq
      refine .inr ⟨rfl, ?_⟩
      rw [← hl, List.getElem?_concat_length]
    · rw [List.getElem?_eq_none (by simp; omega)] at hq
      simp at hq
  induction h with
  | nil => exact ⟨_, rfl, ⟨rfl, by
      intro v r hv
      match v with
      | 0 => simp at hv
      | v + 1 => simp at hv, rfl, by simp⟩⟩
  | @copyView ops vs ps v r _ hv ih =>
    obtain ⟨w, h1, h2⟩ := ih
    have hw := wf h2 hv
    refine ⟨⟨w.wfs ++ [match r with | none => true | some k => g k], w.its⟩, app h1 (by simp only [Many.step, hw, bind, Except.bind]),
      ⟨by show w.wfs ++ _ = _; rw [h2.wfs, List.map_append, List.map_singleton], ?_, h2.len, ?_⟩⟩
    · intro u k hu
      rcases Nat.lt_trichotomy u vs.length with hlt | heq | hgt
      · rw [List.getElem?_append_left hlt] at hu
        exact h2.far u k hu
      · subst heq
        rw [List.getElem?_concat_length] at hu
        cases hu
        exact h2.far v k hv
      · rw [List.getElem?_eq_none (by simp; omega)] at hu
        simp at hu
    · intro i u k hi
      obtain ⟨x, a, b, q1, q2⟩ := h2.at' i u k hi
      exact ⟨x, a, b, by rw [List.getElem?_append_left (List.getElem?_eq_some_iff.1 q1).1]; exact q1, q2⟩
  | @begin ops vs ps v r _ hv ih =>
    obtain ⟨w, h1, h2⟩ := ih
    have hw := wf h2 hv
    obtain ⟨a, h0, hg0⟩ := hok 0 (Nat.zero_le _)
    generalize hb : (match r with | none => true | some k => g k) = b at hw
    obtain ⟨it', e1, e2⟩ : ∃ it', (if s.isEmpty then .ok { current := s, next := s, buf := [], tr := T.init, parentWf := b } else
        fill T cap { current := s, next := s, buf := [], tr := T.init, parentWf := b }) = .ok it' ∧ it' = { a with parentWf := b && g 0 } := by
      simp only [iterN, viewBegin] at h0
      split at h0
      · rename_i he
        rw [if_pos he]
        cases h0
        exact ⟨_, rfl, by rw [← hg0]; simp⟩
      · rename_i he
        rw [if_neg he]
        obtain ⟨f, k1, k2⟩ := fill_flag b h0
        have : f = g 0 := by rw [← hg0, k1]; simp
        exact ⟨_, k2, by rw [this]⟩
    refine ⟨⟨w.wfs.set v it'.parentWf, w.its ++ [(v, it')]⟩, app h1 ?_, ⟨?_, farther_le hv (Nat.zero_le _) h2.far, by simp [h2.len], ?_⟩⟩
    · simp only [Many.step, hw, bind, Except.bind]
      by_cases he : s.isEmpty = true
      · rw [if_pos he] at e1 ⊢
        cases e1; rfl
      · rw [if_neg he] at e1 ⊢
        rw [e1]
    · show w.wfs.set v it'.parentWf = _
      rw [e2, set_map, ← h2.wfs]
      congr 1
      rw [← hb]
      cases r with
      | none => simp [farther]
      | some k => simp only [farther]; rw [gmax k 0 (h2.far v k hv) (Nat.zero_le _)]
    · intro i u k hi
      rcases out (x := (v, it')) h2.len hi with ⟨k1, k2⟩ | ⟨k1, k2⟩
      · obtain ⟨x, a', b', q1, q2, q3, q4⟩ := h2.at' i u k k1
        obtain ⟨x', m1, m2⟩ := farther_mono (k := 0) hv q1
        exact ⟨x', a', b', m1, by omega, q3, by rw [k2]; exact q4⟩
      · cases k1
        obtain ⟨x', m1, m2⟩ := farther_self (k := 0) hv
        exact ⟨x', a, _, m1, m2, h0, by rw [k2, e2]⟩
  | @copy ops vs ps i p _ hk ih =>
    obtain ⟨w, h1, h2⟩ := ih
    obtain ⟨v, k⟩ := p
    obtain ⟨x, a, b, q1, q2, q3, q4⟩ := h2.at' i v k hk
    refine ⟨⟨w.wfs, w.its ++ [(v, { a with parentWf := b })]⟩, app h1 (by simp only [Many.step, get h2 q4, bind, Except.bind]), ⟨h2.wfs, h2.far, by simp [h2.len], ?_⟩⟩
    intro j u m hm
    rcases out (x := (v, { a with parentWf := b })) h2.len hm with ⟨k1, k2⟩ | ⟨k1, k2⟩
    · obtain ⟨x', a', b', m1, m2, m3, m4⟩ := h2.at' j u m k1
      exact ⟨x', a', b', m1, m2, m3, by rw [k2]; exact m4⟩
    · cases k1
      exact ⟨x, a, b, q1, q2, q3, k2⟩
  | @assign ops vs ps i j p q _ hp hq ih =>
    obtain ⟨w, h1, h2⟩ := ih
    obtain ⟨v, k⟩ := p
    obtain ⟨u, m⟩ := q
    obtain ⟨_, _, _, _, _, _, p4⟩ := h2.at' i v k hp
    obtain ⟨x, a, b, q1, q2, q3, q4⟩ := h2.at' j u m hq
    refine ⟨⟨w.wfs, w.its.set i (u, { a with parentWf := b })⟩, app h1 (by simp only [Many.step, get h2 p4, get h2 q4, bind, Except.bind]), ⟨h2.wfs, h2.far, by simp [h2.len], ?_⟩⟩
    intro l u' m' hl
    by_cases e : i = l
    · subst e
      rw [List.getElem?_set_self (List.getElem?_eq_some_iff.1 hp).1] at hl
      cases hl
      exact ⟨x, a, b, q1, q2, q3, List.getElem?_set_self (List.getElem?_eq_some_iff.1 p4).1⟩
    · rw [List.getElem?_set_ne e] at hl
      obtain ⟨x', a', b', m1, m2, m3, m4⟩ := h2.at' l u' m' hl
      exact ⟨x', a', b', m1, m2, m3, by show (w.its.set i _)[l]? = _; rw [List.getElem?_set_ne e]; exact m4⟩
  | @incr ops vs ps i v k r _ hi hn hv ih =>
    obtain ⟨w, h1, h2⟩ := ih
    obtain ⟨x, a, b, q1, q2, q3, q4⟩ := h2.at' i v k hi
    have hr : r = some x := by rw [hv] at q1; cases q1; rfl
    subst hr
    have hw : w.wellFormed v = .ok (g x) := wf h2 hv
    obtain ⟨a0, z1, hga⟩ := hok k (by omega)
    rw [q3] at z1
    cases z1
    obtain ⟨c, g4, hgc⟩ := hok (k + 1) hn
    have g5 : a.incr T cap = .ok c := by
      have := g4
      simpa [iterN, q3, bind, Except.bind] using this
    obtain ⟨f, g6, g7⟩ := incr_flag (g x) g5
    rw [hga, hgc] at g6
    refine ⟨⟨w.wfs.set v (g x && f), w.its.set i (v, { c with parentWf := g x && f })⟩, app h1 ?_, ⟨?_, farther_le hv hn h2.far, by simp [h2.len], ?_⟩⟩
    · simp only [Many.step, get h2 q4, hw, bind, Except.bind, g7]
    · show w.wfs.set v (g x && f) = _
      rw [set_map, ← h2.wfs]
      congr 1
      simp only [farther]
      rw [gmax x (k + 1) (h2.far v x hv) hn, g6]
      cases hgx : g x with
      | false => rfl
      | true => rw [hdown k x q2 (h2.far v x hv) hgx]; simp
    · intro l u m hl
      by_cases e : i = l
      · subst e
        rw [List.getElem?_set_self (List.getElem?_eq_some_iff.1 hi).1] at hl
        cases hl
        obtain ⟨x', m1, m2⟩ := farther_self (k := k + 1) hv
        exact ⟨x', c, _, m1, m2, g4, List.getElem?_set_self (List.getElem?_eq_some_iff.1 q4).1⟩
      · rw [List.getElem?_set_ne e] at hl
        obtain ⟨x', a', b', m1, m2, m3, m4⟩ := h2.at' l u m hl
        obtain ⟨y, n1, n2⟩ := farther_mono (k := k + 1) hv m1
        exact ⟨y, a', b', n1, by omega, m3, by show (w.its.set i _)[l]? = _; rw [List.getElem?_set_ne e]; exact m4⟩

theorem views_agree {cap : Nat} (L : Lawful T Q I) (hQ : ∀ l, Q l → l.length ≤ cap) : ViewsAgree T cap := by
  intro s
  obtain ⟨st, out, h1, hv⟩ := L.view hQ s
  obtain ⟨st', out', h1', hc⟩ := iter_eq L hQ s
  rw [h1] at h1'
  cases h1'
  refine ⟨st, out, h1, ?_⟩
  obtain ⟨z, hz, hzw⟩ := iter_end hv
  have hok : ∀ k, k ≤ out.length → ∃ a, iterN T cap s k = .ok a := fun k hk => by
    obtain ⟨a, _, h, _⟩ := hc k k hk hk
    exact ⟨a, h⟩
  let g : Nat → Bool := fun k => match iterN T cap s k with | .ok a => a.parentWf | .error _ => true
  have hg : ∀ k a, iterN T cap s k = .ok a → a.parentWf = g k := by
    intro k a h
    simp only [g, h]
  have hok' : ∀ k, k ≤ out.length → ∃ a, iterN T cap s k = .ok a ∧ a.parentWf = g k := fun k hk => by
    obtain ⟨a, h⟩ := hok k hk
    exact ⟨a, h, hg k a h⟩
  have hdown : ∀ k m, k ≤ m → m ≤ out.length → g m = true → g k = true := by
    intro k m hkm hm e
    obtain ⟨a, ha, ga⟩ := hok' k (by omega)
    obtain ⟨b, hb, gb⟩ := hok' m hm
    rw [← ga]
    exact latch (m := m - k) ha (by rw [show k + (m - k) = m by omega]; exact hb) (by rw [gb]; exact e)
  intro ops vs ps hp
  obtain ⟨w, hw, hinv⟩ := many_run g hok' hdown hp
  have wfm : ∀ (v : Nat) (r : Option Nat), vs[v]? = some r → w.wellFormed v = .ok (match r with | none => true | some k => g k) := by
    intro v r hv
    unfold Many.wellFormed
    rw [hinv.wfs, List.getElem?_map, hv]
    rfl
  refine ⟨w, hw, ?_, ?_, ?_, ?_, ?_⟩
  · intro i v k hi
    obtain ⟨x, a, b, q1, q2, q3, q4⟩ := hinv.at' i v k hi
    have hk : k ≤ out.length := by have := hinv.far v x q1; omega
    obtain ⟨a', _, ha', _, hd, he, _⟩ := hc k k hk hk
    rw [q3] at ha'
    cases ha'
    refine ⟨_, q4, hd, ?_⟩
    intro u r hu
    have : w.isEnd i u = .ok (a.atEnd && v == u) := by
      unfold Many.isEnd Many.get
      rw [q4, wfm u r hu]
      rfl
    rw [this]
    simp [he]
  · intro i j v u k m a b hi hj ha hb
    obtain ⟨_, a', _, _, _, q3, q4⟩ := hinv.at' i v k hi
    obtain ⟨_, b', _, _, _, r3, r4⟩ := hinv.at' j u m hj
    rw [ha] at q3
    rw [hb] at r3
    cases q3; cases r3
    have : w.same i j = .ok (a.eq b && v == u) := by
      unfold Many.same Many.get
      rw [q4, r4]
      rfl
    rw [this]
    simp
  · intro v hv
    exact wfm v none hv
  · intro v k a hv ha
    rw [wfm v (some k) hv, hg k a ha]
  · intro v hv
    rw [wfm v _ hv, ← hzw, hg _ z hz]

end

end Verif.Icu

namespace Verif
open Verif.Unicode Verif.Icu

/-! ### C79 -/

theorem C79_utf8_utf32 : ViewsAgree t8_32 maxOut32 := views_agree lawful8_32 hQ1
theorem C79_utf8_utf16 : ViewsAgree t8_16 maxOut16 := views_agree lawful8_16 (by
  rintro l ⟨m, rfl | ⟨c, rfl⟩, rfl⟩
  · simp
  · simpa [maxOut16] using utf16_len _)
theorem C79_utf8_utf8 : ViewsAgree t8_8 maxOut8 := views_agree lawful8_8 (by
  rintro l ⟨m, rfl | ⟨c, rfl⟩, rfl⟩
  · simp
  · simpa [maxOut8] using utf8_len _)
theorem C79_utf16_utf32 : ViewsAgree t16_32 maxOut16to32 := views_agree lawful16_32 Q16_len
theorem C79_utf16_utf8 : ViewsAgree t16_8 maxOut16to8 := views_agree lawful16_8 (by
  rintro l ⟨m, rfl | ⟨c, rfl⟩ | ⟨a, b, rfl, ha, hb⟩, rfl⟩
  · simp
  · have := utf8_len (fixCp c)
    simp [maxOut16to8]; omega
  · have := utf8_len_bmp _ (fixCp_bmp ha)
    have := utf8_len_bmp _ (fixCp_bmp hb)
    simp [maxOut16to8]; omega)
theorem C79_utf16_utf16 : ViewsAgree t16_16 maxOut16 := views_agree lawful16_16 (by
  rintro l ⟨m, rfl | ⟨c, rfl⟩ | ⟨a, b, rfl, ha, hb⟩, rfl⟩
  · simp
  · simpa [maxOut16] using utf16_len _
  · have := utf16_len_bmp _ (fixCp_bmp ha)
    have := utf16_len_bmp _ (fixCp_bmp hb)
    simp [maxOut16]; omega)
theorem C79_utf32_utf8 : ViewsAgree t32_8 maxOut8 := views_agree simple32_8.lawful (by
  rintro l (rfl | ⟨c, rfl⟩)
  · simp
  · exact utf8_len _)
theorem C79_utf32_utf16 : ViewsAgree t32_16 maxOut16 := views_agree simple32_16.lawful (by
  rintro l (rfl | ⟨c, rfl⟩)
  · simp
  · exact utf16_len _)
theorem C79_utf32_utf32 : ViewsAgree t32_32 maxOut32 := views_agree simple32_32.lawful (by rintro l (rfl | ⟨c, rfl⟩) <;> simp [maxOut32])

/-- A view of a malformed text is copied, as `view | std::views::transform (f)` does, and the copy is traversed: the
copy knows, the original does not; a copy made of the copy then knows at once. -/
theorem C79_copy_counterexample : Places 1 [.copyView 0, .begin 1, .incr 0, .copyView 1] [none, some 1, some 1] [(1, 1)] ∧
    (useViews t8_32 maxOut32 [0xC3] [.copyView 0, .begin 1, .incr 0, .copyView 1]).map (fun w => (w.wellFormed 0, w.wellFormed 1, w.wellFormed 2)) =
      .ok (.ok true, .ok false, .ok false) ∧
    (useViews t8_32 maxOut32 [0xC3] [.copyView 0, .begin 1, .incr 0, .copyView 1]).map (fun w => (w.isEnd 0 0, w.isEnd 0 1)) = .ok (.ok false, .ok true) :=
  ⟨(((Places.nil.copyView (v := 0) rfl).begin (v := 1) rfl).incr (i := 0) (k := 0) rfl (by decide) rfl).copyView (v := 1) rfl, by decide +kernel, by decide +kernel⟩

end Verif
