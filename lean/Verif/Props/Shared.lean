import Verif.Model.Shared
import Verif.Props.IcuReuse

/-!
# Property C63: several iterators over one transcode view
-/

set_option linter.unusedSimpArgs false

namespace Verif.Icu
open Verif.Unicode

/-! ### Specification -/

/-- Where the iterators are, as numbers of elements passed, after a program that never increments an iterator
that is at the end (element `n`) and names only iterators it has. -/
inductive Positions (n : Nat) : List ViewOp → List Nat → Prop
  | nil : Positions n [] []
  | begin {ops ps} : Positions n ops ps → Positions n (ops ++ [.begin]) (ps ++ [0])
  | copy {ops ps i k} : Positions n ops ps → ps[i]? = some k → Positions n (ops ++ [.copy i]) (ps ++ [k])
  | assign {ops ps i j k m} : Positions n ops ps → ps[i]? = some k → ps[j]? = some m → Positions n (ops ++ [.assign i j]) (ps.set i m)
  | incr {ops ps i k} : Positions n ops ps → ps[i]? = some k → k < n → Positions n (ops ++ [.incr i]) (ps.set i (k + 1))

/-- Whatever a program does with the iterators of a view: each is at the element it should be at, however
the others were moved; `well_formed ()` is true as long as nothing is wrong with the input, and once any
iterator has been at the end it is true iff the input is well-formed, for good. -/
def SharedAgrees {ι ο : Type} (T : Transcoder ι ο) (cap : Nat) : Prop :=
  ∀ s : List ι, ∃ st out, T.run s = .ok (st, out) ∧ ∀ ops ps, Positions out.length ops ps → ∃ w, useView T cap s ops = .ok w ∧
    w.its.length = ps.length ∧
    (∀ (i : Nat) (k : Nat) (it : ViewIt ι ο T), ps[i]? = some k → w.its[i]? = some it → (∀ c, out[k]? = some c → it.deref = .ok c) ∧ (it.atEnd = true ↔ k = out.length)) ∧
    (T.wellFormed st = true → w.wf = true) ∧
    ∀ before after ps', ops = before ++ after → Positions out.length before ps' → out.length ∈ ps' → w.wf = T.wellFormed st

/-! ### Proof -/

section
variable {ι ο : Type} {T : Transcoder ι ο} {Q : List ο → Prop} {I : T.σ → Prop}

theorem loop_iterN {cap : Nat} {s : List ι} : ∀ (fuel n : Nat) (it it' : ViewIt ι ο T) (cs : List ο), iterN T cap s n = .ok it →
    viewLoop T cap fuel it = .ok (it', cs) → iterN T cap s (n + cs.length) = .ok it' := by
  intro fuel
  induction fuel with
  | zero => intro n it it' cs _ h; simp [viewLoop] at h
  | succ fuel ih =>
    intro n it it' cs h k
    rw [viewLoop] at k
    split at k
    · cases k; simpa using h
    · cases hd : it.deref with
      | error e => rw [hd] at k; simp [bind, Except.bind] at k
      | ok c =>
        cases hi : it.incr T cap with
        | error e => rw [hd, hi] at k; simp [bind, Except.bind] at k
        | ok it1 =>
          cases hl : viewLoop T cap fuel it1 with
          | error e => rw [hd, hi] at k; simp [bind, Except.bind, hl] at k
          | ok r =>
            rw [hd, hi] at k
            simp only [bind, Except.bind, hl, Except.ok.injEq, Prod.mk.injEq] at k
            obtain ⟨rfl, rfl⟩ := k
            have h1 : iterN T cap s (n + 1) = .ok it1 := by simp [iterN, h, bind, Except.bind, hi]
            have := ih (n + 1) it1 r.1 r.2 h1 hl
            rw [List.length_cons, show n + (r.2.length + 1) = n + 1 + r.2.length by omega]
            exact this

theorem iter_end {cap : Nat} {s : List ι} {out : List ο} {wf : Bool} (h : viewRun T cap s = .ok (out, wf)) :
    ∃ a, iterN T cap s out.length = .ok a ∧ a.parentWf = wf := by
  unfold viewRun at h
  cases hb : viewBegin T cap s with
  | error e => rw [hb] at h; simp [bind, Except.bind] at h
  | ok it =>
    cases hl : viewLoop T cap (cap * s.length + 1) it with
    | error e => rw [hb] at h; simp [bind, Except.bind, hl] at h
    | ok r =>
      rw [hb] at h
      simp only [bind, Except.bind, hl, Except.ok.injEq, Prod.mk.injEq] at h
      obtain ⟨rfl, rfl⟩ := h
      have := loop_iterN _ 0 it r.1 r.2 hb hl
      rw [Nat.zero_add] at this
      exact ⟨_, this, rfl⟩

/-- What `fill` and `++` do to the flag, and that they do nothing else with it. -/
theorem fill_flag {cap : Nat} {it r : ViewIt ι ο T} (b : Bool) (h : fill T cap it = .ok r) :
    ∃ f : Bool, r.parentWf = (it.parentWf && f) ∧ fill T cap { it with parentWf := b } = .ok { r with parentWf := b && f } := by
  unfold fill at h ⊢
  split at h
  · simp at h
  · rename_i hb
    rw [if_neg hb]
    cases hl : fillLoop T cap it.tr it.next with
    | error e => rw [hl] at h; simp [bind, Except.bind] at h
    | ok x =>
      obtain ⟨st, rest, o⟩ := x
      rw [hl] at h
      simp only [bind, Except.bind] at h ⊢
      by_cases hr : rest.isEmpty = true
      · rw [if_pos hr] at h ⊢
        cases he : T.endCp st with
        | error e => rw [he] at h; simp at h
        | ok x =>
          rw [he] at h
          simp only at h ⊢
          split at h
          · simp at h
          · rename_i hc
            rw [if_neg hc]
            cases h
            exact ⟨_, rfl, rfl⟩
      · rw [if_neg hr] at h ⊢
        split at h
        · simp at h
        · rename_i hc
          rw [if_neg hc]
          cases h
          exact ⟨_, rfl, rfl⟩

theorem incr_flag {cap : Nat} {it r : ViewIt ι ο T} (b : Bool) (h : it.incr T cap = .ok r) :
    ∃ f : Bool, r.parentWf = (it.parentWf && f) ∧ { it with parentWf := b }.incr T cap = .ok { r with parentWf := b && f } := by
  unfold ViewIt.incr at h ⊢
  simp only
  cases hb : it.buf with
  | nil => rw [hb] at h; simp at h
  | cons c bs =>
    rw [hb] at h
    simp only at h ⊢
    split at h
    · rename_i he
      rw [if_pos he]
      exact fill_flag b h
    · rename_i he
      rw [if_neg he]
      cases h
      exact ⟨true, by simp, by simp⟩

theorem latch {cap : Nat} {s : List ι} {n m : Nat} {a b : ViewIt ι ο T} (hn : iterN T cap s n = .ok a) (hm : iterN T cap s (n + m) = .ok b) (h : b.parentWf = true) :
    a.parentWf = true := by
  induction m generalizing b with
  | zero => rw [Nat.add_zero, hn] at hm; cases hm; exact h
  | succ m ih =>
    rw [← Nat.add_assoc, iterN] at hm
    cases hx : iterN T cap s (n + m) with
    | error e => rw [hx] at hm; simp [bind, Except.bind] at hm
    | ok x =>
      rw [hx] at hm
      obtain ⟨f, hf, _⟩ := incr_flag true hm
      rw [h] at hf
      exact ih hx (by revert hf; cases x.parentWf <;> simp)

/-- What holds after any program. -/
structure Inv (T : Transcoder ι ο) (cap : Nat) (s : List ι) (n : Nat) (good : Bool) (w : Shared ι ο T) (ps : List Nat) : Prop where
  len : w.its.length = ps.length
  at' : ∀ (i k : Nat) (it : ViewIt ι ο T), ps[i]? = some k → w.its[i]? = some it → k ≤ n ∧ ∃ a b, iterN T cap s k = .ok a ∧ it = { a with parentWf := b } ∧ (w.wf = true → a.parentWf = true)
  bad : w.wf = false → good = false

theorem inv_begin {cap : Nat} {s : List ι} {n : Nat} {good : Bool} {w : Shared ι ο T} {ps : List Nat}
    (hlatch : ∀ k a, k ≤ n → iterN T cap s k = .ok a → a.parentWf = false → good = false) (h : Inv T cap s n good w ps) {a : ViewIt ι ο T} (h0 : iterN T cap s 0 = .ok a) :
    ∃ w', w.step T cap s .begin = .ok w' ∧ Inv T cap s n good w' (ps ++ [0]) ∧ (w'.wf = true → w.wf = true) := by
  obtain ⟨it', f, e1, e2, e3⟩ : ∃ it' f, (if s.isEmpty then .ok { current := s, next := s, buf := [], tr := T.init, parentWf := w.wf } else
      fill T cap { current := s, next := s, buf := [], tr := T.init, parentWf := w.wf }) = .ok it' ∧ it' = { a with parentWf := w.wf && f } ∧ a.parentWf = f := by
    simp only [iterN, viewBegin] at h0
    split at h0
    · rename_i he
      rw [if_pos he]
      cases h0
      exact ⟨_, true, rfl, by simp, rfl⟩
    · rename_i he
      rw [if_neg he]
      obtain ⟨f, h1, h2⟩ := fill_flag w.wf h0
      exact ⟨_, f, h2, rfl, by simpa using h1⟩
  have hp : it'.parentWf = (w.wf && f) := by rw [e2]
  refine ⟨⟨it'.parentWf, w.its ++ [it']⟩, ?_, ⟨by simp [h.len], ?_, ?_⟩, ?_⟩
  · simp only [Shared.step, bind, Except.bind]
    by_cases he : s.isEmpty = true
    · rw [if_pos he] at e1 ⊢
      cases e1; rfl
    · rw [if_neg he] at e1 ⊢
      rw [e1]
  · intro i k it hk hi
    rcases Nat.lt_trichotomy i ps.length with hlt | heq | hgt
    · rw [List.getElem?_append_left hlt] at hk
      rw [List.getElem?_append_left (by rw [h.len]; exact hlt)] at hi
      obtain ⟨h1, x, b, h2, h3, h4⟩ := h.at' i k it hk hi
      refine ⟨h1, x, b, h2, h3, fun hw => h4 ?_⟩
      simp only [hp] at hw
      revert hw; cases w.wf <;> simp
    · subst heq
      rw [List.getElem?_concat_length] at hk
      rw [← h.len, List.getElem?_concat_length] at hi
      cases hk; cases hi
      refine ⟨Nat.zero_le _, a, _, h0, e2, fun hw => ?_⟩
      simp only [hp] at hw
      rw [e3]
      revert hw; cases f <;> simp
    · rw [List.getElem?_eq_none (by simp; omega)] at hk
      simp at hk
  · intro hw
    simp only [hp] at hw
    cases hww : w.wf with
    | false => exact h.bad hww
    | true => rw [hww] at hw; exact hlatch 0 a (Nat.zero_le _) h0 (by rw [e3]; simpa using hw)
  · intro hw
    simp only [hp] at hw
    revert hw; cases w.wf <;> simp

theorem inv_run {cap : Nat} {s : List ι} {n : Nat} {good : Bool} (hlatch : ∀ k a, k ≤ n → iterN T cap s k = .ok a → a.parentWf = false → good = false)
    (hok : ∀ k, k ≤ n → ∃ a, iterN T cap s k = .ok a) {ops : List ViewOp} {ps : List Nat} (h : Positions n ops ps) :
    ∃ w, useView T cap s ops = .ok w ∧ Inv T cap s n good w ps := by
  have app : ∀ {ops o w w'}, useView T cap s ops = .ok w → w.step T cap s o = .ok w' → useView T cap s (ops ++ [o]) = .ok w' := by
    intro ops o w w' h1 h2
    unfold useView at *
    rw [List.foldlM_append, h1]
    simp [bind, Except.bind, h2, pure, Except.pure]
  induction h with
  | nil => exact ⟨_, rfl, ⟨rfl, by simp, by simp⟩⟩
  | @begin ops ps _ ih =>
    obtain ⟨w, h1, h2⟩ := ih
    obtain ⟨a, h0⟩ := hok 0 (Nat.zero_le _)
    obtain ⟨w', h3, h4, _⟩ := inv_begin hlatch h2 h0
    exact ⟨w', app h1 h3, h4⟩
  | @copy ops ps i k _ hk ih =>
    obtain ⟨w, h1, h2⟩ := ih
    obtain ⟨it, hi⟩ : ∃ it, w.its[i]? = some it := by
      have : i < ps.length := (List.getElem?_eq_some_iff.1 hk).1
      exact ⟨_, List.getElem?_eq_getElem (by rw [h2.len]; exact this)⟩
    refine ⟨⟨w.wf, w.its ++ [it]⟩, app h1 (by simp [Shared.step, Shared.get, hi, bind, Except.bind]), ⟨by simp [h2.len], ?_, h2.bad⟩⟩
    intro j m x hm hx
    rcases Nat.lt_trichotomy j ps.length with hlt | heq | hgt
    · rw [List.getElem?_append_left hlt] at hm
      rw [List.getElem?_append_left (by rw [h2.len]; exact hlt)] at hx
      exact h2.at' j m x hm hx
    · subst heq
      rw [List.getElem?_concat_length] at hm
      rw [← h2.len, List.getElem?_concat_length] at hx
      cases hm; cases hx
      exact h2.at' i k it hk hi
    · rw [List.getElem?_eq_none (by simp; omega)] at hm
      simp at hm
  | @assign ops ps i j k m _ hk hm ih =>
    obtain ⟨w, h1, h2⟩ := ih
    have get : ∀ {i k : Nat}, ps[i]? = some k → ∃ it, w.its[i]? = some it := by
      intro i k hk
      have : i < ps.length := (List.getElem?_eq_some_iff.1 hk).1
      exact ⟨_, List.getElem?_eq_getElem (by rw [h2.len]; exact this)⟩
    obtain ⟨it, hi⟩ := get hk
    obtain ⟨jt, hj⟩ := get hm
    refine ⟨⟨w.wf, w.its.set i jt⟩, app h1 (by simp [Shared.step, Shared.get, hi, hj, bind, Except.bind]), ⟨by simp [h2.len], ?_, h2.bad⟩⟩
    intro l m' x hm' hx
    by_cases hl : i = l
    · subst hl
      rw [List.getElem?_set_self (List.getElem?_eq_some_iff.1 hk).1] at hm'
      rw [List.getElem?_set_self (List.getElem?_eq_some_iff.1 hi).1] at hx
      cases hm'; cases hx
      exact h2.at' j m jt hm hj
    · rw [List.getElem?_set_ne hl] at hm' hx
      exact h2.at' l m' x hm' hx
  | @incr ops ps i k _ hk hn ih =>
    obtain ⟨w, h1, h2⟩ := ih
    obtain ⟨it, hi⟩ : ∃ it, w.its[i]? = some it := by
      have : i < ps.length := (List.getElem?_eq_some_iff.1 hk).1
      exact ⟨_, List.getElem?_eq_getElem (by rw [h2.len]; exact this)⟩
    obtain ⟨_, a, b, g1, g2, g3⟩ := h2.at' i k it hk hi
    obtain ⟨r, g4⟩ := hok (k + 1) hn
    have g5 : a.incr T cap = .ok r := by
      have := g4
      simpa [iterN, g1, bind, Except.bind] using this
    obtain ⟨f, g6, g7⟩ := incr_flag w.wf g5
    have e : ({ it with parentWf := w.wf } : ViewIt ι ο T) = { a with parentWf := w.wf } := by rw [g2]
    refine ⟨⟨w.wf && f, w.its.set i { r with parentWf := w.wf && f }⟩, app h1 ?_, ⟨by simp [h2.len], ?_, ?_⟩⟩
    · simp only [Shared.step, Shared.get, hi, bind, Except.bind, e, g7]
    · intro l m x hm hx
      by_cases hl : i = l
      · subst hl
        rw [List.getElem?_set_self (List.getElem?_eq_some_iff.1 hk).1] at hm
        rw [List.getElem?_set_self (List.getElem?_eq_some_iff.1 hi).1] at hx
        cases hm; cases hx
        refine ⟨hn, r, _, g4, rfl, fun hw => ?_⟩
        rw [g6]
        simp only [Bool.and_eq_true] at hw ⊢
        exact ⟨g3 hw.1, hw.2⟩
      · rw [List.getElem?_set_ne hl] at hm hx
        obtain ⟨q1, x', b', q2, q3, q4⟩ := h2.at' l m x hm hx
        refine ⟨q1, x', b', q2, q3, fun hw => q4 ?_⟩
        simp only [Bool.and_eq_true] at hw
        exact hw.1
    · intro hw
      cases hww : w.wf with
      | false => exact h2.bad hww
      | true =>
        rw [hww] at hw
        refine hlatch (k + 1) r hn g4 ?_
        rw [g6]
        have : f = false := by simpa using hw
        rw [this, Bool.and_false]

/-- The flag is never set again. -/
theorem flag_down {cap : Nat} {s : List ι} {w w' : Shared ι ο T} {o : ViewOp} (h : w.step T cap s o = .ok w') (hw : w'.wf = true) : w.wf = true := by
  have fill' : ∀ {it r : ViewIt ι ο T}, fill T cap it = .ok r → r.parentWf = true → it.parentWf = true := by
    intro it r h hr
    obtain ⟨f, hf, _⟩ := fill_flag true h
    rw [hr] at hf
    revert hf; cases it.parentWf <;> simp
  cases o with
  | begin =>
    simp only [Shared.step, bind, Except.bind] at h
    split at h
    · cases h; exact hw
    · split at h
      · simp at h
      · rename_i hit
        cases h; exact fill' hit hw
  | copy i =>
    simp only [Shared.step, bind, Except.bind] at h
    split at h
    · simp at h
    · cases h; exact hw
  | assign i j =>
    simp only [Shared.step, bind, Except.bind] at h
    split at h
    · simp at h
    · split at h
      · simp at h
      · cases h; exact hw
  | incr i =>
    simp only [Shared.step, bind, Except.bind] at h
    split at h
    · simp at h
    · split at h
      · simp at h
      · rename_i hi
        cases h
        obtain ⟨f, hf, _⟩ := incr_flag true hi
        have hw : ViewIt.parentWf _ = true := hw
        rw [hw] at hf
        revert hf; cases w.wf <;> simp

theorem flag_down_run {cap : Nat} {s : List ι} : ∀ (ops : List ViewOp) (w w' : Shared ι ο T), ops.foldlM (Shared.step T cap s) w = .ok w' → w'.wf = true → w.wf = true := by
  intro ops
  induction ops with
  | nil => intro w w' h hw; simp [pure, Except.pure] at h; rw [h]; exact hw
  | cons o ops ih =>
    intro w w' h hw
    rw [List.foldlM_cons] at h
    cases hs : w.step T cap s o with
    | error e => rw [hs] at h; simp [bind, Except.bind] at h
    | ok w1 =>
      rw [hs] at h
      exact flag_down hs (ih w1 w' h hw)

theorem shared {cap : Nat} (L : Lawful T Q I) (hQ : ∀ l, Q l → l.length ≤ cap) : SharedAgrees T cap := by
  intro s
  obtain ⟨st, out, h1, hv⟩ := L.view hQ s
  obtain ⟨st', out', h1', hc⟩ := iter_eq L hQ s
  rw [h1] at h1'
  cases h1'
  refine ⟨st, out, h1, ?_⟩
  obtain ⟨z, hz, hzw⟩ := iter_end hv
  have hok : ∀ k, k ≤ out.length → ∃ a, iterN T cap s k = .ok a := fun k hk => by
    obtain ⟨a, _, h, _⟩ := hc k k hk hk
    exact ⟨a, h⟩
  have hlatch : ∀ k a, k ≤ out.length → iterN T cap s k = .ok a → a.parentWf = false → T.wellFormed st = false := by
    intro k a hk ha hf
    cases hw : T.wellFormed st with
    | false => rfl
    | true =>
      rw [hw] at hzw
      have := latch (m := out.length - k) ha (by rw [show k + (out.length - k) = out.length by omega]; exact hz) hzw
      rw [hf] at this; cases this
  intro ops ps hp
  obtain ⟨w, hw, hinv⟩ := inv_run hlatch hok hp
  refine ⟨w, hw, hinv.len, ?_, ?_, ?_⟩
  · intro i k it hk hi
    obtain ⟨hkn, a, b, ha, hit, _⟩ := hinv.at' i k it hk hi
    obtain ⟨a', _, ha', _, hd, he, _⟩ := hc k k hkn hkn
    rw [ha] at ha'
    cases ha'
    rw [hit]
    exact ⟨hd, he⟩
  · intro hg
    cases hww : w.wf with
    | true => rfl
    | false => have := hinv.bad hww; rw [hg] at this; cases this
  · rintro before after ps' rfl hp' hmem
    obtain ⟨w1, hw1, hinv1⟩ := inv_run hlatch hok hp'
    cases hww : w.wf with
    | false => exact (hinv.bad hww).symm
    | true =>
      have hrest : after.foldlM (Shared.step T cap s) w1 = .ok w := by
        have := hw
        unfold useView at this hw1
        rw [List.foldlM_append, hw1] at this
        exact this
      have hw1t := flag_down_run after w1 w hrest hww
      obtain ⟨i, hi⟩ := List.mem_iff_getElem?.1 hmem
      obtain ⟨it, hit⟩ : ∃ it, w1.its[i]? = some it := by
        have : i < ps'.length := (List.getElem?_eq_some_iff.1 hi).1
        exact ⟨_, List.getElem?_eq_getElem (by rw [hinv1.len]; exact this)⟩
      obtain ⟨_, a, b, ha, _, hf⟩ := hinv1.at' i _ it hi hit
      rw [hz] at ha
      cases ha
      rw [← hzw]
      exact (hf hw1t).symm

end

end Verif.Icu

namespace Verif
open Verif.Unicode Verif.Icu

/-! ### C63 -/

theorem C63_utf8_utf32 : SharedAgrees t8_32 maxOut32 := shared lawful8_32 hQ1
theorem C63_utf8_utf16 : SharedAgrees t8_16 maxOut16 := shared lawful8_16 (by
  rintro l ⟨m, rfl | ⟨c, rfl⟩, rfl⟩
  · simp
  · simpa [maxOut16] using utf16_len _)
theorem C63_utf8_utf8 : SharedAgrees t8_8 maxOut8 := shared lawful8_8 (by
  rintro l ⟨m, rfl | ⟨c, rfl⟩, rfl⟩
  · simp
  · simpa [maxOut8] using utf8_len _)
theorem C63_utf16_utf32 : SharedAgrees t16_32 maxOut16to32 := shared lawful16_32 Q16_len
theorem C63_utf16_utf8 : SharedAgrees t16_8 maxOut16to8 := shared lawful16_8 (by
  rintro l ⟨m, rfl | ⟨c, rfl⟩ | ⟨a, b, rfl, ha, hb⟩, rfl⟩
  · simp
  · have := utf8_len (fixCp c)
    simp [maxOut16to8]; omega
  · have := utf8_len_bmp _ (fixCp_bmp ha)
    have := utf8_len_bmp _ (fixCp_bmp hb)
    simp [maxOut16to8]; omega)
theorem C63_utf16_utf16 : SharedAgrees t16_16 maxOut16 := shared lawful16_16 (by
  rintro l ⟨m, rfl | ⟨c, rfl⟩ | ⟨a, b, rfl, ha, hb⟩, rfl⟩
  · simp
  · simpa [maxOut16] using utf16_len _
  · have := utf16_len_bmp _ (fixCp_bmp ha)
    have := utf16_len_bmp _ (fixCp_bmp hb)
    simp [maxOut16]; omega)
theorem C63_utf32_utf8 : SharedAgrees t32_8 maxOut8 := shared simple32_8.lawful (by
  rintro l (rfl | ⟨c, rfl⟩)
  · simp
  · exact utf8_len _)
theorem C63_utf32_utf16 : SharedAgrees t32_16 maxOut16 := shared simple32_16.lawful (by
  rintro l (rfl | ⟨c, rfl⟩)
  · simp
  · exact utf16_len _)
theorem C63_utf32_utf32 : SharedAgrees t32_32 maxOut32 := shared simple32_32.lawful (by rintro l (rfl | ⟨c, rfl⟩) <;> simp [maxOut32])

/-- Two iterators over a malformed text: the second is copied from the first after one step, and moved to
the end; the first stays where it is, and the flag, which was up after `begin`, is down. -/
example : Positions 3 [.begin, .incr 0, .copy 0, .incr 1, .incr 1] [1, 3] ∧
    (useView t8_32 maxOut32 [0x41, 0xC3, 0x42, 0x43] [.begin, .incr 0, .copy 0, .incr 1, .incr 1]).map (fun w => (w.wf, w.its.map (fun it => (it.deref, it.atEnd)))) =
      .ok (false, [(.ok 0xFFFD, false), (.error .assertion, true)]) ∧
    (useView t8_32 maxOut32 [0x41, 0xC3, 0x42, 0x43] [.begin]).map (fun w => w.wf) = .ok true :=
  ⟨(((((Positions.nil.begin).incr (i := 0) (k := 0) rfl (by decide)).copy (i := 0) (k := 1) rfl).incr (i := 1) (k := 1) rfl (by decide)).incr (i := 1) (k := 2) rfl (by decide)),
    by decide +kernel, by decide +kernel⟩

end Verif
