import Verif.Model.IcuInPlace
import Verif.Props.Room

/-!
# C94: transcoding when text and output are in the same memory
-/

set_option linter.unusedSimpArgs false

namespace Verif
open Icu Unicode

/-! ### Specification -/

/-- Memory `m` after `d` was memWith to it from position `o` on. -/
def memWith {α : Type} (m : List α) (o : Nat) (d : List α) : List α := m.take o ++ d ++ m.drop (o + d.length)

/-- Memory `m` has the text `s` from position `first` to `last`. -/
def TextAt {α : Type} (m : List α) (first last : Nat) (s : List α) : Prop := ∃ x y, m = x ++ s ++ y ∧ first = x.length ∧ last = x.length + s.length

/-- As long as there is something to read, what was memWith does not reach beyond what was read. -/
def NeverOvertakes {α : Type} (T : Transcoder α α) (s : List α) (first out : Nat) : Prop :=
  ∀ s₁ s₂ st d, s = s₁ ++ s₂ → s₂ ≠ [] → T.feed T.init s₁ = .ok (st, d) → out + d.length ≤ first + s₁.length

/-- Calling a new transcoder for each code unit from `first` to `last`, with the output to `out` in the same memory: the memory has what a transcoder
makes of the text `s` and is otherwise unchanged, and the transcoder is as it would be. -/
def CallsRight {α : Type} (T : Transcoder α α) (m : List α) (first last out : Nat) (s : List α) : Prop :=
  ∀ st d, T.run s = .ok (st, d) → out + d.length ≤ m.length → Same.runAt T m first last out = .ok (st, memWith m out d, out + d.length)

/-- Copying a `transcode_view` of the text from `first` to `last` to `out` in the same memory: the memory has what the view of `s` yields and is
otherwise unchanged, and the view says the same about the text. -/
def CopyRight {α : Type} (T : Transcoder α α) (cap : Nat) (m : List α) (first last out : Nat) (s : List α) : Prop :=
  ∀ d wf, viewRun T cap s = .ok (d, wf) → out + d.length ≤ m.length → Same.viewCopyAt T cap last m first out = .ok (memWith m out d, out + d.length, wf)

/-- The text `s`, between `x` and `y`, transcoded onto itself by calls and through a view: it is replaced by what it is transcoded to, `d`, and what
`d` leaves of it; nothing else is changed. -/
def Onto {α : Type} (T : Transcoder α α) (cap : Nat) (s : List α) : Prop :=
  ∃ st d, T.run s = .ok (st, d) ∧ d.length ≤ s.length ∧ ∀ x y : List α,
    Same.runAt T (x ++ s ++ y) x.length (x.length + s.length) x.length = .ok (st, x ++ d ++ s.drop d.length ++ y, x.length + d.length) ∧
    Same.viewCopyAt T cap (x.length + s.length) (x ++ s ++ y) x.length x.length = .ok (x ++ d ++ s.drop d.length ++ y, x.length + d.length, T.wellFormed st)

/-! ### Memory -/

section
variable {α : Type}

/-- Pointwise. -/
def Holds (m : List α) (a b : Nat) (s : List α) : Prop := a + s.length = b ∧ b ≤ m.length ∧ ∀ (i : Nat) c, s[i]? = some c → m[a + i]? = some c

theorem TextAt.holds {m : List α} {a b : Nat} {s : List α} (h : TextAt m a b s) : Holds m a b s := by
  obtain ⟨x, y, rfl, rfl, rfl⟩ := h
  refine ⟨rfl, by simp, fun i c hi => ?_⟩
  have hl : i < s.length := (List.getElem?_eq_some_iff.1 hi).1
  rw [List.append_assoc, List.getElem?_append_right (by omega), List.getElem?_append_left (by omega), show x.length + i - x.length = i by omega, hi]

theorem Holds.cons {m : List α} {a b : Nat} {c : α} {s : List α} (h : Holds m a b (c :: s)) : Same.get m a = .ok c ∧ a ≠ b ∧ Holds m (a + 1) b s := by
  obtain ⟨h1, h2, h3⟩ := h
  simp only [List.length_cons] at h1
  refine ⟨?_, by omega, by omega, h2, fun i d hi => ?_⟩
  · have := h3 0 c rfl
    simp only [Nat.add_zero] at this
    simp [Same.get, this]
  · have := h3 (i + 1) d (by simpa using hi)
    rw [← this]; congr 1; omega

theorem Holds.set {m : List α} {a b : Nat} {s : List α} (h : Holds m a b s) (pos : Nat) (c : α) (hp : pos < a ∨ b ≤ pos ∨ s = []) : Holds (m.set pos c) a b s := by
  obtain ⟨h1, h2, h3⟩ := h
  refine ⟨h1, by simpa using h2, fun i d hi => ?_⟩
  have hl : i < s.length := (List.getElem?_eq_some_iff.1 hi).1
  rcases hp with hp | hp | rfl
  · rw [List.getElem?_set_ne (by omega)]; exact h3 i d hi
  · rw [List.getElem?_set_ne (by omega)]; exact h3 i d hi
  · simp at hl

theorem memWith_nil (m : List α) (o : Nat) : memWith m o [] = m := by simp [memWith]

theorem memWith_cons {m : List α} {o : Nat} (c : α) (d : List α) (h : o < m.length) : memWith (m.set o c) (o + 1) d = memWith m o (c :: d) := by
  simp only [memWith, List.length_cons]
  rw [List.take_add_one, List.getElem?_set_self h, List.take_set_of_le (by omega), List.drop_set_of_lt (by omega)]
  simp [Nat.add_assoc, Nat.add_comm 1]

theorem putAll_ok : ∀ (d : List α) (m : List α) (o : Nat), o + d.length ≤ m.length → Same.putAll m o d = .ok (memWith m o d, o + d.length)
  | [], m, o, _ => by rw [memWith_nil]; rfl
  | c :: d, m, o, h => by
    simp only [List.length_cons] at h
    have ih := putAll_ok d (m.set o c) (o + 1) (by simp; omega)
    simp only [Same.putAll, Same.put, if_pos (show o < m.length by omega), bind, Except.bind, ih]
    rw [memWith_cons c d (by omega), List.length_cons, show o + 1 + d.length = o + (d.length + 1) by omega]

theorem memWith_length {m : List α} {o : Nat} {d : List α} (h : o + d.length ≤ m.length) : (memWith m o d).length = m.length := by
  simp [memWith]; omega

theorem memWith_append {m : List α} {o : Nat} (d e : List α) (h : o + d.length + e.length ≤ m.length) :
    memWith (memWith m o d) (o + d.length) e = memWith m o (d ++ e) := by
  induction d generalizing m o with
  | nil => simp [memWith_nil]
  | cons c d ih =>
    simp only [List.length_cons] at h
    rw [← memWith_cons c d (by omega), List.cons_append, ← memWith_cons c (d ++ e) (by omega), List.length_cons,
      show o + (d.length + 1) = o + 1 + d.length by omega]
    exact ih (by simp; omega)

theorem Holds.memWith {m : List α} {a b : Nat} {s : List α} (h : Holds m a b s) : ∀ (d : List α) (o : Nat), o + d.length ≤ m.length →
    (o + d.length ≤ a ∨ b ≤ o ∨ s = []) → Holds (memWith m o d) a b s := by
  intro d
  induction d generalizing m with
  | nil => intro o _ _; rw [memWith_nil]; exact h
  | cons c d ih =>
    intro o h1 h2
    simp only [List.length_cons] at h1 h2
    rw [← memWith_cons c d (by omega)]
    refine ih (h.set o c ?_) _ (by simp; omega) ?_
    · rcases h2 with h2 | h2 | h2
      · exact Or.inl (by omega)
      · exact Or.inr (Or.inl h2)
      · exact Or.inr (Or.inr h2)
    · rcases h2 with h2 | h2 | h2
      · exact Or.inl (by omega)
      · exact Or.inr (Or.inl (by omega))
      · exact Or.inr (Or.inr h2)

end

/-! ### Call by call -/

section
variable {α : Type} {T : Transcoder α α}

/-- `NeverOvertakes`, from a state on and with `b` code units that are still to be written; or the output is beyond the text. -/
def Clear (T : Transcoder α α) (st : T.σ) (s : List α) (first last out b : Nat) : Prop := last ≤ out ∨
  ∀ s₁ s₂ st' d, s = s₁ ++ s₂ → s₂ ≠ [] → T.feed st s₁ = .ok (st', d) → out + b + d.length ≤ first + s₁.length

theorem Clear.shift {st : T.σ} {s : List α} {first last out b k : Nat} (h : Clear T st s first last out (b + k)) : Clear T st s first last (out + k) b := by
  rcases h with h | h
  · exact Or.inl (by omega)
  · exact Or.inr fun s₁ s₂ st' d e ne hf => by have := h s₁ s₂ st' d e ne hf; omega

theorem feed_cons_inv {st st' : T.σ} {c : α} {s d : List α} (h : T.feed st (c :: s) = .ok (st', d)) :
    ∃ st1 o os, T.step st c = .ok (st1, o) ∧ T.feed st1 s = .ok (st', os) ∧ d = o ++ os := by
  simp only [Transcoder.feed, bind, Except.bind] at h
  split at h
  · simp at h
  · rename_i v hv
    split at h
    · simp at h
    · rename_i x hx
      obtain ⟨rfl, rfl⟩ := ok_pair h
      exact ⟨v.1, v.2, x.2, hv, hx, rfl⟩

theorem Clear.cons {st st1 : T.σ} {c : α} {s o : List α} {first last out b : Nat} (h : Clear T st (c :: s) first last out b) (h1 : T.step st c = .ok (st1, o)) :
    Clear T st1 s (first + 1) last out (b + o.length) := by
  rcases h with h | h
  · exact Or.inl (by omega)
  · refine Or.inr fun s₁ s₂ st' d e ne hf => ?_
    have := h (c :: s₁) s₂ st' (o ++ d) (by rw [e]; rfl) ne (feed_cons h1 hf)
    simp only [List.length_append, List.length_cons] at this
    omega

theorem Clear.here {st : T.σ} {s : List α} {first last out b : Nat} (h : Clear T st s first last out b) : out + b ≤ first ∨ last ≤ out ∨ s = [] := by
  rcases h with h | h
  · exact Or.inr (Or.inl h)
  · cases s with
    | nil => exact Or.inr (Or.inr rfl)
    | cons c s => exact Or.inl (by simpa using h [] (c :: s) st [] rfl (by simp) rfl)

theorem feedLoop_ok (last : Nat) : ∀ (s : List α) (st : T.σ) (m : List α) (first out fuel : Nat) (st' : T.σ) (d : List α), T.feed st s = .ok (st', d) →
    Holds m first last s → s.length < fuel → Clear T st s first last out 0 → out + d.length ≤ m.length →
    Same.feedLoop T last fuel st m first out = .ok (st', memWith m out d, out + d.length) := by
  intro s
  induction s with
  | nil =>
    intro st m first out fuel st' d hf hh hfu _ _
    obtain ⟨rfl, rfl⟩ := ok_pair hf
    obtain ⟨fuel, rfl⟩ : ∃ f, fuel = f + 1 := ⟨fuel - 1, by simp at hfu; omega⟩
    have : first = last := by simpa using hh.1
    simp only [Same.feedLoop, if_pos this, memWith_nil]; rfl
  | cons c s ih =>
    intro st m first out fuel st' d hf hh hfu hc hr
    obtain ⟨st1, o, os, h1, h2, rfl⟩ := feed_cons_inv hf
    obtain ⟨g1, g2, g3⟩ := hh.cons
    have hc1 := hc.cons h1
    obtain ⟨fuel, rfl⟩ : ∃ f, fuel = f + 1 := ⟨fuel - 1, by simp at hfu; omega⟩
    rw [List.length_append] at hr
    have hw : Holds (memWith m out o) (first + 1) last s := g3.memWith o out (by omega) (by simpa using hc1.here)
    have := ih st1 (memWith m out o) (first + 1) (out + o.length) fuel st' os h2 hw (by simp at hfu; omega) hc1.shift (by rw [memWith_length (by omega)]; omega)
    simp only [Same.feedLoop, if_neg g2, bind, Except.bind, g1, h1, putAll_ok o m out (by omega), this]
    rw [memWith_append o os (by omega), List.length_append, Nat.add_assoc]

theorem runAt_ok {m : List α} {first last out : Nat} {s : List α} (hm : Holds m first last s) (hc : Clear T T.init s first last out 0) {st : T.σ} {d : List α}
    (hr : T.run s = .ok (st, d)) (hl : out + d.length ≤ m.length) : Same.runAt T m first last out = .ok (st, memWith m out d, out + d.length) := by
  obtain ⟨st', o, e, h1, h2, rfl⟩ := run_inv hr
  rw [List.length_append] at hl
  have := feedLoop_ok last s T.init m first out (last - first + 1) st' o h1 hm (by have := hm.1; omega) hc (by omega)
  simp only [Same.runAt, this, bind, Except.bind, h2]
  rw [putAll_ok e _ _ (by rw [memWith_length (by omega)]; omega)]
  simp only
  rw [memWith_append o e (by omega), List.length_append, Nat.add_assoc]

/-! ### Through the view -/

theorem fillLoop_same {K last : Nat} {m : List α} : ∀ (s : List α) (st : T.σ) (pos fuel : Nat), Holds m pos last s → s.length < fuel →
    Same.fillLoop T K last m fuel st pos = (fillLoop T K st s >>= fun p => .ok (p.1, last - p.2.1.length, p.2.2)) := by
  intro s
  induction s with
  | nil =>
    intro st pos fuel hh hf
    obtain ⟨fuel, rfl⟩ : ∃ f, fuel = f + 1 := ⟨fuel - 1, by simp at hf; omega⟩
    have : pos = last := by simpa using hh.1
    subst this
    simp [Same.fillLoop, fillLoop, bind, Except.bind]
  | cons c s ih =>
    intro st pos fuel hh hf
    obtain ⟨g1, g2, g3⟩ := hh.cons
    obtain ⟨fuel, rfl⟩ : ∃ f, fuel = f + 1 := ⟨fuel - 1, by simp at hf; omega⟩
    rw [fillLoop_cons]
    simp only [Same.fillLoop, if_neg g2, g1, bind, Except.bind]
    cases T.step st c with
    | error e => rfl
    | ok p =>
      simp only
      by_cases h1 : p.2.length > K
      · rw [if_pos h1, if_pos h1]
      · rw [if_neg h1, if_neg h1]
        by_cases h2 : p.2.isEmpty = true
        · rw [if_pos h2, if_pos h2, ih p.1 (pos + 1) fuel g3 (by simp at hf; omega)]
          simp only [bind, Except.bind]
        · rw [if_neg h2, if_neg h2]
          have := g3.1
          simp only [show last - s.length = pos + 1 by omega]

/-- What `fill` reads. -/
theorem fillLoop_feed {K : Nat} : ∀ (s : List α) (st st' : T.σ) (rest o : List α), fillLoop T K st s = .ok (st', rest, o) →
    ∃ p, s = p ++ rest ∧ T.feed st p = .ok (st', o) := by
  intro s
  induction s with
  | nil =>
    intro st st' rest o h
    have h := Except.ok.inj h
    simp only [Prod.mk.injEq] at h
    obtain ⟨rfl, rfl, rfl⟩ := h
    exact ⟨[], rfl, rfl⟩
  | cons c s ih =>
    intro st st' rest o h
    rw [fillLoop_cons] at h
    simp only [bind, Except.bind] at h
    split at h
    · simp at h
    · rename_i v hv
      by_cases h1 : v.2.length > K
      · rw [if_pos h1] at h; simp at h
      · rw [if_neg h1] at h
        by_cases h2 : v.2.isEmpty = true
        · rw [if_pos h2] at h
          obtain ⟨p, e1, e2⟩ := ih _ _ _ _ h
          have hv' : T.step st c = .ok (v.1, []) := by rw [hv]; congr 1; exact Prod.ext rfl (List.isEmpty_iff.1 h2)
          exact ⟨c :: p, by rw [e1]; rfl, by simpa using feed_cons hv' e2⟩
        · rw [if_neg h2] at h
          have h := Except.ok.inj h
          simp only [Prod.mk.injEq] at h
          obtain ⟨rfl, rfl, rfl⟩ := h
          exact ⟨[c], rfl, feed_one hv⟩

/-- The iterator over the memory that goes with one over a list. -/
def place (last : Nat) (it : ViewIt α α T) : Same.It T := ⟨last - it.current.length, last - it.next.length, it.buf, it.tr, it.parentWf⟩

theorem fill_same {K last : Nat} {m : List α} (it : ViewIt α α T) (hh : Holds m (last - it.next.length) last it.next) :
    Same.fill T K last m (place last it) = (fill T K it >>= fun it' => .ok (place last it')) := by
  by_cases hb : it.buf = []
  · rw [fill_eq it hb]
    have hl : last - (last - it.next.length) + 1 > it.next.length := by have := hh.1; omega
    simp only [Same.fill, place, hb, List.isEmpty_nil, Bool.not_true, Bool.false_eq_true, if_false]
    rw [fillLoop_same _ _ _ _ hh hl]
    cases hf : fillLoop T K it.tr it.next with
    | error e => rfl
    | ok p =>
      obtain ⟨st', rest, o⟩ := p
      obtain ⟨pre, e, _⟩ := fillLoop_feed _ _ _ _ _ hf
      have hrl : rest.length ≤ last := by
        have := hh.1; have := congrArg List.length e; simp only [List.length_append] at this; omega
      simp only [bind, Except.bind]
      have hiff : (last - rest.length = last) ↔ rest.isEmpty = true := by
        cases rest with
        | nil => simp
        | cons x r => simp only [List.length_cons, List.isEmpty_cons, Bool.false_eq_true, iff_false] at hrl ⊢; omega
      by_cases hr : rest.isEmpty = true
      · rw [if_pos (hiff.2 hr), if_pos hr]
        cases T.endCp st' with
        | error e => rfl
        | ok q =>
          simp only
          by_cases h2 : (o ++ q.2).length > K
          · rw [if_pos h2, if_pos h2]
          · rw [if_neg h2, if_neg h2]
      · rw [if_neg (fun k => hr (hiff.1 k)), if_neg hr]
        simp only
        by_cases h2 : (o ++ []).length > K
        · rw [if_pos h2, if_pos h2]
        · rw [if_neg h2, if_neg h2]
  · have hb' : it.buf.isEmpty = false := by simpa using hb
    simp [Same.fill, fill, place, hb', bind, Except.bind]

/-- After a `fill`. -/
theorem fill_clear {K last out : Nat} {m : List α} {it it' : ViewIt α α T} (hb : it.buf = []) (hf : fill T K it = .ok it')
    (hh : Holds m (last - it.next.length) last it.next) (hc : Clear T it.tr it.next (last - it.next.length) last out 0) :
    Holds m (last - it'.next.length) last it'.next ∧ Clear T it'.tr it'.next (last - it'.next.length) last out it'.buf.length := by
  rw [fill_eq it hb] at hf
  simp only [bind, Except.bind] at hf
  split at hf
  · simp at hf
  · rename_i p hp
    obtain ⟨st', rest, o⟩ := p
    obtain ⟨pre, e, hfd⟩ := fillLoop_feed _ _ _ _ _ hp
    split at hf
    · simp at hf
    · rename_i q hq
      split at hf
      · simp at hf
      · have hf := Except.ok.inj hf
        subst hf
        have hl := hh.1
        have hll := congrArg List.length e
        simp only [List.length_append] at hll
        refine ⟨⟨by simp only; omega, hh.2.1, fun i c hi => ?_⟩, ?_⟩
        · have := hh.2.2 (pre.length + i) c (by rw [e, List.getElem?_append_right (by omega)]; simpa using hi)
          rw [← this]; congr 1; simp only; omega
        · rcases hc with hc | hc
          · exact Or.inl (by omega)
          · refine Or.inr fun s₁ s₂ st₁ d e1 ne hd => ?_
            have hre : rest.isEmpty = false := by
              simp only at e1
              cases rest with
              | nil => simp at e1; exact absurd e1.2 ne
              | cons => rfl
            simp only [hre, Bool.false_eq_true, if_false] at hq
            have hq := Except.ok.inj hq
            subst hq
            simp only at e1 hd
            have := hc (pre ++ s₁) s₂ st₁ (o ++ d) (by rw [e, e1, List.append_assoc]) ne (feed_append hfd hd)
            simp only [List.length_append, List.length_nil] at this ⊢
            omega

theorem copyLoop_ok {K last : Nat} : ∀ (fuel : Nat) (m : List α) (it : ViewIt α α T) (out : Nat) (it' : ViewIt α α T) (d : List α),
    viewLoop T K fuel it = .ok (it', d) → it.current.length ≤ last → Holds m (last - it.next.length) last it.next →
    Clear T it.tr it.next (last - it.next.length) last out it.buf.length → out + d.length ≤ m.length →
    Same.copyLoop T K last fuel m (place last it) out = .ok (place last it', memWith m out d, out + d.length) := by
  intro fuel
  induction fuel with
  | zero => intro m it out it' d h; simp [viewLoop] at h
  | succ fuel ih =>
    intro m it out it' d h hcur hh hc hl
    have hiff : (last - it.current.length = last) ↔ it.atEnd = true := by
      unfold ViewIt.atEnd
      cases hk : it.current with
      | nil => simp
      | cons x r => rw [hk] at hcur; simp only [List.length_cons, List.isEmpty_cons, Bool.false_eq_true, iff_false] at hcur ⊢; omega
    simp only [viewLoop] at h
    by_cases hat : it.atEnd = true
    · rw [if_pos hat] at h
      obtain ⟨rfl, rfl⟩ := ok_pair h
      rw [memWith_nil, Same.copyLoop, if_pos (show (place last it).current = last from hiff.2 hat)]
      rfl
    · rw [if_neg hat] at h
      simp only [bind, Except.bind] at h
      cases hb : it.buf with
      | nil => simp [ViewIt.deref, hb] at h
      | cons c b =>
        simp only [ViewIt.deref, hb] at h
        split at h
        · simp at h
        · rename_i it1 hi
          split at h
          · simp at h
          · rename_i q hq
            obtain ⟨rfl, rfl⟩ := ok_pair h
            simp only [List.length_cons] at hl
            rw [hb, List.length_cons] at hc
            have hput : Same.put m out c = .ok (m.set out c) := by simp [Same.put, show out < m.length by omega]
            have hh1 : Holds (m.set out c) (last - it.next.length) last it.next := by
              refine hh.set out c ?_
              rcases hc.here with k | k | k
              · exact Or.inl (by omega)
              · exact Or.inr (Or.inl k)
              · exact Or.inr (Or.inr k)
            have hc1 : Clear T it.tr it.next (last - it.next.length) last (out + 1) b.length := hc.shift
            have key : Same.incr T K last (m.set out c) (place last it) = .ok (place last it1) ∧ it1.current.length ≤ last ∧
                Holds (m.set out c) (last - it1.next.length) last it1.next ∧ Clear T it1.tr it1.next (last - it1.next.length) last (out + 1) it1.buf.length := by
              simp only [ViewIt.incr, hb] at hi
              simp only [Same.incr, show (place last it).buf = c :: b from hb]
              by_cases he : b.isEmpty = true
              · rw [if_pos he] at hi ⊢
                have he' : b = [] := List.isEmpty_iff.1 he
                subst he'
                have h1 := fill_same (K := K) (last := last) (m := m.set out c) { it with buf := [] } hh1
                rw [hi] at h1
                have h2 := fill_clear (K := K) (m := m.set out c) rfl hi hh1 hc1
                refine ⟨h1, ?_, h2.1, h2.2⟩
                rw [fill_eq _ rfl] at hi
                simp only [bind, Except.bind] at hi
                split at hi
                · simp at hi
                · split at hi
                  · simp at hi
                  · split at hi
                    · simp at hi
                    · have hi := Except.ok.inj hi
                      subst hi
                      have := hh.1
                      simp only; omega
              · rw [if_neg he] at hi ⊢
                have hi := Except.ok.inj hi
                subst hi
                exact ⟨rfl, hcur, hh1, hc1⟩
            obtain ⟨k1, k2, k3, k4⟩ := key
            have := ih (m.set out c) it1 (out + 1) q.1 q.2 hq k2 k3 k4 (by simp; omega)
            rw [Same.copyLoop, if_neg (show ¬ (place last it).current = last from fun k => hat (hiff.1 k))]
            simp only [Same.deref, show (place last it).buf = c :: b from hb, bind, Except.bind, hput, k1, this]
            rw [memWith_cons c q.2 (by omega), List.length_cons, show out + 1 + q.2.length = out + (q.2.length + 1) by omega]

theorem viewCopyAt_ok {K : Nat} {m : List α} {first last out : Nat} {s : List α} (hm : Holds m first last s) (hc : Clear T T.init s first last out 0) {d : List α} {wf : Bool}
    (hr : viewRun T K s = .ok (d, wf)) (hl : out + d.length ≤ m.length) : Same.viewCopyAt T K last m first out = .ok (memWith m out d, out + d.length, wf) := by
  simp only [viewRun, bind, Except.bind] at hr
  split at hr
  · simp at hr
  · rename_i it hit
    split at hr
    · simp at hr
    · rename_i r hlp
      obtain ⟨rfl, rfl⟩ := ok_pair hr
      have hf := hm.1
      have hfirst : last - s.length = first := by omega
      have hm' : Holds m (last - s.length) last s := by rw [hfirst]; exact hm
      have hc' : Clear T T.init s (last - s.length) last out 0 := by rw [hfirst]; exact hc
      have key : Same.viewBegin T K last m first = .ok (place last it) ∧ it.current.length ≤ last ∧ Holds m (last - it.next.length) last it.next ∧
          Clear T it.tr it.next (last - it.next.length) last out it.buf.length := by
        simp only [viewBegin] at hit
        by_cases he : s.isEmpty = true
        · rw [if_pos he] at hit
          have hit := Except.ok.inj hit
          subst hit
          have : s = [] := List.isEmpty_iff.1 he
          subst this
          refine ⟨?_, by simp, hm', hc'⟩
          simp only [Same.viewBegin, if_pos (show first = last by simpa using hf), place, List.length_nil, Nat.sub_zero]
          rw [show first = last by simpa using hf]
        · rw [if_neg he] at hit
          have hn : ¬ first = last := by
            intro k; rw [k] at hf
            exact he (List.isEmpty_iff.2 (List.eq_nil_of_length_eq_zero (by omega)))
          have h1 := fill_same (K := K) (last := last) (m := m) (⟨s, s, [], T.init, true⟩ : ViewIt α α T) hm'
          rw [hit] at h1
          have h2 := fill_clear (K := K) (m := m) rfl hit hm' hc'
          refine ⟨?_, ?_, h2.1, h2.2⟩
          · simp only [Same.viewBegin, if_neg hn]
            simp only [place, hfirst] at h1
            exact h1
          · rw [fill_eq _ rfl] at hit
            simp only [bind, Except.bind] at hit
            split at hit
            · simp at hit
            · split at hit
              · simp at hit
              · split at hit
                · simp at hit
                · have hit := Except.ok.inj hit
                  subst hit
                  simp only; omega
      obtain ⟨k1, k2, k3, k4⟩ := key
      have := copyLoop_ok (K * s.length + 1) m it out r.1 r.2 hlp k2 k3 k4 hl
      simp only [Same.viewCopyAt, bind, Except.bind, k1, show last - first = s.length by omega, this]
      rfl

end

/-- **C94**: text and output in the same memory, if what is written never overtakes what is read. -/
theorem C94_before {α : Type} (T : Transcoder α α) (cap : Nat) (m : List α) (first last out : Nat) (s : List α) (hm : TextAt m first last s)
    (h : NeverOvertakes T s first out) : CallsRight T m first last out s ∧ CopyRight T cap m first last out s := by
  have hc : Clear T T.init s first last out 0 := Or.inr fun s₁ s₂ st' d e ne hf => by simpa using h s₁ s₂ st' d e ne hf
  exact ⟨fun st d hr hl => runAt_ok hm.holds hc hr hl, fun d wf hr hl => viewCopyAt_ok hm.holds hc hr hl⟩

/-- **C94**: output beyond the text. -/
theorem C94_beyond {α : Type} (T : Transcoder α α) (cap : Nat) (m : List α) (first last out : Nat) (s : List α) (hm : TextAt m first last s)
    (h : last ≤ out) : CallsRight T m first last out s ∧ CopyRight T cap m first last out s :=
  ⟨fun _ _ hr hl => runAt_ok hm.holds (Or.inl h) hr hl, fun _ _ hr hl => viewCopyAt_ok hm.holds (Or.inl h) hr hl⟩

/-! ### Which transcoders never overtake -/

section
variable {α : Type} {T : Transcoder α α} {k : Nat} {w : T.σ → Nat}

theorem Icu.Rationed.feed (R : Rationed T k w) {s d : List α} {st : T.σ} (h : T.feed T.init s = .ok (st, d)) : d.length ≤ k * s.length := by
  have a := R.calls (s.map .unit) _ _ _ ((calls_map s _).trans h)
  rw [R.init, List.length_map] at a
  omega

theorem overtakes_rationed (R : Rationed T (k + 1) w) {s : List α} {first out : Nat} (h : out + k * s.length ≤ first) : NeverOvertakes T s first out := by
  intro s₁ s₂ st d e _ hf
  have h1 := R.feed hf
  have h2 : k * s₁.length ≤ k * s.length := Nat.mul_le_mul_left k (by rw [e, List.length_append]; omega)
  rw [Nat.add_mul, Nat.one_mul] at h1
  omega

theorem onto_of {cap : Nat} (hv : ViewAgrees T cap) {s : List α} (h : ∀ first, NeverOvertakes T s first first) (hl : ∀ st d, T.run s = .ok (st, d) → d.length ≤ s.length) :
    Onto T cap s := by
  obtain ⟨st, d, hr, hw⟩ := hv s
  have hle := hl st d hr
  refine ⟨st, d, hr, hle, fun x y => ?_⟩
  have hm : TextAt (x ++ s ++ y) x.length (x.length + s.length) s := ⟨x, y, rfl, rfl, rfl⟩
  have hroom : x.length + d.length ≤ (x ++ s ++ y).length := by simp; omega
  have := C94_before T cap _ _ _ x.length s hm (h _)
  have hmem : memWith (x ++ s ++ y) x.length d = x ++ d ++ s.drop d.length ++ y := by
    simp only [memWith, List.append_assoc]
    rw [List.take_left, List.drop_append, List.drop_eq_nil_of_le (by omega), show x.length + d.length - x.length = d.length by omega,
      List.drop_append, show d.length - s.length = 0 by omega]
    simp
  rw [← hmem]
  exact ⟨this.1 st d hr hroom, this.2 d _ hw hroom⟩

end

/-- **C94**: UTF-16 to UTF-16 (and UTF-32 to UTF-32): every text can be transcoded to the place where it is, or any place before it. -/
theorem C94_utf16 : (∀ s first out, out ≤ first → NeverOvertakes t16_16 s first out) ∧ (∀ s first out, out ≤ first → NeverOvertakes t32_32 s first out) :=
  ⟨fun _ _ _ h => overtakes_rationed (k := 0) rationed16_16 (by omega), fun _ _ _ h => overtakes_rationed (k := 0) rationed32_32 (by omega)⟩

/-- **C94**: UTF-8 to UTF-8, any bytes: if there are two places more for each byte. -/
theorem C94_utf8_room (s : Str) (first out : Nat) (h : out + 2 * s.length ≤ first) : NeverOvertakes t8_8 s first out :=
  overtakes_rationed (k := 2) rationed8_8 h

/-- **C94**: bytes of unknown encoding to UTF-8, any bytes: if there are two places more for each byte. -/
theorem C94_bytes_room (s : Str) (first out : Nat) (h : out + 2 * s.length ≤ first) : NeverOvertakes tx_8 s first out := by
  intro s₁ s₂ st d e _ hf
  have h1 := C90_bytes.1.2.1 (s₁.map .unit) st d ((calls_map s₁ _).trans hf)
  have h2 := congrArg List.length e
  rw [List.length_map] at h1
  rw [List.length_append] at h2
  omega

/-- **C94**: onto the text itself, always for UTF-16 and UTF-32. -/
theorem C94_onto_utf16 (s : List UInt16) : Onto t16_16 maxOut16 s :=
  onto_of C45_utf16_utf16 (fun _ => C94_utf16.1 _ _ _ (Nat.le_refl _)) (fun _ _ h => by simpa using rationed16_16.run h)

theorem C94_onto_utf32 (s : List Nat) : Onto t32_32 maxOut32 s :=
  onto_of C45_utf32_utf32 (fun _ => C94_utf16.2 _ _ _ (Nat.le_refl _)) (fun _ _ h => by simpa using rationed32_32.run h)

/-! ### Well-formed UTF-8 -/

theorem wf_step8 {st st' : St8} {p : Str} {b : UInt8} {o : List Nat} (ha : At p st) (h : step8to32 st b = .ok (st', o)) :
    (∃ p', At p' st') ∧ (st'.wf = true → st.wf = true ∧ ∃ p', At p' st' ∧ (o.flatMap fun c => utf8 (fixCp c)).length + p'.length = p.length + 1) := by
  rcases ha.step b with ⟨c, h1, h2⟩ | ⟨s, cp, h1, h2⟩ | ⟨cp, h1, h2⟩
  · rw [h2] at h
    obtain ⟨rfl, rfl⟩ := ok_pair h
    refine ⟨⟨[], Or.inl ⟨rfl, rfl⟩⟩, fun hw => ⟨hw, [], Or.inl ⟨rfl, rfl⟩, ?_⟩⟩
    obtain ⟨e1, e2⟩ := shape_utf8 h1
    have e3 : fixCp c = c := by simp [fixCp, e2]
    simp [e3, e1]
  · rw [h2] at h
    obtain ⟨rfl, rfl⟩ := ok_pair h
    exact ⟨⟨_, Or.inr h1⟩, fun hw => ⟨hw, _, Or.inr h1, by simp⟩⟩
  · rw [h2] at h
    obtain ⟨rfl, rfl⟩ := ok_pair h
    exact ⟨⟨[], Or.inl ⟨rfl, rfl⟩⟩, fun hw => by simp at hw⟩

theorem feed8_wf : ∀ (s : Str) (st st' : t8_8.σ) (p d : Str), At p st.1 → t8_8.feed st s = .ok (st', d) →
    (∃ p', At p' st'.1) ∧ (st'.1.wf = true → st.1.wf = true ∧ ∃ p', At p' st'.1 ∧ d.length + p'.length = p.length + s.length) := by
  intro s
  induction s with
  | nil =>
    intro st st' p d ha h
    obtain ⟨rfl, rfl⟩ := ok_pair h
    exact ⟨⟨p, ha⟩, fun hw => ⟨hw, p, ha, by simp⟩⟩
  | cons c s ih =>
    intro st st' p d ha h
    obtain ⟨st1, o, os, h1, h2, rfl⟩ := feed_cons_inv h
    obtain ⟨mid, h3, rfl⟩ := tri_step_inv (A := t8_32) simple32_8 h1
    obtain ⟨⟨q, hq⟩, k⟩ := wf_step8 ha h3
    refine ⟨(ih st1 st' q os hq h2).1, fun hw => ?_⟩
    obtain ⟨hw1, -⟩ := (ih st1 st' q os hq h2).2 hw
    obtain ⟨hw0, q', hq', e⟩ := k hw1
    obtain ⟨_, q2, hq2, e2⟩ := (ih st1 st' q' os hq' h2).2 hw
    refine ⟨hw0, q2, hq2, ?_⟩
    simp only [List.length_append, List.length_cons] at e ⊢
    omega

theorem feed_append_inv {α : Type} {T : Transcoder α α} : ∀ (s₁ : List α) {s₂ : List α} {st st' st₁ : T.σ} {d d₁ : List α}, T.feed st (s₁ ++ s₂) = .ok (st', d) →
    T.feed st s₁ = .ok (st₁, d₁) → ∃ d₂, T.feed st₁ s₂ = .ok (st', d₂) ∧ d = d₁ ++ d₂ := by
  intro s₁
  induction s₁ with
  | nil =>
    intro s₂ st st' st₁ d d₁ h h1
    obtain ⟨rfl, rfl⟩ := ok_pair h1
    exact ⟨d, h, rfl⟩
  | cons c s₁ ih =>
    intro s₂ st st' st₁ d d₁ h h1
    obtain ⟨a, o, os, k1, k2, rfl⟩ := feed_cons_inv h
    obtain ⟨a', o', os', k1', k2', rfl⟩ := feed_cons_inv h1
    rw [k1] at k1'
    obtain ⟨rfl, rfl⟩ := ok_pair k1'
    obtain ⟨d₂, e1, rfl⟩ := ih k2 k2'
    exact ⟨d₂, e1, by rw [List.append_assoc]⟩

/-- A text for which the transcoder says that it is well-formed. -/
theorem well8 {s : Str} {cs : List Nat} (hs : IsUtf8 s cs) : ∃ st st' d, t8_8.feed t8_8.init s = .ok (st', d) ∧ st'.1.wf = true ∧ t8_8.run s = .ok (st, d) := by
  obtain ⟨_, _, _, st, hr, hw⟩ := C44_utf8_to s
  have hw := hw.2 ⟨cs, hs⟩
  obtain ⟨st', o, e, h1, h2, h3⟩ := run_inv hr
  have hw1 : st.1.wf = true := by
    have : (st.1.wf && t32_8.wellFormed st.2) = true := hw
    simp only [Bool.and_eq_true] at this
    exact this.1
  obtain ⟨mid, h4, rfl⟩ := tri_end_inv (A := t8_32) simple32_8 h2
  have h4 : endCp8to32 st'.1 = .ok (st.1, mid) := h4
  unfold endCp8to32 at h4
  by_cases hk : st'.1.state ≠ Icu.accept
  · rw [if_pos hk] at h4
    obtain ⟨k, _⟩ := ok_pair h4
    rw [← k] at hw1; simp at hw1
  · rw [if_neg hk] at h4
    obtain ⟨k, rfl⟩ := ok_pair h4
    refine ⟨st, st', o, h1, by rw [k]; exact hw1, ?_⟩
    rw [hr, h3]; simp

theorem at_init : At [] t8_8.init.1 := Or.inl ⟨rfl, rfl⟩

/-- **C94**: well-formed UTF-8 can be transcoded to where it is, or any place before it. -/
theorem C94_utf8 (s : Str) (cs : List Nat) (hs : IsUtf8 s cs) (first out : Nat) (h : out ≤ first) : NeverOvertakes t8_8 s first out := by
  intro s₁ s₂ st d e _ hf
  obtain ⟨_, st', d', h1, h2, _⟩ := well8 hs
  rw [e] at h1
  obtain ⟨d₂, h3, _⟩ := feed_append_inv s₁ h1 hf
  obtain ⟨p, hp⟩ := (feed8_wf s₁ _ st [] d at_init hf).1
  have hw := ((feed8_wf s₂ st st' p d₂ hp h3).2 h2).1
  obtain ⟨_, q, _, e2⟩ := (feed8_wf s₁ _ st [] d at_init hf).2 hw
  simp only [List.length_nil] at e2
  omega

theorem C94_onto_utf8 (s : Str) (cs : List Nat) (hs : IsUtf8 s cs) : Onto t8_8 maxOut8 s := by
  refine onto_of C45_utf8_utf8 (fun _ => C94_utf8 s cs hs _ _ (Nat.le_refl _)) fun st d hr => ?_
  obtain ⟨st1, st', d', h1, h2, h3⟩ := well8 hs
  rw [h3] at hr
  obtain ⟨rfl, rfl⟩ := ok_pair hr
  obtain ⟨_, q, _, e2⟩ := (feed8_wf s _ st' [] d' at_init h1).2 h2
  simp only [List.length_nil] at e2
  omega

/-- C94, why well-formed: a byte that is not UTF-8 is replaced by three, and the next byte is gone before it is read: of FF 41 42 43 nothing is left. -/
theorem C94_counterexample :
    (t8_8.run [0xFF, 0x41, 0x42, 0x43]).map (·.2) = .ok [0xEF, 0xBF, 0xBD, 0x41, 0x42, 0x43] ∧
    (Same.runAt t8_8 [0xFF, 0x41, 0x42, 0x43, 0, 0, 0, 0, 0, 0, 0, 0] 0 4 0).map (·.2) =
      .ok ([0xEF, 0xBF, 0xBD, 0xEF, 0xBF, 0xBD, 0xEF, 0xBF, 0xBD, 0xEF, 0xBF, 0xBD], 12) ∧
    Same.viewCopyAt t8_8 maxOut8 4 [0xFF, 0x41, 0x42, 0x43, 0, 0, 0, 0, 0, 0, 0, 0] 0 0 =
      .ok ([0xEF, 0xBF, 0xBD, 0xEF, 0xBF, 0xBD, 0xEF, 0xBF, 0xBD, 0xEF, 0xBF, 0xBD], 12, false) := by decide +kernel

/-! Hypotheses met. -/

example : TextAt [1, 2, 0x61, 0xD800, 0x62, 9] 2 5 [(0x61 : UInt16), 0xD800, 0x62] := ⟨[1, 2], [9], rfl, rfl, rfl⟩
example : (Same.runAt t16_16 [1, 2, 0x61, 0xD800, 0x62, 9] 2 5 1).map (·.2) = .ok ([1, 0x61, 0xFFFD, 0x62, 0x62, 9], 4) := by decide +kernel
example : (Same.runAt t8_8 [1, 0x41, 0xE2, 0x82, 0xAC, 9] 1 5 1).map (·.2) = .ok ([1, 0x41, 0xE2, 0x82, 0xAC, 9], 5) := by decide +kernel
example : IsUtf8 [0x41, 0xE2, 0x82, 0xAC] [0x41, 0x20AC] := ⟨by decide, by decide⟩

end Verif
