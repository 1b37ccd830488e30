import Verif.Proofs.Bytes
import Verif.Proofs.ByteCalls

/-!
# The lazy view, for any transcoder: what a loop over it yields, or that an assertion fails
-/

namespace Verif.Icu
open Verif.Unicode
set_option linter.unusedSimpArgs false

section
variable {ι ο : Type} (T : Transcoder ι ο) (K : Nat)

/-- The last fill of the buffer: what the last code unit and the end of the text give. -/
def lastChunk (wf : Bool) (st : T.σ) (o : List ο) : M (List ο × Bool) :=
  T.endCp st >>= fun p => if (o ++ p.2).length > K then .error .assertion
    else if o ++ p.2 = [] then .error .assertion
    else T.endCp p.1 >>= fun q => if q.2.length > K then .error .assertion else .ok (o ++ p.2, (wf && T.wellFormed p.1) && T.wellFormed q.1)

/-- What a loop over the view of a text that is not empty yields, one code unit at a time. -/
def viewSpec : T.σ → Bool → List ι → M (List ο × Bool)
  | _, wf, [] => .ok ([], wf)
  | st, wf, c :: s => T.step st c >>= fun p => if p.2.length > K then .error .assertion
      else if s.isEmpty then lastChunk T K wf p.1 p.2
      else viewSpec p.1 (if p.2.isEmpty then wf else wf && T.wellFormed p.1) s >>= fun q => .ok (p.2 ++ q.1, q.2)

variable {T K}

/-- A loop from an iterator. -/
def loopFrom (T : Transcoder ι ο) (K fuel : Nat) (it : ViewIt ι ο T) : M (List ο × Bool) :=
  viewLoop T K fuel it >>= fun p => .ok (p.2, p.1.parentWf)

theorem loop_buf : ∀ (b : List ο) (c : ο) (fuel : Nat) (it : ViewIt ι ο T), it.current ≠ [] → it.buf = c :: b →
    loopFrom T K (fuel + b.length + 1) it = (fill T K { it with buf := [] } >>= fun it' => loopFrom T K fuel it' >>= fun q => .ok (c :: b ++ q.1, q.2)) := by
  intro b
  induction b with
  | nil =>
    intro c fuel it hc hb
    have hat : it.atEnd = false := by simpa [ViewIt.atEnd] using hc
    simp only [List.length_nil, Nat.add_zero, loopFrom, viewLoop, hat, Bool.false_eq_true, if_false, ViewIt.deref, ViewIt.incr, hb, List.isEmpty_nil, if_true,
      bind, Except.bind]
    cases fill T K { it with buf := [] } with
    | error e => rfl
    | ok it' =>
      simp only
      cases viewLoop T K fuel it' with
      | error e => rfl
      | ok p => rfl
  | cons d b ih =>
    intro c fuel it hc hb
    have hat : it.atEnd = false := by simpa [ViewIt.atEnd] using hc
    have := ih d fuel { it with buf := d :: b } hc rfl
    simp only at this
    rw [show fuel + (d :: b).length + 1 = (fuel + b.length + 1) + 1 by simp; omega]
    have hl : ∀ n, loopFrom T K (n + 1) it = (loopFrom T K n { it with buf := d :: b } >>= fun q => .ok (c :: q.1, q.2)) := by
      intro n
      simp only [loopFrom, viewLoop, hat, Bool.false_eq_true, if_false, ViewIt.deref, ViewIt.incr, hb, List.isEmpty_cons, bind, Except.bind]
      cases viewLoop T K n { it with buf := d :: b } <;> rfl
    rw [hl, this]
    cases fill T K { it with buf := [] } with
    | error e => rfl
    | ok it' =>
      simp only [bind, Except.bind]
      cases loopFrom T K fuel it' with
      | error e => rfl
      | ok p => rfl

theorem loop_end (fuel : Nat) (it : ViewIt ι ο T) (h : it.current = []) : loopFrom T K (fuel + 1) it = .ok ([], it.parentWf) := by
  simp [loopFrom, viewLoop, ViewIt.atEnd, h, bind, Except.bind]

theorem loop_stuck (fuel : Nat) (it : ViewIt ι ο T) (h : it.current ≠ []) (hb : it.buf = []) : loopFrom T K (fuel + 1) it = .error .assertion := by
  have hat : it.atEnd = false := by simpa [ViewIt.atEnd] using h
  simp [loopFrom, viewLoop, hat, ViewIt.deref, hb, bind, Except.bind]

/-- `fill` with the loop taken apart. -/
theorem fill_eq (it : ViewIt ι ο T) (hb : it.buf = []) : fill T K it = (fillLoop T K it.tr it.next >>= fun p =>
    (if p.2.1.isEmpty then T.endCp p.1 else .ok (p.1, [])) >>= fun q =>
    if (p.2.2 ++ q.2).length > K then .error .assertion
    else .ok { current := it.next, next := p.2.1, buf := p.2.2 ++ q.2, tr := q.1, parentWf := it.parentWf && T.wellFormed q.1 }) := by
  unfold fill
  rw [hb]
  simp only [List.isEmpty_nil, Bool.not_true, Bool.false_eq_true, if_false, bind, Except.bind]
  cases fillLoop T K it.tr it.next with
  | error e => rfl
  | ok p =>
    obtain ⟨st, rest, o⟩ := p
    simp only
    cases rest.isEmpty with
    | true => rfl
    | false => rfl

theorem fillLoop_cons (st : T.σ) (c : ι) (s : List ι) : fillLoop T K st (c :: s) = (T.step st c >>= fun p =>
    if p.2.length > K then .error .assertion else if p.2.isEmpty then fillLoop T K p.1 s else .ok (p.1, s, p.2)) := rfl

/-- The loop after the last fill. -/
theorem loop_last (fuel : Nat) (cur : List ι) (hcur : cur ≠ []) (st : T.σ) (wf : Bool) (o : List ο) (hf : (o.length ≤ K → o ≠ [] → K ≤ fuel)) (hK : K ≤ fuel) :
    (T.endCp st >>= fun q => if (o ++ q.2).length > K then .error .assertion
      else loopFrom T K (fuel + 1) { current := cur, next := [], buf := o ++ q.2, tr := q.1, parentWf := wf && T.wellFormed q.1 }) = lastChunk T K wf st o := by
  unfold lastChunk
  cases T.endCp st with
  | error e => rfl
  | ok q =>
    obtain ⟨st', e⟩ := q
    simp only [bind, Except.bind]
    by_cases h1 : (o ++ e).length > K
    · rw [if_pos h1, if_pos h1]
    · rw [if_neg h1, if_neg h1]
      generalize hx : o ++ e = x at *
      cases x with
      | nil => rw [if_pos rfl]; exact loop_stuck _ _ hcur rfl
      | cons d x =>
        rw [if_neg (by simp)]
        have hl : x.length + 1 ≤ K := by simpa using Nat.not_lt.1 h1
        obtain ⟨f, rfl⟩ : ∃ f, fuel = f + x.length + 1 := ⟨fuel - x.length - 1, by omega⟩
        rw [show f + x.length + 1 + 1 = (f + 1) + x.length + 1 by omega, loop_buf x d (f + 1) _ hcur rfl, fill_eq _ rfl]
        simp only [fillLoop, bind, Except.bind, List.isEmpty_nil, if_true, List.nil_append]
        cases T.endCp st' with
        | error e => rfl
        | ok q =>
          obtain ⟨st3, e3⟩ := q
          simp only
          by_cases h2 : e3.length > K
          · rw [if_pos h2, if_pos h2]
          · rw [if_neg h2, if_neg h2]
            simp only [loop_end]
            simp

/-- The loop that begins with a fill. -/
theorem loop_spec : ∀ (s : List ι) (fuel : Nat) (cur : List ι) (st : T.σ) (wf : Bool), s ≠ [] → cur ≠ [] → K * s.length ≤ fuel →
    ((fillLoop T K st s >>= fun p => (if p.2.1.isEmpty then T.endCp p.1 else .ok (p.1, [])) >>= fun q =>
      if (p.2.2 ++ q.2).length > K then .error .assertion
      else loopFrom T K (fuel + 1) { current := cur, next := p.2.1, buf := p.2.2 ++ q.2, tr := q.1, parentWf := wf && T.wellFormed q.1 }) : M (List ο × Bool)) =
    viewSpec T K st wf s := by
  intro s
  induction s with
  | nil => intro _ _ _ _ h; exact absurd rfl h
  | cons c s ih =>
    intro fuel cur st wf _ hcur hf
    rw [fillLoop_cons, viewSpec]
    cases T.step st c with
    | error e => rfl
    | ok p =>
      obtain ⟨st', o⟩ := p
      simp only [bind, Except.bind]
      have hK : K ≤ fuel := by
        refine Nat.le_trans ?_ hf
        rw [List.length_cons, Nat.mul_add]; omega
      by_cases h1 : o.length > K
      · rw [if_pos h1, if_pos h1]
      · rw [if_neg h1, if_neg h1]
        cases s with
        | nil =>
          simp only [List.isEmpty_nil, if_true]
          have hl : (if o.isEmpty = true then fillLoop T K st' [] else Except.ok (st', [], o)) = .ok (st', [], o) := by
            cases o with
            | nil => rfl
            | cons => rfl
          rw [hl]
          simp only [List.isEmpty_nil, if_true]
          exact loop_last fuel cur hcur st' wf o (fun _ _ => hK) hK
        | cons d s =>
          rw [show (d :: s).isEmpty = false from rfl]
          simp only [Bool.false_eq_true, if_false]
          have hfs : K * (d :: s).length + K ≤ fuel := by
            rw [List.length_cons (a := c), Nat.mul_add, Nat.mul_one] at hf; exact hf
          cases o with
          | nil =>
            simp only [List.isEmpty_nil, if_true, List.nil_append]
            have := ih fuel cur st' wf (by simp) hcur (by omega)
            simp only [bind, Except.bind] at this
            rw [this]
            cases viewSpec T K st' wf (d :: s) with
            | error e => rfl
            | ok q => rfl
          | cons x o =>
            rw [show (x :: o).isEmpty = false from rfl]
            simp only [Bool.false_eq_true, if_false, List.isEmpty_cons, List.append_nil]
            rw [if_neg h1]
            have hlo : o.length + 1 ≤ K := by simpa using Nat.not_lt.1 h1
            obtain ⟨f, rfl⟩ : ∃ f, fuel = f + o.length + 1 := ⟨fuel - o.length - 1, by omega⟩
            rw [show f + o.length + 1 + 1 = (f + 1) + o.length + 1 by omega, loop_buf o x (f + 1) _ hcur rfl, fill_eq _ rfl]
            have := ih f (d :: s) st' (wf && T.wellFormed st') (by simp) (by simp) (by omega)
            simp only at this ⊢
            rw [← this]
            simp only [bind, Except.bind]
            cases fillLoop T K st' (d :: s) with
            | error e => rfl
            | ok p =>
              obtain ⟨a, b, c'⟩ := p
              simp only
              cases (if b.isEmpty = true then T.endCp a else Except.ok (a, [])) with
              | error e => rfl
              | ok q =>
                simp only
                by_cases h2 : (c' ++ q.2).length > K
                · rw [if_pos h2, if_pos h2]
                · rw [if_neg h2, if_neg h2]

/-- What a loop over the view of a text yields. -/
theorem view_eq (s : List ι) (hs : s ≠ []) : viewRun T K s = viewSpec T K T.init true s := by
  rw [← loop_spec s (K * s.length) s T.init true hs hs (Nat.le_refl _)]
  have hse : s.isEmpty = false := by simpa using hs
  have e : viewRun T K s = (viewBegin T K s >>= fun it => loopFrom T K (K * s.length + 1) it) := by
    simp only [viewRun, loopFrom, bind, Except.bind]
  rw [e]
  simp only [viewBegin, hse, Bool.false_eq_true, if_false]
  rw [fill_eq _ rfl]
  simp only [bind, Except.bind]
  cases fillLoop T K T.init s with
  | error e => rfl
  | ok p =>
    simp only
    cases (if p.2.1.isEmpty = true then T.endCp p.1 else Except.ok (p.1, [])) with
    | error e => rfl
    | ok q =>
      simp only
      by_cases h2 : (p.2.2 ++ q.2).length > K
      · rw [if_pos h2, if_pos h2]
      · rw [if_neg h2, if_neg h2]

/-- Code units for which nothing is written. -/
theorem spec_silent : ∀ (p : List ι) (st st' : T.σ) (wf : Bool) (r : List ι), T.feed st p = .ok (st', []) → r ≠ [] →
    viewSpec T K st wf (p ++ r) = viewSpec T K st' wf r := by
  intro p
  induction p with
  | nil =>
    intro st st' wf r h _
    have := (ok_pair h).1
    subst this; rfl
  | cons c p ih =>
    intro st st' wf r h hr
    obtain ⟨st1, o1, o2, h1, h2, h3⟩ := feed_split h
    obtain ⟨rfl, rfl⟩ : o1 = [] ∧ o2 = [] := by
      have := h3.symm; simpa using this
    rw [List.cons_append, viewSpec, h1]
    simp only [bind, Except.bind, List.length_nil]
    rw [if_neg (by omega), if_neg (by simp [hr]), ← ih st1 st' wf r h2 hr]
    simp only [List.isEmpty_nil, if_true]
    cases viewSpec T K st1 wf (p ++ r) with
    | error e => rfl
    | ok q => rfl

end
end Verif.Icu
