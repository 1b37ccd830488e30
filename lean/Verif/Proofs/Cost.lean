import Verif.Model.Cost

/-!
# Running time of the rule class

Forgetting the steps gives the model without them (`Gr.steps_fst`).
-/

namespace Verif.Cost
open Rule (ofSV failed)

set_option linter.unusedSimpArgs false

variable {α β γ : Type}

@[simp] theorem tick_fst (n : Nat) (x : CM β) : (tick n x).1 = x.1 := rfl
@[simp] theorem tick_snd (n : Nat) (x : CM β) : (tick n x).2 = n + x.2 := rfl
@[simp] theorem ret_fst (x : M β) : (ret x).1 = x := rfl
@[simp] theorem ret_snd (x : M β) : (ret x).2 = 0 := rfl

theorem andThen_fst (x : CM β) (f : β → CM γ) : (andThen x f).1 = x.1 >>= fun b => (f b).1 := by
  unfold andThen
  cases x.1 <;> rfl

@[simp] theorem copy_fst (r : Rule α) : (copy r).1 = .ok r := rfl
@[simp] theorem copy_snd (r : Rule α) : (copy r).2 = r.acc.length := rfl
@[simp] theorem joinMatched_fst (r : Rule α) (m) : (joinMatched r m).1 = r.joinMatched m := rfl
@[simp] theorem joinRule_fst (r o : Rule α) : (joinRule r o).1 = .ok (r.joinRule o) := rfl

theorem concatImpl_fst {cm : CMatcher α} {m : Matcher α} (h : ∀ r, (cm r).1 = m r) (a : Option α) (o : Bool) (r : Rule α) :
    (concatImpl cm a o r).1 = Rule.concatImpl m a o r := by
  unfold concatImpl Rule.concatImpl
  cases r.tail with
  | none => rfl
  | some t =>
    simp only [tick_fst, andThen_fst, h]
    congr 1
    funext x
    cases x with
    | none => cases o <;> rfl
    | some y => cases a <;> rfl

theorem optionalA_fst {cm : CMatcher α} {m : Matcher α} (h : ∀ r, (cm r).1 = m r) (a : Option α) (r : Rule α) :
    (optionalA cm a r).1 = Rule.optionalA m a r := by
  unfold optionalA Rule.optionalA
  cases r.tail with
  | none => rfl
  | some t =>
    simp only [tick_fst, andThen_fst, concatImpl_fst h]
    congr 1
    funext x
    cases x.tail <;> rfl

theorem starLoop_fst {cm : CMatcher α} {m : Matcher α} (h : ∀ r, (cm r).1 = m r) (max : Nat) :
    ∀ fuel count str length acc, (starLoop cm max fuel count str length acc).1 = Rule.starLoop m max fuel count str length acc := by
  intro fuel
  induction fuel with
  | zero => intros; rfl
  | succ fuel ih =>
    intro count str length acc
    unfold starLoop Rule.starLoop
    simp only [andThen_fst, tick_fst, h]
    congr 1
    funext x
    cases x with
    | none => rfl
    | some y =>
      simp only []
      split
      · rfl
      · simp only [tick_fst, andThen_fst, ret_fst, ih]

theorem star_fst {cm : CMatcher α} {m : Matcher α} (h : ∀ r, (cm r).1 = m r) (min max : Nat) (r : Rule α) :
    (star cm min max r).1 = Rule.star m min max r := by
  unfold star Rule.star
  cases r.tail with
  | none => rfl
  | some t =>
    simp only [tick_fst, andThen_fst, starLoop_fst h]
    congr 1
    funext x
    split
    · rfl
    · simp only [andThen_fst, ret_fst]; rfl

theorem alternative_fst : ∀ {cms : List (CMatcher α)} {ms : List (Matcher α)}, cms.length = ms.length →
    (∀ p ∈ cms.zip ms, ∀ r, (p.1 r).1 = p.2 r) → ∀ r, (alternative cms r).1 = Rule.alternative ms r
  | [], [], _, _ => fun _ => rfl
  | cm :: cms, m :: ms, hl, h => by
    intro r
    unfold alternative Rule.alternative
    have hm : ∀ r, (cm r).1 = m r := h (cm, m) (by simp)
    have ih := alternative_fst (cms := cms) (ms := ms) (by simpa using hl) (fun p hp => h p (by simp [hp]))
    cases r.tail with
    | none => rfl
    | some t =>
      simp only [tick_fst, andThen_fst, hm]
      congr 1
      funext x
      cases x with
      | none => exact ih r
      | some y => rfl

theorem alts_length : ∀ gs : Alts α, gs.steps.length = gs.run.length
  | .nil => rfl
  | .cons g gs => by simp [Alts.steps, Alts.run, alts_length gs]

mutual
/-- Forgetting the steps. -/
theorem Gr.steps_fst : ∀ (g : Gr α) (r : Rule α), (g.steps r).1 = g.run r
  | .chr p, r => rfl
  | .look p, r => rfl
  | .rule c, r => by
      simp only [Gr.steps, Gr.run, andThen_fst, Chain.steps_fst c]
      rfl
/-- Forgetting the steps. -/
theorem Chain.steps_fst : ∀ (c : Chain α) (r : Rule α), (c.steps r).1 = c.run r
  | .nil, r => rfl
  | .concat c g a, r => by
      simp only [Chain.steps, Chain.run, andThen_fst, Chain.steps_fst c, concatImpl_fst (Gr.steps_fst g)]
  | .optional c g, r => by
      simp only [Chain.steps, Chain.run, andThen_fst, Chain.steps_fst c, optionalA_fst (Gr.steps_fst g)]
      rfl
  | .star c g min max, r => by
      simp only [Chain.steps, Chain.run, andThen_fst, Chain.steps_fst c, star_fst (Gr.steps_fst g)]
  | .alternative c gs, r => by
      simp only [Chain.steps, Chain.run, andThen_fst, Chain.steps_fst c, alternative_fst (alts_length gs) (Alts.steps_fst gs)]
/-- Forgetting the steps. -/
theorem Alts.steps_fst : ∀ (gs : Alts α), ∀ p ∈ gs.steps.zip gs.run, ∀ r, (p.1 r).1 = p.2 r
  | .nil => by simp [Alts.steps]
  | .cons g gs => by
      intro p hp r
      simp only [Alts.steps, Alts.run, List.zip_cons_cons, List.mem_cons] at hp
      rcases hp with rfl | hp
      · exact Gr.steps_fst g r
      · exact Alts.steps_fst gs p hp r
end

end Verif.Cost
