import Verif.Model.Space
import Verif.Props.Cost

/-!
# Property C111: how much memory parsing holds
-/

namespace Verif.Space
open Rule (ofSV failed)
open Cost (Gr Chain Alts CM)
set_option linter.unusedSimpArgs false

variable {α β γ : Type}

theorem bind_ok {x : M β} {f : β → M γ} {c : γ} (h : x >>= f = .ok c) : ∃ b, x = .ok b ∧ f b = .ok c := by
  cases x with
  | error e => exact absurd h (by simp [bind, Except.bind])
  | ok b => exact ⟨b, rfl, h⟩

/-- The same result as in the model with steps; not more is held than steps are taken; and what the result holds is part of it. -/
def Below (x : SM β) (size : β → Nat) (c : CM β) : Prop := x.1 = c.1 ∧ x.2 ≤ c.2 ∧ ∀ b, x.1 = .ok b → size b ≤ x.2

theorem joinMatched_size {r r' : Rule α} {m : SV × Acceptors α} (h : r.joinMatched m = .ok r') : sizeR r' = r.acc.length + m.2.length := by
  unfold Rule.joinMatched at h
  cases ht : r.tail with
  | none => rw [ht] at h; exact absurd h (by simp)
  | some t =>
    rw [ht] at h
    obtain ⟨t', h1, h2⟩ := bind_ok h
    rw [← Except.ok.inj h2]
    simp [sizeR]

theorem copy_below (r : Rule α) : Below (copy r) sizeR (Cost.copy r) :=
  ⟨rfl, Nat.le_refl _, fun b h => by rw [← Except.ok.inj h]; exact Nat.le_refl _⟩

theorem holding_below {x : SM β} {size : β → Nat} {c : CM β} {f : β → SM γ} {size' : γ → Nat} {k : β → CM γ} (h : Below x size c)
    (hf : ∀ b, x.1 = .ok b → (f b).1 = (k b).1 ∧ size b + (f b).2 ≤ c.2 + (k b).2 ∧ ∀ d, (f b).1 = .ok d → size' d ≤ (f b).2) :
    Below (holding x size f) size' (Cost.andThen c k) := by
  obtain ⟨h1, h2, h3⟩ := h
  unfold holding Cost.andThen
  rw [← h1]
  cases hx : x.1 with
  | error e => exact ⟨rfl, h2, fun b hb => by exact absurd hb (by simp)⟩
  | ok b =>
    obtain ⟨g1, g2, g3⟩ := hf b hx
    refine ⟨g1, Nat.max_le.2 ⟨?_, g2⟩, fun d hd => ?_⟩
    · show x.2 ≤ c.2 + (k b).2
      omega
    · have : size' d ≤ (f b).2 := g3 d hd
      exact Nat.le_trans (Nat.le_trans this (Nat.le_add_left _ _)) (Nat.le_max_right _ _)

theorem below_tick {x : SM β} {size : β → Nat} {c : CM β} (n : Nat) (h : Below x size c) : Below x size (Cost.tick n c) := by
  obtain ⟨h1, h2, h3⟩ := h
  exact ⟨h1, by rw [Cost.tick_snd]; omega, h3⟩

theorem joinMatched_below (r : Rule α) (m : SV × Acceptors α) : Below (joinMatched r m) sizeR (Cost.joinMatched r m) := by
  refine ⟨rfl, ?_, fun b h => Nat.le_of_eq (joinMatched_size h)⟩
  simp only [joinMatched, Cost.joinMatched, Cost.tick_snd, Cost.ret_snd]
  omega

theorem concatImpl_below {m : SMatcher α} {c : Cost.CMatcher α} (h : ∀ r, Below (m r) sizeM (c r)) (a : Option α) (o : Bool) (r : Rule α) :
    Below (concatImpl m a o r) sizeR (Cost.concatImpl c a o r) := by
  unfold concatImpl Cost.concatImpl
  refine below_tick 1 ?_
  cases r.tail with
  | none => exact copy_below r
  | some t =>
    refine holding_below (below_tick 1 (h _)) fun b hb => ?_
    obtain ⟨g1, g2, g3⟩ := h (ofSV t)
    have hs : sizeM b ≤ (c (ofSV t)).2 := Nat.le_trans (g3 b hb) g2
    rw [Cost.tick_snd]
    cases b with
    | none =>
      cases o
      · exact ⟨rfl, by simp only [sizeM] at *; simp, fun d hd => by rw [← Except.ok.inj hd]; simp [sizeR, failed]⟩
      · obtain ⟨k1, k2, k3⟩ := copy_below r
        exact ⟨k1, by simp only [sizeM, if_true]; omega, k3⟩
    | some x =>
      obtain ⟨head, acc⟩ := x
      cases a with
      | none =>
        obtain ⟨k1, k2, k3⟩ := joinMatched_below r (head, acc)
        exact ⟨k1, by simp only []; omega, k3⟩
      | some a =>
        obtain ⟨k1, k2, k3⟩ := joinMatched_below r (head, acc ++ [(a, head)])
        refine ⟨k1, ?_, fun d hd => Nat.le_trans (k3 d hd) (Nat.le_add_left _ _)⟩
        simp only [Cost.tick_snd]; omega

theorem optional_below {m : SMatcher α} {c : Cost.CMatcher α} (h : ∀ r, Below (m r) sizeM (c r)) (r : Rule α) :
    Below (optional m r) sizeR (Cost.optionalA c none r) := by
  unfold optional Cost.optionalA
  refine below_tick 1 ?_
  cases r.tail with
  | none => exact copy_below r
  | some t =>
    have hc := concatImpl_below h none true (ofSV t)
    refine holding_below hc fun b hb => ?_
    have hs : sizeR b ≤ (Cost.concatImpl c none true (ofSV t)).2 := Nat.le_trans (hc.2.2 b hb) hc.2.1
    cases b.tail with
    | none =>
      obtain ⟨k1, k2, k3⟩ := copy_below r
      exact ⟨k1, by simp only []; omega, k3⟩
    | some t' =>
      refine ⟨rfl, ?_, fun d hd => ?_⟩
      · simp only [joinRule, Cost.joinRule, Cost.tick_snd, Cost.ret_snd]; omega
      · rw [← Except.ok.inj hd]; simp [joinRule, Rule.joinRule, sizeR]

theorem starLoop_below {m : SMatcher α} {c : Cost.CMatcher α} (h : ∀ r, Below (m r) sizeM (c r)) (max : Nat) :
    ∀ fuel count str length acc, (starLoop m max fuel count str length acc).1 = (Cost.starLoop c max fuel count str length acc).1 ∧
      (starLoop m max fuel count str length acc).2 ≤ acc.length + (Cost.starLoop c max fuel count str length acc).2 ∧
      ∀ x, (starLoop m max fuel count str length acc).1 = .ok x → x.2.2.length ≤ (starLoop m max fuel count str length acc).2 := by
  intro fuel
  induction fuel with
  | zero => intro count str length acc; exact ⟨rfl, Nat.le_add_right _ _, fun x hx => by exact absurd hx (by simp [starLoop])⟩
  | succ fuel ih =>
    intro count str length acc
    obtain ⟨g1, g2, g3⟩ := h (ofSV str)
    unfold starLoop Cost.starLoop Cost.andThen
    rw [Cost.tick_fst, Cost.tick_snd, ← g1]
    cases hm : (m (ofSV str)).1 with
    | error e => exact ⟨rfl, by simp only []; omega, fun x hx => by exact absurd hx (by simp)⟩
    | ok b =>
      have hs := g3 b hm
      cases b with
      | none => exact ⟨rfl, by simp only [Cost.ret_snd]; omega, fun x hx => by rw [← Except.ok.inj hx]; exact Nat.le_add_right _ _⟩
      | some y =>
        obtain ⟨head, a⟩ := y
        simp only [sizeM] at hs
        simp only []
        by_cases hc : (count + 1) % uintMod > max
        · rw [if_pos hc, if_pos hc]
          exact ⟨rfl, by simp only [Cost.ret_snd]; omega, fun x hx => by rw [← Except.ok.inj hx]; exact Nat.le_add_right _ _⟩
        · rw [if_neg hc, if_neg hc, Cost.tick_fst, Cost.tick_snd, Cost.ret_fst, Cost.ret_snd]
          cases hp : str.removePrefix head.size with
          | error e => exact ⟨rfl, by simp only []; omega, fun x hx => by exact absurd hx (by simp)⟩
          | ok str' =>
            obtain ⟨k1, k2, k3⟩ := ih ((count + 1) % uintMod) str' (length + head.size) (acc ++ a)
            rw [List.length_append] at k2
            refine ⟨k1, Nat.max_le.2 ⟨by simp only []; omega, Nat.max_le.2 ⟨by simp only []; omega, by simp only []; omega⟩⟩, fun x hx => ?_⟩
            exact Nat.le_trans (k3 x hx) (Nat.le_trans (Nat.le_max_right _ _) (Nat.le_max_right _ _))

theorem star_below {m : SMatcher α} {c : Cost.CMatcher α} (h : ∀ r, Below (m r) sizeM (c r)) (min max : Nat) (r : Rule α) :
    Below (star m min max r) sizeR (Cost.star c min max r) := by
  unfold star Cost.star
  refine below_tick 1 ?_
  cases r.tail with
  | none => exact copy_below r
  | some t =>
    obtain ⟨k1, k2, k3⟩ := starLoop_below h max (t.size + max + 2) 0 t 0 r.acc
    simp only []
    generalize starLoop m max (t.size + max + 2) 0 t 0 r.acc = x at k1 k2 k3 ⊢
    generalize Cost.starLoop c max (t.size + max + 2) 0 t 0 r.acc = y at k1 k2 ⊢
    obtain ⟨x1, x2⟩ := x
    obtain ⟨y1, y2⟩ := y
    simp only [] at k1 k2 k3
    subst k1
    unfold Cost.andThen
    cases x1 with
    | error e => exact ⟨rfl, by rw [Cost.tick_snd]; exact k2, fun b hb => by exact absurd hb (by simp [bind, Except.bind])⟩
    | ok v =>
      have hv := k3 v rfl
      simp only [Cost.tick_snd]
      by_cases hc : v.1 < min
      · simp only [hc, if_true]
        refine ⟨by simp [bind, Except.bind, hc], by simp only [Cost.tick_snd, Cost.ret_snd]; omega, fun b hb => ?_⟩
        simp only [bind, Except.bind, hc, if_true] at hb
        rw [← Except.ok.inj hb]; simp [sizeR, failed]
      · simp only [hc, if_false]
        cases hx : t.substrFrom v.2.1 with
        | error e =>
          refine ⟨by simp [bind, Except.bind, hc, hx], by simp only [Cost.tick_snd, Cost.ret_fst, Cost.ret_snd, hx]; omega, fun b hb => ?_⟩
          simp only [bind, Except.bind, hc, if_false, hx] at hb
          exact absurd hb (by simp)
        | ok t' =>
          refine ⟨by simp [bind, Except.bind, hc, hx], by simp only [Cost.tick_snd, Cost.ret_fst, Cost.ret_snd, hx]; omega, fun b hb => ?_⟩
          simp only [bind, Except.bind, hc, if_false, hx] at hb
          rw [← Except.ok.inj hb]
          exact hv

theorem alternative_below : ∀ {ms : List (SMatcher α)} {cs : List (Cost.CMatcher α)}, ms.length = cs.length →
    (∀ p ∈ ms.zip cs, ∀ r, Below (p.1 r) sizeM (p.2 r)) → ∀ r, Below (alternative ms r) sizeR (Cost.alternative cs r)
  | [], [], _, _ => fun r => ⟨rfl, Nat.zero_le _, fun b hb => by rw [← Except.ok.inj hb]; simp [sizeR, failed]⟩
  | m :: ms, c :: cs, hl, h => by
    intro r
    have hm : ∀ r, Below (m r) sizeM (c r) := h (m, c) (by simp)
    have ih := alternative_below (ms := ms) (cs := cs) (by simpa using hl) (fun p hp => h p (by simp [hp])) r
    unfold alternative Cost.alternative
    refine below_tick 1 ?_
    cases r.tail with
    | none => exact copy_below r
    | some t =>
      refine holding_below (below_tick 1 (hm _)) fun b hb => ?_
      have hs : sizeM b ≤ (c (ofSV t)).2 := Nat.le_trans ((hm (ofSV t)).2.2 b hb) (hm (ofSV t)).2.1
      rw [Cost.tick_snd]
      cases b with
      | none => exact ⟨ih.1, by have := ih.2.1; simp only [sizeM]; omega, ih.2.2⟩
      | some x =>
        obtain ⟨k1, k2, k3⟩ := joinMatched_below r x
        exact ⟨k1, by simp only []; omega, k3⟩

/-- What a chain holds at the end, and the most it held, are below the steps. -/
def HeldBelow (x : Held α) (c : CM (Rule α)) : Prop := x.rule = c.1 ∧ x.now ≤ c.2 ∧ x.most ≤ c.2

theorem call_below {x : Held α} {c : CM (Rule α)} {f : Rule α → SM (Rule α)} {k : Rule α → CM (Rule α)} (h : HeldBelow x c)
    (hf : ∀ r, Below (f r) sizeR (k r)) : HeldBelow (x.call f) (Cost.andThen c k) := by
  obtain ⟨h1, h2, h3⟩ := h
  unfold Held.call Cost.andThen
  rw [← h1]
  cases hx : x.rule with
  | error e => exact ⟨hx, h2, h3⟩
  | ok r =>
    obtain ⟨g1, g2, g3⟩ := hf r
    refine ⟨g1, ?_, ?_⟩
    · show x.now + _ ≤ c.2 + (k r).2
      refine Nat.add_le_add h2 (Nat.le_trans ?_ g2)
      cases hr : (f r).1 with
      | error e => exact Nat.zero_le _
      | ok r' => exact g3 r' hr
    · exact Nat.max_le.2 ⟨by simp only []; omega, by simp only []; omega⟩

theorem matched_below {x : Held α} {c : CM (Rule α)} (inp : Rule α) (h : HeldBelow x c) :
    Below (x.matched inp) sizeM (Cost.andThen c (Cost.matched inp)) := by
  obtain ⟨h1, h2, h3⟩ := h
  unfold Held.matched Cost.andThen
  rw [← h1]
  cases hx : x.rule with
  | error e => exact ⟨rfl, h3, fun b hb => by exact absurd hb (by simp)⟩
  | ok r =>
    refine ⟨rfl, ?_, fun b hb => ?_⟩
    · refine Nat.max_le.2 ⟨by simp only []; omega, ?_⟩
      simp only [Cost.matched, Cost.tick_snd, Cost.ret_snd]
      omega
    · refine Nat.le_trans ?_ (Nat.le_trans (Nat.le_add_left r.acc.length x.now) (Nat.le_max_right _ _))
      replace hb : Rule.matched inp r = .ok b := hb
      unfold Rule.matched at hb
      cases ht : r.tail with
      | none => rw [ht] at hb; rw [← Except.ok.inj hb]; exact Nat.zero_le _
      | some t =>
        rw [ht] at hb
        cases hi : inp.tail with
        | none => rw [hi] at hb; exact absurd hb (by simp)
        | some it =>
          rw [hi] at hb
          obtain ⟨s, k1, k2⟩ := bind_ok hb
          rw [← Except.ok.inj k2]
          exact Nat.le_refl _

theorem alts_length : ∀ gs : Alts α, (altsSpace gs).length = gs.steps.length
  | .nil => rfl
  | .cons g gs => by simp [altsSpace, Alts.steps, alts_length gs]

theorem leaf_size {x : M (Matched α)} (h : ∀ m, x = .ok m → sizeM m = 0) : ∀ b, x = .ok b → sizeM b ≤ 0 := fun b hb => Nat.le_of_eq (h b hb)

theorem singleCharP_size (p : UInt8 → M Bool) (r : Rule α) (m : Matched α) (h : r.singleCharP p = .ok m) : sizeM m = 0 := by
  unfold Rule.singleCharP at h
  cases ht : r.tail with
  | none => rw [ht] at h; rw [← Except.ok.inj h]; rfl
  | some sv =>
    rw [ht] at h
    simp only [] at h
    cases hc : sv.chars with
    | nil => rw [hc] at h; rw [← Except.ok.inj h]; rfl
    | cons c cs =>
      rw [hc] at h
      obtain ⟨b, -, h2⟩ := bind_ok h
      cases b with
      | false => rw [← Except.ok.inj h2]; rfl
      | true =>
        obtain ⟨s, -, h3⟩ := bind_ok h2
        rw [← Except.ok.inj h3]; rfl

theorem lookM_size (p : SV → Bool) (r : Rule α) (m : Matched α) (h : Cost.lookM p r = .ok m) : sizeM m = 0 := by
  unfold Cost.lookM at h
  cases ht : r.tail with
  | none => rw [ht] at h; rw [← Except.ok.inj h]; rfl
  | some sv =>
    rw [ht] at h
    simp only [] at h
    cases hp : p sv with
    | false => rw [hp] at h; rw [← Except.ok.inj h]; rfl
    | true =>
      rw [hp] at h
      obtain ⟨s, -, h3⟩ := bind_ok h
      rw [← Except.ok.inj h3]; rfl

mutual
theorem grSpace_below : ∀ (g : Gr α) (r : Rule α), Below (grSpace g r) sizeM (g.steps r)
  | .chr p, r => ⟨rfl, Nat.zero_le _, fun b hb => Nat.le_of_eq (singleCharP_size p r b hb)⟩
  | .look p, r => ⟨rfl, Nat.zero_le _, fun b hb => Nat.le_of_eq (lookM_size p r b hb)⟩
  | .rule c, r => by
      simp only [grSpace, Gr.steps]
      exact matched_below r (chainSpace_below c r)
theorem chainSpace_below : ∀ (c : Chain α) (r : Rule α), HeldBelow (chainSpace c r) (c.steps r)
  | .nil, r => ⟨rfl, Nat.zero_le _, Nat.zero_le _⟩
  | .concat c g a, r => by
      simp only [chainSpace, Chain.steps]
      exact call_below (chainSpace_below c r) (concatImpl_below (grSpace_below g) a false)
  | .optional c g, r => by
      simp only [chainSpace, Chain.steps]
      exact call_below (chainSpace_below c r) (optional_below (grSpace_below g))
  | .star c g min max, r => by
      simp only [chainSpace, Chain.steps]
      exact call_below (chainSpace_below c r) (star_below (grSpace_below g) min max)
  | .alternative c gs, r => by
      simp only [chainSpace, Chain.steps]
      exact call_below (chainSpace_below c r) (alternative_below (alts_length gs) (altsSpace_below gs))
theorem altsSpace_below : ∀ (gs : Alts α), ∀ p ∈ (altsSpace gs).zip gs.steps, ∀ r, Below (p.1 r) sizeM (p.2 r)
  | .nil => by simp [altsSpace]
  | .cons g gs => by
      intro p hp r
      simp only [altsSpace, Alts.steps, List.zip_cons_cons, List.mem_cons] at hp
      rcases hp with rfl | hp
      · exact grSpace_below g r
      · exact altsSpace_below gs p hp r
end

/-! ### The accept functions -/

theorem runAct_segments {p p' : Parts SV} {a : Act} {s : SV} (h : runAct p a s = .ok p') :
    p'.path.segments.length ≤ p.path.segments.length + 1 := by
  cases a <;> simp only [runAct] at h
  all_goals first
    | (rw [← Except.ok.inj h]; simp)
    | (cases hs : p.path.segments with
       | nil => rw [hs] at h; exact absurd h (by simp)
       | cons g gs => rw [hs] at h; rw [← Except.ok.inj h]; simp)

theorem acts_spec : ∀ (l : Acceptors Act) (p : Parts SV), (acts l p).1 = l.foldlM (fun s a => runAct s a.1 a.2) p ∧
    (acts l p).2 ≤ p.path.segments.length + l.length ∧ ∀ q, (acts l p).1 = .ok q → q.path.segments.length ≤ (acts l p).2
  | [], p => ⟨rfl, Nat.le_refl _, fun q h => by rw [← Except.ok.inj h]; exact Nat.le_refl _⟩
  | (a, s) :: l, p => by
    unfold acts
    rw [List.foldlM_cons]
    cases h : runAct p a s with
    | error e => exact ⟨rfl, Nat.le_add_right _ _, fun q hq => by exact absurd hq (by simp)⟩
    | ok p' =>
      obtain ⟨k1, k2, k3⟩ := acts_spec l p'
      have := runAct_segments h
      refine ⟨k1, Nat.max_le.2 ⟨Nat.le_add_right _ _, by rw [List.length_cons]; omega⟩, fun q hq => Nat.le_trans (k3 q hq) (Nat.le_max_right _ _)⟩

theorem done_fst (r : Rule Act) : (done r).1 = Rule.done runAct Parts.init r := by
  unfold done Rule.done
  cases r.tail with
  | none => rfl
  | some t =>
    simp only []
    cases t.chars with
    | nil => simp only []; rw [(acts_spec r.acc Parts.init).1]; rfl
    | cons c cs => rfl

theorem done_le (r : Rule Act) : (done r).2 ≤ r.acc.length := by
  unfold done
  cases r.tail with
  | none => exact Nat.zero_le _
  | some t =>
    simp only []
    cases t.chars with
    | nil => simp only []; have := (acts_spec r.acc Parts.init).2.1; simpa [Parts.init] using this
    | cons c cs => exact Nat.zero_le _

theorem done_ge {r : Rule Act} {q : Parts SV} (h : (done r).1 = .ok (some q)) : q.path.segments.length ≤ (done r).2 := by
  unfold done at h ⊢
  cases ht : r.tail with
  | none => rw [ht] at h; exact absurd h (by simp)
  | some t =>
    rw [ht] at h
    simp only [] at h ⊢
    cases hc : t.chars with
    | nil =>
      rw [hc] at h
      simp only [] at h ⊢
      obtain ⟨p, h1, h2⟩ := bind_ok h
      have e := Option.some.inj (Except.ok.inj h2)
      rw [← e]
      exact (acts_spec r.acc Parts.init).2.2 p h1
    | cons c cs => rw [hc] at h; exact absurd h (by simp)

theorem runGrammar_below (g : Gr Act) (s : SV) : (runGrammar g s).1 = (Cost.runGrammar g s).1 ∧ (runGrammar g s).2 ≤ (Cost.runGrammar g s).2 := by
  have hc := concatImpl_below (grSpace_below g) none false (ofSV s)
  have := holding_below (size' := fun _ => 0) (f := done) (k := Cost.done runAct Parts.init) hc fun b hb => by
    refine ⟨by rw [done_fst]; rfl, ?_, fun d _ => Nat.zero_le _⟩
    have h1 := hc.2.2 b hb
    have h2 := hc.2.1
    have h3 := done_le b
    simp only [Cost.done, Cost.tick_snd, Cost.ret_snd]
    omega
  exact ⟨this.1, this.2.1⟩

theorem runGrammar_ge (g : Gr Act) (s : SV) (q : Parts SV) (h : (runGrammar g s).1 = .ok (some q)) :
    2 * q.path.segments.length ≤ (runGrammar g s).2 := by
  unfold runGrammar holding at h ⊢
  cases hx : (concatImpl (grSpace g) none false (ofSV s)).1 with
  | error e => rw [hx] at h; exact absurd h (by simp)
  | ok r =>
    rw [hx] at h
    have h1 := done_ge h
    have h2 := done_le r
    refine Nat.le_trans ?_ (Nat.le_max_right _ _)
    simp only [sizeR]
    omega

end Verif.Space

namespace Verif
open Cost (Gr)

/-! ### The property -/

/-- **C111**, in general: any match function put together from `concat`, `optional`, `star`, `alternative` and matchers of single characters
holds, at any time, no more accept functions than it takes steps (C62). -/
theorem C111_grammar {α : Type} (g : Gr α) (r : Rule α) : (Space.grSpace g r).1 = g.run r ∧ (Space.grSpace g r).2 ≤ (g.steps r).2 := by
  obtain ⟨h1, h2, -⟩ := Space.grSpace_below g r
  exact ⟨h1.trans (Cost.Gr.steps_fst g r), h2⟩

/-- **C111**: the memory that `split` holds at a time is bounded by a multiple of the length of the text, accepted or not. -/
theorem C111_split (pl : Plat) (s : SV) : (Space.split pl s).1 = split pl s ∧ (Space.split pl s).2 ≤ 1350 * s.size + 27000 := by
  obtain ⟨h1, h2⟩ := Space.runGrammar_below (Cost.Uri.URI pl) s
  obtain ⟨k1, k2⟩ := C62_split pl s
  exact ⟨h1.trans k1, Nat.le_trans h2 k2⟩

/-- **C111**: the same of `split_reference`. -/
theorem C111_split_reference (pl : Plat) (s : SV) :
    (Space.splitReference pl s).1 = splitReference pl s ∧ (Space.splitReference pl s).2 ≤ 2800 * s.size + 53000 := by
  obtain ⟨h1, h2⟩ := Space.runGrammar_below (Cost.Uri.URIReference pl) s
  obtain ⟨k1, k2⟩ := C62_split_reference pl s
  exact ⟨h1.trans k1, Nat.le_trans h2 k2⟩

/-- **C111**: less than proportional it cannot be: there is an accept function for each segment, and the segment itself. -/
theorem C111_needed (pl : Plat) (s : SV) (p : Parts SV) (h : split pl s = .ok (some p)) : 2 * p.path.segments.length ≤ (Space.split pl s).2 :=
  Space.runGrammar_ge _ s p (by rw [← h]; exact (C111_split pl s).1)

/-- **C111**: the same of `split_reference`. -/
theorem C111_needed_reference (pl : Plat) (s : SV) (p : Parts SV) (h : splitReference pl s = .ok (some p)) :
    2 * p.path.segments.length ≤ (Space.splitReference pl s).2 :=
  Space.runGrammar_ge _ s p (by rw [← h]; exact (C111_split_reference pl s).1)

/-- **C111**: what is held at most, for some texts (measured in the model, so that the bounds above are about these numbers). -/
theorem C111_measured : (Space.split ⟨true⟩ ⟨0, b! "http://example.com/a/b?q#f"⟩).2 = 31 ∧
    (Space.split ⟨true⟩ ⟨0, b! "s:a//////////"⟩).2 = 90 ∧ (Space.splitReference ⟨true⟩ ⟨0, b! "../a?q"⟩).2 = 15 ∧
    ((split ⟨true⟩ ⟨0, b! "s:a//////////"⟩).toOption.bind id).map (fun p => p.path.segments.length) = some 11 := by decide +kernel

end Verif
