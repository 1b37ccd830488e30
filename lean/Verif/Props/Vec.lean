import Verif.Model.Vec
import Verif.Props.ParseThrow
import Verif.Props.Resolve
import Verif.Props.Commute

/-!
# C83: what resolution asks of memory and time
-/

set_option linter.unusedSimpArgs false

namespace Verif.Vec

variable {β γ : Type}

/-- With `N` requests granted, `x` ends in at most `S` steps with a result that is as `P` says; at the first refusal it ends at once. -/
def Does (x : VM β) (P : β → Prop) (N S : Nat) : Prop := ∀ (o : Nat → Bool) (u : Use),
  ((∀ i, i < N → o (u.requests + i) = true) → ∃ b s, x o u = (some b, ⟨u.requests + N, s⟩) ∧ s ≤ u.steps + S ∧ P b) ∧
  (∀ i, i < N → o (u.requests + i) = false → (∀ j, j < i → o (u.requests + j) = true) → ∃ s, x o u = (none, ⟨u.requests + i + 1, s⟩) ∧ s ≤ u.steps + S)

theorem Does.ret {b : β} {P : β → Prop} (h : P b) : Does (ret b) P 0 0 :=
  fun _ u => ⟨fun _ => ⟨b, u.steps, rfl, Nat.le_refl _, h⟩, fun i hi => absurd hi (Nat.not_lt_zero i)⟩

theorem Does.mono {x : VM β} {P Q : β → Prop} {N S S' : Nat} (h : Does x P N S) (hP : ∀ b, P b → Q b) (hS : S ≤ S') : Does x Q N S' := by
  intro o u
  obtain ⟨h1, h2⟩ := h o u
  refine ⟨fun k => ?_, fun i a b c => ?_⟩
  · obtain ⟨b, s, e, k1, k2⟩ := h1 k; exact ⟨b, s, e, by omega, hP b k2⟩
  · obtain ⟨s, e, k1⟩ := h2 i a b c; exact ⟨s, e, by omega⟩

theorem Does.tick {x : VM β} {P : β → Prop} {N S : Nat} (h : Does x P N S) (k : Nat) : Does (tick k x) P N (k + S) := by
  intro o u
  obtain ⟨h1, h2⟩ := h o { u with steps := u.steps + k }
  refine ⟨fun j => ?_, fun i a b c => ?_⟩
  · obtain ⟨b, s, e, k1, k2⟩ := h1 j; exact ⟨b, s, e, by simp only at k1; omega, k2⟩
  · obtain ⟨s, e, k1⟩ := h2 i a b c; exact ⟨s, e, by simp only at k1; omega⟩

theorem Does.request {f : Nat → VM β} {P : β → Prop} {N S : Nat} (h : ∀ id, Does (f id) P N S) : Does (request f) P (N + 1) S := by
  intro o u
  obtain ⟨h1, h2⟩ := h (u.requests + 1) o { u with requests := u.requests + 1 }
  unfold Vec.request
  refine ⟨fun k => ?_, fun i hi hf hb => ?_⟩
  · have k0 := k 0 (by omega)
    simp only [Nat.add_zero] at k0
    rw [if_pos k0]
    obtain ⟨b, s, e, k1, k2⟩ := h1 fun i hi => by
      have := k (i + 1) (by omega); simpa only [Nat.add_assoc, Nat.add_comm 1] using this
    exact ⟨b, s, by rw [e]; simp only; congr 2; omega, k1, k2⟩
  · cases i with
    | zero =>
      simp only [Nat.add_zero] at hf
      rw [if_neg (by simp [hf])]
      exact ⟨u.steps, rfl, by omega⟩
    | succ i =>
      have k0 := hb 0 (by omega)
      simp only [Nat.add_zero] at k0
      rw [if_pos k0]
      obtain ⟨s, e, k1⟩ := h2 i (by omega) (by simpa only [Nat.add_assoc, Nat.add_comm 1] using hf) fun j hj => by
        have := hb (j + 1) (by omega); simpa only [Nat.add_assoc, Nat.add_comm 1] using this
      exact ⟨s, by rw [e]; simp only; congr 2; omega, k1⟩

theorem Does.andThen {x : VM β} {f : β → VM γ} {P : β → Prop} {Q : γ → Prop} {N N' S S' : Nat} (h : Does x P N S) (hf : ∀ b, P b → Does (f b) Q N' S') :
    Does (andThen x f) Q (N + N') (S + S') := by
  intro o u
  obtain ⟨h1, h2⟩ := h o u
  unfold Vec.andThen
  refine ⟨fun k => ?_, fun i hi hfa hb => ?_⟩
  · obtain ⟨b, s, e, k1, k2⟩ := h1 fun i hi => k i (by omega)
    rw [e]
    obtain ⟨c, s', e', k1', k2'⟩ := (hf b k2 o ⟨u.requests + N, s⟩).1 fun i hi => by
      have := k (N + i) (by omega); simpa only [Nat.add_assoc] using this
    exact ⟨c, s', by simp only [e']; congr 2; omega, by simp only at k1'; omega, k2'⟩
  · by_cases hN : i < N
    · obtain ⟨s, e, k1⟩ := h2 i hN hfa hb
      rw [e]; exact ⟨s, rfl, by omega⟩
    · obtain ⟨b, s, e, k1, k2⟩ := h1 fun j hj => hb j (by omega)
      rw [e]
      obtain ⟨s', e', k1'⟩ := (hf b k2 o ⟨u.requests + N, s⟩).2 (i - N) (by omega) (by
          simp only; rw [show u.requests + N + (i - N) = u.requests + i by omega]; exact hfa) fun j hj => by
          simp only; rw [show u.requests + N + j = u.requests + (N + j) by omega]; exact hb _ (by omega)
      exact ⟨s', by simp only [e']; congr 2; omega, by simp only at k1'; omega⟩

/-! ### `remove_dot_segments` -/

theorem rdsLoop_does : ∀ (n it outit : Nat) (ld : Bool) (v : List SV) (o : Nat → Bool) (u : Use),
    ∃ s, rdsLoop n it outit ld v o u = (some (Verif.rdsLoop n it outit ld v), ⟨u.requests, s⟩) ∧ s ≤ u.steps + 2 * n := by
  intro n
  induction n with
  | zero => intro it outit ld v o u; exact ⟨u.steps, rfl, by omega⟩
  | succ n ih =>
    intro it outit ld v o u
    simp only [rdsLoop, Verif.rdsLoop]
    cases v[it]? with
    | none => exact ⟨u.steps, rfl, by omega⟩
    | some g =>
      simp only [Vec.tick]
      by_cases e1 : g.chars = b! "."
      · rw [if_pos e1, if_pos e1]
        obtain ⟨s, e, k⟩ := ih (it + 1) outit true v o { u with steps := u.steps + 1 }
        exact ⟨s, e, by simp only at k; omega⟩
      · rw [if_neg e1, if_neg e1]
        by_cases e2 : g.chars = b! ".."
        · rw [if_pos e2, if_pos e2]
          obtain ⟨s, e, k⟩ := ih (it + 1) (if outit ≠ 0 then outit - 1 else outit) true v o { u with steps := u.steps + 1 }
          exact ⟨s, e, by simp only at k; omega⟩
        · rw [if_neg e2, if_neg e2]
          by_cases e3 : outit ≠ it
          · rw [if_pos e3, if_pos e3]
            obtain ⟨s, e, k⟩ := ih (it + 1) (outit + 1) g.chars.isEmpty (v.set outit g) o { u with steps := u.steps + 1 + 1 }
            exact ⟨s, e, by simp only at k; omega⟩
          · rw [if_neg e3, if_neg e3]
            obtain ⟨s, e, k⟩ := ih (it + 1) (outit + 1) g.chars.isEmpty v o { u with steps := u.steps + 1 }
            exact ⟨s, e, by simp only at k; omega⟩

theorem stackRun_length {σ : Type} (f : σ → Str) : ∀ (gs st : List σ), (stackRun f st gs).length ≤ st.length + gs.length := by
  intro gs
  induction gs with
  | nil => intro st; simp [stackRun]
  | cons g gs ih =>
    intro st
    simp only [stackRun, List.length_cons]
    split
    · have := ih st; omega
    · split
      · have := ih st.dropLast; simp at this; omega
      · have := ih (st ++ [g]); simp at this; omega

theorem stackRun_snoc {σ : Type} (f : σ → Str) (x : σ) : ∀ (gs st : List σ), stackRun f st (gs ++ [x]) =
    if f x = b! "." then stackRun f st gs else if f x = b! ".." then (stackRun f st gs).dropLast else stackRun f st gs ++ [x] := by
  intro gs
  induction gs with
  | nil => intro st; simp [stackRun]
  | cons g gs ih =>
    intro st
    simp only [List.cons_append, stackRun]
    split
    · rw [ih]
    · split
      · rw [ih]
      · rw [ih]

/-- If an empty segment must be added, one has been removed. -/
theorem room {gs : List SV} (hd : dirEnd false (gs.map SV.chars) = true) (hl : ∀ b, (stackRun SV.chars [] gs).getLast? = some b → b.chars ≠ []) :
    (stackRun SV.chars [] gs).length < gs.length := by
  rcases List.eq_nil_or_concat gs with rfl | ⟨init, x, rfl⟩
  · simp [dirEnd] at hd
  · rw [List.concat_eq_append] at *
    have hs := stackRun_snoc SV.chars x init []
    have hlen := stackRun_length SV.chars init []
    simp only [List.length_nil, Nat.zero_add] at hlen
    rw [hs] at hl ⊢
    simp only [List.length_append, List.length_cons, List.length_nil]
    split
    · omega
    · split
      · simp; omega
      · rename_i e1 e2
        rw [if_neg e1, if_neg e2] at hl
        have hx := hl x (by simp)
        simp only [dirEnd, List.map_append, List.map_cons, List.map_nil, List.getLast?_concat] at hd
        simp [isDot, e1, e2, hx] at hd

theorem rds_does (pol : Policy) (v : Vector) (hv : v.elems.length ≤ v.cap) (ab : Bool) (o : Nat → Bool) (u : Use) :
    ∃ s, removeDotSegments pol v o u = (some ⟨(Path.removeDotSegments ⟨ab, v.elems⟩).segments, v.cap, v.buf⟩, ⟨u.requests, s⟩) ∧ s ≤ u.steps + 3 * v.elems.length + 1 := by
  obtain ⟨s, e, k⟩ := rdsLoop_does v.elems.length 0 0 false v.elems o u
  have spec := rdsLoop_spec v.elems 0 0 false v.elems (by simp) (by omega)
  simp only [List.take_zero] at spec
  have hr := rds_eq ⟨ab, v.elems⟩
  rw [hr]
  unfold removeDotSegments Vec.andThen
  rw [e]
  revert spec
  generalize Verif.rdsLoop v.elems.length 0 0 false v.elems = x
  intro spec
  have hd' : v.elems.length - x.1 ≤ v.elems.length := Nat.sub_le _ _
  simp only [Vec.tick, spec.1, spec.2, rdsSegs]
  generalize v.elems.length - x.1 = d at *
  have hroom := room (gs := v.elems)
  cases hd : dirEnd false (v.elems.map SV.chars) with
  | false => exact ⟨s + d, by simp [Vec.ret], by omega⟩
  | true =>
    simp only [if_true]
    have hroom := hroom hd
    cases hl : (stackRun SV.chars [] v.elems).getLast? with
    | none =>
      have hroom := hroom (by rw [hl]; nofun)
      have : (stackRun SV.chars [] v.elems).length < v.cap := by omega
      exact ⟨s + d + 1, by simp [push, this, Vec.tick, Vec.ret], by omega⟩
    | some b =>
      by_cases hb : b.chars.isEmpty = true
      · exact ⟨s + d, by simp [hb, Vec.ret], by omega⟩
      · have hroom := hroom (by rw [hl]; intro c hc; cases hc; simpa using hb)
        have : (stackRun SV.chars [] v.elems).length < v.cap := by omega
        exact ⟨s + d + 1, by simp [hb, push, this, Vec.tick, Vec.ret], by omega⟩

/-! ### Appending -/

/-- The capacity after appending `k` elements to a vector of `len` with capacity `cap`, and how often it grew. -/
def grown (pol : Policy) : Nat → Nat → Nat → Nat × Nat
  | _, cap, 0 => (cap, 0)
  | len, cap, k + 1 => if len < cap then grown pol (len + 1) cap k else ((grown pol (len + 1) (pol.grow cap) k).1, (grown pol (len + 1) (pol.grow cap) k).2 + 1)

/-- The implementation's vectors grow by at least half. -/
def Geometric (pol : Policy) : Prop := ∀ n, n + n / 2 ≤ pol.grow n

theorem push_does (pol : Policy) (v : Vector) (x : SV) (hv : v.elems.length ≤ v.cap) :
    Does (push pol v x) (fun w => w.elems = v.elems ++ [x] ∧ w.cap = (if v.elems.length < v.cap then v.cap else pol.grow v.cap))
      (if v.elems.length < v.cap then 0 else 1) (if v.elems.length < v.cap then 1 else v.cap + 1) := by
  unfold push
  split
  · exact (Does.ret ⟨rfl, rfl⟩).tick 1
  · refine Does.request (N := 0) fun id => ((Does.ret ⟨rfl, rfl⟩).tick (v.elems.length + 1)).mono (fun _ h => h) (by omega)

theorem append_does (pol : Policy) (hg : Geometric pol) : ∀ (xs : List SV) (v : Vector), v.elems.length ≤ v.cap →
    Does (append pol xs v) (fun w => w.elems = v.elems ++ xs ∧ w.elems.length ≤ w.cap ∧ w.cap = (grown pol v.elems.length v.cap xs.length).1)
      (grown pol v.elems.length v.cap xs.length).2 (5 * xs.length + (3 * v.elems.length - 2 * v.cap)) := by
  intro xs
  induction xs with
  | nil => intro v hv; exact (Does.ret ⟨by simp, hv, rfl⟩).mono (fun _ h => h) (by omega)
  | cons x xs ih =>
    intro v hv
    have hp := push_does pol v x hv
    simp only [append, List.length_cons, grown]
    by_cases hc : v.elems.length < v.cap
    · simp only [if_pos hc] at hp ⊢
      rw [← Nat.zero_add (grown pol _ _ _).2]
      refine (hp.andThen (Q := fun w => w.elems = v.elems ++ x :: xs ∧ w.elems.length ≤ w.cap ∧ w.cap = (grown pol (v.elems.length + 1) v.cap xs.length).1)
        (S' := 5 * xs.length + (3 * (v.elems.length + 1) - 2 * v.cap)) fun w ⟨h1, h2⟩ => ?_).mono (fun _ h => h) (by omega)
      have hl : w.elems.length = v.elems.length + 1 := by rw [h1]; simp
      have := ih w (by omega)
      rw [hl, h2, h1] at this
      exact this.mono (fun y ⟨a, b, c⟩ => ⟨by rw [a]; simp, b, c⟩) (by omega)
    · simp only [if_neg hc] at hp ⊢
      have e := hg v.cap
      have e' := pol.grow_lt v.cap
      rw [Nat.add_comm (grown pol _ _ _).2 1]
      refine (hp.andThen (Q := fun w => w.elems = v.elems ++ x :: xs ∧ w.elems.length ≤ w.cap ∧ w.cap = (grown pol (v.elems.length + 1) (pol.grow v.cap) xs.length).1)
        (S' := 5 * xs.length + (3 * (v.elems.length + 1) - 2 * pol.grow v.cap)) fun w ⟨h1, h2⟩ => ?_).mono (fun _ h => h) (by omega)
      have hl : w.elems.length = v.elems.length + 1 := by rw [h1]; simp
      have := ih w (by omega)
      rw [hl, h2, h1] at this
      exact this.mono (fun y ⟨a, b, c⟩ => ⟨by rw [a]; simp, b, c⟩) (by omega)

theorem append_append (pol : Policy) : ∀ (xs ys : List SV) (v : Vector), append pol (xs ++ ys) v = andThen (append pol xs v) fun w => append pol ys w := by
  intro xs
  induction xs with
  | nil => intro ys v; rfl
  | cons x xs ih =>
    intro ys v
    simp only [List.cons_append, append]
    funext o u
    simp only [andThen]
    cases h : push pol v x o u with
    | mk r u' =>
      cases r with
      | none => rfl
      | some w =>
        simp only [ih]
        rfl

/-- A capacity that has grown `j` times. -/
def least : Nat → Nat
  | 0 => 0
  | j + 1 => max (least j + 1) (least j + least j / 2)

theorem least_pow : ∀ j, 1 ≤ j → 2 ^ (j / 2) ≤ least j
  | 0, h => by omega
  | 1, _ => by decide
  | 2, _ => by decide
  | j + 3, _ => by
    have ih := least_pow (j + 1) (by omega)
    have e : (j + 3) / 2 = (j + 1) / 2 + 1 := by omega
    rw [e, Nat.pow_succ]
    have h1 : least (j + 2) = max (least (j + 1) + 1) (least (j + 1) + least (j + 1) / 2) := rfl
    have h2 : least (j + 3) = max (least (j + 2) + 1) (least (j + 2) + least (j + 2) / 2) := rfl
    have hx : 1 ≤ least (j + 1) := by have := Nat.two_pow_pos ((j + 1) / 2); omega
    generalize least (j + 1) = x at *
    generalize least (j + 2) = y at *
    generalize least (j + 3) = z at *
    have hy : y ≥ x + 1 ∧ y ≥ x + x / 2 := by omega
    have hz : z ≥ y + 1 ∧ z ≥ y + y / 2 := by omega
    omega

theorem grown_log (pol : Policy) (hg : Geometric pol) : ∀ (k len cap j : Nat), len ≤ cap → least j ≤ cap → (j = 0 ∨ least (j - 1) < len) →
    (j + (grown pol len cap k).2 = 0 ∨ least (j + (grown pol len cap k).2 - 1) < len + k) := by
  intro k
  induction k with
  | zero => intro len cap j h1 h2 h3; simpa [grown] using h3
  | succ k ih =>
    intro len cap j h1 h2 h3
    simp only [grown]
    by_cases hc : len < cap
    · simp only [if_pos hc]
      have := ih (len + 1) cap j (by omega) h2 (by omega)
      rw [show len + 1 + k = len + (k + 1) by omega] at this
      exact this
    · simp only [if_neg hc]
      have e := hg cap
      have e' := pol.grow_lt cap
      have hl : least (j + 1) ≤ pol.grow cap := by
        show max (least j + 1) (least j + least j / 2) ≤ _
        omega
      have := ih (len + 1) (pol.grow cap) (j + 1) (by omega) hl (.inr (by simp only [Nat.add_sub_cancel]; omega))
      rw [show len + 1 + k = len + (k + 1) by omega] at this
      generalize (grown pol (len + 1) (pol.grow cap) k).2 = g at *
      rw [show j + (g + 1) = j + 1 + g by omega]
      exact this

theorem grown_few (pol : Policy) (hg : Geometric pol) (k : Nat) : (grown pol 0 0 k).2 = 0 ∨ 2 ^ (((grown pol 0 0 k).2 - 1) / 2) ≤ k := by
  have h := grown_log pol hg k 0 0 0 (by omega) (by decide) (.inl rfl)
  simp only [Nat.zero_add] at h
  rcases h with h | h
  · exact .inl h
  · right
    generalize (grown pol 0 0 k).2 = n at *
    by_cases hn : 1 ≤ n - 1
    · have := least_pow (n - 1) hn; omega
    · have e : n - 1 = 0 := by omega
      rw [e] at h ⊢
      simp only [Nat.zero_div, Nat.pow_zero]
      omega

/-! ### `join` -/

theorem copyOf_does (pol : Policy) (src : List SV) : Does (copyOf pol src) (fun v => v.elems = src ∧ v.elems.length ≤ v.cap)
    (if src = [] then 0 else 1) src.length := by
  unfold copyOf
  cases src with
  | nil => exact Does.ret ⟨rfl, by simp [empty]⟩
  | cons x xs =>
    simp only [List.isEmpty_cons, Bool.false_eq_true, if_false, reduceCtorEq]
    exact Does.request (N := 0) fun id => (Does.ret ⟨rfl, pol.copy_le _⟩).tick _

theorem removeDotSegments_does (pol : Policy) (v : Vector) (hv : v.elems.length ≤ v.cap) (ab : Bool) :
    Does (removeDotSegments pol v) (fun w => w.elems = (Path.removeDotSegments ⟨ab, v.elems⟩).segments) 0 (3 * v.elems.length + 1) := by
  intro o u
  obtain ⟨s, e, k⟩ := rds_does pol v hv ab o u
  exact ⟨fun _ => ⟨_, s, by rw [e]; rfl, by omega, rfl⟩, fun i hi => absurd hi (Nat.not_lt_zero i)⟩

theorem copyAndRemove_does (pol : Policy) (p : Path SV) : Does (copyAndRemove pol p) (fun q => q = p.removeDotSegments)
    (if p.segments = [] then 0 else 1) (4 * p.segments.length + 1) := by
  unfold copyAndRemove
  refine ((copyOf_does pol p.segments).andThen (N' := 0) (S' := 3 * p.segments.length + 1) fun v ⟨h1, h2⟩ => ?_).mono (fun _ h => h) (by omega)
  refine ((removeDotSegments_does pol v h2 p.absolute).andThen (N' := 0) (S' := 0) fun w hw => Does.ret ?_).mono (fun _ h => h) (by rw [h1]; omega)
  have e := rds_eq ⟨p.absolute, v.elems⟩
  rw [h1] at e hw
  rw [pathOf, hw, e]

/-- The number of requests `join` makes. -/
def few (N n : Nat) : Prop := N = 0 ∨ 2 ^ ((N - 1) / 2) ≤ n

theorem few_one {l : List SV} {n : Nat} (h : l.length ≤ n) : few (if l = [] then 0 else 1) n := by
  cases l with
  | nil => exact .inl (by simp)
  | cons x xs => right; simp only [reduceCtorEq, if_false]; simp at h; simpa using (by omega : 1 ≤ n)

theorem join_does (pol : Policy) (hg : Geometric pol) (b r : Parts SV) (strict : Bool) :
    ∃ N, few N (b.path.segments.length + r.path.segments.length) ∧
      Does (join pol b r strict) (fun t => t = Verif.join b r strict) N (8 * (b.path.segments.length + r.path.segments.length) + 1) := by
  unfold join Verif.join
  simp only
  cases (if (!strict && optEq SV.eq r.scheme b.scheme) = true then none else r.scheme) with
  | some s =>
    exact ⟨_, few_one (l := r.path.segments) (by omega), ((copyAndRemove_does pol r.path).andThen (N' := 0) (S' := 0) fun q hq => Does.ret (by rw [hq])).mono (fun _ h => h) (by omega)⟩
  | none =>
    simp only
    cases r.authority with
    | some a =>
      exact ⟨_, few_one (l := r.path.segments) (by omega), ((copyAndRemove_does pol r.path).andThen (N' := 0) (S' := 0) fun q hq => Does.ret (by rw [hq])).mono (fun _ h => h) (by omega)⟩
    | none =>
      simp only
      by_cases h1 : r.path.empty = true
      · rw [if_pos h1]
        refine ⟨_, few_one (l := b.path.segments) (by omega), ((copyOf_does pol b.path.segments).andThen (N' := 0) (S' := 0) fun v hv => Does.ret ?_).mono (fun _ h => h) (by omega)⟩
        rw [if_pos h1, pathOf, hv.1]
      · rw [if_neg h1, if_neg h1]
        by_cases h2 : r.path.absolute = true
        · rw [if_pos h2, if_pos h2]
          exact ⟨_, few_one (l := r.path.segments) (by omega), ((copyAndRemove_does pol r.path).andThen (N' := 0) (S' := 0) fun q hq => Does.ret (by rw [hq])).mono (fun _ h => h) (by omega)⟩
        · rw [if_neg h2, if_neg h2]
          have fin : ∀ (m : Bool × Vector), m.2.elems.length ≤ m.2.cap → (⟨m.1, m.2.elems⟩ : Path SV) = Verif.merge b r →
              Does (andThen (removeDotSegments pol m.2) fun v => ret (⟨b.scheme, b.authority, pathOf m.1 v, r.query, r.fragment⟩ : Parts SV))
                (fun t => t = ⟨b.scheme, b.authority, (Verif.merge b r).removeDotSegments, r.query, r.fragment⟩) 0 (3 * m.2.elems.length + 1) := by
            intro m hm e
            refine ((removeDotSegments_does pol m.2 hm m.1).andThen (N' := 0) (S' := 0) fun w hw => Does.ret ?_)
            rw [e] at hw
            rw [pathOf, hw, ← e, rds_eq]
          have hlen : (Verif.merge b r).segments.length ≤ b.path.segments.length + r.path.segments.length := by
            simp only [Verif.merge]
            split
            · simp
            · simp only [List.length_append, List.length_take]; omega
          unfold merge
          by_cases h3 : (b.authority.isSome && b.path.empty) = true
          · rw [if_pos h3]
            refine ⟨_, few_one (l := r.path.segments) (by omega), (((copyOf_does pol r.path.segments).andThen (N' := 0) (S' := 0)
              (Q := fun m => m.2.elems.length ≤ m.2.cap ∧ (⟨m.1, m.2.elems⟩ : Path SV) = Verif.merge b r) fun v hv => Does.ret ⟨hv.2, ?_⟩).andThen (N' := 0)
                (S' := 3 * (b.path.segments.length + r.path.segments.length) + 1) fun m hm => (fin m hm.1 hm.2).mono (fun _ h => h) ?_).mono (fun _ h => h) (by omega)⟩
            · rw [Verif.merge, if_pos h3, hv.1]
            · have := congrArg (fun p => p.segments.length) hm.2; simp only at this; omega
          · rw [if_neg h3]
            simp only
            generalize hlast : (if b.path.segments.length > 1 then b.path.segments.length - 1 else b.path.segments.length) = last
            have assoc : (andThen (append pol (b.path.segments.take last) empty) fun v => andThen (append pol r.path.segments v) fun v => ret (b.path.absolute, v)) =
                andThen (append pol (b.path.segments.take last ++ r.path.segments) empty) fun v => ret (b.path.absolute, v) := by
              rw [append_append]
              funext o u
              simp only [andThen]
              cases h : append pol (List.take last b.path.segments) empty o u with
              | mk a u' => cases a <;> rfl
            rw [assoc]
            have hl : (b.path.segments.take last ++ r.path.segments).length ≤ b.path.segments.length + r.path.segments.length := by
              simp only [List.length_append, List.length_take]; omega
            have hm : Verif.merge b r = ⟨b.path.absolute, b.path.segments.take last ++ r.path.segments⟩ := by
              rw [Verif.merge, if_neg h3]; simp only [hlast]
            have ha := append_does pol hg (b.path.segments.take last ++ r.path.segments) empty (by decide)
            generalize b.path.segments.take last ++ r.path.segments = l at *
            refine ⟨_, ?_, ((ha.andThen (N' := 0) (S' := 0)
              (Q := fun m => m.2.elems.length ≤ m.2.cap ∧ (⟨m.1, m.2.elems⟩ : Path SV) = Verif.merge b r) fun v hv => Does.ret ⟨hv.2.1, ?_⟩).andThen (N' := 0)
                (S' := 3 * l.length + 1) fun m hm' => (fin m hm'.1 hm'.2).mono (fun _ h => h) ?_).mono (fun _ h => h) (by simp only [empty, List.length_nil]; omega)⟩
            · have := grown_few pol hg l.length
              exact this.imp id fun k => Nat.le_trans k hl
            · rw [hm, hv.1]; rfl
            · have := congrArg (fun p => p.segments.length) hm'.2
              rw [hm] at this; simp only at this; omega

end Verif.Vec

namespace Verif
open Vec

/-- **C83**: `remove_dot_segments` works in place: it asks for no memory (so it throws nothing), keeps the buffer and the capacity, and takes a
number of steps linear in the number of segments.  The empty segment it may have to add always has room, because a dot segment
has been removed before. -/
theorem C83_in_place (pol : Policy) (v : Vec.Vector) (absolute : Bool) (hv : v.elems.length ≤ v.cap) (oracle : Nat → Bool) (u : Use) :
    ∃ steps, Vec.removeDotSegments pol v oracle u =
        (some ⟨(Path.removeDotSegments ⟨absolute, v.elems⟩).segments, v.cap, v.buf⟩, ⟨u.requests, steps⟩) ∧
      steps ≤ u.steps + 3 * v.elems.length + 1 :=
  rds_does pol v hv absolute oracle u

/-- **C83**: `join` gives the result of C15-C21, or `std::bad_alloc` leaves it at the first request that is refused; its arguments are
`const`.  With vectors that grow by half or more it makes few requests, about twice the binary logarithm of the number `n` of
segments, and takes at most `8 * n + 1` steps. -/
theorem C83_join (pol : Policy) (hg : ∀ n, n + n / 2 ≤ pol.grow n) (b r : Parts SV) (strict : Bool) :
    ∃ N, (N = 0 ∨ 2 ^ ((N - 1) / 2) ≤ b.path.segments.length + r.path.segments.length) ∧ ∀ oracle : Nat → Bool,
      ((∀ i, i < N → oracle i = true) ∧ ∃ steps, Vec.join pol b r strict oracle ⟨0, 0⟩ = (some (join b r strict), ⟨N, steps⟩) ∧
        steps ≤ 8 * (b.path.segments.length + r.path.segments.length) + 1) ∨
      (∃ i steps, i < N ∧ oracle i = false ∧ (∀ j, j < i → oracle j = true) ∧ Vec.join pol b r strict oracle ⟨0, 0⟩ = (none, ⟨i + 1, steps⟩) ∧
        steps ≤ 8 * (b.path.segments.length + r.path.segments.length) + 1) := by
  obtain ⟨N, h1, h2⟩ := join_does pol hg b r strict
  refine ⟨N, h1, fun o => ?_⟩
  obtain ⟨k1, k2⟩ := h2 o ⟨0, 0⟩
  simp only [Nat.zero_add] at k1 k2
  rcases Mem.first_refused o N with k | ⟨i, a, b', c⟩
  · obtain ⟨t, s, e, h, rfl⟩ := k1 k
    exact .inl ⟨k, s, e, h⟩
  · obtain ⟨s, e, h⟩ := k2 i a b' c
    exact .inr ⟨i, s, a, b', c, e, h⟩

theorem Vec.toAM_exact {β : Type} {x : VM β} {y : β} {N S : Nat} (h : Does x (fun b => b = y) N S) : Mem.Exact (toAM x) (.ok y) N := by
  intro o n
  obtain ⟨h1, h2⟩ := h o ⟨n, 0⟩
  unfold toAM
  refine ⟨fun k => ?_, fun i a b c => ?_⟩
  · obtain ⟨t, s, e, _, rfl⟩ := h1 k
    rw [e]; rfl
  · obtain ⟨s, e, _⟩ := h2 i a b c
    rw [e]; rfl

theorem few_le {N n : Nat} (h : N = 0 ∨ 2 ^ ((N - 1) / 2) ≤ n) : N ≤ 2 * n + 1 := by
  rcases h with rfl | h
  · omega
  · have := Nat.lt_two_pow_self (n := (N - 1) / 2)
    omega

/-- **C83** for strings: `join` makes a number of requests linear in the sizes of the texts; it throws exactly if one of them is refused. -/
theorem C83_strings (pol : Policy) (hg : ∀ n, n + n / 2 ≤ pol.grow n) (pl : Plat) (base ref : SV) (strict : Bool) :
    ∃ N, N ≤ 2702 * base.size + 5602 * ref.size + 160005 ∧ Mem.Throwing (Vec.joinStr pol pl base ref strict) (joinStr pl base ref strict) N := by
  obtain ⟨N1, a1, a2⟩ := Mem.runGrammar_tied (Cost.Uri.URI pl) base
  obtain ⟨N2, b1, b2⟩ := Mem.runGrammar_tied (Cost.Uri.URIReference pl) ref
  have ha := C62_split pl base
  have hb := C62_split_reference pl ref
  have a1' : N1 ≤ 2700 * base.size + 54000 := by
    have : (Cost.runGrammar (Cost.Uri.URI pl) base).2 ≤ _ := ha.2
    omega
  have b1' : N2 ≤ 5600 * ref.size + 106000 := by
    have : (Cost.runGrammar (Cost.Uri.URIReference pl) ref).2 ≤ _ := hb.2
    omega
  have a3 : Mem.Exact (Mem.split pl base) (split pl base) N1 := by rw [← ha.1]; exact a2
  have b3 : Mem.Exact (Mem.splitReference pl ref) (splitReference pl ref) N2 := by rw [← hb.1]; exact b2
  clear a1 a2 b1 b2 ha hb
  unfold Vec.joinStr joinStr
  cases e1 : split pl base with
  | error f =>
    rw [e1] at a3
    exact ⟨N1, by omega, (a3.error _).throwing⟩
  | ok o =>
    rw [e1] at a3
    cases o with
    | none => exact ⟨N1 + 0, by omega, (a3.ok (Mem.Exact.ret _)).throwing⟩
    | some b =>
      cases e2 : splitReference pl ref with
      | error f =>
        rw [e2] at b3
        exact ⟨N1 + N2, by omega, (a3.ok (b3.error _)).throwing⟩
      | ok o =>
        rw [e2] at b3
        cases o with
        | none =>
          have x1 : Mem.Exact (Mem.ret (.ok none)) (.ok (none : Option (Parts SV))) 0 := Mem.Exact.ret _
          have x2 := a3.ok (f := fun
            | none => Mem.ret (.ok none)
            | some b =>
                Mem.andThen (Mem.splitReference pl ref) fun
                  | none => Mem.ret (.ok none)
                  | some r => Mem.andThen (toAM (Vec.join pol b r strict)) fun t => Mem.ret (.ok (some t))) (b3.ok (f := fun
                  | none => Mem.ret (.ok none)
                  | some r => Mem.andThen (toAM (Vec.join pol b r strict)) fun t => Mem.ret (.ok (some t))) x1)
          exact ⟨N1 + (N2 + 0), by omega, x2.throwing⟩
        | some r =>
          obtain ⟨N3, h1, h2⟩ := join_does pol hg b r strict
          have k1 := parsed_segments pl base b (.inl e1)
          have k2 := parsed_segments pl ref r (.inr e2)
          have k3 := few_le h1
          have x1 : Mem.Exact (Mem.andThen (toAM (Vec.join pol b r strict)) fun t => Mem.ret (.ok (some t))) (.ok (some (join b r strict))) (N3 + 0) :=
            (toAM_exact h2).ok (Mem.Exact.ret _)
          have x2 := a3.ok (f := fun
            | none => Mem.ret (.ok none)
            | some b =>
                Mem.andThen (Mem.splitReference pl ref) fun
                  | none => Mem.ret (.ok none)
                  | some r => Mem.andThen (toAM (Vec.join pol b r strict)) fun t => Mem.ret (.ok (some t))) (b3.ok (f := fun
                  | none => Mem.ret (.ok none)
                  | some r => Mem.andThen (toAM (Vec.join pol b r strict)) fun t => Mem.ret (.ok (some t))) x1)
          refine ⟨N1 + (N2 + (N3 + 0)), ?_, x2.throwing⟩
          unfold SV.size at a1' b1' ⊢
          omega

/-- Vectors that grow as libstdc++'s do, and ones that grow by half as Microsoft's do. -/
def doubling : Policy := ⟨fun n => n, fun n => if n = 0 then 1 else 2 * n, fun n => Nat.le_refl n, fun n => by split <;> omega⟩
def halves : Policy := ⟨fun n => n, fun n => n + n / 2 + 1, fun n => Nat.le_refl n, fun n => by omega⟩

example : (∀ n, n + n / 2 ≤ doubling.grow n) ∧ ∀ n, n + n / 2 ≤ halves.grow n :=
  ⟨fun n => by simp only [doubling]; split <;> omega, fun n => by simp only [halves]; omega⟩

/-- Five segments are merged with four requests; a refusal of the second ends `join` there. -/
example : Vec.join doubling commuteBase commuteRef true (fun _ => true) ⟨0, 0⟩ = (some (join commuteBase commuteRef true), ⟨4, 22⟩) := by
  decide +kernel
example : Vec.join doubling commuteBase commuteRef true (fun n => n != 1) ⟨0, 0⟩ = (none, ⟨2, 1⟩) := by decide +kernel

end Verif
