import Verif.Model.ParseThrow
import Verif.Proofs.Cost

/-!
# The parser when memory runs out

`Exact x y N`: `x` makes `N` requests and gives `y`, or throws at the first of them that is refused.
-/

namespace Verif.Mem
open Rule (ofSV failed)
open Cost (CM Gr Chain Alts)

set_option linter.unusedSimpArgs false

variable {α β γ : Type}

def Exact (x : AM β) (y : M β) (N : Nat) : Prop :=
  ∀ o n, ((∀ i, i < N → o (n + i) = true) → x o n = (some y, n + N)) ∧
    (∀ i, i < N → o (n + i) = false → (∀ j, j < i → o (n + j) = true) → x o n = (none, n + i + 1))

theorem Exact.ret (x : M β) : Exact (ret x) x 0 := fun _ n => ⟨fun _ => rfl, fun i h => absurd h (Nat.not_lt_zero i)⟩

theorem Exact.requests {x : AM β} {y : M β} {N : Nat} (h : Exact x y N) : ∀ k, Exact (Mem.requests k x) y (k + N)
  | 0 => by simpa [Mem.requests] using h
  | k + 1 => by
    intro o n
    obtain ⟨h1, h2⟩ := Exact.requests h k o (n + 1)
    have e : Mem.requests (k + 1) x o n = if o n then Mem.requests k x o (n + 1) else (none, n + 1) := rfl
    rw [e]
    constructor
    · intro ho
      have h0 : o n = true := ho 0 (by omega)
      rw [if_pos h0, h1 (fun i hi => by rw [Nat.add_assoc, Nat.add_comm 1 i]; exact ho (i + 1) (by omega))]
      congr 1; omega
    · intro i hi hf hb
      cases i with
      | zero => rw [if_neg (by simpa using hf)]
      | succ i =>
        have h0 : o n = true := hb 0 (by omega)
        rw [if_pos h0, h2 i (by omega) (by rw [Nat.add_assoc, Nat.add_comm 1 i]; exact hf)
          (fun j hj => by rw [Nat.add_assoc, Nat.add_comm 1 j]; exact hb (j + 1) (by omega))]
        congr 1; omega

theorem Exact.error {x : AM β} {e : Fault} {N : Nat} (h : Exact x (.error e) N) (f : β → AM γ) : Exact (andThen x f) (.error e) N := by
  intro o n
  obtain ⟨h1, h2⟩ := h o n
  unfold andThen
  exact ⟨fun ho => by rw [h1 ho], fun i a b c => by rw [h2 i a b c]⟩

theorem Exact.ok {x : AM β} {b : β} {N N' : Nat} {f : β → AM γ} {z : M γ} (h : Exact x (.ok b) N) (hf : Exact (f b) z N') :
    Exact (andThen x f) z (N + N') := by
  intro o n
  obtain ⟨h1, h2⟩ := h o n
  obtain ⟨k1, k2⟩ := hf o (n + N)
  unfold andThen
  constructor
  · intro ho
    rw [h1 (fun i hi => ho i (by omega))]
    simp only []
    rw [k1 (fun i hi => by rw [Nat.add_assoc]; exact ho _ (by omega)), Nat.add_assoc]
  · intro i a b c
    rcases Nat.lt_or_ge i N with hi | hi
    · rw [h2 i hi b c]
    · rw [h1 (fun j hj => c j (by omega))]
      simp only []
      rw [k2 (i - N) (by omega) (by rw [show n + N + (i - N) = n + i by omega]; exact b)
        (fun j hj => by rw [Nat.add_assoc]; exact c _ (by omega))]
      congr 1; omega

/-- With a bound on the requests by the steps of `Verif/Model/Cost.lean`. -/
def Tied (x : AM β) (c : CM β) : Prop := ∃ N, N ≤ 2 * c.2 ∧ Exact x c.1 N

theorem Tied.ret (x : M β) : Tied (ret x) (Cost.ret x) := ⟨0, by simp, Exact.ret x⟩

theorem Tied.tick {x : AM β} {c : CM β} (h : Tied x c) (k : Nat) : Tied x (Cost.tick k c) := by
  obtain ⟨N, h1, h2⟩ := h
  exact ⟨N, by simp only [Cost.tick_snd]; omega, h2⟩

theorem Tied.requests {x : AM β} {c : CM β} (h : Tied x c) {k j : Nat} (hk : k ≤ 2 * j) : Tied (Mem.requests k x) (Cost.tick j c) := by
  obtain ⟨N, h1, h2⟩ := h
  exact ⟨k + N, by simp only [Cost.tick_snd]; omega, h2.requests k⟩

theorem Tied.andThen {x : AM β} {c : CM β} {f : β → AM γ} {g : β → CM γ} (h : Tied x c) (hf : ∀ b, Tied (f b) (g b)) :
    Tied (Mem.andThen x f) (Cost.andThen c g) := by
  obtain ⟨N, h1, h2⟩ := h
  obtain ⟨c1, c2⟩ := c
  cases c1 with
  | error e => exact ⟨N, h1, h2.error f⟩
  | ok b =>
    obtain ⟨N', k1, k2⟩ := hf b
    refine ⟨N + N', ?_, h2.ok k2⟩
    simp only [Cost.andThen] at h1 ⊢
    omega

theorem copies_le (k : Nat) : copies k ≤ 2 * k := by unfold copies; split <;> omega

theorem Tied.copy (r : Rule α) : Tied (copy r) (Cost.copy r) := (Tied.ret _).requests (copies_le _)

theorem Tied.joinMatched (r : Rule α) (m) : Tied (joinMatched r m) (Cost.joinMatched r m) :=
  (Tied.ret _).requests (by have := copies_le (r.acc.length + m.2.length); omega)

theorem Tied.joinRule (r o : Rule α) : Tied (joinRule r o) (Cost.joinRule r o) :=
  (Tied.ret _).requests (by have := copies_le (r.acc.length + o.acc.length); omega)

theorem Tied.concatImpl {am : AMatcher α} {cm : Cost.CMatcher α} (h : ∀ r, Tied (am r) (cm r)) (a : Option α) (o : Bool) (r : Rule α) :
    Tied (concatImpl am a o r) (Cost.concatImpl cm a o r) := by
  unfold Mem.concatImpl Cost.concatImpl
  apply Tied.tick
  cases r.tail with
  | none => exact Tied.copy r
  | some t =>
    apply Tied.andThen ((h _).tick 1)
    rintro (_ | ⟨head, acc⟩)
    · cases o
      · exact Tied.ret _
      · exact Tied.copy r
    · cases a with
      | none => exact Tied.joinMatched _ _
      | some a => exact (Tied.joinMatched _ _).requests (by omega)

theorem Tied.optionalA {am : AMatcher α} {cm : Cost.CMatcher α} (h : ∀ r, Tied (am r) (cm r)) (a : Option α) (r : Rule α) :
    Tied (optionalA am a r) (Cost.optionalA cm a r) := by
  unfold Mem.optionalA Cost.optionalA
  apply Tied.tick
  cases r.tail with
  | none => exact Tied.copy r
  | some t =>
    apply Tied.andThen (Tied.concatImpl h a true _)
    rintro ⟨tl, acc⟩
    cases tl with
    | none => exact Tied.copy r
    | some t => exact Tied.joinRule _ _

theorem Tied.starLoop {am : AMatcher α} {cm : Cost.CMatcher α} (h : ∀ r, Tied (am r) (cm r)) (max : Nat) :
    ∀ fuel count str length acc, Tied (starLoop am max fuel count str length acc) (Cost.starLoop cm max fuel count str length acc) := by
  intro fuel
  induction fuel with
  | zero => intros; exact Tied.ret _
  | succ fuel ih =>
    intro count str length acc
    unfold Mem.starLoop Cost.starLoop
    apply Tied.andThen ((h _).tick 1)
    rintro (_ | ⟨head, a⟩)
    · exact Tied.ret _
    · simp only []
      split
      · exact Tied.ret _
      · cases hs : str.removePrefix head.size with
        | error e => exact ⟨0, by omega, by intro o n; exact ⟨fun _ => rfl, fun i hi => absurd hi (Nat.not_lt_zero i)⟩⟩
        | ok str' =>
          have k := (ih ((count + 1) % uintMod) str' (length + head.size) (acc ++ a)).requests (copies_le a.length)
          obtain ⟨N, k1, k2⟩ := k
          refine ⟨0 + N, ?_, (Exact.ret (Except.ok str' : M SV)).ok k2⟩
          simp only [Cost.tick_snd, Cost.andThen, Cost.ret_fst, Cost.ret_snd] at k1 ⊢
          omega

theorem Tied.star {am : AMatcher α} {cm : Cost.CMatcher α} (h : ∀ r, Tied (am r) (cm r)) (min max : Nat) (r : Rule α) :
    Tied (star am min max r) (Cost.star cm min max r) := by
  unfold Mem.star Cost.star
  apply Tied.tick
  cases r.tail with
  | none => exact Tied.copy r
  | some t =>
    refine (Tied.andThen (Tied.starLoop h max _ _ _ _ _) fun x => ?_).requests (copies_le _)
    split
    · exact Tied.ret _
    · exact Tied.andThen (Tied.ret _) fun t' => Tied.ret _

theorem Tied.alternative : ∀ {ams : List (AMatcher α)} {cms : List (Cost.CMatcher α)}, ams.length = cms.length →
    (∀ p ∈ ams.zip cms, ∀ r, Tied (p.1 r) (p.2 r)) → ∀ r, Tied (alternative ams r) (Cost.alternative cms r)
  | [], [], _, _ => fun _ => (Tied.ret _).tick 1
  | am :: ams, cm :: cms, hl, h => by
    intro r
    unfold Mem.alternative Cost.alternative
    apply Tied.tick
    have hm : ∀ r, Tied (am r) (cm r) := h (am, cm) (by simp)
    have ih := Tied.alternative (ams := ams) (cms := cms) (by simpa using hl) (fun p hp => h p (by simp [hp]))
    cases r.tail with
    | none => exact Tied.copy r
    | some t =>
      apply Tied.andThen ((hm _).tick 1)
      rintro (_ | y)
      · exact ih r
      · exact Tied.joinMatched _ _

theorem Tied.matched (inp r : Rule α) : Tied (matched inp r) (Cost.matched inp r) := by
  unfold Mem.matched Cost.matched
  cases ht : r.tail with
  | none =>
    have : Rule.matched inp r = .ok none := by unfold Rule.matched; rw [ht]
    rw [this]; exact (Tied.ret _).tick _
  | some t =>
    cases hm : Rule.matched inp r with
    | error e => exact ⟨0, by omega, by intro o n; exact ⟨fun _ => rfl, fun i hi => absurd hi (Nat.not_lt_zero i)⟩⟩
    | ok x =>
      refine ⟨copies r.acc.length, ?_, ?_⟩
      · have := copies_le r.acc.length
        simp only [Cost.tick_snd, Cost.ret_snd]; omega
      · have := (Exact.ret (Except.ok x : M (Matched α))).ok (f := fun x => Mem.requests (copies r.acc.length) (Mem.ret (.ok x))) ((Exact.ret (Except.ok x : M _)).requests (copies r.acc.length))
        simpa using this

theorem alts_length : ∀ gs : Alts α, (alts gs).length = gs.steps.length
  | .nil => rfl
  | .cons g gs => by simp [Alts.steps, alts, alts_length gs]

mutual
theorem grammar_tied : ∀ (g : Gr α) (r : Rule α), Tied (grammar g r) (g.steps r)
  | .chr p, r => (Tied.ret _).tick 1
  | .look p, r => (Tied.ret _).tick 1
  | .rule c, r => by
      simp only [grammar, Gr.steps]
      exact (chain_tied c r).andThen fun b => Tied.matched r b
theorem chain_tied : ∀ (c : Chain α) (r : Rule α), Tied (chain c r) (c.steps r)
  | .nil, r => Tied.ret _
  | .concat c g a, r => by
      simp only [chain, Chain.steps]
      exact (chain_tied c r).andThen fun b => Tied.concatImpl (grammar_tied g) a false b
  | .optional c g, r => by
      simp only [chain, Chain.steps]
      exact (chain_tied c r).andThen fun b => Tied.optionalA (grammar_tied g) none b
  | .star c g min max, r => by
      simp only [chain, Chain.steps]
      exact (chain_tied c r).andThen fun b => Tied.star (grammar_tied g) min max b
  | .alternative c gs, r => by
      simp only [chain, Chain.steps]
      exact (chain_tied c r).andThen fun b => Tied.alternative (alts_length gs) (alts_tied gs) b
theorem alts_tied : ∀ (gs : Alts α), ∀ p ∈ (alts gs).zip gs.steps, ∀ r, Tied (p.1 r) (p.2 r)
  | .nil => by simp [Alts.steps, alts]
  | .cons g gs => by
      intro p hp r
      simp only [Alts.steps, alts, List.zip_cons_cons, List.mem_cons] at hp
      rcases hp with rfl | hp
      · exact grammar_tied g r
      · exact alts_tied gs p hp r
end

theorem appends_le (a : Act) : appends a ≤ 1 := by cases a <;> simp [appends]

theorem runAll_exact : ∀ (as : Acceptors Act) (p : Parts SV), ∃ N, N ≤ as.length ∧
    Exact (runAll p as) (as.foldlM (fun s a => runAct s a.1 a.2) p) N
  | [], p => ⟨0, by simp, Exact.ret _⟩
  | a :: as, p => by
    have ha := appends_le a.1
    rw [List.foldlM_cons, show runAll p (a :: as) = requests (appends a.1) (andThen (ret (runAct p a.1 a.2)) fun p' => runAll p' as) from rfl]
    cases hr : runAct p a.1 a.2 with
    | error e =>
      refine ⟨appends a.1 + 0, by simp only [List.length_cons]; omega, ?_⟩
      exact ((Exact.ret (Except.error e : M (Parts SV))).error fun p' => runAll p' as).requests _
    | ok p' =>
      obtain ⟨N, h1, h2⟩ := runAll_exact as p'
      refine ⟨appends a.1 + (0 + N), by simp only [List.length_cons]; omega, ?_⟩
      exact (((Exact.ret (Except.ok p' : M (Parts SV))).ok (f := fun p' => runAll p' as) h2)).requests _

theorem Tied.done (r : Rule Act) : Tied (done r) (Cost.done runAct Parts.init r) := by
  unfold Mem.done Cost.done Rule.done
  cases r.tail with
  | none => exact (Tied.ret _).tick _
  | some t =>
    simp only []
    cases t.chars with
    | cons c cs => exact (Tied.ret _).tick _
    | nil =>
      obtain ⟨N, h1, h2⟩ := runAll_exact r.acc Parts.init
      simp only []
      cases hf : r.acc.foldlM (fun s a => runAct s a.1 a.2) Parts.init with
      | error e =>
        rw [hf] at h2
        refine ⟨N, by simp only [Cost.tick_snd, Cost.ret_snd]; omega, ?_⟩
        exact h2.error _
      | ok p =>
        rw [hf] at h2
        refine ⟨N + 0, by simp only [Cost.tick_snd, Cost.ret_snd]; omega, ?_⟩
        exact h2.ok (Exact.ret _)

theorem runGrammar_tied (g : Gr Act) (s : SV) : Tied (runGrammar g s) (Cost.runGrammar g s) :=
  (Tied.concatImpl (grammar_tied g) none false _).andThen Tied.done

/-! ### Grammars without accept functions -/

mutual
/-- The match function has no accept functions. -/
def Silent : Gr α → Bool
  | .chr _ => true
  | .look _ => true
  | .rule c => SilentC c
def SilentC : Chain α → Bool
  | .nil => true
  | .concat c g a => SilentC c && Silent g && a.isNone
  | .optional c g => SilentC c && Silent g
  | .star c g _ _ => SilentC c && Silent g
  | .alternative c gs => SilentC c && SilentA gs
def SilentA : Alts α → Bool
  | .nil => true
  | .cons g gs => Silent g && SilentA gs
end

/-- `x` makes no request and gives `y`, whose results have `P`. -/
def Quiet (P : β → Prop) (x : AM β) (y : M β) : Prop := (∀ o n, x o n = (some y, n)) ∧ ∀ b, y = .ok b → P b

/-- A rule, a match, without accept functions. -/
def NoAcc (r : Rule α) : Prop := r.acc = []
def NoAccM : Matched α → Prop
  | none => True
  | some (_, a) => a = []

theorem noAcc_ofSV (t : SV) : NoAcc (ofSV t : Rule α) := rfl

theorem Quiet.ret {P : β → Prop} {y : M β} (h : ∀ b, y = .ok b → P b) : Quiet P (ret y) y := ⟨fun _ _ => rfl, h⟩

theorem Quiet.retOk {P : β → Prop} {b : β} (h : P b) : Quiet P (Mem.ret (.ok b)) (.ok b) := Quiet.ret (by rintro _ ⟨⟩; exact h)

theorem Quiet.andThen {P : β → Prop} {Q : γ → Prop} {x : AM β} {y : M β} {f : β → AM γ} {g : β → M γ} (h : Quiet P x y)
    (hf : ∀ b, P b → Quiet Q (f b) (g b)) : Quiet Q (Mem.andThen x f) (y >>= g) := by
  obtain ⟨h1, h2⟩ := h
  cases y with
  | error e => exact ⟨fun o n => by unfold Mem.andThen; rw [h1]; rfl, by intro b hb; cases hb⟩
  | ok b =>
    obtain ⟨k1, k2⟩ := hf b (h2 b rfl)
    exact ⟨fun o n => by unfold Mem.andThen; rw [h1]; exact k1 o n, k2⟩

theorem Quiet.copy {r : Rule α} (h : NoAcc r) : Quiet NoAcc (copy r) (.ok r) := by
  unfold Mem.copy NoAcc at *
  rw [h]
  exact Quiet.retOk h

theorem Quiet.joinMatched {r : Rule α} {m : SV × Acceptors α} (h : NoAcc r) (hm : m.2 = []) : Quiet NoAcc (joinMatched r m) (r.joinMatched m) := by
  unfold Mem.joinMatched NoAcc at *
  rw [h, hm]
  refine Quiet.ret fun b hb => ?_
  unfold Rule.joinMatched at hb
  cases ht : r.tail with
  | none => rw [ht] at hb; cases hb
  | some t =>
    rw [ht] at hb
    simp only [] at hb
    cases hs : t.substrFrom m.1.size with
    | error e => rw [hs] at hb; cases hb
    | ok t' => rw [hs] at hb; cases hb; simp [h, hm]

theorem Quiet.joinRule {r o : Rule α} (h : NoAcc r) (ho : NoAcc o) : Quiet NoAcc (joinRule r o) (.ok (r.joinRule o)) := by
  unfold Mem.joinRule NoAcc at *
  rw [h, ho]
  exact Quiet.retOk (by simp [Rule.joinRule, h, ho])

theorem Quiet.concatImpl {am : AMatcher α} {m : Matcher α} (h : ∀ r, NoAcc r → Quiet NoAccM (am r) (m r)) (o : Bool) {r : Rule α} (hr : NoAcc r) :
    Quiet NoAcc (concatImpl am none o r) (Rule.concatImpl m none o r) := by
  unfold Mem.concatImpl Rule.concatImpl
  cases r.tail with
  | none => exact Quiet.copy hr
  | some t =>
    apply Quiet.andThen (h _ (noAcc_ofSV _))
    rintro (_ | ⟨head, acc⟩) hx
    · cases o
      · exact Quiet.retOk rfl
      · exact Quiet.copy hr
    · exact Quiet.joinMatched hr hx

theorem Quiet.optionalA {am : AMatcher α} {m : Matcher α} (h : ∀ r, NoAcc r → Quiet NoAccM (am r) (m r)) {r : Rule α} (hr : NoAcc r) :
    Quiet NoAcc (optionalA am none r) (Rule.optionalA m none r) := by
  unfold Mem.optionalA Rule.optionalA
  cases r.tail with
  | none => exact Quiet.copy hr
  | some t =>
    apply Quiet.andThen (Quiet.concatImpl h true (noAcc_ofSV _))
    rintro ⟨tl, acc⟩ hx
    cases tl with
    | none => exact Quiet.copy hr
    | some t => exact Quiet.joinRule hr hx

theorem Quiet.starLoop {am : AMatcher α} {m : Matcher α} (h : ∀ r, NoAcc r → Quiet NoAccM (am r) (m r)) (max : Nat) :
    ∀ fuel count str length, Quiet (fun x => x.2.2 = []) (starLoop am max fuel count str length []) (Rule.starLoop m max fuel count str length []) := by
  intro fuel
  induction fuel with
  | zero => intros; exact Quiet.ret (by intro b hb; cases hb)
  | succ fuel ih =>
    intro count str length
    unfold Mem.starLoop Rule.starLoop
    apply Quiet.andThen (h _ (noAcc_ofSV _))
    rintro (_ | ⟨head, a⟩) hx
    · exact Quiet.retOk rfl
    · cases (show a = [] from hx)
      simp only []
      split
      · exact Quiet.retOk rfl
      · exact Quiet.andThen (P := fun _ => True) (Quiet.ret fun _ _ => trivial) fun str' _ => ih _ str' _

theorem Quiet.star {am : AMatcher α} {m : Matcher α} (h : ∀ r, NoAcc r → Quiet NoAccM (am r) (m r)) (min max : Nat) {r : Rule α} (hr : NoAcc r) :
    Quiet NoAcc (star am min max r) (Rule.star m min max r) := by
  unfold Mem.star Rule.star
  cases r.tail with
  | none => exact Quiet.copy hr
  | some t =>
    have e : r.acc = [] := hr
    rw [e]
    apply Quiet.andThen (Quiet.starLoop h max _ _ _ _)
    rintro ⟨count, length, acc⟩ hx
    simp only []
    split
    · exact Quiet.retOk rfl
    · exact Quiet.andThen (P := fun _ => True) (Quiet.ret fun _ _ => trivial) fun t' _ => Quiet.retOk hx

theorem Quiet.alternative : ∀ {ams : List (AMatcher α)} {ms : List (Matcher α)}, ams.length = ms.length →
    (∀ p ∈ ams.zip ms, ∀ r, NoAcc r → Quiet NoAccM (p.1 r) (p.2 r)) → ∀ r, NoAcc r → Quiet NoAcc (alternative ams r) (Rule.alternative ms r)
  | [], [], _, _ => fun _ _ => Quiet.retOk rfl
  | am :: ams, m :: ms, hl, h => by
    intro r hr
    unfold Mem.alternative Rule.alternative
    have hm : ∀ r, NoAcc r → Quiet NoAccM (am r) (m r) := h (am, m) (by simp)
    have ih := Quiet.alternative (ams := ams) (ms := ms) (by simpa using hl) (fun p hp => h p (by simp [hp]))
    cases r.tail with
    | none => exact Quiet.copy hr
    | some t =>
      apply Quiet.andThen (hm _ (noAcc_ofSV _))
      rintro (_ | ⟨y, acc⟩) hx
      · exact ih r hr
      · exact Quiet.joinMatched hr hx

theorem Quiet.matched (inp : Rule α) {r : Rule α} (hr : NoAcc r) : Quiet NoAccM (matched inp r) (Rule.matched inp r) := by
  have hP : ∀ b, Rule.matched inp r = .ok b → NoAccM b := by
    intro b hb
    unfold Rule.matched at hb
    cases ht : r.tail with
    | none => rw [ht] at hb; cases hb; trivial
    | some t =>
      rw [ht] at hb
      cases hi : inp.tail with
      | none => rw [hi] at hb; cases hb
      | some it =>
        rw [hi] at hb
        simp only [] at hb
        generalize (if t.size ≤ it.size then it.size - t.size else it.size) = k at hb
        cases hs : it.substr 0 k with
        | error e => rw [hs] at hb; cases hb
        | ok s => rw [hs] at hb; cases hb; exact hr
  unfold Mem.matched
  cases ht : r.tail with
  | none =>
    have : Rule.matched inp r = .ok none := by unfold Rule.matched; rw [ht]
    rw [this] at hP ⊢
    exact Quiet.ret hP
  | some t =>
    have e : r.acc = [] := hr
    rw [e]
    have := Quiet.andThen (Quiet.ret hP) (f := fun x => Mem.ret (.ok x)) (g := fun x => .ok x) (Q := NoAccM) fun b hb => Quiet.retOk hb
    rwa [show (Rule.matched inp r >>= fun x => Except.ok x) = Rule.matched inp r by cases Rule.matched inp r <;> rfl] at this

theorem singleCharP_noAcc {p : UInt8 → M Bool} {r : Rule α} {b} (h : r.singleCharP p = .ok b) : NoAccM b := by
  unfold Rule.singleCharP at h
  cases ht : r.tail with
  | none => rw [ht] at h; cases h; trivial
  | some sv =>
    rw [ht] at h
    simp only [] at h
    cases hc : sv.chars with
    | nil => rw [hc] at h; cases h; trivial
    | cons c cs =>
      rw [hc] at h
      simp only [] at h
      cases hp : p c with
      | error e => rw [hp] at h; cases h
      | ok v =>
        rw [hp] at h
        cases v with
        | false => cases h; trivial
        | true =>
          cases hs : sv.substr 0 1 with
          | error e => simp only [hs] at h; cases h
          | ok s => simp only [hs] at h; cases h; rfl

theorem lookM_noAcc {p : SV → Bool} {r : Rule α} {b} (h : Cost.lookM p r = .ok b) : NoAccM b := by
  unfold Cost.lookM at h
  cases ht : r.tail with
  | none => rw [ht] at h; cases h; trivial
  | some sv =>
    rw [ht] at h
    simp only [] at h
    cases hp : p sv with
    | false => rw [hp] at h; cases h; trivial
    | true =>
      rw [hp] at h
      cases hs : sv.substr 0 0 with
      | error e => simp only [hs] at h; cases h
      | ok s => simp only [hs] at h; cases h; rfl

theorem alts_length' : ∀ gs : Alts α, (alts gs).length = gs.run.length
  | .nil => rfl
  | .cons g gs => by simp [Alts.run, alts, alts_length' gs]

mutual
theorem grammar_quiet : ∀ (g : Gr α), Silent g = true → ∀ r : Rule α, NoAcc r → Quiet NoAccM (grammar g r) (g.run r)
  | .chr p, _, r, _ => Quiet.ret fun _ h => singleCharP_noAcc h
  | .look p, _, r, _ => Quiet.ret fun _ h => lookM_noAcc h
  | .rule c, h, r, hr => by
      simp only [grammar, Gr.run]
      exact (chain_quiet c (by simpa [Silent] using h) r hr).andThen fun b hb => Quiet.matched r hb
theorem chain_quiet : ∀ (c : Chain α), SilentC c = true → ∀ r : Rule α, NoAcc r → Quiet NoAcc (chain c r) (c.run r)
  | .nil, _, r, hr => Quiet.retOk hr
  | .concat c g a, h, r, hr => by
      simp only [SilentC, Bool.and_eq_true, Option.isNone_iff_eq_none] at h
      simp only [chain, Chain.run, h.2]
      exact (chain_quiet c h.1.1 r hr).andThen fun b hb => Quiet.concatImpl (grammar_quiet g h.1.2) false hb
  | .optional c g, h, r, hr => by
      simp only [SilentC, Bool.and_eq_true] at h
      simp only [chain, Chain.run]
      exact (chain_quiet c h.1 r hr).andThen fun b hb => Quiet.optionalA (grammar_quiet g h.2) hb
  | .star c g min max, h, r, hr => by
      simp only [SilentC, Bool.and_eq_true] at h
      simp only [chain, Chain.run]
      exact (chain_quiet c h.1 r hr).andThen fun b hb => Quiet.star (grammar_quiet g h.2) min max hb
  | .alternative c gs, h, r, hr => by
      simp only [SilentC, Bool.and_eq_true] at h
      simp only [chain, Chain.run]
      exact (chain_quiet c h.1 r hr).andThen fun b hb => Quiet.alternative (alts_length' gs) (alts_quiet gs h.2) b hb
theorem alts_quiet : ∀ (gs : Alts α), SilentA gs = true → ∀ p ∈ (alts gs).zip gs.run, ∀ r, NoAcc r → Quiet NoAccM (p.1 r) (p.2 r)
  | .nil, _ => by simp [Alts.run, alts]
  | .cons g gs, h => by
      simp only [SilentA, Bool.and_eq_true] at h
      intro p hp r hr
      simp only [Alts.run, alts, List.zip_cons_cons, List.mem_cons] at hp
      rcases hp with rfl | hp
      · exact grammar_quiet g h.1 r hr
      · exact alts_quiet gs h.2 p hp r hr
end

theorem Quiet.done {r : Rule Act} (hr : NoAcc r) : Quiet (fun _ => True) (done r) (r.done runAct Parts.init) := by
  unfold Mem.done Rule.done
  cases r.tail with
  | none => exact Quiet.retOk trivial
  | some t =>
    simp only []
    cases t.chars with
    | cons c cs => exact Quiet.retOk trivial
    | nil =>
      have e : r.acc = [] := hr
      rw [e]
      exact Quiet.retOk trivial

theorem runGrammar_quiet {g : Gr Act} (h : Silent g = true) {m : Matcher Act} (hm : g.run = m) (s : SV) :
    Quiet (fun _ => True) (runGrammar g s) (Verif.runGrammar m s) := by
  subst hm
  exact (Quiet.concatImpl (grammar_quiet g h) false (noAcc_ofSV _)).andThen fun _ hb => Quiet.done hb

end Verif.Mem
