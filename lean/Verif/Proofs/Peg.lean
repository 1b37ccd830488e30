import Verif.Model.Rule

/-!
# Pure parsing expressions and the "denotes" relation

A pure parsing function maps a text to the matched prefix, the acceptors gathered (with the text
each will be given) and the rest.  `Denotes pl m p` says that the model-level matcher `m` behaves
as `p`: see `Agree`.
-/

namespace Verif

/-- Pure parsing functions. -/
abbrev Peg (α : Type) := Str → Option (Str × List (α × Str) × Str)

/-- `v` is a sub-range of the buffer seen through `inp`. -/
def Within (v inp : SV) : Prop :=
  ∃ a b, inp.chars = a ++ v.chars ++ b ∧ v.ptr = inp.ptr + a.length

theorem Within.refl (s : SV) : Within s s := ⟨[], [], by simp, by simp⟩

theorem Within.trans {a b c : SV} (h1 : Within a b) (h2 : Within b c) : Within a c := by
  obtain ⟨x, y, e1, p1⟩ := h1
  obtain ⟨z, w, e2, p2⟩ := h2
  refine ⟨z ++ x, y ++ w, ?_, ?_⟩
  · rw [e2, e1]; simp [List.append_assoc]
  · rw [p1, p2]; simp; omega

/-- Forget addresses. -/
def content {α : Type} (acc : Acceptors α) : List (α × Str) := acc.map fun a => (a.1, a.2.chars)

@[simp] theorem content_nil {α : Type} : content ([] : Acceptors α) = [] := rfl
@[simp] theorem content_append {α : Type} (a b : Acceptors α) :
    content (a ++ b) = content a ++ content b := by simp [content]
@[simp] theorem content_cons {α : Type} (a : α × SV) (b : Acceptors α) :
    content (a :: b) = (a.1, a.2.chars) :: content b := by simp [content]

/-- Some byte of the text makes `<cctype>` undefined on this platform. -/
def Unsafe (pl : Plat) (s : Str) : Prop := ∃ c ∈ s, ctypeOk pl c = false

theorem Unsafe.append_right {pl : Plat} {a b : Str} (h : Unsafe pl b) : Unsafe pl (a ++ b) := by
  obtain ⟨c, hc, h⟩ := h; exact ⟨c, by simp [hc], h⟩

/-- The outcome `x` of a model-level matcher on the view `sv` agrees with the outcome `y` of a
pure function on its text. -/
def Agree {α : Type} (pl : Plat) (sv : SV) (x : M (Matched α))
    (y : Option (Str × List (α × Str) × Str)) : Prop :=
  match x with
  | .error f => f = .ctype ∧ Unsafe pl sv.chars
  | .ok none => y = none
  | .ok (some (h, acc)) => ∃ u v, y = some (u, content acc, v) ∧ sv.chars = u ++ v ∧
      h = ⟨sv.ptr, u⟩ ∧ ∀ a ∈ acc, Within a.2 sv

/-- The matcher `m` denotes the pure function `p`. -/
def Denotes {α : Type} (pl : Plat) (m : Matcher α) (p : Peg α) : Prop :=
  ∀ sv, Agree pl sv (m (Rule.ofSV sv)) (p sv.chars)

/-- As `Agree` for a step of a chain: a function from rule to rule. -/
def AgreeStep {α : Type} (pl : Plat) (acc : Acceptors α) (sv : SV) (x : M (Rule α))
    (y : Option (Str × List (α × Str) × Str)) : Prop :=
  match x with
  | .error f => f = .ctype ∧ Unsafe pl sv.chars
  | .ok r => match y with
      | none => r.tail = none
      | some (u, acts, v) => sv.chars = u ++ v ∧ r.tail = some ⟨sv.ptr + u.length, v⟩ ∧
          ∃ acc', r.acc = acc ++ acc' ∧ content acc' = acts ∧ ∀ a ∈ acc', Within a.2 sv

/-- The chain step `c` denotes `p`, and passes failure on. -/
def StepDen {α : Type} (pl : Plat) (c : Rule α → M (Rule α)) (p : Peg α) : Prop :=
  (∀ acc sv, AgreeStep pl acc sv (c ⟨some sv, acc⟩) (p sv.chars)) ∧
  (∀ r : Rule α, r.tail = none → ∃ r', c r = .ok r' ∧ r'.tail = none)

namespace Peg
variable {α : Type}

/-- One character satisfying `f`. -/
def chr (f : UInt8 → Bool) : Peg α
  | [] => none
  | c :: s => if f c then some ([c], [], s) else none

/-- Empty match. -/
def eps : Peg α := fun s => some ([], [], s)

/-- Look-ahead: the next character does not satisfy `f`. -/
def notAhead (f : UInt8 → Bool) : Peg α
  | [] => some ([], [], [])
  | c :: s => if f c then none else some ([], [], c :: s)

/-- Sequence. -/
def seq (p q : Peg α) : Peg α := fun s =>
  match p s with
  | none => none
  | some (u, a, v) =>
      match q v with
      | none => none
      | some (u', a', v') => some (u ++ u', a ++ a', v')

/-- Attach an acceptor. -/
def act (p : Peg α) (x : α) : Peg α := fun s =>
  match p s with
  | none => none
  | some (u, a, v) => some (u, a ++ [(x, u)], v)

/-- Optional. -/
def opt (p : Peg α) : Peg α := fun s =>
  match p s with
  | none => some ([], [], s)
  | some r => some r

/-- Ordered choice. -/
def alt : List (Peg α) → Peg α
  | [], _ => none
  | p :: ps, s =>
      match p s with
      | some r => some r
      | none => alt ps s

/-- The greedy loop: final count (32-bit), matched text, acceptors, rest. -/
def starLoop (p : Peg α) (max : Nat) : Nat → Nat → Str → Nat × Str × List (α × Str) × Str
  | 0, count, s => (count, [], [], s)
  | fuel + 1, count, s =>
      match p s with
      | none => (count, [], [], s)
      | some (u, a, v) =>
          let count' := (count + 1) % uintMod
          if count' > max then (count', [], [], s)
          else
            let r := starLoop p max fuel count' v
            (r.1, u ++ r.2.1, a ++ r.2.2.1, r.2.2.2)

/-- Repetition. -/
def star (p : Peg α) (min max : Nat) : Peg α := fun s =>
  let r := starLoop p max (s.length + 1) 0 s
  if r.1 < min then none else some r.2

/-- The function never matches the empty text. -/
def NonNull (p : Peg α) : Prop := ∀ s a v, p s ≠ some ([], a, v)

end Peg

section
variable {α : Type} {pl : Plat}
open Peg

theorem Denotes.consumes {m : Matcher α} {p : Peg α} (h : Denotes pl m p) (sv : SV) {x}
    (hx : m (Rule.ofSV sv) = .ok (some x)) : ∃ v, p sv.chars = some (x.1.chars, content x.2, v) ∧
      sv.chars = x.1.chars ++ v := by
  have := h sv
  rw [hx] at this
  obtain ⟨hd, acc⟩ := x
  obtain ⟨u, v, h1, h2, h3, -⟩ := this
  subst h3
  exact ⟨v, h1, h2⟩

/-- Chain ended by `matched`. -/
theorem den_matched {c : Rule α → M (Rule α)} {p : Peg α} (h : StepDen pl c p) :
    Denotes pl (fun r => c r >>= Rule.matched r) p := by
  intro sv
  have h1 := h.1 [] sv
  simp only [Rule.ofSV, bind, Except.bind]
  cases hx : c ⟨some sv, []⟩ with
  | error f => rw [hx] at h1; exact h1
  | ok r =>
    rw [hx] at h1
    simp only [AgreeStep] at h1
    cases hp : p sv.chars with
    | none => rw [hp] at h1; simp only at h1; simp [Rule.matched, h1, Agree]
    | some y =>
      obtain ⟨u, acts, v⟩ := y
      rw [hp] at h1
      obtain ⟨hc, ht, acc', ha, hco, hw⟩ := h1
      simp only [List.nil_append] at ha
      subst ha
      simp only [Rule.matched, ht, SV.substr, SV.size, hc]
      simp only [bind, Except.bind, Nat.zero_le, if_true, List.length_append, List.drop_zero, Nat.add_zero,
        Nat.le_add_left, Nat.add_sub_cancel, List.take_left, pure, Except.pure]
      exact ⟨u, v, by simp [hco], hc, rfl, hw⟩

/-- Two steps in a row. -/
theorem step_bind {c d : Rule α → M (Rule α)} {p q : Peg α} (hc : StepDen pl c p)
    (hd : StepDen pl d q) : StepDen pl (fun r => c r >>= d) (seq p q) := by
  refine ⟨?_, ?_⟩
  · intro acc sv
    have h1 := hc.1 acc sv
    simp only [bind, Except.bind]
    cases hx : c ⟨some sv, acc⟩ with
    | error f => rw [hx] at h1; exact h1
    | ok r =>
      rw [hx] at h1
      simp only [AgreeStep] at h1
      cases hp : p sv.chars with
      | none =>
        rw [hp] at h1
        obtain ⟨r', e1, e2⟩ := hd.2 r h1
        simp [e1, AgreeStep, Peg.seq, hp, e2]
      | some y =>
        obtain ⟨u, acts, v⟩ := y
        rw [hp] at h1
        obtain ⟨hch, ht, acc', ha, hco, hw⟩ := h1
        have h2 := hd.1 r.acc ⟨sv.ptr + u.length, v⟩
        have hr : r = ⟨some ⟨sv.ptr + u.length, v⟩, r.acc⟩ := by cases r; simp at ht; simp [ht]
        rw [← hr] at h2
        simp only [AgreeStep] at h2 ⊢
        have hwin : Within ⟨sv.ptr + u.length, v⟩ sv := ⟨u, [], by simp [hch], rfl⟩
        cases hy : d r with
        | error f => rw [hy] at h2; exact ⟨h2.1, by rw [hch]; exact h2.2.append_right⟩
        | ok r2 =>
          rw [hy] at h2
          simp only at h2 ⊢
          cases hq : q v with
          | none => rw [hq] at h2; simp [Peg.seq, hp, hq, h2]
          | some z =>
            obtain ⟨u', acts', v'⟩ := z
            rw [hq] at h2
            obtain ⟨hch', ht', acc2, ha', hco', hw'⟩ := h2
            simp only [Peg.seq, hp, hq]
            refine ⟨by rw [hch, List.append_assoc, ← hch'], by simp [ht']; omega, acc' ++ acc2, ?_, ?_, ?_⟩
            · rw [ha', ha, List.append_assoc]
            · simp [hco, hco']
            · intro a ham
              rcases List.mem_append.1 ham with h | h
              · exact hw a h
              · exact (hw' a h).trans hwin
  · intro r hr
    obtain ⟨r', e1, e2⟩ := hc.2 r hr
    obtain ⟨r2, e3, e4⟩ := hd.2 r' e2
    exact ⟨r2, by simp [bind, Except.bind, e1, e3], e4⟩

theorem step_concatImpl {m : Matcher α} {p : Peg α} (h : Denotes pl m p) (x : Option α) (b : Bool) :
    StepDen pl (Rule.concatImpl m x b)
      (fun s => match p s with
        | none => if b then some ([], [], s) else none
        | some (u, a, v) => some (u, a ++ (match x with | none => [] | some x => [(x, u)]), v)) := by
  refine ⟨?_, ?_⟩
  · intro acc sv
    have h1 := h sv
    simp only [Rule.concatImpl, bind, Except.bind]
    cases hx : m (Rule.ofSV sv) with
    | error f => rw [hx] at h1; exact h1
    | ok o =>
      rw [hx] at h1
      cases o with
      | none =>
        simp only [Agree] at h1
        cases b <;> simp [AgreeStep, h1, Rule.failed]
      | some y =>
        obtain ⟨hd, a⟩ := y
        obtain ⟨u, v, hp, hch, hh, hw⟩ := h1
        subst hh
        obtain ⟨ptr, cs⟩ := sv
        simp only at hch hp
        subst hch
        simp only [Rule.joinMatched, SV.substrFrom, SV.size, AgreeStep, hp]
        simp only [List.length_append, Nat.le_add_right, if_true, bind, Except.bind, List.drop_left, pure,
          Except.pure]
        cases x with
        | none => exact ⟨trivial, trivial, a, rfl, by simp, hw⟩
        | some x =>
          refine ⟨trivial, trivial, a ++ [(x, ⟨ptr, u⟩)], rfl, by simp, ?_⟩
          intro b hb
          rcases List.mem_append.1 hb with h | h
          · exact hw b h
          · simp at h; subst h; exact ⟨[], v, by simp, by simp⟩
  · intro r hr
    exact ⟨r, by simp [Rule.concatImpl, hr], hr⟩

theorem step_concat {m : Matcher α} {p : Peg α} (h : Denotes pl m p) :
    StepDen pl (Rule.concat m) p := by
  have := step_concatImpl h none false
  have e : (fun s => match p s with
        | none => if false then some ([], [], s) else none
        | some (u, a, v) => some (u, a ++ (match (none : Option α) with | none => [] | some x => [(x, u)]), v)) = p := by
    funext s; cases p s <;> simp
  rw [e] at this
  exact this

theorem step_concatA {m : Matcher α} {p : Peg α} (h : Denotes pl m p) (x : α) :
    StepDen pl (Rule.concatA m x) (act p x) := by
  have := step_concatImpl h (some x) false
  have e : (fun s => match p s with
        | none => if false then some ([], [], s) else none
        | some (u, a, v) => some (u, a ++ (match (some x) with | none => [] | some x => [(x, u)]), v)) = act p x := by
    funext s; simp only [act]; cases p s <;> simp
  rw [e] at this
  exact this

theorem step_optional {m : Matcher α} {p : Peg α} (h : Denotes pl m p) :
    StepDen pl (Rule.optional m) (opt p) := by
  have h0 := step_concatImpl h none true
  refine ⟨?_, ?_⟩
  · intro acc sv
    have h1 := h0.1 [] sv
    simp only [Rule.optional, Rule.optionalA, bind, Except.bind, Rule.ofSV]
    cases hx : Rule.concatImpl m none true ⟨some sv, []⟩ with
    | error f => rw [hx] at h1; exact h1
    | ok r =>
      rw [hx] at h1
      simp only [AgreeStep] at h1
      cases hp : p sv.chars with
      | none =>
        simp only [hp, if_true] at h1
        obtain ⟨hch, ht, acc', ha, hco, hw⟩ := h1
        simp only [ht, AgreeStep, Peg.opt, hp]
        simp only [Rule.joinRule]
        exact ⟨hch, ht, acc', by simp [ha], hco, hw⟩
      | some y =>
        obtain ⟨u, acts, v⟩ := y
        simp only [hp] at h1
        obtain ⟨hch, ht, acc', ha, hco, hw⟩ := h1
        simp only [ht, AgreeStep, Peg.opt, hp]
        simp only [Rule.joinRule]
        exact ⟨hch, ht, acc', by simp [ha], by simpa using hco, hw⟩
  · intro r hr
    exact ⟨r, by simp [Rule.optional, Rule.optionalA, hr], hr⟩

theorem starLoop_agree {m : Matcher α} {p : Peg α} (h : Denotes pl m p) (hn : NonNull p) (max : Nat) :
    ∀ fuel fuel' count (str : SV) length (acc : Acceptors α),
      str.chars.length < fuel → str.chars.length < fuel' →
      match Rule.starLoop m max fuel count str length acc with
      | .error f => f = .ctype ∧ Unsafe pl str.chars
      | .ok (count', length', acc') =>
          let r := Peg.starLoop p max fuel' count str.chars
          str.chars = r.2.1 ++ r.2.2.2 ∧ count' = r.1 ∧ length' = length + r.2.1.length ∧
          ∃ acc2, acc' = acc ++ acc2 ∧ content acc2 = r.2.2.1 ∧ ∀ a ∈ acc2, Within a.2 str := by
  intro fuel
  induction fuel with
  | zero => intro _ _ _ _ _ h; omega
  | succ fuel ih =>
    intro fuel' count str length acc h1 h2
    cases fuel' with
    | zero => omega
    | succ fuel' =>
      have hd := h str
      simp only [Rule.starLoop, Peg.starLoop, bind, Except.bind]
      cases hx : m (Rule.ofSV str) with
      | error f => rw [hx] at hd; exact hd
      | ok o =>
        rw [hx] at hd
        cases o with
        | none =>
          simp only [Agree] at hd
          simp [hd]
        | some y =>
          obtain ⟨hd', a⟩ := y
          obtain ⟨u, v, hp, hch, hh, hw⟩ := hd
          subst hh
          simp only [hp]
          by_cases hc : (count + 1) % uintMod > max
          · simp [hc]
          · simp only [hc, if_false, SV.removePrefix, SV.substrFrom, SV.size, hch]
            simp only [List.length_append, Nat.le_add_right, if_true, List.drop_left]
            have hu : u ≠ [] := by intro e; subst e; exact hn _ _ _ hp
            have hul : 0 < u.length := List.length_pos_iff.2 hu
            have hlen : str.chars.length = u.length + v.length := by rw [hch]; simp
            have := ih fuel' ((count + 1) % uintMod) ⟨str.ptr + u.length, v⟩ (length + u.length)
              (acc ++ a) (by simp; omega) (by simp; omega)
            have hwin : Within ⟨str.ptr + u.length, v⟩ str := ⟨u, [], by simp [hch], rfl⟩
            revert this
            cases Rule.starLoop m max fuel ((count + 1) % uintMod) ⟨str.ptr + u.length, v⟩
              (length + u.length) (acc ++ a) with
            | error f => intro this; exact ⟨this.1, this.2.append_right⟩
            | ok z =>
              obtain ⟨c', l', a'⟩ := z
              intro this
              obtain ⟨e1, e2, e3, acc2, e4, e5, e6⟩ := this
              refine ⟨?_, e2, by rw [e3]; simp; omega, a ++ acc2, ?_, ?_, ?_⟩
              · rw [List.append_assoc, ← e1]
              · rw [e4, List.append_assoc]
              · simp [e5]
              · intro b hb
                rcases List.mem_append.1 hb with h | h
                · exact hw b h
                · exact (e6 b h).trans hwin

theorem step_star {m : Matcher α} {p : Peg α} (h : Denotes pl m p) (hn : NonNull p) (min max : Nat) :
    StepDen pl (Rule.star m min max) (star p min max) := by
  refine ⟨?_, ?_⟩
  · intro acc sv
    have h1 := starLoop_agree h hn max (sv.size + max + 2) (sv.chars.length + 1) 0 sv 0 acc
      (by simp [SV.size]; omega) (by omega)
    simp only [Rule.star, bind, Except.bind, Peg.star]
    revert h1
    cases Rule.starLoop m max (sv.size + max + 2) 0 sv 0 acc with
    | error f => intro h1; exact h1
    | ok z =>
      obtain ⟨c', l', a'⟩ := z
      intro h1
      obtain ⟨e1, e2, e3, acc2, e4, e5, e6⟩ := h1
      simp only
      rw [e2]
      generalize Peg.starLoop p max (sv.chars.length + 1) 0 sv.chars = R at *
      obtain ⟨c, u, acts, v⟩ := R
      simp only at *
      by_cases hm : c < min
      · simp [hm, AgreeStep, Rule.failed]
      · simp only [hm, if_false, SV.substrFrom, SV.size, e1, e3]
        simp only [Nat.zero_add, List.length_append, Nat.le_add_right, if_true, List.drop_left, pure,
          Except.pure, AgreeStep]
        exact ⟨e1, trivial, acc2, e4, e5, e6⟩
  · intro r hr
    exact ⟨r, by simp [Rule.star, hr], hr⟩

/-- Lists of matchers and pure functions in step. -/
inductive DenotesAll (pl : Plat) : List (Matcher α) → List (Peg α) → Prop
  | nil : DenotesAll pl [] []
  | cons {m p ms ps} : Denotes pl m p → DenotesAll pl ms ps → DenotesAll pl (m :: ms) (p :: ps)

theorem step_alternative {ms : List (Matcher α)} {ps : List (Peg α)} (h : DenotesAll pl ms ps) :
    StepDen pl (Rule.alternative ms) (alt ps) := by
  induction h with
  | nil =>
    refine ⟨?_, ?_⟩
    · intro acc sv; simp [Rule.alternative, Peg.alt, AgreeStep, Rule.failed]
    · intro r hr; exact ⟨Rule.failed, rfl, rfl⟩
  | @cons m p ms ps hm hms ih =>
    refine ⟨?_, ?_⟩
    · intro acc sv
      have h1 := hm sv
      simp only [Rule.alternative, Peg.alt, bind, Except.bind]
      cases hx : m (Rule.ofSV sv) with
      | error f => rw [hx] at h1; exact h1
      | ok o =>
        rw [hx] at h1
        cases o with
        | none =>
          simp only [Agree] at h1
          simp only [h1]
          exact ih.1 acc sv
        | some y =>
          obtain ⟨hd, a⟩ := y
          obtain ⟨u, v, hp, hch, hh, hw⟩ := h1
          subst hh
          obtain ⟨ptr, cs⟩ := sv
          simp only at hch hp
          subst hch
          simp only [Rule.joinMatched, SV.substrFrom, SV.size, AgreeStep, hp]
          simp only [List.length_append, Nat.le_add_right, if_true, bind, Except.bind, List.drop_left,
            pure, Except.pure]
          exact ⟨trivial, trivial, a, rfl, rfl, hw⟩
    · intro r hr
      exact ⟨r, by simp [Rule.alternative, hr], hr⟩

/-! ### Characters -/

theorem den_singleCharP {f : UInt8 → M Bool} {g : UInt8 → Bool}
    (h : ∀ c, f c = .ok (g c) ∨ (f c = .error .ctype ∧ ctypeOk pl c = false)) :
    Denotes (α := α) pl (Rule.singleCharP f) (chr g) := by
  intro sv
  obtain ⟨p, cs⟩ := sv
  cases cs with
  | nil => simp [Rule.singleCharP, Rule.ofSV, Agree, chr]
  | cons c s =>
    simp only [Rule.singleCharP, Rule.ofSV, bind, Except.bind, chr]
    rcases h c with h | h
    · rw [h]
      cases hg : g c
      · simp [Agree, pure, Except.pure]
      · simp [Agree, pure, Except.pure, SV.substr]
        exact ⟨_, _, ⟨rfl, rfl⟩, rfl, rfl⟩
    · rw [h.1]
      exact ⟨rfl, c, by simp, h.2⟩

theorem den_singleChar {c : UInt8} (hc : c.toNat < 0x80) :
    Denotes (α := α) pl (fun r => Rule.singleChar pl c r) (chr fun d => toLowerB c == toLowerB d) := by
  have e : (fun r : Rule α => Rule.singleChar pl c r) =
      Rule.singleCharP (fun d => do return toLowerB c == (← tolower pl d)) := by
    funext r
    simp [Rule.singleChar, tolower, ctype, ctypeOk, hc, bind, Except.bind]
  rw [e]
  apply den_singleCharP
  intro d
  by_cases hd : ctypeOk pl d = true
  · left; simp [tolower, ctype, hd, bind, Except.bind, pure, Except.pure]
  · right; simp at hd; simp [tolower, ctype, hd, bind, Except.bind]

theorem den_charRange {a b : UInt8} (ha : a.toNat < 0x80) (hb : b.toNat < 0x80) :
    Denotes (α := α) pl (fun r => Rule.charRange pl a b r)
      (chr fun d => decide ((toLowerB a).toNat ≤ (toLowerB d).toNat) &&
        decide ((toLowerB d).toNat ≤ (toLowerB b).toNat)) := by
  have e : (fun r : Rule α => Rule.charRange pl a b r) =
      Rule.singleCharP (fun c => do
        let cl ← tolower pl c
        return decide ((toLowerB a).toNat ≤ cl.toNat) && decide (cl.toNat ≤ (toLowerB b).toNat)) := by
    funext r
    simp [Rule.charRange, tolower, ctype, ctypeOk, ha, hb, bind, Except.bind]
  rw [e]
  apply den_singleCharP
  intro d
  by_cases hd : ctypeOk pl d = true
  · left; simp [tolower, ctype, hd, bind, Except.bind, pure, Except.pure]
  · right; simp at hd; simp [tolower, ctype, hd, bind, Except.bind]

theorem ctype_spec (f : UInt8 → Bool) (c : UInt8) :
    ctype pl f c = .ok (f c) ∨ (ctype pl f c = .error .ctype ∧ ctypeOk pl c = false) := by
  by_cases hd : ctypeOk pl c = true
  · left; simp [ctype, hd]
  · right; simp at hd; simp [ctype, hd]

theorem den_alpha : Denotes (α := α) pl (Rule.alpha pl) (chr isAlphaB) :=
  den_singleCharP fun c => ctype_spec _ c
theorem den_digit : Denotes (α := α) pl (Rule.digit pl) (chr isDigitB) :=
  den_singleCharP fun c => ctype_spec _ c
theorem den_hexdig : Denotes (α := α) pl (Rule.hexdig pl) (chr isXDigitB) :=
  den_singleCharP fun c => ctype_spec _ c

/-! ### Non-nullability -/

theorem nonNull_chr (f : UInt8 → Bool) : NonNull (chr f : Peg α) := by
  intro s a v h
  cases s with
  | nil => simp [chr] at h
  | cons c s => simp only [chr] at h; split at h <;> simp at h

theorem Peg.NonNull.seq_left {p q : Peg α} (h : NonNull p) : NonNull (seq p q) := by
  intro s a v hs
  simp only [Peg.seq] at hs
  cases hp : p s with
  | none => simp [hp] at hs
  | some y =>
    obtain ⟨u, a', v'⟩ := y
    simp only [hp] at hs
    cases hq : q v' with
    | none => simp [hq] at hs
    | some z =>
      obtain ⟨u2, a2, v2⟩ := z
      simp [hq] at hs
      exact h s a' v' (by rw [hp, hs.1.1])

theorem Peg.NonNull.act {p : Peg α} (h : NonNull p) (x : α) : NonNull (act p x) := by
  intro s a v hs
  simp only [Peg.act] at hs
  cases hp : p s with
  | none => simp [hp] at hs
  | some y =>
    obtain ⟨u, a', v'⟩ := y
    simp [hp] at hs
    exact h s a' v' (by rw [hp, hs.1])

theorem nonNull_alt_nil : NonNull (alt ([] : List (Peg α))) := by
  intro s a v; simp [Peg.alt]

theorem Peg.NonNull.alt_cons {p : Peg α} {ps} (h : NonNull p) (hs : NonNull (alt ps)) :
    NonNull (alt (p :: ps)) := by
  intro s a v hx
  simp only [Peg.alt] at hx
  cases hp : p s with
  | none => simp [hp] at hx; exact hs _ _ _ hx
  | some y => simp [hp] at hx; exact h s a v (by rw [hp, hx])

end
end Verif
