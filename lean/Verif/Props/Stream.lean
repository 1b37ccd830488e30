import Verif.Proofs.Stream
import Verif.Props.Parse

/-!
# C73: writing to any stream, and composing when memory runs out
-/

set_option linter.unusedSimpArgs false

namespace Verif

open Stream

/-- `os'` is `os` after the text `t` was given to its device: the device has taken as much of it as it had room for, the
stream is good exactly if that is all, its width is reset and the rest of its state is untouched. -/
structure Stream.Takes (os : OStream) (t : Str) (os' : OStream) : Prop where
  some_of_it : ∃ u v, t = u ++ v ∧ os'.out = os.out ++ u ∧ (os'.good = true ↔ v = []) ∧
    (os.room = none → v = [] ∧ os'.room = none) ∧
    (∀ k, os.room = some k → u.length = min k t.length ∧ os'.room = some (k - u.length))
  width : os'.width = 0
  fill : os'.fill = os.fill
  left : os'.left = os.left
  exceptions : os'.badThrows = os.badThrows ∧ os'.failThrows = os.failThrows

theorem Stream.advance_takes (os : OStream) (t : Str) : Takes os t (advance os t) := by
  refine ⟨⟨t.take (taken os t), t.drop (taken os t), (List.take_append_drop _ _).symm, rfl, ?_, ?_, ?_⟩, rfl, rfl, rfl, rfl, rfl⟩
  · have hle : taken os t ≤ t.length := by
      cases hr : os.room with
      | none => rw [taken_none hr]; exact Nat.le_refl _
      | some k => rw [taken_some hr]; exact Nat.min_le_right _ _
    simp only [advance, beq_iff_eq, List.drop_eq_nil_iff]
    omega
  · intro hr
    rw [taken_none hr]
    simp [advance, hr]
  · intro k hr
    rw [List.length_take, taken_some hr, Nat.min_assoc, Nat.min_self]
    exact ⟨rfl, by simp [advance, hr, taken_some hr]⟩

/-- A call that leaves the stream as `os'`, by returning it or by an exception. -/
def Stream.Leaves (x : SM) (os' : OStream) : Prop := x = .ok os' ∨ ∃ t, x = .error (t, os')

theorem Stream.leaves_left (x : SM) : Leaves x (left' x) := by
  cases x with
  | ok o => exact .inl rfl
  | error e => exact .inr ⟨e.1, rfl⟩

theorem Stream.compose_puts (p : Parts SV) (os : OStream) : Stream.compose true p os = puts (before p ++ [p.path.toStr] ++ after p) os := by
  rw [compose_eq, puts_append, puts_append]
  congr 1
  congr 1
  funext os
  exact (puts_one _ _).symm

theorem Stream.flatten_puts (p : Parts SV) : (before p ++ [p.path.toStr] ++ after p).flatten = Verif.compose p := by
  rw [compose_pieces]; simp

/-- **C73**: on a good stream without a width, `compose (os, p)` and `os << p` give the device the text that `compose (p)`
returns: as much of it as it takes, and the stream stays good exactly if that is all of it. -/
theorem C73_written (p : Parts SV) (os : OStream) (hg : os.good = true) (hw : os.width = 0) :
    ∃ os', Leaves (Stream.compose true p os) os' ∧ Takes os (compose p) os' := by
  refine ⟨_, leaves_left _, ?_⟩
  rw [compose_puts, puts_left _ hg hw, flatten_puts]
  exact advance_takes os _

/-- **C73**: an exception leaves it only if the device did not take all and the stream was told to throw, and always if it was
told to throw for `badbit`. -/
theorem C73_exceptions (p : Parts SV) (os os' : OStream) (hg : os.good = true) (hw : os.width = 0) (hl : Leaves (Stream.compose true p os) os') :
    (∀ t, Stream.compose true p os = .error (t, os') → t = .failure ∧ os'.good = false ∧ (os.badThrows = true ∨ os.failThrows = true)) ∧
    (os'.good = false → os.badThrows = true → Stream.compose true p os = .error (.failure, os')) := by
  have hleft : left' (Stream.compose true p os) = os' := by
    rcases hl with h | ⟨t, h⟩ <;> rw [h] <;> rfl
  have hadv := puts_left (before p ++ [p.path.toStr] ++ after p) hg hw
  rw [← compose_puts, hleft] at hadv
  have hgood : os'.good = true ↔ taken os (before p ++ [p.path.toStr] ++ after p).flatten = (before p ++ [p.path.toStr] ++ after p).flatten.length := by
    rw [hadv]; simp [advance]
  have only : ∀ (ss : List Str) (os : OStream) e, puts ss os = .error e → e.1 = .failure := by
    intro ss
    induction ss with
    | nil => intro os e h; cases h
    | cons s ss ih =>
      intro os e h
      have h : (Stream.insert s os >>= puts ss) = .error e := h
      cases hi : Stream.insert s os with
      | ok o => rw [hi] at h; exact ih o e h
      | error e' =>
        rw [hi] at h
        cases h
        unfold Stream.insert at hi
        simp only [] at hi
        split at hi <;> split at hi <;> cases hi <;> rfl
  constructor
  · intro t he
    refine ⟨by rw [compose_puts] at he; exact only _ _ _ he, ?_, ?_⟩
    · cases h : os'.good with
      | false => rfl
      | true =>
        have := puts_not_thrown _ hw hg (hgood.1 h)
        rw [← compose_puts, he] at this
        cases this
    · cases hb : os.badThrows with
      | true => exact .inl rfl
      | false =>
        cases hf : os.failThrows with
        | true => exact .inr rfl
        | false =>
          have := puts_quiet (before p ++ [p.path.toStr] ++ after p) hb hf
          rw [← compose_puts, he] at this
          cases this
  · intro h hb
    have hn : ¬ taken os (before p ++ [p.path.toStr] ++ after p).flatten = (before p ++ [p.path.toStr] ++ after p).flatten.length := by
      intro k; rw [hgood.2 k] at h; cases h
    have := puts_thrown _ hw hg hb hn
    rw [← compose_puts] at this
    rcases hl with h1 | ⟨t, h1⟩
    · rw [h1] at this; cases this
    · rw [h1] at this ⊢
      cases this; rfl

/-- **C73**: nothing is written to a stream that is not good, and its state stays as it is. -/
theorem C73_bad (p : Parts SV) (os : OStream) (hg : os.good = false) : Leaves (Stream.compose true p os) os := by
  have := leaves_left (Stream.compose true p os)
  rwa [compose_puts, puts_bad _ hg, ← compose_puts] at this

/-- The first text inserted: the scheme; without one, the `//` of the authority; without that, the whole path. -/
def Stream.First (p : Parts SV) (t : Str) : Prop :=
  (∀ s, p.scheme = some s → t = s.chars) ∧
  (p.scheme = none → ∀ a, p.authority = some a → t = b! "//") ∧
  (p.scheme = none → p.authority = none → t = p.path.toStr)

/-- **C73**: a field width pads the first text only, so the whole is longer than the width asks for: `std::setw` does not make
columns of URIs. -/
theorem C73_width (p : Parts SV) (os : OStream) (hg : os.good = true) :
    ∃ first rest os' pad, compose p = first ++ rest ∧ First p first ∧ pad = List.replicate (os.width - first.length) os.fill ∧
      Leaves (Stream.compose true p os) os' ∧
      (os.left = true → Takes os (first ++ pad ++ rest) os') ∧ (os.left = false → Takes os (pad ++ first ++ rest) os') := by
  have main : ∀ first more, before p ++ [p.path.toStr] ++ after p = first :: more → First p first →
      ∃ first rest os' pad, compose p = first ++ rest ∧ First p first ∧ pad = List.replicate (os.width - first.length) os.fill ∧
      Leaves (Stream.compose true p os) os' ∧
      (os.left = true → Takes os (first ++ pad ++ rest) os') ∧ (os.left = false → Takes os (pad ++ first ++ rest) os') := by
    intro first more he hf
    refine ⟨first, more.flatten, _, _, by rw [← flatten_puts, he, List.flatten_cons], hf, rfl, leaves_left _, ?_⟩
    have e1 : Stream.insert first os = Stream.insert (padded os first) { os with width := 0 } := by
      unfold Stream.insert
      simp only [hg, Bool.not_true, Bool.false_eq_true, if_false]
      rw [padded_zero rfl (padded os first)]
      rfl
    have e2 : Stream.compose true p os = puts (padded os first :: more) { os with width := 0 } := by
      rw [compose_puts, he]
      show (Stream.insert _ _ >>= puts more) = (Stream.insert _ _ >>= puts more)
      rw [e1]
    have e3 := puts_left (padded os first :: more) (os := { os with width := 0 }) hg rfl
    rw [List.flatten_cons] at e3
    rw [e2, e3]
    have e4 : advance { os with width := 0 } (padded os first ++ more.flatten) = advance os (padded os first ++ more.flatten) := rfl
    rw [e4]
    have := advance_takes os (padded os first ++ more.flatten)
    unfold padded at this ⊢
    constructor <;> intro h <;> rw [h] at this ⊢ <;> simpa using this
  cases hs : p.scheme with
  | some s =>
    refine main s.chars _ (by simp only [before, hs, piecesO, List.cons_append]; rfl) ⟨?_, ?_, ?_⟩
    · intro s' h; rw [hs] at h; cases h; rfl
    · intro h; rw [hs] at h; cases h
    · intro h; rw [hs] at h; cases h
  | none =>
    cases ha : p.authority with
    | some a =>
      refine main (b! "//") _ (by simp only [before, hs, ha, piecesO, List.cons_append, List.nil_append]; rfl) ⟨?_, ?_, ?_⟩
      · intro s' h; rw [hs] at h; cases h
      · intros; rfl
      · intro _ h; rw [ha] at h; cases h
    | none =>
      refine main p.path.toStr _ (by simp only [before, hs, ha, piecesO, List.cons_append, List.nil_append]; rfl) ⟨?_, ?_, ?_⟩
      · intro s' h; rw [hs] at h; cases h
      · intro _ a h; rw [ha] at h; cases h
      · intros; rfl

/-! ### `compose (p)` when memory runs out -/

/-- **C73**: with enough memory, `compose` returns the composition. -/
theorem C73_compose (p : Parts SV) : composeString ⟨true, none, true, true⟩ p = some (compose p) := by
  have h : left' (Stream.compose true p (fresh none)) = advance (fresh none) (compose p) := by
    rw [compose_puts, puts_left _ rfl rfl, flatten_puts]
  have h2 := puts_quiet (before p ++ [p.path.toStr] ++ after p) (os := fresh none) rfl rfl
  rw [← compose_puts] at h2
  unfold composeString
  cases hc : Stream.compose true p (fresh none) with
  | error e => rw [hc] at h2; cases h2
  | ok o =>
    rw [hc] at h
    have h : o = _ := h
    simp [h, advance, fresh, taken_none]

/-- **C73**, exactly: if the buffer of the stream can grow to `k` characters only, and nothing else fails, `compose` returns the
first `k` characters of the composition without a sign that there should be more; if anything else fails it throws. -/
theorem C73_truncated (mem : Memory) (p : Parts SV) (k : Nat) (hk : mem.buffer = some k) :
    (mem.stream = true ∧ mem.path = true ∧ mem.result = true → composeString mem p = some ((compose p).take k)) ∧
    (mem.stream = false ∨ mem.path = false ∨ mem.result = false → composeString mem p = none) := by
  have ok : ∀ os : OStream, os.badThrows = false → os.failThrows = false → ∃ o, puts (before p) os = .ok o := by
    intro os hb hf
    have := puts_quiet (before p) hb hf
    cases hc : puts (before p) os with
    | ok o => exact ⟨o, rfl⟩
    | error e => rw [hc] at this; cases this
  constructor
  · rintro ⟨h1, h2, h3⟩
    have h : left' (Stream.compose true p (fresh (some k))) = advance (fresh (some k)) (compose p) := by
      rw [compose_puts, puts_left _ rfl rfl, flatten_puts]
    have h4 := puts_quiet (before p ++ [p.path.toStr] ++ after p) (os := fresh (some k)) rfl rfl
    rw [← compose_puts] at h4
    unfold composeString
    rw [h1, h2, hk, h3]
    cases hc : Stream.compose true p (fresh (some k)) with
    | error e => rw [hc] at h4; cases h4
    | ok o =>
      rw [hc] at h
      have h : o = _ := h
      have ht : taken (fresh (some k)) (compose p) = min k (compose p).length := taken_some rfl _
      simp only [Bool.not_true, Bool.false_eq_true, if_false, if_true, h, advance, ht]
      simp [fresh, List.take_eq_take_iff]
  · intro h
    unfold composeString
    cases h1 : mem.stream with
    | false => rfl
    | true =>
      rw [h1] at h
      simp only [Bool.not_true, Bool.false_eq_true, if_false, false_or, reduceCtorEq] at h ⊢
      cases h2 : mem.path with
      | false =>
        rw [compose_eq]
        obtain ⟨o, ho⟩ := ok (fresh mem.buffer) rfl rfl
        rw [ho]
        rfl
      | true =>
        rw [h2] at h
        simp only [reduceCtorEq, false_or] at h
        rw [h]
        cases Stream.compose true p (fresh mem.buffer) <;> rfl

/-- **C73**: and what is left can be another URI: of `http://good.example.evil.test/`, the first 19 characters are
`http://good.example`, which `split` accepts as a URI with a host of its own. -/
theorem C73_truncated_counterexample : ∃ p q : Parts SV, split arm ⟨4096, b! "http://good.example.evil.test/"⟩ = .ok (some p) ∧
    composeString ⟨true, some 19, true, true⟩ p = some (b! "http://good.example") ∧
    split arm ⟨8192, b! "http://good.example"⟩ = .ok (some q) ∧ (q.authority.map fun a => a.host.chars) = some (b! "good.example") ∧
    (p.authority.map fun a => a.host.chars) = some (b! "good.example.evil.test") := by
  refine ⟨⟨some ⟨4096, b! "http"⟩, some ⟨none, ⟨4103, b! "good.example.evil.test"⟩, none⟩, ⟨true, [⟨4126, []⟩]⟩, none, none⟩,
    ⟨some ⟨8192, b! "http"⟩, some ⟨none, ⟨8199, b! "good.example"⟩, none⟩, ⟨false, []⟩, none, none⟩, ?_, ?_, ?_, ?_, ?_⟩ <;> decide +kernel

/-! ### Concrete cases -/

/-- A value, a device with room for five characters, and a stream with a width. -/
def Stream.sample : Parts SV := ⟨some ⟨4096, b! "s"⟩, none, ⟨true, [⟨4099, b! "a"⟩]⟩, some ⟨4101, b! "q"⟩, none⟩
example : (Stream.compose true Stream.sample (fresh none)).toOption.map (·.out) = some (b! "s:/a?q") := by decide +kernel
example : (Stream.compose true Stream.sample (fresh (some 5))).toOption.map (fun o => (o.out, o.good)) = some (b! "s:/a?", false) := by decide +kernel
example : (Stream.compose true Stream.sample { fresh (some 5) with badThrows := true }).toOption = none := by decide +kernel
example : (Stream.compose true Stream.sample { fresh none with width := 4 }).toOption.map (fun o => (o.out, o.width)) = some (b! "   s:/a?q", 0) := by decide +kernel
example : (Stream.compose true Stream.sample { fresh none with width := 4, left := true, fill := 0x2A }).toOption.map (·.out) = some (b! "s***:/a?q") := by decide +kernel

end Verif
