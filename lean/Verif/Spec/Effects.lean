import Verif.Model.Effects

/-!
# Specification: when functions given to a rule are called

`Matches m s t xs s' t'`: `m` is called on `t`, on what its match left of it, and so on; all these calls match, `xs` are their results, and they
take the state from `s` to `s'` and the text to `t'`.
-/

namespace Verif.Spec
open Verif.Eff

variable {σ ε α : Type}

/-- The text without its first `n` characters. -/
def after (t : SV) (n : Nat) : SV := ⟨t.ptr + n, t.chars.drop n⟩

inductive Matches (m : Eff.Matcher σ ε α) : σ → SV → List (SV × Acceptors α) → σ → SV → Prop
  | nil {s t} : Matches m s t [] s t
  | cons {s s1 s2 t t' hd a xs} : m ⟨some t, []⟩ s = .ok (.ok (some (hd, a)), s1) → hd.chars.length ≤ t.chars.length →
      Matches m s1 (after t hd.chars.length) xs s2 t' → Matches m s t ((hd, a) :: xs) s2 t'

/-- `Misses ms s t s'`: each of `ms` is called on `t`, in order, and none matches. -/
inductive Misses : List (Eff.Matcher σ ε α) → σ → SV → σ → Prop
  | nil {s t} : Misses [] s t s
  | cons {m ms s s1 s2 t} : m ⟨some t, []⟩ s = .ok (.ok none, s1) → Misses ms s1 t s2 → Misses (m :: ms) s t s2

/-- `Runs run acc s s'`: the actions are run in order, each on its text, and none throws. -/
inductive Runs (run : α → SV → Eff.E σ ε Unit) : Acceptors α → σ → σ → Prop
  | nil {s} : Runs run [] s s
  | cons {a v acc s s1 s2} : run a v s = .ok (.ok (), s1) → Runs run acc s1 s2 → Runs run ((a, v) :: acc) s s2

end Verif.Spec
