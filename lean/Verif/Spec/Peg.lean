import Verif.Model.Base

/-!
# Specification: what a grammar written with the rule combinators means

`G α` is a grammar expression; `α` names the accept functions attached to it.  `G.Lang` is its
meaning in the sense of ABNF (RFC 5234): which texts, with which accept functions called with
which texts, in order.  `G.parse` is its meaning as a parser: ordered choice and greedy
repetition.  `G.built` is the same as built, with the repetition counter of 32 bits.
-/

namespace Verif

/-- Grammar expressions. -/
inductive G (α : Type)
  /-- one character of a class -/
  | chr (f : UInt8 → Bool)
  /-- `g h` -/
  | seq (g h : G α)
  /-- `g / h` -/
  | alt (g h : G α)
  /-- `[ g ]` -/
  | opt (g : G α)
  /-- `<min>*<max>g`; the bounds are of type `unsigned` and the largest `max` means no bound -/
  | star (min max : Nat) (g : G α)
  /-- `g`, calling the accept function `x` with the text matched -/
  | act (x : α) (g : G α)

variable {α : Type}

/-- The default of the upper bound of a repetition, "infinity" (rule.hpp:141). -/
def unlimited : Nat := 2 ^ 32 - 1

/-- Calls of accept functions with their argument. -/
abbrev Calls (α : Type) := List (α × Str)

/-- The texts of a grammar expression and the calls they cause. -/
inductive G.Lang : G α → Str → Calls α → Prop
  | chr {f c} : f c = true → Lang (.chr f) [c] []
  | seq {g h u a v b} : Lang g u a → Lang h v b → Lang (.seq g h) (u ++ v) (a ++ b)
  | altL {g h u a} : Lang g u a → Lang (.alt g h) u a
  | altR {g h u a} : Lang h u a → Lang (.alt g h) u a
  | optNone {g} : Lang (.opt g) [] []
  | optSome {g u a} : Lang g u a → Lang (.opt g) u a
  | star {min max g} (es : List (Str × Calls α)) : (∀ e ∈ es, Lang g e.1 e.2) → min ≤ es.length → (es.length ≤ max ∨ max = unlimited) →
      Lang (.star min max g) (es.map Prod.fst).flatten (es.map Prod.snd).flatten
  | act {x g u a} : Lang g u a → Lang (.act x g) u (a ++ [(x, u)])

/-- Match as often as possible, at most `n` times: the matches and the rest. -/
def greedy (p : Str → Option (Str × Calls α × Str)) : Nat → Str → List (Str × Calls α) × Str
  | 0, s => ([], s)
  | n + 1, s =>
      match p s with
      | none => ([], s)
      | some (u, a, v) => let r := greedy p n v; ((u, a) :: r.1, r.2)

/-- The parser: matched text, calls, and rest. -/
def G.parse : G α → Str → Option (Str × Calls α × Str)
  | .chr f, s => match s with
      | [] => none
      | c :: v => if f c then some ([c], [], v) else none
  | .seq g h, s => match g.parse s with
      | none => none
      | some (u, a, v) => match h.parse v with
          | none => none
          | some (u', a', v') => some (u ++ u', a ++ a', v')
  | .alt g h, s => match g.parse s with
      | some r => some r
      | none => h.parse s
  | .opt g, s => match g.parse s with
      | some r => some r
      | none => some ([], [], s)
  | .star min max g, s =>
      let r := greedy g.parse (if max = unlimited then s.length else max) s
      if r.1.length < min then none
      else some ((r.1.map Prod.fst).flatten, (r.1.map Prod.snd).flatten, r.2)
  | .act x g, s => match g.parse s with
      | none => none
      | some (u, a, v) => some (u, a ++ [(x, u)], v)

/-! ### As built

The result of a parser that may fail to return: `none` if it does not, else what it answers. -/

/-- Match as often as possible, at most `n` times. -/
def greedyB (p : Str → Option (Option (Str × Calls α × Str))) : Nat → Str → Option (List (Str × Calls α) × Str)
  | 0, s => some ([], s)
  | n + 1, s =>
      match p s with
      | none => none
      | some none => some ([], s)
      | some (some (u, a, v)) => (greedyB p n v).map fun r => ((u, a) :: r.1, r.2)

/-- Match as often as possible; a match of the empty text would be repeated for ever.  The first argument is larger than
the number of matches. -/
def forever (p : Str → Option (Option (Str × Calls α × Str))) : Nat → Str → Option (List (Str × Calls α) × Str)
  | 0, _ => none
  | n + 1, s =>
      match p s with
      | none => none
      | some none => some ([], s)
      | some (some ([], _, _)) => none
      | some (some (u, a, v)) => (forever p n v).map fun r => ((u, a) :: r.1, r.2)

/-- The matches and the rest, if enough were counted. -/
def counted (min count : Nat) (r : List (Str × Calls α) × Str) : Option (Str × Calls α × Str) :=
  if count < min then none else some ((r.1.map Prod.fst).flatten, (r.1.map Prod.snd).flatten, r.2)

/-- The parser as built.  A repetition without upper bound counts modulo 2^32, and does not end if a repetition matches
nothing; one with an upper bound counts the match that would exceed it. -/
def G.built : G α → Str → Option (Option (Str × Calls α × Str))
  | .chr f, s => match s with
      | [] => some none
      | c :: v => if f c then some (some ([c], [], v)) else some none
  | .seq g h, s => match g.built s with
      | none => none
      | some none => some none
      | some (some (u, a, v)) => match h.built v with
          | none => none
          | some none => some none
          | some (some (u', a', v')) => some (some (u ++ u', a ++ a', v'))
  | .alt g h, s => match g.built s with
      | none => none
      | some none => h.built s
      | some (some r) => some (some r)
  | .opt g, s => match g.built s with
      | none => none
      | some none => some (some ([], [], s))
      | some (some r) => some (some r)
  | .star min max g, s =>
      if max = unlimited then (forever g.built (s.length + 1) s).map fun r => counted min (r.1.length % 2 ^ 32) r
      else match greedyB g.built max s with
        | none => none
        | some r =>
            if r.1.length < max then some (counted min r.1.length r)
            else (g.built r.2).map fun more => counted min (if more.isSome then max + 1 else max) r
  | .act x g, s => match g.built s with
      | none => none
      | some none => some none
      | some (some (u, a, v)) => some (some (u, a ++ [(x, u)], v))

/-- Can the expression match the empty text? -/
def G.nullable : G α → Bool
  | .chr _ => false
  | .seq g h => g.nullable && h.nullable
  | .alt g h => g.nullable || h.nullable
  | .opt _ => true
  | .star min _ g => min == 0 || g.nullable
  | .act _ g => g.nullable

/-- The bounds of repetitions are values of the type `unsigned`. -/
def G.Uints : G α → Prop
  | .chr _ => True
  | .seq g h => g.Uints ∧ h.Uints
  | .alt g h => g.Uints ∧ h.Uints
  | .opt g => g.Uints
  | .star min max g => min < 2 ^ 32 ∧ max < 2 ^ 32 ∧ g.Uints
  | .act _ g => g.Uints

/-- No lower bound exceeds its upper bound. -/
def G.Ordered : G α → Prop
  | .chr _ => True
  | .seq g h => g.Ordered ∧ h.Ordered
  | .alt g h => g.Ordered ∧ h.Ordered
  | .opt g => g.Ordered
  | .star min max g => min ≤ max ∧ g.Ordered
  | .act _ g => g.Ordered

/-- What is repeated without upper bound is not nullable. -/
def G.Productive : G α → Prop
  | .chr _ => True
  | .seq g h => g.Productive ∧ h.Productive
  | .alt g h => g.Productive ∧ h.Productive
  | .opt g => g.Productive
  | .star _ max g => (max = unlimited → g.nullable = false) ∧ g.Productive
  | .act _ g => g.Productive

/-- Repetitions without upper bound have no lower bound either. -/
def G.Uncounted : G α → Prop
  | .chr _ => True
  | .seq g h => g.Uncounted ∧ h.Uncounted
  | .alt g h => g.Uncounted ∧ h.Uncounted
  | .opt g => g.Uncounted
  | .star min max g => (max = unlimited → min = 0) ∧ g.Uncounted
  | .act _ g => g.Uncounted

end Verif
