import Verif.Proofs.Peg
import Verif.Spec.Peg

/-!
# Properties C10 and C11: the rule combinators, for every grammar written with them
-/

namespace Verif

set_option linter.unusedSimpArgs false

variable {α : Type}

/-- The match function a user of the class writes for a grammar expression. -/
def G.toMatcher : G α → Matcher α
  | .chr f => Rule.singleCharP fun c => .ok (f c)
  | .seq g h => fun r => (Rule.concat g.toMatcher r >>= Rule.concat h.toMatcher) >>= Rule.matched r
  | .alt g h => fun r => Rule.alternative [g.toMatcher, h.toMatcher] r >>= Rule.matched r
  | .opt g => fun r => Rule.optional g.toMatcher r >>= Rule.matched r
  | .star min max g => fun r => Rule.star g.toMatcher min max r >>= Rule.matched r
  | .act x g => fun r => Rule.concatA g.toMatcher x r >>= Rule.matched r

/-! ### The parser of the specification -/

theorem greedy_spec (p : Str → Option (Str × Calls α × Str)) (hp : ∀ s u a v, p s = some (u, a, v) → s = u ++ v) :
    ∀ n s, s = ((greedy p n s).1.map Prod.fst).flatten ++ (greedy p n s).2 ∧ (greedy p n s).1.length ≤ n := by
  intro n
  induction n with
  | zero => intro s; simp [greedy]
  | succ n ih =>
    intro s
    simp only [greedy]
    cases h : p s with
    | none => simp
    | some y =>
      obtain ⟨u, a, v⟩ := y
      have h1 := hp _ _ _ _ h
      obtain ⟨h2, h3⟩ := ih v
      refine ⟨?_, by simp only [List.length_cons]; omega⟩
      simp only [List.map_cons, List.flatten_cons, List.append_assoc, ← h2, ← h1]

theorem greedy_mem (p : Str → Option (Str × Calls α × Str)) : ∀ n s, ∀ e ∈ (greedy p n s).1, ∃ w v, p w = some (e.1, e.2, v) := by
  intro n
  induction n with
  | zero => intro s; simp [greedy]
  | succ n ih =>
    intro s e he
    simp only [greedy] at he
    cases h : p s with
    | none => simp [h] at he
    | some y =>
      obtain ⟨u, a, v⟩ := y
      simp only [h, List.mem_cons] at he
      rcases he with rfl | he
      · exact ⟨s, v, h⟩
      · exact ih v e he

theorem G.parse_append (g : G α) : ∀ s u a v, g.parse s = some (u, a, v) → s = u ++ v := by
  induction g with
  | chr f =>
    intro s u a v h
    cases s with
    | nil => simp [G.parse] at h
    | cons c s => simp only [G.parse] at h; split at h <;> simp at h; obtain ⟨rfl, -, rfl⟩ := h; rfl
  | seq g h ihg ihh =>
    intro s u a v e
    simp only [G.parse] at e
    cases h1 : g.parse s with
    | none => simp [h1] at e
    | some y =>
      obtain ⟨u1, a1, v1⟩ := y
      simp only [h1] at e
      cases h2 : h.parse v1 with
      | none => simp [h2] at e
      | some z =>
        obtain ⟨u2, a2, v2⟩ := z
        simp only [h2, Option.some.injEq, Prod.mk.injEq] at e
        rw [ihg _ _ _ _ h1, ihh _ _ _ _ h2, ← e.1, ← e.2.2, List.append_assoc]
  | alt g h ihg ihh =>
    intro s u a v e
    simp only [G.parse] at e
    cases h1 : g.parse s with
    | none => simp [h1] at e; exact ihh _ _ _ _ e
    | some y => simp [h1] at e; subst e; exact ihg _ _ _ _ h1
  | opt g ihg =>
    intro s u a v e
    simp only [G.parse] at e
    cases h1 : g.parse s with
    | none => simp only [h1, Option.some.injEq, Prod.mk.injEq] at e; rw [← e.1, ← e.2.2]; rfl
    | some y => simp [h1] at e; subst e; exact ihg _ _ _ _ h1
  | star min max g ihg =>
    intro s u a v e
    simp only [G.parse] at e
    generalize (if max = unlimited then s.length else max) = n at e
    split at e
    · simp at e
    · simp only [Option.some.injEq, Prod.mk.injEq] at e
      have := (greedy_spec g.parse ihg n s).1
      rw [e.1, e.2.2] at this
      exact this
  | act x g ihg =>
    intro s u a v e
    simp only [G.parse] at e
    cases h1 : g.parse s with
    | none => simp [h1] at e
    | some y =>
      obtain ⟨u1, a1, v1⟩ := y
      simp only [h1, Option.some.injEq, Prod.mk.injEq] at e
      rw [← e.1, ← e.2.2]
      exact ihg _ _ _ _ h1

/-- C11: what the parser matches is in the ABNF language of the expression: repetitions between
their bounds, alternatives one of the two, and so on, with the calls the expression attaches. -/
theorem C11_parse_in_language (g : G α) : ∀ s u a v, g.parse s = some (u, a, v) → s = u ++ v ∧ g.Lang u a := by
  intro s u a v h0
  refine ⟨g.parse_append s u a v h0, ?_⟩
  induction g generalizing s u a v with
  | chr f =>
    cases s with
    | nil => simp [G.parse] at h0
    | cons c s =>
      simp only [G.parse] at h0
      split at h0
      · simp only [Option.some.injEq, Prod.mk.injEq] at h0; rw [← h0.1, ← h0.2.1]; exact .chr ‹_›
      · simp at h0
  | seq g h ihg ihh =>
    simp only [G.parse] at h0
    cases h1 : g.parse s with
    | none => simp [h1] at h0
    | some y =>
      obtain ⟨u1, a1, v1⟩ := y
      simp only [h1] at h0
      cases h2 : h.parse v1 with
      | none => simp [h2] at h0
      | some z =>
        obtain ⟨u2, a2, v2⟩ := z
        simp only [h2, Option.some.injEq, Prod.mk.injEq] at h0
        rw [← h0.1, ← h0.2.1]
        exact .seq (ihg _ _ _ _ h1) (ihh _ _ _ _ h2)
  | alt g h ihg ihh =>
    simp only [G.parse] at h0
    cases h1 : g.parse s with
    | none => simp [h1] at h0; exact .altR (ihh _ _ _ _ h0)
    | some y => simp [h1] at h0; subst h0; exact .altL (ihg _ _ _ _ h1)
  | opt g ihg =>
    simp only [G.parse] at h0
    cases h1 : g.parse s with
    | none => simp only [h1, Option.some.injEq, Prod.mk.injEq] at h0; rw [← h0.1, ← h0.2.1]; exact .optNone
    | some y => simp [h1] at h0; subst h0; exact .optSome (ihg _ _ _ _ h1)
  | star min max g ihg =>
    simp only [G.parse] at h0
    have hb : ∀ n, n = (if max = unlimited then s.length else max) → (greedy g.parse n s).1.length ≤ max ∨ max = unlimited := by
      intro n hn
      by_cases hm : max = unlimited
      · exact Or.inr hm
      · rw [if_neg hm] at hn
        exact Or.inl (hn ▸ (greedy_spec g.parse g.parse_append n s).2)
    replace hb := hb _ rfl
    generalize (if max = unlimited then s.length else max) = n at h0 hb
    split at h0
    · simp at h0
    · simp only [Option.some.injEq, Prod.mk.injEq] at h0
      rw [← h0.1, ← h0.2.1]
      refine .star _ ?_ (by omega) hb
      intro e he
      obtain ⟨w, v', h⟩ := greedy_mem _ _ _ e he
      exact ihg _ _ _ _ h
  | act x g ihg =>
    simp only [G.parse] at h0
    cases h1 : g.parse s with
    | none => simp [h1] at h0
    | some y =>
      obtain ⟨u1, a1, v1⟩ := y
      simp only [h1, Option.some.injEq, Prod.mk.injEq] at h0
      rw [← h0.1, ← h0.2.1]
      exact .act (ihg _ _ _ _ h1)

theorem G.lang_nonnull (g : G α) (u : Str) (a : Calls α) (h : g.Lang u a) (hn : g.nullable = false) : u ≠ [] := by
  induction h with
  | chr => simp
  | seq _ _ ih1 ih2 =>
    simp only [G.nullable, Bool.and_eq_false_iff] at hn
    rcases hn with hn | hn
    · simp [ih1 hn]
    · simp [ih2 hn]
  | altL _ ih => simp only [G.nullable, Bool.or_eq_false_iff] at hn; exact ih hn.1
  | altR _ ih => simp only [G.nullable, Bool.or_eq_false_iff] at hn; exact ih hn.2
  | optNone => simp [G.nullable] at hn
  | optSome _ ih => simp [G.nullable] at hn
  | @star min max g es _ h1 h2 ih =>
    simp only [G.nullable, Bool.or_eq_false_iff, beq_eq_false_iff_ne] at hn
    cases es with
    | nil => simp at h1; exact absurd h1 hn.1
    | cons e es => simp [ih e (by simp) hn.2]
  | act _ ih => exact ih hn

/-! ### The code's match functions -/

/-- The view `v` is inside `sv`. -/
def Inside (v sv : SV) : Prop := ∃ x y, sv.chars = x ++ v.chars ++ y ∧ v.ptr = sv.ptr + x.length

/-- What a match function does, given the text `sv`: it does not return; or reports that it did not match; or returns the
prefix matched, as a view of the start of the text, and the accept calls, each with a view inside the text. -/
def Does (sv : SV) (res : M (Matched α)) : Option (Option (Str × Calls α × Str)) → Prop
  | none => res = .error .diverge
  | some none => res = .ok none
  | some (some (u, calls, v)) => sv.chars = u ++ v ∧ ∃ acc, res = .ok (some (⟨sv.ptr, u⟩, acc)) ∧
      acc.map (fun a => (a.1, a.2.chars)) = calls ∧ ∀ a ∈ acc, Inside a.2 sv

theorem inside_left {p : Nat} {u v : Str} {w : SV} (h : Inside w ⟨p, u⟩) : Inside w ⟨p, u ++ v⟩ := by
  obtain ⟨x, y, h1, h2⟩ := h
  simp only at h1
  exact ⟨x, y ++ v, by simp [h1], h2⟩

theorem inside_right {p : Nat} {u v : Str} {w : SV} (h : Inside w ⟨p + u.length, v⟩) : Inside w ⟨p, u ++ v⟩ := by
  obtain ⟨x, y, h1, h2⟩ := h
  simp only at h1 h2
  exact ⟨u ++ x, y, by simp [h1], by simp only [List.length_append]; omega⟩

theorem inside_head (p : Nat) (u v : Str) : Inside ⟨p, u⟩ ⟨p, u ++ v⟩ := ⟨[], v, by simp, rfl⟩

/-- `concat_impl` after a text is matched. -/
theorem concat_some {m : Matcher α} {p : Nat} {u v : Str} {acc acc0 : Acceptors α} (x : Option α) (o : Bool)
    (h : m (Rule.ofSV ⟨p, u ++ v⟩) = .ok (some (⟨p, u⟩, acc))) :
    Rule.concatImpl m x o ⟨some ⟨p, u ++ v⟩, acc0⟩ = .ok ⟨some ⟨p + u.length, v⟩, acc0 ++ (acc ++ (x.map fun a => (a, ⟨p, u⟩)).toList)⟩ := by
  cases x <;>
  simp [Rule.concatImpl, h, bind, Except.bind, Rule.joinMatched, SV.substrFrom, SV.size, pure, Except.pure]

theorem concat_none {m : Matcher α} {sv : SV} {acc0 : Acceptors α} (x : Option α) (o : Bool) (h : m (Rule.ofSV sv) = .ok none) :
    Rule.concatImpl m x o ⟨some sv, acc0⟩ = .ok (if o then ⟨some sv, acc0⟩ else Rule.failed) := by
  cases o <;> simp [Rule.concatImpl, h, bind, Except.bind]

theorem concat_error {m : Matcher α} {sv : SV} {acc0 : Acceptors α} (x : Option α) (o : Bool) {f : Fault} (h : m (Rule.ofSV sv) = .error f) :
    Rule.concatImpl m x o ⟨some sv, acc0⟩ = .error f := by
  simp [Rule.concatImpl, h, bind, Except.bind]

/-- `matched` after some of the text is matched. -/
theorem matched_some {p p' : Nat} {u v : Str} {acc acc0 : Acceptors α} :
    Rule.matched ⟨some ⟨p, u ++ v⟩, acc0⟩ ⟨some ⟨p', v⟩, acc⟩ = .ok (some (⟨p, u⟩, acc)) := by
  simp [Rule.matched, SV.size, SV.substr, bind, Except.bind, pure, Except.pure]

theorem removePrefix_append (q : Nat) (u v : Str) : SV.removePrefix ⟨q, u ++ v⟩ (SV.size ⟨q, u⟩) = .ok ⟨q + u.length, v⟩ := by
  simp [SV.removePrefix, SV.substrFrom, SV.size]

/-- One more repetition. -/
theorem starLoop_next {m : Matcher α} {q : Nat} {u v : Str} {a : Acceptors α} (h : m (Rule.ofSV ⟨q, u ++ v⟩) = .ok (some (⟨q, u⟩, a)))
    (max fuel count : Nat) (hc : ¬ (count + 1) % uintMod > max) (l : Nat) (acc : Acceptors α) :
    Rule.starLoop m max (fuel + 1) count ⟨q, u ++ v⟩ l acc =
      Rule.starLoop m max fuel ((count + 1) % uintMod) ⟨q + u.length, v⟩ (l + u.length) (acc ++ a) := by
  rw [Rule.starLoop]
  simp only [h, bind, Except.bind, hc, if_false, removePrefix_append]
  rfl

theorem join_matched {p : Nat} {u v : Str} {acc acc0 : Acceptors α} :
    Rule.joinMatched ⟨some ⟨p, u ++ v⟩, acc0⟩ (⟨p, u⟩, acc) = .ok ⟨some ⟨p + u.length, v⟩, acc0 ++ acc⟩ := by
  simp [Rule.joinMatched, SV.substrFrom, SV.size, bind, Except.bind, pure, Except.pure]

theorem matched_failed {inp : Rule α} : Rule.matched inp Rule.failed = .ok none := rfl

/-- A repetition without upper bound that matches nothing at some point. -/
theorem starLoop_stuck {m : Matcher α} {str : SV} {a : Acceptors α} (h : m (Rule.ofSV str) = .ok (some (⟨str.ptr, []⟩, a))) :
    ∀ fuel count length acc, Rule.starLoop m uintMax fuel count str length acc = .error .diverge := by
  intro fuel
  induction fuel with
  | zero => intros; rfl
  | succ fuel ih =>
    intro count length acc
    have hc : ¬ (count + 1) % uintMod > uintMax := by
      have := Nat.mod_lt (count + 1) (show uintMod > 0 by decide)
      unfold uintMod uintMax at *
      omega
    obtain ⟨q, cs⟩ := str
    have := starLoop_next (u := []) (v := cs) h uintMax fuel count hc length acc
    simp only [List.nil_append] at this
    rw [this]
    exact ih _ _ _

/-- The views of the accept calls of a repetition. -/
theorem starLoop_forever {m : Matcher α} {p : Str → Option (Option (Str × Calls α × Str))} (hm : ∀ sv : SV, Does sv (m (Rule.ofSV sv)) (p sv.chars)) :
    ∀ (n fuel count : Nat) (str : SV) (length : Nat) (acc : Acceptors α), str.chars.length < n → str.chars.length < fuel →
      match forever p n str.chars with
      | none => Rule.starLoop m uintMax fuel count str length acc = .error .diverge
      | some r => ∃ acc', Rule.starLoop m uintMax fuel count str length acc =
          .ok (if r.1.length = 0 then count else (count + r.1.length) % uintMod, length + ((r.1.map Prod.fst).flatten).length, acc ++ acc') ∧
          acc'.map (fun a => (a.1, a.2.chars)) = (r.1.map Prod.snd).flatten ∧ (∀ a ∈ acc', Inside a.2 str) ∧
          str.chars = (r.1.map Prod.fst).flatten ++ r.2 := by
  intro n
  induction n with
  | zero => intro _ _ _ _ _ h; omega
  | succ n ih =>
    intro fuel count str length acc hn hf
    obtain ⟨fuel, rfl⟩ : ∃ k, fuel = k + 1 := ⟨fuel - 1, by omega⟩
    have h0 := hm str
    simp only [forever]
    cases hp : p str.chars with
    | none =>
      rw [hp] at h0
      simp only [Does] at h0
      simp only [Rule.starLoop, h0, bind, Except.bind]
    | some o =>
      cases o with
      | none =>
        rw [hp] at h0
        simp only [Does] at h0
        exact ⟨[], by simp [Rule.starLoop, h0, bind, Except.bind]⟩
      | some y =>
        obtain ⟨u, calls, v⟩ := y
        rw [hp] at h0
        obtain ⟨hc, a, h1, h2, h3⟩ := h0
        cases u with
        | nil => exact starLoop_stuck h1 _ _ _ _
        | cons c u =>
          simp only
          obtain ⟨q, cs⟩ := str
          simp only at hc hn hf h1
          subst hc
          have hgt : ¬ (count + 1) % uintMod > uintMax := by
            have := Nat.mod_lt (count + 1) (show uintMod > 0 by decide)
            unfold uintMod uintMax at *
            omega
          have hs : ∀ l acc, Rule.starLoop m uintMax (fuel + 1) count ⟨q, (c :: u) ++ v⟩ l acc =
              Rule.starLoop m uintMax fuel ((count + 1) % uintMod) ⟨q + (c :: u).length, v⟩ (l + (c :: u).length) (acc ++ a) := by
            intro l acc
            exact starLoop_next h1 uintMax fuel count hgt l acc
          have hlen : ((c :: u) ++ v).length = u.length + 1 + v.length := by simp; omega
          have := ih fuel ((count + 1) % uintMod) ⟨q + (c :: u).length, v⟩ (length + (c :: u).length) (acc ++ a) (by simp only; omega) (by simp only; omega)
          simp only at this
          cases hr : forever p n v with
          | none =>
            rw [hr] at this
            simp only [Option.map_none]
            rw [hs]; exact this
          | some r =>
            rw [hr] at this
            obtain ⟨acc', k1, k2, k3, k4⟩ := this
            simp only [Option.map_some]
            refine ⟨a ++ acc', ?_, ?_, ?_, ?_⟩
            · rw [hs, k1]
              congr 2
              · have e : ((c :: u, calls) :: r.1).length ≠ 0 := by simp
                rw [if_neg e]
                split
                · rename_i h; simp [h]
                · simp only [List.length_cons, Nat.mod_add_mod]
                  congr 1; omega
              · congr 1
                · simp; omega
                · rw [List.append_assoc]
            · simp [h2, k2]
            · intro x hx
              rcases List.mem_append.1 hx with hx | hx
              · exact h3 x hx
              · exact inside_right (k3 x hx)
            · simp only [List.map_cons, List.flatten_cons, List.append_assoc]
              rw [← k4]

/-- A repetition with an upper bound. -/
theorem starLoop_bounded {m : Matcher α} {p : Str → Option (Option (Str × Calls α × Str))} (hm : ∀ sv : SV, Does sv (m (Rule.ofSV sv)) (p sv.chars))
    (max : Nat) (hmax : max < uintMax) : ∀ (k fuel count : Nat) (str : SV) (length : Nat) (acc : Acceptors α), count + k = max → k < fuel →
      match greedyB p k str.chars with
      | none => Rule.starLoop m max fuel count str length acc = .error .diverge
      | some r =>
          str.chars = (r.1.map Prod.fst).flatten ++ r.2 ∧ r.1.length ≤ k ∧
          ((r.1.length = k ∧ p r.2 = none) → Rule.starLoop m max fuel count str length acc = .error .diverge) ∧
          (¬ (r.1.length = k ∧ p r.2 = none) → ∃ c acc', Rule.starLoop m max fuel count str length acc =
              .ok (c, length + ((r.1.map Prod.fst).flatten).length, acc ++ acc') ∧
            (r.1.length = k ∧ p r.2 ≠ some none → c = max + 1) ∧ (¬ (r.1.length = k ∧ p r.2 ≠ some none) → c = count + r.1.length) ∧
            acc'.map (fun a => (a.1, a.2.chars)) = (r.1.map Prod.snd).flatten ∧ (∀ a ∈ acc', Inside a.2 str)) := by
  intro k
  induction k with
  | zero =>
    intro fuel count str length acc hk hf
    obtain ⟨fuel, rfl⟩ : ∃ k, fuel = k + 1 := ⟨fuel - 1, by omega⟩
    have h0 := hm str
    simp only [greedyB]
    refine ⟨by simp, by simp, ?_⟩
    cases hp : p str.chars with
    | none =>
      rw [hp] at h0
      simp only [Does] at h0
      simp [Rule.starLoop, h0, bind, Except.bind]
    | some o =>
      cases o with
      | none =>
        rw [hp] at h0
        simp only [Does] at h0
        simp [Rule.starLoop, h0, bind, Except.bind]
        exact ⟨_, [], ⟨rfl, rfl⟩, rfl, rfl, by simp⟩
      | some y =>
        obtain ⟨u, calls, v⟩ := y
        rw [hp] at h0
        obtain ⟨hc, a, h1, h2, h3⟩ := h0
        have hgt : (count + 1) % uintMod > max := by
          rw [Nat.mod_eq_of_lt (by unfold uintMax at hmax; unfold uintMod; omega)]
          omega
        have e : (count + 1) % uintMod = max + 1 := by
          rw [Nat.mod_eq_of_lt (by unfold uintMax at hmax; unfold uintMod; omega)]
          omega
        simp [Rule.starLoop, h1, bind, Except.bind, hgt, e]
        exact ⟨_, [], ⟨rfl, rfl⟩, rfl, rfl, by simp⟩
  | succ k ih =>
    intro fuel count str length acc hk hf
    obtain ⟨fuel, rfl⟩ : ∃ k, fuel = k + 1 := ⟨fuel - 1, by omega⟩
    have h0 := hm str
    simp only [greedyB]
    cases hp : p str.chars with
    | none =>
      rw [hp] at h0
      simp only [Does] at h0
      simp only [Rule.starLoop, h0, bind, Except.bind]
    | some o =>
      cases o with
      | none =>
        rw [hp] at h0
        simp only [Does] at h0
        simp [Rule.starLoop, h0, bind, Except.bind]
        exact ⟨_, [], ⟨rfl, rfl⟩, rfl, rfl, by simp⟩
      | some y =>
        obtain ⟨u, calls, v⟩ := y
        rw [hp] at h0
        obtain ⟨hc, a, h1, h2, h3⟩ := h0
        simp only
        obtain ⟨q, cs⟩ := str
        simp only at hc h1
        subst hc
        have e1 : (count + 1) % uintMod = count + 1 := Nat.mod_eq_of_lt (by unfold uintMax at hmax; unfold uintMod; omega)
        have hs : ∀ l acc, Rule.starLoop m max (fuel + 1) count ⟨q, u ++ v⟩ l acc =
            Rule.starLoop m max fuel (count + 1) ⟨q + u.length, v⟩ (l + u.length) (acc ++ a) := by
          intro l acc
          rw [starLoop_next h1 max fuel count (by rw [e1]; omega) l acc, e1]
        have := ih fuel (count + 1) ⟨q + u.length, v⟩ (length + u.length) (acc ++ a) (by omega) (by omega)
        simp only at this
        cases hr : greedyB p k v with
        | none =>
          rw [hr] at this
          simp only [Option.map_none]
          rw [hs]; exact this
        | some r =>
          rw [hr] at this
          simp only [Option.map_some]
          obtain ⟨k0, kl, k1⟩ := this
          refine ⟨by simp only [List.map_cons, List.flatten_cons, List.append_assoc]; rw [← k0], by simp only [List.length_cons]; omega, ?_⟩
          have hl : (((u, calls) :: r.1).length = k + 1) ↔ r.1.length = k := by simp
          simp only [hl]
          refine ⟨fun hx => by rw [hs]; exact k1.1 hx, fun hx => ?_⟩
          · obtain ⟨c, acc', j1, jc, jd, j2, j3⟩ := k1.2 hx
            refine ⟨c, a ++ acc', ?_, jc, fun h => by rw [jd h, List.length_cons]; omega, ?_, ?_⟩
            · rw [hs, j1]
              congr 2
              congr 1
              · simp; omega
              · rw [List.append_assoc]
            · simp [h2, j2]
            · intro x hx
              rcases List.mem_append.1 hx with hx | hx
              · exact h3 x hx
              · exact inside_right (j3 x hx)

/-- After the loop of a repetition. -/
theorem star_does {m : Matcher α} {p fuel max count : Nat} (min : Nat) {cs : Str} {r : List (Str × Calls α) × Str} {acc' : Acceptors α}
    (hf : fuel = cs.length + max + 2) (k4 : cs = (r.1.map Prod.fst).flatten ++ r.2)
    (h : Rule.starLoop m max fuel 0 ⟨p, cs⟩ 0 [] = .ok (count, 0 + ((r.1.map Prod.fst).flatten).length, [] ++ acc'))
    (h2 : acc'.map (fun a => (a.1, a.2.chars)) = (r.1.map Prod.snd).flatten) (h3 : ∀ a ∈ acc', Inside a.2 ⟨p, cs⟩) :
    Does ⟨p, cs⟩ (Rule.star m min max (Rule.ofSV ⟨p, cs⟩) >>= Rule.matched (Rule.ofSV ⟨p, cs⟩)) (some (counted min count r)) := by
  have e : Rule.star m min max (Rule.ofSV ⟨p, cs⟩) = (if count < min then .ok Rule.failed
      else .ok ⟨some ⟨p + ((r.1.map Prod.fst).flatten).length, r.2⟩, acc'⟩ : M (Rule α)) := by
    have hs : SV.substrFrom ⟨p, cs⟩ (0 + ((r.1.map Prod.fst).flatten).length) = .ok ⟨p + ((r.1.map Prod.fst).flatten).length, r.2⟩ := by
      rw [Nat.zero_add]
      conv => lhs; rw [k4]
      simp [SV.substrFrom, SV.size]
    have h' : Rule.starLoop m max ((SV.mk p cs).size + max + 2) 0 ⟨p, cs⟩ 0 [] = _ := hf ▸ h
    simp only [Rule.star, Rule.ofSV, h', bind, Except.bind, hs, pure, Except.pure, List.nil_append]
  rw [e]
  simp only [counted]
  by_cases hc : count < min
  · simp only [hc, if_true, bind, Except.bind]
    exact matched_failed
  · simp only [hc, if_false, bind, Except.bind]
    refine ⟨k4, acc', ?_, h2, h3⟩
    conv => lhs; rw [show cs = _ from k4]
    exact matched_some

theorem star_error {m : Matcher α} {p fuel max : Nat} (min : Nat) {cs : Str} (hf : fuel = cs.length + max + 2)
    (h : Rule.starLoop m max fuel 0 ⟨p, cs⟩ 0 [] = .error .diverge) :
    Rule.star m min max (Rule.ofSV ⟨p, cs⟩) >>= Rule.matched (Rule.ofSV ⟨p, cs⟩) = .error .diverge := by
  have h' : Rule.starLoop m max ((SV.mk p cs).size + max + 2) 0 ⟨p, cs⟩ 0 [] = _ := hf ▸ h
  simp only [Rule.star, Rule.ofSV, h', bind, Except.bind]

/-- **C11** in full.  Built from the combinators, the match function of any expression with bounds of type `unsigned` does on
every text what the parser as built does. -/
theorem C11_exact (g : G α) (hu : g.Uints) (sv : SV) : Does sv (g.toMatcher (Rule.ofSV sv)) (g.built sv.chars) := by
  induction g generalizing sv with
  | chr f =>
    obtain ⟨p, cs⟩ := sv
    cases cs with
    | nil => simp [G.built, G.toMatcher, Rule.singleCharP, Rule.ofSV, Does]
    | cons c v =>
      simp only [G.built]
      cases hf : f c with
      | false => simp [G.toMatcher, Rule.singleCharP, Rule.ofSV, Does, hf, bind, Except.bind, pure, Except.pure]
      | true =>
        simp only [G.toMatcher, Rule.singleCharP, Rule.ofSV, Does, hf, bind, Except.bind, pure, Except.pure, if_true]
        refine ⟨rfl, [], ?_, rfl, by simp⟩
        simp [SV.substr, SV.size]
  | seq g h ihg ihh =>
    have h1 := ihg hu.1 sv
    simp only [G.built]
    have ec : ∀ (m : Matcher α) r, Rule.concat m r = Rule.concatImpl m none false r := fun _ _ => rfl
    simp only [G.toMatcher, ec, bind]
    cases e1 : g.built sv.chars with
    | none =>
      rw [e1] at h1
      simp only [Rule.ofSV] at h1 ⊢
      rw [concat_error none false h1]
      rfl
    | some o =>
      cases o with
      | none =>
        rw [e1] at h1
        simp only [Rule.ofSV] at h1 ⊢
        rw [concat_none none false h1]
        rfl
      | some y =>
        obtain ⟨u, c, v⟩ := y
        rw [e1] at h1
        obtain ⟨hc, a, k1, k2, k3⟩ := h1
        obtain ⟨p, cs⟩ := sv
        simp only at hc k1
        subst hc
        have h2 := ihh hu.2 ⟨p + u.length, v⟩
        simp only at h2
        simp only [Rule.ofSV] at h2 k1 ⊢
        rw [concat_some none false k1]
        cases e2 : h.built v with
        | none =>
          rw [e2] at h2
          simp only [Except.bind, ec]
          rw [concat_error none false h2]
          rfl
        | some o =>
          cases o with
          | none =>
            rw [e2] at h2
            simp only [Except.bind, ec]
            rw [concat_none none false h2]
            rfl
          | some y =>
            obtain ⟨u2, c2, v2⟩ := y
            rw [e2] at h2
            obtain ⟨hc2, a2, j1, j2, j3⟩ := h2
            simp only at hc2 j1
            subst hc2
            simp only [Except.bind, ec]
            rw [concat_some none false j1]
            simp only
            refine ⟨by simp, [] ++ (a ++ [] ) ++ (a2 ++ []), ?_, ?_, ?_⟩
            · rw [← List.append_assoc u]
              exact matched_some
            · simp only [List.nil_append, List.append_nil, List.map_append, k2, j2]
            · intro x hx
              simp only [List.nil_append, List.append_nil, List.mem_append] at hx
              rcases hx with hx | hx
              · exact k3 x hx
              · exact inside_right (j3 x hx)
  | alt g h ihg ihh =>
    have h1 := ihg hu.1 sv
    simp only [G.built]
    cases e1 : g.built sv.chars with
    | none =>
      rw [e1] at h1
      simp only [Rule.ofSV, Does] at h1
      simp [G.toMatcher, Rule.alternative, Rule.ofSV, h1, bind, Except.bind, Does]
    | some o =>
      cases o with
      | none =>
        rw [e1] at h1
        simp only [Rule.ofSV, Does] at h1
        have h2 := ihh hu.2 sv
        simp only
        cases e2 : h.built sv.chars with
        | none =>
          rw [e2] at h2
          simp only [Rule.ofSV, Does] at h2
          simp [G.toMatcher, Rule.alternative, Rule.ofSV, h1, h2, bind, Except.bind, Does]
        | some o =>
          cases o with
          | none =>
            rw [e2] at h2
            simp only [Rule.ofSV, Does] at h2
            simp [G.toMatcher, Rule.alternative, Rule.ofSV, h1, h2, bind, Except.bind, Does, matched_failed]
          | some y =>
            obtain ⟨u, c, v⟩ := y
            rw [e2] at h2
            obtain ⟨hc, a, k1, k2, k3⟩ := h2
            obtain ⟨p, cs⟩ := sv
            simp only at hc k1
            subst hc
            simp only [Rule.ofSV] at k1
            refine ⟨rfl, a, ?_, k2, k3⟩
            simp only [G.toMatcher, Rule.alternative, Rule.ofSV, h1, k1, bind, Except.bind, join_matched]
            exact matched_some
      | some y =>
        obtain ⟨u, c, v⟩ := y
        rw [e1] at h1
        obtain ⟨hc, a, k1, k2, k3⟩ := h1
        obtain ⟨p, cs⟩ := sv
        simp only at hc k1
        subst hc
        simp only [Rule.ofSV] at k1
        refine ⟨rfl, a, ?_, k2, k3⟩
        simp only [G.toMatcher, Rule.alternative, Rule.ofSV, k1, bind, Except.bind, join_matched]
        exact matched_some
  | opt g ihg =>
    have h1 := ihg hu sv
    simp only [G.built]
    simp only [G.toMatcher, Rule.optional, Rule.optionalA, Rule.ofSV] at *
    cases e1 : g.built sv.chars with
    | none =>
      rw [e1] at h1
      simp only [Rule.ofSV, Does] at h1
      rw [concat_error none true h1]
      rfl
    | some o =>
      cases o with
      | none =>
        rw [e1] at h1
        simp only [Rule.ofSV, Does] at h1
        rw [concat_none none true h1]
        obtain ⟨p, cs⟩ := sv
        refine ⟨rfl, [], ?_, rfl, by simp⟩
        simp only [bind, Except.bind, if_true, Rule.joinRule, List.append_nil]
        exact matched_some (u := []) (v := cs)
      | some y =>
        obtain ⟨u, c, v⟩ := y
        rw [e1] at h1
        obtain ⟨hc, a, k1, k2, k3⟩ := h1
        obtain ⟨p, cs⟩ := sv
        simp only at hc k1
        subst hc
        rw [concat_some none true k1]
        refine ⟨rfl, a, ?_, k2, k3⟩
        simp only [bind, Except.bind, Rule.joinRule, List.nil_append, Option.map_none, Option.toList_none, List.append_nil]
        exact matched_some
  | star min max g ihg =>
    have hm : ∀ sv : SV, Does sv (g.toMatcher (Rule.ofSV sv)) (g.built sv.chars) := fun sv => ihg hu.2.2 sv
    obtain ⟨p, cs⟩ := sv
    simp only [G.built, G.toMatcher]
    by_cases hx : max = unlimited
    · rw [if_pos hx]
      have em : max = uintMax := hx
      obtain ⟨fuel, hfu⟩ : ∃ fuel, fuel = cs.length + max + 2 := ⟨_, rfl⟩
      have hf := starLoop_forever hm (cs.length + 1) fuel 0 ⟨p, cs⟩ 0 [] (by simp) (by simp only; omega)
      simp only at hf
      rw [← em] at hf
      cases e : forever g.built (cs.length + 1) cs with
      | none =>
        rw [e] at hf
        simp only at hf
        rw [star_error min hfu hf]
        rfl
      | some r =>
        rw [e] at hf
        obtain ⟨acc', k1, k2, k3, k4⟩ := hf
        have ec : (if r.1.length = 0 then 0 else (0 + r.1.length) % uintMod) = r.1.length % 2 ^ 32 := by
          split
          · rename_i h; rw [h]
          · rw [Nat.zero_add]; rfl
        rw [ec] at k1
        exact star_does min hfu k4 k1 k2 k3
    · rw [if_neg hx]
      have hlt : max < uintMax := by
        have := hu.2.1
        unfold unlimited at hx
        unfold uintMax
        omega
      obtain ⟨fuel, hfu⟩ : ∃ fuel, fuel = cs.length + max + 2 := ⟨_, rfl⟩
      have hf := starLoop_bounded hm max hlt max fuel 0 ⟨p, cs⟩ 0 [] (by omega) (by omega)
      simp only at hf
      cases e : greedyB g.built max cs with
      | none =>
        rw [e] at hf
        simp only at hf
        rw [star_error min hfu hf]
        rfl
      | some r =>
        rw [e] at hf
        obtain ⟨k4, kl, k1⟩ := hf
        simp only
        by_cases hlt' : r.1.length < max
        · rw [if_pos hlt']
          obtain ⟨c, acc', j1, jc, jd, j2, j3⟩ := k1.2 (fun h => by have := h.1; omega)
          have := jd (fun h => by have := h.1; omega)
          rw [Nat.zero_add] at this
          rw [this] at j1
          exact star_does min hfu k4 j1 j2 j3
        · rw [if_neg hlt']
          have hl : r.1.length = max := by omega
          cases em : g.built r.2 with
          | none =>
            rw [star_error min hfu (k1.1 ⟨hl, em⟩)]
            rfl
          | some more =>
            obtain ⟨c, acc', j1, jc, jd, j2, j3⟩ := k1.2 (fun h => by rw [em] at h; simp at h)
            have hc : c = if more.isSome then max + 1 else max := by
              cases more with
              | none => rw [jd (fun h => h.2 em)]; simp [hl]
              | some y => rw [jc ⟨hl, by rw [em]; simp⟩]; simp
            rw [hc] at j1
            exact star_does min hfu k4 j1 j2 j3
  | act x g ihg =>
    have h1 := ihg hu sv
    simp only [G.built]
    simp only [G.toMatcher, Rule.concatA, bind]
    simp only [Rule.ofSV] at h1 ⊢
    cases e1 : g.built sv.chars with
    | none =>
      rw [e1] at h1
      simp only [Does] at h1
      rw [concat_error (some x) false h1]
      rfl
    | some o =>
      cases o with
      | none =>
        rw [e1] at h1
        simp only [Does] at h1
        rw [concat_none (some x) false h1]
        rfl
      | some y =>
        obtain ⟨u, c, v⟩ := y
        rw [e1] at h1
        obtain ⟨hc, a, k1, k2, k3⟩ := h1
        obtain ⟨p, cs⟩ := sv
        simp only at hc k1
        subst hc
        rw [concat_some (some x) false k1]
        refine ⟨rfl, a ++ [(x, ⟨p, u⟩)], ?_, ?_, ?_⟩
        · simp only [Except.bind, List.nil_append, Option.map_some, Option.toList_some]
          exact matched_some
        · simp [k2]
        · intro y hy
          rcases List.mem_append.1 hy with hy | hy
          · exact k3 y hy
          · simp at hy; subst hy; exact inside_head p u v


theorem G.built_append (g : G α) (hu : g.Uints) {s u v : Str} {a : Calls α} (h : g.built s = some (some (u, a, v))) : s = u ++ v := by
  have := C11_exact g hu ⟨0, s⟩
  simp only at this
  rw [h] at this
  exact this.1

theorem greedyB_mem (p : Str → Option (Option (Str × Calls α × Str))) : ∀ n s r, greedyB p n s = some r →
    r.1.length ≤ n ∧ ∀ e ∈ r.1, ∃ w v, p w = some (some (e.1, e.2, v)) := by
  intro n
  induction n with
  | zero => intro s r h; simp only [greedyB, Option.some.injEq] at h; subst h; simp
  | succ n ih =>
    intro s r h
    simp only [greedyB] at h
    cases e : p s with
    | none => simp [e] at h
    | some o =>
      cases o with
      | none => simp only [e, Option.some.injEq] at h; subst h; simp
      | some y =>
        obtain ⟨u, a, v⟩ := y
        simp only [e, Option.map_eq_some_iff] at h
        obtain ⟨r', h1, rfl⟩ := h
        obtain ⟨k1, k2⟩ := ih v r' h1
        refine ⟨by simp only [List.length_cons]; omega, ?_⟩
        intro x hx
        rcases List.mem_cons.1 hx with rfl | hx
        · exact ⟨s, v, e⟩
        · exact k2 x hx

theorem forever_mem (p : Str → Option (Option (Str × Calls α × Str))) : ∀ n s r, forever p n s = some r →
    ∀ e ∈ r.1, ∃ w v, p w = some (some (e.1, e.2, v)) := by
  intro n
  induction n with
  | zero => intro s r h; simp [forever] at h
  | succ n ih =>
    intro s r h
    simp only [forever] at h
    cases e : p s with
    | none => simp [e] at h
    | some o =>
      cases o with
      | none => simp only [e, Option.some.injEq] at h; subst h; simp
      | some y =>
        obtain ⟨u, a, v⟩ := y
        cases u with
        | nil => simp [e] at h
        | cons c u =>
          simp only [e, Option.map_eq_some_iff] at h
          obtain ⟨r', h1, rfl⟩ := h
          intro x hx
          rcases List.mem_cons.1 hx with rfl | hx
          · exact ⟨s, v, e⟩
          · exact ih v r' h1 x hx

theorem counted_some {min count : Nat} {r : List (Str × Calls α) × Str} {u v : Str} {a : Calls α} (h : counted min count r = some (u, a, v)) :
    min ≤ count ∧ u = (r.1.map Prod.fst).flatten ∧ a = (r.1.map Prod.snd).flatten := by
  unfold counted at h
  split at h
  · simp at h
  · simp only [Option.some.injEq, Prod.mk.injEq] at h
    exact ⟨by omega, h.1.symm, h.2.1.symm⟩

/-- C11: what is matched is in the ABNF language of the expression, whatever the length of the text: repetitions between
their bounds, alternatives one of the two, and so on, with the calls the expression attaches. -/
theorem C11_built_in_language (g : G α) (hu : g.Uints) (ho : g.Ordered) : ∀ s u a v, g.built s = some (some (u, a, v)) →
    s = u ++ v ∧ g.Lang u a := by
  intro s u a v h0
  refine ⟨g.built_append hu h0, ?_⟩
  induction g generalizing s u a v with
  | chr f =>
    cases s with
    | nil => simp [G.built] at h0
    | cons c s =>
      simp only [G.built] at h0
      split at h0
      · simp only [Option.some.injEq, Prod.mk.injEq] at h0; rw [← h0.1, ← h0.2.1]; exact .chr ‹_›
      · simp at h0
  | seq g h ihg ihh =>
    simp only [G.built] at h0
    cases h1 : g.built s with
    | none => simp [h1] at h0
    | some o =>
      cases o with
      | none => simp [h1] at h0
      | some y =>
        obtain ⟨u1, a1, v1⟩ := y
        simp only [h1] at h0
        cases h2 : h.built v1 with
        | none => simp [h2] at h0
        | some o =>
          cases o with
          | none => simp [h2] at h0
          | some z =>
            obtain ⟨u2, a2, v2⟩ := z
            simp only [h2, Option.some.injEq, Prod.mk.injEq] at h0
            rw [← h0.1, ← h0.2.1]
            exact .seq (ihg hu.1 ho.1 _ _ _ _ h1) (ihh hu.2 ho.2 _ _ _ _ h2)
  | alt g h ihg ihh =>
    simp only [G.built] at h0
    cases h1 : g.built s with
    | none => simp [h1] at h0
    | some o =>
      cases o with
      | none => simp only [h1] at h0; exact .altR (ihh hu.2 ho.2 _ _ _ _ h0)
      | some y => simp only [h1, Option.some.injEq] at h0; subst h0; exact .altL (ihg hu.1 ho.1 _ _ _ _ h1)
  | opt g ihg =>
    simp only [G.built] at h0
    cases h1 : g.built s with
    | none => simp [h1] at h0
    | some o =>
      cases o with
      | none => simp only [h1, Option.some.injEq, Prod.mk.injEq] at h0; rw [← h0.1, ← h0.2.1]; exact .optNone
      | some y => simp only [h1, Option.some.injEq] at h0; subst h0; exact .optSome (ihg hu ho _ _ _ _ h1)
  | star min max g ihg =>
    simp only [G.built] at h0
    by_cases hm : max = unlimited
    · rw [if_pos hm] at h0
      simp only [Option.map_eq_some_iff] at h0
      obtain ⟨r, h1, h2⟩ := h0
      obtain ⟨k1, rfl, rfl⟩ := counted_some h2
      refine .star _ ?_ (by have := Nat.mod_le r.1.length (2 ^ 32); omega) (Or.inr hm)
      intro e he
      obtain ⟨w, v', h⟩ := forever_mem _ _ _ _ h1 e he
      exact ihg hu.2.2 ho.2 _ _ _ _ h
    · rw [if_neg hm] at h0
      cases h1 : greedyB g.built max s with
      | none => simp [h1] at h0
      | some r =>
        simp only [h1] at h0
        obtain ⟨kl, km⟩ := greedyB_mem _ _ _ _ h1
        have hL : ∀ e ∈ r.1, g.Lang e.1 e.2 := by
          intro e he
          obtain ⟨w, v', h⟩ := km e he
          exact ihg hu.2.2 ho.2 _ _ _ _ h
        split at h0
        · simp only [Option.some.injEq] at h0
          obtain ⟨k1, rfl, rfl⟩ := counted_some h0
          exact .star _ hL k1 (Or.inl kl)
        · simp only [Option.map_eq_some_iff] at h0
          obtain ⟨more, h2, h3⟩ := h0
          obtain ⟨k1, rfl, rfl⟩ := counted_some h3
          have := ho.1
          exact .star _ hL (by omega) (Or.inl kl)
  | act x g ihg =>
    simp only [G.built] at h0
    cases h1 : g.built s with
    | none => simp [h1] at h0
    | some o =>
      cases o with
      | none => simp [h1] at h0
      | some y =>
        obtain ⟨u1, a1, v1⟩ := y
        simp only [h1, Option.some.injEq, Prod.mk.injEq] at h0
        rw [← h0.1, ← h0.2.1]
        exact .act (ihg hu ho _ _ _ _ h1)

/-- The repetition as built, where the inner parser returns and agrees with the parser of the specification. -/
theorem forever_greedy (p : Str → Option (Option (Str × Calls α × Str))) (q : Str → Option (Str × Calls α × Str))
    (hq : ∀ s u a v, q s = some (u, a, v) → s = u ++ v ∧ u ≠ []) : ∀ n k s, (∀ w, w.length ≤ s.length → p w = some (q w)) → s.length < n →
    s.length ≤ k → forever p n s = some (greedy q k s) ∧ (greedy q k s).1.length ≤ s.length := by
  intro n
  induction n with
  | zero => intro _ s _ h; omega
  | succ n ih =>
    intro k s hp hn hk
    simp only [forever, hp s (Nat.le_refl _)]
    cases e : q s with
    | none =>
      cases k with
      | zero => simp [greedy]
      | succ k => simp [greedy, e]
    | some y =>
      obtain ⟨u, a, v⟩ := y
      obtain ⟨h1, h2⟩ := hq _ _ _ _ e
      cases u with
      | nil => exact absurd rfl h2
      | cons c u =>
        have hl : s.length = u.length + 1 + v.length := by rw [h1]; simp; omega
        obtain ⟨k, rfl⟩ : ∃ j, k = j + 1 := ⟨k - 1, by omega⟩
        obtain ⟨i1, i2⟩ := ih k v (fun w hw => hp w (by omega)) (by omega) (by omega)
        simp only [greedy, e, i1, Option.map_some, List.length_cons, true_and]
        omega

theorem greedyB_greedy (p : Str → Option (Option (Str × Calls α × Str))) (q : Str → Option (Str × Calls α × Str))
    (hq : ∀ s u a v, q s = some (u, a, v) → s = u ++ v) : ∀ n s, (∀ w, w.length ≤ s.length → p w = some (q w)) →
    greedyB p n s = some (greedy q n s) := by
  intro n
  induction n with
  | zero => intro s _; rfl
  | succ n ih =>
    intro s hp
    simp only [greedyB, greedy, hp s (Nat.le_refl _)]
    cases e : q s with
    | none => rfl
    | some y =>
      obtain ⟨u, a, v⟩ := y
      have hl : s.length = u.length + v.length := by rw [hq _ _ _ _ e]; simp
      simp only [ih v (fun w hw => hp w (by omega)), Option.map_some]

/-- C11: with the lower bounds not above the upper ones, nothing nullable repeated without bound, and repetitions that
cannot be miscounted (no lower bound on an unlimited repetition, or a text below 4 GiB), the parser as built is the parser of
the specification: first matching alternative, longest repetition. -/
theorem C11_built_is_parse (g : G α) (hu : g.Uints) (ho : g.Ordered) (hp : g.Productive) (s : Str) (hc : g.Uncounted ∨ s.length < 2 ^ 32) :
    g.built s = some (g.parse s) := by
  induction g generalizing s with
  | chr f => cases s with
    | nil => rfl
    | cons c s => simp only [G.built, G.parse]; split <;> rfl
  | seq g h ihg ihh =>
    simp only [G.built, G.parse, ihg hu.1 ho.1 hp.1 s (hc.imp And.left id)]
    cases e : g.parse s with
    | none => rfl
    | some y =>
      obtain ⟨u, a, v⟩ := y
      have hl : s.length = u.length + v.length := by rw [g.parse_append _ _ _ _ e]; simp
      simp only [ihh hu.2 ho.2 hp.2 v (hc.imp And.right fun h => by omega)]
      cases h.parse v <;> rfl
  | alt g h ihg ihh =>
    simp only [G.built, G.parse, ihg hu.1 ho.1 hp.1 s (hc.imp And.left id), ihh hu.2 ho.2 hp.2 s (hc.imp And.right id)]
    cases g.parse s <;> rfl
  | opt g ihg =>
    simp only [G.built, G.parse, ihg hu ho hp s (hc.imp id id)]
    cases g.parse s <;> rfl
  | star min max g ihg =>
    have hin : ∀ w, w.length ≤ s.length → g.built w = some (g.parse w) := fun w hw =>
      ihg hu.2.2 ho.2 hp.2 w (hc.imp And.right fun h => by omega)
    simp only [G.built, G.parse]
    by_cases hm : max = unlimited
    · simp only [hm, if_true]
      obtain ⟨k1, k2⟩ := forever_greedy g.built g.parse (fun s u a v h => by
        obtain ⟨h1, h2⟩ := C11_parse_in_language g _ _ _ _ h
        exact ⟨h1, g.lang_nonnull u a h2 (hp.1 hm)⟩) (s.length + 1) s.length s hin (by omega) (by omega)
      simp only [k1, Option.map_some, counted]
      have hx : (greedy g.parse s.length s).1.length % 2 ^ 32 < min ↔ (greedy g.parse s.length s).1.length < min := by
        rcases hc with hc | hc
        · have := hc.1 hm; omega
        · rw [Nat.mod_eq_of_lt (by omega)]
      simp only [hx]
    · simp only [hm, if_false]
      simp only [greedyB_greedy g.built g.parse g.parse_append max s hin]
      obtain ⟨h1, h2⟩ := greedy_spec g.parse g.parse_append max s
      have hl : (greedy g.parse max s).2.length ≤ s.length := by
        have := congrArg List.length h1
        simp only [List.length_append] at this; omega
      split
      · simp only [counted]
      · simp only [hin _ hl, Option.map_some, counted]
        have := ho.1
        have hx : (if (g.parse (greedy g.parse max s).2).isSome = true then max + 1 else max) < min ↔ (greedy g.parse max s).1.length < min := by
          split <;> omega
        simp only [hx]
  | act x g ihg =>
    simp only [G.built, G.parse, ihg hu ho hp s (hc.imp id id)]
    cases g.parse s <;> rfl

theorem forever_returns (p : Str → Option (Option (Str × Calls α × Str)))
    (hp : ∀ s u a v, p s = some (some (u, a, v)) → s = u ++ v ∧ u ≠ []) (ht : ∀ s, p s ≠ none) : ∀ n s, s.length < n → forever p n s ≠ none := by
  intro n
  induction n with
  | zero => intro s h; omega
  | succ n ih =>
    intro s hn
    simp only [forever]
    cases e : p s with
    | none => exact absurd e (ht s)
    | some o =>
      cases o with
      | none => simp
      | some y =>
        obtain ⟨u, a, v⟩ := y
        obtain ⟨h1, h2⟩ := hp _ _ _ _ e
        cases u with
        | nil => exact absurd rfl h2
        | cons c u =>
          have hl : s.length = u.length + 1 + v.length := by rw [h1]; simp; omega
          simp only [ne_eq, Option.map_eq_none_iff]
          exact ih v (by omega)

theorem greedyB_returns (p : Str → Option (Option (Str × Calls α × Str))) (ht : ∀ s, p s ≠ none) : ∀ n s, greedyB p n s ≠ none := by
  intro n
  induction n with
  | zero => intro s; simp [greedyB]
  | succ n ih =>
    intro s
    simp only [greedyB]
    cases e : p s with
    | none => exact absurd e (ht s)
    | some o =>
      cases o with
      | none => simp
      | some y => simp only [ne_eq, Option.map_eq_none_iff]; exact ih _

/-- C11: matching ends on every text, if nothing nullable is repeated without bound. -/
theorem C11_terminates (g : G α) (hu : g.Uints) (ho : g.Ordered) (hp : g.Productive) (sv : SV) :
    ∃ r, g.toMatcher (Rule.ofSV sv) = .ok r := by
  suffices h : ∀ s, g.built s ≠ none by
    have h1 := C11_exact g hu sv
    cases e : g.built sv.chars with
    | none => exact absurd e (h _)
    | some o =>
      rw [e] at h1
      cases o with
      | none => exact ⟨_, h1⟩
      | some y =>
        obtain ⟨u, a, v⟩ := y
        obtain ⟨-, acc, h2, -⟩ := h1
        exact ⟨_, h2⟩
  clear sv
  induction g with
  | chr f => intro s; cases s with
    | nil => simp [G.built]
    | cons c s => simp only [G.built]; split <;> simp
  | seq g h ihg ihh =>
    intro s
    simp only [G.built]
    cases e : g.built s with
    | none => exact absurd e (ihg hu.1 ho.1 hp.1 s)
    | some o =>
      cases o with
      | none => simp
      | some y =>
        obtain ⟨u, a, v⟩ := y
        simp only
        cases e : h.built v with
        | none => exact absurd e (ihh hu.2 ho.2 hp.2 v)
        | some o => cases o <;> simp
  | alt g h ihg ihh =>
    intro s
    simp only [G.built]
    cases e : g.built s with
    | none => exact absurd e (ihg hu.1 ho.1 hp.1 s)
    | some o =>
      cases o with
      | none => exact ihh hu.2 ho.2 hp.2 s
      | some y => simp
  | opt g ihg =>
    intro s
    simp only [G.built]
    cases e : g.built s with
    | none => exact absurd e (ihg hu ho hp s)
    | some o => cases o <;> simp
  | star min max g ihg =>
    intro s
    have ht := ihg hu.2.2 ho.2 hp.2
    simp only [G.built]
    by_cases hm : max = unlimited
    · rw [if_pos hm]
      simp only [ne_eq, Option.map_eq_none_iff]
      refine forever_returns _ ?_ ht _ _ (by omega)
      intro s u a v h
      obtain ⟨h1, h2⟩ := C11_built_in_language g hu.2.2 ho.2 _ _ _ _ h
      exact ⟨h1, g.lang_nonnull u a h2 (hp.1 hm)⟩
    · rw [if_neg hm]
      cases e : greedyB g.built max s with
      | none => exact absurd e (greedyB_returns _ ht _ _)
      | some r =>
        simp only
        split
        · simp
        · simp only [ne_eq, Option.map_eq_none_iff]; exact ht _
  | act x g ihg =>
    intro s
    simp only [G.built]
    cases e : g.built s with
    | none => exact absurd e (ihg hu ho hp s)
    | some o => cases o <;> simp

/-- C11: and so the match function does what the parser of the specification does. -/
theorem C11_matcher_is_parser (g : G α) (hu : g.Uints) (ho : g.Ordered) (hp : g.Productive) (sv : SV)
    (hc : g.Uncounted ∨ sv.chars.length < 2 ^ 32) : Does sv (g.toMatcher (Rule.ofSV sv)) (some (g.parse sv.chars)) := by
  rw [← C11_built_is_parse g hu ho hp sv.chars hc]
  exact C11_exact g hu sv

/-- C11: a rule that has failed stays failed, whatever is chained to it, and nothing is called. -/
theorem C11_failed_stays_failed (r : Rule α) (hr : r.tail = none) (m : Matcher α) (ms : List (Matcher α)) (x : α) (min max : Nat)
    (inp : Rule α) {σ : Type} (run : σ → α → SV → M σ) (st : σ) :
    (Rule.concat m r).map Rule.tail = .ok none ∧ (Rule.concatA m x r).map Rule.tail = .ok none ∧
    (Rule.optional m r).map Rule.tail = .ok none ∧ (Rule.optionalA m (some x) r).map Rule.tail = .ok none ∧
    (Rule.star m min max r).map Rule.tail = .ok none ∧ (Rule.alternative ms r).map Rule.tail = .ok none ∧
    Rule.matched inp r = .ok none ∧ Rule.done run st r = .ok none := by
  refine ⟨by simp [Rule.concat, Rule.concatImpl, hr, Except.map], by simp [Rule.concatA, Rule.concatImpl, hr, Except.map],
    by simp [Rule.optional, Rule.optionalA, hr, Except.map], by simp [Rule.optionalA, hr, Except.map],
    by simp [Rule.star, hr, Except.map], ?_, by simp [Rule.matched, hr], by simp [Rule.done, hr]⟩
  cases ms with
  | nil => rfl
  | cons m ms => simp [Rule.alternative, hr, Except.map]

/-- `optional (match, accept)` is `optional` of the match with its accept function. -/
theorem C11_optional_accept (m : Matcher α) (x : α) (sv : SV) (acc : Acceptors α) (hd : SV) (a : Acceptors α)
    (u v : Str) (hm : m (Rule.ofSV sv) = .ok (some (hd, a))) (hc : sv.chars = u ++ v) (hu : hd.chars = u) :
    Rule.optionalA m (some x) ⟨some sv, acc⟩ = .ok ⟨some ⟨sv.ptr + u.length, v⟩, acc ++ (a ++ [(x, hd)])⟩ ∧
    Rule.optionalA m (some x) ⟨some sv, acc⟩ = Rule.concatA m x ⟨some sv, acc⟩ := by
  obtain ⟨p, cs⟩ := sv
  simp only at hc
  subst hc
  subst hu
  have hm' : m { tail := some { ptr := p, chars := hd.chars ++ v }, acc := [] } = .ok (some (hd, a)) := hm
  constructor <;>
  simp [Rule.optionalA, Rule.concatA, Rule.concatImpl, Rule.ofSV, hm', bind, Except.bind, Rule.joinMatched, SV.substrFrom, SV.size,
    pure, Except.pure, Rule.joinRule]

/-- Running accept calls on a state. -/
def runCalls {σ : Type} (run : σ → α → Str → σ) (st : σ) (cs : Calls α) : σ := cs.foldl (fun s c => run s c.1 c.2) st

theorem foldlM_calls {σ : Type} (run : σ → α → Str → σ) (acc : Acceptors α) : ∀ st : σ,
    acc.foldlM (fun s a => (.ok (run s a.1 a.2.chars) : M σ)) st = .ok (runCalls run st (content acc)) := by
  induction acc with
  | nil => intro st; rfl
  | cons a acc ih => intro st; simp only [List.foldlM_cons, bind, Except.bind, ih]; rfl

/-! ### Chains of calls on one rule -/

/-- An expression applied to a rule in a chain of calls, `rule (text).concat (…).star (…)…`. -/
def G.chain : G α → Rule α → M (Rule α)
  | .chr f => Rule.concat (Rule.singleCharP fun c => .ok (f c))
  | .seq g h => fun r => g.chain r >>= h.chain
  | .alt g h => Rule.alternative [g.toMatcher, h.toMatcher]
  | .opt g => Rule.optional g.toMatcher
  | .star min max g => Rule.star g.toMatcher min max
  | .act x g => Rule.concatA g.toMatcher x

/-- What a call in a chain does to a rule with the text `sv` left and the accept calls `acc`: it does not return; or the rule
has failed; or the text matched is taken off and its accept calls are added at the end. -/
def Advances (sv : SV) (acc : Acceptors α) (res : M (Rule α)) : Option (Option (Str × Calls α × Str)) → Prop
  | none => res = .error .diverge
  | some none => ∃ r, res = .ok r ∧ r.tail = none
  | some (some (u, calls, v)) => sv.chars = u ++ v ∧ ∃ more, res = .ok ⟨some ⟨sv.ptr + u.length, v⟩, acc ++ more⟩ ∧
      more.map (fun a => (a.1, a.2.chars)) = calls ∧ ∀ a ∈ more, Inside a.2 sv

/-- The loop of `star` only appends to the accept calls it is given. -/
theorem starLoop_acc (m : Matcher α) (max : Nat) (acc0 : Acceptors α) : ∀ fuel count str length acc,
    Rule.starLoop m max fuel count str length (acc0 ++ acc) =
      (Rule.starLoop m max fuel count str length acc).map fun r => (r.1, r.2.1, acc0 ++ r.2.2) := by
  intro fuel
  induction fuel with
  | zero => intros; rfl
  | succ fuel ih =>
    intro count str length acc
    simp only [Rule.starLoop, bind, Except.bind]
    cases m (Rule.ofSV str) with
    | error f => rfl
    | ok o =>
      cases o with
      | none => rfl
      | some y =>
        obtain ⟨hd, a⟩ := y
        simp only
        split
        · rfl
        · cases str.removePrefix hd.size with
          | error f => rfl
          | ok w => simp only [List.append_assoc, ih]

theorem star_chain {m : Matcher α} {o : Option (Option (Str × Calls α × Str))} (min max : Nat) (sv : SV) (acc : Acceptors α)
    (h : Does sv (Rule.star m min max (Rule.ofSV sv) >>= Rule.matched (Rule.ofSV sv)) o) :
    Advances sv acc (Rule.star m min max ⟨some sv, acc⟩) o := by
  have e := starLoop_acc m max acc (sv.size + max + 2) 0 sv 0 []
  rw [List.append_nil] at e
  simp only [Rule.star, Rule.ofSV, e] at h ⊢
  cases hl : Rule.starLoop m max (sv.size + max + 2) 0 sv 0 [] with
  | error f =>
    rw [hl] at h
    cases o with
    | none => simp only [Does, Advances, bind, Except.bind, Except.map, Except.error.injEq] at h ⊢; exact h
    | some o =>
      cases o with
      | none => simp [Does, bind, Except.bind] at h
      | some y => obtain ⟨u, c, v⟩ := y; simp [Does, bind, Except.bind] at h
  | ok y =>
    obtain ⟨count, length, acc'⟩ := y
    simp only [hl, bind, Except.bind, Except.map] at h ⊢
    by_cases hc : count < min
    · simp only [hc, if_true] at h ⊢
      rw [matched_failed] at h
      cases o with
      | none => simp [Does] at h
      | some o =>
        cases o with
        | none => exact ⟨_, rfl, rfl⟩
        | some y => obtain ⟨u, c, v⟩ := y; simp [Does] at h
    · simp only [hc, if_false] at h ⊢
      obtain ⟨p, cs⟩ := sv
      by_cases hle : length ≤ cs.length
      · have hs : SV.substrFrom ⟨p, cs⟩ length = .ok ⟨p + length, cs.drop length⟩ := by
          simp [SV.substrFrom, SV.size, hle]
        simp only [hs, pure, Except.pure] at h ⊢
        have e2 : Rule.matched ⟨some ⟨p, cs⟩, []⟩ ⟨some ⟨p + length, cs.drop length⟩, acc'⟩ = .ok (some (⟨p, cs.take length⟩, acc')) := by
          have := matched_some (p := p) (p' := p + length) (u := cs.take length) (v := cs.drop length) (acc := acc') (acc0 := [])
          rw [List.take_append_drop] at this
          exact this
        rw [e2] at h
        cases o with
        | none => simp [Does] at h
        | some o =>
          cases o with
          | none => simp [Does] at h
          | some y =>
            obtain ⟨u, c, v⟩ := y
            obtain ⟨h1, a, h2, h3, h4⟩ := h
            simp only [Except.ok.injEq, Option.some.injEq, Prod.mk.injEq, SV.mk.injEq, true_and] at h2
            obtain ⟨h2, rfl⟩ := h2
            simp only at h1
            refine ⟨h1, acc', ?_, h3, h4⟩
            have hl : length = u.length := by rw [← h2, List.length_take]; omega
            subst hl
            rw [h1, List.drop_left]
      · have hs : SV.substrFrom ⟨p, cs⟩ length = .error .outOfRange := by
          simp [SV.substrFrom, SV.size, hle]
        simp only [hs] at h
        cases o with
        | none => simp [Does] at h
        | some o =>
          cases o with
          | none => simp [Does] at h
          | some y => obtain ⟨u, c, v⟩ := y; simp [Does] at h

/-- **C11** for chains: on a rule with text left, the calls do what the parser as built does with the text, adding the accept
calls behind the ones there are; on a rule that has failed they do nothing. -/
theorem C11_chain (g : G α) (hu : g.Uints) : (∀ (sv : SV) (acc : Acceptors α), Advances sv acc (g.chain ⟨some sv, acc⟩) (g.built sv.chars)) ∧
    ∀ r : Rule α, r.tail = none → ∃ r', g.chain r = .ok r' ∧ r'.tail = none := by
  have hcat : ∀ (g : G α) (x : Option α) (sv : SV) (acc : Acceptors α), g.Uints →
      Advances sv acc (Rule.concatImpl g.toMatcher x false ⟨some sv, acc⟩) ((match x with | none => g | some x => .act x g).built sv.chars) := by
    intro g x sv acc hu
    have h := C11_exact g hu sv
    have e0 : (match x with | none => g | some x => .act x g : G α).built sv.chars = match g.built sv.chars with
        | none => none
        | some none => some none
        | some (some (u, a, v)) => some (some (u, a ++ (x.map fun x => (x, u)).toList, v)) := by
      cases x with
      | none => cases g.built sv.chars with
        | none => rfl
        | some o => cases o with
          | none => rfl
          | some y => simp
      | some x => rfl
    rw [e0]
    cases e : g.built sv.chars with
    | none => rw [e] at h; simp only; exact concat_error x false h
    | some o =>
      cases o with
      | none => rw [e] at h; exact ⟨_, concat_none x false h, rfl⟩
      | some y =>
        obtain ⟨u, c, v⟩ := y
        rw [e] at h
        obtain ⟨h1, a, h2, h3, h4⟩ := h
        obtain ⟨p, cs⟩ := sv
        simp only at h1 h2
        subst h1
        refine ⟨rfl, _, concat_some x false h2, ?_, ?_⟩
        · cases x <;> simp [h3]
        · intro y hy
          rcases List.mem_append.1 hy with hy | hy
          · exact h4 y hy
          · cases x with
            | none => simp at hy
            | some x => simp at hy; subst hy; exact inside_head p u v
  induction g with
  | chr f =>
    refine ⟨fun sv acc => hcat (.chr f) none sv acc trivial, fun r hr => ⟨r, ?_, hr⟩⟩
    simp [G.chain, Rule.concat, Rule.concatImpl, hr]
  | seq g h ihg ihh =>
    obtain ⟨g1, g2⟩ := ihg hu.1
    obtain ⟨h1, h2⟩ := ihh hu.2
    refine ⟨fun sv acc => ?_, fun r hr => ?_⟩
    · have k := g1 sv acc
      simp only [G.chain, G.built]
      cases e : g.built sv.chars with
      | none => rw [e] at k; simp only [Advances] at k ⊢; rw [k]; rfl
      | some o =>
        cases o with
        | none =>
          rw [e] at k
          obtain ⟨r, k1, k2⟩ := k
          rw [k1]
          exact h2 r k2
        | some y =>
          obtain ⟨u, c, v⟩ := y
          rw [e] at k
          obtain ⟨k0, a, k1, k2, k3⟩ := k
          rw [k1]
          obtain ⟨p, cs⟩ := sv
          simp only at k0
          subst k0
          have j := h1 ⟨p + u.length, v⟩ (acc ++ a)
          simp only at j ⊢
          cases e2 : h.built v with
          | none => rw [e2] at j; exact j
          | some o =>
            cases o with
            | none => rw [e2] at j; exact j
            | some y =>
              obtain ⟨u2, c2, v2⟩ := y
              rw [e2] at j
              obtain ⟨j0, a2, j1, j2, j3⟩ := j
              simp only at j0
              subst j0
              refine ⟨by simp, a ++ a2, ?_, by simp [k2, j2], ?_⟩
              · simp only [bind, Except.bind] at j1 ⊢
                rw [j1]
                simp [Nat.add_assoc]
              · intro x hx
                rcases List.mem_append.1 hx with hx | hx
                · exact k3 x hx
                · exact inside_right (j3 x hx)
    · obtain ⟨r', k1, k2⟩ := g2 r hr
      simp only [G.chain, k1]
      exact h2 r' k2
  | alt g h _ _ =>
    refine ⟨fun sv acc => ?_, fun r hr => ⟨r, ?_, hr⟩⟩
    · have h1 := C11_exact g hu.1 sv
      have h2 := C11_exact h hu.2 sv
      simp only [G.chain, G.built]
      have fin : ∀ (m : Matcher α) (ms : List (Matcher α)) (y : Str × Calls α × Str), Does sv (m (Rule.ofSV sv)) (some (some y)) →
          Advances sv acc (Rule.alternative (m :: ms) ⟨some sv, acc⟩) (some (some y)) := by
        intro m ms y hy
        obtain ⟨u, c, v⟩ := y
        obtain ⟨k0, a, k1, k2, k3⟩ := hy
        obtain ⟨p, cs⟩ := sv
        simp only at k0 k1
        subst k0
        refine ⟨rfl, a, ?_, k2, k3⟩
        simp only [Rule.alternative, k1, bind, Except.bind, join_matched]
      cases e : g.built sv.chars with
      | none =>
        rw [e] at h1
        simp only [Does, Advances] at h1 ⊢
        simp [Rule.alternative, h1, bind, Except.bind]
      | some o =>
        cases o with
        | none =>
          rw [e] at h1
          simp only [Does] at h1
          have e2 : Rule.alternative [g.toMatcher, h.toMatcher] ⟨some sv, acc⟩ = Rule.alternative [h.toMatcher] ⟨some sv, acc⟩ := by
            rw [Rule.alternative]
            simp only [h1, bind, Except.bind]
          rw [e2]
          simp only
          cases e3 : h.built sv.chars with
          | none =>
            rw [e3] at h2
            simp only [Does, Advances] at h2 ⊢
            simp [Rule.alternative, h2, bind, Except.bind]
          | some o =>
            cases o with
            | none =>
              rw [e3] at h2
              simp only [Does] at h2
              exact ⟨Rule.failed, by simp [Rule.alternative, h2, bind, Except.bind], rfl⟩
            | some y => rw [e3] at h2; exact fin _ _ _ h2
        | some y => rw [e] at h1; exact fin _ _ _ h1
    · simp [G.chain, Rule.alternative, hr]
  | opt g _ =>
    refine ⟨fun sv acc => ?_, fun r hr => ⟨r, ?_, hr⟩⟩
    · have h := C11_exact g hu sv
      simp only [G.chain, G.built, Rule.optional, Rule.optionalA, Rule.ofSV] at h ⊢
      cases e : g.built sv.chars with
      | none =>
        rw [e] at h
        simp only [Advances]
        rw [concat_error none true h]
        rfl
      | some o =>
        cases o with
        | none =>
          rw [e] at h
          rw [concat_none none true h]
          obtain ⟨p, cs⟩ := sv
          refine ⟨rfl, [], ?_, rfl, by simp⟩
          simp [bind, Except.bind, Rule.joinRule]
        | some y =>
          obtain ⟨u, c, v⟩ := y
          rw [e] at h
          obtain ⟨k0, a, k1, k2, k3⟩ := h
          obtain ⟨p, cs⟩ := sv
          simp only at k0 k1
          subst k0
          rw [concat_some none true k1]
          refine ⟨rfl, a, ?_, k2, k3⟩
          simp [bind, Except.bind, Rule.joinRule]
    · simp [G.chain, Rule.optional, Rule.optionalA, hr]
  | star min max g _ =>
    refine ⟨fun sv acc => star_chain min max sv acc (C11_exact (.star min max g) hu sv), fun r hr => ⟨r, ?_, hr⟩⟩
    simp [G.chain, Rule.star, hr]
  | act x g _ =>
    refine ⟨fun sv acc => hcat g (some x) sv acc hu, fun r hr => ⟨r, ?_, hr⟩⟩
    simp [G.chain, Rule.concatA, Rule.concatImpl, hr]

/-- The first of several expressions to match. -/
def firstOf : List (G α) → Str → Option (Option (Str × Calls α × Str))
  | [], _ => some none
  | g :: gs, s => match g.built s with
      | some none => firstOf gs s
      | o => o

/-- C11: `alternative` of any number of matchers is the first of them to match. -/
theorem C11_alternative (gs : List (G α)) (hu : ∀ g ∈ gs, g.Uints) (sv : SV) (acc : Acceptors α) :
    Advances sv acc (Rule.alternative (gs.map G.toMatcher) ⟨some sv, acc⟩) (firstOf gs sv.chars) := by
  induction gs with
  | nil => exact ⟨_, rfl, rfl⟩
  | cons g gs ih =>
    have h := C11_exact g (hu g (by simp)) sv
    have ih := ih (fun x hx => hu x (by simp [hx]))
    simp only [firstOf, List.map_cons, Rule.alternative]
    cases e : g.built sv.chars with
    | none => rw [e] at h; simp only [Does, Advances] at h ⊢; rw [h]; rfl
    | some o =>
      cases o with
      | none => rw [e] at h; simp only [Does] at h; rw [h]; exact ih
      | some y =>
        obtain ⟨u, c, v⟩ := y
        rw [e] at h
        obtain ⟨k0, a, k1, k2, k3⟩ := h
        obtain ⟨p, cs⟩ := sv
        simp only at k0 k1
        subst k0
        refine ⟨rfl, a, ?_, k2, k3⟩
        simp only [k1, bind, Except.bind, join_matched]

/-- What `rule (text).concat (g).done ()` does, given the result of the parser: it does not return; when the parser matches
the whole text it answers true and the accept functions on the successful path have been run, in order, once each, with the
text they matched, and nothing else; otherwise it answers false and the state is as it was. -/
def Ran {σ : Type} (run : σ → α → Str → σ) (st : σ) (res : M (Option σ)) : Option (Option (Str × Calls α × Str)) → Prop
  | none => res = .error .diverge
  | some (some (_, calls, [])) => res = .ok (some (runCalls run st calls))
  | some (some (_, _, _ :: _)) => res = .ok none
  | some none => res = .ok none

/-- **C10** in full, for every expression with bounds of type `unsigned` and every text. -/
theorem C10_exact (g : G α) (hu : g.Uints) (sv : SV) {σ : Type} (run : σ → α → Str → σ) (st : σ) :
    Ran run st (Rule.concat g.toMatcher (Rule.ofSV sv) >>= Rule.done (fun s a t => .ok (run s a t.chars)) st) (g.built sv.chars) := by
  have h := C11_exact g hu sv
  cases e : g.built sv.chars with
  | none =>
    rw [e] at h
    simp only [Ran, Rule.concat]
    rw [Rule.ofSV, concat_error none false h]
    rfl
  | some o =>
    cases o with
    | none =>
      rw [e] at h
      simp only [Ran, Rule.concat]
      rw [Rule.ofSV, concat_none none false h]
      rfl
    | some y =>
      obtain ⟨u, calls, v⟩ := y
      rw [e] at h
      obtain ⟨hc, acc, h1, h2, -⟩ := h
      obtain ⟨p, cs⟩ := sv
      simp only at hc h1
      subst hc
      have hr : Rule.concat g.toMatcher (Rule.ofSV ⟨p, u ++ v⟩) = .ok ⟨some ⟨p + u.length, v⟩, acc⟩ := by
        have := concat_some (acc0 := []) none false h1
        simpa [Rule.concat, Rule.ofSV] using this
      rw [hr]
      cases v with
      | nil =>
        simp only [Ran, Rule.done, foldlM_calls, bind, Except.bind, pure, Except.pure]
        rw [show content acc = calls from h2]
      | cons c v => simp [Ran, Rule.done, bind, Except.bind]

/-- C10 for a chain of calls on the rule: `rule (text).….done ()`. -/
theorem C10_chain (g : G α) (hu : g.Uints) (sv : SV) {σ : Type} (run : σ → α → Str → σ) (st : σ) :
    Ran run st (g.chain (Rule.ofSV sv) >>= Rule.done (fun s a t => .ok (run s a t.chars)) st) (g.built sv.chars) := by
  have h := (C11_chain g hu).1 sv []
  simp only [Rule.ofSV]
  cases e : g.built sv.chars with
  | none => rw [e] at h; simp only [Advances, Ran] at h ⊢; rw [h]; rfl
  | some o =>
    cases o with
    | none =>
      rw [e] at h
      obtain ⟨r, h1, h2⟩ := h
      rw [h1]
      simp [Ran, Rule.done, h2, bind, Except.bind]
    | some y =>
      obtain ⟨u, calls, v⟩ := y
      rw [e] at h
      obtain ⟨-, acc, h1, h2, -⟩ := h
      rw [h1]
      cases v with
      | nil =>
        simp only [Ran, Rule.done, foldlM_calls, bind, Except.bind, pure, Except.pure, List.nil_append]
        rw [show content acc = calls from h2]
      | cons c v => simp [Ran, Rule.done, bind, Except.bind]

/-- C10, where the parser as built is the parser of the specification. -/
theorem C10_accept_only_on_success (g : G α) (hu : g.Uints) (ho : g.Ordered) (hp : g.Productive) (sv : SV)
    (hc : g.Uncounted ∨ sv.chars.length < 2 ^ 32) {σ : Type} (run : σ → α → Str → σ) (st : σ) :
    (Rule.concat g.toMatcher (Rule.ofSV sv) >>= Rule.done (fun s a t => .ok (run s a t.chars)) st) =
      .ok (match g.parse sv.chars with
        | some (_, calls, []) => some (runCalls run st calls)
        | _ => none) := by
  have h := C10_exact g hu sv run st
  rw [C11_built_is_parse g hu ho hp sv.chars hc] at h
  cases e : g.parse sv.chars with
  | none => rw [e] at h; exact h
  | some y =>
    obtain ⟨u, calls, v⟩ := y
    rw [e] at h
    cases v with
    | nil => exact h
    | cons c v => exact h

/-- C10: and those calls are what the ABNF meaning of the expression attaches to the text, whatever its length. -/
theorem C10_calls_in_language (g : G α) (hu : g.Uints) (ho : g.Ordered) (sv : SV) {σ : Type}
    (run : σ → α → Str → σ) (st st' : σ)
    (h : (Rule.concat g.toMatcher (Rule.ofSV sv) >>= Rule.done (fun s a t => .ok (run s a t.chars)) st) = .ok (some st')) :
    ∃ calls, g.Lang sv.chars calls ∧ st' = runCalls run st calls := by
  have h0 := C10_exact g hu sv run st
  cases e : g.built sv.chars with
  | none => rw [e] at h0; simp only [Ran] at h0; rw [h0] at h; simp at h
  | some o =>
    cases o with
    | none => rw [e] at h0; simp only [Ran] at h0; rw [h0] at h; simp at h
    | some y =>
      obtain ⟨u, calls, v⟩ := y
      rw [e] at h0
      cases v with
      | cons c v => simp only [Ran] at h0; rw [h0] at h; simp at h
      | nil =>
        simp only [Ran] at h0
        rw [h0] at h
        simp only [Except.ok.injEq, Option.some.injEq] at h
        obtain ⟨h1, h2⟩ := C11_built_in_language g hu ho _ _ _ _ e
        simp only [List.append_nil] at h1
        exact ⟨calls, by rw [h1]; exact h2, h.symm⟩

/-- C11: why `min ≤ max` is required.  With `min > max` the repetition that exceeds `max` is
counted: `star ("a", 2, 1)` on "aa" succeeds having matched one repetition, fewer than `min`. -/
theorem C11_min_above_max_counterexample :
    Rule.star (α := Nat) (Rule.singleCharP fun c => .ok (c == 0x61)) 2 1 (Rule.ofSV ⟨1, b! "aa"⟩) =
      .ok ⟨some ⟨2, b! "a"⟩, []⟩ := by decide +kernel

/-- C11: why what is repeated must not be nullable.  `*[ g ]` does not return on any text `g` does not match. -/
theorem C11_nullable_counterexample (g : G α) (hu : g.Uints) (min : Nat) (hm : min < 2 ^ 32) (sv : SV) (h : g.built sv.chars = some none) :
    (G.star min unlimited (.opt g)).toMatcher (Rule.ofSV sv) = .error .diverge := by
  have := C11_exact (.star min unlimited (.opt g)) ⟨hm, by decide, hu⟩ sv
  have e : (G.star min unlimited (.opt g)).built sv.chars = none := by
    simp [G.built, forever, h]
  rw [e] at this
  exact this

/-- C11: what the counter does to a lower bound: `1*"a"` does not match 2^32 times "a". -/
theorem C11_counter_counterexample (sv : SV) (c : UInt8) (hc : sv.chars = List.replicate (2 ^ 32) c) :
    (G.star 1 unlimited (.chr (α := α) (· == c))).toMatcher (Rule.ofSV sv) = .ok none := by
  have := C11_exact (.star 1 unlimited (.chr (α := α) (· == c))) ⟨by decide, by decide, trivial⟩ sv
  have hb : ∀ w, (G.chr (α := α) (· == c)).built (c :: w) = some (some ([c], [], w)) := by intro w; simp [G.built]
  have hf : ∀ n k, n < k → forever (G.chr (α := α) (· == c)).built k (List.replicate n c) = some (List.replicate n ([c], []), []) := by
    intro n
    induction n with
    | zero =>
      intro k hk
      obtain ⟨k, rfl⟩ : ∃ j, k = j + 1 := ⟨k - 1, by omega⟩
      simp [forever, G.built]
    | succ n ih =>
      intro k hk
      obtain ⟨k, rfl⟩ : ∃ j, k = j + 1 := ⟨k - 1, by omega⟩
      simp only [List.replicate_succ, forever, hb, ih k (by omega), Option.map_some]
  have e : (G.star 1 unlimited (.chr (α := α) (· == c))).built sv.chars = some none := by
    rw [hc]
    have h1 : (List.replicate (2 ^ 32) c).length = 2 ^ 32 := List.length_replicate
    rw [G.built, if_pos rfl, h1, hf _ _ (Nat.lt_succ_self _), Option.map_some, counted, if_pos]
    rw [List.length_replicate]
    decide
  rw [e] at this
  exact this

/-! ### A case: `1*3( "a" "b" ) [ "c" ]` with accept functions 0 on each "ab", 1 on "c" -/

/-- The example grammar. -/
def exG : G Nat := .seq (.star 1 3 (.act 0 (.seq (.chr (· == 0x61)) (.chr (· == 0x62))))) (.opt (.act 1 (.chr (· == 0x63))))

theorem exG_wf : exG.Uints ∧ exG.Ordered ∧ exG.Productive ∧ exG.Uncounted := by
  simp [exG, G.Uints, G.Ordered, G.Productive, G.Uncounted, unlimited]

example : exG.parse (b! "ababc!") = some (b! "ababc", [(0, b! "ab"), (0, b! "ab"), (1, b! "c")], b! "!") := by decide +kernel
example : exG.parse (b! "abababab") = some (b! "ababab", [(0, b! "ab"), (0, b! "ab"), (0, b! "ab")], b! "ab") := by decide +kernel
example : exG.parse (b! "aab") = none := by decide +kernel
example : exG.built (b! "abababab") = some (some (b! "ababab", [(0, b! "ab"), (0, b! "ab"), (0, b! "ab")], b! "ab")) := by rfl

/-- `*( "a" "b" )`, unlimited. -/
def exS : G Nat := .star 0 unlimited (.act 0 (.seq (.chr (· == 0x61)) (.chr (· == 0x62))))

example : exS.Uints ∧ exS.Ordered ∧ exS.Productive ∧ exS.Uncounted := by
  simp [exS, G.Uints, G.Ordered, G.Productive, G.Uncounted, unlimited, G.nullable]
example : exS.built (b! "ababa") = some (some (b! "abab", [(0, b! "ab"), (0, b! "ab")], b! "a")) := by rfl
example : (G.star 0 unlimited (.opt exG)).built (b! "abx") = none := by decide +kernel

/-- The calls made are recorded in order. -/
def exRun (st : Calls Nat) (a : Nat) (t : Str) : Calls Nat := st ++ [(a, t)]

example : (Rule.concat exG.toMatcher (Rule.ofSV ⟨1, b! "ababc"⟩) >>= Rule.done (fun s a t => .ok (exRun s a t.chars)) []) =
    .ok (some [(0, b! "ab"), (0, b! "ab"), (1, b! "c")]) := by
  rw [C10_accept_only_on_success exG exG_wf.1 exG_wf.2.1 exG_wf.2.2.1 _ (Or.inl exG_wf.2.2.2)]
  decide +kernel
example : (Rule.concat exG.toMatcher (Rule.ofSV ⟨1, b! "ababc!"⟩) >>= Rule.done (fun s a t => .ok (exRun s a t.chars)) []) =
    .ok none := by
  rw [C10_accept_only_on_success exG exG_wf.1 exG_wf.2.1 exG_wf.2.2.1 _ (Or.inl exG_wf.2.2.2)]
  decide +kernel

end Verif
