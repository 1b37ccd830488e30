import Verif.Spec.Effects

/-!
# C86: which of the functions given to a rule are called, when, and what if they throw
-/

namespace Verif
open Verif.Eff Verif.Spec

set_option linter.unusedSimpArgs false

namespace Eff
variable {σ ε α β γ : Type}

theorem andThen_iff {x : E σ ε β} {f : β → E σ ε γ} {s s' : σ} {o : Except ε γ} :
    andThen x f s = .ok (o, s') ↔ (∃ e, x s = .ok (.error e, s') ∧ o = .error e) ∨ ∃ b s1, x s = .ok (.ok b, s1) ∧ f b s1 = .ok (o, s') := by
  unfold andThen
  cases h : x s with
  | error e => simp
  | ok y =>
    obtain ⟨r, s1⟩ := y
    cases r with
    | error e =>
      simp only [Except.ok.injEq, Prod.mk.injEq, Except.error.injEq, reduceCtorEq, false_and, exists_false, or_false]
      constructor
      · rintro ⟨rfl, rfl⟩; exact ⟨e, ⟨rfl, rfl⟩, rfl⟩
      · rintro ⟨_, ⟨rfl, rfl⟩, rfl⟩; exact ⟨rfl, rfl⟩
    | ok b =>
      simp only [Except.ok.injEq, Prod.mk.injEq, Except.error.injEq, reduceCtorEq, false_and, exists_false, false_or]
      constructor
      · intro h; exact ⟨b, s1, ⟨rfl, rfl⟩, h⟩
      · rintro ⟨_, _, ⟨rfl, rfl⟩, h⟩; exact h

theorem lift_iff {x : M β} {s s' : σ} {o : Except ε β} : (lift x : E σ ε β) s = .ok (o, s') ↔ ∃ b, x = .ok b ∧ o = .ok b ∧ s' = s := by
  unfold lift
  cases x with
  | error f => simp
  | ok b =>
    simp only [Except.ok.injEq, Prod.mk.injEq]
    constructor
    · rintro ⟨rfl, rfl⟩; exact ⟨b, rfl, rfl, rfl⟩
    · rintro ⟨_, rfl, rfl, rfl⟩; exact ⟨rfl, rfl⟩

theorem ret_iff {b : β} {s s' : σ} {o : Except ε β} : (ret b : E σ ε β) s = .ok (o, s') ↔ o = .ok b ∧ s' = s := by
  unfold ret
  simp only [Except.ok.injEq, Prod.mk.injEq]
  exact ⟨fun ⟨a, b⟩ => ⟨a.symm, b.symm⟩, fun ⟨a, b⟩ => ⟨a.symm, b.symm⟩⟩

theorem substrFrom_iff {t u : SV} {n : Nat} : t.substrFrom n = .ok u ↔ n ≤ t.chars.length ∧ u = after t n := by
  unfold SV.substrFrom SV.size after
  by_cases h : n ≤ t.chars.length
  · rw [if_pos h]
    simp only [Except.ok.injEq, h, true_and]
    exact eq_comm
  · rw [if_neg h]
    simp [h]

theorem joinMatched_iff {t : SV} {acc a : Acceptors α} {hd : SV} {r' : Rule α} :
    (⟨some t, acc⟩ : Rule α).joinMatched (hd, a) = .ok r' ↔ hd.chars.length ≤ t.chars.length ∧ r' = ⟨some (after t hd.chars.length), acc ++ a⟩ := by
  unfold Rule.joinMatched
  show (t.substrFrom hd.chars.length >>= fun t' => (.ok ⟨some t', acc ++ a⟩ : M (Rule α))) = .ok r' ↔ _
  cases e : t.substrFrom hd.chars.length with
  | error f =>
    have : ¬ hd.chars.length ≤ t.chars.length := fun h => by
      rw [substrFrom_iff.2 ⟨h, rfl⟩] at e; cases e
    constructor
    · intro h; cases h
    · intro h; exact absurd h.1 this
  | ok u =>
    obtain ⟨h, rfl⟩ := substrFrom_iff.1 e
    constructor
    · intro h'; exact ⟨h, (Except.ok.inj h').symm⟩
    · rintro ⟨_, rfl⟩; rfl

theorem after_after (t : SV) (n k : Nat) : after (after t n) k = after t (n + k) := by
  simp [after, Nat.add_assoc]

theorem Matches.total {m : Matcher σ ε α} {s s' : σ} {t t' : SV} {xs : List (SV × Acceptors α)} (h : Matches m s t xs s' t') :
    t' = after t (xs.map (·.1.chars.length)).sum ∧ (xs.map (·.1.chars.length)).sum ≤ t.chars.length := by
  induction h with
  | nil => simp [after]
  | cons h1 h2 _ ih =>
    obtain ⟨e1, e2⟩ := ih
    have e3 := e2
    simp only [after, List.length_drop] at e3
    refine ⟨?_, by simp only [List.map_cons, List.sum_cons]; omega⟩
    rw [e1, after_after]
    simp

/-- The last call of the loop. -/
def LastCall (m : Matcher σ ε α) (max n : Nat) (s1 : σ) (t1 : SV) (o : Except ε Nat) (s' : σ) : Prop :=
  (∃ e, m ⟨some t1, []⟩ s1 = .ok (.error e, s') ∧ o = .error e) ∨
  (m ⟨some t1, []⟩ s1 = .ok (.ok none, s') ∧ o = .ok (n % uintMod)) ∨
  (∃ x, m ⟨some t1, []⟩ s1 = .ok (.ok (some x), s') ∧ n = max ∧ max ≠ uintMax ∧ o = .ok (max + 1))

theorem starLoop_sound {m : Matcher σ ε α} {max : Nat} (hmax : max < uintMod) : ∀ (fuel n : Nat) (t : SV) (l : Nat) (acc : Acceptors α) (s s' : σ)
    (o : Except ε (Nat × Nat × Acceptors α)), (max = uintMax ∨ n ≤ max) → starLoop m max fuel (n % uintMod) t l acc s = .ok (o, s') →
    ∃ xs s1 t1 k, Matches m s t xs s1 t1 ∧ (max = uintMax ∨ n + xs.length ≤ max) ∧ LastCall m max (n + xs.length) s1 t1 k s' ∧
      o = k.map fun c => (c, l + (xs.map (·.1.chars.length)).sum, acc ++ (xs.map (·.2)).flatten) := by
  intro fuel
  induction fuel with
  | zero => intro n t l acc s s' o _ h; cases h
  | succ f ih =>
    intro n t l acc s s' o hn h
    rw [starLoop, andThen_iff] at h
    rcases h with ⟨e, h1, rfl⟩ | ⟨b, s1, h1, h2⟩
    · exact ⟨[], s, t, .error e, .nil, by simpa using hn, .inl ⟨e, h1, rfl⟩, rfl⟩
    · cases b with
      | none =>
        obtain ⟨rfl, rfl⟩ := ret_iff.1 h2
        exact ⟨[], s, t, .ok (n % uintMod), .nil, by simpa using hn, .inr (.inl ⟨h1, rfl⟩), by simp [Except.map]⟩
      | some x =>
        obtain ⟨hd, a⟩ := x
        replace h2 : (if (n % uintMod + 1) % uintMod > max then ret ((n % uintMod + 1) % uintMod, l, acc)
          else andThen (lift (t.removePrefix hd.size)) fun str =>
            starLoop m max f ((n % uintMod + 1) % uintMod) str (l + hd.size) (acc ++ a)) s1 = .ok (o, s') := h2
        have e1 : (n % uintMod + 1) % uintMod = (n + 1) % uintMod := by unfold uintMod; omega
        rw [e1] at h2
        by_cases hc : (n + 1) % uintMod > max
        · rw [if_pos hc] at h2
          obtain ⟨rfl, rfl⟩ := ret_iff.1 h2
          have hm : n = max ∧ max ≠ uintMax ∧ (n + 1) % uintMod = max + 1 := by
            unfold uintMod uintMax at *
            rcases hn with h | h
            · omega
            · by_cases hx : max = 4294967295
              · omega
              · exact ⟨by omega, hx, by omega⟩
          refine ⟨[], s, t, .ok (max + 1), .nil, by simpa using hn, .inr (.inr ⟨_, h1, by simpa using hm.1, hm.2.1, rfl⟩), ?_⟩
          simp [Except.map, hm.2.2]
        · rw [if_neg hc, andThen_iff] at h2
          rcases h2 with ⟨e, h2, rfl⟩ | ⟨t', s2, h2, h3⟩
          · obtain ⟨_, _, h4, _⟩ := lift_iff.1 h2; cases h4
          obtain ⟨_, h4, h5, rfl⟩ := lift_iff.1 h2
          cases h5
          obtain ⟨h6, rfl⟩ := substrFrom_iff.1 (show t.substrFrom hd.chars.length = .ok t' from h4)
          have hn' : max = uintMax ∨ n + 1 ≤ max := by
            unfold uintMod uintMax at *
            rcases hn with h | h
            · exact .inl h
            · by_cases hx : max = 4294967295
              · exact .inl hx
              · right; omega
          obtain ⟨xs, s3, t1, k, g1, g2, g3, g4⟩ := ih (n + 1) _ _ _ _ _ _ hn' h3
          refine ⟨(hd, a) :: xs, s3, t1, k, .cons h1 h6 g1, by simp only [List.length_cons]; omega, ?_, ?_⟩
          · rw [show n + ((hd, a) :: xs).length = n + 1 + xs.length by simp; omega]; exact g3
          · rw [g4]
            congr 1
            funext c
            simp [SV.size, Nat.add_assoc]

theorem starLoop_complete {m : Matcher σ ε α} {max : Nat} (hmax : max < uintMod) {s s1 s' : σ} {t t1 : SV} {xs : List (SV × Acceptors α)}
    (h : Matches m s t xs s1 t1) : ∀ (n l : Nat) (acc : Acceptors α) (k : Except ε Nat), (max = uintMax ∨ n + xs.length ≤ max) →
    LastCall m max (n + xs.length) s1 t1 k s' →
    starLoop m max (xs.length + 1) (n % uintMod) t l acc s =
      .ok (k.map fun c => (c, l + (xs.map (·.1.chars.length)).sum, acc ++ (xs.map (·.2)).flatten), s') := by
  induction h with
  | @nil s t =>
    intro n l acc k hn hl
    show starLoop m max 1 (n % uintMod) t l acc s = _
    rw [starLoop, andThen_iff]
    rcases hl with ⟨e, h1, rfl⟩ | ⟨h1, rfl⟩ | ⟨x, h1, h2, h3, rfl⟩
    · exact .inl ⟨e, h1, rfl⟩
    · refine .inr ⟨_, _, h1, ret_iff.2 ⟨?_, rfl⟩⟩
      simp [Except.map]
    · refine .inr ⟨_, _, h1, ?_⟩
      obtain ⟨hd, a⟩ := x
      show (if (n % uintMod + 1) % uintMod > max then ret ((n % uintMod + 1) % uintMod, l, acc)
          else andThen (lift (t.removePrefix hd.size)) fun str =>
            starLoop m max 0 ((n % uintMod + 1) % uintMod) str (l + hd.size) (acc ++ a)) _ = _
      have e1 : (n % uintMod + 1) % uintMod = max + 1 := by
        simp only [List.length_nil, Nat.add_zero] at h2
        unfold uintMod uintMax at *; omega
      rw [if_pos (by omega), ret_iff]
      refine ⟨?_, rfl⟩
      rw [e1]
      simp [Except.map]
  | @cons s s1 s2 t t' hd a xs h1 h2 h3 ih =>
    intro n l acc k hn hl
    show starLoop m max (xs.length + 1 + 1) (n % uintMod) t l acc s = _
    rw [starLoop, andThen_iff]
    refine .inr ⟨_, _, h1, ?_⟩
    show (if (n % uintMod + 1) % uintMod > max then ret ((n % uintMod + 1) % uintMod, l, acc)
          else andThen (lift (t.removePrefix hd.size)) fun str =>
            starLoop m max (xs.length + 1) ((n % uintMod + 1) % uintMod) str (l + hd.size) (acc ++ a)) s1 = _
    have e1 : (n % uintMod + 1) % uintMod = (n + 1) % uintMod := by unfold uintMod; omega
    simp only [List.length_cons] at hn
    have hc : ¬ (n + 1) % uintMod > max := by
      unfold uintMod uintMax at *; omega
    rw [e1, if_neg hc, andThen_iff]
    refine .inr ⟨_, _, lift_iff.2 ⟨_, substrFrom_iff.2 ⟨h2, rfl⟩, rfl, rfl⟩, ?_⟩
    show starLoop m max (xs.length + 1) ((n + 1) % uintMod) (after t hd.chars.length) (l + hd.chars.length) (acc ++ a) s1 = _
    have hl' : LastCall m max (n + 1 + xs.length) s2 t' k s' := by
      rw [show n + 1 + xs.length = n + ((hd, a) :: xs).length by simp; omega]; exact hl
    rw [ih (n + 1) (l + hd.chars.length) (acc ++ a) k (by omega) hl']
    congr 2
    congr 1
    funext c
    simp [Nat.add_assoc]

end Eff

variable {σ ε α : Type}

/-- Too few matches fail. -/
def atLeast (min n : Nat) (r : Rule α) : Rule α := if n < min then Rule.failed else r

/-- **C86**, `star`: the match function is called on the text, on what its match left, and so on.  All but the last call match, and there is a
last one: it throws, and the exception leaves `star`; or it does not match; or it is one call more than `max`, and what it
matched is not used.  What the calls before it matched is skipped, and their actions are kept, unless they are fewer than `min`
(the call too many counts too; the number is counted modulo 2^32).  If there is no such last call `star` does not return; a match longer than the text
is undefined. -/
theorem C86_star (m : Eff.Matcher σ ε α) (min max : Nat) (hmax : max < 2 ^ 32) (t : SV) (acc : Acceptors α) (s s' : σ) (o : Except ε (Rule α)) :
    (∃ fuel, Eff.star fuel m min max ⟨some t, acc⟩ s = .ok (o, s')) ↔
    ∃ xs s1 t1, Matches m s t xs s1 t1 ∧ (max = 2 ^ 32 - 1 ∨ xs.length ≤ max) ∧
      ((∃ e, m ⟨some t1, []⟩ s1 = .ok (.error e, s') ∧ o = .error e) ∨
       (m ⟨some t1, []⟩ s1 = .ok (.ok none, s') ∧
          o = .ok (atLeast min (xs.length % 2 ^ 32) ⟨some t1, acc ++ (xs.map (·.2)).flatten⟩)) ∨
       (∃ x, m ⟨some t1, []⟩ s1 = .ok (.ok (some x), s') ∧ xs.length = max ∧ max ≠ 2 ^ 32 - 1 ∧
          o = .ok (atLeast min (max + 1) ⟨some t1, acc ++ (xs.map (·.2)).flatten⟩))) := by
  have hmod : (2 : Nat) ^ 32 = uintMod := rfl
  have hone : (2 : Nat) ^ 32 - 1 = uintMax := rfl
  rw [hmod] at hmax ⊢
  rw [show uintMod - 1 = uintMax from rfl]
  -- what follows the loop
  have tailpart : ∀ (xs : List (SV × Acceptors α)) (s1 s' : σ) (t1 : SV) (c : Nat) (o : Except ε (Rule α)), Matches m s t xs s1 t1 →
      ((if c < min then ret Rule.failed
        else andThen (lift (t.substrFrom (0 + (xs.map (·.1.chars.length)).sum))) fun t' => ret ⟨some t', acc ++ (xs.map (·.2)).flatten⟩ : E σ ε (Rule α)) s' = .ok (o, s') ↔
        o = .ok (atLeast min c ⟨some t1, acc ++ (xs.map (·.2)).flatten⟩)) := by
    intro xs s1 s' t1 c o hm
    obtain ⟨rfl, hle⟩ := Eff.Matches.total hm
    unfold atLeast
    by_cases hc : c < min
    · rw [if_pos hc, if_pos hc, Eff.ret_iff]; simp
    · rw [if_neg hc, if_neg hc, Eff.andThen_iff, Nat.zero_add]
      constructor
      · rintro (⟨e, h, rfl⟩ | ⟨b, s2, h, h'⟩)
        · obtain ⟨_, _, h, _⟩ := Eff.lift_iff.1 h; cases h
        · obtain ⟨_, h1, h2, rfl⟩ := Eff.lift_iff.1 h
          cases h2
          obtain ⟨-, rfl⟩ := Eff.substrFrom_iff.1 h1
          exact (Eff.ret_iff.1 h').1
      · rintro rfl
        exact .inr ⟨_, _, Eff.lift_iff.2 ⟨_, Eff.substrFrom_iff.2 ⟨hle, rfl⟩, rfl, rfl⟩, Eff.ret_iff.2 ⟨rfl, rfl⟩⟩
  have unf : ∀ fuel, Eff.star fuel m min max ⟨some t, acc⟩ = andThen (starLoop m max fuel 0 t 0 acc) fun x =>
      if x.1 < min then ret Rule.failed
      else andThen (lift (t.substrFrom x.2.1)) fun t' => ret ⟨some t', x.2.2⟩ := fun _ => rfl
  constructor
  · rintro ⟨fuel, h⟩
    rw [unf, Eff.andThen_iff] at h
    rcases h with ⟨e, h1, rfl⟩ | ⟨x, s1, h1, h2⟩
    · obtain ⟨xs, s1, t1, k, g1, g2, g3, g4⟩ := Eff.starLoop_sound hmax fuel 0 t 0 acc s s' _ (.inr (Nat.zero_le _)) h1
      refine ⟨xs, s1, t1, g1, by simpa using g2, ?_⟩
      rcases g3 with ⟨e', g3, rfl⟩ | ⟨_, rfl⟩ | ⟨_, _, _, _, rfl⟩
      · cases g4; exact .inl ⟨_, g3, rfl⟩
      · cases g4
      · cases g4
    · obtain ⟨xs, s2, t1, k, g1, g2, g3, g4⟩ := Eff.starLoop_sound hmax fuel 0 t 0 acc s s1 _ (.inr (Nat.zero_le _)) h1
      have hs : s' = s1 := by
        revert h2
        by_cases hc : x.1 < min
        · simp only [hc, if_true]; intro h2; exact (Eff.ret_iff.1 h2).2
        · simp only [hc, if_false]
          intro h2
          rcases Eff.andThen_iff.1 h2 with ⟨e, h, -⟩ | ⟨b, s3, h, h'⟩
          · obtain ⟨_, _, h, _⟩ := Eff.lift_iff.1 h; cases h
          · obtain ⟨_, _, _, rfl⟩ := Eff.lift_iff.1 h
            exact (Eff.ret_iff.1 h').2
      subst hs
      refine ⟨xs, s2, t1, g1, by simpa using g2, ?_⟩
      rcases g3 with ⟨e', g3, rfl⟩ | ⟨g3, rfl⟩ | ⟨y, g3, g5, g6, rfl⟩
      · cases g4
      · cases g4
        refine .inr (.inl ⟨g3, ?_⟩)
        have := (tailpart xs s2 s' t1 ((0 + xs.length) % uintMod) o g1).1 h2
        rw [Nat.zero_add] at this
        exact this
      · cases g4
        refine .inr (.inr ⟨y, g3, by omega, g6, ?_⟩)
        exact (tailpart xs s2 s' t1 (max + 1) o g1).1 h2
  · rintro ⟨xs, s1, t1, g1, g2, g3⟩
    refine ⟨xs.length + 1, ?_⟩
    rw [unf, Eff.andThen_iff]
    rcases g3 with ⟨e, g3, rfl⟩ | ⟨g3, rfl⟩ | ⟨x, g3, g4, g5, rfl⟩
    · refine .inl ⟨e, ?_, rfl⟩
      exact Eff.starLoop_complete hmax g1 0 0 acc (.error e) (by simpa using g2) (.inl ⟨e, g3, rfl⟩)
    · refine .inr ⟨_, _, Eff.starLoop_complete hmax g1 0 0 acc (.ok ((0 + xs.length) % uintMod)) (by simpa using g2) (.inr (.inl ⟨g3, rfl⟩)), ?_⟩
      refine (tailpart xs s1 s' t1 ((0 + xs.length) % uintMod) _ g1).2 ?_
      rw [Nat.zero_add]
    · refine .inr ⟨_, _, Eff.starLoop_complete hmax g1 0 0 acc (.ok (max + 1)) (by simpa using g2) (.inr (.inr ⟨x, g3, by omega, g5, rfl⟩)), ?_⟩
      exact (tailpart xs s1 s' t1 (max + 1) _ g1).2 rfl

/-- The entry of an accept function for the text `hd`; none for a call without one. -/
def entry (accept : Option α) (hd : SV) : Acceptors α := (accept.map fun a => (a, hd)).toList

/-- **C86**, `concat`: one call, on the text.  An exception leaves; without a match the result has failed; after a match its text is skipped and its actions are kept,
followed by the accept function, if one was given, for the text matched. -/
theorem C86_concat (m : Eff.Matcher σ ε α) (accept : Option α) (t : SV) (acc : Acceptors α) (s s' : σ) (o : Except ε (Rule α)) :
    Eff.concat m accept ⟨some t, acc⟩ s = .ok (o, s') ↔
      (∃ e, m ⟨some t, []⟩ s = .ok (.error e, s') ∧ o = .error e) ∨
      (m ⟨some t, []⟩ s = .ok (.ok none, s') ∧ o = .ok ⟨none, []⟩) ∨
      (∃ hd a, m ⟨some t, []⟩ s = .ok (.ok (some (hd, a)), s') ∧ hd.chars.length ≤ t.chars.length ∧
        o = .ok ⟨some (after t hd.chars.length), acc ++ (a ++ entry accept hd)⟩) := by
  show andThen (m ⟨some t, []⟩) _ s = _ ↔ _
  rw [Eff.andThen_iff]
  refine or_congr Iff.rfl ?_
  constructor
  · rintro ⟨b, s1, h1, h2⟩
    cases b with
    | none =>
      obtain ⟨rfl, rfl⟩ := Eff.ret_iff.1 h2
      exact .inl ⟨h1, rfl⟩
    | some x =>
      obtain ⟨hd, a⟩ := x
      obtain ⟨r', h3, rfl, rfl⟩ := Eff.lift_iff.1 h2
      obtain ⟨h4, rfl⟩ := Eff.joinMatched_iff.1 h3
      exact .inr ⟨hd, a, h1, h4, rfl⟩
  · rintro (⟨h1, rfl⟩ | ⟨hd, a, h1, h2, rfl⟩)
    · exact ⟨_, _, h1, Eff.ret_iff.2 ⟨rfl, rfl⟩⟩
    · exact ⟨_, _, h1, Eff.lift_iff.2 ⟨_, Eff.joinMatched_iff.2 ⟨h2, rfl⟩, rfl, rfl⟩⟩

/-- **C86**, `optional`: the same, but without a match the rule is as before. -/
theorem C86_optional (m : Eff.Matcher σ ε α) (accept : Option α) (t : SV) (acc : Acceptors α) (s s' : σ) (o : Except ε (Rule α)) :
    Eff.optional m accept ⟨some t, acc⟩ s = .ok (o, s') ↔
      (∃ e, m ⟨some t, []⟩ s = .ok (.error e, s') ∧ o = .error e) ∨
      (m ⟨some t, []⟩ s = .ok (.ok none, s') ∧ o = .ok ⟨some t, acc⟩) ∨
      (∃ hd a, m ⟨some t, []⟩ s = .ok (.ok (some (hd, a)), s') ∧ hd.chars.length ≤ t.chars.length ∧
        o = .ok ⟨some (after t hd.chars.length), acc ++ (a ++ entry accept hd)⟩) := by
  show andThen (andThen (m ⟨some t, []⟩) _) _ s = _ ↔ _
  rw [Eff.andThen_iff]
  constructor
  · rintro (⟨e, h, rfl⟩ | ⟨res, s1, h, h2⟩)
    · rcases Eff.andThen_iff.1 h with ⟨e', h1, h3⟩ | ⟨b, s1, h1, h3⟩
      · cases h3; exact .inl ⟨_, h1, rfl⟩
      · cases b with
        | none => obtain ⟨h3, -⟩ := Eff.ret_iff.1 h3; cases h3
        | some x => obtain ⟨_, _, h3, _⟩ := Eff.lift_iff.1 h3; cases h3
    · obtain ⟨rfl, rfl⟩ := Eff.ret_iff.1 h2
      rcases Eff.andThen_iff.1 h with ⟨e', h1, h3⟩ | ⟨b, s2, h1, h3⟩
      · cases h3
      · cases b with
        | none =>
          obtain ⟨h3, rfl⟩ := Eff.ret_iff.1 h3
          cases h3
          exact .inr (.inl ⟨h1, by simp [Rule.ofSV, Rule.joinRule]⟩)
        | some x =>
          obtain ⟨hd, a⟩ := x
          obtain ⟨r', h4, h5, rfl⟩ := Eff.lift_iff.1 h3
          cases h5
          obtain ⟨h6, rfl⟩ := Eff.joinMatched_iff.1 h4
          exact .inr (.inr ⟨hd, a, h1, h6, rfl⟩)
  · rintro (⟨e, h, rfl⟩ | ⟨h1, rfl⟩ | ⟨hd, a, h1, h2, rfl⟩)
    · exact .inl ⟨e, Eff.andThen_iff.2 (.inl ⟨e, h, rfl⟩), rfl⟩
    · refine .inr ⟨Rule.ofSV t, s', Eff.andThen_iff.2 (.inr ⟨_, _, h1, Eff.ret_iff.2 ⟨rfl, rfl⟩⟩), Eff.ret_iff.2 ⟨?_, rfl⟩⟩
      simp [Rule.ofSV, Rule.joinRule]
    · refine .inr ⟨_, s', Eff.andThen_iff.2 (.inr ⟨_, _, h1, Eff.lift_iff.2 ⟨_, Eff.joinMatched_iff.2 ⟨h2, rfl⟩, rfl, rfl⟩⟩), Eff.ret_iff.2 ⟨rfl, rfl⟩⟩

/-- **C86**, `alternative`: the match functions are called in order, all on the same text, until one matches or throws; those after it are not
called. -/
theorem C86_alternative (ms : List (Eff.Matcher σ ε α)) (t : SV) (acc : Acceptors α) (s s' : σ) (o : Except ε (Rule α)) :
    Eff.alternative ms ⟨some t, acc⟩ s = .ok (o, s') ↔
      (Misses ms s t s' ∧ o = .ok ⟨none, []⟩) ∨
      ∃ before m later s1, ms = before ++ m :: later ∧ Misses before s t s1 ∧
        ((∃ e, m ⟨some t, []⟩ s1 = .ok (.error e, s') ∧ o = .error e) ∨
         (∃ hd a, m ⟨some t, []⟩ s1 = .ok (.ok (some (hd, a)), s') ∧ hd.chars.length ≤ t.chars.length ∧
            o = .ok ⟨some (after t hd.chars.length), acc ++ a⟩)) := by
  induction ms generalizing s with
  | nil =>
    show (ret Rule.failed : Eff.E σ ε (Rule α)) s = _ ↔ _
    rw [Eff.ret_iff]
    constructor
    · rintro ⟨rfl, rfl⟩; exact .inl ⟨.nil, rfl⟩
    · rintro (⟨h, rfl⟩ | ⟨_, _, _, _, h, _⟩)
      · cases h; exact ⟨rfl, rfl⟩
      · simp at h
  | cons m ms ih =>
    show andThen (m ⟨some t, []⟩) _ s = _ ↔ _
    rw [Eff.andThen_iff]
    constructor
    · rintro (⟨e, h, rfl⟩ | ⟨b, s1, h, h2⟩)
      · exact .inr ⟨[], m, ms, s, rfl, .nil, .inl ⟨e, h, rfl⟩⟩
      · cases b with
        | none =>
          rcases (ih s1).1 h2 with ⟨h3, rfl⟩ | ⟨before, m', later, s2, rfl, h4, h5⟩
          · exact .inl ⟨.cons h h3, rfl⟩
          · exact .inr ⟨m :: before, m', later, s2, rfl, .cons h h4, h5⟩
        | some x =>
          obtain ⟨hd, a⟩ := x
          obtain ⟨r', h3, rfl, rfl⟩ := Eff.lift_iff.1 h2
          obtain ⟨h4, rfl⟩ := Eff.joinMatched_iff.1 h3
          exact .inr ⟨[], m, ms, s, rfl, .nil, .inr ⟨hd, a, h, h4, rfl⟩⟩
    · rintro (⟨h, rfl⟩ | ⟨before, m', later, s1, e, h4, h5⟩)
      · cases h with
        | cons h1 h2 => exact .inr ⟨none, _, h1, (ih _).2 (.inl ⟨h2, rfl⟩)⟩
      · cases h4 with
        | nil =>
          simp only [List.nil_append, List.cons.injEq] at e
          obtain ⟨rfl, rfl⟩ := e
          rcases h5 with h5 | ⟨hd, a, h5, h6, rfl⟩
          · exact .inl h5
          · exact .inr ⟨_, _, h5, Eff.lift_iff.2 ⟨_, Eff.joinMatched_iff.2 ⟨h6, rfl⟩, rfl, rfl⟩⟩
        | cons h1 h2 =>
          simp only [List.cons_append, List.cons.injEq] at e
          obtain ⟨rfl, rfl⟩ := e
          exact .inr ⟨none, _, h1, (ih _).2 (.inr ⟨_, _, _, _, rfl, h2, h5⟩)⟩

/-- **C86**, `single_char`: the predicate is called once, for the first character; not at all if there is none. -/
theorem C86_single_char (pred : UInt8 → Eff.E σ ε Bool) (p : Nat) (acc : Acceptors α) (s s' : σ) (o : Except ε (Matched α)) :
    (Eff.singleChar pred ⟨some ⟨p, []⟩, acc⟩ s = .ok (o, s') ↔ o = .ok none ∧ s' = s) ∧
    ∀ c cs, Eff.singleChar pred ⟨some ⟨p, c :: cs⟩, acc⟩ s = .ok (o, s') ↔
      (∃ e, pred c s = .ok (.error e, s') ∧ o = .error e) ∨ (pred c s = .ok (.ok false, s') ∧ o = .ok none) ∨
      (pred c s = .ok (.ok true, s') ∧ o = .ok (some (⟨p, [c]⟩, []))) := by
  refine ⟨Eff.ret_iff, fun c cs => ?_⟩
  show andThen (pred c) _ s = _ ↔ _
  rw [Eff.andThen_iff]
  refine or_congr Iff.rfl ?_
  have hsub : (⟨p, c :: cs⟩ : SV).substr 0 1 = .ok ⟨p, [c]⟩ := by simp [SV.substr]
  constructor
  · rintro ⟨b, s1, h1, h2⟩
    cases b with
    | false => obtain ⟨rfl, rfl⟩ := Eff.ret_iff.1 h2; exact .inl ⟨h1, rfl⟩
    | true =>
      rcases Eff.andThen_iff.1 h2 with ⟨e, h, -⟩ | ⟨v, s2, h3, h4⟩
      · obtain ⟨_, _, h, _⟩ := Eff.lift_iff.1 h; cases h
      · obtain ⟨_, h5, h6, rfl⟩ := Eff.lift_iff.1 h3
        cases h6
        rw [hsub] at h5
        cases h5
        obtain ⟨rfl, rfl⟩ := Eff.ret_iff.1 h4
        exact .inr ⟨h1, rfl⟩
  · rintro (⟨h, rfl⟩ | ⟨h, rfl⟩)
    · exact ⟨_, _, h, Eff.ret_iff.2 ⟨rfl, rfl⟩⟩
    · exact ⟨_, _, h, Eff.andThen_iff.2 (.inr ⟨_, _, Eff.lift_iff.2 ⟨_, hsub, rfl, rfl⟩, Eff.ret_iff.2 ⟨rfl, rfl⟩⟩)⟩

namespace Eff

theorem runAll_iff (run : α → SV → E σ ε Unit) (acc : Acceptors α) (s s' : σ) (o : Except ε Unit) :
    runAll run acc s = .ok (o, s') ↔ (Runs run acc s s' ∧ o = .ok ()) ∨
      ∃ before a v later s1 e, acc = before ++ (a, v) :: later ∧ Runs run before s s1 ∧ run a v s1 = .ok (.error e, s') ∧ o = .error e := by
  induction acc generalizing s with
  | nil =>
    show (ret () : E σ ε Unit) s = _ ↔ _
    rw [ret_iff]
    constructor
    · rintro ⟨rfl, rfl⟩; exact .inl ⟨.nil, rfl⟩
    · rintro (⟨h, rfl⟩ | ⟨_, _, _, _, _, _, h, _⟩)
      · cases h; exact ⟨rfl, rfl⟩
      · simp at h
  | cons x acc ih =>
    obtain ⟨a, v⟩ := x
    show andThen (run a v) (fun _ => runAll run acc) s = _ ↔ _
    rw [andThen_iff]
    constructor
    · rintro (⟨e, h, rfl⟩ | ⟨b, s1, h, h2⟩)
      · exact .inr ⟨[], a, v, acc, s, e, rfl, .nil, h, rfl⟩
      · rcases (ih s1).1 h2 with ⟨h3, rfl⟩ | ⟨before, a', v', later, s2, e, rfl, h4, h5, rfl⟩
        · exact .inl ⟨.cons h h3, rfl⟩
        · exact .inr ⟨(a, v) :: before, a', v', later, s2, e, rfl, .cons h h4, h5, rfl⟩
    · rintro (⟨h, rfl⟩ | ⟨before, a', v', later, s1, e, e1, h4, h5, rfl⟩)
      · cases h with
        | cons h1 h2 => exact .inr ⟨(), _, h1, (ih _).2 (.inl ⟨h2, rfl⟩)⟩
      · cases h4 with
        | nil =>
          simp only [List.nil_append, List.cons.injEq, Prod.mk.injEq] at e1
          obtain ⟨⟨rfl, rfl⟩, rfl⟩ := e1
          exact .inl ⟨e, h5, rfl⟩
        | cons h1 h2 =>
          simp only [List.cons_append, List.cons.injEq, Prod.mk.injEq] at e1
          obtain ⟨⟨rfl, rfl⟩, rfl⟩ := e1
          exact .inr ⟨(), _, h1, (ih _).2 (.inr ⟨_, _, _, _, _, _, rfl, h2, h5, rfl⟩)⟩

end Eff

/-- **C86**, `done`: if text is left, or matching has failed, it answers `false` and runs nothing.  Else it runs the actions in order and answers `true`,
unless one throws: then those before it have run, those after it do not, and the exception leaves.  The rule is `const`: calling `done` again
runs them again. -/
theorem C86_done (run : α → SV → Eff.E σ ε Unit) (r : Rule α) (s s' : σ) (o : Except ε Bool) :
    Eff.done run r s = .ok (o, s') ↔
      ((∀ t, r.tail = some t → t.chars ≠ []) ∧ o = .ok false ∧ s' = s) ∨
      ((∃ t, r.tail = some t ∧ t.chars = []) ∧
        ((Runs run r.acc s s' ∧ o = .ok true) ∨
         ∃ before a v later s1 e, r.acc = before ++ (a, v) :: later ∧ Runs run before s s1 ∧ run a v s1 = .ok (.error e, s') ∧ o = .error e)) := by
  obtain ⟨tl, acc⟩ := r
  cases tl with
  | none =>
    show (ret false : Eff.E σ ε Bool) s = _ ↔ _
    rw [Eff.ret_iff]
    simp
  | some t =>
    show (if t.chars.isEmpty then andThen (runAll run acc) fun _ => ret true else ret false : Eff.E σ ε Bool) s = _ ↔ _
    by_cases ht : t.chars = []
    · rw [if_pos (by simp [ht]), Eff.andThen_iff]
      have e1 : (∀ t', some t = some t' → t'.chars ≠ []) ↔ False := by simp [ht]
      have e2 : (∃ t', some t = some t' ∧ t'.chars = []) ↔ True := by simp [ht]
      simp only [e1, e2, false_and, false_or, true_and]
      constructor
      · rintro (⟨e, h, rfl⟩ | ⟨b, s1, h, h2⟩)
        · rcases (Eff.runAll_iff run acc s s' _).1 h with ⟨_, h⟩ | ⟨b, a, v, l, s1, e', h1, h2, h3, h4⟩
          · cases h
          · cases h4; exact .inr ⟨b, a, v, l, s1, e, h1, h2, h3, rfl⟩
        · obtain ⟨rfl, rfl⟩ := Eff.ret_iff.1 h2
          rcases (Eff.runAll_iff run acc s s' _).1 h with ⟨h, _⟩ | ⟨b, a, v, l, s1, e', h1, h2, h3, h4⟩
          · exact .inl ⟨h, rfl⟩
          · cases h4
      · rintro (⟨h, rfl⟩ | ⟨b, a, v, l, s1, e, h1, h2, h3, rfl⟩)
        · exact .inr ⟨(), s', (Eff.runAll_iff run acc s s' _).2 (.inl ⟨h, rfl⟩), Eff.ret_iff.2 ⟨rfl, rfl⟩⟩
        · exact .inl ⟨e, (Eff.runAll_iff run acc s s' _).2 (.inr ⟨b, a, v, l, s1, e, h1, h2, h3, rfl⟩), rfl⟩
    · rw [if_neg (by simp [ht]), Eff.ret_iff]
      simp [ht]

/-- **C86**: on a rule that has failed nothing is called, whatever the functions are. -/
theorem C86_failed (r : Rule α) (hr : r.tail = none) (m : Eff.Matcher σ ε α) (ms : List (Eff.Matcher σ ε α)) (accept : Option α) (fuel min max : Nat)
    (pred : UInt8 → Eff.E σ ε Bool) (run : α → SV → Eff.E σ ε Unit) (s : σ) :
    (∃ r', Eff.concat m accept r s = .ok (.ok r', s) ∧ r'.tail = none) ∧ (∃ r', Eff.optional m accept r s = .ok (.ok r', s) ∧ r'.tail = none) ∧
    (∃ r', Eff.star fuel m min max r s = .ok (.ok r', s) ∧ r'.tail = none) ∧ (∃ r', Eff.alternative ms r s = .ok (.ok r', s) ∧ r'.tail = none) ∧
    Eff.singleChar pred r s = .ok (.ok none, s) ∧ Eff.done run r s = .ok (.ok false, s) := by
  obtain ⟨tl, acc⟩ := r
  cases hr
  refine ⟨⟨_, rfl, rfl⟩, ⟨_, rfl, rfl⟩, ⟨_, rfl, rfl⟩, ?_, rfl, rfl⟩
  cases ms with
  | nil => exact ⟨_, rfl, rfl⟩
  | cons m ms => exact ⟨_, rfl, rfl⟩

/-- A match function without effects. -/
def Effectless (m : Eff.Matcher σ ε α) (m0 : Verif.Matcher α) : Prop := ∀ r s, m r s = (Eff.lift (m0 r) : Eff.E σ ε (Matched α)) s

namespace Eff

theorem lift_bind {β γ : Type} (x : M β) (f : β → M γ) (g : β → E σ ε γ) (h : ∀ b s, g b s = (lift (f b) : E σ ε γ) s) (s : σ) :
    andThen (lift x) g s = (lift (x >>= f) : E σ ε γ) s := by
  cases x with
  | error e => rfl
  | ok b => exact h b s

theorem starLoop_pure {m : Matcher σ ε α} {m0 : Verif.Matcher α} (h : Effectless m m0) (max : Nat) : ∀ (fuel count : Nat) (t : SV) (l : Nat) (acc : Acceptors α) (s : σ),
    starLoop m max fuel count t l acc s = (lift (Rule.starLoop m0 max fuel count t l acc) : E σ ε _) s := by
  intro fuel
  induction fuel with
  | zero => intro _ _ _ _ _; rfl
  | succ f ih =>
    intro count t l acc s
    rw [starLoop]
    have e0 : ∀ (g : Matched α → E σ ε (Nat × Nat × Acceptors α)), andThen (m (Rule.ofSV t)) g s = andThen (lift (m0 (Rule.ofSV t))) g s := by
      intro g; unfold andThen; rw [h]
    rw [e0]
    have e1 : Rule.starLoop m0 max (f + 1) count t l acc = (m0 (Rule.ofSV t) >>= fun y => match y with
      | none => .ok (count, l, acc)
      | some (head, a) =>
          if (count + 1) % uintMod > max then .ok ((count + 1) % uintMod, l, acc)
          else (t.removePrefix head.size >>= fun str => Rule.starLoop m0 max f ((count + 1) % uintMod) str (l + head.size) (acc ++ a))) := rfl
    rw [e1]
    apply lift_bind
    intro b s
    cases b with
    | none => rfl
    | some x =>
      obtain ⟨hd, a⟩ := x
      by_cases hc : (count + 1) % uintMod > max
      · simp only [hc, if_true]; rfl
      · simp only [hc, if_false]
        refine lift_bind _ _ _ (fun str s => ?_) s
        exact ih _ _ _ _ _

end Eff

/-- **C86**: with match functions that change nothing and do not throw, the members are those of the other theorems. -/
theorem C86_effectless (m : Eff.Matcher σ ε α) (m0 : Verif.Matcher α) (h : Effectless m m0) (ms : List (Eff.Matcher σ ε α × Verif.Matcher α))
    (hs : ∀ x ∈ ms, Effectless x.1 x.2) (accept : Option α) (min max : Nat) (r : Rule α) (s : σ) :
    Eff.concat m accept r s = (Eff.lift (Rule.concatImpl m0 accept false r) : Eff.E σ ε _) s ∧
    Eff.optional m accept r s = (Eff.lift (Rule.optionalA m0 accept r) : Eff.E σ ε _) s ∧
    (∀ t, r.tail = some t → Eff.star (t.size + max + 2) m min max r s = (Eff.lift (Rule.star m0 min max r) : Eff.E σ ε _) s) ∧
    Eff.alternative (ms.map (·.1)) r s = (Eff.lift (Rule.alternative (ms.map (·.2)) r) : Eff.E σ ε _) s := by
  obtain ⟨tl, acc⟩ := r
  have e0 : ∀ (β : Type) (m : Eff.Matcher σ ε α) (m0 : Verif.Matcher α), Effectless m m0 → ∀ (t : SV) (g : Matched α → Eff.E σ ε β) (s : σ),
      andThen (m (Rule.ofSV t)) g s = andThen (lift (m0 (Rule.ofSV t))) g s := by
    intro β m m0 h t g s; unfold andThen; rw [h]
  have hci : ∀ (t : SV) (acc : Acceptors α) (opt : Bool) (s : σ), Eff.concatImpl m accept opt ⟨some t, acc⟩ s =
      (Eff.lift (Rule.concatImpl m0 accept opt ⟨some t, acc⟩) : Eff.E σ ε _) s := by
    intro t acc opt s
    show andThen (m (Rule.ofSV t)) _ s = _
    rw [e0 _ m m0 h]
    have e1 : Rule.concatImpl m0 accept opt ⟨some t, acc⟩ = (m0 (Rule.ofSV t) >>= fun y => match y with
        | some (head, a) => (⟨some t, acc⟩ : Rule α).joinMatched (head, a ++ (accept.map fun a => (a, head)).toList)
        | none => .ok (if opt then ⟨some t, acc⟩ else Rule.failed)) := by
      show (m0 (Rule.ofSV t) >>= _) = _
      congr 1
      funext y
      cases y with
      | none => cases opt <;> rfl
      | some x => cases accept with
        | none => simp
        | some a => rfl
    rw [e1]
    apply Eff.lift_bind
    intro b s
    cases b with
    | none => rfl
    | some x => rfl
  cases tl with
  | none =>
    refine ⟨rfl, rfl, by simp, ?_⟩
    cases ms with
    | nil => rfl
    | cons x ms => rfl
  | some t =>
    refine ⟨hci t acc false s, ?_, ?_, ?_⟩
    · show andThen (Eff.concatImpl m accept true ⟨some t, []⟩) _ s = _
      have e1 : ∀ (g : Rule α → Eff.E σ ε (Rule α)), andThen (Eff.concatImpl m accept true ⟨some t, []⟩) g s =
          andThen (lift (Rule.concatImpl m0 accept true ⟨some t, []⟩)) g s := by
        intro g; unfold andThen; rw [hci]
      rw [e1]
      refine Eff.lift_bind _ _ _ (fun b s => ?_) s
      cases hb : b.tail with
      | none => simp [hb]; rfl
      | some u => simp [hb]; rfl
    · intro t' ht
      cases ht
      show andThen (Eff.starLoop m max (t.size + max + 2) 0 t 0 acc) _ s = _
      have e1 : ∀ (g : _ → Eff.E σ ε (Rule α)), andThen (Eff.starLoop m max (t.size + max + 2) 0 t 0 acc) g s =
          andThen (lift (Rule.starLoop m0 max (t.size + max + 2) 0 t 0 acc)) g s := by
        intro g; unfold andThen; rw [Eff.starLoop_pure h]
      rw [e1]
      refine Eff.lift_bind _ _ _ (fun b s => ?_) s
      obtain ⟨c, l, a⟩ := b
      by_cases hc : c < min
      · simp only [hc, if_true]; rfl
      · simp only [hc, if_false]
        refine Eff.lift_bind _ _ _ (fun _ _ => ?_) s
        rfl
    · induction ms generalizing s with
      | nil => rfl
      | cons x ms ih =>
        show andThen (x.1 (Rule.ofSV t)) _ s = _
        rw [e0 _ x.1 x.2 (hs x (by simp))]
        refine Eff.lift_bind _ _ _ (fun b s => ?_) s
        cases b with
        | none => exact ih (fun y hy => hs y (by simp [hy])) s
        | some y => rfl

/-- **C86**: copies are independent and equal; what is left of a rule that was moved from still has its text, but no actions. -/
theorem C86_moved (run : α → SV → Eff.E σ ε Unit) (r : Rule α) (s : σ) :
    Eff.copied r = (r, r) ∧ (Eff.moved r).1 = r ∧ (Eff.moved r).2.tail = r.tail ∧
    ((∃ t, r.tail = some t ∧ t.chars = []) → Eff.done run (Eff.moved r).2 s = .ok (.ok true, s)) := by
  refine ⟨rfl, rfl, rfl, ?_⟩
  rintro ⟨t, h1, h2⟩
  obtain ⟨tl, acc⟩ := r
  cases h1
  show (if t.chars.isEmpty then andThen (runAll run []) fun _ => ret true else ret false : Eff.E σ ε Bool) s = _
  rw [h2]
  rfl

/-- A match function that matches one `a` and counts how often it was called; it throws at the fourth call. -/
def countA : Eff.Matcher Nat Unit Nat := fun r n =>
  if n = 3 then .ok (.error (), n + 1)
  else match r.tail with
    | some ⟨p, c :: _⟩ => .ok (.ok (if c = 0x61 then some (⟨p, [c]⟩, [(n, ⟨p, [c]⟩)]) else none), n + 1)
    | _ => .ok (.ok none, n + 1)

/-- C86, examples.  `star` with at most one repetition calls the function twice; the second match is not used.  Without a limit it goes on, and an
exception leaves. -/
theorem C86_extra_call_counterexample :
    Eff.star 5 countA 0 1 ⟨some ⟨1, b! "aab"⟩, []⟩ 0 = .ok (.ok ⟨some ⟨2, b! "ab"⟩, [(0, ⟨1, b! "a"⟩)]⟩, 2) ∧
    Eff.star 5 countA 0 7 ⟨some ⟨1, b! "aab"⟩, []⟩ 0 = .ok (.ok ⟨some ⟨3, b! "b"⟩, [(0, ⟨1, b! "a"⟩), (1, ⟨2, b! "a"⟩)]⟩, 3) ∧
    Eff.star 5 countA 0 7 ⟨some ⟨1, b! "aaaaa"⟩, []⟩ 0 = .ok (.error (), 4) ∧
    Eff.alternative [countA, countA, countA] ⟨some ⟨1, b! "b"⟩, []⟩ 1 = .ok (.error (), 4) := by decide +kernel

end Verif
