import Verif.Proofs.PureGrammar
import Verif.Spec.Abnf

/-!
# Soundness and completeness of the combinators; character classes
-/

namespace Verif
open Peg

/-- Texts with acceptors. -/
abbrev Rel := Str → List (Act × Str) → Prop

/-- Whatever `p` matches is a prefix of the input related by `R` to the acceptors. -/
def Sound (p : PG.P) (R : Rel) : Prop := ∀ s u a v, p s = some (u, a, v) → s = u ++ v ∧ R u a

/-- `p` matches every `u` in `R` when what follows satisfies `F`. -/
def Complete (p : PG.P) (R : Rel) (F : Str → Prop) : Prop :=
  ∀ u a v, R u a → F v → p (u ++ v) = some (u, a, v)

/-- A language without acceptors. -/
def Plain (L : Lang) : Rel := fun u a => L u ∧ a = []

/-- Sequence of relations. -/
def RSeq (R S : Rel) : Rel := fun u a => ∃ u1 u2 a1 a2, u = u1 ++ u2 ∧ a = a1 ++ a2 ∧ R u1 a1 ∧ S u2 a2
/-- Attach an acceptor. -/
def RAct (R : Rel) (x : Act) : Rel := fun u a => ∃ a1, a = a1 ++ [(x, u)] ∧ R u a1
/-- Optional. -/
def ROpt (R : Rel) : Rel := fun u a => (u = [] ∧ a = []) ∨ R u a
/-- Repetition. -/
def RRep (R : Rel) (es : List (Str × List (Act × Str))) : Rel := fun u a =>
  u = (es.map Prod.fst).flatten ∧ a = (es.map Prod.snd).flatten ∧ ∀ e ∈ es, R e.1 e.2

theorem sound_seq {p q R S} (hp : Sound p R) (hq : Sound q S) : Sound (seq p q) (RSeq R S) := by
  intro s u a v h
  simp only [Peg.seq] at h
  cases h1 : p s with
  | none => simp [h1] at h
  | some y =>
    obtain ⟨u1, a1, v1⟩ := y
    simp only [h1] at h
    cases h2 : q v1 with
    | none => simp [h2] at h
    | some z =>
      obtain ⟨u2, a2, v2⟩ := z
      simp only [h2, Option.some.injEq, Prod.mk.injEq] at h
      obtain ⟨rfl, rfl, rfl⟩ := h
      obtain ⟨e1, r1⟩ := hp _ _ _ _ h1
      obtain ⟨e2, r2⟩ := hq _ _ _ _ h2
      exact ⟨by rw [e1, e2, List.append_assoc], u1, u2, a1, a2, rfl, rfl, r1, r2⟩

theorem sound_mono {p R S} (hp : Sound p R) (h : ∀ u a, R u a → S u a) : Sound p S := by
  intro s u a v e
  exact ⟨(hp _ _ _ _ e).1, h _ _ (hp _ _ _ _ e).2⟩

theorem sound_seqP {p q A B} (hp : Sound p (Plain A)) (hq : Sound q (Plain B)) :
    Sound (seq p q) (Plain (Abnf.cat A B)) := by
  refine sound_mono (sound_seq hp hq) ?_
  rintro u a ⟨u1, u2, a1, a2, rfl, rfl, ⟨h1, rfl⟩, h2, rfl⟩
  exact ⟨⟨u1, u2, rfl, h1, h2⟩, rfl⟩

theorem sound_act {p R} (hp : Sound p R) (x : Act) : Sound (act p x) (RAct R x) := by
  intro s u a v h
  simp only [Peg.act] at h
  cases h1 : p s with
  | none => simp [h1] at h
  | some y =>
    obtain ⟨u1, a1, v1⟩ := y
    simp only [h1, Option.some.injEq, Prod.mk.injEq] at h
    obtain ⟨rfl, rfl, rfl⟩ := h
    obtain ⟨e1, r1⟩ := hp _ _ _ _ h1
    exact ⟨e1, a1, rfl, r1⟩

theorem sound_opt {p R} (hp : Sound p R) : Sound (opt p) (ROpt R) := by
  intro s u a v h
  simp only [Peg.opt] at h
  cases h1 : p s with
  | none => simp [h1] at h; obtain ⟨rfl, rfl, rfl⟩ := h; exact ⟨rfl, Or.inl ⟨rfl, rfl⟩⟩
  | some y =>
    simp only [h1, Option.some.injEq] at h
    subst h
    obtain ⟨e1, r1⟩ := hp _ _ _ _ h1
    exact ⟨e1, Or.inr r1⟩

theorem sound_optP {p A} (hp : Sound p (Plain A)) : Sound (opt p) (Plain (Abnf.opt A)) := by
  refine sound_mono (sound_opt hp) ?_
  rintro u a (⟨rfl, rfl⟩ | ⟨h, rfl⟩)
  · exact ⟨Or.inl rfl, rfl⟩
  · exact ⟨Or.inr h, rfl⟩

theorem sound_alt_nil {R} : Sound (alt []) R := by intro s u a v h; simp [Peg.alt] at h

theorem sound_alt_cons {p ps R} (hp : Sound p R) (hs : Sound (alt ps) R) : Sound (alt (p :: ps)) R := by
  intro s u a v h
  simp only [Peg.alt] at h
  cases h1 : p s with
  | none => simp [h1] at h; exact hs _ _ _ _ h
  | some y => simp [h1] at h; subst h; exact hp _ _ _ _ h1

theorem sound_altP_cons {p ps A B} (hp : Sound p (Plain A)) (hs : Sound (alt ps) (Plain B)) :
    Sound (alt (p :: ps)) (Plain (Abnf.alt A B)) :=
  sound_alt_cons (sound_mono hp fun _ _ h => ⟨Or.inl h.1, h.2⟩)
    (sound_mono hs fun _ _ h => ⟨Or.inr h.1, h.2⟩)

theorem sound_altP_one {p A} (hp : Sound p (Plain A)) : Sound (alt [p]) (Plain A) :=
  sound_alt_cons hp sound_alt_nil

theorem starLoop_sound {p R} (hp : Sound p R) (max : Nat) : ∀ fuel count s,
    let r := starLoop p max fuel count s
    ∃ es : List (Str × List (Act × Str)), RRep R es r.2.1 r.2.2.1 ∧ s = r.2.1 ++ r.2.2.2 ∧
      (r.1 ≤ count + es.length ∨ (max < r.1 ∧ r.1 ≤ count + es.length + 1)) ∧
      (max < uintMax → count ≤ max → count + es.length ≤ max) ∧
      (max = uintMax → count < uintMod → r.1 = (count + es.length) % uintMod) := by
  intro fuel
  induction fuel with
  | zero =>
    intro count s
    exact ⟨[], by simp [RRep, starLoop], by simp [starLoop], by simp [starLoop], by simp,
      fun _ h => by simp [starLoop, Nat.mod_eq_of_lt h]⟩
  | succ fuel ih =>
    intro count s
    simp only [starLoop]
    cases h1 : p s with
    | none => exact ⟨[], by simp [RRep], by simp, by simp, by simp, fun _ h => by simp [Nat.mod_eq_of_lt h]⟩
    | some y =>
      obtain ⟨u1, a1, v1⟩ := y
      simp only
      have hm : (count + 1) % uintMod ≤ count + 1 := Nat.mod_le _ _
      by_cases hc : (count + 1) % uintMod > max
      · simp only [hc, if_true]
        refine ⟨[], by simp [RRep], by simp, ?_, by simp, fun hm _ => ?_⟩
        · right; simp; omega
        · have : (count + 1) % uintMod < uintMod := Nat.mod_lt _ (by decide)
          unfold uintMax uintMod at *; omega
      · simp only [hc, if_false]
        obtain ⟨es, h2, h3, h4, h5, h6⟩ := ih ((count + 1) % uintMod) v1
        obtain ⟨e1, r1⟩ := hp _ _ _ _ h1
        refine ⟨(u1, a1) :: es, ?_, ?_, ?_, ?_, fun hm' _ => ?_⟩
        · obtain ⟨x1, x2, x3⟩ := h2
          refine ⟨by rw [x1]; simp, by rw [x2]; simp, ?_⟩
          intro e he
          rcases List.mem_cons.1 he with rfl | he
          · exact r1
          · exact x3 e he
        · rw [e1, List.append_assoc, ← h3]
        · simp only [List.length_cons]
          rcases h4 with h4 | h4
          · left; omega
          · right; omega
        · intro hmax hcm
          have hlt : count + 1 < uintMod := by unfold uintMax uintMod at *; omega
          rw [Nat.mod_eq_of_lt hlt] at h5 hc
          simp only [List.length_cons]
          have := h5 hmax (by omega)
          omega
        · rw [h6 hm' (Nat.mod_lt _ (by decide)), List.length_cons, Nat.mod_add_mod]
          congr 1; omega

theorem sound_star {p R} (hp : Sound p R) (min max : Nat) (hmm : min ≤ max) :
    Sound (star p min max) (fun u a => ∃ es, RRep R es u a ∧ min ≤ es.length ∧
      (max < uintMax → es.length ≤ max) ∧ (max = uintMax → min ≤ es.length % uintMod)) := by
  intro s u a v h
  simp only [Peg.star] at h
  obtain ⟨es, h2, h3, h4, h5, h6⟩ := starLoop_sound hp max (s.length + 1) 0 s
  split at h
  · simp at h
  · rename_i hlt
    simp only [Option.some.injEq] at h
    rw [h] at h2 h3
    refine ⟨h3, es, h2, ?_, fun hm => by have := h5 hm (Nat.zero_le _); omega, fun hm => by
      have := h6 hm (by decide); rw [Nat.zero_add] at this; omega⟩
    rcases h4 with h4 | h4 <;> omega

theorem sound_starP {p A} (hp : Sound p (Plain A)) (min : Nat) (hmm : min ≤ uintMax) :
    Sound (star p min uintMax) (Plain (Abnf.rep min none A)) := by
  refine sound_mono (sound_star hp min uintMax hmm) ?_
  rintro u a ⟨es, ⟨rfl, rfl, h⟩, h2, h3, -⟩
  refine ⟨⟨es.map Prod.fst, rfl, ?_, by simpa using h2, by simp⟩, ?_⟩
  · intro e he
    obtain ⟨x, hx, rfl⟩ := List.mem_map.1 he
    exact (h x hx).1
  · rw [List.flatten_eq_nil_iff]
    intro l hl
    obtain ⟨x, hx, rfl⟩ := List.mem_map.1 hl
    exact (h x hx).2

theorem sound_starPB {p A} (hp : Sound p (Plain A)) (min max : Nat) (hmm : min ≤ max) (hm : max < uintMax) :
    Sound (star p min max) (Plain (Abnf.rep min (some max) A)) := by
  refine sound_mono (sound_star hp min max hmm) ?_
  rintro u a ⟨es, ⟨rfl, rfl, h⟩, h2, h3, -⟩
  refine ⟨⟨es.map Prod.fst, rfl, ?_, by simpa using h2, by simpa using h3 hm⟩, ?_⟩
  · intro e he
    obtain ⟨x, hx, rfl⟩ := List.mem_map.1 he
    exact (h x hx).1
  · rw [List.flatten_eq_nil_iff]
    intro l hl
    obtain ⟨x, hx, rfl⟩ := List.mem_map.1 hl
    exact (h x hx).2

/-! ### Completeness -/

theorem complete_seq {p q R S F G} (hp : Complete p R F) (hq : Complete q S G)
    (hFG : ∀ u a v, S u a → G v → F (u ++ v)) : Complete (seq p q) (RSeq R S) G := by
  rintro u a v ⟨u1, u2, a1, a2, rfl, rfl, h1, h2⟩ hG
  simp only [Peg.seq]
  rw [List.append_assoc, hp _ _ _ h1 (hFG _ _ _ h2 hG)]
  simp only [hq _ _ _ h2 hG]

theorem complete_mono {p : PG.P} {R S : Rel} {F G : Str → Prop} (hp : Complete p R F)
    (h : ∀ u a, S u a → R u a) (hF : ∀ v, G v → F v) : Complete p S G :=
  fun u a v hs hg => hp u a v (h _ _ hs) (hF _ hg)

theorem complete_seqP {p q A B F G} (hp : Complete p (Plain A) F) (hq : Complete q (Plain B) G)
    (hFG : ∀ u v, B u → G v → F (u ++ v)) : Complete (seq p q) (Plain (Abnf.cat A B)) G := by
  refine complete_mono (complete_seq hp hq fun u a v h g => hFG u v h.1 g) ?_ (fun _ h => h)
  rintro u a ⟨⟨u1, u2, rfl, h1, h2⟩, rfl⟩
  exact ⟨u1, u2, [], [], rfl, rfl, ⟨h1, rfl⟩, h2, rfl⟩

theorem complete_act {p R F} (hp : Complete p R F) (x : Act) : Complete (act p x) (RAct R x) F := by
  rintro u a v ⟨a1, rfl, h⟩ hF
  simp only [Peg.act, hp _ _ _ h hF]

theorem starLoop_complete {p : PG.P} {R : Rel} {F : Str → Prop} (hp : Complete p R F) (max : Nat)
    (hne : ∀ u a, R u a → u ≠ []) (v : Str) :
    ∀ (es : List (Str × List (Act × Str))),
    (∀ e ∈ es, R e.1 e.2) →
    (∀ es1 e es2, es = es1 ++ e :: es2 → F ((es2.map Prod.fst).flatten ++ v)) →
    ∀ fuel count, count + es.length < uintMod → count + es.length ≤ max →
    ((es.map Prod.fst).flatten ++ v).length < fuel →
    (p v = none ∨ (count + es.length = max ∧ max < uintMax)) →
    ∃ c, starLoop p max fuel count ((es.map Prod.fst).flatten ++ v) =
      (c, (es.map Prod.fst).flatten, (es.map Prod.snd).flatten, v) ∧ count + es.length ≤ c := by
  intro es
  induction es with
  | nil =>
    intro _ _ fuel count h1 h2 h3 h4
    cases fuel with
    | zero => omega
    | succ fuel =>
      simp only [List.map_nil, List.flatten_nil, List.nil_append, starLoop]
      rcases h4 with h4 | h4
      · exact ⟨count, by simp [h4], by simp⟩
      · simp only [List.length_nil, Nat.add_zero] at h4
        cases hpv : p v with
        | none => exact ⟨count, by simp, by simp⟩
        | some y =>
          have hlt : count + 1 < uintMod := by unfold uintMax uintMod at *; omega
          simp only [Nat.mod_eq_of_lt hlt]
          have : count + 1 > max := by omega
          simp [this]
  | cons e es ih =>
    intro hR hF fuel count h1 h2 h3 h4
    cases fuel with
    | zero => omega
    | succ fuel =>
      simp only [List.length_cons] at h1 h2 h4
      have hlt : count + 1 < uintMod := by omega
      simp only [List.map_cons, List.flatten_cons, List.append_assoc, starLoop]
      have he := hR e (by simp)
      rw [hp _ _ _ he (hF [] e es rfl)]
      simp only [Nat.mod_eq_of_lt hlt]
      have hle : ¬ count + 1 > max := by omega
      simp only [hle, if_false]
      have hel : 0 < e.1.length := List.length_pos_iff.2 (hne _ _ he)
      obtain ⟨c, hc1, hc2⟩ := ih (fun x hx => hR x (by simp [hx]))
        (fun es1 x es2 hx => hF (e :: es1) x es2 (by simp [hx])) fuel (count + 1) (by omega) (by omega)
        (by simp only [List.map_cons, List.flatten_cons, List.length_append] at h3 ⊢; omega) (by
          rcases h4 with h4 | h4
          · exact Or.inl h4
          · right; omega)
      refine ⟨c, by rw [hc1], by simp; omega⟩

theorem complete_star_list {p : PG.P} {R : Rel} {F : Str → Prop} (hp : Complete p R F) (min max : Nat)
    (hne : ∀ u a, R u a → u ≠ []) (v : Str) (es : List (Str × List (Act × Str)))
    (hR : ∀ e ∈ es, R e.1 e.2)
    (hF : ∀ es1 e es2, es = es1 ++ e :: es2 → F ((es2.map Prod.fst).flatten ++ v))
    (h1 : es.length < uintMod) (hmin : min ≤ es.length) (hmax : es.length ≤ max)
    (h4 : p v = none ∨ (es.length = max ∧ max < uintMax)) :
    star p min max ((es.map Prod.fst).flatten ++ v) =
      some ((es.map Prod.fst).flatten, (es.map Prod.snd).flatten, v) := by
  obtain ⟨c, e1, e2⟩ := starLoop_complete hp max hne v es hR hF
    (((es.map Prod.fst).flatten ++ v).length + 1) 0 (by omega) (by omega) (by omega)
    (by simpa using h4)
  simp only [Peg.star]
  rw [e1]
  simp only
  rw [if_neg (by omega)]

/-- With the default upper limit the loop takes every element, counting them modulo 2^32. -/
theorem starLoop_completeU {p : PG.P} {R : Rel} {F : Str → Prop} (hp : Complete p R F)
    (hne : ∀ u a, R u a → u ≠ []) (v : Str) (hv : p v = none) :
    ∀ (es : List (Str × List (Act × Str))),
    (∀ e ∈ es, R e.1 e.2) →
    (∀ es1 e es2, es = es1 ++ e :: es2 → F ((es2.map Prod.fst).flatten ++ v)) →
    ∀ fuel count, count < uintMod → ((es.map Prod.fst).flatten ++ v).length < fuel →
    starLoop p uintMax fuel count ((es.map Prod.fst).flatten ++ v) =
      ((count + es.length) % uintMod, (es.map Prod.fst).flatten, (es.map Prod.snd).flatten, v) := by
  intro es
  induction es with
  | nil =>
    intro _ _ fuel count h1 h3
    cases fuel with
    | zero => omega
    | succ fuel => simp [starLoop, hv, Nat.mod_eq_of_lt h1]
  | cons e es ih =>
    intro hR hF fuel count h1 h3
    cases fuel with
    | zero => omega
    | succ fuel =>
      simp only [List.map_cons, List.flatten_cons, List.append_assoc, starLoop]
      have he := hR e (by simp)
      rw [hp _ _ _ he (hF [] e es rfl)]
      have hlt : (count + 1) % uintMod < uintMod := Nat.mod_lt _ (by decide)
      have hle : ¬ (count + 1) % uintMod > uintMax := by unfold uintMax uintMod at *; omega
      simp only [hle, if_false]
      have hel : 0 < e.1.length := List.length_pos_iff.2 (hne _ _ he)
      rw [ih (fun x hx => hR x (by simp [hx])) (fun es1 x es2 hx => hF (e :: es1) x es2 (by simp [hx])) fuel _ hlt
        (by simp only [List.map_cons, List.flatten_cons, List.length_append] at h3 ⊢; omega)]
      rw [Nat.mod_add_mod, List.length_cons, show count + 1 + es.length = count + (es.length + 1) by omega]

theorem complete_star_listU {p : PG.P} {R : Rel} {F : Str → Prop} (hp : Complete p R F) (min : Nat)
    (hne : ∀ u a, R u a → u ≠ []) (v : Str) (es : List (Str × List (Act × Str)))
    (hR : ∀ e ∈ es, R e.1 e.2)
    (hF : ∀ es1 e es2, es = es1 ++ e :: es2 → F ((es2.map Prod.fst).flatten ++ v))
    (hmin : min ≤ es.length % uintMod) (hv : p v = none) :
    star p min uintMax ((es.map Prod.fst).flatten ++ v) =
      some ((es.map Prod.fst).flatten, (es.map Prod.snd).flatten, v) := by
  simp only [Peg.star]
  rw [starLoop_completeU hp hne v hv es hR hF _ 0 (by decide) (by omega)]
  simp only [Nat.zero_add]
  rw [if_neg (by omega)]

/-! ### Characters -/

/-- Strings of one character of a class. -/
def Cls (f : UInt8 → Bool) : Lang := fun u => ∃ c, u = [c] ∧ f c = true

theorem sound_chr (f) : Sound (chr f) (Plain (Cls f)) := by
  intro s u a v h
  cases s with
  | nil => simp [chr] at h
  | cons c s =>
    simp only [chr] at h
    split at h
    · rename_i hc
      simp only [Option.some.injEq, Prod.mk.injEq] at h
      obtain ⟨rfl, rfl, rfl⟩ := h
      exact ⟨rfl, ⟨c, rfl, hc⟩, rfl⟩
    · simp at h

theorem complete_chr (f) : Complete (chr f) (Plain (Cls f)) (fun _ => True) := by
  rintro u a v ⟨⟨c, rfl, hc⟩, rfl⟩ _
  simp [chr, hc]

theorem chr_none_of_head {f : UInt8 → Bool} {v : Str} (h : ∀ c, v.head? = some c → f c = false) :
    (chr f : PG.P) v = none := by
  cases v with
  | nil => rfl
  | cons c s => simp [chr, h c (by simp)]

theorem sound_langeq {p : PG.P} {A B : Lang} (hp : Sound p (Plain A)) (h : ∀ u, A u → B u) : Sound p (Plain B) :=
  sound_mono hp fun _ _ hx => ⟨h _ hx.1, hx.2⟩

theorem complete_langeq {p : PG.P} {A B : Lang} {F} (hp : Complete p (Plain A) F) (h : ∀ u, B u → A u) :
    Complete p (Plain B) F :=
  complete_mono hp (fun _ _ hx => ⟨h _ hx.1, hx.2⟩) fun _ h => h

end Verif
