import Verif.Proofs.CompleteHost

/-!
# Completeness of `IPv6address`, `IP-literal` and `host`
-/

namespace Verif
open Peg

set_option linter.unusedSimpArgs false

theorem seq_assoc (p q r : PG.P) : seq (seq p q) r = seq p (seq q r) := by
  funext s
  simp only [Peg.seq]
  cases h1 : p s with
  | none => rfl
  | some y =>
    obtain ⟨u, a, v⟩ := y
    simp only
    cases h2 : q v with
    | none => rfl
    | some z =>
      obtain ⟨u', a', v'⟩ := z
      simp only
      cases h3 : r v' with
      | none => rfl
      | some w => simp [List.append_assoc]

/-! ### Shape of an address -/

theorem colons_of_rep {m n u} (h : Abnf.rep m n Abnf.h16c u) :
    ∃ gs, u = colons gs ∧ (∀ g ∈ gs, Abnf.h16 g) ∧ m ≤ gs.length ∧ ∀ k, n = some k → gs.length ≤ k := by
  obtain ⟨es, rfl, he, h1, h2⟩ := h
  have : ∀ es : List Str, (∀ e ∈ es, Abnf.h16c e) →
      ∃ gs, es.flatten = colons gs ∧ (∀ g ∈ gs, Abnf.h16 g) ∧ gs.length = es.length := by
    intro es
    induction es with
    | nil => intro _; exact ⟨[], rfl, by simp, rfl⟩
    | cons e es ih =>
      intro he
      obtain ⟨gs, e1, e2, e3⟩ := ih fun x hx => he x (by simp [hx])
      obtain ⟨g, _, e4, hg, rfl⟩ := he e (by simp)
      refine ⟨g :: gs, ?_, ?_, by simp [e3]⟩
      · rw [colons_cons, List.flatten_cons, e1, e4]; simp
      · intro x hx
        rcases List.mem_cons.1 hx with rfl | hx
        · exact hg
        · exact e2 x hx
  obtain ⟨gs, e1, e2, e3⟩ := this es he
  exact ⟨gs, e1, e2, by omega, fun k hk => by have := h2 k hk; omega⟩

theorem left_of {n u} (h : Abnf.opt (Abnf.cat (Abnf.upTo n Abnf.h16c) Abnf.h16) u) :
    ∃ ls, u = groups ls ∧ (∀ g ∈ ls, Abnf.h16 g) ∧ ls.length ≤ n + 1 := by
  rcases h with rfl | ⟨a, g, rfl, ha, hg⟩
  · exact ⟨[], rfl, by simp, by simp⟩
  · obtain ⟨gs, rfl, h1, -, h3⟩ := colons_of_rep ha
    refine ⟨gs ++ [g], (groups_snoc _ _).symm, ?_, ?_⟩
    · intro x hx
      rcases List.mem_append.1 hx with hx | hx
      · exact h1 x hx
      · simp at hx; subst hx; exact hg
    · have := h3 n rfl; simp; omega

theorem left1_of {u} (h : Abnf.opt Abnf.h16 u) :
    ∃ ls, u = groups ls ∧ (∀ g ∈ ls, Abnf.h16 g) ∧ ls.length ≤ 1 := by
  rcases h with rfl | h
  · exact ⟨[], rfl, by simp, by simp⟩
  · exact ⟨[u], rfl, by simpa using h, by simp⟩

theorem right_of_ls32 {gs u} (hg : ∀ g ∈ gs, Abnf.h16 g) (h : Abnf.ls32 u) :
    ∃ R : Right, colons gs ++ u = R.text ∧ R.Ok ∧ R.size = gs.length + 2 := by
  rcases h with ⟨a, _, rfl, ha, _, b, rfl, rfl, hb⟩ | h
  · refine ⟨.hex ((gs ++ [a]) ++ [b]), ?_, ?_, by simp [Right.size]⟩
    · simp only [Right.text]; rw [groups_snoc]; simp [colons]
    · intro x hx
      simp only [List.mem_append, List.mem_singleton] at hx
      rcases hx with (hx | rfl) | rfl
      · exact hg x hx
      · exact ha
      · exact hb
  · exact ⟨.v4 gs u, rfl, ⟨hg, h⟩, rfl⟩

theorem right_of {n u} (h : Abnf.cat (Abnf.times n Abnf.h16c) Abnf.ls32 u) :
    ∃ R : Right, u = R.text ∧ R.Ok ∧ R.size = n + 2 := by
  obtain ⟨a, b, rfl, ha, hb⟩ := h
  obtain ⟨gs, rfl, h1, h2, h3⟩ := colons_of_rep ha
  obtain ⟨R, e1, e2, e3⟩ := right_of_ls32 h1 hb
  have := h3 n rfl
  exact ⟨R, e1, e2, by omega⟩

theorem right_of1 {u} (h : Abnf.cat Abnf.h16c Abnf.ls32 u) :
    ∃ R : Right, u = R.text ∧ R.Ok ∧ R.size = 3 := by
  obtain ⟨_, b, rfl, ⟨g, _, rfl, hg, rfl⟩, hb⟩ := h
  obtain ⟨R, e1, e2, e3⟩ := right_of_ls32 (gs := [g]) (by simpa using hg) hb
  exact ⟨R, by rw [← e1]; simp [colons], e2, e3⟩

/-- An IPv6 address is eight pieces, or a `::` with at most seven pieces around it. -/
theorem ipv6_shape {u} (h : Abnf.IPv6address u) :
    (∃ R : Right, R.Ok ∧ R.size = 8 ∧ u = R.text) ∨
    (∃ ls, ∃ R : Right, (∀ g ∈ ls, Abnf.h16 g) ∧ R.Ok ∧ ls.length + R.size ≤ 7 ∧
      u = groups ls ++ (b! "::" ++ R.text)) := by
  rcases h with h | h | h | h | h | h | h | h | h
  · obtain ⟨R, e1, e2, e3⟩ := right_of h
    exact Or.inl ⟨R, e2, e3, e1⟩
  · obtain ⟨_, _, rfl, rfl, h⟩ := h
    obtain ⟨R, rfl, e2, e3⟩ := right_of h
    exact Or.inr ⟨[], R, by simp, e2, by simp [e3], rfl⟩
  · obtain ⟨_, _, rfl, hl, _, _, rfl, rfl, h⟩ := h
    obtain ⟨R, rfl, e2, e3⟩ := right_of h
    obtain ⟨ls, rfl, l1, l2⟩ := left1_of hl
    exact Or.inr ⟨ls, R, l1, e2, by omega, rfl⟩
  · obtain ⟨_, _, rfl, hl, _, _, rfl, rfl, h⟩ := h
    obtain ⟨R, rfl, e2, e3⟩ := right_of h
    obtain ⟨ls, rfl, l1, l2⟩ := left_of hl
    exact Or.inr ⟨ls, R, l1, e2, by omega, rfl⟩
  · obtain ⟨_, _, rfl, hl, _, _, rfl, rfl, h⟩ := h
    obtain ⟨R, rfl, e2, e3⟩ := right_of h
    obtain ⟨ls, rfl, l1, l2⟩ := left_of hl
    exact Or.inr ⟨ls, R, l1, e2, by omega, rfl⟩
  · obtain ⟨_, _, rfl, hl, _, _, rfl, rfl, h⟩ := h
    obtain ⟨R, rfl, e2, e3⟩ := right_of1 h
    obtain ⟨ls, rfl, l1, l2⟩ := left_of hl
    exact Or.inr ⟨ls, R, l1, e2, by omega, rfl⟩
  · obtain ⟨_, _, rfl, hl, _, _, rfl, rfl, h⟩ := h
    obtain ⟨R, e1, e2, e3⟩ := right_of_ls32 (gs := []) (by simp) h
    obtain ⟨ls, rfl, l1, l2⟩ := left_of hl
    refine Or.inr ⟨ls, R, l1, e2, by simp at e3; omega, ?_⟩
    rw [← e1]; rfl
  · obtain ⟨_, _, rfl, hl, _, g, rfl, rfl, h⟩ := h
    obtain ⟨ls, rfl, l1, l2⟩ := left_of hl
    exact Or.inr ⟨ls, .hex [g], l1, by simpa [Right.Ok] using h, by simp [Right.size]; omega, rfl⟩
  · obtain ⟨_, _, rfl, hl, rfl⟩ := h
    obtain ⟨ls, rfl, l1, l2⟩ := left_of hl
    refine Or.inr ⟨ls, .hex [], l1, by simp [Right.Ok], by simp [Right.size]; omega, ?_⟩
    simp [Right.text, groups]

/-! ### Running the alternatives -/

theorem r1_none {ls : List Str} (hl : ∀ g ∈ ls, Abnf.h16 g) (hn : ls.length ≤ 7) (x : Str) :
    PG.ipv6r1 (groups ls ++ (b! "::" ++ x)) = none := by
  have ccn : NotHead isXDigitB (b! "::" ++ x) := colon_notHex _
  rcases snoc_cases ls with rfl | ⟨gs, g, rfl⟩
  · refine seq_none_l ?_
    show star PG.h16Colon 6 6 (b! "::" ++ x) = none
    rw [star_cc_nil (h16Colon_none' ccn)]; simp
  · have hg : Abnf.h16 g := hl g (by simp)
    have hgs : ∀ x ∈ gs, Abnf.h16 x := fun x hx => hl x (by simp [hx])
    have hfail : PG.h16Colon (g ++ (b! "::" ++ x)) = none := h16Colon_none hg ccn (by simp)
    simp at hn
    rw [groups_snoc, List.append_assoc]
    by_cases h6 : gs.length = 6
    · exact seq_none_r (star_colons_some (by decide) hgs (h16_not_colon hg) (by omega) (by omega) (Or.inr h6)) (ls32_cc hg)
    · exact seq_none_l (star_colons_none (by decide) hgs (h16_not_colon hg) (by omega) (by omega) hfail)

/-- One of the forms with `::`: a front taking at most `k` groups and a back of `m + 2` pieces. -/
theorem form_eval {F : PG.P} {m k : Nat} {ls : List Str} {R : Right} {v : Str} (hR : R.Ok)
    (hv : V6Follow v) (hm : m < uintMax)
    (hF : F (groups ls ++ (b! "::" ++ (R.text ++ v))) =
      if ls.length ≤ k then some (groups ls ++ b! "::", [], R.text ++ v) else none)
    (hk : R.size = m + 2 → ls.length ≤ k) :
    (R.size = m + 2 → seq F (seq (star PG.h16Colon m m) PG.ls32) (groups ls ++ (b! "::" ++ (R.text ++ v))) =
      some (groups ls ++ (b! "::" ++ R.text), [], v)) ∧
    (R.size < m + 2 → seq F (seq (star PG.h16Colon m m) PG.ls32) (groups ls ++ (b! "::" ++ (R.text ++ v))) = none) := by
  obtain ⟨b1, b2⟩ := back_eval m hm R hR hv
  refine ⟨fun h => ?_, fun h => ?_⟩
  · rw [if_pos (hk h)] at hF
    have := seq_some hF (b1 h)
    simpa [List.append_assoc] using this
  · by_cases hl : ls.length ≤ k
    · rw [if_pos hl] at hF
      exact seq_none_r hF (b2 h)
    · rw [if_neg hl] at hF
      exact seq_none_l hF

theorem star_zero (p : PG.P) (s : Str) : star p 0 0 s = some ([], [], s) := by
  simp only [Peg.star, starLoop]
  cases p s with
  | none => rfl
  | some y => simp [uintMod]

theorem seq_star_zero (p q : PG.P) : seq (star p 0 0) q = q := by
  funext s
  simp only [Peg.seq, star_zero]
  cases q s with
  | none => rfl
  | some y => simp

/-- Exactly one repetition, for a rule that cannot match nothing. -/
theorem star_one (p : PG.P) (s : Str) (h : p [] = none) :
    star p 1 1 s = p s := by
  cases s with
  | nil => simp [Peg.star, starLoop, h]
  | cons c t =>
    simp only [Peg.star, List.length_cons, starLoop]
    cases p (c :: t) with
    | none => simp
    | some y =>
      obtain ⟨u, a, v⟩ := y
      have e1 : (0 + 1) % uintMod = 1 := by decide
      have e2 : (1 + 1) % uintMod = 2 := by decide
      simp only [e1]
      cases p v with
      | none => simp
      | some z => simp [e2]

theorem h16Colon_nil : PG.h16Colon [] = none := by rfl

theorem r6_eq : PG.ipv6r6 = seq (front 3) (seq (star PG.h16Colon 1 1) PG.ls32) := by
  have : star PG.h16Colon 1 1 = PG.h16Colon := by funext s; exact star_one _ _ h16Colon_nil
  rw [this, PG.ipv6r6, seq_assoc, front]

theorem r7_eq : PG.ipv6r7 = seq (front 4) (seq (star PG.h16Colon 0 0) PG.ls32) := by
  rw [seq_star_zero]; rfl

theorem ipv6_complete {u v : Str} (hu : Abnf.IPv6address u) (hv : V6Follow v) :
    PG.ipv6address (u ++ v) = some (u, [], v) := by
  rcases ipv6_shape hu with ⟨R, hR, hs, rfl⟩ | ⟨ls, R, hl, hR, hs, rfl⟩
  · exact alt_hd ((back_eval 6 (by decide) R hR hv).1 hs)
  · have e0 : groups ls ++ (b! "::" ++ R.text) ++ v = groups ls ++ (b! "::" ++ (R.text ++ v)) := by simp
    rw [e0]
    have h1 := r1_none hl (by omega) (R.text ++ v)
    have f2 := fun (_ : R.size ≤ 7) => form_eval (m := 5) hR hv (by decide) (cc_eval ls hl (R.text ++ v)) (by omega)
    have f3 := fun (_ : R.size ≤ 6) => form_eval (m := 4) hR hv (by decide) (front0_eval ls hl (R.text ++ v)) (by omega)
    have f4 := fun (_ : R.size ≤ 5) => form_eval (m := 3) hR hv (by decide) (front_eval 1 (by decide) ls hl (R.text ++ v)) (by omega)
    have f5 := fun (_ : R.size ≤ 4) => form_eval (m := 2) hR hv (by decide) (front_eval 2 (by decide) ls hl (R.text ++ v)) (by omega)
    have f6 := fun (_ : R.size ≤ 3) => form_eval (m := 1) hR hv (by decide) (front_eval 3 (by decide) ls hl (R.text ++ v)) (by omega)
    have f7 := fun (_ : R.size ≤ 2) => form_eval (m := 0) hR hv (by decide) (front_eval 4 (by decide) ls hl (R.text ++ v)) (by omega)
    rw [← r6_eq] at f6
    rw [← r7_eq] at f7
    have q2 : PG.ipv6r2 = seq PG.colonColon (seq (star PG.h16Colon 5 5) PG.ls32) := seq_assoc _ _ _
    have q3 : PG.ipv6r3 = seq (seq (opt PG.h16) PG.colonColon) (seq (star PG.h16Colon 4 4) PG.ls32) := seq_assoc _ _ _
    have q4 : PG.ipv6r4 = seq (front 1) (seq (star PG.h16Colon 3 3) PG.ls32) := seq_assoc _ _ _
    have q5 : PG.ipv6r5 = seq (front 2) (seq (star PG.h16Colon 2 2) PG.ls32) := seq_assoc _ _ _
    rw [← q2] at f2; rw [← q3] at f3; rw [← q4] at f4; rw [← q5] at f5
    simp only [PG.ipv6address]
    rw [alt_tl h1]
    by_cases s7 : R.size = 7
    · exact alt_hd ((f2 (by omega)).1 s7)
    rw [alt_tl ((f2 (by omega)).2 (by omega))]
    by_cases s6 : R.size = 6
    · exact alt_hd ((f3 (by omega)).1 s6)
    rw [alt_tl ((f3 (by omega)).2 (by omega))]
    by_cases s5 : R.size = 5
    · exact alt_hd ((f4 (by omega)).1 s5)
    rw [alt_tl ((f4 (by omega)).2 (by omega))]
    by_cases s4 : R.size = 4
    · exact alt_hd ((f5 (by omega)).1 s4)
    rw [alt_tl ((f5 (by omega)).2 (by omega))]
    by_cases s3 : R.size = 3
    · exact alt_hd ((f6 (by omega)).1 s3)
    rw [alt_tl ((f6 (by omega)).2 (by omega))]
    by_cases s2 : R.size = 2
    · exact alt_hd ((f7 (by omega)).1 s2)
    rw [alt_tl ((f7 (by omega)).2 (by omega))]
    -- at most one group on the right
    cases R with
    | v4 rs q => simp only [Right.size] at *; omega
    | hex rs =>
      have hle : rs.length ≤ 1 := by simp only [Right.size] at hs s2 s3 s4 s5 s6 s7; omega
      simp only [Right.size] at hs
      clear f2 f3 f4 f5 f6 f7 q2 q3 q4 q5 h1 e0 s2 s3 s4 s5 s6 s7
      match rs, hR, hs, hle with
      | [g], hR, hs, _ =>
        have hg : Abnf.h16 g := hR g (by simp)
        have e := front_eval 5 (by decide) ls hl (g ++ v)
        simp at hs
        rw [if_pos (by omega)] at e
        have := seq_some e (h16_complete hg (Or.inl hv.notHex))
        refine alt_hd ?_
        simpa [Right.text, groups, List.append_assoc, PG.ipv6r8, front] using this
      | [], hR, hs, _ =>
        simp at hs
        have e8 : PG.ipv6r8 (groups ls ++ (b! "::" ++ ((Right.hex []).text ++ v))) = none := by
          have e := front_eval 5 (by decide) ls hl v
          by_cases h : ls.length ≤ 5 + 1
          · rw [if_pos h] at e; exact seq_none_r e (h16_none hv.notHex)
          · rw [if_neg h] at e; exact seq_none_l e
        rw [alt_tl e8]
        have e := front_eval 6 (by decide) ls hl v
        rw [if_pos (by omega)] at e
        refine alt_hd ?_
        simpa [Right.text, groups, PG.ipv6r9, front] using e
      | _ :: _ :: _, _, _, hle => simp at hle

end Verif
