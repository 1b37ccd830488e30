import Verif.Model.PunyCost
import Verif.Proofs.Cost
import Verif.Proofs.CostBound
import Verif.Proofs.Punycode

/-!
# How long Punycode takes
-/

set_option linter.unusedSimpArgs false

namespace Verif.Cost
open Puny

/-! ### Forgetting the count -/

theorem vliLoop_fst (bias : Nat) : ∀ fuel k q, (vliLoop bias fuel k q).1 = encodeVliLoop bias fuel k q := by
  intro fuel
  induction fuel with
  | zero => intro k q; rfl
  | succ fuel ih =>
    intro k q
    unfold vliLoop encodeVliLoop
    simp only [tick_fst]
    by_cases h1 : q < clamp k bias
    · simp only [h1, if_true, andThen_fst, ret_fst]
    · by_cases h2 : base < clamp k bias
      · simp only [h1, h2, if_true, if_false, ret_fst]
      · simp only [h1, h2, if_false, andThen_fst, ret_fst, ih]

theorem vli_fst (q bias : Nat) : (vli q bias).1 = encodeVli q bias := vliLoop_fst _ _ _ _

theorem adaptLoop_fst : ∀ fuel d k, (adaptLoop fuel d k).1 = Puny.adaptLoop fuel d k := by
  intro fuel
  induction fuel with
  | zero => intro k q; rfl
  | succ fuel ih =>
    intro d k
    unfold adaptLoop Puny.adaptLoop
    simp only [tick_fst]
    split
    · exact ih _ _
    · rfl

theorem adapt_fst (d n : Nat) (f : Bool) : (adapt d n f).1 = Puny.adapt d n f := adaptLoop_fst _ _ _

theorem encStep_fst (nb n : Nat) (st : EncSt) (c : Nat) : (encStep nb n st c).1 = Puny.encStep nb n st c := by
  unfold encStep Puny.encStep
  simp only [tick_fst]
  split
  · rfl
  · split
    · simp only [andThen_fst, vli_fst, adapt_fst, ret_fst]
    · rfl

theorem encPass_fst (nb n : Nat) : ∀ l st, (encPass nb n l st).1 = Puny.encPass nb n l st := by
  intro l
  induction l with
  | nil => intro st; rfl
  | cons c l ih =>
    intro st
    unfold encPass Puny.encPass
    simp only [andThen_fst, encStep_fst, ih]

theorem encLoop_fst (nb : Nat) (range : List Nat) : ∀ ms n st, (encLoop nb range ms n st).1 = Puny.encLoop nb range ms n st := by
  intro ms
  induction ms with
  | nil => intro n st; rfl
  | cons m ms ih =>
    intro n st
    unfold encLoop Puny.encLoop
    simp only [tick_fst]
    split
    · rfl
    · simp only [andThen_fst, encPass_fst, ih]

theorem encode_fst (range : List Nat) (ap : Bool) : (encode range ap).1 = Puny.encode range ap := by
  unfold encode Puny.encode
  simp only [tick_fst]
  split
  · rfl
  · simp only [tick_fst, andThen_fst, encLoop_fst, ret_fst]

theorem decodeVliLoop_fst (bias : Nat) : ∀ s w k v, (decodeVliLoop bias s w k v).1 = Puny.decodeVliLoop bias s w k v := by
  intro s
  induction s with
  | nil => intro w k v; rfl
  | cons c s ih =>
    intro w k v
    unfold decodeVliLoop Puny.decodeVliLoop
    simp only [tick_fst]
    split
    · rfl
    · split
      · rfl
      · split
        · rfl
        · split
          · rfl
          · split
            · rfl
            · exact ih _ _ _

theorem decodeLoop_fst : ∀ fuel s o n i b, (decodeLoop fuel s o n i b).1 = Puny.decodeLoop fuel s o n i b := by
  intro fuel
  induction fuel with
  | zero => intros; rfl
  | succ fuel ih =>
    intro s o n i b
    unfold decodeLoop Puny.decodeLoop
    simp only [tick_fst]
    cases s with
    | nil => rfl
    | cons c s =>
      simp only [andThen_fst, decodeVli, decodeVliLoop_fst]
      unfold Puny.decodeVli
      cases Puny.decodeVliLoop b (c :: s) 1 base i with
      | error e => rfl
      | ok r =>
        cases r with
        | error e => rfl
        | ok r =>
          obtain ⟨v, rest⟩ := r
          simp only [bind, Except.bind, andThen_fst, adapt_fst]
          cases Puny.adapt ((v + (szMod - i)) % szMod) ((o.length + 1) % szMod) (i == 0) with
          | error e => rfl
          | ok b' =>
            simp only []
            split
            · rfl
            · simp only [andThen_fst, insertAt, tick_fst, ret_fst, bind, Except.bind]
              cases Puny.insertAt o (v % ((o.length + 1) % szMod)) ((n + v / ((o.length + 1) % szMod)) % szMod % u32Mod) with
              | error e => rfl
              | ok o' => exact ih _ _ _ _ _

theorem decode_fst (bidi : Bool) (s : Str) : (decode bidi s).1 = Puny.decode bidi s := by
  unfold decode Puny.decode
  simp only [andThen_fst, copyPlain, tick_fst, ret_fst]
  cases Puny.copyPlain bidi s with
  | error e => rfl
  | ok r =>
    cases r with
    | error e => rfl
    | ok r => obtain ⟨lit, rest⟩ := r; exact decodeLoop_fst _ _ _ _ _ _

/-! ### Bounds from above -/

theorem andThen_le {β γ : Type} {x : CM β} {f : β → CM γ} {a c : Nat} (h1 : x.2 ≤ a) (h2 : ∀ b, x.1 = .ok b → (f b).2 ≤ c) :
    (andThen x f).2 ≤ a + c := by
  cases h : x.1 with
  | error e => rw [andThen_error h]; exact Nat.le_trans h1 (Nat.le_add_right _ _)
  | ok b => rw [andThen_ok h]; exact Nat.add_le_add h1 (h2 b h)

theorem clamp_range (k bias : Nat) : 1 ≤ clamp k bias ∧ clamp k bias ≤ 26 := by
  unfold clamp
  have := Nat.mod_le (bias + tmax) szMod
  simp only [tmin, tmax] at *
  by_cases h1 : k ≤ bias
  · simp [h1]
  · by_cases h2 : k ≥ (bias + 26) % szMod
    · simp [h1, h2]
    · simp only [h1, h2, if_false]; omega

theorem vliLoop_steps (bias : Nat) : ∀ (j fuel k q : Nat), q < 10 ^ j → (vliLoop bias fuel k q).2 ≤ j + 1 := by
  intro j
  induction j with
  | zero =>
    intro fuel k q h
    cases fuel with
    | zero => exact Nat.zero_le _
    | succ fuel =>
      have hq : q < clamp k bias := by have := (clamp_range k bias).1; simp at h; omega
      unfold vliLoop
      simp only [hq, if_true, tick_snd]
      have : (andThen (ret (encodeDigit (q % u32Mod))) fun d => ret (.ok [d])).2 ≤ 0 + 0 := andThen_le (by simp) (by simp)
      omega
  | succ j ih =>
    intro fuel k q h
    cases fuel with
    | zero => exact Nat.zero_le _
    | succ fuel =>
      unfold vliLoop
      simp only [tick_snd]
      split
      · have : (andThen (ret (encodeDigit (q % u32Mod))) fun d => ret (.ok [d])).2 ≤ 0 + 0 := andThen_le (by simp) (by simp)
        omega
      · split
        · simp
        · have := (clamp_range k bias).2
          have hq : (q - clamp k bias) / (base - clamp k bias) < 10 ^ j := by
            have h1 : (q - clamp k bias) / (base - clamp k bias) ≤ q / 10 :=
              Nat.le_trans (Nat.div_le_div_right (Nat.sub_le _ _)) (Nat.div_le_div_left (by unfold base; omega) (by omega))
            have h2 : q / 10 < 10 ^ j := Nat.div_lt_of_lt_mul (by rw [Nat.pow_succ] at h; omega)
            omega
          have : (andThen (ret (encodeDigit ((clamp k bias + (q - clamp k bias) % (base - clamp k bias)) % u32Mod))) fun d =>
            andThen (vliLoop bias fuel ((k + base) % u32Mod) ((q - clamp k bias) / (base - clamp k bias))) fun rest => ret (.ok (d :: rest))).2 ≤ 0 + ((j + 1) + 0) :=
            andThen_le (by simp) fun d _ => andThen_le (ih _ _ _ hq) (by simp)
          omega

theorem vli_steps (q bias : Nat) (h : q < szMod) : (vli q bias).2 ≤ 21 :=
  vliLoop_steps bias 20 _ _ _ (Nat.lt_of_lt_of_le h (by decide))

theorem adaptLoop_steps : ∀ (j fuel d k : Nat), d < 456 * 35 ^ j → (adaptLoop fuel d k).2 ≤ j + 1 := by
  intro j
  induction j with
  | zero =>
    intro fuel d k h
    cases fuel with
    | zero => exact Nat.zero_le _
    | succ fuel =>
      unfold adaptLoop
      have : ¬ d > ((base - tmin) * tmax) / 2 := by
        have : ((base - tmin) * tmax) / 2 = 455 := by decide
        omega
      simp only [this, if_false, tick_snd, ret_snd]
      omega
  | succ j ih =>
    intro fuel d k h
    cases fuel with
    | zero => exact Nat.zero_le _
    | succ fuel =>
      unfold adaptLoop
      simp only [tick_snd]
      split
      · have : d / (base - tmin) < 456 * 35 ^ j := by
          have e : base - tmin = 35 := by decide
          rw [e]
          exact Nat.div_lt_of_lt_mul (by rw [Nat.pow_succ] at h; omega)
        have := ih fuel (d / (base - tmin)) ((k + base) % u32Mod) this
        omega
      · simp

theorem adapt_steps (d n : Nat) (f : Bool) : (adapt d n f).2 ≤ 12 := by
  unfold adapt
  exact adaptLoop_steps 11 _ _ _ (Nat.lt_of_lt_of_le (Nat.mod_lt _ (by decide)) (by decide))

theorem encStep_steps (nb n : Nat) (st : EncSt) (c : Nat) (h : st.delta < szMod) :
    (encStep nb n st c).2 ≤ 1 + (if c = n then 33 else 0) ∧ ∀ st', (encStep nb n st c).1 = .ok st' → st'.delta < szMod := by
  rw [encStep_fst]
  constructor
  · unfold encStep
    simp only [tick_snd]
    by_cases h1 : c < n
    · simp [h1]
    · by_cases h2 : c = n
      · simp only [h1, h2, if_false, if_true, Nat.lt_irrefl]
        have := andThen_le (f := fun v => andThen (adapt st.delta ((st.i + 1) % szMod) (st.i == nb)) fun b =>
          ret (.ok ({ out := st.out ++ v, delta := 0, bias := b, i := (st.i + 1) % szMod } : EncSt))) (c := 12 + 0) (vli_steps st.delta st.bias h)
          fun v _ => andThen_le (adapt_steps _ _ _) (by simp)
        omega
      · simp [h1, h2]
  · intro st' he
    unfold Puny.encStep at he
    split at he
    · cases he; exact Nat.mod_lt _ (by decide)
    · split at he
      · cases hv : encodeVli st.delta st.bias with
        | error e => rw [hv] at he; cases he
        | ok v =>
          rw [hv] at he
          cases hb : Puny.adapt st.delta ((st.i + 1) % szMod) (st.i == nb) with
          | error e => rw [hb] at he; cases he
          | ok b => rw [hb] at he; cases he; show 0 < szMod; decide
      · cases he; exact h

theorem encPass_steps (nb n : Nat) : ∀ (l : List Nat) (st : EncSt), st.delta < szMod →
    (encPass nb n l st).2 ≤ l.length + 33 * l.count n ∧ ∀ st', (encPass nb n l st).1 = .ok st' → st'.delta < szMod ∧ l.length ≤ (encPass nb n l st).2 := by
  intro l
  induction l with
  | nil => intro st h; exact ⟨by simp [encPass], fun st' e => by simp only [encPass, ret_fst] at e; cases e; exact ⟨h, by simp⟩⟩
  | cons c l ih =>
    intro st h
    obtain ⟨h1, h2⟩ := encStep_steps nb n st c h
    have e1 : 1 ≤ (encStep nb n st c).2 := by unfold encStep; simp only [tick_snd]; omega
    have e0 : encPass nb n (c :: l) st = andThen (encStep nb n st c) fun st => encPass nb n l st := rfl
    rw [e0]
    constructor
    · have := andThen_le (f := fun st => encPass nb n l st) (c := l.length + 33 * l.count n) h1 fun st' hs => (ih st' (h2 st' hs)).1
      have e : (c :: l).count n = l.count n + if c = n then 1 else 0 := by
        rw [List.count_cons]; simp
      rw [e, List.length_cons]
      by_cases hc : c = n
      · simp only [hc, if_true] at this ⊢
        omega
      · simp only [hc, if_false] at this ⊢
        omega
    · intro st' he
      cases hx : (encStep nb n st c).1 with
      | error e => rw [andThen_error hx] at he; cases he
      | ok st1 =>
        rw [andThen_ok hx] at he ⊢
        obtain ⟨k1, k2⟩ := (ih st1 (h2 st1 hx)).2 st' he
        refine ⟨k1, ?_⟩
        rw [List.length_cons]
        show l.length + 1 ≤ (encStep nb n st c).2 + (encPass nb n l st1).2
        omega

/-- How often the elements of a list occur in another. -/
def occs (range : List Nat) : List Nat → Nat
  | [] => 0
  | m :: ms => range.count m + occs range ms

theorem occs_le : ∀ (range ms : List Nat), ms.Nodup → occs range ms ≤ range.length := by
  intro range
  induction range with
  | nil =>
    intro ms _
    induction ms with
    | nil => simp [occs]
    | cons m ms ih => simp [occs] at *; simp_all
  | cons c range ih =>
    intro ms hms
    have key : ∀ ms : List Nat, occs (c :: range) ms = occs range ms + ms.count c := by
      intro ms
      induction ms with
      | nil => simp [occs]
      | cons m ms ih =>
        simp only [occs, ih, List.count_cons]
        by_cases h : c = m
        · subst h; simp; omega
        · have h' : ¬ m = c := fun e => h e.symm
          simp [h, h']; omega
    rw [key]
    have h1 := ih ms hms
    have h2 : ms.count c ≤ 1 := List.nodup_iff_count.1 hms c
    simp only [List.length_cons]
    omega

theorem encLoop_steps (nb : Nat) (range : List Nat) : ∀ (ms : List Nat) (n : Nat) (st : EncSt), st.delta < szMod →
    (encLoop nb range ms n st).2 ≤ ms.length * (range.length + 1) + 33 * occs range ms ∧
    ∀ st', (encLoop nb range ms n st).1 = .ok st' → ms.length * range.length ≤ (encLoop nb range ms n st).2 := by
  intro ms
  induction ms with
  | nil => intro n st h; simp [encLoop]
  | cons m ms ih =>
    intro n st h
    unfold encLoop
    simp only [tick_snd, tick_fst]
    by_cases hm : m < n
    · simp only [hm, if_true, ret_snd, ret_fst]
      refine ⟨?_, fun st' he => by cases he⟩
      rw [List.length_cons, Nat.succ_mul]; omega
    · simp only [hm, if_false]
      obtain ⟨h1, h2⟩ := encPass_steps nb m range { st with delta := (st.delta + ((m - n) * ((st.i + 1) % szMod)) % szMod) % szMod } (Nat.mod_lt _ (by decide))
      have hd : ∀ st' : EncSt, (st'.delta + 1) % szMod < szMod := fun _ => Nat.mod_lt _ (by decide)
      constructor
      · have := andThen_le (f := fun st => encLoop nb range ms ((m + 1) % szMod) { st with delta := (st.delta + 1) % szMod })
          (c := ms.length * (range.length + 1) + 33 * occs range ms) h1 fun st' _ => (ih ((m + 1) % szMod) { st' with delta := (st'.delta + 1) % szMod } (hd st')).1
        simp only [occs, List.length_cons, Nat.succ_mul] at *
        omega
      · intro st' he
        cases hx : (encPass nb m range { st with delta := (st.delta + ((m - n) * ((st.i + 1) % szMod)) % szMod) % szMod }).1 with
        | error e => rw [andThen_error hx] at he; cases he
        | ok st1 =>
          rw [andThen_ok hx] at he ⊢
          have k1 := (ih ((m + 1) % szMod) { st1 with delta := (st1.delta + 1) % szMod } (hd st1)).2 st' he
          have k2 := (h2 st1 hx).2
          simp only [List.length_cons, Nat.succ_mul]
          omega

theorem nodup_distinct (l : List Nat) : (sortAndRemoveDuplicates l).Nodup :=
  (sorted_unique _ (sorted_sortL l)).imp fun h => Nat.ne_of_lt h

theorem mem_distinct (x : Nat) (l : List Nat) : x ∈ sortAndRemoveDuplicates l ↔ x ∈ l := by
  unfold sortAndRemoveDuplicates
  rw [mem_unique, mem_sortL]

theorem nodup_length {a b : List Nat} (ha : a.Nodup) (hb : b.Nodup) (h : ∀ x, x ∈ a ↔ x ∈ b) : a.length = b.length :=
  ((List.perm_ext_iff_of_nodup ha hb).2 h).length_eq

theorem decodeVliLoop_steps (bias : Nat) : ∀ (s : Str) (w k v : Nat), (decodeVliLoop bias s w k v).2 ≤ s.length + 1 ∧
    ∀ v' rest, (decodeVliLoop bias s w k v).1 = .ok (.ok (v', rest)) → (decodeVliLoop bias s w k v).2 + rest.length ≤ s.length ∧ rest.length < s.length := by
  intro s
  induction s with
  | nil => intro w k v; exact ⟨by simp [decodeVliLoop], fun v' rest h => by simp [decodeVliLoop] at h⟩
  | cons c s ih =>
    intro w k v
    unfold decodeVliLoop
    simp only [tick_snd, tick_fst, List.length_cons]
    by_cases h1 : decodeDigit c > base
    · simp only [h1, if_true, ret_snd, ret_fst]; exact ⟨by omega, fun v' rest h => by cases h⟩
    by_cases h2 : decodeDigit c ≥ base
    · simp only [h1, h2, if_true, if_false, ret_snd, ret_fst]; exact ⟨by omega, fun v' rest h => by cases h⟩
    by_cases h3 : decodeDigit c > (szMax - v) / w
    · simp only [h1, h2, h3, if_true, if_false, ret_snd, ret_fst]; exact ⟨by omega, fun v' rest h => by cases h⟩
    by_cases h4 : decodeDigit c < clampk k bias
    · simp only [h1, h2, h3, h4, if_true, if_false, ret_snd, ret_fst]
      exact ⟨by omega, fun v' rest h => by cases h; omega⟩
    by_cases h5 : w > szMax / (base - clampk k bias)
    · simp only [h1, h2, h3, h4, h5, if_true, if_false, ret_snd, ret_fst]; exact ⟨by omega, fun v' rest h => by cases h⟩
    simp only [h1, h2, h3, h4, h5, if_false]
    obtain ⟨k1, k2⟩ := ih ((w * (base - clampk k bias)) % szMod) ((k + base) % u32Mod) ((v + (decodeDigit c * w) % szMod) % szMod)
    refine ⟨by omega, fun v' rest h => ?_⟩
    have := k2 v' rest h
    omega

theorem insertAt_length {l l' : List Nat} {i c : Nat} (h : Puny.insertAt l i c = .ok l') : l'.length = l.length + 1 := by
  unfold Puny.insertAt at h
  split at h
  · cases h; simp; omega
  · cases h

theorem decodeLoop_steps (N : Nat) : ∀ (fuel : Nat) (s : Str) (o : List Nat) (n i b : Nat), o.length + s.length ≤ N →
    (decodeLoop fuel s o n i b).2 ≤ 2 + s.length * (N + 15) := by
  intro fuel
  induction fuel with
  | zero => intros; exact Nat.zero_le _
  | succ fuel ih =>
    intro s o n i b hN
    cases s with
    | nil => show 1 + 0 ≤ _; omega
    | cons c s =>
      unfold decodeLoop
      simp only [tick_snd]
      obtain ⟨h1, h2⟩ := decodeVliLoop_steps b (c :: s) 1 base i
      cases hx : (decodeVli (c :: s) i b).1 with
      | error e =>
        rw [andThen_error hx]
        show 1 + (decodeVliLoop b (c :: s) 1 base i).2 ≤ _
        have : (c :: s).length ≤ (c :: s).length * (N + 15) := Nat.le_mul_of_pos_right _ (by omega)
        omega
      | ok r =>
        rw [andThen_ok hx]
        cases r with
        | error e =>
          show 1 + ((decodeVliLoop b (c :: s) 1 base i).2 + 0) ≤ _
          have : (c :: s).length ≤ (c :: s).length * (N + 15) := Nat.le_mul_of_pos_right _ (by omega)
          omega
        | ok r =>
          obtain ⟨v, rest⟩ := r
          obtain ⟨h3, h4⟩ := h2 v rest hx
          simp only []
          have hr : (andThen (adapt ((v + (szMod - i)) % szMod) ((o.length + 1) % szMod) (i == 0)) fun bias =>
              if v / ((o.length + 1) % szMod) > (u32Mod - 1 + (szMod - n)) % szMod then ret (.ok (.error .overflow))
              else
                andThen (insertAt o (v % ((o.length + 1) % szMod)) ((n + v / ((o.length + 1) % szMod)) % szMod % u32Mod)) fun output' =>
                decodeLoop fuel rest output' ((n + v / ((o.length + 1) % szMod)) % szMod)
                  ((v % ((o.length + 1) % szMod) + 1) % szMod) bias).2 ≤ 12 + ((1 + o.length) + (2 + rest.length * (N + 15))) := by
            refine andThen_le (adapt_steps _ _ _) fun b' _ => ?_
            split
            · simp
            · refine andThen_le (by simp only [insertAt, tick_snd, ret_snd]; omega) fun o' ho => ?_
              have := insertAt_length (show Puny.insertAt _ _ _ = .ok o' from ho)
              exact ih rest o' _ _ _ (by simp only [List.length_cons] at hN h4; omega)
          have hd : (decodeVli (c :: s) i b).2 + rest.length ≤ (c :: s).length := h3
          obtain ⟨d, hd'⟩ : ∃ d, (c :: s).length = rest.length + 1 + d := ⟨(c :: s).length - rest.length - 1, by omega⟩
          have e : (c :: s).length * (N + 15) = rest.length * (N + 15) + (N + 15) + d * (N + 15) := by rw [hd', Nat.add_mul, Nat.add_mul, Nat.one_mul]
          have : d ≤ d * (N + 15) := Nat.le_mul_of_pos_right _ (by omega)
          rw [e]
          simp only [List.length_cons] at hN hd hd'
          omega

theorem copyPlain_length {bidi : Bool} {s : Str} {lit : List Nat} {rest : Str} (h : Puny.copyPlain bidi s = .ok (.ok (lit, rest))) :
    lit.length + rest.length ≤ s.length := by
  rcases last_delim s with hd | ⟨l, ext, rfl, hd⟩
  · rw [copyPlain_none bidi s hd] at h; cases h; simp
  · rw [copyPlain_some bidi l ext hd] at h
    split at h
    · cases h; simp
    · cases h

theorem decode_steps (bidi : Bool) (s : Str) : (decode bidi s).2 ≤ s.length * s.length + 17 * s.length + 3 := by
  unfold decode
  have e : 1 + 2 * s.length + (2 + s.length * (s.length + 15)) = s.length * s.length + 17 * s.length + 3 := by rw [Nat.mul_add]; omega
  rw [← e]
  refine andThen_le (by simp [copyPlain]) fun r hr => ?_
  cases r with
  | error e => simp
  | ok r =>
    obtain ⟨lit, rest⟩ := r
    have h := copyPlain_length (show Puny.copyPlain bidi s = _ from hr)
    simp only []
    have h1 := decodeLoop_steps s.length (rest.length + 1) rest lit initialN 0 initialBias h
    have h2 : rest.length * (s.length + 15) ≤ s.length * (s.length + 15) := Nat.mul_le_mul_right _ (by omega)
    omega

/-! ### A text that takes long -/

theorem decodeLoop_next {fuel : Nat} {c : UInt8} {s rest : Str} {o o' : List Nat} {n i b v b' : Nat}
    (h1 : (decodeVli (c :: s) i b).1 = .ok (.ok (v, rest)))
    (h2 : (adapt ((v + (szMod - i)) % szMod) ((o.length + 1) % szMod) (i == 0)).1 = .ok b')
    (h3 : ¬ v / ((o.length + 1) % szMod) > (u32Mod - 1 + (szMod - n)) % szMod)
    (h4 : Puny.insertAt o (v % ((o.length + 1) % szMod)) ((n + v / ((o.length + 1) % szMod)) % szMod % u32Mod) = .ok o') :
    decodeLoop (fuel + 1) (c :: s) o n i b =
    ((decodeLoop fuel rest o' ((n + v / ((o.length + 1) % szMod)) % szMod) ((v % ((o.length + 1) % szMod) + 1) % szMod) b').1,
      1 + ((decodeVli (c :: s) i b).2 + ((adapt ((v + (szMod - i)) % szMod) ((o.length + 1) % szMod) (i == 0)).2 +
        ((1 + (o.length - v % ((o.length + 1) % szMod))) +
          (decodeLoop fuel rest o' ((n + v / ((o.length + 1) % szMod)) % szMod) ((v % ((o.length + 1) % szMod) + 1) % szMod) b').2)))) := by
  rw [decodeLoop]
  rw [andThen_ok h1]
  simp only []
  rw [andThen_ok h2]
  simp only [h3, if_false]
  rw [andThen_ok (show (insertAt o (v % ((o.length + 1) % szMod)) ((n + v / ((o.length + 1) % szMod)) % szMod % u32Mod)).1 = .ok o' from h4)]
  rfl

theorem adapt_small (d m : Nat) (f : Bool) (h : d ≤ 1) : (adapt d m f).1 = .ok 0 := by
  rw [adapt_fst]
  unfold Puny.adapt
  have : (if f = true then d / damp else d >>> 1) = 0 := by
    have : d = 0 ∨ d = 1 := by omega
    rcases this with rfl | rfl <;> cases f <;> rfl
  simp only [this, Nat.zero_div, Nat.zero_mod, Nat.add_zero]
  rfl

/-- One digit 0, the state being `pre ++ post` with the index between: the code point `n` again, at the index. -/
theorem decodeLoop_a (fuel : Nat) (rest : Str) (pre post : List Nat) (n b : Nat) (hn : n < u32Mod)
    (hl : (pre ++ post).length + 1 < szMod) :
    (decodeLoop (fuel + 1) (0x61 :: rest) (pre ++ post) n pre.length b).1 = (decodeLoop fuel rest (pre ++ n :: post) n (pre.length + 1) 0).1 ∧
    post.length + (decodeLoop fuel rest (pre ++ n :: post) n (pre.length + 1) 0).2 ≤ (decodeLoop (fuel + 1) (0x61 :: rest) (pre ++ post) n pre.length b).2 := by
  have hlen : pre.length < (pre ++ post).length + 1 := by simp; omega
  have e0 : pre.length < szMod := by omega
  have hv : (decodeVli (0x61 :: rest) pre.length b).1 = .ok (.ok (pre.length, rest)) := by
    unfold decodeVli decodeVliLoop
    have h1 : decodeDigit 0x61 = 0 := by decide
    have h2 : 0 < clampk base b := (clamp_range _ _).1
    simp only [tick_fst, h1]
    simp only [h2, if_true, show ¬ (0 : Nat) > base from by decide, show ¬ (0 : Nat) ≥ base from by decide, if_false, Nat.not_lt_zero, gt_iff_lt, ret_fst]
    simp only [Nat.zero_mul, Nat.zero_mod, Nat.add_zero, Nat.mod_eq_of_lt e0]
  have ha : (adapt ((pre.length + (szMod - pre.length)) % szMod) (((pre ++ post).length + 1) % szMod) (pre.length == 0)).1 = .ok 0 := by
    rw [show pre.length + (szMod - pre.length) = szMod by omega, Nat.mod_self]
    exact adapt_small _ _ _ (by omega)
  have em : ((pre ++ post).length + 1) % szMod = (pre ++ post).length + 1 := Nat.mod_eq_of_lt hl
  have ed : pre.length / (((pre ++ post).length + 1) % szMod) = 0 := by rw [em]; exact Nat.div_eq_of_lt hlen
  have er : pre.length % (((pre ++ post).length + 1) % szMod) = pre.length := by rw [em]; exact Nat.mod_eq_of_lt hlen
  have en : n < szMod := Nat.lt_trans hn (by decide)
  have e2 : (n + pre.length / (((pre ++ post).length + 1) % szMod)) % szMod = n := by rw [ed]; exact Nat.mod_eq_of_lt en
  have hi : Puny.insertAt (pre ++ post) (pre.length % (((pre ++ post).length + 1) % szMod))
      ((n + pre.length / (((pre ++ post).length + 1) % szMod)) % szMod % u32Mod) = .ok (pre ++ n :: post) := by
    rw [e2, er, Nat.mod_eq_of_lt hn]
    unfold Puny.insertAt
    simp
  have key := decodeLoop_next (fuel := fuel) (n := n) hv ha (by rw [ed]; omega) hi
  rw [e2, er, Nat.mod_eq_of_lt (show pre.length + 1 < szMod by omega)] at key
  rw [key]
  refine ⟨rfl, ?_⟩
  simp only [List.length_append]
  omega

/-- One digit 1 at the end of the text: the next code point, at the beginning. -/
theorem decodeLoop_b (fuel : Nat) (rest : Str) (o : List Nat) (n : Nat) (hn : n + 1 < u32Mod) (hl : o.length + 1 < szMod) :
    (decodeLoop (fuel + 1) (0x62 :: rest) o n o.length 0).1 = (decodeLoop fuel rest ((n + 1) :: o) (n + 1) 1 0).1 ∧
    (decodeLoop fuel rest ((n + 1) :: o) (n + 1) 1 0).2 ≤ (decodeLoop (fuel + 1) (0x62 :: rest) o n o.length 0).2 := by
  have hv : (decodeVli (0x62 :: rest) o.length 0).1 = .ok (.ok (o.length + 1, rest)) := by
    unfold decodeVli decodeVliLoop
    have h1 : decodeDigit 0x62 = 1 := by decide
    have h2 : 1 < clampk base 0 := by decide
    have h3 : ¬ 1 > (szMax - o.length) / 1 := by rw [Nat.div_one]; have : szMax = szMod - 1 := rfl; omega
    simp only [tick_fst, h1]
    simp only [h2, h3, if_true, show ¬ (1 : Nat) > base from by decide, show ¬ (1 : Nat) ≥ base from by decide, if_false, ret_fst]
    rw [show (1 * 1) % szMod = 1 from by decide, Nat.mod_eq_of_lt hl]
  have ha : (adapt ((o.length + 1 + (szMod - o.length)) % szMod) ((o.length + 1) % szMod) (o.length == 0)).1 = .ok 0 := by
    rw [show o.length + 1 + (szMod - o.length) = 1 + szMod by omega, Nat.add_mod_right]
    exact adapt_small _ _ _ (by decide)
  have em : (o.length + 1) % szMod = o.length + 1 := Nat.mod_eq_of_lt hl
  have ed : (o.length + 1) / ((o.length + 1) % szMod) = 1 := by rw [em]; exact Nat.div_self (by omega)
  have er : (o.length + 1) % ((o.length + 1) % szMod) = 0 := by rw [em]; exact Nat.mod_self _
  have en : n + 1 < szMod := Nat.lt_trans hn (by decide)
  have e2 : (n + (o.length + 1) / ((o.length + 1) % szMod)) % szMod = n + 1 := by rw [ed]; exact Nat.mod_eq_of_lt en
  have hi : Puny.insertAt o ((o.length + 1) % ((o.length + 1) % szMod))
      ((n + (o.length + 1) / ((o.length + 1) % szMod)) % szMod % u32Mod) = .ok ((n + 1) :: o) := by
    rw [e2, er, Nat.mod_eq_of_lt hn]
    unfold Puny.insertAt
    simp
  have h3 : ¬ (o.length + 1) / ((o.length + 1) % szMod) > (u32Mod - 1 + (szMod - n)) % szMod := by
    rw [ed, show u32Mod - 1 + (szMod - n) = (u32Mod - 1 - n) + szMod by omega, Nat.add_mod_right,
      Nat.mod_eq_of_lt (Nat.lt_of_le_of_lt (Nat.sub_le _ _) (by decide))]
    omega
  have key := decodeLoop_next (fuel := fuel) (n := n) hv ha h3 hi
  rw [e2, er, show (0 + 1) % szMod = 1 from by decide] at key
  rw [key]
  refine ⟨rfl, ?_⟩
  show _ ≤ 1 + (_ + (_ + (_ + _)))
  omega

theorem decodeLoop_as (rest : Str) (n : Nat) (hn : n < u32Mod) (post : List Nat) : ∀ (L fuel : Nat) (pre : List Nat) (b : Nat),
    (pre ++ post).length + L + 1 < szMod → (L = 0 → b = 0) →
    (decodeLoop (fuel + L) (List.replicate L 0x61 ++ rest) (pre ++ post) n pre.length b).1 =
      (decodeLoop fuel rest (pre ++ List.replicate L n ++ post) n (pre.length + L) 0).1 ∧
    L * post.length + (decodeLoop fuel rest (pre ++ List.replicate L n ++ post) n (pre.length + L) 0).2 ≤
      (decodeLoop (fuel + L) (List.replicate L 0x61 ++ rest) (pre ++ post) n pre.length b).2 := by
  intro L
  induction L with
  | zero => intro fuel pre b _ hb; rw [hb rfl]; simp
  | succ L ih =>
    intro fuel pre b hl _
    obtain ⟨h1, h2⟩ := decodeLoop_a (fuel + L) (List.replicate L 0x61 ++ rest) pre post n b hn (by omega)
    obtain ⟨h3, h4⟩ := ih fuel (pre ++ [n]) 0 (by simp at hl ⊢; omega) fun _ => rfl
    have e1 : pre ++ [n] ++ post = pre ++ n :: post := by simp
    have e2 : (pre ++ [n]).length = pre.length + 1 := by simp
    have e3 : pre ++ [n] ++ List.replicate L n ++ post = pre ++ List.replicate (L + 1) n ++ post := by simp [List.replicate_succ]
    rw [e3, e2, e1, show pre.length + 1 + L = pre.length + (L + 1) by omega] at h3 h4
    have e4 : List.replicate (L + 1) (0x61 : UInt8) ++ rest = 0x61 :: (List.replicate L 0x61 ++ rest) := rfl
    rw [e4, ← Nat.add_assoc]
    refine ⟨h1.trans h3, ?_⟩
    rw [Nat.succ_mul]
    omega

/-- The text that takes long: `L` digits 0, a digit 1 and `L` digits 0. -/
def slowText (L : Nat) : Str := List.replicate L 0x61 ++ 0x62 :: List.replicate L 0x61

theorem slow_decode (bidi : Bool) (L : Nat) (h1 : L ≠ 0) (h2 : 2 * L + 3 < szMod) :
    (decode bidi (slowText L)).1 = .ok (.ok (List.replicate (L + 1) 0x81 ++ List.replicate L 0x80, [])) ∧ L * L ≤ (decode bidi (slowText L)).2 := by
  have hd : (0x2D : UInt8) ∉ slowText L := by
    unfold slowText
    intro h
    rcases List.mem_append.1 h with h | h
    · exact absurd (List.eq_of_mem_replicate h) (by decide)
    · rcases List.mem_cons.1 h with h | h
      · exact absurd h (by decide)
      · exact absurd (List.eq_of_mem_replicate h) (by decide)
  have e : decode bidi (slowText L) = ((decodeLoop ((slowText L).length + 1) (slowText L) [] initialN 0 initialBias).1,
      (copyPlain bidi (slowText L)).2 + (decodeLoop ((slowText L).length + 1) (slowText L) [] initialN 0 initialBias).2) := by
    unfold decode
    rw [andThen_ok (show (copyPlain bidi (slowText L)).1 = _ from copyPlain_none bidi _ hd)]
  have el : (slowText L).length + 1 = ((1 + L) + 1) + L := by simp [slowText]; omega
  obtain ⟨a1, a2⟩ := decodeLoop_as (0x62 :: List.replicate L 0x61) 0x80 (by decide) [] L ((1 + L) + 1) [] 72 (by simp; omega) (fun h => absurd h h1)
  obtain ⟨b1, b2⟩ := decodeLoop_b (1 + L) (List.replicate L 0x61) (List.replicate L 0x80) 0x80 (by decide) (by simp; omega)
  obtain ⟨c1, c2⟩ := decodeLoop_as [] 0x81 (by decide) (List.replicate L 0x80) L 1 [0x81] 0 (by simp; omega) (fun _ => rfl)
  have e0 : (decodeLoop ((slowText L).length + 1) (slowText L) [] initialN 0 initialBias) =
    decodeLoop (1 + L + 1 + L) (List.replicate L 0x61 ++ 0x62 :: List.replicate L 0x61) ([] ++ []) 0x80 ([] : List Nat).length 72 := by rw [el]; rfl
  rw [e]
  rw [e0]
  simp only [List.nil_append, List.append_nil, List.length_nil, Nat.zero_add, List.length_replicate, Nat.mul_zero] at *
  refine ⟨?_, ?_⟩
  · rw [a1, b1]
    rw [show (0x81 : Nat) :: List.replicate L 0x80 = [0x81] ++ List.replicate L 0x80 from rfl]
    refine (c1.trans ?_)
    rfl
  · have : (decodeLoop (1 + L) (List.replicate L 0x61) ([0x81] ++ List.replicate L 0x80) 0x81 1 0).2 =
      (decodeLoop (1 + L) (List.replicate L 0x61) ((0x80 + 1) :: List.replicate L 0x80) (0x80 + 1) 1 0).2 := rfl
    have c2' : L * L ≤ (decodeLoop (1 + L) (List.replicate L 0x61) ([0x81] ++ List.replicate L 0x80) 0x81 1 0).2 := by
      refine Nat.le_trans ?_ c2
      omega
    omega

end Verif.Cost
