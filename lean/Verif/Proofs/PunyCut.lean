import Verif.Proofs.Punycode

/-!
# What decoding does to the prefixes of an accepted text
-/

namespace Verif.Puny

/-- Reading one variable-length integer from a text it does not exhaust. -/
theorem decodeVliLoop_pieces (bias : Nat) : ∀ (input : Str) (w k vli v : Nat) (rest : Str),
    decodeVliLoop bias input w k vli = .ok (.ok (v, rest)) →
    ∃ txt, txt ≠ [] ∧ input = txt ++ rest ∧ (∀ more, decodeVliLoop bias (txt ++ more) w k vli = .ok (.ok (v, more))) ∧
      ∀ cut more, txt = cut ++ more → more ≠ [] → decodeVliLoop bias cut w k vli = .ok (.error .badInput) := by
  intro input
  induction input with
  | nil => intro w k vli v rest h; simp [decodeVliLoop] at h
  | cons c first ih =>
    intro w k vli v rest h
    rw [decodeVliLoop] at h
    by_cases h1 : decodeDigit c > base
    · simp [h1] at h
    by_cases h2 : decodeDigit c ≥ base
    · simp [h1, h2] at h
    by_cases h3 : decodeDigit c > (szMax - vli) / w
    · simp only [h1, h2, h3, if_true, if_false] at h
      simp at h
    by_cases h4 : decodeDigit c < clampk k bias
    · simp only [h1, h2, h3, h4, if_true, if_false] at h
      have := Prod.mk.inj (Except.ok.inj (Except.ok.inj h))
      refine ⟨[c], by simp, by simp [this.2], ?_, ?_⟩
      · intro more
        show decodeVliLoop bias (c :: more) w k vli = _
        rw [decodeVliLoop]
        simp only [h1, h2, h3, h4, if_true, if_false]
        rw [this.1]
      · intro cut more e hm
        cases cut with
        | nil => rfl
        | cons d cut =>
          simp at e
          exact absurd e.2.2 hm
    · by_cases h5 : w > szMax / (base - clampk k bias)
      · simp only [h1, h2, h3, h4, h5, if_true, if_false] at h
        simp at h
      simp only [h1, h2, h3, h4, h5, if_false] at h
      obtain ⟨txt, _, e, g1, g2⟩ := ih _ _ _ _ _ h
      refine ⟨c :: txt, by simp, by simp [e], ?_, ?_⟩
      · intro more
        show decodeVliLoop bias (c :: (txt ++ more)) w k vli = _
        rw [decodeVliLoop]
        simp only [h1, h2, h3, h4, h5, if_false]
        exact g1 more
      · intro cut more e' hm
        cases cut with
        | nil => rfl
        | cons d cut =>
          simp at e'
          obtain ⟨rfl, e'⟩ := e'
          rw [decodeVliLoop]
          simp only [h1, h2, h3, h4, h5, if_false]
          exact g2 cut more e' hm

theorem insertAt_ok {l r : List Nat} {i c : Nat} (h : insertAt l i c = .ok r) : r.length = l.length + 1 ∧ l.Sublist r := by
  unfold insertAt at h
  by_cases hi : i ≤ l.length
  · rw [if_pos hi] at h
    have := Except.ok.inj h
    subst this
    constructor
    · simp; omega
    · conv => lhs; rw [← List.take_append_drop i l]
      exact List.Sublist.append (List.Sublist.refl _) (List.sublist_cons_self _ _)
  · rw [if_neg hi] at h
    cases h

/-- An accepted text is a row of pieces, one for each code point inserted; a prefix is accepted when it ends
between two pieces, with a subsequence of the result. -/
theorem decodeLoop_pieces : ∀ (fuel : Nat) (input : Str) (out : List Nat) (n i bias : Nat) (s : List Nat) (r : Str),
    decodeLoop fuel input out n i bias = .ok (.ok (s, r)) →
    ∃ ts : List Str, ts.flatten = input ∧ s.length = out.length + ts.length ∧ (∀ t ∈ ts, t ≠ []) ∧ out.Sublist s ∧
      (∀ j, j ≤ ts.length → ∀ f, (ts.take j).flatten.length < f → ∃ s',
        decodeLoop f (ts.take j).flatten out n i bias = .ok (.ok (s', [])) ∧ s'.length = out.length + j ∧ s'.Sublist s) ∧
      (∀ (j : Nat) (t cut more : Str), ts[j]? = some t → t = cut ++ more → cut ≠ [] → more ≠ [] →
        ∀ f, ((ts.take j).flatten ++ cut).length < f →
          decodeLoop f ((ts.take j).flatten ++ cut) out n i bias = .ok (.error .badInput)) := by
  intro fuel
  induction fuel with
  | zero => intro input out n i bias s r h; cases h
  | succ fuel ih =>
    intro input out n i bias s r h
    cases input with
    | nil =>
      have := Prod.mk.inj (Except.ok.inj (Except.ok.inj (show (.ok (.ok (out, [])) : M (Except Err (List Nat × Str))) = _ from h)))
      obtain ⟨rfl, -⟩ := this
      refine ⟨[], rfl, rfl, by simp, List.Sublist.refl _, ?_, by simp⟩
      intro j hj f hf
      have : j = 0 := by simpa using hj
      subst this
      obtain ⟨f, rfl⟩ : ∃ g, f = g + 1 := ⟨f - 1, by simp at hf; omega⟩
      exact ⟨out, rfl, rfl, List.Sublist.refl _⟩
    | cons c0 inp =>
      have unf : ∀ (f : Nat) (x : UInt8) (xs : Str), decodeLoop (f + 1) (x :: xs) out n i bias =
          (decodeVli (x :: xs) i bias >>= fun y => match y with
            | .error err => .ok (.error err)
            | .ok (vli, rest) =>
              adapt ((vli + (szMod - i)) % szMod) ((out.length + 1) % szMod) (i == 0) >>= fun bias' =>
              if vli / ((out.length + 1) % szMod) > (u32Mod - 1 + (szMod - n)) % szMod then .ok (.error .overflow)
              else insertAt out (vli % ((out.length + 1) % szMod)) ((n + vli / ((out.length + 1) % szMod)) % szMod % u32Mod) >>= fun o' =>
                decodeLoop f rest o' ((n + vli / ((out.length + 1) % szMod)) % szMod)
                  ((vli % ((out.length + 1) % szMod) + 1) % szMod) bias') := fun _ _ _ => rfl
      rw [unf] at h
      cases hv : decodeVli (c0 :: inp) i bias with
      | error e => rw [hv] at h; cases h
      | ok y =>
      cases y with
      | error e => rw [hv] at h; cases h
      | ok z =>
      obtain ⟨vli, rest⟩ := z
      rw [hv] at h
      obtain ⟨txt, hne, he, g1, g2⟩ := decodeVliLoop_pieces bias _ _ _ _ _ _ hv
      replace h : (adapt ((vli + (szMod - i)) % szMod) ((out.length + 1) % szMod) (i == 0) >>= fun bias' =>
              if vli / ((out.length + 1) % szMod) > (u32Mod - 1 + (szMod - n)) % szMod then .ok (.error .overflow)
              else insertAt out (vli % ((out.length + 1) % szMod)) ((n + vli / ((out.length + 1) % szMod)) % szMod % u32Mod) >>= fun o' =>
                decodeLoop fuel rest o' ((n + vli / ((out.length + 1) % szMod)) % szMod)
                  ((vli % ((out.length + 1) % szMod) + 1) % szMod) bias') = .ok (.ok (s, r)) := h
      cases ha : adapt ((vli + (szMod - i)) % szMod) ((out.length + 1) % szMod) (i == 0) with
      | error e => rw [ha] at h; cases h
      | ok bias' =>
      rw [ha] at h
      replace h : (if vli / ((out.length + 1) % szMod) > (u32Mod - 1 + (szMod - n)) % szMod then (.ok (.error .overflow) : M (Except Err (List Nat × Str)))
              else insertAt out (vli % ((out.length + 1) % szMod)) ((n + vli / ((out.length + 1) % szMod)) % szMod % u32Mod) >>= fun o' =>
                decodeLoop fuel rest o' ((n + vli / ((out.length + 1) % szMod)) % szMod)
                  ((vli % ((out.length + 1) % szMod) + 1) % szMod) bias') = .ok (.ok (s, r)) := h
      by_cases ho : vli / ((out.length + 1) % szMod) > (u32Mod - 1 + (szMod - n)) % szMod
      · rw [if_pos ho] at h; cases h
      rw [if_neg ho] at h
      cases hi : insertAt out (vli % ((out.length + 1) % szMod)) ((n + vli / ((out.length + 1) % szMod)) % szMod % u32Mod) with
      | error e => rw [hi] at h; cases h
      | ok o' =>
      rw [hi] at h
      obtain ⟨hl, hsub⟩ := insertAt_ok hi
      obtain ⟨ts, e1, e2, e3, e4, e5, e6⟩ := ih _ _ _ _ _ _ _ h
      -- one round of the loop on any text that starts with the piece
      have round : ∀ f more, decodeLoop (f + 1) (txt ++ more) out n i bias =
          decodeLoop f more o' ((n + vli / ((out.length + 1) % szMod)) % szMod)
                  ((vli % ((out.length + 1) % szMod) + 1) % szMod) bias' := by
        intro f more
        cases txt with
        | nil => exact absurd rfl hne
        | cons x xs =>
          rw [List.cons_append, unf]
          have : decodeVli (x :: (xs ++ more)) i bias = .ok (.ok (vli, more)) := g1 more
          rw [this]
          show (adapt ((vli + (szMod - i)) % szMod) ((out.length + 1) % szMod) (i == 0) >>= fun bias' =>
              if vli / ((out.length + 1) % szMod) > (u32Mod - 1 + (szMod - n)) % szMod then .ok (.error .overflow)
              else insertAt out (vli % ((out.length + 1) % szMod)) ((n + vli / ((out.length + 1) % szMod)) % szMod % u32Mod) >>= fun o' =>
                decodeLoop f more o' ((n + vli / ((out.length + 1) % szMod)) % szMod)
                  ((vli % ((out.length + 1) % szMod) + 1) % szMod) bias') = _
          rw [ha]
          show (if vli / ((out.length + 1) % szMod) > (u32Mod - 1 + (szMod - n)) % szMod then (.ok (.error .overflow) : M (Except Err (List Nat × Str)))
              else insertAt out (vli % ((out.length + 1) % szMod)) ((n + vli / ((out.length + 1) % szMod)) % szMod % u32Mod) >>= fun o' =>
                decodeLoop f more o' ((n + vli / ((out.length + 1) % szMod)) % szMod)
                  ((vli % ((out.length + 1) % szMod) + 1) % szMod) bias') = _
          rw [if_neg ho, hi]
          rfl
      refine ⟨txt :: ts, by simp [e1, he], by simp; omega, ?_, hsub.trans e4, ?_, ?_⟩
      · intro t ht
        rcases List.mem_cons.1 ht with rfl | ht
        · exact hne
        · exact e3 t ht
      · intro j hj f hf
        obtain ⟨f, rfl⟩ : ∃ g, f = g + 1 := ⟨f - 1, by omega⟩
        cases j with
        | zero => exact ⟨out, rfl, rfl, hsub.trans e4⟩
        | succ j =>
          have hp : 0 < txt.length := List.length_pos_iff.2 hne
          simp only [List.take_succ_cons, List.flatten_cons, List.length_append, List.length_cons] at hj hf ⊢
          obtain ⟨s', k1, k2, k3⟩ := e5 j (by omega) f (by omega)
          exact ⟨s', by rw [round]; exact k1, by omega, k3⟩
      · intro j t cut more hj ht hc hm f hf
        obtain ⟨f, rfl⟩ : ∃ g, f = g + 1 := ⟨f - 1, by omega⟩
        cases j with
        | zero =>
          simp at hj
          subst hj
          cases cut with
          | nil => exact absurd rfl hc
          | cons x xs =>
            show decodeLoop (f + 1) (x :: xs) out n i bias = _
            rw [unf]
            have : decodeVli (x :: xs) i bias = .ok (.error .badInput) := g2 _ _ ht hm
            rw [this]
            rfl
        | succ j =>
          have hp : 0 < txt.length := List.length_pos_iff.2 hne
          simp only [List.getElem?_cons_succ, List.take_succ_cons, List.flatten_cons, List.length_append, List.append_assoc] at hj hf ⊢
          rw [round]
          exact e6 j t cut more hj ht hc hm f (by simp only [List.length_append]; omega)

end Verif.Puny
