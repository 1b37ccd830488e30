import Verif.Proofs.CodecCost
import Verif.Props.PunyCost
import Verif.Proofs.PartsField

/-!
# Bounds on the running time of `encode` and `decode`
-/

namespace Verif.Cost
open Puny

set_option linter.unusedSimpArgs false

theorem andThen_inv {β γ : Type} {x : CM β} {f : β → CM γ} {r : γ} (h : (andThen x f).1 = .ok r) :
    ∃ b, x.1 = .ok b ∧ (f b).1 = .ok r ∧ (andThen x f).2 = x.2 + (f b).2 := by
  cases hx : x.1 with
  | error e => rw [andThen_error hx] at h; cases h
  | ok b => rw [andThen_ok hx] at h ⊢; exact ⟨b, rfl, h, rfl⟩

/-! ### Punycode: what is written costs at least a step a character -/

theorem vliLoop_length (bias : Nat) : ∀ (fuel k q : Nat) (v : Str), (vliLoop bias fuel k q).1 = .ok v → v.length ≤ (vliLoop bias fuel k q).2
  | 0, _, _, _, h => by cases h
  | fuel + 1, k, q, v, h => by
      unfold vliLoop at h ⊢
      simp only [tick_fst, tick_snd] at h ⊢
      by_cases h1 : q < clamp k bias
      · simp only [h1, if_true] at h ⊢
        obtain ⟨d, -, e, -⟩ := andThen_inv h
        cases e
        simp only [List.length_cons, List.length_nil]; omega
      · simp only [h1, if_false] at h ⊢
        by_cases h2 : base < clamp k bias
        · simp only [h2, if_true] at h; cases h
        · simp only [h2, if_false] at h ⊢
          obtain ⟨d, -, e, s1⟩ := andThen_inv h
          obtain ⟨rest, e1, e2, s2⟩ := andThen_inv e
          cases e2
          have := vliLoop_length bias fuel _ _ _ e1
          simp only [ret_snd] at s1 s2
          simp only [List.length_cons]; omega

theorem encStep_length (nb n : Nat) (st st' : EncSt) (c : Nat) (h : (encStep nb n st c).1 = .ok st') :
    st'.out.length ≤ st.out.length + (encStep nb n st c).2 := by
  unfold encStep at h ⊢
  simp only [tick_fst, tick_snd] at h ⊢
  by_cases h1 : c < n
  · simp only [h1, if_true, ret_fst] at h ⊢
    cases h; simp
  · simp only [h1, if_false] at h ⊢
    by_cases h2 : c = n
    · simp only [h2, if_true] at h ⊢
      obtain ⟨v, e1, e2, s1⟩ := andThen_inv h
      obtain ⟨b, -, e3, s2⟩ := andThen_inv e2
      cases e3
      have := vliLoop_length _ _ _ _ _ (show (vliLoop _ _ _ _).1 = .ok v from e1)
      have e : (vli st.delta st.bias).2 = (vliLoop st.bias (st.delta + 1) base st.delta).2 := rfl
      simp only [List.length_append]; omega
    · simp only [h2, if_false, ret_fst] at h ⊢
      cases h; simp

theorem encPass_length (nb n : Nat) : ∀ (l : List Nat) (st st' : EncSt), (encPass nb n l st).1 = .ok st' →
    st'.out.length ≤ st.out.length + (encPass nb n l st).2
  | [], st, st', h => by cases h; simp
  | c :: l, st, st', h => by
      unfold encPass at h ⊢
      obtain ⟨s1, e1, e2, t⟩ := andThen_inv h
      have h1 := encStep_length _ _ _ _ _ e1
      have h2 := encPass_length nb n l _ _ e2
      omega

theorem encLoop_length (nb : Nat) (range : List Nat) : ∀ (ms : List Nat) (n : Nat) (st st' : EncSt), (encLoop nb range ms n st).1 = .ok st' →
    st'.out.length ≤ st.out.length + (encLoop nb range ms n st).2
  | [], _, st, st', h => by cases h; simp
  | m :: ms, n, st, st', h => by
      unfold encLoop at h ⊢
      simp only [tick_fst, tick_snd] at h ⊢
      by_cases h1 : m < n
      · simp only [h1, if_true] at h; cases h
      · simp only [h1, if_false] at h ⊢
        obtain ⟨s1, e1, e2, t⟩ := andThen_inv h
        have h1 := encPass_length _ _ _ _ _ e1
        have h2 := encLoop_length nb range ms _ _ _ e2
        simp only at h1 h2
        omega

/-- What `punycode::encode` writes is no longer than the steps it takes. -/
theorem encode_length (l : List Nat) (allow : Bool) (t : Str) (b : Bool) (h : (encode l allow).1 = .ok (t, b)) :
    t.length ≤ (encode l allow).2 := by
  unfold encode at h ⊢
  have hb : ((l.filter isBasic).map UInt8.ofNat).length ≤ l.length := by
    rw [List.length_map]; exact List.length_filter_le _ _
  simp only [tick_fst, tick_snd] at h ⊢
  by_cases h1 : (allow && (l.filter (fun c => !isBasic c)).isEmpty) = true
  · simp only [h1, if_true, ret_fst] at h ⊢
    cases h
    simp only [ret_snd]; omega
  · simp only [h1, if_false, Bool.false_eq_true, tick_fst, tick_snd] at h ⊢
    obtain ⟨st, e1, e2, s1⟩ := andThen_inv h
    cases e2
    have h2 := encLoop_length _ _ _ _ _ _ e1
    have h3 : (if ((l.filter isBasic).map UInt8.ofNat).length > 0 then (l.filter isBasic).map UInt8.ofNat ++ [delimiter]
        else (l.filter isBasic).map UInt8.ofNat).length ≤ l.length + 1 := by
      split
      · simp only [List.length_append, List.length_cons, List.length_nil]; omega
      · omega
    rw [s1]
    simp only at h2
    simp only [ret_snd]
    omega

theorem unique_length : ∀ l : List Nat, (unique l).length ≤ l.length
  | [] => by simp [unique]
  | [a] => by simp [unique]
  | a :: b :: l => by
      have := unique_length (b :: l)
      unfold unique
      split
      · simp only [List.length_cons] at this ⊢; omega
      · simp only [List.length_cons] at this ⊢; omega

theorem distinct_length (l : List Nat) : (sortAndRemoveDuplicates l).length ≤ l.length := by
  have h : ∀ (a : Nat) (l : List Nat), (insertSorted a l).length = l.length + 1 := by
    intro a l
    induction l with
    | nil => rfl
    | cons b l ih => unfold insertSorted; split <;> simp [ih]
  have hs : (sortL l).length = l.length := by
    induction l with
    | nil => rfl
    | cons a l ih => show (insertSorted a (sortL l)).length = _; rw [h, ih]; rfl
  exact Nat.le_trans (unique_length _) (Nat.le_of_eq hs)

/-- What `punycode::encode` takes: of the order of n². -/
theorem encode_square (l : List Nat) (allow : Bool) : (encode l allow).2 ≤ (2 * l.length + 36) * (l.length + 1) := by
  have h := (C66_encode l allow (Puny.sortAndRemoveDuplicates (l.filter fun c => !isBasic c)) (nodup_distinct _)
    (fun c => by rw [mem_distinct, List.mem_filter]; simp [isBasic])).1
  refine Nat.le_trans h (Nat.mul_le_mul_right _ ?_)
  have h1 := distinct_length (l.filter fun c => !isBasic c)
  have h2 : (l.filter fun c => !isBasic c).length ≤ l.length := List.length_filter_le _ _
  have h3 := Nat.log2_le_self l.length
  omega

/-! ### Punycode: what is decoded is no longer than the text -/

theorem decodeLoop_length : ∀ (fuel : Nat) (s : Str) (o : List Nat) (n i b : Nat) (r : List Nat) (rest : Str),
    (decodeLoop fuel s o n i b).1 = .ok (.ok (r, rest)) → rest = [] ∧ r.length ≤ o.length + s.length
  | 0, _, _, _, _, _, _, _, h => by cases h
  | fuel + 1, [], o, n, i, b, r, rest, h => by cases h; simp
  | fuel + 1, c :: s, o, n, i, b, r, rest, h => by
      unfold decodeLoop at h
      simp only [tick_fst] at h
      obtain ⟨v, e1, e2, -⟩ := andThen_inv h
      cases v with
      | error e => cases e2
      | ok v =>
        obtain ⟨v, s'⟩ := v
        have hl := ((decodeVliLoop_steps b (c :: s) 1 base i).2 v s' e1).2
        simp only at e2
        obtain ⟨b', -, e3, -⟩ := andThen_inv e2
        by_cases hov : v / ((o.length + 1) % szMod) > (u32Mod - 1 + (szMod - n)) % szMod
        · simp only [hov, if_true] at e3; cases e3
        · simp only [hov, if_false] at e3
          obtain ⟨o', e4, e5, -⟩ := andThen_inv e3
          have hi := insertAt_length (show Puny.insertAt _ _ _ = .ok o' from e4)
          obtain ⟨h1, h2⟩ := decodeLoop_length fuel _ _ _ _ _ _ _ e5
          exact ⟨h1, by simp only [List.length_cons] at hl ⊢; omega⟩

theorem decode_length (bidi : Bool) (s : Str) (r : List Nat) (rest : Str) (h : (decode bidi s).1 = .ok (.ok (r, rest))) :
    rest = [] ∧ r.length ≤ s.length := by
  unfold decode at h
  obtain ⟨v, e1, e2, -⟩ := andThen_inv h
  cases v with
  | error e => cases e2
  | ok v =>
    obtain ⟨lit, t⟩ := v
    have hl := copyPlain_length (show Puny.copyPlain bidi s = _ from e1)
    obtain ⟨h1, h2⟩ := decodeLoop_length _ _ _ _ _ _ _ _ e2
    exact ⟨h1, by omega⟩

end Verif.Cost

namespace Verif.Cost.Codec
open Verif.Codec (Heap Store CpIter Field EncSize DecSize encSetOf bitPos setBit entry check fieldLast isNotDot idnaPrefix)

set_option linter.unusedSimpArgs false

/-! ### Percent coding -/

theorem needsPctencode_steps (es : UInt8) : ∀ s : Str, (needsPctencode es s).2 ≤ s.length + 1
  | [] => by simp [needsPctencode]
  | c :: s => by
      have := needsPctencode_steps es s
      unfold needsPctencode
      rw [tick_snd]
      split
      · simp only [ret_snd]; omega
      · simp only [List.length_cons]; omega

theorem pctencode_steps (es : UInt8) : ∀ s : Str, (pctencode es s).2 ≤ 4 * s.length + 1
  | [] => by simp [pctencode]
  | c :: s => by
      have ih := pctencode_steps es s
      unfold pctencode
      rw [tick_snd]
      split
      · have h1 : ∀ (hi lo : UInt8), (tick 3 (andThen (pctencode es s) fun rest => ret (.ok (0x25 :: hi :: lo :: rest)))).2 ≤ 3 + ((4 * s.length + 1) + 0) := by
          intro hi lo
          rw [tick_snd]
          exact Nat.add_le_add_left (andThen_le (c := 0) ih fun _ _ => Nat.le_refl _) _
        have h2 : (andThen (ret (dec2hex ((c.toNat >>> 4) &&& 0xF))) fun hi => andThen (ret (dec2hex (c.toNat &&& 0xF))) fun lo =>
            tick 3 (andThen (pctencode es s) fun rest => ret (.ok (0x25 :: hi :: lo :: rest)))).2 ≤ 0 + (0 + (3 + ((4 * s.length + 1) + 0))) :=
          andThen_le (Nat.le_refl _) fun hi _ => andThen_le (Nat.le_refl _) fun lo _ => h1 hi lo
        simp only [List.length_cons]; omega
      · have h1 : (andThen (pctencode es s) fun rest => ret (.ok (c :: rest))).2 ≤ (4 * s.length + 1) + 0 := andThen_le ih fun _ _ => Nat.le_refl _
        rw [tick_snd]
        simp only [List.length_cons]; omega

theorem pctEncodedSize_steps (s : Str) (es : UInt8) : (pctEncodedSize s es).2 ≤ 5 * s.length + 2 := by
  have : (pctEncodedSize s es).2 ≤ (s.length + 1) + ((4 * s.length + 1) + 0) := by
    refine andThen_le (needsPctencode_steps es s) fun b _ => ?_
    split
    · simp
    · exact andThen_le (pctencode_steps es s) fun _ _ => Nat.le_refl _
  omega

theorem pctIterLoop_steps (s : Str) (last : PctIter) : ∀ (fuel : Nat) (it : PctIter), (pctIterLoop s last fuel it).2 ≤ 2 * fuel
  | 0, _ => Nat.le_refl _
  | fuel + 1, it => by
      unfold pctIterLoop
      rw [tick_snd]
      have : (andThen (ret (it.eq last)) fun b =>
        if b then ret (.ok [])
        else
          andThen (ret (pctDeref s it.pos it.stop)) fun c =>
          tick 1 (andThen (ret (pctIncrement s it.pos it.stop)) fun pos =>
          andThen (pctIterLoop s last fuel { it with pos := pos }) fun rest => ret (.ok (c :: rest)))).2 ≤ 0 + (0 + (1 + (0 + (2 * fuel + 0)))) := by
        refine andThen_le (Nat.le_refl _) fun b _ => ?_
        split
        · simp
        · refine andThen_le (Nat.le_refl _) fun c _ => ?_
          rw [tick_snd]
          exact Nat.add_le_add_left (andThen_le (Nat.le_refl _) fun q _ => andThen_le (pctIterLoop_steps s last fuel _) fun _ _ => Nat.le_refl _) _
      omega

theorem pctViewLoop_steps (s : Str) (last : Nat) : ∀ (fuel pos : Nat), (pctViewLoop s last fuel pos).2 ≤ 2 * fuel
  | 0, _ => Nat.le_refl _
  | fuel + 1, pos => by
      unfold pctViewLoop
      rw [tick_snd]
      split
      · simp only [ret_snd]; omega
      · have : (andThen (ret (pctDeref s pos s.length)) fun c =>
          tick 1 (andThen (ret (pctIncrement s pos s.length)) fun pos =>
          andThen (pctViewLoop s last fuel pos) fun rest => ret (.ok (c :: rest)))).2 ≤ 0 + (1 + (0 + (2 * fuel + 0))) := by
          refine andThen_le (Nat.le_refl _) fun c _ => ?_
          rw [tick_snd]
          exact Nat.add_le_add_left (andThen_le (Nat.le_refl _) fun q _ => andThen_le (pctViewLoop_steps s last fuel _) fun _ _ => Nat.le_refl _) _
        omega

theorem pctdecode_steps (s : Str) : (pctdecode s).2 ≤ 2 * s.length + 2 := pctIterLoop_steps _ _ _ _
theorem pctViewCopy_steps (s : Str) : (pctViewCopy s).2 ≤ 2 * s.length + 2 := pctViewLoop_steps _ _ _ _

theorem pctDecodedSize_steps (s : Str) : (pctDecodedSize s).2 ≤ 3 * s.length + 3 := by
  unfold pctDecodedSize
  rw [tick_snd]
  have h1 : (s.takeWhile (fun c => !(c == 0x25))).length ≤ s.length := (List.takeWhile_sublist _).length_le
  split
  · simp only [ret_snd]; omega
  · have : (andThen (pctdecode s) fun r => ret (.ok r.length)).2 ≤ (2 * s.length + 2) + 0 := andThen_le (pctdecode_steps s) fun _ _ => Nat.le_refl _
    omega

/-! ### Transcoding views

A potential: what an iterator has buffered and what it has still to read. -/

section
variable {ι ο : Type} (T : Icu.Transcoder ι ο) (cap : Nat)

/-- The steps an iterator may still cause. -/
def pot (it : Icu.ViewIt ι ο T) : Nat := if it.atEnd then 0 else 3 * it.buf.length + (1 + 3 * cap) * it.next.length + 4

theorem fillLoop_steps : ∀ (s : List ι) (st : T.σ), (fillLoop T cap st s).2 ≤ s.length ∧
    ∀ r, (fillLoop T cap st s).1 = .ok r → (fillLoop T cap st s).2 + r.2.1.length = s.length ∧ (s ≠ [] → r.2.1.length < s.length)
  | [], _ => ⟨Nat.le_refl _, fun r h => by cases h; exact ⟨rfl, fun h => absurd rfl h⟩⟩
  | c :: s, st => by
      unfold fillLoop
      simp only [tick_fst, tick_snd, List.length_cons]
      cases hx : T.step st c with
      | error e =>
        rw [andThen_error (ret_fst _)]
        exact ⟨by simp only [ret_snd]; omega, fun r h => by cases h⟩
      | ok q =>
        rw [andThen_ok (ret_fst _)]
        simp only [ret_snd]
        by_cases h1 : q.2.length > cap
        · simp only [h1, if_true, ret_fst, ret_snd]
          exact ⟨by omega, fun r h => by cases h⟩
        · simp only [h1, if_false]
          by_cases h2 : q.2.isEmpty = true
          · simp only [h2, if_true]
            obtain ⟨i1, i2⟩ := fillLoop_steps s q.1
            refine ⟨by omega, fun r h => ?_⟩
            obtain ⟨j1, -⟩ := i2 r h
            exact ⟨by omega, fun _ => by omega⟩
          · simp only [h2, if_false, Bool.false_eq_true, ret_fst, ret_snd]
            refine ⟨by omega, fun r h => ?_⟩
            cases h
            exact ⟨by simp only; omega, fun _ => by simp only; omega⟩

theorem fill_steps (it : Icu.ViewIt ι ο T) : (fill T cap it).2 ≤ 1 + it.next.length ∧
    ∀ r, (fill T cap it).1 = .ok r → (fill T cap it).2 + r.next.length = 1 + it.next.length ∧ (it.next ≠ [] → r.next.length < it.next.length) ∧
      r.current = it.next ∧ r.buf.length ≤ cap := by
  unfold fill
  simp only [tick_fst, tick_snd]
  by_cases hb : (!it.buf.isEmpty) = true
  · simp only [hb, if_true, ret_fst, ret_snd]
    exact ⟨by omega, fun r h => by cases h⟩
  · simp only [hb, if_false, Bool.false_eq_true]
    obtain ⟨i1, i2⟩ := fillLoop_steps T cap it.next it.tr
    refine ⟨Nat.add_le_add_left (andThen_le (c := 0) i1 fun q _ => ?_) _, fun r h => ?_⟩
    · refine andThen_le (a := 0) (c := 0) (Nat.le_refl _) fun e _ => ?_
      split <;> simp
    · obtain ⟨q, e1, e2, s1⟩ := andThen_inv h
      obtain ⟨e, -, e4, s2⟩ := andThen_inv e2
      obtain ⟨j1, j2⟩ := i2 q e1
      by_cases hc : (q.2.2 ++ e.2).length > cap
      · simp only [hc, if_true] at e4; cases e4
      · simp only [hc, if_false, ret_fst, ret_snd] at e4 s2
        cases e4
        rw [s1, s2]
        exact ⟨by simp only; omega, j2, rfl, by simp only; omega⟩

theorem viewBegin_steps (s : List ι) : (viewBegin T cap s).2 ≤ 2 + s.length ∧
    ∀ r, (viewBegin T cap s).1 = .ok r → pot T cap r ≤ 3 * cap + (1 + 3 * cap) * s.length + 4 := by
  unfold viewBegin
  simp only [tick_fst, tick_snd]
  by_cases h : s.isEmpty = true
  · simp only [h, if_true, ret_fst, ret_snd]
    refine ⟨by omega, fun r hr => ?_⟩
    cases hr
    simp [pot, Icu.ViewIt.atEnd, h]
  · simp only [h, if_false, Bool.false_eq_true]
    obtain ⟨i1, i2⟩ := fill_steps T cap { current := s, next := s, buf := [], tr := T.init, parentWf := true }
    refine ⟨by simp only at i1; omega, fun r hr => ?_⟩
    obtain ⟨j1, j2, j3, j4⟩ := i2 r hr
    simp only at j1 j2 j3
    have hk : r.next.length ≤ s.length := by
      have := j2 (by intro hs; subst hs; simp at h)
      omega
    have := Nat.mul_le_mul_left (1 + 3 * cap) hk
    unfold pot
    split <;> omega

theorem incr_steps (it : Icu.ViewIt ι ο T) (he : it.atEnd = false) : (incr T cap it).2 + 2 ≤ pot T cap it ∧
    ∀ r, (incr T cap it).1 = .ok r → (incr T cap it).2 + 2 + pot T cap r ≤ pot T cap it := by
  have hp : pot T cap it = 3 * it.buf.length + (1 + 3 * cap) * it.next.length + 4 := by simp [pot, he]
  unfold incr
  cases hb : it.buf with
  | nil => exact ⟨by simp only [ret_snd]; omega, fun r h => by cases h⟩
  | cons x b =>
    simp only
    rw [hb] at hp
    simp only [List.length_cons] at hp
    by_cases h : b.isEmpty = true
    · simp only [h, if_true]
      obtain ⟨i1, i2⟩ := fill_steps T cap { it with buf := b }
      simp only at i1 i2
      have hm : it.next.length ≤ (1 + 3 * cap) * it.next.length := Nat.le_mul_of_pos_left _ (by omega)
      refine ⟨by omega, fun r hr => ?_⟩
      obtain ⟨j1, j2, j3, j4⟩ := i2 r hr
      by_cases hn : it.next = []
      · have : pot T cap r = 0 := by simp [pot, Icu.ViewIt.atEnd, j3, hn]
        simp only [hn, List.length_nil] at j1
        omega
      · have hlt := j2 hn
        obtain ⟨k, hk⟩ : ∃ k, it.next.length = r.next.length + (k + 1) := ⟨it.next.length - r.next.length - 1, by omega⟩
        have e : (1 + 3 * cap) * it.next.length = (1 + 3 * cap) * r.next.length + (k + 3 * (cap * k) + (1 + 3 * cap)) := by
          rw [hk, Nat.mul_add, Nat.mul_add (1 + 3 * cap) k 1, Nat.mul_one, Nat.add_mul 1 (3 * cap) k, Nat.one_mul, Nat.mul_assoc]
        have : pot T cap r ≤ 3 * cap + (1 + 3 * cap) * r.next.length + 4 := by
          unfold pot
          split <;> omega
        omega
    · simp only [h, if_false, Bool.false_eq_true, ret_fst, ret_snd]
      refine ⟨by omega, fun r hr => ?_⟩
      cases hr
      have : pot T cap { it with buf := b } ≤ 3 * b.length + (1 + 3 * cap) * it.next.length + 4 := by
        unfold pot
        split
        · omega
        · exact Nat.le_refl _
      omega

theorem viewLoop_steps : ∀ (fuel : Nat) (it : Icu.ViewIt ι ο T), (viewLoop T cap fuel it).2 ≤ pot T cap it + 1
  | 0, _ => Nat.zero_le _
  | fuel + 1, it => by
      unfold viewLoop
      rw [tick_snd]
      cases he : it.atEnd with
      | true => simp only [if_true, ret_snd]; omega
      | false =>
        simp only [if_false, Bool.false_eq_true]
        obtain ⟨i1, i2⟩ := incr_steps T cap it he
        have : (andThen (ret it.deref) fun c => tick 1 (andThen (incr T cap it) fun it =>
            andThen (viewLoop T cap fuel it) fun r => ret (.ok (r.1, c :: r.2)))).2 ≤ 0 + pot T cap it := by
          refine andThen_le (Nat.le_refl _) fun c _ => ?_
          rw [tick_snd]
          cases hx : (incr T cap it).1 with
          | error e => rw [andThen_error hx]; show 1 + (incr T cap it).2 ≤ _; omega
          | ok r =>
            rw [andThen_ok hx]
            have h1 := i2 r hx
            have h2 : (andThen (viewLoop T cap fuel r) fun r => ret (.ok (r.1, c :: r.2))).2 ≤ (pot T cap r + 1) + 0 :=
              andThen_le (viewLoop_steps fuel r) fun _ _ => Nat.le_refl _
            simp only
            omega
        omega

theorem viewRun_steps (s : List ι) : (viewRun T cap s).2 ≤ (2 + 3 * cap) * s.length + 3 * cap + 7 := by
  unfold viewRun
  obtain ⟨i1, i2⟩ := viewBegin_steps T cap s
  have e : (2 + 3 * cap) * s.length = s.length + (1 + 3 * cap) * s.length := by
    rw [show 2 + 3 * cap = 1 + (1 + 3 * cap) from by omega, Nat.add_mul, Nat.one_mul]
  have : (andThen (viewBegin T cap s) fun it => andThen (viewLoop T cap (cap * s.length + 1) it) fun r => ret (.ok (r.2, r.1.parentWf))).2 ≤
      (2 + s.length) + ((3 * cap + (1 + 3 * cap) * s.length + 4 + 1) + 0) := by
    refine andThen_le i1 fun it h => andThen_le ?_ fun _ _ => Nat.le_refl _
    have := viewLoop_steps T cap (cap * s.length + 1) it
    have := i2 it h
    omega
  omega

end

/-! ### Host names -/

/-- The potential of an iterator over the code points of a host name. -/
abbrev hostPot (it : CpIter) : Nat := pot Icu.t8_32 Icu.maxOut32 it

theorem labelLoop_steps : ∀ (fuel : Nat) (it : CpIter), (labelLoop fuel it).2 ≤ hostPot it + 1 ∧
    ∀ r, (labelLoop fuel it).1 = .ok r → 1 ≤ (labelLoop fuel it).2 ∧ (labelLoop fuel it).2 + hostPot r.2 ≤ hostPot it + 1 ∧
      2 * r.1.length < (labelLoop fuel it).2
  | 0, _ => ⟨Nat.zero_le _, fun r h => by cases h⟩
  | fuel + 1, it => by
      unfold labelLoop
      simp only [tick_fst, tick_snd]
      cases he : it.atEnd with
      | true =>
        simp only [if_true, ret_fst, ret_snd]
        exact ⟨by omega, fun r h => by cases h; simp only [List.length_nil]; omega⟩
      | false =>
        simp only [if_false, Bool.false_eq_true]
        obtain ⟨i1, i2⟩ := incr_steps Icu.t8_32 Icu.maxOut32 it he
        cases hd : it.deref with
        | error e =>
          rw [andThen_error (ret_fst _)]
          exact ⟨by simp only [ret_snd]; omega, fun r h => by cases h⟩
        | ok c =>
          rw [andThen_ok (ret_fst _)]
          simp only [ret_snd]
          by_cases hn : isNotDot c = true
          · simp only [hn, if_true, tick_fst, tick_snd]
            cases hx : (incr Icu.t8_32 Icu.maxOut32 it).1 with
            | error e =>
              rw [andThen_error hx]
              exact ⟨by simp only [hostPot]; omega, fun r h => by cases h⟩
            | ok it' =>
              rw [andThen_ok hx]
              simp only
              obtain ⟨j1, j2⟩ := labelLoop_steps fuel it'
              have h1 := i2 it' hx
              constructor
              · have : (andThen (labelLoop fuel it') fun r => ret (.ok (c :: r.1, r.2))).2 ≤ (hostPot it' + 1) + 0 :=
                  andThen_le j1 fun _ _ => Nat.le_refl _
                simp only [hostPot] at this ⊢
                omega
              · intro r h
                obtain ⟨q, e1, e2, s1⟩ := andThen_inv h
                cases e2
                obtain ⟨k1, k2, k3⟩ := j2 q e1
                rw [s1]
                simp only [hostPot, ret_snd, List.length_cons] at k2 ⊢
                omega
          · simp only [hn, if_false, Bool.false_eq_true, ret_fst, ret_snd]
            exact ⟨by omega, fun r h => by cases h; simp only [List.length_nil]; omega⟩

/-- Of the order of x². -/
def quad (x : Nat) : Nat := 2 * (x * x) + 78 * x

theorem quad_add (a b : Nat) : quad a + quad b ≤ quad (a + b) := by
  unfold quad
  have : (a + b) * (a + b) = a * a + 2 * (a * b) + b * b := by
    rw [Nat.add_mul, Nat.mul_add, Nat.mul_add, Nat.mul_comm b a]; omega
  omega

theorem quad_mono {a b : Nat} (h : a ≤ b) : quad a ≤ quad b := by
  obtain ⟨c, rfl⟩ : ∃ c, b = a + c := ⟨b - a, by omega⟩
  exact Nat.le_trans (Nat.le_add_right _ _) (quad_add a c)

theorem le_quad (a : Nat) : a ≤ quad a := by unfold quad; omega

/-- One label: what the passes over it, its encoding and its copying take. -/
theorem label_steps {n S p E o : Nat} (h1 : 2 * n < S) (hp : p ≤ n) (hE : E ≤ (2 * n + 36) * (n + 1)) (ho : o ≤ 4 + E) :
    1 + (S + (p * S + (E + (o + 1)))) ≤ quad S := by
  have e1 : 2 * (p * S) + S ≤ S * S := by
    have h := Nat.mul_le_mul_right S (show 2 * p + 1 ≤ S by omega)
    rw [Nat.add_mul, Nat.mul_assoc, Nat.one_mul] at h
    exact h
  have e2 : 2 * E ≤ S * S + 36 * S + 35 := by
    have h : (2 * n + 36) * (2 * (n + 1)) ≤ (S + 35) * (S + 1) := Nat.mul_le_mul (by omega) (by omega)
    rw [show (2 * n + 36) * (2 * (n + 1)) = 2 * ((2 * n + 36) * (n + 1)) from Nat.mul_left_comm _ _ _] at h
    have e : (S + 35) * (S + 1) = S * S + 36 * S + 35 := by rw [Nat.add_mul, Nat.mul_add]; omega
    omega
  unfold quad
  omega

theorem punyEncodedLoop_steps (bound : Nat) : ∀ (fuel : Nat) (it : CpIter), (punyEncodedLoop bound fuel it).2 ≤ quad (hostPot it + 2)
  | 0, _ => Nat.zero_le _
  | fuel + 1, it => by
      unfold punyEncodedLoop
      rw [tick_snd]
      obtain ⟨i1, i2⟩ := labelLoop_steps bound it
      cases hx : (labelLoop bound it).1 with
      | error e =>
        rw [andThen_error hx]
        have := le_quad (hostPot it + 2)
        simp only
        omega
      | ok l =>
        rw [andThen_ok hx]
        simp only [tick_snd]
        obtain ⟨j1, j2, j3⟩ := i2 l hx
        have hE := encode_square l.1 true
        have hp : passes l.1 - 1 ≤ l.1.length := by
          have h1 := distinct_length (l.1.filter fun c => !Puny.isBasic c)
          have h2 : (l.1.filter fun c => !Puny.isBasic c).length ≤ l.1.length := List.length_filter_le _ _
          unfold passes
          omega
        generalize hS : (labelLoop bound it).2 = S at *
        have hq : quad S + quad (hostPot l.2 + 1) ≤ quad (hostPot it + 2) :=
          Nat.le_trans (quad_add _ _) (quad_mono (by omega))
        cases hy : (Cost.encode l.1 true).1 with
        | error e =>
          rw [andThen_error hy]
          have := label_steps j3 hp hE (Nat.zero_le _)
          simp only
          omega
        | ok e =>
          rw [andThen_ok hy]
          simp only [tick_snd]
          have ho : ((if e.2 then idnaPrefix else []) ++ e.1).length ≤ 4 + (Cost.encode l.1 true).2 := by
            have h1 := encode_length l.1 true e.1 e.2 hy
            have h2 : (if e.2 then idnaPrefix else []).length ≤ 4 := by split <;> decide
            rw [List.length_append]
            omega
          have hl := label_steps j3 hp hE ho
          by_cases hend : l.2.atEnd = true
          · simp only [hend, if_true, ret_snd]
            omega
          · simp only [hend, if_false, Bool.false_eq_true]
            obtain ⟨k1, k2⟩ := incr_steps Icu.t8_32 Icu.maxOut32 l.2 (by simpa using hend)
            have hq1 := le_quad (hostPot l.2 + 1)
            cases hz : (incr Icu.t8_32 Icu.maxOut32 l.2).1 with
            | error e =>
              rw [andThen_error hz]
              simp only [hostPot] at *
              omega
            | ok it' =>
              rw [andThen_ok hz]
              simp only
              have h1 := k2 it' hz
              have h2 : (andThen (punyEncodedLoop bound fuel it') fun r =>
                  ret (.ok (((if e.2 then idnaPrefix else []) ++ e.1) ++ 0x2E :: r.1, e.2 || r.2))).2 ≤ quad (hostPot it' + 2) + 0 :=
                andThen_le (punyEncodedLoop_steps bound fuel it') fun _ _ => Nat.le_refl _
              have h3 : quad (incr Icu.t8_32 Icu.maxOut32 l.2).2 + quad (hostPot it' + 2) ≤ quad (hostPot l.2 + 1) :=
                Nat.le_trans (quad_add _ _) (quad_mono (by simp only [hostPot] at *; omega))
              have h4 := le_quad (incr Icu.t8_32 Icu.maxOut32 l.2).2
              omega

theorem punyEncoded_steps (s : Str) : (punyEncoded s).2 ≤ s.length + 2 + quad (4 * s.length + 9) := by
  unfold punyEncoded
  obtain ⟨i1, i2⟩ := viewBegin_steps Icu.t8_32 Icu.maxOut32 s
  refine Nat.le_trans (andThen_le i1 fun it h => Nat.le_trans (punyEncodedLoop_steps _ _ it) (quad_mono (b := 4 * s.length + 9) ?_)) (by omega)
  have := i2 it h
  simp only [Icu.maxOut32] at this
  simp only [hostPot, Icu.maxOut32]
  omega

/-- Of the order of x². -/
def quadD (x : Nat) : Nat := x * x + 33 * x

theorem quadD_add (a b : Nat) : quadD a + quadD b ≤ quadD (a + b) := by
  unfold quadD
  have : (a + b) * (a + b) = a * a + 2 * (a * b) + b * b := by
    rw [Nat.add_mul, Nat.mul_add, Nat.mul_add, Nat.mul_comm b a]; omega
  omega

theorem punyDecodedNext_steps {loop : Str → CM (Str × Except Puny.Err Bool)} (h : ∀ s, (loop s).2 ≤ quadD (s.length + 1)) (out first : Str) (enc : Bool) :
    (punyDecodedNext loop out first enc).2 ≤ 1 + quadD first.length := by
  cases first with
  | nil => simp [punyDecodedNext]
  | cons c first =>
    unfold punyDecodedNext
    rw [tick_snd]
    have : (andThen (loop first) fun r => ret (.ok (out ++ 0x2E :: r.1, r.2.map (enc || ·)))).2 ≤ quadD (first.length + 1) + 0 :=
      andThen_le (h first) fun _ _ => Nat.le_refl _
    simp only [List.length_cons]
    omega

theorem punyDecodedLoop_steps : ∀ (fuel : Nat) (s : Str), (punyDecodedLoop fuel s).2 ≤ quadD (s.length + 1)
  | 0, _ => Nat.zero_le _
  | fuel + 1, s => by
      have ih := punyDecodedLoop_steps fuel
      unfold punyDecodedLoop
      rw [tick_snd]
      generalize hv : s.takeWhile (fun c => isNotDot c.toNat) = v
      have hl : v.length + (s.drop v.length).length = s.length := by
        have h : v.length ≤ s.length := by rw [← hv]; exact (List.takeWhile_sublist _).length_le
        rw [List.length_drop]; omega
      have hq : quadD (v.length + 1) + quadD (s.drop v.length).length ≤ quadD (s.length + 1) :=
        Nat.le_trans (quadD_add _ _) (Nat.le_of_eq (congrArg quadD (by omega)))
      have hq1 : (v.length + 1) * (v.length + 1) = v.length * v.length + 2 * v.length + 1 := by rw [Nat.add_mul, Nat.mul_add]; omega
      split
      · have hd := decode_steps false (v.drop idnaPrefix.length)
        have hdl : (v.drop idnaPrefix.length).length ≤ v.length := by rw [List.length_drop]; omega
        have hsq := Nat.mul_le_mul hdl hdl
        have hd' : (Cost.decode false (v.drop idnaPrefix.length)).2 ≤ v.length * v.length + 17 * v.length + 3 := by omega
        have : (andThen (Cost.decode false (v.drop idnaPrefix.length)) fun d =>
          match d with
          | .error err => ret (.ok ([], .error err))
          | .ok r =>
              andThen (viewRun Icu.t32_8 Icu.maxOut8 r.1) fun o =>
              punyDecodedNext (punyDecodedLoop fuel) o.1 (r.2 ++ s.drop v.length) true).2 ≤
            (v.length * v.length + 17 * v.length + 3) + (((2 + 3 * 4) * v.length + 3 * 4 + 7) + (1 + quadD (s.drop v.length).length)) := by
          refine andThen_le hd' fun d he => ?_
          cases d with
          | error e => simp
          | ok r =>
            obtain ⟨r, rest⟩ := r
            obtain ⟨rfl, hr⟩ := decode_length _ _ _ _ he
            refine andThen_le ?_ fun o _ => punyDecodedNext_steps ih _ _ _
            have := viewRun_steps Icu.t32_8 Icu.maxOut8 r
            simp only [Icu.maxOut8] at this ⊢
            have := Nat.mul_le_mul_left (2 + 3 * 4) (Nat.le_trans hr hdl)
            omega
        refine Nat.le_trans (Nat.add_le_add_left this _) ?_
        unfold quadD at hq ⊢
        omega
      · have := punyDecodedNext_steps ih v (s.drop v.length) false
        unfold quadD at hq ⊢ this
        omega

theorem punyDecoded_steps (s : Str) : (punyDecoded s).2 ≤ quadD (s.length + 1) := punyDecodedLoop_steps _ _

/-! ### Host names that need no coding -/

theorem encode_ascii {l : List Nat} (h : ∀ c ∈ l, c < 0x80) : Cost.encode l true = (.ok (l.map UInt8.ofNat, false), 1 + l.length) := by
  have h1 : l.filter (fun c => !Puny.isBasic c) = [] := by
    rw [List.filter_eq_nil_iff]
    intro c hc
    simp [Puny.isBasic, h c hc]
  have h2 : l.filter Puny.isBasic = l := by
    rw [List.filter_eq_self]
    intro c hc
    simp [Puny.isBasic, h c hc]
  unfold Cost.encode
  simp [h1, h2, tick, ret]

theorem punyEncodedLoop_ascii (bound : Nat) : ∀ (fuel : Nat) (it : CpIter) (cs : List Nat), Verif.Codec.Stands it cs → cs.length < bound → (∀ c ∈ cs, c < 0x80) →
    (punyEncodedLoop bound fuel it).2 ≤ 4 * (hostPot it + 2)
  | 0, _, _, _, _, _ => Nat.zero_le _
  | fuel + 1, it, cs, hst, hb, ha => by
      unfold punyEncodedLoop
      rw [tick_snd]
      obtain ⟨-, i2⟩ := labelLoop_steps bound it
      obtain ⟨it1, e1, hst1⟩ := Verif.Codec.labelLoop_eq bound it cs hst hb
      have hx : (labelLoop bound it).1 = .ok (cs.takeWhile isNotDot, it1) := by rw [labelLoop_fst, e1]
      rw [andThen_ok hx]
      simp only [tick_snd]
      obtain ⟨j1, j2, j3⟩ := i2 _ hx
      have hal : ∀ c ∈ cs.takeWhile isNotDot, c < 0x80 := fun c hc => ha c ((List.takeWhile_prefix _).subset hc)
      have hp : passes (cs.takeWhile isNotDot) - 1 = 0 := by
        have : (cs.takeWhile isNotDot).filter (fun c => !Puny.isBasic c) = [] := by
          rw [List.filter_eq_nil_iff]
          intro c hc
          simp [Puny.isBasic, hal c hc]
        unfold passes
        rw [this]
        rfl
      rw [hp, encode_ascii hal, andThen_ok (b := ((cs.takeWhile isNotDot).map UInt8.ofNat, false)) rfl]
      generalize (labelLoop bound it).2 = S at *
      simp only [tick_snd, Bool.false_eq_true, if_false, List.nil_append, List.length_map, Nat.zero_mul, Nat.zero_add, hostPot] at *
      by_cases hend : it1.atEnd = true
      · simp only [hend, if_true, ret_snd]
        omega
      · simp only [hend, if_false, Bool.false_eq_true]
        obtain ⟨k1, k2⟩ := incr_steps Icu.t8_32 Icu.maxOut32 it1 (by simpa using hend)
        cases hd : cs.dropWhile isNotDot with
        | nil => rw [hd] at hst1; exact absurd hst1 hend
        | cons c r =>
          rw [hd] at hst1
          obtain ⟨-, -, it2, e2, hst2⟩ := hst1
          have hz : (incr Icu.t8_32 Icu.maxOut32 it1).1 = .ok it2 := by rw [incr_fst, e2]
          rw [andThen_ok hz]
          simp only
          have hsub : (c :: r).Sublist cs := by rw [← hd]; exact List.dropWhile_sublist _
          have hl := hsub.length_le
          simp only [List.length_cons] at hl
          have h1 := k2 it2 hz
          have h2 : (andThen (punyEncodedLoop bound fuel it2) fun r =>
              ret (.ok ((cs.takeWhile isNotDot).map UInt8.ofNat ++ 0x2E :: r.1, false || r.2))).2 ≤ 4 * (hostPot it2 + 2) + 0 :=
            andThen_le (punyEncodedLoop_ascii bound fuel it2 r hst2 (by omega) fun x hx => ha x (hsub.subset (by simp [hx]))) fun _ _ => Nat.le_refl _
          simp only [hostPot] at h2
          omega

theorem punyEncoded_ascii (s : Str) (ha : ∀ c ∈ s, c.toNat < 0x80) : (punyEncoded s).2 ≤ 17 * s.length + 38 := by
  obtain ⟨it, out, e1, hr, hst, hl, -⟩ := Verif.Codec.cpBegin_stands s
  have ho : out = s.map UInt8.toNat := Verif.Codec.reads_unique hr (Verif.Codec.ascii_reads ha)
  have hx : (viewBegin Icu.t8_32 Icu.maxOut32 s).1 = .ok it := by rw [viewBegin_fst]; exact e1
  obtain ⟨i1, i2⟩ := viewBegin_steps Icu.t8_32 Icu.maxOut32 s
  unfold punyEncoded
  rw [andThen_ok hx]
  have h1 := punyEncodedLoop_ascii (s.length + 1) (s.length + 1) it out hst (by omega) (by
    intro c hc
    rw [ho] at hc
    obtain ⟨x, hx, rfl⟩ := List.mem_map.1 hc
    exact ha x hx)
  have h2 := i2 it hx
  simp only [Icu.maxOut32, hostPot] at *
  omega

theorem punyDecodedLoop_plain : ∀ (fuel : Nat) (s : Str), ¬ idnaPrefix <:+: s → (punyDecodedLoop fuel s).2 ≤ 8 * (s.length + 1)
  | 0, _, _ => Nat.zero_le _
  | fuel + 1, s, hs => by
      unfold punyDecodedLoop
      rw [tick_snd]
      have hv : s.takeWhile (fun c => isNotDot c.toNat) <+: s := List.takeWhile_prefix _
      generalize s.takeWhile (fun c => isNotDot c.toNat) = v at *
      have hl : v.length + (s.drop v.length).length = s.length := by
        have h := hv.length_le
        rw [List.length_drop]; omega
      have hn : ¬ (startsWith (· == ·) id id v idnaPrefix = true) := fun h =>
        hs (((Verif.Codec.starts_iff v).1 h).trans hv).isInfix
      rw [if_neg hn]
      cases hd : s.drop v.length with
      | nil => simp only [punyDecodedNext, ret_snd]; rw [hd] at hl; simp only [List.length_nil] at hl; omega
      | cons c r =>
        have hr : ¬ idnaPrefix <:+: r := fun h => hs (h.trans (((List.suffix_cons c r).trans (hd ▸ List.drop_suffix _ _)).isInfix))
        have : (andThen (punyDecodedLoop fuel r) fun q => ret (.ok (v ++ 0x2E :: q.1, q.2.map (false || ·)))).2 ≤ 8 * (r.length + 1) + 0 :=
          andThen_le (punyDecodedLoop_plain fuel r hr) fun _ _ => Nat.le_refl _
        rw [hd] at hl
        unfold punyDecodedNext
        rw [tick_snd]
        simp only [List.length_cons] at hl
        omega

theorem punyDecoded_plain (s : Str) (h : ¬ idnaPrefix <:+: s) : (punyDecoded s).2 ≤ 8 * (s.length + 1) := punyDecodedLoop_plain _ _ h

/-! ### Visiting the strings -/

section
variable {σ : Type} {f : SV → Nat → Field → σ → CM (SV × σ)} {b : Field → SV → Nat}

/-- What the strings of an optional field cost. -/
def optSteps (b : Field → SV → Nat) (fld : Field) (v : Option SV) : Nat := (v.toList.map fun v => b fld v).sum

theorem visit_steps (h : ∀ v i fld st, (f v i fld st).2 ≤ b fld v) (fld : Field) (v : SV) (st : σ) :
    (visit f fld v st).2 ≤ 1 + b fld v := by
  unfold visit
  rw [tick_snd]
  split
  · exact Nat.add_le_add_left (h _ _ _ _) _
  · simp only [ret_snd]; omega

theorem visitOpt_steps (h : ∀ v i fld st, (f v i fld st).2 ≤ b fld v) (fld : Field) (v : Option SV) (st : σ) :
    (visitOpt f fld v st).2 ≤ 1 + optSteps b fld v := by
  cases v with
  | none => simp [visitOpt, optSteps]
  | some v =>
    have : (visitOpt f fld (some v) st).2 ≤ (1 + b fld v) + 0 := andThen_le (visit_steps h _ _ _) fun _ _ => Nat.le_refl _
    simpa [optSteps] using this

theorem visitSegments_steps (h : ∀ v i fld st, (f v i fld st).2 ≤ b fld v) : ∀ (vs : List SV) (n : Nat) (st : σ),
    (visitSegments f vs n st).2 ≤ (vs.map fun v => b .path v + 1).sum
  | [], _, _ => Nat.le_refl _
  | v :: vs, n, st => by
      unfold visitSegments
      rw [tick_snd, List.map_cons, List.sum_cons]
      split
      · have : (andThen (f v n .path st) fun r => andThen (visitSegments f vs ((n + 1) % u32Mod) r.2) fun rs => ret (.ok (r.1 :: rs.1, rs.2))).2 ≤
            b .path v + ((vs.map fun v => b .path v + 1).sum + 0) :=
          andThen_le (h _ _ _ _) fun r _ => andThen_le (visitSegments_steps h vs _ _) fun _ _ => Nat.le_refl _
        omega
      · have : (andThen (visitSegments f vs n st) fun rs => ret (.ok (v :: rs.1, rs.2))).2 ≤ (vs.map fun v => b .path v + 1).sum + 0 :=
          andThen_le (visitSegments_steps h vs _ _) fun _ _ => Nat.le_refl _
        omega

/-- What the strings of the authority cost. -/
def authSteps (b : Field → SV → Nat) (a : Option (Authority SV)) : Nat :=
  (a.toList.map fun a => optSteps b .userinfo a.userinfo + b .host a.host + optSteps b .port a.port).sum

theorem visitAuthority_steps (h : ∀ v i fld st, (f v i fld st).2 ≤ b fld v) (a : Option (Authority SV)) (st : σ) :
    (visitAuthority f a st).2 ≤ 4 + authSteps b a := by
  cases a with
  | none => show 1 + 0 ≤ _; omega
  | some a =>
    have : (andThen (visitOpt f .userinfo a.userinfo st) fun u => andThen (visit f .host a.host u.2) fun h =>
        andThen (visitOpt f .port a.port h.2) fun p => ret (.ok ((some ⟨u.1, h.1, p.1⟩ : Option (Authority SV)), p.2))).2 ≤
        (1 + optSteps b .userinfo a.userinfo) + ((1 + b .host a.host) + ((1 + optSteps b .port a.port) + 0)) :=
      andThen_le (visitOpt_steps h _ _ _) fun u _ => andThen_le (visit_steps h _ _ _) fun _ _ => andThen_le (visitOpt_steps h _ _ _) fun _ _ => Nat.le_refl _
    unfold visitAuthority
    rw [tick_snd]
    simp only [authSteps, Option.toList_some, List.map_cons, List.map_nil, List.sum_cons, List.sum_nil]
    omega

/-- What the strings of a parts value cost. -/
def partsSteps (b : Field → SV → Nat) (p : Parts SV) : Nat :=
  optSteps b .scheme p.scheme + (p.path.segments.map fun v => b .path v + 1).sum + authSteps b p.authority +
    optSteps b .query p.query + optSteps b .fragment p.fragment

theorem partsStrings_steps (h : ∀ v i fld st, (f v i fld st).2 ≤ b fld v) (p : Parts SV) (st : σ) :
    (partsStrings f p st).2 ≤ 8 + partsSteps b p := by
  unfold partsStrings
  rw [tick_snd]
  have : (andThen (visitOpt f .scheme p.scheme st) fun s => andThen (visitSegments f p.path.segments 0 s.2) fun g =>
      andThen (visitAuthority f p.authority g.2) fun a => andThen (visitOpt f .query p.query a.2) fun q =>
      andThen (visitOpt f .fragment p.fragment q.2) fun t =>
      ret (.ok ((⟨s.1, a.1, ⟨p.path.absolute, g.1⟩, q.1, t.1⟩ : Parts SV), t.2))).2 ≤
      (1 + optSteps b .scheme p.scheme) + ((p.path.segments.map fun v => b .path v + 1).sum + ((4 + authSteps b p.authority) +
        ((1 + optSteps b .query p.query) + ((1 + optSteps b .fragment p.fragment) + 0)))) :=
    andThen_le (visitOpt_steps h _ _ _) fun _ _ => andThen_le (visitSegments_steps h _ _ _) fun _ _ => andThen_le (visitAuthority_steps h _ _) fun _ _ =>
      andThen_le (visitOpt_steps h _ _ _) fun _ _ => andThen_le (visitOpt_steps h _ _ _) fun _ _ => Nat.le_refl _
  unfold partsSteps
  omega

end

/-! ### `encode` and `decode` -/

theorem punyEncodedSize_le {H : Str → Nat} (hH : ∀ s, (punyEncoded s).2 ≤ H s) (s : Str) : (punyEncodedSize s).2 ≤ H s :=
  andThen_le (c := 0) (hH s) fun _ _ => Nat.le_refl _

theorem punyDecodedSize_le {H : Str → Nat} (hH : ∀ s, (punyDecoded s).2 ≤ H s) (s : Str) : (punyDecodedSize s).2 ≤ H s := by
  refine andThen_le (c := 0) (hH s) fun r _ => ?_
  cases r.2 <;> exact Nat.le_refl _

/-- What the first pass of `encode` costs for a string. -/
def encSizeSteps (H : Str → Nat) (fld : Field) (v : SV) : Nat := 1 + if fld = .host then H v.chars else 5 * v.chars.length + 2
/-- What the second pass of `encode` costs for a string. -/
def encWriteSteps (H : Str → Nat) (fld : Field) (v : SV) : Nat := 1 + if fld = .host then 2 * H v.chars else 10 * v.chars.length + 4

theorem encodeSize_steps {H : Str → Nat} (hH : ∀ s, (punyEncoded s).2 ≤ H s) (v : SV) (i : Nat) (fld : Field) (st : EncSize) : (encodeSize v i fld st).2 ≤ encSizeSteps H fld v := by
  unfold encodeSize encSizeSteps
  rw [tick_snd]
  refine Nat.add_le_add_left ?_ _
  refine Nat.le_trans (andThen_le (a := 0) (Nat.le_refl _) fun _ _ =>
    andThen_le (a := if fld = .host then H v.chars else 5 * v.chars.length + 2) ?_ fun _ _ => Nat.le_refl 0) (by omega)
  unfold encodedSize
  by_cases h : fld = .host
  · rw [if_pos h, if_pos h]; exact punyEncodedSize_le hH _
  · rw [if_neg h, if_neg h]; exact pctEncodedSize_steps _ _

theorem encodeWrite_steps {H : Str → Nat} (hH : ∀ s, (punyEncoded s).2 ≤ H s) (hp : Heap) (bits : Nat → Bool) (v : SV) (i : Nat) (fld : Field) (st : Store) :
    (encodeWrite hp bits v i fld st).2 ≤ encWriteSteps H fld v := by
  unfold encodeWrite encWriteSteps
  rw [tick_snd]
  refine Nat.add_le_add_left ?_ _
  refine Nat.le_trans (andThen_le (a := 0) (c := if fld = .host then 2 * H v.chars else 10 * v.chars.length + 4)
    (Nat.le_refl _) fun _ _ => ?_) (by omega)
  by_cases h1 : bitPos fld i < fieldLast ∧ bits (bitPos fld i) = false
  · rw [if_pos h1]; exact Nat.zero_le _
  · rw [if_neg h1]
    by_cases h2 : fld = .host
    · rw [if_pos h2, if_pos h2]
      refine Nat.le_trans (andThen_le (punyEncodedSize_le hH _) fun n _ => andThen_le (a := 0) (Nat.le_refl _) fun _ _ =>
        andThen_le (a := 0) (Nat.le_refl _) fun _ _ => andThen_le (hH _) fun _ _ => andThen_le (a := 0) (c := 0) (Nat.le_refl _) fun _ _ => Nat.le_refl _) (by omega)
    · rw [if_neg h2, if_neg h2]
      refine Nat.le_trans (andThen_le (c := 0 + (9 * v.chars.length + 3)) (needsPctencode_steps _ _) fun b _ => andThen_le (a := 0) (Nat.le_refl _) fun _ _ => ?_) (by omega)
      split
      · exact Nat.zero_le _
      · exact Nat.le_trans (andThen_le (pctEncodedSize_steps _ _) fun _ _ => andThen_le (a := 0) (Nat.le_refl _) fun _ _ => andThen_le (pctencode_steps _ _) fun _ _ =>
          andThen_le (a := 0) (c := 0) (Nat.le_refl _) fun _ _ => Nat.le_refl _) (by omega)

/-- What the first pass of `decode` costs for a string. -/
def decSizeSteps (H : Str → Nat) (fld : Field) (v : SV) : Nat := 1 + if fld = .host then H v.chars else 3 * v.chars.length + 3
/-- What the second pass of `decode` costs for a string. -/
def decWriteSteps (H : Str → Nat) (fld : Field) (v : SV) : Nat := 1 + if fld = .host then H v.chars else 5 * v.chars.length + 5

theorem decodeSize_steps {H : Str → Nat} (hH : ∀ s, (punyDecoded s).2 ≤ H s) (v : SV) (i : Nat) (fld : Field) (st : DecSize) : (decodeSize v i fld st).2 ≤ decSizeSteps H fld v := by
  unfold decodeSize decSizeSteps
  rw [tick_snd]
  refine Nat.add_le_add_left ?_ _
  refine Nat.le_trans (andThen_le (a := 0) (c := if fld = .host then H v.chars else 3 * v.chars.length + 3) (Nat.le_refl _) fun _ _ => ?_) (by omega)
  cases st.error with
  | some e => exact Nat.zero_le _
  | none =>
    refine Nat.le_trans (andThen_le (c := 0) (a := if fld = .host then H v.chars else 3 * v.chars.length + 3) ?_ fun r _ => ?_) (by omega)
    · unfold decodedSize
      by_cases h : fld = .host
      · rw [if_pos h, if_pos h]; exact punyDecodedSize_le hH _
      · rw [if_neg h, if_neg h]; exact andThen_le (c := 0) (pctDecodedSize_steps _) fun _ _ => Nat.le_refl _
    · cases r <;> exact Nat.le_refl _

theorem decodeWrite_steps {H : Str → Nat} (hH : ∀ s, (punyDecoded s).2 ≤ H s) (hp : Heap) (bits : Nat → Bool) (v : SV) (i : Nat) (fld : Field) (st : Store) :
    (decodeWrite hp bits v i fld st).2 ≤ decWriteSteps H fld v := by
  unfold decodeWrite decWriteSteps
  rw [tick_snd]
  refine Nat.add_le_add_left ?_ _
  refine Nat.le_trans (andThen_le (a := 0) (Nat.le_refl _) fun _ _ => andThen_le (a := 0)
    (c := if fld = .host then H v.chars else 5 * v.chars.length + 5) (Nat.le_refl _) fun _ _ => ?_) (by omega)
  by_cases h1 : bitPos fld i < fieldLast ∧ bits (bitPos fld i) = false
  · rw [if_pos h1]; exact Nat.zero_le _
  · rw [if_neg h1]
    by_cases h2 : fld = .host
    · rw [if_pos h2, if_pos h2]
      exact andThen_le (c := 0) (hH _) fun _ _ => Nat.le_refl _
    · rw [if_neg h2, if_neg h2]
      refine Nat.le_trans (andThen_le (c := 2 * v.chars.length + 2) (pctDecodedSize_steps _) fun b _ => ?_) (by omega)
      split
      · exact Nat.zero_le _
      · exact Nat.le_trans (andThen_le (a := 0) (Nat.le_refl _) fun _ _ => andThen_le (c := 0) (pctViewCopy_steps _) fun _ _ => Nat.le_refl _) (by omega)

end Verif.Cost.Codec
