import Verif.Props.Pct

/-!
# C104: the iterators of percent-decoded text are forward iterators
-/

set_option linter.unusedSimpArgs false

namespace Verif
open PctSpec

/-- `++it`, n times, on an iterator of the text `s` whose end is `stop`. -/
def advance (s : Str) (stop : Nat) : Nat → Nat → M Nat
  | 0, pos => .ok pos
  | n + 1, pos => pctIncrement s pos stop >>= advance s stop n

namespace Forward

/-- One character of the decoded text: what it is made of, what is read there and where the next begins. -/
theorem unit (pre post : Str) (c : UInt8) (t : Str) : ∃ u v x, c :: t = u ++ v ∧ u ≠ [] ∧
    pctDeref (pre ++ (c :: t) ++ post) pre.length (pre.length + (c :: t).length) = .ok x ∧
    pctIncrement (pre ++ (c :: t) ++ post) pre.length (pre.length + (c :: t).length) = .ok (pre.length + u.length) ∧
    decP (c :: t) = x :: decP v ∧ (∀ w z, v = w ++ z → decP (u ++ w) = x :: decP w) := by
  have h1 := pctDeref_mid pre post c t
  have h2 := pctIncrement_mid pre post c t
  have h3 := decP_cons c t
  match t, h1, h2, h3 with
  | [], h1, h2, h3 =>
      refine ⟨[c], [], c, rfl, by simp, by simpa [tripHead] using h1, by simpa [tripHead] using h2, by simpa [tripHead] using h3, ?_⟩
      intro w z h
      obtain ⟨rfl, rfl⟩ : w = [] ∧ z = [] := by simpa using h.symm
      simpa [tripHead] using h3
  | [a], h1, h2, h3 =>
      refine ⟨[c], [a], c, rfl, by simp, by simpa [tripHead] using h1, by simpa [tripHead] using h2, by simpa [tripHead] using h3, ?_⟩
      intro w z h
      match w, h with
      | [], h => simp [decP]
      | [b], h => simp [decP]
      | b :: b' :: w, h => simp at h
  | a :: b :: t, h1, h2, h3 =>
      by_cases k : c = 0x25 ∧ tripletB a b = true
      · have e : tripHead (c :: a :: b :: t) = some (byteB a b) := by rw [tripHead, if_pos k]
        rw [e] at h1 h2 h3
        refine ⟨[c, a, b], t, byteB a b, rfl, by simp, h1, h2, h3, ?_⟩
        intro w z h
        show decP (c :: a :: b :: w) = _
        rw [decP, if_pos k]
      · have e : tripHead (c :: a :: b :: t) = none := by rw [tripHead, if_neg k]
        rw [e] at h1 h2 h3
        refine ⟨[c], a :: b :: t, c, rfl, by simp, h1, h2, h3, ?_⟩
        intro w z h
        match w, h with
        | [], h => simp [decP]
        | [x], h => simp [decP]
        | x :: y :: w, h =>
            simp only [List.cons_append, List.cons.injEq] at h
            obtain ⟨rfl, rfl, h⟩ := h
            show decP (c :: a :: b :: w) = _
            rw [decP, if_neg k]

theorem walk (post : Str) : ∀ (n : Nat) (pre mid : Str), n ≤ (decP mid).length → ∃ u v, mid = u ++ v ∧
    advance (pre ++ mid ++ post) (pre.length + mid.length) n pre.length = .ok (pre.length + u.length) ∧
    decP u = (decP mid).take n ∧ decP v = (decP mid).drop n
  | 0, pre, mid, h => ⟨[], mid, rfl, rfl, by simp [decP], by simp⟩
  | n + 1, pre, [], h => by simp [decP] at h
  | n + 1, pre, c :: t, h => by
      obtain ⟨u, v, x, e, hu, h1, h2, h3, h4⟩ := unit pre post c t
      obtain ⟨u', v', e', k1, k2, k3⟩ := walk post n (pre ++ u) v (by rw [h3] at h; simpa using h)
      refine ⟨u ++ u', v', by rw [e, e', List.append_assoc], ?_, ?_, ?_⟩
      · show pctIncrement _ _ _ >>= _ = _
        rw [h2]
        have ea : pre ++ u ++ v ++ post = pre ++ (c :: t) ++ post := by rw [e]; simp
        have eb : (pre ++ u).length + v.length = pre.length + (c :: t).length := by rw [e]; simp; omega
        rw [ea, eb, List.length_append] at k1
        rw [List.length_append, ← Nat.add_assoc]
        exact k1
      · rw [h4 u' v' e', k2, h3]; rfl
      · rw [k3, h3]; rfl

theorem decP_nil {s : Str} : decP s = [] ↔ s = [] := by
  cases s with
  | nil => simp [decP]
  | cons c t => rw [decP_cons]; split <;> simp

theorem past (s : Str) (stop pos : Nat) (h : stop ≤ pos) (n : Nat) : advance s stop (n + 1) pos = .error .assertion := by
  have e : ((stop : Int) - pos ≤ 0) := by omega
  show pctIncrement s pos stop >>= _ = _
  unfold pctIncrement
  rw [if_pos e]; rfl

theorem advance_add (s : Str) (stop : Nat) : ∀ (n m pos : Nat), advance s stop (n + m) pos = advance s stop n pos >>= advance s stop m
  | 0, m, pos => by rw [Nat.zero_add]; rfl
  | n + 1, m, pos => by
      rw [Nat.add_right_comm]
      show pctIncrement s pos stop >>= advance s stop (n + m) = (pctIncrement s pos stop >>= advance s stop n) >>= advance s stop m
      rw [show advance s stop (n + m) = fun p => advance s stop n p >>= advance s stop m from funext fun p => advance_add s stop n m p]
      cases pctIncrement s pos stop <;> rfl

end Forward

open Forward

/-- The iterator at the beginning of a range of the text, incremented n times: it is somewhere in the range and shows the n-th character of the decoded text as
long as there is one; what is before it and what is from it on, decoded, are the first n characters and the others; it is at the end after as many
increments as there are characters, and not before; and once more is an error. -/
theorem C104_nth (s : Str) (first last : Nat) (h1 : first ≤ last) (h2 : last ≤ s.length) : ∃ d, pctdecode ((s.take last).drop first) = .ok d ∧
    (∀ n, n ≤ d.length → ∃ pos, advance s last n first = .ok pos ∧ first ≤ pos ∧ pos ≤ last ∧ (pos = last ↔ n = d.length) ∧
      (∀ h : n < d.length, pctDeref s pos last = .ok d[n]) ∧
      pctdecode ((s.take pos).drop first) = .ok (d.take n) ∧ pctdecode ((s.take last).drop pos) = .ok (d.drop n)) ∧
    ∀ n, d.length < n → advance s last n first = .error .assertion := by
  have e : s = s.take first ++ (s.take last).drop first ++ s.drop last := by
    have e1 : s.take first = (s.take last).take first := by rw [List.take_take, Nat.min_eq_left h1]
    rw [e1, List.take_append_drop, List.take_append_drop]
  have l1 : (s.take first).length = first := by simp; omega
  have l2 : ((s.take last).drop first).length = last - first := by simp; omega
  have key : ∀ pre mid post : Str, s = pre ++ mid ++ post → pre.length = first → pre.length + mid.length = last → ∃ d, pctdecode mid = .ok d ∧
      (∀ n, n ≤ d.length → ∃ pos, advance s last n first = .ok pos ∧ first ≤ pos ∧ pos ≤ last ∧ (pos = last ↔ n = d.length) ∧
        (∀ h : n < d.length, pctDeref s pos last = .ok d[n]) ∧
        pctdecode ((s.take pos).drop first) = .ok (d.take n) ∧ pctdecode ((s.take last).drop pos) = .ok (d.drop n)) ∧
      ∀ n, d.length < n → advance s last n first = .error .assertion := by
    rintro pre mid post rfl rfl rfl
    have main : ∀ n, n ≤ (decP mid).length → ∃ pos, advance (pre ++ mid ++ post) (pre.length + mid.length) n pre.length = .ok pos ∧ pre.length ≤ pos ∧
        pos ≤ pre.length + mid.length ∧ (pos = pre.length + mid.length ↔ n = (decP mid).length) ∧
        (∀ h : n < (decP mid).length, pctDeref (pre ++ mid ++ post) pos (pre.length + mid.length) = .ok (decP mid)[n]) ∧
        pctdecode (((pre ++ mid ++ post).take pos).drop pre.length) = .ok ((decP mid).take n) ∧
        pctdecode (((pre ++ mid ++ post).take (pre.length + mid.length)).drop pos) = .ok ((decP mid).drop n) := by
      intro n hn
      obtain ⟨u, v, rfl, k1, k2, k3⟩ := walk post n pre mid hn
      have kl := congrArg List.length k3
      rw [List.length_drop] at kl
      refine ⟨_, k1, by omega, by simp, ?_, fun h => ?_, ?_, ?_⟩
      · rw [List.length_append]
        constructor
        · intro h
          have : v = [] := List.eq_nil_of_length_eq_zero (by omega)
          subst this; rw [List.append_nil] at *; simp only [decP, List.length_nil] at kl; omega
        · intro h
          have : v = [] := decP_nil.1 (List.eq_nil_of_length_eq_zero (by omega))
          subst this; simp
      · cases v with
        | nil => simp only [decP, List.length_nil] at kl; omega
        | cons c t =>
            obtain ⟨u', v', x, e, _, g1, _, g3, _⟩ := unit (pre ++ u) post c t
            have ea : pre ++ u ++ (c :: t) ++ post = pre ++ (u ++ c :: t) ++ post := by simp
            have eb : (pre ++ u).length + (c :: t).length = pre.length + (u ++ c :: t).length := by simp; omega
            rw [ea, eb, List.length_append] at g1
            rw [g1]
            rw [g3] at k3
            have := congrArg (·[0]?) k3
            simp only [List.getElem?_cons_zero, List.getElem?_drop, Nat.add_zero] at this
            rw [List.getElem?_eq_getElem h] at this
            exact congrArg _ (Option.some.inj this)
      · have : ((pre ++ (u ++ v) ++ post).take (pre.length + u.length)).drop pre.length = u := by
          rw [show pre ++ (u ++ v) ++ post = (pre ++ u) ++ (v ++ post) by simp, ← List.length_append, List.take_left, List.drop_left]
        rw [this, pctdecode_eq, k2]
      · have : ((pre ++ (u ++ v) ++ post).take (pre.length + (u ++ v).length)).drop (pre.length + u.length) = v := by
          rw [show pre.length + (u ++ v).length = (pre ++ (u ++ v)).length by simp, List.take_left, ← List.append_assoc, ← List.length_append, List.drop_left]
        rw [this, pctdecode_eq, k3]
    refine ⟨decP mid, pctdecode_eq mid, main, fun n hn => ?_⟩
    obtain ⟨pos, k1, _, _, k4, _⟩ := main _ (Nat.le_refl _)
    obtain ⟨m, rfl⟩ : ∃ m, n = (decP mid).length + (m + 1) := ⟨n - (decP mid).length - 1, by omega⟩
    rw [advance_add, k1]
    exact past _ _ _ (by rw [k4.2 rfl]; exact Nat.le_refl _) m
  exact key _ _ _ e l1 (by omega)

/-- Two iterators that were at the beginning of the same range are equal exactly when they were incremented the same number of times. -/
theorem C104_equal (s : Str) (first last : Nat) (h1 : first ≤ last) (h2 : last ≤ s.length) (n m p q : Nat)
    (hp : advance s last n first = .ok p) (hq : advance s last m first = .ok q) : PctIter.eq ⟨p, last⟩ ⟨q, last⟩ = .ok (decide (n = m)) := by
  obtain ⟨d, hd, k1, k2⟩ := C104_nth s first last h1 h2
  have bound : ∀ n p, advance s last n first = .ok p → n ≤ d.length := fun n p h => by
    rcases Nat.lt_or_ge d.length n with k | k
    · rw [k2 n k] at h; cases h
    · exact k
  have mono : ∀ n m p q, advance s last n first = .ok p → advance s last m first = .ok q → p = q → n ≤ m := by
    intro n m p q h h' e
    subst e
    obtain ⟨p', a1, _, _, _, _, _, a2⟩ := k1 n (bound n p h)
    obtain ⟨q', b1, _, _, _, _, _, b2⟩ := k1 m (bound m p h')
    obtain rfl := Except.ok.inj (h.symm.trans a1)
    obtain rfl := Except.ok.inj (h'.symm.trans b1)
    have := congrArg List.length (Except.ok.inj (a2.symm.trans b2))
    have := bound n p h
    have := bound m p h'
    simp only [List.length_drop] at *
    omega
  have e : (p = q) ↔ n = m := by
    constructor
    · intro h; exact Nat.le_antisymm (mono n m p q hp hq h) (mono m n q p hq hp h.symm)
    · rintro rfl; exact Except.ok.inj (hp.symm.trans hq)
  unfold PctIter.eq
  rw [if_pos rfl]
  by_cases h : n = m
  · simp [e.2 h, h]
  · simp [show p ≠ q from fun k => h (e.1 k), h]

/-- The iterators of the view compare their positions only; of one view they are equal exactly when they were incremented the same number of times. -/
theorem C104_view_equal (s : Str) (n m p q : Nat) (hp : advance s s.length n 0 = .ok p) (hq : advance s s.length m 0 = .ok q) : p = q ↔ n = m := by
  have h := C104_equal s 0 s.length (Nat.zero_le _) (Nat.le_refl _) n m p q hp hq
  unfold PctIter.eq at h
  rw [if_pos rfl] at h
  have h := Except.ok.inj h
  simp only [beq_self_eq_true, Bool.and_true] at h
  rw [← beq_iff_eq (a := p), h, decide_eq_true_iff]

/-- Equal iterators show the same and are equal after `++`; increments add up. -/
theorem C104_multipass (s : Str) (stop : Nat) (a b : PctIter) (h : PctIter.eq a b = .ok true) : pctDeref s a.pos a.stop = pctDeref s b.pos b.stop ∧
    pctIncrement s a.pos a.stop = pctIncrement s b.pos b.stop ∧ ∀ n m pos, advance s stop (n + m) pos = advance s stop n pos >>= advance s stop m := by
  have e : a = b := by
    unfold PctIter.eq at h
    split at h
    · have h := Except.ok.inj h
      simp only [Bool.and_eq_true, beq_iff_eq] at h
      cases a; cases b; simp only at h; rw [h.1, h.2]
    · cases h
  subst e
  exact ⟨rfl, rfl, advance_add s stop⟩

/-- Iterators of ranges with different ends must not be compared. -/
theorem C104_ends (a b : PctIter) : (∃ r, PctIter.eq a b = .ok r) ↔ a.stop = b.stop := by
  unfold PctIter.eq
  split
  · rename_i h; exact ⟨fun _ => h, fun _ => ⟨_, rfl⟩⟩
  · rename_i h; exact ⟨nofun, fun k => absurd k h⟩

/-! "a%41%4": three increments and more; and a range that ends inside a triplet. -/
example : pctdecode (b! "a%41%4") = .ok (b! "aA%4") ∧ (List.range 6).map (fun n => (advance (b! "a%41%4") 6 n 0).toOption) =
    [some 0, some 1, some 4, some 5, some 6, none] := by decide +kernel
example : (List.range 5).map (fun n => (advance (b! "a%41%4") 3 n 0).toOption) = [some 0, some 1, some 2, some 3, none] ∧
    pctdecode (((b! "a%41%4").take 3).drop 0) = .ok (b! "a%4") := by decide +kernel
example : PctIter.eq ⟨1, 6⟩ ⟨4, 6⟩ = .ok false ∧ PctIter.eq ⟨1, 6⟩ ⟨1, 3⟩ = .error .assertion := by decide +kernel

end Verif
