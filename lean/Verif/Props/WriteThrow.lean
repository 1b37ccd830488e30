import Verif.Model.WriteThrow
import Verif.Props.PartsCodec
import Verif.Props.Pct

/-!
# C98: percent coders and Punycode writing to an output iterator that throws
-/

namespace Verif
open Codec PctSpec PartsSpec Unicode
set_option linter.unusedSimpArgs false

/-! ### Specification -/

/-- Whatever throws: either nothing did while `x` ran, which then has written `os` and returns `r`; or an exception leaves `x`, which
has written a beginning of `os`: as much as there was before the write that threw, or before the request for memory that did. -/
def Writes {ο β : Type} (x : Wr.W ο β) (os : List ο) (r : β) : Prop :=
  ∀ (f : Wr.Faults) (s : Wr.S ο), ∃ s', s.allocs ≤ s'.allocs ∧
    ((x f s = .ok (some r, s') ∧ s'.out = s.out ++ os ∧ s'.tries = s.tries + os.length ∧
        (∀ i < os.length, f.write (s.tries + i) = false) ∧ (∀ j, s.allocs ≤ j → j < s'.allocs → f.alloc j = false)) ∨
     ∃ k ≤ os.length, x f s = .ok (none, s') ∧ s'.out = s.out ++ os.take k ∧ (∀ i < k, f.write (s.tries + i) = false) ∧
        ((k < os.length ∧ f.write (s.tries + k) = true) ∨ ∃ j, s.allocs ≤ j ∧ j < s'.allocs ∧ f.alloc j = true))

/-! ### Proofs -/

section
variable {ο β γ : Type}

theorem Writes.ret (b : β) : Writes (Wr.ret b : Wr.W ο β) [] b := fun f s =>
  ⟨s, Nat.le_refl _, Or.inl ⟨rfl, by simp, rfl, by simp, fun j h1 h2 => by omega⟩⟩

theorem Writes.lift {x : M β} {b : β} (h : x = .ok b) : Writes (Wr.lift x : Wr.W ο β) [] b := fun f s =>
  ⟨s, Nat.le_refl _, Or.inl ⟨by simp [Wr.lift, h], by simp, rfl, by simp, fun j h1 h2 => by omega⟩⟩

theorem Writes.put (c : ο) : Writes (Wr.put c) [c] () := fun f s => by
  cases h : f.write s.tries with
  | true => exact ⟨{ s with tries := s.tries + 1 }, Nat.le_refl _, Or.inr ⟨0, by simp, by simp [Wr.put, h], by simp, by simp, Or.inl ⟨by simp, by simpa using h⟩⟩⟩
  | false =>
    exact ⟨{ s with out := s.out ++ [c], tries := s.tries + 1 }, Nat.le_refl _, Or.inl ⟨by simp [Wr.put, h], rfl, rfl, fun i hi => by
      have : i = 0 := by simpa using hi
      subst this; exact h, fun j h1 h2 => by simp at h2; omega⟩⟩

theorem Writes.alloc : Writes (Wr.alloc : Wr.W ο Unit) [] () := fun f s => by
  refine ⟨{ s with allocs := s.allocs + 1 }, by simp, ?_⟩
  cases h : f.alloc s.allocs with
  | true => exact Or.inr ⟨0, by simp, by simp [Wr.alloc, h], by simp, by simp, Or.inr ⟨s.allocs, Nat.le_refl _, by simp, h⟩⟩
  | false =>
    refine Or.inl ⟨by simp [Wr.alloc, h], by simp, rfl, by simp, fun j h1 h2 => ?_⟩
    have : j = s.allocs := by simp at h2; omega
    rw [this]; exact h

theorem Writes.andThen {x : Wr.W ο β} {g : β → Wr.W ο γ} {os os' : List ο} {b : β} {c : γ} (h1 : Writes x os b) (h2 : Writes (g b) os' c) :
    Writes (Wr.andThen x g) (os ++ os') c := fun f s => by
  obtain ⟨s1, ha, ⟨e1, o1, t1, w1, a1⟩ | ⟨k, hk, e1, o1, w1, hx⟩⟩ := h1 f s
  · obtain ⟨s2, hb, ⟨e2, o2, t2, w2, a2⟩ | ⟨k, hk, e2, o2, w2, hx⟩⟩ := h2 f s1
    · refine ⟨s2, by omega, Or.inl ⟨by simp [Wr.andThen, e1, e2], by rw [o2, o1, List.append_assoc], by rw [t2, t1, List.length_append]; omega, fun i hi => ?_, fun j j1 j2 => ?_⟩⟩
      · rw [List.length_append] at hi
        by_cases hlt : i < os.length
        · exact w1 i hlt
        · have := w2 (i - os.length) (by omega)
          rw [t1, show s.tries + os.length + (i - os.length) = s.tries + i by omega] at this
          exact this
      · by_cases hlt : j < s1.allocs
        · exact a1 j j1 hlt
        · exact a2 j (by omega) j2
    · refine ⟨s2, by omega, Or.inr ⟨os.length + k, by rw [List.length_append]; omega, by simp [Wr.andThen, e1, e2], ?_, fun i hi => ?_, ?_⟩⟩
      · rw [o2, o1, List.append_assoc, List.take_append, List.take_of_length_le (Nat.le_add_right os.length k), Nat.add_sub_cancel_left]
      · by_cases hlt : i < os.length
        · exact w1 i hlt
        · have := w2 (i - os.length) (by omega)
          rw [t1, show s.tries + os.length + (i - os.length) = s.tries + i by omega] at this
          exact this
      · rcases hx with ⟨h, h'⟩ | ⟨j, j1, j2, h⟩
        · rw [t1, Nat.add_assoc] at h'
          exact Or.inl ⟨by rw [List.length_append]; omega, h'⟩
        · exact Or.inr ⟨j, by omega, j2, h⟩
  · refine ⟨s1, ha, Or.inr ⟨k, by rw [List.length_append]; omega, by simp [Wr.andThen, e1], ?_, w1, ?_⟩⟩
    · rw [o1, List.take_append_of_le_length hk]
    · rcases hx with ⟨h, h'⟩ | h
      · exact Or.inl ⟨by rw [List.length_append]; omega, h'⟩
      · exact Or.inr h

theorem Writes.lift_then {x : M β} {b : β} (h : x = .ok b) {g : β → Wr.W ο γ} {os : List ο} {c : γ} (h2 : Writes (g b) os c) :
    Writes (Wr.andThen (Wr.lift x) g) os c := Writes.andThen (Writes.lift h) h2

theorem Writes.put_then (a : ο) {g : Unit → Wr.W ο γ} {os : List ο} {c : γ} (h2 : Writes (g ()) os c) :
    Writes (Wr.andThen (Wr.put a) g) (a :: os) c := Writes.andThen (Writes.put a) h2

theorem Writes.alloc_then {g : Unit → Wr.W ο γ} {os : List ο} {c : γ} (h2 : Writes (g ()) os c) :
    Writes (Wr.andThen Wr.alloc g) os c := Writes.andThen Writes.alloc h2

theorem Writes.then_ret {x : Wr.W ο β} {os : List ο} {b : β} (h : Writes x os b) (g : β → γ) : Writes (Wr.andThen x fun b => Wr.ret (g b)) os (g b) := by
  rw [← List.append_nil os]
  exact Writes.andThen h (Writes.ret (g b))

theorem Writes.puts : ∀ cs : List ο, Writes (Wr.puts cs) cs ()
  | [] => Writes.ret ()
  | c :: cs => Writes.put_then c (Writes.puts cs)

end

theorem m_bind {β γ : Type} {x : M β} {f : β → M γ} {c : γ} (h : (x >>= f) = .ok c) : ∃ b, x = .ok b ∧ f b = .ok c := by
  cases x with
  | error e => simp [bind, Except.bind] at h
  | ok b => exact ⟨b, rfl, h⟩

theorem pctencode_writes (es : UInt8) : ∀ (s e : Str), pctencodeM es s = .ok e → Writes (Wr.pctencode es s) e () := by
  intro s
  induction s with
  | nil => intro e h; simp [pctencodeM] at h; subst h; exact Writes.ret ()
  | cons c s ih =>
    intro e h
    unfold pctencodeM at h
    unfold Wr.pctencode
    split at h
    · rename_i hc
      rw [if_pos hc]
      obtain ⟨hi, e1, h⟩ := m_bind h
      obtain ⟨lo, e2, h⟩ := m_bind h
      obtain ⟨rest, e3, h⟩ := m_bind h
      cases h
      exact Writes.put_then _ (Writes.lift_then e1 (Writes.put_then _ (Writes.lift_then e2 (Writes.put_then _ (ih rest e3)))))
    · rename_i hc
      rw [if_neg hc]
      obtain ⟨rest, e3, h⟩ := m_bind h
      cases h
      exact Writes.put_then _ (ih rest e3)

theorem pctdecodeLoop_writes (s : Str) (last : PctIter) : ∀ (fuel : Nat) (it : PctIter) (d : Str), pctIterLoop s last fuel it = .ok d → Writes (Wr.pctdecodeLoop s last fuel it) d () := by
  intro fuel
  induction fuel with
  | zero => intro it d h; simp [pctIterLoop] at h
  | succ fuel ih =>
    intro it d h
    unfold pctIterLoop at h
    unfold Wr.pctdecodeLoop
    obtain ⟨e, e1, h⟩ := m_bind h
    refine Writes.lift_then e1 ?_
    cases e with
    | true => simp only [if_true] at h ⊢; cases h; exact Writes.ret ()
    | false =>
      simp only [Bool.false_eq_true, if_false] at h ⊢
      obtain ⟨c, e2, h⟩ := m_bind h
      obtain ⟨pos, e3, h⟩ := m_bind h
      obtain ⟨rest, e4, h⟩ := m_bind h
      cases h
      exact Writes.lift_then e2 (Writes.put_then _ (Writes.lift_then e3 (ih _ _ e4)))

theorem encodeVliLoop_writes (bias : Nat) : ∀ (fuel k q : Nat) (v : Str), Puny.encodeVliLoop bias fuel k q = .ok v → Writes (Wr.encodeVliLoop bias fuel k q) v () := by
  intro fuel
  induction fuel with
  | zero => intro k q v h; simp [Puny.encodeVliLoop] at h
  | succ fuel ih =>
    intro k q v h
    unfold Puny.encodeVliLoop at h
    unfold Wr.encodeVliLoop
    by_cases h1 : q < Puny.clamp k bias
    · simp only [if_pos h1] at h ⊢
      obtain ⟨d, e1, h⟩ := m_bind h
      cases h
      exact Writes.lift_then e1 (Writes.put d)
    · simp only [if_neg h1] at h ⊢
      by_cases h2 : Puny.base < Puny.clamp k bias
      · simp [if_pos h2] at h
      · simp only [if_neg h2] at h ⊢
        obtain ⟨d, e1, h⟩ := m_bind h
        obtain ⟨rest, e2, h⟩ := m_bind h
        cases h
        exact Writes.lift_then e1 (Writes.put_then _ (ih _ _ _ e2))

/-- The variables of the lambda without what has been written. -/
def varsOf (st : Puny.EncSt) : Wr.Vars := ⟨st.delta, st.bias, st.i⟩

theorem encStep_writes (nb n c : Nat) (st st' : Puny.EncSt) (h : Puny.encStep nb n st c = .ok st') :
    ∃ os, st'.out = st.out ++ os ∧ Writes (Wr.encStep nb n (varsOf st) c) os (varsOf st') := by
  unfold Puny.encStep at h
  unfold Wr.encStep
  by_cases h1 : c < n
  · simp only [if_pos h1] at h ⊢
    cases h
    exact ⟨[], by simp, Writes.ret _⟩
  · simp only [if_neg h1] at h ⊢
    by_cases h2 : c = n
    · simp only [if_pos h2] at h ⊢
      obtain ⟨v, e1, h⟩ := m_bind h
      obtain ⟨b, e2, h⟩ := m_bind h
      cases h
      refine ⟨v, rfl, ?_⟩
      rw [← List.append_nil v]
      exact Writes.andThen (encodeVliLoop_writes _ _ _ _ _ e1) (Writes.lift_then (ο := UInt8) e2 (Writes.ret _))
    · simp only [if_neg h2] at h ⊢
      cases h
      exact ⟨[], by simp, Writes.ret _⟩

theorem encPass_writes (nb n : Nat) : ∀ (cs : List Nat) (st st' : Puny.EncSt), Puny.encPass nb n cs st = .ok st' →
    ∃ os, st'.out = st.out ++ os ∧ Writes (Wr.encPass nb n cs (varsOf st)) os (varsOf st') := by
  intro cs
  induction cs with
  | nil => intro st st' h; cases h; exact ⟨[], by simp, Writes.ret _⟩
  | cons c cs ih =>
    intro st st' h
    unfold Puny.encPass at h
    obtain ⟨st1, e1, h⟩ := m_bind h
    obtain ⟨os1, o1, w1⟩ := encStep_writes _ _ _ _ _ e1
    obtain ⟨os2, o2, w2⟩ := ih _ _ h
    exact ⟨os1 ++ os2, by rw [o2, o1, List.append_assoc], Writes.andThen w1 w2⟩

theorem encLoop_writes (nb : Nat) (range : List Nat) : ∀ (ms : List Nat) (n : Nat) (st st' : Puny.EncSt), Puny.encLoop nb range ms n st = .ok st' →
    ∃ os, st'.out = st.out ++ os ∧ Writes (Wr.encLoop nb range ms n (varsOf st)) os (varsOf st') := by
  intro ms
  induction ms with
  | nil => intro n st st' h; cases h; exact ⟨[], by simp, Writes.ret _⟩
  | cons m ms ih =>
    intro n st st' h
    unfold Puny.encLoop at h
    unfold Wr.encLoop
    by_cases h1 : m < n
    · simp [if_pos h1] at h
    · simp only [if_neg h1] at h ⊢
      obtain ⟨st1, e1, h⟩ := m_bind h
      obtain ⟨os1, o1, w1⟩ := encPass_writes _ _ _ _ _ e1
      obtain ⟨os2, o2, w2⟩ := ih _ _ _ h
      exact ⟨os1 ++ os2, by rw [o2]; simp only [o1]; rw [List.append_assoc], Writes.andThen w1 w2⟩

theorem basicPass_writes : ∀ cs : List Nat, Writes (Wr.basicPass cs) ((cs.filter Puny.isBasic).map UInt8.ofNat) () := by
  intro cs
  induction cs with
  | nil => exact Writes.ret ()
  | cons c cs ih =>
    unfold Wr.basicPass
    cases h : Puny.isBasic c with
    | true => simp only [if_true, List.filter_cons, h, List.map_cons]; exact Writes.put_then _ ih
    | false => simp only [Bool.false_eq_true, if_false, List.filter_cons, h]; exact Writes.alloc_then ih

theorem punyEncode_writes (range : List Nat) (allow : Bool) (t : Str) (flag : Bool) (h : Puny.encode range allow = .ok (t, flag)) :
    Writes (Wr.punyEncode range allow) t flag := by
  unfold Puny.encode at h
  unfold Wr.punyEncode
  have hb := basicPass_writes range
  cases hp : allow && (range.filter (fun c => !Puny.isBasic c)).isEmpty with
  | true =>
    simp only [hp, if_true] at h ⊢
    cases h
    exact hb.then_ret fun _ => false
  | false =>
    simp only [hp, Bool.false_eq_true, if_false] at h ⊢
    obtain ⟨st, e1, h⟩ := m_bind h
    cases h
    obtain ⟨os, o1, w1⟩ := encLoop_writes _ _ _ _ _ _ e1
    have hlen : ((range.filter Puny.isBasic).map UInt8.ofNat).length = (range.filter Puny.isBasic).length := List.length_map ..
    rw [o1]
    simp only [hlen] at w1 ⊢
    by_cases hg : (range.filter Puny.isBasic).length > 0
    · simp only [if_pos hg] at w1 ⊢
      rw [List.append_assoc]
      exact Writes.andThen hb (Writes.put_then Puny.delimiter (w1.then_ret _))
    · simp only [if_neg hg] at w1 ⊢
      exact Writes.andThen hb (Writes.andThen (os := []) (Writes.ret (ο := UInt8) ()) (w1.then_ret _))

theorem punyEncodedLoop_writes (bound : Nat) : ∀ (fuel : Nat) (it : CpIter) (o : Str) (b : Bool), Codec.punyEncodedLoop bound fuel it = .ok (o, b) →
    Writes (Wr.punyEncodedLoop bound fuel it) o b := by
  intro fuel
  induction fuel with
  | zero => intro it o b h; simp [Codec.punyEncodedLoop] at h
  | succ fuel ih =>
    intro it o b h
    unfold Codec.punyEncodedLoop at h
    unfold Wr.punyEncodedLoop
    obtain ⟨⟨label, it'⟩, e1, h⟩ := m_bind h
    obtain ⟨⟨segment, flag⟩, e2, h⟩ := m_bind h
    refine Writes.lift_then e1 (Writes.alloc_then (Writes.lift_then e2 ?_))
    have hpre : Writes (if flag = true then Wr.puts idnaPrefix else Wr.ret ()) (if flag = true then idnaPrefix else []) () := by
      cases flag
      · exact Writes.ret ()
      · exact Writes.puts _
    cases hat : it'.atEnd with
    | true =>
      simp only [hat, if_true] at h ⊢
      cases h
      exact Writes.andThen hpre ((Writes.puts segment).then_ret _)
    | false =>
      simp only [hat, Bool.false_eq_true, if_false] at h ⊢
      obtain ⟨it2, e3, h⟩ := m_bind h
      obtain ⟨⟨rest, b2⟩, e4, h⟩ := m_bind h
      cases h
      rw [List.append_assoc]
      exact Writes.andThen hpre (Writes.andThen (Writes.puts segment) (Writes.put_then 0x2E (Writes.lift_then e3 ((ih _ _ _ e4).then_ret _))))

theorem copyView_writes : ∀ (fuel : Nat) (it it' : Icu.ViewIt Nat UInt8 Icu.t32_8) (os : Str), Icu.viewLoop Icu.t32_8 Icu.maxOut8 fuel it = .ok (it', os) →
    Writes (Wr.copyView fuel it) os () := by
  intro fuel
  induction fuel with
  | zero => intro it it' os h; simp [Icu.viewLoop] at h
  | succ fuel ih =>
    intro it it' os h
    unfold Icu.viewLoop at h
    unfold Wr.copyView
    cases hat : it.atEnd with
    | true => simp only [hat, if_true] at h ⊢; cases h; exact Writes.ret ()
    | false =>
      simp only [hat, Bool.false_eq_true, if_false] at h ⊢
      obtain ⟨c, e1, h⟩ := m_bind h
      obtain ⟨it1, e2, h⟩ := m_bind h
      obtain ⟨⟨it2, cs⟩, e3, h⟩ := m_bind h
      cases h
      exact Writes.lift_then e1 (Writes.put_then _ (Writes.lift_then e2 (ih _ _ _ e3)))

theorem copyTranscoded_writes (str : List Nat) (out : Str) (w : Bool) (h : Icu.viewRun Icu.t32_8 Icu.maxOut8 str = .ok (out, w)) : Writes (Wr.copyTranscoded str) out () := by
  unfold Icu.viewRun at h
  obtain ⟨it, e1, h⟩ := m_bind h
  obtain ⟨⟨it', cs⟩, e2, h⟩ := m_bind h
  cases h
  exact Writes.lift_then e1 (copyView_writes _ _ _ _ e2)

theorem punyDecodedLoop_writes : ∀ (fuel : Nat) (first o : Str) (r : Except Puny.Err Bool), Codec.punyDecodedLoop fuel first = .ok (o, r) →
    Writes (Wr.punyDecodedLoop fuel first) o r := by
  intro fuel
  induction fuel with
  | zero => intro first o r h; simp [Codec.punyDecodedLoop] at h
  | succ fuel ih =>
    intro first o r h
    unfold Codec.punyDecodedLoop at h
    unfold Wr.punyDecodedLoop
    simp only at h ⊢
    generalize first.takeWhile (fun c => isNotDot c.toNat) = view at *
    have key : ∀ (out first : Str) (enc : Bool), (match first with
        | [] => (.ok (out, .ok enc) : M (Str × Except Puny.Err Bool))
        | _ :: first => Codec.punyDecodedLoop fuel first >>= fun x => .ok (out ++ 0x2E :: x.1, x.2.map (enc || ·))) = .ok (o, r) →
        ∃ os, o = out ++ os ∧ Writes (match first with
        | [] => Wr.ret (.ok enc)
        | _ :: first => Wr.andThen (Wr.put 0x2E) fun _ => Wr.andThen (Wr.punyDecodedLoop fuel first) fun r => Wr.ret (r.map (enc || ·))) os r := by
      intro out first enc h
      cases first with
      | nil => cases h; exact ⟨[], by simp, Writes.ret _⟩
      | cons _ first =>
        obtain ⟨⟨rest, r'⟩, e1, h⟩ := m_bind h
        cases h
        refine ⟨0x2E :: rest, rfl, Writes.put_then _ ?_⟩
        exact (ih _ _ _ e1).then_ret _
    cases hs : startsWith (· == ·) id id view idnaPrefix with
    | true =>
      simp only [hs, if_true] at h ⊢
      obtain ⟨d, e1, h⟩ := m_bind h
      refine Writes.alloc_then (Writes.lift_then e1 ?_)
      cases d with
      | error e => cases h; exact Writes.ret _
      | ok d =>
        obtain ⟨str, rest⟩ := d
        obtain ⟨⟨out, w⟩, e2, h⟩ := m_bind h
        obtain ⟨os, rfl, hw⟩ := key _ _ _ h
        exact Writes.andThen (copyTranscoded_writes _ _ _ e2) hw
    | false =>
      simp only [hs, Bool.false_eq_true, if_false] at h ⊢
      obtain ⟨os, rfl, hw⟩ := key _ _ _ h
      exact Writes.andThen (Writes.puts _) hw

/-! ### C98 -/

/-- **C98**: what `Writes` says when nothing throws. -/
theorem C98_nothing_thrown {ο β : Type} {x : Wr.W ο β} {os : List ο} {r : β} (h : Writes x os r) (f : Wr.Faults) (hw : ∀ i, f.write i = false)
    (ha : ∀ j, f.alloc j = false) (s : Wr.S ο) : ∃ s', x f s = .ok (some r, s') ∧ s'.out = s.out ++ os ∧ s'.tries = s.tries + os.length := by
  obtain ⟨s', _, ⟨e, o, t, _⟩ | ⟨k, _, _, _, _, ⟨_, h⟩ | ⟨j, _, _, h⟩⟩⟩ := h f s
  · exact ⟨s', e, o, t⟩
  · rw [hw] at h; cases h
  · rw [ha] at h; cases h

/-- **C98**: if there is memory and the `k`-th write is the first to throw, the `k` characters before it have been written and the exception
leaves the function. -/
theorem C98_write_throws {ο β : Type} {x : Wr.W ο β} {os : List ο} {r : β} (h : Writes x os r) (f : Wr.Faults) (ha : ∀ j, f.alloc j = false)
    (s : Wr.S ο) (k : Nat) (hk : k < os.length) (hb : ∀ i < k, f.write (s.tries + i) = false) (ht : f.write (s.tries + k) = true) :
    ∃ s', x f s = .ok (none, s') ∧ s'.out = s.out ++ os.take k := by
  obtain ⟨s', _, ⟨_, _, _, w, _⟩ | ⟨k', hk', e, o, w, ⟨_, h⟩ | ⟨j, _, _, h⟩⟩⟩ := h f s
  · have := w k hk
    rw [ht] at this; cases this
  · have : k' = k := by
      rcases Nat.lt_trichotomy k' k with hlt | he | hgt
      · rw [hb k' hlt] at h; cases h
      · exact he
      · rw [w k hgt] at ht; cases ht
    subst this
    exact ⟨s', e, o⟩
  · rw [ha] at h; cases h

/-- **C98**: writes beyond the last character are never tried: whether they would throw does not matter. -/
theorem C98_room {ο β : Type} {x : Wr.W ο β} {os : List ο} {r : β} (h : Writes x os r) (f : Wr.Faults) (ha : ∀ j, f.alloc j = false)
    (s : Wr.S ο) (hb : ∀ i < os.length, f.write (s.tries + i) = false) : ∃ s', x f s = .ok (some r, s') ∧ s'.out = s.out ++ os := by
  obtain ⟨s', _, ⟨e, o, _⟩ | ⟨k', hk', _, _, _, ⟨hlt, h⟩ | ⟨j, _, _, h⟩⟩⟩ := h f s
  · exact ⟨s', e, o⟩
  · rw [hb k' hlt] at h; cases h
  · rw [ha] at h; cases h

/-- **C98**: `pctencode`. -/
theorem C98_pctencode (s : Str) (es : UInt8) : ∃ e, Encodes (fun c => needsPctencodeB c es = true) s e ∧ Writes (Wr.pctencode es s) e () :=
  ⟨encP es s, (encodes_iff es s _).2 rfl, pctencode_writes es s _ (pctencode_eq s es)⟩

/-- **C98**: `std::copy` of a `pctdecoder`. -/
theorem C98_pctdecode (s : Str) : ∃ d, Decodes s d ∧ Writes (Wr.pctdecode s) d () :=
  ⟨decP s, (decodes_iff s _).2 rfl, pctdecodeLoop_writes s _ _ _ _ (pctdecode_eq s)⟩

/-- **C98**: `punycode::encode`. -/
theorem C98_punycode (s : List Nat) (hs : PunyInput s) (allow : Bool) : ∃ t flag, Puny.encode s allow = .ok (t, flag) ∧
    (flag = true ∨ allow = false → Rfc3492.Decodes t s) ∧ Writes (Wr.punyEncode s allow) t flag := by
  obtain ⟨t, flag, h, _⟩ := C29_roundtrip s hs allow
  exact ⟨t, flag, h, C29_rfc s hs allow t flag h, punyEncode_writes s allow t flag h⟩

/-- **C98**: `puny_encoded`. -/
theorem C98_host_encode (s : Str) (hl : s.length ≤ 2 ^ 37) : ∃ cs e b, Reads s cs ∧ HostEncodes cs e ∧ (b = true ↔ ∃ c ∈ cs, 0x80 ≤ c) ∧
    Writes (Wr.punyEncoded s) e b := by
  obtain ⟨cs, e, b, h1, h2, h3, h4, _⟩ := C34_encode s hl
  refine ⟨cs, e, b, h1, h3, h4, ?_⟩
  unfold Codec.punyEncoded at h2
  obtain ⟨it, e1, h2⟩ := m_bind h2
  exact Writes.lift_then e1 (punyEncodedLoop_writes _ _ _ _ _ h2)

/-- What has been written when a label turns out to be bad. -/
theorem punyDecodedLoop_bad : ∀ (pre : List Str) (l : Str) (post : List Str) (ds : List Str) (e : Puny.Err) (fuel : Nat) (s : Str), Labels 0x2E s (pre ++ l :: post) →
    Each LabelD pre ds → LabelBad l e → s.length < fuel → Codec.punyDecodedLoop fuel s = .ok (ds.flatMap (· ++ [0x2E]), .error e) := by
  intro pre
  induction pre with
  | nil =>
    intro l post ds e fuel s h hd hb hf
    cases hd
    obtain ⟨fuel, rfl⟩ : ∃ n, fuel = n + 1 := ⟨fuel - 1, by omega⟩
    obtain ⟨_, k2, k3⟩ := h
    have hl := k2 l (by simp)
    have ht : s.takeWhile (fun c => isNotDot c.toNat) = l := by
      by_cases e : post = []
      · subst e
        simp only [List.nil_append, joined] at k3
        subst k3
        exact (takeWhile_dotB hl []).2
      · rw [List.nil_append, joined_cons l e] at k3
        rw [k3]; exact (takeWhile_dotB hl _).1
    exact (punyDecodedLoop_step fuel s l ht _ rfl).1 e hb
  | cons x pre ih =>
    intro l post ds e fuel s h hd hb hf
    cases hd with
    | @cons _ d _ ds h1 h2 =>
    obtain ⟨fuel, rfl⟩ : ∃ n, fuel = n + 1 := ⟨fuel - 1, by omega⟩
    obtain ⟨_, k2, k3⟩ := h
    have hl := k2 x (by simp)
    have hne : pre ++ l :: post ≠ [] := by simp
    rw [List.cons_append, joined_cons x hne] at k3
    obtain ⟨_, _, s3⟩ := punyDecodedLoop_step fuel s x (by rw [k3]; exact (takeWhile_dotB hl _).1) _ rfl
    have hrec := ih l post ds e fuel (joined 0x2E (pre ++ l :: post)) ⟨hne, fun y hy => k2 y (by simp at hy ⊢; exact Or.inr hy), rfl⟩ h2 hb
      (by rw [k3] at hf; simp at hf; omega)
    rw [s3 d 0x2E _ _ _ h1 (by rw [k3]; simp) hrec]
    simp [Except.map]

theorem each_of_all {α β : Type} {R : α → β → Prop} : ∀ {l : List α}, (∀ x ∈ l, ∃ y, R x y) → ∃ ys, Each R l ys
  | [], _ => ⟨[], .nil⟩
  | x :: l, h => by
    obtain ⟨y, hy⟩ := h x (by simp)
    obtain ⟨ys, hys⟩ := each_of_all (l := l) fun z hz => h z (by simp [hz])
    exact ⟨y :: ys, .cons hy hys⟩

/-- **C98**: `puny_decoded`: a name that can be decoded is, and written; otherwise the labels before the first bad one are, each followed by a
full stop, and the error is returned. -/
theorem C98_host_decode (s : Str) (hl : s.length + 2 < 2 ^ 64) :
    (∃ d b, HostDecodes s d ∧ Writes (Wr.punyDecoded s) d (.ok b)) ∨
    ∃ pre l post ds e, Labels 0x2E s (pre ++ l :: post) ∧ Each LabelDecodes pre ds ∧
      (∃ t, l = b! "xn--" ++ t ∧ Puny.decode false t = .ok (.error e)) ∧ Writes (Wr.punyDecoded s) (ds.flatMap (· ++ [0x2E])) (.error e) := by
  obtain ⟨ls, h1, h⟩ := punyDecoded_eq s hl
  have hb : ∀ l ∈ ls, l.length + 2 < szMod := by
    intro l hm
    have := length_le_joined (sep := (0x2E : UInt8)) hm
    rw [← h1.2.2] at this
    have : s.length + 2 < szMod := hl
    omega
  rcases h with ⟨ds, h2, h3⟩ | ⟨pre, l, post, out, e, rfl, h3, h4, _⟩
  · exact Or.inl ⟨_, _, ⟨ls, ds, h1, h2.mono fun l hm d hld => labelD_spec (hb l hm) hld, rfl⟩, punyDecodedLoop_writes _ _ _ _ h3⟩
  · obtain ⟨ds, hds⟩ := each_of_all h3
    exact Or.inr ⟨pre, l, post, ds, e, h1, hds.mono fun l hm d hld => labelD_spec (hb l (by simp [hm])) hld, h4,
      punyDecodedLoop_writes _ _ _ _ (punyDecodedLoop_bad pre l post ds e (s.length + 1) s h1 hds h4 (by omega))⟩

/-- Nothing throws but the write with this number. -/
def failsAt (k : Nat) : Wr.Faults := ⟨fun i => i == k, fun _ => false⟩

example : (Wr.pctencode EncSet.path (b! "a b") (failsAt 2) ⟨[], 0, 0⟩).toOption = some (none, ⟨b! "a%", 3, 0⟩) := by decide +kernel
example : (Wr.pctdecode (b! "a%62c") (failsAt 1) ⟨[], 0, 0⟩).toOption = some (none, ⟨b! "a", 2, 0⟩) := by decide +kernel
example : (Wr.punyEncode [0x62, 0xFC, 0x63, 0x68, 0x65, 0x72] false (failsAt 7) ⟨[], 0, 0⟩).toOption = some (none, ⟨b! "bcher-k", 8, 1⟩) := by decide +kernel
example : (Wr.punyEncode [0x62, 0xFC, 0x63] false ⟨fun _ => false, fun _ => true⟩ ⟨[], 0, 0⟩).toOption = some (none, ⟨b! "b", 1, 1⟩) := by decide +kernel
example : (Wr.punyEncoded (b! "a.\u00fc") (failsAt 4) ⟨[], 0, 0⟩).toOption = some (none, ⟨b! "a.xn", 5, 2⟩) := by decide +kernel
example : ((Wr.punyDecoded (b! "a.xn--tda") (failsAt 3) ⟨[], 0, 0⟩).toOption.map fun x => (x.1.isSome, x.2)) = some (false, ⟨[0x61, 0x2E, 0xC3], 4, 1⟩) := by decide +kernel
example : ((Wr.punyDecoded (b! "xn--tda.xn--\u00fc") (failsAt 3) ⟨[], 0, 0⟩).toOption.map fun x => (x.1.isSome, x.2)) = some (true, ⟨[0xC3, 0xBC, 0x2E], 3, 2⟩) := by
  decide +kernel

end Verif
