import Verif.Proofs.PunyCost
import Verif.Props.Punycode

/-!
# C66: how long Punycode takes

`Cost.encode` and `Cost.decode` count the steps of `punycode::encode` and `punycode::decode`; see `Verif/Model/PunyCost.lean`
for what a step is.
-/

set_option linter.unusedSimpArgs false

namespace Verif
open Cost

/-- C66: the counting versions compute what `encode` and `decode` compute. -/
theorem C66_results (s : List Nat) (allow bidi : Bool) (t : Str) :
    (Cost.encode s allow).1 = Puny.encode s allow ∧ (Cost.decode bidi t).1 = Puny.decode bidi t :=
  ⟨encode_fst s allow, decode_fst bidi t⟩

theorem log2_mono {a b : Nat} (h : a ≤ b) : a.log2 ≤ b.log2 := by
  by_cases ha : a = 0
  · subst ha; simp
  · have hb : b ≠ 0 := by omega
    exact (Nat.le_log2 hb).2 (Nat.le_trans ((Nat.le_log2 ha).1 (Nat.le_refl _)) h)

/-- C66: encoding n code points, d different ones among them not ASCII, takes d * n steps, but for a term of order n log n:
one pass over the text for each. -/
theorem C66_encode (s : List Nat) (allow : Bool) (ds : List Nat) (h1 : ds.Nodup) (h2 : ∀ c, c ∈ ds ↔ c ∈ s ∧ 0x80 ≤ c) :
    (Cost.encode s allow).2 ≤ (ds.length + s.length.log2 + 36) * (s.length + 1) ∧
    (PunyInput s → ds.length * s.length ≤ (Cost.encode s allow).2) := by
  have hnb : ∀ c, c ∈ s.filter (fun c => !Puny.isBasic c) ↔ c ∈ s ∧ 0x80 ≤ c := by
    intro c
    rw [List.mem_filter]
    simp [Puny.isBasic]
  have hlen : (Puny.sortAndRemoveDuplicates (s.filter fun c => !Puny.isBasic c)).length = ds.length :=
    nodup_length (nodup_distinct _) h1 fun x => by rw [mem_distinct, hnb, h2]
  have hle : (s.filter fun c => !Puny.isBasic c).length ≤ s.length := List.length_filter_le _ _
  have hok : PunyInput s → ∃ r, Puny.encode s allow = .ok r := fun h => by
    obtain ⟨t, f, h, -⟩ := C29_roundtrip s h allow
    exact ⟨_, h⟩
  rw [← encode_fst] at hok
  have e0 := fun (a b c : Nat) => Nat.add_mul a b c
  unfold Cost.encode at hok ⊢
  simp only [tick_snd, tick_fst] at hok ⊢
  split
  · rename_i hp
    simp only [Bool.and_eq_true, List.isEmpty_iff] at hp
    have hd : ds = [] := by
      cases ds with
      | nil => rfl
      | cons c ds => have := (hnb c).2 ((h2 c).1 (by simp)); rw [hp.2] at this; simp at this
    subst hd
    simp only [ret_snd, List.length_nil, Nat.zero_mul]
    refine ⟨?_, fun _ => by omega⟩
    have : s.length + 1 ≤ (0 + s.length.log2 + 36) * (s.length + 1) := Nat.le_mul_of_pos_left _ (by omega)
    omega
  · rename_i hp
    simp only [hp, if_false, tick_fst, Bool.false_eq_true] at hok
    simp only [tick_snd]
    generalize hst : ({ out := _, delta := 0, bias := _, i := _ } : Puny.EncSt) = st0
    have hd0 : st0.delta < szMod := by rw [← hst]; exact Nat.two_pow_pos 64
    rw [hst] at hok
    generalize hnbs : ((s.filter Puny.isBasic).map UInt8.ofNat).length = nb at *
    obtain ⟨k1, k2⟩ := encLoop_steps nb s (Puny.sortAndRemoveDuplicates (s.filter fun c => !Puny.isBasic c)) Puny.initialN st0 hd0
    rw [hlen] at k1 k2
    have k3 := occs_le s _ (nodup_distinct (s.filter fun c => !Puny.isBasic c))
    constructor
    · have hs : sortSteps (s.filter fun c => !Puny.isBasic c).length ≤ s.length * (s.length.log2 + 1) := by
        unfold sortSteps
        exact Nat.mul_le_mul hle (Nat.succ_le_succ (log2_mono hle))
      have hA := andThen_le (f := fun st : Puny.EncSt => ret (.ok (st.out, !(Puny.sortAndRemoveDuplicates (s.filter fun c => !Puny.isBasic c)).isEmpty)))
        (c := 0) k1 (by simp)
      have e1 : s.length * (s.length.log2 + 1) = s.length.log2 * s.length + s.length := by rw [Nat.mul_add, Nat.mul_comm]; omega
      have e2 : (ds.length + s.length.log2 + 36) * (s.length + 1) = ds.length * (s.length + 1) + (s.length.log2 * s.length + s.length.log2) + 36 * (s.length + 1) := by
        rw [Nat.add_mul, Nat.add_mul, Nat.mul_succ s.length.log2]
      rw [e2]
      omega
    · intro hi
      obtain ⟨r, hr⟩ := hok hi
      cases hx : (Cost.encLoop nb s (Puny.sortAndRemoveDuplicates (s.filter fun c => !Puny.isBasic c)) Puny.initialN st0).1 with
      | error e => rw [andThen_error hx] at hr; cases hr
      | ok st =>
        rw [andThen_ok hx]
        have := k2 st hx
        simp only [ret_snd]
        omega

/-- C66: decoding n bytes takes at most of the order of n² steps. -/
theorem C66_decode (bidi : Bool) (t : Str) : (Cost.decode bidi t).2 ≤ t.length * t.length + 17 * t.length + 3 := decode_steps bidi t

/-- C66: and some well-formed texts do take that many: the 2 * L + 1 bytes `a…aba…a` decode, and take L² steps. -/
theorem C66_decode_quadratic (bidi : Bool) (L : Nat) (h1 : L ≠ 0) (h2 : L < 2 ^ 62) :
    Puny.decode bidi (List.replicate L 0x61 ++ 0x62 :: List.replicate L 0x61) =
      .ok (.ok (List.replicate (L + 1) 0x81 ++ List.replicate L 0x80, [])) ∧
    L * L ≤ (Cost.decode bidi (List.replicate L 0x61 ++ 0x62 :: List.replicate L 0x61)).2 := by
  rw [← decode_fst]
  exact slow_decode bidi L h1 (by unfold szMod; omega)

/-- C66: n different code points that are not ASCII take n² steps to encode. -/
theorem C66_encode_quadratic (s : List Nat) (allow : Bool) (h1 : s.Nodup) (h2 : ∀ c ∈ s, 0x80 ≤ c) (h3 : PunyInput s) :
    s.length * s.length ≤ (Cost.encode s allow).2 :=
  (C66_encode s allow s h1 fun c => ⟨fun h => ⟨h, h2 c h⟩, fun h => h.1⟩).2 h3

example : (Cost.encode [0x80, 0x62, 0xE9, 0x20AC, 0xE9] true).2 = 56 := by decide +kernel
example : (Cost.decode false (b! "aaabaaa")).2 = 56 := by decide +kernel
example : (Puny.decode false (b! "aaabaaa")) = .ok (.ok ([0x81, 0x81, 0x81, 0x81, 0x80, 0x80, 0x80], [])) := by decide +kernel
end Verif
