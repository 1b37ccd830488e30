import Verif.Model.Index
import Verif.Proofs.Icu2
import Verif.Props.Icubaby

/-!
# Property C110: counting and finding code points in any text
-/

namespace Verif
open Unicode
open Icu (isCodePointStart8 isCodePointStart16 isCodePointStart32)
set_option linter.unusedSimpArgs false

/-! ### Specification -/

/-- How many of the first `i` elements begin a code point. -/
def startsBefore {ι : Type} (start : ι → Bool) (s : List ι) (i : Nat) : Nat := (s.take i).countP start

/-- `i` is where code point number `n` (counted from zero) begins, or the end if there is none. -/
def IndexSpec {ι : Type} (start : ι → Bool) (s : List ι) (n i : Nat) : Prop :=
  (∃ x, s[i]? = some x ∧ start x = true ∧ startsBefore start s i = n) ∨ (i = s.length ∧ startsBefore start s i ≤ n)

/-! ### Proofs -/

namespace Icu
variable {ι κ : Type}

theorem length_countP (start : ι → Bool) : ∀ s, length start s = s.countP start
  | [] => rfl
  | x :: s => by
    rw [length, length_countP start s, List.countP_cons]
    cases start x <;> simp <;> omega

theorem lengthP_eq (start : κ → Bool) (proj : ι → κ) : ∀ s, lengthP start proj s = (length start (s.map proj), s)
  | [] => rfl
  | x :: s => by simp [lengthP, length, lengthP_eq start proj s]

theorem indexLoopP_eq (start : κ → Bool) (proj : ι → κ) (pos : Nat) : ∀ s count off,
    (indexLoopP start proj pos s count off).1 = indexLoop start pos (s.map proj) count off
  | [], _, _ => rfl
  | x :: s, count, off => by
    have ih := indexLoopP_eq start proj pos s
    simp only [indexLoopP, indexLoop, List.map_cons]
    by_cases h : start (proj x) = true
    · rw [if_pos h, if_pos h]
      by_cases e : count = pos
      · rw [if_pos e, if_pos e]
      · rw [if_neg e, if_neg e]; exact ih ..
    · rw [if_neg h, if_neg h]; exact ih ..

theorem indexLoop_ge (start : ι → Bool) (pos : Nat) : ∀ s count off, off ≤ indexLoop start pos s count off
  | [], _, off => Nat.le_refl _
  | x :: s, count, off => by
    rw [indexLoop]
    by_cases h : start x = true
    · rw [if_pos h]
      by_cases e : count = pos
      · rw [if_pos e]; exact Nat.le_refl _
      · rw [if_neg e]; have := indexLoop_ge start pos s (count + 1) (off + 1); omega
    · rw [if_neg h]; have := indexLoop_ge start pos s count (off + 1); omega

theorem indexLoopP_log (start : κ → Bool) (proj : ι → κ) (pos : Nat) : ∀ s count off,
    (indexLoopP start proj pos s count off).2 = s.take (indexLoop start pos (s.map proj) count off - off + 1)
  | [], _, _ => rfl
  | x :: s, count, off => by
    have ih := indexLoopP_log start proj pos s
    simp only [indexLoopP, indexLoop, List.map_cons]
    have g1 := indexLoop_ge start pos (s.map proj) (count + 1) (off + 1)
    have g2 := indexLoop_ge start pos (s.map proj) count (off + 1)
    by_cases h : start (proj x) = true
    · rw [if_pos h, if_pos h]
      by_cases e : count = pos
      · rw [if_pos e, if_pos e]; simp
      · rw [if_neg e, if_neg e, ih]
        simp only []
        generalize hk : indexLoop start pos (s.map proj) (count + 1) (off + 1) = k at g1 ⊢
        rw [show k - off + 1 = (k - (off + 1) + 1) + 1 by omega, List.take_succ_cons]
    · rw [if_neg h, if_neg h, ih]
      simp only []
      generalize hk : indexLoop start pos (s.map proj) count (off + 1) = k at g2 ⊢
      rw [show k - off + 1 = (k - (off + 1) + 1) + 1 by omega, List.take_succ_cons]

theorem indexLoop_off (start : ι → Bool) (pos : Nat) : ∀ s count off, indexLoop start pos s count off = off + indexLoop start pos s count 0
  | [], _, _ => rfl
  | x :: s, count, off => by
    rw [indexLoop, indexLoop]
    by_cases h : start x = true
    · rw [if_pos h, if_pos h]
      by_cases e : count = pos
      · rw [if_pos e, if_pos e]; rfl
      · rw [if_neg e, if_neg e, indexLoop_off start pos s (count + 1) (off + 1), indexLoop_off start pos s (count + 1) (0 + 1)]; omega
    · rw [if_neg h, if_neg h, indexLoop_off start pos s count (off + 1), indexLoop_off start pos s count (0 + 1)]; omega

theorem indexLoop_count (start : ι → Bool) (pos : Nat) : ∀ s count off, indexLoop start (pos + count) s count off = indexLoop start pos s 0 off
  | [], _, _ => rfl
  | x :: s, count, off => by
    rw [indexLoop, indexLoop]
    by_cases h : start x = true
    · rw [if_pos h, if_pos h]
      by_cases e : 0 = pos
      · rw [if_pos e, if_pos (by omega)]
      · rw [if_neg e, if_neg (by omega)]
        obtain ⟨p, rfl⟩ : ∃ p, pos = p + 1 := ⟨pos - 1, by omega⟩
        rw [show p + 1 + count = p + (count + 1) by omega, indexLoop_count start p s (count + 1)]
        exact (indexLoop_count start p s 1 (off + 1)).symm
    · rw [if_neg h, if_neg h]; exact indexLoop_count start pos s count (off + 1)

theorem index_cons (start : ι → Bool) (x : ι) (s : List ι) (n : Nat) : index start (x :: s) n =
    if start x then (if n = 0 then 0 else 1 + index start s (n - 1)) else 1 + index start s n := by
  unfold index
  rw [indexLoop]
  by_cases h : start x = true
  · rw [if_pos h, if_pos h]
    by_cases e : n = 0
    · rw [if_pos e, if_pos e.symm]
    · rw [if_neg e, if_neg (Ne.symm e), indexLoop_off]
      have := indexLoop_count start (n - 1) s 1 0
      rw [show n - 1 + 1 = n by omega] at this
      rw [this]
  · rw [if_neg h, if_neg h, indexLoop_off]

theorem index_spec (start : ι → Bool) : ∀ s n, IndexSpec start s n (index start s n)
  | [], n => .inr ⟨rfl, by simp [startsBefore, index, indexLoop]⟩
  | x :: s, n => by
    rw [index_cons]
    by_cases h : start x = true
    · rw [if_pos h]
      by_cases e : n = 0
      · rw [if_pos e]; exact .inl ⟨x, by simp, h, by simp [startsBefore, e]⟩
      · rw [if_neg e]
        rcases index_spec start s (n - 1) with ⟨y, h1, h2, h3⟩ | ⟨h1, h2⟩
        · refine .inl ⟨y, by rw [Nat.add_comm]; simpa using h1, h2, ?_⟩
          unfold startsBefore at h3 ⊢
          rw [Nat.add_comm, List.take_succ_cons, List.countP_cons, if_pos h, h3]; omega
        · refine .inr ⟨by rw [h1, List.length_cons]; omega, ?_⟩
          unfold startsBefore at h2 ⊢
          rw [Nat.add_comm, List.take_succ_cons, List.countP_cons, if_pos h]; omega
    · rw [if_neg h]
      rcases index_spec start s n with ⟨y, h1, h2, h3⟩ | ⟨h1, h2⟩
      · refine .inl ⟨y, by rw [Nat.add_comm]; simpa using h1, h2, ?_⟩
        unfold startsBefore at h3 ⊢
        rw [Nat.add_comm, List.take_succ_cons, List.countP_cons, if_neg h, h3]; omega
      · refine .inr ⟨by rw [h1, List.length_cons]; omega, ?_⟩
        unfold startsBefore at h2 ⊢
        rw [Nat.add_comm, List.take_succ_cons, List.countP_cons, if_neg h]; omega

theorem startsBefore_mono (start : ι → Bool) (s : List ι) {i j : Nat} (h : i ≤ j) : startsBefore start s i ≤ startsBefore start s j := by
  unfold startsBefore
  rw [show j = i + (j - i) by omega, List.take_add, List.countP_append]
  omega

theorem startsBefore_succ {start : ι → Bool} {s : List ι} {i : Nat} {x : ι} (h : s[i]? = some x) :
    startsBefore start s (i + 1) = startsBefore start s i + if start x then 1 else 0 := by
  unfold startsBefore
  rw [List.take_add_one, h, List.countP_append]
  simp [List.countP_cons]

theorem lt_of_get {s : List ι} {i : Nat} {x : ι} (h : s[i]? = some x) : i < s.length := by
  by_cases g : i < s.length
  · exact g
  · rw [List.getElem?_eq_none (by omega)] at h; exact absurd h (by simp)

theorem spec_unique {start : ι → Bool} {s : List ι} {n i j : Nat} (h : IndexSpec start s n i) (k : IndexSpec start s n j) : i = j := by
  have key : ∀ {i j}, IndexSpec start s n i → IndexSpec start s n j → ¬ i < j := by
    intro i j h k hij
    rcases h with ⟨x, h1, h2, h3⟩ | ⟨h1, h2⟩
    · have m := startsBefore_succ (start := start) h1
      rw [h2] at m
      simp only [if_true] at m
      have m2 := startsBefore_mono start s (show i + 1 ≤ j from hij)
      rcases k with ⟨y, k1, k2, k3⟩ | ⟨k1, k2⟩ <;> omega
    · rcases k with ⟨y, k1, k2, k3⟩ | ⟨k1, k2⟩
      · have := lt_of_get k1; omega
      · omega
  have a := key h k
  have b := key k h
  omega

end Icu

/-! ### The property -/

/-- **C110**: `index` of any text, well-formed or not, is where the code point of that number begins: the element there begins a code
point, and as many begin before it as the number says; when there are not that many, the end. -/
theorem C110_index {ι : Type} (start : ι → Bool) (s : List ι) (n i : Nat) : Icu.index start s n = i ↔ IndexSpec start s n i :=
  ⟨fun h => h ▸ Icu.index_spec start s n, fun h => Icu.spec_unique (Icu.index_spec start s n) h⟩

/-- **C110**: `length` is additive, whatever the texts: counting may be done piece by piece, wherever the text is cut. -/
theorem C110_length_append {ι : Type} (start : ι → Bool) (s t : List ι) :
    Icu.length start (s ++ t) = Icu.length start s + Icu.length start t := by
  simp [Icu.length_countP]

/-- **C110**: `length` and `index` agree: `index` gives the end exactly for numbers from `length` on. -/
theorem C110_end {ι : Type} (start : ι → Bool) (s : List ι) (n : Nat) : Icu.index start s n = s.length ↔ Icu.length start s ≤ n := by
  rw [Icu.length_countP]
  have whole : startsBefore start s s.length = s.countP start := by simp [startsBefore]
  constructor
  · intro h
    rcases Icu.index_spec start s n with ⟨x, h1, -, -⟩ | ⟨-, h2⟩
    · have := Icu.lt_of_get h1; omega
    · rw [h, whole] at h2; exact h2
  · intro h
    exact Icu.spec_unique (Icu.index_spec start s n) (.inr ⟨rfl, by rw [whole]; exact h⟩)

/-- **C110**: the text before `index(text, n)` has `n` code points, or all of them. -/
theorem C110_before {ι : Type} (start : ι → Bool) (s : List ι) (n : Nat) :
    Icu.length start (s.take (Icu.index start s n)) = min n (Icu.length start s) := by
  have le : startsBefore start s (Icu.index start s n) ≤ s.countP start := by
    have := List.countP_append (p := start) (l₁ := s.take (Icu.index start s n)) (l₂ := s.drop (Icu.index start s n))
    rw [List.take_append_drop] at this
    unfold startsBefore; omega
  rw [Icu.length_countP, Icu.length_countP]
  show startsBefore start s (Icu.index start s n) = _
  rcases Icu.index_spec start s n with ⟨x, h1, -, h3⟩ | ⟨h1, h2⟩
  · omega
  · have : startsBefore start s (Icu.index start s n) = s.countP start := by rw [h1]; simp [startsBefore]
    omega

/-- **C110**: a greater number never gives an earlier place, and below `length` different numbers give different places. -/
theorem C110_increasing {ι : Type} (start : ι → Bool) (s : List ι) {m n : Nat} (h : m ≤ n) :
    Icu.index start s m ≤ Icu.index start s n ∧ (m < n → m < Icu.length start s → Icu.index start s m < Icu.index start s n) := by
  have bm := C110_before start s m
  have bn := C110_before start s n
  rw [Icu.length_countP] at bm bn
  have lt : m < n → m < Icu.length start s → Icu.index start s m < Icu.index start s n := by
    intro h1 h2
    by_cases g : Icu.index start s n ≤ Icu.index start s m
    · have := Icu.startsBefore_mono start s g
      unfold startsBefore at this
      omega
    · omega
  refine ⟨?_, lt⟩
  by_cases e : m = n
  · rw [e]; exact Nat.le_refl _
  · by_cases g : m < Icu.length start s
    · have := lt (by omega) g; omega
    · rw [(C110_end start s m).2 (by omega), (C110_end start s n).2 (by omega)]; exact Nat.le_refl _

/-- **C110**: going on from a place found: `m + n` code points are `m`, and from there `n`.  (From the end on there is nothing.) -/
theorem C110_step {ι : Type} (start : ι → Bool) (s : List ι) (m n : Nat) :
    Icu.index start s (m + n) = Icu.index start s m + Icu.index start (s.drop (Icu.index start s m)) n := by
  refine (C110_index start s _ _).2 ?_
  have bm := C110_before start s m
  have le : Icu.index start s m ≤ s.length := by
    rcases Icu.index_spec start s m with ⟨x, h1, -, -⟩ | ⟨h1, -⟩
    · exact Nat.le_of_lt (Icu.lt_of_get h1)
    · omega
  have add : ∀ j, startsBefore start s (Icu.index start s m + j) = min m (Icu.length start s) + startsBefore start (s.drop (Icu.index start s m)) j := by
    intro j
    rw [← bm, Icu.length_countP]
    unfold startsBefore
    rw [List.take_add, List.countP_append]
  rcases Icu.index_spec start (s.drop (Icu.index start s m)) n with ⟨x, h1, h2, h3⟩ | ⟨h1, h2⟩
  · refine .inl ⟨x, by rw [List.getElem?_drop] at h1; exact h1, h2, ?_⟩
    rw [add, h3]
    have hl := Icu.lt_of_get h1
    rw [List.length_drop] at hl
    have : ¬ Icu.length start s ≤ m := fun g => by have := (C110_end start s m).2 g; omega
    omega
  · refine .inr ⟨by rw [h1, List.length_drop]; omega, ?_⟩
    rw [add]; omega

/-- **C110**: cutting a well-formed text between two places found by `index` gives a well-formed text: that of the code points between the
two numbers. -/
theorem C110_slice_utf8 {s : Str} {cs : List Nat} (h : IsUtf8 s cs) {m n : Nat} (hmn : m ≤ n) :
    IsUtf8 ((s.take (Icu.index isCodePointStart8 s n)).drop (Icu.index isCodePointStart8 s m)) ((cs.take n).drop m) := by
  refine ⟨fun c hc => h.1 c (List.mem_of_mem_take (List.mem_of_mem_drop hc)), ?_⟩
  have a : s.take (Icu.index isCodePointStart8 s n) = (cs.take n).flatMap utf8 := by
    rw [C49_index_utf8 h n]
    conv => lhs; rw [h.2, ← List.take_append_drop n cs, List.flatMap_append]
    simp
  have b : (cs.take n).flatMap utf8 = (cs.take m).flatMap utf8 ++ ((cs.take n).drop m).flatMap utf8 := by
    rw [← List.flatMap_append]
    congr 1
    conv => lhs; rw [← List.take_append_drop m (cs.take n), List.take_take, Nat.min_eq_left hmn]
  rw [a, b, C49_index_utf8 h m]
  simp

/-- The same for UTF-16. -/
theorem C110_slice_utf16 {s : List UInt16} {cs : List Nat} (h : IsUtf16 s cs) {m n : Nat} (hmn : m ≤ n) :
    IsUtf16 ((s.take (Icu.index isCodePointStart16 s n)).drop (Icu.index isCodePointStart16 s m)) ((cs.take n).drop m) := by
  refine ⟨fun c hc => h.1 c (List.mem_of_mem_take (List.mem_of_mem_drop hc)), ?_⟩
  have a : s.take (Icu.index isCodePointStart16 s n) = (cs.take n).flatMap utf16 := by
    rw [C49_index_utf16 h n]
    conv => lhs; rw [h.2, ← List.take_append_drop n cs, List.flatMap_append]
    simp
  have b : (cs.take n).flatMap utf16 = (cs.take m).flatMap utf16 ++ ((cs.take n).drop m).flatMap utf16 := by
    rw [← List.flatMap_append]
    congr 1
    conv => lhs; rw [← List.take_append_drop m (cs.take n), List.take_take, Nat.min_eq_left hmn]
  rw [a, b, C49_index_utf16 h m]
  simp

namespace Icu
/-- A place found by `index` is not inside a group of elements of which only the first begins a code point. -/
theorem index_not_inside {ι : Type} {start : ι → Bool} {g : List ι} (hg : OneStart start g) (a b : List ι) (n : Nat) :
    index start (a ++ g ++ b) n ≤ a.length ∨ a.length + g.length ≤ index start (a ++ g ++ b) n := by
  obtain ⟨x, r, rfl, hx, hr⟩ := hg
  rcases index_spec start (a ++ (x :: r) ++ b) n with ⟨y, h1, h2, -⟩ | ⟨h1, -⟩
  · by_cases k : index start (a ++ (x :: r) ++ b) n ≤ a.length
    · exact .inl k
    · by_cases k2 : a.length + (x :: r).length ≤ index start (a ++ (x :: r) ++ b) n
      · exact .inr k2
      · generalize index start (a ++ (x :: r) ++ b) n = i at h1 k k2 ⊢
        obtain ⟨j, rfl⟩ : ∃ j, i = a.length + (j + 1) := ⟨i - a.length - 1, by omega⟩
        simp only [List.length_cons] at k2
        rw [List.append_assoc, List.getElem?_append_right (by omega)] at h1
        rw [show a.length + (j + 1) - a.length = j + 1 by omega, List.cons_append, List.getElem?_cons_succ,
          List.getElem?_append_left (by omega)] at h1
        have := hr y (List.mem_of_getElem? h1)
        rw [h2] at this
        exact absurd this (by decide)
  · right; rw [h1]; simp
end Icu

/-- **C110**: whatever stands before and after it, even text that is not well-formed, a character of UTF-8 is never cut by `index`. -/
theorem C110_no_cut_utf8 {c : Nat} (hc : Scalar c) (a b : Str) (n : Nat) :
    Icu.index isCodePointStart8 (a ++ utf8 c ++ b) n ≤ a.length ∨ a.length + (utf8 c).length ≤ Icu.index isCodePointStart8 (a ++ utf8 c ++ b) n :=
  Icu.index_not_inside (Icu.oneStart8 hc) a b n

/-- **C110**: nor one of UTF-16. -/
theorem C110_no_cut_utf16 {c : Nat} (hc : Scalar c) (a b : List UInt16) (n : Nat) :
    Icu.index isCodePointStart16 (a ++ utf16 c ++ b) n ≤ a.length ∨
      a.length + (utf16 c).length ≤ Icu.index isCodePointStart16 (a ++ utf16 c ++ b) n :=
  Icu.index_not_inside (Icu.oneStart16 hc) a b n

/-- **C110**: with a projection the results are those for the projected text.  `length` calls the projection once for each element, in order;
`index` for each element up to the one found, and not for those behind it. -/
theorem C110_projection {ι κ : Type} (start : κ → Bool) (proj : ι → κ) (s : List ι) (n : Nat) :
    Icu.lengthP start proj s = (Icu.length start (s.map proj), s) ∧
    Icu.indexP start proj s n = (Icu.index start (s.map proj) n, s.take (Icu.index start (s.map proj) n + 1)) := by
  refine ⟨Icu.lengthP_eq start proj s, Prod.ext (Icu.indexLoopP_eq start proj n s 0 0) ?_⟩
  exact Icu.indexLoopP_log start proj n s 0 0

example : Icu.indexP isCodePointStart8 Prod.fst [(0x41, 0), (0xC3, 1), (0xBC, 2), (0x42, 3), (0x43, 4)] 2
    = (3, [((0x41 : UInt8), 0), (0xC3, 1), (0xBC, 2), (0x42, 3)]) := by decide +kernel

/-- **C110**: of a text that is not well-formed `length` is not the number of code points the transcoder makes of it: it can be less (a
continuation byte of its own is not counted but gives a replacement character) and more (a byte that cuts a character short is counted,
but gives nothing of its own). -/
theorem C110_malformed_counterexample :
    (Icu.length isCodePointStart8 [0x80] = 0 ∧ (Icu.t8_32.run [0x80]).toOption.map Prod.snd = some [0xFFFD]) ∧
    (Icu.length isCodePointStart8 [0xC3, 0x41] = 2 ∧ (Icu.t8_32.run [0xC3, 0x41]).toOption.map Prod.snd = some [0xFFFD]) := by
  decide +kernel

end Verif
