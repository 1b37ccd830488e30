import Verif.Model.Ranges
import Verif.Props.Resolve

/-!
# Properties C47 (range helpers) and C48 (path conversions)
-/

namespace Verif

set_option linter.unusedSimpArgs false

variable {α β γ : Type}

/-! ### C47 -/

/-- `i` is the position of the last element whose projection is `value`, or the length if there is
none. -/
def IsLast (proj : α → β) (value : β) (l : List α) (i : Nat) : Prop :=
  (i = l.length ∨ ∃ x, l[i]? = some x ∧ proj x = value) ∧
  ∀ k x, l[k]? = some x → proj x = value → k ≤ i ∧ i ≠ l.length

theorem findLastForwardLoop_spec [DecidableEq β] (proj : α → β) (value : β) : ∀ (l : List α) (n : Nat) (f : Option Nat),
    (findLastForwardLoop proj value l n f).1 = n + l.length ∧
    ((findLastForwardLoop proj value l n f).2 = f ∧ (∀ (k : Nat) x, l[k]? = some x → proj x ≠ value) ∨
      ∃ i x, (findLastForwardLoop proj value l n f).2 = some (n + i) ∧ l[i]? = some x ∧ proj x = value ∧
        ∀ (k : Nat) y, l[k]? = some y → proj y = value → k ≤ i) := by
  intro l
  induction l with
  | nil => intro n f; simp [findLastForwardLoop]
  | cons x l ih =>
    intro n f
    simp only [findLastForwardLoop]
    obtain ⟨h1, h2⟩ := ih (n + 1) (if proj x = value then some n else f)
    refine ⟨by rw [h1]; simp; omega, ?_⟩
    rcases h2 with ⟨h2, h3⟩ | ⟨i, y, h2, h3, h4, h5⟩
    · by_cases hx : proj x = value
      · right
        refine ⟨0, x, by rw [h2]; simp [hx], by simp, hx, ?_⟩
        intro k y hk hy
        cases k with
        | zero => exact Nat.le_refl _
        | succ k => exact absurd hy (h3 k y (by simpa using hk))
      · left
        refine ⟨by rw [h2]; simp [hx], ?_⟩
        intro k y hk
        cases k with
        | zero => simp at hk; subst hk; exact hx
        | succ k => exact h3 k y (by simpa using hk)
    · right
      refine ⟨i + 1, y, by rw [h2]; congr 1; omega, by simpa using h3, h4, ?_⟩
      intro k z hk hz
      cases k with
      | zero => omega
      | succ k => have := h5 k z (by simpa using hk) hz; omega

/-- C47: `find_last` on forward iterators. -/
theorem C47_findLast_forward [DecidableEq β] (proj : α → β) (value : β) (l : List α) :
    ∃ i, findLastForward proj value l = (i, l.length) ∧ IsLast proj value l i := by
  obtain ⟨h1, h2⟩ := findLastForwardLoop_spec proj value l 0 none
  simp only [findLastForward]
  revert h1 h2
  generalize findLastForwardLoop proj value l 0 none = r
  obtain ⟨n, o⟩ := r
  intro h1 h2
  simp only [Nat.zero_add] at h1 h2
  subst h1
  rcases h2 with ⟨rfl, h3⟩ | ⟨i, x, rfl, h3, h4, h5⟩
  · exact ⟨l.length, rfl, Or.inl rfl, fun k x hk hx => absurd hx (h3 k x hk)⟩
  · have hi : i < l.length := by
      rcases Nat.lt_or_ge i l.length with h | h
      · exact h
      · rw [List.getElem?_eq_none h] at h3; simp at h3
    exact ⟨i, rfl, Or.inr ⟨x, h3, h4⟩, fun k y hk hy => ⟨h5 k y hk hy, by omega⟩⟩

theorem rfind_spec [DecidableEq β] (proj : α → β) (value : β) (l : List α) : ∀ n, n ≤ l.length →
    (rfind proj value l n = 0 ∧ ∀ k x, k < n → l[k]? = some x → proj x ≠ value) ∨
    (∃ i x, rfind proj value l n = i + 1 ∧ i < n ∧ l[i]? = some x ∧ proj x = value ∧ ∀ k y, k < n → l[k]? = some y → proj y = value → k ≤ i) := by
  intro n
  induction n with
  | zero => intro _; left; simp [rfind]
  | succ n ih =>
    intro hn
    have hlt : n < l.length := by omega
    have hx : l[n]? = some l[n] := List.getElem?_eq_getElem hlt
    simp only [rfind, hx]
    by_cases hv : proj l[n] = value
    · right
      exact ⟨n, l[n], by simp [hv], by omega, hx, hv, fun k y hk _ _ => by omega⟩
    · simp only [hv, if_false]
      rcases ih (by omega) with ⟨h1, h2⟩ | ⟨i, x, h1, h2, h3, h4, h5⟩
      · left
        refine ⟨h1, fun k x hk hkx => ?_⟩
        by_cases hkn : k = n
        · subst hkn; rw [hx] at hkx; simp at hkx; subst hkx; exact hv
        · exact h2 k x (by omega) hkx
      · right
        refine ⟨i, x, h1, by omega, h3, h4, fun k y hk hky hy => ?_⟩
        by_cases hkn : k = n
        · subst hkn; rw [hx] at hky; simp at hky; subst hky; exact absurd hy hv
        · exact h5 k y (by omega) hky hy

theorem isLast_unique {proj : α → β} {value : β} {l : List α} {i j : Nat} (hi : IsLast proj value l i) (hj : IsLast proj value l j) : i = j := by
  rcases hi.1 with h1 | ⟨x, h1, h2⟩
  · rcases hj.1 with h3 | ⟨y, h3, h4⟩
    · omega
    · have := (hi.2 j y h3 h4).2; omega
  · rcases hj.1 with h3 | ⟨y, h3, h4⟩
    · have := (hj.2 i x h1 h2).2; omega
    · have a := (hi.2 j y h3 h4).1
      have b := (hj.2 i x h1 h2).1
      omega

/-- C47: `find_last` returns the subrange from the last equal element to the end (empty, at the
end, if there is none); on forward and on bidirectional iterators alike; and the debug build's
assertions hold. -/
theorem C47_findLast [DecidableEq β] (bidi : Bool) (proj : α → β) (value : β) (l : List α) :
    ∃ i, findLast bidi proj value l = .ok (i, l.length) ∧ IsLast proj value l i := by
  obtain ⟨i, h1, h2⟩ := C47_findLast_forward proj value l
  cases bidi with
  | false => exact ⟨i, by simp [findLast, h1], h2⟩
  | true =>
    simp only [findLast, if_true, findLastBidi]
    by_cases h0 : l.length = 0
    · have : l = [] := List.eq_nil_of_length_eq_zero h0
      subst this
      exact ⟨0, by simp, Or.inl rfl, by simp⟩
    · simp only [h0, if_false]
      rcases rfind_spec proj value l l.length (Nat.le_refl _) with ⟨h3, h4⟩ | ⟨j, x, h3, h4, h5, h6, h7⟩
      · rw [h3]
        refine ⟨l.length, by simp, Or.inl rfl, fun k x hk hx => ?_⟩
        have hkl : k < l.length := by
          rcases Nat.lt_or_ge k l.length with h | h
          · exact h
          · rw [List.getElem?_eq_none h] at hk; simp at hk
        exact absurd hx (h4 k x hkl hk)
      · have hj : IsLast proj value l j := ⟨Or.inr ⟨x, h5, h6⟩, fun k y hk hy => ⟨by
          have hkl : k < l.length := by
            rcases Nat.lt_or_ge k l.length with h | h
            · exact h
            · rw [List.getElem?_eq_none h] at hk; simp at hk
          exact h7 k y hkl hk hy, by omega⟩⟩
        have := isLast_unique h2 hj
        subst this
        rw [h3]
        exact ⟨i, by simp [h1], hj⟩

theorem mismatch_spec (pred : γ → γ → Bool) (proj1 : α → γ) (proj2 : β → γ) : ∀ (l1 : List α) (l2 : List β),
    (mismatch pred proj1 proj2 l1 l2).2 = [] ↔ l2.length ≤ l1.length ∧
      ∀ (i : Nat) x y, l1[i]? = some x → l2[i]? = some y → pred (proj1 x) (proj2 y) = true := by
  intro l1
  induction l1 with
  | nil => intro l2; cases l2 <;> simp [mismatch]
  | cons x l1 ih =>
    intro l2
    cases l2 with
    | nil => simp [mismatch]
    | cons y l2 =>
      simp only [mismatch]
      by_cases h : pred (proj1 x) (proj2 y) = true
      · simp only [h, if_true, ih]
        constructor
        · rintro ⟨h1, h2⟩
          refine ⟨by simpa using h1, fun i a b ha hb => ?_⟩
          cases i with
          | zero => simp at ha hb; subst ha hb; exact h
          | succ i => exact h2 i a b (by simpa using ha) (by simpa using hb)
        · rintro ⟨h1, h2⟩
          exact ⟨by simpa using h1, fun i a b ha hb => h2 (i + 1) a b (by simpa using ha) (by simpa using hb)⟩
      · simp only [h, if_false, reduceCtorEq, false_iff]
        rintro ⟨-, h2⟩
        exact h (h2 0 x y (by simp) (by simp))

/-- C47: `starts_with` holds iff the second range is not longer than the first and matches it
element by element. -/
theorem C47_startsWith (pred : γ → γ → Bool) (proj1 : α → γ) (proj2 : β → γ) (l1 : List α) (l2 : List β) :
    startsWith pred proj1 proj2 l1 l2 = true ↔ l2.length ≤ l1.length ∧
      ∀ (i : Nat) x y, l1[i]? = some x → l2[i]? = some y → pred (proj1 x) (proj2 y) = true := by
  rw [← mismatch_spec, startsWith, List.isEmpty_iff]

/-- C47 with the default predicate and projections: a prefix. -/
theorem C47_startsWith_prefix [BEq α] [LawfulBEq α] (l1 l2 : List α) : startsWith (· == ·) id id l1 l2 = true ↔ l2 <+: l1 := by
  rw [C47_startsWith]
  constructor
  · rintro ⟨h1, h2⟩
    rw [List.prefix_iff_eq_take]
    apply List.ext_getElem?
    intro i
    rw [List.getElem?_take]
    split
    · rename_i h
      rw [List.getElem?_eq_getElem h, List.getElem?_eq_getElem (by omega)]
      have := h2 i l1[i] l2[i] (List.getElem?_eq_getElem (by omega)) (List.getElem?_eq_getElem h)
      simp at this
      rw [this]
    · exact List.getElem?_eq_none (by omega)
  · rintro ⟨b, rfl⟩
    refine ⟨by simp, fun i x y hx hy => ?_⟩
    have hi : i < l2.length := by
      rcases Nat.lt_or_ge i l2.length with h | h
      · exact h
      · rw [List.getElem?_eq_none h] at hy; simp at hy
    rw [List.getElem?_append_left hi, hy] at hx
    simp at hx; simp [hx]

example : findLast true id (0x2D : UInt8) (b! "a-b-c") = .ok (3, 5) := by decide +kernel
example : findLast false id (0x2D : UInt8) (b! "abc") = .ok (3, 3) := by decide +kernel
example : startsWith (· == ·) id id (b! "xn--a") (b! "xn--") = true := by decide +kernel

/-! ### C48 -/

/-- C48: the string conversion is the segments separated by `/`, preceded by `/` iff the path is
absolute and has segments. -/
theorem C48_string (p : Path SV) : p.toStr =
    if p.segments = [] then [] else (if p.absolute then b! "/" else []) ++ List.intercalate (b! "/") (p.segments.map SV.chars) := by
  rw [toStr_text]
  obtain ⟨ab, gs⟩ := p
  cases gs with
  | nil => simp [pathText, Path.map]
  | cons g gs =>
    have key : ∀ (g : Str) (gs : List Str), g ++ Abnf.slashes gs = List.intercalate (b! "/") (g :: gs) := by
      intro g gs
      induction gs generalizing g with
      | nil => simp [List.intercalate, slashes_nil, List.intersperse]
      | cons h gs ih =>
        have := ih h
        rw [slashes_cons, ← List.cons_append, show (0x2F : UInt8) :: h ++ Abnf.slashes gs = b! "/" ++ (h ++ Abnf.slashes gs) by simp, this]
        simp [List.intercalate, List.intersperse]
    simp [pathText, Path.map, ← key]

/-- Inner empty segments removed. -/
def squeeze (gs : List Str) : List Str := gs.dropLast.filter (· ≠ []) ++ gs.getLast?.toList

theorem fsAppend_step (root : Str) (hroot : root = [] ∨ root = b! "/") (st : List Str) (g : Str) (hg : NoSlash g) (hst : ∀ g ∈ st, NoSlash g) :
    fsAppend (root ++ joinText (squeeze st)) g = root ++ joinText (squeeze (st ++ [g])) := by
  have hh : ¬ g.head? = some 0x2F := by
    intro h
    cases g with
    | nil => simp at h
    | cons c g => simp at h; subst h; exact hg (by simp)
  have hsq : squeeze (st ++ [g]) = st.filter (· ≠ []) ++ [g] := by simp [squeeze]
  rw [hsq, fsAppend, if_neg hh]
  have hf : ∀ x ∈ st.filter (· ≠ []), NoSlash x ∧ x ≠ [] := by
    intro x hx
    simp at hx
    exact ⟨hst x hx.1, hx.2⟩
  have hroot' : ∀ x : Str, (if root.getLast? ≠ none ∧ root.getLast? ≠ some 0x2F then root ++ b! "/" ++ x else root ++ x) = root ++ x := by
    intro x; rcases hroot with rfl | rfl <;> simp
  rcases List.eq_nil_or_concat st with rfl | ⟨l, b, rfl⟩
  · simp only [squeeze, List.dropLast_nil, List.filter_nil, List.getLast?_nil, Option.toList_none, List.append_nil, joinText, List.nil_append,
      slashes_nil]
    exact hroot' g
  · rw [List.concat_eq_append] at *
    have hsb : squeeze (l ++ [b]) = l.filter (· ≠ []) ++ [b] := by simp [squeeze]
    rw [hsb]
    by_cases hb : b = []
    · subst hb
      have e : (l ++ [[]]).filter (· ≠ []) = l.filter (· ≠ []) := by simp
      rw [e]
      cases hl : l.filter (· ≠ []) with
      | nil =>
        simp only [List.nil_append, joinText, slashes_nil, List.append_nil]
        exact hroot' g
      | cons a r =>
        have e1 : joinText (a :: r ++ [[]]) = joinText (a :: r) ++ b! "/" := by
          simp [joinText, slashes_append, slashes_cons, slashes_nil]
        have e2 : joinText (a :: r ++ [g]) = joinText (a :: r) ++ b! "/" ++ g := by
          simp [joinText, slashes_append, slashes_cons, slashes_nil]
        rw [e1, e2]
        rw [if_neg]
        · simp
        · rintro ⟨-, h⟩
          apply h
          rw [← List.append_assoc]; simp
    · have e : (l ++ [b]).filter (· ≠ []) = l.filter (· ≠ []) ++ [b] := by simp [hb]
      rw [e]
      obtain ⟨b', c, rfl⟩ : ∃ b' c, b = b' ++ [c] := by
        rcases List.eq_nil_or_concat b with h | ⟨b', c, h⟩
        · exact absurd h hb
        · exact ⟨b', c, by simp [h]⟩
      have hc : c ≠ 0x2F := by
        rintro rfl; exact hst (b' ++ [0x2F]) (by simp) (by simp)
      have e1 : ∃ y, joinText (l.filter (· ≠ []) ++ [b' ++ [c]]) = y ++ [c] := by
        cases l.filter (· ≠ []) with
        | nil => exact ⟨b', by simp [joinText, slashes_nil]⟩
        | cons a r => exact ⟨a ++ Abnf.slashes r ++ 0x2F :: b', by simp [joinText, slashes_append, slashes_cons, slashes_nil]⟩
      obtain ⟨y, hy⟩ := e1
      have e2 : ∀ L : List Str, L ≠ [] → joinText (L ++ [g]) = joinText L ++ b! "/" ++ g := by
        intro L hL
        cases L with
        | nil => exact absurd rfl hL
        | cons a r => simp [joinText, slashes_append, slashes_cons, slashes_nil]
      rw [e2 _ (by simp), hy, if_pos]
      · simp
      · rw [← List.append_assoc, List.getLast?_concat]
        simp [hc]

/-- The loop of the filesystem conversion. -/
theorem toFs_fold (root : Str) (hroot : root = [] ∨ root = b! "/") : ∀ (gs : List SV) (st : List Str), (∀ g ∈ gs, NoSlash g.chars) → (∀ g ∈ st, NoSlash g) →
    (gs.foldl (fun acc g => fsAppend acc g.chars) (root ++ joinText (squeeze st))) = root ++ joinText (squeeze (st ++ gs.map SV.chars)) := by
  intro gs
  induction gs with
  | nil => intro st _ _; simp
  | cons g gs ih =>
    intro st h1 h2
    rw [List.foldl_cons, fsAppend_step root hroot st g.chars (h1 g (by simp)) h2, ih _ (fun x hx => h1 x (by simp [hx]))]
    · simp
    · intro x hx
      rcases List.mem_append.1 hx with hx | hx
      · exact h2 x hx
      · simp at hx; subst hx; exact h1 g (by simp)

/-- C48: the filesystem conversion of a path whose segments contain no `/` is the string
conversion of the same path with its inner empty segments removed: it never escapes upwards or is
replaced by a segment.  (An absolute path without segments, which no parse yields, becomes "/".) -/
theorem C48_filesystem (p : Path SV) (h : ∀ g ∈ p.segments, NoSlash g.chars) :
    p.toFs = (if p.absolute then b! "/" else []) ++ List.intercalate (b! "/") (squeeze (p.segments.map SV.chars)) := by
  have key : ∀ gs : List Str, joinText gs = List.intercalate (b! "/") gs := by
    intro gs
    cases gs with
    | nil => simp [joinText, List.intercalate]
    | cons g gs =>
      have := C48_string (Path.mk false ((g :: gs).map vw))
      rw [toStr_text] at this
      simp [Path.map, vw, pathText, Function.comp_def] at this
      simp [joinText, this]
  have hr : ∀ ab : Bool, (if ab then fsAppend [] (b! "/") else []) = (if ab then b! "/" else []) := by
    intro ab; cases ab <;> simp [fsAppend]
  obtain ⟨ab, gs⟩ := p
  have := toFs_fold (if ab then b! "/" else []) (by cases ab <;> simp) gs [] h (by simp)
  simp only [Path.toFs, hr, ← key]
  simpa [squeeze, joinText] using this

/-- C48: the two conversions agree when no inner segment is empty. -/
theorem C48_agree (p : Path SV) (h : ∀ g ∈ p.segments, NoSlash g.chars) (hne : p.segments ≠ [])
    (hi : ∀ g ∈ p.segments.dropLast, g.chars ≠ []) : p.toFs = p.toStr := by
  rw [C48_filesystem p h, C48_string, if_neg hne]
  have : squeeze (p.segments.map SV.chars) = p.segments.map SV.chars := by
    obtain ⟨ab, gs⟩ := p
    simp only at *
    rcases List.eq_nil_or_concat gs with rfl | ⟨l, b, rfl⟩
    · exact absurd rfl hne
    · rw [List.concat_eq_append] at *
      simp only [squeeze, List.map_append, List.map_cons, List.map_nil, List.dropLast_concat, List.getLast?_concat, Option.toList_some]
      congr 1
      rw [List.filter_eq_self]
      intro x hx
      obtain ⟨v, hv, rfl⟩ := List.mem_map.1 hx
      simp [hi v (by simpa using hv)]
  rw [this]

/-- C48: every parsed path meets the hypothesis on slashes. -/
theorem C48_parsed (pl : Plat) (sv : SV) (q : Parts SV) (e : split pl sv = .ok (some q) ∨ splitReference pl sv = .ok (some q)) :
    ∀ g ∈ q.path.segments, NoSlash g.chars := fun g hg =>
  (parsed_path e).1.noSlash g.chars (by simp [Parts.text, Parts.map, Path.map]; exact ⟨g, hg, rfl⟩)

example : (Path.mk true [vw (b! "a"), vw [], vw (b! "b"), vw []]).toFs = b! "/a/b/" := by decide +kernel
example : (Path.mk true [vw (b! "a"), vw [], vw (b! "b"), vw []]).toStr = b! "/a//b/" := by decide +kernel

end Verif
