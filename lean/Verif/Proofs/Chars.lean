import Verif.Proofs.Lang

/-!
# Character-level rules: exact characterisations
-/

namespace Verif
open Peg

set_option linter.unusedSimpArgs false

theorem range_cls (a b : Nat) (u : Str) :
    Abnf.range a b u ↔ Cls (fun c => decide (a ≤ c.toNat) && decide (c.toNat ≤ b)) u := by
  simp [Abnf.range, Cls]

theorem lit_cls (c : UInt8) (u : Str) : Abnf.lit [c] u ↔ Cls (· == c) u := by
  simp [Abnf.lit, Cls]

theorem alt_cls {A B : Lang} {f g : UInt8 → Bool} (hA : ∀ u, A u ↔ Cls f u) (hB : ∀ u, B u ↔ Cls g u)
    (u : Str) : Abnf.alt A B u ↔ Cls (fun c => f c || g c) u := by
  simp only [Abnf.alt, hA, hB, Cls, Bool.or_eq_true]
  constructor
  · rintro (⟨c, h1, h2⟩ | ⟨c, h1, h2⟩)
    · exact ⟨c, h1, Or.inl h2⟩
    · exact ⟨c, h1, Or.inr h2⟩
  · rintro ⟨c, h1, h2 | h2⟩
    · exact Or.inl ⟨c, h1, h2⟩
    · exact Or.inr ⟨c, h1, h2⟩

theorem cls_congr {A : Lang} {f g : UInt8 → Bool} (h : ∀ u, A u ↔ Cls f u) (hfg : f = g) (u : Str) :
    A u ↔ Cls g u := by rw [h, hfg]

theorem ALPHA_cls : ∀ u, Abnf.ALPHA u ↔ Cls isAlphaB u :=
  cls_congr (alt_cls (range_cls _ _) (range_cls _ _)) (byte_ext (by decide +kernel))
theorem DIGIT_cls : ∀ u, Abnf.DIGIT u ↔ Cls isDigitB u :=
  cls_congr (range_cls _ _) (byte_ext (by decide +kernel))
theorem HEXDIG_cls : ∀ u, Abnf.HEXDIG u ↔ Cls isXDigitB u :=
  cls_congr (alt_cls DIGIT_cls (alt_cls (range_cls _ _) (range_cls _ _))) (byte_ext (by decide +kernel))
theorem unreserved_cls : ∀ u, Abnf.unreserved u ↔ Cls PG.isUnreserved u :=
  cls_congr (alt_cls ALPHA_cls (alt_cls DIGIT_cls (alt_cls (lit_cls _) (alt_cls (lit_cls _)
    (alt_cls (lit_cls _) (lit_cls _)))))) (byte_ext (by decide +kernel))
theorem subDelims_cls : ∀ u, Abnf.subDelims u ↔ Cls Grammar.isSubDelim u :=
  cls_congr (alt_cls (lit_cls _) (alt_cls (lit_cls _) (alt_cls (lit_cls _) (alt_cls (lit_cls _)
    (alt_cls (lit_cls _) (alt_cls (lit_cls _) (alt_cls (lit_cls _) (alt_cls (lit_cls _)
    (alt_cls (lit_cls _) (alt_cls (lit_cls _) (lit_cls _)))))))))))  (byte_ext (by decide +kernel))

/-- One character of a class, or a percent-encoded triplet. -/
def ElemL (f : UInt8 → Bool) : Lang := fun u =>
  Cls f u ∨ ∃ h1 h2, u = [0x25, h1, h2] ∧ isXDigitB h1 = true ∧ isXDigitB h2 = true

theorem pct_iff (u : Str) : Abnf.pctEncoded u ↔
    ∃ h1 h2, u = [0x25, h1, h2] ∧ isXDigitB h1 = true ∧ isXDigitB h2 = true := by
  simp only [Abnf.pctEncoded, Abnf.cat, HEXDIG_cls, Cls, Abnf.lit]
  constructor
  · rintro ⟨a, b, rfl, rfl, c, d, rfl, ⟨x, rfl, hx⟩, y, rfl, hy⟩
    exact ⟨x, y, rfl, hx, hy⟩
  · rintro ⟨x, y, rfl, hx, hy⟩
    exact ⟨_, _, rfl, rfl, _, _, rfl, ⟨x, rfl, hx⟩, y, rfl, hy⟩

/-- Class of `unreserved / sub-delims`. -/
def isRegChar (c : UInt8) : Bool := PG.isUnreserved c || Grammar.isSubDelim c
/-- Class of `unreserved / sub-delims / ":"`. -/
def isUserChar (c : UInt8) : Bool := isRegChar c || c == 0x3A
/-- Class of `unreserved / sub-delims / "@"`. -/
def isNcChar (c : UInt8) : Bool := isRegChar c || c == 0x40
/-- Class of `unreserved / sub-delims / ":" / "@"`. -/
def isPChar (c : UInt8) : Bool := isRegChar c || c == 0x3A || c == 0x40
/-- Class of the characters of query and fragment. -/
def isQueryChar (c : UInt8) : Bool := isPChar c || c == 0x2F || c == 0x3F
/-- Class of the characters of a scheme after the first. -/
def isSchemeChar (c : UInt8) : Bool := isAlphaB c || isDigitB c || c == 0x2B || c == 0x2D || c == 0x2E

theorem alt_elem_l {A : Lang} {f g : UInt8 → Bool} {B : Lang} (hA : ∀ u, A u ↔ Cls f u)
    (hB : ∀ u, B u ↔ ElemL g u) (u : Str) : Abnf.alt A B u ↔ ElemL (fun c => f c || g c) u := by
  have := alt_cls (A := A) (B := Cls g) hA (fun _ => Iff.rfl) u
  simp only [Abnf.alt] at this ⊢
  rw [hB]; simp only [ElemL]; rw [← or_assoc, this]

theorem alt_elem_r {A : Lang} {f g : UInt8 → Bool} {B : Lang} (hA : ∀ u, A u ↔ ElemL f u)
    (hB : ∀ u, B u ↔ Cls g u) (u : Str) : Abnf.alt A B u ↔ ElemL (fun c => f c || g c) u := by
  have := alt_cls (A := Cls f) (B := B) (fun _ => Iff.rfl) hB u
  simp only [Abnf.alt] at this ⊢
  rw [hA]; simp only [ElemL]; rw [← this]
  constructor
  · rintro ((h | h) | h) <;> simp [h]
  · rintro ((h | h) | h) <;> simp [h]

theorem alt_elem_pct {f : UInt8 → Bool} {B : Lang} (hB : ∀ u, B u ↔ Cls f u) (u : Str) :
    Abnf.alt Abnf.pctEncoded B u ↔ ElemL f u := by
  simp only [Abnf.alt, ElemL]; rw [hB, pct_iff]; exact or_comm

theorem elem_congr {A : Lang} {f g : UInt8 → Bool} (h : ∀ u, A u ↔ ElemL f u) (hfg : f = g) (u : Str) :
    A u ↔ ElemL g u := by rw [h, hfg]

open scoped Abnf in
theorem reg_elem : ∀ u, (Abnf.unreserved ∕ Abnf.pctEncoded ∕ Abnf.subDelims) u ↔ ElemL isRegChar u :=
  elem_congr (alt_elem_l unreserved_cls (alt_elem_pct subDelims_cls)) rfl
open scoped Abnf in
theorem user_elem : ∀ u, (Abnf.unreserved ∕ Abnf.pctEncoded ∕ Abnf.subDelims ∕ Abnf.lit (b! ":")) u ↔
    ElemL isUserChar u :=
  elem_congr (alt_elem_l unreserved_cls (alt_elem_pct (alt_cls subDelims_cls (lit_cls _))))
    (byte_ext (by decide +kernel))
open scoped Abnf in
theorem nc_elem : ∀ u, (Abnf.unreserved ∕ Abnf.pctEncoded ∕ Abnf.subDelims ∕ Abnf.lit (b! "@")) u ↔
    ElemL isNcChar u :=
  elem_congr (alt_elem_l unreserved_cls (alt_elem_pct (alt_cls subDelims_cls (lit_cls _))))
    (byte_ext (by decide +kernel))
theorem pchar_elem : ∀ u, Abnf.pchar u ↔ ElemL isPChar u :=
  elem_congr (alt_elem_l unreserved_cls (alt_elem_pct (alt_cls subDelims_cls (alt_cls (lit_cls _) (lit_cls _)))))
    (byte_ext (by decide +kernel))
open scoped Abnf in
theorem query_elem : ∀ u, (Abnf.pchar ∕ Abnf.lit (b! "/") ∕ Abnf.lit (b! "?")) u ↔ ElemL isQueryChar u :=
  elem_congr (alt_elem_r pchar_elem (alt_cls (lit_cls _) (lit_cls _))) (byte_ext (by decide +kernel))
open scoped Abnf in
theorem scheme_cls : ∀ u, (Abnf.ALPHA ∕ Abnf.DIGIT ∕ Abnf.lit (b! "+") ∕ Abnf.lit (b! "-") ∕
    Abnf.lit (b! ".")) u ↔ Cls isSchemeChar u :=
  cls_congr (alt_cls ALPHA_cls (alt_cls DIGIT_cls (alt_cls (lit_cls _) (alt_cls (lit_cls _) (lit_cls _)))))
    (byte_ext (by decide +kernel))
open scoped Abnf in
theorem future_cls : ∀ u, (Abnf.unreserved ∕ Abnf.subDelims ∕ Abnf.lit (b! ":")) u ↔ Cls isUserChar u :=
  cls_congr (alt_cls unreserved_cls (alt_cls subDelims_cls (lit_cls _))) (byte_ext (by decide +kernel))

/-! ### The element parsers in closed form -/

/-- Parse one character of a class or a percent-encoded triplet. -/
def elemP (f : UInt8 → Bool) : PG.P
  | [] => none
  | c :: s => if f c then some ([c], [], s) else
      if c = 0x25 then
        match s with
        | h1 :: h2 :: t => if isXDigitB h1 && isXDigitB h2 then some ([c, h1, h2], [], t) else none
        | _ => none
      else none

theorem pctEncoded_eq (c : UInt8) (s : Str) : PG.pctEncoded (c :: s) =
    if c = 0x25 then
        match s with
        | h1 :: h2 :: t => if isXDigitB h1 && isXDigitB h2 then some ([c, h1, h2], [], t) else none
        | _ => none
      else none := by
  simp only [PG.pctEncoded, Peg.seq, PG.ch, PG.hexdig, chr]
  by_cases hc : c = 0x25
  · subst hc
    match s with
    | [] => simp [chr]
    | [h1] => by_cases h : isXDigitB h1 <;> simp [chr, h]
    | h1 :: h2 :: t =>
      by_cases h : isXDigitB h1 <;> by_cases h' : isXDigitB h2 <;> simp [chr, h, h']
  · simp [hc]

theorem alt_cons_chr (f : UInt8 → Bool) (ps : List PG.P) (c : UInt8) (s : Str) :
    alt (chr f :: ps) (c :: s) = if f c then some ([c], [], s) else alt ps (c :: s) := by
  simp only [Peg.alt, chr]
  by_cases h : f c <;> simp [h]

theorem alt_cons_nil (f : UInt8 → Bool) (ps : List PG.P) : alt (chr f :: ps) [] = alt ps [] := by
  simp [Peg.alt, chr]

theorem pct_nil : PG.pctEncoded [] = none := rfl

/-- `unreserved / pct-encoded / chr g ...`. -/
theorem alt_elem_eq (g f : UInt8 → Bool) (ps : List PG.P)
    (hps : alt ps = chr g) (hfg : (fun c => PG.isUnreserved c || g c) = f) (hf : f 0x25 = false) :
    alt (PG.unreserved :: PG.pctEncoded :: ps) = elemP f := by
  funext s
  cases s with
  | nil =>
    have e := congrFun hps []
    rw [PG.unreserved, alt_cons_nil]
    simp only [Peg.alt, pct_nil] at e ⊢
    rw [e]; rfl
  | cons c s =>
    have e := congrFun hps (c :: s)
    rw [PG.unreserved, alt_cons_chr]
    subst hfg
    simp only [elemP]
    by_cases hu : PG.isUnreserved c = true
    · simp [hu]
    · simp only [hu, Bool.false_or]
      simp only [Peg.alt, pctEncoded_eq]
      rw [e]
      by_cases hc : c = 0x25
      · subst hc
        simp only [Bool.or_eq_false_iff] at hf
        simp only [if_true, hf.2, chr]
        match s with
        | [] => simp
        | [h1] => simp
        | h1 :: h2 :: t =>
          by_cases h : isXDigitB h1 <;> by_cases h' : isXDigitB h2 <;> simp [h, h']
      · simp only [hc, if_false, chr]
        simp

theorem alt_chr_one (f : UInt8 → Bool) : alt [(chr f : PG.P)] = chr f := by
  funext s
  cases s with
  | nil => rfl
  | cons c s => rw [alt_cons_chr]; simp [Peg.alt, chr]

theorem alt_chr_cons (f g : UInt8 → Bool) (ps : List PG.P) (h : alt ps = chr g) :
    alt (chr f :: ps) = chr (fun c => f c || g c) := by
  funext s
  cases s with
  | nil => rw [alt_cons_nil, h]; rfl
  | cons c s =>
    rw [alt_cons_chr, h]
    simp only [chr]
    by_cases h : f c <;> simp [h]

theorem regNameElem_eq : PG.regNameElem = elemP isRegChar :=
  alt_elem_eq _ _ _ (alt_chr_one _) rfl (by decide)
theorem userinfoElem_eq : PG.userinfoElem = elemP isUserChar :=
  alt_elem_eq _ _ _ (alt_chr_cons _ _ _ (alt_chr_one _)) (byte_ext (by decide +kernel)) (by decide)
theorem segmentNzNcElem_eq : PG.segmentNzNcElem = elemP isNcChar :=
  alt_elem_eq _ _ _ (alt_chr_cons _ _ _ (alt_chr_one _)) (byte_ext (by decide +kernel)) (by decide)
theorem pchar_eq : PG.pchar = elemP isPChar :=
  alt_elem_eq _ _ _ (alt_chr_cons _ _ _ (alt_chr_cons _ _ _ (alt_chr_one _)))
    (byte_ext (by decide +kernel)) (by decide)
theorem schemeElem_eq : PG.schemeElem = chr isSchemeChar := by
  have := alt_chr_cons isAlphaB _ _ (alt_chr_cons isDigitB _ _ (alt_chr_cons (· == 0x2B) _ _
    (alt_chr_cons (· == 0x2D) _ _ (alt_chr_one (· == 0x2E)))))
  rw [show isSchemeChar = _ from byte_ext (g := fun c => isAlphaB c || (isDigitB c || (c == 0x2B ||
    (c == 0x2D || c == 0x2E)))) (by decide +kernel)]
  exact this
theorem ipvfutureElem_eq : PG.ipvfutureElem = chr isUserChar := by
  have := alt_chr_cons PG.isUnreserved _ _ (alt_chr_cons Grammar.isSubDelim _ _ (alt_chr_one (· == 0x3A)))
  rw [show isUserChar = _ from byte_ext (g := fun c => PG.isUnreserved c || (Grammar.isSubDelim c ||
    c == 0x3A)) (by decide +kernel)]
  exact this
theorem queryElem_eq : PG.queryElem = elemP isQueryChar := by
  have h := alt_chr_cons (· == 0x2F) _ _ (alt_chr_one (· == 0x3F))
  funext s
  have e := congrFun h s
  simp only [PG.queryElem, Peg.alt, pchar_eq] at e ⊢
  simp only [PG.ch]
  rw [e]
  cases s with
  | nil => rfl
  | cons c s =>
    simp only [elemP, chr]
    by_cases hp : isPChar c = true
    · simp [hp, isQueryChar]
    · by_cases hc : c = 0x25
      · subst hc
        simp only [hp, if_true, isQueryChar]
        match s with
        | [] => simp
        | [h1] => simp
        | h1 :: h2 :: t =>
          by_cases h : isXDigitB h1 <;> by_cases h' : isXDigitB h2 <;> simp [h, h']
      · simp [hp, hc, isQueryChar]

theorem sound_elemP (f) : Sound (elemP f) (Plain (ElemL f)) := by
  intro s u a v h
  cases s with
  | nil => simp [elemP] at h
  | cons c s =>
    simp only [elemP] at h
    split at h
    · rename_i hc
      simp only [Option.some.injEq, Prod.mk.injEq] at h
      obtain ⟨rfl, rfl, rfl⟩ := h
      exact ⟨rfl, Or.inl ⟨c, rfl, hc⟩, rfl⟩
    · split at h
      · rename_i hc
        match s, h with
        | [], h => simp at h
        | [_], h => simp at h
        | h1 :: h2 :: t, h =>
          simp only at h
          split at h
          · rename_i hh
            simp only [Option.some.injEq, Prod.mk.injEq] at h
            obtain ⟨rfl, rfl, rfl⟩ := h
            simp only [Bool.and_eq_true] at hh
            exact ⟨rfl, Or.inr ⟨h1, h2, by simp [hc], hh.1, hh.2⟩, rfl⟩
          · simp at h
      · simp at h

theorem complete_elemP (f) (hf : f 0x25 = false) : Complete (elemP f) (Plain (ElemL f)) (fun _ => True) := by
  rintro u a v ⟨(⟨c, rfl, hc⟩ | ⟨h1, h2, rfl, hh1, hh2⟩), rfl⟩ _
  · simp [elemP, hc]
  · simp [elemP, hf, hh1, hh2]

theorem elemP_none_of_head {f : UInt8 → Bool} {v : Str}
    (h : ∀ c, v.head? = some c → f c = false ∧ c ≠ 0x25) : elemP f v = none := by
  cases v with
  | nil => rfl
  | cons c s => simp [elemP, h c (by simp)]

theorem elemL_ne {f u} (h : ElemL f u) : u ≠ [] := by
  rcases h with ⟨c, rfl, _⟩ | ⟨_, _, rfl, _⟩ <;> simp

/-- A repetition of single elements is matched as a whole when nothing that follows is an element. -/
theorem complete_many {p : PG.P} {L : Lang} (hp : Complete p (Plain L) (fun _ => True))
    (hne : ∀ u, L u → u ≠ []) (m : Nat) (u v : Str) (es : List Str) (e : u = es.flatten) (hL : ∀ e ∈ es, L e)
    (hm : m ≤ es.length % uintMod) (hv : p v = none) :
    star p m uintMax (u ++ v) = some (u, [], v) := by
  subst e
  have := complete_star_listU hp m (fun u a h => hne u h.1) v
    (es.map fun e => (e, [])) (by
      intro e he
      obtain ⟨x, hx, rfl⟩ := List.mem_map.1 he
      exact ⟨hL x hx, rfl⟩) (fun _ _ _ _ => trivial) (by simpa using hm) hv
  have e1 : ((es.map fun e => ((e, []) : Str × List (Act × Str))).map Prod.fst).flatten = es.flatten := by
    simp [List.map_map, Function.comp_def]
  have e2 : ((es.map fun e => ((e, []) : Str × List (Act × Str))).map Prod.snd).flatten = [] := by
    rw [List.flatten_eq_nil_iff]; simp
  rw [e1, e2] at this
  exact this

/-- A repetition of single characters has as many elements as characters. -/
theorem cls_units {f : UInt8 → Bool} {es : List Str} (h : ∀ e ∈ es, Cls f e) : es.flatten.length = es.length := by
  induction es with
  | nil => rfl
  | cons e es ih =>
    obtain ⟨c, rfl, _⟩ := h e (by simp)
    simp [ih fun x hx => h x (by simp [hx])]

/-- A repetition of characters and triplets has as many elements as `units`. -/
theorem elem_units {f : UInt8 → Bool} (hf : f 0x25 = false) {es : List Str} (h : ∀ e ∈ es, ElemL f e) :
    Abnf.units es.flatten = es.length := by
  suffices es.flatten.length = es.length + 2 * es.flatten.count 0x25 by unfold Abnf.units; omega
  induction es with
  | nil => rfl
  | cons e es ih =>
    have := ih fun x hx => h x (by simp [hx])
    have hx : e.length = 1 + 2 * e.count 0x25 := by
      rcases h e (by simp) with ⟨c, rfl, hc⟩ | ⟨a, b, rfl, ha, hb⟩
      · have : c ≠ 0x25 := by rintro rfl; rw [hf] at hc; simp at hc
        simp [List.count_cons, this]
      · have h1 : a ≠ 0x25 := by rintro rfl; revert ha; decide
        have h2 : b ≠ 0x25 := by rintro rfl; revert hb; decide
        simp [List.count_cons, h1, h2]
    simp only [List.flatten_cons, List.length_append, List.length_cons, List.count_append]
    omega

end Verif
