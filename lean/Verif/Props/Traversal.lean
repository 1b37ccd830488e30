import Verif.Props.RoundTrip
import Verif.Props.Resolve

/-!
# C65: what decoding can bring back into a path

`join` and `remove_dot_segments` look at segments as they are written, `decode` comes afterwards.  These theorems say
exactly which written segments turn into `.`, `..`, or a segment with a `/` (or any other byte) in it.
-/

set_option linter.unusedSimpArgs false

namespace Verif
open Codec PartsSpec Unicode PctSpec

/-- The three ways to write a full stop in a URI. -/
def WritesDot (s : Str) : Prop := s = b! "." ∨ s = b! "%2E" ∨ s = b! "%2e"

instance (s : Str) : Decidable (WritesDot s) := inferInstanceAs (Decidable (_ ∨ _ ∨ _))

theorem triplet_dot {h l : UInt8} : Triplet h l 0x2E ↔ h = 0x32 ∧ (l = 0x45 ∨ l = 0x65) := by
  constructor
  · rintro ⟨x, y, hx, hy, e⟩
    have hy16 : y < 16 := by
      rcases hy with hy | hy
      · have := (List.getElem?_eq_some_iff.1 hy).1; simpa [upperDigits] using this
      · have := (List.getElem?_eq_some_iff.1 hy).1; simpa [lowerDigits] using this
    have e' : 16 * x + y = 46 := by rw [← e]; rfl
    have hx2 : x = 2 := by omega
    have hy14 : y = 14 := by omega
    subst hx2; subst hy14
    simp only [HexVal, upperDigits, lowerDigits] at hx hy
    have hx' : some (0x32 : UInt8) = some h ∨ some (0x32 : UInt8) = some h := hx
    have hy' : some (0x45 : UInt8) = some l ∨ some (0x65 : UInt8) = some l := hy
    constructor
    · rcases hx' with h | h <;> exact (Option.some.inj h).symm
    · rcases hy' with h | h
      · exact Or.inl (Option.some.inj h).symm
      · exact Or.inr (Option.some.inj h).symm
  · rintro ⟨rfl, rfl | rfl⟩
    · exact ⟨2, 14, Or.inl rfl, Or.inl rfl, rfl⟩
    · exact ⟨2, 14, Or.inl rfl, Or.inr rfl, rfl⟩

theorem not_starts {c : UInt8} {s : Str} (h : c ≠ 0x25) : ¬ StartsTriplet (c :: s) := by
  rintro ⟨_, _, _, _, e, _⟩
  exact h (List.cons.inj e).1

theorem decodes_dot_cons {s d : Str} : Decodes s (0x2E :: d) ↔ ∃ a t, WritesDot a ∧ s = a ++ t ∧ Decodes t d := by
  constructor
  · intro h
    generalize e : (0x2E : UInt8) :: d = x at h
    cases h with
    | nil => simp at e
    | @triplet h l b s d' ht hd =>
      obtain ⟨rfl, rfl⟩ := List.cons.inj e
      obtain ⟨rfl, rfl | rfl⟩ := triplet_dot.1 ht
      · exact ⟨b! "%2E", s, Or.inr (Or.inl rfl), rfl, hd⟩
      · exact ⟨b! "%2e", s, Or.inr (Or.inr rfl), rfl, hd⟩
    | @copy c s d' hn hd =>
      obtain ⟨rfl, rfl⟩ := List.cons.inj e
      exact ⟨b! ".", s, Or.inl rfl, rfl, hd⟩
  · rintro ⟨a, t, ha, rfl, hd⟩
    rcases ha with rfl | rfl | rfl
    · exact Decodes.copy (not_starts (by decide)) hd
    · exact Decodes.triplet (triplet_dot.2 ⟨rfl, Or.inl rfl⟩) hd
    · exact Decodes.triplet (triplet_dot.2 ⟨rfl, Or.inr rfl⟩) hd

theorem decodes_nil {s : Str} : Decodes s [] ↔ s = [] := by
  constructor
  · intro h; generalize e : ([] : Str) = x at h; cases h <;> simp at e; rfl
  · rintro rfl; exact .nil

theorem decodes_dot {s : Str} : Decodes s (b! ".") ↔ WritesDot s := by
  have : Decodes s (b! ".") ↔ ∃ a t, WritesDot a ∧ s = a ++ t ∧ Decodes t [] := decodes_dot_cons
  rw [this]
  constructor
  · rintro ⟨a, t, ha, rfl, ht⟩; rw [decodes_nil.1 ht]; simpa using ha
  · intro h; exact ⟨s, [], h, by simp, .nil⟩

theorem decodes_dots {s : Str} : Decodes s (b! "..") ↔ ∃ a b, WritesDot a ∧ WritesDot b ∧ s = a ++ b := by
  have : Decodes s (b! "..") ↔ ∃ a t, WritesDot a ∧ s = a ++ t ∧ Decodes t (b! ".") := decodes_dot_cons
  rw [this]
  constructor
  · rintro ⟨a, t, ha, rfl, ht⟩; exact ⟨a, t, ha, decodes_dot.1 ht, rfl⟩
  · rintro ⟨a, b, ha, hb, rfl⟩; exact ⟨a, b, ha, rfl, decodes_dot.2 hb⟩

/-- C65: exactly three texts decode to `.` and exactly nine to `..`. -/
theorem C65_dots (s : Str) : (pctdecode s = .ok (b! ".") ↔ WritesDot s) ∧
    (pctdecode s = .ok (b! "..") ↔ ∃ a b, WritesDot a ∧ WritesDot b ∧ s = a ++ b) := by
  rw [C26_exact, C26_exact]
  exact ⟨decodes_dot, decodes_dots⟩

/-- `c` is the percent sign or a hexadecimal digit: the bytes triplets are made of. -/
def Tripletish (c : UInt8) : Prop := c = 0x25 ∨ ∃ v, HexVal c v

theorem hexVal_percent {v : Nat} : ¬ HexVal 0x25 v := by
  intro h
  have : (0x25 : UInt8) ∈ upperDigits ∨ (0x25 : UInt8) ∈ lowerDigits :=
    h.imp List.mem_of_getElem? List.mem_of_getElem?
  revert this
  decide

theorem triplet_unique {h l b b' : UInt8} (k : Triplet h l b) (k' : Triplet h l b') : b = b' :=
  ((triplet_iff _ _ _).1 k).2.trans ((triplet_iff _ _ _).1 k').2.symm

theorem decodes_mem {s d : Str} (h : Decodes s d) {c : UInt8} (hc : ¬ Tripletish c) :
    c ∈ d ↔ c ∈ s ∨ ∃ x y, Triplet x y c ∧ [0x25, x, y] <:+: s := by
  induction h with
  | nil => simp
  | @triplet h l b s d ht _ ih =>
    obtain ⟨vh, vl, h1, h2, h3⟩ := ht
    have n1 : c ≠ 0x25 := fun e => hc (Or.inl e)
    have n2 : c ≠ h := fun e => hc (Or.inr ⟨vh, e ▸ h1⟩)
    have n3 : c ≠ l := fun e => hc (Or.inr ⟨vl, e ▸ h2⟩)
    have hh : h ≠ 0x25 := fun e => hexVal_percent (e ▸ h1)
    have hl : l ≠ 0x25 := fun e => hexVal_percent (e ▸ h2)
    simp only [List.mem_cons, n1, n2, n3, false_or]
    rw [ih]
    constructor
    · rintro (rfl | h | ⟨x, y, hxy, hi⟩)
      · exact Or.inr ⟨h, l, ⟨vh, vl, h1, h2, h3⟩, ⟨[], s, rfl⟩⟩
      · exact Or.inl h
      · exact Or.inr ⟨x, y, hxy, hi.trans (⟨[0x25, h, l], [], by simp⟩)⟩
    · rintro (h | ⟨x, y, hxy, hi⟩)
      · exact Or.inr (Or.inl h)
      · rcases List.infix_cons_iff.1 hi with hp | hi
        · obtain ⟨t, ht⟩ := hp
          simp only [List.cons_append, List.nil_append, List.cons.injEq, true_and] at ht
          obtain ⟨rfl, rfl, -⟩ := ht
          left
          obtain ⟨a, b', k1, k2, k3⟩ := hxy
          exact triplet_unique ⟨a, b', k1, k2, k3⟩ ⟨vh, vl, h1, h2, h3⟩
        · rcases List.infix_cons_iff.1 hi with hp | hi
          · obtain ⟨t, ht⟩ := hp
            exact absurd (List.cons.inj ht).1.symm hh
          · rcases List.infix_cons_iff.1 hi with hp | hi
            · obtain ⟨t, ht⟩ := hp
              exact absurd (List.cons.inj ht).1.symm hl
            · exact Or.inr (Or.inr ⟨x, y, hxy, hi⟩)
  | @copy c' s d hn _ ih =>
    simp only [List.mem_cons]
    rw [ih]
    constructor
    · rintro (h | h | ⟨x, y, hxy, hi⟩)
      · exact Or.inl (Or.inl h)
      · exact Or.inl (Or.inr h)
      · exact Or.inr ⟨x, y, hxy, hi.trans (List.suffix_cons _ _).isInfix⟩
    · rintro ((h | h) | ⟨x, y, hxy, hi⟩)
      · exact Or.inl h
      · exact Or.inr (Or.inl h)
      · rcases List.infix_cons_iff.1 hi with hp | hi
        · obtain ⟨t, ht⟩ := hp
          exact absurd ⟨x, y, c, t, by simpa using ht.symm, hxy⟩ hn
        · exact Or.inr (Or.inr ⟨x, y, hxy, hi⟩)

/-- C65: the decoded text contains a given byte, other than `%` and the hexadecimal digits, iff it is in the text itself
or some triplet denoting it is, at any position at all. -/
theorem C65_byte (s d : Str) (h : pctdecode s = .ok d) (c : UInt8) (hc : c ≠ 0x25 ∧ ∀ v, ¬ HexVal c v) :
    c ∈ d ↔ c ∈ s ∨ ∃ x y, Triplet x y c ∧ [0x25, x, y] <:+: s :=
  decodes_mem ((C26_exact s d).1 h) fun k => k.elim hc.1 fun ⟨v, hv⟩ => hc.2 v hv

theorem triplet_slash {h l : UInt8} : Triplet h l 0x2F ↔ h = 0x32 ∧ (l = 0x46 ∨ l = 0x66) := by
  constructor
  · rintro ⟨x, y, hx, hy, e⟩
    have hy16 : y < 16 := by
      rcases hy with hy | hy
      · have := (List.getElem?_eq_some_iff.1 hy).1; simpa [upperDigits] using this
      · have := (List.getElem?_eq_some_iff.1 hy).1; simpa [lowerDigits] using this
    have e' : 16 * x + y = 47 := by rw [← e]; rfl
    have hx2 : x = 2 := by omega
    have hy15 : y = 15 := by omega
    subst hx2; subst hy15
    simp only [HexVal, upperDigits, lowerDigits] at hx hy
    have hx' : some (0x32 : UInt8) = some h ∨ some (0x32 : UInt8) = some h := hx
    have hy' : some (0x46 : UInt8) = some l ∨ some (0x66 : UInt8) = some l := hy
    constructor
    · rcases hx' with h | h <;> exact (Option.some.inj h).symm
    · rcases hy' with h | h
      · exact Or.inl (Option.some.inj h).symm
      · exact Or.inr (Option.some.inj h).symm
  · rintro ⟨rfl, rfl | rfl⟩
    · exact ⟨2, 15, Or.inl rfl, Or.inl rfl, rfl⟩
    · exact ⟨2, 15, Or.inl rfl, Or.inr rfl, rfl⟩

theorem decodes_slash {s d : Str} (h : Decodes s d) : (0x2F : UInt8) ∈ d ↔ (0x2F : UInt8) ∈ s ∨ b! "%2F" <:+: s ∨ b! "%2f" <:+: s := by
  rw [decodes_mem h (c := 0x2F)]
  · constructor
    · rintro (h | ⟨x, y, hxy, hi⟩)
      · exact Or.inl h
      · obtain ⟨rfl, rfl | rfl⟩ := triplet_slash.1 hxy
        · exact Or.inr (Or.inl hi)
        · exact Or.inr (Or.inr hi)
    · rintro (h | h | h)
      · exact Or.inl h
      · exact Or.inr ⟨_, _, triplet_slash.2 ⟨rfl, Or.inl rfl⟩, h⟩
      · exact Or.inr ⟨_, _, triplet_slash.2 ⟨rfl, Or.inr rfl⟩, h⟩
  · rintro (h | ⟨v, h⟩)
    · exact absurd h (by decide)
    · have : (0x2F : UInt8) ∈ upperDigits ∨ (0x2F : UInt8) ∈ lowerDigits :=
        h.imp List.mem_of_getElem? List.mem_of_getElem?
      revert this
      decide

/-- C65: a segment of a decoded path is `.`, is `..` or has a `/` in it exactly if it was written so or with the
triplets for these characters. -/
theorem C65_decode (hp : Heap) (store : Store) (p : Parts SV) (hn : p.path.segments.length + 6 ≤ 2 ^ 32)
    (hh : ∀ a, p.authority = some a → a.host.chars.length + 2 < 2 ^ 64) (hnull : ∀ v ∈ p.path.segments, v.ptr = 0 → v.chars = [])
    (r : Parts SV) (st' : Store) (h : decode hp store p = .ok (.ok r, st')) :
    Each (fun v v' => (v'.chars = b! "." ↔ WritesDot v.chars) ∧
      (v'.chars = b! ".." ↔ ∃ a b, WritesDot a ∧ WritesDot b ∧ v.chars = a ++ b) ∧
      ((0x2F : UInt8) ∈ v'.chars ↔ (0x2F : UInt8) ∈ v.chars ∨ b! "%2F" <:+: v.chars ∨ b! "%2f" <:+: v.chars))
      p.path.segments r.path.segments := by
  have h1 := (C36_decode hp store p hn hh r st' h).segments
  have key : ∀ s d : Str, Decodes s d → (d = b! "." ↔ WritesDot s) ∧ (d = b! ".." ↔ ∃ a b, WritesDot a ∧ WritesDot b ∧ s = a ++ b) ∧
      ((0x2F : UInt8) ∈ d ↔ (0x2F : UInt8) ∈ s ∨ b! "%2F" <:+: s ∨ b! "%2f" <:+: s) := by
    intro s d hd
    have un : ∀ d', Decodes s d' → d' = d := fun d' hd' => by
      have a := (C26_exact s d').2 hd'
      rw [(C26_exact s d).2 hd] at a
      exact (Except.ok.inj a).symm
    refine ⟨⟨fun e => decodes_dot.1 (e ▸ hd), fun k => (un _ (decodes_dot.2 k)).symm⟩,
      ⟨fun e => decodes_dots.1 (e ▸ hd), fun k => (un _ (decodes_dots.2 k)).symm⟩, decodes_slash hd⟩
  have gen : ∀ (as bs : List SV), (∀ v ∈ as, v.ptr = 0 → v.chars = []) →
      Each (fun v v' => (v' = v ∧ v.ptr = 0) ∨ (FieldDecodes .path v.chars v'.chars ∧ (v' = v ∨ InStore st' v')) ∨
        (Field.path = .host ∧ v' = v ∧ (v.chars = b! "xn--" ∨ v.chars = b! "xn---") ∧ FieldDecodes .path v.chars [])) as bs →
      Each (fun v v' => (v'.chars = b! "." ↔ WritesDot v.chars) ∧
        (v'.chars = b! ".." ↔ ∃ a b, WritesDot a ∧ WritesDot b ∧ v.chars = a ++ b) ∧
        ((0x2F : UInt8) ∈ v'.chars ↔ (0x2F : UInt8) ∈ v.chars ∨ b! "%2F" <:+: v.chars ∨ b! "%2f" <:+: v.chars)) as bs := by
    intro as bs hv he
    induction he with
    | nil => exact .nil
    | cons hr _ ih =>
      refine .cons ?_ (ih fun v hm => hv v (List.mem_cons_of_mem _ hm))
      rcases hr with ⟨rfl, h0⟩ | ⟨hd, -⟩ | ⟨h0, -⟩
      · have := hv _ (by simp) h0
        rw [this]
        exact key [] [] .nil
      · exact key _ _ (hd.2 (by decide))
      · exact absurd h0 (by decide)
  exact gen _ _ hnull h1

/-- C65: whatever its arguments, decoded or not, `join` leaves no dot segment, unless the path is the base's own. -/
theorem C65_join (b r : Parts SV) (strict : Bool) :
    (∀ g ∈ (join b r strict).path.segments, g.chars ≠ b! "." ∧ g.chars ≠ b! "..") ∨
    (r.path.segments = [] ∧ (join b r strict).path = b.path) := by
  unfold join
  simp only []
  split
  · exact Or.inl (C18_no_dots _)
  · split
    · exact Or.inl (C18_no_dots _)
    · split
      · rename_i h
        exact Or.inr ⟨by simpa [Path.empty] using h, rfl⟩
      · split
        · exact Or.inl (C18_no_dots _)
        · exact Or.inl (C18_no_dots _)

/-- C65: in a reference joined and then decoded, dot segments are there iff they were written with triplets. -/
theorem C65_join_decode (hp : Heap) (store : Store) (b ref : Parts SV) (strict : Bool) (hne : ref.path.segments ≠ [])
    (hn : (join b ref strict).path.segments.length + 6 ≤ 2 ^ 32)
    (hh : ∀ a, (join b ref strict).authority = some a → a.host.chars.length + 2 < 2 ^ 64)
    (hnull : ∀ v ∈ (join b ref strict).path.segments, v.ptr = 0 → v.chars = [])
    (r : Parts SV) (st' : Store) (h : decode hp store (join b ref strict) = .ok (.ok r, st')) :
    (∃ g ∈ r.path.segments, g.chars = b! "." ∨ g.chars = b! "..") ↔
    ∃ g ∈ (join b ref strict).path.segments, g.chars ∈ [b! "%2E", b! "%2e", b! ".%2E", b! ".%2e", b! "%2E.", b! "%2e.",
      b! "%2E%2E", b! "%2E%2e", b! "%2e%2E", b! "%2e%2e"] := by
  have e := C65_decode hp store _ hn hh hnull r st' h
  have nd := (C65_join b ref strict).resolve_right fun k => hne k.1
  constructor
  · rintro ⟨g, hg, hd⟩
    obtain ⟨v, hv, k1, k2, -⟩ := Codec.each_right e g hg
    obtain ⟨n1, n2⟩ := nd v hv
    refine ⟨v, hv, ?_⟩
    rcases hd with hd | hd
    · rcases k1.1 hd with h | h | h
      · exact absurd h n1
      · rw [h]; decide
      · rw [h]; decide
    · obtain ⟨x, y, hx, hy, hxy⟩ := k2.1 hd
      rcases hx with rfl | rfl | rfl <;> rcases hy with rfl | rfl | rfl
      · exact absurd hxy n2
      all_goals (rw [hxy]; decide)
  · rintro ⟨v, hv, hd⟩
    obtain ⟨g, hg, k1, k2, -⟩ := Codec.each_left e v hv
    refine ⟨g, hg, ?_⟩
    rw [k1, k2]
    simp only [List.mem_cons, List.not_mem_nil, or_false] at hd
    rcases hd with hd | hd | hd | hd | hd | hd | hd | hd | hd | hd
    · exact Or.inl (Or.inr (Or.inl hd))
    · exact Or.inl (Or.inr (Or.inr hd))
    · exact Or.inr ⟨b! ".", b! "%2E", by decide, by decide, hd⟩
    · exact Or.inr ⟨b! ".", b! "%2e", by decide, by decide, hd⟩
    · exact Or.inr ⟨b! "%2E", b! ".", by decide, by decide, hd⟩
    · exact Or.inr ⟨b! "%2e", b! ".", by decide, by decide, hd⟩
    · exact Or.inr ⟨b! "%2E", b! "%2E", by decide, by decide, hd⟩
    · exact Or.inr ⟨b! "%2E", b! "%2e", by decide, by decide, hd⟩
    · exact Or.inr ⟨b! "%2e", b! "%2E", by decide, by decide, hd⟩
    · exact Or.inr ⟨b! "%2e", b! "%2e", by decide, by decide, hd⟩

/-- C65: the order matters.  Resolving `%2e%2e/c` against `s:/a/b/x` and then decoding gives the path `/a/b/../c`; decoding
first and then resolving gives `/a/c`. -/
theorem C65_order (pl : Plat) : ∃ b r, split pl ⟨1, b! "s:/a/b/x"⟩ = .ok (some b) ∧ splitReference pl ⟨100, b! "%2e%2e/c"⟩ = .ok (some r) ∧
    (∃ d st, decode heap0 store0 (join b r true) = .ok (.ok d, st) ∧ compose d = b! "s:/a/b/../c") ∧
    (∃ b' st r' st', decode heap0 store0 b = .ok (.ok b', st) ∧ decode heap0 store0 r = .ok (.ok r', st') ∧
      compose (join b' r' true) = b! "s:/a/c") := by
  have hb : split pl ⟨1, b! "s:/a/b/x"⟩ = .ok (some ⟨some ⟨1, b! "s"⟩, none, ⟨true, [⟨4, b! "a"⟩, ⟨6, b! "b"⟩, ⟨8, b! "x"⟩]⟩, none, none⟩) := by
    obtain ⟨b⟩ := pl; cases b <;> decide +kernel
  have hr : splitReference pl ⟨100, b! "%2e%2e/c"⟩ = .ok (some ⟨none, none, ⟨false, [⟨100, b! "%2e%2e"⟩, ⟨107, b! "c"⟩]⟩, none, none⟩) := by
    obtain ⟨b⟩ := pl; cases b <;> decide +kernel
  refine ⟨_, _, hb, hr, ⟨_, _, rfl, by decide +kernel⟩, ⟨_, _, _, _, rfl, rfl, by decide +kernel⟩⟩

/-- A witness for the hypotheses of `C65_join_decode`. -/
example : ∃ d st, decode heap0 store0 (join ⟨some ⟨1, b! "s"⟩, none, ⟨true, [⟨4, b! "a"⟩, ⟨6, b! "b"⟩]⟩, none, none⟩
    ⟨none, none, ⟨false, [⟨100, b! ".%2E"⟩, ⟨107, b! "c%2fd"⟩]⟩, none, none⟩ true) = .ok (.ok d, st) ∧
    d.path.segments.map SV.chars = [b! "a", b! "..", b! "c/d"] := ⟨_, _, rfl, by decide +kernel⟩
end Verif
