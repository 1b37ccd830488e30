import Verif.Proofs.SoundHost

/-!
# Completeness of the rules below `authority`
-/

namespace Verif
open Peg

set_option linter.unusedSimpArgs false

theorem seq_some {p q : PG.P} {s u a v u' a' v'} (hp : p s = some (u, a, v)) (hq : q v = some (u', a', v')) :
    seq p q s = some (u ++ u', a ++ a', v') := by simp [Peg.seq, hp, hq]
theorem seq_none_l {p q : PG.P} {s} (hp : p s = none) : seq p q s = none := by simp [Peg.seq, hp]
theorem seq_none_r {p q : PG.P} {s u a v} (hp : p s = some (u, a, v)) (hq : q v = none) :
    seq p q s = none := by simp [Peg.seq, hp, hq]
theorem opt_some {p : PG.P} {s r} (hp : p s = some r) : opt p s = some r := by simp [Peg.opt, hp]
theorem opt_none {p : PG.P} {s} (hp : p s = none) : opt p s = some ([], [], s) := by simp [Peg.opt, hp]
theorem act_some {p : PG.P} {s u a v} (x : Act) (hp : p s = some (u, a, v)) :
    act p x s = some (u, a ++ [(x, u)], v) := by simp [Peg.act, hp]
theorem act_none {p : PG.P} {s} (x : Act) (hp : p s = none) : act p x s = none := by simp [Peg.act, hp]
theorem alt_hd {p : PG.P} {ps s r} (hp : p s = some r) : alt (p :: ps) s = some r := by simp [Peg.alt, hp]
theorem alt_tl {p : PG.P} {ps s} (hp : p s = none) : alt (p :: ps) s = alt ps s := by simp [Peg.alt, hp]
theorem ch_some (c : UInt8) (s : Str) : PG.ch c (c :: s) = some ([c], [], s) := by simp [PG.ch, chr]
theorem ch_none {c : UInt8} {s : Str} (h : s.head? ≠ some c) : PG.ch c s = none := by
  cases s with
  | nil => rfl
  | cons d s => simp at h; simp [PG.ch, chr, h]

/-- The text does not begin with a character of the class. -/
def NotHead (f : UInt8 → Bool) (v : Str) : Prop := ∀ c, v.head? = some c → f c = false

theorem notHead_cons {f : UInt8 → Bool} {c : UInt8} {s : Str} : NotHead f (c :: s) ↔ f c = false := by
  simp [NotHead]

theorem chr_none {f : UInt8 → Bool} {v : Str} (h : NotHead f v) : (chr f : PG.P) v = none := by
  cases v with
  | nil => rfl
  | cons c s => simp [chr, h c (by simp)]

theorem chr_some {f : UInt8 → Bool} {c : UInt8} (s : Str) (h : f c = true) :
    (chr f : PG.P) (c :: s) = some ([c], [], s) := by simp [chr, h]

theorem ch_eq_of_notHead {f : UInt8 → Bool} {c : UInt8} {v : Str} (h : NotHead f v) (hc : f c = true) :
    PG.ch c v = none := by
  apply ch_none
  intro e
  rw [h c e] at hc
  simp at hc

/-! ### Dotted quads -/

theorem digit_range {a b : UInt8} {v : Str} (h : NotHead isDigitB v) (ha : 0x30 ≤ a.toNat) (hb : b.toNat ≤ 0x39) :
    PG.range a b v = none := by
  apply chr_none
  intro c hc
  have := h c hc
  simp [isDigitB] at this ⊢
  intro h1
  omega

theorem decOctet_complete {u v : Str} (hu : Abnf.decOctet u) (hv : NotHead isDigitB v) :
    PG.decOctet (u ++ v) = some (u, [], v) := by
  have c5 : PG.ch 0x35 v = none := ch_eq_of_notHead hv (by decide)
  have r1 : PG.range 0x30 0x34 v = none := digit_range hv (by decide) (by decide)
  have r2 : PG.range 0x30 0x35 v = none := digit_range hv (by decide) (by decide)
  have dg : PG.digit v = none := chr_none hv
  rcases hu with h | h | h | h | h
  · -- one digit
    obtain ⟨d, rfl, hd⟩ := (DIGIT_cls u).1 h
    have e25 : PG.octet25 ([d] ++ v) = none := by
      by_cases h2 : d = 0x32
      · subst h2; exact seq_none_l (seq_none_r (ch_some _ _) c5)
      · exact seq_none_l (seq_none_l (ch_none (by simpa using h2)))
    have e2 : PG.octet2 ([d] ++ v) = none := by
      by_cases h2 : d = 0x32
      · subst h2; exact seq_none_l (seq_none_r (ch_some _ _) r1)
      · exact seq_none_l (seq_none_l (ch_none (by simpa using h2)))
    have e1 : PG.octet1 ([d] ++ v) = none := by
      by_cases h2 : d = 0x31
      · subst h2; exact seq_none_l (seq_none_r (ch_some _ _) dg)
      · exact seq_none_l (seq_none_l (ch_none (by simpa using h2)))
    have ex : PG.octetXX ([d] ++ v) = none := by
      simp only [PG.octetXX, Peg.seq]
      cases hr : PG.range 0x31 0x39 ([d] ++ v) with
      | none => rfl
      | some y =>
        simp only [PG.range, chr, List.cons_append, List.nil_append] at hr
        split at hr
        · simp at hr; subst hr; simp [dg]
        · simp at hr
    simp only [PG.decOctet]
    rw [alt_tl e25, alt_tl e2, alt_tl e1, alt_tl ex]
    exact alt_hd (chr_some _ hd)
  · -- two digits
    obtain ⟨_, _, rfl, hx0, hd0⟩ := h
    obtain ⟨x, rfl, hx⟩ := (range_cls _ _ _).1 hx0
    obtain ⟨d, rfl, hd⟩ := (DIGIT_cls _).1 hd0
    have e25 : PG.octet25 ([x] ++ [d] ++ v) = none := by
      by_cases h2 : x = 0x32
      · subst h2
        by_cases h5 : d = 0x35
        · subst h5; exact seq_none_r (seq_some (ch_some _ _) (ch_some _ _)) r2
        · exact seq_none_l (seq_none_r (ch_some _ _) (ch_none (by simpa using h5)))
      · exact seq_none_l (seq_none_l (ch_none (by simpa using h2)))
    have e2 : PG.octet2 ([x] ++ [d] ++ v) = none := by
      by_cases h2 : x = 0x32
      · subst h2
        simp only [PG.octet2]
        by_cases h5 : PG.range 0x30 0x34 ([d] ++ v) = none
        · exact seq_none_l (seq_none_r (ch_some _ _) h5)
        · have : PG.range 0x30 0x34 ([d] ++ v) = some ([d], [], v) := by
            simp only [PG.range, chr, List.cons_append, List.nil_append] at h5 ⊢
            split at h5
            · rename_i hh; simpa using hh
            · simp at h5
          exact seq_none_r (seq_some (ch_some _ _) this) dg
      · exact seq_none_l (seq_none_l (ch_none (by simpa using h2)))
    have e1 : PG.octet1 ([x] ++ [d] ++ v) = none := by
      by_cases h2 : x = 0x31
      · subst h2; exact seq_none_r (seq_some (ch_some _ _) (chr_some _ hd)) dg
      · exact seq_none_l (seq_none_l (ch_none (by simpa using h2)))
    have ex : PG.octetXX ([x] ++ [d] ++ v) = some ([x] ++ [d], [], v) :=
      seq_some (chr_some _ hx) (chr_some _ hd)
    simp only [PG.decOctet]
    rw [alt_tl e25, alt_tl e2, alt_tl e1]
    exact alt_hd ex
  · -- 1dd
    obtain ⟨_, _, rfl, rfl, es, rfl, he, h1, h2⟩ := h
    have h2 := h2 2 rfl
    match es, h1, h2, he with
    | [a, b], _, _, he =>
      obtain ⟨a, rfl, ha⟩ := (DIGIT_cls _).1 (he a (by simp))
      obtain ⟨b, rfl, hb⟩ := (DIGIT_cls _).1 (he b (by simp))
      have e0 : b! "1" ++ [[a], [b]].flatten = [0x31, a, b] := rfl
      rw [e0]
      have e25 : PG.octet25 ([0x31, a, b] ++ v) = none := seq_none_l (seq_none_l (ch_none (by simp)))
      have e2 : PG.octet2 ([0x31, a, b] ++ v) = none := seq_none_l (seq_none_l (ch_none (by simp)))
      simp only [PG.decOctet]
      rw [alt_tl e25, alt_tl e2]
      exact alt_hd (seq_some (seq_some (ch_some _ _) (chr_some _ ha)) (chr_some _ hb))
  · -- 2[0-4]d
    obtain ⟨_, _, rfl, rfl, _, _, rfl, hx0, hd0⟩ := h
    obtain ⟨x, rfl, hx⟩ := (range_cls _ _ _).1 hx0
    obtain ⟨d, rfl, hd⟩ := (DIGIT_cls _).1 hd0
    have hx5 : x ≠ 0x35 := by rintro rfl; revert hx; decide
    have e25 : PG.octet25 ([0x32] ++ ([x] ++ [d]) ++ v) = none :=
      seq_none_l (seq_none_r (ch_some _ _) (ch_none (by simpa using hx5)))
    simp only [PG.decOctet]
    rw [alt_tl e25]
    exact alt_hd (seq_some (seq_some (ch_some _ _) (chr_some _ hx)) (chr_some _ hd))
  · -- 25[0-5]
    obtain ⟨_, _, rfl, rfl, hx0⟩ := h
    obtain ⟨x, rfl, hx⟩ := (range_cls _ _ _).1 hx0
    exact alt_hd (seq_some (seq_some (ch_some _ _) (ch_some _ _)) (chr_some _ hx))

theorem dot_notDigit (s : Str) : NotHead isDigitB (0x2E :: s) := notHead_cons.2 (by decide)

theorem ipv4_complete {u v : Str} (hu : Abnf.IPv4address u) (hv : NotHead isDigitB v) :
    PG.ipv4address (u ++ v) = some (u, [], v) := by
  obtain ⟨a, _, rfl, ha, _, _, rfl, rfl, b, _, rfl, hb, _, _, rfl, rfl, c, _, rfl, hc, _, d, rfl, rfl, hd⟩ := hu
  have := seq_some (seq_some (seq_some (seq_some (seq_some (seq_some
    (decOctet_complete ha (dot_notDigit (b ++ (0x2E :: (c ++ (0x2E :: (d ++ v)))))))
    (ch_some 0x2E (b ++ (0x2E :: (c ++ (0x2E :: (d ++ v)))))))
    (decOctet_complete hb (dot_notDigit (c ++ (0x2E :: (d ++ v))))))
    (ch_some 0x2E (c ++ (0x2E :: (d ++ v)))))
    (decOctet_complete hc (dot_notDigit (d ++ v)))) (ch_some 0x2E (d ++ v))) (decOctet_complete hd hv)
  simpa [PG.ipv4address, List.append_assoc] using this

/-! ### h16 groups -/

theorem h16_chars {u : Str} (h : Abnf.h16 u) : (∀ c ∈ u, isXDigitB c = true) ∧ 1 ≤ u.length ∧ u.length ≤ 4 := by
  obtain ⟨es, rfl, he, h1, h2⟩ := h
  have h2 := h2 4 rfl
  have : ∀ es : List Str, (∀ e ∈ es, Abnf.HEXDIG e) →
      (∀ c ∈ es.flatten, isXDigitB c = true) ∧ es.flatten.length = es.length := by
    intro es
    induction es with
    | nil => simp
    | cons e es ih =>
      intro he
      obtain ⟨c, rfl, hc⟩ := (HEXDIG_cls e).1 (he e (by simp))
      obtain ⟨i1, i2⟩ := ih fun x hx => he x (by simp [hx])
      refine ⟨?_, ?_⟩
      · intro d hd
        simp only [List.flatten_cons, List.cons_append, List.nil_append, List.mem_cons] at hd
        rcases hd with rfl | hd
        · exact hc
        · exact i1 d hd
      · simp only [List.flatten_cons, List.length_append, i2, List.length_cons, List.length_nil]; omega
  obtain ⟨i1, i2⟩ := this es he
  exact ⟨i1, by omega, by omega⟩

theorem h16_complete {u v : Str} (hu : Abnf.h16 u) (hv : NotHead isXDigitB v ∨ u.length = 4) :
    PG.h16 (u ++ v) = some (u, [], v) := by
  obtain ⟨h1, h2, h3⟩ := h16_chars hu
  have := complete_star_list (complete_chr isXDigitB) 1 4
    (by rintro u a ⟨⟨c, rfl, _⟩, _⟩; simp) v (u.map fun c => ([c], []))
    (by
      intro e he
      obtain ⟨c, hc, rfl⟩ := List.mem_map.1 he
      exact ⟨⟨c, rfl, h1 c hc⟩, rfl⟩)
    (fun _ _ _ _ => trivial) (by simp; unfold uintMod; omega) (by simpa using h2) (by simpa using h3)
    (by
      rcases hv with hv | hv
      · exact Or.inl (chr_none hv)
      · right; simp [hv]; decide)
  have e1 : ((u.map fun c => (([c], []) : Str × List (Act × Str))).map Prod.fst).flatten = u := by
    rw [List.map_map]
    clear this h1 h2 h3 hu hv
    induction u with
    | nil => rfl
    | cons c u ih => simp only [List.map_cons, List.flatten_cons, Function.comp] at ih ⊢; rw [ih]; rfl
  have e2 : ((u.map fun c => (([c], []) : Str × List (Act × Str))).map Prod.snd).flatten = [] := by
    rw [List.flatten_eq_nil_iff]; simp
  rw [e1, e2] at this
  exact this

theorem h16_none {v : Str} (hv : NotHead isXDigitB v) : PG.h16 v = none := by
  have : PG.hexdig v = none := chr_none hv
  simp only [PG.h16, Peg.star, starLoop, this]
  simp

theorem singleColon_some {v : Str} (hv : v.head? ≠ some 0x3A) :
    PG.singleColon (0x3A :: v) = some ([0x3A], [], v) := by
  have : (notAhead (· == 0x3A) : PG.P) v = some ([], [], v) := by
    cases v with
    | nil => rfl
    | cons c v => simp at hv; simp [notAhead, hv]
  have := seq_some (ch_some 0x3A v) this
  exact this

theorem singleColon_none {v : Str} (hv : v.head? ≠ some 0x3A ∨ v.tail.head? = some 0x3A) :
    PG.singleColon v = none := by
  cases v with
  | nil => rfl
  | cons c v =>
    by_cases hc : c = 0x3A
    · subst hc
      rcases hv with hv | hv
      · simp at hv
      · cases v with
        | nil => simp at hv
        | cons d v => simp at hv; subst hv; exact seq_none_r (ch_some _ _) (by simp [notAhead])
    · exact seq_none_l (ch_none (by simpa using hc))

theorem colon_notHex (s : Str) : NotHead isXDigitB (0x3A :: s) := notHead_cons.2 (by decide)

theorem h16Colon_some {g v : Str} (hg : Abnf.h16 g) (hv : v.head? ≠ some 0x3A) :
    PG.h16Colon (g ++ 0x3A :: v) = some (g ++ b! ":", [], v) :=
  seq_some (h16_complete hg (Or.inl (colon_notHex v))) (singleColon_some hv)

/-- A group followed by neither a hexadecimal digit nor a single colon. -/
theorem h16Colon_none {g v : Str} (hg : Abnf.h16 g) (hv : NotHead isXDigitB v)
    (hc : v.head? ≠ some 0x3A ∨ v.tail.head? = some 0x3A) : PG.h16Colon (g ++ v) = none :=
  seq_none_r (h16_complete hg (Or.inl hv)) (singleColon_none hc)

theorem h16Colon_none' {v : Str} (hv : NotHead isXDigitB v) : PG.h16Colon v = none := seq_none_l (h16_none hv)

/-- Groups each followed by a colon. -/
def colons (gs : List Str) : Str := (gs.map (· ++ b! ":")).flatten

theorem colons_cons (g : Str) (gs : List Str) : colons (g :: gs) = g ++ 0x3A :: colons gs := by
  simp [colons]

theorem h16_head {g : Str} (hg : Abnf.h16 g) : ∃ c t, g = c :: t ∧ isXDigitB c = true := by
  obtain ⟨h1, h2, h3⟩ := h16_chars hg
  cases g with
  | nil => simp at h2
  | cons c t => exact ⟨c, t, rfl, h1 c (by simp)⟩

theorem h16_not_colon {g w : Str} (hg : Abnf.h16 g) : (g ++ w).head? ≠ some 0x3A := by
  obtain ⟨c, t, rfl, hc⟩ := h16_head hg
  simp
  rintro rfl
  simp [isXDigitB, isDigitB] at hc

/-- Where the loop over `h16 ":"` ends, with the count it reaches. -/
theorem starLoop_colons (max : Nat) (hmax : max < uintMax) (w : Str) (hw : w.head? ≠ some 0x3A) :
    ∀ (gs : List Str), (∀ g ∈ gs, Abnf.h16 g) → ∀ fuel count, gs.length < fuel → count + gs.length ≤ max →
      (PG.h16Colon w = none ∨ count + gs.length = max) →
      ∃ c, starLoop PG.h16Colon max fuel count (colons gs ++ w) = (c, colons gs, [], w) ∧
        (PG.h16Colon w = none → c = count + gs.length) ∧ count + gs.length ≤ c := by
  intro gs
  induction gs with
  | nil =>
    intro _ fuel count h1 h2 h3
    cases fuel with
    | zero => omega
    | succ fuel =>
      simp only [colons, List.map_nil, List.flatten_nil, List.nil_append, starLoop]
      cases hp : PG.h16Colon w with
      | none => exact ⟨count, rfl, by simp, by simp⟩
      | some y =>
        rcases h3 with h3 | h3
        · rw [h3] at hp; simp at hp
        · simp only [List.length_nil, Nat.add_zero] at h3 ⊢
          have hlt : count + 1 < uintMod := by unfold uintMax uintMod at *; omega
          simp only [Nat.mod_eq_of_lt hlt]
          have : count + 1 > max := by omega
          simp [this]
  | cons g gs ih =>
    intro hg fuel count h1 h2 h3
    cases fuel with
    | zero => omega
    | succ fuel =>
      simp only [List.length_cons] at h1 h2 h3
      have hgg := hg g (by simp)
      have hnext : (colons gs ++ w).head? ≠ some 0x3A := by
        cases gs with
        | nil => simpa [colons] using hw
        | cons g' gs => rw [colons_cons, List.append_assoc]; exact h16_not_colon (hg g' (by simp))
      simp only [colons_cons, List.append_assoc, starLoop]
      have e := h16Colon_some hgg hnext
      simp only [List.cons_append] at e ⊢
      rw [e]
      have hlt : count + 1 < uintMod := by unfold uintMax uintMod at *; omega
      simp only [Nat.mod_eq_of_lt hlt]
      have hle : ¬ count + 1 > max := by omega
      simp only [hle, if_false]
      obtain ⟨c, e1, e2, e3⟩ := ih (fun x hx => hg x (by simp [hx])) fuel (count + 1) (by omega) (by omega)
        (by rcases h3 with h3 | h3
            · exact Or.inl h3
            · right; omega)
      rw [e1]
      refine ⟨c, by simp, fun h => by rw [e2 h]; simp; omega, by simp; omega⟩

theorem colons_len (gs : List Str) : gs.length ≤ (colons gs).length := by
  induction gs with
  | nil => simp
  | cons g gs ih => rw [colons_cons]; simp; omega

theorem star_colons_some {lo hi : Nat} (hhi : hi < uintMax) {gs : List Str} {w : Str} (hg : ∀ g ∈ gs, Abnf.h16 g)
    (hw : w.head? ≠ some 0x3A) (h1 : lo ≤ gs.length) (h2 : gs.length ≤ hi)
    (h3 : PG.h16Colon w = none ∨ gs.length = hi) :
    star PG.h16Colon lo hi (colons gs ++ w) = some (colons gs, [], w) := by
  obtain ⟨c, e1, -, e3⟩ := starLoop_colons hi hhi w hw gs hg ((colons gs ++ w).length + 1) 0
    (by have := colons_len gs; simp; omega) (by omega) (by simpa using h3)
  simp only [Peg.star, e1]
  rw [if_neg (by omega)]

theorem star_colons_none {lo hi : Nat} (hhi : hi < uintMax) {gs : List Str} {w : Str} (hg : ∀ g ∈ gs, Abnf.h16 g)
    (hw : w.head? ≠ some 0x3A) (h1 : gs.length < lo) (h2 : gs.length ≤ hi) (h3 : PG.h16Colon w = none) :
    star PG.h16Colon lo hi (colons gs ++ w) = none := by
  obtain ⟨c, e1, e2, -⟩ := starLoop_colons hi hhi w hw gs hg ((colons gs ++ w).length + 1) 0
    (by have := colons_len gs; simp; omega) (by omega) (Or.inl h3)
  simp only [Peg.star, e1]
  rw [if_pos (by have := e2 h3; omega)]

/-- The star with `w` starting with a double colon and no groups. -/
theorem star_cc_nil {lo hi : Nat} {w : Str} (h3 : PG.h16Colon w = none) :
    star PG.h16Colon lo hi w = if 0 < lo then none else some ([], [], w) := by
  simp only [Peg.star, starLoop, h3]

/-! ### The part before `::` -/

/-- Groups separated by single colons. -/
def groups : List Str → Str
  | [] => []
  | [g] => g
  | g :: g' :: gs => g ++ 0x3A :: groups (g' :: gs)

theorem groups_snoc (gs : List Str) (g : Str) : groups (gs ++ [g]) = colons gs ++ g := by
  induction gs with
  | nil => simp [groups, colons]
  | cons x gs ih =>
    cases gs with
    | nil => simp [groups, colons]
    | cons y gs => simp only [List.cons_append, groups, colons_cons, List.append_assoc] at ih ⊢; rw [ih]

theorem snoc_cases (l : List Str) : l = [] ∨ ∃ gs g, l = gs ++ [g] := by
  rcases List.eq_nil_or_concat l with h | ⟨gs, g, h⟩
  · exact Or.inl h
  · exact Or.inr ⟨gs, g, by simpa using h⟩

/-- `[ *n( h16 ":" ) h16 ] "::"`. -/
def front (n : Nat) : PG.P := seq (opt (PG.h16Prefix n)) PG.colonColon

theorem colonColon_some (x : Str) : PG.colonColon (b! "::" ++ x) = some (b! "::", [], x) :=
  seq_some (ch_some 0x3A _) (ch_some 0x3A _)

theorem h16_notHex_append {g w : Str} (hg : Abnf.h16 g) : ¬ NotHead isXDigitB (g ++ w) := by
  obtain ⟨c, t, rfl, hc⟩ := h16_head hg
  intro h
  have := h c (by simp)
  simp [hc] at this

theorem colonColon_none_h16 {g w : Str} (hg : Abnf.h16 g) : PG.colonColon (g ++ w) = none :=
  seq_none_l (ch_none (h16_not_colon hg))

theorem front_eval (n : Nat) (hn : n < uintMax) (ls : List Str) (hl : ∀ g ∈ ls, Abnf.h16 g) (x : Str) :
    front n (groups ls ++ (b! "::" ++ x)) =
      if ls.length ≤ n + 1 then some (groups ls ++ b! "::", [], x) else none := by
  have ccn : NotHead isXDigitB (b! "::" ++ x) := colon_notHex _
  rcases snoc_cases ls with rfl | ⟨gs, g, rfl⟩
  · have e1 : PG.h16Prefix n (b! "::" ++ x) = none := by
      refine seq_none_r (u := []) (a := []) (v := b! "::" ++ x) ?_ (h16_none ccn)
      rw [star_cc_nil (h16Colon_none' ccn)]; simp
    have := seq_some (opt_none e1) (colonColon_some x)
    simpa [front, groups] using this
  · have hg : Abnf.h16 g := hl g (by simp)
    have hgs : ∀ x ∈ gs, Abnf.h16 x := fun x hx => hl x (by simp [hx])
    rw [groups_snoc]
    have hfail : PG.h16Colon (g ++ (b! "::" ++ x)) = none := h16Colon_none hg ccn (by simp)
    by_cases hlen : gs.length ≤ n
    · have e1 : PG.h16Prefix n (colons gs ++ (g ++ (b! "::" ++ x))) = some (colons gs ++ g, [], b! "::" ++ x) :=
        seq_some (star_colons_some hn hgs (h16_not_colon hg) (Nat.zero_le _) hlen (Or.inl hfail))
          (h16_complete hg (Or.inl ccn))
      have := seq_some (opt_some e1) (colonColon_some x)
      rw [List.append_assoc]
      simp only [front, this]
      simp [hlen]
    · have hsplit : gs = gs.take n ++ (gs[n]'(by omega)) :: gs.drop (n + 1) := by
        rw [List.getElem_cons_drop, List.take_append_drop]
      generalize hA : gs.take n = A at hsplit
      generalize hB : gs[n]'(by omega) = B at hsplit
      generalize gs.drop (n + 1) = C at hsplit
      have hAl : A.length = n := by rw [← hA]; simp; omega
      have hAg : ∀ x ∈ A, Abnf.h16 x := fun x hx => hgs x (by rw [hsplit]; simp [hx])
      have hBg : Abnf.h16 B := hgs B (by rw [hsplit]; simp)
      have hCg : ∀ x ∈ C, Abnf.h16 x := fun x hx => hgs x (by rw [hsplit]; simp [hx])
      let R : Str := colons C ++ (g ++ (b! "::" ++ x))
      have hR : R.head? ≠ some 0x3A := by
        cases C with
        | nil => exact h16_not_colon (w := b! "::" ++ x) hg
        | cons c C =>
          show (colons (c :: C) ++ _).head? ≠ _
          rw [colons_cons, List.append_assoc]; exact h16_not_colon (hCg c (by simp))
      have etxt : colons gs ++ g ++ (b! "::" ++ x) = colons A ++ (B ++ 0x3A :: R) := by
        rw [hsplit]; simp [colons, R]
      have e1 : PG.h16Prefix n (colons A ++ (B ++ 0x3A :: R)) = some (colons A ++ B, [], 0x3A :: R) :=
        seq_some (star_colons_some hn hAg (h16_not_colon hBg) (Nat.zero_le _) (by omega) (Or.inr hAl))
          (h16_complete hBg (Or.inl (colon_notHex _)))
      have e2 : PG.colonColon (0x3A :: R) = none := seq_none_r (ch_some _ _) (ch_none hR)
      rw [etxt]
      simp only [front, seq_none_r (opt_some e1) e2]
      have : ¬ (gs ++ [g]).length ≤ n + 1 := by simp; omega
      rw [if_neg this]

/-- `[ h16 ] "::"` behaves as `front 0`. -/
theorem front0_eval (ls : List Str) (hl : ∀ g ∈ ls, Abnf.h16 g) (x : Str) :
    seq (opt PG.h16) PG.colonColon (groups ls ++ (b! "::" ++ x)) =
      if ls.length ≤ 1 then some (groups ls ++ b! "::", [], x) else none := by
  have ccn : NotHead isXDigitB (b! "::" ++ x) := colon_notHex _
  match ls, hl with
  | [], _ =>
    have := seq_some (opt_none (h16_none ccn)) (colonColon_some x)
    simpa [groups] using this
  | [g], hl =>
    have := seq_some (opt_some (h16_complete (hl g (by simp)) (Or.inl ccn))) (colonColon_some x)
    simpa [groups] using this
  | g :: g' :: gs, hl =>
    have e1 := h16_complete (hl g (by simp)) (Or.inl (colon_notHex (groups (g' :: gs) ++ (b! "::" ++ x))))
    have hR : (groups (g' :: gs) ++ (b! "::" ++ x)).head? ≠ some 0x3A := by
      cases gs with
      | nil => exact h16_not_colon (hl g' (by simp))
      | cons y gs => simp only [groups, List.append_assoc]; exact h16_not_colon (hl g' (by simp))
    have := seq_none_r (opt_some e1) (seq_none_r (ch_some 0x3A _) (ch_none hR))
    simp only [groups, List.append_assoc, List.cons_append] at this ⊢
    rw [if_neg (by simp)]
    exact this

/-- `"::"` with groups before it. -/
theorem cc_eval (ls : List Str) (hl : ∀ g ∈ ls, Abnf.h16 g) (x : Str) :
    PG.colonColon (groups ls ++ (b! "::" ++ x)) =
      if ls.length ≤ 0 then some (groups ls ++ b! "::", [], x) else none := by
  match ls, hl with
  | [], _ => simpa [groups] using colonColon_some x
  | [g], hl => simp only [groups, colonColon_none_h16 (hl g (by simp))]; simp
  | g :: g' :: gs, hl =>
    simp only [groups, List.append_assoc, colonColon_none_h16 (hl g (by simp))]; simp

/-! ### The part after `::` -/

/-- What follows the address: a character that cannot extend it. -/
def V6Follow (v : Str) : Prop := ∃ r, v = 0x5D :: r

theorem V6Follow.notHex {v} (h : V6Follow v) : NotHead isXDigitB v := by
  obtain ⟨r, rfl⟩ := h; exact notHead_cons.2 (by decide)
theorem V6Follow.notDigit {v} (h : V6Follow v) : NotHead isDigitB v := by
  obtain ⟨r, rfl⟩ := h; exact notHead_cons.2 (by decide)
theorem V6Follow.notColon {v} (h : V6Follow v) : v.head? ≠ some 0x3A := by
  obtain ⟨r, rfl⟩ := h; simp
theorem V6Follow.notDot {v} (h : V6Follow v) : v.head? ≠ some 0x2E := by
  obtain ⟨r, rfl⟩ := h; simp

theorem decOctet_h16 {u : Str} (h : Abnf.decOctet u) : Abnf.h16 u := by
  have key : ∀ l : Str, (∀ c ∈ l, isDigitB c = true) → 1 ≤ l.length → l.length ≤ 4 → Abnf.h16 l := by
    intro l h1 h2 h3
    refine ⟨l.map fun c => [c], ?_, ?_, by simpa using h2, by simpa using h3⟩
    · clear h1 h2 h3
      induction l with
      | nil => rfl
      | cons c l ih => simp only [List.map_cons, List.flatten_cons]; rw [← ih]; rfl
    · intro e he
      obtain ⟨c, hc, rfl⟩ := List.mem_map.1 he
      exact Or.inl ((DIGIT_cls _).2 ⟨c, rfl, h1 c hc⟩)
  have rd : ∀ {a b : Nat} {u : Str}, 0x30 ≤ a → b ≤ 0x39 → Abnf.range a b u → ∃ c, u = [c] ∧ isDigitB c = true := by
    rintro a b u ha hb ⟨c, rfl, h1, h2⟩
    exact ⟨c, rfl, by simp [isDigitB]; omega⟩
  rcases h with h | ⟨_, _, rfl, h, h'⟩ | ⟨_, _, rfl, rfl, es, rfl, he, h1, h2⟩ | ⟨_, _, rfl, rfl, _, _, rfl, h, h'⟩ |
      ⟨_, _, rfl, rfl, h⟩
  · obtain ⟨c, rfl, hc⟩ := rd (by decide) (by decide) h
    exact key _ (by simpa using hc) (by simp) (by simp)
  · obtain ⟨c, rfl, hc⟩ := rd (by decide) (by decide) h
    obtain ⟨d, rfl, hd⟩ := rd (by decide) (by decide) h'
    exact key _ (by simp [hc, hd]) (by simp) (by simp)
  · have h2 := h2 2 rfl
    match es, h1, h2, he with
    | [a, b], _, _, he =>
      obtain ⟨c, rfl, hc⟩ := rd (by decide) (by decide) (he a (by simp))
      obtain ⟨d, rfl, hd⟩ := rd (by decide) (by decide) (he b (by simp))
      exact key _ (by simp [hc, hd]; decide) (by simp) (by simp)
  · obtain ⟨c, rfl, hc⟩ := rd (by decide) (by decide) h
    obtain ⟨d, rfl, hd⟩ := rd (by decide) (by decide) h'
    exact key _ (by simp [hc, hd]; decide) (by simp) (by simp)
  · obtain ⟨c, rfl, hc⟩ := rd (by decide) (by decide) h
    exact key _ (by simp [hc]; decide) (by simp) (by simp)

theorem ipv4_head {u : Str} (h : Abnf.IPv4address u) :
    ∃ a t, Abnf.decOctet a ∧ u = a ++ 0x2E :: t := by
  obtain ⟨a, _, rfl, ha, _, _, rfl, rfl, _⟩ := h
  exact ⟨a, _, ha, rfl⟩

theorem ipv4_none_of_h16 {g v : Str} (hg : Abnf.h16 g) (hv : NotHead isXDigitB v) (hd : v.head? ≠ some 0x2E) :
    PG.ipv4address (g ++ v) = none := by
  cases h : PG.ipv4address (g ++ v) with
  | none => rfl
  | some y =>
    exfalso
    obtain ⟨u, a, r⟩ := y
    obtain ⟨e, hu, -⟩ := sound_ipv4address _ _ _ _ h
    obtain ⟨o, t, ho, rfl⟩ := ipv4_head hu
    -- `o` and `g` are maximal runs of hexadecimal digits at the start of the same text
    have h1 := h16_complete (decOctet_h16 ho) (Or.inl (notHead_cons.2 (by decide : isXDigitB 0x2E = false)) : _ ∨ _) (v := 0x2E :: (t ++ r))
    have h2 := h16_complete hg (Or.inl hv)
    rw [e] at h2
    simp only [List.append_assoc, List.cons_append] at h2
    rw [h1] at h2
    simp only [Option.some.injEq, Prod.mk.injEq] at h2
    obtain ⟨-, -, h2⟩ := h2
    rw [← h2] at hd
    simp at hd

theorem ls32_v4 {u v : Str} (hu : Abnf.IPv4address u) (hv : V6Follow v) : PG.ls32 (u ++ v) = some (u, [], v) := by
  obtain ⟨a, t, ha, e⟩ := ipv4_head hu
  have : PG.h16h16 (u ++ v) = none := by
    rw [e, List.append_assoc]
    exact seq_none_l (seq_none_r (h16_complete (decOctet_h16 ha) (Or.inl (notHead_cons.2 (by decide))))
      (ch_none (by simp)))
  simp only [PG.ls32]
  rw [alt_tl this]
  exact alt_hd (ipv4_complete hu hv.notDigit)

theorem ls32_h16 {g h v : Str} (hg : Abnf.h16 g) (hh : Abnf.h16 h) (hv : NotHead isXDigitB v) :
    PG.ls32 (g ++ 0x3A :: (h ++ v)) = some (g ++ 0x3A :: h, [], v) := by
  have := alt_hd (ps := [PG.ipv4address]) (seq_some (seq_some (h16_complete hg (Or.inl (colon_notHex (h ++ v)))) (ch_some 0x3A _))
    (h16_complete hh (Or.inl hv)))
  simpa [PG.ls32, PG.h16h16] using this

/-- One group alone is not an `ls32`. -/
theorem ls32_one {g v : Str} (hg : Abnf.h16 g) (hv : V6Follow v) : PG.ls32 (g ++ v) = none := by
  have h1 : PG.h16h16 (g ++ v) = none :=
    seq_none_l (seq_none_r (h16_complete hg (Or.inl hv.notHex)) (ch_none hv.notColon))
  simp only [PG.ls32]
  rw [alt_tl h1, alt_tl (ipv4_none_of_h16 hg hv.notHex hv.notDot)]
  rfl

/-- A group followed by `::` is not an `ls32`. -/
theorem ls32_cc {g x : Str} (hg : Abnf.h16 g) : PG.ls32 (g ++ (b! "::" ++ x)) = none := by
  have h1 : PG.h16h16 (g ++ (b! "::" ++ x)) = none :=
    seq_none_r (seq_some (h16_complete hg (Or.inl (colon_notHex _))) (ch_some 0x3A _))
      (h16_none (colon_notHex _))
  have h2 : PG.ipv4address (g ++ (b! "::" ++ x)) = none := ipv4_none_of_h16 hg (colon_notHex _) (by simp)
  simp only [PG.ls32]
  rw [alt_tl h1, alt_tl h2]
  rfl

theorem ls32_none {v : Str} (hv : NotHead isXDigitB v) : PG.ls32 v = none := by
  have hd : NotHead isDigitB v := by
    intro c hc
    have := hv c hc
    simp only [isXDigitB, Bool.or_eq_false_iff] at this
    exact this.1.1
  have h1 : PG.h16h16 v = none := seq_none_l (seq_none_l (h16_none hv))
  have h2 : PG.ipv4address v = none := by
    cases h : PG.ipv4address v with
    | none => rfl
    | some y =>
      obtain ⟨u, a, r⟩ := y
      obtain ⟨e, hu, -⟩ := sound_ipv4address _ _ _ _ h
      obtain ⟨o, t, ho, rfl⟩ := ipv4_head hu
      rw [e] at hv
      rw [List.append_assoc] at hv
      exact absurd hv (h16_notHex_append (decOctet_h16 ho))
  simp only [PG.ls32]
  rw [alt_tl h1, alt_tl h2]
  rfl

/-- The right-hand part: groups, possibly followed by a dotted quad. -/
inductive Right
  | hex (rs : List Str)
  | v4 (rs : List Str) (q : Str)

/-- Its text. -/
def Right.text : Right → Str
  | .hex rs => groups rs
  | .v4 rs q => colons rs ++ q

/-- Number of 16-bit pieces. -/
def Right.size : Right → Nat
  | .hex rs => rs.length
  | .v4 rs _ => rs.length + 2

/-- Its pieces are well formed. -/
def Right.Ok : Right → Prop
  | .hex rs => ∀ g ∈ rs, Abnf.h16 g
  | .v4 rs q => (∀ g ∈ rs, Abnf.h16 g) ∧ Abnf.IPv4address q

theorem h16Colon_v4 {q v : Str} (hq : Abnf.IPv4address q) : PG.h16Colon (q ++ v) = none := by
  obtain ⟨a, t, ha, rfl⟩ := ipv4_head hq
  rw [List.append_assoc]
  exact h16Colon_none (decOctet_h16 ha) (notHead_cons.2 (by decide)) (Or.inl (by simp))

theorem v4_not_colon {q v : Str} (hq : Abnf.IPv4address q) : (q ++ v).head? ≠ some 0x3A := by
  obtain ⟨a, t, ha, rfl⟩ := ipv4_head hq
  rw [List.append_assoc]
  exact h16_not_colon (decOctet_h16 ha)

/-- `m( h16 ":" ) ls32`. -/
theorem back_eval (m : Nat) (hm : m < uintMax) (R : Right) (hR : R.Ok) {v : Str} (hv : V6Follow v) :
    (R.size = m + 2 → seq (star PG.h16Colon m m) PG.ls32 (R.text ++ v) = some (R.text, [], v)) ∧
    (R.size < m + 2 → seq (star PG.h16Colon m m) PG.ls32 (R.text ++ v) = none) := by
  cases R with
  | v4 rs q =>
    obtain ⟨h1, h2⟩ := hR
    show (rs.length + 2 = m + 2 → seq (star PG.h16Colon m m) PG.ls32 (colons rs ++ q ++ v) = some (colons rs ++ q, [], v)) ∧
      (rs.length + 2 < m + 2 → seq (star PG.h16Colon m m) PG.ls32 (colons rs ++ q ++ v) = none)
    rw [List.append_assoc]
    refine ⟨fun h => ?_, fun h => ?_⟩
    · exact seq_some (star_colons_some hm h1 (v4_not_colon h2) (by omega) (by omega) (Or.inr (by omega))) (ls32_v4 h2 hv)
    · exact seq_none_l (star_colons_none hm h1 (v4_not_colon h2) (by omega) (by omega) (h16Colon_v4 h2))
  | hex rs =>
    change ∀ g ∈ rs, Abnf.h16 g at hR
    show (rs.length = m + 2 → seq (star PG.h16Colon m m) PG.ls32 (groups rs ++ v) = some (groups rs, [], v)) ∧
      (rs.length < m + 2 → seq (star PG.h16Colon m m) PG.ls32 (groups rs ++ v) = none)
    rcases snoc_cases rs with rfl | ⟨gs, g, rfl⟩
    · refine ⟨fun h => by simp at h, fun _ => ?_⟩
      show seq (star PG.h16Colon m m) PG.ls32 v = none
      by_cases h : m = 0
      · subst h
        refine seq_none_r (u := []) (a := []) (v := v) ?_ (ls32_none hv.notHex)
        rw [star_cc_nil (h16Colon_none' hv.notHex)]; simp
      · refine seq_none_l ?_
        rw [star_cc_nil (h16Colon_none' hv.notHex), if_pos (by omega)]
    · have hg : Abnf.h16 g := hR g (by simp)
      have hgs : ∀ x ∈ gs, Abnf.h16 x := fun x hx => hR x (by simp [hx])
      have hfail : PG.h16Colon (g ++ v) = none := h16Colon_none hg hv.notHex (Or.inl hv.notColon)
      have hlen : (gs ++ [g]).length = gs.length + 1 := by simp
      rw [groups_snoc, List.append_assoc, hlen]
      refine ⟨fun h => ?_, fun h => ?_⟩
      · rcases snoc_cases gs with rfl | ⟨gs', g', rfl⟩
        · simp at h
        · simp at h
          have hg' : Abnf.h16 g' := hgs g' (by simp)
          have e : colons (gs' ++ [g']) ++ (g ++ v) = colons gs' ++ (g' ++ 0x3A :: (g ++ v)) := by
            simp [colons]
          rw [e]
          have := seq_some (star_colons_some (lo := m) hm (fun x hx => hgs x (by simp [hx])) (h16_not_colon hg')
            (by omega) (by omega) (Or.inr h)) (ls32_h16 hg' hg hv.notHex)
          rw [this]
          simp [colons]
      · by_cases h : gs.length = m
        · exact seq_none_r (star_colons_some hm hgs (h16_not_colon hg) (by omega) (by omega) (Or.inr h)) (ls32_one hg hv)
        · exact seq_none_l (star_colons_none hm hgs (h16_not_colon hg) (by omega) (by omega) hfail)

end Verif
