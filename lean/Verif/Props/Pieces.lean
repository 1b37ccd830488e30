import Verif.Props.WriteThrow

/-!
# C99: percent-decoding and host conversion, piece by piece
-/

namespace Verif
open Codec PctSpec PartsSpec Unicode
set_option linter.unusedSimpArgs false

/-! ### Specification -/

/-- A well-formed triplet begins in `s` and ends in `t`. -/
def Straddles (s t : Str) : Prop :=
  ∃ h l b p q, Triplet h l b ∧ ((s = p ++ [0x25] ∧ t = h :: l :: q) ∨ (s = p ++ [0x25, h] ∧ t = l :: q))

/-! ### Percent-decoding -/

theorem Straddles.cons {s t : Str} (x : UInt8) (h : Straddles s t) : Straddles (x :: s) t := by
  obtain ⟨a, l, b, p, q, ht, ⟨rfl, rfl⟩ | ⟨rfl, rfl⟩⟩ := h
  · exact ⟨a, l, b, x :: p, q, ht, Or.inl ⟨rfl, rfl⟩⟩
  · exact ⟨a, l, b, x :: p, q, ht, Or.inr ⟨rfl, rfl⟩⟩

theorem decP_append {s t : Str} (h : ¬ Straddles s t) : decP (s ++ t) = decP s ++ decP t := by
  induction s using decP.induct with
  | case1 => rfl
  | case2 c a l s hh ih =>
    simp only [List.cons_append, decP]
    rw [if_pos hh, if_pos hh, ih fun k => h (((k.cons l).cons a).cons c), List.cons_append]
  | case3 c a l s hh ih =>
    have ih := ih fun k => h (k.cons c)
    simp only [List.cons_append] at ih
    simp only [List.cons_append, decP]
    rw [if_neg hh, if_neg hh, ih, List.cons_append]
  | case4 c s hs ih =>
    have ih := ih fun k => h (k.cons c)
    match s, hs with
    | [], _ =>
      rw [List.singleton_append, decP_cons]
      cases ht : tripHead (c :: t) with
      | none => simp [decP]
      | some b =>
        exfalso
        obtain ⟨a, l, b, q, e, k⟩ := (Verif.starts_iff _).2 (by rw [ht]; rfl)
        simp only [List.cons.injEq] at e
        obtain ⟨rfl, rfl⟩ := e
        exact h ⟨a, l, b, [], q, k, Or.inl ⟨rfl, rfl⟩⟩
    | [d], _ =>
      simp only [List.cons_append, List.nil_append] at ih ⊢
      rw [decP_cons]
      cases ht : tripHead (c :: d :: t) with
      | none => simp only [ih]; simp [decP]
      | some b =>
        exfalso
        obtain ⟨a, l, b, q, e, k⟩ := (Verif.starts_iff _).2 (by rw [ht]; rfl)
        simp only [List.cons.injEq] at e
        obtain ⟨rfl, rfl, rfl⟩ := e
        exact h ⟨_, l, b, [], q, k, Or.inr ⟨rfl, rfl⟩⟩
    | a :: l :: s, hs => exact (hs a l s rfl).elim

theorem triplet_not_pct {h l b : UInt8} (ht : Triplet h l b) : h ≠ 0x25 ∧ l ≠ 0x25 := by
  obtain ⟨x, y, h1, h2, _⟩ := ht
  have h1 := ((hexVal_iff _ _).1 h1).1
  have h2 := ((hexVal_iff _ _).1 h2).1
  constructor
  · rintro rfl; revert h1; decide
  · rintro rfl; revert h2; decide

/-- No triplet is cut where a percent sign follows. -/
theorem not_straddles_pct (s t : Str) : ¬ Straddles s (0x25 :: t) := by
  rintro ⟨h, l, b, p, q, ht, ⟨_, e⟩ | ⟨_, e⟩⟩ <;> simp only [List.cons.injEq] at e
  · exact (triplet_not_pct ht).1 e.1.symm
  · exact (triplet_not_pct ht).2 e.1.symm

theorem decP_triplet {h l b : UInt8} (ht : Triplet h l b) (q : Str) : decP (0x25 :: h :: l :: q) = b :: decP q := by
  obtain ⟨h1, rfl⟩ := (triplet_iff _ _ _).1 ht
  rw [decP, if_pos ⟨rfl, h1⟩]

/-- **C99**: text may be decoded in two pieces just where no triplet is cut; -/
theorem C99_pieces (s t ds dt : Str) (hs : pctdecode s = .ok ds) (ht : pctdecode t = .ok dt) : pctdecode (s ++ t) = .ok (ds ++ dt) ↔ ¬ Straddles s t := by
  rw [pctdecode_eq] at *
  obtain rfl := Except.ok.inj hs
  obtain rfl := Except.ok.inj ht
  constructor
  · intro e hc
    have e := congrArg List.length (Except.ok.inj e)
    obtain ⟨h, l, b, p, q, htr, ⟨rfl, rfl⟩ | ⟨rfl, rfl⟩⟩ := hc
    · rw [List.append_assoc, List.singleton_append, decP_append (not_straddles_pct _ _), decP_triplet htr, decP_append (not_straddles_pct _ _),
        decP_copy (triplet_not_pct htr).1, decP_copy (triplet_not_pct htr).2] at e
      simp [decP] at e
    · rw [List.append_assoc, List.cons_append, List.singleton_append, decP_append (not_straddles_pct _ _), decP_triplet htr, decP_append (not_straddles_pct _ _),
        decP_copy (triplet_not_pct htr).2] at e
      simp [decP] at e
  · intro h
    rw [decP_append h]

/-- **C99**: if one is, the pieces together give two bytes too many: its three characters instead of the one they stand for. -/
theorem C99_cut (h l b : UInt8) (p q dp dq : Str) (ht : Triplet h l b) (hp : pctdecode p = .ok dp) (hq : pctdecode q = .ok dq) :
    pctdecode (p ++ [0x25]) = .ok (dp ++ [0x25]) ∧ pctdecode (h :: l :: q) = .ok (h :: l :: dq) ∧
    pctdecode (p ++ [0x25, h]) = .ok (dp ++ [0x25, h]) ∧ pctdecode (l :: q) = .ok (l :: dq) ∧
    pctdecode (p ++ 0x25 :: h :: l :: q) = .ok (dp ++ b :: dq) := by
  rw [pctdecode_eq] at *
  obtain rfl := Except.ok.inj hp
  obtain rfl := Except.ok.inj hq
  obtain ⟨k1, k2⟩ := triplet_not_pct ht
  simp only [pctdecode_eq, decP_append (not_straddles_pct _ _), decP_triplet ht, decP_copy k1, decP_copy k2]
  simp [decP]

/-- **C99**: so it is enough to hold back two characters at most: whatever comes next. -/
theorem C99_hold_back (s : Str) : ∃ now held, s = now ++ held ∧ held.length ≤ 2 ∧
    ∀ t d1 d2, pctdecode now = .ok d1 → pctdecode (held ++ t) = .ok d2 → pctdecode (s ++ t) = .ok (d1 ++ d2) := by
  have key : ∀ now held : Str, (∀ t, ¬ Straddles now (held ++ t)) → ∀ t d1 d2, pctdecode now = .ok d1 → pctdecode (held ++ t) = .ok d2 → pctdecode (now ++ held ++ t) = .ok (d1 ++ d2) := by
    intro now held h t d1 d2 h1 h2
    rw [List.append_assoc]
    exact (C99_pieces _ _ _ _ h1 h2).2 (h t)
  by_cases h1 : ∃ p, s = p ++ [0x25]
  · obtain ⟨p, rfl⟩ := h1
    exact ⟨p, [0x25], rfl, by simp, key p [0x25] fun t => not_straddles_pct _ _⟩
  · by_cases h2 : ∃ p h, s = p ++ [0x25, h]
    · obtain ⟨p, h, rfl⟩ := h2
      exact ⟨p, [0x25, h], rfl, by simp, key p [0x25, h] fun t => not_straddles_pct _ _⟩
    · refine ⟨s, [], by simp, by simp, ?_⟩
      have := key s [] fun t => by
        rintro ⟨h, l, b, p, q, _, ⟨e, _⟩ | ⟨e, _⟩⟩
        · exact h1 ⟨p, e⟩
        · exact h2 ⟨p, h, e⟩
      simpa using this

example : Straddles (b! "a%4") (b! "1b") := ⟨0x34, 0x31, 0x41, b! "a", b! "b", ⟨4, 1, Or.inl (by decide), Or.inl (by decide), by decide⟩, Or.inr (by decide)⟩
example : pctdecode (b! "a%41b") = .ok (b! "aAb") ∧ pctdecode (b! "a%4") = .ok (b! "a%4") ∧ pctdecode (b! "1b") = .ok (b! "1b") := by decide +kernel
example : ¬ Straddles (b! "a%") (b! "%41") := not_straddles_pct _ _

/-! ### Host names -/

theorem joined_append {α : Type} {sep : α} : ∀ {ls ms : List (List α)}, ls ≠ [] → ms ≠ [] → joined sep (ls ++ ms) = joined sep ls ++ sep :: joined sep ms
  | [l], ms, _, h => by rw [List.singleton_append, joined_cons l h]; rfl
  | l :: m :: ls, ms, _, h => by
    rw [List.cons_append, joined_cons l (by simp), joined_append (ls := m :: ls) (by simp) h, joined_cons l (by simp), List.append_assoc, List.cons_append]

theorem labels_append {α : Type} {sep : α} {s t : List α} {ls ms : List (List α)} (h : Labels sep s ls) (k : Labels sep t ms) :
    Labels sep (s ++ sep :: t) (ls ++ ms) := by
  obtain ⟨h1, h2, h3⟩ := h
  obtain ⟨k1, k2, k3⟩ := k
  refine ⟨by simp [h1], ?_, by rw [joined_append h1 k1, h3, k3]⟩
  intro l hl
  rcases List.mem_append.1 hl with hl | hl
  · exact h2 l hl
  · exact k2 l hl

theorem each_split {α β : Type} {R : α → β → Prop} : ∀ {as : List α} {as' : List α} {bs : List β}, Each R (as ++ as') bs → ∃ b1 b2, bs = b1 ++ b2 ∧ Each R as b1 ∧ Each R as' b2
  | [], _, bs, h => ⟨[], bs, rfl, .nil, h⟩
  | a :: as, as', bs, h => by
    rw [List.cons_append] at h
    cases h with
    | cons h1 h2 =>
      obtain ⟨b1, b2, rfl, k1, k2⟩ := each_split h2
      exact ⟨_ :: b1, b2, rfl, .cons h1 k1, k2⟩

theorem each_app {α β : Type} {R : α → β → Prop} : ∀ {as as' : List α} {bs bs' : List β}, Each R as bs → Each R as' bs' → Each R (as ++ as') (bs ++ bs')
  | _, _, _, _, .nil, k => k
  | _, _, _, _, .cons h1 h2, k => .cons h1 (each_app h2 k)

theorem each_functional {α β : Type} {R : α → β → Prop} (hf : ∀ a b c, R a b → R a c → b = c) : ∀ {as : List α} {bs cs : List β}, Each R as bs → Each R as cs → bs = cs
  | [], _, _, .nil, .nil => rfl
  | _ :: _, _, _, .cons h1 h2, .cons k1 k2 => by rw [hf _ _ _ h1 k1, each_functional hf h2 k2]

theorem readsWhole_append {s t : Str} {cs ds : List Nat} (h : ReadsWhole s cs) (k : Reads t ds) : Reads (s ++ t) (cs ++ ds) := by
  induction h with
  | nil => exact k
  | char hc _ ih => rw [List.append_assoc, List.cons_append]; exact .char hc ih
  | bad h1 h2 h3 _ ih => rw [List.append_assoc, List.cons_append, List.cons_append]; exact .bad h1 h2 h3 ih

/-- **C99**: a host name may be encoded in two pieces at any full stop that no unfinished UTF-8 sequence precedes; -/
theorem C99_host_encode (s t : Str) (cs : List Nat) (hs : ReadsWhole s cs) (hl : s.length + t.length < 2 ^ 37) (e1 e2 : Str) (b1 b2 : Bool)
    (h1 : punyEncoded s = .ok (e1, b1)) (h2 : punyEncoded t = .ok (e2, b2)) : punyEncoded (s ++ 0x2E :: t) = .ok (e1 ++ 0x2E :: e2, b1 || b2) := by
  obtain ⟨c1, l1, f1, r1, _, _, m1, g1, k1⟩ := punyEncoded_eq s (by omega)
  obtain ⟨c2, l2, f2, r2, _, _, m2, g2, k2⟩ := punyEncoded_eq t (by omega)
  obtain ⟨c3, l3, f3, r3, _, _, m3, g3, k3⟩ := punyEncoded_eq (s ++ 0x2E :: t) (by simp; omega)
  rw [h1] at k1
  rw [h2] at k2
  obtain ⟨rfl, rfl⟩ := Prod.mk.inj (Except.ok.inj k1)
  obtain ⟨rfl, rfl⟩ := Prod.mk.inj (Except.ok.inj k2)
  have hc1 : c1 = cs := reads_unique r1 (by have := readsWhole_append hs .nil; simpa using this)
  subst hc1
  have hdot : Reads (0x2E :: t) (0x2E :: c2) := by
    have := Reads.char (c := 0x2E) (Or.inl (by omega)) r2
    rwa [utf8_ascii (by omega)] at this
  have hc3 := reads_unique r3 (readsWhole_append hs hdot)
  subst hc3
  obtain rfl := Labels.unique m3 (labels_append m1 m2)
  obtain ⟨x1, x2, rfl, y1, y2⟩ := each_split g3
  have hf : ∀ (a : List Nat) (b c : Str), LabelE a b → LabelE a c → b = c := by
    rintro a b c ⟨t, f, h, rfl⟩ ⟨t', f', h', rfl⟩
    rw [h] at h'
    obtain ⟨rfl, rfl⟩ := Prod.mk.inj (Except.ok.inj h')
    rfl
  obtain rfl := each_functional hf y1 g1
  obtain rfl := each_functional hf y2 g2
  have n1 : x1 ≠ [] := by
    rintro rfl; cases y1; exact m1.1 rfl
  have n2 : x2 ≠ [] := by
    rintro rfl; cases y2; exact m2.1 rfl
  rw [k3, joined_append n1 n2, List.any_append, List.any_cons]
  simp

/-- **C99**: and decoded in two pieces at any full stop: the error, if there is one, is that of the first piece that has one. -/
theorem C99_host_decode (s t : Str) (hl : s.length + t.length + 3 < 2 ^ 64) (d1 d2 : Str) (b1 : Bool) (r2 : Except Puny.Err Bool)
    (h1 : punyDecoded s = .ok (d1, .ok b1)) (h2 : punyDecoded t = .ok (d2, r2)) :
    punyDecoded (s ++ 0x2E :: t) = .ok (d1 ++ 0x2E :: d2, r2.map (b1 || ·)) := by
  have hsz : szMod = 2 ^ 64 := rfl
  obtain ⟨l1, m1, ⟨x1, g1, k1⟩ | ⟨_, _, _, _, _, _, _, _, k1⟩⟩ := punyDecoded_eq s (by omega)
  · rw [h1] at k1
    obtain ⟨rfl, e⟩ := Prod.mk.inj (Except.ok.inj k1)
    obtain rfl := Except.ok.inj e
    have n1 : x1 ≠ [] := by
      rintro rfl; cases g1; exact m1.1 rfl
    obtain ⟨l2, m2, ⟨x2, g2, k2⟩ | ⟨pre, l, post, out, e, rfl, a1, a2, k2⟩⟩ := punyDecoded_eq t (by omega)
    · rw [h2] at k2
      obtain ⟨rfl, rfl⟩ := Prod.mk.inj (Except.ok.inj k2)
      have n2 : x2 ≠ [] := by
        rintro rfl; cases g2; exact m2.1 rfl
      rw [punyDecoded_of (labels_append m1 m2) (each_app g1 g2), joined_append n1 n2, List.any_append]
      rfl
    · obtain ⟨x2, g2⟩ := each_of_all a1
      have hb := punyDecodedLoop_bad pre l post x2 e _ t m2 g2 a2 (Nat.lt_succ_self _)
      have hb' := (h2.symm.trans hb : _)
      obtain ⟨rfl, rfl⟩ := Prod.mk.inj (Except.ok.inj hb')
      have := labels_append m1 m2
      rw [← List.append_assoc] at this
      have h3 := punyDecodedLoop_bad (l1 ++ pre) l post (x1 ++ x2) e _ _ this (each_app g1 g2) a2 (Nat.lt_succ_self _)
      refine (show punyDecoded _ = _ from h3).trans ?_
      rw [List.flatMap_append, show x1.flatMap (· ++ [0x2E]) = joined 0x2E x1 ++ [0x2E] from ?_]
      · simp [Except.map]
      · clear g1 h1 k1 h3
        induction x1 with
        | nil => exact absurd rfl n1
        | cons x xs ih =>
          by_cases hx : xs = []
          · subst hx; simp [joined]
          · rw [List.flatMap_cons, ih hx, joined_cons x hx]; simp
  · rw [h1] at k1
    have := (Prod.mk.inj (Except.ok.inj k1)).2
    cases this

/-- **C99**: nothing after a full stop can change the error found before it, or what had been written. -/
theorem C99_host_error (s t : Str) (hl : s.length + t.length + 3 < 2 ^ 64) (d1 : Str) (e : Puny.Err) (h1 : punyDecoded s = .ok (d1, .error e)) :
    punyDecoded (s ++ 0x2E :: t) = .ok (d1, .error e) := by
  have hsz : szMod = 2 ^ 64 := rfl
  obtain ⟨ms, hm, _⟩ := punyDecoded_eq t (by omega)
  obtain ⟨l1, m1, ⟨x1, g1, k1⟩ | ⟨pre, l, post, out, e', rfl, a1, a2, k1⟩⟩ := punyDecoded_eq s (by omega)
  · rw [h1] at k1
    have := (Prod.mk.inj (Except.ok.inj k1)).2
    cases this
  · obtain ⟨x1, g1⟩ := each_of_all a1
    have hb := punyDecodedLoop_bad pre l post x1 e' _ s m1 g1 a2 (Nat.lt_succ_self _)
    have hb' := (h1.symm.trans hb : _)
    obtain ⟨rfl, e2⟩ := Prod.mk.inj (Except.ok.inj hb')
    obtain rfl := Except.error.inj e2
    have := labels_append m1 hm
    rw [List.append_assoc, List.cons_append] at this
    exact punyDecodedLoop_bad pre l (post ++ ms) x1 e _ _ this g1 a2 (Nat.lt_succ_self _)

/-- **C99**: an unfinished sequence before the full stop swallows it, and the pieces give something else. -/
theorem C99_host_counterexample : punyEncoded [0x61, 0xC3] = .ok (b! "xn--a-q10i", true) ∧ punyEncoded [0x62] = .ok (b! "b", false) ∧
    punyEncoded [0x61, 0xC3, 0x2E, 0x62] = .ok (b! "xn--ab-gg4n", true) := by decide +kernel

example : punyEncoded (b! "b\u00fccher") = .ok (b! "xn--bcher-kva", true) ∧ punyEncoded (b! "example") = .ok (b! "example", false) ∧
    punyEncoded (b! "b\u00fccher.example") = .ok (b! "xn--bcher-kva.example", true) := by decide +kernel
example : ReadsWhole (b! "b") [0x62] := .char (c := 0x62) (s := []) (Or.inl (by omega)) .nil
example : ((punyDecoded (b! "xn--tda")).toOption.map fun x => x.1) = some [0xC3, 0xBC] ∧ ((punyDecoded (b! "a.xn--\u00fc")).toOption.map fun x => x.1) = some (b! "a.") := by decide +kernel

end Verif
