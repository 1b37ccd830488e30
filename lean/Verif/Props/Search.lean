import Verif.Props.Icubaby

/-!
# C103: comparing and searching transcoded texts code unit by code unit
-/

namespace Verif
open Icu Unicode

namespace Search
variable {α : Type}

/-- What the forms of scalar values have in common: the first code unit is of a kind that the others are not of, and no form is the
beginning of another. -/
structure Code (f : Nat → List α) (lead : α → Prop) : Prop where
  shape : ∀ c, Scalar c → ∃ x u, f c = x :: u ∧ lead x ∧ ∀ y ∈ u, ¬ lead y
  free : ∀ c d, Scalar c → Scalar d → f c <+: f d → c = d

theorem prefix_of {a b c d : List α} (h : a ++ b = c ++ d) : a <+: c ∨ c <+: a := by
  rcases List.append_eq_append_iff.1 h with ⟨x, h1, h2⟩ | ⟨x, h1, h2⟩
  · exact .inl ⟨x, h1.symm⟩
  · exact .inr ⟨x, h1.symm⟩

/-- A text that begins with an encoded text is that text and more, encoded. -/
theorem Code.starts {f : Nat → List α} {lead : α → Prop} (hf : Code f lead) : ∀ (cs ds : List Nat) (q : List α), (∀ c ∈ cs, Scalar c) → (∀ d ∈ ds, Scalar d) →
    ds.flatMap f = cs.flatMap f ++ q → ∃ qs, ds = cs ++ qs ∧ q = qs.flatMap f
  | [], ds, q, _, _, h => ⟨ds, rfl, h.symm⟩
  | c :: cs, [], q, hc, _, h => by
      obtain ⟨x, u, e, _⟩ := hf.shape c (hc c (by simp))
      simp [e] at h
  | c :: cs, d :: ds, q, hc, hd, h => by
      have h1 := hc c (by simp)
      have h2 := hd d (by simp)
      simp only [List.flatMap_cons, List.append_assoc] at h
      have e : d = c := by
        rcases prefix_of h with h | h
        · exact hf.free _ _ h2 h1 h
        · exact (hf.free _ _ h1 h2 h).symm
      subst e
      obtain ⟨qs, e1, e2⟩ := Code.starts hf cs ds q (fun c h => hc c (by simp [h])) (fun c h => hd c (by simp [h])) (List.append_cancel_left h)
      exact ⟨qs, by rw [e1]; rfl, e2⟩

theorem Code.occurs {f : Nat → List α} {lead : α → Prop} (hf : Code f lead) {c0 : Nat} {cs : List Nat} (hc : ∀ c ∈ c0 :: cs, Scalar c) (q : List α) :
    ∀ (ds : List Nat) (p : List α), (∀ d ∈ ds, Scalar d) → ds.flatMap f = p ++ ((c0 :: cs).flatMap f ++ q) →
      ∃ ps qs, ds = ps ++ ((c0 :: cs) ++ qs) ∧ p = ps.flatMap f ∧ q = qs.flatMap f
  | ds, [], hd, h => by
      obtain ⟨qs, e1, e2⟩ := hf.starts (c0 :: cs) ds q hc hd h
      exact ⟨[], qs, e1, rfl, e2⟩
  | [], x :: p, hd, h => by simp at h
  | d :: ds, x :: p, hd, h => by
      obtain ⟨y, u, e, hy, hu⟩ := hf.shape c0 (hc c0 (by simp))
      obtain ⟨z, v, e', hz, hv⟩ := hf.shape d (hd d (by simp))
      rw [List.flatMap_cons] at h
      rcases List.append_eq_append_iff.1 h with ⟨w, h1, h2⟩ | ⟨w, h1, h2⟩
      · obtain ⟨ps, qs, g1, g2, g3⟩ := Code.occurs hf hc q ds w (fun c h => hd c (by simp [h])) h2
        exact ⟨d :: ps, qs, by rw [g1]; rfl, by rw [h1, g2]; rfl, g3⟩
      · cases w with
        | nil =>
            obtain ⟨ps, qs, g1, g2, g3⟩ := Code.occurs hf hc q ds [] (fun c h => hd c (by simp [h])) h2.symm
            exact ⟨d :: ps, qs, by rw [g1]; rfl, by rw [List.flatMap_cons, ← g2, h1]; simp, g3⟩
        | cons a w =>
            exfalso
            rw [e'] at h1
            simp only [List.cons_append, List.cons.injEq] at h1
            simp only [List.flatMap_cons, e, List.cons_append, List.cons.injEq] at h2
            exact hv a (by rw [h1.2]; simp) (by rw [← h2.1]; exact hy)

/-! ### The forms -/

theorem lt_ofNat {a b : Nat} (ha : a < 256) (hb : b < 256) : UInt8.ofNat a < UInt8.ofNat b ↔ a < b := by
  rw [UInt8.lt_iff_toNat_lt]
  simp only [UInt8.toNat_ofNat']
  omega

/-- Two lists that differ first at a place where the first has less. -/
def Below {α : Type} [LT α] (s t : List α) : Prop := ∃ p x y u v, s = p ++ x :: u ∧ t = p ++ y :: v ∧ x < y

theorem utf8_below {c d : Nat} (hd : Scalar d) (h : c < d) : Below (utf8 c) (utf8 d) := by
  have hm : d ≤ 0x10FFFF := by unfold Scalar at hd; omega
  unfold utf8
  by_cases c1 : c < 0x80
  · rw [if_pos c1]
    by_cases d1 : d < 0x80
    · rw [if_pos d1]; exact ⟨[], _, _, _, _, rfl, rfl, (lt_ofNat (by omega) (by omega)).2 h⟩
    rw [if_neg d1]
    by_cases d2 : d < 0x800
    · rw [if_pos d2]; exact ⟨[], _, _, _, _, rfl, rfl, (lt_ofNat (by omega) (by omega)).2 (by omega)⟩
    rw [if_neg d2]
    by_cases d3 : d < 0x10000
    · rw [if_pos d3]; exact ⟨[], _, _, _, _, rfl, rfl, (lt_ofNat (by omega) (by omega)).2 (by omega)⟩
    rw [if_neg d3]; exact ⟨[], _, _, _, _, rfl, rfl, (lt_ofNat (by omega) (by omega)).2 (by omega)⟩
  rw [if_neg c1, if_neg (show ¬ d < 0x80 by omega)]
  by_cases c2 : c < 0x800
  · rw [if_pos c2]
    by_cases d2 : d < 0x800
    · rw [if_pos d2]
      by_cases e : c / 0x40 = d / 0x40
      · rw [e]; exact ⟨[_], _, _, _, _, rfl, rfl, (lt_ofNat (by omega) (by omega)).2 (by omega)⟩
      · exact ⟨[], _, _, _, _, rfl, rfl, (lt_ofNat (by omega) (by omega)).2 (by omega)⟩
    rw [if_neg d2]
    by_cases d3 : d < 0x10000
    · rw [if_pos d3]; exact ⟨[], _, _, _, _, rfl, rfl, (lt_ofNat (by omega) (by omega)).2 (by omega)⟩
    rw [if_neg d3]; exact ⟨[], _, _, _, _, rfl, rfl, (lt_ofNat (by omega) (by omega)).2 (by omega)⟩
  rw [if_neg c2, if_neg (show ¬ d < 0x800 by omega)]
  by_cases c3 : c < 0x10000
  · rw [if_pos c3]
    by_cases d3 : d < 0x10000
    · rw [if_pos d3]
      by_cases e : c / 0x1000 = d / 0x1000
      · rw [e]
        by_cases e : c / 0x40 % 0x40 = d / 0x40 % 0x40
        · rw [e]; exact ⟨[_, _], _, _, _, _, rfl, rfl, (lt_ofNat (by omega) (by omega)).2 (by omega)⟩
        · exact ⟨[_], _, _, _, _, rfl, rfl, (lt_ofNat (by omega) (by omega)).2 (by omega)⟩
      · exact ⟨[], _, _, _, _, rfl, rfl, (lt_ofNat (by omega) (by omega)).2 (by omega)⟩
    rw [if_neg d3]; exact ⟨[], _, _, _, _, rfl, rfl, (lt_ofNat (by omega) (by omega)).2 (by omega)⟩
  rw [if_neg c3, if_neg (show ¬ d < 0x10000 by omega)]
  by_cases e : c / 0x40000 = d / 0x40000
  · rw [e]
    by_cases e : c / 0x1000 % 0x40 = d / 0x1000 % 0x40
    · rw [e]
      by_cases e : c / 0x40 % 0x40 = d / 0x40 % 0x40
      · rw [e]; exact ⟨[_, _, _], _, _, _, _, rfl, rfl, (lt_ofNat (by omega) (by omega)).2 (by omega)⟩
      · exact ⟨[_, _], _, _, _, _, rfl, rfl, (lt_ofNat (by omega) (by omega)).2 (by omega)⟩
    · exact ⟨[_], _, _, _, _, rfl, rfl, (lt_ofNat (by omega) (by omega)).2 (by omega)⟩
  · exact ⟨[], _, _, _, _, rfl, rfl, (lt_ofNat (by omega) (by omega)).2 (by omega)⟩

theorem lt_ofNat16 {a b : Nat} (ha : a < 65536) (hb : b < 65536) : UInt16.ofNat a < UInt16.ofNat b ↔ a < b := by
  rw [UInt16.lt_iff_toNat_lt]
  simp only [UInt16.toNat_ofNat']
  omega

/-- Code points from U+E000 to U+FFFF, whose code units are above the surrogates. -/
def High (c : Nat) : Prop := 0xE000 ≤ c ∧ c < 0x10000

theorem utf16_below {c d : Nat} (hc : Scalar c) (hd : Scalar d) (h : c < d) (hn : ¬ (High c ∧ 0x10000 ≤ d)) : Below (utf16 c) (utf16 d) := by
  unfold Scalar at hc hd; unfold High at hn
  unfold utf16
  by_cases c1 : c < 0x10000
  · rw [if_pos c1]
    by_cases d1 : d < 0x10000
    · rw [if_pos d1]; exact ⟨[], _, _, _, _, rfl, rfl, (lt_ofNat16 (by omega) (by omega)).2 h⟩
    rw [if_neg d1]; exact ⟨[], _, _, _, _, rfl, rfl, (lt_ofNat16 (by omega) (by omega)).2 (by omega)⟩
  rw [if_neg c1, if_neg (show ¬ d < 0x10000 by omega)]
  by_cases e : (c - 0x10000) / 0x400 = (d - 0x10000) / 0x400
  · rw [e]; exact ⟨[_], _, _, _, _, rfl, rfl, (lt_ofNat16 (by omega) (by omega)).2 (by omega)⟩
  · exact ⟨[], _, _, _, _, rfl, rfl, (lt_ofNat16 (by omega) (by omega)).2 (by omega)⟩

theorem below_not_prefix {α : Type} [LT α] (hi : ∀ x : α, ¬ x < x) {s t : List α} (h : Below s t) : ¬ s <+: t ∧ ¬ t <+: s := by
  obtain ⟨p, x, y, u, v, rfl, rfl, hxy⟩ := h
  constructor <;> intro h <;> rw [List.prefix_append_right_inj, List.cons_prefix_cons] at h
  · exact hi x (h.1 ▸ hxy)
  · exact hi x (h.1 ▸ hxy)

/-- Bytes that begin the form of a scalar value, so that they can be told from those that continue one. -/
def lead8 (b : UInt8) : Prop := ¬ (0x80 ≤ b.toNat ∧ b.toNat ≤ 0xBF)

/-- Code units that begin the form of a scalar value. -/
def lead16 (b : UInt16) : Prop := ¬ (0xDC00 ≤ b.toNat ∧ b.toNat ≤ 0xDFFF)

theorem code8 : Code utf8 lead8 where
  shape c hc := by
    unfold Scalar at hc
    unfold utf8
    split
    · exact ⟨_, _, rfl, by unfold lead8; simp only [UInt8.toNat_ofNat']; omega, by simp⟩
    split
    · refine ⟨_, _, rfl, by unfold lead8; simp only [UInt8.toNat_ofNat']; omega, ?_⟩
      intro y hy; simp only [List.mem_cons, List.not_mem_nil, or_false] at hy
      subst hy; unfold lead8; simp only [UInt8.toNat_ofNat']; omega
    split
    · refine ⟨_, _, rfl, by unfold lead8; simp only [UInt8.toNat_ofNat']; omega, ?_⟩
      intro y hy; simp only [List.mem_cons, List.not_mem_nil, or_false] at hy
      rcases hy with hy | hy <;> subst hy <;> unfold lead8 <;> simp only [UInt8.toNat_ofNat'] <;> omega
    · refine ⟨_, _, rfl, by unfold lead8; simp only [UInt8.toNat_ofNat']; omega, ?_⟩
      intro y hy; simp only [List.mem_cons, List.not_mem_nil, or_false] at hy
      rcases hy with hy | hy | hy <;> subst hy <;> unfold lead8 <;> simp only [UInt8.toNat_ofNat'] <;> omega
  free c d hc hd h := by
    rcases Nat.lt_trichotomy c d with k | k | k
    · exact absurd h (below_not_prefix (fun x => UInt8.lt_irrefl x) (utf8_below hd k)).1
    · exact k
    · exact absurd h (below_not_prefix (fun x => UInt8.lt_irrefl x) (utf8_below hc k)).2

theorem code16 : Code utf16 lead16 where
  shape c hc := by
    unfold Scalar at hc
    unfold utf16
    split
    · exact ⟨_, _, rfl, by unfold lead16; simp only [UInt16.toNat_ofNat']; omega, by simp⟩
    · refine ⟨_, _, rfl, by unfold lead16; simp only [UInt16.toNat_ofNat']; omega, ?_⟩
      intro y hy; simp only [List.mem_cons, List.not_mem_nil, or_false] at hy
      subst hy; unfold lead16; simp only [UInt16.toNat_ofNat']; omega
  free c d hc hd h := by
    by_cases e : c = d
    · exact e
    exfalso
    by_cases hn : (High c ∧ 0x10000 ≤ d) ∨ (High d ∧ 0x10000 ≤ c)
    · unfold High at hn
      unfold Scalar at hc hd
      unfold utf16 at h
      rcases hn with hn | hn
      · rw [if_pos (by omega), if_neg (by omega), List.cons_prefix_cons] at h
        have := congrArg UInt16.toNat h.1
        simp only [UInt16.toNat_ofNat'] at this; omega
      · rw [if_neg (by omega), if_pos (by omega)] at h
        have := h.length_le; simp at this
    · rcases Nat.lt_trichotomy c d with k | k | k
      · exact absurd h (below_not_prefix (fun x => UInt16.lt_irrefl x) (utf16_below hc hd k fun h => hn (.inl h))).1
      · exact e k
      · exact absurd h (below_not_prefix (fun x => UInt16.lt_irrefl x) (utf16_below hd hc k fun h => hn (.inr h))).2

/-! ### Order -/

theorem below_lt {α : Type} [LT α] {s t : List α} (h : Below s t) (a b : List α) : s ++ a < t ++ b := by
  obtain ⟨p, x, y, u, v, rfl, rfl, hxy⟩ := h
  induction p with
  | nil => exact List.Lex.rel hxy
  | cons z p ih => exact List.Lex.cons ih

theorem lt_tail {α : Type} [LT α] (s : List α) {a b : List α} (h : a < b) : s ++ a < s ++ b := by
  induction s with
  | nil => exact h
  | cons z p ih => exact List.Lex.cons ih

theorem lt_three : ∀ cs ds : List Nat, cs < ds ∨ cs = ds ∨ ds < cs
  | [], [] => .inr (.inl rfl)
  | [], d :: ds => .inl .nil
  | c :: cs, [] => .inr (.inr .nil)
  | c :: cs, d :: ds => by
      rcases Nat.lt_trichotomy c d with k | k | k
      · exact .inl (.rel k)
      · subst k
        rcases lt_three cs ds with h | h | h
        · exact .inl (.cons h)
        · exact .inr (.inl (by rw [h]))
        · exact .inr (.inr (.cons h))
      · exact .inr (.inr (.rel k))

theorem lt_not {α : Type} [LT α] (hi : ∀ x : α, ¬ x < x) (ha : ∀ x y : α, x < y → ¬ y < x) : ∀ s t : List α, s < t → ¬ t < s ∧ s ≠ t
  | _, _, .nil => ⟨nofun, nofun⟩
  | _, _, .rel h => by
      refine ⟨fun k => ?_, fun k => ?_⟩
      · cases k with
        | rel k => exact ha _ _ h k
        | cons k => exact hi _ h
      · exact hi _ ((List.cons.inj k).1 ▸ h)
  | _, _, .cons h => by
      obtain ⟨h1, h2⟩ := lt_not hi ha _ _ h
      refine ⟨fun k => ?_, fun k => h2 (List.cons.inj k).2⟩
      cases k with
      | rel k => exact hi _ k
      | cons k => exact h1 k

theorem order {α : Type} [LT α] (hi : ∀ x : α, ¬ x < x) (ha : ∀ x y : α, x < y → ¬ y < x) (f : Nat → List α) (P : Nat → Prop) (hne : ∀ c, f c ≠ [])
    (hb : ∀ c d, P c → P d → c < d → Below (f c) (f d)) (cs ds : List Nat) (hc : ∀ c ∈ cs, P c) (hd : ∀ d ∈ ds, P d) :
    cs.flatMap f < ds.flatMap f ↔ cs < ds := by
  have up : ∀ cs ds : List Nat, (∀ c ∈ cs, P c) → (∀ d ∈ ds, P d) → cs < ds → cs.flatMap f < ds.flatMap f := by
    intro cs ds hc hd h
    induction h with
    | nil =>
        rename_i d ds
        rw [List.flatMap_cons]
        cases e : f d with
        | nil => exact absurd e (hne d)
        | cons x u => exact .nil
    | rel h => rw [List.flatMap_cons, List.flatMap_cons]; exact below_lt (hb _ _ (hc _ (by simp)) (hd _ (by simp)) h) _ _
    | cons h ih => rw [List.flatMap_cons, List.flatMap_cons]; exact lt_tail _ (ih (fun c h => hc c (by simp [h])) (fun c h => hd c (by simp [h])))
  refine ⟨fun h => ?_, up cs ds hc hd⟩
  rcases lt_three cs ds with k | k | k
  · exact k
  · subst k; exact absurd rfl (lt_not hi ha _ _ h).2
  · exact absurd (up _ _ hd hc k) (lt_not hi ha _ _ h).1

theorem utf8_ne (c : Nat) : utf8 c ≠ [] := by unfold utf8; split <;> (try split) <;> (try split) <;> exact List.cons_ne_nil _ _
theorem utf16_ne (c : Nat) : utf16 c ≠ [] := by unfold utf16; split <;> exact List.cons_ne_nil _ _

theorem order8 (cs ds : List Nat) (hc : ∀ c ∈ cs, Scalar c) (hd : ∀ d ∈ ds, Scalar d) : cs.flatMap utf8 < ds.flatMap utf8 ↔ cs < ds :=
  order (fun x => UInt8.lt_irrefl x) (fun x y h k => UInt8.lt_irrefl _ (UInt8.lt_trans h k)) utf8 Scalar utf8_ne (fun c d _ hd h => utf8_below hd h) cs ds hc hd

end Search

open Search

/-! ### The property -/

/-- Texts of scalar values are in the order in which `<` of their UTF-8 puts them, byte by byte. -/
theorem C103_order (cs ds : List Nat) (hc : ∀ c ∈ cs, Scalar c) (hd : ∀ d ∈ ds, Scalar d) : ∃ st a st' b,
    t32_8.run cs = .ok (st, a) ∧ t32_8.run ds = .ok (st', b) ∧ (a < b ↔ cs < ds) ∧ (a = b ↔ cs = ds) := by
  obtain ⟨st, h1, _⟩ := C40_encode cs
  obtain ⟨st', h2, _⟩ := C40_encode ds
  rw [flatMap_fix utf8 cs hc] at h1
  rw [flatMap_fix utf8 ds hd] at h2
  refine ⟨st, _, st', _, h1, h2, order8 cs ds hc hd, fun h => ?_, fun h => by rw [h]⟩
  have hn : ∀ s : Str, ¬ s < s := fun s h => (lt_not (fun x => UInt8.lt_irrefl x) (fun x y h k => UInt8.lt_irrefl _ (UInt8.lt_trans h k)) _ _ h).2 rfl
  rcases lt_three cs ds with k | k | k
  · exact absurd ((order8 _ _ hc hd).2 k) (h ▸ hn _)
  · exact k
  · exact absurd ((order8 _ _ hd hc).2 k) (h ▸ hn _)

/-- The other way: what is read of well-formed UTF-8 is in the order of the bytes. -/
theorem C103_order_decode (s t : Str) : ∃ st cs st' ds, t8_32.run s = .ok (st, cs) ∧ t8_32.run t = .ok (st', ds) ∧
    (t8_32.wellFormed st = true → t8_32.wellFormed st' = true → (cs < ds ↔ s < t)) := by
  obtain ⟨st, cs, h1, h2⟩ := C41_well_formed s
  obtain ⟨st', ds, h3, h4⟩ := C41_well_formed t
  refine ⟨st, cs, st', ds, h1, h3, fun w w' => ?_⟩
  obtain ⟨cs', e⟩ := h2.1 w
  obtain ⟨ds', e'⟩ := h4.1 w'
  obtain ⟨_, k, _⟩ := C41_text e
  obtain ⟨_, k', _⟩ := C41_text e'
  have := congrArg Prod.snd (Except.ok.inj (k.symm.trans h1))
  have g : cs' = cs := this
  have := congrArg Prod.snd (Except.ok.inj (k'.symm.trans h3))
  have g' : ds' = ds := this
  subst g; subst g'
  rw [e.2, e'.2]
  exact (order8 _ _ e.1 e'.1).symm

/-- In UTF-16 the order is kept as long as no text has a code point from U+E000 to U+FFFF, or none has one above. -/
theorem C103_order16 (cs ds : List Nat) (hc : ∀ c ∈ cs, Scalar c) (hd : ∀ d ∈ ds, Scalar d)
    (hn : (∀ c ∈ cs ++ ds, ¬ (0xE000 ≤ c ∧ c ≤ 0xFFFF)) ∨ (∀ c ∈ cs ++ ds, c ≤ 0xFFFF)) : ∃ st a st' b,
    t32_16.run cs = .ok (st, a) ∧ t32_16.run ds = .ok (st', b) ∧ (a < b ↔ cs < ds) := by
  obtain ⟨st, h1, _⟩ := C44_encode cs
  obtain ⟨st', h2, _⟩ := C44_encode ds
  rw [flatMap_fix utf16 cs hc] at h1
  rw [flatMap_fix utf16 ds hd] at h2
  refine ⟨st, _, st', _, h1, h2, ?_⟩
  have go : ∀ P : Nat → Prop, (∀ c d, P c → P d → Scalar c ∧ Scalar d ∧ ¬ (High c ∧ 0x10000 ≤ d)) → (∀ c ∈ cs, P c) → (∀ d ∈ ds, P d) →
      (cs.flatMap utf16 < ds.flatMap utf16 ↔ cs < ds) := fun P hP h1 h2 =>
    order (fun x => UInt16.lt_irrefl x) (fun x y h k => UInt16.lt_irrefl _ (UInt16.lt_trans h k)) utf16 P Search.utf16_ne
      (fun c d p q h => utf16_below (hP c d p q).1 (hP c d p q).2.1 h (hP c d p q).2.2) cs ds h1 h2
  rcases hn with hn | hn
  · refine go (fun c => Scalar c ∧ ¬ (0xE000 ≤ c ∧ c ≤ 0xFFFF)) (fun c d p q => ⟨p.1, q.1, fun k => p.2 ⟨k.1.1, by have := k.1.2; omega⟩⟩)
      (fun c h => ⟨hc c h, hn c (by simp [h])⟩) (fun c h => ⟨hd c h, hn c (by simp [h])⟩)
  · refine go (fun c => Scalar c ∧ c ≤ 0xFFFF) (fun c d p q => ⟨p.1, q.1, fun k => by have := q.2; have := k.2; omega⟩)
      (fun c h => ⟨hc c h, hn c (by simp [h])⟩) (fun c h => ⟨hd c h, hn c (by simp [h])⟩)

/-- Searching UTF-8 for UTF-8, byte by byte, finds the places where the text sought occurs, and no others: what is before and after such a
place is UTF-8, of what is before and after it in the text. -/
theorem C103_search (cs ds : List Nat) (hc : ∀ c ∈ cs, Scalar c) (hd : ∀ d ∈ ds, Scalar d) (hne : cs ≠ []) : ∃ st a st' b,
    t32_8.run cs = .ok (st, a) ∧ t32_8.run ds = .ok (st', b) ∧
    ∀ p q : Str, b = p ++ a ++ q ↔ ∃ ps qs st1 st2, ds = ps ++ cs ++ qs ∧ t32_8.run ps = .ok (st1, p) ∧ t32_8.run qs = .ok (st2, q) := by
  have enc : ∀ xs, (∀ c ∈ xs, Scalar c) → ∃ st, t32_8.run xs = .ok (st, xs.flatMap utf8) := fun xs h => by
    obtain ⟨st, h1, _⟩ := C40_encode xs
    rw [flatMap_fix utf8 xs h] at h1
    exact ⟨st, h1⟩
  obtain ⟨st, h1⟩ := enc cs hc
  obtain ⟨st', h2⟩ := enc ds hd
  refine ⟨st, _, st', _, h1, h2, fun p q => ⟨fun h => ?_, ?_⟩⟩
  · cases cs with
    | nil => exact absurd rfl hne
    | cons c cs =>
        obtain ⟨ps, qs, e1, e2, e3⟩ := code8.occurs hc q ds p hd (by rw [h, List.append_assoc])
        have hps : ∀ c ∈ ps, Scalar c := fun c h => hd c (by rw [e1]; simp [h])
        have hqs : ∀ c ∈ qs, Scalar c := fun c h => hd c (by rw [e1]; simp [h])
        obtain ⟨s1, k1⟩ := enc ps hps
        obtain ⟨s2, k2⟩ := enc qs hqs
        exact ⟨ps, qs, s1, s2, by rw [e1, List.append_assoc], e2 ▸ k1, e3 ▸ k2⟩
  · rintro ⟨ps, qs, s1, s2, e1, k1, k2⟩
    obtain ⟨s3, k3⟩ := enc ps (fun c h => hd c (by rw [e1]; simp [h]))
    obtain ⟨s4, k4⟩ := enc qs (fun c h => hd c (by rw [e1]; simp [h]))
    have g1 : _ = p := congrArg Prod.snd (Except.ok.inj (k3.symm.trans k1))
    have g2 : _ = q := congrArg Prod.snd (Except.ok.inj (k4.symm.trans k2))
    rw [e1, ← g1, ← g2, List.flatMap_append, List.flatMap_append]

/-- And UTF-16, code unit by code unit. -/
theorem C103_search16 (cs ds : List Nat) (hc : ∀ c ∈ cs, Scalar c) (hd : ∀ d ∈ ds, Scalar d) (hne : cs ≠ []) : ∃ st a st' b,
    t32_16.run cs = .ok (st, a) ∧ t32_16.run ds = .ok (st', b) ∧
    ∀ p q : List UInt16, b = p ++ a ++ q ↔ ∃ ps qs st1 st2, ds = ps ++ cs ++ qs ∧ t32_16.run ps = .ok (st1, p) ∧ t32_16.run qs = .ok (st2, q) := by
  have enc : ∀ xs, (∀ c ∈ xs, Scalar c) → ∃ st, t32_16.run xs = .ok (st, xs.flatMap utf16) := fun xs h => by
    obtain ⟨st, h1, _⟩ := C44_encode xs
    rw [flatMap_fix utf16 xs h] at h1
    exact ⟨st, h1⟩
  obtain ⟨st, h1⟩ := enc cs hc
  obtain ⟨st', h2⟩ := enc ds hd
  refine ⟨st, _, st', _, h1, h2, fun p q => ⟨fun h => ?_, ?_⟩⟩
  · cases cs with
    | nil => exact absurd rfl hne
    | cons c cs =>
        obtain ⟨ps, qs, e1, e2, e3⟩ := code16.occurs hc q ds p hd (by rw [h, List.append_assoc])
        have hps : ∀ c ∈ ps, Scalar c := fun c h => hd c (by rw [e1]; simp [h])
        have hqs : ∀ c ∈ qs, Scalar c := fun c h => hd c (by rw [e1]; simp [h])
        obtain ⟨s1, k1⟩ := enc ps hps
        obtain ⟨s2, k2⟩ := enc qs hqs
        exact ⟨ps, qs, s1, s2, by rw [e1, List.append_assoc], e2 ▸ k1, e3 ▸ k2⟩
  · rintro ⟨ps, qs, s1, s2, e1, k1, k2⟩
    obtain ⟨s3, k3⟩ := enc ps (fun c h => hd c (by rw [e1]; simp [h]))
    obtain ⟨s4, k4⟩ := enc qs (fun c h => hd c (by rw [e1]; simp [h]))
    have g1 : _ = p := congrArg Prod.snd (Except.ok.inj (k3.symm.trans k1))
    have g2 : _ = q := congrArg Prod.snd (Except.ok.inj (k4.symm.trans k2))
    rw [e1, ← g1, ← g2, List.flatMap_append, List.flatMap_append]

/-- Where it does not hold: `<` of UTF-16 puts U+10000 before U+FF61; `<` of bytes that are not UTF-8 is not that of what is read of them; and
different texts that are not all scalar values are the same bytes. -/
theorem C103_counterexamples :
    (∃ st a st' b, t32_16.run [0xFF61] = .ok (st, a) ∧ t32_16.run [0x10000] = .ok (st', b) ∧ [0xFF61] < [0x10000] ∧ b < a) ∧
    (∃ st a st' b, t8_32.run [0xF0, 0x90, 0x80, 0x80] = .ok (st, a) ∧ t8_32.run [0xFF] = .ok (st', b) ∧
      ([0xF0, 0x90, 0x80, 0x80] : Str) < [0xFF] ∧ b < a) ∧
    (∃ st st' a, t32_8.run [0xD800] = .ok (st, a) ∧ t32_8.run [0xFFFD] = .ok (st', a)) := by
  refine ⟨?_, ?_, ?_⟩
  · obtain ⟨st, h1, _⟩ := C44_encode [0xFF61]
    obtain ⟨st', h2, _⟩ := C44_encode [0x10000]
    exact ⟨st, _, st', _, h1, h2, by decide +kernel, by decide +kernel⟩
  · obtain ⟨st, a, h1, k1⟩ := C41_decode [0xF0, 0x90, 0x80, 0x80]
    obtain ⟨st', b, h2, k2⟩ := C41_decode [0xFF]
    have e1 := (k1 [0x10000]).1 (Reads.char (c := 0x10000) (s := []) (by decide) .nil)
    have e2 : (t8_32.run [0xFF]).map Prod.snd = .ok [0xFFFD] := by decide +kernel
    rw [h2] at e2
    have e2 : b = [0xFFFD] := Except.ok.inj e2
    exact ⟨st, a, st', b, h1, h2, by decide +kernel, by rw [← e1, e2]; decide +kernel⟩
  · obtain ⟨st, h1, _⟩ := C40_encode [0xD800]
    obtain ⟨st', h2, _⟩ := C40_encode [0xFFFD]
    exact ⟨st, st', _, h1, h2⟩

/-! "é" is found in "aé€é" at the two places where it is; "a" < "é" < "€" < "😀". -/
example : (t32_8.run [0x61, 0xE9, 0x20AC, 0xE9]).map Prod.snd = .ok ([0x61] ++ [0xC3, 0xA9] ++ [0xE2, 0x82, 0xAC, 0xC3, 0xA9]) := by decide +kernel
example : (t32_8.run [0xE9]).map Prod.snd = .ok [0xC3, 0xA9] := by decide +kernel
example : ([0x61] : Str) < [0xC3, 0xA9] ∧ ([0xC3, 0xA9] : Str) < [0xE2, 0x82, 0xAC] ∧ ([0xE2, 0x82, 0xAC] : Str) < [0xF0, 0x9F, 0x98, 0x80] := by decide +kernel

end Verif
