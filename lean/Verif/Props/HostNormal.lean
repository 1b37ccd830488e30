import Verif.Props.HostExact2
import Verif.Props.CodecSize
import Verif.Props.Normal

/-!
# C106: decoding a host name and encoding it again
-/

set_option linter.unusedSimpArgs false

namespace Verif
open Codec PctSpec PartsSpec Unicode

/-- A label that `puny_encoded` could have written for a label of Unicode text which is not taken for an encoded one itself: no `xn--` in front, or the encoding
of scalar values one of which at least is not ASCII. -/
def LabelCanonical (l : Str) : Prop :=
  ¬ b! "xn--" <+: l ∨ ∃ cs, (∀ c ∈ cs, Scalar c) ∧ (∃ c ∈ cs, 0x80 ≤ c) ∧ cs.length ≤ 2 ^ 37 ∧ LabelEncodes cs l

namespace HostNormal

/-- The code points that a label is read as. -/
inductive Cps : Str → List Nat → Prop
  | plain {l : Str} : ¬ idnaPrefix <+: l → Cps l (l.map UInt8.toNat)
  | puny {t : Str} {s : List Nat} : Puny.decode false t = .ok (.ok (s, [])) → Cps (idnaPrefix ++ t) (s.map fun c => if Scalar c then c else 0xFFFD)

theorem Cps.of {l d : Str} (h : LabelD l d) (ha : ∀ c ∈ l, c.toNat < 0x80) : ∃ c, Cps l c ∧ d = c.flatMap utf8 := by
  rcases h.inv with ⟨hn, rfl⟩ | ⟨t, s, rfl, hd, rfl⟩
  · exact ⟨_, .plain hn, (ascii_utf8 ha).2⟩
  · exact ⟨_, .puny hd, by unfold utf8Of; rw [List.flatMap_map]⟩

theorem Cps.inv {l : Str} {c : List Nat} (h : Cps l c) : (¬ idnaPrefix <+: l ∧ c = l.map UInt8.toNat) ∨
    ∃ t s, l = idnaPrefix ++ t ∧ Puny.decode false t = .ok (.ok (s, [])) ∧ c = s.map fun c => if Scalar c then c else 0xFFFD := by
  cases h with
  | plain h => exact .inl ⟨h, rfl⟩
  | puny h => exact .inr ⟨_, _, rfl, h, rfl⟩

theorem decoded_short {t : Str} {s : List Nat} (ht : t.length + 2 < szMod) (h : Puny.decode false t = .ok (.ok (s, []))) : s.length ≤ t.length := by
  rcases C32_total false t ht with k | k | ⟨y, k, hy, _⟩
  · rw [k] at h; simp at h
  · rw [k] at h; simp at h
  · rw [k] at h
    obtain rfl : y = s := (Prod.mk.inj (Except.ok.inj (Except.ok.inj h))).1
    exact hy

theorem Cps.good {l : Str} {c : List Nat} (h : Cps l c) (ha : ∀ x ∈ l, x.toNat < 0x80) (hl : l.length + 2 < szMod) :
    (∀ x ∈ c, Scalar x) ∧ c.length ≤ l.length ∧ ((0x2E : UInt8) ∉ l → 0x2E ∉ c) := by
  rcases h.inv with ⟨_, rfl⟩ | ⟨t, s, rfl, hd, rfl⟩
  · refine ⟨(ascii_utf8 ha).1, by simp, fun hd hm => ?_⟩
    obtain ⟨x, hx, e⟩ := List.mem_map.1 hm
    obtain rfl : x = 0x2E := UInt8.toNat_inj.1 e
    exact hd hx
  · have hsz : t.length + 2 < szMod := by simp at hl; omega
    refine ⟨fun x hx => ?_, ?_, fun hn hm => ?_⟩
    · obtain ⟨y, _, rfl⟩ := List.mem_map.1 hx
      split
      · assumption
      · decide
    · have := decoded_short hsz hd
      simp only [List.length_map, List.length_append]; omega
    · refine hn (label_low (.puny (C32_sound false t hsz s [] hd)) 0x2E ?_ (by decide))
      obtain ⟨y, hy, e⟩ := List.mem_map.1 hm
      unfold utf8Of
      refine List.mem_flatMap.2 ⟨y, hy, ?_⟩
      rw [e]; decide

/-- A label encoded again. -/
theorem label_again {l e : Str} {c : List Nat} (h : Cps l c) (ha : ∀ x ∈ l, x.toNat < 0x80) (hl : l.length ≤ 2 ^ 35) (he : LabelE c e) : e = l ↔ LabelCanonical l := by
  have hsz : l.length + 2 < szMod := by unfold szMod; omega
  obtain ⟨g1, g2, _⟩ := h.good ha hsz
  have hlen : c.length ≤ 2 ^ 37 := by omega
  have hs := labelE_spec g1 hlen he
  rcases h.inv with ⟨hn, rfl⟩ | ⟨t, s, rfl, hd, hc⟩
  · refine ⟨fun _ => .inl hn, fun _ => ?_⟩
    rcases he.inv g1 hlen with ⟨_, hb⟩ | ⟨⟨x, hx, hx'⟩, _⟩
    · exact toNat_map_inj hb
    · obtain ⟨y, hy, rfl⟩ := List.mem_map.1 hx
      have := ha y hy
      omega
  · have hszt : t.length + 2 < szMod := by simp at hsz; omega
    constructor
    · intro e0
      rcases he.inv g1 hlen with ⟨_, hb⟩ | ⟨hx, _⟩
      · exfalso
        have h1 := congrArg List.length hb
        have h2 := decoded_short hszt hd
        rw [e0, hc] at h1
        simp [idnaPrefix] at h1
        omega
      · exact .inr ⟨c, g1, hx, hlen, e0 ▸ hs⟩
    · rintro (hn | ⟨cs, k1, k2, k3, k4⟩)
      · exact absurd ⟨t, rfl⟩ hn
      · have hcs : s = cs := by
          obtain ⟨l', k4, el⟩ : ∃ l', LabelEncodes cs l' ∧ l' = idnaPrefix ++ t := ⟨_, k4, rfl⟩
          cases k4 with
          | ascii hx _ => obtain ⟨x, hm, hx'⟩ := k2; have := hx x hm; omega
          | puny _ _ _ hdec =>
            have et := List.append_cancel_left (as := idnaPrefix) el
            rw [et] at hdec
            have := C32_complete false t cs (punyInput_of k1 k3) hdec
            rw [hd] at this
            exact (Prod.mk.inj (Except.ok.inj (Except.ok.inj this))).1
        subst hcs
        have hcc : c = s := by
          rw [hc]
          conv => rhs; rw [← List.map_id s]
          exact List.map_congr_left fun x hx => if_pos (k1 x hx)
        subst hcc
        have hbig : e.length + 2 < 2 ^ 64 := by
          have := label_encoded_size hs 18 (fun x hx => by have := g1 x hx; unfold Scalar at this; omega) (by omega)
          omega
        exact labelEncodes_unique g1 hlen hbig hsz hs k4

theorem each_cps {ls ds : List Str} (h : Each LabelD ls ds) (ha : ∀ l ∈ ls, ∀ c ∈ l, c.toNat < 0x80) :
    ∃ cs, Each Cps ls cs ∧ ds = cs.map fun c => c.flatMap utf8 := by
  induction h with
  | nil => exact ⟨[], .nil, rfl⟩
  | cons h _ ih =>
    obtain ⟨c, h1, h2⟩ := Cps.of h (ha _ (by simp))
    obtain ⟨cs, h3, h4⟩ := ih fun l hl => ha l (by simp [hl])
    exact ⟨c :: cs, .cons h1 h3, by rw [h2, h4]; rfl⟩

theorem each_again {ls es : List Str} {cs : List (List Nat)} (h : Each Cps ls cs) (k : Each LabelE cs es) (ha : ∀ l ∈ ls, ∀ c ∈ l, c.toNat < 0x80)
    (hl : ∀ l ∈ ls, l.length ≤ 2 ^ 35) : es = ls ↔ ∀ l ∈ ls, LabelCanonical l := by
  induction h generalizing es with
  | nil => cases k; simp
  | cons h _ ih =>
    cases k with
    | cons k1 k2 =>
      have i1 := label_again h (ha _ (by simp)) (hl _ (by simp)) k1
      have i2 := ih k2 (fun l h => ha l (by simp [h])) (fun l h => hl l (by simp [h]))
      rw [List.cons.injEq, i1, i2]
      simp

theorem labels_utf8 {cs : List (List Nat)} (hne : cs ≠ []) (hc : ∀ c ∈ cs, (∀ x ∈ c, Scalar x) ∧ 0x2E ∉ c) :
    Labels 0x2E (joined 0x2E cs) cs ∧ IsUtf8 (joined 0x2E (cs.map fun c => c.flatMap utf8)) (joined 0x2E cs) ∧
    Labels 0x2E (joined 0x2E (cs.map fun c => c.flatMap utf8)) (cs.map fun c => c.flatMap utf8) := by
  refine ⟨⟨hne, fun c h => (hc c h).2, rfl⟩, ⟨?_, (joined_flatMap utf8 0x2E 0x2E (by decide) cs).symm⟩, by simpa using hne, ?_, rfl⟩
  · have key : ∀ cs : List (List Nat), (∀ c ∈ cs, ∀ x ∈ c, Scalar x) → ∀ x ∈ joined 0x2E cs, Scalar x := by
      intro cs
      induction cs with
      | nil => intro _ x hx; simp [joined] at hx
      | cons c cs ih =>
        intro h x hx
        by_cases e : cs = []
        · subst e; exact h c (by simp) x hx
        · rw [joined_cons c e] at hx
          simp only [List.mem_append, List.mem_cons] at hx
          rcases hx with hx | rfl | hx
          · exact h c (by simp) x hx
          · decide
          · exact ih (fun c h' => h c (by simp [h'])) x hx
    exact key cs fun c h => (hc c h).1
  · intro x hx
    obtain ⟨c, hm, rfl⟩ := List.mem_map.1 hx
    exact utf8_nodot (hc c hm).1 (hc c hm).2

/-- Everything about an ASCII host name that can be decoded: its labels, the code points they are read as, and what they are encoded as again. -/
theorem again {s d : Str} {b : Bool} (ha : ∀ c ∈ s, c.toNat < 0x80) (hl : s.length ≤ 2 ^ 35) (h : punyDecoded s = .ok (d, .ok b)) :
    ∃ ls cs es, Labels 0x2E s ls ∧ Each Cps ls cs ∧ Each LabelE cs es ∧ d = joined 0x2E (cs.map fun c => c.flatMap utf8) ∧ IsUtf8 d (joined 0x2E cs) ∧
      Labels 0x2E d (cs.map fun c => c.flatMap utf8) ∧ punyEncoded d = .ok (joined 0x2E es, (joined 0x2E cs).any fun c => decide (0x80 ≤ c)) ∧
      Labels 0x2E (joined 0x2E es) es ∧ d.length ≤ 2 ^ 37 ∧ (∀ c ∈ cs, (∀ x ∈ c, Scalar x) ∧ c.length ≤ 2 ^ 37) ∧
      (∀ l ∈ ls, (∀ c ∈ l, c.toNat < 0x80) ∧ l.length ≤ 2 ^ 35) := by
  have hsz : s.length + 2 < szMod := by unfold szMod; omega
  obtain ⟨ls, h1, ⟨ds, h2, h3⟩ | ⟨_, _, _, _, e, _, _, _, h3⟩⟩ := punyDecoded_eq s hsz
  rotate_left
  · rw [h] at h3; simp at h3
  rw [h] at h3
  have hd : d = joined 0x2E ds := (Prod.mk.inj (Except.ok.inj h3)).1
  have hla : ∀ l ∈ ls, (∀ c ∈ l, c.toNat < 0x80) ∧ l.length ≤ 2 ^ 35 := fun l hm => by
    have := length_le_joined (sep := (0x2E : UInt8)) hm
    rw [← h1.2.2] at this
    exact ⟨fun c hc => ha c (by rw [h1.2.2]; exact Codec.mem_joined hm hc), by omega⟩
  have hsize : d.length ≤ 4 * s.length :=
    host_decoded_size ⟨ls, ds, h1, h2.mono fun l hm d hld => labelD_spec (by have := (hla l hm).2; unfold szMod; omega) hld, hd⟩
  obtain ⟨cs, h4, rfl⟩ := each_cps h2 fun l hm => (hla l hm).1
  have hcs : ∀ c ∈ cs, (∀ x ∈ c, Scalar x) ∧ c.length ≤ 2 ^ 37 ∧ 0x2E ∉ c := fun c hc => by
    obtain ⟨l, hm, hlc⟩ := Codec.each_right h4 c hc
    obtain ⟨a, b⟩ := hla l hm
    obtain ⟨g1, g2, g3⟩ := hlc.good a (by unfold szMod; omega)
    exact ⟨g1, by omega, g3 (h1.2.1 l hm)⟩
  have hne : cs ≠ [] := by
    rintro rfl
    cases h4
    exact h1.1 rfl
  obtain ⟨u1, u2, u3⟩ := labels_utf8 hne fun c hc => ⟨(hcs c hc).1, (hcs c hc).2.2⟩
  rw [← hd] at u2 u3
  obtain ⟨cs', ls', es, k1, k2, k3, k4, k5, k6⟩ := punyEncoded_eq d (by omega)
  obtain rfl := reads_unique k1 (isUtf8_reads u2)
  obtain rfl := Labels.unique k4 u1
  obtain ⟨k7, _⟩ := encoded_labels k4 k5 fun l hm => ⟨(hcs l hm).1, (hcs l hm).2.1⟩
  exact ⟨ls, ls', es, h1, h4, k5, hd, u2, u3, k6, k7, by omega, fun c hc => ⟨(hcs c hc).1, (hcs c hc).2.1⟩, hla⟩

end HostNormal

open HostNormal

/-- **C106.** An ASCII host name that can be decoded can be encoded again.  What comes out is the host name itself if and only if every label is either not
an `xn--` label or the encoding of some label of Unicode scalar values that is not ASCII. -/
theorem C106_again (s d : Str) (b : Bool) (ha : ∀ c ∈ s, c.toNat < 0x80) (hl : s.length ≤ 2 ^ 35) (h : punyDecoded s = .ok (d, .ok b)) :
    ∃ e b', punyEncoded d = .ok (e, b') ∧ (e = s ↔ ∀ ls, Labels 0x2E s ls → ∀ l ∈ ls, LabelCanonical l) := by
  obtain ⟨ls, cs, es, h1, h2, h3, _, _, _, h4, h5, _, _, h6⟩ := again ha hl h
  refine ⟨_, _, h4, ?_⟩
  have hk := each_again h2 h3 (fun l hm => (h6 l hm).1) fun l hm => (h6 l hm).2
  have e1 : joined 0x2E es = s ↔ es = ls := ⟨fun e => Labels.unique (e ▸ h5) h1, fun e => by rw [e, ← h1.2.2]⟩
  rw [e1, hk]
  constructor
  · intro k ls' hls'
    obtain rfl := Labels.unique hls' h1
    exact k
  · exact fun k => k ls h1

/-- **C106.** Decoding what came out gives the same text as before if and only if no label of that text is ASCII and begins with `xn--`; the label structure is
kept, and then what came out is canonical: doing it again changes nothing. -/
theorem C106_stable (s d e : Str) (b b' : Bool) (ha : ∀ c ∈ s, c.toNat < 0x80) (hl : s.length ≤ 2 ^ 35) (h : punyDecoded s = .ok (d, .ok b))
    (he : punyEncoded d = .ok (e, b')) : ((∃ r, punyDecoded e = .ok (d, .ok r)) ↔ NoAce d) ∧ (NoAce d → ∀ es, Labels 0x2E e es → ∀ l ∈ es, LabelCanonical l) ∧
    (∀ c ∈ e, c.toNat < 0x80) ∧ ∃ ls es, Labels 0x2E s ls ∧ Labels 0x2E e es ∧ ls.length = es.length := by
  obtain ⟨ls, cs, es, h1, h2, h3, h4, h5, h6, h7, h8, h9, h10, h11⟩ := again ha hl h
  rw [he] at h7
  obtain ⟨rfl, rfl⟩ := Prod.mk.inj (Except.ok.inj h7)
  have hex := C34_exact d h9
  refine ⟨⟨fun ⟨r, hr⟩ => (hex.1 ⟨_, _, r, he, hr⟩).2, fun hn => ?_⟩, fun hn es' hes' l hm => ?_, ?_, ls, es, h1, h8, ?_⟩
  · obtain ⟨e', b'', r, k1, k2⟩ := hex.2 ⟨⟨_, h5⟩, hn⟩
    rw [he] at k1
    obtain ⟨rfl, _⟩ := Prod.mk.inj (Except.ok.inj k1)
    exact ⟨r, k2⟩
  · obtain rfl := Labels.unique hes' h8
    obtain ⟨c, hc, hce⟩ := Codec.each_right h3 l hm
    have hsp := labelE_spec (h10 c hc).1 (h10 c hc).2 hce
    rcases hce.inv (h10 c hc).1 (h10 c hc).2 with ⟨a, k⟩ | ⟨k, _⟩
    · refine .inl ?_
      have hla : ∀ x ∈ l, x.toNat < 0x80 := fun x hx => a _ (by rw [← k]; exact List.mem_map.2 ⟨x, hx, rfl⟩)
      have e1 : c.flatMap utf8 = l := by rw [← k]; exact (ascii_utf8 hla).2.symm
      exact hn _ h6 l (List.mem_map.2 ⟨c, hc, e1⟩) hla
    · exact .inr ⟨c, (h10 c hc).1, k, (h10 c hc).2, hsp⟩
  · obtain ⟨_, e2, _, _, k2, _, _, _, k3⟩ := C34_encode d h9
    rw [he] at k2
    obtain ⟨rfl, _⟩ := Prod.mk.inj (Except.ok.inj k2)
    exact k3
  · have : ∀ {α β : Type} {R : α → β → Prop} {as bs}, Each R as bs → as.length = bs.length := fun h => by
      induction h with
      | nil => rfl
      | cons _ _ ih => simp [ih]
    rw [this h2, this h3]

/-- **C106.** So it is a normal form of the names that are decoded to no such text: two of them are encoded again to the same exactly if they are decoded to the same. -/
theorem C106_normal_form (s t d1 d2 e1 e2 : Str) (a1 a2 b1 b2 : Bool) (hs : ∀ c ∈ s, c.toNat < 0x80) (ht : ∀ c ∈ t, c.toNat < 0x80) (hls : s.length ≤ 2 ^ 35)
    (hlt : t.length ≤ 2 ^ 35) (h1 : punyDecoded s = .ok (d1, .ok a1)) (h2 : punyDecoded t = .ok (d2, .ok a2)) (n1 : NoAce d1) (n2 : NoAce d2)
    (k1 : punyEncoded d1 = .ok (e1, b1)) (k2 : punyEncoded d2 = .ok (e2, b2)) : e1 = e2 ↔ d1 = d2 := by
  obtain ⟨r1, i1⟩ := (C106_stable s d1 e1 a1 b1 hs hls h1 k1).1.2 n1
  obtain ⟨r2, i2⟩ := (C106_stable t d2 e2 a2 b2 ht hlt h2 k2).1.2 n2
  constructor
  · rintro rfl
    rw [i1] at i2
    exact (Prod.mk.inj (Except.ok.inj i2)).1
  · rintro rfl
    rw [k1] at k2
    exact (Prod.mk.inj (Except.ok.inj k2)).1

/-! ### What comes out is a reg-name again -/

namespace HostNormal
open Abnf

theorem regName_cut {c : UInt8} (hc : isXDigitB c = false ∧ c ≠ 0x25) {a b : Str} (h : regName (a ++ c :: b)) : regName a ∧ regName b := by
  obtain ⟨es, h1, h2, _⟩ := h
  induction es generalizing a with
  | nil => simp at h1
  | cons e es ih =>
    have he := (reg_elem e).1 (h2 e (by simp))
    have hes : ∀ e ∈ es, (alt unreserved (alt pctEncoded subDelims)) e := fun x hx => h2 x (by simp [hx])
    rw [List.flatten_cons] at h1
    have more : ∀ {a' : Str}, regName a' → regName (e ++ a') := fun {a'} ⟨xs, k1, k2, _⟩ =>
      ⟨e :: xs, by rw [k1]; rfl, fun x hx => by
        rcases List.mem_cons.1 hx with rfl | hx
        · exact h2 _ (by simp)
        · exact k2 x hx, by simp, by simp⟩
    rcases he with ⟨x, rfl, hx⟩ | ⟨x, y, rfl, hx, hy⟩
    · cases a with
      | nil =>
        simp only [List.nil_append, List.singleton_append, List.cons.injEq] at h1
        exact ⟨⟨[], rfl, by simp, by simp, by simp⟩, es, h1.2, hes, by simp, by simp⟩
      | cons z a =>
        simp only [List.cons_append, List.nil_append, List.cons.injEq] at h1
        obtain ⟨rfl, h1⟩ := h1
        obtain ⟨i1, i2⟩ := ih h1 hes ⟨by simp, by simp⟩
        exact ⟨more i1, i2⟩
    · have ne : ∀ x : UInt8, isXDigitB x = true → x ≠ c := fun x hx e => by rw [e, hc.1] at hx; cases hx
      cases a with
      | nil => simp only [List.nil_append, List.cons_append, List.cons.injEq] at h1; exact absurd h1.1 hc.2
      | cons z a =>
        simp only [List.cons_append, List.nil_append, List.cons.injEq] at h1
        obtain ⟨rfl, h1⟩ := h1
        cases a with
        | nil => simp only [List.nil_append, List.cons.injEq] at h1; exact absurd h1.1.symm (ne _ hx)
        | cons z a =>
          simp only [List.cons_append, List.nil_append, List.cons.injEq] at h1
          obtain ⟨rfl, h1⟩ := h1
          cases a with
          | nil => simp only [List.nil_append, List.cons.injEq] at h1; exact absurd h1.1.symm (ne _ hy)
          | cons z a =>
            simp only [List.cons_append, List.nil_append, List.cons.injEq] at h1
            obtain ⟨rfl, h1⟩ := h1
            obtain ⟨i1, i2⟩ := ih h1 hes ⟨by simp, by simp⟩
            exact ⟨more i1, i2⟩

theorem regName_append {a b : Str} (h : regName a) (k : regName b) : regName (a ++ b) := by
  obtain ⟨xs, h1, h2, _⟩ := h
  obtain ⟨ys, k1, k2, _⟩ := k
  refine ⟨xs ++ ys, by rw [h1, k1, List.flatten_append], fun e he => ?_, by simp, by simp⟩
  rcases List.mem_append.1 he with he | he
  · exact h2 e he
  · exact k2 e he

theorem regName_joined (ls : List Str) (h : ∀ l ∈ ls, regName l) : regName (joined 0x2E ls) := by
  induction ls with
  | nil => exact ⟨[], rfl, by simp, by simp, by simp⟩
  | cons l ls ih =>
    by_cases e : ls = []
    · subst e; exact h l (by simp)
    · rw [joined_cons l e]
      exact regName_append (h l (by simp)) (regName_append (a := [0x2E]) (regName_of [0x2E] (by decide)) (ih fun x hx => h x (by simp [hx])))

theorem regName_labels {s : Str} {ls : List Str} (h : Labels 0x2E s ls) (hs : regName s) : ∀ l ∈ ls, regName l := by
  obtain ⟨_, _, rfl⟩ := h
  induction ls with
  | nil => simp
  | cons l ls ih =>
    by_cases e : ls = []
    · subst e; intro x hx; simp only [List.mem_singleton] at hx; subst hx; exact hs
    · rw [joined_cons l e] at hs
      obtain ⟨h1, h2⟩ := regName_cut (c := 0x2E) (by decide) hs
      intro x hx
      rcases List.mem_cons.1 hx with rfl | hx
      · exact h1
      · exact ih e (fun y hy => (by assumption : ∀ y ∈ l :: ls, ¬ 46 ∈ y) y (by simp [hy])) h2 x hx

theorem run_basics {bias n i : Nat} {out : List Nat} {text : Str} {final : List Nat} (h : Rfc3492.Run bias n i out text final) (hn : 0x80 ≤ n) :
    final.filter (· < 0x80) = out.filter (· < 0x80) := by
  induction h with
  | done => rfl
  | step _ _ _ ih =>
    rw [ih (Nat.le_trans hn (Nat.le_add_right _ _))]
    unfold Rfc3492.inserted
    rw [List.filter_append, List.filter_cons_of_neg (by simpa using Nat.le_trans hn (Nat.le_add_right _ _)), ← List.filter_append, List.take_append_drop]

theorem filter_low {l : Str} (h : ∀ c ∈ l, c.toNat < 0x80) : (l.map UInt8.toNat).filter (· < 0x80) = l.map UInt8.toNat := by
  rw [List.filter_eq_self]
  intro x hx
  obtain ⟨c, hc, rfl⟩ := List.mem_map.1 hx
  simpa using h c hc

/-- The literal part of a label is what is ASCII of the label it is read as. -/
theorem decodes_basics {t : Str} {s : List Nat} (ht : t.length + 2 < szMod) (h : Puny.decode false t = .ok (.ok (s, []))) (hr : regName t) :
    ∃ lit : Str, s.filter (· < 0x80) = lit.map UInt8.toNat ∧ regName lit := by
  have nil : regName [] := ⟨[], rfl, by simp, by simp, by simp⟩
  rcases C32_sound false t ht s [] h with (⟨_, h⟩ | ⟨lit, ext, rfl, _, _, hl, h⟩) | ⟨ext, rfl, hno, (⟨_, h⟩ | ⟨lit, ext', rfl, _⟩)⟩
  · exact ⟨[], run_basics h (by decide), nil⟩
  · exact ⟨lit, by rw [run_basics h (by decide), filter_low hl], (regName_cut (c := 0x2D) (by decide) hr).1⟩
  · exact ⟨[], run_basics h (by decide), nil⟩
  · exact absurd (by simp) hno

theorem label_regName {l e : Str} {c : List Nat} (h : Cps l c) (ha : ∀ x ∈ l, x.toNat < 0x80) (hl : l.length ≤ 2 ^ 35) (he : LabelE c e) (hr : regName l) : regName e := by
  have hsz : l.length + 2 < szMod := by unfold szMod; omega
  obtain ⟨g1, g2, _⟩ := h.good ha hsz
  have hs := labelE_spec g1 (by omega) he
  rcases h.inv with ⟨hn, rfl⟩ | ⟨t, s, rfl, hd, hc⟩
  · rw [(label_again h ha hl he).2 (.inl hn)]; exact hr
  · have hszt : t.length + 2 < szMod := by simp at hsz; omega
    have hrt : regName t := (regName_cut (a := b! "xn-") (c := 0x2D) (by decide) hr).2
    obtain ⟨lit, k1, k2⟩ := decodes_basics hszt hd hrt
    have hcf : c.filter (· < 0x80) = lit.map UInt8.toNat := by
      rw [← k1, hc]
      clear hd hc g1 g2 hs he h k1
      induction s with
      | nil => rfl
      | cons x s ih =>
        rw [List.map_cons, List.filter_cons, List.filter_cons, ih]
        by_cases hx : Scalar x
        · rw [if_pos hx]
        · have : ¬ x < 0x80 := by unfold Scalar at hx; omega
          simp [hx, this]
    cases hs with
    | ascii a b =>
      have : e = lit := by
        apply toNat_map_inj
        rw [b, ← hcf]
        exact (List.filter_eq_self.2 fun x hx => by simpa using a x hx).symm
      rw [this]; exact k2
    | @puny basics ext hx hb hlow _ =>
      obtain rfl : basics = lit := toNat_map_inj (hb.trans hcf)
      refine regName_append (regName_of (b! "xn--") (by decide)) (regName_append (regName_append k2 ?_) (regName_of ext fun c hc => ?_))
      · split
        · exact ⟨[], rfl, by simp, by simp, by simp⟩
        · exact regName_of [0x2D] (by decide)
      · have := hlow c hc
        revert this
        unfold LowerAlnum
        exact byte_prop (fun c => (0x61 ≤ c.toNat ∧ c.toNat ≤ 0x7A) ∨ (0x30 ≤ c.toNat ∧ c.toNat ≤ 0x39) → isRegChar c = true) (by decide +kernel) c

end HostNormal

/-- **C106.** A reg-name becomes a reg-name. -/
theorem C106_reg_name (s d e : Str) (b b' : Bool) (hr : Abnf.regName s) (hl : s.length ≤ 2 ^ 35) (h : punyDecoded s = .ok (d, .ok b))
    (he : punyEncoded d = .ok (e, b')) : Abnf.regName e := by
  have ha : ∀ c ∈ s, c.toNat < 0x80 := fun c hc => by
    have := only_regName _ hr c hc
    revert this
    exact byte_prop (fun c => isUserinfoChar c = true → c.toNat < 0x80) (by decide +kernel) c
  obtain ⟨ls, cs, es, h1, h2, h3, _, _, _, h4, _, _, _, h6⟩ := again ha hl h
  rw [he] at h4
  obtain ⟨rfl, _⟩ := Prod.mk.inj (Except.ok.inj h4)
  have key : ∀ {ls es : List Str} {cs : List (List Nat)}, Each Cps ls cs → Each LabelE cs es → (∀ l ∈ ls, (∀ c ∈ l, c.toNat < 0x80) ∧ l.length ≤ 2 ^ 35) →
      (∀ l ∈ ls, Abnf.regName l) → ∀ x ∈ es, Abnf.regName x := by
    intro ls es cs h2
    induction h2 generalizing es with
    | nil => intro h3; cases h3; simp
    | cons a _ ih =>
      intro h3 h6 hreg
      cases h3 with
      | cons k1 k2 =>
        intro x hx
        rcases List.mem_cons.1 hx with rfl | hx
        · exact label_regName a (h6 _ (by simp)).1 (h6 _ (by simp)).2 k1 (hreg _ (by simp))
        · exact ih k2 (fun l hl => h6 l (by simp [hl])) (fun l hl => hreg l (by simp [hl])) x hx
  exact regName_joined es (key h2 h3 h6 (regName_labels h1 hr))

/-! ### Values -/

namespace HostNormal

/-- The host of a value that is decoded and encoded again: it is not decoded if it is decoded to nothing. -/
theorem host_rewritten {s d : Str} {b : Bool} (ha : ∀ c ∈ s, c.toNat < 0x80) (hl : s.length ≤ 2 ^ 35) (h : punyDecoded s = .ok (d, .ok b)) :
    (rewriteT decSz decOut .host s).length ≤ 2 ^ 37 ∧ (rewriteT encSz encOut .host (rewriteT decSz decOut .host s) = s ↔
      (∀ ls, Labels 0x2E s ls → ∀ l ∈ ls, LabelCanonical l) ∨ s = b! "xn--" ∨ s = b! "xn---") := by
  have hsz : s.length + 2 < szMod := by unfold szMod; omega
  have hstay : rewriteT encSz encOut .host s = s := by
    obtain ⟨cs, e, b, h1, h2, _, h4, h5, _⟩ := C34_encode s (by omega)
    have hb : b = false := by
      cases b with
      | false => rfl
      | true =>
        obtain ⟨c, hc, hc'⟩ := h4.1 rfl
        rw [reads_unique h1 (isUtf8_reads (ascii_utf8 ha))] at hc
        obtain ⟨x, hx, rfl⟩ := List.mem_map.1 hc
        have := ha x hx
        omega
    subst hb
    simp [rewriteT, encSz, h2]
  by_cases hb : b = true ∧ d ≠ []
  · obtain ⟨rfl, hd⟩ := hb
    have hdec : rewriteT decSz decOut .host s = d := by simp [rewriteT, decSz, decRes, decOut, h, hd]
    obtain ⟨_, _, _, _, _, _, _, _, _, _, _, h9, _⟩ := again ha hl h
    obtain ⟨e, b', k1, k2⟩ := C106_again s d true ha hl h
    rw [hdec]
    refine ⟨h9, ?_⟩
    obtain ⟨cs, e', b'', i1, i2, _, i4, i5, _⟩ := C34_encode d h9
    rw [k1] at i2
    obtain ⟨rfl, rfl⟩ := Prod.mk.inj (Except.ok.inj i2)
    have henc : rewriteT encSz encOut .host d = e := by
      cases b' with
      | false => rw [i5.1 rfl]; simp [rewriteT, encSz, k1]
      | true =>
        obtain ⟨_, _, _, _, j2, _, _, _, j6, _⟩ := host_encoded d h9
        rw [k1] at j2
        obtain ⟨rfl, rfl⟩ := Prod.mk.inj (Except.ok.inj j2)
        have hne := (j6 rfl).2
        simp [rewriteT, encSz, encOut, k1, hne]
    rw [henc, k2]
    refine ⟨.inl, fun k => ?_⟩
    rcases k with k | rfl | rfl
    · exact k
    · have : punyDecoded (b! "xn--") = .ok ([], .ok true) := by decide +kernel
      rw [this] at h
      exact absurd (Prod.mk.inj (Except.ok.inj h)).1.symm hd
    · have : punyDecoded (b! "xn---") = .ok ([], .ok true) := by decide +kernel
      rw [this] at h
      exact absurd (Prod.mk.inj (Except.ok.inj h)).1.symm hd
  · have hdec : rewriteT decSz decOut .host s = s := by
      cases b with
      | false => simp [rewriteT, decSz, decRes, h]
      | true =>
        have : d = [] := Classical.byContradiction fun k => hb ⟨rfl, k⟩
        simp [rewriteT, decSz, decRes, h, this]
    rw [hdec, hstay]
    refine ⟨by omega, fun _ => ?_, fun _ => rfl⟩
    cases b with
    | true =>
      have : d = [] := Classical.byContradiction fun k => hb ⟨rfl, k⟩
      subst this
      exact .inr (dec_nothing hsz h)
    | false =>
      refine .inl fun ls hls l hm => .inl fun hpre => ?_
      obtain ⟨ls', h1, ⟨ds, h2, h3⟩ | ⟨_, _, _, _, e, _, _, _, h3⟩⟩ := punyDecoded_eq s hsz
      · rw [h] at h3
        obtain rfl := Labels.unique hls h1
        have h3 := (Except.ok.inj (Prod.mk.inj (Except.ok.inj h3)).2).symm
        have := List.any_eq_false.1 h3 l hm
        exact this (decide_eq_true (show idnaPrefix <+: l from hpre))
      · rw [h] at h3; simp at h3

end HostNormal

/-- **C106.** Decoding a valid URI value whose host can be decoded, and encoding the result: both succeed; scheme and port stay; the host stays exactly if its
labels are canonical (or it is `xn--` or `xn---`, which `decode` leaves alone); the other strings become their normal forms, as in C105; and the result is valid
exactly if no string stood for a character that encoding leaves alone and the parser accepts the new host. -/
theorem C106_parts (pl : Plat) (hp hp' : Heap) (store store' : Store) (p : Parts SV) (hn : p.path.segments.length + 6 ≤ 2 ^ 32)
    (haddr : ∀ n, hp.addr n ≠ 0) (hstore : store.cap ≠ 0 → store.addr ≠ 0) (hnull : ∀ v ∈ p.views, v.ptr = 0 → v.chars = [])
    (hv : p.valid pl = .ok true) (hh : ∀ a, p.authority = some a → a.host.chars.length ≤ 2 ^ 35 ∧ ∃ d b, punyDecoded a.host.chars = .ok (d, .ok b)) :
    ∃ q st r st', decode hp store p = .ok (.ok q, st) ∧ encode hp' store' q = .ok (r, st') ∧
      Related (fun fld v w => (fld = .scheme ∨ fld = .port → w.chars = v.chars) ∧
        (fld = .host → (w.chars = v.chars ↔ (∀ ls, Labels 0x2E v.chars ls → ∀ l ∈ ls, LabelCanonical l) ∨ v.chars = b! "xn--" ∨ v.chars = b! "xn---")) ∧
        (Coded fld → (∃ d, Decodes v.chars d ∧ Encodes (encodeSet fld) d w.chars) ∧ (w.chars = v.chars ↔ Canonical (encodeSet fld) v.chars))) p r ∧
      (r.valid pl = .ok true ↔ (∀ fld v d, InField p fld v → Coded fld → Decodes v.chars d → ∀ c ∈ d, c ∉ leftAlone fld) ∧
        ∀ a, r.authority = some a → Abnf.HostAccepted a.host.chars) := by
  obtain ⟨hs, hc⟩ := (components_fields p).1 (C13_valid_sound pl p hv)
  have hhost : ∀ v, InField p .host v → (∃ d b, punyDecoded v.chars = .ok (d, .ok b)) ∧ v.chars.length ≤ 2 ^ 35 ∧ ∀ c ∈ v.chars, c.toNat < 0x80 := fun v hin => by
    have k := hc .host v hin
    obtain ⟨a, h, rfl⟩ := hin
    exact ⟨(hh a h).2, (hh a h).1, host_ascii k⟩
  have hfield : ∀ fld v, InField p fld v → fld ≠ .host → ((fld = .scheme ∨ fld = .port) → rewriteT encSz encOut fld (rewriteT decSz decOut fld v.chars) = v.chars) ∧
      (Coded fld → rewriteT encSz encOut fld (rewriteT decSz decOut fld v.chars) = encP (encSetOf fld) (decP v.chars)) := fun fld v hin hf => by
    obtain ⟨k1, k2⟩ := field_norm (hc fld v hin) fun e => absurd e hf
    exact ⟨fun e => (k1 (e.elim .inl fun e => .inr (.inr e))).1, k2⟩
  rcases decode_eq hp store (p := p) hn (fun v hin => by obtain ⟨⟨d, b, k⟩, _⟩ := hhost v hin; exact ⟨_, k⟩) with
    ⟨q, st, h1, ⟨n, hn', h2, h2', _⟩, _, h4, _⟩ | ⟨e, x, st', _, hx, he⟩
  rotate_left
  · obtain ⟨_, hxin, _, _⟩ := mem_visits (p := p) hn hx
    exfalso
    by_cases hf : x.fld = .host
    · rw [hf] at hxin
      obtain ⟨⟨d, b, k⟩, _⟩ := hhost _ hxin
      rw [decRes, if_pos hf, k] at he
      cases he
    · rw [decRes, if_neg hf] at he
      cases he
  have haddr' : st.chars.length ≠ 0 → st.addr ≠ 0 := by
    intro k
    rw [h2]
    unfold Store.reserve
    split
    · exact hstore (by omega)
    · exact haddr _
  have hnull' : ∀ v ∈ q.views, v.ptr = 0 → v.chars = [] := by
    intro w hw h0
    obtain ⟨fld, hin⟩ := (views_field q w).1 hw
    obtain ⟨v, hv, hr⟩ := field_back h4 hin
    rcases hr with ⟨rfl, _⟩ | ⟨_, _, _, ⟨off, c, d, _⟩⟩
    · exact hnull w ((views_field p w).2 ⟨fld, hv⟩) h0
    · cases hc : w.chars with
      | nil => rfl
      | cons x xs =>
        rw [hc] at d
        simp at d
        have := haddr' (by omega)
        omega
  have hR1 := rewritten_text h4 hnull decT_nil
  obtain ⟨r, st', k1, _, _, k4⟩ := encode_eq hp' store' (p := q) (by rw [each_len h4.segments]; exact hn) (fun w hw => by
    obtain ⟨v, hv, e⟩ := field_back hR1 hw
    obtain ⟨⟨d, b, a1⟩, a2, a3⟩ := hhost v hv
    rw [e]; exact (host_rewritten a3 a2 a1).1)
  have hR2 := rewritten_text k4 hnull' encT_nil
  have hR : Related (fun fld v w => w.chars = rewriteT encSz encOut fld (rewriteT decSz decOut fld v.chars)) p r :=
    (hR1.comp hR2).mono fun fld v w _ ⟨x, e1, e2⟩ => by rw [e2, e1]
  refine ⟨q, st, r, st', h1, k1, hR.mono fun fld v w hin e => ⟨fun k => ?_, fun k => ?_, fun k => ?_⟩, ?_, ?_⟩
  · rw [e]
    exact (hfield fld v hin (by rcases k with rfl | rfl <;> decide)).1 k
  · subst k
    obtain ⟨⟨d, b, a1⟩, a2, a3⟩ := hhost v hin
    rw [e]; exact (host_rewritten a3 a2 a1).2
  · have hset : encSetOf fld ≠ 0 := by rcases k with rfl | rfl | rfl | rfl <;> decide
    have hf : fld ≠ .host := by rcases k with rfl | rfl | rfl | rfl <;> decide
    rw [(hfield fld v hin hf).2 k] at e
    rw [← encSet_iff fld hf]
    exact ⟨⟨decP v.chars, (decodes_iff _ _).2 rfl, (encodes_iff _ _ _).2 e⟩, by rw [e]; exact norm_iff _ hset _⟩
  · intro hrv
    obtain ⟨_, hcr⟩ := (components_fields r).1 (C13_valid_sound pl r hrv)
    refine ⟨fun fld v d hin k hd => ?_, fun a ha => hcr .host a.host ⟨a, ha, rfl⟩⟩
    have hf : fld ≠ .host := by rcases k with rfl | rfl | rfl | rfl <;> decide
    obtain ⟨w, hw, e⟩ := field_fwd hR hin
    have hw' := hcr fld w hw
    rw [e, (hfield fld v hin hf).2 k] at hw'
    rw [(decodes_iff _ _).1 hd]
    exact (coded_rule k _).1 hw'
  · rintro ⟨hall, hacc⟩
    refine C13_valid_complete pl r ((components_fields r).2 ⟨?_, fun fld w hin => ?_⟩)
    · intro e
      have := hR.scheme
      rw [e] at this
      cases hp' : p.scheme with
      | none => exact hs hp'
      | some s => rw [hp'] at this; cases this
    · by_cases hf : fld = .host
      · subst hf
        obtain ⟨a, ha, rfl⟩ := hin
        exact hacc a ha
      · obtain ⟨v, hv', e⟩ := field_back hR hin
        rcases settled_or fld with k | k
        · rw [e, (hfield fld v hv' hf).1 (by rcases k with k | k | k; exact .inl k; exact absurd k hf; exact .inr k)]; exact hc fld v hv'
        · rw [e, (hfield fld v hv' hf).2 k]
          exact (coded_rule k _).2 (hall fld v _ hv' k ((decodes_iff _ _).2 rfl))

/-- Decode and encode a host name. -/
def hostAgain (s : Str) : Option Str := ((punyDecoded s).toOption.bind fun r => r.2.toOption.map fun _ => r.1).bind fun d => (punyEncoded d).toOption.map (·.1)

/-- **C106.** What the conditions exclude: digits in upper case, a label that was ASCII and need not have been encoded, a lone delimiter, and a surrogate, which is
replaced by U+FFFD. -/
theorem C106_not_canonical_counterexamples : hostAgain (b! "xn--bcher-KVA.x") = some (b! "xn--bcher-kva.x") ∧ hostAgain (b! "xn--abc-.x") = some (b! "abc.x") ∧
    hostAgain (b! "xn---tda") = some (b! "xn--tda") ∧ hostAgain (b! "xn--ib9b") = some (b! "xn--zn7c") := by decide +kernel

/-- **C106.** `xn--xn--tda-` is decoded to `xn--tda`, an ASCII label that is encoded as it is, and then decoded to something else. -/
theorem C106_ace_counterexample : punyDecoded (b! "xn--xn--tda-") = .ok (b! "xn--tda", .ok true) ∧ punyEncoded (b! "xn--tda") = .ok (b! "xn--tda", false) ∧
    punyDecoded (b! "xn--tda") = .ok (b! "\u00fc", .ok true) := by decide +kernel

/-- **C106.** A reg-name that comes out can be an IPv4 address, or begin with one so that the parser does not accept it. -/
theorem C106_address_counterexample : hostAgain (b! "xn--127-.0.0.1") = some (b! "127.0.0.1") ∧
    (split x86 ⟨1, b! "s://xn--1-.2.3.4.com/"⟩).toOption.join.isSome = true ∧ hostAgain (b! "xn--1-.2.3.4.com") = some (b! "1.2.3.4.com") ∧
    (split x86 ⟨1, b! "s://1.2.3.4.com/"⟩).toOption.join.isSome = false := by decide +kernel

/-! `xn--bcher-kva.example` is canonical, and stays. -/
example : hostAgain (b! "xn--bcher-kva.example") = some (b! "xn--bcher-kva.example") := by decide +kernel
example : ∃ d b, punyDecoded (b! "xn--bcher-kva.example") = .ok (d, .ok b) ∧ NoAce d := ⟨b! "b\u00fccher.example", true, by decide +kernel, bucher_noAce⟩
example : ∀ ls, Labels 0x2E (b! "xn--bcher-kva.example") ls → ∀ l ∈ ls, LabelCanonical l := by
  obtain ⟨e, b', h1, h2⟩ := C106_again (b! "xn--bcher-kva.example") (b! "b\u00fccher.example") true (by decide) (by decide) (by decide +kernel)
  refine h2.1 ?_
  have : punyEncoded (b! "b\u00fccher.example") = .ok (b! "xn--bcher-kva.example", true) := by decide +kernel
  rw [this] at h1
  exact (Prod.mk.inj (Except.ok.inj h1)).1.symm

/-- `s://xn--bcher-KVA/%7e` -/
def aceSample : Parts SV := ⟨some ⟨1, b! "s"⟩, some ⟨none, ⟨5, b! "xn--bcher-KVA"⟩, none⟩, ⟨true, [⟨19, b! "%7e"⟩]⟩, none, none⟩

example : ∃ q st r st', decode heap0 store0 aceSample = .ok (.ok q, st) ∧ encode heap0 store0 q = .ok (r, st') ∧
    (r.valid x86 = .ok true ↔ (∀ fld v d, InField aceSample fld v → Coded fld → Decodes v.chars d → ∀ c ∈ d, c ∉ leftAlone fld) ∧
        ∀ a, r.authority = some a → Abnf.HostAccepted a.host.chars) := by
  obtain ⟨q, st, r, st', h1, h2, _, h3⟩ := C106_parts x86 heap0 heap0 store0 store0 aceSample (by decide) (by intro n; simp [heap0]) (by decide) (by decide) (by decide +kernel) (by
    intro a ha
    obtain rfl : (⟨none, ⟨5, b! "xn--bcher-KVA"⟩, none⟩ : Authority SV) = a := Option.some.inj ha
    exact ⟨by decide, b! "b\u00fccher", true, by decide +kernel⟩)
  exact ⟨q, st, r, st', h1, h2, h3⟩
example : renewed (b! "s://xn--bcher-KVA/%7e") = some (b! "s://xn--bcher-kva/~") := by decide +kernel

end Verif
