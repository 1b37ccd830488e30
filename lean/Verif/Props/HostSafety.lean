import Verif.Props.PartsCodec
import Verif.Props.Safety

/-!
# Property C58: decoding and encoding a host brings in no ASCII that was not there
-/

set_option linter.unusedSimpArgs false

namespace Verif
open Codec PartsSpec Unicode

/-- The same number of labels, and every ASCII byte of a label on the right is in the label at that place on the left. -/
def LabelsKept (s d : Str) : Prop :=
  ∃ ls ds, Labels 0x2E s ls ∧ Labels 0x2E d ds ∧ Each (fun l m => ∀ c ∈ m, c.toNat < 0x80 → c ∈ l) ls ds

theorem utf8_low {c : Nat} (hc : Scalar c) {b : UInt8} (hb : b ∈ utf8 c) (h : b.toNat < 0x80) : c = b.toNat := by
  have hs := Icu.utf8_shape hc
  generalize utf8 c = u at *
  cases hs with
  | one _ => simp at hb; rw [hb]
  | two h1 h2 h3 => simp [Icu.Cont] at hb h3; rcases hb with rfl | rfl <;> omega
  | three h1 h2 =>
    simp [Icu.Cont, Icu.Lead3] at hb h1 h2
    rcases hb with rfl | rfl | rfl <;> omega
  | four h1 h2 h3 =>
    simp [Icu.Cont, Icu.Lead4] at hb h1 h2 h3
    rcases hb with rfl | rfl | rfl | rfl <;> omega

theorem utf8Of_low {s : List Nat} {b : UInt8} (hb : b ∈ utf8Of s) (h : b.toNat < 0x80) : b.toNat ∈ s := by
  obtain ⟨c, hc, hb⟩ := List.mem_flatMap.1 hb
  by_cases hs : Scalar c
  · rw [if_pos hs] at hb
    exact utf8_low hs hb h ▸ hc
  · rw [if_neg hs] at hb
    have := utf8_low (c := 0xFFFD) (by decide) hb h
    omega

theorem byte_inj {a b : UInt8} (h : a.toNat = b.toNat) : a = b := UInt8.toNat_inj.1 h

theorem extends_low {lit ext : Str} {s : List Nat} (h : Rfc3492.Extends lit ext s) {b : UInt8} (hb : b.toNat ∈ s) (hl : b.toNat < 0x80) : b ∈ lit := by
  rcases C32_inserted lit ext s h _ hb with h | h
  · obtain ⟨x, hx, e⟩ := List.mem_map.1 h
    exact byte_inj e ▸ hx
  · omega

theorem decodes_low {t : Str} {s : List Nat} (h : Rfc3492.Decodes t s) {b : UInt8} (hb : b.toNat ∈ s) (hl : b.toNat < 0x80) : b ∈ t := by
  rcases h with ⟨_, h⟩ | ⟨lit, ext, rfl, _, _, _, h⟩
  · exact absurd (extends_low h hb hl) (by simp)
  · have := extends_low h hb hl
    simp [this]

theorem label_low {l d : Str} (h : LabelDecodes l d) : ∀ c ∈ d, c.toNat < 0x80 → c ∈ l := by
  cases h with
  | plain _ => exact fun c hc _ => hc
  | @puny t s h =>
    intro c hc hl
    have hm := utf8Of_low hc hl
    rcases h with h | ⟨ext, rfl, _, h⟩
    · exact List.mem_append_right _ (decodes_low h hm hl)
    · exact List.mem_append_right _ (List.mem_cons_of_mem _ (decodes_low h hm hl))

theorem each_right {α β : Type} {R : α → β → Prop} {P : β → Prop} {as : List α} {bs : List β} (h : Each R as bs)
    (k : ∀ a ∈ as, ∀ b, R a b → P b) : ∀ b ∈ bs, P b := by
  induction h with
  | nil => simp
  | cons h _ ih =>
    intro b hb
    rcases List.mem_cons.1 hb with rfl | hb
    · exact k _ (by simp) _ h
    · exact ih (fun a ha => k a (by simp [ha])) b hb

theorem each_ne {α β : Type} {R : α → β → Prop} {as : List α} {bs : List β} (h : Each R as bs) (hn : as ≠ []) : bs ≠ [] := by
  cases h with
  | nil => exact absurd rfl hn
  | cons => simp

theorem host_kept {s d : Str} (h : HostDecodes s d) : LabelsKept s d := by
  obtain ⟨ls, ds, h1, h2, rfl⟩ := h
  refine ⟨ls, ds, h1, ⟨each_ne h2 h1.1, ?_, rfl⟩, h2.mono fun l _ m h => label_low h⟩
  exact each_right h2 fun l hl m hm hd => h1.2.1 l hl (label_low hm _ hd (by decide))

theorem labels_exist (s : Str) : ∃ ls, Labels (0x2E : UInt8) s ls := by
  induction s with
  | nil => exact ⟨[[]], by simp [Labels, joined]⟩
  | cons c s ih =>
    obtain ⟨ls, h⟩ := ih
    by_cases hc : c = 0x2E
    · subst hc
      exact ⟨[] :: ls, Labels.cons (l := []) (by simp) h⟩
    · cases ls with
      | nil => exact absurd rfl h.1
      | cons l ls =>
        refine ⟨(c :: l) :: ls, by simp, ?_, ?_⟩
        · intro m hm
          rcases List.mem_cons.1 hm with rfl | hm
          · intro hx
            rcases List.mem_cons.1 hx with e | hx
            · exact hc e.symm
            · exact h.2.1 l (by simp) hx
          · exact h.2.1 m (by simp [hm])
        · have e := h.2.2
          cases ls with
          | nil => simp [joined] at e ⊢; exact e
          | cons m ls => simp [joined] at e ⊢; exact e

theorem kept_refl (s : Str) : LabelsKept s s := by
  obtain ⟨ls, h⟩ := labels_exist s
  refine ⟨ls, ls, h, h, ?_⟩
  clear h
  induction ls with
  | nil => exact .nil
  | cons l ls ih => exact .cons (fun c hc _ => hc) ih

/-- **C58**, the function that decodes host names. -/
theorem C58_puny_decoded (s d : Str) (b : Bool) (hl : s.length + 2 < 2 ^ 64) (h : punyDecoded s = .ok (d, .ok b)) : LabelsKept s d := by
  obtain ⟨ls, h1, ⟨ds, h2, h3⟩ | ⟨_, _, _, _, e, _, _, _, h3⟩⟩ := punyDecoded_eq s hl
  · rw [h] at h3
    have e : d = joined 0x2E ds := congrArg Prod.fst (Except.ok.inj h3)
    rw [e]
    refine host_kept ⟨ls, ds, h1, h2.mono fun l hm d hld => labelD_spec ?_ hld, rfl⟩
    have := length_le_joined (sep := (0x2E : UInt8)) hm
    rw [← h1.2.2] at this
    have : s.length + 2 < szMod := hl
    omega
  · rw [h] at h3
    simp at h3

/-- **C58.** When `decode` succeeds, the host of the result has the labels of the host of `p`, each with no ASCII byte that
was not there. -/
theorem C58_decode (hp : Heap) (store : Store) (p : Parts SV) (hn : p.path.segments.length + 6 ≤ 2 ^ 32)
    (hh : ∀ a, p.authority = some a → a.host.chars.length + 2 < 2 ^ 64) (r : Parts SV) (st' : Store) (h : decode hp store p = .ok (.ok r, st')) :
    Opt (fun a b => LabelsKept a.host.chars b.host.chars) p.authority r.authority := by
  have := (C36_decode hp store p hn hh r st' h).authority
  cases ha : p.authority with
  | none => rw [ha] at this; cases hr : r.authority with
    | none => exact .none
    | some b => rw [hr] at this; cases this
  | some a => rw [ha] at this; cases hr : r.authority with
    | none => rw [hr] at this; cases this
    | some b =>
      rw [hr] at this
      cases this with
      | some k =>
        refine .some ?_
        rcases k.2.1 with ⟨e, _⟩ | ⟨e, _⟩ | ⟨_, e, _⟩
        · rw [e]; exact kept_refl _
        · exact host_kept (e.1 rfl)
        · rw [e]; exact kept_refl _

theorem mem_joined {ls : List Str} {b : UInt8} (h : b ∈ joined 0x2E ls) : b = 0x2E ∨ ∃ l ∈ ls, b ∈ l := by
  induction ls with
  | nil => simp [joined] at h
  | cons l ls ih =>
    cases ls with
    | nil => exact Or.inr ⟨l, by simp, by simpa [joined] using h⟩
    | cons m ls =>
      simp only [joined, List.mem_append, List.mem_cons] at h
      rcases h with h | h | h
      · exact Or.inr ⟨l, by simp, h⟩
      · exact Or.inl h
      · rcases ih h with h | ⟨x, hx, h⟩
        · exact Or.inl h
        · exact Or.inr ⟨x, by simp [hx], h⟩

theorem joined_mem {ls : List Str} {l : Str} (hl : l ∈ ls) {b : UInt8} (h : b ∈ l) : b ∈ joined 0x2E ls := by
  induction ls with
  | nil => simp at hl
  | cons m ls ih =>
    cases ls with
    | nil =>
      simp at hl; subst hl
      simpa [joined] using h
    | cons x ls =>
      simp only [joined, List.mem_append, List.mem_cons]
      rcases List.mem_cons.1 hl with rfl | hl
      · exact Or.inl h
      · exact Or.inr (Or.inr (ih hl))

theorem each_left {α β : Type} {R : α → β → Prop} {as : List α} {bs : List β} (h : Each R as bs) : ∀ b ∈ bs, ∃ a ∈ as, R a b := by
  induction h with
  | nil => simp
  | cons h _ ih =>
    intro b hb
    rcases List.mem_cons.1 hb with rfl | hb
    · exact ⟨_, by simp, h⟩
    · obtain ⟨a, ha, hr⟩ := ih b hb
      exact ⟨a, by simp [ha], hr⟩

theorem kept_mem {s d : Str} (h : LabelsKept s d) : ∀ c ∈ d, c.toNat < 0x80 → c = 0x2E ∨ c ∈ s := by
  obtain ⟨ls, ds, h1, h2, h3⟩ := h
  intro c hc hl
  rw [h2.2.2] at hc
  rcases mem_joined hc with h | ⟨m, hm, h⟩
  · exact Or.inl h
  · obtain ⟨l, hl', hr⟩ := each_left h3 m hm
    rw [h1.2.2]
    exact Or.inr (joined_mem hl' (hr c h hl))

/-- **C58**, for a valid value: however its host is decoded, no delimiter, no space and no control character appears in it. -/
theorem C58_delimiters (pl : Plat) (hp : Heap) (store : Store) (p : Parts SV) (hn : p.path.segments.length + 6 ≤ 2 ^ 32)
    (hh : ∀ a, p.authority = some a → a.host.chars.length + 2 < 2 ^ 64) (hv : p.valid pl = .ok true)
    (r : Parts SV) (st' : Store) (h : decode hp store p = .ok (.ok r, st')) :
    ∀ b, r.authority = some b → ∀ c ∈ b.host.chars, c.toNat < 0x80 → c ∈ Spec.uriChars ∧ c ∉ b! "/?#@" := by
  intro b hb c hc hl
  have k := C58_decode hp store p hn hh r st' h
  rw [hb] at k
  cases ha : p.authority with
  | none => rw [ha] at k; cases k
  | some a =>
    rw [ha] at k
    cases k with
    | some k =>
      obtain ⟨c1, _, c3, _⟩ := C53_components pl p hv
      rcases kept_mem k c hc hl with rfl | hm
      · decide +kernel
      · exact ⟨(c1 a.host ((views_field p _).2 ⟨.host, a, ha, rfl⟩)).1 c hm, (c3 a ha).2.1 c hm⟩

/-- **C58**, encoding: the host of an encoded value is ASCII, and each byte of it is a byte of the host of `p`, a small
letter, a digit, a hyphen or a full stop. -/
theorem C58_encode (hp : Heap) (store : Store) (p : Parts SV) (hn : p.path.segments.length + 6 ≤ 2 ^ 32)
    (hh : ∀ a, p.authority = some a → a.host.chars.length ≤ 2 ^ 37 ∧ (a.host.ptr = 0 → a.host.chars = [])) :
    ∃ r st', encode hp store p = .ok (r, st') ∧ Opt (fun a b => ∀ c ∈ b.host.chars, c.toNat < 0x80 ∧
      (c ∈ a.host.chars ∨ LowerAlnum c ∨ c = 0x2D ∨ c = 0x2E)) p.authority r.authority := by
  obtain ⟨r, st', h1, h2⟩ := C35_encode hp store p hn fun a ha => (hh a ha).1
  refine ⟨r, st', h1, ?_⟩
  have := h2.authority
  have reads_low : ∀ {s : Str} {cs : List Nat}, Reads s cs → ∀ c ∈ cs, c < 0x80 → UInt8.ofNat c ∈ s := by
    intro s cs h
    induction h with
    | nil => simp
    | @char c s cs _ _ ih =>
      intro x hx hl
      rcases List.mem_cons.1 hx with rfl | hx
      · rw [utf8_ascii hl]; simp
      · exact List.mem_append_right _ (ih x hx hl)
    | bad _ _ _ _ ih =>
      intro x hx hl
      rcases List.mem_cons.1 hx with rfl | hx
      · omega
      · exact List.mem_append_right _ (List.mem_cons_of_mem _ (ih x hx hl))
    | cut _ =>
      intro x hx hl
      simp at hx; subst hx; omega
  have lower : ∀ c : UInt8, LowerAlnum c → c.toNat < 0x80 := by intro c h; unfold LowerAlnum at h; omega
  have enc : ∀ {cs : List Nat} {e : Str}, HostEncodes cs e → ∀ c ∈ e, c.toNat < 0x80 ∧ (c.toNat ∈ cs ∨ LowerAlnum c ∨ c = 0x2D ∨ c = 0x2E) := by
    intro cs e ⟨ls, es, k1, k2, k3⟩ c hc
    have cin : ∀ l ∈ ls, ∀ x ∈ l, x ∈ cs := by
      intro l hl x hx
      rw [k1.2.2]
      clear k1 k2 k3 hc
      induction ls with
      | nil => simp at hl
      | cons m ls ih =>
        cases ls with
        | nil => simp at hl; subst hl; simpa [joined] using hx
        | cons y ls =>
          simp only [joined, List.mem_append, List.mem_cons]
          rcases List.mem_cons.1 hl with rfl | hl
          · exact Or.inl hx
          · exact Or.inr (Or.inr (ih hl))
    rw [k3] at hc
    rcases mem_joined hc with rfl | ⟨m, hm, hc⟩
    · exact ⟨by decide, Or.inr (Or.inr (Or.inr rfl))⟩
    · obtain ⟨l, hl, hr⟩ := each_left k2 m hm
      cases hr with
      | ascii ha ht =>
        have : c.toNat ∈ l := by rw [← ht]; exact List.mem_map_of_mem hc
        exact ⟨ha _ this, Or.inl (cin l hl _ this)⟩
      | @puny basics ext _ hb he _ =>
        have pre : ∀ c ∈ b! "xn--", LowerAlnum c ∨ c = 0x2D := by unfold LowerAlnum; decide +kernel
        simp only [List.mem_append] at hc
        rcases hc with hc | (hc | hc) | hc
        · rcases pre c hc with h | h
          · exact ⟨lower c h, Or.inr (Or.inl h)⟩
          · exact ⟨by rw [h]; decide, Or.inr (Or.inr (Or.inl h))⟩
        · have : c.toNat ∈ l.filter (· < 0x80) := by rw [← hb]; exact List.mem_map_of_mem hc
          rw [List.mem_filter] at this
          exact ⟨by simpa using this.2, Or.inl (cin l hl _ this.1)⟩
        · split at hc
          · simp at hc
          · simp at hc
            exact ⟨by rw [hc]; decide, Or.inr (Or.inr (Or.inl hc))⟩
        · exact ⟨lower c (he c hc), Or.inr (Or.inl (he c hc))⟩
  cases ha : p.authority with
  | none => rw [ha] at this; cases hr : r.authority with
    | none => exact .none
    | some b => rw [hr] at this; cases this
  | some a => rw [ha] at this; cases hr : r.authority with
    | none => rw [hr] at this; cases this
    | some b =>
      rw [hr] at this
      cases this with
      | some k =>
        refine .some ?_
        by_cases hz : b.host.chars = []
        · rw [hz]; simp
        have fe : FieldEncodes .host a.host.chars b.host.chars := by
          rcases k.2.1 with ⟨e, e' | e'⟩ | ⟨_, e, _⟩
          · exact absurd (e ▸ (hh a ha).2 e') hz
          · rw [e]; exact e'
          · exact e
        obtain ⟨cs, m1, m2⟩ := fe.1 rfl
        intro c hc
        obtain ⟨n1, n2⟩ := enc m2 c hc
        refine ⟨n1, ?_⟩
        rcases n2 with n2 | n2
        · have := reads_low m1 _ n2 n1
          rw [UInt8.ofNat_toNat] at this
          exact Or.inl this
        · exact Or.inr n2

/-- `xn--bcher-kva.example` is decoded, with the two labels and no new ASCII. -/
example : punyDecoded (b! "xn--bcher-kva.example") = .ok ([0x62, 0xC3, 0xBC, 0x63, 0x68, 0x65, 0x72] ++ b! ".example", .ok true) := by decide +kernel

end Verif
