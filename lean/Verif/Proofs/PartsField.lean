import Verif.Proofs.PartsCodec

/-!
# Fields encoded and decoded, in terms of the specification
-/

set_option linter.unusedSimpArgs false

namespace Verif.Codec

open PartsSpec Unicode

/-! ### Lists -/

section
variable {α β γ : Type}

theorem each_left {R : α → β → Prop} {as : List α} {bs : List β} (h : Each R as bs) : ∀ a ∈ as, ∃ b ∈ bs, R a b := by
  induction h with
  | nil => simp
  | cons h _ ih =>
    intro x hx
    rcases List.mem_cons.1 hx with rfl | hx
    · exact ⟨_, by simp, h⟩
    · obtain ⟨b, hb, hr⟩ := ih x hx; exact ⟨b, by simp [hb], hr⟩

theorem each_right {R : α → β → Prop} {as : List α} {bs : List β} (h : Each R as bs) : ∀ b ∈ bs, ∃ a ∈ as, R a b := by
  induction h with
  | nil => simp
  | cons h _ ih =>
    intro x hx
    rcases List.mem_cons.1 hx with rfl | hx
    · exact ⟨_, by simp, h⟩
    · obtain ⟨b, hb, hr⟩ := ih x hx; exact ⟨b, by simp [hb], hr⟩

theorem each_map {R : α → β → Prop} {f : α → γ} {g : β → γ} {as : List α} {bs : List β} (h : Each R as bs) (hr : ∀ a b, a ∈ as → R a b → g b = f a) :
    bs.map g = as.map f := by
  induction h with
  | nil => rfl
  | cons h _ ih =>
    simp only [List.map_cons]
    rw [hr _ _ (by simp) h, ih fun a b ha => hr a b (by simp [ha])]

theorem joined_map (f : α → β) (sep : α) (ls : List (List α)) : (joined sep ls).map f = joined (f sep) (ls.map (List.map f)) := by
  induction ls with
  | nil => rfl
  | cons l ls ih =>
    by_cases e : ls = []
    · subst e; rfl
    · rw [joined_cons l e, List.map_cons, joined_cons _ (by simpa using e), List.map_append, List.map_cons, ih]

theorem joined_flatMap (f : α → List β) (sep : α) (sep' : β) (hs : f sep = [sep']) (ls : List (List α)) :
    (joined sep ls).flatMap f = joined sep' (ls.map fun l => l.flatMap f) := by
  induction ls with
  | nil => rfl
  | cons l ls ih =>
    by_cases e : ls = []
    · subst e; rfl
    · rw [joined_cons l e, List.map_cons, joined_cons _ (by simpa using e), List.flatMap_append, List.flatMap_cons, ih, hs]
      rfl

theorem toNat_map_inj {s t : Str} (h : s.map UInt8.toNat = t.map UInt8.toNat) : s = t := by
  induction s generalizing t with
  | nil => cases t with
    | nil => rfl
    | cons c t => simp at h
  | cons a s ih => cases t with
    | nil => simp at h
    | cons c t =>
      simp only [List.map_cons, List.cons.injEq] at h
      rw [UInt8.toNat.inj h.1, ih h.2]

end

/-! ### Reading ASCII -/

theorem reads_unique {s : Str} {cs cs' : List Nat} (h : Reads s cs) (h' : Reads s cs') : cs = cs' := by
  obtain ⟨_, out, _, ho⟩ := C41_decode s
  rw [(ho cs).1 h, (ho cs').1 h']

theorem utf8_ascii {c : Nat} (h : c < 0x80) : utf8 c = [UInt8.ofNat c] := by simp [utf8, h]

theorem reads_ascii {s : Str} {cs : List Nat} (h : Reads s cs) : (∀ c ∈ cs, c < 0x80) → s.map UInt8.toNat = cs := by
  induction h with
  | nil => intro _; rfl
  | @char c s cs hc _ ih =>
    intro ha
    have h1 := ha c (by simp)
    rw [utf8_ascii h1, List.singleton_append, List.map_cons, ih fun x hx => ha x (by simp [hx])]
    congr 1
    rw [UInt8.toNat_ofNat']; omega
  | bad => intro ha; have := ha 0xFFFD (by simp); omega
  | cut => intro ha; have := ha 0xFFFD (by simp); omega

theorem ascii_reads : ∀ {s : Str}, (∀ c ∈ s, c.toNat < 0x80) → Reads s (s.map UInt8.toNat) := by
  intro s
  induction s with
  | nil => intro _; exact .nil
  | cons c s ih =>
    intro h
    have hc := h c (by simp)
    have := Reads.char (c := c.toNat) (Or.inl (by omega)) (ih fun x hx => h x (by simp [hx]))
    rw [utf8_ascii hc] at this
    simpa using this

theorem isUtf8_reads {s : Str} {cs : List Nat} (h : IsUtf8 s cs) : Reads s cs := by
  obtain ⟨h1, rfl⟩ := h
  induction cs with
  | nil => exact .nil
  | cons c cs ih => rw [List.flatMap_cons]; exact .char (h1 c (by simp)) (ih fun x hx => h1 x (by simp [hx]))

/-! ### Encoded hosts -/

theorem LabelE.inv {l : List Nat} {e : Str} (h : ∀ c ∈ l, Scalar c) (hl : l.length ≤ 2 ^ 37) (he : LabelE l e) :
    ((∀ c ∈ l, c < 0x80) ∧ e.map UInt8.toNat = l) ∨
    ((∃ c ∈ l, 0x80 ≤ c) ∧ (∀ c ∈ e, c.toNat < 0x80) ∧ (0x2E ∉ l → 0x2E ∉ e) ∧ ∃ t, e = idnaPrefix ++ t ∧ Puny.decode false t = .ok (.ok (l, []))) := by
  have hs := labelE_spec h hl he
  obtain ⟨t, flag, h1, he⟩ := he
  obtain ⟨t', flag', h2, h3, _, h5⟩ := C31_shape l (punyInput_of h hl).small true
  rw [h1] at h2; cases h2
  obtain ⟨e', hs', hee⟩ : ∃ e', LabelEncodes l e' ∧ e = e' := ⟨e, hs, rfl⟩
  cases hs' with
  | ascii a b => subst hee; exact Or.inl ⟨a, b⟩
  | @puny basics ext a b c d =>
    have hf : flag = true := h3.2 a
    subst hf
    obtain ⟨t', flag', k1, k2⟩ := C29_roundtrip l (punyInput_of h hl) true
    rw [h1] at k1; cases k1
    simp only [if_true] at he
    refine Or.inr ⟨a, ?_, ?_, t, he, k2 (Or.inl rfl) false⟩
    · rw [he]
      intro x hx
      rcases List.mem_append.1 hx with hx | hx
      · have : ∀ x ∈ idnaPrefix, x.toNat < 0x80 := by decide
        exact this x hx
      · exact h5 x hx
    · intro hd hm
      rw [hee] at hm
      simp only [List.mem_append] at hm
      rcases hm with hm | (hm | hm) | hm
      · revert hm; decide
      · have : (0x2E : UInt8).toNat ∈ basics.map UInt8.toNat := List.mem_map.2 ⟨_, hm, rfl⟩
        rw [b] at this
        exact hd (List.mem_filter.1 this).1
      · split at hm <;> simp at hm
      · have := c _ hm
        simp [LowerAlnum] at this

/-- What `puny_encoded` does to a host name. -/
theorem host_encoded (s : Str) (hl : s.length ≤ 2 ^ 37) : ∃ cs e b, Reads s cs ∧ punyEncoded s = .ok (e, b) ∧ HostEncodes cs e ∧ (b = true ↔ ∃ c ∈ cs, 0x80 ≤ c) ∧
    (b = false → e = s) ∧ (b = true → e ≠ s ∧ e ≠ []) ∧ ∀ c ∈ e, c.toNat < 0x80 := by
  obtain ⟨cs, ls, es, h1, h2, h3, h4, h5, h6⟩ := punyEncoded_eq s hl
  have hall := each_labels h4 h2 (by omega)
  have hasc : ∀ c ∈ joined 0x2E es, c.toNat < 0x80 := by
    have : ∀ e ∈ es, ∀ c ∈ e, c.toNat < 0x80 := by
      intro e he c hc
      obtain ⟨l, hm, hle⟩ := each_right h5 e he
      rcases hle.inv (hall l hm).1 (hall l hm).2 with ⟨a, b⟩ | ⟨_, a, _⟩
      · have : c.toNat ∈ e.map UInt8.toNat := List.mem_map.2 ⟨c, hc, rfl⟩
        rw [b] at this; exact a _ this
      · exact a c hc
    clear h6
    intro c hc
    have key : ∀ es : List Str, (∀ e ∈ es, ∀ c ∈ e, c.toNat < 0x80) → c ∈ joined 0x2E es → c.toNat < 0x80 := by
      intro es
      induction es with
      | nil => intro _ hm; simp [joined] at hm
      | cons e es ih =>
        intro hx hm
        by_cases en : es = []
        · subst en; exact hx e (by simp) c hm
        · rw [joined_cons e en] at hm
          simp only [List.mem_append, List.mem_cons] at hm
          rcases hm with hm | rfl | hm
          · exact hx e (by simp) c hm
          · decide
          · exact ih (fun y hy => hx y (by simp [hy])) hm
    exact key es this hc
  refine ⟨cs, _, _, h1, h6, ⟨ls, es, h4, h5.mono fun l hm e he => labelE_spec (hall l hm).1 (hall l hm).2 he, rfl⟩, by simp, ?_, ?_, hasc⟩
  · intro hb
    have hb' : ∀ c ∈ cs, c < 0x80 := by
      intro c hc
      have := List.any_eq_false.1 hb c hc
      simpa using this
    apply toNat_map_inj
    rw [reads_ascii h1 hb', joined_map, h4.2.2]
    congr 1
    refine (each_map (g := List.map UInt8.toNat) (f := id) h5 fun l e hm he => ?_).trans (by simp)
    rcases he.inv (hall l hm).1 (hall l hm).2 with ⟨_, b⟩ | ⟨⟨c, hc, hc'⟩, _⟩
    · exact b
    · have := hb' c (by rw [h4.2.2]; exact mem_joined hm hc)
      omega
  · intro hb
    obtain ⟨c, hc, hc'⟩ : ∃ c ∈ cs, 0x80 ≤ c := by simpa using hb
    constructor
    · intro e
      rw [e] at hasc
      have := reads_unique h1 (ascii_reads hasc)
      rw [this] at hc
      obtain ⟨x, hx, rfl⟩ := List.mem_map.1 hc
      have := hasc x hx
      omega
    · rw [h4.2.2] at hc
      obtain ⟨l, hm, hcl⟩ : ∃ l ∈ ls, c ∈ l := by
        have key : ∀ ls : List (List Nat), c ∈ joined 0x2E ls → c ≠ 0x2E → ∃ l ∈ ls, c ∈ l := by
          intro ls
          induction ls with
          | nil => intro hm; simp [joined] at hm
          | cons l ls ih =>
            intro hm hne
            by_cases en : ls = []
            · subst en; exact ⟨l, by simp, hm⟩
            · rw [joined_cons l en] at hm
              simp only [List.mem_append, List.mem_cons] at hm
              rcases hm with hm | hm | hm
              · exact ⟨l, by simp, hm⟩
              · exact absurd hm hne
              · obtain ⟨y, hy, hy'⟩ := ih hm hne; exact ⟨y, by simp [hy], hy'⟩
        exact key ls hc (by omega)
      obtain ⟨e, hme, hle⟩ := each_left h5 l hm
      rcases hle.inv (hall l hm).1 (hall l hm).2 with ⟨a, _⟩ | ⟨_, _, _, t, ht, _⟩
      · have := a c hcl; omega
      · intro e0
        have := length_le_joined (sep := (0x2E : UInt8)) hme
        rw [e0, ht] at this
        simp [idnaPrefix] at this

/-- Decoding what was encoded. -/
theorem host_roundtrip {s : Str} {cs : List Nat} (hu : IsUtf8 s cs) (hl : s.length ≤ 2 ^ 37) (hace : NoAce s) :
    ∃ e b, punyEncoded s = .ok (e, b) ∧ punyDecoded e = .ok (s, .ok b) := by
  obtain ⟨cs', ls, es, h1, h2, h3, h4, h5, h6⟩ := punyEncoded_eq s hl
  have e0 := reads_unique h1 (isUtf8_reads hu)
  subst e0
  have hall := each_labels h4 h2 (by omega)
  refine ⟨_, _, h6, ?_⟩
  have hs : s = joined 0x2E (ls.map fun l => l.flatMap utf8) := by
    rw [hu.2]
    conv => lhs; rw [h4.2.2]
    exact joined_flatMap utf8 0x2E 0x2E (by decide) ls
  have hdot : ∀ l ∈ ls, (0x2E : UInt8) ∉ l.flatMap utf8 := by
    intro l hm hd
    obtain ⟨c, hc, hcd⟩ := List.mem_flatMap.1 hd
    have hsc := (hall l hm).1 c hc
    by_cases hlt : c < 0x80
    · rw [utf8_ascii hlt] at hcd
      simp only [List.mem_singleton] at hcd
      have : c = 0x2E := by
        have := congrArg UInt8.toNat hcd
        rw [UInt8.toNat_ofNat', Nat.mod_eq_of_lt (by omega)] at this
        exact this.symm
      exact h4.2.1 l hm (this ▸ hc)
    · have : ∀ x ∈ utf8 c, 0x80 ≤ x.toNat := by
        intro x hx
        unfold Scalar at hsc
        unfold utf8 at hx
        repeat' split at hx
        · omega
        all_goals
          simp only [List.mem_cons, List.not_mem_nil, or_false] at hx
          rcases hx with rfl | rfl | rfl | rfl <;> (rw [UInt8.toNat_ofNat']; omega)
      have := this _ hcd
      revert this; decide
  have hlab : Labels 0x2E s (ls.map fun l => l.flatMap utf8) := by
    refine ⟨by simpa using h4.1, ?_, hs⟩
    intro x hx
    obtain ⟨l, hm, rfl⟩ := List.mem_map.1 hx
    exact hdot l hm
  have hlabE : Labels 0x2E (joined 0x2E es) es := by
    refine ⟨?_, ?_, rfl⟩
    · intro e; subst e; cases h5; exact h4.1 rfl
    · intro e he hd
      obtain ⟨l, hm, hle⟩ := each_right h5 e he
      rcases hle.inv (hall l hm).1 (hall l hm).2 with ⟨a, b⟩ | ⟨_, _, k, _⟩
      · have : (0x2E : UInt8).toNat ∈ e.map UInt8.toNat := List.mem_map.2 ⟨_, hd, rfl⟩
        rw [b] at this
        exact h4.2.1 l hm this
      · exact k (h4.2.1 l hm) hd
  have hascii : ∀ (l : List Nat) (e : Str), (∀ c ∈ l, c < 0x80) → e.map UInt8.toNat = l → l.flatMap utf8 = e := by
    intro l e ha hb
    subst hb
    clear hlabE
    induction e with
    | nil => rfl
    | cons c e ih =>
      rw [List.map_cons, List.flatMap_cons, utf8_ascii (ha _ (by simp)), ih fun x hx => ha x (by simp [hx])]
      simp
  have hutf : ∀ l : List Nat, (∀ c ∈ l, Scalar c) → utf8Of l = l.flatMap utf8 := by
    intro l h
    unfold utf8Of
    induction l with
    | nil => rfl
    | cons c l ih =>
      rw [List.flatMap_cons, List.flatMap_cons, ih fun x hx => h x (by simp [hx]), if_pos (h c (by simp))]
  have hone : ∀ l ∈ ls, ∀ e, LabelE l e → LabelD e (l.flatMap utf8) ∧ (decide (idnaPrefix <+: e) = l.any fun c => decide (0x80 ≤ c)) := by
    intro l hm e he
    rcases he.inv (hall l hm).1 (hall l hm).2 with ⟨a, b⟩ | ⟨a, _, _, t, ht, hd⟩
    · have hea := hascii l e a b
      have hno : ¬ idnaPrefix <+: e := by
        apply hace _ hlab e (by rw [← hea]; exact List.mem_map_of_mem (f := fun l => l.flatMap utf8) hm)
        intro c hc
        have : c.toNat ∈ e.map UInt8.toNat := List.mem_map.2 ⟨c, hc, rfl⟩
        rw [b] at this; exact a _ this
      refine ⟨by rw [hea]; exact LabelD.plain hno, ?_⟩
      rw [decide_eq_false hno, eq_comm, List.any_eq_false]
      intro c hc
      have := a c hc
      simp; omega
    · subst ht
      refine ⟨?_, ?_⟩
      · rw [← hutf l (hall l hm).1]; exact LabelD.puny hd
      · rw [decide_eq_true ⟨t, rfl⟩, eq_comm, List.any_eq_true]
        obtain ⟨c, hc, hc'⟩ := a
        exact ⟨c, hc, by simpa using hc'⟩
  have hds : Each LabelD es (ls.map fun l => l.flatMap utf8) := by
    clear hlabE hlab hs h6 h4
    induction h5 with
    | nil => exact .nil
    | @cons l e ls es hle _ ih =>
      exact .cons (hone l (by simp) e hle).1 (ih (fun x hx => hall x (by simp [hx])) (fun x hx => hdot x (by simp [hx])) fun x hx => hone x (by simp [hx]))
  rw [punyDecoded_of hlabE hds, ← hs]
  congr 3
  have e2 : cs'.any (fun c => decide (0x80 ≤ c)) = ls.any fun l => l.any fun c => decide (0x80 ≤ c) := by
    rw [h4.2.2]
    clear hlabE hlab hs h6 h4 hds hone hdot h5 hall
    induction ls with
    | nil => rfl
    | cons l ls ih =>
      by_cases en : ls = []
      · subst en; simp [joined]
      · rw [joined_cons l en, List.any_append, List.any_cons, List.any_cons, ih]; simp
  rw [e2]
  clear hlabE hlab hs h6 h4 hds e2
  induction h5 with
  | nil => rfl
  | @cons l e ls es hle _ ih =>
    rw [List.any_cons, List.any_cons, (hone l (by simp) e hle).2, ih (fun x hx => hall x (by simp [hx])) (fun x hx => hdot x (by simp [hx])) fun x hx => hone x (by simp [hx])]

end Verif.Codec
