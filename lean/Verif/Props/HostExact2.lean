import Verif.Props.HostSafety

/-!
# C34, exactly: the host names that encoding and decoding give back
-/

set_option linter.unusedSimpArgs false

namespace Verif
open Codec PartsSpec Unicode

/-- What `puny_decoded` does, label by label, whatever the size of the host name, when each label can be
read or is known to be bad. -/
theorem punyDecodedLoop_any : ∀ (ls : List Str) (fuel : Nat) (s : Str), Labels 0x2E s ls → (∀ l ∈ ls, (∃ d, LabelD l d) ∨ ∃ e, LabelBad l e) → s.length < fuel →
    (∃ ds, Each LabelD ls ds ∧ punyDecodedLoop fuel s = .ok (joined 0x2E ds, .ok (ls.any fun l => decide (idnaPrefix <+: l)))) ∨
    ∃ out e, punyDecodedLoop fuel s = .ok (out, .error e) := by
  intro ls
  induction ls with
  | nil => intro fuel s h; exact absurd rfl h.1
  | cons l ls ih =>
    intro fuel s h hd hf
    obtain ⟨fuel, rfl⟩ : ∃ n, fuel = n + 1 := ⟨fuel - 1, by omega⟩
    have hfull := h
    obtain ⟨_, k2, k3⟩ := h
    have hl := k2 l (by simp)
    by_cases e : ls = []
    · subst e
      simp only [joined] at k3
      subst k3
      obtain ⟨s1, _, _⟩ := punyDecodedLoop_step fuel s s (takeWhile_dotB hl []).2 _ rfl
      rcases hd s (by simp) with ⟨d, h⟩ | ⟨e, h⟩
      · exact Or.inl ⟨[d], .cons h .nil, punyDecodedLoop_of [s] _ s [d] hfull (.cons h .nil) hf⟩
      · exact Or.inr ⟨_, _, s1 e h⟩
    · rw [joined_cons l e] at k3
      obtain ⟨s1, _, s3⟩ := punyDecodedLoop_step fuel s l (by rw [k3]; exact (takeWhile_dotB hl _).1) _ rfl
      rcases hd l (by simp) with ⟨d, h⟩ | ⟨e', h⟩
      · rcases ih fuel (joined 0x2E ls) ⟨e, fun x hx => k2 x (by simp [hx]), rfl⟩ (fun x hx => hd x (by simp [hx]))
          (by rw [k3] at hf; simp at hf; omega) with ⟨ds, i1, _⟩ | ⟨out, e', i⟩
        · exact Or.inl ⟨d :: ds, .cons h i1, punyDecodedLoop_of (l :: ls) _ s (d :: ds) hfull (.cons h i1) hf⟩
        · exact Or.inr ⟨_, e', by rw [s3 d 0x2E (joined 0x2E ls) _ _ h (by rw [k3]; simp) i]; rfl⟩
      · exact Or.inr ⟨_, _, s1 e' h⟩

theorem utf8Of_isUtf8 (s : List Nat) : ∃ cs, IsUtf8 (utf8Of s) cs := by
  refine ⟨s.map fun c => if Scalar c then c else 0xFFFD, ?_, ?_⟩
  · intro c hc
    obtain ⟨x, _, rfl⟩ := List.mem_map.1 hc
    split
    · assumption
    · decide
  · unfold utf8Of; rw [List.flatMap_map]

theorem ascii_isUtf8 {s : Str} (h : ∀ c ∈ s, c.toNat < 0x80) : ∃ cs, IsUtf8 s cs := by
  refine ⟨s.map UInt8.toNat, ?_, ?_⟩
  · intro c hc
    obtain ⟨x, hx, rfl⟩ := List.mem_map.1 hc
    have := h x hx
    unfold Scalar; omega
  · induction s with
    | nil => rfl
    | cons c s ih =>
      rw [List.map_cons, List.flatMap_cons, utf8_ascii (h _ (by simp)), ← ih fun x hx => h x (by simp [hx])]
      simp

theorem joined_isUtf8 (ds : List Str) (h : ∀ d ∈ ds, ∃ cs, IsUtf8 d cs) : ∃ cs, IsUtf8 (joined 0x2E ds) cs := by
  induction ds with
  | nil => exact ⟨[], by simp, rfl⟩
  | cons d ds ih =>
    obtain ⟨cs, h1, h2⟩ := h d (by simp)
    by_cases e : ds = []
    · subst e; exact ⟨cs, h1, h2⟩
    · obtain ⟨cs', k1, k2⟩ := ih fun x hx => h x (by simp [hx])
      refine ⟨cs ++ 0x2E :: cs', ?_, ?_⟩
      · intro c hc
        rcases List.mem_append.1 hc with hc | hc
        · exact h1 c hc
        · rcases List.mem_cons.1 hc with rfl | hc
          · decide
          · exact k1 c hc
      · rw [joined_cons d e, List.flatMap_append, List.flatMap_cons, ← h2, ← k2]
        rfl

theorem utf8_nodot {l : List Nat} (hs : ∀ c ∈ l, Scalar c) (h : 0x2E ∉ l) : (0x2E : UInt8) ∉ l.flatMap utf8 := by
  intro hd
  obtain ⟨c, hc, hb⟩ := List.mem_flatMap.1 hd
  have := utf8_low (hs c hc) hb (by decide)
  exact h (by have e : c = 0x2E := this; exact e ▸ hc)

theorem each_zip {α β γ : Type} {R : α → β → Prop} {Q : β → γ → Prop} {f : α → γ} {as : List α} {bs : List β} (h : Each R as bs) (k : Each Q bs (as.map f)) :
    ∀ a ∈ as, ∃ b ∈ bs, R a b ∧ Q b (f a) := by
  induction h with
  | nil => simp
  | cons h _ ih =>
    cases k with
    | cons k1 k2 =>
      intro a ha
      rcases List.mem_cons.1 ha with rfl | ha
      · exact ⟨_, by simp, h, k1⟩
      · obtain ⟨b, hb, k⟩ := ih k2 a ha
        exact ⟨b, by simp [hb], k⟩

/-- ASCII text has one byte for each code point. -/
theorem utf8Of_ascii_length {s : List Nat} (h : ∀ b ∈ utf8Of s, b.toNat < 0x80) : (utf8Of s).length = s.length := by
  unfold utf8Of at h ⊢
  induction s with
  | nil => rfl
  | cons c s ih =>
    rw [List.flatMap_cons] at h ⊢
    rw [List.length_append, ih fun b hb => h b (List.mem_append_right _ hb), List.length_cons]
    have hc : Scalar (if Scalar c then c else 0xFFFD) := by split; assumption; decide
    have hs := Icu.utf8_shape hc
    have hl := fun b hb => h b (List.mem_append_left _ hb)
    clear h ih
    generalize (if Scalar c then c else 0xFFFD) = k at *
    generalize utf8 k = u at *
    cases hs with
    | one _ => simp; omega
    | two h1 h2 h3 => have := hl _ (List.mem_cons_self ..); omega
    | three h1 h2 => have := hl _ (List.mem_cons_self ..); simp [Icu.Lead3] at h1; omega
    | four h1 h2 h3 => have := hl _ (List.mem_cons_self ..); simp [Icu.Lead4] at h1; omega

/-- The labels of an encoded host are ASCII, without full stops, and can be read or are bad. -/
theorem encoded_labels {cs : List Nat} {ls : List (List Nat)} {es : List Str} (h4 : Labels 0x2E cs ls) (h5 : Each LabelE ls es)
    (hall : ∀ l ∈ ls, (∀ c ∈ l, Scalar c) ∧ l.length ≤ 2 ^ 37) :
    Labels 0x2E (joined 0x2E es) es ∧ ∀ l ∈ es, (∃ d, LabelD l d) ∨ ∃ e, LabelBad l e := by
  refine ⟨⟨?_, ?_, rfl⟩, ?_⟩
  · intro e; subst e; cases h5; exact h4.1 rfl
  · intro e he hd
    obtain ⟨l, hm, hle⟩ := Codec.each_right h5 e he
    rcases hle.inv (hall l hm).1 (hall l hm).2 with ⟨a, b⟩ | ⟨_, _, k, _⟩
    · have : (0x2E : UInt8).toNat ∈ e.map UInt8.toNat := List.mem_map.2 ⟨_, hd, rfl⟩
      rw [b] at this
      exact h4.2.1 l hm this
    · exact k (h4.2.1 l hm) hd
  · intro e he
    obtain ⟨l, hm, hle⟩ := Codec.each_right h5 e he
    rcases hle.inv (hall l hm).1 (hall l hm).2 with ⟨a, b⟩ | ⟨_, _, _, t, rfl, ht⟩
    · have : e.length ≤ 2 ^ 37 := by have := (hall l hm).2; rw [← b] at this; simpa using this
      exact label_cases e (by unfold szMod; omega)
    · exact Or.inl ⟨_, .puny ht⟩

/-- What `puny_encoded` yields can be given to `puny_decoded`. -/
theorem encoded_decodable {s e : Str} {b : Bool} (hl : s.length ≤ 2 ^ 37) (h : punyEncoded s = .ok (e, b)) : ∃ r, punyDecoded e = .ok r := by
  obtain ⟨cs, ls, es, h1, h2, h3, h4, h5, h6⟩ := punyEncoded_eq s hl
  rw [h] at h6
  obtain ⟨rfl, -⟩ := Prod.mk.inj (Except.ok.inj h6)
  obtain ⟨hlabE, hany⟩ := encoded_labels h4 h5 (each_labels h4 h2 (by omega))
  rcases punyDecodedLoop_any es _ _ hlabE hany (Nat.lt_succ_self _) with ⟨ds, k1, k2⟩ | ⟨out, e', k⟩
  · exact ⟨_, k2⟩
  · exact ⟨_, k⟩

/-- **C34**, exactly: a host name comes back from encoding and decoding if and only if it is well-formed
UTF-8 and none of its ASCII labels looks like an encoded one. -/
theorem C34_exact (s : Str) (hl : s.length ≤ 2 ^ 37) :
    (∃ e b r, punyEncoded s = .ok (e, b) ∧ punyDecoded e = .ok (s, .ok r)) ↔ (∃ cs, IsUtf8 s cs) ∧ NoAce s := by
  constructor
  · rintro ⟨e, b, r, he, hd⟩
    obtain ⟨cs, ls, es, h1, h2, h3, h4, h5, h6⟩ := punyEncoded_eq s hl
    have hall := each_labels h4 h2 (by omega)
    rw [he] at h6
    obtain ⟨rfl, -⟩ := Prod.mk.inj (Except.ok.inj h6)
    obtain ⟨hlabE, hany⟩ := encoded_labels h4 h5 hall
    rcases punyDecodedLoop_any es _ _ hlabE hany (Nat.lt_succ_self _) with ⟨ds, k1, k2⟩ | ⟨out, e', k⟩
    rotate_left
    · have : punyDecoded (joined 0x2E es) = .ok (out, .error e') := k
      rw [hd] at this; simp at this
    have k2 : punyDecoded (joined 0x2E es) = _ := k2
    rw [hd] at k2
    have hs : s = joined 0x2E ds := (Prod.mk.inj (Except.ok.inj k2)).1
    have hasc : ∀ e ∈ es, ∀ c ∈ e, c.toNat < 0x80 := by
      intro e he c hc
      obtain ⟨l, hm, hle⟩ := Codec.each_right h5 e he
      rcases hle.inv (hall l hm).1 (hall l hm).2 with ⟨a, b⟩ | ⟨_, a, _⟩
      · have : c.toNat ∈ e.map UInt8.toNat := List.mem_map.2 ⟨c, hc, rfl⟩
        rw [b] at this; exact a _ this
      · exact a c hc
    have hu : ∃ cs, IsUtf8 s cs := by
      rw [hs]
      apply joined_isUtf8
      intro d hd
      obtain ⟨e, hm, hle⟩ := Codec.each_right k1 d hd
      rcases hle.inv with ⟨_, rfl⟩ | ⟨t, x, _, _, rfl⟩
      · exact ascii_isUtf8 (hasc _ hm)
      · exact utf8Of_isUtf8 x
    refine ⟨hu, ?_⟩
    obtain ⟨cs', hu⟩ := hu
    have e0 := reads_unique h1 (isUtf8_reads hu)
    subst e0
    have hlab : Labels 0x2E s (ls.map fun l => l.flatMap utf8) := by
      refine ⟨by simpa using h4.1, ?_, ?_⟩
      · intro x hx
        obtain ⟨l, hm, rfl⟩ := List.mem_map.1 hx
        exact utf8_nodot (hall l hm).1 (h4.2.1 l hm)
      · conv => lhs; rw [hu.2, h4.2.2]
        exact joined_flatMap utf8 0x2E 0x2E (by decide) ls
    have hlabD : Labels 0x2E s ds := by
      refine ⟨?_, ?_, hs⟩
      · intro e; subst e; cases k1; exact hlabE.1 rfl
      · intro d hd hdot
        obtain ⟨e, hm, hle⟩ := Codec.each_right k1 d hd
        rcases hle.inv with ⟨_, rfl⟩ | ⟨t, x, rfl, ht, rfl⟩
        · exact hlabE.2.1 _ hm hdot
        · obtain ⟨l, hml, hle⟩ := Codec.each_right h5 _ hm
          rcases hle.inv (hall l hml).1 (hall l hml).2 with ⟨a, b⟩ | ⟨_, _, _, t', et, ht'⟩
          · have : (idnaPrefix ++ t).length ≤ 2 ^ 37 := by have := (hall l hml).2; rw [← b] at this; simpa using this
            have hsz : t.length + 2 < szMod := by simp at this; unfold szMod; omega
            exact hlabE.2.1 _ hm (label_low (.puny (C32_sound false t hsz x [] ht)) _ hdot (by decide))
          · have et := List.append_cancel_left et
            subst et
            rw [ht'] at ht
            obtain rfl : l = x := (Prod.mk.inj (Except.ok.inj (Except.ok.inj ht))).1
            exact h4.2.1 l hml (utf8Of_low hdot (by decide))
    have eds := Labels.unique hlabD hlab
    subst eds
    -- a label that is ASCII and has the prefix
    intro ls' hls' m hm hma hpre
    have e1 := Labels.unique hls' hlab
    subst e1
    obtain ⟨l, hml, rfl⟩ := List.mem_map.1 hm
    obtain ⟨e, hme, hle, hde⟩ := each_zip h5 k1 l hml
    have hla : ∀ c ∈ l, c < 0x80 := by
      intro c hc
      rcases Nat.lt_or_ge c 0x80 with h | h
      · exact h
      · have hs := Icu.utf8_shape ((hall l hml).1 c hc)
        have hh : ∀ b ∈ utf8 c, b.toNat < 0x80 := fun b hb => hma b (List.mem_flatMap.2 ⟨c, hc, hb⟩)
        generalize utf8 c = u at *
        cases hs with
        | one _ => omega
        | two h1 h2 h3 => have := hh _ (List.mem_cons_self ..); omega
        | three h1 h2 => have := hh _ (List.mem_cons_self ..); simp [Icu.Lead3] at h1; omega
        | four h1 h2 h3 => have := hh _ (List.mem_cons_self ..); simp [Icu.Lead4] at h1; omega
    rcases hle.inv (hall l hml).1 (hall l hml).2 with ⟨_, hb⟩ | ⟨⟨c, hc, hc'⟩, _⟩
    · have hle : e.length = (l.flatMap utf8).length := by
        have : ∀ l : List Nat, (∀ c ∈ l, c < 0x80) → (l.flatMap utf8).length = l.length := by
          intro l hl
          induction l with
          | nil => rfl
          | cons c l ih => rw [List.flatMap_cons, List.length_append, ih fun x hx => hl x (by simp [hx]), utf8_ascii (hl c (by simp))]; simp; omega
        rw [this l hla, ← hb]; simp
      have hee : l.flatMap utf8 = e := by
        have : ∀ e : Str, (∀ c ∈ e.map UInt8.toNat, c < 0x80) → (e.map UInt8.toNat).flatMap utf8 = e := by
          intro e hla
          induction e with
          | nil => rfl
          | cons c e ih =>
            rw [List.map_cons, List.flatMap_cons, utf8_ascii (hla _ (by simp)), ih fun x hx => hla x (by simp [hx])]
            simp
        rw [← hb, this e (hb ▸ hla)]
      rcases hde.inv with ⟨a, _⟩ | ⟨t, x, het, ht, hx⟩
      · exact a (hee ▸ hpre)
      · have hlen : e.length ≤ 2 ^ 37 := by have := (hall l hml).2; rw [← hb] at this; simpa using this
        rw [hx] at hma hle
        rw [utf8Of_ascii_length hma, het] at hle
        have hsz : t.length + 2 < szMod := by rw [het] at hlen; simp at hlen; unfold szMod; omega
        rcases C32_total false t hsz with h | h | ⟨y, h, hy, _⟩
        · rw [h] at ht; simp at ht
        · rw [h] at ht; simp at ht
        · rw [h] at ht
          obtain rfl : y = x := (Prod.mk.inj (Except.ok.inj (Except.ok.inj ht))).1
          simp [idnaPrefix] at hle
          omega
    · have := hla c hc; omega
  · rintro ⟨⟨cs, hu⟩, ha⟩
    obtain ⟨e, b, h1, h2⟩ := host_roundtrip hu hl ha
    exact ⟨e, b, b, h1, h2⟩

example : ∃ e b r, punyEncoded (b! "b\u00fccher.example") = .ok (e, b) ∧ punyDecoded e = .ok (b! "b\u00fccher.example", .ok r) :=
  (C34_exact _ (by decide)).2 ⟨⟨[0x62, 0xFC, 0x63, 0x68, 0x65, 0x72, 0x2E, 0x65, 0x78, 0x61, 0x6D, 0x70, 0x6C, 0x65], by decide, by decide⟩, bucher_noAce⟩

/-! ### The specification of encoding determines the result -/

theorem last_unique {a b c d : Str} (h : a ++ 0x2D :: b = c ++ 0x2D :: d) (hb : (0x2D : UInt8) ∉ b) (hd : (0x2D : UInt8) ∉ d) : a = c ∧ b = d := by
  induction a generalizing c with
  | nil =>
    cases c with
    | nil => exact ⟨rfl, by simpa using h⟩
    | cons x c =>
      rw [List.nil_append, List.cons_append, List.cons.injEq] at h
      exact absurd (h.2 ▸ by simp) hb
  | cons x a ih =>
    cases c with
    | nil =>
      rw [List.nil_append, List.cons_append, List.cons.injEq] at h
      exact absurd (h.2 ▸ by simp) hd
    | cons y c =>
      rw [List.cons_append, List.cons_append, List.cons.injEq] at h
      obtain ⟨h1, h2⟩ := ih h.2
      exact ⟨by rw [h.1, h1], h2⟩

theorem lower_same {ext : Str} (h : ∀ c ∈ ext, LowerAlnum c) : ext.map Rfc3492.lowerDigit = ext ∧ (0x2D : UInt8) ∉ ext := by
  constructor
  · conv => rhs; rw [← List.map_id ext]
    apply List.map_congr_left
    intro c hc
    have := h c hc
    unfold LowerAlnum at this
    unfold Rfc3492.lowerDigit
    rw [if_neg (by omega)]; rfl
  · intro hm
    have := h _ hm
    revert this
    unfold LowerAlnum; decide

theorem normalised_same {basics ext t : Str} (h : ∀ c ∈ ext, LowerAlnum c) (hn : Normalised (basics ++ (if basics = [] then [] else [0x2D]) ++ ext) t) :
    t = basics ++ (if basics = [] then [] else [0x2D]) ++ ext := by
  obtain ⟨hl, hd⟩ := lower_same h
  by_cases hb : basics = []
  · subst hb
    simp only [if_true, List.append_nil, List.nil_append] at *
    generalize ext = u at *
    cases hn with
    | none _ => exact hl
    | some _ _ => exact absurd (by simp) hd
    | lone _ => exact absurd (by simp) hd
  · simp only [if_neg hb, List.append_assoc, List.cons_append, List.nil_append] at *
    generalize hu : basics ++ 0x2D :: ext = u at *
    cases hn with
    | none k => exact absurd (hu ▸ by simp) k
    | some k _ =>
      obtain ⟨rfl, rfl⟩ := last_unique hu hd k
      rw [hl]
    | @lone x k =>
      obtain ⟨rfl, rfl⟩ := last_unique (c := []) hu hd k
      exact absurd rfl hb

theorem labelEncodes_unique {l : List Nat} {t t' : Str} (hl : ∀ c ∈ l, Scalar c) (hn : l.length ≤ 2 ^ 37) (ht : t.length + 2 < 2 ^ 64) (ht' : t'.length + 2 < 2 ^ 64)
    (h : LabelEncodes l t) (h' : LabelEncodes l t') : t = t' := by
  have key : ∀ {t}, t.length + 2 < 2 ^ 64 → LabelEncodes l t → (∃ c ∈ l, 0x80 ≤ c) → ∃ u flag, t = b! "xn--" ++ u ∧ Puny.encode l false = .ok (u, flag) := by
    intro t ht h hx
    cases h with
    | ascii h _ => obtain ⟨c, hc, hc'⟩ := hx; have := h c hc; omega
    | @puny basics ext _ _ he hd =>
      have hd := C32_complete false _ l (punyInput_of hl hn) hd
      obtain ⟨_, u, flag, e, hn'⟩ := C30_reencode false _ (by unfold szMod; rw [List.length_append] at ht; omega) l [] hd
      rw [normalised_same he hn'] at e
      exact ⟨_, flag, rfl, e⟩
  by_cases hx : ∃ c ∈ l, 0x80 ≤ c
  · obtain ⟨u, f, rfl, e⟩ := key ht h hx
    obtain ⟨u', f', rfl, e'⟩ := key ht' h' hx
    rw [e] at e'
    rw [(Prod.mk.inj (Except.ok.inj e')).1]
  · cases h with
    | puny hc => exact absurd hc hx
    | ascii _ h1 =>
      cases h' with
      | puny hc => exact absurd hc hx
      | ascii _ h2 => exact toNat_map_inj (h1.trans h2.symm)

/-- **C34**: there is one encoding of a host name; so `C34_encode` says which text comes out. -/
theorem C34_unique (cs : List Nat) (e e' : Str) (hs : ∀ c ∈ cs, Scalar c) (hn : cs.length ≤ 2 ^ 37) (hl : e.length + 2 < 2 ^ 64) (hl' : e'.length + 2 < 2 ^ 64)
    (h : HostEncodes cs e) (h' : HostEncodes cs e') : e = e' := by
  obtain ⟨ls, es, h1, h2, rfl⟩ := h
  obtain ⟨ls', es', k1, k2, rfl⟩ := h'
  obtain rfl := Labels.unique h1 k1
  have hall := each_labels h1 hs hn
  have hle : ∀ x ∈ es, x.length + 2 < 2 ^ 64 := fun x hx => by have := length_le_joined (sep := (0x2E : UInt8)) hx; omega
  have hle' : ∀ x ∈ es', x.length + 2 < 2 ^ 64 := fun x hx => by have := length_le_joined (sep := (0x2E : UInt8)) hx; omega
  clear h1 k1 hl hl'
  congr 1
  induction h2 generalizing es' with
  | nil => cases k2; rfl
  | @cons l x ls es a _ ih =>
    cases k2 with
    | @cons _ y _ es' b k2 =>
      rw [labelEncodes_unique (hall l (by simp)).1 (hall l (by simp)).2 (hle x (by simp)) (hle' y (by simp)) a b,
        ih es' k2 (fun z hz => hall z (by simp [hz])) (fun z hz => hle z (by simp [hz])) fun z hz => hle' z (by simp [hz])]

end Verif
