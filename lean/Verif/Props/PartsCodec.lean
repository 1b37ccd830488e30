import Verif.Proofs.PartsField
import Verif.Props.Parse

/-!
# C34-C39: encoding and decoding of a whole URI
-/

set_option linter.unusedSimpArgs false

namespace Verif

open Codec PartsSpec Unicode

/-! ### C34: host names -/

/-- **C34**, encoding: any host name is encoded, label by label, as specified; ASCII labels are copied and
the result is ASCII; a name that is ASCII already is unchanged. -/
theorem C34_encode (s : Str) (hl : s.length ≤ 2 ^ 37) : ∃ cs e b, Reads s cs ∧ punyEncoded s = .ok (e, b) ∧ HostEncodes cs e ∧
    (b = true ↔ ∃ c ∈ cs, 0x80 ≤ c) ∧ (b = false ↔ e = s) ∧ ∀ c ∈ e, c.toNat < 0x80 := by
  obtain ⟨cs, e, b, h1, h2, h3, h4, h5, h6, h7⟩ := host_encoded s hl
  refine ⟨cs, e, b, h1, h2, h3, h4, ⟨h5, fun he => ?_⟩, h7⟩
  cases b with
  | false => rfl
  | true => exact absurd he (h6 rfl).1

/-- **C34**: decoding gives a well-formed host name back. -/
theorem C34_roundtrip (s : Str) (cs : List Nat) (hu : IsUtf8 s cs) (hl : s.length ≤ 2 ^ 37) (hace : NoAce s) :
    ∃ e b, punyEncoded s = .ok (e, b) ∧ HostEncodes cs e ∧ punyDecoded e = .ok (s, .ok b) := by
  obtain ⟨e, b, h1, h2⟩ := host_roundtrip hu hl hace
  obtain ⟨cs', e', b', k1, k2, k3, _⟩ := host_encoded s hl
  have := reads_unique k1 (isUtf8_reads hu)
  subst this
  rw [h1] at k2; cases k2
  exact ⟨e, b, h1, k3, h2⟩

/-- **C34**: the number of labels is kept. -/
theorem C34_labels (s : Str) (cs : List Nat) (hu : IsUtf8 s cs) (hl : s.length ≤ 2 ^ 37) :
    ∃ e b ls es, punyEncoded s = .ok (e, b) ∧ Labels 0x2E cs ls ∧ Labels 0x2E e es ∧ Each LabelEncodes ls es := by
  obtain ⟨cs', ls, es, h1, h2, h3, h4, h5, h6⟩ := punyEncoded_eq s hl
  have := reads_unique h1 (isUtf8_reads hu)
  subst this
  have hall := each_labels h4 h2 (by omega)
  refine ⟨_, _, ls, es, h6, h4, ⟨?_, ?_, rfl⟩, h5.mono fun l hm e he => labelE_spec (hall l hm).1 (hall l hm).2 he⟩
  · intro e; subst e; cases h5; exact h4.1 rfl
  · intro e he hd
    obtain ⟨l, hm, hle⟩ := each_right h5 e he
    rcases hle.inv (hall l hm).1 (hall l hm).2 with ⟨a, b⟩ | ⟨_, _, k, _⟩
    · have : (0x2E : UInt8).toNat ∈ e.map UInt8.toNat := List.mem_map.2 ⟨_, hd, rfl⟩
      rw [b] at this
      exact h4.2.1 l hm this
    · exact k (h4.2.1 l hm) hd

/-- `bücher.example` in UTF-8. -/
def bucher : Str := [0x62, 0xC3, 0xBC, 0x63, 0x68, 0x65, 0x72] ++ b! ".example"

example : punyEncoded bucher = .ok (b! "xn--bcher-kva.example", true) := by decide +kernel
example : punyDecoded (b! "xn--bcher-kva.example") = .ok (bucher, .ok true) := by decide +kernel
example : IsUtf8 bucher [0x62, 0xFC, 0x63, 0x68, 0x65, 0x72, 0x2E, 0x65, 0x78, 0x61, 0x6D, 0x70, 0x6C, 0x65] := ⟨by decide, by decide⟩
theorem bucher_noAce : NoAce bucher := by
  intro ls h l hm _ hp
  have : ls = [[0x62, 0xC3, 0xBC, 0x63, 0x68, 0x65, 0x72], b! "example"] := Labels.unique h ⟨by simp, by decide, by decide⟩
  subst this
  rcases List.mem_cons.1 hm with rfl | hm
  · revert hp; decide
  · simp only [List.mem_singleton] at hm
    subst hm; revert hp; decide

/-- The condition on labels is needed. -/
theorem C34_ace_counterexample : punyEncoded (b! "xn--tda") = .ok (b! "xn--tda", false) ∧ punyDecoded (b! "xn--tda") = .ok ([0xC3, 0xBC], .ok true) := by
  decide +kernel

/-- So is well-formedness: a truncated sequence swallows the full stop after it, and two labels become
one. -/
theorem C34_malformed_counterexample : punyEncoded [0x61, 0xC3, 0x2E, 0x62] = .ok (b! "xn--ab-gg4n", true) ∧ Labels 0x2E [0x61, 0xC3, 0x2E, 0x62] [[0x61, 0xC3], [0x62]] := by
  refine ⟨by decide +kernel, by simp, by decide, by decide⟩

/-! ### C35: `encode` -/

theorem encSet_iff (fld : Codec.Field) (h : fld ≠ .host) : (fun c => needsPctencodeB c (encSetOf fld) = true) = encodeSet fld := by
  funext c
  apply propext
  have none' : needsPctencodeB c EncSet.none = true ↔ (c.toNat ≤ 0x20 ∨ c.toNat > 0x7E) := by
    have := forall_byte (P := fun c => decide (needsPctencodeB c EncSet.none = true ↔ (c.toNat ≤ 0x20 ∨ c.toNat > 0x7E))) (by decide +kernel) c
    exact of_decide_eq_true this
  obtain ⟨h1, h2, _, h4, h5, _⟩ := C24_sets c
  cases fld with
  | host => exact absurd rfl h
  | scheme => exact none'
  | port => exact none'
  | userinfo => exact h5
  | query => exact h2
  | fragment => exact h1
  | path => exact h4

theorem enc_field (fld : Codec.Field) (s : Str) (h : fld = .host → s.length ≤ 2 ^ 37) :
    (encSz fld s = 0 → FieldEncodes fld s s) ∧ (encSz fld s ≠ 0 → FieldEncodes fld s (encOut fld s) ∧ encOut fld s ≠ s) := by
  by_cases hf : fld = .host
  · subst hf
    obtain ⟨cs, e, b, h1, h2, h3, h4, h5, h6, _⟩ := host_encoded s (h rfl)
    have ho : encOut .host s = e := by simp [encOut, h2]
    have hz : encSz .host s = if b then e.length else 0 := by simp [encSz, h2]
    rw [ho, hz]
    cases b with
    | false =>
      refine ⟨fun _ => ⟨fun _ => ⟨cs, h1, ?_⟩, fun k => absurd rfl k⟩, fun k => absurd rfl k⟩
      have := h5 rfl
      rwa [this] at h3
    | true =>
      refine ⟨fun k => ?_, fun _ => ⟨⟨fun _ => ⟨cs, h1, h3⟩, fun k => absurd rfl k⟩, (h6 rfl).1⟩⟩
      have k : e.length = 0 := k
      exact absurd (List.eq_nil_of_length_eq_zero k) (h6 rfl).2
  · have ho : encOut fld s = encP (encSetOf fld) s := by simp [encOut, hf]
    have he : ∀ e, PctSpec.Encodes (encodeSet fld) s e ↔ e = encP (encSetOf fld) s := by
      intro e; rw [← encSet_iff fld hf]; exact encodes_iff _ _ _
    rw [ho]
    cases hn : needsPctencode s (encSetOf fld) with
    | false =>
      have hz : encSz fld s = 0 := by simp [encSz, hf, hn]
      exact ⟨fun _ => ⟨fun k => absurd k hf, fun _ => (he s).2 ((encP_id_iff _ _).2 hn).symm⟩, fun k => absurd hz k⟩
    | true =>
      have hz : encSz fld s = (encP (encSetOf fld) s).length := by simp [encSz, hf, hn]
      refine ⟨fun k => absurd (hz ▸ k) (needsPctencode_len hn), fun _ => ⟨⟨fun k => absurd k hf, fun _ => (he _).2 rfl⟩, ?_⟩⟩
      intro k
      have := (encP_id_iff _ _).1 k
      rw [hn] at this; simp at this

/-- **C35.** For every store and allocator, `encode` succeeds; each string becomes its encoding, and is
left alone (seeing the same memory) exactly if that is no different; a string that changes is in the
store as it finally is. -/
theorem C35_encode (hp : Heap) (store : Store) (p : Parts SV) (hn : p.path.segments.length + 6 ≤ 2 ^ 32)
    (hh : ∀ a, p.authority = some a → a.host.chars.length ≤ 2 ^ 37) :
    ∃ r st', encode hp store p = .ok (r, st') ∧
      Related (fun fld v v' => (v' = v ∧ (v.ptr = 0 ∨ FieldEncodes fld v.chars v.chars)) ∨
        (v'.chars ≠ v.chars ∧ FieldEncodes fld v.chars v'.chars ∧ InStore st' v')) p r := by
  obtain ⟨r, st', h1, _, _, h4⟩ := encode_eq hp store (p := p) hn (fun v ⟨a, h, h'⟩ => h' ▸ hh a h)
  refine ⟨r, st', h1, h4.mono fun fld v v' hin hr => ?_⟩
  obtain ⟨e1, e2⟩ := enc_field fld v.chars fun e => by subst e; obtain ⟨a, h, h'⟩ := hin; exact h' ▸ hh a h
  rcases hr with ⟨a, b | b⟩ | ⟨_, a, b, c⟩
  · exact Or.inl ⟨a, Or.inl b⟩
  · exact Or.inl ⟨a, Or.inr (e1 b)⟩
  · rw [← b] at e2
    exact Or.inr ⟨(e2 a).2, (e2 a).1, c⟩

/-- **C35**, memory: the only allocation is the one `reserve` makes for exactly as many bytes as the
store finally holds; writing never moves the store. -/
theorem C35_no_reallocation (hp : Heap) (store : Store) (p : Parts SV) (hn : p.path.segments.length + 6 ≤ 2 ^ 32)
    (hh : ∀ a, p.authority = some a → a.host.chars.length ≤ 2 ^ 37) :
    ∃ r st', encode hp store p = .ok (r, st') ∧ st' = { store.reserve hp st'.chars.length with chars := st'.chars } ∧ st'.chars.length ≤ st'.cap := by
  obtain ⟨r, st', h1, ⟨n, rfl, h2, h3, h4⟩, _, _⟩ := encode_eq hp store (p := p) hn (fun v ⟨a, h, h'⟩ => h' ▸ hh a h)
  refine ⟨r, st', h1, ?_, ?_⟩
  · obtain ⟨a, b, c, d⟩ := st'
    simp only at *
    simp only [h2, h3, h4]
  · rw [h3]; exact (reserve_cap _ _ _).1

theorem store_ends {st : Store} {v : SV} (h : InStore st v) : st.addr ≤ v.ptr ∧ v.ptr + v.chars.length ≤ st.addr + st.chars.length := by
  obtain ⟨off, h1, h2, _⟩ := h
  omega

/-! ### C36, C39: `decode` -/

theorem first_unique {α : Type} {P : α → Prop} {pre pre' post post' : List α} {x x' : α} (h : pre ++ x :: post = pre' ++ x' :: post')
    (h1 : ∀ y ∈ pre, ¬ P y) (h2 : ∀ y ∈ pre', ¬ P y) (hx : P x) (hx' : P x') : x = x' := by
  induction pre generalizing pre' with
  | nil =>
    cases pre' with
    | nil => simp at h; exact h.1
    | cons y pre' => simp at h; exact absurd (h.1 ▸ hx) (h2 y (by simp))
  | cons y pre ih =>
    cases pre' with
    | nil => simp at h; exact absurd (h.1 ▸ hx') (h1 y (by simp))
    | cons z pre' =>
      simp at h
      exact ih h.2 (fun w hw => h1 w (by simp [hw])) (fun w hw => h2 w (by simp [hw]))

/-- The host names that decode to nothing although they have something to decode. -/
theorem dec_nothing {s : Str} (h : s.length + 2 < szMod) (hd : punyDecoded s = .ok ([], .ok true)) : s = b! "xn--" ∨ s = b! "xn---" := by
  obtain ⟨ls, h1, ⟨ds, h2, h3⟩ | ⟨_, _, _, _, e, _, _, _, h3⟩⟩ := punyDecoded_eq s h
  · rw [hd] at h3
    have hb : ∀ l ∈ ls, l.length + 2 < szMod := by
      intro l hm
      have := length_le_joined (sep := (0x2E : UInt8)) hm
      rw [← h1.2.2] at this
      omega
    have hnil : joined 0x2E ds = [] := (Prod.mk.inj (Except.ok.inj h3)).1.symm
    have hany : (ls.any fun l => decide (idnaPrefix <+: l)) = true := (Except.ok.inj (Prod.mk.inj (Except.ok.inj h3)).2).symm
    clear h3
    obtain ⟨l, hm, hl⟩ := List.any_eq_true.1 hany
    have hl : idnaPrefix <+: l := by simpa using hl
    have hone : ls = [l] := by
      cases h2 with
      | nil => exact absurd rfl h1.1
      | @cons l0 d0 ls0 ds0 a b =>
        cases b with
        | nil => simp only [List.mem_singleton] at hm; rw [hm]
        | cons c d =>
          rw [joined_cons d0 (by simp)] at hnil
          simp at hnil
    subst hone
    have hs : s = l := h1.2.2
    cases h2 with
    | @cons _ d0 _ ds0 a b =>
      cases b
      simp only [joined] at hnil
      subst hnil
      rcases a.inv with ⟨a, _⟩ | ⟨t, x, rfl, hdec, hx⟩
      · exact absurd hl a
      · have hx : x = [] := by
          cases x with
          | nil => rfl
          | cons c x =>
            exfalso
            have hne : ∀ c, utf8 c ≠ [] := by intro c; unfold utf8; (repeat' split) <;> simp
            simp [utf8Of, hne] at hx
        subst hx
        have hrun : ∀ (bias n i : Nat) (out : List Nat) (t : Str) (fin : List Nat), Rfc3492.Run bias n i out t fin → out.length ≤ fin.length ∧ (t ≠ [] → out.length < fin.length) := by
          intro bias n i out t fin hr
          induction hr with
          | done => simp
          | step _ hv _ ih =>
            have h1 := ih.1
            simp only [Rfc3492.inserted, List.length_append, List.length_cons, List.length_take, List.length_drop] at h1
            refine ⟨?_, fun _ => ?_⟩ <;> omega
        have hempty : ∀ t, Rfc3492.Decodes t [] → t = [] := by
          intro t ht
          rcases ht with ⟨_, hr⟩ | ⟨lit, ext, rfl, _, hl, _, hr⟩
          · have := hrun _ _ _ _ _ _ hr
            exact Classical.byContradiction fun hne => by have := this.2 hne; simp at this
          · have := (hrun _ _ _ _ _ _ hr).1
            simp at this
            exact absurd this hl
        have hb' := hb (idnaPrefix ++ t) (by simp)
        rcases C32_sound false t (by rw [List.length_append] at hb'; omega) [] [] hdec with hr | ⟨ext, rfl, _, hr⟩
        · rw [hempty t hr] at hs
          left; rw [hs]; decide
        · rw [hempty ext hr] at hs
          right; rw [hs]; decide
  · rw [hd] at h3; simp at h3

/-- A host name without encoded labels is its own decoding. -/
theorem dec_false {s d : Str} (h : s.length + 2 < szMod) (hd : punyDecoded s = .ok (d, .ok false)) : d = s := by
  obtain ⟨ls, h1, ⟨ds, h2, h3⟩ | ⟨_, _, _, _, e, _, _, _, h3⟩⟩ := punyDecoded_eq s h
  · rw [hd] at h3
    have hany : (ls.any fun l => decide (idnaPrefix <+: l)) = false := (Except.ok.inj (Prod.mk.inj (Except.ok.inj h3)).2).symm
    have : ds = ls := Each.eq (R := fun l d => d = l) (fun _ _ h => h) (h2.mono fun l hm d hld => by
      have := List.any_eq_false.1 hany l hm
      rcases hld.inv with ⟨_, e⟩ | ⟨t, _, e, _⟩
      · exact e
      · exact absurd (show idnaPrefix <+: l from ⟨t, e.symm⟩) (by simpa using this))
    rw [(Prod.mk.inj (Except.ok.inj h3)).1, this, ← h1.2.2]
  · rw [hd] at h3; simp at h3

theorem dec_field (fld : Codec.Field) (s : Str) (h : fld = .host → s.length + 2 < szMod) (n : Nat) (hok : decRes fld s = .ok n) :
    (decSz fld s = 0 → FieldDecodes fld s s ∨ (fld = .host ∧ (s = b! "xn--" ∨ s = b! "xn---") ∧ FieldDecodes fld s [])) ∧
    (decSz fld s ≠ 0 → FieldDecodes fld s (decOut fld s)) := by
  have hz := decSz_of hok
  by_cases hf : fld = .host
  · subst hf
    obtain ⟨ls, h1, ⟨ds, h2, h3⟩ | ⟨_, _, _, _, e, _, _, _, h3⟩⟩ := punyDecoded_eq s (h rfl)
    · have ho : decOut .host s = joined 0x2E ds := by simp [decOut, h3]
      have hb : ∀ l ∈ ls, l.length + 2 < szMod := by
        intro l hm
        have := length_le_joined (sep := (0x2E : UInt8)) hm
        rw [← h1.2.2] at this
        have := h rfl
        omega
      have hd : HostDecodes s (joined 0x2E ds) := ⟨ls, ds, h1, h2.mono fun l hm d hld => labelD_spec (hb l hm) hld, rfl⟩
      refine ⟨fun k => ?_, fun _ => ⟨fun _ => ho ▸ hd, fun k => absurd rfl k⟩⟩
      have hn : n = if (ls.any fun l => decide (idnaPrefix <+: l)) then (joined 0x2E ds).length else 0 := by
        simp only [decRes, if_true, h3, Except.ok.injEq] at hok
        exact hok.symm
      cases hany : ls.any fun l => decide (idnaPrefix <+: l) with
      | false =>
        left
        have : ds = ls := Each.eq (R := fun l d => d = l) (fun _ _ h => h) (h2.mono fun l hm d hld => by
          have := List.any_eq_false.1 hany l hm
          rcases hld.inv with ⟨_, e⟩ | ⟨t, _, e, _⟩
          · exact e
          · exact absurd (show idnaPrefix <+: l from ⟨t, e.symm⟩) (by simpa using this))
        rw [this, ← h1.2.2] at hd
        exact ⟨fun _ => hd, fun k => absurd rfl k⟩
      | true =>
        right
        rw [hany] at hn
        simp only [if_true] at hn
        rw [hz, hn] at k
        have hnil := List.eq_nil_of_length_eq_zero k
        refine ⟨rfl, ?_, ⟨fun _ => hnil ▸ hd, fun k => absurd rfl k⟩⟩
        exact dec_nothing (h rfl) (by rw [h3, hany, hnil])
    · simp [decRes, h3] at hok
  · have ho : decOut fld s = decP s := by simp [decOut, hf]
    rw [ho]
    refine ⟨fun k => Or.inl ⟨fun k => absurd k hf, fun _ => (decodes_iff s s).2 ?_⟩, fun _ => ⟨fun k => absurd k hf, fun _ => (decodes_iff s _).2 rfl⟩⟩
    cases hn : needsPctdecode s with
    | false =>
      have := C26_identity s hn
      rw [pctdecode_eq] at this
      simpa using this.symm
    | true =>
      have : decSz fld s = (decP s).length := by simp [decSz, decRes, hf, hn]
      exact absurd (this ▸ k) (needsPctdecode_len hn)

/-- **C36**, all but one case: when `decode` succeeds, each string becomes its decoding, in place or in
the store as it finally is.  The exception is a host that decodes to the empty text, which is left as it
is. -/
theorem C36_decode (hp : Heap) (store : Store) (p : Parts SV) (hn : p.path.segments.length + 6 ≤ 2 ^ 32)
    (hh : ∀ a, p.authority = some a → a.host.chars.length + 2 < 2 ^ 64) (r : Parts SV) (st' : Store) (h : decode hp store p = .ok (.ok r, st')) :
    Related (fun fld v v' => (v' = v ∧ v.ptr = 0) ∨ (FieldDecodes fld v.chars v'.chars ∧ (v' = v ∨ InStore st' v')) ∨
      (fld = .host ∧ v' = v ∧ (v.chars = b! "xn--" ∨ v.chars = b! "xn---") ∧ FieldDecodes fld v.chars [])) p r := by
  have hhost : ∀ v, InField p .host v → v.chars.length + 2 < szMod := fun v ⟨a, h, h'⟩ => h' ▸ hh a h
  rcases decode_eq hp store (p := p) hn (fun v hv => punyDecoded_ok _ (hhost v hv)) with ⟨r', st'', h1, _, _, h4, h5⟩ | ⟨e, x, st'', h1, _⟩
  · rw [h] at h1
    simp only [Except.ok.injEq, Prod.mk.injEq] at h1
    obtain ⟨rfl, rfl⟩ := h1
    have hok : ∀ fld v, InField p fld v → v.ptr ≠ 0 → ∃ n, decRes fld v.chars = .ok n := by
      intro fld v hin hv
      obtain ⟨x, hx, rfl, rfl⟩ := visit_of_field hin hv
      exact h5 x hx
    refine h4.mono fun fld v v' hin hr => ?_
    rcases hr with ⟨a, b⟩ | ⟨hv, b, c, d⟩
    · by_cases hv : v.ptr = 0
      · exact Or.inl ⟨a, hv⟩
      · obtain ⟨n, hn'⟩ := hok fld v hin hv
        rcases (dec_field fld v.chars (fun e => hhost v (e ▸ hin)) n hn').1 (b.resolve_left hv) with k | ⟨k1, k2, k3⟩
        · exact Or.inr (Or.inl ⟨a ▸ k, Or.inl a⟩)
        · exact Or.inr (Or.inr ⟨k1, a, k2, k3⟩)
    · obtain ⟨n, hn'⟩ := hok fld v hin hv
      have := (dec_field fld v.chars (fun e => hhost v (e ▸ hin)) n hn').2 b
      rw [← c] at this
      exact Or.inr (Or.inl ⟨this, Or.inr d⟩)
  · rw [h] at h1; simp at h1

/-- **C36**, memory. -/
theorem C36_no_reallocation (hp : Heap) (store : Store) (p : Parts SV) (hn : p.path.segments.length + 6 ≤ 2 ^ 32)
    (hh : ∀ a, p.authority = some a → a.host.chars.length + 2 < 2 ^ 64) (r : Parts SV) (st' : Store) (h : decode hp store p = .ok (.ok r, st')) :
    st' = { store.reserve hp st'.chars.length with chars := st'.chars } ∧ st'.chars.length ≤ st'.cap := by
  rcases decode_eq hp store (p := p) hn (fun v ⟨a, h, h'⟩ => punyDecoded_ok _ (h' ▸ hh a h)) with ⟨r', st'', h1, ⟨n, hn', h2, h3, h4⟩, _⟩ | ⟨e, x, st'', h1, _⟩
  · rw [h] at h1
    simp only [Except.ok.injEq, Prod.mk.injEq] at h1
    obtain ⟨rfl, rfl⟩ := h1
    subst hn'
    constructor
    · obtain ⟨a, b, c, d⟩ := st'
      simp only at *
      simp only [h2, h3, h4]
    · rw [h3]; exact (reserve_cap _ _ _).1
  · rw [h] at h1; simp at h1

/-- A store that is empty and an allocator. -/
def store0 : Store := ⟨0, 0, [], 0⟩
def heap0 : Heap := ⟨fun n => 100000 * (n + 1), fun _ => 0⟩

/-- C36: a host that decodes to nothing is not decoded. -/
theorem C36_counterexample : ∃ p r st', decode heap0 store0 p = .ok (.ok r, st') ∧ ¬ Related (fun fld v v' => v.ptr = 0 ∨ FieldDecodes fld v.chars v'.chars) p r := by
  have hex : decode heap0 store0 ⟨none, some ⟨none, ⟨1, b! "xn--"⟩, none⟩, ⟨false, []⟩, none, none⟩ =
      .ok (.ok ⟨none, some ⟨none, ⟨1, b! "xn--"⟩, none⟩, ⟨false, []⟩, none, none⟩, store0) := by decide +kernel
  refine ⟨_, _, _, hex, fun h => ?_⟩
  have h := h.authority
  obtain ⟨x, y, hxy, ex, ey⟩ : ∃ x y, (Opt (fun v v' => v.ptr = 0 ∨ FieldDecodes .userinfo v.chars v'.chars) x.userinfo y.userinfo ∧
      (x.host.ptr = 0 ∨ FieldDecodes .host x.host.chars y.host.chars) ∧ Opt (fun v v' => v.ptr = 0 ∨ FieldDecodes .port v.chars v'.chars) x.port y.port) ∧
      some (⟨none, ⟨1, b! "xn--"⟩, none⟩ : Authority SV) = some x ∧ some (⟨none, ⟨1, b! "xn--"⟩, none⟩ : Authority SV) = some y := by
    cases h with
    | some h => exact ⟨_, _, h, rfl, rfl⟩
  cases ex; cases ey
  rcases hxy.2.1 with h0 | h0
  · simp at h0
  · obtain ⟨ls, ds, h1, h2, h3⟩ := h0.1 rfl
    have hl : ls = [b! "xn--"] := Labels.unique h1 ⟨by simp, by decide, by decide⟩
    subst hl
    obtain ⟨d, hd, rfl⟩ : ∃ d, LabelDecodes (b! "xn--") d ∧ ds = [d] := by
      cases h2 with
      | cons a b => cases b; exact ⟨_, a, rfl⟩
    simp only [joined] at h3
    subst h3
    obtain ⟨l, hl, e⟩ : ∃ l, LabelDecodes l (b! "xn--") ∧ l = b! "xn--" := ⟨_, hd, rfl⟩
    obtain ⟨d, hl, e'⟩ : ∃ d, LabelDecodes l d ∧ d = b! "xn--" := ⟨_, hl, rfl⟩
    cases hl with
    | plain hp => exact hp (e ▸ List.prefix_refl _)
    | @puny t x ht =>
      have ht0 : t = [] := by
        have := congrArg List.length e
        simp at this
        exact this
      subst ht0
      have hx : x = [] := by
        rcases ht with (⟨_, hr⟩ | ⟨lit, ext, h, _⟩) | ⟨ext, h, _⟩
        · have := C32_complete false [] [] (Or.inr ⟨by simp, by simp⟩) (Or.inl ⟨by simp, .done⟩)
          obtain ⟨tx, hr, etx⟩ : ∃ tx, Rfc3492.Run 72 0x80 0 [] tx x ∧ tx = [] := ⟨_, hr, rfl⟩
          cases hr with
          | done => rfl
          | @step _ _ _ _ txt rest _ ds delta hs hv _ =>
            have : txt = [] := by
              cases txt with
              | nil => rfl
              | cons a b => simp at etx
            subst this
            cases hs
            cases hv
        · simp at h
        · simp at h
      subst hx
      revert e'; decide

/-- **C39.** `decode` yields an error exactly if some label of the host starts with `xn--` and what follows
is rejected by `punycode::decode`; the error is that of the first such label. -/
theorem C39_error (hp : Heap) (store : Store) (p : Parts SV) (hn : p.path.segments.length + 6 ≤ 2 ^ 32)
    (hh : ∀ a, p.authority = some a → a.host.chars.length + 2 < 2 ^ 64) :
    ∃ res st', decode hp store p = .ok (res, st') ∧ ∀ e, res = .error e ↔
      ∃ a pre l post, p.authority = some a ∧ a.host.ptr ≠ 0 ∧ Labels 0x2E a.host.chars (pre ++ (b! "xn--" ++ l) :: post) ∧
        Puny.decode false l = .ok (.error e) ∧ ∀ t, b! "xn--" ++ t ∈ pre → ∃ s, Puny.decode false t = .ok (.ok (s, [])) := by
  have hhost : ∀ v, InField p .host v → v.chars.length + 2 < szMod := fun v ⟨a, h, h'⟩ => h' ▸ hh a h
  have key : ∀ fld v e, InField p fld v → (decRes fld v.chars = .error e ↔ fld = .host ∧ ∃ pre l post, Labels 0x2E v.chars (pre ++ (b! "xn--" ++ l) :: post) ∧
      Puny.decode false l = .ok (.error e) ∧ ∀ t, b! "xn--" ++ t ∈ pre → ∃ s, Puny.decode false t = .ok (.ok (s, []))) := by
    intro fld v e hin
    by_cases hf : fld = .host
    · subst hf
      have hD : ∀ t d, LabelD (b! "xn--" ++ t) d → ∃ s, Puny.decode false t = .ok (.ok (s, [])) := by
        intro t d hd
        rcases hd.inv with ⟨k, _⟩ | ⟨t', s, k, hs, _⟩
        · exact absurd ⟨t, rfl⟩ k
        · rw [List.append_cancel_left k]; exact ⟨s, hs⟩
      obtain ⟨ls, h1, ⟨ds, h2, h3⟩ | ⟨pre, l, post, out, e', h2, h2', ⟨t, rfl, ht⟩, h3⟩⟩ := punyDecoded_eq v.chars (hhost v hin)
      · have : ∀ e, decRes .host v.chars ≠ .error e := by simp [decRes, h3]
        refine ⟨fun k => absurd k (this e), ?_⟩
        rintro ⟨_, pre, l, post, hl, hb, _⟩
        have := Labels.unique h1 hl
        subst this
        obtain ⟨d, _, hd⟩ := each_left h2 (b! "xn--" ++ l) (by simp)
        obtain ⟨s, hs⟩ := hD l d hd
        rw [hb] at hs; simp at hs
      · have hres : decRes .host v.chars = .error e' := by simp [decRes, h3]
        rw [hres, Except.error.injEq]
        constructor
        · rintro rfl
          exact ⟨rfl, pre, t, post, h2 ▸ h1, ht, fun x hx => by obtain ⟨d, hd⟩ := h2' _ hx; exact hD x d hd⟩
        · rintro ⟨_, pre', l, post', hl, hb, hg⟩
          have hu := Labels.unique (h2 ▸ h1) hl
          have e2 := first_unique (P := fun x => ∃ t e, x = b! "xn--" ++ t ∧ Puny.decode false t = .ok (.error e)) hu
            (fun x hx ⟨t, e, ex, hte⟩ => by
              obtain ⟨d, hd⟩ := h2' x hx
              obtain ⟨s, hs⟩ := hD t d (ex ▸ hd)
              rw [hs] at hte; simp at hte)
            (fun x hx ⟨t, e, ex, hte⟩ => by
              obtain ⟨s, hs⟩ := hg t (ex ▸ hx)
              rw [hs] at hte; simp at hte)
            ⟨t, e', rfl, ht⟩ ⟨l, e, rfl, hb⟩
          have e3 := List.append_cancel_left e2
          subst e3
          rw [ht] at hb
          simpa using hb
    · simp [decRes, hf]
  rcases decode_eq hp store (p := p) hn (fun v hv => punyDecoded_ok _ (hhost v hv)) with ⟨r, st', h1, _, _, _, h5⟩ | ⟨e, x, st', h1, hx, he⟩
  · refine ⟨_, st', h1, fun e => ⟨fun k => by simp at k, ?_⟩⟩
    rintro ⟨a, pre, l, post, ha, hv, hr⟩
    have hin : InField p .host a.host := ⟨a, ha, rfl⟩
    obtain ⟨x, hx, ex, ef⟩ := visit_of_field hin hv
    obtain ⟨n, hn'⟩ := h5 x hx
    rw [ex, ef, (key .host a.host e hin).2 ⟨rfl, pre, l, post, hr⟩] at hn'
    simp at hn'
  · obtain ⟨_, hin, hv, _⟩ := mem_visits hn hx
    obtain ⟨hf, pre, l, post, hr⟩ := (key x.fld x.v e hin).1 he
    obtain ⟨v, idx, fld⟩ := x
    simp only at hf hin hv hr he
    subst hf
    obtain ⟨a, ha, hav⟩ := hin
    subst hav
    refine ⟨_, st', h1, fun e' => ⟨fun k => ?_, ?_⟩⟩
    · simp only [Except.error.injEq] at k
      subst k
      exact ⟨a, pre, l, post, ha, hv, hr⟩
    · rintro ⟨a', pre', l', post', ha', hv', hr'⟩
      rw [ha] at ha'
      cases ha'
      have := (key .host a.host e' ⟨a, ha, rfl⟩).2 ⟨rfl, pre', l', post', hr'⟩
      rw [he] at this
      simpa using this

example : decode heap0 store0 ⟨none, some ⟨none, ⟨1, b! "a.xn--!"⟩, none⟩, ⟨false, []⟩, none, none⟩ = .ok (.error .badInput, store0) := by decide +kernel

/-! ### C37: `decode` undoes `encode` -/

/-- Whether encoding and decoding a field gives it back. -/
def Reversible (fld : Codec.Field) (s : Str) : Prop :=
  (fld = .scheme ∨ fld = .port → (0x25 : UInt8) ∉ s) ∧ (fld = .host → (∃ cs, IsUtf8 s cs) ∧ NoAce s ∧ s.length ≤ 2 ^ 37)

theorem round_field (fld : Codec.Field) (s : Str) (h : Reversible fld s) (e : Str) (he : (encSz fld s = 0 ∧ e = s) ∨ (encSz fld s ≠ 0 ∧ e = encOut fld s)) :
    (fld = .host → ∃ r, punyDecoded e = .ok r) ∧ ∃ n, decRes fld e = .ok n ∧ (decSz fld e = 0 → e = s) ∧ (decSz fld e ≠ 0 → decOut fld e = s) := by
  by_cases hf : fld = .host
  · subst hf
    obtain ⟨⟨cs, hu⟩, hace, hl⟩ := h.2 rfl
    obtain ⟨e0, b, h1, h2⟩ := host_roundtrip hu hl hace
    obtain ⟨_, e0', b', _, k1, _, _, k2, k3, _⟩ := host_encoded s hl
    rw [h1] at k1; cases k1
    have hz : encSz .host s = if b then e0.length else 0 := by simp [encSz, h1]
    have ho : encOut .host s = e0 := by simp [encOut, h1]
    have hee : e = e0 := by
      rcases he with ⟨a, b'⟩ | ⟨_, b'⟩
      · cases b with
        | false => rw [b', k2 rfl]
        | true =>
          rw [hz] at a
          exact absurd (List.eq_nil_of_length_eq_zero a) (k3 rfl).2
      · rw [b', ho]
    subst hee
    have hr : decRes .host e = .ok (if b then s.length else 0) := by simp [decRes, h2]
    refine ⟨fun _ => ⟨_, h2⟩, _, hr, fun k => ?_, fun _ => by simp [decOut, h2]⟩
    rw [decSz_of hr] at k
    cases b with
    | false => exact k2 rfl
    | true =>
      have hnil := List.eq_nil_of_length_eq_zero k
      subst hnil
      have : punyEncoded [] = .ok ([], false) := by decide +kernel
      rw [this] at h1; simp at h1
  · refine ⟨fun k => absurd k hf, ?_⟩
    have hee : e = encP (encSetOf fld) s := by
      rcases he with ⟨a, rfl⟩ | ⟨_, b⟩
      · cases hn : needsPctencode e (encSetOf fld) with
        | false => exact ((encP_id_iff _ _).2 hn).symm
        | true =>
          have : encSz fld e = (encP (encSetOf fld) e).length := by simp [encSz, hf, hn]
          exact absurd (this ▸ a) (needsPctencode_len hn)
      · rw [b]; simp [encOut, hf]
    have hback : decP e = s := by
      rw [hee]
      apply decP_encP
      have := h.1
      cases fld with
      | host => exact absurd rfl hf
      | scheme => exact Or.inr (this (Or.inl rfl))
      | port => exact Or.inr (this (Or.inr rfl))
      | userinfo => exact Or.inl (by decide)
      | query => exact Or.inl (by decide)
      | fragment => exact Or.inl (by decide)
      | path => exact Or.inl (by decide)
    have hr : decRes fld e = .ok (if needsPctdecode e then (decP e).length else 0) := by simp [decRes, hf]
    refine ⟨_, hr, fun k => ?_, fun _ => by simp [decOut, hf, hback]⟩
    rw [decSz_of hr] at k
    cases hn : needsPctdecode e with
    | false =>
      have := C26_identity e hn
      rw [pctdecode_eq, hback] at this
      exact (Except.ok.inj this).symm
    | true =>
      rw [hn] at k
      exact absurd k (needsPctdecode_len hn)

theorem each_length {α β : Type} {R : α → β → Prop} {a : List α} {b : List β} (h : Each R a b) : b.length = a.length := by
  induction h with
  | nil => rfl
  | cons _ _ ih => simp [ih]

theorem field_back {R : Codec.Field → SV → SV → Prop} {p r : Parts SV} (h : Related R p r) {fld : Codec.Field} {v' : SV} (hin : InField r fld v') :
    ∃ v, InField p fld v ∧ R fld v v' := by
  have opt : ∀ {R : SV → SV → Prop} {a b : Option SV} {w : SV}, Opt R a b → b = some w → ∃ v, a = some v ∧ R v w := by
    intro R a b w h e
    cases h with
    | none => simp at e
    | some h => cases e; exact ⟨_, rfl, h⟩
  have auth : ∀ b, r.authority = some b → ∃ a, p.authority = some a ∧ Opt (R .userinfo) a.userinfo b.userinfo ∧ R .host a.host b.host ∧ Opt (R .port) a.port b.port := by
    intro b hb
    have := h.authority
    rw [hb] at this
    cases ha : p.authority with
    | none => rw [ha] at this; cases this
    | some a =>
      rw [ha] at this
      cases this with
      | some k => exact ⟨a, rfl, k⟩
  cases fld with
  | scheme => exact opt h.scheme hin
  | query => exact opt h.query hin
  | fragment => exact opt h.fragment hin
  | path => exact each_right h.segments v' hin
  | userinfo =>
    obtain ⟨b, e1, e2⟩ := hin
    obtain ⟨a, ha, hr⟩ := auth b e1
    obtain ⟨v, hv, hr⟩ := opt hr.1 e2
    exact ⟨v, ⟨a, ha, hv⟩, hr⟩
  | host =>
    obtain ⟨b, e1, e2⟩ := hin
    obtain ⟨a, ha, hr⟩ := auth b e1
    exact ⟨a.host, ⟨a, ha, rfl⟩, e2 ▸ hr.2.1⟩
  | port =>
    obtain ⟨b, e1, e2⟩ := hin
    obtain ⟨a, ha, hr⟩ := auth b e1
    obtain ⟨v, hv, hr⟩ := opt hr.2.2 e2
    exact ⟨v, ⟨a, ha, hv⟩, hr⟩

theorem related_text {p q : Parts SV} (h : Related (fun _ v w => w.chars = v.chars) p q) : q.text = p.text := by
  have opt : ∀ {a b : Option SV}, Opt (fun v w => w.chars = v.chars) a b → b.map SV.chars = a.map SV.chars := by
    intro a b h
    cases h with
    | none => rfl
    | some h => simp [h]
  obtain ⟨h1, h2, h3, h4, h5, h6⟩ := h
  obtain ⟨s, a, ⟨ab, gs⟩, q1, f⟩ := p
  obtain ⟨s', a', ⟨ab', gs'⟩, q', f'⟩ := q
  simp only at *
  simp only [Parts.text, Parts.map, Path.map, opt h1, h2, opt h5, opt h6, each_map (f := SV.chars) (g := SV.chars) h3 fun _ _ _ h => h]
  congr 1
  cases h4 with
  | none => rfl
  | some h => simp [Authority.map, opt h.1, h.2.1, opt h.2.2]

/-- **C37.** -/
theorem C37_roundtrip (hp : Heap) (store : Store) (p : Parts SV) (hn : p.path.segments.length + 6 ≤ 2 ^ 32)
    (haddr : ∀ n, hp.addr n ≠ 0) (hstore : store.cap ≠ 0 → store.addr ≠ 0)
    (hs : ∀ s, p.scheme = some s → (0x25 : UInt8) ∉ s.chars)
    (ha : ∀ a, p.authority = some a → (∀ t, a.port = some t → (0x25 : UInt8) ∉ t.chars) ∧
      (∃ cs, IsUtf8 a.host.chars cs) ∧ NoAce a.host.chars ∧ a.host.chars.length ≤ 2 ^ 37) :
    ∃ r st, encode hp store p = .ok (r, st) ∧ ∀ hp' store', ∃ q st', decode hp' store' r = .ok (.ok q, st') ∧ q.text = p.text := by
  have hrev : ∀ fld v, InField p fld v → Reversible fld v.chars := by
    intro fld v hin
    refine ⟨fun k => ?_, fun k => ?_⟩
    · rcases k with rfl | rfl
      · exact hs v hin
      · obtain ⟨a, e1, e2⟩ := hin; exact (ha a e1).1 v e2
    · subst k
      obtain ⟨a, e1, e2⟩ := hin; exact e2 ▸ (ha a e1).2
  obtain ⟨r, st, h1, ⟨n, hn', h2, _⟩, _, h4⟩ := encode_eq hp store (p := p) hn (fun v ⟨a, h, h'⟩ => h' ▸ (ha a h).2.2.2)
  refine ⟨r, st, h1, fun hp' store' => ?_⟩
  have haddr' : st.chars.length ≠ 0 → st.addr ≠ 0 := by
    intro k
    rw [h2]
    unfold Store.reserve
    split
    · exact hstore (by omega)
    · exact haddr _
  -- what the strings of `r` are
  have hrel : Related (fun fld v v' => Reversible fld v.chars ∧ ((v'.ptr = 0 ∧ v' = v) ∨ (v'.ptr ≠ 0 ∧ v'.chars = v.chars ∧ encSz fld v.chars = 0) ∨
      (v'.ptr ≠ 0 ∧ encSz fld v.chars ≠ 0 ∧ v'.chars = encOut fld v.chars))) p r := by
    refine h4.mono fun fld v v' hin hr => ⟨hrev fld v hin, ?_⟩
    rcases hr with ⟨rfl, b⟩ | ⟨hv, a, b, ⟨off, c, d, _⟩⟩
    · by_cases hv : v'.ptr = 0
      · exact Or.inl ⟨hv, rfl⟩
      · exact Or.inr (Or.inl ⟨hv, rfl, b.resolve_left hv⟩)
    · refine Or.inr (Or.inr ⟨?_, a, b⟩)
      have := encSz_out fld v.chars a
      rw [← b] at this
      have := haddr' (by omega)
      omega
  have hin : ∀ fld v', InField r fld v' → ∃ v, InField p fld v ∧ Reversible fld v.chars ∧ ((v'.ptr = 0 ∧ v' = v) ∨ (v'.ptr ≠ 0 ∧ v'.chars = v.chars ∧ encSz fld v.chars = 0) ∨
      (v'.ptr ≠ 0 ∧ encSz fld v.chars ≠ 0 ∧ v'.chars = encOut fld v.chars)) := fun fld v' hv => field_back hrel hv
  have hnull : ∀ v, InField r .host v → v.ptr = 0 → ∃ x, punyDecoded v.chars = .ok x := by
    intro v hv h0
    obtain ⟨w, hw, hrw, ⟨_, e⟩ | ⟨k, _⟩ | ⟨k, _⟩⟩ := hin .host v hv
    · subst e
      exact punyDecoded_ok _ (by have := (hrw.2 rfl).2.2; unfold szMod; omega)
    · exact absurd h0 k
    · exact absurd h0 k
  rcases decode_eq hp' store' (p := r) (by rw [each_length hrel.segments]; exact hn) (fun v hv => by
      obtain ⟨w, hw, hrw, ⟨k, e⟩ | ⟨k, e, z⟩ | ⟨k, z, e⟩⟩ := hin .host v hv
      · exact hnull v hv k
      · exact (round_field .host w.chars hrw v.chars (Or.inl ⟨z, e⟩)).1 rfl
      · exact (round_field .host w.chars hrw v.chars (Or.inr ⟨z, e⟩)).1 rfl) with ⟨q, st', k1, _, _, k4, _⟩ | ⟨e, x, st', k1, hx, he⟩
  · refine ⟨q, st', k1, related_text ((hrel.comp k4).mono fun fld v w _ ⟨v', ⟨hr, hv'⟩, hw⟩ => ?_)⟩
    have fin : v'.ptr ≠ 0 → ((encSz fld v.chars = 0 ∧ v'.chars = v.chars) ∨ (encSz fld v.chars ≠ 0 ∧ v'.chars = encOut fld v.chars)) → w.chars = v.chars := by
      intro hp0 he
      obtain ⟨_, n, _, c1, c2⟩ := round_field fld v.chars hr v'.chars he
      rcases hw with ⟨rfl, b⟩ | ⟨_, a, b, _⟩
      · exact c1 (b.resolve_left hp0)
      · rw [b]; exact c2 a
    rcases hv' with ⟨k, rfl⟩ | ⟨k, e, z⟩ | ⟨k, z, e⟩
    · rcases hw with ⟨rfl, _⟩ | ⟨k', _⟩
      · rfl
      · exact absurd k k'
    · exact fin k (Or.inl ⟨z, e⟩)
    · exact fin k (Or.inr ⟨z, e⟩)
  · obtain ⟨_, hxin, hxp, _⟩ := mem_visits (p := r) (by rw [each_length hrel.segments]; exact hn) hx
    obtain ⟨w, hw, hrw, ⟨k, e⟩ | ⟨k, e, z⟩ | ⟨k, z, e⟩⟩ := hin x.fld x.v hxin
    · exact absurd k hxp
    · obtain ⟨_, n, hn, _⟩ := round_field x.fld w.chars hrw x.v.chars (Or.inl ⟨z, e⟩)
      rw [hn] at he; simp at he
    · obtain ⟨_, n, hn, _⟩ := round_field x.fld w.chars hrw x.v.chars (Or.inr ⟨z, e⟩)
      rw [hn] at he; simp at he

/-! ### C38: validity -/

theorem hostEncodes_ascii {s e : Str} {cs : List Nat} (ha : ∀ c ∈ s, c.toNat < 0x80) (hr : Reads s cs) (h : HostEncodes cs e) : e = s := by
  have hc := reads_unique hr (ascii_reads ha)
  subst hc
  obtain ⟨ls, es, h1, h2, rfl⟩ := h
  apply toNat_map_inj
  rw [joined_map, h1.2.2]
  congr 1
  refine (each_map (g := List.map UInt8.toNat) (f := id) h2 fun l e hm he => ?_).trans (by simp)
  cases he with
  | ascii _ b => exact b
  | puny b _ _ _ =>
    obtain ⟨c, hc, hc'⟩ := b
    have : c ∈ s.map UInt8.toNat := by rw [h1.2.2]; exact mem_joined hm hc
    obtain ⟨x, hx, rfl⟩ := List.mem_map.1 this
    have := ha x hx
    omega

/-- The rule of each field. -/
def fieldRule : Codec.Field → Str → Prop
  | .scheme => Abnf.scheme
  | .userinfo => Abnf.userinfo
  | .host => Abnf.HostAccepted
  | .port => Abnf.port
  | .query => Abnf.query
  | .fragment => Abnf.fragment
  | .path => Abnf.segment

theorem pct_encodes {fld : Codec.Field} {s e : Str} (hf : fld ≠ .host) (h : FieldEncodes fld s e) : e = encP (encSetOf fld) s := by
  have := h.2 hf
  rw [← encSet_iff fld hf] at this
  exact (encodes_iff _ _ _).1 this

theorem plain_encodes {fld : Codec.Field} {s e : Str} (hf : fld = .scheme ∨ fld = .port) (hs : ∀ c ∈ s, 0x20 < c.toNat ∧ c.toNat ≤ 0x7E) (h : FieldEncodes fld s e) : e = s := by
  have hne : fld ≠ .host := by rcases hf with rfl | rfl <;> simp
  rw [pct_encodes hne h, encP_id_iff]
  simp only [needsPctencode, List.any_eq_false]
  intro c hc
  have e0 : encSetOf fld = EncSet.none := by rcases hf with rfl | rfl <;> rfl
  rw [e0]
  have := forall_byte (P := fun c => decide ((0x20 < c.toNat ∧ c.toNat ≤ 0x7E) → ¬ needsPctencodeB c EncSet.none = true)) (by decide +kernel) c
  exact of_decide_eq_true this (hs c hc)

theorem encodes_rule {fld : Codec.Field} {s e : Str} (hs : fieldRule fld s) (h : FieldEncodes fld s e) : fieldRule fld e ∧ e.length ≤ 3 * s.length := by
  have hlen : ∀ es, (encP es s).length ≤ 3 * s.length := by
    intro es
    have := encP_length es s
    have := List.countP_le_length (p := fun c => needsPctencodeB c es) (l := s)
    omega
  have bytes : ∀ {f g : UInt8 → Bool}, (∀ c ∈ s, f c = true) → (List.range 256).all (fun n => !f (UInt8.ofNat n) || g (UInt8.ofNat n)) = true → ∀ c ∈ s, g c = true := by
    intro f g hf ht c hc
    have := forall_byte (P := fun c => !f c || g c) ht c
    simpa [hf c hc] using this
  cases fld with
  | scheme =>
    have := plain_encodes (Or.inl rfl) (fun c hc => by
      have := bytes (g := fun c => decide (0x20 < c.toNat ∧ c.toNat ≤ 0x7E)) (only_scheme s hs) (by decide +kernel) c hc
      simpa using this) h
    subst this; exact ⟨hs, by omega⟩
  | port =>
    have := plain_encodes (Or.inr rfl) (fun c hc => by
      have := bytes (g := fun c => decide (0x20 < c.toNat ∧ c.toNat ≤ 0x7E)) (only_port s hs) (by decide +kernel) c hc
      simpa using this) h
    subst this; exact ⟨hs, by omega⟩
  | host =>
    obtain ⟨cs, hr, he⟩ := h.1 rfl
    have := hostEncodes_ascii (fun c hc => by
      have := bytes (g := fun c => decide (c.toNat < 0x80)) (ascii_host s hs) (by decide +kernel) c hc
      simpa using this) hr he
    subst this; exact ⟨hs, by omega⟩
  | userinfo =>
    rw [pct_encodes (by simp) h]
    exact ⟨C28_userinfo s _ (pctencode_eq _ _), hlen _⟩
  | query =>
    rw [pct_encodes (by simp) h]
    refine ⟨(C28_query s _ (pctencode_eq _ _)).2 fun c hc => ?_, hlen _⟩
    have := bytes (g := fun c => decide (c ∉ b! "[\\]^`{|}")) (only_query s hs) (by decide +kernel) c hc
    simpa using this
  | fragment =>
    rw [pct_encodes (by simp) h]
    refine ⟨(C28_fragment s _ (pctencode_eq _ _)).2 fun c hc => ?_, hlen _⟩
    have := bytes (g := fun c => decide (c ∉ b! "#[\\]^`{|}")) (only_query s hs) (by decide +kernel) c hc
    simpa using this
  | path =>
    rw [pct_encodes (by simp) h]
    refine ⟨(C28_segment s _ (pctencode_eq _ _)).2 fun c hc => ?_, hlen _⟩
    have := bytes (g := fun c => decide (c ∉ b! "/[\\]^|")) (only_segment s hs) (by decide +kernel) c hc
    simpa using this

theorem components_fields (p : Parts SV) : ComponentsOk p.text ↔ p.scheme ≠ none ∧ ∀ fld v, InField p fld v → fieldRule fld v.chars := by
  constructor
  · rintro ⟨⟨s, h1, h2⟩, hu, hh, hpo, hpa, hq, hf⟩
    simp only [Parts.text, Parts.map, Path.map, Option.map_eq_some_iff] at *
    refine ⟨by obtain ⟨a, e, _⟩ := h1; simp [e], ?_⟩
    intro fld v hin
    cases fld with
    | scheme => obtain ⟨w, e, rfl⟩ := h1; rw [show p.scheme = some v from hin] at e; cases e; exact h2
    | userinfo => obtain ⟨a, e1, e2⟩ := hin; exact hu _ ⟨a, e1, rfl⟩ _ (by simp [Authority.map, e2])
    | host => obtain ⟨a, e1, e2⟩ := hin; subst e2; exact hh _ ⟨a, e1, rfl⟩
    | port => obtain ⟨a, e1, e2⟩ := hin; exact hpo _ ⟨a, e1, rfl⟩ _ (by simp [Authority.map, e2])
    | query => exact hq _ ⟨v, hin, rfl⟩
    | fragment => exact hf _ ⟨v, hin, rfl⟩
    | path => exact hpa _ (List.mem_map_of_mem hin)
  · rintro ⟨h1, h⟩
    obtain ⟨s, hs⟩ := Option.ne_none_iff_exists'.1 h1
    refine ⟨⟨s.chars, by simp [Parts.text, Parts.map, hs], h .scheme s hs⟩, ?_, ?_, ?_, ?_, ?_, ?_⟩
    all_goals simp only [Parts.text, Parts.map, Path.map, Option.map_eq_some_iff, List.mem_map]
    · rintro a ⟨b, hb, rfl⟩ u hu
      simp only [Authority.map, Option.map_eq_some_iff] at hu
      obtain ⟨v, hv, rfl⟩ := hu
      exact h .userinfo v ⟨b, hb, hv⟩
    · rintro a ⟨b, hb, rfl⟩
      exact h .host _ ⟨b, hb, rfl⟩
    · rintro a ⟨b, hb, rfl⟩ u hu
      simp only [Authority.map, Option.map_eq_some_iff] at hu
      obtain ⟨v, hv, rfl⟩ := hu
      exact h .port v ⟨b, hb, hv⟩
    · rintro g ⟨v, hv, rfl⟩; exact h .path v hv
    · rintro q ⟨v, hv, rfl⟩; exact h .query v hv
    · rintro q ⟨v, hv, rfl⟩; exact h .fragment v hv

theorem views_field (p : Parts SV) (v : SV) : v ∈ p.views ↔ ∃ fld, InField p fld v := by
  constructor
  · intro h
    unfold Parts.views at h
    simp only [List.mem_append, Option.mem_toList] at h
    rcases h with (((h | h) | h) | h) | h
    · exact ⟨.scheme, h⟩
    · cases ha : p.authority with
      | none => simp [ha] at h
      | some a =>
        simp only [ha, List.mem_append, Option.mem_toList, List.mem_singleton] at h
        rcases h with (h | h) | h
        · exact ⟨.userinfo, a, ha, h⟩
        · exact ⟨.host, a, ha, h.symm⟩
        · exact ⟨.port, a, ha, h⟩
    · exact ⟨.path, h⟩
    · exact ⟨.query, h⟩
    · exact ⟨.fragment, h⟩
  · rintro ⟨fld, h⟩
    unfold Parts.views
    simp only [List.mem_append, Option.mem_toList]
    cases fld with
    | scheme => exact Or.inl (Or.inl (Or.inl (Or.inl h)))
    | path => exact Or.inl (Or.inl (Or.inr h))
    | query => exact Or.inl (Or.inr h)
    | fragment => exact Or.inr h
    | userinfo => obtain ⟨a, ha, h⟩ := h; simp [ha, h]
    | host => obtain ⟨a, ha, h⟩ := h; simp [ha, h]
    | port => obtain ⟨a, ha, h⟩ := h; simp [ha, h]

/-- **C38.** -/
theorem C38_valid (pl : Plat) (hp : Heap) (store : Store) (p : Parts SV) (hn : p.path.segments.length + 6 ≤ 2 ^ 32)
    (hlen : ∀ a, p.authority = some a → a.host.chars.length ≤ 2 ^ 37) (h : p.valid pl = .ok true) :
    ∃ r st, encode hp store p = .ok (r, st) ∧ r.valid pl = .ok true := by
  obtain ⟨hs, hc⟩ := (components_fields p).1 (C13_valid_sound pl p h)
  obtain ⟨r, st, h1, h2⟩ := C35_encode hp store p hn hlen
  refine ⟨r, st, h1, ?_⟩
  have key : ∀ fld v', InField r fld v' → fieldRule fld v'.chars := by
    intro fld v' hin
    obtain ⟨v, hv, hr⟩ := field_back h2 hin
    rcases hr with ⟨rfl, _⟩ | ⟨_, he, _⟩
    · exact hc fld _ hv
    · exact (encodes_rule (hc fld v hv) he).1
  refine C13_valid_complete pl r ((components_fields r).2 ⟨?_, fun fld v' hin => key fld v' hin⟩)
  intro e
  have := h2.scheme
  rw [e] at this
  cases hp' : p.scheme with
  | none => exact hs hp'
  | some s => rw [hp'] at this; cases this

/-! ### Concrete cases -/

/-- `http://a@b:c@bücher.example:80/a b/%41?q q#f f` -/
def sampleParts : Parts SV :=
  ⟨some ⟨1000, b! "http"⟩, some ⟨some ⟨1010, b! "a@b:c"⟩, ⟨1020, bucher⟩, some ⟨1040, b! "80"⟩⟩, ⟨true, [⟨1050, b! "a b"⟩, SV.null, ⟨1060, b! "%41"⟩]⟩,
    some ⟨1070, b! "q q"⟩, some ⟨1080, b! "ff"⟩⟩

/-- What it becomes, with one allocation at 100000. -/
theorem sample_encode : encode heap0 store0 sampleParts = .ok (⟨some ⟨1000, b! "http"⟩, some ⟨some ⟨100010, b! "a%40b%3Ac"⟩, ⟨100019, b! "xn--bcher-kva.example"⟩, some ⟨1040, b! "80"⟩⟩,
    ⟨true, [⟨100000, b! "a%20b"⟩, SV.null, ⟨100005, b! "%2541"⟩]⟩, some ⟨100040, b! "q%20q"⟩, some ⟨1080, b! "ff"⟩⟩,
    ⟨100000, 45, b! "a%20b%2541a%40b%3Acxn--bcher-kva.exampleq%20q", 1⟩) := by decide +kernel

example : ∃ r st, encode heap0 store0 sampleParts = .ok (r, st) ∧ ∀ hp' store', ∃ q st', decode hp' store' r = .ok (.ok q, st') ∧ q.text = sampleParts.text :=
  C37_roundtrip heap0 store0 sampleParts (by decide) (by intro n; simp [heap0]) (by simp [store0]) (by intro s h; cases h; decide)
    (by
      intro a h; cases h
      refine ⟨fun t ht => by cases ht; decide, ⟨[0x62, 0xFC, 0x63, 0x68, 0x65, 0x72, 0x2E, 0x65, 0x78, 0x61, 0x6D, 0x70, 0x6C, 0x65], by decide, by decide⟩, bucher_noAce, by decide⟩)

example : ∃ r st, encode heap0 store0 ⟨some ⟨1, b! "s"⟩, none, ⟨true, [⟨10, b! "a%41"⟩]⟩, none, none⟩ = .ok (r, st) ∧ r.valid ⟨true⟩ = .ok true :=
  C38_valid ⟨true⟩ heap0 store0 _ (by decide) (by intro a h; cases h) (by decide +kernel)

/-- More strings than bits: from the 26th segment on each is examined again. -/
example : (encode heap0 store0 ⟨none, none, ⟨false, (List.replicate 40 ⟨1, b! "a"⟩) ++ [⟨1, b! " "⟩]⟩, none, none⟩).map (fun r => r.2.chars) = .ok (b! "%20") := by decide +kernel

end Verif
