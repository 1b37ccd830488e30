import Verif.Props.Commute
import Verif.Props.CodecSize

/-!
# C101: encoding and decoding more than once
-/

set_option linter.unusedSimpArgs false

namespace Verif
open Codec PartsSpec PctSpec Unicode

/-! ### Specification -/

/-- Calling `f` so many times, each time on what the last call gave. -/
inductive Times (f : Str → M Str) : Nat → Str → Str → Prop
  | zero {s} : Times f 0 s s
  | succ {n s t u} : f s = .ok t → Times f n t u → Times f (n + 1) s u

/-- There is a well-formed triplet somewhere. -/
def HasTriplet (s : Str) : Prop := ∃ u h l b v, s = u ++ 0x25 :: h :: l :: v ∧ Triplet h l b

/-! ### Lemmas -/

theorem hasTriplet_cons {c : UInt8} {s : Str} (h : HasTriplet s) : HasTriplet (c :: s) := by
  obtain ⟨u, h, l, b, v, rfl, k⟩ := h
  exact ⟨c :: u, h, l, b, v, rfl, k⟩

theorem decodes_cases {s d : Str} (h : Decodes s d) : (d = s ∧ ¬ HasTriplet s) ∨ (d.length + 2 ≤ s.length ∧ HasTriplet s) := by
  induction h with
  | nil =>
    refine Or.inl ⟨rfl, ?_⟩
    rintro ⟨u, _, _, _, _, e, _⟩
    cases u <;> simp at e
  | @triplet h l b s d ht _ ih =>
    refine Or.inr ⟨?_, [], h, l, b, s, rfl, ht⟩
    rcases ih with ⟨rfl, _⟩ | ⟨k, _⟩ <;> simp <;> omega
  | @copy c s d hn _ ih =>
    rcases ih with ⟨rfl, k⟩ | ⟨k1, k2⟩
    · refine Or.inl ⟨rfl, ?_⟩
      rintro ⟨u, h, l, b, v, e, ht⟩
      cases u with
      | nil => exact hn ⟨h, l, b, v, e, ht⟩
      | cons x u =>
        simp only [List.cons_append, List.cons.injEq] at e
        exact k ⟨u, h, l, b, v, e.2, ht⟩
    · exact Or.inr ⟨by simp; omega, hasTriplet_cons k2⟩

theorem needs_hex (es : UInt8) (v : Nat) (hv : v < 16) : needsPctencodeB (hexU v) es = false := by
  have h : ∀ v, v < 16 → (List.range 256).all (fun n => !needsPctencodeB (hexU v) (UInt8.ofNat n)) = true := by decide +kernel
  have := List.all_eq_true.1 (h v hv) es.toNat (by have := es.toNat_lt; simp; omega)
  simpa using this

theorem encP_count (es : UInt8) (h : es ≠ 0) (s : Str) :
    (encP es s).countP (fun c => needsPctencodeB c es) = s.countP (fun c => needsPctencodeB c es) := by
  induction s with
  | nil => rfl
  | cons c s ih =>
    rw [encP_cons, List.countP_append, ih, List.countP_cons]
    have hc := c.toNat_lt
    by_cases k : needsPctencodeB c es = true
    · simp [encB, k, List.countP_cons, percent_needs es h, needs_hex es _ (show c.toNat / 16 < 16 by omega), needs_hex es _ (show c.toNat % 16 < 16 by omega)]
      omega
    · simp [encB, k, List.countP_cons]

/-! ### C101 -/

/-- **C101**: encoding what is encoded already makes it as much longer as encoding did the first time; so it changes nothing only if
encoding never did. -/
theorem C101_encode_twice (s : Str) (es : UInt8) (h : es ≠ EncSet.none) (e f : Str) (h1 : pctencode s es = .ok e) (h2 : pctencode e es = .ok f) :
    f.length + s.length = 2 * e.length ∧ (f = e ↔ e = s) := by
  rw [pctencode_eq] at h1 h2
  cases h1; cases h2
  have hc := encP_count es h s
  have l1 := encP_length es s
  have l2 := encP_length es (encP es s)
  rw [hc] at l2
  refine ⟨by omega, fun k => ?_, fun k => by rw [k, k]⟩
  rw [encP_id_iff]
  rw [k] at l2
  have : s.countP (fun c => needsPctencodeB c es) = 0 := by omega
  rw [List.countP_eq_zero] at this
  simpa [needsPctencode] using this

/-- **C101**: with the set `none` the second time never changes anything. -/
theorem C101_encode_none (s e : Str) (h : pctencode s EncSet.none = .ok e) : pctencode e EncSet.none = .ok e := by
  refine (C25_identity e _).1 ?_
  have hp := C23_printable s _ e h
  cases k : needsPctencode e EncSet.none with
  | false => rfl
  | true =>
    obtain ⟨c, hc, hn⟩ := (C25_any e _).1 k
    have := (C24_none c).1 hn
    have := hp c hc
    simp only [UInt8.le_iff_toNat_le] at *
    have e1 : (0x20 : UInt8).toNat = 0x20 := rfl
    have e2 : (0x7F : UInt8).toNat = 0x7F := rfl
    omega

theorem Times.snoc {f : Str → M Str} {n : Nat} {s t u : Str} (h : Times f n s t) (k : f t = .ok u) : Times f (n + 1) s u := by
  induction h with
  | zero => exact .succ k .zero
  | succ h1 _ ih => exact .succ h1 (ih k)

/-- **C101**: what was encoded n times has to be decoded n times, and then it is what it was. -/
theorem C101_rounds (s : Str) (es : UInt8) (h : es ≠ EncSet.none) (n : Nat) : ∃ e, Times (pctencode · es) n s e ∧ Times pctdecode n e s ∧
    e.length = s.length + n * (2 * s.countP (fun c => needsPctencodeB c es)) := by
  suffices ∃ e, Times (pctencode · es) n s e ∧ Times pctdecode n e s ∧
      e.length = s.length + n * (2 * s.countP (fun c => needsPctencodeB c es)) ∧
      e.countP (fun c => needsPctencodeB c es) = s.countP (fun c => needsPctencodeB c es) by
    obtain ⟨e, h1, h2, h3, _⟩ := this
    exact ⟨e, h1, h2, h3⟩
  induction n with
  | zero => exact ⟨s, .zero, .zero, by simp, rfl⟩
  | succ n ih =>
    obtain ⟨e, h1, h2, h3, h4⟩ := ih
    refine ⟨encP es e, h1.snoc (pctencode_eq e es), .succ (by rw [pctdecode_eq, decP_encP es e (Or.inl h)]) h2, ?_, by rw [encP_count es h, h4]⟩
    rw [encP_length, h3, h4, Nat.add_mul]
    omega

/-- **C101**: decoding leaves a text alone exactly when there is no triplet in it. -/
theorem C101_decode_fixed (s d : Str) (h : pctdecode s = .ok d) : d = s ↔ ¬ HasTriplet s := by
  rcases decodes_cases ((C26_exact s d).1 h) with ⟨k1, k2⟩ | ⟨k1, k2⟩
  · simp [k1, k2]
  · refine ⟨fun e => ?_, fun hn => absurd k2 hn⟩
    subst e; omega

/-- **C101**: decoding once more than was encoded decodes the text itself. -/
theorem C101_once_more (s e d : Str) (es : UInt8) (h : es ≠ EncSet.none) (h1 : pctencode s es = .ok e) :
    Times pctdecode 2 e d ↔ pctdecode s = .ok d := by
  obtain ⟨e', k1, k2⟩ := C22_roundtrip s es h
  rw [h1] at k1; cases k1
  constructor
  · intro k
    cases k with
    | succ a k =>
      rw [k2] at a; cases a
      cases k with
      | succ b k => cases k; exact b
  · intro k
    exact .succ k2 (.succ k .zero)

theorem Times.total (n : Nat) : ∀ s, ∃ d, Times pctdecode n s d := by
  induction n with
  | zero => exact fun s => ⟨s, .zero⟩
  | succ n ih =>
    intro s
    obtain ⟨d, h⟩ := ih (decP s)
    exact ⟨d, .succ (pctdecode_eq s) h⟩

/-- **C101**: decoding again and again comes to rest: a text of at most 2n + 2 characters after n times. -/
theorem C101_decode_rests (n : Nat) (s : Str) (hl : s.length ≤ 2 * n + 2) : ∃ d, Times pctdecode n s d ∧ ¬ HasTriplet d ∧ pctdecode d = .ok d := by
  obtain ⟨d, h⟩ := Times.total n s
  have key : ¬ HasTriplet d := by
    induction h with
    | @zero s =>
      rintro ⟨u, h, l, b, v, rfl, _⟩
      simp at hl; omega
    | @succ n s t u h1 h2 ih =>
      rcases decodes_cases ((C26_exact s t).1 h1) with ⟨rfl, k⟩ | ⟨k, _⟩
      · clear ih hl
        have hfix : ∀ {n t u}, Times pctdecode n t u → pctdecode t = .ok t → u = t := by
          intro n t u h
          induction h with
          | zero => exact fun _ => rfl
          | succ a _ ih =>
            intro b
            rw [b] at a; cases a
            exact ih b
        rw [hfix h2 h1]; exact k
      · exact ih (by omega)
  refine ⟨d, h, key, ?_⟩
  rw [pctdecode_eq, (C101_decode_fixed d _ (pctdecode_eq d)).2 key]

/-- A triplet hidden n times: `%2525…41`. -/
def hidden : Nat → Str
  | 0 => b! "41"
  | n + 1 => 0x32 :: 0x35 :: hidden n

theorem hidden_copy (n : Nat) : decP (hidden n) = hidden n := by
  refine decP_id ?_
  induction n with
  | zero => decide
  | succ n ih => simp [hidden, ih]

theorem hidden_length (n : Nat) : (hidden n).length = 2 * n + 2 := by
  induction n with
  | zero => rfl
  | succ n ih => simp [hidden, ih]; omega

/-- **C101**: the bound is met: for every n there is a text of 2n + 3 characters in which decoding n times leaves a triplet. -/
theorem C101_decode_rests_tight (n : Nat) : ∃ s, s.length = 2 * n + 3 ∧ Times pctdecode n s (b! "%41") ∧ HasTriplet (b! "%41") := by
  refine ⟨0x25 :: hidden n, by simp [hidden_length], ?_, [], 0x34, 0x31, 0x41, [], rfl, 4, 1, Or.inl rfl, Or.inl rfl, rfl⟩
  induction n with
  | zero => exact .zero
  | succ n ih =>
    refine .succ ?_ ih
    rw [pctdecode_eq]
    show Except.ok (decP (0x25 :: 0x32 :: 0x35 :: hidden n)) = _
    rw [decP, if_pos ⟨rfl, by decide +kernel⟩, hidden_copy]
    rfl

example : Times pctdecode 2 (b! "%252541") (b! "%41") ∧ Times pctdecode 3 (b! "%252541") (b! "A") :=
  ⟨.succ (t := b! "%2541") (by decide +kernel) (.succ (by decide +kernel) .zero),
   .succ (t := b! "%2541") (by decide +kernel) (.succ (t := b! "%41") (by decide +kernel) (.succ (by decide +kernel) .zero))⟩
example : Times (pctencode · EncSet.path) 2 (b! "a b") (b! "a%2520b") := .succ (t := b! "a%20b") (by decide +kernel) (.succ (by decide +kernel) .zero)

/-! ### Host names -/

/-- **C101**: encoding a host name a second time changes nothing. -/
theorem C101_host_twice (s e : Str) (b : Bool) (hl : s.length ≤ 2 ^ 32) (h : punyEncoded s = .ok (e, b)) : punyEncoded e = .ok (e, false) := by
  obtain ⟨cs, e', b', h1, h2, h3, h4, h5, h6⟩ := C34_encode s (by omega)
  rw [h] at h2; cases h2
  have hsize : e.length ≤ 2 ^ 37 := by
    have := host_encoded_size (s := s) (e := e) 16 (by omega) ⟨cs, h1, h3⟩
    omega
  obtain ⟨cs', e', b', k1, k2, k3, k4, k5, k6⟩ := C34_encode e hsize
  have hb : b' = false := by
    cases b' with
    | false => rfl
    | true =>
      obtain ⟨c, hc, hge⟩ := k4.1 rfl
      have := ascii_reads h6
      rw [reads_unique k1 this] at hc
      obtain ⟨x, hx, rfl⟩ := List.mem_map.1 hc
      have := h6 x hx
      omega
  subst hb
  rw [k2, k5.1 rfl]

/-- **C101**: decoding one a second time can fail after the first has succeeded. -/
theorem C101_host_decode_twice : ∃ e : Str, punyEncoded (b! "xn--" ++ [0xC3, 0xBC]) = .ok (e, true) ∧ punyDecoded e = .ok (b! "xn--" ++ [0xC3, 0xBC], .ok true) ∧
    (punyDecoded (b! "xn--" ++ [0xC3, 0xBC])).toOption.map (·.2) = some (.error .badInput) := by
  refine ⟨_, by rfl, by decide +kernel, by decide +kernel⟩

/-! ### Whole URIs -/

/-- The fields that a second encoding leaves alone. -/
def Settled (fld : Codec.Field) : Prop := fld = .scheme ∨ fld = .host ∨ fld = .port

theorem encT_settled {fld : Codec.Field} (hf : Settled fld) (s : Str) (hl : fld = .host → s.length ≤ 2 ^ 32) :
    rewriteT encSz encOut fld (rewriteT encSz encOut fld s) = rewriteT encSz encOut fld s := by
  by_cases hh : fld = .host
  · subst hh
    obtain ⟨cs, e, b, _, h2, h3, h4, h5, h6, _⟩ := host_encoded s (by have := hl rfl; omega)
    have k := C101_host_twice s e b (hl rfl) h2
    have ht : ∀ {s e b}, punyEncoded s = .ok (e, b) → (b = false → e = s) → (b = true → e ≠ []) → rewriteT encSz encOut .host s = e := by
      intro s e b h hb hb'
      cases b with
      | false => simp [rewriteT, encSz, h, hb rfl]
      | true => simp [rewriteT, encSz, encOut, h, hb' rfl]
    rw [ht h2 h5 fun hb => (h6 hb).2, ht k (fun _ => rfl) nofun]
  · rw [encT_pct hh, encT_pct hh]
    have hset : encSetOf fld = EncSet.none := by rcases hf with rfl | rfl | rfl <;> first | rfl | exact absurd rfl hh
    rw [hset]
    have := C101_encode_none s _ (pctencode_eq s _)
    rw [pctencode_eq] at this
    exact Except.ok.inj this

theorem encT_unsettled {fld : Codec.Field} (hf : ¬ Settled fld) (s : Str) :
    rewriteT encSz encOut fld (rewriteT encSz encOut fld s) = rewriteT encSz encOut fld s ↔ rewriteT encSz encOut fld s = s := by
  have hh : fld ≠ .host := fun e => hf (Or.inr (Or.inl e))
  have hset : encSetOf fld ≠ EncSet.none := by
    cases fld <;> first | decide | exact absurd (Or.inl rfl) hf | exact absurd (Or.inr (Or.inr rfl)) hf | exact absurd rfl hh
  rw [encT_pct hh, encT_pct hh]
  exact (C101_encode_twice s _ hset _ _ (pctencode_eq s _) (pctencode_eq _ _)).2

/-- **C101**: encoding the components of a URI a second time leaves scheme, host and port alone, and changes nothing at all exactly when
the first time changed nothing but those. -/
theorem C101_parts_twice (hp hp' : Heap) (store store' : Store) (p : Parts SV) (hn : p.path.segments.length + 6 ≤ 2 ^ 32)
    (haddr : ∀ n, hp.addr n ≠ 0) (hstore : store.cap ≠ 0 → store.addr ≠ 0) (hnull : ∀ v ∈ p.views, v.ptr = 0 → v.chars = [])
    (hlen : ∀ a, p.authority = some a → a.host.chars.length ≤ 2 ^ 32) :
    ∃ r st q st', encode hp store p = .ok (r, st) ∧ encode hp' store' r = .ok (q, st') ∧
      Related (fun fld v w => Settled fld → w.chars = v.chars) r q ∧
      (q.text = r.text ↔ Related (fun fld v w => ¬ Settled fld → w.chars = v.chars) p r) := by
  obtain ⟨r, st, h1, ⟨n, hn', h2, _⟩, _, h4⟩ := encode_eq hp store (p := p) hn (fun v ⟨a, h, h'⟩ => h' ▸ Nat.le_trans (hlen a h) (by omega))
  have haddr' : st.chars.length ≠ 0 → st.addr ≠ 0 := by
    intro k
    rw [h2]
    unfold Store.reserve
    split
    · exact hstore (by omega)
    · exact haddr _
  have hnull' : ∀ v ∈ r.views, v.ptr = 0 → v.chars = [] := by
    intro w hw h0
    obtain ⟨fld, hin⟩ := (views_field r w).1 hw
    obtain ⟨v, hv, hr⟩ := field_back h4 hin
    rcases hr with ⟨rfl, _⟩ | ⟨_, _, _, ⟨off, c, d, _⟩⟩
    · exact hnull w ((views_field p w).2 ⟨fld, hv⟩) h0
    · cases hc : w.chars with
      | nil => rfl
      | cons x xs =>
        rw [hc] at d
        simp at d
        have := haddr' (by omega)
        omega
  have hR1 := rewritten_text h4 hnull encT_nil
  have hfl : ∀ fld v, InField p fld v → fld = .host → v.chars.length ≤ 2 ^ 32 := by
    rintro fld v hin rfl
    obtain ⟨a, e1, rfl⟩ := hin
    exact hlen a e1
  have hlen' : ∀ w, InField r .host w → w.chars.length ≤ 2 ^ 37 := by
    intro w hw
    obtain ⟨v, hv, e⟩ := field_back hR1 hw
    have hv' := hfl _ _ hv rfl
    obtain ⟨e1, e2⟩ := enc_field .host v.chars fun _ => by omega
    rw [e, rewriteT]
    split
    · omega
    · rename_i k
      have := host_encoded_size (s := v.chars) 16 (by omega) ((e2 k).1.1 rfl)
      omega
  obtain ⟨q, st', k1, _, _, k4⟩ := encode_eq hp' store' (p := r) (by rw [each_len h4.segments]; exact hn) hlen'
  have hR2 := rewritten_text k4 hnull' encT_nil
  refine ⟨r, st, q, st', h1, k1, ?_, ?_, ?_⟩
  · refine hR2.mono fun fld w x hin e hf => ?_
    obtain ⟨v, hv, e'⟩ := field_back hR1 hin
    rw [e, e', encT_settled hf _ (hfl _ _ hv)]
  · intro ht
    refine hR1.mono fun fld v w hin e hf => ?_
    obtain ⟨w', hw', e1⟩ := field_fwd hR1 hin
    obtain ⟨x, hx, e2, e3⟩ := field_fwd (related_and (text_related ht) hR2) hw'
    rw [e]
    refine (encT_unsettled hf v.chars).1 ?_
    rw [← e1, ← e3, e2]
  · intro hun
    refine related_text (hR2.mono fun fld w x hin e => ?_)
    obtain ⟨v, hv, e1, e2⟩ := field_back (related_and hR1 hun) hin
    rw [e, e1]
    by_cases hf : Settled fld
    · exact encT_settled hf _ (hfl _ _ hv)
    · rw [encT_unsettled hf, ← e1, e2 hf]

/-- A second encoding of a path with a space in it, and of a host name beyond ASCII with a plain path. -/
example : ((encode heap0 store0 ⟨none, some ⟨none, ⟨5000, bucher⟩, none⟩, ⟨true, [⟨4105, b! "a b"⟩]⟩, none, none⟩).toOption.map fun x =>
      (encode heap0 store0 x.1).toOption.map fun y => (x.1.text, y.1.text)) =
    some (some (⟨none, some ⟨none, b! "xn--bcher-kva.example", none⟩, ⟨true, [b! "a%20b"]⟩, none, none⟩,
      ⟨none, some ⟨none, b! "xn--bcher-kva.example", none⟩, ⟨true, [b! "a%2520b"]⟩, none, none⟩)) := by decide +kernel
example : ∃ r st q st', encode heap0 store0 commuteBase = .ok (r, st) ∧ encode heap0 store0 r = .ok (q, st') ∧
      Related (fun fld v w => Settled fld → w.chars = v.chars) r q ∧
      (q.text = r.text ↔ Related (fun fld v w => ¬ Settled fld → w.chars = v.chars) commuteBase r) :=
  C101_parts_twice _ _ _ _ _ (by decide +kernel) (fun n => by simp only [heap0]; omega) (by decide) (by decide +kernel) (by rintro a ha; cases ha; decide +kernel)

end Verif
