import Verif.Props.Twice
import Verif.Props.Composed

/-!
# C105: decoding and encoding again
-/

set_option linter.unusedSimpArgs false
set_option linter.unusedVariables false

namespace Verif
open Codec PctSpec PartsSpec Unicode

/-! ### Specification -/

/-- Text in which every percent sign begins a triplet of upper-case digits that denotes a character of `P`, and no other character is in `P`. -/
inductive Canonical (P : UInt8 → Prop) : Str → Prop
  | nil : Canonical P []
  | copy {c s} : ¬ P c → Canonical P s → Canonical P (c :: s)
  | triplet {h l b s} : P b → (∃ x y, HexUpper h x ∧ HexUpper l y ∧ b.toNat = 16 * x + y) → Canonical P s → Canonical P (0x25 :: h :: l :: s)

/-- Userinfo, path segments, query and fragment: the fields that are percent-encoded. -/
def Coded (fld : Codec.Field) : Prop := fld = .userinfo ∨ fld = .path ∨ fld = .query ∨ fld = .fragment

/-- The characters that mean something in a field, or are not allowed there, and that encoding leaves alone. -/
def leftAlone : Codec.Field → Str
  | .path => b! "/[\\]^|"
  | .query => b! "[\\]^`{|}"
  | .fragment => b! "#[\\]^`{|}"
  | _ => []

/-! ### Texts -/

theorem canonical_iff (P : UInt8 → Prop) (s : Str) : Canonical P s ↔ ∃ d, Encodes P d s := by
  constructor
  · intro h
    induction h with
    | nil => exact ⟨[], .nil⟩
    | copy h _ ih => obtain ⟨d, hd⟩ := ih; exact ⟨_, .copy h hd⟩
    | triplet h k _ ih => obtain ⟨d, hd⟩ := ih; exact ⟨_, .triplet h k hd⟩
  · rintro ⟨d, h⟩
    induction h with
    | nil => exact .nil
    | copy h _ ih => exact .copy h ih
    | triplet h k _ ih => exact .triplet h k ih

theorem norm_iff (es : UInt8) (h : es ≠ 0) (s : Str) : encP es (decP s) = s ↔ Canonical (fun c => needsPctencodeB c es = true) s := by
  rw [canonical_iff]
  constructor
  · intro e; exact ⟨decP s, (encodes_iff es _ _).2 e.symm⟩
  · rintro ⟨d, hd⟩
    have := (encodes_iff es _ _).1 hd
    rw [this, decP_encP es d (Or.inl h)]

/-- **C105.** Decoding a text and encoding it again gives a text that decodes to the same, is canonical, and does not change when that is done once more; it is the
text itself exactly if that is canonical. -/
theorem C105_percent (s : Str) (es : UInt8) (h : es ≠ EncSet.none) : ∃ d n, pctdecode s = .ok d ∧ pctencode d es = .ok n ∧ pctdecode n = .ok d ∧
    Canonical (fun c => needsPctencodeB c es = true) n ∧ (n = s ↔ Canonical (fun c => needsPctencodeB c es = true) s) := by
  refine ⟨decP s, encP es (decP s), pctdecode_eq s, pctencode_eq _ _, ?_, ?_, norm_iff es h s⟩
  · rw [pctdecode_eq, decP_encP es _ (Or.inl h)]
  · exact (canonical_iff _ _).2 ⟨_, (encodes_iff es _ _).2 rfl⟩

/-- **C105.** So it is a normal form: two texts have the same exactly if they decode to the same; and of all the texts that decode to the same only one is
canonical. -/
theorem C105_normal_form (s t ds dt ns nt : Str) (es : UInt8) (h : es ≠ EncSet.none) (h1 : pctdecode s = .ok ds) (h2 : pctdecode t = .ok dt)
    (h3 : pctencode ds es = .ok ns) (h4 : pctencode dt es = .ok nt) : (ns = nt ↔ ds = dt) ∧
    (Canonical (fun c => needsPctencodeB c es = true) s → Canonical (fun c => needsPctencodeB c es = true) t → ds = dt → s = t) := by
  rw [pctdecode_eq] at h1 h2
  obtain rfl := Except.ok.inj h1
  obtain rfl := Except.ok.inj h2
  refine ⟨⟨fun e => C23_injective _ _ es h (by rw [h3, h4, e]), fun e => ?_⟩, fun k1 k2 e => ?_⟩
  · rw [e] at h3; exact Except.ok.inj (h3.symm.trans h4)
  · rw [← (norm_iff es h s).2 k1, ← (norm_iff es h t).2 k2, e]

/-! ### Values -/

theorem coded_iff (fld : Codec.Field) : Coded fld ↔ ¬ Settled fld := by cases fld <;> simp [Coded, Settled]

theorem host_stays {s : Str} (ha : Abnf.HostAccepted s) (hace : NoAce s) (hl : s.length ≤ 2 ^ 37) :
    rewriteT decSz decOut .host s = s ∧ rewriteT encSz encOut .host s = s ∧ punyDecoded s = .ok (s, .ok false) := by
  have hu := ascii_utf8 (host_ascii ha)
  obtain ⟨cs, e, b, h1, h2, h3, h4, h5, h6⟩ := C34_encode s hl
  obtain ⟨e', b', k1, k2, k3⟩ := C34_roundtrip s _ hu hl hace
  rw [h2] at k1
  simp only [Except.ok.injEq, Prod.mk.injEq] at k1
  obtain ⟨rfl, rfl⟩ := k1
  have hb : b = false := by
    cases b with
    | false => rfl
    | true =>
      obtain ⟨c, hc, hc'⟩ := h4.1 rfl
      rw [reads_unique h1 (isUtf8_reads hu)] at hc
      obtain ⟨x, hx, rfl⟩ := List.mem_map.1 hc
      have := host_ascii ha x hx
      omega
  subst hb
  have he := h5.1 rfl
  subst he
  refine ⟨?_, ?_, k3⟩
  · simp [rewriteT, decSz, decRes, k3]
  · simp [rewriteT, encSz, h2]

theorem no_triplet_same {s : Str} (h : (0x25 : UInt8) ∉ s) : decP s = s := decP_id h

/-- What the fields of a valid value become. -/
theorem field_norm {fld : Codec.Field} {s : Str} (hr : fieldRule fld s) (hh : fld = .host → NoAce s ∧ s.length ≤ 2 ^ 37) :
    (Settled fld → rewriteT encSz encOut fld (rewriteT decSz decOut fld s) = s ∧ rewriteT decSz decOut fld s = s) ∧
    (Coded fld → rewriteT encSz encOut fld (rewriteT decSz decOut fld s) = encP (encSetOf fld) (decP s)) := by
  refine ⟨fun k => ?_, fun k => ?_⟩
  · rcases k with rfl | rfl | rfl
    · rw [decT_pct (by decide), encT_pct (by decide)]
      have hs : Abnf.scheme s := hr
      have h0 : decP s = s := decP_id fun hm => by have := only_scheme _ hs _ hm; revert this; decide
      rw [h0]
      refine ⟨(encP_id_iff _ _).2 ?_, rfl⟩
      cases e : needsPctencode s (encSetOf .scheme) with
      | false => rfl
      | true =>
        obtain ⟨c, hc, hc'⟩ := List.any_eq_true.1 e
        have h1 := only_scheme _ hs _ hc
        exfalso
        revert h1 hc'
        exact byte_prop (fun c => needsPctencodeB c (encSetOf .scheme) = true → isSchemeChar c = true → False) (by decide +kernel) c
    · obtain ⟨h1, h2, _⟩ := host_stays hr (hh rfl).1 (hh rfl).2
      exact ⟨by rw [h1, h2], h1⟩
    · rw [decT_pct (by decide), encT_pct (by decide)]
      have hs : Abnf.port s := hr
      have h0 : decP s = s := decP_id fun hm => by have := only_port _ hs _ hm; revert this; decide
      rw [h0]
      refine ⟨(encP_id_iff _ _).2 ?_, rfl⟩
      cases e : needsPctencode s (encSetOf .port) with
      | false => rfl
      | true =>
        obtain ⟨c, hc, hc'⟩ := List.any_eq_true.1 e
        have h1 := only_port _ hs _ hc
        exfalso
        revert h1 hc'
        exact byte_prop (fun c => needsPctencodeB c (encSetOf .port) = true → isDigitB c = true → False) (by decide +kernel) c
  · have hf : fld ≠ .host := by rcases k with rfl | rfl | rfl | rfl <;> decide
    rw [decT_pct hf, encT_pct hf]

theorem coded_rule {fld : Codec.Field} (hf : Coded fld) (d : Str) : fieldRule fld (encP (encSetOf fld) d) ↔ ∀ c ∈ d, c ∉ leftAlone fld := by
  rcases hf with rfl | rfl | rfl | rfl
  · simp only [leftAlone, List.not_mem_nil, not_false_eq_true, implies_true, iff_true]
    exact C28_userinfo d _ (pctencode_eq d _)
  · exact C28_segment d _ (pctencode_eq d _)
  · exact C28_query d _ (pctencode_eq d _)
  · exact C28_fragment d _ (pctencode_eq d _)

theorem settled_or (fld : Codec.Field) : Settled fld ∨ Coded fld := by cases fld <;> simp [Coded, Settled]

/-- Decoding a valid value and encoding the result. -/
theorem norm_parts (pl : Plat) (hp hp' : Heap) (store store' : Store) (p : Parts SV) (hn : p.path.segments.length + 6 ≤ 2 ^ 32)
    (haddr : ∀ n, hp.addr n ≠ 0) (hstore : store.cap ≠ 0 → store.addr ≠ 0) (hnull : ∀ v ∈ p.views, v.ptr = 0 → v.chars = [])
    (hv : p.valid pl = .ok true) (hh : ∀ a, p.authority = some a → NoAce a.host.chars ∧ a.host.chars.length ≤ 2 ^ 37) :
    ∃ q st r st', decode hp store p = .ok (.ok q, st) ∧ encode hp' store' q = .ok (r, st') ∧
      Related (fun fld v w => w.chars = rewriteT decSz decOut fld v.chars) p q ∧
      Related (fun fld v w => w.chars = rewriteT encSz encOut fld (rewriteT decSz decOut fld v.chars)) p r ∧
      (∀ fld v, InField p fld v → fieldRule fld v.chars) ∧ p.scheme ≠ none := by
  obtain ⟨hs, hc⟩ := (components_fields p).1 (C13_valid_sound pl p hv)
  have hhost : ∀ v, InField p .host v → NoAce v.chars ∧ v.chars.length ≤ 2 ^ 37 ∧ Abnf.HostAccepted v.chars := fun v hin => by
    have k := hc .host v hin
    obtain ⟨a, h, rfl⟩ := hin
    exact ⟨(hh a h).1, (hh a h).2, k⟩
  rcases decode_eq hp store (p := p) hn (fun v hin => ⟨_, (host_stays (hhost v hin).2.2 (hhost v hin).1 (hhost v hin).2.1).2.2⟩) with
    ⟨q, st, h1, ⟨n, hn', h2, h2', _⟩, _, h4, _⟩ | ⟨e, x, st', _, hx, he⟩
  · have haddr' : st.chars.length ≠ 0 → st.addr ≠ 0 := by
      intro k
      rw [h2]
      unfold Store.reserve
      split
      · exact hstore (by omega)
      · exact haddr _
    have hnull' : ∀ v ∈ q.views, v.ptr = 0 → v.chars = [] := by
      intro w hw h0
      obtain ⟨fld, hin⟩ := (views_field q w).1 hw
      obtain ⟨v, hv, hr⟩ := field_back h4 hin
      rcases hr with ⟨rfl, _⟩ | ⟨_, _, _, ⟨off, c, d, _⟩⟩
      · exact hnull w ((views_field p w).2 ⟨fld, hv⟩) h0
      · cases hc : w.chars with
        | nil => rfl
        | cons x xs =>
          rw [hc] at d
          simp at d
          have := haddr' (by omega)
          omega
    have hR1 := rewritten_text h4 hnull decT_nil
    obtain ⟨r, st', k1, _, _, k4⟩ := encode_eq hp' store' (p := q) (by rw [each_len h4.segments]; exact hn) (fun w hw => by
      obtain ⟨v, hv, e⟩ := field_back hR1 hw
      obtain ⟨a1, a2, a3⟩ := hhost v hv
      rw [e, (host_stays a3 a1 a2).1]; exact a2)
    have hR2 := rewritten_text k4 hnull' encT_nil
    refine ⟨q, st, r, st', h1, k1, hR1, (hR1.comp hR2).mono fun fld v w _ ⟨x, e1, e2⟩ => by rw [e2, e1], hc, hs⟩
  · obtain ⟨_, hxin, _, _⟩ := mem_visits (p := p) hn hx
    exfalso
    by_cases hf : x.fld = .host
    · rw [hf] at hxin
      obtain ⟨a1, a2, a3⟩ := hhost _ hxin
      rw [decRes, if_pos hf, (host_stays a3 a1 a2).2.2] at he
      cases he
    · rw [decRes, if_neg hf] at he
      cases he

/-- **C105.** Decoding a valid URI value without ACE labels and encoding the result: both succeed; scheme, host and port stay; every other string becomes its
normal form, and so stays exactly if it is canonical; and the result is valid exactly if no string of the value stood for a character that encoding leaves
alone although it means something there: `/` in a segment, `#` in a fragment, and brackets, braces and the like. -/
theorem C105_parts (pl : Plat) (hp hp' : Heap) (store store' : Store) (p : Parts SV) (hn : p.path.segments.length + 6 ≤ 2 ^ 32)
    (haddr : ∀ n, hp.addr n ≠ 0) (hstore : store.cap ≠ 0 → store.addr ≠ 0) (hnull : ∀ v ∈ p.views, v.ptr = 0 → v.chars = [])
    (hv : p.valid pl = .ok true) (hh : ∀ a, p.authority = some a → NoAce a.host.chars ∧ a.host.chars.length ≤ 2 ^ 37) :
    ∃ q st r st', decode hp store p = .ok (.ok q, st) ∧ encode hp' store' q = .ok (r, st') ∧
      Related (fun fld v w => (¬ Coded fld → w.chars = v.chars) ∧ (Coded fld → (∃ d, Decodes v.chars d ∧ Encodes (encodeSet fld) d w.chars) ∧
        (w.chars = v.chars ↔ Canonical (encodeSet fld) v.chars))) p r ∧
      (r.valid pl = .ok true ↔ ∀ fld v d, InField p fld v → Coded fld → Decodes v.chars d → ∀ c ∈ d, c ∉ leftAlone fld) := by
  obtain ⟨q, st, r, st', h1, h2, _, hR, hc, hs⟩ := norm_parts pl hp hp' store store' p hn haddr hstore hnull hv hh
  have hhf : ∀ fld v, InField p fld v → fld = .host → NoAce v.chars ∧ v.chars.length ≤ 2 ^ 37 := by
    rintro fld v hin rfl
    obtain ⟨a, h, rfl⟩ := hin
    exact hh a h
  refine ⟨q, st, r, st', h1, h2, hR.mono fun fld v w hin e => ⟨fun k => ?_, fun k => ?_⟩, ?_, ?_⟩
  · have k' : Settled fld := (settled_or fld).resolve_right k
    rw [e, ((field_norm (hc fld v hin) (hhf fld v hin)).1 k').1]
  · have hset : encSetOf fld ≠ 0 := by rcases k with rfl | rfl | rfl | rfl <;> decide
    have hf : fld ≠ .host := by rcases k with rfl | rfl | rfl | rfl <;> decide
    rw [(field_norm (hc fld v hin) (hhf fld v hin)).2 k] at e
    rw [← encSet_iff fld hf]
    exact ⟨⟨decP v.chars, (decodes_iff _ _).2 rfl, (encodes_iff _ _ _).2 e⟩, by rw [e]; exact norm_iff _ hset _⟩
  · intro hrv fld v d hin k hd
    obtain ⟨_, hcr⟩ := (components_fields r).1 (C13_valid_sound pl r hrv)
    obtain ⟨w, hw, e⟩ := field_fwd hR hin
    have hw' := hcr fld w hw
    rw [e, (field_norm (hc fld v hin) (hhf fld v hin)).2 k] at hw'
    rw [(decodes_iff _ _).1 hd]
    exact (coded_rule k _).1 hw'
  · intro hall
    refine C13_valid_complete pl r ((components_fields r).2 ⟨?_, fun fld w hin => ?_⟩)
    · intro e
      have := hR.scheme
      rw [e] at this
      cases hp' : p.scheme with
      | none => exact hs hp'
      | some s => rw [hp'] at this; cases this
    · obtain ⟨v, hv', e⟩ := field_back hR hin
      rcases settled_or fld with k | k
      · rw [e, ((field_norm (hc fld v hv') (hhf fld v hv')).1 k).1]; exact hc fld v hv'
      · rw [e, (field_norm (hc fld v hv') (hhf fld v hv')).2 k]
        exact (coded_rule k _).2 (hall fld v _ hv' k ((decodes_iff _ _).2 rfl))

theorem encP_nil {es : UInt8} {s : Str} : encP es s = [] ↔ s = [] := by
  constructor
  · intro h
    have := encP_length es s
    rw [h] at this
    exact List.eq_nil_of_length_eq_zero (by simp at this; omega)
  · rintro rfl; rfl

theorem decP_empty {s : Str} : decP s = [] ↔ s = [] := by
  cases s with
  | nil => simp [decP]
  | cons c t => rw [decP_cons]; split <;> simp

theorem decP_len (s : Str) : (decP s).length ≤ s.length := by
  rcases decodes_cases ((decodes_iff s _).2 rfl) with ⟨h, _⟩ | ⟨h, _⟩
  · rw [h]; exact Nat.le_refl _
  · omega

/-- **C105.** The result decodes to what the value decodes to. -/
theorem C105_same_text (pl : Plat) (hp hp' : Heap) (store store' : Store) (p : Parts SV) (hn : p.path.segments.length + 6 ≤ 2 ^ 32)
    (haddr : ∀ n, hp.addr n ≠ 0) (hstore : store.cap ≠ 0 → store.addr ≠ 0) (haddr' : ∀ n, hp'.addr n ≠ 0) (hstore' : store'.cap ≠ 0 → store'.addr ≠ 0)
    (hnull : ∀ v ∈ p.views, v.ptr = 0 → v.chars = [])
    (hv : p.valid pl = .ok true) (hh : ∀ a, p.authority = some a → NoAce a.host.chars ∧ a.host.chars.length ≤ 2 ^ 37) :
    ∃ q st r st', decode hp store p = .ok (.ok q, st) ∧ encode hp' store' q = .ok (r, st') ∧
      ∀ hp2 store2, ∃ q' st2, decode hp2 store2 r = .ok (.ok q', st2) ∧ q'.text = q.text := by
  obtain ⟨q, st, r, st', h1, h2, hR, _, hc, hs⟩ := norm_parts pl hp hp' store store' p hn haddr hstore hnull hv hh
  have hhf : ∀ fld v, InField p fld v → fld = .host → NoAce v.chars ∧ v.chars.length ≤ 2 ^ 37 := by
    rintro fld v hin rfl
    obtain ⟨a, h, rfl⟩ := hin
    exact hh a h
  have same : ∀ fld w, InField q fld w → Settled fld → ∃ v, InField p fld v ∧ w.chars = v.chars := by
    intro fld w hin k
    obtain ⟨v, hv', e⟩ := field_back hR hin
    exact ⟨v, hv', by rw [e, ((field_norm (hc fld v hv') (hhf fld v hv')).1 k).2]⟩
  obtain ⟨r', st1, k1, k2⟩ := C37_roundtrip hp' store' q (by rw [each_len hR.segments]; exact hn) haddr' hstore'
    (fun s hs' => by
      obtain ⟨v, hin, e⟩ := same .scheme s hs' (Or.inl rfl)
      rw [e]
      exact fun hm => by have := only_scheme _ (show Abnf.scheme v.chars from hc .scheme v hin) _ hm; revert this; decide)
    (fun a ha => ⟨fun t ht => by
        obtain ⟨v, hin, e⟩ := same .port t ⟨a, ha, ht⟩ (Or.inr (Or.inr rfl))
        rw [e]
        exact fun hm => by have := only_port _ (show Abnf.port v.chars from hc .port v hin) _ hm; revert this; decide, by
        obtain ⟨v, hin, e⟩ := same .host a.host ⟨a, ha, rfl⟩ (Or.inr (Or.inl rfl))
        rw [e]
        exact ⟨⟨_, ascii_utf8 (host_ascii (hc .host v hin))⟩, hhf .host v hin rfl⟩⟩)
  rw [h2] at k1
  simp only [Except.ok.injEq, Prod.mk.injEq] at k1
  obtain ⟨rfl, rfl⟩ := k1
  exact ⟨q, st, r, st', h1, h2, k2⟩

/-- **C105.** And written out and parsed it is the value that was made, exactly under that condition. -/
theorem C105_survives (pl : Plat) (hp hp' : Heap) (store store' : Store) (p : Parts SV) (ptr : Nat) (hn : p.path.segments.length + 6 ≤ 2 ^ 32)
    (haddr : ∀ n, hp.addr n ≠ 0) (hstore : store.cap ≠ 0 → store.addr ≠ 0) (hnull : ∀ v ∈ p.views, v.ptr = 0 → v.chars = [])
    (hv : p.valid pl = .ok true) (hh : ∀ a, p.authority = some a → NoAce a.host.chars ∧ a.host.chars.length ≤ 2 ^ 37)
    (hs : PathShape p.text) (hlen : ∀ v ∈ p.path.segments, 3 * v.chars.length < 2 ^ 32) :
    ∃ q st r st', decode hp store p = .ok (.ok q, st) ∧ encode hp' store' q = .ok (r, st') ∧
      ((∃ t, split pl ⟨ptr, compose r⟩ = .ok (some t) ∧ Parts.eq t r = true) ↔
        ∀ fld v d, InField p fld v → Coded fld → Decodes v.chars d → ∀ c ∈ d, c ∉ leftAlone fld) := by
  obtain ⟨q, st, r, st', h1, h2, _, hR, hc, hsch⟩ := norm_parts pl hp hp' store store' p hn haddr hstore hnull hv hh
  obtain ⟨q', st1, r', st1', k1, k2, _, k4⟩ := C105_parts pl hp hp' store store' p hn haddr hstore hnull hv hh
  rw [h1] at k1
  simp only [Except.ok.injEq, Prod.mk.injEq] at k1
  obtain ⟨rfl, rfl⟩ := k1
  rw [h2] at k2
  simp only [Except.ok.injEq, Prod.mk.injEq] at k2
  obtain ⟨rfl, rfl⟩ := k2
  have hseg : Each (fun v w : SV => w.chars = encP (encSetOf .path) (decP v.chars)) p.path.segments r.path.segments := by
    have := hR.segments
    simp only [decT_pct (fld := .path) (by decide), encT_pct (fld := .path) (by decide)] at this
    exact this
  have hshape : PathShape r.text := by
    intro ha
    have hap : p.text.authority = none := by
      cases hpa : p.authority with
      | none => simp [Parts.text, Parts.map, hpa]
      | some a =>
        have := hR.authority
        rw [hpa] at this
        cases hra : r.authority with
        | none => rw [hra] at this; cases this
        | some b => simp [Parts.text, Parts.map, hra] at ha
    have h0 := hs hap
    have hab := hR.absolute
    revert h0 hab hseg
    simp only [Parts.text, Parts.map, Path.map]
    generalize p.path.absolute = x
    generalize r.path.absolute = y
    generalize p.path.segments = gs
    generalize r.path.segments = gs'
    intro hsg h0 hab
    subst hab
    cases hsg with
    | nil => exact h0
    | @cons v v' as bs h1 h2 =>
      have e : v'.chars = [] ↔ v.chars = [] := by rw [h1, encP_nil, decP_empty]
      cases y with
      | true =>
        simp only [List.map_cons] at h0 ⊢
        rcases h0 with h0 | h0
        · exact Or.inl fun h => h0 (e.1 h)
        · refine Or.inr ?_
          cases h2 with
          | nil => rfl
          | cons => simp at h0
      | false =>
        simp only [List.map_cons] at h0 ⊢
        exact fun h => h0 (e.1 h)
  have hcount : r.valid pl = .ok true → Abnf.PathCounted r.text := fun hrv => by
    refine valid_counted hrv fun g' hg' => ?_
    obtain ⟨g, hg, e⟩ := field_back hR (show InField r .path g' from hg')
    rw [decT_pct (by decide), encT_pct (by decide)] at e
    have hl := hlen g hg
    have a1 := encP_length (encSetOf .path) (decP g.chars)
    have a2 := List.countP_le_length (p := fun c => needsPctencodeB c (encSetOf .path)) (l := decP g.chars)
    have a3 := decP_len g.chars
    rw [e]; omega
  refine ⟨q, st, r, st', h1, h2, ?_⟩
  rw [C88_split_exact, ← k4]
  exact ⟨fun h => h.1, fun h => ⟨h, hshape, hcount h⟩⟩

/-- Split, decode, encode and compose. -/
def renewed (s : Str) : Option Str := (split x86 ⟨1, s⟩).toOption.join.bind fun p => ((decode heap0 store0 p).toOption.bind (·.1.toOption)).bind fun q =>
  (encode heap0 store0 q).toOption.map fun r => compose r.1

/-- **C105.** What is at stake: a slash that was written as a triplet becomes a separator, a dot segment that was hidden appears, and a number sign in a
fragment or a bracket in a query makes the text no URI any more. -/
theorem C105_counterexamples : renewed (b! "s://h/a%2Fb") = some (b! "s://h/a/b") ∧ renewed (b! "s://h/%2e%2e/b") = some (b! "s://h/../b") ∧
    (renewed (b! "s://h/a?b#c%23d") = some (b! "s://h/a?b#c#d") ∧ (split x86 ⟨1, b! "s://h/a?b#c#d"⟩).toOption = some none) ∧
    (renewed (b! "s://h/a?b%5B") = some (b! "s://h/a?b[") ∧ (split x86 ⟨1, b! "s://h/a?b["⟩).toOption = some none) := by decide +kernel

/-! `s://h/%7ea%2fb%20c?%41` and what becomes of it. -/
example : Canonical (encodeSet .path) (b! "a%20b~") := by
  rw [← encSet_iff .path (by decide)]
  exact (norm_iff _ (by decide) _).1 (by decide +kernel)
example : ¬ Canonical (encodeSet .path) (b! "%7ea") := by
  rw [← encSet_iff .path (by decide)]
  exact fun h => absurd ((norm_iff _ (by decide) _).2 h) (by decide +kernel)
example : renewed (b! "s://h/%7ea%20%c3%a9?%41%3D") = some (b! "s://h/~a%20%C3%A9?A=") := by decide +kernel

/-- `s://h/%7ea%20c?%41` -/
def normSample : Parts SV := ⟨some ⟨1, b! "s"⟩, some ⟨none, ⟨5, b! "h"⟩, none⟩, ⟨true, [⟨7, b! "%7ea%20c"⟩]⟩, some ⟨16, b! "%41"⟩, none⟩

theorem plain_noAce : NoAce (b! "h") := by
  rintro ls ⟨h1, h2, h3⟩ l hl _ ⟨t, rfl⟩
  have : (b! "xn--" ++ t).length ≤ (b! "h").length := by
    rw [h3]
    clear h3 h2 h1
    induction ls with
    | nil => simp at hl
    | cons a ls ih =>
      cases ls with
      | nil => simp at hl; rw [← hl]; exact Nat.le_refl _
      | cons b ls =>
        rcases List.mem_cons.1 hl with e | e
        · rw [← e]; simp [joined]
        · have := ih e; simp [joined] at this ⊢; omega
  simp at this

example : ∃ q st r st', decode heap0 store0 normSample = .ok (.ok q, st) ∧ encode heap0 store0 q = .ok (r, st') ∧
    ((∃ t, split x86 ⟨1, compose r⟩ = .ok (some t) ∧ Parts.eq t r = true) ↔
        ∀ fld v d, InField normSample fld v → Coded fld → Decodes v.chars d → ∀ c ∈ d, c ∉ leftAlone fld) :=
  C105_survives x86 heap0 heap0 store0 store0 normSample 1 (by decide) (by intro n; simp [heap0]) (by simp [store0]) (by decide +kernel) (by decide +kernel)
    (by intro a h; cases h; exact ⟨plain_noAce, by decide⟩) (by intro h; cases h) (by decide)

end Verif
