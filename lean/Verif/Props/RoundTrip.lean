import Verif.Props.HostExact2

/-!
# C22, C26 and C37, exactly: which texts encoding and decoding give back
-/

set_option linter.unusedSimpArgs false

namespace Verif
open Codec PartsSpec Unicode PctSpec

/-- There is no well-formed triplet anywhere in the text. -/
def NoTriplet (s : Str) : Prop := ∀ t, t <:+ s → ¬ StartsTriplet t

theorem decodes_length {s d : Str} (h : Decodes s d) : d.length ≤ s.length := by
  induction h with
  | nil => simp
  | triplet _ _ ih => simp; omega
  | copy _ _ ih => simp; omega

theorem decodes_self {s d : Str} (h : Decodes s d) (e : d.length = s.length) : NoTriplet s := by
  induction h with
  | nil =>
    intro t ht
    rw [List.suffix_nil] at ht
    subst ht
    rintro ⟨_, _, _, _, e, _⟩
    simp at e
  | triplet _ h _ => have := decodes_length h; simp at e; omega
  | copy hn _ ih =>
    intro t ht
    rcases List.suffix_cons_iff.1 ht with rfl | ht
    · exact hn
    · exact ih (by simpa using e) t ht

theorem noTriplet_decodes {s : Str} (h : NoTriplet s) : Decodes s s := by
  induction s with
  | nil => exact .nil
  | cons c s ih => exact .copy (h _ (List.suffix_refl _)) (ih fun t ht => h t (ht.trans (List.suffix_cons c s)))

/-- **C26**: a text is its own decoding iff there is no triplet in it; and then alone its decoding is of the
same length. -/
theorem C26_fixed (s : Str) : (pctdecode s = .ok s ↔ NoTriplet s) ∧ ∀ d, pctdecode s = .ok d → (d.length = s.length ↔ d = s) := by
  refine ⟨⟨fun h => decodes_self ((C26_exact s s).1 h) rfl, fun h => (C26_exact s s).2 (noTriplet_decodes h)⟩, fun d hd => ⟨fun e => ?_, fun e => by rw [e]⟩⟩
  have := (C26_exact s s).2 (noTriplet_decodes (decodes_self ((C26_exact s d).1 hd) e))
  rw [hd] at this
  exact Except.ok.inj this

/-- **C22**, exactly: with the empty set the round trip holds for the texts without triplets, and no others. -/
theorem C22_exact (s : Str) (es : UInt8) : (∃ e, pctencode s es = .ok e ∧ pctdecode e = .ok s) ↔ es ≠ EncSet.none ∨ NoTriplet s := by
  constructor
  · rintro ⟨e, h1, h2⟩
    by_cases hes : es = EncSet.none
    · subst hes
      obtain ⟨e', k1, k2⟩ := C22_none s
      rw [h1] at k1
      cases k1
      exact Or.inr ((C26_fixed s).1.1 (k2 ▸ h2))
    · exact Or.inl hes
  · intro h
    by_cases hes : es = EncSet.none
    · subst hes
      obtain ⟨e, k1, k2⟩ := C22_none s
      exact ⟨e, k1, by rw [k2]; exact (C26_fixed s).1.2 (h.resolve_left (by simp))⟩
    · exact C22_roundtrip s es hes

theorem noTriplet_of_no_percent {s : Str} (h : (0x25 : UInt8) ∉ s) : NoTriplet s := by
  rintro t ht ⟨x, y, b, u, rfl, _⟩
  exact h (ht.subset (by simp))

example : ∃ e, pctencode (b! "50% of%") EncSet.none = .ok e ∧ pctdecode e = .ok (b! "50% of%") := by
  refine (C22_exact _ _).2 (Or.inr ((C26_fixed _).1.1 (by decide +kernel)))

/-! ### Whole URIs -/

/-- Encoding and then decoding a host name that is not a null view gives it back: it is well-formed and no
ASCII label of it looks like an encoded one, or it is one of two names that decode to nothing. -/
def HostReturns (s : Str) : Prop := ((∃ cs, IsUtf8 s cs) ∧ NoAce s) ∨ s = b! "xn--" ∨ s = b! "xn---"

/-- Each field that is not a null view can be given back. -/
structure Returns (p : Parts SV) : Prop where
  scheme : ∀ v, p.scheme = some v → v.ptr ≠ 0 → NoTriplet v.chars
  host : ∀ a, p.authority = some a → a.host.ptr ≠ 0 → HostReturns a.host.chars
  port : ∀ a v, p.authority = some a → a.port = some v → v.ptr ≠ 0 → NoTriplet v.chars

/-- A field's text once encoded. -/
def encText (fld : Codec.Field) (s : Str) : Str := if encSz fld s = 0 then s else encOut fld s

/-- The field can be decoded after encoding, and is what it was. -/
def Back (fld : Codec.Field) (s : Str) : Prop :=
  (∃ n, decRes fld (encText fld s) = .ok n) ∧ (decSz fld (encText fld s) = 0 → encText fld s = s) ∧
    (decSz fld (encText fld s) ≠ 0 → decOut fld (encText fld s) = s)

theorem encText_pct {fld : Codec.Field} (hf : fld ≠ .host) (s : Str) : encText fld s = encP (encSetOf fld) s := by
  unfold encText
  by_cases a : encSz fld s = 0
  · rw [if_pos a]
    cases hn : needsPctencode s (encSetOf fld) with
    | false => exact ((encP_id_iff _ _).2 hn).symm
    | true =>
      have : encSz fld s = (encP (encSetOf fld) s).length := by simp [encSz, hf, hn]
      exact absurd (this ▸ a) (needsPctencode_len hn)
  · rw [if_neg a]; simp [encOut, hf]

theorem back_pct {fld : Codec.Field} (hf : fld ≠ .host) (s : Str) : Back fld s ↔ decP (encP (encSetOf fld) s) = s := by
  have hr : decRes fld (encText fld s) = .ok (if needsPctdecode (encText fld s) then (decP (encText fld s)).length else 0) := by simp [decRes, hf]
  have ho : decOut fld (encText fld s) = decP (encText fld s) := by simp [decOut, hf]
  rw [← encText_pct hf]
  have hz : decSz fld (encText fld s) = 0 → decP (encText fld s) = encText fld s := by
    intro k
    rw [decSz_of hr] at k
    cases hn : needsPctdecode (encText fld s) with
    | false =>
      have := C26_identity _ hn
      rw [pctdecode_eq] at this
      exact Except.ok.inj this
    | true => rw [hn] at k; exact absurd k (needsPctdecode_len hn)
  constructor
  · rintro ⟨_, h1, h2⟩
    by_cases k : decSz fld (encText fld s) = 0
    · rw [hz k]; exact h1 k
    · rw [← ho]; exact h2 k
  · intro h
    exact ⟨⟨_, hr⟩, fun k => by rw [← hz k]; exact h, fun _ => by rw [ho]; exact h⟩

theorem back_none {fld : Codec.Field} (hf : fld = .scheme ∨ fld = .port) (s : Str) : Back fld s ↔ NoTriplet s := by
  have he : encSetOf fld = EncSet.none := by rcases hf with rfl | rfl <;> rfl
  rw [back_pct (by rcases hf with rfl | rfl <;> simp), he, ← (C26_fixed s).1]
  obtain ⟨e, h1, h2⟩ := C22_none s
  rw [pctencode_eq] at h1
  cases h1
  rw [pctdecode_eq, pctdecode_eq] at h2
  rw [Except.ok.inj h2, pctdecode_eq]
  simp

theorem encText_host {s e : Str} {b : Bool} (hl : s.length ≤ 2 ^ 37) (h : punyEncoded s = .ok (e, b)) : encText .host s = e := by
  obtain ⟨_, e', b', _, k1, _, _, k2, k3, _⟩ := host_encoded s hl
  rw [h] at k1
  cases k1
  have hz : encSz .host s = if b then e.length else 0 := by simp [encSz, h]
  have ho : encOut .host s = e := by simp [encOut, h]
  unfold encText
  cases b with
  | false => rw [if_pos (by simp [hz]), k2 rfl]
  | true =>
    rw [if_neg, ho]
    rw [hz]
    exact fun a => absurd (List.eq_nil_of_length_eq_zero a) (k3 rfl).2

theorem back_host {s : Str} (hl : s.length ≤ 2 ^ 37) : Back .host s ↔ HostReturns s := by
  obtain ⟨_, e, b, _, k1, _, _, k2, k3, _⟩ := host_encoded s hl
  have het := encText_host hl k1
  unfold Back
  rw [het]
  obtain ⟨⟨d, r⟩, hd⟩ := encoded_decodable hl k1
  constructor
  · rintro ⟨⟨n, h1⟩, h2, h3⟩
    cases r with
    | error x => simp [decRes, hd] at h1
    | ok b' =>
      have hn : decSz .host e = if b' then d.length else 0 := by simp [decSz, decRes, hd]
      have hdo : decOut .host e = d := by simp [decOut, hd]
      by_cases k : decSz .host e = 0
      · have hes := h2 k
        subst hes
        cases b' with
        | false =>
          have := dec_false (by unfold szMod; omega) hd
          subst this
          exact Or.inl ((C34_exact d hl).1 ⟨d, b, false, k1, hd⟩)
        | true =>
          rw [hn] at k
          have := List.eq_nil_of_length_eq_zero k
          subst this
          exact Or.inr (dec_nothing (by unfold szMod; omega) hd)
      · have := h3 k
        rw [hdo] at this
        subst this
        exact Or.inl ((C34_exact d hl).1 ⟨e, b, b', k1, hd⟩)
  · rintro (⟨⟨cs, hu⟩, hace⟩ | h)
    · obtain ⟨e0, b0, h1, h2⟩ := host_roundtrip hu hl hace
      rw [k1] at h1
      cases h1
      have hr : decRes .host e = .ok (if b then s.length else 0) := by simp [decRes, h2]
      refine ⟨⟨_, hr⟩, fun k => ?_, fun _ => by simp [decOut, h2]⟩
      rw [decSz_of hr] at k
      cases b with
      | false => exact k2 rfl
      | true =>
        have hnil := List.eq_nil_of_length_eq_zero k
        subst hnil
        have : punyEncoded [] = .ok ([], false) := by decide +kernel
        rw [this] at k1; simp at k1
    · have h1 : punyEncoded s = .ok (s, false) ∧ punyDecoded s = .ok ([], .ok true) := by
        rcases h with rfl | rfl <;> decide +kernel
      rw [k1] at h1
      obtain ⟨g1, g2⟩ := h1
      cases g1
      have hr : decRes .host s = .ok 0 := by simp [decRes, g2]
      exact ⟨⟨_, hr⟩, fun _ => rfl, fun k => absurd (decSz_of hr) k⟩

theorem related_and {R S : Codec.Field → SV → SV → Prop} {p q : Parts SV} (h : Related R p q) (k : Related S p q) : Related (fun f v w => R f v w ∧ S f v w) p q := by
  have opt : ∀ {A B : SV → SV → Prop} {a b : Option SV}, Opt A a b → Opt B a b → Opt (fun v w => A v w ∧ B v w) a b := by
    intro A B a b h k
    cases h with
    | none => exact .none
    | some h => cases k with | some k => exact .some ⟨h, k⟩
  refine ⟨opt h.scheme k.scheme, h.absolute, ?_, ?_, opt h.query k.query, opt h.fragment k.fragment⟩
  · have := k.segments
    have h := h.segments
    generalize p.path.segments = x at *
    generalize q.path.segments = y at *
    induction h with
    | nil => exact .nil
    | cons a _ ih => cases this with | cons b k => exact .cons ⟨a, b⟩ (ih k)
  · have k := k.authority
    have h := h.authority
    generalize p.authority = x at *
    generalize q.authority = y at *
    cases h with
    | none => exact .none
    | some h => cases k with | some k => exact .some ⟨opt h.1 k.1, ⟨h.2.1, k.2.1⟩, opt h.2.2 k.2.2⟩

theorem field_fwd {R : Codec.Field → SV → SV → Prop} {p r : Parts SV} (h : Related R p r) {fld : Codec.Field} {v : SV} (hin : InField p fld v) :
    ∃ w, InField r fld w ∧ R fld v w := by
  have opt : ∀ {R : SV → SV → Prop} {a b : Option SV} {w : SV}, Opt R a b → a = some w → ∃ v, b = some v ∧ R w v := by
    intro R a b w h e
    cases h with
    | none => simp at e
    | some h => cases e; exact ⟨_, rfl, h⟩
  have auth : ∀ a, p.authority = some a → ∃ b, r.authority = some b ∧ Opt (R .userinfo) a.userinfo b.userinfo ∧ R .host a.host b.host ∧ Opt (R .port) a.port b.port := by
    intro a ha
    have := h.authority
    rw [ha] at this
    cases hb : r.authority with
    | none => rw [hb] at this; cases this
    | some b =>
      rw [hb] at this
      cases this with
      | some k => exact ⟨b, rfl, k⟩
  cases fld with
  | scheme => exact opt h.scheme hin
  | query => exact opt h.query hin
  | fragment => exact opt h.fragment hin
  | path => exact Codec.each_left h.segments v hin
  | userinfo =>
    obtain ⟨a, e1, e2⟩ := hin
    obtain ⟨b, hb, hr⟩ := auth a e1
    obtain ⟨w, hw, hr⟩ := opt hr.1 e2
    exact ⟨w, ⟨b, hb, hw⟩, hr⟩
  | host =>
    obtain ⟨a, e1, e2⟩ := hin
    obtain ⟨b, hb, hr⟩ := auth a e1
    exact ⟨b.host, ⟨b, hb, rfl⟩, e2 ▸ hr.2.1⟩
  | port =>
    obtain ⟨a, e1, e2⟩ := hin
    obtain ⟨b, hb, hr⟩ := auth a e1
    obtain ⟨w, hw, hr⟩ := opt hr.2.2 e2
    exact ⟨w, ⟨b, hb, hw⟩, hr⟩

theorem text_related {p q : Parts SV} (h : q.text = p.text) : Related (fun _ v w => w.chars = v.chars) p q := by
  have opt : ∀ {a b : Option SV}, b.map SV.chars = a.map SV.chars → Opt (fun v w => w.chars = v.chars) a b := by
    intro a b h
    cases a <;> cases b <;> simp at h
    · exact .none
    · exact .some h
  obtain ⟨s, a, ⟨ab, gs⟩, q1, f⟩ := p
  obtain ⟨s', a', ⟨ab', gs'⟩, q', f'⟩ := q
  simp only [Parts.text, Parts.map, Path.map, Parts.mk.injEq, Path.mk.injEq] at h
  obtain ⟨h1, h2, ⟨h3, h4⟩, h5, h6⟩ := h
  refine ⟨opt h1, h3, ?_, ?_, opt h5, opt h6⟩
  · clear h2
    simp only at h4 ⊢
    induction gs generalizing gs' with
    | nil => simp at h4; subst h4; exact .nil
    | cons g gs ih =>
      cases gs' with
      | nil => simp at h4
      | cons g' gs' =>
        simp at h4
        exact .cons h4.1 (ih gs' (by simpa using h4.2))
  · simp only at h2 ⊢
    cases a <;> cases a' <;> simp [Authority.map] at h2
    · exact .none
    · exact .some ⟨opt h2.1, h2.2.1, opt h2.2.2⟩

theorem returns_iff {p : Parts SV} (hlen : ∀ a, p.authority = some a → a.host.chars.length ≤ 2 ^ 37) :
    Returns p ↔ ∀ fld v, InField p fld v → v.ptr ≠ 0 → Back fld v.chars := by
  have pct : ∀ fld, fld ≠ .host → fld ≠ .scheme → fld ≠ .port → ∀ s, Back fld s := by
    intro fld h1 h2 h3 s
    rw [back_pct h1]
    apply decP_encP
    left
    cases fld <;> first | exact absurd rfl h1 | exact absurd rfl h2 | exact absurd rfl h3 | decide
  constructor
  · intro h fld v hin hv
    by_cases h1 : fld = .host
    · subst h1
      obtain ⟨a, e1, e2⟩ := hin
      subst e2
      exact (back_host (hlen a e1)).2 (h.host a e1 hv)
    · by_cases h2 : fld = .scheme
      · subst h2; exact (back_none (Or.inl rfl) _).2 (h.scheme v hin hv)
      · by_cases h3 : fld = .port
        · subst h3
          obtain ⟨a, e1, e2⟩ := hin
          exact (back_none (Or.inr rfl) _).2 (h.port a v e1 e2 hv)
        · exact pct fld h1 h2 h3 _
  · intro h
    refine ⟨fun v e hv => (back_none (Or.inl rfl) _).1 (h .scheme v e hv), fun a e hv => (back_host (hlen a e)).1 (h .host a.host ⟨a, e, rfl⟩ hv),
      fun a v e1 e2 hv => (back_none (Or.inr rfl) _).1 (h .port v ⟨a, e1, e2⟩ hv)⟩

/-- **C37**, exactly: `encode` succeeds, and `decode` gives the components back, whatever the state of the
heap and of its store, if and only if scheme and port contain no triplets and the host name is one that
returns. -/
theorem C37_exact (hp : Heap) (store : Store) (p : Parts SV) (hn : p.path.segments.length + 6 ≤ 2 ^ 32)
    (haddr : ∀ n, hp.addr n ≠ 0) (hstore : store.cap ≠ 0 → store.addr ≠ 0)
    (hlen : ∀ a, p.authority = some a → a.host.chars.length ≤ 2 ^ 37) :
    ∃ r st, encode hp store p = .ok (r, st) ∧ ∀ hp' store', (∃ q st', decode hp' store' r = .ok (.ok q, st') ∧ q.text = p.text) ↔ Returns p := by
  obtain ⟨r, st, h1, ⟨n, hn', h2, _⟩, _, h4⟩ := encode_eq hp store (p := p) hn (fun v ⟨a, h, h'⟩ => h' ▸ hlen a h)
  refine ⟨r, st, h1, fun hp' store' => ?_⟩
  have haddr' : st.chars.length ≠ 0 → st.addr ≠ 0 := by
    intro k
    rw [h2]
    unfold Store.reserve
    split
    · exact hstore (by omega)
    · exact haddr _
  have hrel : Related (fun fld v v' => (v.ptr = 0 ∧ v' = v) ∨ (v.ptr ≠ 0 ∧ v'.ptr ≠ 0 ∧ v'.chars = encText fld v.chars)) p r := by
    refine h4.mono fun fld v v' hin hr => ?_
    rcases hr with ⟨rfl, b⟩ | ⟨hv, a, b, ⟨off, c, d, _⟩⟩
    · by_cases hv : v'.ptr = 0
      · exact Or.inl ⟨hv, rfl⟩
      · exact Or.inr ⟨hv, hv, by unfold encText; rw [if_pos (b.resolve_left hv)]⟩
    · refine Or.inr ⟨hv, ?_, by unfold encText; rw [if_neg a, b]⟩
      have := encSz_out fld v.chars a
      rw [← b] at this
      have := haddr' (by omega)
      omega
  have hnr : r.path.segments.length + 6 ≤ 2 ^ 32 := by rw [each_length hrel.segments]; exact hn
  rw [returns_iff hlen]
  rcases decode_eq hp' store' (p := r) hnr (fun v hv => by
      obtain ⟨w, hw, ⟨k, e⟩ | ⟨_, k, e⟩⟩ := field_back hrel hv
      · subst e
        obtain ⟨a, e1, e2⟩ := hw
        subst e2
        exact punyDecoded_ok _ (by have := hlen a e1; unfold szMod; omega)
      · obtain ⟨a, e1, e2⟩ := hw
        subst e2
        obtain ⟨_, e', b', _, k1, _⟩ := host_encoded _ (hlen a e1)
        rw [e, encText_host (hlen a e1) k1]
        exact encoded_decodable (hlen a e1) k1) with ⟨q, st', k1, _, _, k4, k5⟩ | ⟨e, x, st', k1, hx, he⟩
  · have hc := hrel.comp k4
    constructor
    · rintro ⟨q', st'', g1, g2⟩ fld v hin hv
      rw [k1] at g1
      cases g1
      obtain ⟨w, hw, ⟨v', hv', hvw⟩, hwv⟩ := field_fwd (related_and hc (text_related g2)) hin
      rcases hv' with ⟨a, _⟩ | ⟨_, a, b⟩
      · exact absurd a hv
      · refine ⟨?_, ?_, ?_⟩
        · obtain ⟨v0, hv0, ⟨c, _⟩ | ⟨_, c, d⟩⟩ := field_fwd hrel hin
          · exact absurd c hv
          · obtain ⟨x, hx, rfl, rfl⟩ := visit_of_field hv0 c
            rw [← d]
            exact k5 x hx
        · intro k
          rw [← b] at k ⊢
          rcases hvw with ⟨c, _⟩ | ⟨_, c, _⟩
          · rw [← c]; exact hwv
          · exact absurd k c
        · intro k
          rw [← b] at k ⊢
          rcases hvw with ⟨c, d⟩ | ⟨_, _, c, _⟩
          · exact absurd (d.resolve_left a) k
          · rw [← c]; exact hwv
    · intro hb
      refine ⟨q, st', k1, related_text (hc.mono fun fld v w hin ⟨v', hv', hw⟩ => ?_)⟩
      rcases hv' with ⟨a, rfl⟩ | ⟨hv, a, b⟩
      · rcases hw with ⟨rfl, _⟩ | ⟨c, _⟩
        · rfl
        · exact absurd a c
      · obtain ⟨_, c1, c2⟩ := hb fld v hin hv
        rw [← b] at c1 c2
        rcases hw with ⟨rfl, c⟩ | ⟨_, c, d, _⟩
        · exact c1 (c.resolve_left a)
        · rw [d]; exact c2 c
  · obtain ⟨_, hxin, hxp, _⟩ := mem_visits (p := r) hnr hx
    constructor
    · rintro ⟨q', st'', g1, _⟩
      rw [k1] at g1; simp at g1
    · intro hb
      obtain ⟨w, hw, ⟨k, e'⟩ | ⟨hv, k, e'⟩⟩ := field_back hrel hxin
      · exact absurd (e' ▸ k) hxp
      · obtain ⟨⟨n, hn⟩, _⟩ := hb _ w hw hv
        rw [← e', he] at hn
        simp at hn

/-- The hypotheses hold, and `Returns` can be true and false: with a sample URI, and with a host name that is
already encoded. -/
example : Returns sampleParts := by
  obtain ⟨r, st, h1, h2⟩ := C37_exact heap0 store0 sampleParts (by decide) (by intro n; simp [heap0]) (by simp [store0]) (by intro a h; cases h; decide)
  obtain ⟨r', st', k1, k2⟩ := C37_roundtrip heap0 store0 sampleParts (by decide) (by intro n; simp [heap0]) (by simp [store0]) (by intro s h; cases h; decide)
    (by
      intro a h; cases h
      refine ⟨fun t ht => by cases ht; decide, ⟨[0x62, 0xFC, 0x63, 0x68, 0x65, 0x72, 0x2E, 0x65, 0x78, 0x61, 0x6D, 0x70, 0x6C, 0x65], by decide, by decide⟩, bucher_noAce, by decide⟩)
  rw [h1] at k1
  cases k1
  exact (h2 heap0 store0).1 (k2 heap0 store0)

example : ¬ Returns ⟨none, some ⟨none, ⟨1, b! "xn--tda"⟩, none⟩, ⟨false, []⟩, none, none⟩ := by
  intro h
  rcases h.host _ rfl (by decide) with ⟨_, h⟩ | h | h
  · exact h [b! "xn--tda"] ⟨by simp, by decide, by decide⟩ (b! "xn--tda") (List.mem_singleton.2 rfl) (by decide) (by decide)
  · revert h; decide
  · revert h; decide

end Verif
