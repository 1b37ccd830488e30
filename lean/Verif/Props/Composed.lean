import Verif.Props.Safety
import Verif.Props.Commute
import Verif.Props.Pipeline

/-!
# C88: what a composed text is parsed as
-/

namespace Verif
open Codec PctSpec PartsSpec
set_option linter.unusedSimpArgs false

/-! ### Specification -/

/-- Every present component is a sentence of its RFC 3986 rule, the host one of those the code accepts; no component is required
(`ComponentsOk` is this and a scheme). -/
structure ReferenceComponentsOk (p : Parts Str) : Prop where
  scheme : ∀ s, p.scheme = some s → Abnf.scheme s
  userinfo : ∀ a, p.authority = some a → ∀ u, a.userinfo = some u → Abnf.userinfo u
  host : ∀ a, p.authority = some a → Abnf.HostAccepted a.host
  port : ∀ a, p.authority = some a → ∀ t, a.port = some t → Abnf.port t
  path : ∀ g ∈ p.path.segments, Abnf.segment g
  query : ∀ q, p.query = some q → Abnf.query q
  fragment : ∀ f, p.fragment = some f → Abnf.fragment f

/-- RFC 3986 section 4.2: "A path segment that contains a colon character (e.g., "this:that") cannot be used as the first segment of a
relative-path reference, as it would be mistaken for a scheme name." -/
def NoColonFirst (p : Parts Str) : Prop :=
  p.scheme = none → p.authority = none → p.path.absolute = false → ∀ g gs, p.path.segments = g :: gs → (0x3A : UInt8) ∉ g

/-- Every triplet of the text denotes an unreserved character (RFC 3986 section 2.3: such triplets "should be decoded"). -/
def PlainTriplets (s : Str) : Prop := ∀ x h l t b, s = x ++ 0x25 :: h :: l :: t → Triplet h l b → Abnf.unreserved [b]

/-! ### Proofs -/

theorem segmentNzNc_of {g : Str} (h : Abnf.segmentNz g) (hc : (0x3A : UInt8) ∉ g) : Abnf.segmentNzNc g := by
  obtain ⟨es, rfl, h1, h2, h3⟩ := h
  refine ⟨es, rfl, fun e he => ?_, h2, h3⟩
  rcases h1 e he with k | k | k | k | k
  · exact Or.inl k
  · exact Or.inr (Or.inl k)
  · exact Or.inr (Or.inr (Or.inl k))
  · refine absurd ?_ hc
    rw [k] at he
    exact List.mem_flatten.2 ⟨_, he, by decide⟩
  · exact Or.inr (Or.inr (Or.inr k))

theorem segmentNzNc_no_colon {g : Str} (h : Abnf.segmentNzNc g) : (0x3A : UInt8) ∉ g := by
  intro hm
  have := only_mono only_segmentNzNc (g := fun c => c != 0x3A) (by byte_tac) _ h _ hm
  simp at this

theorem part_nc {t A P} (h : Abnf.PartDerives Abnf.segmentNz t A P)
    (hc : A = none → P.absolute = false → ∀ g gs, P.segments = g :: gs → (0x3A : UInt8) ∉ g) : Abnf.PartDerives Abnf.segmentNzNc t A P := by
  cases h with
  | abempty a gs h1 h2 => exact .abempty a gs h1 h2
  | root => exact .root
  | absolute g gs h1 h2 => exact .absolute g gs h1 h2
  | rootless g gs h1 h2 => exact .rootless g gs (segmentNzNc_of h1 (hc rfl rfl g gs rfl)) h2
  | empty => exact .empty

theorem reference_of_components {p : Parts Str} (h : ReferenceComponentsOk p) (hs : PathShape p) (hc : NoColonFirst p) :
    ∃ r, Abnf.ReferenceDerives (recompose (rooted p)) r ∧ Abnf.HostOk r ∧ SameComponents r p := by
  cases hx : p.scheme with
  | some s =>
    obtain ⟨r, h1, h2, h3⟩ := derives_of_components (p := p) ⟨⟨s, hx, h.scheme s hx⟩, h.userinfo, h.host, h.port, h.path, h.query, h.fragment⟩ hs
    exact ⟨r, Or.inl h1, h2, h3⟩
  | none =>
    obtain ⟨sch, A, P, q, f⟩ := p
    simp only at hx; subst hx
    obtain ⟨r, ⟨s', t, h1, _, h2, h3, h4, h5⟩, ho, hsame⟩ := derives_of_components (p := ⟨some (b! "s"), A, P, q, f⟩)
      ⟨⟨_, rfl, b! "s", [], rfl, Or.inr ⟨_, rfl, by decide, by decide⟩, [], rfl, by simp, by simp, by simp⟩, h.userinfo, h.host, h.port, h.path, h.query, h.fragment⟩ hs
    obtain ⟨rs, rA, rP, rq, rf⟩ := r
    obtain ⟨e1, e2, e3, e4, e5, e6⟩ := hsame
    simp only at h1 h2 h3 h4 h5 e1 e2 e3 e4 e5 e6
    subst h1
    cases e1
    refine ⟨⟨none, rA, rP, rq, rf⟩, Or.inr ⟨t, rfl, part_nc h2 ?_, h3, h4, ?_⟩, ho, rfl, e2, e3, e4, e5, e6⟩
    · intro k1 k2 g gs k3
      exact hc rfl (e2.symm.trans k1) ((e6 k1).symm.trans k2) g gs (e5.symm.trans k3)
    · simp only [recompose, rooted, List.append_assoc, List.cons_append, List.nil_append] at h5 ⊢
      have := h5
      simp only [List.cons.injEq, true_and] at this
      simpa using this

theorem derives_noColon {s p} (h : Abnf.ReferenceDerives s p) : NoColonFirst p := by
  rcases h with ⟨sch, t, h1, h2, h3, h4, h5, rfl⟩ | ⟨t, h1, h3, h4, h5, rfl⟩
  · intro k; rw [h1] at k; exact absurd k (by simp)
  · intro _ k1 k2 g gs k3
    obtain ⟨sch, A, P, q, f⟩ := p
    simp only at h1 h3 k1 k2 k3
    cases h3 with
    | abempty => cases k1
    | root => cases k2
    | absolute => cases k2
    | rootless g' gs' h1 h2 => cases k3; exact segmentNzNc_no_colon h1
    | empty => cases k3

/-! ### Theorems -/

/-- **C88**, for every value whatsoever: `split` reads what `compose` writes as the value it was written from exactly if that is `valid ()`
and its path has the shape its place requires (and is not miscounted, which takes a segment of 4 GiB). -/
theorem C88_split_exact (pl : Plat) (p : Parts SV) (ptr : Nat) :
    (∃ q, split pl ⟨ptr, compose p⟩ = .ok (some q) ∧ Parts.eq q p = true) ↔
    p.valid pl = .ok true ∧ PathShape p.text ∧ Abnf.PathCounted p.text := by
  constructor
  · rintro ⟨q, e, h⟩
    exact ⟨(C55_valid_congr pl q p h).1 (C07_split_valid pl _ q e), C06_shape_needed pl p ptr q e h⟩
  · rintro ⟨h1, h2, h3⟩
    exact C06_split_compose pl p ptr h1 h2 h3

/-- **C88** for references. -/
theorem C88_reference_exact (pl : Plat) (p : Parts SV) (ptr : Nat) :
    (∃ q, splitReference pl ⟨ptr, compose p⟩ = .ok (some q) ∧ Parts.eq q p = true) ↔
    ReferenceComponentsOk p.text ∧ PathShape p.text ∧ NoColonFirst p.text ∧ Abnf.PathCounted p.text := by
  constructor
  · rintro ⟨q, e, h⟩
    have h1 := splitReference_spec e
    have hc := splitReference_counted e
    obtain ⟨k1, k2, k3, k4, k5, k6⟩ := derives_components h1.1
    have ks := derives_shape h1.1
    have kn := derives_noColon h1.1
    have ho := h1.2.1
    obtain ⟨e1, e2, e3, e4, e5, e6⟩ := partsEq_iff.1 h
    refine ⟨?_, ?_, ?_, ?_⟩
    · simp only [Abnf.HostOk] at ho
      rw [e1] at k6; rw [e2] at k1 k2 ho; rw [e3] at k4; rw [e4] at k5; rw [e5] at k3
      exact ⟨k6, k1, ho, k2, k3, k4, k5⟩
    · intro hA
      have hA' := e2.trans hA
      have := ks hA'
      rw [e5, e6 hA'] at this
      exact this
    · intro hS hA hab g gs hg
      exact kn (e1.trans hS) (e2.trans hA) ((e6 (e2.trans hA)).trans hab) g gs (e5.trans hg)
    · intro hA g gs hg
      exact hc (e2.trans hA) g gs (e5.trans hg)
  · rintro ⟨h1, h2, h3, h4⟩
    obtain ⟨r, k1, k2, k3⟩ := reference_of_components h1 h2 h3
    rw [← compose_text] at k1
    have hc' : Abnf.PathCounted r := by
      intro ha g gs e
      exact h4 (k3.2.1.symm.trans ha) g gs (k3.2.2.2.2.1.symm.trans e)
    obtain ⟨q, h4, rfl⟩ := splitReference_complete (pl := pl) (sv := ⟨ptr, compose p⟩) k1 k2 hc'
    exact ⟨q, h4, partsEq_iff.2 k3⟩

/-- **C88**: `compose` does not confuse two values that are read back. -/
theorem C88_compose_injective (pl : Plat) (p p' : Parts SV)
    (h : ReferenceComponentsOk p.text ∧ PathShape p.text ∧ NoColonFirst p.text ∧ Abnf.PathCounted p.text)
    (h' : ReferenceComponentsOk p'.text ∧ PathShape p'.text ∧ NoColonFirst p'.text ∧ Abnf.PathCounted p'.text) :
    compose p = compose p' ↔ Parts.eq p p' = true := by
  constructor
  · intro e
    obtain ⟨q, h1, h2⟩ := (C88_reference_exact pl p 0).2 h
    obtain ⟨q', h3, h4⟩ := (C88_reference_exact pl p' 0).2 h'
    rw [e] at h1
    rw [h1] at h3
    cases h3
    exact C14_equivalence.2.2 _ _ _ (C14_equivalence.2.1 _ _ h2) h4
  · exact C14_compose_congr p p'

/-- **C88**: two texts are read as equal values exactly if they are the same text. -/
theorem C88_split_injective (pl : Plat) (s t : SV) (p q : Parts SV)
    (hs : split pl s = .ok (some p) ∨ splitReference pl s = .ok (some p)) (ht : split pl t = .ok (some q) ∨ splitReference pl t = .ok (some q)) :
    Parts.eq p q = true ↔ s.chars = t.chars := by
  constructor
  · intro h
    rw [← C05_compose_split pl s p hs, ← C05_compose_split pl t q ht]
    exact C14_compose_congr p q h
  · intro h
    have k1 : Abnf.ReferenceDerives s.chars p.text := hs.elim (fun e => Or.inl (split_spec e).1) (fun e => (splitReference_spec e).1)
    have k2 : Abnf.ReferenceDerives t.chars q.text := ht.elim (fun e => Or.inl (split_spec e).1) (fun e => (splitReference_spec e).1)
    rw [h] at k1
    rw [partsEq_iff, derives_unique k1 k2]
    exact ⟨rfl, rfl, rfl, rfl, rfl, fun _ => rfl⟩

/-! ### Decoding what is unreserved -/

/-- A decoded text: unchanged, or with its triplets replaced. -/
def DecodedOr (s d : Str) : Prop := d = s ∨ Decodes s d

theorem xdigit_hex {h : UInt8} (hx : isXDigitB h = true) : (hex2dec h).toNat < 16 := by
  have := forall_byte (P := fun c => decide (isXDigitB c = true → (hex2dec c).toNat < 16)) (by decide +kernel) h
  exact of_decide_eq_true this hx

theorem elems_decoded {f : UInt8 → Bool} (h25 : f 0x25 = false) (hf : ∀ b, Abnf.unreserved [b] → f b = true) :
    ∀ (es : List Str) (d : Str), (∀ e ∈ es, ElemL f e) → PlainTriplets es.flatten → Decodes es.flatten d →
      ∃ es' : List Str, d = es'.flatten ∧ (∀ e ∈ es', ElemL f e) ∧ es'.length = es.length ∧ ∀ c ∈ d, c ∈ es.flatten ∨ Abnf.unreserved [c]
  | [], d, _, _, hd => by cases hd; exact ⟨[], rfl, by simp, rfl, by simp⟩
  | e :: es, d, he, hp, hd => by
    have hp' : PlainTriplets es.flatten := by
      intro x h l t b hx ht
      exact hp (e ++ x) h l t b (by simp [hx]) ht
    rw [List.flatten_cons] at hd hp ⊢
    rcases he e (by simp) with ⟨c, rfl, hc⟩ | ⟨h, l, rfl, hh, hl⟩
    · have hne : c ≠ 0x25 := by rintro rfl; rw [h25] at hc; exact absurd hc (by simp)
      simp only [List.cons_append, List.nil_append] at hd
      generalize hs : es.flatten = s at *
      cases hd with
      | triplet => exact absurd rfl hne
      | copy _ hd =>
        obtain ⟨es', h1, h2, h3, h4⟩ := elems_decoded h25 hf es _ (fun e' he' => he e' (by simp [he'])) (hs ▸ hp') (hs ▸ hd)
        subst h1
        refine ⟨[c] :: es', rfl, ?_, by simp [h3], ?_⟩
        · intro e' he'
          rcases List.mem_cons.1 he' with rfl | he'
          · exact Or.inl ⟨c, rfl, hc⟩
          · exact h2 e' he'
        · intro x hx
          rcases List.mem_cons.1 hx with rfl | hx
          · exact Or.inl (by simp)
          · rcases h4 x hx with k | k
            · exact Or.inl (by simp [← hs, k])
            · exact Or.inr k
    · simp only [List.cons_append, List.nil_append] at hd hp
      have htr : Triplet h l (byteB h l) := (triplet_iff h l _).2 ⟨(tripletB_iff h l).2 ⟨xdigit_hex hh, xdigit_hex hl⟩, rfl⟩
      generalize hs : es.flatten = s at *
      cases hd with
      | copy hn _ => exact absurd ⟨h, l, _, s, rfl, htr⟩ hn
      | triplet ht hd =>
        rename_i b d
        have hb : Abnf.unreserved [b] := hp [] h l s b rfl ht
        obtain ⟨es', h1, h2, h3, h4⟩ := elems_decoded h25 hf es _ (fun e' he' => he e' (by simp [he'])) (hs ▸ hp') (hs ▸ hd)
        subst h1
        refine ⟨[b] :: es', rfl, ?_, by simp [h3], ?_⟩
        · intro e' he'
          rcases List.mem_cons.1 he' with rfl | he'
          · exact Or.inl ⟨b, rfl, hf b hb⟩
          · exact h2 e' he'
        · intro x hx
          rcases List.mem_cons.1 hx with rfl | hx
          · exact Or.inr hb
          · rcases h4 x hx with k | k
            · exact Or.inl (by simp [← hs, k])
            · exact Or.inr k

/-- Decoding triplets that denote unreserved characters keeps a text in a language made of characters and triplets, and the number of its
elements. -/
theorem many_decoded {A : Lang} {f : UInt8 → Bool} (hA : ∀ u, A u ↔ ElemL f u) (h25 : f 0x25 = false) (hf : ∀ b, Abnf.unreserved [b] → f b = true)
    {s d : Str} (hs : Abnf.many A s) (hp : PlainTriplets s) (hd : DecodedOr s d) :
    Abnf.many A d ∧ Abnf.units d = Abnf.units s ∧ (s = [] ↔ d = []) ∧ ∀ c ∈ d, c ∈ s ∨ Abnf.unreserved [c] := by
  rcases hd with rfl | hd
  · exact ⟨hs, rfl, Iff.rfl, fun c hc => Or.inl hc⟩
  · obtain ⟨es, rfl, h1, _, _⟩ := hs
    have h1' : ∀ e ∈ es, ElemL f e := fun e he => (hA e).1 (h1 e he)
    obtain ⟨es', rfl, k2, k3, k4⟩ := elems_decoded h25 hf es d h1' hp hd
    refine ⟨⟨es', rfl, fun e he => (hA e).2 (k2 e he), by simp, by simp⟩, ?_, ?_, k4⟩
    · rw [elem_units h25 k2, elem_units h25 h1', k3]
    · have ne : ∀ {xs : List Str}, (∀ e ∈ xs, ElemL f e) → (xs.flatten = [] ↔ xs.length = 0) := by
        intro xs hx
        cases xs with
        | nil => simp
        | cons x xs =>
          rcases hx x (by simp) with ⟨c, rfl, _⟩ | ⟨a, b, rfl, _⟩ <;> simp
      rw [ne h1', ne k2, k3]

theorem unreserved_in {f : UInt8 → Bool} (h : ∀ b, PG.isUnreserved b = true → f b = true) : ∀ b, Abnf.unreserved [b] → f b = true := by
  intro b hb
  obtain ⟨c, e, hc⟩ := (unreserved_cls [b]).1 hb
  cases e
  exact h b hc

theorem no_percent_decoded {s d : Str} (h : (0x25 : UInt8) ∉ s) (hd : DecodedOr s d) : d = s := by
  rcases hd with rfl | hd
  · rfl
  · have := (C26_exact s d).2 hd
    rw [(C26_exact s s).2 (noTriplet_decodes (noTriplet_of_no_percent h))] at this
    exact (Except.ok.inj this).symm

theorem host_unchanged {s d : Str} (ha : Abnf.HostAccepted s) (hace : NoAce s) (h : HostDecodes s d) : d = s := by
  obtain ⟨ls, ds, h1, h2, rfl⟩ := h
  have hasc := host_ascii ha
  have hl : ∀ l ∈ ls, ∀ d', LabelDecodes l d' → d' = l := by
    intro l hl d' hd
    have := hace ls h1 l hl (fun c hc => hasc c (by
      rw [h1.2.2]; exact joined_mem hl hc))
    cases hd with
    | plain _ => rfl
    | puny _ => exact absurd (List.prefix_append _ _) this
  have : ds = ls := by
    clear h1 hace
    induction h2 with
    | nil => rfl
    | cons a b ih =>
      rw [hl _ (by simp) _ a, ih fun l hm => hl l (by simp [hm])]
  rw [this, h1.2.2]

theorem opt_map {R : SV → SV → Prop} {a b : Option SV} (h : Opt R a b) {y : Str} (hy : b.map SV.chars = some y) :
    ∃ v w, a = some v ∧ b = some w ∧ w.chars = y ∧ R v w := by
  cases h with
  | none => simp at hy
  | some h => simp only [Option.map_some, Option.some.injEq] at hy; exact ⟨_, _, rfl, rfl, hy, h⟩

/-- **C88**: percent-decoding what need not be encoded is safe.  Let every triplet of a value's user information, path, query and fragment
denote an unreserved character, and let no label of the host begin with `xn--`.  If the value is one that its composition is read back as,
so is the decoded one. -/
theorem C88_decode_unreserved (pl : Plat) (hp : Heap) (store : Store) (p : Parts SV) (ptr : Nat) (hn : p.path.segments.length + 6 ≤ 2 ^ 32)
    (hh : ∀ a, p.authority = some a → a.host.chars.length + 2 < 2 ^ 64)
    (hread : ∃ q, splitReference pl ⟨ptr, compose p⟩ = .ok (some q) ∧ Parts.eq q p = true)
    (hu : ∀ a u, p.authority = some a → a.userinfo = some u → PlainTriplets u.chars) (hg : ∀ g ∈ p.path.segments, PlainTriplets g.chars)
    (hq : ∀ q, p.query = some q → PlainTriplets q.chars) (hf : ∀ f, p.fragment = some f → PlainTriplets f.chars)
    (hace : ∀ a, p.authority = some a → NoAce a.host.chars) :
    ∃ r st' q, decode hp store p = .ok (.ok r, st') ∧ splitReference pl ⟨ptr, compose r⟩ = .ok (some q) ∧ Parts.eq q r = true := by
  obtain ⟨hc, hs, hnc, hct⟩ := (C88_reference_exact pl p ptr).1 hread
  obtain ⟨res, st', hd, he⟩ := C39_error hp store p hn hh
  cases res with
  | error e =>
    obtain ⟨a, pre, l, post, h1, _, h3, _⟩ := (he e).1 rfl
    have ha : Abnf.HostAccepted a.host.chars := hc.host (a.map SV.chars) (by simp [Parts.text, Parts.map, h1])
    refine absurd (List.prefix_append _ _) (hace a h1 _ h3 (b! "xn--" ++ l) (by simp) fun c hcm => host_ascii ha c ?_)
    rw [h3.2.2]
    exact joined_mem (l := b! "xn--" ++ l) (by simp) hcm
  | ok r =>
    have hrel := C36_decode hp store p hn hh r st' hd
    have hT : ∀ {fld : Codec.Field}, fld ≠ .host → ∀ {v v' : SV}, ((v' = v ∧ v.ptr = 0) ∨ (FieldDecodes fld v.chars v'.chars ∧ (v' = v ∨ InStore st' v')) ∨
        (fld = .host ∧ v' = v ∧ (v.chars = b! "xn--" ∨ v.chars = b! "xn---") ∧ FieldDecodes fld v.chars [])) → DecodedOr v.chars v'.chars := by
      intro fld hfld v v' h
      rcases h with ⟨rfl, _⟩ | ⟨h, _⟩ | ⟨h, _⟩
      · exact Or.inl rfl
      · exact Or.inr (h.2 hfld)
      · exact absurd h hfld
    -- the parts of the decoded value
    have hsch : ∀ s, r.text.scheme = some s → Abnf.scheme s ∧ p.text.scheme = some s := by
      intro s hs'
      obtain ⟨v, w, e1, e2, rfl, h⟩ := opt_map hrel.scheme hs'
      have hsv : Abnf.scheme v.chars := hc.scheme v.chars (by simp [Parts.text, Parts.map, e1])
      have hno : (0x25 : UInt8) ∉ v.chars := fun hm => by
        have := only_scheme _ hsv _ hm
        revert this; decide
      have := no_percent_decoded hno (hT (by decide) h)
      rw [this]
      exact ⟨hsv, by simp [Parts.text, Parts.map, e1]⟩
    have hau : ∀ b, r.text.authority = some b → (∀ u, b.userinfo = some u → Abnf.userinfo u) ∧ Abnf.HostAccepted b.host ∧ (∀ t, b.port = some t → Abnf.port t) := by
      intro b hb
      have hA := hrel.authority
      cases e1 : p.authority with
      | none =>
        rw [e1] at hA
        cases e2 : r.authority with
        | none => simp [Parts.text, Parts.map, e2] at hb
        | some b' => rw [e2] at hA; cases hA
      | some a =>
        rw [e1] at hA
        cases e2 : r.authority with
        | none => rw [e2] at hA; cases hA
        | some b' =>
          rw [e2] at hA
          simp only [Parts.text, Parts.map, e2, Option.map_some, Option.some.injEq] at hb
          subst hb
          cases hA with
          | some hA =>
            have hpa : p.text.authority = some (a.map SV.chars) := by simp [Parts.text, Parts.map, e1]
            refine ⟨fun u hu' => ?_, ?_, fun t ht => ?_⟩
            · obtain ⟨v, w, k1, k2, rfl, h⟩ := opt_map hA.1 hu'
              exact (many_decoded user_elem (by decide) (unreserved_in (by byte_tac)) (hc.userinfo _ hpa v.chars (by simp [Authority.map, k1])) (hu a v e1 k1) (hT (by decide) h)).1
            · have hha := hc.host _ hpa
              rcases hA.2.1 with ⟨k, _⟩ | ⟨k, _⟩ | ⟨_, k, _⟩
              · show Abnf.HostAccepted b'.host.chars; rw [k]; exact hha
              · show Abnf.HostAccepted b'.host.chars; rw [host_unchanged hha (hace a e1) (k.1 rfl)]; exact hha
              · show Abnf.HostAccepted b'.host.chars; rw [k]; exact hha
            · obtain ⟨v, w, k1, k2, rfl, h⟩ := opt_map hA.2.2 ht
              have hpv : Abnf.port v.chars := hc.port _ hpa v.chars (by simp [Authority.map, k1])
              have hno : (0x25 : UInt8) ∉ v.chars := fun hm => by
                have := only_port _ hpv _ hm
                revert this; decide
              rw [no_percent_decoded hno (hT (by decide) h)]
              exact hpv
    have hseg : Each (fun v w : SV => Abnf.segment w.chars ∧ Abnf.units w.chars = Abnf.units v.chars ∧ (v.chars = [] ↔ w.chars = []) ∧
        ((0x3A : UInt8) ∉ v.chars → (0x3A : UInt8) ∉ w.chars)) p.path.segments r.path.segments := by
      refine hrel.segments.mono fun v hv w h => ?_
      have hgv : Abnf.segment v.chars := hc.path v.chars (by simp only [Parts.text, Parts.map, Path.map]; exact List.mem_map.2 ⟨v, hv, rfl⟩)
      obtain ⟨k1, k2, k3, k4⟩ := many_decoded pchar_elem (by decide) (unreserved_in (by byte_tac)) hgv (hg v hv) (hT (by decide) h)
      refine ⟨k1, k2, k3, fun hno hm => ?_⟩
      rcases k4 _ hm with k | k
      · exact hno k
      · have := unreserved_in (f := fun c => c != 0x3A) (by byte_tac) _ k
        simp at this
    have hnoneA : r.text.authority = none ↔ p.text.authority = none := by
      have hA := hrel.authority
      simp only [Parts.text, Parts.map]
      revert hA
      generalize p.authority = x
      generalize r.authority = y
      intro hA
      cases hA <;> simp
    have hnoneS : r.text.scheme = none ↔ p.text.scheme = none := by
      have hA := hrel.scheme
      simp only [Parts.text, Parts.map]
      revert hA
      generalize p.scheme = x
      generalize r.scheme = y
      intro hA
      cases hA <;> simp
    have hab : r.text.path.absolute = p.text.path.absolute := hrel.absolute
    have hfirst : ∀ g gs, r.text.path.segments = g :: gs → ∃ g' gs', p.text.path.segments = g' :: gs' ∧ Abnf.units g = Abnf.units g' ∧ (g' = [] ↔ g = []) ∧
        ((0x3A : UInt8) ∉ g' → (0x3A : UInt8) ∉ g) ∧ (gs' = [] ↔ gs = []) := by
      intro g gs e
      revert e hseg
      simp only [Parts.text, Parts.map, Path.map]
      generalize p.path.segments = x
      generalize r.path.segments = y
      intro hseg e
      cases hseg with
      | nil => simp at e
      | cons h1 h2 =>
        simp only [List.map_cons, List.cons.injEq] at e
        obtain ⟨rfl, rfl⟩ := e
        refine ⟨_, _, rfl, h1.2.1, h1.2.2.1, h1.2.2.2, ?_⟩
        cases h2 <;> simp
    refine (fun ⟨q, k⟩ => ⟨r, st', q, hd, k⟩) ((C88_reference_exact pl r ptr).2 ⟨⟨fun s k => (hsch s k).1, fun a k => (hau a k).1, fun a k => (hau a k).2.1, fun a k => (hau a k).2.2,
      ?_, ?_, ?_⟩, ?_, ?_, ?_⟩)
    · intro g hgm
      simp only [Parts.text, Parts.map, Path.map] at hgm
      obtain ⟨w, hw, rfl⟩ := List.mem_map.1 hgm
      obtain ⟨v, _, hvw⟩ := Codec.each_right hseg w hw
      exact hvw.1
    · intro y hy
      obtain ⟨v, w, e1, e2, rfl, h⟩ := opt_map hrel.query hy
      exact (many_decoded query_elem (by decide) (unreserved_in (by byte_tac)) (hc.query v.chars (by simp [Parts.text, Parts.map, e1])) (hq v e1) (hT (by decide) h)).1
    · intro y hy
      obtain ⟨v, w, e1, e2, rfl, h⟩ := opt_map hrel.fragment hy
      exact (many_decoded query_elem (by decide) (unreserved_in (by byte_tac)) (hc.fragment v.chars (by simp [Parts.text, Parts.map, e1])) (hf v e1) (hT (by decide) h)).1
    · intro hA
      have := hs (hnoneA.1 hA)
      rw [hab]
      cases e : r.text.path.segments with
      | nil =>
        have e' : p.text.path.segments = [] := by
          revert e hseg
          simp only [Parts.text, Parts.map, Path.map]
          generalize p.path.segments = x
          generalize r.path.segments = y
          intro hseg e
          cases hseg with
          | nil => rfl
          | cons => simp at e
        rw [e'] at this
        exact this
      | cons g gs =>
        obtain ⟨g', gs', e', _, k2, _, k4⟩ := hfirst g gs e
        rw [e'] at this
        cases hb : p.text.path.absolute with
        | true =>
          rw [hb] at this
          rcases this with k | k
          · exact Or.inl fun h => k (k2.2 h)
          · exact Or.inr (k4.1 k)
        | false =>
          rw [hb] at this
          exact fun h => this (k2.2 h)
    · intro k1 k2 k3 g gs e
      obtain ⟨g', gs', e', _, _, m, _⟩ := hfirst g gs e
      exact m (hnc (hnoneS.1 k1) (hnoneA.1 k2) (hab.symm.trans k3) g' gs' e')
    · intro k1 g gs e hne
      obtain ⟨g', gs', e', m1, m2, _⟩ := hfirst g gs e
      rw [m1]
      exact hct (hnoneA.1 k1) g' gs' e' fun h => hne (m2.1 h)

/-! ### Instances -/

/-- The hypotheses of `C88_decode_unreserved` met: `s://u%7E@h/%61/b?%2D#%5F`, whose decoded form is `s://u~@h/a/b?-#_`. -/
def plainExample : Parts SV :=
  ⟨some (vw (b! "s")), some ⟨some (vw (b! "u%7E")), vw (b! "h"), none⟩, ⟨true, [vw (b! "%61"), vw (b! "b")]⟩, some (vw (b! "%2D")), some (vw (b! "%5F"))⟩

theorem unreserved_of {b : UInt8} (h : PG.isUnreserved b = true) : Abnf.unreserved [b] := (unreserved_cls [b]).2 ⟨b, rfl, h⟩

/-- The triplets of a short text, checked one position at a time. -/
def plainB : Str → Bool
  | [] => true
  | c :: s => (match tripHead (c :: s) with
    | some b => PG.isUnreserved b
    | none => true) && plainB s

theorem plain_of : ∀ {s : Str}, plainB s = true → PlainTriplets s
  | [], _ => by intro x h l t b e; simp at e
  | c :: s, h => by
    rw [plainB, Bool.and_eq_true] at h
    intro x h' l t b e ht
    cases x with
    | nil =>
      obtain ⟨k1, k2⟩ := (triplet_iff h' l b).1 ht
      simp only [List.nil_append] at e
      rw [e] at h
      simp only [tripHead, k1, k2] at h
      subst k2
      exact unreserved_of (by simpa using h.1)
    | cons y x =>
      simp only [List.cons_append, List.cons.injEq] at e
      exact plain_of h.2 x h' l t b e.2 ht

example : (∃ q, splitReference x86 ⟨1, compose plainExample⟩ = .ok (some q) ∧ Parts.eq q plainExample = true) ∧
    (∃ r st', decode heap0 store0 plainExample = .ok (.ok r, st') ∧ compose r = b! "s://u~@h/a/b?-#_") := by
  constructor
  · obtain ⟨q, e, k⟩ := run_text (x := splitReference x86 ⟨1, compose plainExample⟩) (p := plainExample.text) (by decide +kernel)
    exact ⟨q, e, partsEq_iff.2 (by rw [k]; exact ⟨rfl, rfl, rfl, rfl, rfl, fun _ => rfl⟩)⟩
  · exact ⟨_, _, rfl, by decide +kernel⟩

example : PlainTriplets (b! "u%7E") ∧ PlainTriplets (b! "%61") ∧ PlainTriplets (b! "%2D") ∧ PlainTriplets (b! "%5F") :=
  ⟨plain_of (by decide +kernel), plain_of (by decide +kernel), plain_of (by decide +kernel), plain_of (by decide +kernel)⟩

/-- Triplets that denote reserved characters cannot be decoded so: a slash adds a segment, a colon makes a scheme. -/
theorem C88_reserved_counterexample :
    (∃ p r st' q, split x86 ⟨1, b! "s:/a%2Fb"⟩ = .ok (some p) ∧ decode heap0 store0 p = .ok (.ok r, st') ∧ compose r = b! "s:/a/b" ∧
      splitReference x86 ⟨1, compose r⟩ = .ok (some q) ∧ Parts.eq q r = false) ∧
    (∃ p r st' q, splitReference x86 ⟨1, b! "a%3Ab"⟩ = .ok (some p) ∧ decode heap0 store0 p = .ok (.ok r, st') ∧ compose r = b! "a:b" ∧
      splitReference x86 ⟨1, compose r⟩ = .ok (some q) ∧ p.scheme = none ∧ q.scheme ≠ none) := by
  refine ⟨⟨_, _, _, _, by rfl, by rfl, by decide +kernel, by rfl, by decide +kernel⟩, ⟨_, _, _, _, by rfl, by rfl, by decide +kernel, by rfl, by decide +kernel, by decide +kernel⟩⟩

/-- Values that are not read back: no scheme for `split`, a colon in the first segment, a first segment that is empty. -/
example : (∃ q, splitReference x86 ⟨1, compose ⟨none, none, ⟨false, [vw (b! "a:b")]⟩, none, none⟩⟩ = .ok (some q) ∧ q.scheme ≠ none) ∧
    split x86 ⟨1, compose ⟨none, none, ⟨false, [vw (b! "a")]⟩, none, none⟩⟩ = .ok none ∧
    (∃ q, splitReference x86 ⟨1, compose ⟨none, none, ⟨true, [vw [], vw (b! "a")]⟩, none, none⟩⟩ = .ok (some q) ∧ q.authority ≠ none) := by
  refine ⟨⟨_, by rfl, by decide +kernel⟩, by decide +kernel, ⟨_, by rfl, by decide +kernel⟩⟩

end Verif
