import Verif.Props.PartsCodec
import Verif.Props.Safety

/-!
# Property C61: encode, compose, split, decode
-/

namespace Verif
open Codec PartsSpec Unicode

theorem sz_nil (fld : Codec.Field) : encSz fld [] = 0 ∧ decSz fld [] = 0 := by
  cases fld <;> decide +kernel

/-- A text equality as a relation of the strings. -/
theorem related_of_text {p q : Parts SV} (h : p.text = q.text) : Related (fun _ v w => w.chars = v.chars) p q := by
  obtain ⟨s, a, ⟨ab, gs⟩, qu, f⟩ := p
  obtain ⟨s', a', ⟨ab', gs'⟩, qu', f'⟩ := q
  simp only [Parts.text, Parts.map, Path.map, Parts.mk.injEq, Path.mk.injEq] at h
  obtain ⟨h1, h2, ⟨h3, h4⟩, h5, h6⟩ := h
  have opt : ∀ {a b : Option SV}, a.map SV.chars = b.map SV.chars → Opt (fun v w : SV => w.chars = v.chars) a b := by
    intro a b e
    cases a <;> cases b <;> simp at e
    · exact .none
    · exact .some e.symm
  have each : ∀ {a b : List SV}, a.map SV.chars = b.map SV.chars → Each (fun v w : SV => w.chars = v.chars) a b := by
    intro a
    induction a with
    | nil => intro b e; cases b <;> simp at e; exact .nil
    | cons x a ih =>
      intro b e
      cases b with
      | nil => simp at e
      | cons y b => simp at e; exact .cons e.1.symm (ih e.2)
  refine ⟨opt h1, h3.symm, each h4, ?_, opt h5, opt h6⟩
  cases a <;> cases a' <;> simp [Authority.map] at h2
  · exact .none
  · exact .some ⟨opt h2.1, h2.2.1.symm, opt h2.2.2⟩

/-- Strengthening a relation by what is known of the strings on the right. -/
theorem related_right {R S : Codec.Field → SV → SV → Prop} {p q : Parts SV} (hr : Related R p q)
    (h : ∀ fld a b, InField q fld b → R fld a b → S fld a b) : Related S p q := by
  have opt : ∀ {R S : SV → SV → Prop} {a b : Option SV}, Opt R a b → (∀ x y, b = some y → R x y → S x y) → Opt S a b := by
    intro R S a b h k
    cases h with
    | none => exact .none
    | some h => exact .some (k _ _ rfl h)
  have each : ∀ {R S : SV → SV → Prop} {a b : List SV}, Each R a b → (∀ x, ∀ y ∈ b, R x y → S x y) → Each S a b := by
    intro R S a b h
    induction h with
    | nil => intro _; exact .nil
    | cons h _ ih => intro k; exact .cons (k _ _ (by simp) h) (ih fun x y hy => k x y (by simp [hy]))
  obtain ⟨h1, h2, h3, h4, h5, h6⟩ := hr
  refine ⟨opt h1 fun x y hy => h .scheme x y hy, h2, each h3 fun x y hy => h .path x y hy, ?_, opt h5 fun x y hy => h .query x y hy,
    opt h6 fun x y hy => h .fragment x y hy⟩
  cases ha : q.authority with
  | none =>
    rw [ha] at h4
    cases hpa : p.authority with
    | none => exact .none
    | some a => rw [hpa] at h4; cases h4
  | some b =>
    rw [ha] at h4
    cases hpa : p.authority with
    | none => rw [hpa] at h4; cases h4
    | some a =>
      rw [hpa] at h4
      cases h4 with
      | some k =>
        exact .some ⟨opt k.1 fun x y hy => h .userinfo x y ⟨b, ha, hy⟩, h .host _ _ ⟨b, ha, rfl⟩ k.2.1,
          opt k.2.2 fun x y hy => h .port x y ⟨b, ha, hy⟩⟩

theorem ascii_utf8 {s : Str} (h : ∀ c ∈ s, c.toNat < 0x80) : IsUtf8 s (s.map UInt8.toNat) := by
  refine ⟨?_, ?_⟩
  · intro c hc
    obtain ⟨x, hx, rfl⟩ := List.mem_map.1 hc
    have := h x hx
    simp only [Scalar]; omega
  · induction s with
    | nil => rfl
    | cons c s ih =>
      rw [List.map_cons, List.flatMap_cons, ← ih fun d hd => h d (by simp [hd])]
      simp [utf8, h c (by simp)]

/-- `decode` of any value whose strings are the encodings of those of `p`. -/
theorem decode_back (hp : Heap) (store : Store) {p q : Parts SV} (hn : p.path.segments.length + 6 ≤ 2 ^ 32)
    (hrel : Related (fun fld v v' => Reversible fld v.chars ∧ (v'.ptr = 0 → v'.chars = []) ∧
      ((encSz fld v.chars = 0 ∧ v'.chars = v.chars) ∨ (encSz fld v.chars ≠ 0 ∧ v'.chars = encOut fld v.chars))) p q) :
    ∃ d st', decode hp store q = .ok (.ok d, st') ∧ d.text = p.text := by
  have hin : ∀ fld v', InField q fld v' → ∃ v, InField p fld v ∧ Reversible fld v.chars ∧ (v'.ptr = 0 → v'.chars = []) ∧
      ((encSz fld v.chars = 0 ∧ v'.chars = v.chars) ∨ (encSz fld v.chars ≠ 0 ∧ v'.chars = encOut fld v.chars)) :=
    fun fld v' hv => field_back hrel hv
  have hnq : q.path.segments.length + 6 ≤ 2 ^ 32 := by rw [each_length hrel.segments]; exact hn
  rcases decode_eq hp store (p := q) hnq (fun v hv => by
      obtain ⟨w, hw, hrw, -, he⟩ := hin .host v hv
      exact (round_field .host w.chars hrw v.chars he).1 rfl) with ⟨d, st', k1, _, _, k4, _⟩ | ⟨e, x, st', k1, hx, he⟩
  · refine ⟨d, st', k1, related_text ((hrel.comp k4).mono fun fld v w _ ⟨v', ⟨hr, h0, he⟩, hw⟩ => ?_)⟩
    obtain ⟨_, n, _, c1, c2⟩ := round_field fld v.chars hr v'.chars he
    rcases hw with ⟨rfl, b⟩ | ⟨_, a, b, _⟩
    · refine c1 ?_
      rcases b with b | b
      · rw [h0 b]; exact (sz_nil fld).2
      · exact b
    · rw [b]; exact c2 a
  · obtain ⟨_, hxin, _, _⟩ := mem_visits (p := q) hnq hx
    obtain ⟨w, hw, hrw, -, he'⟩ := hin x.fld x.v hxin
    obtain ⟨_, n, hn, _⟩ := round_field x.fld w.chars hrw x.v.chars he'
    rw [hn] at he; simp at he

theorem pct_out_length {s : Str} : (encOut .path s).length ≤ 3 * s.length := by
  have h1 := encP_length (encSetOf .path) s
  have h2 := List.countP_le_length (p := fun c => needsPctencodeB c (encSetOf .path)) (l := s)
  have h3 : encOut .path s = encP (encSetOf .path) s := by simp [encOut]
  rw [h3]; omega

theorem host_ascii {s : Str} (h : Abnf.HostAccepted s) : ∀ c ∈ s, c.toNat < 0x80 := by
  intro c hc
  have hm := (safe_host _ (hostAccepted_host h)).1 c hc
  have := forall_byte (P := fun c => decide (c ∈ Spec.uriChars → c.toNat < 0x80)) (by decide +kernel) c
  exact of_decide_eq_true this hm

theorem valid_reversible (pl : Plat) (p : Parts SV) (hv : p.valid pl = .ok true)
    (hh : ∀ a, p.authority = some a → NoAce a.host.chars ∧ a.host.chars.length ≤ 2 ^ 37) :
    ∀ fld v, InField p fld v → Reversible fld v.chars := by
  obtain ⟨-, hsch, hauth, -⟩ := C53_components pl p hv
  have ok := valid_sound hv
  intro fld v hin
  refine ⟨fun k => ?_, fun k => ?_⟩
  · rcases k with rfl | rfl
    · exact fun hm => hsch v hin _ hm (by decide)
    · obtain ⟨a, e1, e2⟩ := hin
      exact fun hm => absurd ((hauth a e1).2.2 v e2 _ hm) (by decide)
  · subst k
    obtain ⟨a, e1, e2⟩ := hin
    subst e2
    have hha := ok.host (a.map SV.chars) (by simp [Parts.text, Parts.map, e1])
    exact ⟨⟨_, ascii_utf8 (host_ascii hha)⟩, hh a e1⟩

/-- C61: a `valid()` value whose path has the shape section 3.3 demands and whose host has no label that already looks
encoded survives the whole way: encoded, composed, split and decoded, each with whatever store and allocator, it
compares equal to what it was.  The bounds are a third of 4 GiB for a path segment (see C02) and 2^37 for the host. -/
theorem C61_pipeline (pl : Plat) (hp : Heap) (store : Store) (p : Parts SV) (ptr : Nat)
    (hn : p.path.segments.length + 6 ≤ 2 ^ 32) (hlen : ∀ v ∈ p.path.segments, 3 * v.chars.length < 2 ^ 32)
    (hhl : ∀ a, p.authority = some a → a.host.chars.length ≤ 2 ^ 37)
    (hv : p.valid pl = .ok true) (hs : PathShape p.text) (hnull : ∀ v ∈ p.views, v.ptr = 0 → v.chars = [])
    (hh : ∀ a, p.authority = some a → NoAce a.host.chars) (hptr : ptr ≠ 0) :
    ∃ r st q, encode hp store p = .ok (r, st) ∧ split pl ⟨ptr, compose r⟩ = .ok (some q) ∧ Parts.eq q r = true ∧
      ∀ hp' store', ∃ d st', decode hp' store' q = .ok (.ok d, st') ∧ Parts.eq d p = true := by
  have hrev := valid_reversible pl p hv fun a ha => ⟨hh a ha, hhl a ha⟩
  obtain ⟨r, st, e1, hrv⟩ := C38_valid pl hp store p hn hhl hv
  obtain ⟨r', st', e1', -, -, h4⟩ := encode_eq hp store (p := p) hn (fun v ⟨a, h, h'⟩ => h' ▸ hhl a h)
  rw [e1] at e1'
  simp only [Except.ok.injEq, Prod.mk.injEq] at e1'
  obtain ⟨rfl, rfl⟩ := e1'
  have henc : Related (fun fld v v' => Reversible fld v.chars ∧
      ((encSz fld v.chars = 0 ∧ v'.chars = v.chars) ∨ (encSz fld v.chars ≠ 0 ∧ v'.chars = encOut fld v.chars))) p r := by
    refine h4.mono fun fld v v' hin hr => ⟨hrev fld v hin, ?_⟩
    rcases hr with ⟨rfl, b | b⟩ | ⟨_, a, b, _⟩
    · left
      have := hnull v' ((views_field p _).2 ⟨fld, hin⟩) b
      rw [this]; exact ⟨(sz_nil fld).1, rfl⟩
    · exact Or.inl ⟨b, rfl⟩
    · exact Or.inr ⟨a, b⟩
  -- the path keeps its shape
  have hne : ∀ fld (v v' : SV), Reversible fld v.chars → ((encSz fld v.chars = 0 ∧ v'.chars = v.chars) ∨ (encSz fld v.chars ≠ 0 ∧ v'.chars = encOut fld v.chars)) →
      (v'.chars = [] ↔ v.chars = []) := by
    intro fld v v' hr he
    constructor
    · intro h0
      obtain ⟨_, n, _, c1, _⟩ := round_field fld v.chars hr v'.chars he
      have := c1 (by rw [h0]; exact (sz_nil fld).2)
      rw [← this, h0]
    · intro h0
      rcases he with ⟨_, e⟩ | ⟨z, _⟩
      · rw [e, h0]
      · rw [h0] at z; exact absurd (sz_nil fld).1 z
  have hshape : PathShape r.text := by
    intro ha
    have hap : p.text.authority = none := by
      cases hpa : p.authority with
      | none => simp [Parts.text, Parts.map, hpa]
      | some a =>
        have := henc.authority
        rw [hpa] at this
        cases hra : r.authority with
        | none => rw [hra] at this; cases this
        | some b => simp [Parts.text, Parts.map, hra] at ha
    have h0 := hs hap
    have hab := henc.absolute
    have hsg := henc.segments
    revert h0 hab hsg
    simp only [Parts.text, Parts.map, Path.map]
    generalize p.path.absolute = x
    generalize r.path.absolute = y
    generalize p.path.segments = gs
    generalize r.path.segments = gs'
    intro h0 hab hsg
    subst hab
    cases hsg with
    | nil => exact h0
    | @cons v v' as bs h1 h2 =>
      have e := hne _ v v' h1.1 h1.2
      cases y with
      | true =>
        simp only [List.map_cons] at h0 ⊢
        rcases h0 with h0 | h0
        · exact Or.inl fun h => h0 (e.1 h)
        · refine Or.inr ?_
          cases h2 with
          | nil => rfl
          | cons => simp at h0
      | false =>
        simp only [List.map_cons] at h0 ⊢
        exact fun h => h0 (e.1 h)
  have hcount : Abnf.PathCounted r.text := by
    refine valid_counted hrv fun g' hg' => ?_
    obtain ⟨g, hg, hr⟩ := field_back h4 (show InField r .path g' from hg')
    have hl := hlen g hg
    rcases hr with ⟨rfl, -⟩ | ⟨-, -, b, -⟩
    · omega
    · have := (pct_out_length (s := g.chars)); rw [b]; omega
  obtain ⟨q, e2, heq⟩ := C06_split_compose pl r ptr hrv hshape hcount
  refine ⟨r, st, q, e1, e2, heq, fun hp' store' => ?_⟩
  have hq0 : ∀ v ∈ q.views, v.ptr = 0 → v.chars = [] := by
    intro v hv h0
    rcases C08_views_alias_input pl _ q (Or.inl e2) v hv with ⟨pre, post, _, h⟩ | ⟨rfl, _⟩
    · simp only at h; omega
    · rfl
  -- the same with the flag of `q`
  have hc := partsEq_iff.1 heq
  have htext : ({ r with path := { r.path with absolute := q.path.absolute } } : Parts SV).text = q.text := by
    obtain ⟨a1, a2, a3, a4, a5, -⟩ := hc
    simp only [Parts.text, Parts.map, Path.map] at *
    rw [a1, a2, a3, a4, a5]
  have hrel1 := related_of_text htext
  have henc' : Related (fun fld v v' => Reversible fld v.chars ∧
      ((encSz fld v.chars = 0 ∧ v'.chars = v.chars) ∨ (encSz fld v.chars ≠ 0 ∧ v'.chars = encOut fld v.chars)))
      ({ p with path := { p.path with absolute := q.path.absolute } } : Parts SV)
      ({ r with path := { r.path with absolute := q.path.absolute } } : Parts SV) :=
    ⟨henc.scheme, rfl, henc.segments, henc.authority, henc.query, henc.fragment⟩
  have hrel := henc'.comp hrel1
  have hq' := related_right hrel (S := fun fld v v' => Reversible fld v.chars ∧ (v'.ptr = 0 → v'.chars = []) ∧
      ((encSz fld v.chars = 0 ∧ v'.chars = v.chars) ∨ (encSz fld v.chars ≠ 0 ∧ v'.chars = encOut fld v.chars)))
    (fun fld v v' hin ⟨w, ⟨k1, k2⟩, k3⟩ => ⟨k1, hq0 v' ((views_field q v').2 ⟨fld, hin⟩), by rw [k3]; exact k2⟩)
  obtain ⟨d, st', k1, k2⟩ := decode_back hp' store' (p := ({ p with path := { p.path with absolute := q.path.absolute } } : Parts SV)) hn hq'
  refine ⟨d, st', k1, partsEq_iff.2 ?_⟩
  rw [k2]
  refine ⟨rfl, rfl, rfl, rfl, rfl, fun ha => ?_⟩
  show q.path.absolute = p.path.absolute
  have har : q.text.authority = none := by
    rw [hc.2.1]
    have ha' : p.text.authority = none := ha
    cases hpa : p.authority with
    | some a => simp [Parts.text, Parts.map, hpa] at ha'
    | none =>
      have := henc.authority
      rw [hpa] at this
      cases hra : r.authority with
      | none => simp [Parts.text, Parts.map, hra]
      | some b => rw [hra] at this; cases this
  have := hc.2.2.2.2.2 har
  exact this.trans henc.absolute

/-- C61 for what `split` returns: re-encoding, re-parsing and decoding a parsed URI gives it back. -/
theorem C61_pipeline_split (pl : Plat) (hp : Heap) (store : Store) (sv : SV) (p : Parts SV) (ptr : Nat)
    (e : split pl sv = .ok (some p)) (hsv : sv.ptr ≠ 0) (hlen : 3 * sv.chars.length + 6 < 2 ^ 32)
    (hh : ∀ a, p.authority = some a → NoAce a.host.chars) (hptr : ptr ≠ 0) :
    ∃ r st q, encode hp store p = .ok (r, st) ∧ split pl ⟨ptr, compose r⟩ = .ok (some q) ∧ Parts.eq q r = true ∧
      ∀ hp' store', ∃ d st', decode hp' store' q = .ok (.ok d, st') ∧ compose d = sv.chars := by
  have hsp := split_spec e
  have hview : ∀ v ∈ p.views, v.chars.length ≤ sv.chars.length ∧ (v.ptr = 0 → v.chars = []) := by
    intro v hv
    rcases C08_views_alias_input pl sv p (Or.inl e) v hv with ⟨pre, post, h1, h2⟩ | ⟨rfl, _⟩
    · refine ⟨by rw [h1]; simp; omega, fun h => by omega⟩
    · exact ⟨by simp [SV.null], fun _ => rfl⟩
  have hseg : p.path.segments.length ≤ sv.chars.length + 1 := by
    have h1 := C05_compose_split pl sv p (Or.inl e)
    have h2 : p.path.toStr.length ≤ sv.chars.length := by
      rw [← h1]; simp only [compose, List.length_append]; omega
    have h3 : ∀ gs : List Str, gs.length ≤ (Abnf.slashes gs).length := by
      intro gs
      induction gs with
      | nil => simp
      | cons g gs ih => rw [slashes_cons]; simp; omega
    rw [toStr_text] at h2
    have h4 : p.path.segments.length ≤ (pathText (p.path.map SV.chars)).length + 1 := by
      obtain ⟨ab, gs⟩ := p.path
      cases gs with
      | nil => simp
      | cons g gs =>
        simp only [pathText, Path.map, List.map_cons, List.length_append, List.length_cons]
        have := h3 (gs.map SV.chars)
        simp only [List.length_map] at this
        omega
    omega
  obtain ⟨r, st, q, h1, k1, k2, k3⟩ := C61_pipeline pl hp store p ptr (by omega)
    (fun v hv => by have := (hview v ((views_field p v).2 ⟨.path, hv⟩)).1; omega)
    (fun a ha => by have := (hview a.host ((views_field p _).2 ⟨.host, a, ha, rfl⟩)).1; omega)
    (C07_split_valid pl sv p e) (derives_shape (Or.inl hsp.1)) (fun v hv => (hview v hv).2) hh hptr
  refine ⟨r, st, q, h1, k1, k2, fun hp' store' => ?_⟩
  obtain ⟨d, st', j1, j2⟩ := k3 hp' store'
  exact ⟨d, st', j1, by rw [C14_compose_congr d p j2, C05_compose_split pl sv p (Or.inl e)]⟩

/-- The hypotheses hold of a URI with every component and percent-encoded octets in it. -/
example : ∃ p, split x86 ⟨4096, b! "http://u%40@h.example:8/a%2Fb/c?q=%25#f"⟩ = .ok (some p) ∧
    (∀ a, p.authority = some a → NoAce a.host.chars) := by
  obtain ⟨p, e, h⟩ := run_text (x := split x86 ⟨4096, b! "http://u%40@h.example:8/a%2Fb/c?q=%25#f"⟩)
    (p := ⟨some (b! "http"), some ⟨some (b! "u%40"), b! "h.example", some (b! "8")⟩, ⟨true, [b! "a%2Fb", b! "c"]⟩, some (b! "q=%25"), some (b! "f")⟩)
    (by decide +kernel)
  refine ⟨p, e, fun a ha => ?_⟩
  have h' := congrArg Parts.authority h
  simp only [Parts.text, Parts.map, ha, Option.map_some, Option.some.injEq] at h'
  have hx : a.host.chars = b! "h.example" := congrArg Authority.host h'
  rw [hx]
  intro ls hls l hl _
  have := Codec.Labels.unique hls (⟨by simp, by decide, rfl⟩ : Labels 0x2E (b! "h.example") [b! "h", b! "example"])
  subst this
  simp at hl
  rcases hl with rfl | rfl <;> decide

end Verif
