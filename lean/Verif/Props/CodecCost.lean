import Verif.Proofs.CodecBound
import Verif.Proofs.PartsField
import Verif.Props.PartsCodec

/-!
# C87: how long `encode` and `decode` of parts take

`Cost.Codec.encode` and `Cost.Codec.decode` count the steps of `uri::encode` and `uri::decode`; see
`Verif/Model/CodecCost.lean` for what a step is.
-/

set_option linter.unusedSimpArgs false

namespace Verif
open Codec (Heap Store)

/-- The size of a parts value: for each string its length and one more. -/
def Parts.size (p : Parts SV) : Nat := (p.views.map fun v => v.chars.length + 1).sum

/-- The length of the host name; 0 without authority. -/
def Parts.hostLength (p : Parts SV) : Nat := (p.authority.toList.map fun a => a.host.chars.length).sum

/-- C87: the counting versions compute what `encode` and `decode` compute. -/
theorem C87_results (hp : Heap) (store : Store) (p : Parts SV) :
    (Cost.Codec.encode hp store p).1 = Codec.encode hp store p ∧ (Cost.Codec.decode hp store p).1 = Codec.decode hp store p :=
  ⟨Cost.Codec.codec_encode_fst hp store p, Cost.Codec.codec_decode_fst hp store p⟩

namespace Cost.Codec
open Verif.Codec (Heap Store CpIter Field EncSize DecSize encSetOf bitPos setBit entry check fieldLast isNotDot idnaPrefix Stands cpBegin)

/-! ### The first pass changes nothing -/

section
variable {σ : Type} {f : SV → Nat → Field → σ → CM (SV × σ)}

theorem visit_same (h : ∀ v i fld st r, (f v i fld st).1 = .ok r → r.1 = v) {fld : Field} {v : SV} {st : σ} {r : SV × σ}
    (e : (visit f fld v st).1 = .ok r) : r.1 = v := by
  unfold visit at e
  rw [tick_fst] at e
  split at e
  · exact h _ _ _ _ _ e
  · cases e; rfl

theorem visitOpt_same (h : ∀ v i fld st r, (f v i fld st).1 = .ok r → r.1 = v) {fld : Field} {v : Option SV} {st : σ} {r : Option SV × σ}
    (e : (visitOpt f fld v st).1 = .ok r) : r.1 = v := by
  cases v with
  | none => cases e; rfl
  | some v =>
    obtain ⟨q, e1, e2, -⟩ := andThen_inv (show (andThen (visit f fld v st) fun r => ret (.ok (some r.1, r.2))).1 = .ok r from e)
    cases e2
    rw [visit_same h e1]

theorem visitSegments_same (h : ∀ v i fld st r, (f v i fld st).1 = .ok r → r.1 = v) : ∀ {vs : List SV} {n : Nat} {st : σ} {r : List SV × σ},
    (visitSegments f vs n st).1 = .ok r → r.1 = vs
  | [], _, _, _, e => by cases e; rfl
  | v :: vs, n, st, r, e => by
      unfold visitSegments at e
      rw [tick_fst] at e
      split at e
      · obtain ⟨q, e1, e2, -⟩ := andThen_inv e
        obtain ⟨t, e3, e4, -⟩ := andThen_inv e2
        cases e4
        rw [h _ _ _ _ _ e1, visitSegments_same h e3]
      · obtain ⟨t, e3, e4, -⟩ := andThen_inv e
        cases e4
        rw [visitSegments_same h e3]

theorem visitAuthority_same (h : ∀ v i fld st r, (f v i fld st).1 = .ok r → r.1 = v) {a : Option (Authority SV)} {st : σ}
    {r : Option (Authority SV) × σ} (e : (visitAuthority f a st).1 = .ok r) : r.1 = a := by
  cases a with
  | none => cases e; rfl
  | some a =>
    unfold visitAuthority at e
    simp only [tick_fst] at e
    obtain ⟨u, e1, e2, -⟩ := andThen_inv e
    obtain ⟨w, e3, e4, -⟩ := andThen_inv e2
    obtain ⟨t, e5, e6, -⟩ := andThen_inv e4
    cases e6
    rw [visitOpt_same h e1, visit_same h e3, visitOpt_same h e5]

theorem partsStrings_same (h : ∀ v i fld st r, (f v i fld st).1 = .ok r → r.1 = v) {p : Parts SV} {st : σ}
    {r : Parts SV × σ} (e : (partsStrings f p st).1 = .ok r) : r.1 = p := by
  unfold partsStrings at e
  rw [tick_fst] at e
  obtain ⟨s, e1, e2, -⟩ := andThen_inv e
  obtain ⟨g, e3, e4, -⟩ := andThen_inv e2
  obtain ⟨a, e5, e6, -⟩ := andThen_inv e4
  obtain ⟨q, e7, e8, -⟩ := andThen_inv e6
  obtain ⟨t, e9, e10, -⟩ := andThen_inv e8
  cases e10
  simp only
  rw [visitOpt_same h e1, visitSegments_same h e3, visitAuthority_same h e5, visitOpt_same h e7, visitOpt_same h e9]

end

theorem encodeSize_same (v : SV) (i : Nat) (fld : Field) (st : EncSize) (r : SV × EncSize) (e : (encodeSize v i fld st).1 = .ok r) : r.1 = v := by
  unfold encodeSize at e
  rw [tick_fst] at e
  obtain ⟨_, _, e1, _⟩ := andThen_inv e
  obtain ⟨_, _, e2, _⟩ := andThen_inv e1
  cases e2; rfl

theorem decodeSize_same (v : SV) (i : Nat) (fld : Field) (st : DecSize) (r : SV × DecSize) (e : (decodeSize v i fld st).1 = .ok r) : r.1 = v := by
  unfold decodeSize at e
  rw [tick_fst] at e
  obtain ⟨_, _, e, _⟩ := andThen_inv e
  cases hs : st.error with
  | some x => rw [hs] at e; cases e; rfl
  | none =>
    rw [hs] at e
    obtain ⟨q, -, e, -⟩ := andThen_inv e
    cases q <;> (cases e; rfl)

/-! ### Adding up -/

theorem optSteps_le {b : Field → SV → Nat} {K : Nat} {fld : Field} (h : ∀ v, b fld v + 1 ≤ K * (v.chars.length + 1)) (v : Option SV) :
    optSteps b fld v ≤ K * (v.toList.map fun v => v.chars.length + 1).sum := by
  cases v with
  | none => simp [optSteps]
  | some v => have := h v; simp [optSteps]; omega

theorem segSteps_le {b : Field → SV → Nat} {K : Nat} {fld : Field} (h : ∀ v, b fld v + 1 ≤ K * (v.chars.length + 1)) : ∀ vs : List SV,
    (vs.map fun v => b fld v + 1).sum ≤ K * (vs.map fun v => v.chars.length + 1).sum
  | [] => by simp
  | v :: vs => by
      have h1 := segSteps_le h vs
      have h2 := h v
      simp only [List.map_cons, List.sum_cons, Nat.mul_add K (v.chars.length + 1)]
      omega

/-- What is not the host adds up to a multiple of the size. -/
theorem partsSteps_le {b : Field → SV → Nat} {K : Nat} (h : ∀ fld v, fld ≠ .host → b fld v + 1 ≤ K * (v.chars.length + 1)) (p : Parts SV) :
    partsSteps b p ≤ K * p.size + (p.authority.toList.map fun a => b .host a.host).sum := by
  have h1 := optSteps_le (h .scheme · (by decide)) p.scheme
  have h2 := optSteps_le (h .query · (by decide)) p.query
  have h3 := optSteps_le (h .fragment · (by decide)) p.fragment
  have h4 := segSteps_le (h .path · (by decide)) p.path.segments
  unfold partsSteps Parts.size Parts.views
  cases ha : p.authority with
  | none =>
    simp only [authSteps, Option.toList_none, List.map_nil, List.sum_nil, List.append_nil, List.map_append, List.sum_append, Nat.mul_add]
    omega
  | some a =>
    have h5 := optSteps_le (h .userinfo · (by decide)) a.userinfo
    have h6 := optSteps_le (h .port · (by decide)) a.port
    simp only [authSteps, Option.toList_some, List.map_cons, List.map_nil, List.sum_cons, List.sum_nil, List.map_append, List.sum_append, Nat.mul_add]
    omega

theorem encode_le (hp : Heap) (store : Store) (p : Parts SV) (b1 b2 : Field → SV → Nat)
    (h1 : ∀ st, (partsStrings encodeSize p st).2 ≤ 8 + partsSteps b1 p) (h2 : ∀ bits st, (partsStrings (encodeWrite hp bits) p st).2 ≤ 8 + partsSteps b2 p) :
    (encode hp store p).2 ≤ 17 + partsSteps b1 p + partsSteps b2 p := by
  unfold encode
  rw [tick_snd]
  have : (andThen (partsStrings encodeSize p ⟨0, fun _ => false⟩) fun a =>
      andThen (partsStrings (encodeWrite hp a.2.bits) a.1 (store.clear.reserve hp a.2.required)) fun b =>
      andThen (ret (check (a.2.required == b.2.chars.length))) fun _ => ret (.ok (b.1, b.2))).2 ≤
      (8 + partsSteps b1 p) + ((8 + partsSteps b2 p) + 0) := by
    refine andThen_le (h1 _) fun a ha => andThen_le ?_ fun b _ => andThen_le (a := 0) (c := 0) (Nat.le_refl _) fun _ _ => Nat.le_refl _
    rw [partsStrings_same encodeSize_same ha]
    exact h2 _ _
  omega

theorem decode_le (hp : Heap) (store : Store) (p : Parts SV) (b1 b2 : Field → SV → Nat)
    (h1 : ∀ st, (partsStrings decodeSize p st).2 ≤ 8 + partsSteps b1 p) (h2 : ∀ bits st, (partsStrings (decodeWrite hp bits) p st).2 ≤ 8 + partsSteps b2 p) :
    (decode hp store p).2 ≤ 17 + partsSteps b1 p + partsSteps b2 p := by
  unfold decode
  rw [tick_snd]
  refine Nat.le_trans (Nat.add_le_add_left (andThen_le (c := 8 + partsSteps b2 p) (h1 _) fun a ha => ?_) 1) (by omega)
  cases a.2.error with
  | some e => exact Nat.zero_le _
  | none =>
    refine andThen_le (c := 0) ?_ fun b _ => andThen_le (a := 0) (c := 0) (Nat.le_refl _) fun _ _ => Nat.le_refl _
    rw [partsStrings_same decodeSize_same ha]
    exact h2 _ _

/-- Everything but the host name is linear; three passes over the host name. -/
theorem encode_host (hp : Heap) (store : Store) (p : Parts SV) {H : Str → Nat} (hH : ∀ s, (punyEncoded s).2 ≤ H s) :
    (encode hp store p).2 ≤ 19 + 15 * p.size + 3 * (p.authority.toList.map fun a => H a.host.chars).sum := by
  have h := encode_le hp store p (encSizeSteps H) (encWriteSteps H) (fun st => partsStrings_steps (encodeSize_steps hH) p st)
    (fun bits st => partsStrings_steps (encodeWrite_steps hH hp bits) p st)
  have h1 := partsSteps_le (b := encSizeSteps H) (K := 5) (fun fld v hf => by simp only [encSizeSteps, hf, if_false]; omega) p
  have h2 := partsSteps_le (b := encWriteSteps H) (K := 10) (fun fld v hf => by simp only [encWriteSteps, hf, if_false]; omega) p
  cases ha : p.authority with
  | none =>
    rw [ha] at h1 h2
    simp only [Option.toList_none, List.map_nil, List.sum_nil] at *
    omega
  | some a =>
    rw [ha] at h1 h2
    simp only [Option.toList_some, List.map_cons, List.map_nil, List.sum_cons, List.sum_nil, Nat.add_zero, encSizeSteps, encWriteSteps, if_true] at *
    omega

/-- As `encode_host`, with two passes. -/
theorem decode_host (hp : Heap) (store : Store) (p : Parts SV) {H : Str → Nat} (hH : ∀ s, (punyDecoded s).2 ≤ H s) :
    (decode hp store p).2 ≤ 19 + 12 * p.size + 2 * (p.authority.toList.map fun a => H a.host.chars).sum := by
  have h := decode_le hp store p (decSizeSteps H) (decWriteSteps H) (fun st => partsStrings_steps (decodeSize_steps hH) p st)
    (fun bits st => partsStrings_steps (decodeWrite_steps hH hp bits) p st)
  have h1 := partsSteps_le (b := decSizeSteps H) (K := 5) (fun fld v hf => by simp only [decSizeSteps, hf, if_false]; omega) p
  have h2 := partsSteps_le (b := decWriteSteps H) (K := 7) (fun fld v hf => by simp only [decWriteSteps, hf, if_false]; omega) p
  cases ha : p.authority with
  | none =>
    rw [ha] at h1 h2
    simp only [Option.toList_none, List.map_nil, List.sum_nil] at *
    omega
  | some a =>
    rw [ha] at h1 h2
    simp only [Option.toList_some, List.map_cons, List.map_nil, List.sum_cons, List.sum_nil, Nat.add_zero, decSizeSteps, decWriteSteps, if_true] at *
    omega

theorem host_le_size {p : Parts SV} {a : Authority SV} (ha : p.authority = some a) : a.host.chars.length + 1 ≤ p.size := by
  unfold Parts.size Parts.views
  rw [ha]
  simp only [List.map_append, List.sum_append, List.map_cons, List.map_nil, List.sum_cons, List.sum_nil]
  omega

theorem le_andThen {β γ : Type} (x : CM β) (f : β → CM γ) : x.2 ≤ (andThen x f).2 := by
  cases h : x.1 with
  | error e => rw [andThen_error h]; exact Nat.le_refl _
  | ok b => rw [andThen_ok h]; exact Nat.le_add_right _ _

theorem le_andThen_ok {β γ : Type} {x : CM β} {f : β → CM γ} {b : β} (h : x.1 = .ok b) : (f b).2 ≤ (andThen x f).2 := by
  rw [andThen_ok h]; exact Nat.le_add_left _ _

theorem takeWhile_same {α : Type} {p : α → Bool} : ∀ {l : List α}, (∀ c ∈ l, p c = true) → l.takeWhile p = l
  | [], _ => rfl
  | c :: l, h => by
      rw [List.takeWhile_cons, if_pos (h c (List.mem_cons_self ..)), takeWhile_same fun d hd => h d (List.mem_cons_of_mem _ hd)]

/-- A value that has a host and nothing else. -/
abbrev onlyHost (v : SV) : Parts SV := ⟨none, some ⟨none, v, none⟩, ⟨false, []⟩, none, none⟩

theorem partsStrings_host {σ : Type} (f : SV → Nat → Field → σ → CM (SV × σ)) (v : SV) (hv : v.ptr ≠ 0) (st : σ) :
    (f v 0 .host st).2 ≤ (partsStrings f (onlyHost v) st).2 := by
  have h1 : (visit f .host v st).2 = 1 + (f v 0 .host st).2 := by unfold visit; rw [tick_snd, if_pos hv]
  have h2 : (visit f .host v st).2 ≤ (visitAuthority f (some ⟨none, v, none⟩) st).2 := by
    unfold visitAuthority
    rw [tick_snd]
    refine Nat.le_trans ?_ (Nat.le_add_left _ _)
    refine Nat.le_trans ?_ (le_andThen_ok (b := (none, st)) rfl)
    exact le_andThen _ _
  unfold partsStrings
  rw [tick_snd]
  refine Nat.le_trans ?_ (Nat.le_add_left _ _)
  refine Nat.le_trans ?_ (le_andThen_ok (b := (none, st)) rfl)
  refine Nat.le_trans ?_ (le_andThen_ok (b := ([], st)) rfl)
  refine Nat.le_trans ?_ (le_andThen _ _)
  exact Nat.le_trans (by omega) h2

theorem encode_onlyHost (hp : Heap) (store : Store) (v : SV) (hv : v.ptr ≠ 0) : (punyEncoded v.chars).2 ≤ (encode hp store (onlyHost v)).2 := by
  unfold encode
  rw [tick_snd]
  refine Nat.le_trans ?_ (Nat.le_add_left _ _)
  refine Nat.le_trans ?_ (le_andThen _ _)
  refine Nat.le_trans ?_ (partsStrings_host _ v hv _)
  unfold encodeSize
  rw [tick_snd]
  refine Nat.le_trans ?_ (Nat.le_add_left _ _)
  refine Nat.le_trans ?_ (le_andThen_ok (b := ()) (by simp [entry, hv]))
  refine Nat.le_trans ?_ (le_andThen _ _)
  exact le_andThen _ _

theorem decode_onlyHost (hp : Heap) (store : Store) (v : SV) (hv : v.ptr ≠ 0) : (punyDecoded v.chars).2 ≤ (decode hp store (onlyHost v)).2 := by
  unfold decode
  rw [tick_snd]
  refine Nat.le_trans ?_ (Nat.le_add_left _ _)
  refine Nat.le_trans ?_ (le_andThen _ _)
  refine Nat.le_trans ?_ (partsStrings_host _ v hv _)
  unfold decodeSize
  rw [tick_snd]
  refine Nat.le_trans ?_ (Nat.le_add_left _ _)
  refine Nat.le_trans ?_ (le_andThen_ok (b := ()) (by simp [entry, hv]))
  refine Nat.le_trans ?_ (le_andThen _ _)
  exact le_andThen _ _

end Cost.Codec

open Cost Cost.Codec in
/-- **C87**: `encode` takes time linear in the size of the strings, and quadratic in the length of the host name. -/
theorem C87_encode (hp : Heap) (store : Store) (p : Parts SV) :
    (Cost.Codec.encode hp store p).2 ≤ 15 * p.size + 96 * ((p.hostLength + 8) * (p.hostLength + 8)) := by
  have h := encode_host hp store p punyEncoded_steps
  have e : ∀ n : Nat, (n + 8) * (n + 8) = n * n + 16 * n + 64 := fun n => by rw [Nat.add_mul, Nat.mul_add]; omega
  unfold Parts.hostLength
  cases ha : p.authority with
  | none =>
    rw [ha] at h
    simp only [Option.toList_none, List.map_nil, List.sum_nil] at h ⊢
    omega
  | some a =>
    rw [ha] at h
    simp only [Option.toList_some, List.map_cons, List.map_nil, List.sum_cons, List.sum_nil, Nat.add_zero] at h ⊢
    generalize a.host.chars.length = n at h ⊢
    have hq : quad (4 * n + 9) = 32 * (n * n) + 456 * n + 864 := by
      unfold quad
      have : (4 * n + 9) * (4 * n + 9) = 16 * (n * n) + 72 * n + 81 := by
        rw [Nat.add_mul, Nat.mul_add, Nat.mul_mul_mul_comm]; omega
      omega
    rw [hq] at h
    rw [e]
    refine Nat.le_trans h ?_
    generalize n * n = m
    generalize p.size = k
    clear h hq e
    omega

open Cost Cost.Codec in
/-- **C87**: so does `decode`. -/
theorem C87_decode (hp : Heap) (store : Store) (p : Parts SV) :
    (Cost.Codec.decode hp store p).2 ≤ 12 * p.size + 2 * ((p.hostLength + 18) * (p.hostLength + 18)) := by
  have h := decode_host hp store p punyDecoded_steps
  have e : ∀ n : Nat, (n + 18) * (n + 18) = n * n + 36 * n + 324 := fun n => by rw [Nat.add_mul, Nat.mul_add]; omega
  unfold Parts.hostLength
  cases ha : p.authority with
  | none =>
    rw [ha] at h
    simp only [Option.toList_none, List.map_nil, List.sum_nil] at h ⊢
    omega
  | some a =>
    rw [ha] at h
    simp only [Option.toList_some, List.map_cons, List.map_nil, List.sum_cons, List.sum_nil, Nat.add_zero] at h ⊢
    generalize a.host.chars.length = n at h ⊢
    have hq : quadD (n + 1) = n * n + 35 * n + 34 := by
      unfold quadD
      have : (n + 1) * (n + 1) = n * n + 2 * n + 1 := by rw [Nat.add_mul, Nat.mul_add]; omega
      omega
    rw [hq] at h
    rw [e]
    omega

open Cost Cost.Codec in
/-- **C87**: without authority, or with a host name in ASCII, `encode` takes linear time. -/
theorem C87_encode_ascii (hp : Heap) (store : Store) (p : Parts SV) (h : ∀ a, p.authority = some a → ∀ c ∈ a.host.chars, c.toNat < 0x80) :
    (Cost.Codec.encode hp store p).2 ≤ 66 * p.size + 82 := by
  have hH : ∀ s : Str, (punyEncoded s).2 ≤ if ∀ c ∈ s, c.toNat < 0x80 then 17 * s.length + 38 else s.length + 2 + quad (4 * s.length + 9) := by
    intro s
    split
    · exact punyEncoded_ascii s ‹_›
    · exact punyEncoded_steps s
  have h1 := encode_host hp store p hH
  cases ha : p.authority with
  | none =>
    rw [ha] at h1
    simp only [Option.toList_none, List.map_nil, List.sum_nil] at *
    omega
  | some a =>
    have h2 := host_le_size ha
    rw [ha] at h1
    simp only [Option.toList_some, List.map_cons, List.map_nil, List.sum_cons, List.sum_nil, Nat.add_zero, if_pos (h a ha)] at h1
    omega

open Cost Cost.Codec in
/-- **C87**: without authority, or with a host name in which "xn--" does not occur, `decode` takes linear time. -/
theorem C87_decode_plain (hp : Heap) (store : Store) (p : Parts SV) (h : ∀ a, p.authority = some a → ¬ (b! "xn--") <:+: a.host.chars) :
    (Cost.Codec.decode hp store p).2 ≤ 28 * p.size + 19 := by
  have hH : ∀ s : Str, (punyDecoded s).2 ≤ if (b! "xn--") <:+: s then quadD (s.length + 1) else 8 * (s.length + 1) := by
    intro s
    split
    · exact punyDecoded_steps s
    · exact punyDecoded_plain s ‹_›
  have h1 := decode_host hp store p hH
  cases ha : p.authority with
  | none =>
    rw [ha] at h1
    simp only [Option.toList_none, List.map_nil, List.sum_nil] at *
    omega
  | some a =>
    have h2 := host_le_size ha
    rw [ha] at h1
    simp only [Option.toList_some, List.map_cons, List.map_nil, List.sum_cons, List.sum_nil, Nat.add_zero, if_neg (h a ha)] at h1
    omega

open Cost Cost.Codec in
/-- C87: a host name of n different characters that are not ASCII takes n² steps to encode. -/
theorem C87_encode_quadratic (hp : Heap) (store : Store) (v : SV) (hv : v.ptr ≠ 0) (cs : List Nat) (h1 : Unicode.IsUtf8 v.chars cs) (h2 : cs.Nodup)
    (h3 : ∀ c ∈ cs, 0x80 ≤ c) (h4 : cs.length ≤ 2 ^ 37) :
    cs.length * cs.length ≤ (Cost.Codec.encode hp store ⟨none, some ⟨none, v, none⟩, ⟨false, []⟩, none, none⟩).2 := by
  refine Nat.le_trans ?_ (encode_onlyHost hp store v hv)
  obtain ⟨it, out, e1, hr, hst, hl, hsc⟩ := Verif.Codec.cpBegin_stands v.chars
  have ho : out = cs := Verif.Codec.reads_unique hr (Verif.Codec.isUtf8_reads h1)
  subst ho
  have hx : (viewBegin Icu.t8_32 Icu.maxOut32 v.chars).1 = .ok it := by rw [viewBegin_fst]; exact e1
  unfold Cost.Codec.punyEncoded
  refine Nat.le_trans ?_ (le_andThen_ok hx)
  unfold Cost.Codec.punyEncodedLoop
  rw [tick_snd]
  refine Nat.le_trans ?_ (Nat.le_add_left _ _)
  obtain ⟨it1, e2, -⟩ := Verif.Codec.labelLoop_eq (v.chars.length + 1) it out hst (by omega)
  have ht : out.takeWhile Verif.Codec.isNotDot = out := by
    refine takeWhile_same fun c hc => ?_
    have := h3 c hc
    simp [Verif.Codec.isNotDot]; omega
  rw [ht] at e2
  refine Nat.le_trans ?_ (le_andThen_ok (b := (out, it1)) (by rw [labelLoop_fst, e2]))
  rw [tick_snd]
  refine Nat.le_trans ?_ (Nat.le_add_left _ _)
  refine Nat.le_trans ?_ (le_andThen _ _)
  exact C66_encode_quadratic out true h2 h3 (Verif.Codec.punyInput_of hsc h4)

open Cost Cost.Codec in
/-- C87: and a host name of 2 * L + 5 characters can take L² steps to decode. -/
theorem C87_decode_quadratic (hp : Heap) (store : Store) (ptr : Nat) (hv : ptr ≠ 0) (L : Nat) (h1 : L ≠ 0) (h2 : L < 2 ^ 62) :
    L * L ≤ (Cost.Codec.decode hp store ⟨none, some ⟨none, ⟨ptr, b! "xn--" ++ List.replicate L 0x61 ++ 0x62 :: List.replicate L 0x61⟩, none⟩, ⟨false, []⟩, none, none⟩).2 := by
  refine Nat.le_trans ?_ (decode_onlyHost hp store ⟨ptr, b! "xn--" ++ List.replicate L 0x61 ++ 0x62 :: List.replicate L 0x61⟩ hv)
  have hs : (b! "xn--" ++ List.replicate L 0x61 ++ 0x62 :: List.replicate L 0x61 : Str).takeWhile (fun c => Verif.Codec.isNotDot c.toNat) =
      b! "xn--" ++ (List.replicate L 0x61 ++ 0x62 :: List.replicate L 0x61) := by
    rw [List.append_assoc]
    refine takeWhile_same fun c hc => ?_
    simp only [List.mem_append, List.mem_cons, List.mem_replicate] at hc
    rcases hc with hc | ⟨-, rfl⟩ | rfl | ⟨-, rfl⟩
    · rcases hc with rfl | rfl | rfl | rfl | h
      all_goals first | decide | cases h
    all_goals decide
  unfold Cost.Codec.punyDecoded Cost.Codec.punyDecodedLoop
  rw [tick_snd, hs]
  refine Nat.le_trans ?_ (Nat.le_add_left _ _)
  have hst : startsWith (· == ·) id id (b! "xn--" ++ (List.replicate L 0x61 ++ 0x62 :: List.replicate L 0x61) : Str) Verif.Codec.idnaPrefix = true :=
    (Verif.Codec.starts_iff _).2 ⟨_, rfl⟩
  rw [if_pos hst]
  refine Nat.le_trans ?_ (le_andThen _ _)
  exact (C66_decode_quadratic false L h1 h2).2

/-! ### Cases -/

/-- `http://bücher.example/a b` -/
abbrev costUrl : Parts SV := ⟨some ⟨1, b! "http"⟩, some ⟨none, ⟨8, bucher⟩, none⟩, ⟨true, [⟨24, b! "a b"⟩]⟩, none, none⟩

example : costUrl.size = 25 ∧ costUrl.hostLength = 15 := by decide
example : (Cost.Codec.encode heap0 store0 costUrl).2 = 474 := by decide +kernel
example : (Cost.Codec.decode heap0 store0 ⟨none, some ⟨none, ⟨7, b! "xn--bcher-kva.example"⟩, none⟩, ⟨false, []⟩, none, none⟩).2 = 203 := by
  decide +kernel
/-- `C87_encode_quadratic` applies: "éàü". -/
example : Unicode.IsUtf8 [0xC3, 0xA9, 0xC3, 0xA0, 0xC3, 0xBC] [0xE9, 0xE0, 0xFC] ∧ [0xE9, 0xE0, 0xFC].Nodup ∧ (∀ c ∈ [0xE9, 0xE0, 0xFC], 0x80 ≤ c) ∧
    ([0xE9, 0xE0, 0xFC] : List Nat).length ≤ 2 ^ 37 := ⟨⟨by decide, by decide⟩, by decide, by decide, by decide⟩
/-- `C87_encode_ascii` and `C87_decode_plain` apply. -/
example : (∀ c ∈ b! "example.com", c.toNat < 0x80) ∧ ¬ (b! "xn--") <:+: (b! "example.com") := by decide

end Verif
