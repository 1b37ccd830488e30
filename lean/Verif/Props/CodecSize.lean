import Verif.Props.PartsCodec
import Verif.Props.Pipeline

/-!
# C96: how much longer encoding and decoding can make a URI
-/

namespace Verif
open Codec PctSpec PartsSpec
set_option linter.unusedSimpArgs false

/-! ### Specification -/

/-- The number of characters of a string that may be absent. -/
def optSize : Option SV → Nat
  | none => 0
  | some v => v.chars.length

/-- The number of characters of the host. -/
def hostSize (p : Parts SV) : Nat :=
  match p.authority with
  | none => 0
  | some a => a.host.chars.length

/-- The number of characters of all other components. -/
def otherSize (p : Parts SV) : Nat :=
  optSize p.scheme + (p.path.segments.map fun v => v.chars.length).sum +
    (match p.authority with
      | none => 0
      | some a => optSize a.userinfo + optSize a.port) + optSize p.query + optSize p.fragment

/-- Every string of `r` is at most so many times as long as the string of `p` it stands for. -/
def Grows (others host : Nat) (p r : Parts SV) : Prop :=
  Related (fun fld v v' => (fld ≠ .host → v'.chars.length ≤ others * v.chars.length) ∧ (fld = .host → v'.chars.length ≤ host * v.chars.length)) p r

/-! ### Punycode -/

theorem threshold_bounds (k bias : Nat) : 1 ≤ Rfc3492.threshold k bias ∧ Rfc3492.threshold k bias ≤ 26 := by
  unfold Rfc3492.threshold
  split
  · omega
  · split <;> omega

theorem vli_digits {bias k : Nat} {ds : List Nat} {v : Nat} (h : Rfc3492.Vli bias k ds v) : ∀ j, v < 10 ^ j → ds.length ≤ j + 1 := by
  induction h with
  | last _ => intro j _; simp
  | @more k d ds v h1 h2 h3 ih =>
    intro j hj
    obtain ⟨ht, ht'⟩ := threshold_bounds k bias
    have hm : 10 * v ≤ (36 - Rfc3492.threshold k bias) * v := Nat.mul_le_mul_right _ (by omega)
    cases j with
    | zero => simp at hj; omega
    | succ j =>
      rw [Nat.pow_succ] at hj
      have := ih j (by omega)
      simp only [List.length_cons]; omega

theorem vli_pos {bias k : Nat} {ds : List Nat} {v : Nat} (h : Rfc3492.Vli bias k ds v) : 1 ≤ ds.length := by
  cases h <;> simp

theorem spells_length {t : Str} {ds : List Nat} (h : Rfc3492.Spells t ds) : t.length = ds.length := by
  induction h with
  | nil => rfl
  | cons _ _ ih => simp [ih]

theorem inserted_length (l : List Nat) (pos c : Nat) (h : pos ≤ l.length) : (Rfc3492.inserted l pos c).length = l.length + 1 := by
  simp [Rfc3492.inserted, List.length_take, List.length_drop]; omega

theorem inserted_count (l : List Nat) (pos c : Nat) (q : Nat → Bool) : (Rfc3492.inserted l pos c).countP q = l.countP q + (if q c then 1 else 0) := by
  have : l.countP q = (l.take pos).countP q + (l.drop pos).countP q := by rw [← List.countP_append, List.take_append_drop]
  simp only [Rfc3492.inserted, List.countP_append, List.countP_cons, this]
  omega

/-- What the decoder's loop reads, against what it inserts. -/
theorem run_size {bias n i : Nat} {out : List Nat} {text : Str} {final : List Nat} (h : Rfc3492.Run bias n i out text final) (j : Nat)
    (hc : ∀ c ∈ final, c < 0x110000) (hj : 0x110000 * final.length ≤ 10 ^ j) (hn : 0x80 ≤ n) :
    out.length ≤ final.length ∧ final.length - out.length ≤ text.length ∧ text.length ≤ (j + 1) * (final.length - out.length) ∧
      final.countP (fun c => decide (0x80 ≤ c)) = out.countP (fun c => decide (0x80 ≤ c)) + (final.length - out.length) := by
  induction h with
  | done => simp
  | @step bias n i out txt rest final ds delta h1 h2 h3 ih =>
    have hlt : (i + delta) % (out.length + 1) < out.length + 1 := Nat.mod_lt _ (by omega)
    have hm := Puny.Run.mono h3
    have hin : n + (i + delta) / (out.length + 1) ∈ final := hm.2.1 _ (by simp [Rfc3492.inserted])
    have hcp := hc _ hin
    have hl1 := hm.1
    rw [inserted_length _ _ _ (by omega)] at hl1
    have hdelta : delta < 10 ^ j := by
      have h1 : i + delta < (out.length + 1) * ((i + delta) / (out.length + 1) + 1) := Nat.lt_mul_div_succ _ (by omega)
      have h2 : (out.length + 1) * ((i + delta) / (out.length + 1) + 1) ≤ final.length * 0x110000 := Nat.mul_le_mul hl1 (by omega)
      omega
    have hds := vli_digits h2 j hdelta
    have hpos := vli_pos h2
    have htx := spells_length h1
    have hn' : 0x80 ≤ n + (i + delta) / (out.length + 1) := Nat.le_trans hn (Nat.le_add_right _ _)
    obtain ⟨k1, k2, k3, k4⟩ := ih hc hj hn'
    rw [inserted_length _ _ _ (by omega)] at k1 k2 k3 k4
    rw [inserted_count, if_pos (by simpa using hn')] at k4
    have he : final.length - out.length = (final.length - (out.length + 1)) + 1 := by omega
    refine ⟨by omega, ?_, ?_, by omega⟩
    · rw [List.length_append]; omega
    · rw [List.length_append, he, Nat.mul_add]; omega

theorem countP_zero_of {l : List Nat} (h : ∀ c ∈ l, c < 0x80) : l.countP (fun c => decide (0x80 ≤ c)) = 0 := by
  rw [List.countP_eq_zero]
  intro c hc
  have := h c hc
  simp; omega

/-- A Punycode text, against what it stands for. -/
theorem decodes_size {t : Str} {s : List Nat} (h : Rfc3492.Decodes t s) (j : Nat) (hc : ∀ c ∈ s, c < 0x110000) (hj : 0x110000 * s.length ≤ 10 ^ j) :
    s.length ≤ t.length ∧ t.length ≤ s.length + 1 + j * s.countP (fun c => decide (0x80 ≤ c)) := by
  rcases h with ⟨_, h⟩ | ⟨lit, ext, rfl, _, _, hl, h⟩
  · obtain ⟨h1, h2, h3, h4⟩ := run_size h j hc hj (by decide)
    simp only [List.map_nil, List.length_nil, List.countP_nil, Nat.sub_zero, Nat.zero_add] at h2 h3 h4
    rw [h4]
    rw [Nat.add_mul] at h3
    omega
  · obtain ⟨h1, h2, h3, h4⟩ := run_size h j hc hj (by decide)
    have hz : (lit.map UInt8.toNat).countP (fun c => decide (0x80 ≤ c)) = 0 := countP_zero_of (by
      intro c hc
      obtain ⟨b, hb, rfl⟩ := List.mem_map.1 hc
      exact hl b hb)
    rw [hz, List.length_map, Nat.zero_add] at h4
    simp only [List.length_map] at h1 h2 h3
    rw [Nat.add_mul] at h3
    rw [h4, List.length_append, List.length_cons]
    omega

/-- **C96**, Punycode: the text `encode` writes for a sequence of code points has at most one character for each of them, one delimiter,
and `j` more characters for each of them that is not ASCII, where `10 ^ j` is at least 0x110000 times the length of the sequence: nine
characters in all for each in a sequence of up to 89 code points. -/
theorem C96_punycode (s : List Nat) (hs : (∀ c ∈ s, c < 0x110000) ∧ s.length ≤ 2 ^ 37) (allow : Bool) (t : Str) (flag : Bool) (h : Puny.encode s allow = .ok (t, flag))
    (j : Nat) (hj : 0x110000 * s.length ≤ 10 ^ j) : s.length ≤ t.length ∧ t.length ≤ s.length + 1 + j * s.countP (fun c => decide (0x80 ≤ c)) := by
  by_cases hf : flag = true ∨ allow = false
  · exact decodes_size (C29_rfc s (Or.inr hs) allow t flag h hf) j hs.1 hj
  · have e1 : flag = false := by cases flag <;> simp_all
    have e2 : allow = true := by cases allow <;> simp_all
    subst e1 e2
    have := congrArg List.length (C29_plain s (Or.inr hs) t h)
    simp only [List.length_map] at this
    omega

/-! ### Host names -/

theorem joined_size {α β : Type} {R : List α → List β → Prop} {ls : List (List α)} {es : List (List β)} (h : Each R ls es) (a : α) (b : β) (k : Nat) (hk : 1 ≤ k)
    (hr : ∀ l ∈ ls, ∀ e, R l e → e.length ≤ k * l.length) : (joined b es).length ≤ k * (joined a ls).length := by
  induction h with
  | nil => simp [joined]
  | @cons l e ls es h1 h2 ih =>
    have h0 := hr l (List.mem_cons_self ..) e h1
    have ih' := ih fun l hl => hr l (List.mem_cons_of_mem _ hl)
    cases h2 with
    | nil => simpa [joined] using h0
    | cons h3 h4 =>
      simp only [joined, List.length_append, List.length_cons] at ih' ⊢
      rw [Nat.mul_add, Nat.mul_add]
      omega

theorem labels_size {α : Type} {sep : α} {s : List α} {ls : List (List α)} (h : Labels sep s ls) : ∀ l ∈ ls, l.length ≤ s.length ∧ ∀ c ∈ l, c ∈ s := by
  obtain ⟨h1, h2, rfl⟩ := h
  clear h1 h2
  induction ls with
  | nil => simp
  | cons m ms ih =>
    intro l hl
    cases ms with
    | nil => simp at hl; subst hl; simp [joined]
    | cons m' ms =>
      simp only [joined, List.length_append, List.length_cons, List.mem_append, List.mem_cons]
      rcases List.mem_cons.1 hl with rfl | hl
      · exact ⟨by omega, fun c hc => Or.inl hc⟩
      · obtain ⟨a, b⟩ := ih l hl
        exact ⟨by omega, fun c hc => Or.inr (Or.inr (b c hc))⟩

theorem label_encoded_size {l : List Nat} {e : Str} (h : LabelEncodes l e) (j : Nat) (hc : ∀ c ∈ l, c < 0x110000) (hj : 0x110000 * l.length ≤ 10 ^ j) :
    e.length ≤ (j + 6) * l.length := by
  cases h with
  | ascii h1 h2 =>
    have := congrArg List.length h2
    simp only [List.length_map] at this
    rw [this]
    exact Nat.le_mul_of_pos_left _ (by omega)
  | @puny basics ext h1 h2 h3 h4 =>
    obtain ⟨c, hcl, _⟩ := h1
    have hpos : 1 ≤ l.length := List.length_pos_of_mem hcl
    obtain ⟨_, h5⟩ := decodes_size h4 j hc hj
    have h6 : j * l.countP (fun c => decide (0x80 ≤ c)) ≤ j * l.length := Nat.mul_le_mul_left _ List.countP_le_length
    have h7 : (b! "xn--").length = 4 := rfl
    rw [List.length_append, h7, Nat.add_mul]
    omega

theorem run_low {bias n i : Nat} {out : List Nat} {text : Str} {final : List Nat} (h : Rfc3492.Run bias n i out text final) :
    final.length ≤ out.length + text.length := by
  induction h with
  | done => simp
  | @step bias n i out txt rest final ds delta h1 h2 h3 ih =>
    have hlt : (i + delta) % (out.length + 1) < out.length + 1 := Nat.mod_lt _ (by omega)
    rw [inserted_length _ _ _ (by omega)] at ih
    have hpos := vli_pos h2
    have htx := spells_length h1
    rw [List.length_append]; omega

theorem puny_reads_size {t : Str} {s : List Nat} (h : PunyReads t s) : s.length ≤ t.length := by
  have key : ∀ t, Rfc3492.Decodes t s → s.length ≤ t.length := fun t h => by
    rcases h with ⟨_, h⟩ | ⟨lit, ext, rfl, _, _, _, h⟩
    · simpa using run_low h
    · have := run_low h
      simp only [List.length_map] at this
      simp; omega
  rcases h with h | ⟨ext, rfl, _, h⟩
  · exact key t h
  · have := key ext h
    simp; omega

theorem utf8Of_size (s : List Nat) : (utf8Of s).length ≤ 4 * s.length := by
  induction s with
  | nil => simp [utf8Of]
  | cons c s ih =>
    have := Icu.utf8_len (if Unicode.Scalar c then c else 0xFFFD)
    simp only [utf8Of, List.flatMap_cons, List.length_append, List.length_cons] at ih ⊢
    omega

theorem label_decoded_size {l d : Str} (h : LabelDecodes l d) : d.length ≤ 4 * l.length := by
  cases h with
  | plain _ => omega
  | @puny t s h =>
    have h1 := puny_reads_size h
    have h2 := utf8Of_size s
    rw [List.length_append]; omega

theorem host_decoded_size {s d : Str} (h : HostDecodes s d) : d.length ≤ 4 * s.length := by
  obtain ⟨ls, ds, ⟨_, _, rfl⟩, h2, rfl⟩ := h
  exact joined_size h2 _ _ 4 (by decide) fun l _ e he => label_decoded_size he

theorem truncated_size {p : Str} (h : Unicode.Truncated p) : 1 ≤ p.length := by
  have : p ≠ [] := by rintro rfl; simp [Unicode.Truncated] at h
  exact List.length_pos_iff.2 this

theorem utf8_size_pos (c : Nat) : 1 ≤ (Unicode.utf8 c).length := by
  unfold Unicode.utf8
  split
  · simp
  · split
    · simp
    · split <;> simp

theorem reads_size {s : Str} {cs : List Nat} (h : Unicode.Reads s cs) : cs.length ≤ s.length ∧ ∀ c ∈ cs, c < 0x110000 := by
  refine ⟨?_, fun c hc => ?_⟩
  · induction h with
    | nil => simp
    | @char c s cs _ _ ih => have := utf8_size_pos c; simp; omega
    | bad _ _ _ _ ih => simp; omega
    | cut h => simpa using truncated_size h
  · have := Icu.reads_scalar h c hc
    unfold Unicode.Scalar at this
    omega

theorem host_encoded_size {s e : Str} (j : Nat) (hj : 0x110000 * s.length ≤ 10 ^ j) (h : ∃ cs, Unicode.Reads s cs ∧ HostEncodes cs e) : e.length ≤ (j + 6) * s.length := by
  obtain ⟨cs, h1, ls, es, h2, h3, rfl⟩ := h
  obtain ⟨h4, h5⟩ := reads_size h1
  have hl := labels_size h2
  have : (joined 0x2E es).length ≤ (j + 6) * cs.length := by
    obtain ⟨_, _, rfl⟩ := h2
    refine joined_size h3 _ _ (j + 6) (by omega) fun l hm e he => label_encoded_size he j (fun c hc => h5 c ((hl l hm).2 c hc)) ?_
    have := (hl l hm).1
    omega
  exact Nat.le_trans this (Nat.mul_le_mul_left _ h4)

/-! ### Fields -/

theorem encodes_size {P : UInt8 → Prop} {s e : Str} (h : Encodes P s e) : e.length ≤ 3 * s.length := by
  induction h with
  | nil => simp
  | triplet _ _ _ ih => simp; omega
  | copy _ _ ih => simp; omega

theorem decodes_pct_size {s e : Str} (h : PctSpec.Decodes s e) : e.length ≤ 1 * s.length := by
  induction h with
  | nil => simp
  | triplet _ _ ih => simp at *; omega
  | copy _ _ ih => simp at *; omega

theorem field_encoded_size {fld : Codec.Field} {s e : Str} (h : FieldEncodes fld s e) (j : Nat) (hj : fld = .host → 0x110000 * s.length ≤ 10 ^ j) :
    (fld ≠ .host → e.length ≤ 3 * s.length) ∧ (fld = .host → e.length ≤ (j + 6) * s.length) :=
  ⟨fun hf => encodes_size (h.2 hf), fun hf => host_encoded_size j (hj hf) (h.1 hf)⟩

theorem field_decoded_size {fld : Codec.Field} {s e : Str} (h : FieldDecodes fld s e) :
    (fld ≠ .host → e.length ≤ 1 * s.length) ∧ (fld = .host → e.length ≤ 4 * s.length) :=
  ⟨fun hf => decodes_pct_size (h.2 hf), fun hf => host_decoded_size (h.1 hf)⟩

/-! ### The store -/

/-- A bound on what is written for one string. -/
def sizeBound (a b : Nat) (x : Visit) : Nat := (if x.fld = .host then b else a) * x.v.chars.length

theorem bound1 (a b : Nat) (fld : Codec.Field) (v : SV) : ((visits1 fld v).map (sizeBound a b)).sum ≤ (if fld = .host then b else a) * v.chars.length := by
  unfold visits1
  split
  · simp [sizeBound]
  · simp

theorem boundOpt (a b : Nat) (fld : Codec.Field) (hf : fld ≠ .host) (v : Option SV) : ((visitsOpt fld v).map (sizeBound a b)).sum ≤ a * optSize v := by
  cases v with
  | none => simp [visitsOpt]
  | some v =>
    have := bound1 a b fld v
    rw [if_neg hf] at this
    exact this

theorem boundSeg (a b : Nat) : ∀ (vs : List SV) (n : Nat), ((visitsSeg vs n).map (sizeBound a b)).sum ≤ a * (vs.map fun v => v.chars.length).sum := by
  intro vs
  induction vs with
  | nil => intro n; simp [visitsSeg]
  | cons v vs ih =>
    intro n
    unfold visitsSeg
    split
    · have := ih ((n + 1) % u32Mod)
      simp only [List.map_cons, List.sum_cons, sizeBound, Nat.mul_add] at this ⊢
      simp
      omega
    · have := ih n
      simp only [List.map_cons, List.sum_cons, Nat.mul_add]
      omega

theorem boundAll (a b : Nat) (p : Parts SV) : ((visits p).map (sizeBound a b)).sum ≤ a * otherSize p + b * hostSize p := by
  have h1 := boundOpt a b .scheme (by decide) p.scheme
  have h2 := boundSeg a b p.path.segments 0
  have h4 := boundOpt a b .query (by decide) p.query
  have h5 := boundOpt a b .fragment (by decide) p.fragment
  unfold visits otherSize hostSize
  simp only [List.map_append, List.sum_append, Nat.mul_add]
  cases p.authority with
  | none => simp [visitsAuth]; omega
  | some x =>
    have k1 := boundOpt a b .userinfo (by decide) x.userinfo
    have k2 := bound1 a b .host x.host
    have k3 := boundOpt a b .port (by decide) x.port
    simp only [if_true] at k2
    simp only [visitsAuth, List.map_append, List.sum_append, Nat.mul_add]
    omega

theorem written_size (sz : Codec.Field → Str → Nat) (out : Codec.Field → Str → Str) (a b : Nat) (l : List Visit)
    (h : ∀ x ∈ l, vsz sz x ≠ 0 → (vout out x).length ≤ sizeBound a b x) : (Codec.written sz out l).length ≤ (l.map (sizeBound a b)).sum := by
  induction l with
  | nil => simp [Codec.written]
  | cons x l ih =>
    have := ih fun y hy => h y (List.mem_cons_of_mem _ hy)
    have h0 := h x (List.mem_cons_self ..)
    simp only [Codec.written, List.flatMap_cons, List.length_append, List.map_cons, List.sum_cons] at this ⊢
    split
    · simp only [List.length_nil]; omega
    · have := h0 (by assumption); omega

/-! ### C96 -/

theorem bound_of {a b : Nat} {x : Visit} {n : Nat} (h : (x.fld ≠ .host → n ≤ a * x.v.chars.length) ∧ (x.fld = .host → n ≤ b * x.v.chars.length)) : n ≤ sizeBound a b x := by
  unfold sizeBound
  split
  · exact h.2 (by assumption)
  · exact h.1 (by assumption)

/-- **C96.** `encode` makes no component but the host more than three times as long, and the host at most `j + 6` times as long, where
`10 ^ j` is at least 0x110000 times its length; and no more than the sum of these is written to, and reserved in, the store. -/
theorem C96_encode (hp : Heap) (store : Store) (p : Parts SV) (hn : p.path.segments.length + 6 ≤ 2 ^ 32) (hh : hostSize p ≤ 2 ^ 37)
    (j : Nat) (hj : 0x110000 * hostSize p ≤ 10 ^ j) (r : Parts SV) (st' : Store) (h : encode hp store p = .ok (r, st')) :
    Grows 3 (j + 6) p r ∧ st'.chars.length ≤ 3 * otherSize p + (j + 6) * hostSize p := by
  have hhost : ∀ v, InField p .host v → v.chars.length = hostSize p := fun v ⟨a, h, h'⟩ => by simp [hostSize, h, h']
  obtain ⟨r', st'', h1, _, h3, h4⟩ := encode_eq hp store (p := p) hn (fun v hv => by rw [hhost v hv]; exact hh)
  rw [h] at h1
  simp only [Except.ok.injEq, Prod.mk.injEq] at h1
  obtain ⟨rfl, rfl⟩ := h1
  have hf : ∀ fld v, InField p fld v → encSz fld v.chars ≠ 0 → (fld ≠ .host → (encOut fld v.chars).length ≤ 3 * v.chars.length) ∧
      (fld = .host → (encOut fld v.chars).length ≤ (j + 6) * v.chars.length) := fun fld v hin hz =>
    field_encoded_size ((enc_field fld v.chars fun e => by subst e; rw [hhost v hin]; exact hh).2 hz).1 j fun e => by subst e; rw [hhost v hin]; exact hj
  refine ⟨h4.mono fun fld v v' hin hr => ?_, ?_⟩
  · rcases hr with ⟨rfl, _⟩ | ⟨_, a, b, _⟩
    · exact ⟨fun _ => Nat.le_mul_of_pos_left _ (by decide), fun _ => Nat.le_mul_of_pos_left _ (by omega)⟩
    · rw [b]; exact hf fld v hin a
  · rw [h3]
    exact Nat.le_trans (written_size encSz encOut 3 (j + 6) _ fun x hx hz => bound_of (hf _ _ (mem_visits hn hx).2.1 hz)) (boundAll _ _ p)

/-- **C96.** `decode` makes no component but the host longer, and the host at most four times as long; and no more than the sum of
these is written to, and reserved in, the store. -/
theorem C96_decode (hp : Heap) (store : Store) (p : Parts SV) (hn : p.path.segments.length + 6 ≤ 2 ^ 32) (hh : hostSize p + 2 < 2 ^ 64)
    (r : Parts SV) (st' : Store) (h : decode hp store p = .ok (.ok r, st')) :
    Grows 1 4 p r ∧ st'.chars.length ≤ otherSize p + 4 * hostSize p := by
  have hhost : ∀ v, InField p .host v → v.chars.length + 2 < szMod := fun v ⟨a, h, h'⟩ => by
    have : v.chars.length = hostSize p := by simp [hostSize, h, h']
    rw [this]; exact hh
  rcases decode_eq hp store (p := p) hn (fun v hv => punyDecoded_ok _ (hhost v hv)) with ⟨r', st'', h1, _, h3, h4, h5⟩ | ⟨e, x, st'', h1, _⟩
  · rw [h] at h1
    simp only [Except.ok.injEq, Prod.mk.injEq] at h1
    obtain ⟨rfl, rfl⟩ := h1
    have hok : ∀ fld v, InField p fld v → v.ptr ≠ 0 → ∃ n, decRes fld v.chars = .ok n := by
      intro fld v hin hv
      obtain ⟨x, hx, rfl, rfl⟩ := visit_of_field hin hv
      exact h5 x hx
    have hf : ∀ fld v, InField p fld v → v.ptr ≠ 0 → decSz fld v.chars ≠ 0 → (fld ≠ .host → (decOut fld v.chars).length ≤ 1 * v.chars.length) ∧
        (fld = .host → (decOut fld v.chars).length ≤ 4 * v.chars.length) := fun fld v hin hv hz => by
      obtain ⟨n, hn'⟩ := hok fld v hin hv
      exact field_decoded_size ((dec_field fld v.chars (fun e => hhost v (e ▸ hin)) n hn').2 hz)
    refine ⟨h4.mono fun fld v v' hin hr => ?_, ?_⟩
    · rcases hr with ⟨rfl, _⟩ | ⟨hv, a, b, _⟩
      · exact ⟨fun _ => by omega, fun _ => by omega⟩
      · rw [b]; exact hf fld v hin hv a
    · rw [h3]
      have := Nat.le_trans (written_size decSz decOut 1 4 _ fun x hx hz => bound_of (hf _ _ (mem_visits hn hx).2.1 (mem_visits hn hx).2.2.1 hz)) (boundAll _ _ p)
      omega
  · rw [h] at h1; simp at h1

/-! ### The factors are reached -/

/-- U+10000, `n + 1` times, in Punycode. -/
theorem linear_b (n : Nat) : Rfc3492.Decodes (b! "2n7c" ++ List.replicate n 0x61) (List.replicate (n + 1) 0x10000) := by
  have key : ∀ (n m bias : Nat), Rfc3492.Run bias 0x10000 m (List.replicate m 0x10000) (List.replicate n 0x61) (List.replicate (m + n) 0x10000) := by
    intro n
    induction n with
    | zero => intro m bias; exact Rfc3492.Run.done
    | succ n ih =>
      intro m bias
      have h1 : Rfc3492.Spells [0x61] [0] := .cons (Or.inl (by decide)) .nil
      have h2 : Rfc3492.Vli bias 36 [0] 0 := .last (threshold_bounds _ _).1
      have e1 : (m + 0) / ((List.replicate m 0x10000).length + 1) = 0 := by rw [List.length_replicate]; exact Nat.div_eq_of_lt (by omega)
      have e2 : (m + 0) % ((List.replicate m 0x10000).length + 1) = m := by rw [List.length_replicate]; exact Nat.mod_eq_of_lt (by omega)
      have e3 : Rfc3492.inserted (List.replicate m 0x10000) m 0x10000 = List.replicate (m + 1) 0x10000 := by
        rw [List.replicate_succ']
        simp [Rfc3492.inserted]
      have h3 := ih (m + 1) (Rfc3492.adapt 0 ((List.replicate m 0x10000).length + 1) (m == 0))
      rw [show m + (n + 1) = m + 1 + n by omega, List.replicate_succ, ← List.singleton_append]
      refine Rfc3492.Run.step h1 h2 ?_
      rw [e1, e2, Nat.add_zero, e3]
      exact h3
  refine Or.inl ⟨?_, ?_⟩
  · intro h
    rcases List.mem_append.1 h with h | h
    · revert h; decide
    · exact absurd (List.eq_of_mem_replicate h) (by decide)
  · refine Rfc3492.Run.step (ds := [28, 13, 33, 2]) (delta := 65408) ?_ ?_ ?_
    · exact .cons (Or.inl (by decide)) (.cons (Or.inl (by decide)) (.cons (Or.inl (by decide)) (.cons (Or.inl (by decide)) .nil)))
    · have v3 : Rfc3492.Vli 72 144 [2] 2 := .last (by decide)
      have v2 : Rfc3492.Vli 72 108 [33, 2] 53 := .more (by decide) (by decide) v3
      have v1 : Rfc3492.Vli 72 72 [13, 33, 2] 1868 := .more (by decide) (by decide) v2
      exact .more (by decide) (by decide) v1
    · have := key n 1 (Rfc3492.adapt 65408 1 true)
      rw [Nat.add_comm 1 n] at this
      exact this

theorem linear_utf8 (n : Nat) : (utf8Of (List.replicate n 0x10000)).length = 4 * n := by
  induction n with
  | zero => rfl
  | succ n ih =>
    have : (Unicode.utf8 (if Unicode.Scalar 0x10000 then 0x10000 else 0xFFFD)).length = 4 := by decide +kernel
    simp only [List.replicate_succ, utf8Of, List.flatMap_cons, List.length_append] at ih ⊢
    omega

/-- **C96.** Four is the least such factor: there are hosts of any length `n + 8` that decode to `4 * (n + 1)` bytes. -/
theorem C96_decode_tight (hp : Heap) (store : Store) (addr : Nat) (ha : addr ≠ 0) (n : Nat) (hn : n < 2 ^ 37) (host : SV)
    (hhost : host = ⟨addr, b! "xn--2n7c" ++ List.replicate n 0x61⟩) :
    ∃ r st' a, decode hp store ⟨none, some ⟨none, host, none⟩, ⟨false, []⟩, none, none⟩ = .ok (.ok r, st') ∧ r.authority = some a ∧
      host.chars.length = n + 8 ∧ a.host.chars.length = 4 * (n + 1) ∧ st'.chars.length = 4 * (n + 1) := by
  have hlen : host.chars.length = n + 8 := by rw [hhost]; simp
  have hptr : host.ptr ≠ 0 := by rw [hhost]; exact ha
  have hch : host.chars = idnaPrefix ++ (b! "2n7c" ++ List.replicate n 0x61) := by rw [hhost]; rfl
  have hin : PunyInput (List.replicate (n + 1) 0x10000) := Or.inr ⟨fun c hc => by rw [List.eq_of_mem_replicate hc]; decide, by rw [List.length_replicate]; omega⟩
  have hdec := C32_complete false _ _ hin (linear_b n)
  have hD : LabelD host.chars (utf8Of (List.replicate (n + 1) 0x10000)) := by rw [hch]; exact .puny hdec
  have hL : Labels 0x2E host.chars [host.chars] := by
    refine ⟨by simp, fun l hl => ?_, rfl⟩
    rw [List.mem_singleton.1 hl, hhost]
    intro h
    rcases List.mem_append.1 h with h | h
    · revert h; decide
    · exact absurd (List.eq_of_mem_replicate h) (by decide)
  have hpd : punyDecoded host.chars = .ok (utf8Of (List.replicate (n + 1) 0x10000), .ok true) := by
    obtain ⟨ls, h1, h2⟩ := punyDecoded_eq host.chars (by rw [hlen]; simp only [szMod]; omega)
    obtain rfl := Labels.unique h1 hL
    rcases h2 with ⟨ds, h2, h3⟩ | ⟨pre, l, post, out, e, h2, _, ⟨t, rfl, h3⟩, _⟩
    · cases h2 with
      | cons a b =>
        cases b
        rw [h3, LabelD.unique a hD]
        have : [host.chars].any (fun l => decide (idnaPrefix <+: l)) = true := by
          simp only [List.any_cons, List.any_nil, Bool.or_false, decide_eq_true_eq]
          exact ⟨_, hch.symm⟩
        rw [this]; rfl
    · have hm : idnaPrefix ++ t ∈ [host.chars] := by rw [h2]; simp
      have he := List.mem_singleton.1 hm
      rw [hch] at he
      have := List.append_cancel_left he
      rw [this, hdec] at h3
      simp at h3
  have hz : decRes .host host.chars = .ok (4 * (n + 1)) := by simp [decRes, hpd, linear_utf8]
  have hsz : decSz .host host.chars ≠ 0 := by rw [decSz_of hz]; omega
  have hout : decOut .host host.chars = utf8Of (List.replicate (n + 1) 0x10000) := by simp [decOut, hpd]
  have hvis : visits ⟨none, some ⟨none, host, none⟩, ⟨false, []⟩, none, none⟩ = [⟨host, 0, .host⟩] := by
    simp [visits, visitsOpt, visitsSeg, visitsAuth, visits1, hptr]
  rcases decode_eq hp store (p := ⟨none, some ⟨none, host, none⟩, ⟨false, []⟩, none, none⟩) (by simp [u32Mod])
    (fun v ⟨a, h, h'⟩ => by cases h; subst h'; exact ⟨_, hpd⟩) with ⟨r, st', h1, _, h3, h4, _⟩ | ⟨e, x, st', h1, h2, h3⟩
  · have h5 := h4.authority
    obtain ⟨a, ha', hr⟩ : ∃ a, r.authority = some a ∧ Rewritten decSz decOut st' .host host a.host := by
      generalize hra : r.authority = ra at h5
      cases h5 with
      | some h => exact ⟨_, rfl, h.2.1⟩
    refine ⟨r, st', a, h1, ha', hlen, ?_, ?_⟩
    · rcases hr with ⟨_, h | h⟩ | ⟨_, _, h, _⟩
      · exact absurd h hptr
      · exact absurd h hsz
      · rw [h, hout, linear_utf8]
    · rw [h3, hvis]
      simp only [Codec.written, List.flatMap_cons, List.flatMap_nil, List.append_nil]
      rw [if_neg (show vsz decSz ⟨host, 0, .host⟩ ≠ 0 from hsz)]
      show (decOut .host host.chars).length = _
      rw [hout, linear_utf8]
  · rw [hvis] at h2
    rw [List.mem_singleton.1 h2] at h3
    rw [hz] at h3
    simp at h3

/-- **C96.** Three is the least such factor: a path segment of `n` null characters is encoded in `3 * n` characters. -/
theorem C96_encode_tight (hp : Heap) (store : Store) (addr : Nat) (ha : addr ≠ 0) (n : Nat) (hn : 0 < n) :
    ∃ r st' v, encode hp store ⟨none, none, ⟨false, [⟨addr, List.replicate n 0⟩]⟩, none, none⟩ = .ok (r, st') ∧ r.path.segments = [v] ∧
      v.chars.length = 3 * n ∧ st'.chars.length = 3 * n := by
  have hneed : needsPctencodeB 0 (encSetOf .path) = true := by decide +kernel
  have hlen : (encP (encSetOf .path) (List.replicate n 0)).length = 3 * n := by
    rw [encP_length, List.countP_replicate, hneed]; simp; omega
  have hnp : needsPctencode (List.replicate n 0) (encSetOf .path) = true := (C25_any _ _).2 ⟨0, by simp; omega, hneed⟩
  have hsz : encSz .path (List.replicate n 0) = 3 * n := by simp [encSz, hnp, hlen]
  have hout : encOut .path (List.replicate n 0) = encP (encSetOf .path) (List.replicate n 0) := by simp [encOut]
  have hvis : visits ⟨none, none, ⟨false, [⟨addr, List.replicate n 0⟩]⟩, none, none⟩ = [⟨⟨addr, List.replicate n 0⟩, 0, .path⟩] := by
    simp [visits, visitsOpt, visitsSeg, visitsAuth, visits1, ha]
  obtain ⟨r, st', h1, _, h3, h4⟩ := encode_eq hp store (p := ⟨none, none, ⟨false, [⟨addr, List.replicate n 0⟩]⟩, none, none⟩) (by simp [u32Mod])
    (fun v ⟨a, h, _⟩ => by simp at h)
  have h5 := h4.segments
  obtain ⟨v, hv, hr⟩ : ∃ v, r.path.segments = [v] ∧ Rewritten encSz encOut st' .path ⟨addr, List.replicate n 0⟩ v := by
    generalize r.path.segments = rs at h5
    cases h5 with
    | cons a b => cases b; exact ⟨_, rfl, a⟩
  refine ⟨r, st', v, h1, hv, ?_, ?_⟩
  · rcases hr with ⟨_, h | h⟩ | ⟨_, _, h, _⟩
    · exact absurd h ha
    · simp only [hsz] at h; omega
    · rw [h, hout, hlen]
  · rw [h3, hvis]
    simp only [Codec.written, List.flatMap_cons, List.flatMap_nil, List.append_nil]
    rw [if_neg (show vsz encSz ⟨⟨addr, List.replicate n 0⟩, 0, .path⟩ ≠ 0 from by show encSz .path (List.replicate n 0) ≠ 0; omega)]
    show (encOut .path (List.replicate n 0)).length = _
    rw [hout, hlen]

/-- `bücher.example/ü`: the bounds for `j = 8` hold with room to spare, and what is written is as long as this. -/
example : (encode heap0 store0 ⟨none, some ⟨none, ⟨1, bucher⟩, none⟩, ⟨true, [⟨2, [0xC3, 0xBC]⟩]⟩, none, none⟩).toOption.map (fun x => x.2.chars.length) = some (21 + 6) ∧
    bucher.length = 15 ∧ 0x110000 * 15 ≤ 10 ^ 8 := by decide +kernel

end Verif
