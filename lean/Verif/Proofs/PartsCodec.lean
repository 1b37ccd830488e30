import Verif.Proofs.PartsVisit
import Verif.Proofs.PartsHost
import Verif.Props.Pct

/-!
# `encode` and `decode`: two passes
-/

set_option linter.unusedSimpArgs false

namespace Verif.Codec

open PartsSpec Unicode

/-! ### The store -/

theorem pushAll_fits (hp : Heap) (s : Str) : ∀ st : Store, st.chars.length + s.length ≤ st.cap →
    st.pushAll hp s = { st with chars := st.chars ++ s } := by
  induction s with
  | nil => intro st _; simp [Store.pushAll]
  | cons c s ih =>
    intro st h
    have h : st.chars.length + (s.length + 1) ≤ st.cap := h
    have e : st.pushBack hp c = { st with chars := st.chars ++ [c] } := by
      simp only [Store.pushBack, Store.reserve, show st.chars.length + 1 ≤ st.cap by omega, if_true]
    have := ih (st.pushBack hp c) (by rw [e]; simp; omega)
    rw [Store.pushAll, List.foldl_cons]
    rw [Store.pushAll] at this
    rw [this, e]
    simp

theorem reserve_cap (hp : Heap) (st : Store) (n : Nat) : n ≤ (st.reserve hp n).cap ∧ (st.reserve hp n).chars = st.chars := by
  unfold Store.reserve
  split <;> simp <;> omega

theorem clear_reserve (hp : Heap) (store : Store) (n : Nat) : (store.clear.reserve hp n).addr = (store.reserve hp n).addr ∧
    (store.clear.reserve hp n).cap = (store.reserve hp n).cap ∧ (store.clear.reserve hp n).allocs = (store.reserve hp n).allocs := by
  by_cases h : n ≤ store.cap <;> simp [Store.reserve, Store.clear, h]

/-! ### What is written, in order -/

section
variable (sz : Field → Str → Nat) (out : Field → Str → Str)

def vsz (x : Visit) : Nat := sz x.fld x.v.chars
def vout (x : Visit) : Str := out x.fld x.v.chars
def total (l : List Visit) : Nat := (l.map (vsz sz)).sum
def written (l : List Visit) : Str := l.flatMap fun x => if vsz sz x = 0 then [] else vout out x

theorem total_append (l m : List Visit) : total sz (l ++ m) = total sz l + total sz m := by simp [total]
theorem written_append (l m : List Visit) : written sz out (l ++ m) = written sz out l ++ written sz out m := by simp [written]

theorem written_length (l : List Visit) (h : ∀ x ∈ l, vsz sz x ≠ 0 → vsz sz x = (vout out x).length) : (written sz out l).length = total sz l := by
  induction l with
  | nil => rfl
  | cons x l ih =>
    have i := ih fun y hy => h y (by simp [hy])
    have hx := h x (by simp)
    rw [written, List.flatMap_cons, List.length_append]
    rw [written] at i
    rw [i]
    simp only [total, List.map_cons, List.sum_cons]
    by_cases e : vsz sz x = 0
    · simp [e]
    · rw [if_neg e, ← hx e]

/-- The bits tell which strings have a size other than 0. -/
def BitsOk (bits : Nat → Bool) (l : List Visit) : Prop := ∀ x ∈ l, x.pos < fieldLast → bits x.pos = decide (vsz sz x ≠ 0)

/-- What one call of the second pass does. -/
def WriteOk (hp : Heap) (f : SV → Nat → Field → Store → M (SV × Store)) (x : Visit) : Prop :=
  ∀ st : Store, st.chars.length + vsz sz x ≤ st.cap →
    (vsz sz x = 0 → f x.v x.idx x.fld st = .ok (x.v, st)) ∧
    (vsz sz x ≠ 0 → f x.v x.idx x.fld st = .ok (⟨st.addr + st.chars.length, vout out x⟩, { st with chars := st.chars ++ vout out x }))

/-- What a string becomes. -/
def Rewritten (st : Store) (fld : Field) (v v' : SV) : Prop :=
  (v' = v ∧ (v.ptr = 0 ∨ sz fld v.chars = 0)) ∨ (v.ptr ≠ 0 ∧ sz fld v.chars ≠ 0 ∧ v'.chars = out fld v.chars ∧ InStore st v')

theorem second_pass {hp : Heap} {p : Parts SV} {f : SV → Nat → Field → Store → M (SV × Store)}
    (hsz : ∀ x ∈ visits p, vsz sz x ≠ 0 → vsz sz x = (vout out x).length) (hf : ∀ x ∈ visits p, x.v.ptr ≠ 0 → (x.idx = 0 ∨ x.fld = .path) → WriteOk sz out hp f x)
    {st : Store} (hc : st.chars = []) (hcap : total sz (visits p) ≤ st.cap) :
    ∃ r st', partsStrings f p st = .ok (r, st') ∧ st'.addr = st.addr ∧ st'.cap = st.cap ∧ st'.allocs = st.allocs ∧
      st'.chars = written sz out (visits p) ∧ st'.chars.length = total sz (visits p) ∧ Related (Rewritten sz out st') p r := by
  let I : List Visit → Store → Prop := fun done s => s = { st with chars := written sz out done }
  let fin : Store := { st with chars := written sz out (visits p) }
  let R : Visit → SV → Prop := fun x v' => (v' = x.v ∧ vsz sz x = 0) ∨ (vsz sz x ≠ 0 ∧ v'.chars = vout out x ∧ InStore fin v')
  have key : ∀ done x rest s, visits p = done ++ x :: rest → I done s → x.v.ptr ≠ 0 → (x.idx = 0 ∨ x.fld = .path) →
      ∃ v' st', f x.v x.idx x.fld s = .ok (v', st') ∧ I (done ++ [x]) st' ∧ R x v' := by
    intro done x rest s ha hi hv hx
    have hm : x ∈ visits p := by rw [ha]; simp
    have hlen : (written sz out done).length = total sz done := written_length sz out done fun y hy => hsz y (by rw [ha]; simp [hy])
    have htot : total sz (visits p) = total sz done + (vsz sz x + total sz rest) := by rw [ha, total_append]; simp [total]
    have hw := hf x hm hv hx s (by rw [show s = { st with chars := written sz out done } from hi]; simp only; omega)
    have e1 : written sz out (done ++ [x]) = written sz out done ++ (if vsz sz x = 0 then [] else vout out x) := by simp [written]
    by_cases e : vsz sz x = 0
    · have hw := hw.1 e
      refine ⟨_, _, hw, ?_, Or.inl ⟨rfl, e⟩⟩
      show s = { st with chars := written sz out (done ++ [x]) }
      rw [e1, if_pos e, List.append_nil]; exact hi
    · have hw := hw.2 e
      refine ⟨_, _, hw, ?_, Or.inr ⟨e, rfl, ?_⟩⟩
      · show _ = { st with chars := written sz out (done ++ [x]) }
        rw [e1, if_neg e, show s = { st with chars := written sz out done } from hi]
      · refine ⟨(written sz out done).length, by rw [show s = { st with chars := written sz out done } from hi], ?_, ?_⟩
        all_goals
          have ef : fin.chars = written sz out done ++ (vout out x ++ written sz out rest) := by
            show written sz out (visits p) = _
            rw [ha, written_append]; simp [written, e]
          rw [ef]
          simp <;> omega
  obtain ⟨r, st', h1, h2, h3⟩ := partsStrings_rule (f := f) (I := I) (R := R) (p := p)
    (fun done x rest s a b c d e => key done x rest s a b c (Or.inl e)) (fun done x rest s a b c d => key done x rest s a b c (Or.inr d))
    (st := st) (by show st = { st with chars := [] }; rw [← hc])
  have h2 : st' = fin := h2
  subst h2
  refine ⟨r, _, h1, rfl, rfl, rfl, rfl, written_length sz out _ hsz, h3.mono fun fld v v' _ h => ?_⟩
  rcases h with ⟨a, rfl⟩ | ⟨hv, _, h⟩
  · exact Or.inl ⟨rfl, Or.inl a⟩
  · rcases h with ⟨h, h'⟩ | h
    · exact Or.inl ⟨h, Or.inr h'⟩
    · exact Or.inr ⟨hv, h⟩

/-- The bits after the strings `done`. -/
def BitsOf (done : List Visit) (bits : Nat → Bool) : Prop := ∀ k, bits k = true ↔ ∃ x ∈ done, x.pos = k ∧ k < fieldLast ∧ vsz sz x ≠ 0

theorem bitsOf_step {done : List Visit} {bits : Nat → Bool} (h : BitsOf sz done bits) (x : Visit) :
    BitsOf sz (done ++ [x]) (setBit bits x.pos (vsz sz x)) := by
  intro k
  unfold setBit
  constructor
  · intro hk
    split at hk
    · by_cases e : k = x.pos
      · simp only [e, if_true, Bool.or_eq_true, decide_eq_true_eq] at hk
        rcases hk with hk | hk
        · obtain ⟨y, hy, a⟩ := (h _).1 hk
          exact ⟨y, by simp [hy], e ▸ a⟩
        · exact ⟨x, by simp, e.symm, by omega, hk⟩
      · simp only [if_neg e] at hk
        obtain ⟨y, hy, a⟩ := (h _).1 hk
        exact ⟨y, by simp [hy], a⟩
    · obtain ⟨y, hy, a⟩ := (h _).1 hk
      exact ⟨y, by simp [hy], a⟩
  · rintro ⟨y, hy, rfl, hlt, hne⟩
    rcases List.mem_append.1 hy with hy | hy
    · have hb : bits y.pos = true := (h _).2 ⟨y, hy, rfl, hlt, hne⟩
      split
      · simp [hb]
      · exact hb
    · simp only [List.mem_singleton] at hy
      subst hy
      rw [if_pos hlt]
      simp [hne]

theorem bitsOk_of {p : Parts SV} (hn : p.path.segments.length + 6 ≤ u32Mod) {bits : Nat → Bool} (h : BitsOf sz (visits p) bits) : BitsOk sz bits (visits p) := by
  intro x hx hlt
  rw [Bool.eq_iff_iff, h]
  constructor
  · rintro ⟨y, hy, e, _, hne⟩
    rw [← pos_injective hn hy hx e]; simpa using hne
  · intro hd
    exact ⟨x, hx, rfl, hlt, by simpa using hd⟩

end

/-! ### `encode` -/

/-- What is written for a string. -/
def encOut (fld : Field) (s : Str) : Str :=
  if fld = .host then (match punyEncoded s with | .ok (o, _) => o | .error _ => []) else encP (encSetOf fld) s

/-- Its size, or 0. -/
def encSz (fld : Field) (s : Str) : Nat :=
  if fld = .host then (match punyEncoded s with | .ok (o, b) => if b then o.length else 0 | .error _ => 0)
  else if needsPctencode s (encSetOf fld) then (encP (encSetOf fld) s).length else 0

theorem encSz_out (fld : Field) (s : Str) (h : encSz fld s ≠ 0) : encSz fld s = (encOut fld s).length := by
  unfold encSz encOut at *
  by_cases hf : fld = .host
  · simp only [hf, if_true] at *
    split at h
    · rename_i o b heq
      cases b
      · simp at h
      · simp
    · simp at h
  · simp only [hf, if_false] at *
    split at h
    · rename_i hh; simp [hh]
    · simp at h

theorem pctEncodedSize_eq (s : Str) (es : UInt8) : pctEncodedSize s es = .ok (if needsPctencode s es then (encP es s).length else 0) := by
  have h : pctencodeM es s = .ok (encP es s) := pctencode_eq s es
  unfold pctEncodedSize
  cases needsPctencode s es <;> simp [h, bind, Except.bind]

theorem needsPctencode_len {s : Str} {es : UInt8} (h : needsPctencode s es = true) : (encP es s).length ≠ 0 := by
  rw [encP_length]
  cases s with
  | nil => simp [needsPctencode] at h
  | cons c s => simp

theorem punyEncoded_ok (s : Str) (h : s.length ≤ 2 ^ 37) : ∃ o b, punyEncoded s = .ok (o, b) := by
  obtain ⟨_, _, _, _, _, _, _, _, h⟩ := punyEncoded_eq s h
  exact ⟨_, _, h⟩

theorem encodedSize_eq (fld : Field) (s : Str) (h : fld = .host → s.length ≤ 2 ^ 37) : encodedSize fld s = .ok (encSz fld s) := by
  unfold encodedSize encSz
  by_cases hf : fld = .host
  · obtain ⟨o, b, e⟩ := punyEncoded_ok s (h hf)
    simp only [if_pos hf, punyEncodedSize, e, bind, Except.bind]
  · simp only [if_neg hf, pctEncodedSize_eq]

theorem entry_ok {v : SV} {idx : Nat} {fld : Field} (h : v.ptr ≠ 0) (h' : idx = 0 ∨ fld = .path) : entry v idx fld = .ok () := by
  simp only [entry, if_neg h, if_pos h']

theorem encodeSize_pass {p : Parts SV} (hn : p.path.segments.length + 6 ≤ u32Mod) (hh : ∀ v, InField p .host v → v.chars.length ≤ 2 ^ 37) :
    ∃ st, partsStrings encodeSize p ⟨0, fun _ => false⟩ = .ok (p, st) ∧ st.required = total encSz (visits p) ∧ BitsOk encSz st.bits (visits p) := by
  have key : ∀ done x rest st, visits p = done ++ x :: rest → (st.required = total encSz done ∧ BitsOf encSz done st.bits) → x.v.ptr ≠ 0 → (x.idx = 0 ∨ x.fld = .path) →
      ∃ v' st', encodeSize x.v x.idx x.fld st = .ok (v', st') ∧ (st'.required = total encSz (done ++ [x]) ∧ BitsOf encSz (done ++ [x]) st'.bits) ∧ v' = x.v := by
    intro done x rest st ha ⟨hi1, hi2⟩ hv hx
    have hm : x ∈ visits p := by rw [ha]; simp
    have hsz := encodedSize_eq x.fld x.v.chars fun e => hh _ (e ▸ (mem_visits hn hm).2.1)
    refine ⟨x.v, ⟨st.required + encSz x.fld x.v.chars, setBit st.bits (bitPos x.fld x.idx) (encSz x.fld x.v.chars)⟩, ?_, ⟨?_, bitsOf_step encSz hi2 x⟩, rfl⟩
    · simp only [encodeSize, entry_ok hv hx, hsz, bind, Except.bind]
    · rw [total_append, hi1]; simp [total, vsz]
  obtain ⟨r, st, h1, ⟨h2, h3⟩, h4⟩ := partsStrings_rule (f := encodeSize) (I := fun done st => st.required = total encSz done ∧ BitsOf encSz done st.bits)
    (R := fun x v' => v' = x.v) (p := p) (fun done x rest s a b c d e => key done x rest s a b c (Or.inl e)) (fun done x rest s a b c d => key done x rest s a b c (Or.inr d))
    (st := ⟨0, fun _ => false⟩) ⟨rfl, by intro k; simp⟩
  have e : r = p := h4.eq fun fld a b h => by
    rcases h with ⟨_, h⟩ | ⟨_, _, h⟩ <;> exact h
  exact ⟨st, e ▸ h1, h2, bitsOk_of encSz hn h3⟩

theorem encodeWrite_ok (hp : Heap) {bits : Nat → Bool} {x : Visit} (hv : x.v.ptr ≠ 0) (hx : x.idx = 0 ∨ x.fld = .path) (hb : x.pos < fieldLast → bits x.pos = decide (vsz encSz x ≠ 0))
    (hh : x.fld = .host → x.v.chars.length ≤ 2 ^ 37) : WriteOk encSz encOut hp (encodeWrite hp bits) x := by
  intro st hcap
  obtain ⟨v, idx, fld⟩ := x
  simp only [vsz, vout, Visit.pos] at *
  have hsmall : fld ≠ .path → bitPos fld idx < fieldLast := by
    intro hf
    have hi := hx.resolve_right hf
    subst hi
    cases fld <;> decide
  unfold encodeWrite
  simp only [entry_ok hv hx, bind, Except.bind]
  refine ⟨fun e => ?_, fun e => ?_⟩
  · by_cases hp' : bitPos fld idx < fieldLast
    · rw [if_pos ⟨hp', by rw [hb hp']; simp [e]⟩]
    · rw [if_neg (by simp [hp'])]
      have hf : fld = .path := Classical.byContradiction fun h => hp' (hsmall h)
      subst hf
      have hno : needsPctencode v.chars (encSetOf .path) = false := by
        rw [Bool.eq_false_iff]; intro hn
        apply needsPctencode_len hn
        simpa [encSz, hn] using e
      have hge : bitPos .path idx ≥ fieldLast := by omega
      simp only [reduceCtorEq, if_false, decide_true, Bool.true_or, check, if_true, hno, and_true, hge]
  · have hnot : ¬ (bitPos fld idx < fieldLast ∧ bits (bitPos fld idx) = false) := by
      rintro ⟨h1, h2⟩; rw [hb h1] at h2; simp [e] at h2
    rw [if_neg hnot]
    have hlen := encSz_out fld v.chars e
    by_cases hf : fld = .host
    · subst hf
      obtain ⟨o, b, ho⟩ := punyEncoded_ok v.chars (hh rfl)
      have hout : encOut .host v.chars = o := by simp [encOut, ho]
      have hsz : encSz .host v.chars = if b then o.length else 0 := by simp [encSz, ho]
      have hbt : b = true := by cases b <;> simp [hsz] at e ⊢
      have hn : punyEncodedSize v.chars = .ok o.length := by simp [punyEncodedSize, ho, bind, Except.bind, hbt]
      rw [hout] at hlen
      have hpush := pushAll_fits hp o st (by omega)
      have hne : o.length ≠ 0 := hlen ▸ e
      have hc2 : o.length + st.chars.length ≤ st.cap := by omega
      have hc3 : st.chars.length + o.length ≤ st.cap := by omega
      simp only [if_true, hn, ho, hpush, hout, check, bne_iff_ne, ne_eq, hne, not_false_eq_true, decide_eq_true_eq, ge_iff_le, hc3, List.length_append, beq_self_eq_true, List.drop_left, decide_true]
    · have hout : encOut fld v.chars = encP (encSetOf fld) v.chars := by simp [encOut, hf]
      have hno : needsPctencode v.chars (encSetOf fld) = true := by
        cases hn : needsPctencode v.chars (encSetOf fld)
        · simp [encSz, hf, hn] at e
        · rfl
      have hm : pctencodeM (encSetOf fld) v.chars = .ok (encP (encSetOf fld) v.chars) := pctencode_eq _ _
      rw [hout] at hlen
      have hpush := pushAll_fits hp (encP (encSetOf fld) v.chars) st (by omega)
      have hc3 : st.chars.length + (encP (encSetOf fld) v.chars).length ≤ st.cap := by omega
      simp only [hf, if_false, hno, Bool.or_true, check, if_true, Bool.true_eq_false, and_false, pctEncodedSize_eq, hm, hpush, hout, decide_eq_true_eq, ge_iff_le, hc3, List.length_append, beq_self_eq_true, List.drop_left]

/-- The whole of `encode`. -/
theorem encode_eq (hp : Heap) (store : Store) {p : Parts SV} (hn : p.path.segments.length + 6 ≤ u32Mod) (hh : ∀ v, InField p .host v → v.chars.length ≤ 2 ^ 37) :
    ∃ r st', encode hp store p = .ok (r, st') ∧ (∃ n, n = st'.chars.length ∧ st'.addr = (store.reserve hp n).addr ∧ st'.cap = (store.reserve hp n).cap ∧ st'.allocs = (store.reserve hp n).allocs) ∧
      st'.chars = written encSz encOut (visits p) ∧ Related (Rewritten encSz encOut st') p r := by
  obtain ⟨st, h1, h2, h3⟩ := encodeSize_pass hn hh
  obtain ⟨r, st', k1, k2, k3, k4, k5, k6, k7⟩ := second_pass encSz encOut (hp := hp) (p := p) (f := encodeWrite hp st.bits)
    (fun x _ h => encSz_out _ _ h) (fun x hm hv hx => encodeWrite_ok hp hv hx (h3 x hm) fun e => hh _ (e ▸ (mem_visits hn hm).2.1))
    (st := store.clear.reserve hp st.required) ((reserve_cap _ _ _).2.trans rfl) (by rw [← h2]; exact (reserve_cap _ _ _).1)
  have hr := clear_reserve hp store
  have hck : check (st.required == st'.chars.length) = .ok () := by simp [check, h2, k6]
  refine ⟨r, st', ?_, ⟨st.required, by rw [h2, k6], ?_, ?_, ?_⟩, k5, k7⟩
  · simp only [encode, h1, k1, bind, Except.bind, hck]
  · rw [k2, (hr _).1]
  · rw [k3, (hr _).2.1]
  · rw [k4, (hr _).2.2]

/-! ### `decode` -/

/-- What is written for a string. -/
def decOut (fld : Field) (s : Str) : Str :=
  if fld = .host then (match punyDecoded s with | .ok (o, _) => o | .error _ => []) else decP s

/-- The size, 0, or the error. -/
def decRes (fld : Field) (s : Str) : Except Puny.Err Nat :=
  if fld = .host then
    (match punyDecoded s with
     | .ok (o, .ok b) => .ok (if b then o.length else 0)
     | .ok (_, .error e) => .error e
     | .error _ => .ok 0)
  else .ok (if needsPctdecode s then (decP s).length else 0)

/-- Its size, or 0. -/
def decSz (fld : Field) (s : Str) : Nat :=
  match decRes fld s with
  | .ok n => n
  | .error _ => 0

theorem decSz_of {fld : Field} {s : Str} {n : Nat} (h : decRes fld s = .ok n) : decSz fld s = n := by simp [decSz, h]

theorem decSz_out (fld : Field) (s : Str) (h : decSz fld s ≠ 0) : decSz fld s = (decOut fld s).length := by
  unfold decSz decRes decOut at *
  by_cases hf : fld = .host
  · simp only [hf, if_true] at *
    cases hd : punyDecoded s with
    | error e => simp [hd] at h
    | ok r =>
      obtain ⟨o, r⟩ := r
      cases r with
      | error e => simp [hd] at h
      | ok b => cases b <;> simp [hd] at h ⊢
  · simp only [hf, if_false] at *
    split at h
    · rename_i hh; simp [hh]
    · simp at h

theorem punyDecoded_ok (s : Str) (h : s.length + 2 < szMod) : ∃ r, punyDecoded s = .ok r := by
  obtain ⟨_, _, ⟨_, _, h⟩ | ⟨_, _, _, _, _, _, _, _, h⟩⟩ := punyDecoded_eq s h <;> exact ⟨_, h⟩

theorem pctDecodedSize_eq (s : Str) : pctDecodedSize s = .ok (if needsPctdecode s then (decP s).length else 0) := (C26_size s _ (pctdecode_eq s)).1

theorem needsPctdecode_len {s : Str} (h : needsPctdecode s = true) : (decP s).length ≠ 0 := (C26_size s _ (pctdecode_eq s)).2 h

theorem decodedSize_eq (fld : Field) (s : Str) (h : fld = .host → ∃ r, punyDecoded s = .ok r) : decodedSize fld s = .ok (decRes fld s) := by
  unfold decodedSize decRes
  by_cases hf : fld = .host
  · obtain ⟨⟨o, r⟩, e⟩ := h hf
    cases r <;> simp only [if_pos hf, punyDecodedSize, e, bind, Except.bind]
  · simp only [if_neg hf, pctDecodedSize_eq, bind, Except.bind]

theorem decodeSize_pass {p : Parts SV} (hn : p.path.segments.length + 6 ≤ u32Mod) (hh : ∀ v, InField p .host v → ∃ r, punyDecoded v.chars = .ok r) :
    ∃ st, partsStrings decodeSize p ⟨0, none, fun _ => false⟩ = .ok (p, st) ∧
      ((st.error = none ∧ st.required = total decSz (visits p) ∧ BitsOk decSz st.bits (visits p) ∧ ∀ x ∈ visits p, ∃ n, decRes x.fld x.v.chars = .ok n) ∨
       ∃ e x, st.error = some e ∧ x ∈ visits p ∧ decRes x.fld x.v.chars = .error e) := by
  let I : List Visit → DecSize → Prop := fun done st =>
    (st.error = none ∧ st.required = total decSz done ∧ BitsOf decSz done st.bits ∧ ∀ x ∈ done, ∃ n, decRes x.fld x.v.chars = .ok n) ∨
    ∃ e x, st.error = some e ∧ x ∈ done ∧ decRes x.fld x.v.chars = .error e
  have key : ∀ done x rest st, visits p = done ++ x :: rest → I done st → x.v.ptr ≠ 0 → (x.idx = 0 ∨ x.fld = .path) →
      ∃ v' st', decodeSize x.v x.idx x.fld st = .ok (v', st') ∧ I (done ++ [x]) st' ∧ v' = x.v := by
    intro done x rest st ha hi hv hx
    have hm : x ∈ visits p := by rw [ha]; simp
    have hsz := decodedSize_eq x.fld x.v.chars fun e => hh _ (e ▸ (mem_visits hn hm).2.1)
    rcases hi with ⟨h1, h2, h3, h4⟩ | ⟨e, y, h1, h2, h3⟩
    · cases hr : decRes x.fld x.v.chars with
      | ok n =>
        have hn := decSz_of hr
        refine ⟨x.v, ⟨st.required + n, none, setBit st.bits (bitPos x.fld x.idx) n⟩, ?_, Or.inl ⟨rfl, ?_, ?_, ?_⟩, rfl⟩
        · simp only [decodeSize, entry_ok hv hx, hsz, bind, Except.bind, h1, hr]
        · rw [total_append]; simp only [h2]; simp [total, vsz, hn]
        · have := bitsOf_step decSz h3 x
          simp only [vsz, hn] at this; exact this
        · intro y hy
          rcases List.mem_append.1 hy with hy | hy
          · exact h4 y hy
          · simp only [List.mem_singleton] at hy; subst hy; exact ⟨n, hr⟩
      | error e =>
        refine ⟨x.v, ⟨st.required, some e, setBit st.bits (bitPos x.fld x.idx) 0⟩, ?_, Or.inr ⟨e, x, rfl, by simp, hr⟩, rfl⟩
        simp only [decodeSize, entry_ok hv hx, hsz, bind, Except.bind, h1, hr]
    · refine ⟨x.v, st, ?_, Or.inr ⟨e, y, h1, by simp [h2], h3⟩, rfl⟩
      simp only [decodeSize, entry_ok hv hx, bind, Except.bind, h1]
  obtain ⟨r, st, h1, h2, h4⟩ := partsStrings_rule (f := decodeSize) (I := I)
    (R := fun x v' => v' = x.v) (p := p) (fun done x rest s a b c d e => key done x rest s a b c (Or.inl e)) (fun done x rest s a b c d => key done x rest s a b c (Or.inr d))
    (st := ⟨0, none, fun _ => false⟩) (Or.inl ⟨rfl, rfl, by intro k; simp, by simp⟩)
  have e : r = p := h4.eq fun fld a b h => by
    rcases h with ⟨_, h⟩ | ⟨_, _, h⟩ <;> exact h
  refine ⟨st, e ▸ h1, ?_⟩
  rcases h2 with ⟨a, b, c, d⟩ | h2
  · exact Or.inl ⟨a, b, bitsOk_of decSz hn c, d⟩
  · exact Or.inr h2

theorem decodeWrite_ok (hp : Heap) {bits : Nat → Bool} {x : Visit} (hv : x.v.ptr ≠ 0) (hx : x.idx = 0 ∨ x.fld = .path) (hb : x.pos < fieldLast → bits x.pos = decide (vsz decSz x ≠ 0))
    (hh : x.fld = .host → ∃ r, punyDecoded x.v.chars = .ok r) : WriteOk decSz decOut hp (decodeWrite hp bits) x := by
  intro st hcap
  obtain ⟨v, idx, fld⟩ := x
  simp only [vsz, vout, Visit.pos] at *
  have hsmall : fld ≠ .path → bitPos fld idx < fieldLast := by
    intro hf
    have hi := hx.resolve_right hf
    subst hi
    cases fld <;> decide
  have hck : check (decide (fld.val < fieldLast)) = .ok () := by cases fld <;> rfl
  unfold decodeWrite
  simp only [entry_ok hv hx, bind, Except.bind, hck]
  refine ⟨fun e => ?_, fun e => ?_⟩
  · by_cases hp' : bitPos fld idx < fieldLast
    · rw [if_pos ⟨hp', by rw [hb hp']; simp [e]⟩]
    · rw [if_neg (by simp [hp'])]
      have hf : fld = .path := Classical.byContradiction fun h => hp' (hsmall h)
      subst hf
      have hno : needsPctdecode v.chars = false := by
        rw [Bool.eq_false_iff]; intro hn
        apply needsPctdecode_len hn
        simpa [decSz, decRes, hn] using e
      have hge : bitPos .path idx ≥ fieldLast := by omega
      simp only [reduceCtorEq, if_false, pctDecodedSize_eq, hno, Bool.false_eq_true, and_true, hge, if_true]
  · have hnot : ¬ (bitPos fld idx < fieldLast ∧ bits (bitPos fld idx) = false) := by
      rintro ⟨h1, h2⟩; rw [hb h1] at h2; simp [e] at h2
    rw [if_neg hnot]
    have hlen := decSz_out fld v.chars e
    by_cases hf : fld = .host
    · subst hf
      obtain ⟨⟨o, b⟩, ho⟩ := hh rfl
      have hout : decOut .host v.chars = o := by simp [decOut, ho]
      rw [hout] at hlen
      have hpush := pushAll_fits hp o st (by omega)
      simp only [if_true, ho, hpush, hout, List.drop_left]
    · have hout : decOut fld v.chars = decP v.chars := by simp [decOut, hf]
      have hno : needsPctdecode v.chars = true := by
        cases hn : needsPctdecode v.chars
        · simp [decSz, decRes, hf, hn] at e
        · rfl
      rw [hout] at hlen
      have hne := needsPctdecode_len hno
      have hpush := pushAll_fits hp (decP v.chars) st (by omega)
      have hck2 : check (decide ((decP v.chars).length > 0)) = .ok () := by simp only [check, decide_eq_true_eq]; rw [if_pos (by omega)]
      simp only [hf, if_false, pctDecodedSize_eq, hno, if_true, hne, and_false, hck2, pctViewCopy_eq, hpush, hout, List.drop_left]

/-- The whole of `decode`. -/
theorem decode_eq (hp : Heap) (store : Store) {p : Parts SV} (hn : p.path.segments.length + 6 ≤ u32Mod) (hh : ∀ v, InField p .host v → ∃ r, punyDecoded v.chars = .ok r) :
    (∃ r st', decode hp store p = .ok (.ok r, st') ∧ (∃ n, n = st'.chars.length ∧ st'.addr = (store.reserve hp n).addr ∧ st'.cap = (store.reserve hp n).cap ∧ st'.allocs = (store.reserve hp n).allocs) ∧
      st'.chars = written decSz decOut (visits p) ∧ Related (Rewritten decSz decOut st') p r ∧ ∀ x ∈ visits p, ∃ n, decRes x.fld x.v.chars = .ok n) ∨
    ∃ e x st', decode hp store p = .ok (.error e, st') ∧ x ∈ visits p ∧ decRes x.fld x.v.chars = .error e := by
  obtain ⟨st, h1, ⟨h0, h2, h3, h4⟩ | ⟨e, x, h2, h3, h4⟩⟩ := decodeSize_pass hn hh
  · obtain ⟨r, st', k1, k2, k3, k4, k5, k6, k7⟩ := second_pass decSz decOut (hp := hp) (p := p) (f := decodeWrite hp st.bits)
      (fun x _ h => decSz_out _ _ h) (fun x hm hv hx => decodeWrite_ok hp hv hx (h3 x hm) fun e => hh _ (e ▸ (mem_visits hn hm).2.1))
      (st := store.clear.reserve hp st.required) ((reserve_cap _ _ _).2.trans rfl) (by rw [← h2]; exact (reserve_cap _ _ _).1)
    have hr := clear_reserve hp store
    have hck : check (st.required == st'.chars.length) = .ok () := by simp [check, h2, k6]
    refine Or.inl ⟨r, st', ?_, ⟨st.required, by rw [h2, k6], ?_, ?_, ?_⟩, k5, k7, h4⟩
    · simp only [decode, h1, k1, bind, Except.bind, hck, h0]
    · rw [k2, (hr _).1]
    · rw [k3, (hr _).2.1]
    · rw [k4, (hr _).2.2]
  · exact Or.inr ⟨e, x, _, by simp only [decode, h1, bind, Except.bind, h2]; rfl, h3, h4⟩

end Verif.Codec
