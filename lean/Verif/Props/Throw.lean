import Verif.Proofs.Throw
import Verif.Props.Alias

/-!
# C68: running out of memory
-/

set_option linter.unusedSimpArgs false

namespace Verif
open Codec PartsSpec

/-- An exception is thrown somewhere. -/
def Codec.Throws.somewhere (t : Throws) : Prop := t.copy = true ∨ (∃ n, t.size n = true) ∨ t.reserve = true ∨ ∃ n k, t.write n = some k

/-- What may be left in the store by an exception, if `full` is what would be there otherwise: what was there before, nothing,
or the beginning of what would be there. -/
def LeftBehind (store full st' : Store) : Prop :=
  st' = store ∨ st' = { store with chars := [] } ∨ ∃ cs, cs <+: full.chars ∧ st' = { full with chars := cs }

theorem store_eta (full : Store) {n : Nat} {store : Store} {hp : Heap} (h : full.addr = (store.clear.reserve hp n).addr)
    (h2 : full.cap = (store.clear.reserve hp n).cap) (h3 : full.allocs = (store.clear.reserve hp n).allocs) (cs : Str) :
    { store.clear.reserve hp n with chars := cs } = { full with chars := cs } := by
  rw [h, h2, h3]

/-- C68, `encode`: wherever `std::bad_alloc` is thrown, either `encode` does all it would have done without, or the exception
goes to the caller, and the store is as it was, empty, or holds the beginning of what it would have held. -/
theorem C68_encode (hp : Heap) (t : Throws) (store : Store) (p : Parts SV) (hn : p.path.segments.length + 6 ≤ 2 ^ 32)
    (hh : ∀ a, p.authority = some a → a.host.chars.length ≤ 2 ^ 37) (r : Parts SV) (full : Store) (h : encode hp store p = .ok (r, full)) :
    ∃ res st', encodeT hp t store p = .ok (res, st') ∧
      ((res = some r ∧ st' = full) ∨ (res = none ∧ t.somewhere ∧ LeftBehind store full st')) := by
  have hhost : ∀ v, InField p .host v → v.chars.length ≤ 2 ^ 37 := fun v ⟨a, h, h'⟩ => h' ▸ hh a h
  cases htc : t.copy with
  | true => exact ⟨none, store, by simp only [encodeT, htc, if_true], Or.inr ⟨rfl, Or.inl htc, Or.inl rfl⟩⟩
  | false =>
  obtain ⟨st, h1, h2, h3⟩ := encodeSize_pass hn hhost
  obtain ⟨r1, s, k1, k2, k0⟩ := first_pass_throwing (f := encodeSize) (fun n => if t.size n then some 0 else none) (p := p) (st := ⟨0, fun _ => false⟩)
    (fun x hm hv hx st => by
      have hsz := encodedSize_eq x.fld x.v.chars fun e => hhost _ (e ▸ (mem_visits hn hm).2.1)
      exact ⟨_, by simp only [encodeSize, entry_ok hv hx, hsz, bind, Except.bind]; rfl⟩)
  by_cases hthr : (s.thrown || (t.reserve && decide (store.clear.cap < s.val.required))) = true
  · refine ⟨none, store.clear, ?_, Or.inr ⟨rfl, ?_, Or.inr (Or.inl rfl)⟩⟩
    · simp only [encodeT, htc, Bool.false_eq_true, if_false, k1, bind, Except.bind, hthr, if_true]
    · cases hs : s.thrown with
      | true =>
        refine Or.inr (Or.inl (Classical.byContradiction fun hno => ?_))
        have := k0 fun n => if_neg fun h => hno ⟨n, h⟩
        rw [hs] at this; cases this
      | false => rw [hs] at hthr; simp only [Bool.false_or, Bool.and_eq_true] at hthr; exact Or.inr (Or.inr (Or.inl hthr.1))
  · have hst : s.thrown = false := by
      cases hh : s.thrown with
      | false => rfl
      | true => rw [hh] at hthr; simp at hthr
    have k3 := k2 hst
    rw [h1] at k3
    simp only [Except.ok.injEq, Prod.mk.injEq] at k3
    obtain ⟨hr1, hs⟩ := k3
    subst hr1
    subst hs
    have hreq : total encSz (visits p) ≤ (store.clear.reserve hp s.val.required).cap := by rw [← h2]; exact (reserve_cap _ _ _).1
    have hW : ∀ x ∈ visits p, x.v.ptr ≠ 0 → (x.idx = 0 ∨ x.fld = .path) → WriteOk encSz encOut hp (encodeWrite hp s.val.bits) x :=
      fun x hm hv hx => encodeWrite_ok hp hv hx (h3 x hm) fun e => hhost _ (e ▸ (mem_visits hn hm).2.1)
    obtain ⟨r', full', j1, j2, j3, j4, j5, j6, -⟩ := second_pass encSz encOut (hp := hp) (p := p) (f := encodeWrite hp s.val.bits)
      (fun x _ h => encSz_out _ _ h) hW (st := store.clear.reserve hp s.val.required) ((reserve_cap _ _ _).2.trans rfl) hreq
    obtain ⟨r2, w, l1, l2, l3, l4⟩ := second_pass_throwing t.write (sz := encSz) (out := encOut) (hp := hp) (p := p) (f := encodeWrite hp s.val.bits)
      (fun x _ h => encSz_out _ _ h) hW (st := store.clear.reserve hp s.val.required) ((reserve_cap _ _ _).2.trans rfl) hreq
    have hck : check (s.val.required == full'.chars.length) = .ok () := by simp [check, h2, j6]
    have hfull : r = r' ∧ full = full' := by
      simp only [encode, h1, j1, bind, Except.bind, hck, Except.ok.injEq, Prod.mk.injEq] at h
      exact ⟨h.1.symm, h.2.symm⟩
    obtain ⟨rfl, rfl⟩ := hfull
    cases hw : w.thrown with
    | true =>
      obtain ⟨cs, e1, e2⟩ := l2 hw
      refine ⟨none, w.val, ?_, Or.inr ⟨rfl, ?_, Or.inr (Or.inr ⟨cs, j5 ▸ e2, ?_⟩)⟩⟩
      · simp only [encodeT, htc, Bool.false_eq_true, if_false, k1, bind, Except.bind, hthr, l1, hw, if_true]
      · refine Or.inr (Or.inr (Or.inr (Classical.byContradiction fun hno => ?_)))
        have := l4 fun n => by
          cases hk : t.write n with
          | none => rfl
          | some k => exact absurd ⟨n, k, hk⟩ hno
        rw [hw] at this; cases this
      · rw [e1]; exact store_eta full j2 j3 j4 cs
    | false =>
      have := l3 hw
      rw [j1] at this
      simp only [Except.ok.injEq, Prod.mk.injEq] at this
      obtain ⟨e1, e2⟩ := this
      refine ⟨some r, full, ?_, Or.inl ⟨rfl, rfl⟩⟩
      simp only [encodeT, htc, Bool.false_eq_true, if_false, k1, bind, Except.bind, hthr, l1, hw, ← e2, hck, e1]

/-- C68, `decode`. -/
theorem C68_decode (hp : Heap) (t : Throws) (store : Store) (p : Parts SV) (hn : p.path.segments.length + 6 ≤ 2 ^ 32)
    (hh : ∀ a, p.authority = some a → a.host.chars.length + 2 < 2 ^ 64) (r : Except Puny.Err (Parts SV)) (full : Store)
    (h : decode hp store p = .ok (r, full)) :
    ∃ res st', decodeT hp t store p = .ok (res, st') ∧
      ((res = some r ∧ st' = full) ∨ (res = none ∧ t.somewhere ∧ LeftBehind store full st')) := by
  have hhost : ∀ v, InField p .host v → ∃ r, punyDecoded v.chars = .ok r := fun v ⟨a, h, h'⟩ => punyDecoded_ok _ (h' ▸ hh a h)
  cases htc : t.copy with
  | true => exact ⟨none, store, by simp only [decodeT, htc, if_true], Or.inr ⟨rfl, Or.inl htc, Or.inl rfl⟩⟩
  | false =>
  obtain ⟨st, h1, h2⟩ := decodeSize_pass hn hhost
  obtain ⟨r1, s, k1, k2, k0⟩ := first_pass_throwing (f := decodeSize) (fun n => if t.size n then some 0 else none) (p := p) (st := ⟨0, none, fun _ => false⟩)
    (fun x hm hv hx st => by
      have hsz := decodedSize_eq x.fld x.v.chars fun e => hhost _ (e ▸ (mem_visits hn hm).2.1)
      cases hs : st.error with
      | some e => exact ⟨_, by simp only [decodeSize, entry_ok hv hx, hs, bind, Except.bind]; rfl⟩
      | none =>
        cases hd : decRes x.fld x.v.chars with
        | error e => exact ⟨_, by simp only [decodeSize, entry_ok hv hx, hs, hsz, hd, bind, Except.bind]; rfl⟩
        | ok n => exact ⟨_, by simp only [decodeSize, entry_ok hv hx, hs, hsz, hd, bind, Except.bind]; rfl⟩)
  by_cases hthr : (s.thrown || (t.reserve && decide (store.clear.cap < s.val.required))) = true
  · refine ⟨none, store.clear, ?_, Or.inr ⟨rfl, ?_, Or.inr (Or.inl rfl)⟩⟩
    · simp only [decodeT, htc, Bool.false_eq_true, if_false, k1, bind, Except.bind, hthr, if_true]
    · cases hs : s.thrown with
      | true =>
        refine Or.inr (Or.inl (Classical.byContradiction fun hno => ?_))
        have := k0 fun n => if_neg fun h => hno ⟨n, h⟩
        rw [hs] at this; cases this
      | false => rw [hs] at hthr; simp only [Bool.false_or, Bool.and_eq_true] at hthr; exact Or.inr (Or.inr (Or.inl hthr.1))
  · have hst : s.thrown = false := by
      cases hh : s.thrown with
      | false => rfl
      | true => rw [hh] at hthr; simp at hthr
    have k3 := k2 hst
    rw [h1] at k3
    simp only [Except.ok.injEq, Prod.mk.injEq] at k3
    obtain ⟨hr1, hs⟩ := k3
    subst hr1
    subst hs
    rcases h2 with ⟨h0, h2, h3, h4⟩ | ⟨e, x, he, -⟩
    · have hreq : total decSz (visits p) ≤ (store.clear.reserve hp s.val.required).cap := by rw [← h2]; exact (reserve_cap _ _ _).1
      have hW : ∀ x ∈ visits p, x.v.ptr ≠ 0 → (x.idx = 0 ∨ x.fld = .path) → WriteOk decSz decOut hp (decodeWrite hp s.val.bits) x :=
        fun x hm hv hx => decodeWrite_ok hp hv hx (h3 x hm) fun e => hhost _ (e ▸ (mem_visits hn hm).2.1)
      obtain ⟨r', full', j1, j2, j3, j4, j5, j6, -⟩ := second_pass decSz decOut (hp := hp) (p := p) (f := decodeWrite hp s.val.bits)
        (fun x _ h => decSz_out _ _ h) hW (st := store.clear.reserve hp s.val.required) ((reserve_cap _ _ _).2.trans rfl) hreq
      obtain ⟨r2, w, l1, l2, l3, l4⟩ := second_pass_throwing t.write (sz := decSz) (out := decOut) (hp := hp) (p := p) (f := decodeWrite hp s.val.bits)
        (fun x _ h => decSz_out _ _ h) hW (st := store.clear.reserve hp s.val.required) ((reserve_cap _ _ _).2.trans rfl) hreq
      have hck : check (s.val.required == full'.chars.length) = .ok () := by simp [check, h2, j6]
      have hfull : r = .ok r' ∧ full = full' := by
        simp only [decode, h1, h0, j1, bind, Except.bind, hck, Except.ok.injEq, Prod.mk.injEq] at h
        exact ⟨h.1.symm, h.2.symm⟩
      obtain ⟨rfl, rfl⟩ := hfull
      cases hw : w.thrown with
      | true =>
        obtain ⟨cs, e1, e2⟩ := l2 hw
        refine ⟨none, w.val, ?_, Or.inr ⟨rfl, ?_, Or.inr (Or.inr ⟨cs, j5 ▸ e2, ?_⟩)⟩⟩
        · simp only [decodeT, htc, Bool.false_eq_true, if_false, k1, bind, Except.bind, hthr, h0, l1, hw, if_true]
        · refine Or.inr (Or.inr (Or.inr (Classical.byContradiction fun hno => ?_)))
          have := l4 fun n => by
            cases hk : t.write n with
            | none => rfl
            | some k => exact absurd ⟨n, k, hk⟩ hno
          rw [hw] at this; cases this
        · rw [e1]; exact store_eta full j2 j3 j4 cs
      | false =>
        have := l3 hw
        rw [j1] at this
        simp only [Except.ok.injEq, Prod.mk.injEq] at this
        obtain ⟨e1, e2⟩ := this
        refine ⟨some (.ok r'), full, ?_, Or.inl ⟨rfl, rfl⟩⟩
        simp only [decodeT, htc, Bool.false_eq_true, if_false, k1, bind, Except.bind, hthr, h0, l1, hw, ← e2, hck, e1]
    · have hfull : r = .error e ∧ full = store.clear.reserve hp s.val.required := by
        simp only [decode, h1, he, bind, Except.bind, Except.ok.injEq, Prod.mk.injEq] at h
        exact ⟨h.1.symm, h.2.symm⟩
      obtain ⟨rfl, rfl⟩ := hfull
      refine ⟨some (.error e), _, ?_, Or.inl ⟨rfl, rfl⟩⟩
      simp only [decodeT, htc, Bool.false_eq_true, if_false, k1, bind, Except.bind, hthr, he]

/-- C68: the call can be made again with the store as the exception left it, or any other, and gives the same. -/
theorem C68_retry (hp hp' : Heap) (store store' : Store) (p : Parts SV) (hn : p.path.segments.length + 6 ≤ 2 ^ 32)
    (hh : ∀ a, p.authority = some a → a.host.chars.length ≤ 2 ^ 37) :
    (∃ r r' st st', encode hp store p = .ok (r, st) ∧ encode hp' store' p = .ok (r', st') ∧ r'.text = r.text ∧ st'.chars = st.chars) ∧
    ((∃ e st st', decode hp store p = .ok (.error e, st) ∧ decode hp' store' p = .ok (.error e, st')) ∨
     ∃ r r' st st', decode hp store p = .ok (.ok r, st) ∧ decode hp' store' p = .ok (.ok r', st') ∧ r'.text = r.text ∧ st'.chars = st.chars) := by
  have same : ∀ {sz out} {r r' : Parts SV} {st st' : Store}, Related (Rewritten sz out st) p r → Related (Rewritten sz out st') p r' → r'.text = r.text := by
    intro sz out r r' st st' h1 h2
    refine related_text ((related_flip h1).comp h2 |>.mono fun fld a b _ h => ?_)
    obtain ⟨v, h1, h2⟩ := h
    rcases h1 with ⟨rfl, h1⟩ | ⟨x1, x2, x3, -⟩ <;> rcases h2 with ⟨rfl, h2⟩ | ⟨y1, y2, y3, -⟩
    · rfl
    · exact absurd h1 (by simp [y1, y2])
    · exact absurd h2 (by simp [x1, x2])
    · rw [x3, y3]
  constructor
  · obtain ⟨r, st, h1, -, h2, h3⟩ := encode_eq hp store (p := p) hn (fun v ⟨a, h, h'⟩ => h' ▸ hh a h)
    obtain ⟨r', st', k1, -, k2, k3⟩ := encode_eq hp' store' (p := p) hn (fun v ⟨a, h, h'⟩ => h' ▸ hh a h)
    exact ⟨r, r', st, st', h1, k1, same h3 k3, by rw [h2, k2]⟩
  · have hhost : ∀ v, InField p .host v → ∃ r, punyDecoded v.chars = .ok r := fun v ⟨a, h, h'⟩ => punyDecoded_ok _ (by
      have := hh a h; subst h'; unfold szMod; omega)
    obtain ⟨st, h1, h2⟩ := decodeSize_pass hn hhost
    rcases h2 with ⟨h0, -⟩ | ⟨e, x, he, -⟩
    · right
      rcases decode_eq hp store (p := p) hn hhost with ⟨r, s, h1', -, h2, h3, -⟩ | ⟨e, x, s, h1', h2, h3⟩
      · rcases decode_eq hp' store' (p := p) hn hhost with ⟨r', s', k1', -, k2, k3, -⟩ | ⟨e, x, s', k1', k2, k3⟩
        · exact ⟨r, r', s, s', h1', k1', same h3 k3, by rw [h2, k2]⟩
        · exfalso
          simp only [decode, h1, h0, bind, Except.bind] at k1'
          split at k1'
          · cases k1'
          · split at k1' <;> cases k1'
      · exfalso
        simp only [decode, h1, h0, bind, Except.bind] at h1'
        split at h1'
        · cases h1'
        · split at h1' <;> cases h1'
    · left
      exact ⟨e, _, _, by simp only [decode, h1, he, bind, Except.bind]; rfl, by simp only [decode, h1, he, bind, Except.bind]; rfl⟩

/-- C68: an error code leaves the store empty. -/
theorem C68_error (hp : Heap) (store : Store) (p : Parts SV) (e : Puny.Err) (st' : Store) (h : decode hp store p = .ok (.error e, st')) :
    st'.chars = [] := by
  simp only [decode, bind, Except.bind] at h
  split at h
  · cases h
  · split at h
    · cases h; exact (reserve_cap _ _ _).2
    · split at h
      · cases h
      · split at h <;> cases h

/-- A witness: a value with a blank in its path and an umlaut in its host, encoded into a store that held something else; memory
runs out in the first pass, at `reserve`, or in the second pass while the host is converted. -/
example : (encodeT heap0 ⟨false, fun n => n == 1, false, fun _ => none⟩ ⟨50, 10, b! "old", 3⟩
      ⟨none, some ⟨none, ⟨1, bucher⟩, none⟩, ⟨true, [⟨1, b! "a b"⟩]⟩, none, none⟩).toOption = some (none, ⟨50, 10, [], 3⟩) ∧
    (encodeT heap0 ⟨false, fun _ => false, true, fun _ => none⟩ ⟨50, 10, b! "old", 3⟩
      ⟨none, some ⟨none, ⟨1, bucher⟩, none⟩, ⟨true, [⟨1, b! "a b"⟩]⟩, none, none⟩).toOption = some (none, ⟨50, 10, [], 3⟩) ∧
    (encodeT heap0 ⟨false, fun _ => false, false, fun n => if n == 1 then some 4 else none⟩ ⟨50, 10, b! "old", 3⟩
      ⟨none, some ⟨none, ⟨1, bucher⟩, none⟩, ⟨true, [⟨1, b! "a b"⟩]⟩, none, none⟩).toOption = some (none, ⟨400000, 26, b! "a%20bxn--", 4⟩) ∧
    ((encodeT heap0 ⟨false, fun _ => false, false, fun _ => none⟩ ⟨50, 10, b! "old", 3⟩
      ⟨none, some ⟨none, ⟨1, bucher⟩, none⟩, ⟨true, [⟨1, b! "a b"⟩]⟩, none, none⟩).toOption.map Prod.snd) =
        some ⟨400000, 26, b! "a%20bxn--bcher-kva.example", 4⟩ := by
  decide +kernel

end Verif
