import Verif.Proofs.Alias
import Verif.Props.PartsCodec

/-!
# C67: the store must not be the one the views refer to
-/

set_option linter.unusedSimpArgs false

namespace Verif
open Codec PartsSpec

/-- Some string of `p` that is there (its `data ()` is not null) has a character in the memory of the store. -/
def RefersTo (p : Parts SV) (store : Store) : Prop := ∃ v ∈ p.views, v.ptr ≠ 0 ∧ v.chars ≠ [] ∧
  ∃ i j, i < v.chars.length ∧ j < store.cap ∧ v.ptr + i = store.addr + j

theorem touches_iff (st : Store) (v : SV) : st.touches v = true ↔ v.chars ≠ [] ∧ ∃ i j, i < v.chars.length ∧ j < st.cap ∧ v.ptr + i = st.addr + j := by
  have hne : v.chars ≠ [] ↔ v.chars.length ≠ 0 := by simp
  rw [hne]
  simp only [Store.touches, Bool.and_eq_true, decide_eq_true_eq]
  constructor
  · rintro ⟨⟨⟨h1, h0⟩, h2⟩, h3⟩
    refine ⟨h1, ?_⟩
    by_cases h : v.ptr ≤ st.addr
    · exact ⟨st.addr - v.ptr, 0, by omega, by omega, by omega⟩
    · exact ⟨0, v.ptr - st.addr, by omega, by omega, by omega⟩
  · rintro ⟨h1, i, j, hi, hj, e⟩
    exact ⟨⟨⟨h1, by omega⟩, by omega⟩, by omega⟩

theorem refersTo_iff (p : Parts SV) (store : Store) : RefersTo p store ↔ ∃ v ∈ p.views, v.ptr ≠ 0 ∧ store.touches v = true := by
  simp only [RefersTo, touches_iff]

theorem not_touches {p : Parts SV} {store : Store} (h : ¬ RefersTo p store) {x : Visit} (hx : x ∈ visits p) : store.touches x.v = false := by
  cases ht : store.touches x.v with
  | false => rfl
  | true => exact absurd ((refersTo_iff p store).2 ⟨x.v, (visits_mem hx).1, (visits_mem hx).2, ht⟩) h

/-- C67: if no string of `p` is in the store's memory, nor in memory the allocator hands out, then `encode` and `decode` are what
the other theorems say. -/
theorem C67_other_store (hp : Heap) (store : Store) (p : Parts SV) (h : ¬ RefersTo p store) (hnew : ∀ n, ¬ RefersTo p (store.reserve hp n)) :
    encodeAny hp store p = encode hp store p ∧ decodeAny hp store p = decode hp store p := by
  have hc : ∀ n, store.clear.reserve hp n = { store.reserve hp n with chars := [] } := by
    intro n
    unfold Store.reserve Store.clear
    split <;> rfl
  have ht : ∀ x ∈ visits p, store.clear.touches x.v = false := fun x hx => not_touches h hx
  have ht' : ∀ n, ∀ x ∈ visits p, (store.clear.reserve hp n).touches x.v = false := fun n x hx => by
    rw [hc]; exact not_touches (hnew n) hx
  constructor
  · simp only [encodeAny, encode]
    rw [congr_parts (f := guarded (fun _ => store.clear.touches) encodeSize) (g := encodeSize)
      fun x hx st => by simp only [guarded, ht x hx]; rfl]
    cases e : partsStrings encodeSize p ⟨0, fun _ => false⟩ with
    | error e => rfl
    | ok r =>
      obtain ⟨r, st⟩ := r
      have : r = p := same_parts (fun v i fld st v' st' h => encodeSize_same h) e
      subst this
      simp only [bind, Except.bind]
      rw [congr_parts (g := encodeWrite hp st.bits) fun x hx st' => by simp only [guarded, ht x hx, ht' _ x hx, Bool.or_self]; rfl]
  · simp only [decodeAny, decode]
    rw [congr_parts (f := guarded (fun s v => s.error.isNone && store.clear.touches v) decodeSize) (g := decodeSize)
      fun x hx st => by simp only [guarded, ht x hx, Bool.and_false]; rfl]
    cases e : partsStrings decodeSize p ⟨0, none, fun _ => false⟩ with
    | error e => rfl
    | ok r =>
      obtain ⟨r, st⟩ := r
      have : r = p := same_parts (fun v i fld st v' st' h => decodeSize_same h) e
      subst this
      simp only [bind, Except.bind]
      cases st.error with
      | some e => rfl
      | none =>
        simp only []
        rw [congr_parts (g := decodeWrite hp st.bits) fun x hx st' => by simp only [guarded, ht x hx, ht' _ x hx, Bool.or_self]; rfl]

theorem guarded_run {σ : Type} (T : σ → SV → Bool) (f : SV → Nat → Codec.Field → σ → M (SV × σ)) : ∀ (l : List Visit) (st : σ),
    (∀ x ∈ l, ∀ st, ∃ r, f x.v x.idx x.fld st = .ok r) →
    runVisits (guarded T f) l st = .error .dangling ∨ runVisits (guarded T f) l st = runVisits f l st := by
  intro l
  induction l with
  | nil => intro st _; exact Or.inr rfl
  | cons x l ih =>
    intro st hf
    obtain ⟨⟨v, st'⟩, hr⟩ := hf x (by simp) st
    simp only [runVisits, guarded]
    cases hT : T st x.v with
    | true => left; simp
    | false =>
      simp only [hr, Bool.false_eq_true, if_false]
      exact ih st' fun y hy => hf y (List.mem_cons_of_mem _ hy)

theorem guarded_hit {σ : Type} (T : σ → SV → Bool) (stop : σ → Prop) (f : SV → Nat → Codec.Field → σ → M (SV × σ))
    (hT : ∀ st v, ¬ stop st → ∀ st', T st v = true → ¬ stop st' → T st' v = true) :
    ∀ (l : List Visit) (st : σ), (∀ x ∈ l, ∀ st, ∃ r, f x.v x.idx x.fld st = .ok r) →
    (∀ x ∈ l, ∀ st r, f x.v x.idx x.fld st = .ok r → stop st → stop r.2) →
    (∃ x ∈ l, ∀ st, ¬ stop st → T st x.v = true) →
    runVisits (guarded T f) l st = .error .dangling ∨ ∃ st', runVisits (guarded T f) l st = .ok st' ∧ stop st' := by
  intro l
  induction l with
  | nil => rintro st - - ⟨x, hx, -⟩; simp at hx
  | cons x l ih =>
    intro st hf hs hx
    obtain ⟨⟨v, st'⟩, hr⟩ := hf x (by simp) st
    have hf' : ∀ y ∈ l, ∀ st, ∃ r, f y.v y.idx y.fld st = .ok r := fun y hy => hf y (List.mem_cons_of_mem _ hy)
    have hs' : ∀ y ∈ l, ∀ st r, f y.v y.idx y.fld st = .ok r → stop st → stop r.2 := fun y hy => hs y (List.mem_cons_of_mem _ hy)
    have keep : ∀ (l : List Visit) (st : σ), (∀ y ∈ l, ∀ st, ∃ r, f y.v y.idx y.fld st = .ok r) →
        (∀ y ∈ l, ∀ st r, f y.v y.idx y.fld st = .ok r → stop st → stop r.2) → stop st →
        runVisits (guarded T f) l st = .error .dangling ∨ ∃ st', runVisits (guarded T f) l st = .ok st' ∧ stop st' := by
      intro l
      induction l with
      | nil => intro st _ _ h; exact Or.inr ⟨st, rfl, h⟩
      | cons y l ih =>
        intro st hf hs h
        obtain ⟨⟨v, st'⟩, hr⟩ := hf y (by simp) st
        simp only [runVisits, guarded]
        cases hT : T st y.v with
        | true => left; simp
        | false =>
          simp only [hr, Bool.false_eq_true, if_false]
          exact ih st' (fun z hz => hf z (List.mem_cons_of_mem _ hz)) (fun z hz => hs z (List.mem_cons_of_mem _ hz)) (hs y (by simp) _ _ hr h)
    by_cases hst : stop st
    · exact keep (x :: l) st hf hs hst
    · simp only [runVisits, guarded]
      cases hTx : T st x.v with
      | true => left; simp
      | false =>
        simp only [hr, Bool.false_eq_true, if_false]
        obtain ⟨y, hy, hyT⟩ := hx
        rcases List.mem_cons.1 hy with rfl | hy
        · exact absurd (hyT st hst) (by simp [hTx])
        · exact ih st' hf' hs' ⟨y, hy, hyT⟩

theorem visit_of_refers {p : Parts SV} {store : Store} (h : RefersTo p store) : ∃ x ∈ visits p, store.touches x.v = true := by
  obtain ⟨v, hv, h0, ht⟩ := (refersTo_iff p store).1 h
  obtain ⟨fld, hf⟩ := (views_field p v).1 hv
  obtain ⟨x, hx, rfl, -⟩ := visit_of_field hf h0
  exact ⟨x, hx, ht⟩

/-- C67: with a string in the store's memory, `encode` is undefined. -/
theorem C67_same_store_encode (hp : Heap) (store : Store) (p : Parts SV) (hn : p.path.segments.length + 6 ≤ 2 ^ 32)
    (hh : ∀ a, p.authority = some a → a.host.chars.length ≤ 2 ^ 37) (h : RefersTo p store) : encodeAny hp store p = .error .dangling := by
  obtain ⟨x, hx, ht⟩ := visit_of_refers h
  have hf : ∀ x ∈ visits p, ∀ st, ∃ r, encodeSize x.v x.idx x.fld st = .ok r := by
    intro x hx st
    obtain ⟨-, h2, h3, h4⟩ := mem_visits hn hx
    have hsz := encodedSize_eq x.fld x.v.chars fun e => by rw [e] at h2; obtain ⟨a, ha, ha'⟩ := h2; exact ha' ▸ hh a ha
    refine ⟨(x.v, { required := st.required + encSz x.fld x.v.chars, bits := setBit st.bits (bitPos x.fld x.idx) (encSz x.fld x.v.chars) }), ?_⟩
    simp only [encodeSize, entry_ok h3 (h4.elim (fun h => Or.inl h.2) fun h => Or.inr h.1), hsz, bind, Except.bind]
  have key := guarded_hit (fun _ => store.clear.touches) (fun _ => False) encodeSize (fun _ _ _ _ h _ => h) (visits p) ⟨0, fun _ => false⟩ hf
    (fun _ _ _ _ _ h => h) ⟨x, hx, fun _ _ => ht⟩
  have key : runVisits (guarded (fun _ => store.clear.touches) encodeSize) (visits p) ⟨0, fun _ => false⟩ = .error .dangling :=
    key.resolve_right fun ⟨_, _, h⟩ => h
  rw [← calls_parts] at key
  simp only [encodeAny]
  cases hp1 : partsStrings (guarded (fun _ => store.clear.touches) encodeSize) p ⟨0, fun _ => false⟩ with
  | error e => rw [hp1] at key; simp only [Except.map, Except.error.injEq] at key; subst key; rfl
  | ok r => rw [hp1] at key; cases key

/-- C67: with a string in the store's memory, `decode` is undefined, unless it finds an error before it gets to it. -/
theorem C67_same_store_decode (hp : Heap) (store : Store) (p : Parts SV) (hn : p.path.segments.length + 6 ≤ 2 ^ 32)
    (hh : ∀ a, p.authority = some a → a.host.chars.length + 2 < 2 ^ 64) (h : RefersTo p store) :
    decodeAny hp store p = .error .dangling ∨ ∃ err st', decodeAny hp store p = .ok (.error err, st') ∧ ∃ st'', decode hp store p = .ok (.error err, st'') := by
  obtain ⟨x, hx, ht⟩ := visit_of_refers h
  have hf : ∀ x ∈ visits p, ∀ st, ∃ r, decodeSize x.v x.idx x.fld st = .ok r := by
    intro x hx st
    obtain ⟨-, h2, h3, h4⟩ := mem_visits hn hx
    have hsz := decodedSize_eq x.fld x.v.chars fun e => by rw [e] at h2; obtain ⟨a, ha, ha'⟩ := h2; exact punyDecoded_ok _ (ha' ▸ hh a ha)
    have he := entry_ok h3 (h4.elim (fun h => Or.inl h.2) fun h => Or.inr h.1)
    cases hs : st.error with
    | some e => exact ⟨_, by simp only [decodeSize, he, hs, bind, Except.bind]; rfl⟩
    | none =>
      cases hd : decRes x.fld x.v.chars with
      | error e => exact ⟨_, by simp only [decodeSize, he, hs, hsz, hd, bind, Except.bind]; rfl⟩
      | ok n => exact ⟨_, by simp only [decodeSize, he, hs, hsz, hd, bind, Except.bind]; rfl⟩
  have hs : ∀ x ∈ visits p, ∀ st r, decodeSize x.v x.idx x.fld st = .ok r → st.error.isSome = true → r.2.error.isSome = true := by
    intro x hx st r hr he
    obtain ⟨-, h2, h3, h4⟩ := mem_visits hn hx
    obtain ⟨e, he'⟩ := Option.isSome_iff_exists.1 he
    simp only [decodeSize, entry_ok h3 (h4.elim (fun h => Or.inl h.2) fun h => Or.inr h.1), he', bind, Except.bind] at hr
    cases hr
    exact he
  have key := guarded_hit (fun s v => s.error.isNone && store.clear.touches v) (fun s => s.error.isSome = true) decodeSize
    (fun st v h st' h1 h2 => by
      simp only [Bool.and_eq_true] at h1 ⊢
      exact ⟨by cases h : st'.error <;> simp_all, h1.2⟩) (visits p) ⟨0, none, fun _ => false⟩ hf hs
    ⟨x, hx, fun st hst => by
      simp only [Bool.and_eq_true]
      exact ⟨by cases h : st.error <;> simp_all, ht⟩⟩
  have cmp := guarded_run (fun s v => s.error.isNone && store.clear.touches v) decodeSize (visits p) ⟨0, none, fun _ => false⟩ hf
  rw [← calls_parts] at key cmp
  rw [← calls_parts] at cmp
  simp only [decodeAny, decode]
  cases hp1 : partsStrings (guarded (fun s v => s.error.isNone && store.clear.touches v) decodeSize) p ⟨0, none, fun _ => false⟩ with
  | error e =>
    rw [hp1] at key
    simp only [Except.map, Except.error.injEq, reduceCtorEq, false_and, exists_false, or_false] at key
    subst key
    exact Or.inl rfl
  | ok r =>
    obtain ⟨r, st⟩ := r
    rw [hp1] at key cmp
    simp only [Except.map, Except.ok.injEq, reduceCtorEq, false_or] at key cmp
    obtain ⟨_, rfl, hst⟩ := key
    obtain ⟨e, he⟩ := Option.isSome_iff_exists.1 hst
    right
    cases hp2 : partsStrings decodeSize p ⟨0, none, fun _ => false⟩ with
    | error e => rw [hp2] at cmp; cases cmp
    | ok r2 =>
      obtain ⟨r2, st2⟩ := r2
      rw [hp2] at cmp
      simp only [Except.ok.injEq] at cmp
      subst cmp
      exact ⟨e, _, by simp only [bind, Except.bind, he]; rfl, _, by simp only [bind, Except.bind, he]; rfl⟩

theorem opt_flip {α β : Type} {R : α → β → Prop} {a : Option α} {b : Option β} (h : Opt R a b) : Opt (fun y x => R x y) b a := by
  cases h with
  | none => exact .none
  | some h => exact .some h

theorem each_flip {α β : Type} {R : α → β → Prop} {a : List α} {b : List β} (h : Each R a b) : Each (fun y x => R x y) b a := by
  induction h with
  | nil => exact .nil
  | cons h _ ih => exact .cons h ih

theorem related_flip {α β : Type} {R : Codec.Field → α → β → Prop} {p : Parts α} {r : Parts β} (h : Related R p r) :
    Related (fun fld y x => R fld x y) r p :=
  ⟨opt_flip h.scheme, h.absolute.symm, each_flip h.segments,
    (opt_flip h.authority).mono fun _ _ _ k => ⟨opt_flip k.1, k.2.1, opt_flip k.2.2⟩, opt_flip h.query, opt_flip h.fragment⟩

theorem rewritten_refers {sz : Codec.Field → Str → Nat} {out : Codec.Field → Str → Str} (hso : ∀ fld s, sz fld s ≠ 0 → sz fld s = (out fld s).length)
    {st' : Store} {p r : Parts SV} (h4 : Related (Rewritten sz out st') p r)
    (hc : st'.chars.length ≤ st'.cap) (h0 : st'.addr ≠ 0) (hne : r ≠ p) : RefersTo r st' := by
  apply Classical.byContradiction
  intro hno
  apply hne
  have h5 : Related (fun _ v' v => v' = v) r p := by
    refine (related_flip h4).mono fun fld v' v hin' hr => ?_
    rcases hr with ⟨hr, -⟩ | ⟨hv, hs, hc', off, k1, k2, k3⟩
    · exact hr
    · exfalso
      apply hno
      have hlen : v'.chars.length ≠ 0 := by
        rw [hc', ← hso _ _ hs]; exact hs
      exact ⟨v', (views_field r v').2 ⟨fld, hin'⟩, by omega, by simpa using hlen, 0, off, by omega, by omega, by omega⟩
  exact (Related.eq (fun _ _ _ h => h.symm) h5).symm

/-- C67: a result of `encode` or `decode` that is not the argument itself refers to the store that was given.  To encode it or
decode it with the same store is undefined, by the theorems above. -/
theorem C67_results (hp : Heap) (store : Store) (p : Parts SV) (hn : p.path.segments.length + 6 ≤ 2 ^ 32)
    (hh : ∀ a, p.authority = some a → a.host.chars.length ≤ 2 ^ 37) (r : Parts SV) (st' : Store)
    (h : encode hp store p = .ok (r, st') ∨ decode hp store p = .ok (.ok r, st')) (h0 : st'.addr ≠ 0) (hne : r ≠ p) :
    RefersTo r st' := by
  rcases h with h | h
  · obtain ⟨r', st'', h1, ⟨n, hn', -, hcap, -⟩, -, h4⟩ := encode_eq hp store (p := p) hn (fun v ⟨a, h, h'⟩ => h' ▸ hh a h)
    rw [h] at h1
    cases h1
    exact rewritten_refers encSz_out h4 (by rw [hcap, hn']; exact (reserve_cap hp store _).1) h0 hne
  · rcases decode_eq hp store (p := p) hn (fun v ⟨a, h, h'⟩ => punyDecoded_ok _ (by have := hh a h; subst h'; unfold szMod; omega)) with
      ⟨r', st'', h1, ⟨n, hn', -, hcap, -⟩, -, h4, -⟩ | ⟨e, x, st'', h1, -⟩
    · rw [h] at h1
      cases h1
      exact rewritten_refers decSz_out h4 (by rw [hcap, hn']; exact (reserve_cap hp store _).1) h0 hne
    · rw [h] at h1
      cases h1

/-- C67: encoding the result of `encode` again, or decoding it, with the store it was made in, is undefined as soon as
anything had to be encoded (but for the error `decode` may find in a host that was not encoded). -/
theorem C67_reuse (hp hp' : Heap) (store : Store) (p : Parts SV) (hn : p.path.segments.length + 6 ≤ 2 ^ 32)
    (hh : ∀ a, p.authority = some a → a.host.chars.length ≤ 2 ^ 37) (r : Parts SV) (st' : Store) (h : encode hp store p = .ok (r, st'))
    (hr : ∀ a, r.authority = some a → a.host.chars.length ≤ 2 ^ 37) (h0 : st'.addr ≠ 0) (hne : r ≠ p) :
    encodeAny hp' st' r = .error .dangling ∧
    (decodeAny hp' st' r = .error .dangling ∨ ∃ err st'', decodeAny hp' st' r = .ok (.error err, st'')) := by
  have h1 := C67_results hp store p hn hh r st' (Or.inl h) h0 hne
  have hlen : r.path.segments.length = p.path.segments.length := by
    obtain ⟨r', st'', h1, -, -, h4⟩ := encode_eq hp store (p := p) hn (fun v ⟨a, h, h'⟩ => h' ▸ hh a h)
    rw [h] at h1
    cases h1
    exact each_length h4.segments
  refine ⟨C67_same_store_encode hp' st' r (by omega) hr h1, ?_⟩
  rcases C67_same_store_decode hp' st' r (by omega) (fun a ha => by have := hr a ha; omega) h1 with k | ⟨e, s, k, -⟩
  · exact Or.inl k
  · exact Or.inr ⟨e, s, k⟩

/-- A witness: a value with a blank in its path, encoded into a fresh store and then decoded with the same store, and with
another. -/
example : ∃ r st, encode heap0 store0 ⟨none, none, ⟨true, [⟨1, b! "a b"⟩]⟩, none, none⟩ = .ok (r, st) ∧
    r.path.segments = [⟨100000, b! "a%20b"⟩] ∧ decodeAny heap0 st r = .error .dangling ∧
    ∃ d st', decodeAny heap0 ⟨50, 10, [], 3⟩ r = .ok (.ok d, st') ∧ d.path.segments = [⟨50, b! "a b"⟩] :=
  ⟨_, _, rfl, by decide +kernel, by rfl, _, _, rfl, by decide +kernel⟩

end Verif
