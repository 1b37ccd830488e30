import Verif.Model.Alias
import Verif.Proofs.PartsCodec

/-!
# The calls a traversal makes, as a list
-/

set_option linter.unusedSimpArgs false

namespace Verif.Codec
open PartsSpec

section
variable {σ : Type}

/-- The calls, one after the other. -/
def runVisits (f : SV → Nat → Field → σ → M (SV × σ)) : List Visit → σ → M σ
  | [], st => .ok st
  | x :: xs, st =>
      match f x.v x.idx x.fld st with
      | .error e => .error e
      | .ok (_, st) => runVisits f xs st

variable (f : SV → Nat → Field → σ → M (SV × σ))

theorem runVisits_append (a b : List Visit) (st : σ) : runVisits f (a ++ b) st = runVisits f a st >>= runVisits f b := by
  induction a generalizing st with
  | nil => rfl
  | cons x a ih =>
    simp only [List.cons_append, runVisits]
    cases f x.v x.idx x.fld st with
    | error e => rfl
    | ok r => obtain ⟨v, st'⟩ := r; exact ih st'

/-- `m` makes the calls `l`, as far as faults and the state are concerned. -/
def Calls {τ : Type} (m : σ → M (τ × σ)) (l : List Visit) : Prop :=
  ∀ st, Except.map Prod.snd (m st) = runVisits f l st

theorem calls_visit (fld : Field) (v : SV) : Calls f (visit f fld v) (visits1 fld v) := by
  intro st
  by_cases hv : v.ptr = 0
  · have e : visits1 fld v = [] := if_neg (by simp [hv])
    rw [e, show visit f fld v st = .ok (v, st) from if_neg (by simp [hv])]
    rfl
  · have e : visits1 fld v = [⟨v, 0, fld⟩] := if_pos hv
    rw [e, show visit f fld v st = f v 0 fld st from if_pos hv]
    simp only [runVisits]
    cases f v 0 fld st <;> rfl

theorem calls_opt (fld : Field) (v : Option SV) : Calls f (visitOpt f fld v) (visitsOpt fld v) := by
  intro st
  cases v with
  | none => rfl
  | some v =>
    have := calls_visit f fld v st
    rw [visitsOpt, ← this]
    simp only [visitOpt]
    cases visit f fld v st <;> rfl

theorem Calls.bind {f : SV → Nat → Field → σ → M (SV × σ)} {τ υ : Type} {m : σ → M (τ × σ)} {g : τ → σ → M (υ × σ)} {l l' : List Visit}
    (h1 : Calls f m l) (h2 : ∀ t, Calls f (g t) l') : Calls f (fun st => m st >>= fun x => g x.1 x.2) (l ++ l') := by
  intro st
  rw [runVisits_append, ← h1 st]
  show Except.map Prod.snd (m st >>= fun x => g x.1 x.2) = _
  cases m st with
  | error e => rfl
  | ok r => obtain ⟨t, st'⟩ := r; exact h2 t st'

theorem Calls.last {f : SV → Nat → Field → σ → M (SV × σ)} {τ υ : Type} {m : σ → M (τ × σ)} {l : List Visit}
    (h1 : Calls f m l) (k : τ → υ) : Calls f (fun st => m st >>= fun x => .ok (k x.1, x.2)) l := by
  intro st
  rw [← h1 st]
  show Except.map Prod.snd (m st >>= fun x => .ok (k x.1, x.2)) = _
  cases m st <;> rfl

theorem calls_seg : ∀ (vs : List SV) (n : Nat), Calls f (visitSegments f vs n) (visitsSeg vs n) := by
  intro vs
  induction vs with
  | nil => intro n st; rfl
  | cons v vs ih =>
    intro n st
    by_cases hv : v.ptr = 0
    · have e : visitsSeg (v :: vs) n = visitsSeg vs n := if_neg (by simp [hv])
      rw [e, ← ih n st]
      rw [show visitSegments f (v :: vs) n st = (visitSegments f vs n st >>= fun x => .ok (v :: x.1, x.2)) from if_neg (by simp [hv])]
      cases visitSegments f vs n st <;> rfl
    · have e : visitsSeg (v :: vs) n = ⟨v, n, .path⟩ :: visitsSeg vs ((n + 1) % u32Mod) := if_pos hv
      rw [e]
      rw [show visitSegments f (v :: vs) n st = (f v n .path st >>= fun x => visitSegments f vs ((n + 1) % u32Mod) x.2 >>= fun y => .ok (x.1 :: y.1, y.2)) from if_pos hv]
      simp only [runVisits]
      cases f v n .path st with
      | error e => rfl
      | ok r =>
        obtain ⟨v', st'⟩ := r
        simp only []
        rw [← ih]
        simp only [Bind.bind, Except.bind]
        cases visitSegments f vs ((n + 1) % u32Mod) st' <;> rfl

theorem calls_auth (a : Option (Authority SV)) : Calls f (visitAuthority f a) (visitsAuth a) := by
  cases a with
  | none => intro st; rfl
  | some a =>
    have h := Calls.bind (calls_opt f .userinfo a.userinfo) fun u => Calls.bind (calls_visit f .host a.host) fun h =>
      Calls.last (calls_opt f .port a.port) fun t => some (⟨u, h, t⟩ : Authority SV)
    exact h

/-- The traversal makes the calls `visits p`. -/
theorem calls_parts (p : Parts SV) : Calls f (partsStrings f p) (visits p) := by
  have h := Calls.bind (calls_opt f .scheme p.scheme) fun s => Calls.bind (calls_seg f p.path.segments 0) fun g =>
    Calls.bind (calls_auth f p.authority) fun a => Calls.bind (calls_opt f .query p.query) fun q =>
      Calls.last (calls_opt f .fragment p.fragment) fun fr => (⟨s, a, ⟨p.path.absolute, g⟩, q, fr⟩ : Parts SV)
  exact h

/-! ### Function objects that agree -/

variable {f} {g : SV → Nat → Field → σ → M (SV × σ)}

theorem congr_visit {fld : Field} {v : SV} (h : ∀ x ∈ visits1 fld v, ∀ st, f x.v x.idx x.fld st = g x.v x.idx x.fld st) (st : σ) :
    visit f fld v st = visit g fld v st := by
  unfold visit
  by_cases hv : v.ptr = 0
  · simp [hv]
  · simp only [ne_eq, hv, not_false_eq_true, if_true]
    exact h ⟨v, 0, fld⟩ (by simp [visits1, hv]) st

theorem congr_opt {fld : Field} {v : Option SV} (h : ∀ x ∈ visitsOpt fld v, ∀ st, f x.v x.idx x.fld st = g x.v x.idx x.fld st) (st : σ) :
    visitOpt f fld v st = visitOpt g fld v st := by
  cases v with
  | none => rfl
  | some v => simp only [visitOpt]; rw [congr_visit h st]

theorem congr_seg : ∀ (vs : List SV) (n : Nat), (∀ x ∈ visitsSeg vs n, ∀ st, f x.v x.idx x.fld st = g x.v x.idx x.fld st) → ∀ st,
    visitSegments f vs n st = visitSegments g vs n st := by
  intro vs
  induction vs with
  | nil => intros; rfl
  | cons v vs ih =>
    intro n h st
    by_cases hv : v.ptr = 0
    · have e : visitsSeg (v :: vs) n = visitsSeg vs n := if_neg (by simp [hv])
      rw [e] at h
      simp only [visitSegments, hv, ne_eq, not_true_eq_false, if_false, ih n h]
    · have e : visitsSeg (v :: vs) n = ⟨v, n, .path⟩ :: visitsSeg vs ((n + 1) % u32Mod) := if_pos hv
      rw [e] at h
      have h0 := h ⟨v, n, .path⟩ (by simp) st
      simp only at h0
      simp only [visitSegments, hv, ne_eq, not_false_eq_true, if_true, h0]
      cases g v n .path st with
      | error e => rfl
      | ok r => simp only [bind, Except.bind]; rw [ih _ (fun x hx => h x (List.mem_cons_of_mem _ hx))]

theorem congr_auth {a : Option (Authority SV)} (h : ∀ x ∈ visitsAuth a, ∀ st, f x.v x.idx x.fld st = g x.v x.idx x.fld st) (st : σ) :
    visitAuthority f a st = visitAuthority g a st := by
  cases a with
  | none => rfl
  | some a =>
    simp only [visitsAuth, List.mem_append] at h
    simp only [visitAuthority]
    rw [congr_opt (fun x hx => h x (Or.inl hx))]
    cases visitOpt g .userinfo a.userinfo st with
    | error e => rfl
    | ok r =>
      simp only [bind, Except.bind]
      rw [congr_visit (fun x hx => h x (Or.inr (Or.inl hx)))]
      cases visit g .host a.host r.2 with
      | error e => rfl
      | ok r' =>
        simp only []
        rw [congr_opt (fun x hx => h x (Or.inr (Or.inr hx)))]

theorem congr_parts {p : Parts SV} (h : ∀ x ∈ visits p, ∀ st, f x.v x.idx x.fld st = g x.v x.idx x.fld st) (st : σ) :
    partsStrings f p st = partsStrings g p st := by
  simp only [visits, List.mem_append] at h
  simp only [partsStrings]
  rw [congr_opt (fun x hx => h x (Or.inl hx))]
  cases visitOpt g .scheme p.scheme st with
  | error e => rfl
  | ok r1 =>
    simp only [bind, Except.bind]
    rw [congr_seg _ _ (fun x hx => h x (Or.inr (Or.inl hx)))]
    cases visitSegments g p.path.segments 0 r1.2 with
    | error e => rfl
    | ok r2 =>
      simp only []
      rw [congr_auth (fun x hx => h x (Or.inr (Or.inr (Or.inl hx))))]
      cases visitAuthority g p.authority r2.2 with
      | error e => rfl
      | ok r3 =>
        simp only []
        rw [congr_opt (fun x hx => h x (Or.inr (Or.inr (Or.inr (Or.inl hx)))))]
        cases visitOpt g .query p.query r3.2 with
        | error e => rfl
        | ok r4 =>
          simp only []
          rw [congr_opt (fun x hx => h x (Or.inr (Or.inr (Or.inr (Or.inr hx)))))]

/-! ### Function objects that give back their argument -/

theorem same_visit (h : ∀ v i fld st v' st', f v i fld st = .ok (v', st') → v' = v) {fld : Field} {v v' : SV} {st st' : σ}
    (e : visit f fld v st = .ok (v', st')) : v' = v := by
  unfold visit at e
  split at e
  · exact h _ _ _ _ _ _ e
  · cases e; rfl

theorem same_opt (h : ∀ v i fld st v' st', f v i fld st = .ok (v', st') → v' = v) {fld : Field} {v v' : Option SV} {st st' : σ}
    (e : visitOpt f fld v st = .ok (v', st')) : v' = v := by
  cases v with
  | none => simp only [visitOpt] at e; cases e; rfl
  | some v =>
    simp only [visitOpt] at e
    cases hv : visit f fld v st with
    | error e' => rw [hv] at e; cases e
    | ok r =>
      obtain ⟨w, st1⟩ := r
      rw [hv] at e
      cases e
      rw [same_visit h hv]

theorem same_seg (h : ∀ v i fld st v' st', f v i fld st = .ok (v', st') → v' = v) : ∀ (vs : List SV) (n : Nat) (vs' : List SV) (st st' : σ),
    visitSegments f vs n st = .ok (vs', st') → vs' = vs := by
  intro vs
  induction vs with
  | nil => intro n vs' st st' e; cases e; rfl
  | cons v vs ih =>
    intro n vs' st st' e
    by_cases hv : v.ptr = 0
    · simp only [visitSegments, hv, ne_eq, not_true_eq_false, if_false] at e
      cases hs : visitSegments f vs n st with
      | error e' => rw [hs] at e; cases e
      | ok r => obtain ⟨w, st1⟩ := r; rw [hs] at e; cases e; rw [ih _ _ _ _ hs]
    · simp only [visitSegments, hv, ne_eq, not_false_eq_true, if_true] at e
      cases hf : f v n .path st with
      | error e' => rw [hf] at e; cases e
      | ok r =>
        obtain ⟨w, st1⟩ := r
        rw [hf] at e
        simp only [bind, Except.bind] at e
        cases hs : visitSegments f vs ((n + 1) % u32Mod) st1 with
        | error e' => rw [hs] at e; cases e
        | ok r => obtain ⟨w', st2⟩ := r; rw [hs] at e; cases e; rw [ih _ _ _ _ hs, h _ _ _ _ _ _ hf]

theorem same_auth (h : ∀ v i fld st v' st', f v i fld st = .ok (v', st') → v' = v) {a a' : Option (Authority SV)} {st st' : σ}
    (e : visitAuthority f a st = .ok (a', st')) : a' = a := by
  cases a with
  | none => cases e; rfl
  | some a =>
    simp only [visitAuthority] at e
    cases h1 : visitOpt f .userinfo a.userinfo st with
    | error e' => rw [h1] at e; cases e
    | ok r1 =>
      rw [h1] at e
      simp only [bind, Except.bind] at e
      cases h2 : visit f .host a.host r1.2 with
      | error e' => rw [h2] at e; cases e
      | ok r2 =>
        rw [h2] at e
        simp only [] at e
        cases h3 : visitOpt f .port a.port r2.2 with
        | error e' => rw [h3] at e; cases e
        | ok r3 =>
          rw [h3] at e
          cases e
          obtain ⟨x1, y1⟩ := r1
          obtain ⟨x2, y2⟩ := r2
          obtain ⟨x3, y3⟩ := r3
          rw [same_opt h h1, same_visit h h2, same_opt h h3]

theorem same_parts (h : ∀ v i fld st v' st', f v i fld st = .ok (v', st') → v' = v) {p r : Parts SV} {st st' : σ}
    (e : partsStrings f p st = .ok (r, st')) : r = p := by
  simp only [partsStrings] at e
  cases h1 : visitOpt f .scheme p.scheme st with
  | error e' => rw [h1] at e; cases e
  | ok r1 =>
    rw [h1] at e
    simp only [bind, Except.bind] at e
    cases h2 : visitSegments f p.path.segments 0 r1.2 with
    | error e' => rw [h2] at e; cases e
    | ok r2 =>
      rw [h2] at e
      simp only [] at e
      cases h3 : visitAuthority f p.authority r2.2 with
      | error e' => rw [h3] at e; cases e
      | ok r3 =>
        rw [h3] at e
        simp only [] at e
        cases h4 : visitOpt f .query p.query r3.2 with
        | error e' => rw [h4] at e; cases e
        | ok r4 =>
          rw [h4] at e
          simp only [] at e
          cases h5 : visitOpt f .fragment p.fragment r4.2 with
          | error e' => rw [h5] at e; cases e
          | ok r5 =>
            rw [h5] at e
            cases e
            obtain ⟨x1, y1⟩ := r1
            obtain ⟨x2, y2⟩ := r2
            obtain ⟨x3, y3⟩ := r3
            obtain ⟨x4, y4⟩ := r4
            obtain ⟨x5, y5⟩ := r5
            rw [same_opt h h1, same_seg h _ _ _ _ _ h2, same_auth h h3, same_opt h h4, same_opt h h5]

end

theorem encodeSize_same {v : SV} {i : Nat} {fld : Field} {st : EncSize} {v' : SV} {st' : EncSize} (h : encodeSize v i fld st = .ok (v', st')) : v' = v := by
  simp only [encodeSize] at h
  cases h1 : entry v i fld with
  | error e => rw [h1] at h; cases h
  | ok u =>
    rw [h1] at h
    simp only [bind, Except.bind] at h
    cases h2 : encodedSize fld v.chars with
    | error e => rw [h2] at h; cases h
    | ok n => rw [h2] at h; cases h; rfl

theorem decodeSize_same {v : SV} {i : Nat} {fld : Field} {st : DecSize} {v' : SV} {st' : DecSize} (h : decodeSize v i fld st = .ok (v', st')) : v' = v := by
  simp only [decodeSize] at h
  cases h1 : entry v i fld with
  | error e => rw [h1] at h; cases h
  | ok u =>
    rw [h1] at h
    simp only [bind, Except.bind] at h
    cases h3 : st.error with
    | some e => rw [h3] at h; cases h; rfl
    | none =>
      rw [h3] at h
      simp only [] at h
      cases h2 : decodedSize fld v.chars with
      | error e => rw [h2] at h; cases h
      | ok n =>
        rw [h2] at h
        cases n with
        | error e => cases h; rfl
        | ok n => cases h; rfl

theorem visits_mem {p : Parts SV} {x : Visit} (h : x ∈ visits p) : x.v ∈ p.views ∧ x.v.ptr ≠ 0 := by
  have seg : ∀ (vs : List SV) (n : Nat), x ∈ visitsSeg vs n → x.v ∈ vs ∧ x.v.ptr ≠ 0 := by
    intro vs
    induction vs with
    | nil => intro n h; simp [visitsSeg] at h
    | cons v vs ih =>
      intro n h
      by_cases hv : v.ptr = 0
      · have e : visitsSeg (v :: vs) n = visitsSeg vs n := if_neg (by simp [hv])
        rw [e] at h
        exact ⟨List.mem_cons_of_mem _ (ih _ h).1, (ih _ h).2⟩
      · have e : visitsSeg (v :: vs) n = ⟨v, n, .path⟩ :: visitsSeg vs ((n + 1) % u32Mod) := if_pos hv
        rw [e] at h
        rcases List.mem_cons.1 h with rfl | h
        · exact ⟨by simp, hv⟩
        · exact ⟨List.mem_cons_of_mem _ (ih _ h).1, (ih _ h).2⟩
  unfold visits at h
  unfold Parts.views
  simp only [List.mem_append] at h ⊢
  rcases h with h | h | h | h | h
  · obtain ⟨h1, -, -, h4⟩ := mem_visitsOpt h
    exact ⟨by simp [h1], h4⟩
  · exact ⟨by simp [(seg _ _ h).1], (seg _ _ h).2⟩
  · cases ha : p.authority with
    | none => rw [ha] at h; simp [visitsAuth] at h
    | some a =>
      rw [ha] at h
      simp only [visitsAuth, List.mem_append] at h
      rcases h with h | h | h
      · obtain ⟨h1, -, -, h4⟩ := mem_visitsOpt h
        exact ⟨by simp [h1], h4⟩
      · obtain ⟨h1, -, -, h4⟩ := mem_visits1 h
        exact ⟨by simp [h1], by rw [h1]; exact h4⟩
      · obtain ⟨h1, -, -, h4⟩ := mem_visitsOpt h
        exact ⟨by simp [h1], h4⟩
  · obtain ⟨h1, -, -, h4⟩ := mem_visitsOpt h
    exact ⟨by simp [h1], h4⟩
  · obtain ⟨h1, -, -, h4⟩ := mem_visitsOpt h
    exact ⟨by simp [h1], h4⟩

end Verif.Codec
