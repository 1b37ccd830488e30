import Verif.Model.Throw
import Verif.Proofs.PartsCodec

/-!
# Traversals that may throw
-/

set_option linter.unusedSimpArgs false

namespace Verif.Codec
open PartsSpec

section
variable {σ : Type}

/-- `m'` is `m` with exceptions: if none is thrown it does the same, and one that is on its way stays. -/
def Sim {τ : Type} (m : σ → M (τ × σ)) (m' : TS σ → M (τ × TS σ)) : Prop :=
  ∀ s r s', m' s = .ok (r, s') → (s.thrown = true → s'.thrown = true) ∧ (s'.thrown = false → m s.val = .ok (r, s'.val))

theorem sim_pure {τ : Type} (x : τ) : Sim (σ := σ) (fun st => .ok (x, st)) (fun s => .ok (x, s)) := by
  intro s r s' h
  cases h
  exact ⟨id, fun _ => rfl⟩

theorem Sim.bind {τ υ : Type} {m : σ → M (τ × σ)} {m' : TS σ → M (τ × TS σ)} {g : τ → σ → M (υ × σ)} {g' : τ → TS σ → M (υ × TS σ)}
    (h1 : Sim m m') (h2 : ∀ t, Sim (g t) (g' t)) : Sim (fun st => m st >>= fun x => g x.1 x.2) (fun s => m' s >>= fun x => g' x.1 x.2) := by
  intro s r s' h
  simp only at h
  cases hm : m' s with
  | error e => rw [hm] at h; cases h
  | ok q =>
    obtain ⟨t, s1⟩ := q
    rw [hm] at h
    obtain ⟨a1, a2⟩ := h1 s t s1 hm
    obtain ⟨b1, b2⟩ := h2 t s1 r s' h
    refine ⟨fun k => b1 (a1 k), fun k => ?_⟩
    have k1 : s1.thrown = false := by cases hh : s1.thrown with
      | false => rfl
      | true => rw [b1 hh] at k; cases k
    show (m s.val >>= fun x => g x.1 x.2) = _
    rw [a2 k1]
    exact b2 k

variable (o : Nat → Option Nat) (cut : Nat → σ → σ → σ) (f : SV → Nat → Field → σ → M (SV × σ))

theorem sim_call (v : SV) (i : Nat) (fld : Field) : Sim (f v i fld) (throwing o cut f v i fld) := by
  intro s r s' h
  unfold throwing at h
  cases ht : s.thrown with
  | true => rw [ht] at h; cases h; exact ⟨fun _ => ht, fun k => by rw [ht] at k; cases k⟩
  | false =>
    rw [ht] at h
    simp only [Bool.false_eq_true, if_false, false_imp_iff, true_and] at h ⊢
    cases hf : f v i fld s.val with
    | error e => rw [hf] at h; cases h
    | ok q =>
      obtain ⟨w, val⟩ := q
      rw [hf] at h
      simp only [bind, Except.bind] at h
      cases ho : o s.calls with
      | none => rw [ho] at h; cases h; exact fun _ => rfl
      | some k => rw [ho] at h; cases h; exact fun k => by cases k

theorem sim_visit (fld : Field) (v : SV) : Sim (visit f fld v) (visit (throwing o cut f) fld v) := by
  by_cases hv : v.ptr = 0
  · have e1 : visit f fld v = fun st => .ok (v, st) := by funext st; exact if_neg (by simp [hv])
    have e2 : visit (throwing o cut f) fld v = fun st => .ok (v, st) := by funext st; exact if_neg (by simp [hv])
    rw [e1, e2]; exact sim_pure v
  · have e1 : visit f fld v = f v 0 fld := by funext st; exact if_pos hv
    have e2 : visit (throwing o cut f) fld v = throwing o cut f v 0 fld := by funext st; exact if_pos hv
    rw [e1, e2]; exact sim_call o cut f v 0 fld

theorem sim_opt (fld : Field) (v : Option SV) : Sim (visitOpt f fld v) (visitOpt (throwing o cut f) fld v) := by
  cases v with
  | none => exact sim_pure none
  | some v => exact (sim_visit o cut f fld v).bind fun v => sim_pure (some v)

theorem sim_seg : ∀ (vs : List SV) (n : Nat), Sim (visitSegments f vs n) (visitSegments (throwing o cut f) vs n) := by
  intro vs
  induction vs with
  | nil => intro n; exact sim_pure []
  | cons v vs ih =>
    intro n
    by_cases hv : v.ptr = 0
    · have e : ∀ {τ : Type} (g : SV → Nat → Field → τ → M (SV × τ)), visitSegments g (v :: vs) n =
          fun st => visitSegments g vs n st >>= fun x => .ok (v :: x.1, x.2) := fun g => by
        funext st; exact if_neg (by simp [hv])
      rw [e, e]
      exact (ih n).bind fun t => sim_pure (v :: t)
    · have e : ∀ {τ : Type} (g : SV → Nat → Field → τ → M (SV × τ)), visitSegments g (v :: vs) n =
          fun st => g v n .path st >>= fun x => visitSegments g vs ((n + 1) % u32Mod) x.2 >>= fun y => .ok (x.1 :: y.1, y.2) := fun g => by
        funext st; exact if_pos hv
      rw [e, e]
      exact (sim_call o cut f v n .path).bind (g := fun t st => visitSegments f vs ((n + 1) % u32Mod) st >>= fun y => .ok (t :: y.1, y.2))
        fun t => (ih _).bind fun u => sim_pure (t :: u)

theorem sim_auth (a : Option (Authority SV)) : Sim (visitAuthority f a) (visitAuthority (throwing o cut f) a) := by
  cases a with
  | none => exact sim_pure none
  | some a =>
    exact (sim_opt o cut f .userinfo a.userinfo).bind (g := fun u st => visit f .host a.host st >>= fun h => visitOpt f .port a.port h.2 >>= fun t => .ok (some (⟨u, h.1, t.1⟩ : Authority SV), t.2))
      fun u => (sim_visit o cut f .host a.host).bind (g := fun h st => visitOpt f .port a.port st >>= fun t => .ok (some (⟨u, h, t.1⟩ : Authority SV), t.2))
      fun h => (sim_opt o cut f .port a.port).bind fun t => sim_pure (some (⟨u, h, t⟩ : Authority SV))

theorem sim_parts (p : Parts SV) : Sim (partsStrings f p) (partsStrings (throwing o cut f) p) := by
  exact (sim_opt o cut f .scheme p.scheme).bind
    (g := fun a st => visitSegments f p.path.segments 0 st >>= fun b => visitAuthority f p.authority b.2 >>= fun c =>
      visitOpt f .query p.query c.2 >>= fun d => visitOpt f .fragment p.fragment d.2 >>= fun e => .ok ((⟨a, c.1, ⟨p.path.absolute, b.1⟩, d.1, e.1⟩ : Parts SV), e.2))
    fun a => (sim_seg o cut f p.path.segments 0).bind
    (g := fun b st => visitAuthority f p.authority st >>= fun c =>
      visitOpt f .query p.query c.2 >>= fun d => visitOpt f .fragment p.fragment d.2 >>= fun e => .ok ((⟨a, c.1, ⟨p.path.absolute, b⟩, d.1, e.1⟩ : Parts SV), e.2))
    fun b => (sim_auth o cut f p.authority).bind
    (g := fun c st => visitOpt f .query p.query st >>= fun d => visitOpt f .fragment p.fragment d.2 >>= fun e => .ok ((⟨a, c, ⟨p.path.absolute, b⟩, d.1, e.1⟩ : Parts SV), e.2))
    fun c => (sim_opt o cut f .query p.query).bind
    (g := fun d st => visitOpt f .fragment p.fragment st >>= fun e => .ok ((⟨a, c, ⟨p.path.absolute, b⟩, d, e.1⟩ : Parts SV), e.2))
    fun d => (sim_opt o cut f .fragment p.fragment).bind fun e => sim_pure _

end

section
variable {σ : Type} {f : SV → Nat → Field → σ → M (SV × σ)} {o : Nat → Option Nat} {cut : Nat → σ → σ → σ}

/-- The rule for traversals that may throw. -/
theorem throwing_rule {p : Parts SV} {I : List Visit → σ → Prop} {J : σ → Prop}
    (key : ∀ done x rest s, visits p = done ++ x :: rest → I done s → x.v.ptr ≠ 0 → (x.idx = 0 ∨ x.fld = .path) →
      ∃ v' st', f x.v x.idx x.fld s = .ok (v', st') ∧ I (done ++ [x]) st' ∧ ∀ k, J (cut k s st')) {st : σ} (hi : I [] st) :
    ∃ r s, partsStrings (throwing o cut f) p ⟨st, 0, false⟩ = .ok (r, s) ∧ (s.thrown = true → J s.val) ∧
      (s.thrown = false → I (visits p) s.val ∧ partsStrings f p st = .ok (r, s.val)) ∧
      ((∀ n, o n = none) → s.thrown = false) := by
  let I' : List Visit → TS σ → Prop := fun done s =>
    (s.thrown = true → J s.val) ∧ (s.thrown = false → I done s.val) ∧ ((∀ n, o n = none) → s.thrown = false)
  have key' : ∀ done x rest s, visits p = done ++ x :: rest → I' done s → x.v.ptr ≠ 0 → (x.idx = 0 ∨ x.fld = .path) →
      ∃ v' st', throwing o cut f x.v x.idx x.fld s = .ok (v', st') ∧ I' (done ++ [x]) st' ∧ True := by
    intro done x rest s ha ⟨h1, h2, h3⟩ hv hx
    cases ht : s.thrown with
    | true => exact ⟨x.v, s, by simp [throwing, ht], ⟨h1, (fun k => absurd k (by simp [ht])), h3⟩, trivial⟩
    | false =>
      obtain ⟨v', st', k1, k2, k3⟩ := key done x rest s.val ha (h2 ht) hv hx
      cases ho : o s.calls with
      | none => exact ⟨v', ⟨st', s.calls + 1, false⟩, by simp [throwing, ht, k1, ho, bind, Except.bind], ⟨nofun, fun _ => k2, fun _ => rfl⟩, trivial⟩
      | some k => exact ⟨x.v, ⟨cut k s.val st', s.calls + 1, true⟩, by simp [throwing, ht, k1, ho, bind, Except.bind],
          ⟨fun _ => k3 k, nofun, fun h => absurd (h s.calls) (by simp [ho])⟩, trivial⟩
  obtain ⟨r, s, h1, ⟨h2, h3, h5⟩, -⟩ := partsStrings_rule (f := throwing o cut f) (I := I') (R := fun _ _ => True) (p := p)
    (fun done x rest s a b c d e => key' done x rest s a b c (Or.inl e)) (fun done x rest s a b c d => key' done x rest s a b c (Or.inr d))
    (st := ⟨st, 0, false⟩) ⟨nofun, fun _ => hi, fun _ => rfl⟩
  exact ⟨r, s, h1, h2, fun k => ⟨h3 k, ((sim_parts o cut f p) _ _ _ h1).2 k⟩, h5⟩

end

/-- The second pass, with exceptions. -/
theorem second_pass_throwing {sz : Field → Str → Nat} {out : Field → Str → Str} {hp : Heap} {p : Parts SV} {f : SV → Nat → Field → Store → M (SV × Store)}
    (o : Nat → Option Nat)
    (hsz : ∀ x ∈ visits p, vsz sz x ≠ 0 → vsz sz x = (vout out x).length) (hf : ∀ x ∈ visits p, x.v.ptr ≠ 0 → (x.idx = 0 ∨ x.fld = .path) → WriteOk sz out hp f x)
    {st : Store} (hc : st.chars = []) (hcap : total sz (visits p) ≤ st.cap) :
    ∃ r s, partsStrings (throwing o cutStore f) p ⟨st, 0, false⟩ = .ok (r, s) ∧
      (s.thrown = true → ∃ cs, s.val = { st with chars := cs } ∧ cs <+: written sz out (visits p)) ∧
      (s.thrown = false → partsStrings f p st = .ok (r, s.val)) ∧ ((∀ n, o n = none) → s.thrown = false) := by
  let I : List Visit → Store → Prop := fun done s => s = { st with chars := written sz out done }
  let J : Store → Prop := fun s => ∃ cs, s = { st with chars := cs } ∧ cs <+: written sz out (visits p)
  have key : ∀ done x rest s, visits p = done ++ x :: rest → I done s → x.v.ptr ≠ 0 → (x.idx = 0 ∨ x.fld = .path) →
      ∃ v' st', f x.v x.idx x.fld s = .ok (v', st') ∧ I (done ++ [x]) st' ∧ ∀ k, J (cutStore k s st') := by
    intro done x rest s ha hi hv hx
    have hm : x ∈ visits p := by rw [ha]; simp
    have hlen : (written sz out done).length = total sz done := written_length sz out done fun y hy => hsz y (by rw [ha]; simp [hy])
    have htot : total sz (visits p) = total sz done + (vsz sz x + total sz rest) := by rw [ha, total_append]; simp [total]
    have hw := hf x hm hv hx s (by rw [show s = { st with chars := written sz out done } from hi]; simp only; omega)
    have e1 : written sz out (done ++ [x]) = written sz out done ++ (if vsz sz x = 0 then [] else vout out x) := by simp [written]
    have hpre : written sz out (done ++ [x]) <+: written sz out (visits p) := by
      rw [ha, show done ++ x :: rest = (done ++ [x]) ++ rest by simp, written_append sz out (done ++ [x])]
      exact List.prefix_append _ _
    have fin : ∀ st', I (done ++ [x]) st' → ∀ k, J (cutStore k s st') := by
      intro st' h k
      have h : st' = { st with chars := written sz out (done ++ [x]) } := h
      refine ⟨(written sz out (done ++ [x])).take (s.chars.length + k), ?_, (List.take_prefix _ _).trans hpre⟩
      rw [h]
      rfl
    by_cases e : vsz sz x = 0
    · have hw := hw.1 e
      have hI : I (done ++ [x]) s := by
        show s = { st with chars := written sz out (done ++ [x]) }
        rw [e1, if_pos e, List.append_nil]; exact hi
      exact ⟨_, _, hw, hI, fin _ hI⟩
    · have hw := hw.2 e
      have hI : I (done ++ [x]) { s with chars := s.chars ++ vout out x } := by
        show _ = { st with chars := written sz out (done ++ [x]) }
        rw [e1, if_neg e, show s = { st with chars := written sz out done } from hi]
      exact ⟨_, _, hw, hI, fin _ hI⟩
  obtain ⟨r, s, h1, h2, h3, h4⟩ := throwing_rule (o := o) (cut := cutStore) (f := f) (I := I) (J := J) key (st := st) (by show st = { st with chars := [] }; rw [← hc])
  exact ⟨r, s, h1, h2, fun k => (h3 k).2, h4⟩

/-- The first pass, with exceptions: nothing is known of what is left when it throws, and nothing needs to be. -/
theorem first_pass_throwing {σ : Type} {f : SV → Nat → Field → σ → M (SV × σ)} (o : Nat → Option Nat) {p : Parts SV} {st : σ}
    (hf : ∀ x ∈ visits p, x.v.ptr ≠ 0 → (x.idx = 0 ∨ x.fld = .path) → ∀ st, ∃ r, f x.v x.idx x.fld st = .ok r) :
    ∃ r s, partsStrings (throwing o (fun _ st _ => st) f) p ⟨st, 0, false⟩ = .ok (r, s) ∧
      (s.thrown = false → partsStrings f p st = .ok (r, s.val)) ∧ ((∀ n, o n = none) → s.thrown = false) := by
  obtain ⟨r, s, h1, -, h3, h4⟩ := throwing_rule (o := o) (cut := fun _ st _ => st) (f := f) (I := fun _ _ => True) (J := fun _ => True) (p := p)
    (fun done x rest s a b c d => by
      obtain ⟨⟨v, st'⟩, h⟩ := hf x (by rw [a]; simp) c d s
      exact ⟨v, st', h, trivial, fun _ => trivial⟩) (st := st) trivial
  exact ⟨r, s, h1, fun k => (h3 k).2, h4⟩

end Verif.Codec
