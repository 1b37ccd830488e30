import Verif.Spec.Parts

/-!
# Visiting the strings of a `parts` value
-/

set_option linter.unusedSimpArgs false

namespace Verif.Codec

open PartsSpec

/-- A call of the function object. -/
structure Visit where
  v : SV
  idx : Nat
  fld : Field

def visits1 (fld : Field) (v : SV) : List Visit := if v.ptr ≠ 0 then [⟨v, 0, fld⟩] else []
def visitsOpt (fld : Field) : Option SV → List Visit
  | none => []
  | some v => visits1 fld v
def visitsSeg : List SV → Nat → List Visit
  | [], _ => []
  | v :: vs, n => if v.ptr ≠ 0 then ⟨v, n, .path⟩ :: visitsSeg vs ((n + 1) % u32Mod) else visitsSeg vs n
def visitsAuth : Option (Authority SV) → List Visit
  | none => []
  | some a => visitsOpt .userinfo a.userinfo ++ (visits1 .host a.host ++ visitsOpt .port a.port)

/-- All calls, in order. -/
def visits (p : Parts SV) : List Visit :=
  visitsOpt .scheme p.scheme ++ (visitsSeg p.path.segments 0 ++ (visitsAuth p.authority ++ (visitsOpt .query p.query ++ visitsOpt .fragment p.fragment)))

section
variable {σ : Type} {f : SV → Nat → Field → σ → M (SV × σ)} {I : List Visit → σ → Prop} {R : Visit → SV → Prop} {all : List Visit}

/-- Every call succeeds, keeps the invariant, and yields a string related to its argument. -/
def Steps (f : SV → Nat → Field → σ → M (SV × σ)) (I : List Visit → σ → Prop) (R : Visit → SV → Prop) (all : List Visit) : Prop :=
  ∀ done x rest st, all = done ++ x :: rest → I done st → x.v.ptr ≠ 0 → x.fld ≠ .path → x.idx = 0 →
    ∃ v' st', f x.v x.idx x.fld st = .ok (v', st') ∧ I (done ++ [x]) st' ∧ R x v'

/-- As `Steps`, for the calls for segments. -/
def StepsP (f : SV → Nat → Field → σ → M (SV × σ)) (I : List Visit → σ → Prop) (R : Visit → SV → Prop) (all : List Visit) : Prop :=
  ∀ done x rest st, all = done ++ x :: rest → I done st → x.v.ptr ≠ 0 → x.fld = .path →
    ∃ v' st', f x.v x.idx x.fld st = .ok (v', st') ∧ I (done ++ [x]) st' ∧ R x v'

/-- The relation of a string and what it becomes: null views stay. -/
def Became (R : Visit → SV → Prop) (fld : Field) (v v' : SV) : Prop :=
  (v.ptr = 0 ∧ v' = v) ∨ (v.ptr ≠ 0 ∧ ∃ idx, R ⟨v, idx, fld⟩ v')

/-- A part of the computation that makes the calls `l`. -/
def Piece {τ : Type} (I : List Visit → σ → Prop) (all : List Visit) (m : σ → M (τ × σ)) (l : List Visit) (Q : τ → Prop) : Prop :=
  ∀ done rest st, all = done ++ (l ++ rest) → I done st → ∃ r st', m st = .ok (r, st') ∧ I (done ++ l) st' ∧ Q r

theorem piece_visit (h : Steps f I R all) (fld : Field) (hf : fld ≠ .path) (v : SV) : Piece I all (visit f fld v) (visits1 fld v) (Became R fld v) := by
  intro done rest st ha hi
  by_cases hv : v.ptr = 0
  · have e : visits1 fld v = [] := if_neg (by simp [hv])
    rw [e] at ha ⊢
    exact ⟨v, st, if_neg (by simp [hv]), by simpa using hi, Or.inl ⟨hv, rfl⟩⟩
  · have e : visits1 fld v = [⟨v, 0, fld⟩] := if_pos hv
    rw [e] at ha ⊢
    obtain ⟨v', st', h1, h2, h3⟩ := h done ⟨v, 0, fld⟩ rest st ha hi hv hf rfl
    exact ⟨v', st', (if_pos hv).trans h1, h2, Or.inr ⟨hv, 0, h3⟩⟩

theorem piece_opt (h : Steps f I R all) (fld : Field) (hf : fld ≠ .path) (v : Option SV) :
    Piece I all (visitOpt f fld v) (visitsOpt fld v) (Opt (Became R fld) v) := by
  intro done rest st ha hi
  cases v with
  | none => exact ⟨none, st, rfl, by simpa [visitsOpt] using hi, .none⟩
  | some v =>
    obtain ⟨v', st', h1, h2, h3⟩ := piece_visit h fld hf v done rest st ha hi
    exact ⟨some v', st', by simp only [visitOpt, h1, bind, Except.bind], h2, .some h3⟩

theorem piece_seg (h : StepsP f I R all) : ∀ (vs : List SV) (n : Nat),
    Piece I all (visitSegments f vs n) (visitsSeg vs n) (Each (Became R .path) vs) := by
  intro vs
  induction vs with
  | nil => intro n done rest st ha hi; exact ⟨[], st, rfl, by simpa [visitsSeg] using hi, .nil⟩
  | cons v vs ih =>
    intro n done rest st ha hi
    by_cases hv : v.ptr = 0
    · have e : visitsSeg (v :: vs) n = visitsSeg vs n := if_neg (by simp [hv])
      rw [e] at ha ⊢
      obtain ⟨r, st', h1, h2, h3⟩ := ih n done rest st ha hi
      exact ⟨v :: r, st', (if_neg (by simp [hv])).trans (by simp only [h1, bind, Except.bind]), h2, .cons (Or.inl ⟨hv, rfl⟩) h3⟩
    · have e : visitsSeg (v :: vs) n = ⟨v, n, .path⟩ :: visitsSeg vs ((n + 1) % u32Mod) := if_pos hv
      rw [e] at ha ⊢
      obtain ⟨v', st', h1, h2, h3⟩ := h done ⟨v, n, .path⟩ _ st ha hi hv rfl
      obtain ⟨r, st'', h4, h5, h6⟩ := ih ((n + 1) % u32Mod) (done ++ [⟨v, n, .path⟩]) rest st' (by rw [ha]; simp) h2
      refine ⟨v' :: r, st'', (if_pos hv).trans ?_, by simpa using h5, .cons (Or.inr ⟨hv, n, h3⟩) h6⟩
      simp only at h1
      simp only [h1, h4, bind, Except.bind]

theorem piece_auth (h : Steps f I R all) (a : Option (Authority SV)) : Piece I all (visitAuthority f a) (visitsAuth a)
    (Opt (fun a b => Opt (Became R .userinfo) a.userinfo b.userinfo ∧ Became R .host a.host b.host ∧ Opt (Became R .port) a.port b.port) a) := by
  intro done rest st ha hi
  cases a with
  | none => exact ⟨none, st, rfl, by simpa [visitsAuth] using hi, .none⟩
  | some a =>
    simp only [visitsAuth] at ha ⊢
    obtain ⟨u, s1, h1, h2, h3⟩ := piece_opt h .userinfo (by simp) a.userinfo done _ st (by rw [ha, List.append_assoc]) hi
    obtain ⟨o, s2, h4, h5, h6⟩ := piece_visit h .host (by simp) a.host _ (visitsOpt .port a.port ++ rest) s1 (by rw [ha]; simp) h2
    obtain ⟨t, s3, h7, h8, h9⟩ := piece_opt h .port (by simp) a.port _ rest s2 (by rw [ha]; simp) h5
    exact ⟨some ⟨u, o, t⟩, s3, by simp only [visitAuthority, h1, h4, h7, bind, Except.bind], by simpa using h8, .some ⟨h3, h6, h9⟩⟩

/-- The rule for `parts_strings`. -/
theorem partsStrings_rule {p : Parts SV} (h : Steps f I R (visits p)) (hp : StepsP f I R (visits p)) {st : σ} (hi : I [] st) :
    ∃ r st', partsStrings f p st = .ok (r, st') ∧ I (visits p) st' ∧ Related (Became R) p r := by
  obtain ⟨a, s1, a1, a2, a3⟩ := piece_opt h .scheme (by simp) p.scheme [] _ st (by rw [List.nil_append]; rfl) hi
  obtain ⟨b, s2, b1, b2, b3⟩ := piece_seg hp p.path.segments 0 _ _ s1 (by rw [List.nil_append]; rfl) a2
  obtain ⟨c, s3, c1, c2, c3⟩ := piece_auth h p.authority _ (visitsOpt .query p.query ++ visitsOpt .fragment p.fragment) s2
    (by simp [visits]) b2
  obtain ⟨d, s4, d1, d2, d3⟩ := piece_opt h .query (by simp) p.query _ (visitsOpt .fragment p.fragment) s3 (by simp [visits]) c2
  obtain ⟨e, s5, e1, e2, e3⟩ := piece_opt h .fragment (by simp) p.fragment _ [] s4 (by simp [visits]) d2
  refine ⟨⟨a, c, ⟨p.path.absolute, b⟩, d, e⟩, s5, by simp only [partsStrings, a1, b1, c1, d1, e1, bind, Except.bind], by simpa [visits] using e2, ⟨a3, rfl, b3, c3, d3, e3⟩⟩

end

/-! ### Related values -/

theorem _root_.Verif.PartsSpec.Opt.eq {α : Type} {R : α → α → Prop} (h : ∀ a b, R a b → b = a) {a b : Option α} (hr : Opt R a b) : b = a := by
  cases hr with
  | none => rfl
  | some hr => rw [h _ _ hr]

theorem _root_.Verif.PartsSpec.Each.eq {α : Type} {R : α → α → Prop} (h : ∀ a b, R a b → b = a) {a b : List α} (hr : Each R a b) : b = a := by
  induction hr with
  | nil => rfl
  | cons hr _ ih => rw [h _ _ hr, ih]

theorem _root_.Verif.PartsSpec.Related.eq {R : Field → SV → SV → Prop} (h : ∀ fld a b, R fld a b → b = a) {p r : Parts SV} (hr : Related R p r) : r = p := by
  obtain ⟨h1, h2, h3, h4, h5, h6⟩ := hr
  obtain ⟨s, a, ⟨ab, gs⟩, q, f⟩ := p
  obtain ⟨s', a', ⟨ab', gs'⟩, q', f'⟩ := r
  simp only at h1 h2 h3 h4 h5 h6
  rw [Opt.eq (h _) h1, h2, Each.eq (h _) h3, Opt.eq (h _) h5, Opt.eq (h _) h6]
  congr
  refine Opt.eq (fun x y hxy => ?_) h4
  obtain ⟨u, o, t⟩ := x
  obtain ⟨u', o', t'⟩ := y
  simp only at hxy
  rw [Opt.eq (h _) hxy.1, h _ _ _ hxy.2.1, Opt.eq (h _) hxy.2.2]

theorem _root_.Verif.PartsSpec.Opt.mono {α β : Type} {R S : α → β → Prop} {a : Option α} {b : Option β} (h : ∀ x ∈ a, ∀ y, R x y → S x y) (hr : Opt R a b) : Opt S a b := by
  cases hr with
  | none => exact .none
  | some hr => exact .some (h _ rfl _ hr)

theorem _root_.Verif.PartsSpec.Each.mono {α β : Type} {R S : α → β → Prop} {a : List α} {b : List β} (hr : Each R a b) : (∀ x ∈ a, ∀ y, R x y → S x y) → Each S a b := by
  induction hr with
  | nil => exact fun _ => .nil
  | cons hr _ ih => exact fun h => .cons (h _ (by simp) _ hr) (ih fun x hx => h x (by simp [hx]))

/-- The strings of a field of a `parts` value. -/
def InField {α : Type} (p : Parts α) (fld : Field) (v : α) : Prop :=
  match fld with
  | .scheme => p.scheme = some v
  | .userinfo => ∃ a, p.authority = some a ∧ a.userinfo = some v
  | .host => ∃ a, p.authority = some a ∧ a.host = v
  | .port => ∃ a, p.authority = some a ∧ a.port = some v
  | .query => p.query = some v
  | .fragment => p.fragment = some v
  | .path => v ∈ p.path.segments

theorem _root_.Verif.PartsSpec.Related.mono {α β : Type} {R S : Field → α → β → Prop} {p : Parts α} {r : Parts β} (hr : Related R p r)
    (h : ∀ fld a b, InField p fld a → R fld a b → S fld a b) : Related S p r := by
  obtain ⟨h1, h2, h3, h4, h5, h6⟩ := hr
  refine ⟨h1.mono fun x hx y => h .scheme x y hx, h2, h3.mono fun x hx y => h .path x y hx, h4.mono fun x hx y hxy => ?_,
    h5.mono fun x hx y => h .query x y hx, h6.mono fun x hx y => h .fragment x y hx⟩
  exact ⟨hxy.1.mono fun u hu w => h .userinfo u w ⟨x, hx, hu⟩, h .host _ _ ⟨x, hx, rfl⟩ hxy.2.1, hxy.2.2.mono fun u hu w => h .port u w ⟨x, hx, hu⟩⟩

theorem _root_.Verif.PartsSpec.Opt.comp {α β γ : Type} {R : α → β → Prop} {S : β → γ → Prop} {a : Option α} {b : Option β} {c : Option γ} (h1 : Opt R a b) (h2 : Opt S b c) :
    Opt (fun x z => ∃ y, R x y ∧ S y z) a c := by
  cases h1 with
  | none => cases h2; exact .none
  | some h1 => cases h2 with
    | some h2 => exact .some ⟨_, h1, h2⟩

theorem _root_.Verif.PartsSpec.Each.comp {α β γ : Type} {R : α → β → Prop} {S : β → γ → Prop} {a : List α} {b : List β} (h1 : Each R a b) : ∀ {c : List γ}, Each S b c →
    Each (fun x z => ∃ y, R x y ∧ S y z) a c := by
  induction h1 with
  | nil => intro c h; cases h; exact .nil
  | cons h _ ih => intro c hc; cases hc with
    | cons h2 h3 => exact .cons ⟨_, h, h2⟩ (ih h3)

theorem _root_.Verif.PartsSpec.Related.comp {α β γ : Type} {R : Field → α → β → Prop} {S : Field → β → γ → Prop} {p : Parts α} {q : Parts β} {r : Parts γ} (h1 : Related R p q)
    (h2 : Related S q r) : Related (fun fld x z => ∃ y, R fld x y ∧ S fld y z) p r := by
  refine ⟨h1.scheme.comp h2.scheme, h2.absolute.trans h1.absolute, h1.segments.comp h2.segments, ?_, h1.query.comp h2.query, h1.fragment.comp h2.fragment⟩
  exact (h1.authority.comp h2.authority).mono fun x _ z ⟨y, a, b⟩ => ⟨a.1.comp b.1, ⟨_, a.2.1, b.2.1⟩, a.2.2.comp b.2.2⟩

/-! ### The calls are told apart by their position -/

def Visit.pos (x : Visit) : Nat := bitPos x.fld x.idx

theorem mem_visits1 {fld v x} (h : x ∈ visits1 fld v) : x.v = v ∧ x.idx = 0 ∧ x.fld = fld ∧ v.ptr ≠ 0 := by
  unfold visits1 at h
  split at h
  · simp only [List.mem_singleton] at h; subst h; exact ⟨rfl, rfl, rfl, by assumption⟩
  · simp at h

theorem mem_visitsOpt {fld v x} (h : x ∈ visitsOpt fld v) : v = some x.v ∧ x.idx = 0 ∧ x.fld = fld ∧ x.v.ptr ≠ 0 := by
  cases v with
  | none => simp [visitsOpt] at h
  | some v => obtain ⟨rfl, h2, h3, h4⟩ := mem_visits1 h; exact ⟨rfl, h2, h3, h4⟩

theorem mem_visitsSeg : ∀ (vs : List SV) (n : Nat) (x : Visit), n + vs.length < u32Mod → x ∈ visitsSeg vs n →
    n ≤ x.idx ∧ x.idx < n + vs.length ∧ x.fld = .path ∧ x.v.ptr ≠ 0 ∧ (vs.filter (fun v => decide (v.ptr ≠ 0)))[x.idx - n]? = some x.v := by
  intro vs
  induction vs with
  | nil => intro n x _ h; simp [visitsSeg] at h
  | cons v vs ih =>
    intro n x hl h
    rw [List.length_cons] at hl
    by_cases hv : v.ptr = 0
    · have e : visitsSeg (v :: vs) n = visitsSeg vs n := if_neg (by simp [hv])
      rw [e] at h
      obtain ⟨h1, h2, h3, h4, h5⟩ := ih n x (by omega) h
      refine ⟨h1, by simp; omega, h3, h4, ?_⟩
      rw [List.filter_cons_of_neg (by simp [hv])]; exact h5
    · have e : visitsSeg (v :: vs) n = ⟨v, n, .path⟩ :: visitsSeg vs ((n + 1) % u32Mod) := if_pos hv
      rw [e, List.mem_cons] at h
      rw [List.filter_cons_of_pos (by simp [hv])]
      rcases h with rfl | h
      · exact ⟨Nat.le_refl _, by simp, rfl, hv, by simp⟩
      · rw [Nat.mod_eq_of_lt (by omega)] at h
        obtain ⟨h1, h2, h3, h4, h5⟩ := ih (n + 1) x (by omega) h
        refine ⟨by omega, by simp; omega, h3, h4, ?_⟩
        rw [show x.idx - n = (x.idx - (n + 1)) + 1 by omega, List.getElem?_cons_succ]; exact h5

/-- The string of a field with an index. -/
def stringAt (p : Parts SV) (fld : Field) (idx : Nat) (v : SV) : Prop :=
  match fld with
  | .scheme => p.scheme = some v
  | .userinfo => ∃ a, p.authority = some a ∧ a.userinfo = some v
  | .host => ∃ a, p.authority = some a ∧ a.host = v
  | .port => ∃ a, p.authority = some a ∧ a.port = some v
  | .query => p.query = some v
  | .fragment => p.fragment = some v
  | .path => (p.path.segments.filter (fun v => decide (v.ptr ≠ 0)))[idx]? = some v

theorem stringAt_unique {p fld idx v w} (h1 : stringAt p fld idx v) (h2 : stringAt p fld idx w) : v = w := by
  cases fld
  case userinfo | port =>
    obtain ⟨a, e1, e2⟩ := h1; obtain ⟨b, e3, e4⟩ := h2
    rw [e1] at e3; cases e3; rw [e2] at e4; cases e4; rfl
  case host =>
    obtain ⟨a, e1, e2⟩ := h1; obtain ⟨b, e3, e4⟩ := h2
    rw [e1] at e3; cases e3; rw [← e2, ← e4]
  all_goals
    simp only [stringAt] at h1 h2
    rw [h1] at h2; cases h2; rfl

theorem mem_visits {p : Parts SV} (hn : p.path.segments.length + 6 ≤ u32Mod) {x : Visit} (h : x ∈ visits p) :
    stringAt p x.fld x.idx x.v ∧ InField p x.fld x.v ∧ x.v.ptr ≠ 0 ∧ ((x.fld ≠ .path ∧ x.idx = 0) ∨ (x.fld = .path ∧ x.idx + 6 < u32Mod)) := by
  obtain ⟨v, i, fld⟩ := x
  unfold visits at h
  simp only [List.mem_append] at h
  rcases h with h | h | h | h | h
  · obtain ⟨h1, h2, h3, h4⟩ := mem_visitsOpt h
    simp only at h1 h2 h3 h4; subst h3; exact ⟨h1, h1, h4, Or.inl ⟨by simp, h2⟩⟩
  · obtain ⟨h1, h2, h3, h4, h5⟩ := mem_visitsSeg _ _ _ (by omega) h
    simp only at h1 h2 h3 h4 h5; subst h3
    refine ⟨by simpa [stringAt] using h5, ?_, h4, Or.inr ⟨rfl, by simp only; omega⟩⟩
    exact (List.mem_filter.1 (List.mem_of_getElem? h5)).1
  · cases ha : p.authority with
    | none => rw [ha] at h; simp [visitsAuth] at h
    | some a =>
      rw [ha] at h
      simp only [visitsAuth, List.mem_append] at h
      rcases h with h | h | h
      · obtain ⟨h1, h2, h3, h4⟩ := mem_visitsOpt h
        simp only at h1 h2 h3 h4; subst h3; exact ⟨⟨a, ha, h1⟩, ⟨a, ha, h1⟩, h4, Or.inl ⟨by simp, h2⟩⟩
      · obtain ⟨h1, h2, h3, h4⟩ := mem_visits1 h
        simp only at h1 h2 h3 h4; subst h3; exact ⟨⟨a, ha, h1.symm⟩, ⟨a, ha, h1.symm⟩, h1 ▸ h4, Or.inl ⟨by simp, h2⟩⟩
      · obtain ⟨h1, h2, h3, h4⟩ := mem_visitsOpt h
        simp only at h1 h2 h3 h4; subst h3; exact ⟨⟨a, ha, h1⟩, ⟨a, ha, h1⟩, h4, Or.inl ⟨by simp, h2⟩⟩
  · obtain ⟨h1, h2, h3, h4⟩ := mem_visitsOpt h
    simp only at h1 h2 h3 h4; subst h3; exact ⟨h1, h1, h4, Or.inl ⟨by simp, h2⟩⟩
  · obtain ⟨h1, h2, h3, h4⟩ := mem_visitsOpt h
    simp only at h1 h2 h3 h4; subst h3; exact ⟨h1, h1, h4, Or.inl ⟨by simp, h2⟩⟩

theorem visit_of_seg : ∀ (vs : List SV) (n : Nat) (v : SV), v ∈ vs → v.ptr ≠ 0 → ∃ x ∈ visitsSeg vs n, x.v = v ∧ x.fld = .path := by
  intro vs
  induction vs with
  | nil => intro _ v h; simp at h
  | cons w vs ih =>
    intro n v hm hv
    by_cases hw : w.ptr = 0
    · have e : visitsSeg (w :: vs) n = visitsSeg vs n := if_neg (by simp [hw])
      rw [e]
      rcases List.mem_cons.1 hm with rfl | hm
      · exact absurd hw hv
      · exact ih n v hm hv
    · have e : visitsSeg (w :: vs) n = ⟨w, n, .path⟩ :: visitsSeg vs ((n + 1) % u32Mod) := if_pos hw
      rw [e]
      rcases List.mem_cons.1 hm with rfl | hm
      · exact ⟨⟨v, n, .path⟩, by simp, rfl, rfl⟩
      · obtain ⟨x, hx, h⟩ := ih ((n + 1) % u32Mod) v hm hv
        exact ⟨x, by simp [hx], h⟩

/-- Every string that is present is visited. -/
theorem visit_of_field {p : Parts SV} {fld : Field} {v : SV} (h : InField p fld v) (hv : v.ptr ≠ 0) : ∃ x ∈ visits p, x.v = v ∧ x.fld = fld := by
  have h1 : ∀ fld, visits1 fld v = [⟨v, 0, fld⟩] := fun fld => if_pos hv
  unfold visits
  simp only [List.mem_append]
  cases fld with
  | scheme => rw [show p.scheme = some v from h]; exact ⟨⟨v, 0, .scheme⟩, by simp [visitsOpt, h1], rfl, rfl⟩
  | query => rw [show p.query = some v from h]; exact ⟨⟨v, 0, .query⟩, by simp [visitsOpt, h1], rfl, rfl⟩
  | fragment => rw [show p.fragment = some v from h]; exact ⟨⟨v, 0, .fragment⟩, by simp [visitsOpt, h1], rfl, rfl⟩
  | path => obtain ⟨x, hx, h⟩ := visit_of_seg _ 0 v h hv; exact ⟨x, by simp [hx], h⟩
  | userinfo => obtain ⟨a, e1, e2⟩ := h; rw [e1]; exact ⟨⟨v, 0, .userinfo⟩, by simp [visitsAuth, e2, visitsOpt, h1], rfl, rfl⟩
  | host => obtain ⟨a, e1, e2⟩ := h; rw [e1]; exact ⟨⟨v, 0, .host⟩, by simp [visitsAuth, e2, h1], rfl, rfl⟩
  | port => obtain ⟨a, e1, e2⟩ := h; rw [e1]; exact ⟨⟨v, 0, .port⟩, by simp [visitsAuth, e2, visitsOpt, h1], rfl, rfl⟩

theorem pos_injective {p : Parts SV} (hn : p.path.segments.length + 6 ≤ u32Mod) {x y : Visit} (hx : x ∈ visits p) (hy : y ∈ visits p) (h : x.pos = y.pos) :
    x = y := by
  obtain ⟨h1, _, _, h2⟩ := mem_visits hn hx
  obtain ⟨h3, _, _, h4⟩ := mem_visits hn hy
  obtain ⟨v, i, fld⟩ := x
  obtain ⟨w, j, fld'⟩ := y
  simp only at h1 h2 h3 h4
  have e : fld = fld' ∧ i = j := by
    unfold Visit.pos bitPos at h
    simp only [u32Mod] at h h2 h4
    rcases h2 with ⟨a, rfl⟩ | ⟨rfl, a⟩ <;> rcases h4 with ⟨b, rfl⟩ | ⟨rfl, b⟩
    · refine ⟨?_, rfl⟩
      cases fld <;> cases fld' <;> simp [Field.val] at h ⊢
    · cases fld <;> simp only [Field.val, ne_eq, not_true_eq_false, reduceCtorEq, not_false_eq_true] at h a <;> omega
    · cases fld' <;> simp only [Field.val, ne_eq, not_true_eq_false, reduceCtorEq, not_false_eq_true] at h b <;> omega
    · simp only [Field.val] at h; exact ⟨rfl, by omega⟩
  obtain ⟨rfl, rfl⟩ := e
  rw [stringAt_unique h1 h3]

end Verif.Codec
