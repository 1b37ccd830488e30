import Verif.Props.Traversal
import Verif.Props.Alias
import Verif.Props.Pipeline

/-!
# C82: resolving and encoding

A program may encode the components of a base and of a reference and then resolve, or resolve first and encode the result.
-/

set_option linter.unusedSimpArgs false

namespace Verif
open Codec PartsSpec PctSpec

/-- Two segments that `remove_dot_segments` treats alike. -/
def SameDots (v w : SV) : Prop :=
  (w.chars = b! "." ↔ v.chars = b! ".") ∧ (w.chars = b! ".." ↔ v.chars = b! "..") ∧ (w.chars = [] ↔ v.chars = [])

theorem each_append {α β : Type} {R : α → β → Prop} {as cs : List α} {bs ds : List β} (h : Each R as bs) (k : Each R cs ds) :
    Each R (as ++ cs) (bs ++ ds) := by
  induction h with
  | nil => exact k
  | cons h _ ih => exact .cons h ih

theorem each_dropLast {α β : Type} {R : α → β → Prop} {as : List α} {bs : List β} (h : Each R as bs) : Each R as.dropLast bs.dropLast := by
  induction h with
  | nil => exact .nil
  | cons h t ih =>
    cases t with
    | nil => exact .nil
    | cons h2 t2 => exact .cons h ih

theorem each_take {α β : Type} {R : α → β → Prop} {as : List α} {bs : List β} (h : Each R as bs) : ∀ n, Each R (as.take n) (bs.take n) := by
  induction h with
  | nil => intro n; simp; exact .nil
  | cons h _ ih =>
    intro n
    cases n with
    | zero => exact .nil
    | succ n => exact .cons h (ih n)

theorem each_len {α β : Type} {R : α → β → Prop} {as : List α} {bs : List β} (h : Each R as bs) : bs.length = as.length := by
  induction h with
  | nil => rfl
  | cons _ _ ih => simp [ih]

theorem each_last {α β : Type} {R : α → β → Prop} {as : List α} {bs : List β} (h : Each R as bs) : Opt R as.getLast? bs.getLast? := by
  induction h with
  | nil => exact .none
  | @cons a b as bs h t ih =>
    cases t with
    | nil => exact .some h
    | cons h2 t2 => simpa [List.getLast?_cons_cons] using ih

theorem each_stack {R : SV → SV → Prop} (hd : ∀ v w, R v w → SameDots v w) {gs hs : List SV} (h : Each R gs hs) :
    ∀ {st st' : List SV}, Each R st st' → Each R (stackRun SV.chars st gs) (stackRun SV.chars st' hs) := by
  induction h with
  | nil => intro st st' k; exact k
  | @cons g g' gs hs h _ ih =>
    intro st st' k
    obtain ⟨d1, d2, d3⟩ := hd _ _ h
    simp only [stackRun]
    by_cases e1 : g.chars = b! "."
    · rw [if_pos e1, if_pos (d1.2 e1)]; exact ih k
    · rw [if_neg e1, if_neg (fun e => e1 (d1.1 e))]
      by_cases e2 : g.chars = b! ".."
      · rw [if_pos e2, if_pos (d2.2 e2)]; exact ih (each_dropLast k)
      · rw [if_neg e2, if_neg (fun e => e2 (d2.1 e))]; exact ih (each_append k (.cons h .nil))

theorem each_rds {R : SV → SV → Prop} (hd : ∀ v w, R v w → SameDots v w) (hn : R ⟨0, []⟩ ⟨0, []⟩) {gs hs : List SV} (h : Each R gs hs) :
    Each R (rdsSegs SV.chars SV.null gs) (rdsSegs SV.chars SV.null hs) := by
  have hst := each_stack hd h .nil
  have hdir : dirEnd false (hs.map SV.chars) = dirEnd false (gs.map SV.chars) := by
    simp only [dirEnd, List.getLast?_map]
    have hl := each_last h
    revert hl
    generalize gs.getLast? = a
    generalize hs.getLast? = b
    intro hl
    cases hl with
    | none => rfl
    | some k =>
      obtain ⟨d1, d2, d3⟩ := hd _ _ k
      simp only [Option.map_some, isDot]
      apply Bool.eq_iff_iff.2
      simp only [Bool.or_eq_true, beq_iff_eq, List.isEmpty_iff]
      rw [d1, d2, d3]
  simp only [rdsSegs, hdir]
  split
  · revert hst
    generalize stackRun SV.chars [] gs = x
    generalize stackRun SV.chars [] hs = y
    intro hst
    have hl := each_last hst
    revert hl
    generalize x.getLast? = a
    generalize y.getLast? = b
    intro hl
    cases hl with
    | none => exact each_append hst (.cons hn .nil)
    | some k =>
      obtain ⟨d1, d2, d3⟩ := hd _ _ k
      simp only [List.isEmpty_iff, d3]
      split
      · exact hst
      · exact each_append hst (.cons hn .nil)
  · exact hst

theorem join_related {R : Codec.Field → SV → SV → Prop} {b b' r r' : Parts SV} (strict : Bool) (hb : Related R b b') (hr : Related R r r')
    (hd : ∀ v w, R .path v w → SameDots v w) (hn : R .path ⟨0, []⟩ ⟨0, []⟩)
    (hs : strict = true ∨ optEq SV.eq r'.scheme b'.scheme = optEq SV.eq r.scheme b.scheme) : Related R (join b r strict) (join b' r' strict) := by
  have hcond : (!strict && optEq SV.eq r'.scheme b'.scheme) = (!strict && optEq SV.eq r.scheme b.scheme) := by
    rcases hs with rfl | h
    · rfl
    · rw [h]
  have hsch : Opt (R .scheme) (if (!strict && optEq SV.eq r.scheme b.scheme) = true then none else r.scheme)
      (if (!strict && optEq SV.eq r'.scheme b'.scheme) = true then none else r'.scheme) := by
    rw [hcond]
    split
    · exact .none
    · exact hr.scheme
  have hrds : ∀ {p p' : Path SV}, Each (R .path) p.segments p'.segments → Each (R .path) p.removeDotSegments.segments p'.removeDotSegments.segments := by
    intro p p' h
    rw [rds_eq, rds_eq]; exact each_rds hd hn h
  have hab : ∀ (p : Path SV), p.removeDotSegments.absolute = p.absolute := by intro p; rw [rds_eq]
  have hemp : ∀ {p p' : Path SV}, Each (R .path) p.segments p'.segments → p'.empty = p.empty := by
    intro p p' h
    simp only [Path.empty]
    revert h
    generalize p.segments = x
    generalize p'.segments = y
    intro h
    cases h <;> rfl
  have hauth : ∀ {x y : Option (Authority SV)}, Opt (fun a b => Opt (R .userinfo) a.userinfo b.userinfo ∧ R .host a.host b.host ∧ Opt (R .port) a.port b.port) x y →
      y.isSome = x.isSome := by
    intro x y h; cases h <;> rfl
  have hopt : ∀ {S : SV → SV → Prop} {x y : Option SV}, Opt S x y → y.isSome = x.isSome := by
    intro S x y h; cases h <;> rfl
  have hmerge : (merge b' r').absolute = (merge b r).absolute ∧ Each (R .path) (merge b r).segments (merge b' r').segments := by
    have e1 := hauth hb.authority
    have e2 := hemp hb.segments
    have e3 := each_len hb.segments
    simp only [merge, e1, e2, e3]
    split
    · exact ⟨rfl, hr.segments⟩
    · exact ⟨hb.absolute, each_append (each_take hb.segments _) hr.segments⟩
  simp only [join]
  revert hsch
  generalize (if (!strict && optEq SV.eq r.scheme b.scheme) = true then none else r.scheme) = x
  generalize (if (!strict && optEq SV.eq r'.scheme b'.scheme) = true then none else r'.scheme) = y
  intro hsch
  cases hsch with
  | some h =>
    exact ⟨.some h, by simp only [hab]; exact hr.absolute, hrds hr.segments, hr.authority, hr.query, hr.fragment⟩
  | none =>
    have hra := hr.authority
    revert hra
    generalize r.authority = ra
    generalize r'.authority = ra'
    intro hra
    cases hra with
    | some h => exact ⟨hb.scheme, by simp only [hab]; exact hr.absolute, hrds hr.segments, .some h, hr.query, hr.fragment⟩
    | none =>
      have e1 := hemp hr.segments
      have e2 := hr.absolute
      have e3 := hopt hr.query
      simp only [e1, e2, e3]
      split
      · refine ⟨hb.scheme, hb.absolute, hb.segments, hb.authority, ?_, hr.fragment⟩
        simp only
        split
        · exact hr.query
        · exact hb.query
      · split
        · exact ⟨hb.scheme, by simp only [hab]; exact hr.absolute, hrds hr.segments, hb.authority, hr.query, hr.fragment⟩
        · exact ⟨hb.scheme, by simp only [hab]; exact hmerge.1, hrds hmerge.2, hb.authority, hr.query, hr.fragment⟩

/-! ### Sizes and null views of a joined value -/

theorem rdsSegs_length {σ : Type} (f : σ → Str) (nul : σ) (gs : List σ) : (rdsSegs f nul gs).length ≤ gs.length + 1 := by
  rcases rdsSegs_sub f nul gs with h | ⟨l, e, h⟩
  · have := h.length_le; omega
  · have := h.length_le; rw [e]; simp; omega

theorem join_segments (b r : Parts SV) (strict : Bool) : (join b r strict).path.segments.length ≤ b.path.segments.length + r.path.segments.length + 1 := by
  have h1 : ∀ p : Path SV, p.removeDotSegments.segments.length ≤ p.segments.length + 1 := by
    intro p; rw [rds_eq]; exact rdsSegs_length _ _ _
  have h2 := h1 r.path
  have h3 := h1 (merge b r)
  have h4 : (merge b r).segments.length ≤ b.path.segments.length + r.path.segments.length := by
    simp only [merge]
    split
    · simp
    · have : ∀ n, (b.path.segments.take n).length ≤ b.path.segments.length := by intro n; simp; omega
      simp only [List.length_append]
      have := this (if b.path.segments.length > 1 then b.path.segments.length - 1 else b.path.segments.length)
      omega
  simp only [join]
  split
  · simp only; omega
  · split
    · simp only; omega
    · split
      · simp only; omega
      · split
        · simp only; omega
        · simp only; omega

theorem rds_mem (p : Path SV) : ∀ g ∈ p.removeDotSegments.segments, g ∈ p.segments ∨ g = ⟨0, []⟩ := by
  intro g hg
  rw [rds_eq] at hg
  rcases rdsSegs_sub SV.chars SV.null p.segments with h | ⟨l, e, h⟩
  · exact Or.inl (h.subset hg)
  · simp only [e, List.mem_append, List.mem_singleton] at hg
    exact hg.imp (fun k => h.subset k) id

/-- Each string of a joined value is one of the base or of the reference, in the same component, or the null view. -/
theorem join_field (b r : Parts SV) (strict : Bool) (fld : Codec.Field) (v : SV) (h : InField (join b r strict) fld v) :
    InField b fld v ∨ InField r fld v ∨ (fld = .path ∧ v = ⟨0, []⟩) := by
  have hmem : ∀ g ∈ (merge b r).segments, g ∈ b.path.segments ∨ g ∈ r.path.segments := by
    intro g hg
    simp only [merge] at hg
    split at hg
    · exact Or.inr hg
    · simp only [List.mem_append] at hg
      exact hg.imp List.mem_of_mem_take id
  have hm2 : ∀ g ∈ (merge b r).removeDotSegments.segments, g ∈ b.path.segments ∨ g ∈ r.path.segments ∨ g = ⟨0, []⟩ := by
    intro g hg
    rcases rds_mem _ g hg with h | h
    · rcases hmem g h with h | h
      · exact Or.inl h
      · exact Or.inr (Or.inl h)
    · exact Or.inr (Or.inr h)
  have hsc : ∀ s, (if (!strict && optEq SV.eq r.scheme b.scheme) = true then none else r.scheme) = some s → r.scheme = some s := by
    intro s hs
    split at hs
    · simp at hs
    · exact hs
  simp only [join] at h
  split at h
  · rename_i s hs
    have hs := hsc s hs
    cases fld with
    | scheme => exact Or.inr (Or.inl (hs.trans h))
    | path => exact Or.inr ((rds_mem _ v h).imp id fun k => ⟨rfl, k⟩)
    | _ => exact Or.inr (Or.inl h)
  · split at h
    · rename_i a ha
      cases fld with
      | scheme => exact Or.inl h
      | path => exact Or.inr ((rds_mem _ v h).imp id fun k => ⟨rfl, k⟩)
      | userinfo => obtain ⟨x, hx, k⟩ := h; exact Or.inr (Or.inl ⟨x, ha.trans hx, k⟩)
      | host => obtain ⟨x, hx, k⟩ := h; exact Or.inr (Or.inl ⟨x, ha.trans hx, k⟩)
      | port => obtain ⟨x, hx, k⟩ := h; exact Or.inr (Or.inl ⟨x, ha.trans hx, k⟩)
      | _ => exact Or.inr (Or.inl h)
    · split at h
      · cases fld with
        | query =>
          have h : (if r.query.isSome = true then r.query else b.query) = some v := h
          split at h
          · exact Or.inr (Or.inl h)
          · exact Or.inl h
        | fragment => exact Or.inr (Or.inl h)
        | _ => exact Or.inl h
      · split at h
        · cases fld with
          | path => exact Or.inr ((rds_mem _ v h).imp id fun k => ⟨rfl, k⟩)
          | query => exact Or.inr (Or.inl h)
          | fragment => exact Or.inr (Or.inl h)
          | _ => exact Or.inl h
        · cases fld with
          | path => exact (hm2 v h).imp id (Or.imp id fun k => ⟨rfl, k⟩)
          | query => exact Or.inr (Or.inl h)
          | fragment => exact Or.inr (Or.inl h)
          | _ => exact Or.inl h

/-! ### Rewriting and joining -/

/-- The text of a field as rewritten. -/
def rewriteT (sz : Codec.Field → Str → Nat) (out : Codec.Field → Str → Str) (fld : Codec.Field) (s : Str) : Str :=
  if sz fld s = 0 then s else out fld s

theorem rewritten_text {sz : Codec.Field → Str → Nat} {out : Codec.Field → Str → Str} {st : Store} {p q : Parts SV} (h : Related (Rewritten sz out st) p q)
    (hnull : ∀ v ∈ p.views, v.ptr = 0 → v.chars = []) (h0 : ∀ fld, rewriteT sz out fld [] = []) :
    Related (fun fld v w => w.chars = rewriteT sz out fld v.chars) p q := by
  refine h.mono fun fld v w hin hr => ?_
  rcases hr with ⟨rfl, h1 | h1⟩ | ⟨_, h1, h2, _⟩
  · rw [hnull w ((views_field p w).2 ⟨fld, hin⟩) h1, h0]
  · simp [rewriteT, h1]
  · simp [rewriteT, h1, h2]

theorem rewrite_join {T : Codec.Field → Str → Str} {b b' r r' t' : Parts SV} (strict : Bool)
    (hb : Related (fun fld v w => w.chars = T fld v.chars) b b') (hr : Related (fun fld v w => w.chars = T fld v.chars) r r')
    (ht : Related (fun fld v w => w.chars = T fld v.chars) (join b r strict) t') (h0 : T .path [] = [])
    (hd : ∀ v w : SV, InField b .path v ∨ InField r .path v → w.chars = T .path v.chars → SameDots v w)
    (hs : strict = true ∨ ∀ v, InField b .scheme v ∨ InField r .scheme v → ∀ w, InField b .scheme w ∨ InField r .scheme w →
      T .scheme v.chars = T .scheme w.chars → v.chars = w.chars) : (join b' r' strict).text = t'.text := by
  have hd0 : SameDots ⟨0, []⟩ ⟨0, []⟩ := ⟨Iff.rfl, Iff.rfl, Iff.rfl⟩
  have hb' : Related (fun fld v w => w.chars = T fld v.chars ∧ (fld = .path → SameDots v w)) b b' :=
    hb.mono fun fld v w hin e => ⟨e, fun hf => by subst hf; exact hd v w (Or.inl hin) e⟩
  have hr' : Related (fun fld v w => w.chars = T fld v.chars ∧ (fld = .path → SameDots v w)) r r' :=
    hr.mono fun fld v w hin e => ⟨e, fun hf => by subst hf; exact hd v w (Or.inr hin) e⟩
  have hj := join_related strict hb' hr' (fun v w h => h.2 rfl) ⟨h0.symm, fun _ => hd0⟩ (by
    rcases hs with hs | hs
    · exact Or.inl hs
    · right
      have e1 := hb.scheme
      have e2 := hr.scheme
      have i1 : ∀ v, b.scheme = some v → InField b .scheme v := fun v h => h
      have i2 : ∀ v, r.scheme = some v → InField r .scheme v := fun v h => h
      revert e1 e2 i1 i2
      generalize b.scheme = x
      generalize b'.scheme = x'
      generalize r.scheme = y
      generalize r'.scheme = y'
      intro e1 e2 i1 i2
      cases e1 with
      | none => cases e2 <;> rfl
      | some e1 =>
        cases e2 with
        | none => rfl
        | some e2 =>
          apply Bool.eq_iff_iff.2
          simp only [optEq, SV.eq, beq_iff_eq, e1, e2]
          exact ⟨fun h => hs _ (Or.inr (i2 _ rfl)) _ (Or.inl (i1 _ rfl)) h, fun h => by rw [h]⟩)
  have hc := (related_flip (hj.mono (S := fun fld v w => w.chars = T fld v.chars) fun _ _ _ _ h => h.1)).comp ht
  exact (related_text (hc.mono fun _ _ _ _ ⟨y, h1, h2⟩ => h2.trans h1.symm)).symm

theorem encT_nil (fld : Codec.Field) : rewriteT encSz encOut fld [] = [] := by cases fld <;> decide +kernel

theorem encT_pct {fld : Codec.Field} (hf : fld ≠ .host) (s : Str) : rewriteT encSz encOut fld s = encP (encSetOf fld) s := by
  have h1 := encP_id_iff (encSetOf fld) s
  simp only [rewriteT, encSz, encOut, if_neg hf]
  cases e : needsPctencode s (encSetOf fld) with
  | false => simp [h1.2 e]
  | true =>
    simp only [if_true]
    split
    · rename_i h0
      have h2 := List.eq_nil_of_length_eq_zero h0
      have := encP_length (encSetOf fld) s
      rw [h0] at this
      rw [h2]; exact List.eq_nil_of_length_eq_zero (by omega)
    · rfl

theorem encT_dots (v w : SV) (h : w.chars = rewriteT encSz encOut .path v.chars) : SameDots v w := by
  rw [encT_pct (by decide)] at h
  have inj : ∀ {s}, encP (encSetOf .path) s = s → (w.chars = s ↔ v.chars = s) := by
    intro s hs
    rw [h]
    constructor
    · intro e
      rw [← decP_encP (encSetOf .path) v.chars (Or.inl (by decide)), e.trans hs.symm, decP_encP _ _ (Or.inl (by decide))]
    · intro e; rw [e, hs]
  exact ⟨inj (by decide +kernel), inj (by decide +kernel), inj (by decide +kernel)⟩

/-- **C82**: encoding the base and the reference and resolving gives, text for text, what resolving and encoding gives, with any
stores and any allocators.  Without `strict` the schemes must not have a percent sign in them (a valid scheme has none). -/
theorem C82_encode (hp1 hp2 hp3 : Heap) (s1 s2 s3 : Store) (b r : Parts SV) (strict : Bool)
    (hn : b.path.segments.length + r.path.segments.length + 7 ≤ 2 ^ 32)
    (hh : ∀ a, b.authority = some a ∨ r.authority = some a → a.host.chars.length ≤ 2 ^ 37)
    (hnull : ∀ v ∈ b.views ++ r.views, v.ptr = 0 → v.chars = [])
    (hs : strict = true ∨ ∀ v, b.scheme = some v ∨ r.scheme = some v → (0x25 : UInt8) ∉ v.chars) :
    ∃ b' r' t' st1 st2 st3, encode hp1 s1 b = .ok (b', st1) ∧ encode hp2 s2 r = .ok (r', st2) ∧ encode hp3 s3 (join b r strict) = .ok (t', st3) ∧
      (join b' r' strict).text = t'.text ∧ compose (join b' r' strict) = compose t' := by
  have hnb : ∀ v ∈ b.views, v.ptr = 0 → v.chars = [] := fun v hv => hnull v (by simp [hv])
  have hnr : ∀ v ∈ r.views, v.ptr = 0 → v.chars = [] := fun v hv => hnull v (by simp [hv])
  have hnj : ∀ v ∈ (join b r strict).views, v.ptr = 0 → v.chars = [] := by
    intro v hv
    obtain ⟨fld, hin⟩ := (views_field _ v).1 hv
    rcases join_field b r strict fld v hin with h | h | ⟨_, rfl⟩
    · exact hnb v ((views_field b v).2 ⟨fld, h⟩)
    · exact hnr v ((views_field r v).2 ⟨fld, h⟩)
    · exact fun _ => rfl
  have hseg := join_segments b r strict
  obtain ⟨b', st1, e1, _, _, k1⟩ := encode_eq hp1 s1 (p := b) (by simp only [u32Mod]; omega) (fun v ⟨a, h, h'⟩ => h' ▸ hh a (Or.inl h))
  obtain ⟨r', st2, e2, _, _, k2⟩ := encode_eq hp2 s2 (p := r) (by simp only [u32Mod]; omega) (fun v ⟨a, h, h'⟩ => h' ▸ hh a (Or.inr h))
  obtain ⟨t', st3, e3, _, _, k3⟩ := encode_eq hp3 s3 (p := join b r strict) (by simp only [u32Mod]; omega) (fun v hv => by
    rcases join_field b r strict _ v hv with ⟨a, h, h'⟩ | ⟨a, h, h'⟩ | ⟨h, _⟩
    · exact h' ▸ hh a (Or.inl h)
    · exact h' ▸ hh a (Or.inr h)
    · exact absurd h (by decide))
  have key : (join b' r' strict).text = t'.text := by
    refine rewrite_join (T := rewriteT encSz encOut) strict (rewritten_text k1 hnb encT_nil) (rewritten_text k2 hnr encT_nil) (rewritten_text k3 hnj encT_nil)
      (encT_nil _) (fun v w _ h => encT_dots v w h) (hs.imp id fun hs v hv w hw h => ?_)
    rw [encT_pct (by decide), encT_pct (by decide)] at h
    rw [← decP_encP (encSetOf .scheme) v.chars (Or.inr (hs v hv)), h, decP_encP _ _ (Or.inr (hs w hw))]
  exact ⟨b', r', t', st1, st2, st3, e1, e2, e3, key, by rw [compose_text, compose_text, key]⟩

theorem decT_nil (fld : Codec.Field) : rewriteT decSz decOut fld [] = [] := by cases fld <;> decide +kernel

theorem decT_pct {fld : Codec.Field} (hf : fld ≠ .host) (s : Str) : rewriteT decSz decOut fld s = decP s := by
  simp only [rewriteT, decSz, decRes, decOut, if_neg hf]
  cases e : needsPctdecode s with
  | false =>
    have := C26_identity s e
    rw [pctdecode_eq] at this
    simp [Except.ok.inj this]
  | true => simp [needsPctdecode_len e]

/-- A segment that decodes to a dot segment is written as one. -/
def NoHiddenDots (s : Str) : Prop := (pctdecode s = .ok (b! ".") → s = b! ".") ∧ (pctdecode s = .ok (b! "..") → s = b! "..")

instance (s : Str) : Decidable (NoHiddenDots s) := inferInstanceAs (Decidable (_ ∧ _))

theorem decT_dots (v w : SV) (hv : NoHiddenDots v.chars) (h : w.chars = rewriteT decSz decOut .path v.chars) : SameDots v w := by
  rw [decT_pct (by decide)] at h
  obtain ⟨h1, h2⟩ := hv
  simp only [pctdecode_eq, ← h] at h1 h2
  have d1 : decP (b! ".") = b! "." := by decide +kernel
  have d2 : decP (b! "..") = b! ".." := by decide +kernel
  refine ⟨⟨fun e => h1 (by rw [e]), fun e => by rw [h, e, d1]⟩, ⟨fun e => h2 (by rw [e]), fun e => by rw [h, e, d2]⟩,
    ⟨fun e => ?_, fun e => by rw [h, e]; rfl⟩⟩
  exact decodes_nil.1 ((decodes_iff _ _).2 (e.symm.trans h))

/-- **C82**: decoding and then resolving gives what resolving and then decoding gives, unless a dot segment is written with
triplets. -/
theorem C82_decode (hp1 hp2 hp3 : Heap) (s1 s2 s3 : Store) (b r : Parts SV) (strict : Bool)
    (hn : b.path.segments.length + r.path.segments.length + 7 ≤ 2 ^ 32)
    (hh : ∀ a, b.authority = some a ∨ r.authority = some a → a.host.chars.length + 2 < 2 ^ 64)
    (hnull : ∀ v ∈ b.views ++ r.views, v.ptr = 0 → v.chars = [])
    (hs : strict = true ∨ ∀ v, b.scheme = some v ∨ r.scheme = some v → (0x25 : UInt8) ∉ v.chars)
    (hdots : ∀ g ∈ b.path.segments ++ r.path.segments, NoHiddenDots g.chars)
    (b' r' : Parts SV) (st1 st2 : Store) (e1 : decode hp1 s1 b = .ok (.ok b', st1)) (e2 : decode hp2 s2 r = .ok (.ok r', st2)) :
    ∃ t' st3, decode hp3 s3 (join b r strict) = .ok (.ok t', st3) ∧
      (join b' r' strict).text = t'.text ∧ compose (join b' r' strict) = compose t' := by
  have hnb : ∀ v ∈ b.views, v.ptr = 0 → v.chars = [] := fun v hv => hnull v (by simp [hv])
  have hnr : ∀ v ∈ r.views, v.ptr = 0 → v.chars = [] := fun v hv => hnull v (by simp [hv])
  have hnj : ∀ v ∈ (join b r strict).views, v.ptr = 0 → v.chars = [] := by
    intro v hv
    obtain ⟨fld, hin⟩ := (views_field _ v).1 hv
    rcases join_field b r strict fld v hin with h | h | ⟨_, rfl⟩
    · exact hnb v ((views_field b v).2 ⟨fld, h⟩)
    · exact hnr v ((views_field r v).2 ⟨fld, h⟩)
    · exact fun _ => rfl
  have hseg := join_segments b r strict
  have hjh : ∀ v, InField (join b r strict) .host v → InField b .host v ∨ InField r .host v := by
    intro v hv
    rcases join_field b r strict _ v hv with h | h | ⟨h, _⟩
    · exact Or.inl h
    · exact Or.inr h
    · exact absurd h (by decide)
  have hb' : ∀ v, InField b .host v → v.chars.length + 2 < szMod := fun v ⟨a, h, h'⟩ => h' ▸ hh a (Or.inl h)
  have hr' : ∀ v, InField r .host v → v.chars.length + 2 < szMod := fun v ⟨a, h, h'⟩ => h' ▸ hh a (Or.inr h)
  have got : ∀ {hp : Heap} {s : Store} {p q : Parts SV} {st : Store}, p.path.segments.length + 6 ≤ u32Mod → (∀ v, InField p .host v → v.chars.length + 2 < szMod) →
      decode hp s p = .ok (.ok q, st) → Related (Rewritten decSz decOut st) p q ∧ ∀ x ∈ visits p, ∃ n, decRes x.fld x.v.chars = .ok n := by
    intro hp s p q st k1 k2 e
    rcases decode_eq hp s (p := p) k1 (fun v hv => punyDecoded_ok _ (k2 v hv)) with ⟨r', st'', h1, _, _, h4, h5⟩ | ⟨e', x, st'', h1, _⟩
    · rw [e] at h1
      simp only [Except.ok.injEq, Prod.mk.injEq] at h1
      obtain ⟨rfl, rfl⟩ := h1
      exact ⟨h4, h5⟩
    · rw [e] at h1
      simp at h1
  obtain ⟨k1, o1⟩ := got (by simp only [u32Mod]; omega) hb' e1
  obtain ⟨k2, o2⟩ := got (by simp only [u32Mod]; omega) hr' e2
  rcases decode_eq hp3 s3 (p := join b r strict) (by simp only [u32Mod]; omega) (fun v hv => punyDecoded_ok _ ((hjh v hv).elim (hb' v) (hr' v)))
    with ⟨t', st3, e3, _, _, k3, _⟩ | ⟨e, x, st3, _, hx, he⟩
  · have key : (join b' r' strict).text = t'.text := by
      refine rewrite_join (T := rewriteT decSz decOut) strict (rewritten_text k1 hnb decT_nil) (rewritten_text k2 hnr decT_nil) (rewritten_text k3 hnj decT_nil)
        (decT_nil _) (fun v w hv h => decT_dots v w (hdots v (List.mem_append.2 hv)) h) (hs.imp id fun hs v hv w hw h => ?_)
      rw [decT_pct (by decide), decT_pct (by decide)] at h
      have nop : ∀ {s : Str}, (0x25 : UInt8) ∉ s → decP s = s := by
        intro s hs'
        have := C26_identity s (by
          cases hx : needsPctdecode s with
          | false => rfl
          | true =>
            simp only [needsPctdecode, List.any_eq_true, beq_iff_eq] at hx
            obtain ⟨x, h1, h2⟩ := hx
            exact absurd (h2 ▸ h1) hs')
        rw [pctdecode_eq] at this
        exact Except.ok.inj this
      rwa [nop (hs v hv), nop (hs w hw)] at h
    exact ⟨t', st3, e3, key, by rw [compose_text, compose_text, key]⟩
  · exfalso
    obtain ⟨_, hin, hptr, _⟩ := mem_visits (by simp only [u32Mod]; omega) hx
    have hfld : x.fld = .host := by
      apply Classical.byContradiction
      intro hf
      simp [decRes, hf] at he
    have fin : ∀ {p : Parts SV}, InField p x.fld x.v → (∀ x ∈ visits p, ∃ n, decRes x.fld x.v.chars = .ok n) → False := by
      intro p hp' ho
      obtain ⟨y, hy, e1, e2⟩ := visit_of_field hp' hptr
      obtain ⟨n, hn'⟩ := ho y hy
      rw [e1, e2, he] at hn'
      simp at hn'
    rw [hfld] at hin fin
    rcases hjh _ hin with h | h
    · exact fin h o1
    · exact fin h o2

/-- C82, why the segments must not hide dots: as written, `%2e%2e` climbs only if it is decoded first. -/
theorem C82_decode_counterexample : ∃ b r b' r' t' : Parts SV,
    split arm ⟨4096, b! "http://h/a/b/c"⟩ = .ok (some b) ∧ splitReference arm ⟨8192, b! "%2e%2e/d"⟩ = .ok (some r) ∧
    (decode heap0 store0 b).toOption.bind (·.1.toOption) = some b' ∧ (decode heap0 store0 r).toOption.bind (·.1.toOption) = some r' ∧
    (decode heap0 store0 (join b r true)).toOption.bind (·.1.toOption) = some t' ∧
    compose (join b' r' true) = b! "http://h/a/d" ∧ compose t' = b! "http://h/a/b/../d" := by
  refine ⟨⟨some ⟨4096, b! "http"⟩, some ⟨none, ⟨4103, b! "h"⟩, none⟩, ⟨true, [⟨4105, b! "a"⟩, ⟨4107, b! "b"⟩, ⟨4109, b! "c"⟩]⟩, none, none⟩,
    ⟨none, none, ⟨false, [⟨8192, b! "%2e%2e"⟩, ⟨8199, b! "d"⟩]⟩, none, none⟩, _, _, _, by rfl, by rfl, by rfl, by rfl, by rfl, by decide +kernel, by decide +kernel⟩

/-- C82, why schemes without `strict` must not have percent signs: two schemes may be equal only once encoded. -/
theorem C82_scheme_counterexample : ∃ b r b' r' t' : Parts SV,
    (encode heap0 store0 b).toOption.map (·.1) = some b' ∧ (encode heap0 store0 r).toOption.map (·.1) = some r' ∧
    (encode heap0 store0 (join b r false)).toOption.map (·.1) = some t' ∧ compose (join b' r' false) ≠ compose t' := by
  refine ⟨⟨some ⟨4096, b! "%20"⟩, none, ⟨false, [⟨4105, b! "a"⟩]⟩, none, none⟩, ⟨some ⟨8192, b! " "⟩, none, ⟨false, [⟨8194, b! "b"⟩]⟩, none, none⟩,
    _, _, _, by rfl, by rfl, by rfl, by decide +kernel⟩

/-- A parsed path has no more segments than the text has characters, and one. -/
theorem parsed_segments (pl : Plat) (sv : SV) (p : Parts SV) (e : split pl sv = .ok (some p) ∨ splitReference pl sv = .ok (some p)) :
    p.path.segments.length ≤ sv.chars.length + 1 := by
  have h1 := C05_compose_split pl sv p e
  have h2 : p.path.toStr.length ≤ sv.chars.length := by
    rw [← h1]; simp only [compose, List.length_append]; omega
  have h3 : ∀ gs : List Str, gs.length ≤ (Abnf.slashes gs).length := by
    intro gs
    induction gs with
    | nil => simp
    | cons g gs ih => rw [slashes_cons]; simp; omega
  rw [toStr_text] at h2
  have h4 : p.path.segments.length ≤ (pathText (p.path.map SV.chars)).length + 1 := by
    obtain ⟨ab, gs⟩ := p.path
    cases gs with
    | nil => simp
    | cons g gs =>
      simp only [pathText, Path.map, List.map_cons, List.length_append, List.length_cons]
      have := h3 (gs.map SV.chars)
      simp only [List.length_map] at this
      omega
  omega

/-- The views and the number of segments of a parsed text. -/
theorem parsed_small (pl : Plat) (sv : SV) (p : Parts SV) (e : split pl sv = .ok (some p) ∨ splitReference pl sv = .ok (some p)) (hsv : sv.ptr ≠ 0) :
    (∀ v ∈ p.views, v.chars.length ≤ sv.chars.length ∧ (v.ptr = 0 → v.chars = [])) ∧ p.path.segments.length ≤ sv.chars.length + 1 := by
  refine ⟨?_, parsed_segments pl sv p e⟩
  intro v hv
  rcases C08_views_alias_input pl sv p e v hv with ⟨pre, post, h1, h2⟩ | ⟨rfl, _⟩
  · refine ⟨by rw [h1]; simp; omega, fun h => by omega⟩
  · exact ⟨by simp, fun _ => rfl⟩

/-- A scheme that was parsed has no percent sign. -/
theorem parsed_scheme (pl : Plat) (sv : SV) (p : Parts SV) (e : split pl sv = .ok (some p) ∨ splitReference pl sv = .ok (some p)) :
    ∀ v, p.scheme = some v → (0x25 : UInt8) ∉ v.chars := by
  intro v hv
  have hv' : p.valid pl = .ok true := by
    rcases e with e | e
    · exact C07_split_valid pl sv p e
    · rw [C07_splitReference_valid pl sv p e, hv]; rfl
  have := (C53_components pl p hv').2.1 v hv
  exact fun h => this _ h (by decide)

/-- C82 for texts: whatever base and reference are parsed, of less than 4 GiB together. -/
theorem C82_strings (pl : Plat) (hp1 hp2 hp3 : Heap) (s1 s2 s3 : Store) (base ref : SV) (b r : Parts SV) (strict : Bool)
    (eb : split pl base = .ok (some b)) (er : splitReference pl ref = .ok (some r)) (h1 : base.ptr ≠ 0) (h2 : ref.ptr ≠ 0)
    (hlen : base.chars.length + ref.chars.length + 9 ≤ 2 ^ 32) :
    ∃ b' r' t t' st1 st2 st3, joinStr pl base ref strict = .ok (some t) ∧ encode hp1 s1 b = .ok (b', st1) ∧ encode hp2 s2 r = .ok (r', st2) ∧
      encode hp3 s3 t = .ok (t', st3) ∧ compose (join b' r' strict) = compose t' := by
  have kb := parsed_small pl base b (Or.inl eb) h1
  have kr := parsed_small pl ref r (Or.inr er) h2
  obtain ⟨b', r', t', st1, st2, st3, e1, e2, e3, _, e4⟩ := C82_encode hp1 hp2 hp3 s1 s2 s3 b r strict (by omega) (fun a ha => by
      rcases ha with ha | ha
      · have := (kb.1 _ ((views_field b _).2 ⟨.host, a, ha, rfl⟩)).1; omega
      · have := (kr.1 _ ((views_field r _).2 ⟨.host, a, ha, rfl⟩)).1; omega)
    (fun v hv => (List.mem_append.1 hv).elim (fun h => (kb.1 v h).2) fun h => (kr.1 v h).2)
    (Or.inr fun v hv => hv.elim (parsed_scheme pl base b (Or.inl eb) v) (parsed_scheme pl ref r (Or.inr er) v))
  exact ⟨b', r', _, t', st1, st2, st3, by simp [joinStr, eb, er, bind, Except.bind, pure, Except.pure], e1, e2, e3, e4⟩

/-- A base and a reference with text to encode meet the hypotheses of `C82_encode` and `C82_decode`, dot segments included. -/
def commuteBase : Parts SV := ⟨some ⟨4096, b! "http"⟩, some ⟨none, ⟨5000, bucher⟩, none⟩, ⟨true, [⟨4105, b! "a b"⟩, ⟨4109, b! "c"⟩, ⟨4200, b! "d"⟩]⟩, none, none⟩
def commuteRef : Parts SV := ⟨none, none, ⟨false, [⟨8192, b! ".."⟩, ⟨8199, b! "50%"⟩, ⟨8205, b! "."⟩]⟩, some ⟨8300, b! "x y"⟩, none⟩

example : commuteBase.path.segments.length + commuteRef.path.segments.length + 7 ≤ 2 ^ 32 ∧
    (∀ a, commuteBase.authority = some a ∨ commuteRef.authority = some a → a.host.chars.length ≤ 2 ^ 37) ∧
    (∀ v ∈ commuteBase.views ++ commuteRef.views, v.ptr = 0 → v.chars = []) ∧
    (∀ v, commuteBase.scheme = some v ∨ commuteRef.scheme = some v → (0x25 : UInt8) ∉ v.chars) ∧
    (∀ g ∈ commuteBase.path.segments ++ commuteRef.path.segments, NoHiddenDots g.chars) := by
  refine ⟨by decide, ?_, by decide, ?_, by decide +kernel⟩
  · rintro a (h | h)
    · obtain rfl := (Option.some.inj h).symm; decide
    · simp [commuteRef] at h
  · rintro v (h | h)
    · obtain rfl := (Option.some.inj h).symm; decide
    · simp [commuteRef] at h

example : (encode heap0 store0 (join commuteBase commuteRef true)).toOption.map (fun x => compose x.1) =
    some (b! "http://xn--bcher-kva.example/a%20b/50%25/?x%20y") := by decide +kernel

end Verif
