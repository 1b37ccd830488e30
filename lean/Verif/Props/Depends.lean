import Verif.Proofs.JoinText

/-!
# C85: what resolution takes from its base
-/

namespace Verif
set_option linter.unusedSimpArgs false

/-- The reference is taken as relative: it has no scheme, or without `strict` that of the base. -/
def TakenRelative (b r : Parts SV) (strict : Bool) : Prop :=
  r.scheme = none ∨ (strict = false ∧ r.text.scheme = b.text.scheme)

/-- The reference has a path that does not begin with a slash, and no authority. -/
def RelativePath (r : Parts SV) : Prop := r.authority = none ∧ r.path.segments ≠ [] ∧ r.path.absolute = false

theorem join_absolute {b r : Parts SV} {strict : Bool} (h : ¬ TakenRelative b r strict) :
    join b r strict = ⟨r.scheme, r.authority, r.path.removeDotSegments, r.query, r.fragment⟩ := by
  have hs : r.scheme ≠ none := fun e => h (Or.inl e)
  have hc : (!strict && optEq SV.eq r.scheme b.scheme) = false := by
    cases strict with
    | true => rfl
    | false =>
      cases e : optEq SV.eq r.scheme b.scheme with
      | false => rfl
      | true =>
        refine absurd (Or.inr ⟨rfl, ?_⟩) h
        simpa [Parts.text, Parts.map] using (optEq_iff (f := SV.chars) svEq_iff').1 e
  simp only [join, hc]
  cases e : r.scheme with
  | none => exact absurd e hs
  | some s => rfl

theorem join_taken {b r : Parts SV} {strict : Bool} (h : TakenRelative b r strict) :
    join b r strict = join b { r with scheme := none } true := by
  have hc : (if (!strict && optEq SV.eq r.scheme b.scheme) = true then none else r.scheme) = none := by
    rcases h with h | ⟨h1, h2⟩
    · rw [h]; split <;> rfl
    · have : optEq SV.eq r.scheme b.scheme = true := (optEq_iff (f := SV.chars) svEq_iff').2 (by simpa [Parts.text, Parts.map] using h2)
      rw [h1, this]; rfl
  simp only [join, hc]
  rfl

/-- What `join` makes of a reference that is taken as relative. -/
theorem join_relative (b r : Parts SV) (h : r.scheme = none) : join b r true =
    match r.authority with
    | some a => ⟨b.scheme, some a, r.path.removeDotSegments, r.query, r.fragment⟩
    | none =>
      if r.path.empty then ⟨b.scheme, b.authority, b.path, if r.query.isSome then r.query else b.query, r.fragment⟩
      else if r.path.absolute then ⟨b.scheme, b.authority, r.path.removeDotSegments, r.query, r.fragment⟩
      else ⟨b.scheme, b.authority, (merge b r).removeDotSegments, r.query, r.fragment⟩ := by
  have hc : (if (!true && optEq SV.eq r.scheme b.scheme) = true then none else r.scheme) = none := by rw [h]; split <;> rfl
  simp only [join, hc]
  rfl

/-- **C85**: the fragment of the base is never taken. -/
theorem C85_fragment (b r : Parts SV) (strict : Bool) (f : Option SV) : join { b with fragment := f } r strict = join b r strict := rfl

/-- **C85**: the query of the base is taken exactly if the reference has nothing but, perhaps, a fragment. -/
theorem C85_query (b r : Parts SV) (strict : Bool) (q : Option SV) : join { b with query := q } r strict = join b r strict ↔
    q = b.query ∨ ¬ (TakenRelative b r strict ∧ r.authority = none ∧ r.path.segments = [] ∧ r.query = none) := by
  by_cases h : TakenRelative b r strict
  · have h' : TakenRelative { b with query := q } r strict := h
    rw [join_taken h, join_taken h', join_relative _ _ rfl, join_relative _ _ rfl]
    cases ha : r.authority with
    | some a => simp [ha]
    | none =>
      by_cases he : r.path.empty = true
      · have he' : r.path.segments = [] := by simpa [Path.empty] using he
        cases hq : r.query with
        | some y => simp [ha, he, hq]
        | none => simp [ha, he, hq, he', h]
      · have he' : r.path.segments ≠ [] := by simpa [Path.empty] using he
        simp [ha, he, he', merge]
  · have h' : ¬ TakenRelative { b with query := q } r strict := h
    rw [join_absolute h, join_absolute h']
    simp [h]

/-- **C85**: the authority of the base is taken exactly if the reference has neither scheme nor authority. -/
theorem C85_authority (b r : Parts SV) (strict : Bool) (a : Option (Authority SV)) : join { b with authority := a } r strict = join b r strict ↔
    a = b.authority ∨ ¬ (TakenRelative b r strict ∧ r.authority = none) := by
  by_cases h : TakenRelative b r strict
  · have h' : TakenRelative { b with authority := a } r strict := h
    rw [join_taken h, join_taken h', join_relative _ _ rfl, join_relative _ _ rfl]
    cases ha : r.authority with
    | some a => simp [ha]
    | none =>
      have e : (a = b.authority ∨ ¬ (TakenRelative b r strict ∧ (none : Option (Authority SV)) = none)) ↔ a = b.authority := by simp [h]
      rw [e]
      constructor
      · intro k
        have k := congrArg Parts.authority k
        by_cases he : r.path.empty = true
        · simpa [ha, he] using k
        · cases hb : r.path.absolute <;> simpa [ha, he, hb] using k
      · rintro rfl; rfl
  · have h' : ¬ TakenRelative { b with authority := a } r strict := h
    rw [join_absolute h, join_absolute h']
    simp [h]

/-- **C85**: nothing of the path of the base is taken if the reference has a scheme, an authority or a path that begins with a slash. -/
theorem C85_path (b r : Parts SV) (strict : Bool) (p : Path SV)
    (h : ¬ TakenRelative b r strict ∨ r.authority ≠ none ∨ (r.path.segments ≠ [] ∧ r.path.absolute = true)) :
    join { b with path := p } r strict = join b r strict := by
  by_cases h0 : TakenRelative b r strict
  · have h' : TakenRelative { b with path := p } r strict := h0
    rw [join_taken h0, join_taken h', join_relative _ _ rfl, join_relative _ _ rfl]
    cases ha : r.authority with
    | some a => simp [ha]
    | none =>
      rcases h with h | h | ⟨h1, h2⟩
      · exact absurd h0 h
      · exact absurd ha h
      · have he : r.path.empty = false := by simpa [Path.empty] using h1
        simp [ha, he, h2]
  · have h' : ¬ TakenRelative { b with path := p } r strict := h0
    rw [join_absolute h0, join_absolute h']

/-- **C85**: of a path with more than one segment, the last is not taken if the reference has a path. -/
theorem C85_last_segment (b r : Parts SV) (strict : Bool) (ab : Bool) (pre : List SV) (x y : SV) (hp : pre ≠ []) (hr : r.path.segments ≠ []) :
    join { b with path := ⟨ab, pre ++ [x]⟩ } r strict = join { b with path := ⟨ab, pre ++ [y]⟩ } r strict := by
  have hm : merge { b with path := ⟨ab, pre ++ [x]⟩ } { r with scheme := none } = merge { b with path := ⟨ab, pre ++ [y]⟩ } { r with scheme := none } := by
    have hl : 0 < pre.length := List.length_pos_iff.2 hp
    simp [merge, Path.empty, hl, List.take_append]
  have he : r.path.empty = false := by simpa [Path.empty] using hr
  by_cases h : TakenRelative b r strict
  · have h1 : TakenRelative { b with path := ⟨ab, pre ++ [x]⟩ } r strict := h
    have h2 : TakenRelative { b with path := ⟨ab, pre ++ [y]⟩ } r strict := h
    rw [join_taken h1, join_taken h2, join_relative _ _ rfl, join_relative _ _ rfl, hm]
    cases ha : r.authority with
    | some a => simp [ha]
    | none => simp [ha, he]
  · have h1 : ¬ TakenRelative { b with path := ⟨ab, pre ++ [x]⟩ } r strict := h
    have h2 : ¬ TakenRelative { b with path := ⟨ab, pre ++ [y]⟩ } r strict := h
    rw [join_absolute h1, join_absolute h2]

def notHash (c : UInt8) : Bool := c != 0x23

theorem hash_slashes {gs : List Str} (h : ∀ g ∈ gs, Abnf.segment g) : ∀ c ∈ Abnf.slashes gs, notHash c = true := by
  intro c hc
  obtain ⟨e, he, hc⟩ := List.mem_flatten.1 hc
  obtain ⟨g, hg, rfl⟩ := List.mem_map.1 he
  rcases List.mem_cons.1 hc with rfl | hc
  · decide
  · exact only_mono only_segment (by byte_tac) _ (h g hg) c hc

theorem hash_part {t A p} (h : Abnf.PartDerives Abnf.segmentNz t A p) : ∀ c ∈ t, notHash c = true := by
  intro c hc
  cases h with
  | abempty a gs hA hgs =>
    rcases List.mem_append.1 hc with hc | hc
    · rcases List.mem_append.1 hc with hc | hc
      · exact (by decide : ∀ c ∈ b! "//", notHash c = true) c hc
      · have hh : ∀ c ∈ a.host, notHash c = true := only_mono only_host (by byte_tac) _ hA.host
        simp only [Abnf.authorityText] at hc
        rcases List.mem_append.1 hc with hc | hc
        · rcases List.mem_append.1 hc with hc | hc
          · cases hu : a.userinfo with
            | none => simp [hu] at hc
            | some u =>
              simp only [hu] at hc
              rcases List.mem_append.1 hc with hc | hc
              · exact only_mono only_userinfo (by byte_tac) _ (hA.userinfo u hu) c hc
              · exact (by decide : ∀ c ∈ b! "@", notHash c = true) c hc
          · exact hh c hc
        · cases hp : a.port with
          | none => simp [hp] at hc
          | some u =>
            simp only [hp] at hc
            rcases List.mem_append.1 hc with hc | hc
            · exact (by decide : ∀ c ∈ b! ":", notHash c = true) c hc
            · exact only_mono only_port (by byte_tac) _ (hA.port u hp) c hc
    · exact hash_slashes hgs c hc
  | root => exact (by decide : ∀ c ∈ b! "/", notHash c = true) c hc
  | absolute g gs hg hgs =>
    rcases List.mem_append.1 hc with hc | hc
    · rcases List.mem_append.1 hc with hc | hc
      · exact (by decide : ∀ c ∈ b! "/", notHash c = true) c hc
      · exact only_mono only_segmentNz (by byte_tac) _ hg c hc
    · exact hash_slashes hgs c hc
  | rootless g gs hg hgs =>
    rcases List.mem_append.1 hc with hc | hc
    · exact only_mono only_segmentNz (by byte_tac) _ hg c hc
    · exact hash_slashes hgs c hc
  | empty => simp at hc

/-- **C85**, for texts: of a base with a fragment, everything up to the `#` does as well. -/
theorem C85_text (pl : Plat) (base cut ref : SV) (strict : Bool) (f : Str) (t : Parts SV) (hc : base.chars = cut.chars ++ b! "#" ++ f)
    (h0 : (0x23 : UInt8) ∉ cut.chars) (h : joinStr pl base ref strict = .ok (some t)) :
    ∃ t', joinStr pl cut ref strict = .ok (some t') ∧ t'.text = t.text := by
  obtain ⟨b, r, e1, e2, rfl⟩ := (C19_join_strings pl base ref strict t).1 h
  obtain ⟨h1, h2, -⟩ := split_spec e1
  have h3 := split_counted e1
  obtain ⟨sch, u, k1, k2, k3, k4, k5, k6⟩ := h1
  have hcut : cut.chars = sch ++ b! ":" ++ u ++ Abnf.optText (b! "?") b.text.query := by
    have hn : (0x23 : UInt8) ∉ sch ++ b! ":" ++ u ++ Abnf.optText (b! "?") b.text.query := by
      have hall : ∀ c ∈ sch ++ b! ":" ++ u ++ Abnf.optText (b! "?") b.text.query, notHash c = true := by
        intro c hc'
        simp only [List.mem_append] at hc'
        rcases hc' with ((hc' | hc') | hc') | hc'
        · exact only_mono only_scheme (by byte_tac) _ k2 c hc'
        · exact (by decide : ∀ c ∈ b! ":", notHash c = true) c hc'
        · exact hash_part k3 c hc'
        · cases hq : b.text.query with
          | none => simp [hq, Abnf.optText] at hc'
          | some q =>
            rw [hq] at hc'
            rcases List.mem_append.1 hc' with hc' | hc'
            · exact (by decide : ∀ c ∈ b! "?", notHash c = true) c hc'
            · exact only_mono only_query (by byte_tac) _ (k4 q hq) c hc'
      intro hm
      have := hall _ hm
      simp [notHash] at this
    rw [k6] at hc
    cases hf : b.text.fragment with
    | none =>
      rw [hf] at hc
      simp only [Abnf.optText, List.append_nil] at hc hn
      rw [hc] at hn
      simp at hn
    | some g =>
      rw [hf] at hc
      have e : (sch ++ b! ":" ++ u ++ Abnf.optText (b! "?") b.text.query) ++ 0x23 :: g = cut.chars ++ 0x23 :: f := by
        simpa [Abnf.optText] using hc
      exact ((split_unique hn h0 e).1).symm
  obtain ⟨b', e1', hb'⟩ := split_complete (pl := pl) (sv := cut) (p := { b.text with fragment := none })
    ⟨sch, u, k1, k2, k3, k4, by simp, by simp [Abnf.optText, hcut]⟩ h2 h3
  refine ⟨join b' r strict, (C19_join_strings pl cut ref strict _).2 ⟨b', r, e1', e2, rfl⟩, ?_⟩
  rw [joinT_text, joinT_text, hb']
  rfl

/-! ### The directory of the base -/

/-- The reference `.` -/
def dotRef (a : Nat) : Parts SV := ⟨none, none, ⟨false, [⟨a, b! "."⟩]⟩, none, none⟩

theorem stackRun_append {σ : Type} (f : σ → Str) : ∀ (xs ys st : List σ), stackRun f st (xs ++ ys) = stackRun f (stackRun f st xs) ys := by
  intro xs
  induction xs with
  | nil => intro ys st; rfl
  | cons x xs ih =>
    intro ys st
    simp only [List.cons_append, stackRun]
    split
    · exact ih _ _
    · split <;> exact ih _ _

/-- The segments that `merge` keeps of the base. -/
def keptOf (gs : List Str) : List Str := gs.take (if gs.length > 1 then gs.length - 1 else gs.length)

/-- `remove_dot_segments` depends on the first segments by the stack they leave. -/
theorem rdsSegs_append {xs xs' ys : List Str} (h : ys ≠ []) (e : stackRun id [] xs = stackRun id [] xs') :
    rdsSegs id [] (xs ++ ys) = rdsSegs id [] (xs' ++ ys) := by
  simp only [rdsSegs, stackRun_append, e, List.map_id, dirEnd, getLast?_append' _ h]

theorem rdsSegs_plain (xs : List Str) : rdsSegs id [] (xs ++ [b! "c"]) = stackRun id [] xs ++ [b! "c"] := by
  have e : stackRun id [] (xs ++ [b! "c"]) = stackRun id [] xs ++ [b! "c"] := by
    rw [stackRun_append]; rfl
  have d : dirEnd false ((xs ++ [b! "c"]).map id) = false := by
    simp only [List.map_id, dirEnd, getLast?_append' xs (b := [b! "c"]) (by simp)]
    rfl
  simp only [rdsSegs, e, d, Bool.false_eq_true, if_false]

/-- What is left of the segments before a `.`, with the empty segment that says "directory". -/
def asDirectory (st : List Str) : List Str :=
  match st.getLast? with
  | none => st ++ [[]]
  | some g => if g.isEmpty then st else st ++ [[]]

theorem rdsSegs_dot (xs : List Str) : rdsSegs id [] (xs ++ [b! "."]) = asDirectory (stackRun id [] xs) := by
  have e : stackRun id [] (xs ++ [b! "."]) = stackRun id [] xs := by
    rw [stackRun_append]; rfl
  have d : dirEnd false ((xs ++ [b! "."]).map id) = true := by
    simp only [List.map_id, dirEnd, getLast?_append' xs (b := [b! "."]) (by simp)]
    rfl
  simp only [rdsSegs, e, d, if_true, asDirectory, id]
  cases (stackRun id [] xs).getLast? <;> rfl

theorem mergeT_kept (b r : Parts Str) : mergeT b r = ⟨b.path.absolute || (b.authority.isSome && b.path.segments.isEmpty), keptOf b.path.segments ++ r.path.segments⟩ := by
  cases hc : b.authority.isSome && b.path.segments.isEmpty with
  | false => simp [mergeT, hc, keptOf]
  | true =>
    have h2 : b.path.segments = [] := by simp at hc; exact hc.2
    have h1 : b.authority.isSome = true := by simp only [Bool.and_eq_true] at hc; exact hc.1
    simp [mergeT, h1, keptOf, h2]

theorem joinT_relative {b r : Parts Str} {strict : Bool} (h1 : r.scheme = none) (h2 : r.authority = none) (h3 : r.path.segments ≠ [])
    (h4 : r.path.absolute = false) : joinT b r strict = ⟨b.scheme, b.authority, rdsT (mergeT b r), r.query, r.fragment⟩ := by
  simp [joinT, h1, h2, h3, h4]

theorem kept_directory (st : List Str) : keptOf (asDirectory st) = st ↔ st.length = 1 ∨ (st ≠ [] ∧ st.getLast? ≠ some []) := by
  rcases List.eq_nil_or_concat st with rfl | ⟨pre, x, rfl⟩
  · simp [asDirectory, keptOf]
  · cases x with
    | nil =>
      cases pre with
      | nil => simp [asDirectory, keptOf]
      | cons y pre =>
        simp only [asDirectory, List.concat_eq_append, List.getLast?_append, List.getLast?_singleton, Option.some_or, List.isEmpty_nil, if_true, keptOf]
        simp
    | cons c x =>
      have : List.take (pre.length + 1) pre = pre := List.take_of_length_le (by omega)
      simp [asDirectory, keptOf, List.take_append, this]

/-- The reference that consists of the segment `c`. -/
def plainRef (a : Nat) : Parts SV := ⟨none, none, ⟨false, [⟨a, b! "c"⟩]⟩, none, none⟩

/-- **C85**: the base may be replaced by its directory, which is what the reference `.` resolves to: exactly if the directory has a single
segment, or its last one is not empty.  (The segments `dir` of the directory are those to which a reference with one plain segment adds
it.)  So not if the directory is the root. -/
theorem C85_directory (b : Parts SV) (a : Nat) (dir : List Str) (h : (join b (plainRef a) true).text.path.segments = dir ++ [b! "c"]) :
    (∀ r strict, r.scheme = none → RelativePath r → (join (join b (dotRef a) true) r strict).text = (join b r strict).text) ↔
      dir.length = 1 ∨ (dir ≠ [] ∧ dir.getLast? ≠ some []) := by
  have hd : stackRun id [] (keptOf b.text.path.segments) = dir := by
    rw [joinT_text, joinT_relative rfl rfl (by simp [plainRef, Parts.text, Parts.map, Path.map]) rfl, mergeT_kept] at h
    simp only [rdsT] at h
    have e : (plainRef a).text.path.segments = [b! "c"] := rfl
    rw [e, rdsSegs_plain] at h
    exact List.append_cancel_right h
  have hnd : ∀ g ∈ dir, isDot g = false := by
    rw [← hd]; exact stackRun_nodot id _ [] (by simp)
  have hD : (join b (dotRef a) true).text = ⟨b.text.scheme, b.text.authority,
      ⟨b.text.path.absolute || (b.text.authority.isSome && b.text.path.segments.isEmpty), asDirectory dir⟩, none, none⟩ := by
    rw [joinT_text, joinT_relative rfl rfl (by simp [dotRef, Parts.text, Parts.map, Path.map]) rfl, mergeT_kept]
    simp only [rdsT]
    have e : (dotRef a).text.path.segments = [b! "."] := rfl
    rw [e, rdsSegs_dot, hd]
    rfl
  have hne : asDirectory dir ≠ [] := by
    rcases List.eq_nil_or_concat dir with rfl | ⟨pre, x, rfl⟩
    · simp [asDirectory]
    · cases x <;> simp [asDirectory]
  have hboth : ∀ r strict, r.scheme = none → RelativePath r → ((join (join b (dotRef a) true) r strict).text = (join b r strict).text ↔
      rdsSegs id [] (keptOf (asDirectory dir) ++ r.text.path.segments) = rdsSegs id [] (keptOf b.text.path.segments ++ r.text.path.segments)) := by
    intro r strict h1 ⟨h2, h3, h4⟩
    have h3' : r.text.path.segments ≠ [] := by simpa [Parts.text, Parts.map, Path.map] using h3
    rw [joinT_text (join b (dotRef a) true), joinT_text b r, hD, joinT_relative (by simp [Parts.text, Parts.map, h1]) (by simp [Parts.text, Parts.map, h2]) h3' h4,
      joinT_relative (by simp [Parts.text, Parts.map, h1]) (by simp [Parts.text, Parts.map, h2]) h3' h4, mergeT_kept, mergeT_kept]
    have hie : (asDirectory dir).isEmpty = false := by simpa using hne
    simp only [rdsT, hie, Bool.and_false, Bool.or_false, Parts.mk.injEq, true_and, and_true, Path.mk.injEq]
  rw [← kept_directory]
  constructor
  · intro k
    have k1 := (hboth (plainRef a) true rfl ⟨rfl, by simp [plainRef], rfl⟩).1 (k _ _ rfl ⟨rfl, by simp [plainRef], rfl⟩)
    have e : (plainRef a).text.path.segments = [b! "c"] := rfl
    rw [e, rdsSegs_plain, rdsSegs_plain, hd] at k1
    have k2 := List.append_cancel_right k1
    rw [stackRun_id] at k2
    · simpa using k2
    · intro g hg
      have hg : g ∈ asDirectory dir := List.mem_of_mem_take hg
      have : g ∈ dir ∨ g = [] := by
        unfold asDirectory at hg
        split at hg
        · simpa using hg
        · split at hg
          · exact Or.inl hg
          · simpa using hg
      rcases this with h | rfl
      · exact hnd g h
      · rfl
  · intro k r strict h1 h2
    refine (hboth r strict h1 h2).2 (rdsSegs_append (by simpa [Parts.text, Parts.map, Path.map] using h2.2.1) ?_)
    rw [k, hd, stackRun_id id dir [] hnd]
    rfl

/-- C85: the directory of `http://h/x/../z` is the root, `http://h/`, and will not do for it: the reference `c` comes out as `http://h//c`. -/
theorem C85_directory_counterexample : ∃ b d : Parts SV, split x86 ⟨4096, b! "http://h/x/../z"⟩ = .ok (some b) ∧ d = join b (dotRef 8192) true ∧
    compose d = b! "http://h/" ∧ compose (join b (plainRef 8192) true) = b! "http://h/c" ∧ compose (join d (plainRef 8192) true) = b! "http://h//c" :=
  ⟨_, _, rfl, rfl, by decide +kernel, by decide +kernel, by decide +kernel⟩

/-- C85, why `C85_last_segment` asks for a second segment: an only segment is kept. -/
theorem C85_only_segment_counterexample :
    (joinStr x86 ⟨4096, b! "http://h/x"⟩ ⟨8192, b! "c"⟩ true).map (·.map compose) = .ok (some (b! "http://h/x/c")) ∧
    (joinStr x86 ⟨4096, b! "http://h/y"⟩ ⟨8192, b! "c"⟩ true).map (·.map compose) = .ok (some (b! "http://h/y/c")) := by decide +kernel

/-! Hypotheses met. -/

example : (join ⟨some ⟨1, b! "s"⟩, none, ⟨true, [⟨3, b! "a"⟩, ⟨5, b! "b"⟩]⟩, none, none⟩ (plainRef 9) true).text.path.segments = [b! "a"] ++ [b! "c"] := by
  decide +kernel
example : RelativePath (plainRef 1) := ⟨rfl, by decide, rfl⟩
example : ∃ t, joinStr x86 ⟨4096, b! "http://h/a/b?q" ++ b! "#" ++ b! "f"⟩ ⟨8192, b! "?x"⟩ true = .ok (some t) ∧ (0x23 : UInt8) ∉ b! "http://h/a/b?q" :=
  ⟨_, rfl, by decide⟩

end Verif
