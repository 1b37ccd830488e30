import Verif.Props.Depends
import Verif.Props.Resolve
import Verif.Props.Pct

/-!
# Property C112: references that cannot leave the directory of the base
-/

namespace Verif
set_option linter.unusedSimpArgs false

/-! ### Specification -/

/-- No beginning of the path has more segments `..` than segments other than `.` and `..`. -/
def Stays (gs : List Str) : Prop :=
  ∀ k, ((gs.take k).filter (fun g => g == b! "..")).length ≤ ((gs.take k).filter (fun g => !(g == b! ".") && !(g == b! ".."))).length

/-! ### Proofs -/

/-- `Stays`, from `d` directories down. -/
def stays : Nat → List Str → Bool
  | _, [] => true
  | d, g :: gs => if g = b! "." then stays d gs else if g = b! ".." then (decide (d ≠ 0) && stays (d - 1) gs) else stays (d + 1) gs

theorem stays_iff : ∀ (gs : List Str) (d : Nat), stays d gs = true ↔
    ∀ k, ((gs.take k).filter (fun g => g == b! "..")).length ≤ d + ((gs.take k).filter (fun g => !(g == b! ".") && !(g == b! ".."))).length
  | [], d => by simp [stays]
  | g :: gs, d => by
    rw [stays]
    by_cases h1 : g = b! "."
    · rw [if_pos h1, stays_iff gs d, h1]
      constructor
      · intro h k
        cases k with
        | zero => simp
        | succ k => rw [List.take_succ_cons, List.filter_cons_of_neg (by decide), List.filter_cons_of_neg (by decide)]; exact h k
      · intro h k
        have := h (k + 1)
        rw [List.take_succ_cons, List.filter_cons_of_neg (by decide), List.filter_cons_of_neg (by decide)] at this
        exact this
    · rw [if_neg h1]
      by_cases h2 : g = b! ".."
      · rw [if_pos h2, Bool.and_eq_true, decide_eq_true_eq, stays_iff gs (d - 1), h2]
        constructor
        · intro ⟨h0, h⟩ k
          cases k with
          | zero => simp
          | succ k =>
            have := h k
            rw [List.take_succ_cons, List.filter_cons_of_pos (by decide), List.filter_cons_of_neg (by decide), List.length_cons]
            omega
        · intro h
          have h0 : d ≠ 0 := by
            have := h 1
            rw [List.take_succ_cons, List.filter_cons_of_pos (by decide), List.filter_cons_of_neg (by decide), List.length_cons] at this
            simp only [List.take_zero, List.filter_nil, List.length_nil] at this
            omega
          refine ⟨h0, fun k => ?_⟩
          have := h (k + 1)
          rw [List.take_succ_cons, List.filter_cons_of_pos (by decide), List.filter_cons_of_neg (by decide), List.length_cons] at this
          omega
      · rw [if_neg h2, stays_iff gs (d + 1)]
        have e1 : (g == b! "..") = false := by simpa using h2
        have e2 : (!(g == b! ".") && !(g == b! "..")) = true := by simp [h1, h2]
        constructor
        · intro h k
          cases k with
          | zero => simp
          | succ k =>
            have := h k
            rw [List.take_succ_cons, List.filter_cons_of_neg (by simp [e1]), List.filter_cons_of_pos (by exact e2), List.length_cons]
            omega
        · intro h k
          have := h (k + 1)
          rw [List.take_succ_cons, List.filter_cons_of_neg (by simp [e1]), List.filter_cons_of_pos (by exact e2), List.length_cons] at this
          omega

theorem Stays_iff (gs : List Str) : Stays gs ↔ stays 0 gs = true := by
  rw [stays_iff]; simp [Stays]

instance (gs : List Str) : Decidable (Stays gs) := decidable_of_iff _ (Stays_iff gs).symm

theorem stackRun_stays (dir : List Str) : ∀ (gs st : List Str), stays st.length gs = true → stackRun id (dir ++ st) gs = dir ++ stackRun id st gs
  | [], _, _ => rfl
  | g :: gs, st, h => by
    rw [stays] at h
    simp only [stackRun, id]
    by_cases h1 : g = b! "."
    · rw [if_pos h1] at h
      rw [if_pos h1, if_pos h1]; exact stackRun_stays dir gs st h
    · rw [if_neg h1] at h
      rw [if_neg h1, if_neg h1]
      by_cases h2 : g = b! ".."
      · rw [if_pos h2, Bool.and_eq_true, decide_eq_true_eq] at h
        rw [if_pos h2, if_pos h2, List.dropLast_append_of_ne_nil (by intro e; rw [e] at h; exact h.1 rfl)]
        exact stackRun_stays dir gs st.dropLast (by rw [List.length_dropLast]; exact h.2)
      · rw [if_neg h2] at h
        rw [if_neg h2, if_neg h2, List.append_assoc]
        exact stackRun_stays dir gs (st ++ [g]) (by rw [List.length_append]; exact h)

theorem stackRun_leaves {x : Str} : ∀ (gs st : List Str), stays st.length gs = false → x ∉ gs → x ∉ st → x ∉ stackRun id ([x] ++ st) gs
  | [], _, h, _, _ => by simp [stays] at h
  | g :: gs, st, h, hx, hs => by
    rw [List.mem_cons, not_or] at hx
    rw [stays] at h
    simp only [stackRun, id]
    by_cases h1 : g = b! "."
    · rw [if_pos h1] at h
      rw [if_pos h1]; exact stackRun_leaves gs st h hx.2 hs
    · rw [if_neg h1] at h
      rw [if_neg h1]
      by_cases h2 : g = b! ".."
      · rw [if_pos h2] at h
        rw [if_pos h2]
        by_cases h3 : st = []
        · subst h3
          intro hm
          have := (stackRun_sublist id gs _).subset hm
          simp only [List.append_nil, List.dropLast_singleton, List.nil_append] at this
          exact hx.2 this
        · have h4 : st.length ≠ 0 := by simpa using h3
          rw [List.dropLast_append_of_ne_nil h3]
          refine stackRun_leaves gs st.dropLast ?_ hx.2 (fun hm => hs (List.dropLast_subset _ hm))
          rw [List.length_dropLast]
          simpa [h4] using h
      · rw [if_neg h2] at h
        rw [if_neg h2, List.append_assoc]
        exact stackRun_leaves gs (st ++ [g]) (by rw [List.length_append]; exact h) hx.2 (by
          rw [List.mem_append, not_or]; exact ⟨hs, by simpa using hx.1⟩)

/-- The result of `remove_dot_segments` from the stack. -/
def ended (d : Bool) (st : List Str) : List Str := if d then asDirectory st else st

theorem rdsSegs_ended (gs : List Str) : rdsSegs id [] gs = ended (dirEnd false gs) (stackRun id [] gs) := by
  simp only [rdsSegs, ended, List.map_id]
  cases dirEnd false gs with
  | false => rfl
  | true =>
    simp only [if_true, asDirectory]
    cases (stackRun id [] gs).getLast? <;> rfl

theorem ended_prefix (d : Bool) (st : List Str) : st <+: ended d st := by
  unfold ended asDirectory
  cases d
  · exact List.prefix_rfl
  · simp only [if_true]
    cases st.getLast? with
    | none => exact List.prefix_append ..
    | some g => cases g <;> simp

theorem dirEnd_last {xs ys : List Str} (h : ys ≠ []) : dirEnd false (xs ++ ys) = dirEnd false ys := by
  simp only [dirEnd, getLast?_append' xs h]

/-- The directory that a base stands for, from its segments. -/
theorem dir_of {b : Parts SV} {a : Nat} {dir : List Str} (h : (join b (plainRef a) true).text.path.segments = dir ++ [b! "c"]) :
    stackRun id [] (keptOf b.text.path.segments) = dir := by
  rw [joinT_text, joinT_relative rfl rfl (by simp [plainRef, Parts.text, Parts.map, Path.map]) rfl, mergeT_kept] at h
  simp only [rdsT] at h
  have e : (plainRef a).text.path.segments = [b! "c"] := rfl
  rw [e, rdsSegs_plain] at h
  exact List.append_cancel_right h

theorem joined_relative {b r : Parts SV} {strict : Bool} (h1 : r.scheme = none) (h2 : RelativePath r) : (join b r strict).text =
    ⟨b.text.scheme, b.text.authority, ⟨b.text.path.absolute || (b.text.authority.isSome && b.text.path.segments.isEmpty),
      ended (dirEnd false r.text.path.segments) (stackRun id (stackRun id [] (keptOf b.text.path.segments)) r.text.path.segments)⟩,
      r.text.query, r.text.fragment⟩ := by
  obtain ⟨h2, h3, h4⟩ := h2
  have h3' : r.text.path.segments ≠ [] := by simpa [Parts.text, Parts.map, Path.map] using h3
  rw [joinT_text, joinT_relative (by simp [Parts.text, Parts.map, h1]) (by simp [Parts.text, Parts.map, h2]) h3' h4, mergeT_kept]
  simp only [rdsT, rdsSegs_ended, dirEnd_last h3', stackRun_append]

theorem stackRun_empty {gs : List Str} (h0 : gs ≠ []) (h : stackRun id [] gs = []) : dirEnd false gs = true := by
  rcases List.eq_nil_or_concat gs with rfl | ⟨pre, x, rfl⟩
  · exact absurd rfl h0
  · rw [List.concat_eq_append] at h ⊢
    rw [stackRun_append] at h
    simp only [dirEnd, List.getLast?_append, List.getLast?_singleton, Option.some_or]
    simp only [stackRun, id] at h
    by_cases h1 : x = b! "."
    · rw [h1]; decide
    · rw [if_neg h1] at h
      by_cases h2 : x = b! ".."
      · rw [h2]; decide
      · rw [if_neg h2] at h; simp at h

/-- A path with more segments begins with the text up to the last slash of the one with `c` behind the same segments. -/
theorem path_prefix (ab : Bool) (dir q : List Str) (hq : q ≠ []) : ∃ P t, pathText ⟨ab, dir ++ [b! "c"]⟩ = P ++ b! "c" ∧ pathText ⟨ab, dir ++ q⟩ = P ++ t := by
  obtain ⟨q0, q, rfl⟩ : ∃ x y, q = x :: y := by
    cases q with
    | nil => exact absurd rfl hq
    | cons x y => exact ⟨x, y, rfl⟩
  cases dir with
  | nil => exact ⟨if ab then b! "/" else [], q0 ++ Abnf.slashes q, by simp [pathText, Abnf.slashes], by simp [pathText]⟩
  | cons d dir =>
    refine ⟨(if ab then b! "/" else []) ++ d ++ Abnf.slashes dir ++ b! "/", q0 ++ Abnf.slashes q, ?_, ?_⟩
    · simp only [pathText, List.cons_append, slashes_append, slashes_cons]
      simp [Abnf.slashes]
    · simp only [pathText, List.cons_append, slashes_append, slashes_cons]
      simp

/-! ### The property -/

/-- **C112**: a reference with a relative path no beginning of which has more `..` than ordinary segments resolves to a place below the directory
of the base: scheme and authority are those of the base, and the path begins with the segments of the directory.  (`dir`: the segments
before `c` in what the reference `c` resolves to.)  Query and fragment of the reference do not matter, and neither does what segments
like `%2e%2e` or `...` look like. -/
theorem C112_stays (b r : Parts SV) (strict : Bool) (a : Nat) (dir : List Str) (h : (join b (plainRef a) true).text.path.segments = dir ++ [b! "c"])
    (h1 : r.scheme = none) (h2 : RelativePath r) (hs : Stays r.text.path.segments) :
    (join b r strict).text.scheme = b.text.scheme ∧ (join b r strict).text.authority = b.text.authority ∧
      dir <+: (join b r strict).text.path.segments := by
  rw [joined_relative h1 h2, dir_of h]
  refine ⟨rfl, rfl, ?_⟩
  have := stackRun_stays dir r.text.path.segments [] ((Stays_iff _).1 hs)
  rw [List.append_nil] at this
  simp only [this]
  exact List.IsPrefix.trans (List.prefix_append ..) (ended_prefix _ _)

/-- **C112**, in text: if `c` resolves to `P` followed by `c`, such a reference resolves to a URI that begins with `P`.  (The directory must
not end in an empty segment, as the one of `http://h/x//y` does.) -/
theorem C112_text (b r : Parts SV) (strict : Bool) (a : Nat) (dir : List Str) (P : Str)
    (h : (join b (plainRef a) true).text.path.segments = dir ++ [b! "c"]) (hd : dir.getLast? ≠ some []) (hP : compose (join b (plainRef a) true) = P ++ b! "c")
    (h1 : r.scheme = none) (h2 : RelativePath r) (hs : Stays r.text.path.segments) : P <+: compose (join b r strict) := by
  have h2' : r.text.path.segments ≠ [] := by have := h2.2.1; simpa [Parts.text, Parts.map, Path.map] using this
  have e1 := joined_relative (b := b) (strict := true) (r := plainRef a) rfl ⟨rfl, by simp [plainRef], rfl⟩
  have e2 := joined_relative (b := b) (strict := strict) h1 h2
  have hst := stackRun_stays dir r.text.path.segments [] ((Stays_iff _).1 hs)
  rw [List.append_nil] at hst
  rw [dir_of h, hst] at e2
  have e1' : (join b (plainRef a) true).text = ⟨b.text.scheme, b.text.authority, ⟨b.text.path.absolute || (b.text.authority.isSome && b.text.path.segments.isEmpty),
      dir ++ [b! "c"]⟩, none, none⟩ := by
    have h' := h
    rw [e1] at h' ⊢
    rw [Parts.mk.injEq]
    exact ⟨rfl, rfl, by rw [← h'], rfl, rfl⟩
  obtain ⟨q, hq, hc⟩ : ∃ q, q ≠ [] ∧ ended (dirEnd false r.text.path.segments) (dir ++ stackRun id [] r.text.path.segments) = dir ++ q := by
    by_cases hn : stackRun id [] r.text.path.segments = []
    · refine ⟨[[]], by simp, ?_⟩
      rw [stackRun_empty h2' hn, hn, List.append_nil]
      simp only [ended, if_true, asDirectory]
      cases hl : dir.getLast? with
      | none => rfl
      | some g =>
        cases g with
        | nil => exact absurd hl hd
        | cons x y => rfl
    · obtain ⟨t, ht⟩ := ended_prefix (dirEnd false r.text.path.segments) (dir ++ stackRun id [] r.text.path.segments)
      exact ⟨stackRun id [] r.text.path.segments ++ t, by simp [hn], by rw [← ht, List.append_assoc]⟩
  rw [hc] at e2
  rw [compose_text, e1'] at hP
  rw [compose_text, e2]
  obtain ⟨Q, t, k1, k2⟩ := path_prefix (b.text.path.absolute || (b.text.authority.isSome && b.text.path.segments.isEmpty) || b.text.authority.isSome) dir q hq
  simp only [recompose, rooted, Abnf.optText, List.append_nil, k1] at hP
  simp only [recompose, rooted, k2]
  rw [← List.append_assoc] at hP
  have hP' := List.append_cancel_right hP
  rw [← hP']
  simp only [List.append_assoc, List.prefix_append_right_inj]
  exact List.prefix_append ..

/-- A base `http://h/x/f` -/
def deepBase (x : Str) : Parts SV := ⟨some ⟨0, b! "http"⟩, some ⟨none, ⟨0, b! "h"⟩, none⟩, ⟨true, [⟨0, x⟩, ⟨0, b! "f"⟩]⟩, none, none⟩

theorem deepBase_valid (pl : Plat) (n : Nat) : (deepBase (List.replicate n 0x61)).valid pl = .ok true := by
  have h : (deepBase []).valid pl = .ok true := by obtain ⟨c⟩ := pl; cases c <;> decide +kernel
  have ok := valid_sound h
  refine valid_complete ⟨ok.scheme, ok.userinfo, ok.host, ok.port, ?_, ok.query, ok.fragment⟩
  intro g hg
  have : g = List.replicate n 0x61 ∨ g = b! "f" := by simpa [deepBase, Parts.text, Parts.map, Path.map] using hg
  rcases this with rfl | rfl
  · have a : Abnf.pchar [0x61] := by
      have : Abnf.ALPHA [0x61] := Or.inr ⟨0x61, rfl, by decide, by decide⟩
      repeat (first | exact this | apply Or.inl)
    have := many_of_flatMap (L := Abnf.pchar) (f := fun c => [c]) (s := List.replicate n 0x61) (by
      intro c hc; rw [List.eq_of_mem_replicate hc]; exact a)
    show Abnf.many Abnf.pchar (List.replicate n 0x61)
    simpa using this
  · exact ok.path _ (by simp [deepBase, Parts.text, Parts.map, Path.map])

/-- **C112**: and only such a reference does so with every base: for any other there is a valid base out of whose directory it leads. -/
theorem C112_exact (pl : Plat) (r : Parts SV) (h1 : r.scheme = none) (h2 : RelativePath r) : Stays r.text.path.segments ↔
    ∀ (b : Parts SV) (a : Nat) (dir : List Str), b.valid pl = .ok true → (join b (plainRef a) true).text.path.segments = dir ++ [b! "c"] →
      dir <+: (join b r true).text.path.segments := by
  constructor
  · intro hs b a dir _ h
    exact (C112_stays b r true a dir h h1 h2 hs).2.2
  · intro h
    by_cases hs : stays 0 r.text.path.segments = true
    · exact (Stays_iff _).2 hs
    · exfalso
      obtain ⟨n, hn⟩ : ∃ n, ∀ g ∈ r.text.path.segments, g.length < n := by
        generalize r.text.path.segments = gs
        induction gs with
        | nil => exact ⟨0, by simp⟩
        | cons g gs ih =>
          obtain ⟨n, hn⟩ := ih
          refine ⟨max n (g.length + 1), fun x hx => ?_⟩
          rcases List.mem_cons.1 hx with rfl | hx
          · omega
          · have := hn x hx; omega
      have hx0 : List.replicate (n + 3) (0x61 : UInt8) ∉ r.text.path.segments := fun hm => by
        have := hn _ hm; rw [List.length_replicate] at this; omega
      generalize hx : List.replicate (n + 3) (0x61 : UInt8) = x at hx0
      have hx1 : x ≠ [] ∧ x ≠ b! "." ∧ x ≠ b! ".." := by
        have hl : x.length = n + 3 := by rw [← hx, List.length_replicate]
        refine ⟨?_, ?_, ?_⟩ <;> intro e <;> rw [e] at hl <;> simp at hl
      have hk : stackRun id [] (keptOf (deepBase x).text.path.segments) = [x] := by
        have : keptOf (deepBase x).text.path.segments = [x] := rfl
        rw [this]
        simp [stackRun, hx1.2.1, hx1.2.2]
      have hd : (join (deepBase x) (plainRef 0) true).text.path.segments = [x] ++ [b! "c"] := by
        rw [joined_relative rfl ⟨rfl, by simp [plainRef], rfl⟩, hk]
        have e : (plainRef 0).text.path.segments = [b! "c"] := rfl
        rw [e]; rfl
      have hp := h (deepBase x) 0 [x] (by rw [← hx]; exact deepBase_valid pl _) hd
      rw [joined_relative h1 h2, hk] at hp
      have hl := stackRun_leaves r.text.path.segments [] (by simpa using hs) hx0 (by simp)
      rw [List.append_nil] at hl
      simp only [ended, asDirectory] at hp
      have hm : x ∈ stackRun id [x] r.text.path.segments ∨ x = [] := by
        have := hp.subset (List.mem_singleton.2 rfl)
        revert this
        split
        · split
          · simp
          · split
            · exact Or.inl
            · simp
        · exact Or.inl
      exact hm.elim hl hx1.1

/-- **C112**: a reference may climb out and come back: then only the base decides where it leads. -/
theorem C112_back_counterexample : ¬ Stays [b! "..", b! "x", b! "y"] ∧
    (joinStr x86 ⟨4096, b! "http://h/x/f"⟩ ⟨8192, b! "../x/y"⟩ true).map (·.map compose) = .ok (some (b! "http://h/x/y")) := by
  exact ⟨by decide +kernel, by decide +kernel⟩

/-- **C112**, why the directory must not end in an empty segment: the reference `.` leaves the one of `http://h/x//f`, by one slash. -/
theorem C112_empty_counterexample : Stays [b! "."] ∧
    (joinStr x86 ⟨4096, b! "http://h/x//f"⟩ ⟨8192, b! "c"⟩ true).map (·.map compose) = .ok (some (b! "http://h/x//c")) ∧
    (joinStr x86 ⟨4096, b! "http://h/x//f"⟩ ⟨8192, b! "."⟩ true).map (·.map compose) = .ok (some (b! "http://h/x/")) := by
  exact ⟨by decide +kernel, by decide +kernel, by decide +kernel⟩

example : Stays [b! "a", b! "..", b! ".", b! "...", b! "%2e%2e"] ∧ ¬ Stays [b! "a", b! "..", b! "..", b! "b", b! "c"] := by decide +kernel

/-- The hypotheses of `C112_stays` and `C112_text` hold of `http://h/dir/f` and `a/../b`. -/
example : (join (deepBase (b! "dir")) (plainRef 0) true).text.path.segments = [b! "dir"] ++ [b! "c"] ∧
    compose (join (deepBase (b! "dir")) (plainRef 0) true) = b! "http://h/dir/" ++ b! "c" ∧ Stays [b! "a", b! "..", b! "b"] ∧
    compose (join (deepBase (b! "dir")) ⟨none, none, ⟨false, [⟨0, b! "a"⟩, ⟨0, b! ".."⟩, ⟨0, b! "b"⟩]⟩, none, none⟩ true) = b! "http://h/dir/b" := by
  decide +kernel

end Verif
