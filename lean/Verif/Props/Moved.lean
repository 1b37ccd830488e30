import Verif.Props.Contain

/-!
# Property C121: moving documents together
-/

namespace Verif.Moved
set_option linter.unusedSimpArgs false

theorem stays_below : ∀ (m gs : List Str) (d : Nat), (∀ g ∈ m, isDot g = false) → stays d (m ++ gs) = stays (d + m.length) gs
  | [], _, _, _ => rfl
  | g :: m, gs, d, h => by
    obtain ⟨h1, h2⟩ := (isDot_iff g).1 (h g (by simp))
    rw [List.cons_append, stays, if_neg h1, if_neg h2, stays_below m gs (d + 1) fun x hx => h x (by simp [hx]), List.length_cons]
    congr 1; omega

theorem stackRun_gone {st gs : List Str} (h0 : gs ≠ []) (h : stackRun id st gs = []) : dirEnd false gs = true := by
  rcases List.eq_nil_or_concat gs with rfl | ⟨pre, x, rfl⟩
  · exact absurd rfl h0
  · rw [List.concat_eq_append] at h ⊢
    rw [stackRun_append] at h
    simp only [dirEnd, List.getLast?_append, List.getLast?_singleton, Option.some_or]
    simp only [stackRun, id] at h
    by_cases h1 : x = b! "."
    · rw [h1]; decide
    · rw [if_neg h1] at h
      by_cases h2 : x = b! ".."
      · rw [h2]; decide
      · rw [if_neg h2] at h; simp at h

/-- Where a reference leads, from a directory. -/
def tail (m gs : List Str) : List Str := if stackRun id m gs = [] then [[]] else ended (dirEnd false gs) (stackRun id m gs)

theorem tail_ne (m gs : List Str) : tail m gs ≠ [] := by
  unfold tail
  split
  · simp
  · rename_i h
    obtain ⟨t, ht⟩ := ended_prefix (dirEnd false gs) (stackRun id m gs)
    rw [← ht]; simp [h]

theorem below_root {root m gs : List Str} (h0 : gs ≠ []) (hd : root.getLast? ≠ some []) (hm : ∀ g ∈ m, isDot g = false) (hs : Stays (m ++ gs)) :
    ended (dirEnd false gs) (stackRun id (root ++ m) gs) = root ++ tail m gs := by
  have h := (Stays_iff _).1 hs
  rw [stays_below m gs 0 hm, Nat.zero_add] at h
  rw [stackRun_stays root gs m h]
  unfold tail
  split
  · rename_i hn
    rw [stackRun_gone h0 hn, hn, List.append_nil]
    simp only [ended, if_true, asDirectory]
    cases hl : root.getLast? with
    | none => rfl
    | some g =>
      cases g with
      | nil => exact absurd hl hd
      | cons x y => rfl
  · rename_i hn
    cases dirEnd false gs with
    | false => rfl
    | true =>
      simp only [ended, if_true, asDirectory, getLast?_append' root hn]
      cases hl : (stackRun id m gs).getLast? with
      | none => rw [List.append_assoc]
      | some g => simp only []; split <;> simp

theorem path_below (ab : Bool) (root q : List Str) (hq : q ≠ []) : pathText ⟨ab, root ++ q⟩ = pathText ⟨ab, root ++ [[]]⟩ ++ pathText ⟨false, q⟩ := by
  obtain ⟨q0, q, rfl⟩ : ∃ x y, q = x :: y := by
    cases q with
    | nil => exact absurd rfl hq
    | cons x y => exact ⟨x, y, rfl⟩
  cases root with
  | nil => simp [pathText, Abnf.slashes]
  | cons d root => simp [pathText, slashes_append, slashes_cons, Abnf.slashes]

/-- Resolution from a document below `root`. -/
theorem from_below {b r : Parts SV} {strict : Bool} {a : Nat} {root m : List Str}
    (h : (join b (plainRef a) true).text.path.segments = root ++ m ++ [b! "c"]) (hd : root.getLast? ≠ some [])
    (h1 : r.scheme = none) (h2 : RelativePath r) (hs : Stays (m ++ r.text.path.segments)) :
    (join b r strict).text.scheme = b.text.scheme ∧ (join b r strict).text.authority = b.text.authority ∧
    (join b r strict).text.path.segments = root ++ tail m r.text.path.segments ∧
    ∀ P, compose (join b (plainRef a) true) = P ++ pathText ⟨false, m ++ [b! "c"]⟩ →
      compose (join b r strict) = P ++ (pathText ⟨false, tail m r.text.path.segments⟩ ++ Abnf.optText (b! "?") r.text.query ++ Abnf.optText (b! "#") r.text.fragment) := by
  have h2' : r.text.path.segments ≠ [] := by have := h2.2.1; simpa [Parts.text, Parts.map, Path.map] using this
  have e1 := joined_relative (b := b) (strict := true) (r := plainRef a) rfl ⟨rfl, by simp [plainRef], rfl⟩
  have e2 := joined_relative (b := b) (strict := strict) h1 h2
  have hdir := dir_of h
  have hm : ∀ g ∈ m, isDot g = false := by
    intro g hg
    exact (hdir ▸ stackRun_nodot id (keptOf b.text.path.segments) [] (by simp) : ∀ g ∈ root ++ m, isDot g = false) g (by simp [hg])
  rw [hdir, below_root h2' hd hm hs] at e2
  refine ⟨by rw [e2], by rw [e2], by rw [e2], fun P hP => ?_⟩
  have e1' : (join b (plainRef a) true).text = ⟨b.text.scheme, b.text.authority, ⟨b.text.path.absolute || (b.text.authority.isSome && b.text.path.segments.isEmpty),
      root ++ (m ++ [b! "c"])⟩, none, none⟩ := by
    have h' := h
    rw [e1] at h' ⊢
    rw [Parts.mk.injEq]
    exact ⟨rfl, rfl, by rw [← List.append_assoc, ← h'], rfl, rfl⟩
  rw [compose_text, e1'] at hP
  rw [compose_text, e2]
  simp only [recompose, rooted, Abnf.optText, List.append_nil, path_below _ root (m ++ [b! "c"]) (by simp)] at hP
  simp only [recompose, rooted, path_below _ root (tail m r.text.path.segments) (tail_ne _ _)]
  rw [← List.append_assoc] at hP
  rw [← List.append_cancel_right hP]
  simp only [List.append_assoc]

end Verif.Moved

/-! ### The property -/

namespace Verif
open Moved

/-- **C121**: two documents at the same place `m` below two roots. A reference with a relative path that does not lead out of the root leads from both to the same
place below their roots.  (`c` stands for any name: where it leads tells the directory of a document.  A root must not end in an empty segment.) -/
theorem C121_moved (b1 b2 r : Parts SV) (strict : Bool) (a : Nat) (root1 root2 m : List Str)
    (h1 : (join b1 (plainRef a) true).text.path.segments = root1 ++ m ++ [b! "c"]) (h2 : (join b2 (plainRef a) true).text.path.segments = root2 ++ m ++ [b! "c"])
    (hd1 : root1.getLast? ≠ some []) (hd2 : root2.getLast? ≠ some []) (hs : r.scheme = none) (hr : RelativePath r) (hst : Stays (m ++ r.text.path.segments)) :
    ∃ place, place ≠ [] ∧ (join b1 r strict).text = ⟨b1.text.scheme, b1.text.authority, ⟨(join b1 r strict).path.absolute, root1 ++ place⟩, r.text.query, r.text.fragment⟩ ∧
      (join b2 r strict).text = ⟨b2.text.scheme, b2.text.authority, ⟨(join b2 r strict).path.absolute, root2 ++ place⟩, r.text.query, r.text.fragment⟩ := by
  have key : ∀ (b : Parts SV) (root : List Str), (join b (plainRef a) true).text.path.segments = root ++ m ++ [b! "c"] → root.getLast? ≠ some [] →
      (join b r strict).text = ⟨b.text.scheme, b.text.authority, ⟨(join b r strict).path.absolute, root ++ tail m r.text.path.segments⟩, r.text.query, r.text.fragment⟩ := by
    intro b root h hd
    obtain ⟨-, -, k3, -⟩ := from_below (strict := strict) h hd hs hr hst
    have e2 := joined_relative (b := b) (strict := strict) hs hr
    have e3 : (join b r strict).path.absolute = (join b r strict).text.path.absolute := rfl
    rw [e3, ← k3, e2]
  exact ⟨_, tail_ne _ _, key b1 root1 h1 hd1, key b2 root2 h2 hd2⟩

/-- **C121**, in text: the results are the texts of the two roots, with the same text behind. -/
theorem C121_text (b1 b2 r : Parts SV) (strict : Bool) (a : Nat) (root1 root2 m : List Str) (P1 P2 : Str)
    (h1 : (join b1 (plainRef a) true).text.path.segments = root1 ++ m ++ [b! "c"]) (h2 : (join b2 (plainRef a) true).text.path.segments = root2 ++ m ++ [b! "c"])
    (hP1 : compose (join b1 (plainRef a) true) = P1 ++ pathText ⟨false, m ++ [b! "c"]⟩) (hP2 : compose (join b2 (plainRef a) true) = P2 ++ pathText ⟨false, m ++ [b! "c"]⟩)
    (hd1 : root1.getLast? ≠ some []) (hd2 : root2.getLast? ≠ some []) (hs : r.scheme = none) (hr : RelativePath r) (hst : Stays (m ++ r.text.path.segments)) :
    ∃ t, compose (join b1 r strict) = P1 ++ t ∧ compose (join b2 r strict) = P2 ++ t :=
  ⟨_, (from_below h1 hd1 hs hr hst).2.2.2 P1 hP1, (from_below h2 hd2 hs hr hst).2.2.2 P2 hP2⟩

/-- **C121**, without the condition: a reference that leads out of the root. -/
theorem C121_counterexample :
    ([b! "s://h/a/m/f", b! "s://k/b/d/m/f"].map fun s => (joinStr x86 ⟨4096, s⟩ ⟨8192, b! "../x"⟩ true).map (·.map compose)) = [.ok (some (b! "s://h/a/x")), .ok (some (b! "s://k/b/d/x"))] ∧
    ([b! "s://h/a/m/f", b! "s://k/b/d/m/f"].map fun s => (joinStr x86 ⟨4096, s⟩ ⟨8192, b! "../../x"⟩ true).map (·.map compose)) = [.ok (some (b! "s://h/x")), .ok (some (b! "s://k/b/x"))] ∧
    ([b! "s://h/m/f", b! "s://h/n/m/f"].map fun s => (joinStr x86 ⟨4096, s⟩ ⟨8192, b! "../../../x"⟩ true).map (·.map compose)) = [.ok (some (b! "s://h/x")), .ok (some (b! "s://h/x"))] := by
  decide +kernel

/-- The two documents and the reference of the example. -/
def movedFrom : Parts SV := ⟨some ⟨0, b! "s"⟩, some ⟨none, ⟨2, b! "h"⟩, none⟩, ⟨true, [⟨4, b! "a"⟩, ⟨6, b! "m"⟩, ⟨8, b! "f"⟩]⟩, none, none⟩
def movedTo : Parts SV := ⟨some ⟨0, b! "s"⟩, some ⟨none, ⟨2, b! "k"⟩, none⟩, ⟨true, [⟨4, b! "b"⟩, ⟨6, b! "d"⟩, ⟨8, b! "m"⟩, ⟨10, b! "g"⟩]⟩, none, none⟩
def movedRef : Parts SV := ⟨none, none, ⟨false, [⟨20, b! ".."⟩, ⟨23, b! "x"⟩]⟩, none, none⟩

example : (join movedFrom (plainRef 9) true).text.path.segments = [b! "a"] ++ [b! "m"] ++ [b! "c"] ∧
    (join movedTo (plainRef 9) true).text.path.segments = [b! "b", b! "d"] ++ [b! "m"] ++ [b! "c"] ∧
    compose (join movedFrom (plainRef 9) true) = b! "s://h/a/" ++ pathText ⟨false, [b! "m"] ++ [b! "c"]⟩ ∧
    RelativePath movedRef ∧ Stays ([b! "m"] ++ movedRef.text.path.segments) := by
  refine ⟨by decide +kernel, by decide +kernel, by decide +kernel, ⟨rfl, by decide, rfl⟩, by decide +kernel⟩

end Verif
