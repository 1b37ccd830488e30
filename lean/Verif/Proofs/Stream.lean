import Verif.Model.Stream

/-!
# Writing to a stream: a composition is a list of insertions
-/

namespace Verif.Stream

set_option linter.unusedSimpArgs false

/-- The texts inserted one after the other for an optional part. -/
def piecesO (f : SV → List Str) : Option SV → List Str
  | none => []
  | some s => f s

/-- The texts that `operator<<` of an authority inserts. -/
def piecesA (a : Authority SV) : List Str :=
  piecesO (fun u => [u.chars, b! "@"]) a.userinfo ++ (if a.host.chars.isEmpty then [] else [a.host.chars]) ++
    piecesO (fun p => (b! ":") :: if p.chars.isEmpty then [] else [p.chars]) a.port

/-- Those inserted before the path, and after it. -/
def before (p : Parts SV) : List Str :=
  piecesO (fun s => [s.chars, b! ":"]) p.scheme ++ match p.authority with
    | none => []
    | some a => (b! "//") :: (piecesA a ++ if !p.path.empty && !p.path.absolute then [b! "/"] else [])
def after (p : Parts SV) : List Str :=
  piecesO (fun q => [b! "?", q.chars]) p.query ++ piecesO (fun f => [b! "#", f.chars]) p.fragment

/-- All of them. -/
def puts : List Str → OStream → SM
  | [], os => .ok os
  | s :: ss, os => insert s os >>= puts ss

theorem puts_append (xs ys : List Str) (os : OStream) : puts (xs ++ ys) os = puts xs os >>= puts ys := by
  induction xs generalizing os with
  | nil => rfl
  | cons x xs ih =>
    simp only [List.cons_append, puts]
    cases insert x os with
    | error e => rfl
    | ok o => exact ih o

theorem puts_one (s : Str) (os : OStream) : puts [s] os = insert s os := by
  show (insert s os >>= puts []) = _
  cases insert s os <;> rfl

theorem puts_two (s t : Str) (os : OStream) : puts [s, t] os = insert s os >>= insert t := by
  show (insert s os >>= puts [t]) = _
  cases insert s os with
  | error e => rfl
  | ok o => exact puts_one t o

theorem put_eq {o : Option SV} {f : SV → OStream → SM} {g : SV → List Str} (h : ∀ s os, f s os = puts (g s) os) (os : OStream) :
    put o f os = puts (piecesO g o) os := by
  cases o with
  | none => rfl
  | some s => exact h s os

theorem putIf_eq (c : Bool) (s : Str) (os : OStream) : putIf c s os = puts (if c then [s] else []) os := by
  cases c
  · rfl
  · exact (puts_one _ _).symm

theorem putAuthority_eq (a : Authority SV) (os : OStream) : putAuthority a os = puts (piecesA a) os := by
  unfold putAuthority piecesA
  rw [puts_append, puts_append, put_eq (g := fun u => [u.chars, b! "@"]) (fun s os => (puts_two _ _ _).symm)]
  congr 1
  · congr 1
    funext os
    rw [putIf_eq]
    cases a.host.chars.isEmpty <;> rfl
  · funext os
    apply put_eq
    intro p os
    show _ = (insert _ os >>= puts _)
    congr 1
    funext os
    rw [putIf_eq]
    cases p.chars.isEmpty <;> rfl

theorem putNet_eq (p : Parts SV) (os : OStream) : putNet p os = puts (match p.authority with
    | none => []
    | some a => (b! "//") :: (piecesA a ++ if !p.path.empty && !p.path.absolute then [b! "/"] else [])) os := by
  unfold putNet
  cases p.authority with
  | none => rfl
  | some a =>
    show (insert _ os >>= putAuthority a >>= putIf _ _) = (insert _ os >>= puts _)
    rw [bind_assoc]
    congr 1
    funext os
    rw [puts_append, putAuthority_eq]
    congr 1
    funext os
    exact putIf_eq _ _ os

theorem compose_eq (mem : Bool) (p : Parts SV) (os : OStream) :
    compose mem p os = puts (before p) os >>= putPath mem p.path >>= puts (after p) := by
  unfold compose before after
  simp only [puts_append, bind_assoc]
  rw [put_eq (g := fun s => [s.chars, b! ":"]) (fun s os => (puts_two _ _ _).symm)]
  congr 1
  funext os
  rw [putNet_eq]
  congr 1
  funext os
  congr 1
  funext os
  rw [puts_append, put_eq (g := fun q => [b! "?", q.chars]) (fun s os => (puts_two _ _ _).symm)]
  congr 1
  funext os
  exact put_eq (g := fun q => [b! "#", q.chars]) (fun s os => (puts_two _ _ _).symm) os

/-- The texts make up the composition. -/
theorem compose_pieces (p : Parts SV) : Verif.compose p = (before p).flatten ++ p.path.toStr ++ (after p).flatten := by
  have ha : ∀ a : Authority SV, a.toStr = (piecesA a).flatten := by
    intro a
    unfold Authority.toStr piecesA
    obtain ⟨u, h, q⟩ := a
    cases u <;> cases q <;> simp only [piecesO] <;> cases hh : h.chars <;> simp [hh]
    all_goals (split <;> simp [*])
  unfold Verif.compose before after
  cases p.scheme <;> cases p.authority <;> cases p.query <;> cases p.fragment <;> simp [piecesO, ha]
  all_goals (split <;> simp [*])

/-! ### What becomes of the stream -/

/-- The stream as a call leaves it. -/
def left' : SM → OStream
  | .ok os => os
  | .error (_, os) => os

/-- Whether, and what, it threw. -/
def thrown : SM → Option Thrown
  | .ok _ => none
  | .error (t, _) => some t

/-- The stream after `t` was given to its device. -/
def advance (os : OStream) (t : Str) : OStream :=
  { os with out := os.out ++ t.take (taken os t), room := os.room.map (· - taken os t), width := 0, good := taken os t == t.length }

theorem padded_zero {os : OStream} (h : os.width = 0) (s : Str) : padded os s = s := by
  unfold padded
  rw [h]
  simp

theorem insert_left (s : Str) {os : OStream} (h : os.good = true) : left' (insert s os) = advance os (padded os s) := by
  unfold insert advance
  rw [h]
  simp only [Bool.not_true, Bool.false_eq_true, if_false]
  split <;> rfl

theorem insert_bad (s : Str) {os : OStream} (h : os.good = false) : left' (insert s os) = os := by
  unfold insert
  rw [h]
  simp only [Bool.not_false, if_true]
  split <;> rfl

theorem puts_bad : ∀ (ss : List Str) {os : OStream}, os.good = false → left' (puts ss os) = os
  | [], _, _ => rfl
  | s :: ss, os, h => by
    have k := insert_bad s h
    show left' (insert s os >>= puts ss) = os
    cases hi : insert s os with
    | error e => rw [hi] at k; exact k
    | ok o =>
      rw [hi] at k
      have k : o = os := k
      subst k
      exact puts_bad ss h

theorem taken_none {os : OStream} (h : os.room = none) (s : Str) : taken os s = s.length := by unfold taken; rw [h]
theorem taken_some {os : OStream} {k : Nat} (h : os.room = some k) (s : Str) : taken os s = min k s.length := by unfold taken; rw [h]

theorem taken_prefix {os : OStream} {s t : Str} (h : taken os (s ++ t) = (s ++ t).length) : taken os s = s.length := by
  cases hr : os.room with
  | none => exact taken_none hr s
  | some k =>
    rw [taken_some hr, List.length_append] at h
    rw [taken_some hr]
    have := Nat.min_le_left k (s.length + t.length)
    exact Nat.min_eq_right (by omega)

theorem taken_rest {os : OStream} {s : Str} (h : taken os s = s.length) (t : Str) : taken os (s ++ t) = s.length + taken (advance os s) t := by
  cases hr : os.room with
  | none =>
    have : (advance os s).room = none := by simp [advance, hr]
    rw [taken_none hr, taken_none this, List.length_append]
  | some k =>
    have h2 : (advance os s).room = some (k - s.length) := by simp [advance, hr, h]
    rw [taken_some hr] at h
    rw [taken_some hr, taken_some h2, List.length_append]
    have := Nat.min_le_left k s.length
    have hk : s.length ≤ k := by omega
    rcases Nat.le_total k (s.length + t.length) with c | c
    · rw [Nat.min_eq_left c, Nat.min_eq_left (by omega)]; omega
    · rw [Nat.min_eq_right c, Nat.min_eq_right (by omega)]

theorem taken_stop {os : OStream} {s : Str} (h : taken os s ≠ s.length) (t : Str) : taken os (s ++ t) = taken os s ∧ taken os s < s.length := by
  cases hr : os.room with
  | none => exact absurd (taken_none hr s) h
  | some k =>
    rw [taken_some hr] at h
    rw [taken_some hr, taken_some hr, List.length_append]
    have hk : k < s.length := by
      rcases Nat.lt_or_ge k s.length with c | c
      · exact c
      · exact absurd (Nat.min_eq_right c) h
    rw [Nat.min_eq_left (by omega), Nat.min_eq_left (by omega)]
    exact ⟨rfl, hk⟩

theorem advance_append (os : OStream) (s t : Str) (h : taken os s = s.length) : advance (advance os s) t = advance os (s ++ t) := by
  have e := taken_rest h t
  generalize hj : taken (advance os s) t = j at e
  have hl : advance (advance os s) t = { advance os s with out := (advance os s).out ++ t.take j, room := (advance os s).room.map (· - j), width := 0, good := j == t.length } := by
    rw [← hj]; rfl
  have hr : advance os (s ++ t) = { os with out := os.out ++ (s ++ t).take (s.length + j), room := os.room.map (· - (s.length + j)), width := 0, good := (s.length + j) == (s ++ t).length } := by
    rw [← e]; rfl
  rw [hl, hr]
  simp only [advance, h, List.take_length, List.append_assoc, OStream.mk.injEq, true_and, and_true, Option.map_map, List.length_append]
  refine ⟨?_, ?_, ?_⟩
  · rw [List.take_append, List.take_of_length_le (l := s) (by omega), Nat.add_sub_cancel_left]
  · cases os.room with
    | none => rfl
    | some k => simp only [Option.map_some, Function.comp]; congr 1; omega
  · rw [Bool.eq_iff_iff, beq_iff_eq, beq_iff_eq]; omega

theorem advance_stop (os : OStream) (s t : Str) (h : taken os s ≠ s.length) : advance os s = advance os (s ++ t) := by
  obtain ⟨e, hk⟩ := taken_stop h t
  unfold advance
  rw [e, List.take_append_of_le_length (by omega)]
  have : (taken os s == s.length) = (taken os s == (s ++ t).length) := by
    rw [Bool.eq_iff_iff, beq_iff_eq, beq_iff_eq, List.length_append]
    omega
  rw [this]

theorem insert_ok {s : Str} {os o : OStream} (h : os.good = true) (hw : os.width = 0) (hi : insert s os = .ok o) : o = advance os s := by
  have := insert_left s h
  rw [hi, padded_zero hw] at this
  exact this

/-- All the texts as one. -/
theorem puts_left : ∀ (ss : List Str) {os : OStream}, os.good = true → os.width = 0 → left' (puts ss os) = advance os ss.flatten
  | [], os, h, hw => by
    show os = _
    unfold advance taken
    obtain ⟨out, room, good, width, fill, left, b, f⟩ := os
    cases h; cases hw
    cases room <;> simp
  | s :: ss, os, h, hw => by
    have k := insert_left s h
    rw [padded_zero hw] at k
    show left' (insert s os >>= puts ss) = _
    rw [List.flatten_cons]
    by_cases hf : taken os s = s.length
    · have hg : (advance os s).good = true := by simp [advance, hf]
      cases hi : insert s os with
      | error e =>
        rw [hi] at k
        obtain ⟨t, o⟩ := e
        -- a text that fits does not throw
        unfold insert at hi
        rw [h, padded_zero hw] at hi
        simp [hf] at hi
      | ok o =>
        rw [hi] at k
        have k : o = advance os s := k
        subst k
        rw [← advance_append os s _ hf]
        exact puts_left ss hg rfl
    · have hg : (advance os s).good = false := by simp [advance, hf]
      rw [← advance_stop os s _ hf]
      cases hi : insert s os with
      | error e => rw [hi] at k; exact k
      | ok o =>
        rw [hi] at k
        have k : o = advance os s := k
        subst k
        exact puts_bad ss hg

/-- When a list of insertions throws. -/
theorem insert_thrown (s : Str) (os : OStream) (hw : os.width = 0) :
    thrown (insert s os) = if os.good then (if os.badThrows && (taken os s != s.length) then some .failure else none)
      else if os.failThrows then some .failure else none := by
  unfold insert
  rw [padded_zero hw]
  cases os.good with
  | false => simp only [Bool.not_false, if_true, Bool.false_eq_true, if_false]; split <;> rfl
  | true =>
    simp only [Bool.not_true, Bool.false_eq_true, if_false, if_true]
    by_cases hf : taken os s = s.length
    · simp [hf, thrown]
    · cases os.badThrows <;> simp [hf, thrown]

theorem puts_not_thrown : ∀ (ss : List Str) {os : OStream}, os.width = 0 → os.good = true → taken os ss.flatten = ss.flatten.length →
    thrown (puts ss os) = none
  | [], _, _, _, _ => rfl
  | s :: ss, os, hw, hg, hf => by
    rw [List.flatten_cons] at hf
    have h1 : taken os s = s.length := taken_prefix hf
    have h2 := insert_thrown s os hw
    rw [hg, h1] at h2
    show thrown (insert s os >>= puts ss) = none
    cases hi : insert s os with
    | error e => rw [hi] at h2; simp [thrown] at h2
    | ok o =>
      obtain rfl := insert_ok hg hw hi
      apply puts_not_thrown ss rfl
      · simp [advance, h1]
      · rw [taken_rest h1, List.length_append] at hf; omega

theorem puts_thrown : ∀ (ss : List Str) {os : OStream}, os.width = 0 → os.good = true → os.badThrows = true →
    taken os ss.flatten ≠ ss.flatten.length → thrown (puts ss os) = some .failure
  | [], os, _, _, _, hf => by
    refine absurd ?_ hf
    unfold taken
    cases os.room <;> simp
  | s :: ss, os, hw, hg, hb, hf => by
    rw [List.flatten_cons] at hf
    have h2 := insert_thrown s os hw
    rw [hg, hb] at h2
    show thrown (insert s os >>= puts ss) = _
    by_cases h1 : taken os s = s.length
    · cases hi : insert s os with
      | error e => rw [hi] at h2; simp [thrown, h1] at h2
      | ok o =>
        obtain rfl := insert_ok hg hw hi
        apply puts_thrown ss rfl
        · simp [advance, h1]
        · exact hb
        · intro k
          apply hf
          rw [taken_rest h1, k, List.length_append]
    · cases hi : insert s os with
      | error e =>
        obtain ⟨t, o⟩ := e
        rw [hi] at h2
        simp [thrown, h1] at h2
        rw [h2]; rfl
      | ok o => rw [hi] at h2; simp [thrown, h1] at h2

theorem puts_quiet : ∀ (ss : List Str) {os : OStream}, os.badThrows = false → os.failThrows = false → thrown (puts ss os) = none
  | [], _, _, _ => rfl
  | s :: ss, os, hb, hf => by
    show thrown (insert s os >>= puts ss) = none
    have : ∃ o, insert s os = .ok o ∧ o.badThrows = false ∧ o.failThrows = false := by
      cases hi : insert s os with
      | ok o =>
        refine ⟨o, rfl, ?_⟩
        cases hg : os.good with
        | true =>
          have := insert_left s hg
          rw [hi] at this
          have this : o = _ := this
          rw [this]; exact ⟨hb, hf⟩
        | false =>
          have := insert_bad s hg
          rw [hi] at this
          have this : o = os := this
          rw [this]; exact ⟨hb, hf⟩
      | error e =>
        exfalso
        unfold insert at hi
        rw [hb, hf] at hi
        cases hg : os.good <;> rw [hg] at hi <;> simp at hi
    obtain ⟨o, h1, h2, h3⟩ := this
    rw [h1]
    exact puts_quiet ss h2 h3

end Verif.Stream
