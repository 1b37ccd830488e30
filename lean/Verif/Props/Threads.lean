import Verif.Model.Threads
import Verif.Props.Shared
import Verif.Props.Refs

/-!
# Property C77: threads that share a view
-/

set_option linter.unusedSimpArgs false

namespace Verif.Threads

/-- Two accesses of different threads to one object, of which one writes. -/
def Race (l : List Access) : Prop := ∃ a ∈ l, ∃ b ∈ l, a.thread ≠ b.thread ∧ a.loc = b.loc ∧ (a.write = true ∨ b.write = true)

theorem reads_mem {t k n : Nat} {a : Access} (h : a ∈ reads t k n) : a.thread = t ∧ (∃ j, a.loc = .text j) ∧ a.write = false := by
  simp only [reads, List.mem_map, List.mem_range] at h
  obtain ⟨j, _, rfl⟩ := h
  exact ⟨rfl, ⟨_, rfl⟩, rfl⟩

end Verif.Threads

namespace Verif.Threads.View
open Verif.Icu

/-! ### Specification -/

/-- What an operation does to the positions of the iterators, in a program that uses only iterators it has, does not
increment or dereference one that is at the end (element `n`). -/
inductive Moves (n : Nat) : List Nat → Op → List Nat → Prop
  | begin {ps} : Moves n ps .begin (ps ++ [0])
  | copy {ps i k} : ps[i]? = some k → Moves n ps (.copy i) (ps ++ [k])
  | assign {ps i j k m} : ps[i]? = some k → ps[j]? = some m → Moves n ps (.assign i j) (ps.set i m)
  | incr {ps i k} : ps[i]? = some k → k < n → Moves n ps (.incr i) (ps.set i (k + 1))
  | deref {ps i k} : ps[i]? = some k → k < n → Moves n ps (.deref i) ps
  | atEnd {ps i k} : ps[i]? = some k → Moves n ps (.atEnd i) ps
  | wellFormed {ps} : Moves n ps .wellFormed ps
  | copyView {ps} : Moves n ps .copyView ps

/-- An interleaving of the operations of several threads, of a program as above. -/
inductive Proper (n : Nat) : List Nat → List (Nat × Op) → Prop
  | nil {ps} : Proper n ps []
  | cons {ps ps' t o ops} : Moves n ps o ps' → Proper n ps' ops → Proper n ps ((t, o) :: ops)

/-- What the operations yield: `*` the element the iterator is at, whatever the other threads do. -/
inductive Yields {ο : Type} (out : List ο) (good : Bool) : List Nat → List (Nat × Op) → List (Seen ο) → Prop
  | nil {ps} : Yields out good ps [] []
  | begin {ps t ops vs} : Yields out good (ps ++ [0]) ops vs → Yields out good ps ((t, .begin) :: ops) (.nothing :: vs)
  | copy {ps t i k ops vs} : ps[i]? = some k → Yields out good (ps ++ [k]) ops vs → Yields out good ps ((t, .copy i) :: ops) (.nothing :: vs)
  | assign {ps t i j m ops vs} : ps[j]? = some m → Yields out good (ps.set i m) ops vs → Yields out good ps ((t, .assign i j) :: ops) (.nothing :: vs)
  | incr {ps t i k ops vs} : ps[i]? = some k → Yields out good (ps.set i (k + 1)) ops vs → Yields out good ps ((t, .incr i) :: ops) (.nothing :: vs)
  | deref {ps t i k c ops vs} : ps[i]? = some k → out[k]? = some c → Yields out good ps ops vs → Yields out good ps ((t, .deref i) :: ops) (.element c :: vs)
  | atEnd {ps t i k ops vs b} : ps[i]? = some k → (b = true ↔ k = out.length) → Yields out good ps ops vs → Yields out good ps ((t, .atEnd i) :: ops) (.truth b :: vs)
  | wellFormed {ps t ops vs b} : (good = true → b = true) → Yields out good ps ops vs → Yields out good ps ((t, .wellFormed) :: ops) (.truth b :: vs)
  | copyView {ps t ops vs} : Yields out good ps ops vs → Yields out good ps ((t, .copyView) :: ops) (.nothing :: vs)

/-- The iterators an operation uses when there are `m` of them, and whether it changes (or makes) them. -/
inductive Names (m : Nat) : Op → Nat → Bool → Prop
  | begin : Names m .begin m true
  | copyFrom {i} : Names m (.copy i) i false
  | copyTo {i} : Names m (.copy i) m true
  | assignFrom {i j} : Names m (.assign i j) j false
  | assignTo {i j} : Names m (.assign i j) i true
  | incr {i} : Names m (.incr i) i true
  | deref {i} : Names m (.deref i) i false
  | atEnd {i} : Names m (.atEnd i) i false

/-- How many iterators an operation makes. -/
def makes : Op → Nat
  | .begin => 1
  | .copy _ => 1
  | _ => 0

/-- In the execution, which starts with `m` iterators, the thread uses iterator `i`, and whether it changes it. -/
inductive Uses : Nat → List (Nat × Op) → Nat → Nat → Bool → Prop
  | here {m t o ops i b} : Names m o i b → Uses m ((t, o) :: ops) t i b
  | there {m t o ops t' i b} : Uses (m + makes o) ops t' i b → Uses m ((t, o) :: ops) t' i b

/-- No iterator that one thread changes is used by another: each thread has its own, and they may share ones that
none of them changes. -/
def Independent (m : Nat) (ops : List (Nat × Op)) : Prop :=
  ∀ t t' i b b', Uses m ops t i b → Uses m ops t' i b' → t ≠ t' → b = false ∧ b' = false

/-- The operation makes or moves an iterator. -/
inductive Moving : Op → Prop
  | begin : Moving .begin
  | incr {i} : Moving (.incr i)

/-- The operation asks whether the text is well-formed, or copies the view and so the answer. -/
inductive Asking : Op → Prop
  | wellFormed : Asking .wellFormed
  | copyView : Asking .copyView

/-- The thread moves an iterator to the end. -/
inductive Ends (n : Nat) : List Nat → List (Nat × Op) → Nat → Prop
  | here {ps t i k ops} : ps[i]? = some k → k + 1 = n → Ends n ps ((t, .incr i) :: ops) t
  | there {ps ps' t o ops t'} : Moves n ps o ps' → Ends n ps' ops t' → Ends n ps ((t, o) :: ops) t'

/-- Threads that share a view `s`, used before they start by the operations `setup`, each with its own iterators.
Every operation of every interleaving is defined and yields what it would without the other threads.  If the text is
well-formed there is no data race.  If there is one, then one thread makes or moves an iterator and another does so
too, asks `well_formed ()`, or copies the view; and if the text is malformed then there is one whenever a thread
moves an iterator to the end and another does so too, asks, or copies the view. -/
def Shareable {ι ο : Type} (T : Transcoder ι ο) (cap : Nat) : Prop :=
  ∀ s : List ι, ∃ st out, T.run s = .ok (st, out) ∧ ∀ setup ps sched, Positions out.length setup ps → Proper out.length ps sched →
    ∃ w log seen, execute T cap s setup sched = .ok (w, log, seen) ∧ Yields out (T.wellFormed st) ps sched seen ∧
    (Independent ps.length sched → T.wellFormed st = true → ¬ Race log) ∧
    (Independent ps.length sched → Race log → ∃ t t' o o', t ≠ t' ∧ (t, o) ∈ sched ∧ (t', o') ∈ sched ∧ Moving o ∧ (Moving o' ∨ Asking o')) ∧
    (T.wellFormed st = false → ∀ t t', t ≠ t' → Ends out.length ps sched t →
      (Ends out.length ps sched t' ∨ ∃ o, (t', o) ∈ sched ∧ Asking o) → Race log)

/-! ### Proof -/

section
variable {ι ο : Type} {T : Transcoder ι ο} {Q : List ο → Prop} {I : T.σ → Prop}

theorem fill_tr {cap : Nat} {it r : ViewIt ι ο T} (h : Icu.fill T cap it = .ok r) : r.parentWf = (it.parentWf && T.wellFormed r.tr) := by
  unfold Icu.fill at h
  split at h
  · simp at h
  · cases hl : fillLoop T cap it.tr it.next with
    | error e => rw [hl] at h; simp [bind, Except.bind] at h
    | ok x =>
      obtain ⟨st, rest, o⟩ := x
      rw [hl] at h
      simp only [bind, Except.bind] at h
      by_cases hr : rest.isEmpty = true
      · rw [if_pos hr] at h
        cases he : T.endCp st with
        | error e => rw [he] at h; simp at h
        | ok x =>
          rw [he] at h
          simp only at h
          split at h
          · simp at h
          · cases h; rfl
      · rw [if_neg hr] at h
        split at h
        · simp at h
        · cases h; rfl

/-- An iterator that has not reported an error has not met one. -/
theorem tr_wf (L : Lawful T Q I) {cap : Nat} {s : List ι} : ∀ (k : Nat) (a : ViewIt ι ο T), iterN T cap s k = .ok a → a.parentWf = true → T.wellFormed a.tr = true := by
  intro k
  induction k with
  | zero =>
    intro a h hp
    simp only [iterN, viewBegin] at h
    split at h
    · cases h; exact L.wfInit
    · have := fill_tr h
      rw [hp] at this
      simpa using this.symm
  | succ k ih =>
    intro a h hp
    rw [iterN] at h
    cases hx : iterN T cap s k with
    | error e => rw [hx] at h; simp [bind, Except.bind] at h
    | ok x =>
      rw [hx] at h
      have h : x.incr T cap = .ok a := h
      unfold ViewIt.incr at h
      split at h
      · simp at h
      · split at h
        · have := fill_tr h
          rw [hp] at this
          have : (x.parentWf && T.wellFormed a.tr) = true := this.symm
          simp only [Bool.and_eq_true] at this
          exact this.2
        · cases h; exact ih x hx hp

/-- The last `++` fills, and the transcoder has met the error, if there is one. -/
theorem last_incr (L : Lawful T Q I) {cap : Nat} (hQ : ∀ l, Q l → l.length ≤ cap) {s : List ι} {st : T.σ} {out : List ο} (h : T.run s = .ok (st, out))
    (hw : T.wellFormed st = false) {k : Nat} (hk : k + 1 = out.length) {a b : ViewIt ι ο T} (ha : iterN T cap s k = .ok a) (hb : iterN T cap s (k + 1) = .ok b) :
    ∃ c, a.buf = [c] ∧ T.wellFormed b.tr = false := by
  obtain ⟨st', out', h', hv⟩ := L.view hQ s
  rw [h] at h'
  have e1 := Except.ok.inj h'
  have e2 : st = st' := congrArg Prod.fst e1
  have e3 : out = out' := congrArg Prod.snd e1
  subst e2 e3
  obtain ⟨z, hz, hzw⟩ := iter_end hv
  rw [← hk, hb] at hz
  cases hz
  obtain ⟨it, i1, i2⟩ := iter_place L hQ s h k (by omega)
  rw [ha] at i1
  cases i1
  rcases i2 with ⟨_, ⟨wf, a1, a2, a3, a4⟩, _⟩ | ⟨e, _⟩
  · have hl : (out.drop k).length = 1 := by rw [List.length_drop]; omega
    rw [iterN, ha] at hb
    have hb : a.incr T cap = .ok b := hb
    cases hbuf : a.buf with
    | nil => exact absurd hbuf a2
    | cons c bs =>
      rcases a4 with ⟨n1, n2, n3, st'', rest, n4, n5, n6⟩ | ⟨n1, n2, n3, n4, st3, e3, n5, n6, n7⟩
      · rw [n5, hbuf] at hl
        simp only [List.cons_append, List.length_cons, List.length_append] at hl
        have e1 : bs = [] := List.length_eq_zero_iff.1 (by omega)
        have e2 : rest = [] := List.length_eq_zero_iff.1 (by omega)
        subst e1 e2
        obtain ⟨it', q1, q2, _⟩ := L.fill hQ { a with buf := [] } rfl n2 n1 n4 n3
        obtain ⟨_, b2, _, b4⟩ := q2
        rcases b4 with ⟨_, _, _, _, _, _, e, _⟩ | ⟨_, e, _⟩
        · exact absurd (List.append_eq_nil_iff.1 e.symm).1 b2
        · exact absurd e.symm b2
      · rw [n2, hbuf] at hl
        have e1 : bs = [] := List.length_eq_zero_iff.1 (by simpa using hl)
        subst e1
        refine ⟨c, rfl, ?_⟩
        have hinc : a.incr T cap = Icu.fill T cap { a with buf := [] } := by simp [ViewIt.incr, hbuf]
        have k1 : Icu.fill T cap { a with buf := [] } = .ok { current := [], next := [], buf := e3, tr := st3, parentWf := a.parentWf && T.wellFormed st3 } := by
          unfold Icu.fill
          simp only [List.isEmpty_nil, Bool.not_true, Bool.false_eq_true, if_false, n1, Icu.fillLoop, bind, Except.bind, if_true, n5, List.nil_append]
          rw [if_neg (by omega)]
        rw [hinc, k1] at hb
        cases hb
        simp only at hzw ⊢
        rw [n7] at hzw ⊢
        rw [← n4, ← n3] at hzw
        rw [← n4]
        cases wf
        · rfl
        · rw [hw] at hzw; simp at hzw
  · omega

/-- What an operation's accesses are. -/
structure Does (T : Transcoder ι ο) (m : Nat) (t : Nat) (o : Op) (quiet : Prop) (loud : Prop) (l : List Access) : Prop where
  thread : ∀ a ∈ l, a.thread = t
  text : ∀ a ∈ l, ∀ k, a.loc = .text k → a.write = false
  it : ∀ a ∈ l, ∀ i, a.loc = .it i → Names m o i a.write
  hex : ∀ a ∈ l, ∀ i, a.loc ≠ .hex i
  flag : ∀ a ∈ l, a.loc = .flag → (Moving o ∧ a.write = true ∧ ¬ quiet) ∨ (Asking o ∧ a.write = false)
  asks : Asking o → (⟨t, .flag, false⟩ : Access) ∈ l
  loud : loud → (⟨t, .flag, true⟩ : Access) ∈ l

theorem fill_does {cap : Nat} {s : List ι} {t : Nat} {it r : ViewIt ι ο T} (h : Icu.fill T cap it = .ok r) :
    ∃ l, fill T cap s t it = .ok (r, l) ∧ (∀ a ∈ l, a.thread = t) ∧
      (∀ a ∈ l, (∃ k, a.loc = .text k ∧ a.write = false) ∨ (a.loc = .flag ∧ a.write = true ∧ T.wellFormed r.tr = false)) ∧
      (T.wellFormed r.tr = false → (⟨t, .flag, true⟩ : Access) ∈ l) := by
  refine ⟨_, by simp only [fill, h, bind, Except.bind]; rfl, ?_, ?_, ?_⟩
  · intro a ha
    rcases List.mem_append.1 ha with ha | ha
    · exact (reads_mem ha).1
    · split at ha
      · simp at ha
      · simp at ha; rw [ha]
  · intro a ha
    rcases List.mem_append.1 ha with ha | ha
    · obtain ⟨_, ⟨k, h1⟩, h2⟩ := reads_mem ha
      exact .inl ⟨k, h1, h2⟩
    · split at ha
      · simp at ha
      · rename_i hw
        simp at ha; rw [ha]
        exact .inr ⟨rfl, rfl, by simpa using hw⟩
  · intro hw
    apply List.mem_append_right
    rw [if_neg (by simp [hw])]
    simp

/-- The states a program can reach. -/
def Reached (T : Transcoder ι ο) (cap : Nat) (s : List ι) (n : Nat) (w : Shared ι ο T) (ps : List Nat) : Prop :=
  ∃ ops, Positions n ops ps ∧ useView T cap s ops = .ok w

theorem useView_snoc {cap : Nat} {s : List ι} {ops : List ViewOp} {o : ViewOp} {w w' : Shared ι ο T} (h1 : useView T cap s ops = .ok w)
    (h2 : useView T cap s (ops ++ [o]) = .ok w') : w.step T cap s o = .ok w' := by
  unfold useView at *
  rw [List.foldlM_append, h1] at h2
  simp only [bind, Except.bind, List.foldlM_cons, List.foldlM_nil, pure, Except.pure] at h2
  split at h2
  · simp at h2
  · rename_i hs; cases h2; exact hs

theorem step_does {cap : Nat} (L : Lawful T Q I) (hQ : ∀ l, Q l → l.length ≤ cap) {s : List ι} {st : T.σ} {out : List ο} (hrun : T.run s = .ok (st, out))
    {w : Shared ι ο T} {ps ps' : List Nat} {t : Nat} {o : Op} (hr : Reached T cap s out.length w ps) (hm : Moves out.length ps o ps') :
    ∃ w' l v, step T cap s t w o = .ok (w', l, v) ∧ Reached T cap s out.length w' ps' ∧
      Does T ps.length t o (T.wellFormed st = true) (T.wellFormed st = false ∧ ∃ i k, o = .incr i ∧ ps[i]? = some k ∧ k + 1 = out.length) l ∧
      ps'.length = ps.length + makes o ∧
      (∀ ops vs, Yields out (T.wellFormed st) ps' ops vs → Yields out (T.wellFormed st) ps ((t, o) :: ops) (v :: vs)) := by
  obtain ⟨st', out', h', hsh⟩ := shared L hQ s
  rw [hrun] at h'
  have e1 := Except.ok.inj h'
  have e2 : st = st' := congrArg Prod.fst e1
  have e3 : out = out' := congrArg Prod.snd e1
  subst e2 e3
  -- what is known of the iterators of a reached state
  obtain ⟨st', out', h', hv⟩ := L.view hQ s
  rw [hrun] at h'
  have e1 := Except.ok.inj h'
  have e2 : st = st' := congrArg Prod.fst e1
  have e3 : out = out' := congrArg Prod.snd e1
  subst e2 e3
  obtain ⟨z, hz, hzw⟩ := iter_end hv
  obtain ⟨st', out', h', hc⟩ := iter_eq L hQ s
  rw [hrun] at h'
  have e1 := Except.ok.inj h'
  have e2 : st = st' := congrArg Prod.fst e1
  have e3 : out = out' := congrArg Prod.snd e1
  subst e2 e3
  have hok : ∀ k, k ≤ out.length → ∃ a, iterN T cap s k = .ok a := fun k hk => by
    obtain ⟨a, _, h, _⟩ := hc k k hk hk
    exact ⟨a, h⟩
  have hgood : T.wellFormed st = true → ∀ k a, k ≤ out.length → iterN T cap s k = .ok a → T.wellFormed a.tr = true := by
    intro hw k a hk ha
    rw [hw] at hzw
    exact tr_wf L k a ha (latch (m := out.length - k) ha (by rw [show k + (out.length - k) = out.length by omega]; exact hz) hzw)
  have hlatch : ∀ k a, k ≤ out.length → iterN T cap s k = .ok a → a.parentWf = false → T.wellFormed st = false := by
    intro k a hk ha hf
    cases hw : T.wellFormed st with
    | false => rfl
    | true =>
      rw [hw] at hzw
      have := latch (m := out.length - k) ha (by rw [show k + (out.length - k) = out.length by omega]; exact hz) hzw
      rw [hf] at this; cases this
  have reach : ∀ {w : Shared ι ο T} {ps : List Nat}, Reached T cap s out.length w ps → Inv T cap s out.length (T.wellFormed st) w ps := by
    rintro w ps ⟨ops, hp, hu⟩
    obtain ⟨w1, h1, h2⟩ := inv_run hlatch hok hp
    rw [hu] at h1
    cases h1
    exact h2
  have hinv := reach hr
  have get : ∀ {i k : Nat}, ps[i]? = some k → ∃ it a b, w.its[i]? = some it ∧ k ≤ out.length ∧ iterN T cap s k = .ok a ∧ it = { a with parentWf := b } := by
    intro i k hk
    have hlt : i < ps.length := (List.getElem?_eq_some_iff.1 hk).1
    have hi : w.its[i]? = some (w.its[i]'(by rw [hinv.len]; exact hlt)) := List.getElem?_eq_getElem _
    obtain ⟨h1, a, b, h2, h3, _⟩ := hinv.at' i k _ hk hi
    exact ⟨_, a, b, hi, h1, h2, h3⟩
  obtain ⟨ops, hp, hu⟩ := hr
  -- an operation that reads only
  cases hm with
  | begin =>
    have hp' := hp.begin
    obtain ⟨w', hu', _⟩ := hsh _ _ hp'
    have hs := useView_snoc hu hu'
    have hinv' := reach ⟨_, hp', hu'⟩
    -- the new iterator
    obtain ⟨l, hl, hth, hacc⟩ : ∃ l, step T cap s t w .begin = .ok (w', ⟨t, .it w.its.length, true⟩ :: l, .nothing) ∧ (∀ a ∈ l, a.thread = t) ∧
        (∀ a ∈ l, (∃ k, a.loc = .text k ∧ a.write = false) ∨ (a.loc = .flag ∧ a.write = true ∧ T.wellFormed st = false)) := by
      simp only [Shared.step, bind, Except.bind] at hs
      by_cases he : s.isEmpty = true
      · rw [if_pos he] at hs
        cases hs
        refine ⟨[], by simp only [step, if_pos he, bind, Except.bind], by simp, by simp⟩
      · rw [if_neg he] at hs
        split at hs
        · simp at hs
        · rename_i r hf
          cases hs
          obtain ⟨l, q1, q2, q3, _⟩ := fill_does (s := s) (t := t) hf
          refine ⟨l, by simp only [step, if_neg he, bind, Except.bind, q1], q2, fun a ha => ?_⟩
          rcases q3 a ha with h | ⟨h1, h2, h3⟩
          · exact .inl h
          · refine .inr ⟨h1, h2, ?_⟩
            cases hw : T.wellFormed st with
            | false => rfl
            | true =>
              have hlt : (ps ++ [0])[ps.length]? = some 0 := by simp
              have hi : (w.its ++ [r])[ps.length]? = some r := by rw [← hinv.len]; simp
              obtain ⟨k1, a', b', k2, k3, _⟩ := hinv'.at' ps.length 0 r hlt hi
              have := hgood hw 0 a' k1 k2
              rw [k3] at h3
              rw [this] at h3
              cases h3
    refine ⟨w', _, _, hl, ⟨_, hp', hu'⟩, ⟨?_, ?_, ?_, ?_, ?_, nofun, ?_⟩, by simp [makes], fun ops vs h => .begin h⟩
    · intro a ha
      rcases List.mem_cons.1 ha with rfl | ha
      · rfl
      · exact hth a ha
    · intro a ha k hk
      rcases List.mem_cons.1 ha with rfl | ha
      · cases hk
      · rcases hacc a ha with ⟨_, _, h⟩ | ⟨h, _⟩
        · exact h
        · rw [h] at hk; cases hk
    · intro a ha i hi
      rcases List.mem_cons.1 ha with rfl | ha
      · cases hi; rw [hinv.len]; exact .begin
      · rcases hacc a ha with ⟨_, h, _⟩ | ⟨h, _⟩ <;> rw [h] at hi <;> cases hi
    · intro a ha i hi
      rcases List.mem_cons.1 ha with rfl | ha
      · cases hi
      · rcases hacc a ha with ⟨_, h, _⟩ | ⟨h, _⟩ <;> rw [h] at hi <;> cases hi
    · intro a ha hf
      rcases List.mem_cons.1 ha with rfl | ha
      · cases hf
      · rcases hacc a ha with ⟨_, h, _⟩ | ⟨_, h1, h2⟩
        · rw [h] at hf; cases hf
        · exact .inl ⟨.begin, h1, by rw [h2]; simp⟩
    · rintro ⟨_, i, k, h, _⟩; cases h
  | @copy i k hk =>
    obtain ⟨it, a, b, hi, _, _, _⟩ := get hk
    have hp' := hp.copy hk
    obtain ⟨w', hu', _⟩ := hsh _ _ hp'
    have hs := useView_snoc hu hu'
    simp only [Shared.step, Shared.get, hi, bind, Except.bind] at hs
    cases hs
    refine ⟨_, _, _, by simp only [step, Shared.get, hi, bind, Except.bind]; rfl, ⟨_, hp', hu'⟩, ⟨?_, ?_, ?_, ?_, ?_, nofun, ?_⟩, by simp [makes], fun ops vs h => .copy hk h⟩
    all_goals simp only [List.mem_cons, List.not_mem_nil, or_false, forall_eq_or_imp, forall_eq, reduceCtorEq, false_implies, implies_true, and_self, true_and, and_true, not_false_eq_true, ne_eq, Loc.it.injEq]
    · exact ⟨fun j e => e ▸ .copyFrom, fun j e => by rw [← e, hinv.len]; exact .copyTo⟩
    · rintro ⟨_, _, _, h, _⟩; cases h
  | @assign i j k m hk hm =>
    obtain ⟨it, a, b, hi, _, _, _⟩ := get hk
    obtain ⟨jt, _, _, hj, _, _, _⟩ := get hm
    have hp' := hp.assign hk hm
    obtain ⟨w', hu', _⟩ := hsh _ _ hp'
    have hs := useView_snoc hu hu'
    simp only [Shared.step, Shared.get, hi, hj, bind, Except.bind] at hs
    cases hs
    refine ⟨_, _, _, by simp only [step, Shared.get, hi, hj, bind, Except.bind]; rfl, ⟨_, hp', hu'⟩, ⟨?_, ?_, ?_, ?_, ?_, nofun, ?_⟩, by simp [makes], fun ops vs h => .assign hm h⟩
    all_goals simp only [List.mem_cons, List.not_mem_nil, or_false, forall_eq_or_imp, forall_eq, reduceCtorEq, false_implies, implies_true, and_self, true_and, and_true, not_false_eq_true, ne_eq, Loc.it.injEq]
    · exact ⟨fun j e => e ▸ .assignFrom, fun j e => e ▸ .assignTo⟩
    · rintro ⟨_, _, _, h, _⟩; cases h
  | @incr i k hk hn =>
    obtain ⟨it, a, b, hi, _, ha, hit⟩ := get hk
    have hp' := hp.incr hk hn
    obtain ⟨w', hu', _⟩ := hsh _ _ hp'
    have hs := useView_snoc hu hu'
    have hinv' := reach ⟨_, hp', hu'⟩
    obtain ⟨r, hr⟩ := hok (k + 1) hn
    have hinc : a.incr T cap = .ok r := by
      have := hr
      simpa [iterN, ha, bind, Except.bind] using this
    simp only [Shared.step, Shared.get, hi, bind, Except.bind] at hs
    have ew : ({ it with parentWf := w.wf } : ViewIt ι ο T) = { a with parentWf := w.wf } := by rw [hit]
    obtain ⟨f, _, hf⟩ := incr_flag w.wf hinc
    rw [ew, hf] at hs
    cases hs
    -- the accesses
    obtain ⟨l, hl, hth, hacc, hloud⟩ : ∃ l, incr T cap s t i { a with parentWf := w.wf } = .ok ({ r with parentWf := w.wf && f }, ⟨t, .it i, true⟩ :: l) ∧
        (∀ a ∈ l, a.thread = t) ∧
        (∀ a ∈ l, (∃ k, a.loc = .text k ∧ a.write = false) ∨ (a.loc = .flag ∧ a.write = true ∧ T.wellFormed r.tr = false)) ∧
        (T.wellFormed st = false → k + 1 = out.length → (⟨t, .flag, true⟩ : Access) ∈ l) := by
      unfold ViewIt.incr at hf
      unfold incr
      simp only at hf ⊢
      cases hb : a.buf with
      | nil => rw [hb] at hf; simp at hf
      | cons c bs =>
        rw [hb] at hf
        simp only at hf ⊢
        by_cases he : bs.isEmpty = true
        · rw [if_pos he] at hf ⊢
          obtain ⟨l, q1, q2, q3, q4⟩ := fill_does (s := s) (t := t) hf
          refine ⟨l, by simp only [q1, bind, Except.bind], q2, q3, fun hw hk1 => q4 ?_⟩
          obtain ⟨_, _, h⟩ := last_incr L hQ hrun hw hk1 ha hr
          exact h
        · rw [if_neg he] at hf ⊢
          refine ⟨[], by rw [Except.ok.inj hf], by simp, by simp, fun hw hk1 => ?_⟩
          obtain ⟨c', h, _⟩ := last_incr L hQ hrun hw hk1 ha hr
          rw [hb] at h
          have : bs = [] := (List.cons.inj h).2
          rw [this] at he
          simp at he
    have hq : T.wellFormed st = true → T.wellFormed r.tr = true := fun hw => hgood hw (k + 1) r hn hr
    refine ⟨_, _, _, by simp only [step, Shared.get, hi, bind, Except.bind, ew, hl]; rfl, ⟨_, hp', hu'⟩, ⟨?_, ?_, ?_, ?_, ?_, nofun, ?_⟩, by simp [makes], fun ops vs h => .incr hk h⟩
    · intro a ha
      rcases List.mem_cons.1 ha with rfl | ha
      · rfl
      · exact hth a ha
    · intro a ha k hk
      rcases List.mem_cons.1 ha with rfl | ha
      · cases hk
      · rcases hacc a ha with ⟨_, _, h⟩ | ⟨h, _⟩
        · exact h
        · rw [h] at hk; cases hk
    · intro a ha j hj
      rcases List.mem_cons.1 ha with rfl | ha
      · cases hj; exact .incr
      · rcases hacc a ha with ⟨_, h, _⟩ | ⟨h, _⟩ <;> rw [h] at hj <;> cases hj
    · intro a ha i hi
      rcases List.mem_cons.1 ha with rfl | ha
      · cases hi
      · rcases hacc a ha with ⟨_, h, _⟩ | ⟨h, _⟩ <;> rw [h] at hi <;> cases hi
    · intro a ha hf
      rcases List.mem_cons.1 ha with rfl | ha
      · cases hf
      · rcases hacc a ha with ⟨_, h, _⟩ | ⟨_, h1, h2⟩
        · rw [h] at hf; cases hf
        · exact .inl ⟨.incr, h1, fun hw => by rw [hq hw] at h2; cases h2⟩
    · rintro ⟨hw, i', k', e, hk', hk1⟩
      cases e
      rw [hk] at hk'
      cases hk'
      exact List.mem_cons_of_mem _ (hloud hw hk1)
  | @deref i k hk hn =>
    obtain ⟨it, a, b, hi, _, ha, hit⟩ := get hk
    obtain ⟨a', _, ha', _, hd, _⟩ := hc k k (by omega) (by omega)
    rw [ha] at ha'
    cases ha'
    have hk2 : out[k]? = some out[k] := List.getElem?_eq_getElem hn
    have hd : it.deref = .ok out[k] := by rw [hit]; exact hd _ hk2
    refine ⟨_, _, _, by simp only [step, Shared.get, hi, hd, bind, Except.bind]; rfl, ⟨_, hp, hu⟩, ⟨?_, ?_, ?_, ?_, ?_, nofun, ?_⟩, by simp [makes], fun ops vs h => .deref hk hk2 h⟩
    all_goals simp only [List.mem_cons, List.not_mem_nil, or_false, forall_eq_or_imp, forall_eq, reduceCtorEq, false_implies, implies_true, and_self, true_and, and_true, not_false_eq_true, ne_eq, Loc.it.injEq]
    · exact fun j e => e ▸ .deref
    · rintro ⟨_, _, _, h, _⟩; cases h
  | @atEnd i k hk =>
    obtain ⟨it, a, b, hi, hkn, ha, hit⟩ := get hk
    obtain ⟨a', _, ha', _, _, he, _⟩ := hc k k hkn hkn
    rw [ha] at ha'
    cases ha'
    have he : it.atEnd = true ↔ k = out.length := by rw [hit]; exact he
    refine ⟨_, _, _, by simp only [step, Shared.get, hi, bind, Except.bind]; rfl, ⟨_, hp, hu⟩, ⟨?_, ?_, ?_, ?_, ?_, nofun, ?_⟩, by simp [makes], fun ops vs h => .atEnd hk he h⟩
    all_goals simp only [List.mem_cons, List.not_mem_nil, or_false, forall_eq_or_imp, forall_eq, reduceCtorEq, false_implies, implies_true, and_self, true_and, and_true, not_false_eq_true, ne_eq, Loc.it.injEq]
    · exact fun j e => e ▸ .atEnd
    · rintro ⟨_, _, _, h, _⟩; cases h
  | wellFormed =>
    refine ⟨_, _, _, rfl, ⟨_, hp, hu⟩, ⟨?_, ?_, ?_, ?_, ?_, ?_, ?_⟩, by simp [makes], fun ops vs h => .wellFormed (fun hw => ?_) h⟩
    all_goals try simp only [List.mem_cons, List.not_mem_nil, or_false, forall_eq_or_imp, forall_eq, reduceCtorEq, false_implies, implies_true, and_self, true_and, and_true, not_false_eq_true, ne_eq, Loc.it.injEq]
    · exact fun _ => .inr .wellFormed
    · rintro ⟨_, _, _, h, _⟩; cases h
    · cases hww : w.wf with
      | true => rfl
      | false => have := hinv.bad hww; rw [hw] at this; cases this
  | copyView =>
    refine ⟨_, _, _, rfl, ⟨_, hp, hu⟩, ⟨?_, ?_, ?_, ?_, ?_, ?_, ?_⟩, by simp [makes], fun ops vs h => .copyView h⟩
    all_goals try simp only [List.mem_cons, List.not_mem_nil, or_false, forall_eq_or_imp, forall_eq, reduceCtorEq, false_implies, implies_true, and_self, true_and, and_true, not_false_eq_true, ne_eq, Loc.it.injEq]
    · exact fun _ => .inr .copyView
    · rintro ⟨_, _, _, h, _⟩; cases h

/-- What an execution's accesses are. -/
structure Did (n m : Nat) (good : Bool) (ps : List Nat) (sched : List (Nat × Op)) (l : List Access) : Prop where
  text : ∀ a ∈ l, ∀ k, a.loc = .text k → a.write = false
  it : ∀ a ∈ l, ∀ i, a.loc = .it i → Uses m sched a.thread i a.write
  hex : ∀ a ∈ l, ∀ i, a.loc ≠ .hex i
  flag : ∀ a ∈ l, a.loc = .flag → ∃ o, (a.thread, o) ∈ sched ∧ ((Moving o ∧ a.write = true ∧ good = false) ∨ (Asking o ∧ a.write = false))
  asks : ∀ t o, (t, o) ∈ sched → Asking o → (⟨t, .flag, false⟩ : Access) ∈ l
  loud : ∀ t, good = false → Ends n ps sched t → (⟨t, .flag, true⟩ : Access) ∈ l

theorem Moves.unique {n : Nat} {ps : List Nat} {o : Op} {a b : List Nat} (h1 : Moves n ps o a) (h2 : Moves n ps o b) : a = b := by
  cases h1 <;> cases h2 <;> simp_all

theorem run_did {cap : Nat} (L : Lawful T Q I) (hQ : ∀ l, Q l → l.length ≤ cap) {s : List ι} {st : T.σ} {out : List ο} (hrun : T.run s = .ok (st, out)) :
    ∀ (sched : List (Nat × Op)) (w : Shared ι ο T) (ps : List Nat), Reached T cap s out.length w ps → Proper out.length ps sched →
      ∃ w' log seen, run T cap s w sched = .ok (w', log, seen) ∧ Yields out (T.wellFormed st) ps sched seen ∧ Did out.length ps.length (T.wellFormed st) ps sched log := by
  intro sched
  induction sched with
  | nil =>
    intro w ps _ _
    refine ⟨w, [], [], rfl, .nil, ⟨?_, ?_, ?_, ?_, ?_, ?_⟩⟩
    all_goals try simp
    · rintro t _ h; cases h
  | cons x sched ih =>
    obtain ⟨t, o⟩ := x
    intro w ps hr hp
    cases hp with
    | cons hm hp =>
      rename_i ps'
      obtain ⟨w1, l, v, h1, h2, h3, h4, h5⟩ := step_does L hQ hrun (t := t) hr hm
      obtain ⟨w2, log, seen, k1, k2, k3⟩ := ih w1 ps' h2 hp
      refine ⟨w2, l ++ log, v :: seen, by simp only [run, h1, k1, bind, Except.bind], h5 _ _ k2, ⟨?_, ?_, ?_, ?_, ?_, ?_⟩⟩
      · intro a ha
        rcases List.mem_append.1 ha with ha | ha
        · exact h3.text a ha
        · exact k3.text a ha
      · intro a ha i hi
        rcases List.mem_append.1 ha with ha | ha
        · have := h3.it a ha i hi
          rw [h3.thread a ha]
          exact .here this
        · have := k3.it a ha i hi
          rw [h4] at this
          exact .there this
      · intro a ha
        rcases List.mem_append.1 ha with ha | ha
        · exact h3.hex a ha
        · exact k3.hex a ha
      · intro a ha hf
        rcases List.mem_append.1 ha with ha | ha
        · refine ⟨o, by rw [h3.thread a ha]; exact List.mem_cons_self, ?_⟩
          rcases h3.flag a ha hf with ⟨q1, q2, q3⟩ | q
          · exact .inl ⟨q1, q2, by simpa using q3⟩
          · exact .inr q
        · obtain ⟨o', q1, q2⟩ := k3.flag a ha hf
          exact ⟨o', List.mem_cons_of_mem _ q1, q2⟩
      · intro t' o' hmem hask
        rcases List.mem_cons.1 hmem with e | hmem
        · cases e
          exact List.mem_append_left _ (h3.asks hask)
        · exact List.mem_append_right _ (k3.asks t' o' hmem hask)
      · intro t' hw he
        cases he with
        | @here _ _ i k _ hk hk1 => exact List.mem_append_left _ (h3.loud ⟨hw, i, k, rfl, hk, hk1⟩)
        | there hm' he =>
          have := Moves.unique hm hm'
          subst this
          exact List.mem_append_right _ (k3.loud t' hw he)

theorem shareable {cap : Nat} (L : Lawful T Q I) (hQ : ∀ l, Q l → l.length ≤ cap) : Shareable T cap := by
  intro s
  obtain ⟨st, out, hrun, hsh⟩ := shared L hQ s
  refine ⟨st, out, hrun, fun setup ps sched hpos hprop => ?_⟩
  obtain ⟨w0, hu, _⟩ := hsh _ _ hpos
  obtain ⟨w, log, seen, h1, h2, h3⟩ := run_did L hQ hrun sched w0 ps ⟨_, hpos, hu⟩ hprop
  have only : Independent ps.length sched → ∀ a ∈ log, ∀ b ∈ log, a.thread ≠ b.thread → a.loc = b.loc → (a.write = true ∨ b.write = true) → a.loc = .flag := by
    intro hind a ha b hb hne hl hw
    cases hloc : a.loc with
    | flag => rfl
    | text k =>
      rw [hloc] at hl
      rw [h3.text a ha k hloc, h3.text b hb k hl.symm] at hw
      simp at hw
    | it i =>
      rw [hloc] at hl
      have := hind _ _ i _ _ (h3.it a ha i hloc) (h3.it b hb i hl.symm) hne
      rw [this.1, this.2] at hw
      simp at hw
    | hex i => exact absurd hloc (h3.hex a ha i)
  refine ⟨w, log, seen, by simp only [execute, hu, bind, Except.bind, h1], h2, ?_, ?_, ?_⟩
  · rintro hind hgood ⟨a, ha, b, hb, hne, hl, hw⟩
    have hf := only hind a ha b hb hne hl hw
    have quiet : ∀ a ∈ log, a.loc = .flag → a.write = false := by
      intro a ha hf
      obtain ⟨_, _, ⟨_, _, q⟩ | ⟨_, q⟩⟩ := h3.flag a ha hf
      · rw [hgood] at q; cases q
      · exact q
    rw [quiet a ha hf, quiet b hb (hl ▸ hf)] at hw
    simp at hw
  · rintro hind ⟨a, ha, b, hb, hne, hl, hw⟩
    have hf := only hind a ha b hb hne hl hw
    obtain ⟨o, q1, q2⟩ := h3.flag a ha hf
    obtain ⟨o', q1', q2'⟩ := h3.flag b hb (hl ▸ hf)
    rcases q2 with ⟨m, _, _⟩ | ⟨m, hwr⟩
    · rcases q2' with ⟨m', _, _⟩ | ⟨m', _⟩
      · exact ⟨_, _, o, o', hne, q1, q1', m, .inl m'⟩
      · exact ⟨_, _, o, o', hne, q1, q1', m, .inr m'⟩
    · rcases q2' with ⟨m', _, _⟩ | ⟨m', hwr'⟩
      · exact ⟨_, _, o', o, hne.symm, q1', q1, m', .inr m⟩
      · rw [hwr, hwr'] at hw
        simp at hw
  · intro hw t t' hne he hor
    refine ⟨_, h3.loud t hw he, ?_⟩
    rcases hor with he' | ⟨o, hm, hask⟩
    · exact ⟨_, h3.loud t' hw he', hne, rfl, .inl rfl⟩
    · exact ⟨_, h3.asks t' o hm hask, hne, rfl, .inl rfl⟩

end

end Verif.Threads.View

namespace Verif.Threads.Pct
open Verif.Refs Verif.PctSpec

/-! ### Specification -/

/-- The iterators an operation uses when there are `m` of them. -/
inductive Names (m : Nat) : Op → Nat → Prop
  | begin : Names m .begin m
  | copyFrom {i} : Names m (.copy i) i
  | copyTo {i} : Names m (.copy i) m
  | assignFrom {i j} : Names m (.assign i j) j
  | assignTo {i j} : Names m (.assign i j) i
  | incr {i} : Names m (.incr i) i
  | deref {i} : Names m (.deref i) i
  | atEnd {i} : Names m (.atEnd i) i

/-- How many iterators an operation makes. -/
def makes : Op → Nat
  | .begin => 1
  | .copy _ => 1
  | _ => 0

/-- In the execution, which starts with `m` iterators, the thread uses iterator `i`. -/
inductive Uses : Nat → List (Nat × Op) → Nat → Nat → Prop
  | here {m t o ops i} : Names m o i → Uses m ((t, o) :: ops) t i
  | there {m t o ops t' i} : Uses (m + makes o) ops t' i → Uses m ((t, o) :: ops) t' i

/-- The operation moves or assigns to iterator `i`. -/
inductive Changes (i : Nat) : Op → Prop
  | incr : Changes i (.incr i)
  | assign {j} : Changes i (.assign i j)

/-- The operation copies iterator `i`. -/
inductive Copies (i : Nat) : Op → Prop
  | copy : Copies i (.copy i)
  | assign {j} : Copies i (.assign j i)

/-- The first `m` iterators, of the `n` there are, are shared and nobody moves them or assigns to them; each of the others is used by
one thread only. -/
def Shares (m n : Nat) (sched : List (Nat × Op)) : Prop :=
  (∀ t o i, (t, o) ∈ sched → Changes i o → m ≤ i) ∧ ∀ t t' i, Uses n sched t i → Uses n sched t' i → m ≤ i → t = t'

/-! ### Proof -/

theorem get_ok {w : List ItObj} {i : Nat} {o : ItObj} (h : get w i = .ok o) : w[i]? = some o := by
  unfold get at h
  split at h
  · rename_i x hx; cases h; exact hx
  · cases h

theorem bind_ok {α β : Type} {x : M α} {f : α → M β} {b : β} (h : (x >>= f) = .ok b) : ∃ a, x = .ok a ∧ f a = .ok b := by
  cases x with
  | error e => cases h
  | ok a => exact ⟨a, rfl, h⟩

/-- The accesses of one operation. -/
structure Does (s : Str) (w : List ItObj) (t : Nat) (o : Op) (l : List Access) : Prop where
  thread : ∀ a ∈ l, a.thread = t
  text : ∀ a ∈ l, ∀ k, a.loc = .text k → a.write = false
  flag : ∀ a ∈ l, a.loc ≠ .flag
  it : ∀ a ∈ l, ∀ i, a.loc = .it i → Names w.length o i ∧ (a.write = true → i < w.length → Changes i o)
  hex : ∀ a ∈ l, ∀ i, a.loc = .hex i → Names w.length o i ∧
    (i < w.length → ¬ Changes i o → (a.write = true ∧ o = .deref i ∧ ∃ x, w[i]? = some x ∧ StartsTriplet (s.drop x.pos)) ∨ (a.write = false ∧ Copies i o))
  trip : ∀ i x, o = .deref i → w[i]? = some x → StartsTriplet (s.drop x.pos) → (⟨t, .hex i, true⟩ : Access) ∈ l
  copy : ∀ i, Copies i o → (⟨t, .hex i, false⟩ : Access) ∈ l

theorem step_does {s : Str} {t : Nat} {w w' : List ItObj} {o : Op} {l : List Access} {v : Option UInt8} (h : step s t w o = .ok (w', l, v)) :
    Does s w t o l ∧ w'.length = w.length + makes o ∧
      ∀ (i : Nat) (x : ItObj), w[i]? = some x → ¬ Changes i o → ∃ y : ItObj, w'[i]? = some y ∧ y.pos = x.pos := by
  have keep : ∀ {i : Nat} {x : ItObj} {y : ItObj}, w[i]? = some x → (w ++ [y])[i]? = some x := by
    intro i x y hx
    rw [List.getElem?_append_left (List.getElem?_eq_some_iff.1 hx).1]; exact hx
  have setne : ∀ {i j : Nat} {x y : ItObj}, w[i]? = some x → j ≠ i → (w.set j y)[i]? = some x := by
    intro i j x y hx hne
    rw [List.getElem?_set_ne hne]; exact hx
  cases o with
  | begin =>
    cases h
    refine ⟨⟨?_, ?_, ?_, ?_, ?_, nofun, nofun⟩, by simp [makes], fun i x hx _ => ⟨x, keep hx, rfl⟩⟩
    all_goals simp only [List.mem_cons, List.not_mem_nil, or_false, forall_eq_or_imp, forall_eq, reduceCtorEq, false_implies, implies_true, and_self, true_and, and_true, not_false_eq_true, ne_eq, Loc.it.injEq, Loc.hex.injEq]
    · rintro i rfl; exact ⟨.begin, fun _ h => absurd h (Nat.lt_irrefl _)⟩
    · rintro i rfl; exact ⟨.begin, fun h => absurd h (Nat.lt_irrefl _)⟩
  | copy i =>
    obtain ⟨o, ho, h⟩ := bind_ok h
    cases h
    refine ⟨⟨?_, ?_, ?_, ?_, ?_, nofun, ?_⟩, by simp [makes], fun i x hx _ => ⟨x, keep hx, rfl⟩⟩
    all_goals try simp only [List.mem_cons, List.not_mem_nil, or_false, forall_eq_or_imp, forall_eq, reduceCtorEq, false_implies, implies_true, and_self, true_and, and_true, not_false_eq_true, ne_eq, Loc.it.injEq, Loc.hex.injEq, Bool.false_eq_true]
    · refine ⟨?_, ?_⟩
      · rintro j rfl; exact .copyFrom
      · rintro j rfl; exact ⟨.copyTo, fun _ h => absurd h (Nat.lt_irrefl _)⟩
    · refine ⟨?_, ?_⟩
      · rintro j rfl; exact ⟨.copyFrom, fun _ _ => .inr .copy⟩
      · rintro j rfl; exact ⟨.copyTo, fun h => absurd h (Nat.lt_irrefl _)⟩
    · intro j hj; cases hj; simp
  | assign i j =>
    obtain ⟨_, _, h⟩ := bind_ok h
    obtain ⟨o, ho, h⟩ := bind_ok h
    cases h
    refine ⟨⟨?_, ?_, ?_, ?_, ?_, nofun, ?_⟩, by simp [makes], fun k x hx hc => ⟨x, setne hx ?_, rfl⟩⟩
    all_goals try simp only [List.mem_cons, List.not_mem_nil, or_false, forall_eq_or_imp, forall_eq, reduceCtorEq, false_implies, implies_true, and_self, true_and, and_true, not_false_eq_true, ne_eq, Loc.it.injEq, Loc.hex.injEq, Bool.false_eq_true]
    · refine ⟨?_, ?_⟩
      · rintro k rfl; exact .assignFrom
      · rintro k rfl; exact ⟨.assignTo, fun _ _ => .assign⟩
    · refine ⟨?_, ?_⟩
      · rintro k rfl; exact ⟨.assignFrom, fun _ _ => .inr .assign⟩
      · rintro k rfl; exact ⟨.assignTo, fun _ hc => absurd .assign hc⟩
    · intro k hk; cases hk; simp
    · rintro rfl; exact hc .assign
  | incr i =>
    obtain ⟨o, ho, h⟩ := bind_ok h
    obtain ⟨pos, _, h⟩ := bind_ok h
    obtain ⟨n, _, h⟩ := bind_ok h
    cases h
    have mem : ∀ {a : Access}, a ∈ reads t o.pos n ++ [⟨t, .it i, true⟩] → a = ⟨t, .it i, true⟩ ∨ (a.thread = t ∧ (∃ j, a.loc = .text j) ∧ a.write = false) := by
      intro a ha
      rcases List.mem_append.1 ha with ha | ha
      · exact .inr (reads_mem ha)
      · exact .inl (by simpa using ha)
    refine ⟨⟨?_, ?_, ?_, ?_, ?_, nofun, nofun⟩, by simp [makes], fun k x hx hc => ⟨x, setne hx (by rintro rfl; exact hc .incr), rfl⟩⟩
    · intro a ha
      rcases mem ha with rfl | ⟨h, _⟩
      · rfl
      · exact h
    · intro a ha k hk
      rcases mem ha with rfl | ⟨_, _, h⟩
      · cases hk
      · exact h
    · intro a ha hk
      rcases mem ha with rfl | ⟨_, ⟨j, h⟩, _⟩
      · cases hk
      · rw [h] at hk; cases hk
    · intro a ha k hk
      rcases mem ha with rfl | ⟨_, ⟨j, h⟩, _⟩
      · cases hk; exact ⟨.incr, fun _ _ => .incr⟩
      · rw [h] at hk; cases hk
    · intro a ha k hk
      rcases mem ha with rfl | ⟨_, ⟨j, h⟩, _⟩
      · cases hk
      · rw [h] at hk; cases hk
  | deref i =>
    obtain ⟨o, ho, h⟩ := bind_ok h
    obtain ⟨hx, hst, h⟩ := bind_ok h
    obtain ⟨n, _, h⟩ := bind_ok h
    have ho := get_ok ho
    have hpos : o.pos < s.length := by
      obtain ⟨c, hc, _⟩ := bind_ok hst
      unfold readAt at hc
      split at hc
      · rename_i x hx; exact (List.getElem?_eq_some_iff.1 hx).1
      · cases hc
    rw [stored_eq hpos] at hst
    have hst := Except.ok.inj hst
    cases hx with
    | none =>
      obtain ⟨c, _, h⟩ := bind_ok h
      cases h
      have hnt : ¬ StartsTriplet (s.drop o.pos) := by rw [starts_iff, hst]; simp
      have mem : ∀ {a : Access}, a ∈ (⟨t, .it i, false⟩ : Access) :: reads t o.pos n → a = ⟨t, .it i, false⟩ ∨ (a.thread = t ∧ (∃ j, a.loc = .text j) ∧ a.write = false) := by
        intro a ha
        rcases List.mem_cons.1 ha with ha | ha
        · exact .inl ha
        · exact .inr (reads_mem ha)
      refine ⟨⟨?_, ?_, ?_, ?_, ?_, ?_, nofun⟩, by simp [makes], fun k x hx _ => ⟨x, hx, rfl⟩⟩
      · intro a ha
        rcases mem ha with rfl | ⟨h, _⟩
        · rfl
        · exact h
      · intro a ha k hk
        rcases mem ha with rfl | ⟨_, _, h⟩
        · rfl
        · exact h
      · intro a ha hk
        rcases mem ha with rfl | ⟨_, ⟨j, h⟩, _⟩
        · cases hk
        · rw [h] at hk; cases hk
      · intro a ha k hk
        rcases mem ha with rfl | ⟨_, ⟨j, h⟩, _⟩
        · cases hk; exact ⟨.deref, nofun⟩
        · rw [h] at hk; cases hk
      · intro a ha k hk
        rcases mem ha with rfl | ⟨_, ⟨j, h⟩, _⟩
        · cases hk
        · rw [h] at hk; cases hk
      · intro j x e hx ht
        cases e
        rw [ho] at hx
        cases hx
        exact absurd ht hnt
    | some v =>
      cases h
      have ht : StartsTriplet (s.drop o.pos) := by rw [starts_iff, hst]; simp
      have mem : ∀ {a : Access}, a ∈ (⟨t, .it i, false⟩ : Access) :: (reads t o.pos n ++ [⟨t, .hex i, true⟩]) →
          a = ⟨t, .it i, false⟩ ∨ a = ⟨t, .hex i, true⟩ ∨ (a.thread = t ∧ (∃ j, a.loc = .text j) ∧ a.write = false) := by
        intro a ha
        rcases List.mem_cons.1 ha with ha | ha
        · exact .inl ha
        · rcases List.mem_append.1 ha with ha | ha
          · exact .inr (.inr (reads_mem ha))
          · exact .inr (.inl (by simpa using ha))
      refine ⟨⟨?_, ?_, ?_, ?_, ?_, ?_, nofun⟩, by simp [makes], fun k x hx _ => ?_⟩
      · intro a ha
        rcases mem ha with rfl | rfl | ⟨h, _⟩
        · rfl
        · rfl
        · exact h
      · intro a ha k hk
        rcases mem ha with rfl | rfl | ⟨_, _, h⟩
        · rfl
        · cases hk
        · exact h
      · intro a ha hk
        rcases mem ha with rfl | rfl | ⟨_, ⟨j, h⟩, _⟩
        · cases hk
        · cases hk
        · rw [h] at hk; cases hk
      · intro a ha k hk
        rcases mem ha with rfl | rfl | ⟨_, ⟨j, h⟩, _⟩
        · cases hk; exact ⟨.deref, nofun⟩
        · cases hk
        · rw [h] at hk; cases hk
      · intro a ha k hk
        rcases mem ha with rfl | rfl | ⟨_, ⟨j, h⟩, _⟩
        · cases hk
        · cases hk; exact ⟨.deref, fun _ _ => .inl ⟨rfl, rfl, o, ho, ht⟩⟩
        · rw [h] at hk; cases hk
      · intro j x e hx ht
        cases e
        simp
      · by_cases hki : i = k
        · subst hki
          rw [ho] at hx
          cases hx
          exact ⟨{ o with hex := v }, List.getElem?_set_self (List.getElem?_eq_some_iff.1 ho).1, rfl⟩
        · exact ⟨x, setne hx hki, rfl⟩
  | atEnd i =>
    obtain ⟨_, _, h⟩ := bind_ok h
    cases h
    refine ⟨⟨?_, ?_, ?_, ?_, ?_, nofun, nofun⟩, by simp [makes], fun i x hx _ => ⟨x, hx, rfl⟩⟩
    all_goals simp only [List.mem_cons, List.not_mem_nil, or_false, forall_eq_or_imp, forall_eq, reduceCtorEq, false_implies, implies_true, and_self, true_and, and_true, not_false_eq_true, ne_eq, Loc.it.injEq, Loc.hex.injEq, Bool.false_eq_true]
    · rintro j rfl; exact .atEnd

/-- The accesses of an execution. -/
structure Did (s : Str) (m : Nat) (w : List ItObj) (sched : List (Nat × Op)) (l : List Access) : Prop where
  text : ∀ a ∈ l, ∀ k, a.loc = .text k → a.write = false
  flag : ∀ a ∈ l, a.loc ≠ .flag
  it : ∀ a ∈ l, ∀ i, a.loc = .it i → Uses w.length sched a.thread i ∧ (i < m → a.write = false)
  hex : ∀ a ∈ l, ∀ i, a.loc = .hex i → Uses w.length sched a.thread i ∧
    (i < m → (a.write = true ∧ (a.thread, .deref i) ∈ sched ∧ ∃ x, w[i]? = some x ∧ StartsTriplet (s.drop x.pos)) ∨
      (a.write = false ∧ ∃ o, (a.thread, o) ∈ sched ∧ Copies i o))
  trip : ∀ t i x, i < m → (t, .deref i) ∈ sched → w[i]? = some x → StartsTriplet (s.drop x.pos) → (⟨t, .hex i, true⟩ : Access) ∈ l
  copy : ∀ t o i, (t, o) ∈ sched → Copies i o → (⟨t, .hex i, false⟩ : Access) ∈ l

theorem run_did {s : Str} {m : Nat} : ∀ (sched : List (Nat × Op)) (w w' : List ItObj) (l : List Access) (vs : List (Option UInt8)), m ≤ w.length →
    (∀ t o i, (t, o) ∈ sched → Changes i o → m ≤ i) → run s w sched = .ok (w', l, vs) → Did s m w sched l := by
  intro sched
  induction sched with
  | nil =>
    intro w w' l vs _ _ h
    cases h
    refine ⟨by simp, by simp, by simp, by simp, by simp, by simp⟩
  | cons x sched ih =>
    obtain ⟨t, o⟩ := x
    intro w w' l vs hm hch h
    obtain ⟨⟨w1, l1, v1⟩, h1, h⟩ := bind_ok h
    obtain ⟨⟨w2, l2, v2⟩, h2, h⟩ := bind_ok h
    cases h
    obtain ⟨d, hlen, hkeep⟩ := step_does h1
    have k := ih _ _ _ _ (by omega) (fun t o i hm hc => hch t o i (List.mem_cons_of_mem _ hm) hc) h2
    have nch : ∀ i, i < m → ¬ Changes i o := fun i hi hc => by
      have := hch t o i List.mem_cons_self hc
      omega
    have back : ∀ i, i < m → ∀ x : ItObj, w1[i]? = some x → ∃ y : ItObj, w[i]? = some y ∧ y.pos = x.pos := by
      intro i hi x hx
      have hy : w[i]? = some (w[i]'(by omega)) := List.getElem?_eq_getElem _
      obtain ⟨y, e1, e2⟩ := hkeep i _ hy (nch i hi)
      rw [hx] at e1
      cases e1
      exact ⟨_, hy, e2.symm⟩
    refine ⟨?_, ?_, ?_, ?_, ?_, ?_⟩
    · intro a ha
      rcases List.mem_append.1 ha with ha | ha
      · exact d.text a ha
      · exact k.text a ha
    · intro a ha
      rcases List.mem_append.1 ha with ha | ha
      · exact d.flag a ha
      · exact k.flag a ha
    · intro a ha i hi
      rcases List.mem_append.1 ha with ha | ha
      · obtain ⟨q1, q2⟩ := d.it a ha i hi
        refine ⟨by rw [d.thread a ha]; exact .here q1, fun hlt => ?_⟩
        cases hw : a.write with
        | false => rfl
        | true => exact absurd (q2 hw (by omega)) (nch i hlt)
      · obtain ⟨q1, q2⟩ := k.it a ha i hi
        exact ⟨.there (by rw [← hlen]; exact q1), q2⟩
    · intro a ha i hi
      rcases List.mem_append.1 ha with ha | ha
      · obtain ⟨q1, q2⟩ := d.hex a ha i hi
        refine ⟨by rw [d.thread a ha]; exact .here q1, fun hlt => ?_⟩
        rcases q2 (by omega) (nch i hlt) with ⟨e1, rfl, e3⟩ | ⟨e1, e2⟩
        · exact .inl ⟨e1, by rw [d.thread a ha]; exact List.mem_cons_self, e3⟩
        · exact .inr ⟨e1, o, by rw [d.thread a ha]; exact List.mem_cons_self, e2⟩
      · obtain ⟨q1, q2⟩ := k.hex a ha i hi
        refine ⟨.there (by rw [← hlen]; exact q1), fun hlt => ?_⟩
        rcases q2 hlt with ⟨e1, e2, x, e3, e4⟩ | ⟨e1, o', e2, e3⟩
        · obtain ⟨y, f1, f2⟩ := back i hlt x e3
          exact .inl ⟨e1, List.mem_cons_of_mem _ e2, y, f1, by rw [f2]; exact e4⟩
        · exact .inr ⟨e1, o', List.mem_cons_of_mem _ e2, e3⟩
    · intro t' i x hlt hmem hx ht
      rcases List.mem_cons.1 hmem with e | hmem
      · cases e
        exact List.mem_append_left _ (d.trip i x rfl hx ht)
      · obtain ⟨y, f1, f2⟩ := hkeep i x hx (nch i hlt)
        exact List.mem_append_right _ (k.trip t' i y hlt hmem f1 (by rw [f2]; exact ht))
    · intro t' o' i hmem hc
      rcases List.mem_cons.1 hmem with e | hmem
      · cases e
        exact List.mem_append_left _ (d.copy i hc)
      · exact List.mem_append_right _ (k.copy t' o' i hmem hc)

end Verif.Threads.Pct

namespace Verif
open Verif.Unicode Verif.Icu Verif.Threads

/-! ### C77 -/

theorem C77_utf8_utf32 : View.Shareable t8_32 maxOut32 := View.shareable lawful8_32 hQ1
theorem C77_utf8_utf16 : View.Shareable t8_16 maxOut16 := View.shareable lawful8_16 (by
  rintro l ⟨m, rfl | ⟨c, rfl⟩, rfl⟩
  · simp
  · simpa [maxOut16] using utf16_len _)
theorem C77_utf8_utf8 : View.Shareable t8_8 maxOut8 := View.shareable lawful8_8 (by
  rintro l ⟨m, rfl | ⟨c, rfl⟩, rfl⟩
  · simp
  · simpa [maxOut8] using utf8_len _)
theorem C77_utf16_utf32 : View.Shareable t16_32 maxOut16to32 := View.shareable lawful16_32 Q16_len
theorem C77_utf16_utf8 : View.Shareable t16_8 maxOut16to8 := View.shareable lawful16_8 (by
  rintro l ⟨m, rfl | ⟨c, rfl⟩ | ⟨a, b, rfl, ha, hb⟩, rfl⟩
  · simp
  · have := utf8_len (fixCp c)
    simp [maxOut16to8]; omega
  · have := utf8_len_bmp _ (fixCp_bmp ha)
    have := utf8_len_bmp _ (fixCp_bmp hb)
    simp [maxOut16to8]; omega)
theorem C77_utf16_utf16 : View.Shareable t16_16 maxOut16 := View.shareable lawful16_16 (by
  rintro l ⟨m, rfl | ⟨c, rfl⟩ | ⟨a, b, rfl, ha, hb⟩, rfl⟩
  · simp
  · simpa [maxOut16] using utf16_len _
  · have := utf16_len_bmp _ (fixCp_bmp ha)
    have := utf16_len_bmp _ (fixCp_bmp hb)
    simp [maxOut16]; omega)
theorem C77_utf32_utf8 : View.Shareable t32_8 maxOut8 := View.shareable simple32_8.lawful (by
  rintro l (rfl | ⟨c, rfl⟩)
  · simp
  · exact utf8_len _)
theorem C77_utf32_utf16 : View.Shareable t32_16 maxOut16 := View.shareable simple32_16.lawful (by
  rintro l (rfl | ⟨c, rfl⟩)
  · simp
  · exact utf16_len _)
theorem C77_utf32_utf32 : View.Shareable t32_32 maxOut32 := View.shareable simple32_32.lawful (by rintro l (rfl | ⟨c, rfl⟩) <;> simp [maxOut32])

open Verif.Refs Verif.PctSpec in
/-- Threads that use iterators over one percent-encoded text.  The first `m` of the iterators they start with are shared by them, and
nobody changes these; each other iterator is used by one thread only.  There is a data race exactly if one thread
dereferences a shared iterator that is at a triplet and another dereferences it too, or copies it. -/
theorem C77_percent {s : Str} {m : Nat} {w w' : List ItObj} {sched : List (Nat × Pct.Op)} {log : List Access} {seen : List (Option UInt8)}
    (hm : m ≤ w.length) (hs : Pct.Shares m w.length sched) (h : Pct.run s w sched = .ok (w', log, seen)) :
    Race log ↔ ∃ t t' i x, t ≠ t' ∧ i < m ∧ w[i]? = some x ∧ StartsTriplet (s.drop x.pos) ∧ (t, .deref i) ∈ sched ∧
      ((t', .deref i) ∈ sched ∨ ∃ o, (t', o) ∈ sched ∧ Pct.Copies i o) := by
  have d := Pct.run_did sched w w' log seen hm hs.1 h
  constructor
  · rintro ⟨a, ha, b, hb, hne, hl, hw⟩
    cases hloc : a.loc with
    | flag => exact absurd hloc (d.flag a ha)
    | text k =>
      rw [hloc] at hl
      rw [d.text a ha k hloc, d.text b hb k hl.symm] at hw
      simp at hw
    | it i =>
      rw [hloc] at hl
      obtain ⟨u1, u2⟩ := d.it a ha i hloc
      obtain ⟨v1, v2⟩ := d.it b hb i hl.symm
      by_cases hi : i < m
      · rw [u2 hi, v2 hi] at hw
        simp at hw
      · exact absurd (hs.2 _ _ i u1 v1 (by omega)) hne
    | hex i =>
      rw [hloc] at hl
      obtain ⟨u1, u2⟩ := d.hex a ha i hloc
      obtain ⟨v1, v2⟩ := d.hex b hb i hl.symm
      by_cases hi : i < m
      · rcases u2 hi with ⟨e1, e2, x, e3, e4⟩ | ⟨e1, o, e2, e3⟩
        · rcases v2 hi with ⟨_, f2, _⟩ | ⟨_, o, f2, f3⟩
          · exact ⟨_, _, i, x, hne, hi, e3, e4, e2, .inl f2⟩
          · exact ⟨_, _, i, x, hne, hi, e3, e4, e2, .inr ⟨o, f2, f3⟩⟩
        · rcases v2 hi with ⟨_, f2, x, f3, f4⟩ | ⟨f1, _⟩
          · exact ⟨_, _, i, x, hne.symm, hi, f3, f4, f2, .inr ⟨o, e2, e3⟩⟩
          · rw [e1, f1] at hw
            simp at hw
      · exact absurd (hs.2 _ _ i u1 v1 (by omega)) hne
  · rintro ⟨t, t', i, x, hne, hi, hx, ht, hd, hor⟩
    refine ⟨_, d.trip t i x hi hd hx ht, ?_⟩
    rcases hor with hd' | ⟨o, ho, hc⟩
    · exact ⟨_, d.trip t' i x hi hd' hx ht, hne, rfl, .inl rfl⟩
    · exact ⟨_, d.copy t' o i ho hc, hne, rfl, .inl rfl⟩

open Verif.Refs in
/-- In particular threads that each have their own iterators never race, whatever the text. -/
theorem C77_percent_own {s : Str} {w w' : List ItObj} {sched : List (Nat × Pct.Op)} {log : List Access} {seen : List (Option UInt8)}
    (hs : ∀ t t' i, Pct.Uses w.length sched t i → Pct.Uses w.length sched t' i → t = t') (h : Pct.run s w sched = .ok (w', log, seen)) : ¬ Race log := by
  intro hr
  obtain ⟨_, _, i, _, _, hi, _⟩ := (C77_percent (m := 0) (Nat.zero_le _) ⟨fun _ _ _ _ _ => Nat.zero_le _, fun t t' i h1 h2 _ => hs t t' i h1 h2⟩ h).1 hr
  omega

open Verif.Refs Verif.PctSpec in
/-- What the operations yield, in terms of the positions `ps` of the iterators: `++` passes a triplet or one character, `*` yields
what the text shows there. -/
inductive Walks (s : Str) : List Nat → List (Nat × Pct.Op) → List (Option UInt8) → Prop
  | nil {ps} : Walks s ps [] []
  | begin {ps t ops vs} : Walks s (ps ++ [0]) ops vs → Walks s ps ((t, .begin) :: ops) (none :: vs)
  | copy {ps t i p ops vs} : ps[i]? = some p → Walks s (ps ++ [p]) ops vs → Walks s ps ((t, .copy i) :: ops) (none :: vs)
  | assign {ps t i j p ops vs} : i < ps.length → ps[j]? = some p → Walks s (ps.set i p) ops vs → Walks s ps ((t, .assign i j) :: ops) (none :: vs)
  | triplet {ps t i p ops vs} : ps[i]? = some p → StartsTriplet (s.drop p) → Walks s (ps.set i (p + 3)) ops vs → Walks s ps ((t, .incr i) :: ops) (none :: vs)
  | char {ps t i p ops vs} : ps[i]? = some p → p < s.length → ¬ StartsTriplet (s.drop p) → Walks s (ps.set i (p + 1)) ops vs → Walks s ps ((t, .incr i) :: ops) (none :: vs)
  | deref {ps t i p c ops vs} : ps[i]? = some p → Shows s p c → Walks s ps ops vs → Walks s ps ((t, .deref i) :: ops) (some c :: vs)
  | atEnd {ps t i ops vs} : i < ps.length → Walks s ps ops vs → Walks s ps ((t, .atEnd i) :: ops) (none :: vs)

open Verif.Refs Verif.PctSpec in
/-- C77: whatever the interleaving, each thread moves and reads as the positions of its iterators say. -/
theorem C77_percent_seen {s : Str} : ∀ {sched : List (Nat × Pct.Op)} {w w' : List ItObj} {log : List Access} {seen : List (Option UInt8)},
    Pct.run s w sched = .ok (w', log, seen) → Walks s (w.map ItObj.pos) sched seen := by
  intro sched
  induction sched with
  | nil => intro w w' log seen h; cases h; exact .nil
  | cons x ops ih =>
    obtain ⟨t, op⟩ := x
    intro w w' log seen h
    have e1 : Pct.run s w ((t, op) :: ops) = (Pct.step s t w op >>= fun x => Pct.run s x.1 ops >>= fun y => .ok (y.1, x.2.1 ++ y.2.1, x.2.2 :: y.2.2)) := rfl
    rw [e1] at h
    obtain ⟨⟨w1, l1, v⟩, h1, h⟩ := Pct.bind_ok h
    obtain ⟨⟨w2, l2, vs⟩, h2, h⟩ := Pct.bind_ok h
    cases h
    have ih := ih h2
    have getp : ∀ {i : Nat} {o : ItObj}, Pct.get w i = .ok o → w[i]? = some o := by
      intro i o h
      unfold Pct.get at h
      split at h
      · rename_i h'; rw [h']; exact congrArg some (Except.ok.inj h)
      · cases h
    have posp : ∀ {i : Nat} {o : ItObj}, Pct.get w i = .ok o → (w.map ItObj.pos)[i]? = some o.pos := by
      intro i o h; rw [List.getElem?_map, getp h]; rfl
    have lenp : ∀ {i : Nat} {o : ItObj}, Pct.get w i = .ok o → i < (w.map ItObj.pos).length := by
      intro i o h; simpa using (List.getElem?_eq_some_iff.1 (getp h)).1
    cases op with
    | begin =>
      cases h1
      simp only [List.map_append, List.map_cons, List.map_nil] at ih
      exact .begin ih
    | copy i =>
      obtain ⟨o, ho, h1⟩ := Pct.bind_ok h1
      cases h1
      simp only [List.map_append, List.map_cons, List.map_nil] at ih
      exact .copy (posp ho) ih
    | assign i j =>
      obtain ⟨o, ho, h1⟩ := Pct.bind_ok h1
      obtain ⟨o', ho', h1⟩ := Pct.bind_ok h1
      cases h1
      rw [List.map_set] at ih
      exact .assign (lenp ho) (posp ho') ih
    | atEnd i =>
      obtain ⟨o, ho, h1⟩ := Pct.bind_ok h1
      cases h1
      exact .atEnd (lenp ho) ih
    | incr i =>
      obtain ⟨o, ho, h1⟩ := Pct.bind_ok h1
      obtain ⟨q, hq, h1⟩ := Pct.bind_ok h1
      obtain ⟨n, hn, h1⟩ := Pct.bind_ok h1
      cases h1
      have hp : o.pos < s.length := by
        apply Classical.byContradiction
        intro hc
        have : ((s.length : Int) - o.pos ≤ 0) := by omega
        simp [pctIncrement, this] at hq
      have e : s = s.take o.pos ++ s[o.pos] :: s.drop (o.pos + 1) ++ [] := by simp
      have hl : (s.take o.pos).length = o.pos := by simp; omega
      have hs : s.length = (s.take o.pos).length + (s[o.pos] :: s.drop (o.pos + 1)).length := by simp; omega
      have k := pctIncrement_mid (s.take o.pos) [] s[o.pos] (s.drop (o.pos + 1))
      rw [← e, ← hs, hl, ← List.drop_eq_getElem_cons hp, hq] at k
      have k := Except.ok.inj k
      rw [List.map_set] at ih
      by_cases ht : StartsTriplet (s.drop o.pos)
      · rw [if_pos (starts_iff _ |>.1 ht)] at k
        subst k
        exact .triplet (posp ho) ht ih
      · rw [if_neg (fun h => ht ((starts_iff _).2 h))] at k
        subst k
        exact .char (posp ho) hp ht ih
    | deref i =>
      obtain ⟨o, ho, h1⟩ := Pct.bind_ok h1
      obtain ⟨st, hst, h1⟩ := Pct.bind_ok h1
      obtain ⟨n, hn, h1⟩ := Pct.bind_ok h1
      have hp : o.pos < s.length := by
        obtain ⟨c, hc, _⟩ := Pct.bind_ok hn
        unfold readAt at hc
        split at hc
        · rename_i h'; exact (List.getElem?_eq_some_iff.1 h').1
        · cases hc
      have k := stored_eq hp
      rw [hst] at k
      have k := Except.ok.inj k
      have same : ∀ {v : UInt8}, (w.set i { o with hex := v }).map ItObj.pos = w.map ItObj.pos := by
        intro v
        rw [List.map_set]
        have hi := posp ho
        obtain ⟨hlt, he⟩ := List.getElem?_eq_some_iff.1 hi
        show (w.map ItObj.pos).set i o.pos = _
        rw [← he, List.set_getElem_self]
      cases st with
      | none =>
        obtain ⟨c, hc, h1⟩ := Pct.bind_ok h1
        cases h1
        refine .deref (posp ho) ((shows_iff hp _).2 ?_) ih
        rw [← k]
        simp only [readAt, List.getElem?_eq_getElem hp] at hc
        exact (Except.ok.inj hc).symm
      | some v =>
        cases h1
        rw [same] at ih
        exact .deref (posp ho) ((shows_iff hp _).2 (by rw [← k]; rfl)) ih

/-- Two threads, each with its own iterator, that move them to the end; one then asks. -/
example : Positions 2 [.begin, .begin] [0, 0] ∧ View.Proper 2 [0, 0] [(0, .deref 0), (1, .incr 1), (0, .incr 0), (1, .incr 1), (0, .incr 0), (1, .wellFormed)] ∧
    View.Independent 2 [(0, .deref 0), (1, .incr 1), (0, .incr 0), (1, .incr 1), (0, .incr 0), (1, .wellFormed)] ∧
    View.Ends 2 [0, 0] [(0, .deref 0), (1, .incr 1), (0, .incr 0), (1, .incr 1), (0, .incr 0), (1, .wellFormed)] 0 ∧
    View.Ends 2 [0, 0] [(0, .deref 0), (1, .incr 1), (0, .incr 0), (1, .incr 1), (0, .incr 0), (1, .wellFormed)] 1 := by
  refine ⟨(Positions.nil.begin).begin, ?_, ?_, ?_, ?_⟩
  · exact .cons (.deref (k := 0) rfl (by decide)) (.cons (.incr (k := 0) rfl (by decide)) (.cons (.incr (k := 0) rfl (by decide)) (.cons (.incr (k := 1) rfl (by decide))
      (.cons (.incr (k := 1) rfl (by decide)) (.cons .wellFormed .nil)))))
  · have uses : ∀ t i b, View.Uses 2 [(0, .deref 0), (1, .incr 1), (0, .incr 0), (1, .incr 1), (0, .incr 0), (1, .wellFormed)] t i b → t = i := by
      intro t i b h
      rcases h with ⟨⟨⟩⟩ | h
      · rfl
      rcases h with ⟨⟨⟩⟩ | h
      · rfl
      rcases h with ⟨⟨⟩⟩ | h
      · rfl
      rcases h with ⟨⟨⟩⟩ | h
      · rfl
      rcases h with ⟨⟨⟩⟩ | h
      · rfl
      rcases h with ⟨⟨⟩⟩ | h
      cases h
    intro t t' i b b' h1 h2 hne
    exact absurd ((uses _ _ _ h1).trans (uses _ _ _ h2).symm) hne
  · exact .there (.deref (k := 0) rfl (by decide)) (.there (.incr (k := 0) rfl (by decide)) (.there (.incr (k := 0) rfl (by decide)) (.there (.incr (k := 1) rfl (by decide))
      (.here (k := 1) rfl rfl))))
  · exact .there (.deref (k := 0) rfl (by decide)) (.there (.incr (k := 0) rfl (by decide)) (.there (.incr (k := 0) rfl (by decide)) (.here (k := 1) rfl rfl)))

/-- What happens then, with the malformed text C3 42 43 and the well-formed one 41 42: the accesses to the flag. -/
example : (View.execute t8_32 maxOut32 [0xC3, 0x42, 0x43] [.begin, .begin] [(0, .deref 0), (1, .incr 1), (0, .incr 0), (1, .incr 1), (0, .incr 0), (1, .wellFormed)]).map
      (fun r => (r.2.1.filter (fun a => decide (a.loc = .flag)), r.2.2)) =
        .ok ([⟨1, .flag, true⟩, ⟨0, .flag, true⟩, ⟨1, .flag, true⟩, ⟨0, .flag, true⟩, ⟨1, .flag, false⟩], [.element 0xFFFD, .nothing, .nothing, .nothing, .nothing, .truth false]) ∧
    (View.execute t8_32 maxOut32 [0x41, 0x42] [.begin, .begin] [(0, .deref 0), (1, .incr 1), (0, .incr 0), (1, .incr 1), (0, .incr 0), (1, .wellFormed)]).map
      (fun r => (r.2.1.filter (fun a => decide (a.loc = .flag)), r.2.2)) =
        .ok ([⟨1, .flag, false⟩], [.element 0x41, .nothing, .nothing, .nothing, .nothing, .truth true]) := by
  decide +kernel

open Verif.Refs in
/-- Two threads that dereference one iterator over `a%41`, first where it is at the `a`, then where it is at the triplet. -/
example : Pct.Shares 1 1 [(0, .deref 0), (1, .deref 0)] ∧
    Pct.run [0x61, 0x25, 0x34, 0x31] [⟨0, 0⟩] [(0, .deref 0), (1, .deref 0)] =
      .ok ([⟨0, 0⟩], [⟨0, .it 0, false⟩, ⟨0, .text 0, false⟩, ⟨1, .it 0, false⟩, ⟨1, .text 0, false⟩], [some 0x61, some 0x61]) ∧
    Pct.run [0x61, 0x25, 0x34, 0x31] [⟨1, 0⟩] [(0, .deref 0), (1, .deref 0)] =
      .ok ([⟨1, 0x41⟩], [⟨0, .it 0, false⟩, ⟨0, .text 1, false⟩, ⟨0, .text 2, false⟩, ⟨0, .text 3, false⟩, ⟨0, .hex 0, true⟩,
        ⟨1, .it 0, false⟩, ⟨1, .text 1, false⟩, ⟨1, .text 2, false⟩, ⟨1, .text 3, false⟩, ⟨1, .hex 0, true⟩], [some 0x41, some 0x41]) := by
  refine ⟨⟨?_, ?_⟩, by decide +kernel, by decide +kernel⟩
  · rintro t o i hm hc
    simp only [List.mem_cons, Prod.mk.injEq, List.not_mem_nil, or_false] at hm
    rcases hm with ⟨_, rfl⟩ | ⟨_, rfl⟩ <;> cases hc
  · rintro t t' i h _ hi
    have : i = 0 := by
      rcases h with ⟨⟨⟩⟩ | h
      · rfl
      rcases h with ⟨⟨⟩⟩ | h
      · rfl
      cases h
    omega

end Verif
