import Verif.Model.Shared
import Verif.Model.Refs

/-!
# Model: threads that share a view

include/uri/icubaby.hpp:2020-2060, 2073-2231 and include/uri/pctdecode.hpp:60-89, 131-206, 245-297.  The members `well_formed_` of
`transcode_view` and `hex_` of the iterators over percent-encoded text are `mutable`: they can be changed through an
object that is `const`, so whether two threads may share it is a question about which of the operations change them.

An execution is an interleaving of the operations of the threads; each operation notes the objects it reads and
writes.  Nothing orders the operations of different threads, so two accesses of different threads to one object, of
which one writes, are a data race.
-/

namespace Verif.Threads

/-- Objects that can be accessed: the view's `well_formed_`, an element of the text, an iterator (for iterators over
percent-encoded text, its `pos_`), the `hex_` of an iterator. -/
inductive Loc
  | flag
  | text (k : Nat)
  | it (i : Nat)
  | hex (i : Nat)
  deriving DecidableEq, Repr

/-- An access to an object by a thread. -/
structure Access where
  thread : Nat
  loc : Loc
  write : Bool
  deriving DecidableEq, Repr

/-- `n` elements of the text are read, from the `k`th on. -/
def reads (t k n : Nat) : List Access := (List.range n).map fun j => ⟨t, .text (k + j), false⟩

end Verif.Threads

namespace Verif.Threads.View
open Verif.Icu

/-- What a thread can do with a view it shares with others: the operations on iterators of `ViewOp`, `*` on iterator
`i`, comparing it with the end, `well_formed ()`, copying the view (2029: the implicit copy constructor, which copies
`well_formed_`). -/
inductive Op
  | begin
  | copy (i : Nat)
  | assign (i j : Nat)
  | incr (i : Nat)
  | deref (i : Nat)
  | atEnd (i : Nat)
  | wellFormed
  | copyView
  deriving DecidableEq, Repr

/-- What the operation yields. -/
inductive Seen (ο : Type)
  | nothing
  | element (c : ο)
  | truth (b : Bool)
  deriving DecidableEq, Repr

section
variable {ι ο : Type} (T : Transcoder ι ο) (cap : Nat) (s : List ι)

/-- icubaby.hpp:2201-2231 `fill`, with its accesses: it reads the elements it consumes (2215), and writes the view's
`well_formed_` only if the transcoder has seen an error (2225-2227); the rest is in the iterator. -/
def fill (t : Nat) (it : ViewIt ι ο T) : M (ViewIt ι ο T × List Access) := do
  let r ← Icu.fill T cap it
  .ok (r, reads t (s.length - it.next.length) (it.next.length - r.next.length) ++ if T.wellFormed r.tr then [] else [⟨t, .flag, true⟩])

/-- icubaby.hpp:2106-2113 `++`: it changes the iterator; `fill` is called if the buffer is used up. -/
def incr (t i : Nat) (it : ViewIt ι ο T) : M (ViewIt ι ο T × List Access) :=
  match it.buf with
  | [] => .error .assertion
  | _ :: b => if b.isEmpty then (do let (r, l) ← fill T cap s t { it with buf := b }; .ok (r, ⟨t, .it i, true⟩ :: l)) else .ok ({ it with buf := b }, [⟨t, .it i, true⟩])

/-- An operation by thread `t`.  `begin` (2036, 2088-2096) and copying make a new iterator; `*` (2103) and comparing
with the end (2121-2125, 2243) read one; `well_formed ()` (2052) and copying the view read the flag. -/
def step (t : Nat) (w : Shared ι ο T) : Op → M (Shared ι ο T × List Access × Seen ο)
  | .begin => do
      let it : ViewIt ι ο T := { current := s, next := s, buf := [], tr := T.init, parentWf := w.wf }
      let (it, l) ← if s.isEmpty then .ok (it, []) else fill T cap s t it
      .ok ({ wf := it.parentWf, its := w.its ++ [it] }, ⟨t, .it w.its.length, true⟩ :: l, .nothing)
  | .copy i => do
      let it ← w.get i
      .ok ({ w with its := w.its ++ [it] }, [⟨t, .it i, false⟩, ⟨t, .it w.its.length, true⟩], .nothing)
  | .assign i j => do
      let _ ← w.get i
      let it ← w.get j
      .ok ({ w with its := w.its.set i it }, [⟨t, .it j, false⟩, ⟨t, .it i, true⟩], .nothing)
  | .incr i => do
      let it ← w.get i
      let (it, l) ← incr T cap s t i { it with parentWf := w.wf }
      .ok ({ wf := it.parentWf, its := w.its.set i it }, l, .nothing)
  | .deref i => do
      let it ← w.get i
      let c ← it.deref
      .ok (w, [⟨t, .it i, false⟩], .element c)
  | .atEnd i => do
      let it ← w.get i
      .ok (w, [⟨t, .it i, false⟩], .truth it.atEnd)
  | .wellFormed => .ok (w, [⟨t, .flag, false⟩], .truth w.wf)
  | .copyView => .ok (w, [⟨t, .flag, false⟩], .nothing)

/-- An execution from a state: the state after it, the accesses, what each operation yielded. -/
def run : Shared ι ο T → List (Nat × Op) → M (Shared ι ο T × List Access × List (Seen ο))
  | w, [] => .ok (w, [], [])
  | w, (t, o) :: ops => do
      let (w, l, v) ← step T cap s t w o
      let (w, ls, vs) ← run w ops
      .ok (w, l ++ ls, v :: vs)

/-- The threads are started once the view has been constructed and used by the operations `setup`. -/
def execute (setup : List ViewOp) (sched : List (Nat × Op)) : M (Shared ι ο T × List Access × List (Seen ο)) := do
  let w ← useView T cap s setup
  run T cap s w sched

end

end Verif.Threads.View

namespace Verif.Threads.Pct
open Verif.Refs

/-- What a thread does with iterators over percent-encoded text: `begin ()`, copying, assigning `j` to `i`, `++`, the
value of `*i`, comparing it with the end. -/
inductive Op
  | begin
  | copy (i : Nat)
  | assign (i j : Nat)
  | incr (i : Nat)
  | deref (i : Nat)
  | atEnd (i : Nat)
  deriving DecidableEq, Repr

/-- The iterator numbered `i`. -/
def get (w : List ItObj) (i : Nat) : M ItObj :=
  match w[i]? with
  | some o => .ok o
  | none => .error .dangling

/-- The number of elements `deref` (pctdecode.hpp:74-89) looks at: one, unless it is a `%` with two more after it. -/
def looked (s : Str) (pos : Nat) : M Nat := do
  let c ← readAt s pos
  let dist : Int := s.length - pos
  .ok (if c ≠ 0x25 || dist < 3 then 1 else 3)

/-- The number of elements `increment` (pctdecode.hpp:60-72) looks at: none if fewer than three remain. -/
def lookedIncr (s : Str) (pos : Nat) : M Nat :=
  let remaining : Int := s.length - pos
  if remaining < 3 then .ok 0 else looked s pos

/-- An operation by thread `t` on the iterators over the text `s`.  The copy operations copy `pos_` and `hex_`; `++`
(pctdecode.hpp:170-173, 282-285) changes `pos_`; `*` (160-163, 277-279) reads `pos_` and writes `hex_` if it is at a triplet
(87), and its value is read from there (88). -/
def step (s : Str) (t : Nat) (w : List ItObj) : Op → M (List ItObj × List Access × Option UInt8)
  | .begin => .ok (w ++ [⟨0, 0⟩], [⟨t, .it w.length, true⟩, ⟨t, .hex w.length, true⟩], none)
  | .copy i => do
      let o ← get w i
      .ok (w ++ [o], [⟨t, .it i, false⟩, ⟨t, .hex i, false⟩, ⟨t, .it w.length, true⟩, ⟨t, .hex w.length, true⟩], none)
  | .assign i j => do
      let _ ← get w i
      let o ← get w j
      .ok (w.set i o, [⟨t, .it j, false⟩, ⟨t, .hex j, false⟩, ⟨t, .it i, true⟩, ⟨t, .hex i, true⟩], none)
  | .incr i => do
      let o ← get w i
      let pos ← pctIncrement s o.pos s.length
      let n ← lookedIncr s o.pos
      .ok (w.set i { o with pos := pos }, reads t o.pos n ++ [⟨t, .it i, true⟩], none)
  | .deref i => do
      let o ← get w i
      let h ← stored s o.pos s.length
      let n ← looked s o.pos
      match h with
      | none => do
          let c ← readAt s o.pos
          .ok (w, ⟨t, .it i, false⟩ :: reads t o.pos n, some c)
      | some v => .ok (w.set i { o with hex := v }, ⟨t, .it i, false⟩ :: (reads t o.pos n ++ [⟨t, .hex i, true⟩]), some v)
  | .atEnd i => do
      let _ ← get w i
      .ok (w, [⟨t, .it i, false⟩], none)

/-- An execution: the iterators, the accesses, what each operation yielded. -/
def run (s : Str) : List ItObj → List (Nat × Op) → M (List ItObj × List Access × List (Option UInt8))
  | w, [] => .ok (w, [], [])
  | w, (t, o) :: ops => do
      let (w, l, v) ← step s t w o
      let (w, ls, vs) ← run s w ops
      .ok (w, l ++ ls, v :: vs)

end Verif.Threads.Pct
