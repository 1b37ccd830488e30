import Verif.Model.Pct

/-!
# Model: iterators over percent-encoded text as objects

include/uri/pctdecode.hpp:74-89, 131-206, 258-297.  `operator*` returns a reference: to an element of the text,
or to the member `hex_` of the iterator.  Here the text is memory that can be written to (a view over a
mutable range), and iterators are objects that are created, copied, assigned and destroyed.
-/

namespace Verif.Refs

/-- pctdecode.hpp:203-205 `pos_` and `hex_` (256-258 for `pctdecode_iterator`); the end of the range does not change. -/
structure ItObj where
  pos : Nat
  hex : UInt8
  deriving DecidableEq, Repr

/-- What a reference refers to: an element of the text, or the `hex_` of an iterator. -/
inductive Ref
  | text (pos : Nat)
  | hex (i : Nat)
  deriving DecidableEq, Repr

/-- The text, the iterators made so far (`none`: destroyed), the references obtained so far. -/
structure World where
  text : Str
  its : List (Option ItObj)
  refs : List Ref
  deriving DecidableEq, Repr

/-- What a program does with them; iterators and references are named by their numbers. -/
inductive Op
  | begin
  | copy (i : Nat)
  | assign (i j : Nat)
  | destroy (i : Nat)
  | incr (i : Nat)
  | deref (i : Nat)
  | write (r : Nat) (v : UInt8)
  | swap (i j : Nat)
  deriving DecidableEq, Repr

/-- pctdecode.hpp:74-89 `deref`: the value stored to `*hex` if the reference returned is to it; nothing if it is to
the element at `pos`. -/
def stored (s : Str) (pos stop : Nat) : M (Option UInt8) := do
  let c ← readAt s pos
  let dist : Int := stop - pos
  if c ≠ 0x25 || dist < 3 then .ok none
  else
    let nhi := hex2dec (← readAt s (pos + 1))
    let nlo := hex2dec (← readAt s (pos + 2))
    if eitherBad nhi nlo then .ok none
    else .ok (some ((nhi <<< 4) ||| nlo))

/-- Using iterator `i`. -/
def World.it (w : World) (i : Nat) : M ItObj :=
  match w.its[i]? with
  | some (some o) => .ok o
  | _ => .error .dangling

/-- Reading through a reference. -/
def World.load (w : World) : Ref → M UInt8
  | .text p => readAt w.text p
  | .hex i => do
      let o ← w.it i
      .ok o.hex

/-- Writing through a reference. -/
def World.store (w : World) (v : UInt8) : Ref → M World
  | .text p => do
      let _ ← readAt w.text p
      .ok { w with text := w.text.set p v }
  | .hex i => do
      let o ← w.it i
      .ok { w with its := w.its.set i (some { o with hex := v }) }

/-- Reference number `r`. -/
def World.ref (w : World) (r : Nat) : M Ref :=
  match w.refs[r]? with
  | some x => .ok x
  | none => .error .dangling

/-- Reading through reference number `r`. -/
def World.read (w : World) (r : Nat) : M UInt8 := do
  let x ← w.ref r
  w.load x

/-- pctdecode.hpp:117-119, 149-151 `begin ()`; the implicit copy operations and destructor (they copy `hex_` too);
170-173 and 282-285 `++`; 160-163 and 277-279 `*`; 192-200 `iter_swap`, which exchanges elements of the text. -/
def World.step (w : World) : Op → M World
  | .begin => .ok { w with its := w.its ++ [some ⟨0, 0⟩] }
  | .copy i => do
      let o ← w.it i
      .ok { w with its := w.its ++ [some o] }
  | .assign i j => do
      let _ ← w.it i
      let o ← w.it j
      .ok { w with its := w.its.set i (some o) }
  | .destroy i => do
      let _ ← w.it i
      .ok { w with its := w.its.set i none }
  | .incr i => do
      let o ← w.it i
      let pos ← pctIncrement w.text o.pos w.text.length
      .ok { w with its := w.its.set i (some { o with pos := pos }) }
  | .deref i => do
      let o ← w.it i
      let h ← stored w.text o.pos w.text.length
      match h with
      | none => .ok { w with refs := w.refs ++ [.text o.pos] }
      | some v => .ok { w with its := w.its.set i (some { o with hex := v }), refs := w.refs ++ [.hex i] }
  | .write r v => do
      let x ← w.ref r
      w.store v x
  | .swap i j => do
      let a ← w.it i
      let b ← w.it j
      let x ← readAt w.text a.pos
      let y ← readAt w.text b.pos
      .ok { w with text := (w.text.set a.pos y).set b.pos x }

/-- A program run from a state. -/
def World.run (w : World) (ops : List Op) : M World := ops.foldlM World.step w

/-- A program over the text `s`. -/
def use (s : Str) (ops : List Op) : M World := World.run ⟨s, [], []⟩ ops

end Verif.Refs
