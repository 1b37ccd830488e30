import Verif.Model.Icubaby

/-!
# Transcoders writing to an output iterator that throws

include/uri/icubaby.hpp again: `*(dest++) = c` may throw (`std::back_inserter` of a container that cannot grow), as an oracle says.
A function declared `noexcept` that an exception would leave ends the program (`std::terminate`).

Functions that are not `noexcept` are modelled statement by statement, because what they have assigned to the members before the
exception remains assigned.  Of a `noexcept` function only the writes and their order are modelled: there is no program left to
look at the members.
-/

namespace Verif.Icu.Thr

/-- How a call ends. -/
inductive End | done | thrown | terminated
  deriving DecidableEq, Repr

/-- The members of the transcoder, what has been written, and how many writes have been tried. -/
structure S (σ ο : Type) where
  st : σ
  out : List ο
  tries : Nat
  deriving DecidableEq, Repr

/-- What a function does, given which of the writes throw. -/
abbrev TM (σ ο : Type) := (Nat → Bool) → S σ ο → M (End × S σ ο)

section
variable {σ τ ο β : Type}

def done : TM σ ο := fun _ s => .ok (.done, s)

/-- One statement after the other. -/
def andThen (x y : TM σ ο) : TM σ ο := fun o s =>
  match x o s with
  | .error e => .error e
  | .ok (.done, s') => y o s'
  | .ok r => .ok r

/-- Reading the members. -/
def read (f : σ → TM σ ο) : TM σ ο := fun o s => f s.st o s

/-- Assigning to members. -/
def assign (f : σ → σ) : TM σ ο := fun _ s => .ok (.done, { s with st := f s.st })

/-- A computation that may be undefined but does not write to `dest`. -/
def lift (x : M β) (f : β → TM σ ο) : TM σ ο := fun o s =>
  match x with
  | .error e => .error e
  | .ok b => f b o s

/-- `*(dest++) = c`. -/
def put (c : ο) : TM σ ο := fun o s =>
  if o s.tries then .ok (.thrown, { s with tries := s.tries + 1 }) else .ok (.done, { s with out := s.out ++ [c], tries := s.tries + 1 })

/-- Several writes. -/
def puts : List ο → TM σ ο
  | [] => done
  | c :: cs => andThen (put c) (puts cs)

/-- A function declared `noexcept`. -/
def noexcept (x : TM σ ο) : TM σ ο := fun o s =>
  match x o s with
  | .ok (.thrown, s') => .ok (.terminated, s')
  | r => r

/-- A `noexcept` function that does `f`. -/
def sealed (f : σ → M (σ × List ο)) : TM σ ο :=
  noexcept (read fun st => lift (f st) fun r => andThen (puts r.2) (assign fun _ => r.1))

/-- A function of the member `output_` of a triangulator. -/
def second (x : TM τ ο) : TM (σ × τ) ο := fun o s =>
  match x o ⟨s.st.2, s.out, s.tries⟩ with
  | .error e => .error e
  | .ok (e, s') => .ok (e, ⟨(s.st.1, s'.st), s'.out, s'.tries⟩)

/-- A loop. -/
def forEach (f : β → TM σ ο) : List β → TM σ ο
  | [] => done
  | b :: bs => andThen (f b) (forEach f bs)

end

/-- A transcoder with what its two functions do to a throwing iterator. -/
structure Coder (σ ι ο : Type) where
  step : ι → TM σ ο
  endCp : TM σ ο

/-- icubaby.hpp:717 `operator()` is `noexcept`; 744 `end_cp` writes nothing. -/
def c32_8 : Coder Bool Nat UInt8 := ⟨fun c => sealed fun st => t32_8.step st c, done⟩

/-- icubaby.hpp:843-868 `operator()` of `transcoder<char8, char32_t>`, not `noexcept`. -/
def step8to32 (cu : UInt8) : TM St8 Nat :=
  lift (utf8At cu.toNat) fun type =>
  read fun st =>
  andThen (assign fun st => { st with codePoint :=
    (if st.state ≠ accept then (cu.toNat &&& 0x3F) ||| (st.codePoint <<< 6) else (0xFF >>> type) &&& cu.toNat) % 2 ^ 21 })
  (lift (utf8At (256 + st.state + type)) fun s =>
  andThen (assign fun st => { st with state := s % 2 ^ 8 })
  (read fun st =>
    if st.state = accept then put st.codePoint
    else if st.state = reject then
      andThen (assign fun st => { st with wf := false }) (andThen (assign fun st => { st with state := accept }) (put replacementChar))
    else done))

/-- icubaby.hpp:877-884 `end_cp`, not `noexcept`. -/
def endCp8to32 : TM St8 Nat := read fun st =>
  if st.state ≠ accept then
    andThen (assign fun st => { st with state := reject }) (andThen (put replacementChar) (assign fun st => { st with wf := false }))
  else done

/-- icubaby.hpp:816-940 `transcoder<char8, char32_t>`. -/
def c8_32 : Coder St8 UInt8 Nat := ⟨step8to32, endCp8to32⟩

/-- icubaby.hpp:967, 987: both are `noexcept`; `end_cp` writes nothing. -/
def c32_16 : Coder Bool Nat UInt16 := ⟨fun c => sealed fun st => t32_16.step st c, done⟩

/-- icubaby.hpp:1092-1100 `end_cp` of `transcoder<char16_t, char32_t>`, not `noexcept`. -/
def endCp16to32 : TM St16 Nat := read fun st =>
  if st.hasHigh then
    andThen (put replacementChar) (andThen (assign fun st => { st with high := 0 })
      (andThen (assign fun st => { st with hasHigh := false }) (assign fun st => { st with wf := false })))
  else done

/-- icubaby.hpp:1041 `operator()` is `noexcept`. -/
def c16_32 : Coder St16 UInt16 Nat := ⟨fun c => sealed fun st => t16_32.step st c, endCp16to32⟩

/-- icubaby.hpp:1926-1940 `operator()` of `transcoder<char32_t, char32_t>`, not `noexcept`; `end_cp` writes nothing. -/
def c32_32 : Coder Bool Nat Nat where
  step c :=
    if decide (c > maxCodePoint) || isSurrogate c then andThen (assign fun _ => false) (put replacementChar) else put c
  endCp := done

/-- icubaby.hpp:1830-1858, 1893-1897 `triangulator`: not `noexcept` itself, it writes to `dest` through `output_`.  The intermediate array
does not throw. -/
def tri {σ τ ι ο : Type} (cap : Nat) (step : σ → ι → M (σ × List Nat)) (endCp : σ → M (σ × List Nat)) (B : Coder τ Nat ο) : Coder (σ × τ) ι ο where
  step c := read fun st => lift (step st.1 c) fun r =>
    andThen (assign fun st => (r.1, st.2)) (if r.2.length > cap then lift (.error .assertion : M Unit) (fun _ => done) else forEach (fun u => second (B.step u)) r.2)
  endCp := read fun st => lift (endCp st.1) fun r =>
    andThen (assign fun st => (r.1, st.2)) (if r.2.length > cap then lift (.error .assertion : M Unit) (fun _ => done)
      else andThen (forEach (fun u => second (B.step u)) r.2) (second B.endCp))

/-- icubaby.hpp:1902-1908. -/
def c8_16 : Coder (St8 × Bool) UInt8 UInt16 := tri 1 t8_32.step t8_32.endCp c32_16
/-- icubaby.hpp:1902-1908. -/
def c16_8 : Coder (St16 × Bool) UInt16 UInt8 := tri 2 t16_32.step t16_32.endCp c32_8
/-- icubaby.hpp:1902-1908. -/
def c8_8 : Coder (St8 × Bool) UInt8 UInt8 := tri 1 t8_32.step t8_32.endCp c32_8
/-- icubaby.hpp:1902-1908. -/
def c16_16 : Coder (St16 × Bool) UInt16 UInt16 := tri 2 t16_32.step t16_32.endCp c32_16

/-- icubaby.hpp:1216, 1305 `transcoder<std::byte, ToEncoding>`: both functions are `noexcept`. -/
def cX {ο : Type} (T : Transcoder UInt8 ο) : Coder T.σ UInt8 ο := ⟨fun c => sealed fun st => T.step st c, sealed T.endCp⟩

/-- A program that catches what a call throws and goes on with the next. -/
def catching {σ ο : Type} (x : TM σ ο) : TM σ ο := fun o s =>
  match x o s with
  | .ok (.thrown, s') => .ok (.done, s')
  | r => r

end Verif.Icu.Thr
