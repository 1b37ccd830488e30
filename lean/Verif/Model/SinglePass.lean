import Verif.Model.Icubaby

/-!
# `transcode_view` over a single-pass range

The view asks for a `std::ranges::input_range` (icubaby.hpp:2019): `std::istreambuf_iterator`, say, which reads a
stream that all its copies share, and is equal to the end iff that stream has no more characters.  The iterator of the view keeps two copies of such
an iterator, `current_` and `state_.next_` (2174, 2194): moving the one moves the other.  So the fields `current` and `next` of
`ViewIt` are here always the same: what is left of the stream.
-/

namespace Verif.Icu

section
variable {ι ο : Type} (T : Transcoder ι ο) (cap : Nat)

/-- icubaby.hpp:2204-2231 `fill`, and the assignment of its result to `current_`: the `result` it returns, a copy of `next_`
made before the loop (2206), reads what the loop has left of the stream. -/
def fillShared (it : ViewIt ι ο T) : M (ViewIt ι ο T) := do
  let it ← fill T cap it
  .ok { it with current := it.next }

/-- icubaby.hpp:2036 `begin` and 2088-2096 the constructor. -/
def sharedBegin (s : List ι) : M (ViewIt ι ο T) :=
  let it : ViewIt ι ο T := { current := s, next := s, buf := [], tr := T.init, parentWf := true }
  if s.isEmpty then .ok it else fillShared T cap it

/-- icubaby.hpp:2106-2113 `operator++`. -/
def sharedIncr (it : ViewIt ι ο T) : M (ViewIt ι ο T) :=
  match it.buf with
  | [] => .error .assertion
  | _ :: b => if b.isEmpty then fillShared T cap { it with buf := b } else .ok { it with buf := b }

/-- A loop from an iterator to the end of the view (2121-2125, 2243: `current_` is compared with the end), collecting the
elements; `fuel` bounds its iterations. -/
def sharedLoop : Nat → ViewIt ι ο T → M (ViewIt ι ο T × List ο)
  | 0, _ => .error .diverge
  | fuel + 1, it =>
      if it.atEnd then .ok (it, [])
      else do
        let c ← it.deref
        let it ← sharedIncr T cap it
        let (it, cs) ← sharedLoop fuel it
        .ok (it, c :: cs)

/-- A loop over the view of a stream of which `s` is left: the elements and `well_formed ()` of the view afterwards. -/
def sharedRun (s : List ι) : M (List ο × Bool) := do
  let it ← sharedBegin T cap s
  let (it, cs) ← sharedLoop T cap (cap * s.length + 1) it
  .ok (cs, it.parentWf)

end

end Verif.Icu
