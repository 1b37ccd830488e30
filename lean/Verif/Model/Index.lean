import Verif.Model.Icubaby

/-!
# `length` and `index` with a projection

The overloads of `icubaby.hpp` that take ranges or iterators and a projection.  `Verif/Model/Icubaby.lean` has them for the
projection that does nothing.
-/

namespace Verif.Icu

variable {ι κ : Type}

/-- icubaby.hpp:435-439 and 450-452 `length`: `std::ranges::count_if`.  The result, and the elements the projection was called with,
in order. -/
def lengthP (start : κ → Bool) (proj : ι → κ) : List ι → Nat × List ι
  | [] => (0, [])
  | x :: s => ((if start (proj x) then 1 else 0) + (lengthP start proj s).1, x :: (lengthP start proj s).2)

/-- icubaby.hpp:482-490 `index`: `std::ranges::find_if` with the captured `count`.  The offset of the iterator that is returned, and
the elements the projection was called with.  Simplified: `count` is a `std::size_t` that no range in memory makes overflow. -/
def indexLoopP (start : κ → Bool) (proj : ι → κ) (pos : Nat) : List ι → Nat → Nat → Nat × List ι
  | [], _, off => (off, [])
  | x :: s, count, off =>
      if start (proj x) then
        (if count = pos then (off, [x])
         else ((indexLoopP start proj pos s (count + 1) (off + 1)).1, x :: (indexLoopP start proj pos s (count + 1) (off + 1)).2))
      else ((indexLoopP start proj pos s count (off + 1)).1, x :: (indexLoopP start proj pos s count (off + 1)).2)

/-- icubaby.hpp:482-490 and 502-504 `index`. -/
def indexP (start : κ → Bool) (proj : ι → κ) (s : List ι) (pos : Nat) : Nat × List ι := indexLoopP start proj pos s 0 0

end Verif.Icu
