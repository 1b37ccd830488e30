import Verif.Model.ParseThrow

/-!
# Resolution with the vector of segments

`merge`, `remove_dot_segments` and `join` of `lib/uri/uri.cpp` again, with `std::vector` as an object that has a capacity and a buffer, that
may be refused memory, and with the work done: one step for every segment looked at, copied, moved to a larger buffer or destroyed.
-/

namespace Verif.Vec

/-- A `std::vector<std::string_view>`: its elements, `capacity ()`, and the request its buffer came from (0 if it has none). -/
structure Vector where
  elems : List SV
  cap : Nat
  buf : Nat
  deriving DecidableEq, Repr

/-- How an implementation chooses capacities: of a copy of `n` elements, and of a vector that must grow from capacity `n`. -/
structure Policy where
  copy : Nat → Nat
  grow : Nat → Nat
  copy_le : ∀ n, n ≤ copy n
  grow_lt : ∀ n, n < grow n

/-- Requests for memory and steps so far. -/
structure Use where
  requests : Nat
  steps : Nat
  deriving DecidableEq, Repr

/-- What a function does given an oracle that grants or refuses requests: its result (`none`: `std::bad_alloc` left it), and what it used. -/
abbrev VM (β : Type) := (Nat → Bool) → Use → Option β × Use

variable {β γ : Type}

def ret (x : β) : VM β := fun _ u => (some x, u)

def andThen (x : VM β) (f : β → VM γ) : VM γ := fun o u =>
  match x o u with
  | (none, u') => (none, u')
  | (some b, u') => f b o u'

/-- `k` steps. -/
def tick (k : Nat) (x : VM β) : VM β := fun o u => x o { u with steps := u.steps + k }

/-- A request for memory; buffers are numbered from 1. -/
def request (f : Nat → VM β) : VM β := fun o u =>
  if o u.requests then f (u.requests + 1) o { u with requests := u.requests + 1 } else (none, { u with requests := u.requests + 1 })

/-- A default-constructed vector. -/
def empty : Vector := ⟨[], 0, 0⟩

/-- Copying a vector into one without a buffer ([vector.cons]): one request, unless there is nothing to copy. -/
def copyOf (pol : Policy) (src : List SV) : VM Vector :=
  if src.isEmpty then ret empty
  else request fun id => tick src.length (ret ⟨src, pol.copy src.length, id⟩)

/-- `push_back` and `emplace_back`: if there is no room, a larger buffer is asked for and the elements are moved there. -/
def push (pol : Policy) (v : Vector) (x : SV) : VM Vector :=
  if v.elems.length < v.cap then tick 1 (ret { v with elems := v.elems ++ [x] })
  else request fun id => tick (v.elems.length + 1) (ret ⟨v.elems ++ [x], pol.grow v.cap, id⟩)

/-- `std::copy` to a `std::back_inserter`. -/
def append (pol : Policy) : List SV → Vector → VM Vector
  | [], v => ret v
  | x :: xs, v => andThen (push pol v x) fun v => append pol xs v

/-- The loop of `remove_dot_segments` (uri.cpp:774-792), as `rdsLoop`; one step for each iteration and one for each assignment. -/
def rdsLoop : Nat → Nat → Nat → Bool → List SV → VM (Nat × Bool × List SV)
  | 0, _, outit, lastDir, v => ret (outit, lastDir, v)
  | n + 1, it, outit, lastDir, v =>
      match v[it]? with
      | none => ret (outit, lastDir, v)  -- not reached: `it` is a valid position
      | some g =>
          tick 1 (
            if g.chars = b! "." then rdsLoop n (it + 1) outit true v
            else if g.chars = b! ".." then rdsLoop n (it + 1) (if outit ≠ 0 then outit - 1 else outit) true v
            else if outit ≠ it then tick 1 (rdsLoop n (it + 1) (outit + 1) g.chars.isEmpty (v.set outit g))
            else rdsLoop n (it + 1) (outit + 1) g.chars.isEmpty v)

/-- uri.cpp:769-804 `path::remove_dot_segments`; `erase` (793) destroys the elements from `outit` on. -/
def removeDotSegments (pol : Policy) (v : Vector) : VM Vector :=
  andThen (rdsLoop v.elems.length 0 0 false v.elems) fun x =>
    tick (v.elems.length - x.1) (
      let w : Vector := { v with elems := x.2.2.take x.1 }
      if x.2.1 then
        match w.elems.getLast? with
        | none => push pol w SV.null
        | some b => if !b.chars.isEmpty then push pol w SV.null else ret w
      else ret w)

/-- uri.cpp:730-753 `merge`. -/
def merge (pol : Policy) (base ref : Parts SV) : VM (Bool × Vector) :=
  if base.authority.isSome && base.path.empty then
    andThen (copyOf pol ref.path.segments) fun v => ret (true, v)
  else
    let last := if base.path.segments.length > 1 then base.path.segments.length - 1 else base.path.segments.length
    andThen (append pol (base.path.segments.take last) empty) fun v =>
      andThen (append pol ref.path.segments v) fun v => ret (base.path.absolute, v)

/-- The path that holds a vector. -/
def pathOf (absolute : Bool) (v : Vector) : Path SV := ⟨absolute, v.elems⟩

/-- `target.path = path; target.path.remove_dot_segments ();` -/
def copyAndRemove (pol : Policy) (p : Path SV) : VM (Path SV) :=
  andThen (copyOf pol p.segments) fun v => andThen (removeDotSegments pol v) fun v => ret (pathOf p.absolute v)

/-- uri.cpp:940-983 `join` on parts.  `target.path` is without a buffer when it is assigned to; `target.path = merge (...)` moves. -/
def join (pol : Policy) (base reference : Parts SV) (strict : Bool) : VM (Parts SV) :=
  match (if !strict && optEq SV.eq reference.scheme base.scheme then none else reference.scheme) with
  | some s =>
      andThen (copyAndRemove pol reference.path) fun p => ret ⟨some s, reference.authority, p, reference.query, reference.fragment⟩
  | none =>
      match reference.authority with
      | some a => andThen (copyAndRemove pol reference.path) fun p => ret ⟨base.scheme, some a, p, reference.query, reference.fragment⟩
      | none =>
          if reference.path.empty then
            andThen (copyOf pol base.path.segments) fun v =>
              ret ⟨base.scheme, base.authority, pathOf base.path.absolute v,
                if reference.query.isSome then reference.query else base.query, reference.fragment⟩
          else if reference.path.absolute then
            andThen (copyAndRemove pol reference.path) fun p => ret ⟨base.scheme, base.authority, p, reference.query, reference.fragment⟩
          else
            andThen (merge pol base reference) fun m =>
              andThen (removeDotSegments pol m.2) fun v =>
                ret ⟨base.scheme, base.authority, pathOf m.1 v, reference.query, reference.fragment⟩

/-- As a function of the oracle alone, to be run after others. -/
def toAM (x : VM β) : Mem.AM β := fun o n => ((x o ⟨n, 0⟩).1.map .ok, (x o ⟨n, 0⟩).2.requests)

/-- uri.cpp:985-996 `join` on strings; the result is moved into the `std::optional`. -/
def joinStr (pol : Policy) (pl : Plat) (base reference : SV) (strict : Bool) : Mem.AM (Option (Parts SV)) :=
  Mem.andThen (Mem.split pl base) fun
    | none => Mem.ret (.ok none)
    | some b =>
        Mem.andThen (Mem.splitReference pl reference) fun
          | none => Mem.ret (.ok none)
          | some r => Mem.andThen (toAM (join pol b r strict)) fun t => Mem.ret (.ok (some t))

end Verif.Vec
