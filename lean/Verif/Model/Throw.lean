import Verif.Model.PartsCodec

/-!
# `encode` and `decode` when memory runs out

`include/uri/parts.hpp` again.  What may throw `std::bad_alloc`: the copy of `p` (parts.hpp:244, 310), any call of a function
object (the temporary strings of Punycode conversion), `reserve`.  Any of them may, as an oracle says.  `push_back` does not
throw as long as the capacity suffices, which it does (C35, C36).
-/

namespace Verif.Codec

/-- Where `std::bad_alloc` is thrown: at the copy of `p`, in which calls of the first pass, at `reserve` if it has to allocate,
and in which calls of the second pass, after how many characters. -/
structure Throws where
  copy : Bool
  size : Nat → Bool
  reserve : Bool
  write : Nat → Option Nat

/-- The state of a pass: what the function object refers to, the number of calls made, and whether an exception is on its way. -/
structure TS (σ : Type) where
  val : σ
  calls : Nat
  thrown : Bool

/-- A function object that may throw.  `cut k st st'` is what is left of the call that leads from `st` to `st'` if it throws
after `k` characters.  After that nothing more is called. -/
def throwing {σ : Type} (o : Nat → Option Nat) (cut : Nat → σ → σ → σ) (f : SV → Nat → Field → σ → M (SV × σ))
    (str : SV) (index : Nat) (fld : Field) (s : TS σ) : M (SV × TS σ) :=
  if s.thrown then .ok (str, s)
  else do
    let (v, val) ← f str index fld s.val
    match o s.calls with
    | none => .ok (v, ⟨val, s.calls + 1, false⟩)
    | some k => .ok (str, ⟨cut k s.val val, s.calls + 1, true⟩)

/-- The characters written before the exception stay in the store. -/
def cutStore (k : Nat) (st st' : Store) : Store := { st' with chars := st'.chars.take (st.chars.length + k) }

/-- parts.hpp:238-301 `encode`: the result, unless it throws, and the store afterwards. -/
def encodeT (hp : Heap) (t : Throws) (store : Store) (p : Parts SV) : M (Option (Parts SV) × Store) := do
  if t.copy then .ok (none, store)
  else do
    let store := store.clear
    let (result, s) ← partsStrings (throwing (fun n => if t.size n then some 0 else none) (fun _ st _ => st) encodeSize) p ⟨⟨0, fun _ => false⟩, 0, false⟩
    if s.thrown || (t.reserve && decide (store.cap < s.val.required)) then .ok (none, store)
    else do
      let store := store.reserve hp s.val.required
      let (result, w) ← partsStrings (throwing t.write cutStore (encodeWrite hp s.val.bits)) result ⟨store, 0, false⟩
      if w.thrown then .ok (none, w.val)
      else do
        check (s.val.required == w.val.chars.length)
        .ok (some result, w.val)

/-- parts.hpp:303-374 `decode`: the result or the error, unless it throws, and the store afterwards. -/
def decodeT (hp : Heap) (t : Throws) (store : Store) (p : Parts SV) : M (Option (Except Puny.Err (Parts SV)) × Store) := do
  if t.copy then .ok (none, store)
  else do
    let store := store.clear
    let (result, s) ← partsStrings (throwing (fun n => if t.size n then some 0 else none) (fun _ st _ => st) decodeSize) p ⟨⟨0, none, fun _ => false⟩, 0, false⟩
    if s.thrown || (t.reserve && decide (store.cap < s.val.required)) then .ok (none, store)
    else do
      let store := store.reserve hp s.val.required
      match s.val.error with
      | some err => .ok (some (.error err), store)
      | none => do
          let (result, w) ← partsStrings (throwing t.write cutStore (decodeWrite hp s.val.bits)) result ⟨store, 0, false⟩
          if w.thrown then .ok (none, w.val)
          else do
            check (s.val.required == w.val.chars.length)
            .ok (some (.ok result), w.val)

end Verif.Codec
