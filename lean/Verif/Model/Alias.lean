import Verif.Model.PartsCodec

/-!
# `encode` and `decode` given their own results

`include/uri/parts.hpp` again, without the assumption that the views of `p` do not refer to the store.  `store.clear ()` ends
the life of the characters in the store, and if `reserve` needs more room the memory itself is given back; reading through a
view that refers there is undefined.
-/

namespace Verif.Codec

/-- The view has a character in the memory of the store. -/
def Store.touches (st : Store) (v : SV) : Bool :=
  decide (v.chars.length ≠ 0 ∧ st.cap ≠ 0) && decide (v.ptr < st.addr + st.cap) && decide (st.addr < v.ptr + v.chars.length)

/-- A function object that reads its argument, unless there is nothing to read any more. -/
def guarded {σ : Type} (dead : σ → SV → Bool) (f : SV → Nat → Field → σ → M (SV × σ)) (str : SV) (index : Nat) (fld : Field) (st : σ) : M (SV × σ) :=
  if dead st str then .error .dangling else f str index fld st

/-- parts.hpp:238-301 `encode`.  In the second pass the characters of the old memory of the store are dead, and those of the new
are overwritten. -/
def encodeAny (hp : Heap) (store : Store) (p : Parts SV) : M (Parts SV × Store) := do
  let store := store.clear
  let (result, st) ← partsStrings (guarded (fun _ => store.touches) encodeSize) p ⟨0, fun _ => false⟩
  let store' := store.reserve hp st.required
  let (result, store') ← partsStrings (guarded (fun _ v => store.touches v || store'.touches v) (encodeWrite hp st.bits)) result store'
  check (st.required == store'.chars.length)
  .ok (result, store')

/-- parts.hpp:303-374 `decode`.  After an error (parts.hpp:320-322) nothing more is read. -/
def decodeAny (hp : Heap) (store : Store) (p : Parts SV) : M (Except Puny.Err (Parts SV) × Store) := do
  let store := store.clear
  let (result, st) ← partsStrings (guarded (fun s v => s.error.isNone && store.touches v) decodeSize) p ⟨0, none, fun _ => false⟩
  let store' := store.reserve hp st.required
  match st.error with
  | some err => .ok (.error err, store')
  | none => do
      let (result, store') ← partsStrings (guarded (fun _ v => store.touches v || store'.touches v) (decodeWrite hp st.bits)) result store'
      check (st.required == store'.chars.length)
      .ok (.ok result, store')

end Verif.Codec
