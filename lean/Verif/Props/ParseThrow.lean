import Verif.Proofs.ParseThrow
import Verif.Props.Cost
import Verif.Props.Parse

/-!
# C72: the parser when memory runs out

An oracle says which requests for memory, counted from 0, are granted (`Verif/Model/ParseThrow.lean`).
-/

set_option linter.unusedSimpArgs false

namespace Verif

open Mem (Quiet Silent)

/-! ### `valid` -/

theorem Mem.fieldOk_quiet {g : Cost.Gr Act} (h : Silent g = true) {m : Matcher Act} (hm : g.run = m) (s : SV) :
    Quiet (fun _ => True) (Mem.fieldOk g s) (Verif.fieldOk m s) :=
  (Mem.runGrammar_quiet h hm s).andThen fun _ _ => Quiet.retOk trivial

theorem Mem.optOk_quiet {g : Cost.Gr Act} (h : Silent g = true) {m : Matcher Act} (hm : g.run = m) (s : Option SV) :
    Quiet (fun _ => True) (Mem.optOk g s) (Verif.optOk m s) := by
  cases s with
  | none => exact Quiet.retOk trivial
  | some s => exact Mem.fieldOk_quiet h hm s

theorem Mem.allOk_quiet {ok : SV → Mem.AM Bool} {ok' : SV → M Bool} (h : ∀ s, Quiet (fun _ => True) (ok s) (ok' s)) :
    ∀ l, Quiet (fun _ => True) (Mem.allOk ok l) (Verif.allOk ok' l)
  | [] => Quiet.retOk trivial
  | g :: gs => by
    simp only [Mem.allOk, Verif.allOk]
    refine (h g).andThen fun b _ => ?_
    cases b
    · exact Quiet.retOk trivial
    · exact Mem.allOk_quiet h gs

theorem Mem.ifOk_quiet {x f : Mem.AM Bool} {x' f' : M Bool} (hx : Quiet (fun _ => True) x x') (hf : Quiet (fun _ => True) f f') :
    Quiet (fun _ => True) (Mem.ifOk x f) (x' >>= fun b => if !b then pure false else f') := by
  refine hx.andThen fun b _ => ?_
  cases b
  · exact Quiet.retOk trivial
  · exact hf

macro "silent" pl:ident : tactic => `(tactic| (obtain ⟨b⟩ := $pl; cases b <;> decide +kernel))

theorem Mem.silent_scheme (pl : Plat) : Silent (Cost.Uri.scheme pl) = true := by silent pl
theorem Mem.silent_userinfo (pl : Plat) : Silent (Cost.Uri.userinfo pl) = true := by silent pl
theorem Mem.silent_host (pl : Plat) : Silent (Cost.Uri.host pl) = true := by silent pl
theorem Mem.silent_port (pl : Plat) : Silent (Cost.Uri.port pl) = true := by silent pl
theorem Mem.silent_segment (pl : Plat) : Silent (Cost.Uri.segment pl) = true := by silent pl
theorem Mem.silent_query (pl : Plat) : Silent (Cost.Uri.query pl) = true := by silent pl

theorem Mem.authority_quiet (pl : Plat) (a : Authority SV) : Quiet (fun _ => True) (Mem.authorityValid pl a) (a.valid pl) :=
  Mem.ifOk_quiet (Mem.optOk_quiet (Mem.silent_userinfo pl) (Cost.Uri.run_userinfo pl) _)
    (Mem.ifOk_quiet (Mem.fieldOk_quiet (Mem.silent_host pl) (Cost.Uri.run_host pl) _)
      (Mem.ifOk_quiet (Mem.optOk_quiet (Mem.silent_port pl) (Cost.Uri.run_port pl) _) (Quiet.retOk trivial)))

theorem Mem.path_quiet (pl : Plat) (p : Path SV) : Quiet (fun _ => True) (Mem.pathValid pl p) (p.valid pl) :=
  Mem.allOk_quiet (Mem.fieldOk_quiet (Mem.silent_segment pl) (Cost.Uri.run_segment pl)) _

theorem Mem.valid_quiet (pl : Plat) (p : Parts SV) : Quiet (fun _ => True) (Mem.valid pl p) (p.valid pl) := by
  unfold Mem.valid Parts.valid
  cases p.scheme with
  | none => exact Quiet.retOk trivial
  | some s =>
    have h5 : Quiet (fun _ => True) _ _ := Mem.ifOk_quiet (Mem.optOk_quiet (Mem.silent_query pl) (Cost.Uri.run_fragment pl) p.fragment)
      (Quiet.retOk (b := true) trivial)
    have h4 := Mem.ifOk_quiet (Mem.optOk_quiet (Mem.silent_query pl) (Cost.Uri.run_query pl) p.query) h5
    have h3 := Mem.ifOk_quiet (Mem.path_quiet pl p.path) h4
    have h1 := Mem.fieldOk_quiet (Mem.silent_scheme pl) (Cost.Uri.run_scheme pl) s
    cases p.authority with
    | none => exact Mem.ifOk_quiet h1 (Mem.ifOk_quiet (Quiet.retOk trivial) h3)
    | some a => exact Mem.ifOk_quiet h1 (Mem.ifOk_quiet (Mem.authority_quiet pl a) h3)

/-- **C72**: the three `valid () noexcept` ask for no memory at all, so none of them can end the program by an exception:
whatever is refused, they give the result they always give. -/
theorem C72_valid (pl : Plat) (p : Parts SV) (oracle : Nat → Bool) (n : Nat) : Mem.valid pl p oracle n = (some (p.valid pl), n) :=
  (Mem.valid_quiet pl p).1 oracle n

theorem C72_valid_path (pl : Plat) (p : Path SV) (oracle : Nat → Bool) (n : Nat) : Mem.pathValid pl p oracle n = (some (p.valid pl), n) :=
  (Mem.path_quiet pl p).1 oracle n

theorem C72_valid_authority (pl : Plat) (a : Authority SV) (oracle : Nat → Bool) (n : Nat) :
    Mem.authorityValid pl a oracle n = (some (a.valid pl), n) :=
  (Mem.authority_quiet pl a).1 oracle n

/-- **C72**: with unsigned `char`, or where no view has a byte of 80 or more, they return - with all requests refused. -/
theorem C72_valid_returns (pl : Plat) (p : Parts SV) (h : pl.charSigned = false ∨ ∀ v ∈ p.views, ∀ c ∈ v.chars, c.toNat < 0x80) :
    ∃ b, Mem.valid pl p (fun _ => false) 0 = (some (.ok b), 0) := by
  cases hv : p.valid pl with
  | ok b => exact ⟨b, by rw [C72_valid, hv]⟩
  | error f =>
    obtain ⟨-, h1, v, h2, c, h3, h4⟩ := C09_valid_faults pl p f hv
    rcases h with h | h
    · rw [h] at h1; cases h1
    · have := h v h2 c h3; omega

/-! ### `split` -/

/-- A natural number below `N` at which the oracle refuses for the first time, if there is one. -/
theorem Mem.first_refused (o : Nat → Bool) : ∀ N, (∀ i, i < N → o i = true) ∨ ∃ i, i < N ∧ o i = false ∧ ∀ j, j < i → o j = true
  | 0 => .inl fun _ h => absurd h (Nat.not_lt_zero _)
  | N + 1 => by
    rcases Mem.first_refused o N with h | ⟨i, h1, h2, h3⟩
    · cases hN : o N with
      | true =>
        left
        intro i hi
        rcases Nat.lt_or_ge i N with k | k
        · exact h i k
        · rw [show i = N by omega]; exact hN
      | false => exact .inr ⟨N, by omega, hN, h⟩
    · exact .inr ⟨i, by omega, h2, h3⟩

/-- `x` makes `N` requests and does `y`; it throws `std::bad_alloc` exactly if one of them is refused, and then at once. -/
def Mem.Throwing {β : Type} (x : Mem.AM β) (y : M β) (N : Nat) : Prop := ∀ oracle : Nat → Bool,
  ((∀ i, i < N → oracle i = true) ∧ x oracle 0 = (some y, N)) ∨
  (∃ i, i < N ∧ oracle i = false ∧ (∀ j, j < i → oracle j = true) ∧ x oracle 0 = (none, i + 1))

theorem Mem.Exact.throwing {β : Type} {x : Mem.AM β} {y : M β} {N : Nat} (h : Mem.Exact x y N) : Mem.Throwing x y N := by
  intro o
  obtain ⟨h1, h2⟩ := h o 0
  simp only [Nat.zero_add] at h1 h2
  rcases Mem.first_refused o N with k | ⟨i, k1, k2, k3⟩
  · exact .inl ⟨k, h1 k⟩
  · exact .inr ⟨i, k1, k2, k3, h2 i k1 k2 k3⟩

/-- **C72**: `split` makes at most `2700 * n + 54000` requests for a text of `n` characters.  If all are granted the result is
that of C01-C09; at the first that is refused `std::bad_alloc` leaves `split`. -/
theorem C72_split (pl : Plat) (s : SV) : ∃ N, N ≤ 2700 * s.size + 54000 ∧ Mem.Throwing (Mem.split pl s) (split pl s) N := by
  obtain ⟨N, h1, h2⟩ := Mem.runGrammar_tied (Cost.Uri.URI pl) s
  have h := C62_split pl s
  refine ⟨N, ?_, ?_⟩
  · have : (Cost.runGrammar (Cost.Uri.URI pl) s).2 ≤ _ := h.2
    omega
  · rw [← h.1]; exact h2.throwing

/-- **C72**: the same of `split_reference`. -/
theorem C72_split_reference (pl : Plat) (s : SV) :
    ∃ N, N ≤ 5600 * s.size + 106000 ∧ Mem.Throwing (Mem.splitReference pl s) (splitReference pl s) N := by
  obtain ⟨N, h1, h2⟩ := Mem.runGrammar_tied (Cost.Uri.URIReference pl) s
  have h := C62_split_reference pl s
  refine ⟨N, ?_, ?_⟩
  · have : (Cost.runGrammar (Cost.Uri.URIReference pl) s).2 ≤ _ := h.2
    omega
  · rw [← h.1]; exact h2.throwing

/-- **C72**: so memory that runs out never makes `split` accept, reject or split differently: what it returns, if it returns,
does not depend on the oracle. -/
theorem C72_no_wrong_result (pl : Plat) (s : SV) (oracle : Nat → Bool) (r : M (Option (Parts SV))) :
    ((Mem.split pl s oracle 0).1 = some r → r = split pl s) ∧
    ((Mem.splitReference pl s oracle 0).1 = some r → r = splitReference pl s) := by
  constructor
  · obtain ⟨N, -, h⟩ := C72_split pl s
    rcases h oracle with ⟨-, h⟩ | ⟨i, -, -, -, h⟩ <;> rw [h] <;> intro k
    · exact (Option.some.inj k).symm
    · cases k
  · obtain ⟨N, -, h⟩ := C72_split_reference pl s
    rcases h oracle with ⟨-, h⟩ | ⟨i, -, -, -, h⟩ <;> rw [h] <;> intro k
    · exact (Option.some.inj k).symm
    · cases k

/-- **C72**, for users' own grammars: any match function built from `concat`, `optional`, `star` and `alternative` makes some
number of requests and gives its result, or throws at the first that is refused; without accept functions it makes none. -/
theorem C72_grammar {α : Type} (g : Cost.Gr α) (s : SV) :
    (∃ N, Mem.Throwing (Mem.grammar g (Rule.ofSV s)) (g.run (Rule.ofSV s)) N) ∧
    (Silent g = true → ∀ oracle n, Mem.grammar g (Rule.ofSV s) oracle n = (some (g.run (Rule.ofSV s)), n)) := by
  obtain ⟨N, -, h⟩ := Mem.grammar_tied g (Rule.ofSV s)
  rw [Cost.Gr.steps_fst] at h
  exact ⟨⟨N, h.throwing⟩, fun hs o n => (Mem.grammar_quiet g hs _ (Mem.noAcc_ofSV s)).1 o n⟩

/-! ### Concrete cases -/

/-- The parser does ask for memory: 66 times at most here, and each refusal is an exception. -/
example : (Mem.split arm ⟨4096, b! "s:a/b"⟩ (fun _ => true) 0).2 = 66 := by decide +kernel
example : ((Mem.split arm ⟨4096, b! "s:a/b"⟩ (fun i => i != 40) 0).1.isNone, (Mem.split arm ⟨4096, b! "s:a/b"⟩ (fun i => i != 40) 0).2) = (true, 41) := by
  decide +kernel
example : ((Mem.split arm ⟨4096, b! "s:a/b"⟩ (fun i => i != 66) 0).1.isNone) = false := by decide +kernel
/-- Text that is rejected at once needs no memory. -/
example : (Mem.split arm ⟨4096, b! ":"⟩ (fun _ => false) 0).2 = 0 := by decide +kernel
example : Silent (Cost.Uri.URI arm) = false := by decide +kernel

end Verif
