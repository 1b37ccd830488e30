import Verif.Props.Apart

/-!
# Property C125: bases that do for each other
-/

namespace Verif.SameBase
open Moved Apart
set_option linter.unusedSimpArgs false

/-! ### Specification -/

/-- The reference has a path or an authority. -/
def Goes (r : Parts SV) : Prop := r.authority ≠ none ∨ r.path.segments ≠ []

/-- The reference with nothing in it, and the one with the path `/`. -/
def emptyRef : Parts SV := ⟨none, none, ⟨false, []⟩, none, none⟩
def rootRef (a : Nat) : Parts SV := ⟨none, none, ⟨true, [⟨a, []⟩]⟩, none, none⟩

/-! ### Proofs -/

theorem plain_text (b : Parts SV) (a : Nat) : (join b (plainRef a) true).text =
    ⟨b.text.scheme, b.text.authority, ⟨b.text.path.absolute || (b.text.authority.isSome && b.text.path.segments.isEmpty), stackRun id [] (keptOf b.text.path.segments) ++ [b! "c"]⟩, none, none⟩ := by
  have e1 := joined_relative (b := b) (strict := true) (r := plainRef a) rfl ⟨rfl, by simp [plainRef], rfl⟩
  have hd := dir_of (b := b) (a := a) (dir := stackRun id [] (keptOf b.text.path.segments)) (by
    rw [e1]
    have e : (plainRef a).text.path.segments = [b! "c"] := rfl
    rw [e]
    simp only [stackRun, id]
    rw [if_neg (by decide), if_neg (by decide)]; rfl)
  rw [e1]
  have e : (plainRef a).text.path.segments = [b! "c"] := rfl
  rw [e]
  simp only [stackRun, id]
  rw [if_neg (by decide), if_neg (by decide)]; rfl

theorem act_goes {b b' : Parts SV} {a : Nat} (h : (join b (plainRef a) true).text = (join b' (plainRef a) true).text) {r : Parts Str}
    (hr : r.scheme ≠ none ∨ r.authority ≠ none ∨ r.path.segments ≠ []) : joinT b.text r true = joinT b'.text r true := by
  rw [plain_text, plain_text] at h
  simp only [Parts.mk.injEq, Path.mk.injEq] at h
  obtain ⟨h1, h2, ⟨h3, h4⟩, -⟩ := h
  have h4 := List.append_cancel_right h4
  rw [joinT_act, joinT_act]
  by_cases s : r.scheme = none
  case neg => rw [meaningT_scheme s]; rfl
  cases a : r.authority with
  | some x => rw [meaningT_authority s a]; simp only [act, h1]
  | none =>
    by_cases p : r.path.segments = []
    · rcases hr with hr | hr | hr
      · exact absurd s hr
      · exact absurd a hr
      · exact absurd p hr
    cases ab : r.path.absolute with
    | true => rw [meaningT_rooted s a p ab]; simp only [act, h1, h2]
    | false => rw [meaningT_relative s a p ab]; simp only [act]; rw [h3, h4, h1, h2]

theorem scheme_same {b b' : Parts SV} {a : Nat} (h : (join b (plainRef a) true).text = (join b' (plainRef a) true).text) : b.text.scheme = b'.text.scheme := by
  rw [plain_text, plain_text] at h
  simp only [Parts.mk.injEq] at h
  exact h.1

end Verif.SameBase

/-! ### The property -/

namespace Verif
open SameBase Moved Apart

/-- **C125**: two bases do for each other, for all references that have a path or an authority, strict or not, exactly if the reference `c` leads to the same place from both. -/
theorem C125_goes (b b' : Parts SV) (a : Nat) :
    (∀ r strict, Goes r → (join b r strict).text = (join b' r strict).text) ↔ (join b (plainRef a) true).text = (join b' (plainRef a) true).text := by
  constructor
  · intro h; exact h _ _ (Or.inr (by simp [plainRef]))
  · intro h r strict hr
    have hr' : r.text.authority ≠ none ∨ r.text.path.segments ≠ [] := by
      rcases hr with hr | hr
      · exact Or.inl (by simpa [Parts.text, Parts.map] using hr)
      · exact Or.inr (by simpa [Parts.text, Parts.map, Path.map] using hr)
    rw [joinT_text, joinT_text]
    cases strict with
    | true => exact act_goes h (Or.inr hr')
    | false =>
      rw [joinT_lax, joinT_lax, ← scheme_same h]
      split
      · exact act_goes h (Or.inr hr')
      · exact act_goes h (Or.inr hr')

/-- **C125**: for all references, exactly if the empty one leads to the same place, which is the base without its fragment. -/
theorem C125_all (b b' : Parts SV) :
    ((∀ r strict, (join b r strict).text = (join b' r strict).text) ↔ (join b emptyRef true).text = (join b' emptyRef true).text) ∧
    (join b emptyRef true).text = { b.text with fragment := none } := by
  have e : ∀ b : Parts SV, (join b emptyRef true).text = { b.text with fragment := none } := by
    intro b
    rw [joinT_text, joinT_empty rfl rfl rfl]; rfl
  refine ⟨⟨fun h => h _ _, fun h r strict => ?_⟩, e b⟩
  rw [e, e] at h
  have dep : ∀ (b : Parts Str) (m : Meaning), act b m = act { b with fragment := none } m := by
    intro b m; cases m <;> rfl
  have key : ∀ r : Parts Str, joinT b.text r true = joinT b'.text r true := by
    intro r
    rw [joinT_act, joinT_act, dep b.text, dep b'.text, h]
  have hs : b.text.scheme = b'.text.scheme := by
    have := congrArg Parts.scheme h; exact this
  rw [joinT_text, joinT_text]
  cases strict with
  | true => exact key _
  | false =>
    rw [joinT_lax, joinT_lax, ← hs]
    split <;> exact key _

/-- **C125**: for all references whose path begins with a slash, or that have an authority, exactly if `/` leads to the same place: to the root of the server. -/
theorem C125_rooted (b b' : Parts SV) (a : Nat) :
    (∀ r strict, r.authority ≠ none ∨ (r.path.segments ≠ [] ∧ r.path.absolute = true) → (join b r strict).text = (join b' r strict).text) ↔
      (join b (rootRef a) true).text = (join b' (rootRef a) true).text := by
  have e : ∀ b : Parts SV, (join b (rootRef a) true).text = ⟨b.text.scheme, b.text.authority, ⟨true, [[]]⟩, none, none⟩ := by
    intro b
    rw [joinT_text, joinT_root rfl rfl (by simp [rootRef, Parts.text, Parts.map, Path.map]) rfl]; rfl
  constructor
  · intro h; exact h _ _ (Or.inr ⟨by simp [rootRef], rfl⟩)
  · intro h r strict hr
    rw [e, e] at h
    simp only [Parts.mk.injEq] at h
    obtain ⟨h1, h2, -⟩ := h
    have key : ∀ r : Parts Str, r.authority ≠ none ∨ (r.path.segments ≠ [] ∧ r.path.absolute = true) → joinT b.text r true = joinT b'.text r true := by
      intro r hr
      rw [joinT_act, joinT_act]
      by_cases s : r.scheme = none
      case neg => rw [meaningT_scheme s]; rfl
      cases a : r.authority with
      | some x => rw [meaningT_authority s a]; simp only [act, h1]
      | none =>
        rcases hr with hr | ⟨p, ab⟩
        · exact absurd a hr
        · rw [meaningT_rooted s a p ab]; simp only [act, h1, h2]
    have hr' : r.text.authority ≠ none ∨ (r.text.path.segments ≠ [] ∧ r.text.path.absolute = true) := by
      rcases hr with hr | ⟨hr, k⟩
      · exact Or.inl (by simpa [Parts.text, Parts.map] using hr)
      · exact Or.inr ⟨by simpa [Parts.text, Parts.map, Path.map] using hr, k⟩
    rw [joinT_text, joinT_text]
    cases strict with
    | true => exact key _ hr'
    | false =>
      rw [joinT_lax, joinT_lax, ← h1]
      split
      · exact key _ hr'
      · exact key _ hr'

/-- **C125**, what `c` tells and what it does not: `http://h/x/y` and `http://h/x/./z?q` do for each other, but not for `?k`; `http://h` and `http://h/`, the same place for browsers, do not. -/
theorem C125_counterexamples :
    ([b! "http://h/x/y", b! "http://h/x/./z?q"].map fun s => (joinStr x86 ⟨4096, s⟩ ⟨8192, b! "../c"⟩ true).map (·.map compose)) = [.ok (some (b! "http://h/c")), .ok (some (b! "http://h/c"))] ∧
    ([b! "http://h/x/y", b! "http://h/x/./z?q"].map fun s => (joinStr x86 ⟨4096, s⟩ ⟨8192, b! "?k"⟩ true).map (·.map compose)) = [.ok (some (b! "http://h/x/y?k")), .ok (some (b! "http://h/x/./z?k"))] ∧
    ([b! "http://h", b! "http://h/"].map fun s => (joinStr x86 ⟨4096, s⟩ ⟨8192, b! "c"⟩ true).map (·.map compose)) = [.ok (some (b! "http://h/c")), .ok (some (b! "http://h//c"))] := by
  decide +kernel

end Verif
