import Verif.Model.Tool
import Verif.Spec.Tool
import Verif.Proofs.CharSafe
import Verif.Props.Parse

/-!
# `uri-split`
-/

namespace Verif
open Spec Tool

theorem getline_cons (l rest : Str) (h : (0x0A : UInt8) ∉ l) : getline (l ++ b! "\n" ++ rest) = some (l, rest) := by
  have hb : ∀ c ∈ l, (c != 0x0A) = true := by
    intro c hc; simp only [bne_iff_ne, ne_eq]; rintro rfl; exact h hc
  have e : l ++ b! "\n" ++ rest = l ++ 0x0A :: rest := by simp
  rw [e]
  have hne : l ++ (0x0A : UInt8) :: rest ≠ [] := by simp
  cases hx : l ++ (0x0A : UInt8) :: rest with
  | nil => exact absurd hx hne
  | cons c t =>
    simp only [getline]
    rw [← hx, List.takeWhile_append_of_pos hb, List.dropWhile_append_of_pos hb]
    simp

theorem getline_last (l : Str) (h : (0x0A : UInt8) ∉ l) (hne : l ≠ []) : getline l = some (l, []) := by
  have hb : ∀ c ∈ l, (c != 0x0A) = true := by
    intro c hc; simp only [bne_iff_ne, ne_eq]; rintro rfl; exact h hc
  cases hx : l with
  | nil => exact absurd hx hne
  | cons c t =>
    simp only [getline]
    rw [← hx]
    have h1 : l.takeWhile (· != 0x0A) = l := by
      have := List.takeWhile_append_of_pos (l₁ := l) (l₂ := []) (p := (· != 0x0A)) hb
      simpa using this
    have h2 : l.dropWhile (· != 0x0A) = [] := by
      have := List.dropWhile_append_of_pos (l₁ := l) (l₂ := []) (p := (· != 0x0A)) hb
      simpa using this
    rw [h1, h2]; simp

theorem isLines_nil {ls : List Str} (h : IsLines [] ls) : ls = [] := by
  rcases h.2 with e | ⟨ini, last, -, hne, e⟩
  · cases ls with
    | nil => rfl
    | cons l ls => simp at e
  · exact absurd ((List.append_eq_nil_iff.1 e.symm).2) hne

theorem isLines_cons {s l : Str} {ls : List Str} (h : IsLines s (l :: ls)) :
    ∃ rest, getline s = some (l, rest) ∧ IsLines rest ls ∧ rest.length < s.length := by
  obtain ⟨h0, h1⟩ := h
  have hl := h0 l (by simp)
  have hls : ∀ x ∈ ls, (0x0A : UInt8) ∉ x := fun x hx => h0 x (by simp [hx])
  rcases h1 with e | ⟨ini, last, e1, hne, e2⟩
  · refine ⟨(ls.map (· ++ b! "\n")).flatten, ?_, ⟨hls, Or.inl rfl⟩, ?_⟩
    · rw [e, List.map_cons, List.flatten_cons]; exact getline_cons _ _ hl
    · rw [e, List.map_cons, List.flatten_cons]; simp; omega
  · cases ini with
    | nil =>
      simp only [List.nil_append, List.cons.injEq] at e1
      obtain ⟨rfl, rfl⟩ := e1
      simp only [List.map_nil, List.flatten_nil, List.nil_append] at e2
      subst e2
      exact ⟨[], getline_last _ hl hne, ⟨by simp, Or.inl (by simp)⟩, List.length_pos_iff.2 hne⟩
    | cons x ini =>
      simp only [List.cons_append, List.cons.injEq] at e1
      obtain ⟨rfl, rfl⟩ := e1
      refine ⟨(ini.map (· ++ b! "\n")).flatten ++ last, ?_, ⟨hls, Or.inr ⟨ini, last, rfl, hne, rfl⟩⟩, ?_⟩
      · rw [e2, List.map_cons, List.flatten_cons, List.append_assoc]; exact getline_cons _ _ hl
      · rw [e2, List.map_cons, List.flatten_cons]; simp; omega

theorem takeWhile_no {s : Str} : (0x0A : UInt8) ∉ s.takeWhile (· != 0x0A) := by
  intro h
  have := List.all_takeWhile (p := (· != (0x0A : UInt8))) (l := s)
  have := List.all_eq_true.1 this _ h
  simp at this

theorem isLines_exists_aux : ∀ (n : Nat) (s : Str), s.length ≤ n → ∃ ls, IsLines s ls := by
  intro n
  induction n with
  | zero =>
    intro s h
    have : s = [] := List.length_eq_zero_iff.1 (by omega)
    subst this
    exact ⟨[], by simp, Or.inl rfl⟩
  | succ n ih =>
    intro s h
    have hs := List.takeWhile_append_dropWhile (p := (· != (0x0A : UInt8))) (l := s)
    cases hd : s.dropWhile (· != 0x0A) with
    | nil =>
      rw [hd, List.append_nil] at hs
      by_cases hn : s = []
      · subst hn; exact ⟨[], by simp, Or.inl rfl⟩
      · refine ⟨[s], ?_, Or.inr ⟨[], s, rfl, hn, by simp⟩⟩
        intro l hl; simp at hl; subst hl; rw [← hs]; exact takeWhile_no
    | cons c t =>
      have hc : c = 0x0A := by
        have h1 := List.head?_dropWhile_not (p := (· != (0x0A : UInt8))) (l := s)
        rw [hd] at h1; simpa using h1
      subst hc
      rw [hd] at hs
      have hlen : t.length ≤ n := by
        have := congrArg List.length hs
        simp at this; omega
      obtain ⟨ls, h1, h2⟩ := ih t hlen
      refine ⟨s.takeWhile (· != 0x0A) :: ls, ?_, ?_⟩
      · intro l hl
        rcases List.mem_cons.1 hl with rfl | hl
        · exact takeWhile_no
        · exact h1 l hl
      · rcases h2 with h2 | ⟨ini, last, e1, hne, e2⟩
        · refine Or.inl ?_
          rw [List.map_cons, List.flatten_cons, ← h2]
          conv => lhs; rw [← hs]
          simp
        · refine Or.inr ⟨s.takeWhile (· != 0x0A) :: ini, last, by rw [e1]; rfl, hne, ?_⟩
          rw [List.map_cons, List.flatten_cons, List.append_assoc, ← e2]
          conv => lhs; rw [← hs]
          simp

theorem isLines_exists (s : Str) : ∃ ls, IsLines s ls := isLines_exists_aux _ s (Nat.le_refl _)

theorem isLines_unique : ∀ (ls : List Str) (s : Str) (ls' : List Str), IsLines s ls → IsLines s ls' → ls = ls' := by
  intro ls
  induction ls with
  | nil =>
    intro s ls' h h'
    have : s = [] := by
      rcases h.2 with e | ⟨ini, last, e, -⟩
      · simpa using e
      · simp at e
    subst this
    exact (isLines_nil h').symm
  | cons l ls ih =>
    intro s ls' h h'
    obtain ⟨rest, e1, h1, -⟩ := isLines_cons h
    cases ls' with
    | nil =>
      have : s = [] := by
        rcases h'.2 with e | ⟨ini, last, e, -⟩
        · simpa using e
        · simp at e
      subst this
      simp [getline] at e1
    | cons l' ls' =>
      obtain ⟨rest', e2, h2, -⟩ := isLines_cons h'
      rw [e1] at e2
      simp at e2
      obtain ⟨rfl, rfl⟩ := e2
      rw [ih rest ls' h1 h2]

theorem valueOrNone_text (o : Option SV) : valueOrNone o = shown (o.map SV.chars) := by cases o <;> rfl

theorem quoted_plain {s : Str} (h : ∀ c ∈ s, c ≠ 0x22 ∧ c ≠ 0x5C) : quoted s = b! "\"" ++ s ++ b! "\"" := by
  have : s.flatMap (fun c => if c == 0x22 || c == 0x5C then [0x5C, c] else [c]) = s := by
    induction s with
    | nil => rfl
    | cons c s ih =>
      rw [List.flatMap_cons, ih fun d hd => h d (by simp [hd])]
      have := h c (by simp)
      simp [this]
  rw [quoted, this]

end Verif
