import Verif.Props.Moved
import Verif.Props.Assoc
import Verif.Props.Short
import Verif.Props.Exchange

/-!
# Property C122: references that lead to the same place from every base
-/

namespace Verif.Apart
open Moved Short
set_option linter.unusedSimpArgs false

/-! ### Specification -/

/-- Walking along a relative path: how many directories it leads up, beyond where it began, and the segments down from there. -/
def walk : Nat → List Str → List Str → Nat × List Str
  | up, down, [] => (up, down)
  | up, down, g :: gs =>
    if g = b! "." then walk up down gs
    else if g = b! ".." then (if down = [] then walk (up + 1) [] gs else walk up down.dropLast gs)
    else walk up (down ++ [g]) gs

/-- Where a relative path leads: up, and down. If it ends with `.` or `..`, what it leads to is a directory, and ends with an empty segment. -/
def course (gs : List Str) : Nat × List Str :=
  ((walk 0 [] gs).1, if (walk 0 [] gs).2 = [] then [] else
    if (gs.getLast? = some (b! ".") ∨ gs.getLast? = some (b! "..")) ∧ (walk 0 [] gs).2.getLast? ≠ some [] then (walk 0 [] gs).2 ++ [[]] else (walk 0 [] gs).2)

/-- What a reference means. -/
inductive Meaning where
  /-- It has a scheme: the same from everywhere. -/
  | anywhere (p : Parts Str)
  /-- Another authority. -/
  | server (a : Authority Str) (path : Path Str) (query fragment : Option Str)
  /-- Another path on the same server. -/
  | rooted (segments : List Str) (query fragment : Option Str)
  /-- From the directory of the base: up and down. -/
  | relative (up : Nat) (down : List Str) (query fragment : Option Str)
  /-- The base itself, with its query or another one. -/
  | here (query fragment : Option Str)
  deriving DecidableEq

/-- The meaning of a reference: dot segments are walked along, and what is not used does not count. -/
def meaning (r : Parts SV) : Meaning :=
  if r.scheme ≠ none then .anywhere ⟨r.text.scheme, r.text.authority, r.path.removeDotSegments.map SV.chars, r.text.query, r.text.fragment⟩
  else match r.text.authority with
    | some a => .server a (r.path.removeDotSegments.map SV.chars) r.text.query r.text.fragment
    | none =>
      if r.path.segments = [] then .here r.text.query r.text.fragment
      else if r.path.absolute then .rooted (r.path.removeDotSegments.map SV.chars).segments r.text.query r.text.fragment
      else .relative (course r.text.path.segments).1 (course r.text.path.segments).2 r.text.query r.text.fragment

/-- The references lead to the same place from every base that `split` accepts. -/
def SameFromEverywhere (pl : Plat) (r1 r2 : Parts SV) : Prop :=
  ∀ base b, split pl base = .ok (some b) → (join b r1 true).text = (join b r2 true).text

/-! ### Proofs -/

theorem walk_run (st : List Str) : ∀ (gs : List Str) (k : Nat) (ds : List Str),
    stackRun id (st.take (st.length - k) ++ ds) gs = st.take (st.length - (walk k ds gs).1) ++ (walk k ds gs).2
  | [], _, _ => rfl
  | g :: gs, k, ds => by
    simp only [stackRun, walk, id]
    by_cases h1 : g = b! "."
    · rw [if_pos h1, if_pos h1]; exact walk_run st gs k ds
    rw [if_neg h1, if_neg h1]
    by_cases h2 : g = b! ".."
    · rw [if_pos h2, if_pos h2]
      by_cases h3 : ds = []
      · subst h3
        rw [if_pos rfl, ← walk_run st gs (k + 1) []]
        congr 1
        rw [List.append_nil, List.append_nil, List.dropLast_eq_take, List.take_take, List.length_take]
        congr 1; omega
      · rw [if_neg h3, ← walk_run st gs k ds.dropLast, List.dropLast_append_of_ne_nil h3]
    · rw [if_neg h2, if_neg h2, ← walk_run st gs k (ds ++ [g]), List.append_assoc]

theorem walk_down (gs : List Str) : stackRun id [] gs = (walk 0 [] gs).2 := by simpa using walk_run [] gs 0 []

theorem last_empty {gs : List Str} (h : gs.getLast? = some []) : (walk 0 [] gs).2.getLast? = some [] := by
  rcases List.eq_nil_or_concat gs with rfl | ⟨pre, x, rfl⟩
  · simp at h
  · rw [List.concat_eq_append] at h ⊢
    have : x = [] := by simpa using h
    subst this
    rw [← walk_down, stackRun_append]
    simp [stackRun]

theorem course_snd (gs : List Str) : (course gs).2 = if (walk 0 [] gs).2 = [] then [] else ended (dirEnd false gs) (walk 0 [] gs).2 := by
  simp only [course]
  by_cases h0 : (walk 0 [] gs).2 = []
  · rw [if_pos h0, if_pos h0]
  rw [if_neg h0, if_neg h0]
  obtain ⟨y, hy⟩ : ∃ y, (walk 0 [] gs).2.getLast? = some y := by
    cases h : (walk 0 [] gs).2.getLast? with
    | none => exact absurd (List.getLast?_eq_none_iff.1 h) h0
    | some y => exact ⟨y, rfl⟩
  have key : asDirectory (walk 0 [] gs).2 = if (walk 0 [] gs).2.getLast? ≠ some [] then (walk 0 [] gs).2 ++ [[]] else (walk 0 [] gs).2 := by
    unfold asDirectory
    rw [hy]
    cases y <;> simp
  cases hl : gs.getLast? with
  | none => have := List.getLast?_eq_none_iff.1 hl; subst this; exact absurd rfl h0
  | some g =>
    by_cases hg : g = b! "." ∨ g = b! ".."
    · have : dirEnd false gs = true := by
        rw [dirEnd, hl]; rcases hg with rfl | rfl <;> decide
      simp only [this, ended, if_true, key]
      simp only [Option.some.injEq, hg, true_and]
    · have hd : isDot g = false := (isDot_iff g).2 ⟨fun h => hg (Or.inl h), fun h => hg (Or.inr h)⟩
      simp only [Option.some.injEq, hg, false_and, if_false]
      by_cases hn : g = []
      · subst hn
        have := last_empty hl
        rw [ended]
        split
        · rw [key, if_neg (fun k => k this)]
        · rfl
      · have : dirEnd false gs = false := by
          rw [dirEnd, hl]; simp [hd, hn]
        simp [this, ended]

/-- The base `sch://host/g/g/…/z`. -/
def deep (sch host : Str) (n : Nat) (g z : Str) : Parts Str :=
  ⟨some sch, some ⟨none, host, none⟩, ⟨true, List.replicate n g ++ [z]⟩, none, none⟩

theorem kept_deep {n : Nat} (hn : n ≠ 0) (g z : Str) : keptOf (List.replicate n g ++ [z]) = List.replicate n g := by
  have : n + 1 > 1 := by omega
  simp [keptOf, this]

theorem run_deep {g : Str} (hg : isDot g = false) : ∀ (n : Nat) (st : List Str), stackRun id st (List.replicate n g) = st ++ List.replicate n g
  | 0, st => by simp [stackRun]
  | n + 1, st => by
    obtain ⟨h1, h2⟩ := (isDot_iff g).1 hg
    simp only [List.replicate_succ, stackRun, id]
    rw [if_neg h1, if_neg h2, run_deep hg n]; simp

/-- A relative path from a deep base. -/
theorem deep_relative {sch host g z : Str} {n : Nat} {r : Parts Str} (hn : n ≠ 0) (hg : isDot g = false)
    (h1 : r.scheme = none) (h2 : r.authority = none) (h3 : r.path.segments ≠ []) (h4 : r.path.absolute = false) :
    joinT (deep sch host n g z) r true = ⟨some sch, some ⟨none, host, none⟩, ⟨true, ended (dirEnd false r.path.segments)
      (List.replicate (n - (course r.path.segments).1) g ++ (walk 0 [] r.path.segments).2)⟩, r.query, r.fragment⟩ := by
  rw [joinT_relative h1 h2 h3 h4, mergeT_kept]
  simp only [rdsT, rdsSegs_ended, deep, kept_deep hn, dirEnd_last h3, stackRun_append, run_deep hg, List.nil_append]
  have := walk_run (List.replicate n g) r.path.segments 0 []
  have e : (List.replicate n g).take (List.replicate n g).length = List.replicate n g := List.take_length
  simp only [List.append_nil, Nat.sub_zero] at this
  rw [e] at this
  rw [this]
  have e2 : min (n - (walk 0 [] r.path.segments).1) n = n - (walk 0 [] r.path.segments).1 := by omega
  simp [List.take_replicate, course, e2]

/-- Where a path leads from `n` directories `g`. -/
def lead (n : Nat) (g : Str) (gs : List Str) : List Str :=
  if (course gs).2 = [] then asDirectory (List.replicate (n - (course gs).1) g) else List.replicate (n - (course gs).1) g ++ (course gs).2

theorem ended_append {d : Bool} {xs ys : List Str} (h : ys ≠ []) : ended d (xs ++ ys) = xs ++ ended d ys := by
  cases d with
  | false => rfl
  | true =>
    simp only [ended, if_true, asDirectory, getLast?_append' xs h]
    cases ys.getLast? with
    | none => simp
    | some g => simp only []; split <;> simp

theorem ended_ne {d : Bool} {ys : List Str} (h : ys ≠ []) : ended d ys ≠ [] := by
  obtain ⟨t, ht⟩ := ended_prefix d ys
  rw [← ht]; simp [h]

theorem lead_eq {gs : List Str} (h0 : gs ≠ []) (n : Nat) (g : Str) :
    ended (dirEnd false gs) (List.replicate (n - (course gs).1) g ++ (walk 0 [] gs).2) = lead n g gs := by
  rw [lead, course_snd]
  by_cases h : (walk 0 [] gs).2 = []
  · rw [h, if_pos rfl, if_pos rfl, stackRun_gone h0 ((walk_down gs).trans h), List.append_nil]; rfl
  · rw [if_neg h, if_neg (ended_ne h), ended_append h]

theorem lead_text {g : Str} (hg : g ≠ []) (n : Nat) (gs : List Str) :
    lead n g gs = List.replicate (n - (course gs).1) g ++ (if (course gs).2 = [] then [[]] else (course gs).2) := by
  unfold lead
  split
  · unfold asDirectory
    cases h : (List.replicate (n - (course gs).1) g).getLast? with
    | none => rfl
    | some x =>
      have := List.eq_of_mem_replicate (List.mem_of_getLast? h)
      subst this
      cases x with
      | nil => exact absurd rfl hg
      | cons => rfl
  · rfl

theorem up_le {gs gs' : List Str} (h : ∀ n g, n ≠ 0 → g = b! "a" ∨ g = b! "b" ∨ g = [] → lead n g gs = lead n g gs') : ¬ (course gs).1 < (course gs').1 := by
  intro hlt
  have key : ∀ g : Str, g ≠ [] → g = b! "a" ∨ g = b! "b" ∨ g = [] → (if (course gs').2 = [] then [[]] else (course gs').2).head? = some g := by
    intro g hg hab
    have e := h ((course gs').1 + 1) g (by omega) hab
    rw [lead_text hg, lead_text hg] at e
    have e1 : (course gs').1 + 1 - (course gs).1 = 1 + ((course gs').1 - (course gs).1 - 1 + 1) := by omega
    have e2 : (course gs').1 + 1 - (course gs').1 = 1 := by omega
    rw [e1, e2, ← List.replicate_append_replicate, List.append_assoc] at e
    rw [← List.append_cancel_left e, List.replicate_succ]; rfl
  have k1 := key (b! "a") (by decide) (Or.inl rfl)
  have k2 := key (b! "b") (by decide) (Or.inr (Or.inl rfl))
  rw [k1] at k2
  exact absurd k2 (by decide)

/-- The lengths to which deep bases tell where a path leads. -/
theorem course_eq {gs gs' : List Str} (h : ∀ n g, n ≠ 0 → g = b! "a" ∨ g = b! "b" ∨ g = [] → lead n g gs = lead n g gs') : course gs = course gs' := by
  have h1 := up_le h
  have h2 := up_le (fun n g hn hg => (h n g hn hg).symm)
  have e : (course gs).1 = (course gs').1 := by omega
  have k := h ((course gs').1 + 1) (b! "a") (by omega) (Or.inl rfl)
  rw [lead_text (by decide), lead_text (by decide), e] at k
  have k := List.append_cancel_left k
  have k0 := h ((course gs').1 + 1) [] (by omega) (Or.inr (Or.inr rfl))
  have e2 : (course gs').1 + 1 - (course gs').1 = 1 := by omega
  have e3 : asDirectory (List.replicate 1 ([] : Str)) = [[]] := rfl
  simp only [lead, e, e2, e3] at k0
  refine Prod.ext e ?_
  by_cases d1 : (course gs).2 = []
  · by_cases d2 : (course gs').2 = []
    · rw [d1, d2]
    · rw [if_pos d1, if_neg d2] at k k0
      rw [← k] at k0
      exact absurd k0 (by decide)
  · by_cases d2 : (course gs').2 = []
    · rw [if_neg d1, if_pos d2] at k k0
      rw [k] at k0
      exact absurd k0 (by decide)
    · rwa [if_neg d1, if_neg d2] at k

/-- A relative path does not lead to the same segments from everywhere. -/
theorem lead_varies (gs x : List Str) : ¬ ∀ n g, n ≠ 0 → g = b! "a" ∨ g = b! "b" ∨ g = [] → lead n g gs = x := by
  intro h
  have k : ∀ g : Str, g ≠ [] → g = b! "a" ∨ g = b! "b" ∨ g = [] → x.head? = some g := by
    intro g hg hab
    have e := h ((course gs).1 + 1) g (by omega) hab
    rw [lead_text hg] at e
    have e2 : (course gs).1 + 1 - (course gs).1 = 1 := by omega
    rw [e2] at e
    rw [← e]; rfl
  have k1 := k (b! "a") (by decide) (Or.inl rfl)
  rw [k (b! "b") (by decide) (Or.inr (Or.inl rfl))] at k1
  exact absurd k1 (by decide)

theorem deep_lead {sch host g z : Str} {n : Nat} {r : Parts Str} (hn : n ≠ 0) (hg : g = b! "a" ∨ g = b! "b" ∨ g = [])
    (h1 : r.scheme = none) (h2 : r.authority = none) (h3 : r.path.segments ≠ []) (h4 : r.path.absolute = false) :
    joinT (deep sch host n g z) r true = ⟨some sch, some ⟨none, host, none⟩, ⟨true, lead n g r.path.segments⟩, r.query, r.fragment⟩ := by
  have hd : isDot g = false := by rcases hg with rfl | rfl | rfl <;> decide
  rw [deep_relative hn hd h1 h2 h3 h4, lead_eq h3]

/-- The bases that are enough to tell references apart. -/
def Deep (sch : Str) (b : Parts Str) : Prop := ∃ host n g z, (host = b! "h" ∨ host = b! "k") ∧ n ≠ 0 ∧ (g = b! "a" ∨ g = b! "b" ∨ g = []) ∧
  (z = b! "a" ∨ z = b! "b") ∧ b = deep sch host n g z

theorem deep_splits (pl : Plat) {sch : Str} (hs : Abnf.scheme sch) {b : Parts Str} (h : Deep sch b) : ∃ s, SplitsTo pl s b := by
  obtain ⟨host, n, g, z, h2, h3, h4, h5, rfl⟩ := h
  have base : ∀ host, host = b! "h" ∨ host = b! "k" →
      SplitsTo pl (b! "s://" ++ host ++ b! "/a") ⟨some (b! "s"), some ⟨none, host, none⟩, ⟨true, [b! "a"]⟩, none, none⟩ := by
    intro host h2
    refine c91_splits pl (run_text ?_)
    obtain ⟨c⟩ := pl
    rcases h2 with rfl | rfl <;> cases c <;> decide +kernel
  obtain ⟨d1, d2, d3⟩ := splitsTo_iff.1 (base host h2)
  obtain ⟨sch', t, e1, e2, e3, -, -, -⟩ := d1
  have ha : Abnf.AuthorityOk ⟨none, host, none⟩ := part_authority e3 _ rfl
  have seg : ∀ g : Str, g = b! "a" ∨ g = b! "b" ∨ g = [] → Abnf.segment g := by
    intro g hg
    rcases hg with rfl | rfl | rfl
    · exact ⟨[b! "a"], rfl, fun x hx => by rw [List.mem_singleton.1 hx]; exact (pchar_elem _).2 (Or.inl ⟨_, rfl, by decide⟩), Nat.zero_le _, by simp⟩
    · exact ⟨[b! "b"], rfl, fun x hx => by rw [List.mem_singleton.1 hx]; exact (pchar_elem _).2 (Or.inl ⟨_, rfl, by decide⟩), Nat.zero_le _, by simp⟩
    · exact ⟨[], rfl, by simp, Nat.zero_le _, by simp⟩
  have d := Abnf.PartDerives.abempty (first := Abnf.segmentNz) ⟨none, host, none⟩ (List.replicate n g ++ [z]) ha (by
    intro x hx
    rcases List.mem_append.1 hx with hx | hx
    · rw [List.eq_of_mem_replicate hx]; exact seg g h4
    · rw [List.mem_singleton.1 hx]; exact seg z (by rcases h5 with rfl | rfl <;> simp))
  have hE : (List.replicate n g ++ [z]).isEmpty = false := by simp
  rw [hE] at d
  exact ⟨_, splitsTo_iff.2 ⟨⟨sch, _, rfl, hs, d, (fun q h => by cases h), (fun q h => by cases h), rfl⟩, fun a ha => d2 a ha, fun hn => absurd hn (by simp [deep])⟩⟩

/-- The meaning, of texts. -/
def meaningT (r : Parts Str) : Meaning :=
  if r.scheme ≠ none then .anywhere ⟨r.scheme, r.authority, rdsT r.path, r.query, r.fragment⟩
  else match r.authority with
    | some a => .server a (rdsT r.path) r.query r.fragment
    | none =>
      if r.path.segments = [] then .here r.query r.fragment
      else if r.path.absolute then .rooted (rdsT r.path).segments r.query r.fragment
      else .relative (course r.path.segments).1 (course r.path.segments).2 r.query r.fragment

theorem meaning_text (r : Parts SV) : meaning r = meaningT r.text := by
  have h1 : r.scheme ≠ none ↔ r.text.scheme ≠ none := by simp [Parts.text, Parts.map]
  have h2 : r.path.segments = [] ↔ r.text.path.segments = [] := by simp [Parts.text, Parts.map, Path.map]
  have h3 : r.path.absolute = r.text.path.absolute := rfl
  have h4 : r.text.path = r.path.map SV.chars := rfl
  simp only [meaning, meaningT, h1, h2, h3, rdsT_text, h4]

theorem meaningT_scheme {r : Parts Str} (h : r.scheme ≠ none) : meaningT r = .anywhere ⟨r.scheme, r.authority, rdsT r.path, r.query, r.fragment⟩ := by
  simp [meaningT, h]
theorem meaningT_authority {r : Parts Str} {a} (h : r.scheme = none) (ha : r.authority = some a) : meaningT r = .server a (rdsT r.path) r.query r.fragment := by
  simp [meaningT, h, ha]
theorem meaningT_here {r : Parts Str} (h : r.scheme = none) (ha : r.authority = none) (hp : r.path.segments = []) : meaningT r = .here r.query r.fragment := by
  simp [meaningT, h, ha, hp]
theorem meaningT_rooted {r : Parts Str} (h : r.scheme = none) (ha : r.authority = none) (hp : r.path.segments ≠ []) (hr : r.path.absolute = true) :
    meaningT r = .rooted (rdsT r.path).segments r.query r.fragment := by
  simp [meaningT, h, ha, hp, hr]
theorem meaningT_relative {r : Parts Str} (h : r.scheme = none) (ha : r.authority = none) (hp : r.path.segments ≠ []) (hr : r.path.absolute = false) :
    meaningT r = .relative (course r.path.segments).1 (course r.path.segments).2 r.query r.fragment := by
  simp [meaningT, h, ha, hp, hr]

theorem eta (x : Option Str) (h : x.isSome = false) : x = none := by cases x <;> simp_all

/-- References without a scheme, told apart by no deep base, mean the same. -/
theorem meaning_of_same' {r1 r2 : Parts Str} {sch : Str} (s1 : r1.scheme = none) (s2 : r2.scheme = none) (H : ∀ b, Deep sch b → joinT b r1 true = joinT b r2 true) :
    meaningT r1 = meaningT r2 := by
  have H' : ∀ host n g z, (host = b! "h" ∨ host = b! "k") → n ≠ 0 → (g = b! "a" ∨ g = b! "b" ∨ g = []) → (z = b! "a" ∨ z = b! "b") →
      joinT (deep sch host n g z) r1 true = joinT (deep sch host n g z) r2 true :=
    fun host n g z h2 h3 h4 h5 => H _ ⟨host, n, g, z, h2, h3, h4, h5, rfl⟩
  have Hh := fun host h => H' host 1 (b! "a") (b! "a") h (by decide) (Or.inl rfl) (Or.inl rfl)
  have Hg := fun n g hn hg => H' (b! "h") n g (b! "a") (Or.inl rfl) hn hg (Or.inl rfl)
  have Hz := fun z h => H' (b! "h") 1 (b! "a") z (Or.inl rfl) (by decide) (Or.inl rfl) h
  have both_s := Hh (b! "h") (Or.inl rfl)
  -- the authority
  have two : ∀ {r r' : Parts Str}, (∀ host, host = b! "h" ∨ host = b! "k" → joinT (deep sch host 1 (b! "a") (b! "a")) r true = joinT (deep sch host 1 (b! "a") (b! "a")) r' true) →
      r.scheme = none → r'.scheme = none → r.authority = none → r'.authority = none := by
    intro r r' h hr hr' ha
    cases ha' : r'.authority with
    | none => rfl
    | some x =>
      have k : ∀ host, host = b! "h" ∨ host = b! "k" → (⟨none, host, none⟩ : Authority Str) = x := by
        intro host hs
        have := congrArg Parts.authority (h host hs)
        rw [joinT_authority_of, joinT_authority_of, hr, hr', ha, ha'] at this
        simpa [deep] using this
      have := (k _ (Or.inl rfl)).trans (k _ (Or.inr rfl)).symm
      exact absurd (congrArg Authority.host this) (by decide)
  by_cases a1 : r1.authority = none
  case neg =>
    have a2 : r2.authority ≠ none := fun h => a1 (two (fun host hs => (Hh host hs).symm) s2 s1 h)
    obtain ⟨x, hx⟩ := Option.ne_none_iff_exists'.1 a1
    obtain ⟨y, hy⟩ := Option.ne_none_iff_exists'.1 a2
    rw [joinT_authority s1 (by rw [hx]; rfl), joinT_authority s2 (by rw [hy]; rfl), hx, hy] at both_s
    rw [meaningT_authority s1 hx, meaningT_authority s2 hy]
    simp only [Parts.mk.injEq, Option.some.injEq] at both_s
    rw [both_s.2.1, both_s.2.2.1, both_s.2.2.2.1, both_s.2.2.2.2]
  have a2 := two Hh s1 s2 a1
  -- the path
  have two : ∀ {r r' : Parts Str}, (∀ z, z = b! "a" ∨ z = b! "b" → joinT (deep sch (b! "h") 1 (b! "a") z) r true = joinT (deep sch (b! "h") 1 (b! "a") z) r' true) →
      r.scheme = none → r'.scheme = none → r.authority = none → r'.authority = none → r.path.segments = [] → r'.path.segments = [] := by
    intro r r' h hr hr' ha ha' hp
    by_cases hp' : r'.path.segments = []
    · exact hp'
    exfalso
    obtain ⟨x, hx⟩ : ∃ x, ∀ z, z = b! "a" ∨ z = b! "b" → (joinT (deep sch (b! "h") 1 (b! "a") z) r' true).path.segments = x := by
      cases habs : r'.path.absolute with
      | true => exact ⟨(rdsT r'.path).segments, fun z _ => by rw [joinT_root hr' ha' hp' habs]⟩
      | false => exact ⟨lead 1 (b! "a") r'.path.segments, fun z _ => by rw [deep_lead (by decide) (Or.inl rfl) hr' ha' hp' habs]⟩
    have k : ∀ z, z = b! "a" ∨ z = b! "b" → [b! "a", z] = x := by
      intro z hz
      have := congrArg (fun p => p.path.segments) (h z hz)
      simp only [joinT_empty hr ha hp, hx z hz] at this
      exact this
    exact absurd ((k _ (Or.inl rfl)).trans (k _ (Or.inr rfl)).symm) (by decide)
  by_cases p1 : r1.path.segments = []
  · have p2 := two Hz s1 s2 a1 a2 p1
    rw [joinT_empty s1 a1 p1, joinT_empty s2 a2 p2] at both_s
    rw [meaningT_here s1 a1 p1, meaningT_here s2 a2 p2]
    simp only [Parts.mk.injEq, true_and] at both_s
    have e : ∀ q : Option Str, (if q.isSome = true then q else (deep sch (b! "h") 1 (b! "a") (b! "a")).query) = q := by
      intro q; cases q <;> rfl
    rw [e, e] at both_s
    rw [both_s.1, both_s.2]
  have p2 : r2.path.segments ≠ [] := fun h => p1 (two (fun z hz => (Hz z hz).symm) s2 s1 a2 a1 h)
  have lead_of : ∀ {r : Parts Str} n g, r.scheme = none → r.authority = none → r.path.segments ≠ [] → r.path.absolute = false → n ≠ 0 → g = b! "a" ∨ g = b! "b" ∨ g = [] →
      (joinT (deep sch (b! "h") n g (b! "a")) r true).path.segments = lead n g r.path.segments := by
    intro r n g k1 k2 k3 k4 hn hg
    rw [deep_lead hn hg k1 k2 k3 k4]
  have tails : r1.query = r2.query ∧ r1.fragment = r2.fragment := by
    have k : ∀ {r : Parts Str}, r.scheme = none → r.authority = none → r.path.segments ≠ [] →
        (joinT (deep sch (b! "h") 1 (b! "a") (b! "a")) r true).query = r.query ∧ (joinT (deep sch (b! "h") 1 (b! "a") (b! "a")) r true).fragment = r.fragment := by
      intro r k1 k2 k3
      cases hr : r.path.absolute with
      | true => rw [joinT_root k1 k2 k3 hr]; exact ⟨rfl, rfl⟩
      | false => rw [joinT_merge k1 k2 k3 hr]; exact ⟨rfl, rfl⟩
    rw [← (k s1 a1 p1).1, ← (k s1 a1 p1).2, ← (k s2 a2 p2).1, ← (k s2 a2 p2).2, both_s]
    exact ⟨rfl, rfl⟩
  cases b1 : r1.path.absolute with
  | true =>
    cases b2 : r2.path.absolute with
    | true =>
      rw [joinT_root s1 a1 p1 b1, joinT_root s2 a2 p2 b2] at both_s
      simp only [Parts.mk.injEq, true_and] at both_s
      rw [meaningT_rooted s1 a1 p1 b1, meaningT_rooted s2 a2 p2 b2, both_s.1, both_s.2.1, both_s.2.2]
    | false =>
      refine absurd (fun n g hn hg => ?_) (lead_varies r2.path.segments (rdsT r1.path).segments)
      have := congrArg (fun p => p.path.segments) (Hg n g hn hg)
      simp only [lead_of n g s2 a2 p2 b2 hn hg, joinT_root s1 a1 p1 b1] at this
      exact this.symm
  | false =>
    cases b2 : r2.path.absolute with
    | true =>
      refine absurd (fun n g hn hg => ?_) (lead_varies r1.path.segments (rdsT r2.path).segments)
      have := congrArg (fun p => p.path.segments) (Hg n g hn hg)
      simp only [lead_of n g s1 a1 p1 b1 hn hg, joinT_root s2 a2 p2 b2] at this
      exact this
    | false =>
      have hc : course r1.path.segments = course r2.path.segments := by
        refine course_eq fun n g hn hg => ?_
        have := congrArg (fun p => p.path.segments) (Hg n g hn hg)
        simp only [lead_of n g s1 a1 p1 b1 hn hg, lead_of n g s2 a2 p2 b2 hn hg] at this
        exact this
      rw [meaningT_relative s1 a1 p1 b1, meaningT_relative s2 a2 p2 b2, hc, tails.1, tails.2]

/-- References told apart by no deep base of either of two schemes mean the same. -/
theorem meaning_of_same {r1 r2 : Parts Str} {s t : Str} (hst : s ≠ t) (H : ∀ b, Deep s b ∨ Deep t b → joinT b r1 true = joinT b r2 true) : meaningT r1 = meaningT r2 := by
  have Hs : ∀ sch, sch = s ∨ sch = t → joinT (deep sch (b! "h") 1 (b! "a") (b! "a")) r1 true = joinT (deep sch (b! "h") 1 (b! "a") (b! "a")) r2 true := by
    intro sch hs
    have : Deep sch (deep sch (b! "h") 1 (b! "a") (b! "a")) := ⟨_, _, _, _, Or.inl rfl, by decide, Or.inl rfl, Or.inl rfl, rfl⟩
    rcases hs with rfl | rfl
    · exact H _ (Or.inl this)
    · exact H _ (Or.inr this)
  have two : ∀ {r r' : Parts Str}, (∀ sch, sch = s ∨ sch = t → joinT (deep sch (b! "h") 1 (b! "a") (b! "a")) r true = joinT (deep sch (b! "h") 1 (b! "a") (b! "a")) r' true) →
      r.scheme = none → r'.scheme = none := by
    intro r r' h hr
    cases hr' : r'.scheme with
    | none => rfl
    | some x =>
      have k : ∀ sch, sch = s ∨ sch = t → sch = x := by
        intro sch hs
        have := congrArg Parts.scheme (h sch hs)
        rw [joinT_scheme_of, joinT_scheme_of, hr, hr'] at this
        simpa [deep] using this
      exact absurd ((k _ (Or.inl rfl)).trans (k _ (Or.inr rfl)).symm) hst
  by_cases s1 : r1.scheme = none
  · exact meaning_of_same' s1 (two Hs s1) fun b hb => H b (Or.inl hb)
  · have s2 : r2.scheme ≠ none := fun h => s1 (two (fun sch hs => (Hs sch hs).symm) h)
    have both_s := Hs s (Or.inl rfl)
    rw [joinT_scheme s1, joinT_scheme s2] at both_s
    rw [meaningT_scheme s1, meaningT_scheme s2, both_s]

/-- Two references with the same meaning have the same scheme. -/
theorem scheme_of_meaning {r1 r2 : Parts Str} (h : meaningT r1 = meaningT r2) : r1.scheme = r2.scheme := by
  have k : ∀ {r r' : Parts Str}, meaningT r = meaningT r' → r.scheme ≠ none → r.scheme = r'.scheme := by
    intro r r' h hr
    rw [meaningT_scheme hr] at h
    by_cases hr' : r'.scheme = none
    · exfalso
      revert h
      cases a : r'.authority with
      | some x => rw [meaningT_authority hr' a]; exact Meaning.noConfusion
      | none =>
        by_cases p : r'.path.segments = []
        · rw [meaningT_here hr' a p]; exact Meaning.noConfusion
        · cases ab : r'.path.absolute with
          | true => rw [meaningT_rooted hr' a p ab]; exact Meaning.noConfusion
          | false => rw [meaningT_relative hr' a p ab]; exact Meaning.noConfusion
    · rw [meaningT_scheme hr'] at h
      simp only [Meaning.anywhere.injEq, Parts.mk.injEq] at h
      exact h.1
  by_cases h1 : r1.scheme = none
  · by_cases h2 : r2.scheme = none
    · rw [h1, h2]
    · exact (k h.symm h2).symm
  · exact k h h1

/-- Resolution that is not strict. -/
theorem joinT_lax (b r : Parts Str) : joinT b r false = if r.scheme = b.scheme then joinT b { r with scheme := none } true else joinT b r true := by
  by_cases h : r.scheme = b.scheme
  · rw [if_pos h]
    simp [joinT, h]
    rfl
  · rw [if_neg h]
    simp [joinT, h]

/-- Three values leave one of four. -/
theorem one_of_four (x y z : Option Str) : ∃ s, (s = b! "s" ∨ s = b! "t" ∨ s = b! "u" ∨ s = b! "v") ∧ some s ≠ x ∧ some s ≠ y ∧ some s ≠ z := by
  have dec : ∀ s, (some s ≠ x ∧ some s ≠ y ∧ some s ≠ z) ∨ (some s = x ∨ some s = y ∨ some s = z) := by
    intro s
    by_cases h1 : some s = x
    · exact Or.inr (Or.inl h1)
    by_cases h2 : some s = y
    · exact Or.inr (Or.inr (Or.inl h2))
    by_cases h3 : some s = z
    · exact Or.inr (Or.inr (Or.inr h3))
    exact Or.inl ⟨h1, h2, h3⟩
  rcases dec (b! "s") with h | ha
  · exact ⟨_, by simp, h⟩
  rcases dec (b! "t") with h | hb
  · exact ⟨_, by simp, h⟩
  rcases dec (b! "u") with h | hc
  · exact ⟨_, by simp, h⟩
  rcases dec (b! "v") with h | hd
  · exact ⟨_, by simp, h⟩
  exfalso
  rcases ha with ha | ha | ha <;> rcases hb with hb | hb | hb <;> first
    | exact absurd (ha.trans hb.symm) (by decide)
    | (rcases hc with hc | hc | hc <;> first
        | exact absurd (ha.trans hc.symm) (by decide)
        | exact absurd (hb.trans hc.symm) (by decide)
        | (rcases hd with hd | hd | hd <;> first
            | exact absurd (ha.trans hd.symm) (by decide)
            | exact absurd (hb.trans hd.symm) (by decide)
            | exact absurd (hc.trans hd.symm) (by decide)))

/-- There are two schemes other than two given ones. -/
theorem two_schemes (x y : Option Str) : ∃ s t : Str, Abnf.scheme s ∧ Abnf.scheme t ∧ s ≠ t ∧ some s ≠ x ∧ some s ≠ y ∧ some t ≠ x ∧ some t ≠ y := by
  have sch : ∀ s : Str, s = b! "s" ∨ s = b! "t" ∨ s = b! "u" ∨ s = b! "v" → Abnf.scheme s := by
    intro s hs
    have base : SplitsTo x86 (s ++ b! ":") ⟨some s, none, ⟨false, []⟩, none, none⟩ := by
      refine c91_splits x86 (run_text ?_)
      rcases hs with rfl | rfl | rfl | rfl <;> decide +kernel
    obtain ⟨s', t, e1, e2, -⟩ := (splitsTo_iff.1 base).1
    have : s = s' := by simpa using e1
    rw [this]; exact e2
  obtain ⟨s, hs, s1, s2, -⟩ := one_of_four x y y
  obtain ⟨t, ht, t1, t2, t3⟩ := one_of_four x y (some s)
  exact ⟨s, t, sch s hs, sch t ht, fun h => t3 (congrArg some h.symm), s1, s2, t1, t2⟩

/-- The segments that `up` and `down` lead to from a directory. -/
def leadFrom (dir : List Str) (up : Nat) (down : List Str) : List Str :=
  if down = [] then asDirectory (dir.take (dir.length - up)) else dir.take (dir.length - up) ++ down

theorem lead_from {gs : List Str} (h0 : gs ≠ []) (dir : List Str) : ended (dirEnd false gs) (stackRun id dir gs) = leadFrom dir (course gs).1 (course gs).2 := by
  have k := walk_run dir gs 0 []
  rw [Nat.sub_zero, List.take_length, List.append_nil] at k
  rw [k, leadFrom, course_snd]
  by_cases h : (walk 0 [] gs).2 = []
  · rw [h, if_pos rfl, if_pos rfl, stackRun_gone h0 ((walk_down gs).trans h), List.append_nil]; rfl
  · rw [if_neg h, if_neg (ended_ne h), ended_append h]; rfl

/-- What a meaning makes of a base. -/
def act (b : Parts Str) : Meaning → Parts Str
  | .anywhere p => p
  | .server a p q f => ⟨b.scheme, some a, p, q, f⟩
  | .rooted gs q f => ⟨b.scheme, b.authority, ⟨true, gs⟩, q, f⟩
  | .relative up down q f => ⟨b.scheme, b.authority, ⟨b.path.absolute || (b.authority.isSome && b.path.segments.isEmpty),
      leadFrom (stackRun id [] (keptOf b.path.segments)) up down⟩, q, f⟩
  | .here q f => ⟨b.scheme, b.authority, b.path, if q.isSome then q else b.query, f⟩

theorem joinT_act (b r : Parts Str) : joinT b r true = act b (meaningT r) := by
  by_cases s : r.scheme = none
  case neg => rw [joinT_scheme s, meaningT_scheme s]; rfl
  cases a : r.authority with
  | some x => rw [joinT_authority s (by rw [a]; rfl), meaningT_authority s a, a]; rfl
  | none =>
    by_cases p : r.path.segments = []
    · rw [joinT_empty s a p, meaningT_here s a p]; rfl
    cases ab : r.path.absolute with
    | true =>
      rw [joinT_root s a p ab, meaningT_rooted s a p ab]
      have : rdsT r.path = ⟨true, (rdsT r.path).segments⟩ := by simp [rdsT, ab]
      rw [this]; rfl
    | false =>
      rw [joinT_relative s a p ab, mergeT_kept, meaningT_relative s a p ab]
      simp only [rdsT, rdsSegs_ended, dirEnd_last p, stackRun_append, lead_from p, act]

theorem walk_up (n : Nat) : ∀ (k : Nat) (gs : List Str), walk k [] (List.replicate n (b! "..") ++ gs) = walk (k + n) [] gs := by
  induction n with
  | zero => intro k gs; rfl
  | succ n ih =>
    intro k gs
    have h1 : ¬ b! ".." = b! "." := by decide
    rw [List.replicate_succ, List.cons_append, walk, if_neg h1, if_pos rfl, if_pos rfl, ih]
    congr 1; omega

theorem walk_plain : ∀ (gs : List Str) (k : Nat) (ds : List Str), (∀ g ∈ gs, isDot g = false) → walk k ds gs = (k, ds ++ gs)
  | [], k, ds, _ => by simp [walk]
  | g :: gs, k, ds, h => by
    obtain ⟨h1, h2⟩ := (isDot_iff g).1 (h g (by simp))
    rw [walk, if_neg h1, if_neg h2, walk_plain gs k _ fun x hx => h x (by simp [hx])]; simp

theorem course_nodot (gs : List Str) : ∀ g ∈ (course gs).2, isDot g = false := by
  have hd : ∀ g ∈ (walk 0 [] gs).2, isDot g = false := by
    rw [← walk_down]
    exact stackRun_nodot id gs [] (by simp)
  intro g hg
  simp only [course] at hg
  split at hg
  · simp at hg
  · split at hg
    · rcases List.mem_append.1 hg with hg | hg
      · exact hd g hg
      · rw [List.mem_singleton.1 hg]; decide
    · exact hd g hg

/-- Up and then down. -/
theorem course_straight {down : List Str} (h : ∀ g ∈ down, isDot g = false) (up : Nat) : course (List.replicate up (b! "..") ++ down) = (up, down) := by
  have e : walk 0 [] (List.replicate up (b! "..") ++ down) = (up, down) := by
    rw [walk_up, walk_plain _ _ _ h, Nat.zero_add, List.nil_append]
  simp only [course, e]
  by_cases h0 : down = []
  · rw [if_pos h0, h0]
  · rw [if_neg h0, getLast?_append' _ h0, if_neg]
    rintro ⟨hl, -⟩
    rcases hl with hl | hl
    · exact absurd (h _ (List.mem_of_getLast? hl)) (by decide)
    · exact absurd (h _ (List.mem_of_getLast? hl)) (by decide)

end Verif.Apart

/-! ### The property -/

namespace Verif
open Moved Apart

/-- **C122**: two references lead to the same place from every base exactly if they mean the same. -/
theorem C122_same (pl : Plat) (r1 r2 : Parts SV) : SameFromEverywhere pl r1 r2 ↔ meaning r1 = meaning r2 := by
  rw [meaning_text, meaning_text]
  constructor
  · intro h
    obtain ⟨s, t, hs, ht, hst, -⟩ := two_schemes none none
    refine meaning_of_same hst fun b hb => ?_
    obtain ⟨s, hs⟩ : ∃ s, SplitsTo pl s b := hb.elim (deep_splits pl hs) (deep_splits pl ht)
    obtain ⟨q, hq, rfl⟩ := hs 0
    have := h _ _ hq
    rwa [joinT_text, joinT_text] at this
  · intro h base b _
    rw [joinT_text, joinT_text, joinT_act, joinT_act, h]

/-- **C122**, without strict resolution: the meaning without the scheme has to be the same, too. (For references that `split_reference` accepts.) -/
theorem C122_lax (pl : Plat) (s1 s2 : SV) (r1 r2 : Parts SV) (h1 : splitReference pl s1 = .ok (some r1)) (h2 : splitReference pl s2 = .ok (some r2)) :
    (∀ base b, split pl base = .ok (some b) → (join b r1 false).text = (join b r2 false).text) ↔
      meaning r1 = meaning r2 ∧ meaning { r1 with scheme := none } = meaning { r2 with scheme := none } := by
  have e0 : ∀ r : Parts SV, ({ r with scheme := none } : Parts SV).text = { r.text with scheme := none } := fun _ => rfl
  simp only [meaning_text, e0]
  have eq_none : ∀ {r : Parts Str}, r.scheme = none → ({ r with scheme := none } : Parts Str) = r := by
    rintro ⟨sc, A, P, q, f⟩ h; simp only at h; subst h; rfl
  have scheme_ok : ∀ x, r1.text.scheme = some x → Abnf.scheme x := by
    intro x hx
    have d := ((C03_splitReference_exact pl s1 r1.text).1 ⟨r1, h1, rfl⟩).1
    rcases d with ⟨c, t, k1, k2, -⟩ | ⟨t, k1, -⟩
    · rw [hx] at k1
      simp only [Option.some.injEq] at k1
      rw [k1]; exact k2
    · rw [hx] at k1; cases k1
  constructor
  · intro h
    have H : ∀ sch, Abnf.scheme sch → ∀ b, Deep sch b → joinT b r1.text false = joinT b r2.text false := by
      intro sch hs b hb
      obtain ⟨s, hs⟩ := deep_splits pl hs hb
      obtain ⟨q, hq, rfl⟩ := hs 0
      have := h _ _ hq
      rwa [joinT_text, joinT_text] at this
    have of : ∀ {sch b}, Deep sch b → b.scheme = some sch := by
      rintro sch b ⟨host, n, g, z, -, -, -, -, rfl⟩; rfl
    have m : meaningT r1.text = meaningT r2.text := by
      obtain ⟨s, t, hs, ht, hst, k1, k2, k3, k4⟩ := two_schemes r1.text.scheme r2.text.scheme
      refine meaning_of_same hst fun b hb => ?_
      have k : ∃ sch, Abnf.scheme sch ∧ Deep sch b ∧ some sch ≠ r1.text.scheme ∧ some sch ≠ r2.text.scheme :=
        hb.elim (fun hb => ⟨s, hs, hb, k1, k2⟩) (fun hb => ⟨t, ht, hb, k3, k4⟩)
      obtain ⟨sch, hs, hb, n1, n2⟩ := k
      have := H sch hs b hb
      rwa [joinT_lax, joinT_lax, of hb, if_neg (fun e => n1 e.symm), if_neg (fun e => n2 e.symm)] at this
    refine ⟨m, ?_⟩
    have es := scheme_of_meaning m
    cases hx : r1.text.scheme with
    | none => rw [eq_none hx, eq_none (es ▸ hx)]; exact m
    | some x =>
      refine meaning_of_same' (sch := x) rfl rfl fun b hb => ?_
      have := H x (scheme_ok x hx) b hb
      rwa [joinT_lax, joinT_lax, of hb, ← es, if_pos hx, if_pos hx] at this
  · rintro ⟨m1, m2⟩ base b -
    have es := scheme_of_meaning m1
    rw [joinT_text, joinT_text, joinT_lax, joinT_lax, ← es]
    split
    · rw [joinT_act, joinT_act, m2]
    · rw [joinT_act, joinT_act, m1]

/-- **C122**: then they do so from every value at all, whether it can be read in a text or not; and on every platform. -/
theorem C122_any_base (r1 r2 : Parts SV) (h : meaning r1 = meaning r2) (b : Parts SV) : (join b r1 true).text = (join b r2 true).text := by
  rw [meaning_text, meaning_text] at h
  rw [joinT_text, joinT_text, joinT_act, joinT_act, h]

/-- **C122**: what a reference with a relative path means. From the directory `dir` of the base (told by where the name `c` leads) it goes `up` as far as that is
possible, and then `down`; and when nothing is left to go down, the place is the directory reached, ending with an empty segment. -/
theorem C122_relative (b r : Parts SV) (strict : Bool) (a : Nat) (dir : List Str) (hd : (join b (plainRef a) true).text.path.segments = dir ++ [b! "c"])
    (hs : r.scheme = none) (hr : RelativePath r) (up : Nat) (down : List Str) (h : course r.text.path.segments = (up, down)) :
    (down ≠ [] → (join b r strict).text = ⟨b.text.scheme, b.text.authority, ⟨(join b r strict).path.absolute, dir.take (dir.length - up) ++ down⟩, r.text.query, r.text.fragment⟩) ∧
    (down = [] → ∃ e, (e = [] ∨ e = [[]]) ∧ (join b r strict).text.path.segments.getLast? = some [] ∧ (join b r strict).text =
      ⟨b.text.scheme, b.text.authority, ⟨(join b r strict).path.absolute, dir.take (dir.length - up) ++ e⟩, r.text.query, r.text.fragment⟩) := by
  have h2' : r.text.path.segments ≠ [] := by have := hr.2.1; simpa [Parts.text, Parts.map, Path.map] using this
  have e := joined_relative (b := b) (strict := strict) hs hr
  have e3 : (join b r strict).path.absolute = (join b r strict).text.path.absolute := rfl
  rw [dir_of hd, lead_from h2', h] at e
  rw [e3, e]
  constructor
  · intro hn; simp only [leadFrom, if_neg hn]
  · intro hn
    simp only [leadFrom, if_pos hn, asDirectory]
    cases hl : (dir.take (dir.length - up)).getLast? with
    | none => exact ⟨[[]], Or.inr rfl, by simp, rfl⟩
    | some g =>
      cases g with
      | nil => exact ⟨[], Or.inl rfl, by simpa using hl, by simp⟩
      | cons x y => exact ⟨[[]], Or.inr rfl, by simp, by simp⟩

/-- **C122**: every reference with a relative path is interchangeable with the one that goes straight up and then down (or is `.`, if it goes nowhere). -/
theorem C122_straight (r r' : Parts SV) (hs : r.scheme = none) (hr : RelativePath r) (up : Nat) (down : List Str) (h : course r.text.path.segments = (up, down))
    (h' : r'.text = ⟨none, none, ⟨false, if up = 0 ∧ down = [] then [b! "."] else List.replicate up (b! "..") ++ down⟩, r.text.query, r.text.fragment⟩) :
    meaning r' = meaning r := by
  have h2' : r.text.path.segments ≠ [] := by have := hr.2.1; simpa [Parts.text, Parts.map, Path.map] using this
  have a : r.text.authority = none := by simp [Parts.text, Parts.map, hr.1]
  have s : r.text.scheme = none := by simp [Parts.text, Parts.map, hs]
  have hd : ∀ g ∈ down, isDot g = false := by have := course_nodot r.text.path.segments; rw [h] at this; exact this
  have ab : r.text.path.absolute = false := hr.2.2
  rw [meaning_text, meaning_text, meaningT_relative s a h2' ab, h, h']
  by_cases h0 : up = 0 ∧ down = []
  · rw [if_pos h0, meaningT_relative rfl rfl (by simp) rfl, h0.1, h0.2]; rfl
  · rw [if_neg h0, meaningT_relative rfl rfl ?_ rfl, course_straight hd]
    intro hn
    simp only at hn
    obtain ⟨k1, k2⟩ := List.append_eq_nil_iff.1 hn
    refine h0 ⟨?_, k2⟩
    cases up with
    | zero => rfl
    | succ n => simp [List.replicate_succ] at k1

/-- What the reference in a text means. -/
def meaningOf (s : Str) : Option Meaning := ((splitReference x86 ⟨4096, s⟩).toOption.bind id).map meaning

/-- **C122**: references that mean the same, and look-alikes that do not: `.` and `./` (they differ from `http://h/a//b`), `x` and `/x`, `?` and the empty one. -/
theorem C122_examples :
    meaningOf (b! "a/../../b/./c?q") = some (.relative 1 [b! "b", b! "c"] (some (b! "q")) none) ∧ meaningOf (b! "../b/c?q") = meaningOf (b! "a/../../b/./c?q") ∧
    meaningOf (b! "a/..") = meaningOf (b! ".") ∧ meaningOf (b! "..") = meaningOf (b! "../a/..") ∧ meaningOf (b! "a/.") = meaningOf (b! "a/") ∧
    meaningOf (b! "//h/a/../b") = meaningOf (b! "//h/b") ∧ meaningOf (b! "/../b") = meaningOf (b! "/b") ∧
    meaningOf (b! ".") = some (.relative 0 [] none none) ∧ meaningOf (b! "./") = some (.relative 0 [[]] none none) ∧
    meaningOf (b! "x") = some (.relative 0 [b! "x"] none none) ∧ meaningOf (b! "/x") = some (.rooted [b! "x"] none none) ∧
    meaningOf (b! "?") = some (.here (some []) none) ∧ meaningOf [] = some (.here none none) ∧
    ([b! ".", b! "./"].map fun r => (joinStr x86 ⟨4096, b! "http://h/a//b"⟩ ⟨8192, r⟩ true).map (·.map compose)) =
      [.ok (some (b! "http://h/a/")), .ok (some (b! "http://h/a//"))] := by
  decide +kernel

/-- **C122** is about strict resolution: otherwise `http:b` and `http:../b`, which mean the same, do not lead to the same place. -/
theorem C122_strict_counterexample :
    meaningOf (b! "http:../b") = meaningOf (b! "http:b") ∧ (meaningOf (b! "http:b")).isSome = true ∧
    ([b! "http:../b", b! "http:b"].map fun r => (joinStr x86 ⟨4096, b! "http://h/x/y"⟩ ⟨8192, r⟩ true).map (·.map compose)) = [.ok (some (b! "http:b")), .ok (some (b! "http:b"))] ∧
    ([b! "http:../b", b! "http:b"].map fun r => (joinStr x86 ⟨4096, b! "http://h/x/y"⟩ ⟨8192, r⟩ false).map (·.map compose)) =
      [.ok (some (b! "http://h/b")), .ok (some (b! "http://h/x/b"))] := by
  decide +kernel

/-- A base and a reference for `C122_relative`: `../x` from `s://h/a/m/f`. -/
example : (join movedFrom (plainRef 9) true).text.path.segments = [b! "a", b! "m"] ++ [b! "c"] ∧ RelativePath movedRef ∧ course movedRef.text.path.segments = (1, [b! "x"]) := by
  refine ⟨by decide +kernel, ⟨rfl, by decide, rfl⟩, by decide +kernel⟩

end Verif
