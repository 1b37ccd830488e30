import Verif.Proofs.Tool

/-!
# Properties C59, C60: the `uri-split` tool, error codes
-/

namespace Verif
open Spec Tool

/-- A line `split` is meant to accept, with its components: RFC 3986, with the exceptions of C02. -/
def UriLine (l : Str) (p : Parts Str) : Prop := Abnf.URIDerives l p ∧ Abnf.HostOk p ∧ Abnf.PathCounted p

theorem split_decides (pl : Plat) (sv : SV) (hs : CtypeSafe pl sv.chars) :
    (∃ q, split pl sv = .ok (some q) ∧ UriLine sv.chars q.text) ∨
    (split pl sv = .ok none ∧ ¬ ∃ p, UriLine sv.chars p) := by
  cases e : split pl sv with
  | error f => exact absurd (split_fault e).2 (not_unsafe_of_safe hs)
  | ok o =>
    cases o with
    | some q => exact Or.inl ⟨q, rfl, (split_spec e).1, (split_spec e).2.1, split_counted e⟩
    | none =>
      refine Or.inr ⟨rfl, ?_⟩
      rintro ⟨p, h1, h2, h3⟩
      obtain ⟨q, e', -⟩ := split_complete (pl := pl) h1 h2 h3
      rw [e] at e'; simp at e'

/-- The text printed for an accepted line. -/
theorem report_text (pl : Plat) (sv : SV) (q : Parts SV) (e : split pl sv = .ok (some q)) :
    b! "URI: " ++ sv.chars ++ b! "\n" ++ report q = unlines (reportLines sv.chars q.text) := by
  have hpath : ∀ c ∈ q.path.toStr, c ≠ 0x22 ∧ c ≠ 0x5C := by
    intro c hc
    have h1 := C05_compose_split pl sv q (Or.inl e)
    have hs : c ∈ sv.chars := by
      rw [← h1]; simp only [compose, List.mem_append]
      exact Or.inl (Or.inl (Or.inr hc))
    have hm := (safe_URI _ (C01_split_sound pl sv q e).1).1 c hs
    constructor <;> (rintro rfl; revert hm; decide +kernel)
  rw [report, quoted_plain hpath, toStr_text]
  simp only [valueOrNone_text, unlines, reportLines]
  have e1 : q.text.scheme = q.scheme.map SV.chars := rfl
  have e2 : q.text.query = q.query.map SV.chars := rfl
  have e3 : q.text.fragment = q.fragment.map SV.chars := rfl
  have e4 : q.text.path = q.path.map SV.chars := rfl
  have e5 : q.text.authority = q.authority.map (·.map SV.chars) := rfl
  rw [e1, e2, e3, e4, e5]
  cases q.authority with
  | none => simp [shown]
  | some a => simp [shown, Authority.map]

theorem readLoop_good (pl : Plat) (addr : Nat) : ∀ (good : List (Str × Parts Str)) (s : Str) (tl : List Str) (out : Str) (fuel : Nat),
    IsLines s (good.map (·.1) ++ tl) → s.length < fuel →
    (∀ x ∈ good, ∃ q, split pl ⟨addr, x.1⟩ = .ok (some q) ∧ q.text = x.2) →
    ∃ s' fuel', IsLines s' tl ∧ s'.length < fuel' ∧ s'.length ≤ s.length ∧
      readLoop pl addr fuel s out =
        readLoop pl addr fuel' s' (out ++ (good.map fun x => unlines (reportLines x.1 x.2)).flatten) := by
  intro good
  induction good with
  | nil => intro s tl out fuel h hf _; exact ⟨s, fuel, h, hf, Nat.le_refl _, by simp⟩
  | cons x good ih =>
    intro s tl out fuel h hf hg
    obtain ⟨rest, e1, h1, h2⟩ := isLines_cons h
    obtain ⟨q, e2, e3⟩ := hg x (by simp)
    cases fuel with
    | zero => omega
    | succ fuel =>
      obtain ⟨s', fuel', a1, a2, a3, a4⟩ := ih rest tl (out ++ unlines (reportLines x.1 x.2)) fuel h1 (by omega)
        fun y hy => hg y (by simp [hy])
      refine ⟨s', fuel', a1, a2, by omega, ?_⟩
      rw [readLoop, e1]
      have := report_text pl ⟨addr, x.1⟩ q e2
      rw [e3] at this
      simp only [e2]
      rw [List.map_cons, List.flatten_cons, ← List.append_assoc, ← a4, ← this]
      simp only [List.append_assoc]
      rfl

/-- The loop stops at the first line that is rejected. -/
theorem readStream_spec (pl : Plat) (addr : Nat) (s out : Str) (ls : List Str) (h : IsLines s ls)
    (hs : ∀ l ∈ ls, CtypeSafe pl l) :
    (∃ good : List (Str × Parts Str), ls = good.map (·.1) ∧ (∀ x ∈ good, UriLine x.1 x.2) ∧
      readStream pl addr s out = .ok (true, out ++ (good.map fun x => unlines (reportLines x.1 x.2)).flatten)) ∨
    (∃ (good : List (Str × Parts Str)) (bad : Str) (rest : List Str), ls = good.map (·.1) ++ bad :: rest ∧ (∀ x ∈ good, UriLine x.1 x.2) ∧
      (¬ ∃ p, UriLine bad p) ∧
      readStream pl addr s out =
        .ok (false, out ++ (good.map fun x => unlines (reportLines x.1 x.2)).flatten ++ (b! "URI: " ++ bad ++ b! "\n"))) := by
  -- the accepted lines before the first rejected one
  have hsplit : ∀ ls : List Str, (∀ l ∈ ls, CtypeSafe pl l) →
      (∃ good : List (Str × Parts Str), ls = good.map (·.1) ∧
        ∀ x ∈ good, UriLine x.1 x.2 ∧ ∃ q, split pl ⟨addr, x.1⟩ = .ok (some q) ∧ q.text = x.2) ∨
      (∃ (good : List (Str × Parts Str)) (bad : Str) (rest : List Str), ls = good.map (·.1) ++ bad :: rest ∧
        (∀ x ∈ good, UriLine x.1 x.2 ∧ ∃ q, split pl ⟨addr, x.1⟩ = .ok (some q) ∧ q.text = x.2) ∧
        (¬ ∃ p, UriLine bad p) ∧ split pl ⟨addr, bad⟩ = .ok none) := by
    intro ls
    induction ls with
    | nil => intro _; exact Or.inl ⟨[], rfl, by simp⟩
    | cons l ls ih =>
      intro hs
      rcases split_decides pl ⟨addr, l⟩ (hs l (by simp)) with ⟨q, e, hq⟩ | ⟨e, hn⟩
      · have hx : ∀ x ∈ [(l, q.text)], UriLine x.1 x.2 ∧ ∃ q, split pl ⟨addr, x.1⟩ = .ok (some q) ∧ q.text = x.2 := by
          intro x hx; simp at hx; subst hx; exact ⟨hq, q, e, rfl⟩
        rcases ih fun x hx => hs x (by simp [hx]) with ⟨good, e1, h3⟩ | ⟨good, bad, rest, e1, h3, h4⟩
        · refine Or.inl ⟨(l, q.text) :: good, by simp [e1], ?_⟩
          intro x hx'
          rcases List.mem_cons.1 hx' with rfl | hx'
          · exact hx _ (by simp)
          · exact h3 x hx'
        · refine Or.inr ⟨(l, q.text) :: good, bad, rest, by simp [e1], ?_, h4⟩
          intro x hx'
          rcases List.mem_cons.1 hx' with rfl | hx'
          · exact hx _ (by simp)
          · exact h3 x hx'
      · exact Or.inr ⟨[], l, ls, rfl, by simp, hn, e⟩
  rcases hsplit ls hs with ⟨good, e, hg⟩ | ⟨good, bad, rest, e, hg, hb, eb⟩
  · refine Or.inl ⟨good, e, fun x hx => (hg x hx).1, ?_⟩
    obtain ⟨s', fuel', h1, h2, -, h3⟩ := readLoop_good pl addr good s [] out (s.length + 1) (by simpa [← e] using h) (by omega)
      fun x hx => (hg x hx).2
    rw [readStream, h3]
    have : s' = [] := by
      rcases h1.2 with e | ⟨ini, last, e, -⟩
      · simpa using e
      · simp at e
    subst this
    cases fuel' with
    | zero => omega
    | succ f => rfl
  · refine Or.inr ⟨good, bad, rest, e, fun x hx => (hg x hx).1, hb, ?_⟩
    obtain ⟨s', fuel', h1, h2, -, h3⟩ := readLoop_good pl addr good s (bad :: rest) out (s.length + 1) (by simpa [← e] using h) (by omega)
      fun x hx => (hg x hx).2
    rw [readStream, h3]
    obtain ⟨r, e1, -, -⟩ := isLines_cons h1
    cases fuel' with
    | zero => omega
    | succ f =>
      rw [readLoop, e1]
      simp only [eb]
      simp only [List.append_assoc]
      rfl

/-! ### C59 -/

/-- C59: every text has lines, and only one list of them. -/
theorem C59_lines (s : Str) : ∃ ls, IsLines s ls ∧ ∀ ls', IsLines s ls' → ls' = ls := by
  obtain ⟨ls, h⟩ := isLines_exists s
  exact ⟨ls, h, fun ls' h' => isLines_unique ls' s ls h' h⟩

/-- C59, standard input: the exit status is zero iff every line is a URI; the standard output is the reports of the
lines before the first that is not, followed by that line. -/
theorem C59_stdin (pl : Plat) (addr : Nat) (s : Str) (ls : List Str) (h : IsLines s ls)
    (hs : ∀ l ∈ ls, CtypeSafe pl l) :
    ∃ o, Tool.main pl addr [] s = .ok o ∧ o.err = [] ∧ (o.success = true ↔ ∀ l ∈ ls, ∃ p, UriLine l p) ∧
    ∃ (good : List (Str × Parts Str)) (rest : List Str), ls = good.map (·.1) ++ rest ∧ (∀ x ∈ good, UriLine x.1 x.2) ∧
      (∀ bad, rest.head? = some bad → ¬ ∃ p, UriLine bad p) ∧
      o.out = (good.map fun x => unlines (reportLines x.1 x.2)).flatten ++
        (rest.head?.elim [] fun bad => b! "URI: " ++ bad ++ b! "\n") := by
  rcases readStream_spec pl addr s [] ls h hs with ⟨good, e, hg, hr⟩ | ⟨good, bad, rest, e, hg, hb, hr⟩
  · refine ⟨⟨true, _, []⟩, by simp [Tool.main, hr]; rfl, rfl, ⟨fun _ l hl => ?_, fun _ => rfl⟩, good, [], by simp [e], hg, by simp, by simp⟩
    rw [e] at hl
    obtain ⟨x, hx, rfl⟩ := List.mem_map.1 hl
    exact ⟨_, hg x hx⟩
  · refine ⟨⟨false, _, []⟩, by simp [Tool.main, hr]; rfl, rfl, ⟨fun h => by simp at h, fun h => absurd (h bad (by rw [e]; simp)) hb⟩, good, bad :: rest, e, hg, ?_, by simp⟩
    intro b' hb'; simp at hb'; subst hb'; exact hb

/-- C59, files: the exit status is zero iff every file can be opened and each of its lines is a URI, and then the
standard output is the reports of all lines in order and nothing is written to the standard error. -/
theorem C59_files (pl : Plat) (addr : Nat) (args : List (Str × Option Str)) (stdin : Str) (hne : args ≠ [])
    (hs : ∀ a ∈ args, ∀ s, a.2 = some s → ∀ ls, IsLines s ls → ∀ l ∈ ls, CtypeSafe pl l) :
    ∃ o, Tool.main pl addr args stdin = .ok o ∧
    (o.success = true ↔ ∀ a ∈ args, ∃ s, a.2 = some s ∧ ∀ ls, IsLines s ls → ∀ l ∈ ls, ∃ p, UriLine l p) ∧
    (o.success = true → o.err = [] ∧ ∃ good : List (List (Str × Parts Str)),
      (∀ x ∈ good.flatten, UriLine x.1 x.2) ∧
      good.length = args.length ∧
      (∀ (i : Nat) a g, args[i]? = some a → good[i]? = some g → ∃ s, a.2 = some s ∧ IsLines s (g.map (·.1))) ∧
      o.out = (good.flatten.map fun x => unlines (reportLines x.1 x.2)).flatten) := by
  have main_eq : Tool.main pl addr args stdin = argLoop pl addr args [] := by
    cases args with
    | nil => exact absurd rfl hne
    | cons => rfl
  rw [main_eq]
  clear main_eq hne
  suffices H : ∀ out, ∃ o, argLoop pl addr args out = .ok o ∧
      (o.success = true ↔ ∀ a ∈ args, ∃ s, a.2 = some s ∧ ∀ ls, IsLines s ls → ∀ l ∈ ls, ∃ p, UriLine l p) ∧
      (o.success = true → o.err = [] ∧ ∃ good : List (List (Str × Parts Str)),
        (∀ x ∈ good.flatten, UriLine x.1 x.2) ∧
        good.length = args.length ∧
      (∀ (i : Nat) a g, args[i]? = some a → good[i]? = some g → ∃ s, a.2 = some s ∧ IsLines s (g.map (·.1))) ∧
        o.out = out ++ (good.flatten.map fun x => unlines (reportLines x.1 x.2)).flatten) by
    simpa using H []
  induction args with
  | nil =>
    intro out
    exact ⟨⟨true, out, []⟩, rfl, by simp, fun _ => ⟨rfl, [], by simp, rfl, by simp, by simp⟩⟩
  | cons a args ih =>
    intro out
    obtain ⟨name, c⟩ := a
    cases c with
    | none =>
      refine ⟨_, rfl, ⟨fun h => by simp at h, fun h => ?_⟩, fun h => by simp at h⟩
      obtain ⟨s, e, -⟩ := h (name, none) (by simp)
      simp at e
    | some s =>
      obtain ⟨ls, hl, hu⟩ := C59_lines s
      rcases readStream_spec pl addr s out ls hl (hs (name, some s) (by simp) s rfl ls hl) with
        ⟨good, e, hg, hr⟩ | ⟨good, bad, rest, e, hg, hb, hr⟩
      · obtain ⟨o, h1, h2, h3⟩ := ih (fun a ha => hs a (by simp [ha])) (out ++ (good.map fun x => unlines (reportLines x.1 x.2)).flatten)
        refine ⟨o, ?_, ?_, ?_⟩
        · rw [argLoop, hr]; exact h1
        · rw [h2]
          constructor
          · intro h a ha
            rcases List.mem_cons.1 ha with rfl | ha
            · refine ⟨s, rfl, ?_⟩
              intro ls' hl' l hm
              rw [hu ls' hl', e] at hm
              obtain ⟨x, hx, rfl⟩ := List.mem_map.1 hm
              exact ⟨_, hg x hx⟩
            · exact h a ha
          · intro h a ha; exact h a (by simp [ha])
        · intro ho
          obtain ⟨h4, gs, h5, h6, h8, h7⟩ := h3 ho
          refine ⟨h4, good :: gs, ?_, by simp [h6], ?_, ?_⟩
          · intro x hx
            rw [List.flatten_cons, List.mem_append] at hx
            exact hx.elim (hg x) (h5 x)
          · intro i a g h9 h10
            cases i with
            | zero =>
              simp at h9 h10
              subst h9 h10
              exact ⟨s, rfl, by rw [← e]; exact hl⟩
            | succ i =>
              simp at h9 h10
              exact h8 i a g h9 h10
          · rw [h7]; simp
      · refine ⟨⟨false, _, []⟩, by rw [argLoop, hr]; rfl, ⟨fun h => by simp at h, fun h => ?_⟩, fun h => by simp at h⟩
        obtain ⟨s', e', h'⟩ := h (name, some s) (by simp)
        simp at e'; subst e'
        exact absurd (h' ls hl bad (by rw [e]; simp)) hb

theorem quoted_escaped (s : Str) : quoted s = b! "\"" ++ escaped s ++ b! "\"" := by
  have : ∀ s : Str, s.flatMap (fun c => if c == 0x22 || c == 0x5C then [0x5C, c] else [c]) = escaped s := by
    intro s
    induction s with
    | nil => rfl
    | cons c cs ih => rw [List.flatMap_cons, ih]; simp [escaped]
  rw [quoted, this]

/-- C59, files, exit status not zero: some file is the first at fault.  All lines of the files before it were
reported.  Either it cannot be opened, and the standard error names it, quoted; or a line of it is not a URI, the
lines before that were reported, the line itself is printed, and nothing is written to the standard error. -/
theorem C59_stops (pl : Plat) (addr : Nat) (args : List (Str × Option Str)) (stdin : Str) (hne : args ≠ [])
    (hs : ∀ a ∈ args, ∀ s, a.2 = some s → ∀ ls, IsLines s ls → ∀ l ∈ ls, CtypeSafe pl l)
    (o : Outcome) (ho : Tool.main pl addr args stdin = .ok o) (hf : o.success = false) :
    ∃ (before : List (Str × Option Str)) (a : Str × Option Str) (after : List (Str × Option Str))
      (good : List (List (Str × Parts Str))),
      args = before ++ a :: after ∧ (∀ x ∈ good.flatten, UriLine x.1 x.2) ∧ good.length = before.length ∧
      (∀ (i : Nat) b g, before[i]? = some b → good[i]? = some g → ∃ s, b.2 = some s ∧ IsLines s (g.map (·.1))) ∧
      ((a.2 = none ∧ o.out = (good.flatten.map fun x => unlines (reportLines x.1 x.2)).flatten ∧
          o.err = b! "Error: couldn't open \"" ++ escaped a.1 ++ b! "\"\n") ∨
       (∃ (s : Str) (some_good : List (Str × Parts Str)) (bad : Str) (rest : List Str), a.2 = some s ∧
          IsLines s (some_good.map (·.1) ++ bad :: rest) ∧ (∀ x ∈ some_good, UriLine x.1 x.2) ∧
          (¬ ∃ p, UriLine bad p) ∧
          o.out = (good.flatten.map fun x => unlines (reportLines x.1 x.2)).flatten ++
            (some_good.map fun x => unlines (reportLines x.1 x.2)).flatten ++ (b! "URI: " ++ bad ++ b! "\n") ∧
          o.err = [])) := by
  have main_eq : Tool.main pl addr args stdin = argLoop pl addr args [] := by
    cases args with
    | nil => exact absurd rfl hne
    | cons => rfl
  rw [main_eq] at ho
  clear main_eq hne
  suffices H : ∀ out, argLoop pl addr args out = .ok o → 
      ∃ (before : List (Str × Option Str)) (a : Str × Option Str) (after : List (Str × Option Str))
      (good : List (List (Str × Parts Str))),
      args = before ++ a :: after ∧ (∀ x ∈ good.flatten, UriLine x.1 x.2) ∧ good.length = before.length ∧
      (∀ (i : Nat) b g, before[i]? = some b → good[i]? = some g → ∃ s, b.2 = some s ∧ IsLines s (g.map (·.1))) ∧
      ((a.2 = none ∧ o.out = out ++ (good.flatten.map fun x => unlines (reportLines x.1 x.2)).flatten ∧
          o.err = b! "Error: couldn't open \"" ++ escaped a.1 ++ b! "\"\n") ∨
       (∃ (s : Str) (some_good : List (Str × Parts Str)) (bad : Str) (rest : List Str), a.2 = some s ∧
          IsLines s (some_good.map (·.1) ++ bad :: rest) ∧ (∀ x ∈ some_good, UriLine x.1 x.2) ∧
          (¬ ∃ p, UriLine bad p) ∧
          o.out = out ++ (good.flatten.map fun x => unlines (reportLines x.1 x.2)).flatten ++
            (some_good.map fun x => unlines (reportLines x.1 x.2)).flatten ++ (b! "URI: " ++ bad ++ b! "\n") ∧
          o.err = [])) by
    simpa using H [] ho
  clear ho
  induction args with
  | nil =>
    intro out ho
    rw [← Except.ok.inj (show (.ok ⟨true, out, []⟩ : M Outcome) = .ok o from ho)] at hf
    simp at hf
  | cons a args ih =>
    intro out ho
    obtain ⟨name, c⟩ := a
    cases c with
    | none =>
      have := Except.ok.inj (show (.ok ⟨false, out, _⟩ : M Outcome) = .ok o from ho)
      subst this
      refine ⟨[], (name, none), args, [], rfl, by simp, rfl, by simp, Or.inl ⟨rfl, by simp, ?_⟩⟩
      show b! "Error: couldn't open " ++ quoted name ++ b! "\n" = _
      rw [quoted_escaped]
      simp
    | some s =>
      obtain ⟨ls, hl, hu⟩ := C59_lines s
      rcases readStream_spec pl addr s out ls hl (hs (name, some s) (by simp) s rfl ls hl) with
        ⟨good, e, hg, hr⟩ | ⟨good, bad, rest, e, hg, hb, hr⟩
      · rw [argLoop, hr] at ho
        obtain ⟨before, a, after, gs, h1, h2, h3, h4, h5⟩ := ih (fun a ha => hs a (by simp [ha])) _ ho
        refine ⟨(name, some s) :: before, a, after, good :: gs, by simp [h1], ?_, by simp [h3], ?_, ?_⟩
        · intro x hx
          rw [List.flatten_cons, List.mem_append] at hx
          exact hx.elim (hg x) (h2 x)
        · intro i b g h9 h10
          cases i with
          | zero =>
            simp at h9 h10
            subst h9 h10
            exact ⟨s, rfl, by rw [← e]; exact hl⟩
          | succ i =>
            simp at h9 h10
            exact h4 i b g h9 h10
        · simpa using h5
      · rw [argLoop, hr] at ho
        have := Except.ok.inj (show (.ok ⟨false, _, []⟩ : M Outcome) = .ok o from ho)
        subst this
        refine ⟨[], (name, some s), args, [], rfl, by simp, rfl, by simp,
          Or.inr ⟨s, good, bad, rest, rfl, by rw [← e]; exact hl, hg, hb, by simp, rfl⟩⟩

example : (Tool.main x86 0 [(b! "a", some (b! "a:b\n")), (b! "no\"file", none), (b! "c", some (b! "?\n"))] []).toOption.map
    (fun o => (o.success, o.err)) = some (false, b! "Error: couldn't open \"no\\\"file\"\n") := by decide +kernel

theorem shown_inj {x y : Option Str} (h : shown x = shown y) : x = y := by
  cases x <;> cases y <;> simp [shown] at h ⊢
  exact h

theorem safe_no_nl {s : Str} (h : CharSafe s) : (0x0A : UInt8) ∉ s := fun h' => absurd (h.1 _ h') (by decide +kernel)

/-- C59: the report is unambiguous: the lines after the first determine all components. -/
theorem C59_report_injective (l l' : Str) (p p' : Parts Str) (h : Abnf.URIDerives l p) (h' : Abnf.URIDerives l' p')
    (e : unlines (reportLines l p).tail = unlines (reportLines l' p').tail) : p = p' ∧ l = l' := by
  have nl : ∀ (l : Str) (p : Parts Str), Abnf.URIDerives l p → ∀ x ∈ (reportLines l p).tail, (0x0A : UInt8) ∉ x := by
    intro l p h x hx hm
    have hs : ∀ o : Option Str, (∀ s, o = some s → (0x0A : UInt8) ∉ s) → (0x0A : UInt8) ∉ shown o := by
      intro o ho hm
      cases o with
      | none => revert hm; decide
      | some s => exact ho s rfl (by simpa [shown] using hm)
    have hr : l = recompose p := (recompose_of_derives (Or.inl h)).symm
    have hall : (0x0A : UInt8) ∉ recompose p := by rw [← hr]; exact safe_no_nl (safe_URI _ (URI_lang.2 ⟨_, h⟩))
    simp only [recompose, List.mem_append, not_or] at hall
    obtain ⟨⟨⟨⟨a1, a2⟩, a3⟩, a4⟩, a5⟩ := hall
    have b1 : ∀ s, p.scheme = some s → (0x0A : UInt8) ∉ s := by
      intro s hs hm; rw [hs] at a1; simp [hm] at a1
    have b4 : ∀ s, p.query = some s → (0x0A : UInt8) ∉ s := by
      intro s hs hm; rw [hs] at a4; simp [Abnf.optText, hm] at a4
    have b5 : ∀ s, p.fragment = some s → (0x0A : UInt8) ∉ s := by
      intro s hs hm; rw [hs] at a5; simp [Abnf.optText, hm] at a5
    have b2 : ∀ a, p.authority = some a → (∀ s, a.userinfo = some s → (0x0A : UInt8) ∉ s) ∧ (0x0A : UInt8) ∉ a.host ∧
        ∀ s, a.port = some s → (0x0A : UInt8) ∉ s := by
      intro a ha
      rw [ha] at a2
      simp only [List.mem_append, not_or, Abnf.authorityText] at a2
      obtain ⟨-, ⟨c1, c2⟩, c3⟩ := a2
      refine ⟨fun s hs hm => ?_, c2, fun s hs hm => ?_⟩
      · rw [hs] at c1; simp [hm] at c1
      · rw [hs] at c3; simp [hm] at c3
    simp only [reportLines, List.tail_cons, List.mem_cons, List.not_mem_nil, or_false] at hx
    rcases hx with rfl | rfl | rfl | rfl | rfl | rfl | rfl <;>
      (rw [List.mem_append] at hm; refine hm.elim (by decide) (hs _ ?_))
    · exact b1
    · intro s hs
      cases ha : p.authority with
      | none => simp [ha] at hs
      | some a => rw [ha] at hs; exact (b2 a ha).1 s hs
    · intro s hs
      cases ha : p.authority with
      | none => simp [ha] at hs
      | some a => rw [ha] at hs; simp at hs; rw [← hs]; exact (b2 a ha).2.1
    · intro s hs
      cases ha : p.authority with
      | none => simp [ha] at hs
      | some a => rw [ha] at hs; exact (b2 a ha).2.2 s hs
    · intro s hs; simp at hs; rw [← hs]; exact a3
    · exact b4
    · exact b5
  have key := isLines_unique (reportLines l p).tail (unlines (reportLines l p).tail) (reportLines l' p').tail
    ⟨nl l p h, Or.inl rfl⟩ ⟨nl l' p' h', Or.inl e⟩
  simp only [reportLines, List.tail_cons, List.cons.injEq, List.append_cancel_left_eq, and_true] at key
  obtain ⟨k1, k2, k3, k4, k5, k6, k7⟩ := key
  have k1 := shown_inj k1
  have k2 := shown_inj k2
  have k3 := shown_inj k3
  have k4 := shown_inj k4
  have k5 := Option.some.inj (shown_inj k5)
  have k6 := shown_inj k6
  have k7 := shown_inj k7
  have ka : p.authority = p'.authority := by
    cases ha : p.authority with
    | none =>
      cases ha' : p'.authority with
      | none => rfl
      | some a' => rw [ha, ha'] at k3; simp at k3
    | some a =>
      cases ha' : p'.authority with
      | none => rw [ha, ha'] at k3; simp at k3
      | some a' =>
        obtain ⟨u, h, t⟩ := a
        obtain ⟨u', h', t'⟩ := a'
        rw [ha, ha'] at k2 k3 k4
        simp at k2 k3 k4
        rw [k2, k3, k4]
  have hl : l = l' := by
    rw [← recompose_of_derives (Or.inl h), ← recompose_of_derives (Or.inl h')]
    simp only [recompose, k1, ka, k5, k6, k7]
  subst hl
  exact ⟨derives_unique (Or.inl h) (Or.inl h'), rfl⟩

/-- Not vacuous: two lines, the second not ended by a newline; and a run that stops at its second line. -/
example : Tool.main x86 4096 [] (b! "http://h/a?q\nurn:x") = .ok ⟨true,
    b! "URI: http://h/a?q\n scheme: \"http\"\n userinfo: None\n host: \"h\"\n port: None\n path: \"/a\"\n query: \"q\"\n fragment: None\n"
    ++ b! "URI: urn:x\n scheme: \"urn\"\n userinfo: None\n host: None\n port: None\n path: \"x\"\n query: None\n fragment: None\n", []⟩ := by
  decide +kernel
example : Tool.main x86 4096 [(b! "f", some (b! "a:b\n\na:c\n"))] [] = .ok ⟨false,
    b! "URI: a:b\n scheme: \"a\"\n userinfo: None\n host: None\n port: None\n path: \"b\"\n query: None\n fragment: None\nURI: \n", []⟩ := by
  decide +kernel
example : IsLines (b! "http://h/a?q\nurn:x") [b! "http://h/a?q", b! "urn:x"] :=
  ⟨by decide, Or.inr ⟨[b! "http://h/a?q"], b! "urn:x", rfl, by decide, rfl⟩⟩

/-! ### C60 -/

/-- C60: the `error_code` made for each punycode error tests as an error, has the punycode category, and the two are
told apart by value and by message; every other value has the message "unknown error". -/
theorem C60_error_codes : (∀ e : Puny.Err, (Puny.makeErrorCode e).isError = true ∧ (Puny.makeErrorCode e).category = .punycode) ∧
    (∀ e e' : Puny.Err, Puny.makeErrorCode e = Puny.makeErrorCode e' → e = e') ∧
    (∀ e e' : Puny.Err, Puny.message (Puny.makeErrorCode e).value = Puny.message (Puny.makeErrorCode e').value → e = e') ∧
    (∀ v : Int, Puny.message v = b! "unknown error" ↔ ∀ e : Puny.Err, v ≠ (Puny.makeErrorCode e).value) := by
  refine ⟨fun e => by cases e <;> decide, fun e e' => by cases e <;> cases e' <;> decide, fun e e' => by cases e <;> cases e' <;> decide, fun v => ?_⟩
  simp only [Puny.message]
  constructor
  · intro h e hv
    cases e <;> subst hv <;> revert h <;> decide
  · intro h
    have h1 : v ≠ 1 := h .badInput
    have h2 : v ≠ 2 := h .overflow
    rw [if_neg h1, if_neg h2]

/-- C60: the messages, and the name of the category. -/
theorem C60_messages : Puny.message (Puny.makeErrorCode .badInput).value = b! "bad input" ∧ Puny.message (Puny.makeErrorCode .overflow).value = b! "overflow" ∧
    Puny.categoryName = b! "punycode decode" := by decide

end Verif
