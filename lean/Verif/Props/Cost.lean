import Verif.Proofs.CostBound
import Verif.Proofs.CostGrammar

/-!
# Property C62: parsing takes time in proportion to the text

The steps are those of `Verif/Model/Cost.lean`: calls of members of `rule` and of match functions, turns of loops, accept
functions copied or called.
-/

namespace Verif

set_option linter.unusedSimpArgs false

open Cost

/-- The coefficients of a grammar bound the steps of matching a text with it and running the accept functions. -/
theorem Cost.runGrammar_bound {g : Gr Act} {b : Bd} (h : g.bounds = some b) (s : SV) :
    (Cost.runGrammar g s).2 ≤ (b.sa + b.sn + b.fn + 2 * b.qa) * s.size + (b.sb + b.fb + 2 * b.qb + 5) := by
  have hs := (Bd.step_concat (Gr.bounds_sound g b h) none).1 s []
  obtain ⟨h1, h2, h3⟩ := hs
  have hE : (b.sa + b.sn + b.fn + 2 * b.qa) * s.size = b.sa * s.size + b.sn * s.size + b.fn * s.size + 2 * (b.qa * s.size) := by
    simp only [Nat.add_mul, Nat.mul_assoc]
  have e : Cost.runGrammar g s = andThen (Cost.concatImpl g.steps none false ⟨some s, []⟩) (Cost.done runAct Parts.init) := rfl
  rw [e]
  generalize Cost.concatImpl g.steps none false ⟨some s, []⟩ = x at *
  cases hr : x.1 with
  | error e =>
    have := h3 (by simp [hr])
    rw [andThen_error hr]
    simp only [List.length_nil, Bd.concat, number] at this ⊢
    omega
  | ok r =>
    obtain ⟨tail, acc⟩ := r
    rw [andThen_ok hr]
    cases tail with
    | none =>
      have ha := h2 acc hr
      subst ha
      have := h3 (by simp [hr])
      simp only [List.length_nil, Bd.concat, number, Cost.done, tick_snd, ret_snd] at this ⊢
      omega
    | some t =>
      obtain ⟨k, hn, -, -, hq, hs⟩ := h1 t acc hr
      have hk : k ≤ s.size := by omega
      have k1 : b.sa * k ≤ b.sa * s.size := Nat.mul_le_mul_left _ hk
      have k2 : b.qa * k ≤ b.qa * s.size := Nat.mul_le_mul_left _ hk
      have k3 : (b.sa + b.qa) * k = b.sa * k + b.qa * k := Nat.add_mul _ _ _
      simp only [List.length_nil, Bd.concat, number, Cost.done, tick_snd, ret_snd] at hs hq ⊢
      omega

theorem Cost.runGrammar_fst {g : Gr Act} {m : Matcher Act} (h : g.run = m) (s : SV) : (Cost.runGrammar g s).1 = Verif.runGrammar m s := by
  unfold Cost.runGrammar Verif.runGrammar
  rw [andThen_fst, concatImpl_fst (m := m) (fun r => by rw [Gr.steps_fst, h])]
  rfl

/-- What `runGrammar_bound` makes of a grammar. -/
def Cost.Within (g : Gr Act) (a b : Nat) : Prop :=
  (g.bounds.map fun b => (b.sa + b.sn + b.fn + 2 * b.qa, b.sb + b.fb + 2 * b.qb + 5)) = some (a, b)

theorem Cost.within {g : Gr Act} {a b : Nat} (h : Cost.Within g a b) (s : SV) : (Cost.runGrammar g s).2 ≤ a * s.size + b := by
  rw [Cost.Within, Option.map_eq_some_iff] at h
  obtain ⟨d, hd, he⟩ := h
  have := Cost.runGrammar_bound hd s
  simp only [Prod.mk.injEq] at he
  rwa [he.1, he.2] at this

macro "analyse" pl:ident : tactic => `(tactic| (
  obtain ⟨b⟩ := $pl
  cases b <;> (unfold Cost.Within; decide +kernel)))

theorem Cost.within_URI (pl : Plat) : Cost.Within (Cost.Uri.URI pl) 1342 26119 := by analyse pl
theorem Cost.within_URIReference (pl : Plat) : Cost.Within (Cost.Uri.URIReference pl) 2772 52101 := by analyse pl
theorem Cost.within_scheme (pl : Plat) : Cost.Within (Cost.Uri.scheme pl) 36 53 := by analyse pl
theorem Cost.within_userinfo (pl : Plat) : Cost.Within (Cost.Uri.userinfo pl) 52 61 := by analyse pl
theorem Cost.within_host (pl : Plat) : Cost.Within (Cost.Uri.host pl) 146 24737 := by analyse pl
theorem Cost.within_port (pl : Plat) : Cost.Within (Cost.Uri.port pl) 4 13 := by analyse pl
theorem Cost.within_segment (pl : Plat) : Cost.Within (Cost.Uri.segment pl) 58 67 := by analyse pl
theorem Cost.within_query (pl : Plat) : Cost.Within (Cost.Uri.query pl) 78 87 := by analyse pl

/-- C62: `split` computes what it computes in at most `1350 * n + 27000` steps for a text of `n` characters - whatever the
text, accepted or not, and whatever the platform. -/
theorem C62_split (pl : Plat) (s : SV) :
    (Cost.split pl s).1 = Verif.split pl s ∧ (Cost.split pl s).2 ≤ 1350 * s.size + 27000 := by
  refine ⟨Cost.runGrammar_fst (Cost.Uri.run_URI pl) s, ?_⟩
  have := Cost.within (Cost.within_URI pl) s
  show (Cost.runGrammar (Cost.Uri.URI pl) s).2 ≤ _
  omega

/-- C62: the same of `split_reference`. -/
theorem C62_split_reference (pl : Plat) (s : SV) :
    (Cost.splitReference pl s).1 = Verif.splitReference pl s ∧ (Cost.splitReference pl s).2 ≤ 2800 * s.size + 53000 := by
  refine ⟨Cost.runGrammar_fst (Cost.Uri.run_URIReference pl) s, ?_⟩
  have := Cost.within (Cost.within_URIReference pl) s
  show (Cost.runGrammar (Cost.Uri.URIReference pl) s).2 ≤ _
  omega

/-! ### `valid` -/

/-- The characters of an optional field. -/
def Cost.optSize : Option SV → Nat
  | none => 0
  | some s => s.size

/-- The characters of a parts value, and its segments. -/
def Parts.amount (p : Parts SV) : Nat :=
  Cost.optSize p.scheme + (match p.authority with
    | none => 0
    | some a => Cost.optSize a.userinfo + a.host.size + Cost.optSize a.port) +
  (p.path.segments.map fun g => g.size + 1).sum + Cost.optSize p.query + Cost.optSize p.fragment

theorem Cost.fieldOk_fst {g : Gr Act} {m : Matcher Act} (h : g.run = m) (s : SV) : (Cost.fieldOk g s).1 = Verif.fieldOk m s := by
  unfold Cost.fieldOk Verif.fieldOk
  rw [andThen_fst, Cost.runGrammar_fst h]
  rfl

theorem Cost.optOk_fst {g : Gr Act} {m : Matcher Act} (h : g.run = m) (s : Option SV) : (Cost.optOk g s).1 = Verif.optOk m s := by
  cases s with
  | none => rfl
  | some s => exact Cost.fieldOk_fst h s

theorem Cost.allOk_fst {ok : SV → CM Bool} {ok' : SV → M Bool} (h : ∀ s, (ok s).1 = ok' s) : ∀ l, (Cost.allOk ok l).1 = Verif.allOk ok' l
  | [] => rfl
  | g :: gs => by
    simp only [Cost.allOk, Verif.allOk, tick_fst, andThen_fst, h]
    congr 1
    funext b
    cases b
    · rfl
    · exact Cost.allOk_fst h gs

theorem Cost.ifOk_fst (x f : CM Bool) : (Cost.ifOk x f).1 = x.1 >>= fun b => if !b then pure false else f.1 := by
  unfold Cost.ifOk
  rw [andThen_fst]
  congr 1
  funext b
  cases b <;> rfl

theorem Cost.authorityValid_fst (pl : Plat) (a : Authority SV) : (Cost.authorityValid pl a).1 = a.valid pl := by
  simp only [Cost.authorityValid, Authority.valid, tick_fst, Cost.ifOk_fst, Cost.optOk_fst (Cost.Uri.run_userinfo pl),
    Cost.fieldOk_fst (Cost.Uri.run_host pl), Cost.optOk_fst (Cost.Uri.run_port pl)]
  rfl

theorem Cost.valid_fst (pl : Plat) (p : Parts SV) : (Cost.valid pl p).1 = p.valid pl := by
  unfold Cost.valid Parts.valid
  cases p.scheme with
  | none => rfl
  | some s =>
    cases p.authority with
    | none =>
      simp only [tick_fst, Cost.ifOk_fst, Cost.optOk_fst (Cost.Uri.run_query pl), Cost.optOk_fst (Cost.Uri.run_fragment pl),
        Cost.fieldOk_fst (Cost.Uri.run_scheme pl), Cost.allOk_fst (Cost.fieldOk_fst (Cost.Uri.run_segment pl)), ret_fst]
      rfl
    | some a =>
      simp only [tick_fst, Cost.ifOk_fst, Cost.optOk_fst (Cost.Uri.run_query pl), Cost.optOk_fst (Cost.Uri.run_fragment pl),
        Cost.fieldOk_fst (Cost.Uri.run_scheme pl), Cost.allOk_fst (Cost.fieldOk_fst (Cost.Uri.run_segment pl)), ret_fst,
        Cost.authorityValid_fst]
      rfl

theorem Cost.andThen_snd_le {β γ : Type} (x : CM β) (f : β → CM γ) (n : Nat) (h : ∀ b, (f b).2 ≤ n) : (andThen x f).2 ≤ x.2 + n := by
  cases hr : x.1 with
  | error e => rw [andThen_error hr]; simp
  | ok b => rw [andThen_ok hr]; exact Nat.add_le_add_left (h b) _

theorem Cost.ifOk_snd_le (x f : CM Bool) : (Cost.ifOk x f).2 ≤ x.2 + f.2 := by
  apply Cost.andThen_snd_le
  intro b
  cases b <;> simp

theorem Cost.fieldOk_le {g : Gr Act} {a b : Nat} (h : Cost.Within g a b) (s : SV) : (Cost.fieldOk g s).2 ≤ a * s.size + b :=
  Nat.le_trans (Cost.andThen_snd_le _ _ 0 (fun _ => Nat.le_refl _)) (Cost.within h s)

theorem Cost.optOk_le {g : Gr Act} {a b : Nat} (h : Cost.Within g a b) (s : Option SV) : (Cost.optOk g s).2 ≤ a * Cost.optSize s + b := by
  cases s with
  | none => simp [Cost.optOk]
  | some s => exact Cost.fieldOk_le h s

theorem Cost.allOk_le {ok : SV → CM Bool} {a b : Nat} (h : ∀ s, (ok s).2 ≤ a * s.size + b) (hab : b + 1 ≤ 2 * a) :
    ∀ l : List SV, (Cost.allOk ok l).2 ≤ 2 * a * (l.map fun g => g.size + 1).sum
  | [] => by simp [Cost.allOk]
  | g :: gs => by
    have h1 : (andThen (ok g) fun b => if b then Cost.allOk ok gs else ret (.ok false)).2 ≤ (ok g).2 + (Cost.allOk ok gs).2 := by
      apply Cost.andThen_snd_le
      intro b
      cases b <;> simp
    have h2 := Cost.allOk_le h hab gs
    have h3 := h g
    simp only [Cost.allOk, tick_snd, List.map_cons, List.sum_cons, Nat.mul_add, Nat.mul_one]
    have h4 : 2 * a * g.size = a * g.size + a * g.size := by rw [Nat.mul_assoc, Nat.two_mul]
    omega

/-- C62: the same of `valid`, for a parts value of `n` characters and segments. -/
theorem C62_valid (pl : Plat) (p : Parts SV) :
    (Cost.valid pl p).1 = p.valid pl ∧ (Cost.valid pl p).2 ≤ 150 * p.amount + 26000 := by
  refine ⟨Cost.valid_fst pl p, ?_⟩
  unfold Cost.valid Parts.amount
  have hseg : (Cost.allOk (Cost.fieldOk (Cost.Uri.segment pl)) p.path.segments).2 ≤ 2 * 58 * (p.path.segments.map fun g => g.size + 1).sum :=
    Cost.allOk_le (Cost.fieldOk_le (Cost.within_segment pl)) (by omega) _
  have hq := Cost.optOk_le (Cost.within_query pl) p.query
  have hf : (Cost.optOk (Cost.Uri.fragment pl) p.fragment).2 ≤ _ := Cost.optOk_le (Cost.within_query pl) p.fragment
  cases p.scheme with
  | none => simp only [tick_snd, ret_snd]; omega
  | some s =>
    have hs := Cost.fieldOk_le (Cost.within_scheme pl) s
    simp only [tick_snd, show ∀ s, Cost.optSize (some s) = s.size from fun _ => rfl]
    refine Nat.le_trans (Nat.add_le_add_left (Cost.ifOk_snd_le _ _) _) ?_
    refine Nat.le_trans (Nat.add_le_add_left (Nat.add_le_add_left (Cost.ifOk_snd_le _ _) _) _) ?_
    refine Nat.le_trans (Nat.add_le_add_left (Nat.add_le_add_left (Nat.add_le_add_left (Cost.ifOk_snd_le _ _) _) _) _) ?_
    refine Nat.le_trans (Nat.add_le_add_left (Nat.add_le_add_left (Nat.add_le_add_left (Nat.add_le_add_left (Cost.ifOk_snd_le _ _) _) _) _) _) ?_
    refine Nat.le_trans (Nat.add_le_add_left (Nat.add_le_add_left (Nat.add_le_add_left (Nat.add_le_add_left (Nat.add_le_add_left (Cost.ifOk_snd_le _ _) _) _) _) _) _) ?_
    cases p.authority with
    | none => simp only [tick_snd, ret_snd]; omega
    | some a =>
      have hu := Cost.optOk_le (Cost.within_userinfo pl) a.userinfo
      have hh := Cost.fieldOk_le (Cost.within_host pl) a.host
      have hp := Cost.optOk_le (Cost.within_port pl) a.port
      have ha : (Cost.authorityValid pl a).2 ≤ 1 + ((Cost.optOk (Cost.Uri.userinfo pl) a.userinfo).2 + ((Cost.fieldOk (Cost.Uri.host pl) a.host).2 + ((Cost.optOk (Cost.Uri.port pl) a.port).2 + 0))) := by
        simp only [Cost.authorityValid, tick_snd]
        refine Nat.add_le_add_left ?_ _
        refine Nat.le_trans (Cost.ifOk_snd_le _ _) (Nat.add_le_add_left ?_ _)
        refine Nat.le_trans (Cost.ifOk_snd_le _ _) (Nat.add_le_add_left ?_ _)
        exact Cost.ifOk_snd_le _ _
      simp only [tick_snd, ret_snd]; omega

/-! ### Grammars of users -/

/-- C62: any grammar in which what is repeated matches no empty text and takes time in proportion to what it matches - that
is what `Gr.bounds` finds out - is matched in time proportional to the text. -/
theorem C62_grammar {α : Type} (g : Gr α) (b : Bd) (h : g.bounds = some b) (s : SV) :
    (g.steps (Rule.ofSV s)).1 = g.run (Rule.ofSV s) ∧
    (g.steps (Rule.ofSV s)).2 ≤ (b.sa + b.sn + b.fn) * s.size + (b.sb + b.fb) := by
  refine ⟨Gr.steps_fst g _, ?_⟩
  obtain ⟨h1, h2⟩ := Gr.bounds_sound g b h s
  have hE : (b.sa + b.sn + b.fn) * s.size = b.sa * s.size + b.sn * s.size + b.fn * s.size := by simp only [Nat.add_mul]
  by_cases hm : ∃ x acc, (g.steps (Rule.ofSV s)).1 = .ok (some (x, acc))
  · obtain ⟨x, acc, hx⟩ := hm
    obtain ⟨k1, -, -, -, k5⟩ := h1 x acc hx
    have := Nat.mul_le_mul_left b.sa k1
    omega
  · have := h2 (fun x acc hx => hm ⟨x, acc, hx⟩)
    omega

/-! ### The condition is needed -/

/-- `A = %x61`, `B = %x62`. -/
def Cost.chA : Gr Act := .chr fun c => .ok (c == 0x61)
@[inherit_doc Cost.chA]
def Cost.chB : Gr Act := .chr fun c => .ok (c == 0x62)
/-- `*A B` -/
def Cost.inner : Gr Act := .rule ((Chain.nil.star Cost.chA 0 uintMax).concat Cost.chB none)
/-- `( *A B ) / A` -/
def Cost.body : Gr Act := .rule (Chain.nil.alternative (.cons Cost.inner (.cons Cost.chA .nil)))
/-- `*( ( *A B ) / A )` -/
def Cost.slow : Gr Act := .rule (Chain.nil.star Cost.body 0 uintMax)

theorem Cost.not_over (count : Nat) : ¬ (count + 1) % uintMod > uintMax := by
  have h : (count + 1) % uintMod < uintMod := Nat.mod_lt _ (by decide)
  have : uintMod = uintMax + 1 := rfl
  omega

theorem Cost.chA_cons (ptr : Nat) (l : Str) : Cost.chA.steps (Rule.ofSV ⟨ptr, 0x61 :: l⟩) = (.ok (some (⟨ptr, [0x61]⟩, [])), 1) := rfl
theorem Cost.chA_nil (ptr : Nat) : Cost.chA.steps (Rule.ofSV ⟨ptr, []⟩) = (.ok none, 1) := rfl

theorem Cost.loopA (n : Nat) : ∀ fuel count ptr length, n < fuel → ∃ c k,
    starLoop Cost.chA.steps uintMax fuel count ⟨ptr, List.replicate n 0x61⟩ length [] = (.ok (c, length + n, []), k) ∧ n ≤ k := by
  induction n with
  | zero =>
    intro fuel count ptr length hf
    obtain ⟨fuel, rfl⟩ : ∃ f, fuel = f + 1 := ⟨fuel - 1, by omega⟩
    exact ⟨count, 2, rfl, by omega⟩
  | succ n ih =>
    intro fuel count ptr length hf
    obtain ⟨fuel, rfl⟩ : ∃ f, fuel = f + 1 := ⟨fuel - 1, by omega⟩
    obtain ⟨c, k, h1, h2⟩ := ih fuel ((count + 1) % uintMod) (ptr + 1) (length + 1) (by omega)
    refine ⟨c, 2 + k, ?_, by omega⟩
    rw [starLoop, List.replicate_succ, Cost.chA_cons]
    rw [andThen_ok (b := some (⟨ptr, [0x61]⟩, [])) rfl]
    simp only [Cost.not_over, if_false]
    have hrm : (⟨ptr, 0x61 :: List.replicate n 0x61⟩ : SV).removePrefix (⟨ptr, [0x61]⟩ : SV).size = .ok ⟨ptr + 1, List.replicate n 0x61⟩ := by
      simp [SV.removePrefix, SV.substrFrom, SV.size]
    rw [andThen_ok (b := ⟨ptr + 1, List.replicate n 0x61⟩) (by rw [ret_fst, hrm])]
    rw [show (⟨ptr, [0x61]⟩ : SV).size = 1 from rfl, List.append_nil, h1]
    simp only [tick, ret, List.length_nil, Prod.mk.injEq, Except.ok.injEq, and_true, true_and]
    exact ⟨by omega, by omega⟩

theorem Cost.starA (n ptr : Nat) : ∃ k, star Cost.chA.steps 0 uintMax (Rule.ofSV ⟨ptr, List.replicate n 0x61⟩) =
    (.ok ⟨some ⟨ptr + n, []⟩, []⟩, k) ∧ n ≤ k := by
  obtain ⟨c, k, h1, h2⟩ := Cost.loopA n (n + uintMax + 2) 0 ptr 0 (by omega)
  refine ⟨1 + (0 + (k + (0 + 0))), ?_, by omega⟩
  have e : star Cost.chA.steps 0 uintMax (Rule.ofSV ⟨ptr, List.replicate n 0x61⟩) =
      tick 1 (tick 0 (andThen (starLoop Cost.chA.steps uintMax ((⟨ptr, List.replicate n 0x61⟩ : SV).size + uintMax + 2) 0
        ⟨ptr, List.replicate n 0x61⟩ 0 []) fun x =>
        if x.1 < 0 then ret (.ok Rule.failed)
        else andThen (ret ((⟨ptr, List.replicate n 0x61⟩ : SV).substrFrom x.2.1)) fun t' => ret (.ok ⟨some t', x.2.2⟩))) := rfl
  rw [e, show (⟨ptr, List.replicate n 0x61⟩ : SV).size = n by simp [SV.size], h1]
  rw [andThen_ok (b := (c, 0 + n, [])) rfl]
  have hrm : (⟨ptr, List.replicate n 0x61⟩ : SV).substrFrom (0 + n) = .ok ⟨ptr + n, []⟩ := by
    simp [SV.substrFrom, SV.size]
  simp only [Nat.not_lt_zero, if_false]
  rw [andThen_ok (b := ⟨ptr + n, []⟩) (by rw [ret_fst, hrm])]
  rfl

theorem Cost.inner_fails (n ptr : Nat) : ∃ k, Cost.inner.steps (Rule.ofSV ⟨ptr, List.replicate n 0x61⟩) = (.ok none, k) ∧ n ≤ k := by
  obtain ⟨k, h1, h2⟩ := Cost.starA n ptr
  refine ⟨(0 + k + 3) + 1, ?_, by omega⟩
  simp only [Cost.inner, Gr.steps, Chain.steps]
  rw [andThen_ok (x := ret _) (b := Rule.ofSV ⟨ptr, List.replicate n 0x61⟩) rfl, h1]
  rfl

theorem Cost.body_nil (ptr : Nat) : ∃ k, Cost.body.steps (Rule.ofSV ⟨ptr, []⟩) = (.ok none, k) := by
  obtain ⟨k, h1, -⟩ := Cost.inner_fails 0 ptr
  rw [List.replicate_zero] at h1
  refine ⟨0 + (1 + (1 + k + (1 + (1 + 1 + (1 + 0))))) + 1, ?_⟩
  simp only [Cost.body, Gr.steps, Chain.steps, Alts.steps]
  rw [andThen_ok (x := ret _) (b := Rule.ofSV ⟨ptr, []⟩) rfl]
  simp only [alternative, Rule.ofSV] at h1 ⊢
  rw [h1]
  rfl

theorem Cost.body_cons (n ptr : Nat) : ∃ k,
    Cost.body.steps (Rule.ofSV ⟨ptr, List.replicate (n + 1) 0x61⟩) = (.ok (some (⟨ptr, [0x61]⟩, [])), k) ∧ n + 1 ≤ k := by
  obtain ⟨k, h1, h2⟩ := Cost.inner_fails (n + 1) ptr
  have h3 : Cost.body.steps (Rule.ofSV ⟨ptr, List.replicate (n + 1) 0x61⟩) =
      andThen (andThen (ret (.ok (Rule.ofSV ⟨ptr, List.replicate (n + 1) 0x61⟩))) (alternative [Cost.inner.steps, Cost.chA.steps]))
        (matched (Rule.ofSV ⟨ptr, List.replicate (n + 1) 0x61⟩)) := rfl
  have h4 : alternative [Cost.inner.steps, Cost.chA.steps] (Rule.ofSV ⟨ptr, List.replicate (n + 1) 0x61⟩) =
      (.ok ⟨some ⟨ptr + 1, List.replicate n 0x61⟩, []⟩, 1 + (1 + k + (1 + (1 + 1 + 1)))) := by
    simp only [alternative, Rule.ofSV] at h1 ⊢
    rw [h1, andThen_ok (b := none) rfl]
    simp only []
    rw [List.replicate_succ]
    rw [show Cost.chA.steps ⟨some ⟨ptr, 0x61 :: List.replicate n 0x61⟩, []⟩ = _ from Cost.chA_cons _ _,
      andThen_ok (b := some (⟨ptr, [0x61]⟩, [])) rfl]
    simp [joinMatched, Rule.joinMatched, SV.substrFrom, SV.size, tick, ret, bind, Except.bind, pure, Except.pure]
  refine ⟨0 + (1 + (1 + k + (1 + (1 + 1 + 1)))) + 1, ?_, by omega⟩
  rw [h3, andThen_ok (x := ret _) (b := Rule.ofSV ⟨ptr, List.replicate (n + 1) 0x61⟩) rfl, h4,
    andThen_ok (b := ⟨some ⟨ptr + 1, List.replicate n 0x61⟩, []⟩) rfl]
  simp [matched, Rule.matched, Rule.ofSV, SV.substr, SV.size, tick, ret, bind, Except.bind, pure, Except.pure, List.replicate_succ]

theorem Cost.loopBody (n : Nat) : ∀ fuel count ptr length,
    n < fuel → n * n ≤ 2 * (starLoop Cost.body.steps uintMax fuel count ⟨ptr, List.replicate n 0x61⟩ length []).2 := by
  induction n with
  | zero => intros; omega
  | succ n ih =>
    intro fuel count ptr length hf
    obtain ⟨fuel, rfl⟩ : ∃ f, fuel = f + 1 := ⟨fuel - 1, by omega⟩
    have h1 := ih fuel ((count + 1) % uintMod) (ptr + 1) (length + 1) (by omega)
    obtain ⟨k, h2, h3⟩ := Cost.body_cons n ptr
    rw [starLoop, h2]
    rw [andThen_ok (b := some (⟨ptr, [0x61]⟩, [])) rfl]
    simp only [Cost.not_over, if_false]
    have hrm : (⟨ptr, List.replicate (n + 1) 0x61⟩ : SV).removePrefix (⟨ptr, [0x61]⟩ : SV).size = .ok ⟨ptr + 1, List.replicate n 0x61⟩ := by
      simp [SV.removePrefix, SV.substrFrom, SV.size]
    rw [andThen_ok (b := ⟨ptr + 1, List.replicate n 0x61⟩) (by rw [ret_fst, hrm])]
    rw [show (⟨ptr, [0x61]⟩ : SV).size = 1 from rfl, List.append_nil]
    have h4 : (n + 1) * (n + 1) = n * n + 2 * n + 1 := by rw [Nat.add_mul, Nat.mul_add]; omega
    simp only [tick, ret, List.length_nil]
    omega

/-- C62: without the condition the time is not linear: `*( ( *A B ) / A )` takes at least half of `n` squared steps on a
text of `n` times `a`. -/
theorem C62_counterexample (n ptr : Nat) : n * n ≤ 2 * (Cost.slow.steps (Rule.ofSV ⟨ptr, List.replicate n 0x61⟩)).2 := by
  have h := Cost.loopBody n (n + uintMax + 2) 0 ptr 0 (by omega)
  have e : Cost.slow.steps (Rule.ofSV ⟨ptr, List.replicate n 0x61⟩) =
      andThen (andThen (ret (.ok (Rule.ofSV ⟨ptr, List.replicate n 0x61⟩))) (star Cost.body.steps 0 uintMax))
        (matched (Rule.ofSV ⟨ptr, List.replicate n 0x61⟩)) := rfl
  have e2 : star Cost.body.steps 0 uintMax (Rule.ofSV ⟨ptr, List.replicate n 0x61⟩) =
      tick 1 (tick 0 (andThen (starLoop Cost.body.steps uintMax ((⟨ptr, List.replicate n 0x61⟩ : SV).size + uintMax + 2) 0
        ⟨ptr, List.replicate n 0x61⟩ 0 []) fun x =>
        if x.1 < 0 then ret (.ok Rule.failed)
        else andThen (ret ((⟨ptr, List.replicate n 0x61⟩ : SV).substrFrom x.2.1)) fun t' => ret (.ok ⟨some t', x.2.2⟩))) := rfl
  have mono : ∀ {β γ : Type} (x : CM β) (f : β → CM γ), x.2 ≤ (andThen x f).2 := by
    intro β γ x f
    cases hr : x.1 with
    | error e => rw [andThen_error hr]; exact Nat.le_refl _
    | ok b => rw [andThen_ok hr]; exact Nat.le_add_right _ _
  rw [e]
  refine Nat.le_trans h (Nat.mul_le_mul_left 2 (Nat.le_trans ?_ (mono _ _)))
  rw [andThen_ok (x := ret _) (b := Rule.ofSV ⟨ptr, List.replicate n 0x61⟩) rfl, e2,
    show (⟨ptr, List.replicate n 0x61⟩ : SV).size = n by simp [SV.size]]
  simp only [tick_snd, ret_snd]
  refine Nat.le_trans (mono _ (fun x => if x.1 < 0 then ret (.ok Rule.failed)
        else andThen (ret ((⟨ptr, List.replicate n 0x61⟩ : SV).substrFrom x.2.1)) fun t' => ret (.ok ⟨some t', x.2.2⟩))) ?_
  omega

/-- Cases. -/
example : (Cost.split ⟨true⟩ ⟨1, b! "http://a@b.c:80/d/e?f#g"⟩).2 = 588 := by decide +kernel
example : (Cost.valid ⟨true⟩ ⟨some ⟨1, b! "http"⟩, some ⟨none, ⟨1, b! "b.c"⟩, none⟩,
    ⟨true, [⟨1, b! "d"⟩, ⟨1, b! "e"⟩]⟩, none, none⟩).2 = 221 := by decide +kernel
example : Cost.inner.bounds.isSome = true ∧ Cost.body.bounds.isSome = true ∧ Cost.slow.bounds = none := by decide +kernel

end Verif
