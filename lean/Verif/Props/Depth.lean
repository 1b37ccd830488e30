import Verif.Model.Depth
import Verif.Props.Cost

/-!
# Property C109: how deep calls are nested while parsing
-/

namespace Verif.Depth
open Rule (ofSV failed)
open Cost (Gr Chain Alts)
set_option linter.unusedSimpArgs false

variable {α β γ : Type}

/-! ### Specification: the depth of a grammar, found without a text -/

mutual
/-- Frames that a match function needs, on any text. -/
def height : Gr α → Nat
  | .chr _ => 4
  | .look _ => 2
  | .rule c => 1 + max (chainHeight c) 1
/-- Frames that a chain of calls needs: one call is made after the other. -/
def chainHeight : Chain α → Nat
  | .nil => 0
  | .concat c g _ => max (chainHeight c) (2 + max (height g) 2)
  | .optional c g => max (chainHeight c) (3 + max (height g) 2)
  | .star c g _ _ => max (chainHeight c) (1 + height g)
  | .alternative c gs => max (chainHeight c) (altsHeight gs)
/-- Frames that `alternative` needs: each further match function is tried by a further call. -/
def altsHeight : Alts α → Nat
  | .nil => 1
  | .cons g gs => 1 + max (height g) (max 2 (altsHeight gs))
end

/-! ### Proofs -/

@[simp] theorem here_fst (x : M β) : (here x).1 = x := rfl
@[simp] theorem here_snd (x : M β) : (here x).2 = 0 := rfl
@[simp] theorem call_fst (x : DM β) : (call x).1 = x.1 := rfl
@[simp] theorem call_snd (x : DM β) : (call x).2 = 1 + x.2 := rfl

theorem andThen_fst (x : DM β) (f : β → DM γ) : (andThen x f).1 = x.1 >>= fun b => (f b).1 := by
  unfold andThen
  cases x.1 <;> rfl

theorem andThen_le {x : DM β} {f : β → DM γ} {n : Nat} (h : x.2 ≤ n) (k : ∀ b, (f b).2 ≤ n) : (andThen x f).2 ≤ n := by
  unfold andThen
  cases x.1 with
  | error e => exact h
  | ok b => exact Nat.max_le.2 ⟨h, k b⟩

theorem concatImpl_fst {dm : DMatcher α} {m : Matcher α} (h : ∀ r, (dm r).1 = m r) (a : Option α) (o : Bool) (r : Rule α) :
    (concatImpl dm a o r).1 = Rule.concatImpl m a o r := by
  unfold concatImpl Rule.concatImpl
  cases r.tail with
  | none => rfl
  | some t =>
    simp only [call_fst, andThen_fst, h]
    congr 1
    funext x
    cases x with
    | none => cases o <;> rfl
    | some y => cases a <;> rfl

theorem concatImpl_le {dm : DMatcher α} {n : Nat} (h : ∀ r, (dm r).2 ≤ n) (a : Option α) (o : Bool) (r : Rule α) :
    (concatImpl dm a o r).2 ≤ 1 + max n 2 := by
  unfold concatImpl
  cases r.tail with
  | none => simp
  | some t =>
    rw [call_snd]
    refine Nat.add_le_add_left (andThen_le (Nat.le_trans (h _) (by omega)) fun b => ?_) 1
    cases b with
    | none => cases o <;> simp
    | some x =>
      refine andThen_le (by simp; omega) fun b => ?_
      cases b <;> simp [joinMatched] <;> omega

theorem optional_fst {dm : DMatcher α} {m : Matcher α} (h : ∀ r, (dm r).1 = m r) (r : Rule α) :
    (optional dm r).1 = Rule.optional m r := by
  unfold optional Rule.optional Rule.optionalA
  cases r.tail with
  | none => rfl
  | some t =>
    simp only [call_fst, andThen_fst, concatImpl_fst h]
    congr 1
    funext x
    cases x.tail <;> rfl

theorem optional_le {dm : DMatcher α} {n : Nat} (h : ∀ r, (dm r).2 ≤ n) (r : Rule α) : (optional dm r).2 ≤ 3 + max n 2 := by
  unfold optional
  rw [call_snd, call_snd]
  cases r.tail with
  | none => simp; omega
  | some t =>
    have : ∀ k, k ≤ 1 + max n 2 → 1 + (1 + k) ≤ 3 + max n 2 := by intro k; omega
    refine this _ (andThen_le (concatImpl_le h ..) fun b => ?_)
    cases b.tail <;> simp [joinRule] <;> omega

theorem starLoop_fst {dm : DMatcher α} {m : Matcher α} (h : ∀ r, (dm r).1 = m r) (max : Nat) :
    ∀ fuel count str length acc, (starLoop dm max fuel count str length acc).1 = Rule.starLoop m max fuel count str length acc := by
  intro fuel
  induction fuel with
  | zero => intros; rfl
  | succ fuel ih =>
    intro count str length acc
    unfold starLoop Rule.starLoop
    simp only [andThen_fst, h]
    congr 1
    funext x
    cases x with
    | none => rfl
    | some y =>
      simp only []
      split
      · rfl
      · simp only [andThen_fst, here_fst, ih]

theorem starLoop_le {dm : DMatcher α} {n : Nat} (h : ∀ r, (dm r).2 ≤ n) (max : Nat) :
    ∀ fuel count str length acc, (starLoop dm max fuel count str length acc).2 ≤ n := by
  intro fuel
  induction fuel with
  | zero => intros; simp [starLoop]
  | succ fuel ih =>
    intro count str length acc
    unfold starLoop
    refine andThen_le (h _) fun b => ?_
    cases b with
    | none => simp
    | some y =>
      simp only []
      split
      · simp
      · exact andThen_le (by simp) fun _ => ih ..

theorem star_fst {dm : DMatcher α} {m : Matcher α} (h : ∀ r, (dm r).1 = m r) (min max : Nat) (r : Rule α) :
    (star dm min max r).1 = Rule.star m min max r := by
  unfold star Rule.star
  cases r.tail with
  | none => rfl
  | some t =>
    simp only [call_fst, andThen_fst, starLoop_fst h]
    congr 1
    funext x
    split
    · rfl
    · simp only [andThen_fst, here_fst]; rfl

theorem star_le {dm : DMatcher α} {n : Nat} (h : ∀ r, (dm r).2 ≤ n) (min max : Nat) (r : Rule α) : (star dm min max r).2 ≤ 1 + n := by
  unfold star
  rw [call_snd]
  refine Nat.add_le_add_left ?_ 1
  cases r.tail with
  | none => simp
  | some t =>
    refine andThen_le (starLoop_le h ..) fun x => ?_
    split
    · simp
    · exact andThen_le (by simp) fun _ => by simp

theorem alternative_fst : ∀ {dms : List (DMatcher α)} {ms : List (Matcher α)}, dms.length = ms.length →
    (∀ p ∈ dms.zip ms, ∀ r, (p.1 r).1 = p.2 r) → ∀ r, (alternative dms r).1 = Rule.alternative ms r
  | [], [], _, _ => fun _ => rfl
  | dm :: dms, m :: ms, hl, h => by
    intro r
    unfold alternative Rule.alternative
    have hm : ∀ r, (dm r).1 = m r := h (dm, m) (by simp)
    have ih := alternative_fst (dms := dms) (ms := ms) (by simpa using hl) (fun p hp => h p (by simp [hp]))
    cases r.tail with
    | none => rfl
    | some t =>
      simp only [call_fst, andThen_fst, hm]
      congr 1
      funext x
      cases x with
      | none => exact ih r
      | some y => rfl

theorem alts_length : ∀ gs : Alts α, (altsDepth gs).length = gs.run.length
  | .nil => rfl
  | .cons g gs => by simp [altsDepth, Alts.run, alts_length gs]

mutual
/-- Forgetting the depth. -/
theorem grDepth_fst : ∀ (g : Gr α) (r : Rule α), (grDepth g r).1 = g.run r
  | .chr p, r => rfl
  | .look p, r => rfl
  | .rule c, r => by
      simp only [grDepth, Gr.run, call_fst, andThen_fst, chainDepth_fst c]
      rfl
/-- Forgetting the depth. -/
theorem chainDepth_fst : ∀ (c : Chain α) (r : Rule α), (chainDepth c r).1 = c.run r
  | .nil, r => rfl
  | .concat c g a, r => by
      simp only [chainDepth, Chain.run, andThen_fst, chainDepth_fst c, concat, call_fst, concatImpl_fst (grDepth_fst g)]
  | .optional c g, r => by
      simp only [chainDepth, Chain.run, andThen_fst, chainDepth_fst c, optional_fst (grDepth_fst g)]
  | .star c g min max, r => by
      simp only [chainDepth, Chain.run, andThen_fst, chainDepth_fst c, star_fst (grDepth_fst g)]
  | .alternative c gs, r => by
      simp only [chainDepth, Chain.run, andThen_fst, chainDepth_fst c, alternative_fst (alts_length gs) (altsDepth_fst gs)]
/-- Forgetting the depth. -/
theorem altsDepth_fst : ∀ (gs : Alts α), ∀ p ∈ (altsDepth gs).zip gs.run, ∀ r, (p.1 r).1 = p.2 r
  | .nil => by simp [altsDepth]
  | .cons g gs => by
      intro p hp r
      simp only [altsDepth, Alts.run, List.zip_cons_cons, List.mem_cons] at hp
      rcases hp with rfl | hp
      · exact grDepth_fst g r
      · exact altsDepth_fst gs p hp r
end

mutual
theorem grDepth_le : ∀ (g : Gr α) (r : Rule α), (grDepth g r).2 ≤ height g
  | .chr p, r => by simp [grDepth, singleChar, height]
  | .look p, r => by simp [grDepth, height]
  | .rule c, r => by
      simp only [grDepth, height, call_snd]
      refine Nat.add_le_add_left (andThen_le (Nat.le_trans (chainDepth_le c r) (by omega)) fun b => ?_) 1
      simp [matched]; omega
theorem chainDepth_le : ∀ (c : Chain α) (r : Rule α), (chainDepth c r).2 ≤ chainHeight c
  | .nil, r => by simp [chainDepth]
  | .concat c g a, r => by
      simp only [chainDepth, chainHeight]
      refine andThen_le (Nat.le_trans (chainDepth_le c r) (by omega)) fun b => ?_
      have := concatImpl_le (grDepth_le g) a false b
      simp only [concat, call_snd]
      omega
  | .optional c g, r => by
      simp only [chainDepth, chainHeight]
      refine andThen_le (Nat.le_trans (chainDepth_le c r) (by omega)) fun b => ?_
      have := optional_le (grDepth_le g) b
      omega
  | .star c g min max, r => by
      simp only [chainDepth, chainHeight]
      refine andThen_le (Nat.le_trans (chainDepth_le c r) (by omega)) fun b => ?_
      have := star_le (grDepth_le g) min max b
      omega
  | .alternative c gs, r => by
      simp only [chainDepth, chainHeight]
      refine andThen_le (Nat.le_trans (chainDepth_le c r) (by omega)) fun b => ?_
      have := altsDepth_le gs b
      omega
theorem altsDepth_le : ∀ (gs : Alts α) (r : Rule α), (alternative (altsDepth gs) r).2 ≤ altsHeight gs
  | .nil, r => by simp [altsDepth, alternative, altsHeight]
  | .cons g gs, r => by
      simp only [altsDepth, alternative, altsHeight, call_snd]
      refine Nat.add_le_add_left ?_ 1
      cases r.tail with
      | none => simp
      | some t =>
        refine andThen_le (Nat.le_trans (grDepth_le g _) (by omega)) fun b => ?_
        cases b with
        | none => have := altsDepth_le gs r; simp only []; omega
        | some x => simp [joinMatched]; omega
end

theorem runGrammar_fst {g : Gr Act} {m : Matcher Act} (h : g.run = m) (s : SV) : (runGrammar g s).1 = Verif.runGrammar m s := by
  unfold runGrammar Verif.runGrammar
  rw [andThen_fst, concat, call_fst, concatImpl_fst (m := m) (fun r => by rw [grDepth_fst, h])]
  rfl

theorem runGrammar_le (g : Gr Act) (s : SV) : (runGrammar g s).2 ≤ 2 + max (height g) 2 := by
  unfold runGrammar
  refine andThen_le ?_ fun b => by simp [done]; omega
  have := concatImpl_le (grDepth_le g) none false (ofSV s)
  simp only [concat, call_snd]
  omega

theorem fieldOk_fst {g : Gr Act} {m : Matcher Act} (h : g.run = m) (s : SV) : (fieldOk g s).1 = Verif.fieldOk m s := by
  unfold fieldOk Verif.fieldOk
  rw [andThen_fst, runGrammar_fst h]
  rfl

theorem optOk_fst {g : Gr Act} {m : Matcher Act} (h : g.run = m) (s : Option SV) : (optOk g s).1 = Verif.optOk m s := by
  cases s with
  | none => rfl
  | some s => exact fieldOk_fst h s

theorem allOk_fst {ok : SV → DM Bool} {ok' : SV → M Bool} (h : ∀ s, (ok s).1 = ok' s) : ∀ l, (allOk ok l).1 = Verif.allOk ok' l
  | [] => rfl
  | g :: gs => by
    simp only [allOk, Verif.allOk, andThen_fst, h]
    congr 1
    funext b
    cases b
    · rfl
    · exact allOk_fst h gs

theorem ifOk_fst (x f : DM Bool) : (ifOk x f).1 = x.1 >>= fun b => if !b then pure false else f.1 := by
  unfold ifOk
  rw [andThen_fst]
  congr 1
  funext b
  cases b <;> rfl

theorem authorityValid_fst (pl : Plat) (a : Authority SV) : (authorityValid pl a).1 = a.valid pl := by
  simp only [authorityValid, Authority.valid, call_fst, ifOk_fst, optOk_fst (Cost.Uri.run_userinfo pl),
    fieldOk_fst (Cost.Uri.run_host pl), optOk_fst (Cost.Uri.run_port pl)]
  rfl

theorem valid_fst (pl : Plat) (p : Parts SV) : (valid pl p).1 = p.valid pl := by
  unfold valid Parts.valid
  cases p.scheme with
  | none => rfl
  | some s =>
    cases p.authority with
    | none =>
      simp only [call_fst, ifOk_fst, optOk_fst (Cost.Uri.run_query pl), optOk_fst (Cost.Uri.run_fragment pl),
        fieldOk_fst (Cost.Uri.run_scheme pl), allOk_fst (fieldOk_fst (Cost.Uri.run_segment pl)), here_fst]
      rfl
    | some a =>
      simp only [call_fst, ifOk_fst, optOk_fst (Cost.Uri.run_query pl), optOk_fst (Cost.Uri.run_fragment pl),
        fieldOk_fst (Cost.Uri.run_scheme pl), allOk_fst (fieldOk_fst (Cost.Uri.run_segment pl)), here_fst,
        authorityValid_fst]
      rfl

theorem fieldOk_le (g : Gr Act) (s : SV) : (fieldOk g s).2 ≤ 2 + max (height g) 2 :=
  andThen_le (runGrammar_le g s) fun _ => by simp

theorem optOk_le (g : Gr Act) (s : Option SV) : (optOk g s).2 ≤ 2 + max (height g) 2 := by
  cases s with
  | none => simp [optOk]
  | some s => exact fieldOk_le g s

theorem allOk_le {ok : SV → DM Bool} {n : Nat} (h : ∀ s, (ok s).2 ≤ n) : ∀ l, (allOk ok l).2 ≤ n
  | [] => by simp [allOk]
  | g :: gs => by
    unfold allOk
    refine andThen_le (h g) fun b => ?_
    cases b
    · simp
    · exact allOk_le h gs

theorem ifOk_le {x f : DM Bool} {n : Nat} (h : x.2 ≤ n) (k : f.2 ≤ n) : (ifOk x f).2 ≤ n := by
  unfold ifOk
  refine andThen_le h fun b => ?_
  cases b
  · simp
  · exact k

end Verif.Depth

namespace Verif
open Cost (Gr)

theorem Depth.height_uri (pl : Plat) : Depth.height (Cost.Uri.URI pl) = 50 ∧ Depth.height (Cost.Uri.URIReference pl) = 53 ∧
    Depth.height (Cost.Uri.host pl) = 36 ∧ Depth.height (Cost.Uri.scheme pl) = 12 ∧ Depth.height (Cost.Uri.userinfo pl) = 12 ∧
    Depth.height (Cost.Uri.segment pl) = 12 ∧ Depth.height (Cost.Uri.query pl) = 14 ∧ Depth.height (Cost.Uri.port pl) = 6 := by
  obtain ⟨b⟩ := pl
  cases b <;> decide +kernel

/-! ### The property -/

/-- **C109**, in general: whatever match function is put together from `concat`, `optional`, `star`, `alternative` and matchers of single
characters, its calls nest no deeper than its parts are nested in the program; the text, its length and how often `star` repeats have no
part in it.  (`.1`: the computation is that of the model without depths.) -/
theorem C109_rule {α : Type} (g : Gr α) (r : Rule α) : (Depth.grDepth g r).1 = g.run r ∧ (Depth.grDepth g r).2 ≤ Depth.height g :=
  ⟨Depth.grDepth_fst g r, Depth.grDepth_le g r⟩

/-- **C109**: `split` never has more than 53 calls open at a time, whatever the text. -/
theorem C109_split (pl : Plat) (s : SV) : (Depth.split pl s).1 = split pl s ∧ (Depth.split pl s).2 ≤ 53 := by
  refine ⟨Depth.runGrammar_fst (Cost.Uri.run_URI pl) s, ?_⟩
  have := Depth.runGrammar_le (Cost.Uri.URI pl) s
  rw [(Depth.height_uri pl).1] at this
  simp only [Depth.split, Depth.call_snd]
  omega

/-- **C109**: `split_reference` never more than 56. -/
theorem C109_split_reference (pl : Plat) (s : SV) :
    (Depth.splitReference pl s).1 = splitReference pl s ∧ (Depth.splitReference pl s).2 ≤ 56 := by
  refine ⟨Depth.runGrammar_fst (Cost.Uri.run_URIReference pl) s, ?_⟩
  have := Depth.runGrammar_le (Cost.Uri.URIReference pl) s
  rw [(Depth.height_uri pl).2.1] at this
  simp only [Depth.splitReference, Depth.call_snd]
  omega

/-- **C109**: `valid` never more than 40, whatever the value. -/
theorem C109_valid (pl : Plat) (p : Parts SV) : (Depth.valid pl p).1 = p.valid pl ∧ (Depth.valid pl p).2 ≤ 40 := by
  refine ⟨Depth.valid_fst pl p, ?_⟩
  obtain ⟨-, -, h3, h4, h5, h6, h7, h8⟩ := Depth.height_uri pl
  have b1 := fun s => Depth.fieldOk_le (Cost.Uri.scheme pl) s
  have b2 := fun s => Depth.optOk_le (Cost.Uri.userinfo pl) s
  have b3 := fun s => Depth.fieldOk_le (Cost.Uri.host pl) s
  have b4 := fun s => Depth.optOk_le (Cost.Uri.port pl) s
  have b5 := fun l => Depth.allOk_le (Depth.fieldOk_le (Cost.Uri.segment pl)) l
  have b6 := fun s => Depth.optOk_le (Cost.Uri.query pl) s
  have b7 : ∀ s, (Depth.optOk (Cost.Uri.fragment pl) s).2 ≤ _ := fun s => Depth.optOk_le (Cost.Uri.query pl) s
  rw [h3] at b3; rw [h4] at b1; rw [h5] at b2; rw [h6] at b5; rw [h7] at b6 b7; rw [h8] at b4
  unfold Depth.valid
  rw [Depth.call_snd]
  refine Nat.add_le_add_left (m := 39) ?_ 1
  cases p.scheme with
  | none => simp
  | some s =>
    refine Depth.ifOk_le (Nat.le_trans (b1 s) (by decide)) (Depth.ifOk_le ?_ (Depth.ifOk_le ?_ (Depth.ifOk_le (Nat.le_trans (b6 _) (by decide))
      (Depth.ifOk_le (Nat.le_trans (b7 _) (by decide)) (by simp)))))
    · cases p.authority with
      | none => simp
      | some a =>
        simp only [Depth.authorityValid, Depth.call_snd]
        refine Nat.add_le_add_left (m := 38) ?_ 1
        exact Depth.ifOk_le (Nat.le_trans (b2 _) (by decide)) (Depth.ifOk_le (Nat.le_trans (b3 _) (by decide))
          (Depth.ifOk_le (Nat.le_trans (b4 _) (by decide)) (by simp)))
    · have := b5 p.path.segments
      rw [Depth.call_snd]
      omega

/-- **C109**: the bounds cannot be lowered (calls counted as in `Verif/Model/Depth.lean`). -/
theorem C109_reached (pl : Plat) : (∃ s, (Depth.split pl s).2 = 53) ∧ (∃ s, (Depth.splitReference pl s).2 = 56) ∧ (∃ p, (Depth.valid pl p).2 = 40) := by
  obtain ⟨b⟩ := pl
  refine ⟨⟨⟨0, b! "s://[1::]"⟩, ?_⟩, ⟨⟨0, b! "//[1::]"⟩, ?_⟩,
    ⟨⟨some ⟨1, b! "s"⟩, some ⟨none, ⟨1, b! "[1::]"⟩, none⟩, ⟨false, []⟩, none, none⟩, ?_⟩⟩
  all_goals cases b <;> decide +kernel

end Verif
