import Verif.Spec.Resolve
import Verif.Proofs.Valid

/-!
# `remove_dot_segments`, `merge` and `join`
-/

namespace Verif

set_option linter.unusedSimpArgs false

/-- The loop of `remove_dot_segments` as a stack machine. -/
def stackRun {σ : Type} (f : σ → Str) : List σ → List σ → List σ
  | st, [] => st
  | st, g :: gs =>
      if f g = b! "." then stackRun f st gs
      else if f g = b! ".." then stackRun f st.dropLast gs
      else stackRun f (st ++ [g]) gs

/-- Does the path name a directory? -/
def dirEnd (ld : Bool) (gs : List Str) : Bool :=
  match gs.getLast? with
  | none => ld
  | some g => isDot g || g.isEmpty

theorem dirEnd_cons (ld : Bool) (g : Str) (gs : List Str) :
    dirEnd ld (g :: gs) = dirEnd (isDot g || g.isEmpty) gs := by
  cases gs with
  | nil => rfl
  | cons h t =>
    simp only [dirEnd, List.getLast?_cons_cons]
    cases e : (h :: t).getLast? with
    | none => simp at e
    | some b => rfl

theorem rdsLoop_spec : ∀ (rest : List SV) (it outit : Nat) (ld : Bool) (v : List SV), v.drop it = rest → outit ≤ it →
    let r := rdsLoop rest.length it outit ld v
    r.2.2.take r.1 = stackRun SV.chars (v.take outit) rest ∧ r.2.1 = dirEnd ld (rest.map SV.chars) := by
  intro rest
  induction rest with
  | nil => intro it outit ld v h ho; simp [rdsLoop, stackRun, dirEnd]
  | cons g rest ih =>
    intro it outit ld v h ho
    have hlt : it < v.length := by
      rcases Nat.lt_or_ge it v.length with h' | h'
      · exact h'
      · rw [List.drop_eq_nil_of_le h'] at h; simp at h
    have hd := List.drop_eq_getElem_cons hlt
    rw [h] at hd
    simp only [List.cons.injEq] at hd
    have hg : v[it]? = some g := by rw [List.getElem?_eq_getElem hlt, ← hd.1]
    simp only [List.length_cons, rdsLoop, hg, stackRun, List.map_cons, dirEnd_cons]
    by_cases h1 : g.chars = b! "."
    · simp only [h1, if_true]
      exact ih (it + 1) outit true v hd.2.symm (by omega)
    · simp only [h1, if_false]
      by_cases h2 : g.chars = b! ".."
      · simp only [h2, if_true]
        have := ih (it + 1) (if outit ≠ 0 then outit - 1 else outit) true v hd.2.symm (by split <;> omega)
        have e : v.take (if outit ≠ 0 then outit - 1 else outit) = (v.take outit).dropLast := by
          split
          · rw [List.dropLast_take (by omega)]
          · have : outit = 0 := by omega
            subst this; simp
        rw [e] at this
        exact this
      · simp only [h2, if_false]
        have hnd : isDot g.chars = false := by simp [isDot, h1, h2]
        rw [hnd, Bool.false_or]
        by_cases h3 : outit = it
        · subst h3
          simp only [ne_eq, not_true, if_false]
          have := ih (outit + 1) (outit + 1) g.chars.isEmpty v hd.2.symm (by omega)
          rw [List.take_add_one, hg] at this
          exact this
        · simp only [ne_eq, h3, not_false_eq_true, if_true]
          have := ih (it + 1) (outit + 1) g.chars.isEmpty (v.set outit g) (by rw [List.drop_set_of_lt (by omega)]; exact hd.2.symm) (by omega)
          rw [List.take_add_one, List.getElem?_set_self (by omega)] at this
          rw [List.take_set_of_le (by omega)] at this
          exact this

/-- `remove_dot_segments` as a function of the list of segments. -/
def rdsSegs {σ : Type} (f : σ → Str) (nul : σ) (gs : List σ) : List σ :=
  let st := stackRun f [] gs
  if dirEnd false (gs.map f) then
    match st.getLast? with
    | none => st ++ [nul]
    | some b => if (f b).isEmpty then st else st ++ [nul]
  else st

theorem rds_eq (p : Path SV) : p.removeDotSegments = ⟨p.absolute, rdsSegs SV.chars SV.null p.segments⟩ := by
  have := rdsLoop_spec p.segments 0 0 false p.segments (by simp) (by omega)
  simp only [List.take_zero] at this
  simp only [Path.removeDotSegments, rdsSegs, this.1, this.2]
  cases dirEnd false (List.map SV.chars p.segments) with
  | false => simp
  | true =>
    simp only [if_true]
    cases (stackRun SV.chars [] p.segments).getLast? with
    | none => rfl
    | some b => cases h : b.chars.isEmpty <;> simp [h]

theorem stackRun_map {σ τ : Type} (f : σ → Str) (g : τ → Str) (h : σ → τ) (e : ∀ x, f x = g (h x)) :
    ∀ (gs st : List σ), (stackRun f st gs).map h = stackRun g (st.map h) (gs.map h) := by
  intro gs
  induction gs with
  | nil => intro st; rfl
  | cons x gs ih =>
    intro st
    simp only [stackRun, List.map_cons, e x]
    split
    · exact ih st
    · split
      · rw [ih, List.map_dropLast]
      · rw [ih]; simp

theorem rds_text (p : Path SV) : (p.removeDotSegments).map SV.chars =
    ⟨p.absolute, rdsSegs id [] (p.segments.map SV.chars)⟩ := by
  rw [rds_eq]
  simp only [Path.map, rdsSegs]
  have e := stackRun_map SV.chars id SV.chars (fun _ => rfl) p.segments []
  simp only [List.map_nil] at e
  rw [← e, List.map_id]
  cases dirEnd false (List.map SV.chars p.segments) with
  | false => simp
  | true =>
    simp only [if_true, List.getLast?_map]
    cases (stackRun SV.chars [] p.segments).getLast? with
    | none => simp [SV.null]
    | some b => cases h : b.chars.isEmpty <;> simp [h, SV.null]

/-! ### No dot segments, idempotence -/

theorem stackRun_nodot {σ : Type} (f : σ → Str) : ∀ (gs st : List σ), (∀ g ∈ st, isDot (f g) = false) →
    ∀ g ∈ stackRun f st gs, isDot (f g) = false := by
  intro gs
  induction gs with
  | nil => intro st h; exact h
  | cons x gs ih =>
    intro st h
    simp only [stackRun]
    split
    · exact ih st h
    · split
      · exact ih _ fun g hg => h g ((List.dropLast_sublist st).subset hg)
      · rename_i h1 h2
        apply ih
        intro g hg
        rcases List.mem_append.1 hg with hg | hg
        · exact h g hg
        · simp at hg; subst hg; simp [isDot, h1, h2]

theorem stackRun_sublist {σ : Type} (f : σ → Str) : ∀ (gs st : List σ), (stackRun f st gs).Sublist (st ++ gs) := by
  intro gs
  induction gs with
  | nil => intro st; simp [stackRun]
  | cons x gs ih =>
    intro st
    simp only [stackRun]
    split
    · exact (ih st).trans (List.Sublist.append_left (List.sublist_cons_self x gs) st)
    · split
      · exact (ih _).trans (List.Sublist.append (List.dropLast_sublist st) (List.sublist_cons_self x gs))
      · have := ih (st ++ [x]); simpa using this

theorem stackRun_id {σ : Type} (f : σ → Str) : ∀ (gs st : List σ), (∀ g ∈ gs, isDot (f g) = false) →
    stackRun f st gs = st ++ gs := by
  intro gs
  induction gs with
  | nil => intro st _; simp [stackRun]
  | cons x gs ih =>
    intro st h
    have hx := h x (by simp)
    simp only [isDot, Bool.or_eq_false_iff, beq_eq_false_iff_ne] at hx
    simp only [stackRun, hx.1, hx.2, if_false]
    rw [ih _ fun g hg => h g (by simp [hg])]
    simp

theorem rdsSegs_id {σ : Type} (f : σ → Str) (nul : σ) (gs : List σ) (h : ∀ g ∈ gs, isDot (f g) = false) :
    rdsSegs f nul gs = gs := by
  simp only [rdsSegs, stackRun_id f gs [] h, List.nil_append, dirEnd, List.getLast?_map]
  cases e : gs.getLast? with
  | none => simp
  | some b =>
    have := h b (List.mem_of_getLast? e)
    simp [this]

theorem rdsSegs_nodot {σ : Type} (f : σ → Str) (nul : σ) (hn : f nul = []) (gs : List σ) :
    ∀ g ∈ rdsSegs f nul gs, isDot (f g) = false := by
  have h := stackRun_nodot f gs [] (by simp)
  intro g hg
  simp only [rdsSegs] at hg
  have key : g ∈ stackRun f [] gs ∨ g = nul := by
    split at hg
    · split at hg
      · simpa using hg
      · split at hg
        · exact Or.inl hg
        · simpa using hg
    · exact Or.inl hg
  rcases key with h' | rfl
  · exact h g h'
  · rw [hn]; decide

theorem rdsSegs_sub {σ : Type} (f : σ → Str) (nul : σ) (gs : List σ) :
    (rdsSegs f nul gs).Sublist gs ∨ ∃ l, rdsSegs f nul gs = l ++ [nul] ∧ l.Sublist gs := by
  have h := stackRun_sublist f gs []
  simp only [List.nil_append] at h
  simp only [rdsSegs]
  split
  · split
    · exact Or.inr ⟨_, rfl, h⟩
    · split
      · exact Or.inl h
      · exact Or.inr ⟨_, rfl, h⟩
  · exact Or.inl h

/-! ### The string algorithm -/

theorem slashes_append (a b : List Str) : Abnf.slashes (a ++ b) = Abnf.slashes a ++ Abnf.slashes b := by
  simp [Abnf.slashes]

theorem noSlash_bne {g : Str} (h : NoSlash g) : ∀ c ∈ g, (c != 0x2F) = true := by
  intro c hc
  simp only [bne_iff_ne]
  rintro rfl
  exact h hc

theorem dropWhile_noSlash {g : Str} (h : NoSlash g) (t : Str) : (g ++ 0x2F :: t).dropWhile (· != 0x2F) = 0x2F :: t := by
  rw [List.dropWhile_append_of_pos (noSlash_bne h)]
  simp

theorem takeWhile_noSlash {g : Str} (h : NoSlash g) (gs : List Str) : (g ++ Abnf.slashes gs).takeWhile (· != 0x2F) = g := by
  rw [List.takeWhile_append_of_pos (noSlash_bne h)]
  cases gs with
  | nil => simp [slashes_nil]
  | cons x gs => simp [slashes_cons]

theorem noSlash_reverse {g : Str} (h : NoSlash g) : NoSlash g.reverse := by
  intro hm; exact h (List.mem_reverse.1 hm)

theorem dropLastSegment_slashes (x : Str) (st : List Str) (g : Str) (h : NoSlash g) :
    Rfc.dropLastSegment (x ++ Abnf.slashes (st ++ [g])) = x ++ Abnf.slashes st := by
  have e : (x ++ Abnf.slashes (st ++ [g])).reverse = g.reverse ++ 0x2F :: (x ++ Abnf.slashes st).reverse := by
    rw [slashes_append, slashes_cons, slashes_nil]; simp
  rw [Rfc.dropLastSegment, e, dropWhile_noSlash (noSlash_reverse h)]
  simp

set_option linter.unusedVariables false in
theorem noSlash_prefix {g w t x : Str} (hg : NoSlash g) (hw : NoSlash w) (h : w ++ 0x2F :: t = g ++ x) (hx : x = [] ∨ x.head? = some 0x2F) :
    g = w := by
  have h1 := congrArg (List.takeWhile (· != 0x2F)) h
  rw [List.takeWhile_append_of_pos (noSlash_bne hw), List.takeWhile_append_of_pos (noSlash_bne hg)] at h1
  rcases hx with rfl | hx
  · simp at h1; exact h1.symm
  · cases x with
    | nil => simp at hx
    | cons c x => simp at hx; subst hx; simp at h1; exact h1.symm

theorem isPrefixOf_slash {g w : Str} (hg : NoSlash g) (hw : NoSlash w) (gs : List Str) :
    (w ++ b! "/").isPrefixOf (g ++ Abnf.slashes gs) = true ↔ g = w ∧ gs ≠ [] := by
  rw [List.isPrefixOf_iff_prefix]
  constructor
  · rintro ⟨t, h⟩
    have h' : w ++ 0x2F :: t = g ++ Abnf.slashes gs := by rw [← h]; simp
    have hx : Abnf.slashes gs = [] ∨ (Abnf.slashes gs).head? = some 0x2F := by
      cases gs with
      | nil => left; rfl
      | cons a gs => right; rfl
    have := noSlash_prefix hg hw h' hx
    refine ⟨this, ?_⟩
    rintro rfl
    subst this
    simp [slashes_nil] at h'
  · rintro ⟨rfl, h⟩
    cases gs with
    | nil => exact absurd rfl h
    | cons a gs => exact ⟨a ++ Abnf.slashes gs, by simp [slashes_cons]⟩

theorem eq_slash {g w : Str} (hg : NoSlash g) (hw : NoSlash w) (gs : List Str) : g ++ Abnf.slashes gs = w ↔ g = w ∧ gs = [] := by
  constructor
  · intro h
    cases gs with
    | nil => simpa [slashes_nil] using h
    | cons a gs => exfalso; apply hw; rw [← h]; simp [slashes_cons]
  · rintro ⟨rfl, rfl⟩; simp [slashes_nil]

/-- The list of segments the RFC's algorithm arrives at, on absolute paths. -/
def rfcSegs (st gs : List Str) : List Str :=
  match gs.getLast? with
  | none => stackRun id st gs
  | some g => if isDot g then stackRun id st gs ++ [[]] else stackRun id st gs

/-- No `..` meets an empty stack. -/
def noUnder : Nat → List Str → Prop
  | _, [] => True
  | d, g :: gs =>
      if g = b! "." then noUnder d gs
      else if g = b! ".." then 0 < d ∧ noUnder (d - 1) gs
      else noUnder (d + 1) gs

theorem rfcSegs_cons {st st' : List Str} {g : Str} {gs : List Str} (h : stackRun id st (g :: gs) = stackRun id st' gs) (hgs : gs ≠ []) :
    rfcSegs st (g :: gs) = rfcSegs st' gs := by
  cases gs with
  | nil => exact absurd rfl hgs
  | cons a gs => simp only [rfcSegs, List.getLast?_cons_cons, h]

theorem loop_root (out : Str) : ∀ n, 2 ≤ n → Rfc.removeDotsLoop n (b! "/") out = out ++ b! "/" := by
  intro n hn
  obtain ⟨m, rfl⟩ : ∃ m, n = m + 2 := ⟨n - 2, by omega⟩
  simp [Rfc.removeDotsLoop]

/-- E applied to a lone "/" or to the whole of a normal segment. -/
theorem loop_slashes (pre : Str) : ∀ (gs st : List Str) (n : Nat), (∀ g ∈ gs, NoSlash g) → (∀ g ∈ st, NoSlash g) →
    (pre = [] ∨ noUnder st.length gs) → (Abnf.slashes gs).length < n →
    Rfc.removeDotsLoop n (Abnf.slashes gs) (pre ++ Abnf.slashes st) = pre ++ Abnf.slashes (rfcSegs st gs) := by
  intro gs
  induction gs with
  | nil =>
    intro st n _ _ _ hn
    cases n with
    | zero => simp at hn
    | succ n => simp [Rfc.removeDotsLoop, slashes_nil, rfcSegs, stackRun]
  | cons g gs ih =>
    intro st n hg hst hu hn
    have hgg : NoSlash g := hg g (by simp)
    have hgs : ∀ g ∈ gs, NoSlash g := fun x hx => hg x (by simp [hx])
    have hd1 : NoSlash (b! ".") := by simp [NoSlash]
    have hd2 : NoSlash (b! "..") := by simp [NoSlash]
    cases n with
    | zero => simp at hn
    | succ n =>
      have hlen : (Abnf.slashes (g :: gs)).length = 1 + g.length + (Abnf.slashes gs).length := by
        rw [slashes_cons]; simp; omega
      rw [Rfc.removeDotsLoop]
      rw [if_neg (by rw [slashes_cons]; simp), if_neg (by rw [slashes_cons]; simp), if_neg (by rw [slashes_cons]; simp)]
      have p1 : (b! "/./").isPrefixOf (Abnf.slashes (g :: gs)) = true ↔ g = b! "." ∧ gs ≠ [] := by
        rw [slashes_cons, ← isPrefixOf_slash hgg hd1 gs]; simp
      have p2 : Abnf.slashes (g :: gs) = b! "/." ↔ g = b! "." ∧ gs = [] := by
        rw [slashes_cons, ← eq_slash hgg hd1 gs]; simp
      have p3 : (b! "/../").isPrefixOf (Abnf.slashes (g :: gs)) = true ↔ g = b! ".." ∧ gs ≠ [] := by
        rw [slashes_cons, ← isPrefixOf_slash hgg hd2 gs]; simp
      have p4 : Abnf.slashes (g :: gs) = b! "/.." ↔ g = b! ".." ∧ gs = [] := by
        rw [slashes_cons, ← eq_slash hgg hd2 gs]; simp
      simp only [p1, p2, p3, p4]
      by_cases h1 : g = b! "."
      · subst h1
        have hs : stackRun id st (b! "." :: gs) = stackRun id st gs := by simp [stackRun]
        cases gs with
        | nil =>
          simp only [ne_eq, not_true, and_false, if_false, and_self, if_true]
          rw [loop_root _ _ (by rw [hlen] at hn; simp at hn; omega)]
          simp [rfcSegs, stackRun, isDot, slashes_append, slashes_cons, slashes_nil]
        | cons a gs =>
          simp only [ne_eq, reduceCtorEq, not_false_eq_true, and_self, if_true]
          rw [rfcSegs_cons hs (by simp)]
          have e : b! "/" ++ (Abnf.slashes (b! "." :: a :: gs)).drop 3 = Abnf.slashes (a :: gs) := by simp [slashes_cons]
          rw [e]
          refine ih st n hgs hst ?_ (by rw [hlen] at hn; omega)
          rcases hu with hu | hu
          · exact Or.inl hu
          · right; simpa [noUnder] using hu
      · by_cases h2 : g = b! ".."
        · subst h2
          have hs : stackRun id st (b! ".." :: gs) = stackRun id st.dropLast gs := by simp [stackRun]
          have hd : Rfc.dropLastSegment (pre ++ Abnf.slashes st) = pre ++ Abnf.slashes st.dropLast := by
            rcases List.eq_nil_or_concat st with rfl | ⟨l, b, rfl⟩
            · rcases hu with rfl | hu
              · rfl
              · simp [noUnder] at hu
            · rw [List.concat_eq_append, dropLastSegment_slashes _ _ _ (hst b (by simp)), List.dropLast_concat]
          have hst' : ∀ g ∈ st.dropLast, NoSlash g := fun g hg => hst g ((List.dropLast_sublist st).subset hg)
          rw [hd]
          cases gs with
          | nil =>
            simp only [ne_eq, not_true, and_false, if_false, and_self, if_true, h1, false_and]
            rw [loop_root _ _ (by rw [hlen] at hn; simp at hn; omega)]
            simp [rfcSegs, stackRun, isDot, slashes_append, slashes_cons, slashes_nil]
          | cons a gs =>
            simp only [ne_eq, reduceCtorEq, not_false_eq_true, and_self, if_true, h1, false_and, if_false]
            rw [rfcSegs_cons hs (by simp)]
            have e : b! "/" ++ (Abnf.slashes (b! ".." :: a :: gs)).drop 4 = Abnf.slashes (a :: gs) := by simp [slashes_cons]
            rw [e]
            refine ih _ n hgs hst' ?_ (by rw [hlen] at hn; omega)
            rcases hu with hu | hu
            · exact Or.inl hu
            · right
              rw [List.length_dropLast]
              simp only [noUnder, h1, if_false, if_true] at hu
              exact hu.2
        · simp only [h1, h2, false_and, if_false]
          rw [if_neg (by rw [slashes_cons]; simp)]
          have hs : stackRun id st (g :: gs) = stackRun id (st ++ [g]) gs := by simp [stackRun, h1, h2]
          have e1 : (Abnf.slashes (g :: gs)).take 1 ++ ((Abnf.slashes (g :: gs)).drop 1).takeWhile (· != 0x2F) = 0x2F :: g := by
            rw [slashes_cons]
            simp only [List.take_succ_cons, List.take_zero, List.drop_succ_cons, List.drop_zero]
            rw [takeWhile_noSlash hgg]; rfl
          have e2 : (Abnf.slashes (g :: gs)).drop (0x2F :: g).length = Abnf.slashes gs := by
            rw [slashes_cons]; simp
          have e3 : pre ++ Abnf.slashes st ++ 0x2F :: g = pre ++ Abnf.slashes (st ++ [g]) := by
            rw [slashes_append, slashes_cons, slashes_nil]; simp
          simp only [e1]
          rw [e2, e3, ih (st ++ [g]) n hgs ?_ ?_ (by rw [hlen] at hn; omega)]
          · cases gs with
            | nil => simp [rfcSegs, stackRun, isDot, h1, h2]
            | cons a gs => rw [rfcSegs_cons hs (by simp)]
          · intro x hx
            rcases List.mem_append.1 hx with hx | hx
            · exact hst x hx
            · simp at hx; subst hx; exact hgg
          · rcases hu with hu | hu
            · exact Or.inl hu
            · right
              simpa [noUnder, h1, h2] using hu

/-- On absolute paths the RFC's algorithm arrives at `rfcSegs`. -/
theorem rfc_absolute (gs : List Str) (h : ∀ g ∈ gs, NoSlash g) :
    Rfc.removeDotSegments (Abnf.slashes gs) = Abnf.slashes (rfcSegs [] gs) := by
  have := loop_slashes [] gs [] ((Abnf.slashes gs).length + 1) h (by simp) (Or.inl rfl) (by omega)
  simpa [slashes_nil, Rfc.removeDotSegments] using this

/-- Segments separated by slashes. -/
def joinText : List Str → Str
  | [] => []
  | g :: gs => g ++ Abnf.slashes gs

theorem head_slashes (gs : List Str) : Abnf.slashes gs = [] ∨ ∃ t, Abnf.slashes gs = 0x2F :: t := by
  cases gs with
  | nil => exact Or.inl rfl
  | cons a gs => exact Or.inr ⟨_, rfl⟩

theorem lastDot_none {gs : List Str} (h : gs.getLast? = none) : lastDot gs = false := by rw [lastDot, h]; rfl
theorem lastDot_some {gs : List Str} {g} (h : gs.getLast? = some g) : lastDot gs = isDot g := by rw [lastDot, h]; rfl

theorem rfcSegs_eq (st gs : List Str) : rfcSegs st gs = if lastDot gs = true then stackRun id st gs ++ [[]] else stackRun id st gs := by
  simp only [rfcSegs]
  cases h : gs.getLast? with
  | none => rw [lastDot_none h]; simp
  | some g => rw [lastDot_some h]

theorem dropWhile_all {β : Type} {f : β → Bool} : ∀ {l : List β}, (∀ c ∈ l, f c = true) → l.dropWhile f = []
  | [], _ => rfl
  | c :: l, h => by
    rw [List.dropWhile_cons, if_pos (h c (by simp))]
    exact dropWhile_all fun d hd => h d (by simp [hd])

theorem noUnder_sinks : ∀ (gs : List Str) (d : Nat), noUnder d gs ↔ sinks d gs = false := by
  intro gs
  induction gs with
  | nil => intro d; simp [noUnder, sinks]
  | cons g gs ih =>
    intro d
    simp only [noUnder, sinks]
    split
    · exact ih d
    · split
      · rw [ih]; cases d <;> simp
      · exact ih _

/-- A `..` removes the first segment of a relative path, which has no slash before it. -/
theorem loop_sink (pre : Str) (hp : NoSlash pre) : ∀ (gs st : List Str) (n : Nat), (∀ g ∈ gs, NoSlash g) → (∀ g ∈ st, NoSlash g) →
    sinks st.length gs = true → (Abnf.slashes gs).length < n →
    Rfc.removeDotsLoop n (Abnf.slashes gs) (pre ++ Abnf.slashes st) = Abnf.slashes (rfcSegs (pre :: st) gs) := by
  intro gs
  induction gs with
  | nil => intro st n _ _ hu hn; simp [sinks] at hu
  | cons g gs ih =>
    intro st n hg hst hu hn
    have hgg : NoSlash g := hg g (by simp)
    have hgs : ∀ g ∈ gs, NoSlash g := fun x hx => hg x (by simp [hx])
    have hd1 : NoSlash (b! ".") := by simp [NoSlash]
    have hd2 : NoSlash (b! "..") := by simp [NoSlash]
    cases n with
    | zero => simp at hn
    | succ n =>
      have hlen : (Abnf.slashes (g :: gs)).length = 1 + g.length + (Abnf.slashes gs).length := by
        rw [slashes_cons]; simp; omega
      rw [Rfc.removeDotsLoop]
      rw [if_neg (by rw [slashes_cons]; simp), if_neg (by rw [slashes_cons]; simp), if_neg (by rw [slashes_cons]; simp)]
      have p1 : (b! "/./").isPrefixOf (Abnf.slashes (g :: gs)) = true ↔ g = b! "." ∧ gs ≠ [] := by
        rw [slashes_cons, ← isPrefixOf_slash hgg hd1 gs]; simp
      have p2 : Abnf.slashes (g :: gs) = b! "/." ↔ g = b! "." ∧ gs = [] := by
        rw [slashes_cons, ← eq_slash hgg hd1 gs]; simp
      have p3 : (b! "/../").isPrefixOf (Abnf.slashes (g :: gs)) = true ↔ g = b! ".." ∧ gs ≠ [] := by
        rw [slashes_cons, ← isPrefixOf_slash hgg hd2 gs]; simp
      have p4 : Abnf.slashes (g :: gs) = b! "/.." ↔ g = b! ".." ∧ gs = [] := by
        rw [slashes_cons, ← eq_slash hgg hd2 gs]; simp
      simp only [p1, p2, p3, p4]
      by_cases h1 : g = b! "."
      · subst h1
        have hs : stackRun id (pre :: st) (b! "." :: gs) = stackRun id (pre :: st) gs := by simp [stackRun]
        have hu' : sinks st.length gs = true := by simpa [sinks] using hu
        cases gs with
        | nil => simp [sinks] at hu'
        | cons a gs =>
          simp only [ne_eq, reduceCtorEq, not_false_eq_true, and_self, if_true]
          rw [rfcSegs_cons hs (by simp)]
          have e : b! "/" ++ (Abnf.slashes (b! "." :: a :: gs)).drop 3 = Abnf.slashes (a :: gs) := by simp [slashes_cons]
          rw [e]
          exact ih st n hgs hst hu' (by rw [hlen] at hn; omega)
      · by_cases h2 : g = b! ".."
        · subst h2
          have hs : stackRun id (pre :: st) (b! ".." :: gs) = stackRun id (pre :: st).dropLast gs := by simp [stackRun]
          rcases List.eq_nil_or_concat st with rfl | ⟨l, b, rfl⟩
          · have hd : Rfc.dropLastSegment (pre ++ Abnf.slashes []) = [] := by
              have : pre.reverse.dropWhile (· != 0x2F) = [] := by
                exact dropWhile_all (noSlash_bne (noSlash_reverse hp))
              simp [Rfc.dropLastSegment, slashes_nil, this]
            rw [hd]
            cases gs with
            | nil =>
              simp only [ne_eq, not_true, and_false, if_false, and_self, if_true, h1, false_and]
              rw [loop_root _ _ (by rw [hlen] at hn; simp at hn; omega)]
              simp [rfcSegs, stackRun, isDot, slashes_append, slashes_cons, slashes_nil]
            | cons a gs =>
              simp only [ne_eq, reduceCtorEq, not_false_eq_true, and_self, if_true, h1, false_and, if_false]
              rw [rfcSegs_cons hs (by simp)]
              have e : b! "/" ++ (Abnf.slashes (b! ".." :: a :: gs)).drop 4 = Abnf.slashes (a :: gs) := by simp [slashes_cons]
              rw [e]
              have := loop_slashes [] (a :: gs) [] n hgs (by simp) (Or.inl rfl) (by rw [hlen] at hn; omega)
              simpa [slashes_nil] using this
          · rw [List.concat_eq_append] at *
            rw [dropLastSegment_slashes _ _ _ (hst b (by simp))]
            have hdl : (pre :: (l ++ [b])).dropLast = pre :: l := by
              rw [show pre :: (l ++ [b]) = (pre :: l) ++ [b] from rfl, List.dropLast_concat]
            rw [hdl] at hs
            have hu' : sinks l.length gs = true := by simpa [sinks] using hu
            have hst' : ∀ g ∈ l, NoSlash g := fun g hg => hst g (by simp [hg])
            cases gs with
            | nil => simp [sinks] at hu'
            | cons a gs =>
              simp only [ne_eq, reduceCtorEq, not_false_eq_true, and_self, if_true, h1, false_and, if_false]
              rw [rfcSegs_cons hs (by simp)]
              have e : b! "/" ++ (Abnf.slashes (b! ".." :: a :: gs)).drop 4 = Abnf.slashes (a :: gs) := by simp [slashes_cons]
              rw [e]
              exact ih l n hgs hst' hu' (by rw [hlen] at hn; omega)
        · simp only [h1, h2, false_and, if_false]
          rw [if_neg (by rw [slashes_cons]; simp)]
          have hs : stackRun id (pre :: st) (g :: gs) = stackRun id (pre :: (st ++ [g])) gs := by simp [stackRun, h1, h2]
          have e1 : (Abnf.slashes (g :: gs)).take 1 ++ ((Abnf.slashes (g :: gs)).drop 1).takeWhile (· != 0x2F) = 0x2F :: g := by
            rw [slashes_cons]
            simp only [List.take_succ_cons, List.take_zero, List.drop_succ_cons, List.drop_zero]
            rw [takeWhile_noSlash hgg]; rfl
          have e2 : (Abnf.slashes (g :: gs)).drop (0x2F :: g).length = Abnf.slashes gs := by
            rw [slashes_cons]; simp
          have e3 : pre ++ Abnf.slashes st ++ 0x2F :: g = pre ++ Abnf.slashes (st ++ [g]) := by
            rw [slashes_append, slashes_cons, slashes_nil]; simp
          have hu' : sinks (st ++ [g]).length gs = true := by simpa [sinks, h1, h2] using hu
          simp only [e1]
          rw [e2, e3, ih (st ++ [g]) n hgs ?_ hu' (by rw [hlen] at hn; omega)]
          · cases gs with
            | nil => simp [sinks] at hu'
            | cons a gs => rw [rfcSegs_cons hs (by simp)]
          · intro x hx
            rcases List.mem_append.1 hx with hx | hx
            · exact hst x hx
            · simp at hx; subst hx; exact hgg

/-- Popping below the bottom segment, it makes no difference. -/
theorem stackRun_sinks (g : Str) : ∀ (gs st : List Str), sinks st.length gs = true →
    stackRun id (g :: st) gs = stackRun id st gs := by
  intro gs
  induction gs with
  | nil => intro st h; simp [sinks] at h
  | cons x gs ih =>
    intro st h
    simp only [stackRun, id]
    simp only [sinks] at h
    by_cases h1 : x = b! "."
    · simp only [h1, if_true] at h ⊢; exact ih st h
    · by_cases h2 : x = b! ".."
      · subst h2
        simp only [h1, if_false, if_true] at h ⊢
        cases st with
        | nil => rfl
        | cons a st =>
          rw [show (g :: a :: st).dropLast = g :: (a :: st).dropLast from rfl]
          exact ih _ (by rw [List.length_dropLast]; simpa using h)
      · simp only [h1, h2, if_false] at h ⊢
        have := ih (st ++ [x]) (by simpa using h)
        simpa using this

/-- The RFC's algorithm on relative paths. -/
theorem loop_relative : ∀ (gs : List Str) (n : Nat), (∀ g ∈ gs, NoSlash g) → (joinText gs).length < n →
    Rfc.removeDotsLoop n (joinText gs) [] =
      match gs.dropWhile isDot with
      | [] => []
      | g :: rest => if sinks 0 rest then Abnf.slashes (rfcSegs [g] rest) else g ++ Abnf.slashes (rfcSegs [] rest) := by
  intro gs
  induction gs with
  | nil => intro n _ hn; cases n <;> simp [Rfc.removeDotsLoop, joinText]
  | cons g gs ih =>
    intro n hg hn
    have hgg : NoSlash g := hg g (by simp)
    have hgs : ∀ g ∈ gs, NoSlash g := fun x hx => hg x (by simp [hx])
    have hd1 : NoSlash (b! ".") := by simp [NoSlash]
    have hd2 : NoSlash (b! "..") := by simp [NoSlash]
    cases n with
    | zero => simp at hn
    | succ n =>
      have hlen : (joinText (g :: gs)).length = g.length + (Abnf.slashes gs).length := by simp [joinText]
      have hjl : (joinText gs).length ≤ (Abnf.slashes gs).length := by
        cases gs with
        | nil => simp [joinText]
        | cons a gs => simp [joinText, slashes_cons]
      have p1 : (b! "./").isPrefixOf (joinText (g :: gs)) = true ↔ g = b! "." ∧ gs ≠ [] :=
        isPrefixOf_slash hgg hd1 gs
      have p2 : joinText (g :: gs) = b! "." ↔ g = b! "." ∧ gs = [] := eq_slash hgg hd1 gs
      have p3 : (b! "../").isPrefixOf (joinText (g :: gs)) = true ↔ g = b! ".." ∧ gs ≠ [] :=
        isPrefixOf_slash hgg hd2 gs
      have p4 : joinText (g :: gs) = b! ".." ↔ g = b! ".." ∧ gs = [] := eq_slash hgg hd2 gs
      by_cases h1 : g = b! "."
      · subst h1
        have hdw : (b! "." :: gs).dropWhile isDot = gs.dropWhile isDot := by simp [isDot]
        rw [hdw]
        rw [Rfc.removeDotsLoop, if_neg (by simp [joinText])]
        simp only [p1, p2, p3, p4]
        cases gs with
        | nil =>
          cases n with
          | zero => simp [joinText] at hn
          | succ n => simp [joinText, Rfc.removeDotsLoop, slashes_nil]
        | cons a gs =>
          simp only [ne_eq, reduceCtorEq, not_false_eq_true, and_self, if_true, and_true]
          rw [if_neg (by simp)]
          have e : (joinText (b! "." :: a :: gs)).drop 2 = joinText (a :: gs) := by simp [joinText, slashes_cons]
          rw [e]
          exact ih n hgs (by rw [hlen] at hn; simp at hn; omega)
      · by_cases h2 : g = b! ".."
        · subst h2
          have hdw : (b! ".." :: gs).dropWhile isDot = gs.dropWhile isDot := by simp [isDot]
          rw [hdw]
          rw [Rfc.removeDotsLoop, if_neg (by simp [joinText])]
          simp only [p1, p2, p3, p4]
          cases gs with
          | nil =>
            cases n with
            | zero => simp [joinText] at hn
            | succ n => simp [joinText, Rfc.removeDotsLoop, slashes_nil]
          | cons a gs =>
            simp only [ne_eq, reduceCtorEq, not_false_eq_true, and_self, if_true, and_true]
            have e : (joinText (b! ".." :: a :: gs)).drop 3 = joinText (a :: gs) := by simp [joinText, slashes_cons]
            rw [e]
            exact ih n hgs (by rw [hlen] at hn; simp at hn; omega)
        · have hdw : (g :: gs).dropWhile isDot = g :: gs := by simp [isDot, h1, h2]
          rw [hdw]
          simp only
          cases g with
          | nil =>
            have e0 : joinText ([] :: gs) = Abnf.slashes gs := rfl
            rw [e0]
            have hl := loop_slashes [] gs [] (n + 1) hgs (by simp) (Or.inl rfl) (by rw [e0] at hn; exact hn)
            simp only [slashes_nil, List.append_nil] at hl
            rw [hl]
            cases hsk : sinks 0 gs with
            | false => simp
            | true =>
              have := stackRun_sinks [] gs [] hsk
              simp only [if_true, List.nil_append]
              rw [rfcSegs_eq, rfcSegs_eq, this]
          | cons c g' =>
            have hc : c ≠ 0x2F := by rintro rfl; exact hgg (by simp)
            rw [Rfc.removeDotsLoop, if_neg (by simp [joinText])]
            simp only [p1, p2, p3, p4, h1, h2, false_and, if_false, or_self]
            have q1 : ∀ w : Str, ((0x2F :: w).isPrefixOf (joinText ((c :: g') :: gs)) = true) = False := by
              intro w; simp [joinText, List.isPrefixOf, Ne.symm hc]
            have q2 : ∀ w : Str, (joinText ((c :: g') :: gs) = 0x2F :: w) = False := by
              intro w; simp [joinText, hc]
            simp only [q1, q2, if_false]
            have hg' : NoSlash g' := fun hm => hgg (by simp [hm])
            have e1 : (joinText ((c :: g') :: gs)).take 1 ++ ((joinText ((c :: g') :: gs)).drop 1).takeWhile (· != 0x2F) = c :: g' := by
              simp only [joinText, List.cons_append, List.take_succ_cons, List.take_zero, List.drop_succ_cons, List.drop_zero]
              rw [takeWhile_noSlash hg']; rfl
            have e2 : (joinText ((c :: g') :: gs)).drop (c :: g').length = Abnf.slashes gs := by simp [joinText]
            simp only [e1, e2]
            cases hsk : sinks 0 gs with
            | false =>
              have := loop_slashes (c :: g') gs [] n hgs (by simp) (Or.inr ((noUnder_sinks _ _).2 hsk)) (by rw [hlen] at hn; simp at hn; omega)
              simpa [slashes_nil] using this
            | true =>
              have := loop_sink (c :: g') hgg gs [] n hgs (by simp) hsk (by rw [hlen] at hn; simp at hn; omega)
              simpa [slashes_nil] using this

theorem stackRun_dots : ∀ gs : List Str, stackRun id [] gs = stackRun id [] (gs.dropWhile isDot) := by
  intro gs
  induction gs with
  | nil => rfl
  | cons g gs ih =>
    by_cases h : isDot g = true
    · rw [List.dropWhile_cons, if_pos h, ← ih]
      simp only [isDot, Bool.or_eq_true, beq_iff_eq] at h
      rcases h with rfl | rfl <;> simp [stackRun]
    · rw [List.dropWhile_cons, if_neg h]

theorem stackRun_noUnder (g : Str) : ∀ (gs st : List Str), noUnder st.length gs →
    stackRun id (g :: st) gs = g :: stackRun id st gs := by
  intro gs
  induction gs with
  | nil => intro st _; rfl
  | cons x gs ih =>
    intro st h
    simp only [stackRun, id]
    simp only [noUnder] at h
    by_cases h1 : x = b! "."
    · simp only [h1, if_true] at h ⊢; exact ih st h
    · by_cases h2 : x = b! ".."
      · subst h2
        simp only [h1, if_false, if_true] at h ⊢
        cases st with
        | nil => simp at h
        | cons a st =>
          rw [show (g :: a :: st).dropLast = g :: (a :: st).dropLast from rfl]
          exact ih _ (by rw [List.length_dropLast]; exact h.2)
      · simp only [h1, h2, if_false] at h ⊢
        have := ih (st ++ [x]) (by simpa using h)
        simpa using this

/-! ### Comparing the two -/

theorem stackRun_last_push (st gs : List Str) (g : Str) (h : gs.getLast? = some g) (hd : isDot g = false) :
    (stackRun id st gs).getLast? = some g := by
  induction gs generalizing st with
  | nil => simp at h
  | cons x gs ih =>
    cases gs with
    | nil =>
      simp at h; subst h
      simp only [isDot, Bool.or_eq_false_iff, beq_eq_false_iff_ne] at hd
      simp [stackRun, hd.1, hd.2]
    | cons y gs =>
      rw [List.getLast?_cons_cons] at h
      simp only [stackRun]
      split
      · exact ih _ h
      · split
        · exact ih _ h
        · exact ih _ h

theorem rds_vs_rfc (gs : List Str) :
    rdsSegs id [] gs = if lastDot gs = true ∧ (stackRun id [] gs).getLast? = some [] then stackRun id [] gs
      else if lastDot gs = true then stackRun id [] gs ++ [[]] else stackRun id [] gs := by
  simp only [rdsSegs, List.map_id, dirEnd]
  cases h : gs.getLast? with
  | none => rw [lastDot_none h]; simp
  | some g =>
    rw [lastDot_some h]
    cases hd : isDot g with
    | true =>
      simp only [true_and, if_true, Bool.true_or]
      cases e : (stackRun id [] gs).getLast? with
      | none => simp [hd]
      | some b => cases b <;> simp [hd]
    | false =>
      have := stackRun_last_push [] gs g h hd
      rw [this]
      cases g <;> simp [hd]

theorem pathText_abs (gs : List Str) : pathText ⟨true, gs⟩ = Abnf.slashes gs := by
  cases gs with
  | nil => rfl
  | cons g gs => simp [pathText, slashes_cons]

theorem pathText_rel (gs : List Str) : pathText ⟨false, gs⟩ = joinText gs := by
  cases gs with
  | nil => rfl
  | cons g gs => simp [pathText, joinText]

theorem suffix_slash {x : Str} : (b! "//") <:+ x ++ b! "/" ↔ x.getLast? = some 0x2F := by
  constructor
  · rintro ⟨t, h⟩
    have : t ++ b! "/" = x := by
      have h' : (t ++ b! "/") ++ b! "/" = x ++ b! "/" := by rw [← h]; simp
      exact List.append_cancel_right h'
    rw [← this]; simp
  · intro h
    obtain ⟨l, rfl⟩ : ∃ l, x = l ++ [0x2F] := by
      rcases List.eq_nil_or_concat x with rfl | ⟨l, b, rfl⟩
      · simp at h
      · simp at h; subst h; exact ⟨l, by simp⟩
    exact ⟨l, by simp⟩

theorem slashes_getLast {st : List Str} (h : ∀ g ∈ st, NoSlash g) : (Abnf.slashes st).getLast? = some 0x2F ↔ st.getLast? = some [] := by
  rcases List.eq_nil_or_concat st with rfl | ⟨l, b, rfl⟩
  · simp [slashes_nil]
  · rw [List.concat_eq_append, slashes_append, slashes_cons, slashes_nil]
    have hb : NoSlash b := h b (by simp)
    rcases List.eq_nil_or_concat b with rfl | ⟨b', c, rfl⟩
    · simp
    · have : c ≠ 0x2F := by rintro rfl; exact hb (by simp)
      rw [List.append_nil, List.concat_eq_append,
        show Abnf.slashes l ++ 0x2F :: (b' ++ [c]) = (Abnf.slashes l ++ 0x2F :: b') ++ [c] by simp,
        List.getLast?_concat, List.getLast?_concat]
      simp [this]

theorem stackRun_mem {gs st : List Str} {P : Str → Prop} (h1 : ∀ g ∈ st, P g) (h2 : ∀ g ∈ gs, P g) :
    ∀ g ∈ stackRun id st gs, P g := by
  intro g hg
  rcases List.mem_append.1 ((stackRun_sublist id gs st).subset hg) with h | h
  · exact h1 g h
  · exact h2 g h

/-- Both algorithms on an absolute path. -/
theorem rds_absolute (gs : List Str) (h : ∀ g ∈ gs, NoSlash g) :
    (¬ (lastDot gs = true ∧ b! "//" <:+ Rfc.removeDotSegments (Abnf.slashes gs)) →
      Abnf.slashes (rdsSegs id [] gs) = Rfc.removeDotSegments (Abnf.slashes gs)) ∧
    (lastDot gs = true ∧ b! "//" <:+ Rfc.removeDotSegments (Abnf.slashes gs) →
      Abnf.slashes (rdsSegs id [] gs) ++ b! "/" = Rfc.removeDotSegments (Abnf.slashes gs)) := by
  rw [rfc_absolute gs h, rfcSegs_eq, rds_vs_rfc]
  by_cases hl : lastDot gs = true
  · simp only [hl, true_and, if_true]
    have e : Abnf.slashes (stackRun id [] gs ++ [[]]) = Abnf.slashes (stackRun id [] gs) ++ b! "/" := by
      rw [slashes_append, slashes_cons, slashes_nil]; simp
    rw [e, suffix_slash, slashes_getLast (stackRun_mem (by simp) h)]
    constructor
    · intro h1; rw [if_neg h1, e]
    · intro h1; rw [if_pos h1]
  · simp [hl]

theorem getLast?_append' {β : Type} (a : List β) {b : List β} (h : b ≠ []) : (a ++ b).getLast? = b.getLast? := by
  rw [List.getLast?_append]
  cases e : b.getLast? with
  | none => simp at e; exact absurd e h
  | some x => rfl

theorem joinText_cons (g : Str) (gs : List Str) : joinText (g :: gs) = g ++ Abnf.slashes gs := rfl

theorem lastDot_dropWhile {gs rest : List Str} {g : Str} (e : gs.dropWhile isDot = g :: rest) : isDot g = false ∧ lastDot gs = lastDot rest := by
  have hgd : isDot g = false := by
    have := List.head?_dropWhile_not isDot gs
    rw [e] at this
    simpa using this
  refine ⟨hgd, ?_⟩
  obtain ⟨pre, hpre⟩ : ∃ pre, gs = pre ++ g :: rest := ⟨gs.takeWhile isDot, by rw [← e, List.takeWhile_append_dropWhile]⟩
  rw [hpre]
  cases rest with
  | nil => simp [lastDot, hgd]
  | cons a r => simp only [lastDot]; rw [getLast?_append' _ (by simp), List.getLast?_cons_cons]

theorem slashes_join (gs : List Str) (h : gs ≠ []) : Abnf.slashes gs = 0x2F :: joinText gs := by
  cases gs with
  | nil => exact absurd rfl h
  | cons g gs => rfl

/-- A slash if the condition holds, else nothing. -/
def SlashIf (c : Prop) (x : Str) : Prop := (c ∧ x = b! "/") ∨ (¬ c ∧ x = [])

/-- Both algorithms on a relative path. -/
theorem rds_relative (gs : List Str) (h : ∀ g ∈ gs, NoSlash g) :
    ∃ x y, SlashIf (climbs gs = true) x ∧
      SlashIf (lastDot gs = true ∧ (b! "//" <:+ Rfc.removeDotSegments (joinText gs) ∨
        climbs gs = false ∧ Rfc.removeDotSegments (joinText gs) = b! "/")) y ∧
      Rfc.removeDotSegments (joinText gs) = x ++ joinText (rdsSegs id [] gs) ++ y := by
  have hr : Rfc.removeDotSegments (joinText gs) = _ := loop_relative gs ((joinText gs).length + 1) h (by omega)
  rw [rds_vs_rfc, stackRun_dots]
  cases e : gs.dropWhile isDot with
  | nil =>
    rw [e] at hr
    rw [hr, climbs, e]
    refine ⟨[], [], Or.inr ⟨by simp, rfl⟩, Or.inr ⟨by simp, rfl⟩, ?_⟩
    cases lastDot gs <;> simp [stackRun, joinText, slashes_nil]
  | cons g rest =>
    rw [e] at hr
    simp only at hr
    obtain ⟨hgd, hld⟩ := lastDot_dropWhile e
    have hgd' := hgd
    simp only [isDot, Bool.or_eq_false_iff, beq_eq_false_iff_ne] at hgd'
    have hsr : stackRun id [] (g :: rest) = stackRun id [g] rest := by
      simp only [stackRun, id, hgd'.1, hgd'.2, if_false, List.nil_append]
    have hmem : ∀ x ∈ g :: rest, NoSlash x := fun x hx => h x ((List.dropWhile_sublist isDot).subset (e ▸ hx))
    have hcl : climbs gs = sinks 0 rest := by simp only [climbs, e]
    rw [hcl, hld, hsr]
    cases hsk : sinks 0 rest with
    | true =>
      rw [hsk] at hr
      simp only [if_true] at hr
      rw [hr, rfcSegs_eq]
      have hst : ∀ x ∈ stackRun id [g] rest, NoSlash x := stackRun_mem (by simpa using hmem g (by simp)) fun x hx => hmem x (by simp [hx])
      by_cases hl : lastDot rest = true
      · have e2 : Abnf.slashes (stackRun id [g] rest ++ [[]]) = Abnf.slashes (stackRun id [g] rest) ++ b! "/" := by
          rw [slashes_append, slashes_cons, slashes_nil]; simp
        simp only [hl, true_and, if_true, Bool.true_eq_false, false_and, or_false]
        rw [e2, suffix_slash, slashes_getLast hst]
        by_cases hx : (stackRun id [g] rest).getLast? = some []
        · refine ⟨b! "/", b! "/", Or.inl ⟨trivial, rfl⟩, Or.inl ⟨hx, rfl⟩, ?_⟩
          rw [if_pos hx, slashes_join _ (by rintro h0; rw [h0] at hx; simp at hx)]
          simp
        · refine ⟨b! "/", [], Or.inl ⟨trivial, rfl⟩, Or.inr ⟨hx, rfl⟩, ?_⟩
          rw [if_neg hx, ← e2, slashes_join _ (by simp)]
          simp
      · have hl' : lastDot rest = false := by simpa using hl
        have hne : stackRun id [g] rest ≠ [] := by
          cases e3 : rest.getLast? with
          | none => simp at e3; subst e3; simp [sinks] at hsk
          | some y =>
            rw [lastDot_some e3] at hl'
            have := stackRun_last_push [g] rest y e3 hl'
            intro h0; rw [h0] at this; simp at this
        simp only [hl', Bool.false_eq_true, false_and, if_false, if_true, List.append_nil]
        refine ⟨b! "/", [], Or.inl ⟨trivial, rfl⟩, Or.inr ⟨fun h => h, rfl⟩, ?_⟩
        rw [slashes_join _ hne]
        simp
    | false =>
      rw [hsk] at hr
      simp only [Bool.false_eq_true, if_false] at hr
      have hno := (noUnder_sinks rest 0).2 hsk
      rw [stackRun_noUnder g rest [] hno]
      have hst : ∀ x ∈ stackRun id [] rest, NoSlash x := stackRun_mem (by simp) fun x hx => hmem x (by simp [hx])
      rw [hr, rfcSegs_eq]
      by_cases hl : lastDot rest = true
      · simp only [hl, true_and, if_true, Bool.false_eq_true, if_false, List.nil_append]
        have e2 : g ++ Abnf.slashes (stackRun id [] rest ++ [[]]) = (g ++ Abnf.slashes (stackRun id [] rest)) ++ b! "/" := by
          rw [slashes_append, slashes_cons, slashes_nil]; simp
        have hlast : (b! "//" <:+ (g ++ Abnf.slashes (stackRun id [] rest)) ++ b! "/" ∨ (g ++ Abnf.slashes (stackRun id [] rest)) ++ b! "/" = b! "/") ↔
            (g :: stackRun id [] rest).getLast? = some [] := by
          rw [suffix_slash]
          cases e3 : stackRun id [] rest with
          | nil =>
            have hg : NoSlash g := hmem g (by simp)
            simp only [slashes_nil, List.append_nil, List.getLast?_singleton, Option.some.injEq]
            constructor
            · rintro (h1 | h1)
              · exact absurd (List.mem_of_getLast? h1) hg
              · simpa using h1
            · rintro rfl; right; rfl
          | cons a r =>
            rw [List.getLast?_cons_cons, ← e3, ← slashes_getLast hst, getLast?_append' _ (by rw [e3]; simp [slashes_cons])]
            constructor
            · rintro (h1 | h1)
              · exact h1
              · exfalso
                rw [e3, slashes_cons] at h1
                have h2 := congrArg List.length h1
                simp at h2
                omega
            · exact Or.inl
        rw [e2]
        by_cases hx : (g :: stackRun id [] rest).getLast? = some []
        · refine ⟨[], b! "/", Or.inr ⟨by simp, rfl⟩, Or.inl ⟨hlast.2 hx, rfl⟩, ?_⟩
          rw [if_pos hx]; simp [joinText]
        · refine ⟨[], [], Or.inr ⟨by simp, rfl⟩, Or.inr ⟨fun h => hx (hlast.1 h), rfl⟩, ?_⟩
          rw [if_neg hx]; simp [joinText, slashes_append, slashes_cons, slashes_nil]
      · have hl' : lastDot rest = false := by simpa using hl
        refine ⟨[], [], Or.inr ⟨by simp, rfl⟩, Or.inr ⟨by simp [hl'], rfl⟩, ?_⟩
        simp [hl', joinText]

/-! ### The segments of a text -/

theorem splitSlash_noSlash : ∀ g : Str, NoSlash g → Rfc.splitSlash g = [g]
  | [], _ => rfl
  | c :: g, h => by
    have hc : c ≠ 0x2F := by rintro rfl; exact h (by simp)
    simp only [Rfc.splitSlash, hc, if_false, splitSlash_noSlash g fun hm => h (by simp [hm])]

theorem splitSlash_cons : ∀ (g t : Str), NoSlash g → Rfc.splitSlash (g ++ 0x2F :: t) = g :: Rfc.splitSlash t
  | [], t, _ => by simp [Rfc.splitSlash]
  | c :: g, t, h => by
    have hc : c ≠ 0x2F := by rintro rfl; exact h (by simp)
    simp only [List.cons_append, Rfc.splitSlash, hc, if_false, splitSlash_cons g t fun hm => h (by simp [hm])]

theorem splitSlash_join : ∀ gs : List Str, gs ≠ [] → (∀ g ∈ gs, NoSlash g) → Rfc.splitSlash (joinText gs) = gs
  | [], h, _ => absurd rfl h
  | [g], _, h => by simpa [joinText, slashes_nil] using splitSlash_noSlash g (h g (by simp))
  | g :: g' :: gs, _, h => by
    have := splitSlash_join (g' :: gs) (by simp) fun x hx => h x (by simp [hx])
    have e : joinText (g :: g' :: gs) = g ++ 0x2F :: joinText (g' :: gs) := by
      simp only [joinText, slashes_cons]
    rw [e, splitSlash_cons _ _ (h g (by simp)), this]

/-- Is the text of the path that of an absolute one? -/
theorem pathText_slash {p : Path Str} (h : PathWf p) : ((pathText p).head? = some 0x2F) ↔ p.absolute = true := by
  obtain ⟨ab, gs⟩ := p
  cases gs with
  | nil => have := h.empty rfl; simp only at this; subst this; simp [pathText]
  | cons g gs =>
    cases ab with
    | true => simp [pathText]
    | false =>
      have := h.first rfl g gs rfl
      obtain ⟨c, g', rfl⟩ := List.exists_cons_of_ne_nil this
      have hc : c ≠ 0x2F := by rintro rfl; exact h.noSlash _ (by simp : (0x2F :: g') ∈ (0x2F :: g') :: gs) (by simp)
      simp [pathText, hc]

theorem segmentsOf_pathText {p : Path Str} (h : PathWf p) : Rfc.segmentsOf (pathText p) = p.segments := by
  have hh := pathText_slash h
  obtain ⟨ab, gs⟩ := p
  simp only [Rfc.segmentsOf]
  cases gs with
  | nil => simp [pathText]
  | cons g gs =>
    cases ab with
    | true =>
      rw [if_neg (by simp [pathText]), if_pos (hh.2 rfl), pathText_abs, slashes_join _ (by simp)]
      exact splitSlash_join _ (by simp) h.noSlash
    | false =>
      have hne : pathText ⟨false, g :: gs⟩ ≠ [] := by
        have := h.first rfl g gs rfl
        simp [pathText, this]
      rw [if_neg hne, if_neg (fun h' => by have := hh.1 h'; simp at this), pathText_rel]
      exact splitSlash_join _ (by simp) h.noSlash

/-- `remove_dot_segments` in terms of section 5.2.4, on every path. -/
theorem rds_built_raw (p : Path SV) (hn : ∀ g ∈ p.segments, NoSlash g.chars) :
    ∃ x y, SlashIf (p.absolute = false ∧ climbs (p.segments.map SV.chars) = true) x ∧
      SlashIf (lastDot (p.segments.map SV.chars) = true ∧ (b! "//" <:+ Rfc.removeDotSegments (pathText (p.map SV.chars)) ∨
        (p.absolute = false ∧ climbs (p.segments.map SV.chars) = false ∧ Rfc.removeDotSegments (pathText (p.map SV.chars)) = b! "/"))) y ∧
      Rfc.removeDotSegments (pathText (p.map SV.chars)) = x ++ pathText (p.removeDotSegments.map SV.chars) ++ y := by
  rw [rds_text]
  obtain ⟨ab, gs⟩ := p
  have hn' : ∀ g ∈ gs.map SV.chars, NoSlash g := by
    intro g hg; obtain ⟨v, hv, rfl⟩ := List.mem_map.1 hg; exact hn v hv
  simp only [Path.map]
  cases ab with
  | true =>
    rw [pathText_abs, pathText_abs]
    simp only [Bool.true_eq_false, false_and, or_false]
    have := rds_absolute _ hn'
    by_cases hc : lastDot (gs.map SV.chars) = true ∧ b! "//" <:+ Rfc.removeDotSegments (Abnf.slashes (gs.map SV.chars))
    · exact ⟨[], b! "/", Or.inr ⟨fun h => h, rfl⟩, Or.inl ⟨hc, rfl⟩, (this.2 hc).symm⟩
    · exact ⟨[], [], Or.inr ⟨fun h => h, rfl⟩, Or.inr ⟨hc, rfl⟩, by rw [List.append_nil]; exact (this.1 hc).symm⟩
  | false =>
    rw [pathText_rel, pathText_rel]
    simp only [true_and]
    exact rds_relative _ hn'

theorem isSuffixOf_iff {x y : Str} : x.isSuffixOf y = true ↔ x <:+ y := List.isSuffixOf_iff_suffix

theorem shortStart_pathText {p : Path Str} (h : PathWf p) :
    Rfc.shortStart (pathText p) = true ↔ p.absolute = false ∧ climbs p.segments = true := by
  have := pathText_slash h
  simp only [Rfc.shortStart, segmentsOf_pathText h, Bool.and_eq_true, bne_iff_ne, ne_eq, this]
  simp

theorem shortEnd_pathText {p : Path Str} (h : PathWf p) :
    Rfc.shortEnd (pathText p) = true ↔ lastDot p.segments = true ∧ (b! "//" <:+ Rfc.removeDotSegments (pathText p) ∨
        (p.absolute = false ∧ climbs p.segments = false ∧ Rfc.removeDotSegments (pathText p) = b! "/")) := by
  have := pathText_slash h
  simp only [Rfc.shortEnd, segmentsOf_pathText h, Bool.and_eq_true, Bool.or_eq_true, bne_iff_ne, ne_eq, this, isSuffixOf_iff,
    beq_iff_eq, Bool.not_eq_true', Bool.not_eq_true, and_assoc]

/-- `remove_dot_segments` is section 5.2.4 as built. -/
theorem rds_built (p : Path SV) (h : PathWf (p.map SV.chars)) :
    pathText (p.removeDotSegments.map SV.chars) = Rfc.removeDotSegmentsBuilt (pathText (p.map SV.chars)) := by
  have hn : ∀ g ∈ p.segments, NoSlash g.chars := fun g hg => h.noSlash g.chars (List.mem_map_of_mem hg)
  obtain ⟨x, y, hx, hy, hr⟩ := rds_built_raw p hn
  have h1 := shortStart_pathText h
  have h2 := shortEnd_pathText h
  have e1 : (p.map SV.chars).absolute = p.absolute := rfl
  have e2 : (p.map SV.chars).segments = p.segments.map SV.chars := rfl
  rw [e1, e2] at h1 h2
  rw [← h1] at hx
  rw [← h2] at hy
  simp only [Rfc.removeDotSegmentsBuilt]
  rcases hx with ⟨a1, rfl⟩ | ⟨a1, rfl⟩ <;> rcases hy with ⟨a2, rfl⟩ | ⟨a2, rfl⟩ <;> simp [a1, a2, hr]

/-! ### `merge` -/

theorem uptoLastSlash_append (x g : Str) (h : NoSlash g) : Rfc.uptoLastSlash (x ++ 0x2F :: g) = x ++ [0x2F] := by
  rw [Rfc.uptoLastSlash]
  have : (x ++ 0x2F :: g).reverse = g.reverse ++ 0x2F :: x.reverse := by simp
  rw [this, dropWhile_noSlash (noSlash_reverse h)]
  simp

theorem uptoLastSlash_none (g : Str) (h : NoSlash g) : Rfc.uptoLastSlash g = [] := by
  rw [Rfc.uptoLastSlash]
  have : g.reverse.dropWhile (· != 0x2F) = [] := by
    exact dropWhile_all (noSlash_bne (noSlash_reverse h))
  rw [this]; rfl

theorem pathText_append (ab : Bool) (l gs : List Str) (h : l ≠ []) : pathText ⟨ab, l ++ gs⟩ = pathText ⟨ab, l⟩ ++ Abnf.slashes gs := by
  cases l with
  | nil => exact absurd rfl h
  | cons a l => simp [pathText, slashes_append]

theorem merge_text (b r : Parts SV) (hb : PathWf b.text.path) (hr1 : r.path.segments ≠ []) (hr2 : r.path.absolute = false) :
    pathText ((merge b r).map SV.chars) = Rfc.merge (groupsOf b.text) (pathText r.text.path) ↔ b.path.segments.length ≠ 1 := by
  obtain ⟨bs, bA, ⟨bab, bseg⟩, bq, bf⟩ := b
  obtain ⟨rs, rA, ⟨rab, rseg⟩, rq, rf⟩ := r
  obtain ⟨hb1, hb2, hb3⟩ := hb
  simp only [Parts.text, Parts.map, Path.map, groupsOf, merge, Path.empty, Rfc.merge] at *
  subst hr2
  have hrm : rseg.map SV.chars ≠ [] := by simpa using hr1
  rcases List.eq_nil_or_concat bseg with rfl | ⟨l, g, rfl⟩
  · simp only [List.map_nil] at hb2
    have hb2' := hb2 trivial
    subst hb2'
    cases bA with
    | none =>
      simp only [Option.isSome_none, List.isEmpty_nil, Bool.and_true, Option.map_none, if_false, Bool.false_and, Bool.false_eq_true,
        List.length_nil, List.map_nil, List.take_nil, List.nil_append, false_and]
      simp [pathText, uptoLastSlash_none [] (by simp [NoSlash])]
    | some a =>
      simp only [Option.isSome_some, List.isEmpty_nil, Bool.and_true, Option.map_some, if_true, List.map_nil, true_and, List.length_nil]
      rw [pathText_abs, slashes_join _ hrm, show pathText ⟨false, []⟩ = [] from rfl, if_pos rfl, pathText_rel]
      simp
  · rw [List.concat_eq_append] at *
    have hne : (l ++ [g]).isEmpty = false := by simp
    have hpne : pathText ⟨bab, (l ++ [g]).map SV.chars⟩ = [] → False := by
      intro h0
      cases bab with
      | true => rw [pathText_abs, slashes_join _ (by simp)] at h0; simp at h0
      | false =>
        cases e : (l ++ [g]).map SV.chars with
        | nil => simp at e
        | cons x xs =>
          rw [e] at h0
          rw [pathText_rel] at h0
          have := hb3 rfl x xs e
          simp [joinText] at h0
          exact this h0.1
    have hc : ((Option.map Abnf.authorityText (Option.map (fun x => Authority.map SV.chars x) bA)).isSome = true ∧
        pathText ⟨bab, List.map SV.chars (l ++ [g])⟩ = []) = False := eq_false fun h => hpne h.2
    simp only [hne, Bool.and_false, if_false, Bool.false_eq_true, hc]
    have hg : NoSlash g.chars := hb1 g.chars (by simp)
    cases l with
    | nil =>
      simp only [List.nil_append, List.length_singleton, ne_eq, not_true, iff_false, gt_iff_lt, Nat.lt_irrefl, if_false,
        List.take_succ_cons, List.take_zero, List.cons_append, List.map_cons, List.map_nil]
      intro h
      have hl := congrArg List.length h
      have e1 : (pathText ⟨bab, g.chars :: rseg.map SV.chars⟩).length =
          (if bab then 1 else 0) + g.chars.length + 1 + (joinText (rseg.map SV.chars)).length := by
        rw [show g.chars :: rseg.map SV.chars = [g.chars] ++ rseg.map SV.chars from rfl, pathText_append _ _ _ (by simp), slashes_join _ hrm]
        cases bab <;> simp [pathText, slashes_nil] <;> omega
      rw [e1] at hl
      have e2 : (Rfc.uptoLastSlash (pathText ⟨bab, [g.chars]⟩)).length = if bab then 1 else 0 := by
        cases bab with
        | true =>
          have := uptoLastSlash_append [] g.chars hg
          simp [pathText, slashes_nil]
          rw [List.nil_append] at this
          rw [this]; rfl
        | false => simp [pathText, slashes_nil, uptoLastSlash_none _ hg]
      rw [List.length_append, e2, pathText_rel] at hl
      omega
    | cons a l =>
      have hlen : (a :: l ++ [g]).length ≠ 1 := by simp
      simp only [hlen, ne_eq, not_false_eq_true, iff_true]
      have hgt : (a :: l ++ [g]).length > 1 := by simp
      rw [if_pos hgt]
      have ht : (a :: l ++ [g]).take ((a :: l ++ [g]).length - 1) = a :: l := by
        rw [List.length_append, List.length_singleton, Nat.add_sub_cancel]
        exact List.take_left
      rw [ht, List.map_append, List.map_append, pathText_append _ _ _ (by simp), pathText_append _ _ _ (by simp)]
      rw [slashes_join _ hrm, List.map_singleton, slashes_cons, slashes_nil, List.append_nil, uptoLastSlash_append _ _ hg, pathText_rel]
      simp

/-- `merge` is section 5.2.3 as built. -/
theorem merge_built (b r : Parts SV) (hb : PathWf b.text.path) (hr1 : r.path.segments ≠ []) (hr2 : r.path.absolute = false) :
    pathText ((merge b r).map SV.chars) = Rfc.mergeBuilt (groupsOf b.text) (pathText r.text.path) := by
  by_cases hl : b.path.segments.length = 1
  · obtain ⟨bs, bA, ⟨bab, bseg⟩, bq, bf⟩ := b
    obtain ⟨rs, rA, ⟨rab, rseg⟩, rq, rf⟩ := r
    obtain ⟨g, rfl⟩ : ∃ g, bseg = [g] := List.length_eq_one_iff.1 hl
    simp only at hr2 hr1
    subst hr2
    have hg : NoSlash g.chars := hb.noSlash g.chars (by simp [Parts.text, Parts.map, Path.map])
    have hrm : rseg.map SV.chars ≠ [] := by simpa using hr1
    have hp : (groupsOf (Parts.text ⟨bs, bA, ⟨bab, [g]⟩, bq, bf⟩)).path = pathText ⟨bab, [g.chars]⟩ := rfl
    rw [Rfc.mergeBuilt, hp]
    have hc : pathText ⟨bab, [g.chars]⟩ ≠ [] ∧ 0x2F ∉ (pathText ⟨bab, [g.chars]⟩).drop 1 := by
      cases bab with
      | true => exact ⟨by simp [pathText], by simpa [pathText, slashes_nil, NoSlash] using hg⟩
      | false =>
        have h1 := hb.first rfl g.chars [] rfl
        refine ⟨by simp [pathText, h1], ?_⟩
        simp only [pathText, slashes_nil, List.append_nil, Bool.false_eq_true, if_false, List.nil_append]
        exact fun h => hg (List.mem_of_mem_drop h)
    rw [if_pos hc]
    have hm : (merge ⟨bs, bA, ⟨bab, [g]⟩, bq, bf⟩ ⟨rs, rA, ⟨false, rseg⟩, rq, rf⟩).map SV.chars = ⟨bab, [g.chars] ++ rseg.map SV.chars⟩ := by
      simp [merge, Path.empty, Path.map]
    rw [hm, pathText_append _ _ _ (by simp), slashes_join _ hrm]
    show _ = pathText ⟨bab, [g.chars]⟩ ++ b! "/" ++ pathText ⟨false, rseg.map SV.chars⟩
    rw [pathText_rel]
    simp
  · rw [(merge_text b r hb hr1 hr2).2 hl, Rfc.mergeBuilt, if_neg]
    rintro ⟨h1, h2⟩
    change pathText b.text.path ≠ [] at h1
    change 0x2F ∉ (pathText b.text.path).drop 1 at h2
    have e : b.text.path.segments = b.path.segments.map SV.chars := rfl
    cases hs : b.text.path.segments with
    | nil => apply h1; simp [pathText, hs]
    | cons x l =>
      cases l with
      | nil =>
        apply hl
        have := congrArg List.length (e.symm.trans hs)
        simpa using this
      | cons y l =>
        have hf := hb.first
        generalize b.text.path = P at *
        obtain ⟨ab, gs⟩ := P
        simp only at hs hf
        subst hs
        apply h2
        cases ab with
        | true => simp [pathText, slashes_cons]
        | false =>
          obtain ⟨c, x', rfl⟩ := List.exists_cons_of_ne_nil (hf rfl x _ rfl)
          simp [pathText, slashes_cons]

/-- The merged path is such as parsing yields. -/
theorem merge_wf (b r : Parts SV) (hb : PathWf b.text.path) (hr : PathWf r.text.path) (hr1 : r.path.segments ≠ [])
    (hr2 : r.path.absolute = false) : PathWf ((merge b r).map SV.chars) := by
  obtain ⟨bs, bA, ⟨bab, bseg⟩, bq, bf⟩ := b
  obtain ⟨rs, rA, ⟨rab, rseg⟩, rq, rf⟩ := r
  simp only at hr1 hr2
  subst hr2
  obtain ⟨b1, b2, b3⟩ := hb
  obtain ⟨r1, r2, r3⟩ := hr
  simp only [Parts.text, Parts.map, Path.map] at b1 b2 b3 r1 r2 r3
  simp only [merge, Path.empty, Path.map]
  have hrm : rseg.map SV.chars ≠ [] := by simpa using hr1
  split
  · exact ⟨r1, fun h => absurd h hrm, fun h => by simp at h⟩
  · simp only [List.map_append, List.map_take]
    refine ⟨?_, ?_, ?_⟩
    · intro g hg
      rcases List.mem_append.1 hg with h | h
      · exact b1 g (List.mem_of_mem_take h)
      · exact r1 g h
    · intro h; simp at h; exact absurd h.2 hr1
    · intro hab g gs e
      cases bseg with
      | nil => exact r3 trivial g gs (by simpa using e)
      | cons x l =>
        cases l with
        | nil =>
          simp at e
          exact b3 hab g [] (by simp [e.1])
        | cons y l =>
          simp at e
          exact b3 hab g (y.chars :: l.map SV.chars) (by simp [e.1])

end Verif
