import Verif.Model.Locale
import Verif.Proofs.CostGrammar
import Verif.Proofs.Chars

/-!
# Parsing with the characters renamed

`SimG P f g g'`: `g'` is `g` with every test of a character `b` with `P b` replaced by one that gives the same answer for
`f b`.  Then matching the renamed text with `g'` gives the renamed result of matching with `g`.
-/

namespace Verif.Loc
open Cost (Gr Chain Alts lookM)
open Rule (ofSV failed)

set_option linter.unusedSimpArgs false

variable {α : Type} {P : UInt8 → Prop} {f : UInt8 → UInt8}

/-- The view of the renamed text. -/
def rnV (f : UInt8 → UInt8) (s : SV) : SV := ⟨s.ptr, s.chars.map f⟩
def rnA (f : UInt8 → UInt8) (a : Acceptors α) : Acceptors α := a.map fun x => (x.1, rnV f x.2)
def rnM (f : UInt8 → UInt8) (m : Matched α) : Matched α := m.map fun x => (rnV f x.1, rnA f x.2)
def rnR (f : UInt8 → UInt8) (r : Rule α) : Rule α := ⟨r.tail.map (rnV f), rnA f r.acc⟩

mutual
inductive SimG (P : UInt8 → Prop) (f : UInt8 → UInt8) : Gr α → Gr α → Prop
  | chr {p q : UInt8 → M Bool} (h : ∀ b, P b → p b = q (f b)) : SimG P f (.chr p) (.chr q)
  | look {p q : SV → Bool} (h : ∀ s : SV, (∀ b ∈ s.chars, P b) → p s = q (rnV f s)) : SimG P f (.look p) (.look q)
  | rule {c c' : Chain α} (h : SimC P f c c') : SimG P f (.rule c) (.rule c')
inductive SimC (P : UInt8 → Prop) (f : UInt8 → UInt8) : Chain α → Chain α → Prop
  | nil : SimC P f .nil .nil
  | concat {c c' : Chain α} {g g' : Gr α} {a : Option α} (h : SimC P f c c') (hg : SimG P f g g') :
      SimC P f (.concat c g a) (.concat c' g' a)
  | optional {c c' : Chain α} {g g' : Gr α} (h : SimC P f c c') (hg : SimG P f g g') :
      SimC P f (.optional c g) (.optional c' g')
  | star {c c' : Chain α} {g g' : Gr α} {min max : Nat} (h : SimC P f c c') (hg : SimG P f g g') :
      SimC P f (.star c g min max) (.star c' g' min max)
  | alternative {c c' : Chain α} {gs gs' : Alts α} (h : SimC P f c c') (hg : SimA P f gs gs') :
      SimC P f (.alternative c gs) (.alternative c' gs')
inductive SimA (P : UInt8 → Prop) (f : UInt8 → UInt8) : Alts α → Alts α → Prop
  | nil : SimA P f .nil .nil
  | cons {g g' : Gr α} {gs gs' : Alts α} (h : SimG P f g g') (hs : SimA P f gs gs') : SimA P f (.cons g gs) (.cons g' gs')
end

/-- All characters of a view satisfy `P`. -/
def OkV (P : UInt8 → Prop) (s : SV) : Prop := ∀ b ∈ s.chars, P b
/-- All characters still to be matched satisfy `P`. -/
def OkR (P : UInt8 → Prop) (r : Rule α) : Prop := ∀ t, r.tail = some t → OkV P t

/-- Corresponding results. -/
def RelR (P : UInt8 → Prop) (f : UInt8 → UInt8) (x y : M (Rule α)) : Prop := y = x.map (rnR f) ∧ ∀ r, x = .ok r → OkR P r
/-- Corresponding match functions. -/
def RelM (P : UInt8 → Prop) (f : UInt8 → UInt8) (m m' : Matcher α) : Prop :=
  ∀ r, OkR P r → m' (rnR f r) = (m r).map (rnM f)

theorem rnV_size (f : UInt8 → UInt8) (s : SV) : (rnV f s).size = s.size := by simp [rnV, SV.size]

theorem substrFrom_rn (s : SV) (n : Nat) : (rnV f s).substrFrom n = (s.substrFrom n).map (rnV f) := by
  unfold SV.substrFrom
  rw [rnV_size]
  by_cases h : n ≤ s.size
  · simp [h, rnV, Except.map]
  · simp [h, Except.map]

theorem substr_rn (s : SV) (i n : Nat) : (rnV f s).substr i n = (s.substr i n).map (rnV f) := by
  unfold SV.substr
  rw [rnV_size]
  by_cases h : i ≤ s.size
  · simp [h, rnV, Except.map, List.map_take]
  · simp [h, Except.map]

theorem okV_substrFrom {s t : SV} {n : Nat} (h : OkV P s) (e : s.substrFrom n = .ok t) : OkV P t := by
  unfold SV.substrFrom at e
  by_cases hn : n ≤ s.size
  · simp only [hn, if_true] at e
    cases e
    intro b hb
    exact h b (List.mem_of_mem_drop hb)
  · simp [hn] at e

theorem rnA_append (a b : Acceptors α) : rnA f (a ++ b) = rnA f a ++ rnA f b := by simp [rnA]

theorem rnR_ofSV (s : SV) : rnR f (ofSV s : Rule α) = ofSV (rnV f s) := rfl

theorem okR_ofSV {s : SV} (h : OkV P s) : OkR P (ofSV s : Rule α) := by
  intro t e
  simp [ofSV] at e
  exact e ▸ h

theorem rel_ok {r : Rule α} (h : OkR P r) : RelR P f (.ok r) (.ok (rnR f r)) := ⟨rfl, fun _ e => by cases e; exact h⟩

theorem rel_failed : RelR P f (.ok (failed : Rule α)) (.ok failed) := ⟨rfl, fun _ e => by cases e; intro t ht; cases ht⟩

theorem rel_bind {x y : M (Rule α)} (h : RelR P f x y) {k k' : Rule α → M (Rule α)}
    (hk : ∀ r, OkR P r → RelR P f (k r) (k' (rnR f r))) : RelR P f (x >>= k) (y >>= k') := by
  obtain ⟨h1, h2⟩ := h
  subst h1
  cases x with
  | error e => exact ⟨rfl, fun _ e => by cases e⟩
  | ok r => exact hk r (h2 r rfl)

theorem rel_joinMatched {r : Rule α} (h : OkR P r) (m : SV × Acceptors α) :
    RelR P f (r.joinMatched m) ((rnR f r).joinMatched (rnV f m.1, rnA f m.2)) := by
  obtain ⟨t, acc⟩ := r
  cases t with
  | none => exact ⟨rfl, fun _ e => by cases e⟩
  | some t =>
    have e1 : (Rule.mk (some t) acc).joinMatched m = (t.substrFrom m.1.size >>= fun t' => pure ⟨some t', acc ++ m.2⟩) := rfl
    have e2 : (rnR f (Rule.mk (some t) acc)).joinMatched (rnV f m.1, rnA f m.2) =
      ((rnV f t).substrFrom (rnV f m.1).size >>= fun t' => pure ⟨some t', rnA f acc ++ rnA f m.2⟩) := rfl
    rw [e1, e2, rnV_size, substrFrom_rn]
    cases hs : t.substrFrom m.1.size with
    | error e => exact ⟨rfl, fun _ e => by cases e⟩
    | ok t' =>
      refine ⟨?_, ?_⟩
      · show Except.ok _ = Except.ok _
        simp [rnR, rnA_append]
      · intro r e
        cases e
        intro u hu
        cases hu
        exact okV_substrFrom (h t rfl) hs

theorem rel_concatImpl {m m' : Matcher α} (hm : RelM P f m m') (accept : Option α) (opt : Bool) {r : Rule α} (h : OkR P r) :
    RelR P f (Rule.concatImpl m accept opt r) (Rule.concatImpl m' accept opt (rnR f r)) := by
  obtain ⟨t, acc⟩ := r
  cases t with
  | none => exact rel_ok h
  | some t =>
    have ht : OkV P t := h t rfl
    have e := hm (ofSV t) (okR_ofSV ht)
    rw [rnR_ofSV] at e
    have e1 : ∀ (m : Matcher α) (t : SV) (acc : Acceptors α), Rule.concatImpl m accept opt (Rule.mk (some t) acc) =
      (m (ofSV t) >>= fun x => match x with
      | some (head, a) => (Rule.mk (some t) acc).joinMatched (head, match accept with | none => a | some c => a ++ [(c, head)])
      | none => if opt then .ok (Rule.mk (some t) acc) else .ok failed) := by
      intro m t acc
      rfl
    have e2 : rnR f (Rule.mk (some t) acc) = Rule.mk (some (rnV f t)) (rnA f acc) := rfl
    rw [e2, e1, e1, e]
    cases m (ofSV t) with
    | error e => exact ⟨rfl, fun _ e => by cases e⟩
    | ok x =>
      cases x with
      | none =>
        cases opt
        · exact rel_failed
        · exact rel_ok h
      | some x =>
        obtain ⟨head, a⟩ := x
        cases accept with
        | none => exact rel_joinMatched h (head, a)
        | some c =>
          have := rel_joinMatched (f := f) h (head, a ++ [(c, head)])
          rw [rnA_append] at this
          exact this

theorem rel_optional {m m' : Matcher α} (hm : RelM P f m m') {r : Rule α} (h : OkR P r) :
    RelR P f (Rule.optional m r) (Rule.optional m' (rnR f r)) := by
  obtain ⟨t, acc⟩ := r
  cases t with
  | none => exact rel_ok h
  | some t =>
    have ht : OkV P t := h t rfl
    have e := rel_concatImpl hm none true (okR_ofSV ht)
    rw [rnR_ofSV] at e
    have e1 : Rule.optional m (Rule.mk (some t) acc) = (Rule.concatImpl m none true (ofSV t) >>= fun res => match res.tail with
      | none => .ok (Rule.mk (some t) acc) | some _ => .ok ((Rule.mk (some t) acc).joinRule res)) := rfl
    have e2 : Rule.optional m' (rnR f (Rule.mk (some t) acc)) = (Rule.concatImpl m' none true (ofSV (rnV f t)) >>= fun res => match res.tail with
      | none => .ok (rnR f (Rule.mk (some t) acc)) | some _ => .ok ((rnR f (Rule.mk (some t) acc)).joinRule res)) := rfl
    rw [e1, e2]
    refine rel_bind e ?_
    rintro ⟨u, b⟩ hu
    cases u with
    | none => exact rel_ok h
    | some u =>
      refine ⟨?_, ?_⟩
      · show Except.ok _ = Except.ok _
        simp [Rule.joinRule, rnR, rnA_append]
      · intro r e
        cases e
        exact fun w hw => hu w hw

theorem rel_starLoop {m m' : Matcher α} (hm : RelM P f m m') (max : Nat) : ∀ (fuel count : Nat) (str : SV) (len : Nat)
    (acc : Acceptors α), OkV P str → Rule.starLoop m' max fuel count (rnV f str) len (rnA f acc) =
      (Rule.starLoop m max fuel count str len acc).map fun x => (x.1, x.2.1, rnA f x.2.2)
  | 0, _, _, _, _, _ => rfl
  | fuel + 1, count, str, len, acc, h => by
    have e := hm (ofSV str) (okR_ofSV h)
    rw [rnR_ofSV] at e
    have e1 : ∀ (m : Matcher α) (str : SV) (acc : Acceptors α), Rule.starLoop m max (fuel + 1) count str len acc =
      (m (ofSV str) >>= fun x => match x with
        | none => .ok (count, len, acc)
        | some (head, a) => if (count + 1) % uintMod > max then .ok ((count + 1) % uintMod, len, acc)
          else str.removePrefix head.size >>= fun s => Rule.starLoop m max fuel ((count + 1) % uintMod) s (len + head.size) (acc ++ a)) := by
      intro m str acc
      rfl
    rw [e1, e1, e]
    cases m (ofSV str) with
    | error e => rfl
    | ok x =>
      cases x with
      | none => rfl
      | some x =>
        obtain ⟨head, a⟩ := x
        show (if (count + 1) % uintMod > max then _ else _) = Except.map _ (if (count + 1) % uintMod > max then _ else _)
        by_cases hc : (count + 1) % uintMod > max
        · simp only [hc, if_true]; rfl
        · simp only [hc, if_false]
          rw [show (rnV f str).removePrefix (rnV f head).size = (str.removePrefix head.size).map (rnV f) by
            rw [rnV_size]; exact substrFrom_rn _ _]
          cases hs : str.removePrefix head.size with
          | error e => rfl
          | ok s =>
            show Rule.starLoop m' max fuel _ (rnV f s) _ _ = _
            rw [rnV_size, ← rnA_append]
            exact rel_starLoop hm max fuel _ s _ _ (okV_substrFrom h hs)

theorem rel_star {m m' : Matcher α} (hm : RelM P f m m') (min max : Nat) {r : Rule α} (h : OkR P r) :
    RelR P f (Rule.star m min max r) (Rule.star m' min max (rnR f r)) := by
  obtain ⟨t, acc⟩ := r
  cases t with
  | none => exact rel_ok h
  | some t =>
    have ht : OkV P t := h t rfl
    have e := rel_starLoop hm max (t.size + max + 2) 0 t 0 acc ht
    have e1 : ∀ (m : Matcher α) (t : SV) (acc : Acceptors α), Rule.star m min max (Rule.mk (some t) acc) =
      (Rule.starLoop m max (t.size + max + 2) 0 t 0 acc >>= fun x => if x.1 < min then .ok failed
        else t.substrFrom x.2.1 >>= fun t' => .ok ⟨some t', x.2.2⟩) := by
      intro m t acc
      rfl
    have e2 : rnR f (Rule.mk (some t) acc) = Rule.mk (some (rnV f t)) (rnA f acc) := rfl
    rw [e2, e1, e1, rnV_size, e]
    cases Rule.starLoop m max (t.size + max + 2) 0 t 0 acc with
    | error e => exact ⟨rfl, fun _ e => by cases e⟩
    | ok x =>
      obtain ⟨c, l, a⟩ := x
      show RelR P f (if c < min then _ else _) (if c < min then _ else _)
      by_cases hc : c < min
      · simp only [hc, if_true]; exact rel_failed
      · simp only [hc, if_false, substrFrom_rn]
        cases hs : t.substrFrom l with
        | error e => exact ⟨rfl, fun _ e => by cases e⟩
        | ok t' =>
          refine ⟨rfl, ?_⟩
          intro r e
          cases e
          intro u hu
          cases hu
          exact okV_substrFrom ht hs

/-- Corresponding lists of match functions. -/
inductive RelL (P : UInt8 → Prop) (f : UInt8 → UInt8) : List (Matcher α) → List (Matcher α) → Prop
  | nil : RelL P f [] []
  | cons {m m' : Matcher α} {ms ms' : List (Matcher α)} (h : RelM P f m m') (hs : RelL P f ms ms') :
      RelL P f (m :: ms) (m' :: ms')

theorem rel_alternative : ∀ {ms ms' : List (Matcher α)}, RelL P f ms ms' → ∀ {r : Rule α}, OkR P r →
    RelR P f (Rule.alternative ms r) (Rule.alternative ms' (rnR f r))
  | _, _, .nil, _, _ => rel_failed
  | _, _, .cons (m := m) (m' := m') (ms := ms) (ms' := ms') hm hs, r, h => by
    obtain ⟨t, acc⟩ := r
    cases t with
    | none => exact rel_ok h
    | some t =>
      have ht : OkV P t := h t rfl
      have e := hm (ofSV t) (okR_ofSV ht)
      rw [rnR_ofSV] at e
      have e1 : ∀ (m : Matcher α) (ms : List (Matcher α)) (t : SV) (acc : Acceptors α),
        Rule.alternative (m :: ms) (Rule.mk (some t) acc) = (m (ofSV t) >>= fun x => match x with
          | some x => (Rule.mk (some t) acc).joinMatched x
          | none => Rule.alternative ms (Rule.mk (some t) acc)) := by
        intro m ms t acc
        rfl
      have e2 : rnR f (Rule.mk (some t) acc) = Rule.mk (some (rnV f t)) (rnA f acc) := rfl
      rw [e2, e1, e1, e]
      cases m (ofSV t) with
      | error e => exact ⟨rfl, fun _ e => by cases e⟩
      | ok x =>
        cases x with
        | none => exact rel_alternative hs h
        | some x => exact rel_joinMatched h x

theorem matched_rn (inp r : Rule α) : Rule.matched (rnR f inp) (rnR f r) = (Rule.matched inp r).map (rnM f) := by
  obtain ⟨t, acc⟩ := r
  obtain ⟨it, iacc⟩ := inp
  cases t with
  | none => rfl
  | some t =>
    cases it with
    | none => rfl
    | some it =>
      have e1 : ∀ (it t : SV) (iacc acc : Acceptors α), Rule.matched (Rule.mk (some it) iacc) (Rule.mk (some t) acc) =
        (it.substr 0 (if t.size ≤ it.size then it.size - t.size else it.size) >>= fun s => pure (some (s, acc))) := by
        intro it t iacc acc
        rfl
      have e2 : ∀ (t : SV) (acc : Acceptors α), rnR f (Rule.mk (some t) acc) = Rule.mk (some (rnV f t)) (rnA f acc) := fun _ _ => rfl
      rw [e2, e2, e1, e1, rnV_size, rnV_size, substr_rn]
      cases it.substr 0 _ <;> rfl

theorem rel_chr {p q : UInt8 → M Bool} (h : ∀ b, P b → p b = q (f b)) : RelM (α := α) P f (Rule.singleCharP p) (Rule.singleCharP q) := by
  rintro ⟨t, acc⟩ hr
  cases t with
  | none => rfl
  | some t =>
    obtain ⟨a, l⟩ := t
    cases l with
    | nil => rfl
    | cons c l =>
      have hc : P c := hr _ rfl c (by simp)
      have e1 : ∀ (p : UInt8 → M Bool) (a : Nat) (c : UInt8) (l : Str) (acc : Acceptors α),
        Rule.singleCharP p (Rule.mk (some ⟨a, c :: l⟩) acc) = (p c >>= fun b => if b then
          ((⟨a, c :: l⟩ : SV).substr 0 1 >>= fun s => pure (some (s, []))) else pure none) := by
        intro p a c l acc
        rfl
      have e2 : rnR f (Rule.mk (some ⟨a, c :: l⟩) acc) = Rule.mk (some ⟨a, f c :: l.map f⟩) (rnA f acc) := rfl
      rw [e2, e1, e1, h c hc]
      cases q (f c) with
      | error e => rfl
      | ok b =>
        cases b
        · rfl
        · simp only [bind, Except.bind, if_true]
          rfl

theorem rel_look {p q : SV → Bool} (h : ∀ s : SV, (∀ b ∈ s.chars, P b) → p s = q (rnV f s)) :
    RelM (α := α) P f (lookM p) (lookM q) := by
  rintro ⟨t, acc⟩ hr
  cases t with
  | none => rfl
  | some t =>
    have ht := h t (hr t rfl)
    show (if q (rnV f t) then _ else _) = Except.map _ (if p t then _ else _)
    rw [ht]
    cases q (rnV f t)
    · rfl
    · simp only [if_true, substr_rn]
      cases t.substr 0 0 <;> rfl

mutual
theorem simG : ∀ {g g' : Gr α}, SimG P f g g' → RelM P f g.run g'.run
  | .chr p, _, h => by
    cases h with
    | chr h => exact rel_chr h
  | .look p, _, h => by
    cases h with
    | look h => exact rel_look h
  | .rule c, _, h => by
    cases h with
    | @rule c c' h =>
      intro r hr
      obtain ⟨h1, _⟩ := simC h hr
      show (c'.run (rnR f r) >>= Rule.matched (rnR f r)) = Except.map _ (c.run r >>= Rule.matched r)
      rw [h1]
      cases c.run r with
      | error e => rfl
      | ok x => exact matched_rn r x
theorem simC : ∀ {c c' : Chain α}, SimC P f c c' → ∀ {r : Rule α}, OkR P r → RelR P f (c.run r) (c'.run (rnR f r))
  | .nil, _, h, r, hr => by
    cases h with
    | nil => exact rel_ok hr
  | .concat c g a, _, h, r, hr => by
    cases h with
    | concat h hg => exact rel_bind (simC h hr) fun _ h' => rel_concatImpl (simG hg) a false h'
  | .optional c g, _, h, r, hr => by
    cases h with
    | optional h hg => exact rel_bind (simC h hr) fun _ h' => rel_optional (simG hg) h'
  | .star c g min max, _, h, r, hr => by
    cases h with
    | star h hg => exact rel_bind (simC h hr) fun _ h' => rel_star (simG hg) min max h'
  | .alternative c gs, _, h, r, hr => by
    cases h with
    | alternative h hg => exact rel_bind (simC h hr) fun _ h' => rel_alternative (simA hg) h'
theorem simA : ∀ {gs gs' : Alts α}, SimA P f gs gs' → RelL P f gs.run gs'.run
  | .nil, _, h => by
    cases h with
    | nil => exact .nil
  | .cons g gs, _, h => by
    cases h with
    | cons h hs => exact .cons (simG h) (simA hs)
end

/-! ### Running a grammar -/

/-- The renamed parts. -/
def rnP (f : UInt8 → UInt8) (p : Parts SV) : Parts SV := p.map (rnV f)

theorem runAct_rn (p : Parts SV) (a : Act) (s : SV) : runAct (rnP f p) a (rnV f s) = (runAct p a s).map (rnP f) := by
  obtain ⟨sc, au, ⟨ab, sg⟩, q, fr⟩ := p
  cases a with
  | setScheme => rfl
  | setUserinfo => cases au <;> rfl
  | setHost => cases au <;> rfl
  | setPort => cases au <;> rfl
  | appendDir b =>
    simp [runAct, rnP, Parts.map, Path.map, Except.map]
    rfl
  | appendSegment =>
    cases sg with
    | nil => rfl
    | cons g gs =>
      have : ((g :: gs).map (rnV f)).dropLast = ((g :: gs).dropLast).map (rnV f) := List.map_dropLast.symm
      show Except.ok (_ : Parts SV) = Except.ok _
      simp only [rnP, Parts.map, Path.map, List.map_append, ← this]
      rfl
  | recordInitial => simp [runAct, rnP, Parts.map, Path.map, Except.map]
  | setQuery => rfl
  | setFragment => rfl

theorem runActs_rn : ∀ (acc : Acceptors Act) (p : Parts SV),
    (rnA f acc).foldlM (fun s a => runAct s a.1 a.2) (rnP f p) = (acc.foldlM (fun s a => runAct s a.1 a.2) p).map (rnP f)
  | [], p => rfl
  | a :: as, p => by
    show (runAct (rnP f p) a.1 (rnV f a.2) >>= fun s => (rnA f as).foldlM (fun s a => runAct s a.1 a.2) s) =
      Except.map _ (runAct p a.1 a.2 >>= fun s => as.foldlM (fun s a => runAct s a.1 a.2) s)
    rw [runAct_rn]
    cases runAct p a.1 a.2 with
    | error e => rfl
    | ok q => exact runActs_rn as q

theorem done_rn (r : Rule Act) : Rule.done runAct Parts.init (rnR f r) = (Rule.done runAct Parts.init r).map (Option.map (rnP f)) := by
  obtain ⟨t, acc⟩ := r
  cases t with
  | none => rfl
  | some t =>
    obtain ⟨a, l⟩ := t
    cases l with
    | cons c l => rfl
    | nil =>
      have := runActs_rn (f := f) acc Parts.init
      show ((rnA f acc).foldlM (fun s a => runAct s a.1 a.2) Parts.init >>= fun st => pure (some st)) = Except.map _
        (acc.foldlM (fun s a => runAct s a.1 a.2) Parts.init >>= fun st => pure (some st))
      rw [show (Parts.init : Parts SV) = rnP f Parts.init from rfl, this,
        show rnP f Parts.init = (Parts.init : Parts SV) from rfl]
      cases acc.foldlM (fun s a => runAct s a.1 a.2) Parts.init <;> rfl

theorem runGrammar_rn {m m' : Matcher Act} (hm : RelM P f m m') {s : SV} (h : OkV P s) :
    runGrammar m' (rnV f s) = (runGrammar m s).map (Option.map (rnP f)) := by
  obtain ⟨h1, _⟩ := rel_concatImpl hm none false (okR_ofSV h)
  rw [rnR_ofSV] at h1
  show (Rule.concatImpl m' none false (ofSV (rnV f s)) >>= _) = Except.map _ (Rule.concatImpl m none false (ofSV s) >>= _)
  rw [h1]
  cases Rule.concatImpl m none false (ofSV s) with
  | error e => rfl
  | ok r => exact done_rn r

end Verif.Loc
