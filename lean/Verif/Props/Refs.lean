import Verif.Model.Refs
import Verif.Proofs.Pct
import Verif.Spec.Pct

/-!
# Property C64: references obtained from the iterators of percent-decoded text
-/

set_option linter.unusedSimpArgs false

namespace Verif.Refs
open Verif.PctSpec

/-! ### Specification -/

/-- What the text `s` shows at position `p` once decoded: the byte a triplet denotes, or the byte itself. -/
def Shows (s : Str) (p : Nat) (c : UInt8) : Prop :=
  (∃ h l t, s.drop p = 0x25 :: h :: l :: t ∧ Triplet h l c) ∨ (¬ StartsTriplet (s.drop p) ∧ s[p]? = some c)

/-- The operation may change the text. -/
inductive Writes : Op → Prop
  | write (r v) : Writes (.write r v)
  | swap (i j) : Writes (.swap i j)

/-- The operation ends the life of iterator `i`, assigns to it, or dereferences it. -/
inductive Touches (i : Nat) : Op → Prop
  | destroy : Touches i (.destroy i)
  | assign (j) : Touches i (.assign i j)
  | deref : Touches i (.deref i)

/-- Iterator `i` exists and is at position `p`, which is not the end. -/
def At (w : World) (i p : Nat) : Prop := (∃ o : ItObj, w.its[i]? = some (some o) ∧ o.pos = p) ∧ p < w.text.length

/-! ### Proof -/

theorem it_ok {w : World} {i : Nat} {o : ItObj} : w.it i = .ok o ↔ w.its[i]? = some (some o) := by
  unfold World.it
  split
  · rename_i h; rw [h]; simp
  · rename_i h; simpa using h o

theorem it_dead {w : World} {i : Nat} (h : w.its[i]? = some none) : w.it i = .error .dangling := by
  unfold World.it; rw [h]

theorem read_hex {w : World} {r i : Nat} {o : ItObj} (hr : w.refs[r]? = some (.hex i)) (h : w.its[i]? = some (some o)) : w.read r = .ok o.hex := by
  simp only [World.read, World.ref, hr, bind, Except.bind, World.load, it_ok.2 h]

theorem tripHead_cons {c b : UInt8} {t : Str} (h : tripHead (c :: t) = some b) : ∃ x y z, c :: t = 0x25 :: x :: y :: z ∧ Triplet x y b := by
  match t, h with
  | [], h => simp [tripHead] at h
  | [_], h => simp [tripHead] at h
  | x :: y :: z, h =>
    by_cases hh : c = 0x25 ∧ tripletB x y = true
    · rw [tripHead, if_pos hh] at h
      cases h
      exact ⟨x, y, z, by rw [hh.1], (triplet_iff _ _ _).2 ⟨hh.2, rfl⟩⟩
    · rw [tripHead, if_neg hh] at h; simp at h

theorem stored_eq {s : Str} {p : Nat} (h : p < s.length) : stored s p s.length = .ok (tripHead (s.drop p)) := by
  have key : ∀ (pre : Str) (c : UInt8) (t : Str), stored (pre ++ c :: t) pre.length (pre.length + (c :: t).length) = .ok (tripHead (c :: t)) := by
    intro pre c t
    have rd : ∀ (k : Nat) (x : UInt8), (c :: t)[k]? = some x → readAt (pre ++ c :: t) (pre.length + k) = .ok x := by
      intro k x hx
      have := readAt_mid pre (c :: t) [] k x hx
      simpa using this
    have r0 := rd 0 c (by simp)
    simp only [Nat.add_zero] at r0
    match t with
    | [] =>
      have hd : ((↑(pre.length + [c].length) : Int) - ↑pre.length < 3) := by simp; omega
      simp only [stored, r0, tripHead, bind, Except.bind, hd, decide_true, Bool.or_true, if_true]
    | [h] =>
      have hd : ((↑(pre.length + [c, h].length) : Int) - ↑pre.length < 3) := by simp; omega
      simp only [stored, r0, tripHead, bind, Except.bind, hd, decide_true, Bool.or_true, if_true]
    | h :: l :: t =>
      have r1 := rd 1 h (by simp)
      have r2 := rd 2 l (by simp)
      have hd : ¬ ((↑(pre.length + (c :: h :: l :: t).length) : Int) - ↑pre.length < 3) := by simp; omega
      simp only [stored, r0, r1, r2, bind, Except.bind, tripHead, hd, decide_false, Bool.or_false, tripletB, byteB]
      by_cases hc : c = 0x25
      · by_cases hb : eitherBad (hex2dec h) (hex2dec l) = true
        · simp [hc, hb]
        · simp [hc, hb]
      · simp [hc]
  have e : s = s.take p ++ s[p] :: s.drop (p + 1) := by simp
  have hl : (s.take p).length = p := by simp; omega
  have hs : s.length = (s.take p).length + (s[p] :: s.drop (p + 1)).length := by simp; omega
  have h1 := key (s.take p) s[p] (s.drop (p + 1))
  rw [← e, ← hs, hl] at h1
  rw [h1, List.drop_eq_getElem_cons h]

theorem shows_iff {s : Str} {p : Nat} (h : p < s.length) (c : UInt8) : Shows s p c ↔ c = (tripHead (s.drop p)).getD s[p] := by
  rw [Shows, starts_iff, List.getElem?_eq_getElem h]
  cases ht : tripHead (s.drop p) with
  | none =>
    simp only [Option.isSome_none, Bool.false_eq_true, not_false_eq_true, true_and, Option.some.injEq, Option.getD_none]
    constructor
    · rintro (⟨x, y, z, e, t⟩ | e)
      · rw [e, tripHead, if_pos ⟨rfl, ((triplet_iff _ _ _).1 t).1⟩] at ht
        simp at ht
      · exact e.symm
    · intro e; exact .inr e.symm
  | some b =>
    simp only [Option.isSome_some, not_true_eq_false, false_and, or_false, Option.getD_some]
    constructor
    · rintro ⟨x, y, z, e, t⟩
      obtain ⟨t1, rfl⟩ := (triplet_iff _ _ _).1 t
      rw [e, tripHead, if_pos ⟨rfl, t1⟩] at ht
      exact Option.some.inj ht
    · rintro rfl
      rw [List.drop_eq_getElem_cons h] at ht ⊢
      exact tripHead_cons ht

/-- What dereferencing does, in the two cases. -/
theorem deref_step {w : World} {i p : Nat} (h : At w i p) :
    ∃ o : ItObj, ∃ c, w.its[i]? = some (some o) ∧ o.pos = p ∧ Shows w.text p c ∧
      ((¬ StartsTriplet (w.text.drop p) ∧ w.text[p]? = some c ∧ w.step (.deref i) = .ok { w with refs := w.refs ++ [.text p] }) ∨
       (StartsTriplet (w.text.drop p) ∧ w.step (.deref i) = .ok { w with its := w.its.set i (some { o with hex := c }), refs := w.refs ++ [.hex i] })) := by
  obtain ⟨⟨o, ho, rfl⟩, hp⟩ := h
  refine ⟨o, (tripHead (w.text.drop o.pos)).getD w.text[o.pos], ho, rfl, (shows_iff hp _).2 rfl, ?_⟩
  rw [starts_iff]
  have e := stored_eq hp
  cases ht : tripHead (w.text.drop o.pos) with
  | none =>
    left
    rw [ht] at e
    refine ⟨by simp, by simp [List.getElem?_eq_getElem hp], ?_⟩
    simp only [World.step, it_ok.2 ho, bind, Except.bind, e]
  | some b =>
    right
    rw [ht] at e
    refine ⟨by simp, ?_⟩
    simp only [World.step, it_ok.2 ho, bind, Except.bind, e, Option.getD_some]

/-- Splitting a successful operation into its parts. -/
theorem step_parts {w w' : World} {op : Op} (h : w.step op = .ok w') :
    (∃ l, w'.refs = w.refs ++ l) ∧ w'.text.length = w.text.length ∧ (¬ Writes op → w'.text = w.text) ∧
    (∀ i : Nat, w.its[i]? = some none → w'.its[i]? = some none) ∧
    (∀ (i : Nat) (o : ItObj), w.its[i]? = some (some o) → ¬ Touches i op → ¬ Writes op → ∃ o' : ItObj, w'.its[i]? = some (some o') ∧ o'.hex = o.hex) := by
  have setd : ∀ {i j : Nat} {o x : Option ItObj} , w.its[i]? = some o → i ≠ j → (w.its.set j x)[i]? = some o := by
    intro i j o x hi hne
    rw [List.getElem?_set_ne (Ne.symm hne)]; exact hi
  have app : ∀ {i : Nat} {o x : Option ItObj}, w.its[i]? = some o → (w.its ++ [x])[i]? = some o := by
    intro i o x hi
    rw [List.getElem?_append_left (List.getElem?_eq_some_iff.1 hi).1]; exact hi
  cases op with
  | begin =>
    cases h
    exact ⟨⟨[], by simp⟩, rfl, fun _ => rfl, fun i hi => app hi, fun i o hi _ _ => ⟨o, app hi, rfl⟩⟩
  | copy k =>
    simp only [World.step, bind, Except.bind] at h
    split at h
    · cases h
    · cases h
      exact ⟨⟨[], by simp⟩, rfl, fun _ => rfl, fun i hi => app hi, fun i o hi _ _ => ⟨o, app hi, rfl⟩⟩
  | assign k j =>
    simp only [World.step, bind, Except.bind] at h
    split at h
    · cases h
    · rename_i a ha
      split at h
      · cases h
      · cases h
        refine ⟨⟨[], by simp⟩, rfl, fun _ => rfl, fun i hi => setd hi ?_, fun i o hi ht _ => ⟨o, setd hi ?_, rfl⟩⟩
        · rintro rfl; rw [it_dead hi] at ha; cases ha
        · rintro rfl; exact ht (.assign j)
  | destroy k =>
    simp only [World.step, bind, Except.bind] at h
    split at h
    · cases h
    · rename_i a ha
      cases h
      refine ⟨⟨[], by simp⟩, rfl, fun _ => rfl, fun i hi => setd hi ?_, fun i o hi ht _ => ⟨o, setd hi ?_, rfl⟩⟩
      · rintro rfl; rw [it_dead hi] at ha; cases ha
      · rintro rfl; exact ht .destroy
  | incr k =>
    simp only [World.step, bind, Except.bind] at h
    split at h
    · cases h
    · rename_i a ha
      split at h
      · cases h
      · cases h
        refine ⟨⟨[], by simp⟩, rfl, fun _ => rfl, fun i hi => setd hi ?_, fun i o hi ht _ => ?_⟩
        · rintro rfl; rw [it_dead hi] at ha; cases ha
        · by_cases hk : i = k
          · subst hk
            rw [it_ok, hi] at ha
            cases ha
            exact ⟨_, List.getElem?_set_self (List.getElem?_eq_some_iff.1 hi).1, rfl⟩
          · exact ⟨o, setd hi hk, rfl⟩
  | deref k =>
    simp only [World.step, bind, Except.bind] at h
    split at h
    · cases h
    · rename_i a ha
      split at h
      · cases h
      · split at h
        · cases h
          exact ⟨⟨_, rfl⟩, rfl, fun _ => rfl, fun i hi => hi, fun i o hi _ _ => ⟨o, hi, rfl⟩⟩
        · cases h
          refine ⟨⟨_, rfl⟩, rfl, fun _ => rfl, fun i hi => setd hi ?_, fun i o hi ht _ => ⟨o, setd hi ?_, rfl⟩⟩
          · rintro rfl; rw [it_dead hi] at ha; cases ha
          · rintro rfl; exact ht .deref
  | write r v =>
    simp only [World.step, bind, Except.bind] at h
    split at h
    · cases h
    · rename_i x _
      cases x with
      | text p =>
        simp only [World.store, bind, Except.bind] at h
        split at h
        · cases h
        · cases h
          exact ⟨⟨[], by simp⟩, by simp, fun hw => absurd (.write r v) hw, fun i hi => hi, fun _ _ _ _ hw => absurd (.write r v) hw⟩
      | hex k =>
        simp only [World.store, bind, Except.bind] at h
        split at h
        · cases h
        · rename_i a ha
          cases h
          refine ⟨⟨[], by simp⟩, rfl, fun hw => absurd (.write r v) hw, fun i hi => setd hi ?_, fun _ _ _ _ hw => absurd (.write r v) hw⟩
          rintro rfl; rw [it_dead hi] at ha; cases ha
  | swap i j =>
    simp only [World.step, bind, Except.bind] at h
    split at h
    · cases h
    · split at h
      · cases h
      · split at h
        · cases h
        · split at h
          · cases h
          · cases h
            exact ⟨⟨[], by simp⟩, by simp, fun hw => absurd (.swap i j) hw, fun i hi => hi, fun _ _ _ _ hw => absurd (.swap i j) hw⟩

theorem run_cons {w w' : World} {op : Op} {ops : List Op} (h : w.run (op :: ops) = .ok w') : ∃ w1, w.step op = .ok w1 ∧ w1.run ops = .ok w' := by
  rw [World.run, List.foldlM_cons] at h
  cases hs : w.step op with
  | error e => rw [hs] at h; simp [bind, Except.bind] at h
  | ok w1 => rw [hs] at h; exact ⟨w1, rfl, h⟩

theorem run_nil {w w' : World} (h : w.run [] = .ok w') : w' = w := by
  simp only [World.run, List.foldlM_nil, pure, Except.pure] at h
  cases h; rfl

theorem run_parts : ∀ (ops : List Op) (w w' : World), w.run ops = .ok w' →
    (∃ l, w'.refs = w.refs ++ l) ∧ w'.text.length = w.text.length ∧ ((∀ op ∈ ops, ¬ Writes op) → w'.text = w.text) ∧
    (∀ i : Nat, w.its[i]? = some none → w'.its[i]? = some none) ∧
    (∀ (i : Nat) (o : ItObj), w.its[i]? = some (some o) → (∀ op ∈ ops, ¬ Touches i op) → (∀ op ∈ ops, ¬ Writes op) →
      ∃ o' : ItObj, w'.its[i]? = some (some o') ∧ o'.hex = o.hex) := by
  intro ops
  induction ops with
  | nil =>
    intro w w' h
    cases run_nil h
    exact ⟨⟨[], by simp⟩, rfl, fun _ => rfl, fun _ h => h, fun i o h _ _ => ⟨o, h, rfl⟩⟩
  | cons op ops ih =>
    intro w w' h
    obtain ⟨w1, h1, h2⟩ := run_cons h
    obtain ⟨⟨l1, a1⟩, a2, a3, a4, a5⟩ := step_parts h1
    obtain ⟨⟨l2, b1⟩, b2, b3, b4, b5⟩ := ih w1 w' h2
    refine ⟨⟨l1 ++ l2, by rw [b1, a1, List.append_assoc]⟩, by rw [b2, a2], ?_, fun i hi => b4 i (a4 i hi), ?_⟩
    · intro hw
      rw [b3 fun op h => hw op (List.mem_cons_of_mem _ h), a3 (hw op List.mem_cons_self)]
    · intro i o hi ht hw
      obtain ⟨o1, c1, c2⟩ := a5 i o hi (ht op List.mem_cons_self) (hw op List.mem_cons_self)
      obtain ⟨o2, c3, c4⟩ := b5 i o1 c1 (fun op h => ht op (List.mem_cons_of_mem _ h)) (fun op h => hw op (List.mem_cons_of_mem _ h))
      exact ⟨o2, c3, c4.trans c2⟩

theorem ref_kept {w w' : World} {r : Nat} {x : Ref} (h : ∃ l, w'.refs = w.refs ++ l) (hr : w.refs[r]? = some x) : w'.ref r = .ok x := by
  obtain ⟨l, e⟩ := h
  unfold World.ref
  rw [e, List.getElem?_append_left (List.getElem?_eq_some_iff.1 hr).1, hr]

theorem destroyed : ∀ (ops : List Op) (w w' : World) (i : Nat), w.run ops = .ok w' → .destroy i ∈ ops → w'.its[i]? = some none := by
  intro ops
  induction ops with
  | nil => intro w w' i _ h; cases h
  | cons op ops ih =>
    intro w w' i h hm
    obtain ⟨w1, h1, h2⟩ := run_cons h
    rcases List.mem_cons.1 hm with rfl | hm
    · refine (run_parts ops w1 w' h2).2.2.2.1 i ?_
      simp only [World.step, bind, Except.bind] at h1
      split at h1
      · cases h1
      · rename_i o ho
        cases h1
        rw [it_ok] at ho
        exact List.getElem?_set_self (List.getElem?_eq_some_iff.1 ho).1
    · exact ih w1 w' i h2 hm

end Verif.Refs

namespace Verif
open PctSpec Refs

/-! ### C64 -/

/-- C64: an iterator is never past the end, whatever the program does, and the text keeps its length. -/
theorem C64_bounds (s : Str) (ops : List Op) (w : World) (h : use s ops = .ok w) :
    w.text.length = s.length ∧ ∀ (i : Nat) (o : ItObj), w.its[i]? = some (some o) → o.pos ≤ s.length := by
  have key : ∀ (ops : List Op) (w w' : World), w.run ops = .ok w' → (∀ (i : Nat) (o : ItObj), w.its[i]? = some (some o) → o.pos ≤ w.text.length) →
      ∀ (i : Nat) (o : ItObj), w'.its[i]? = some (some o) → o.pos ≤ w'.text.length := by
    intro ops
    induction ops with
    | nil => intro w w' h hw; cases run_nil h; exact hw
    | cons op ops ih =>
      intro w w' h hw
      obtain ⟨w1, h1, h2⟩ := run_cons h
      refine ih w1 w' h2 ?_
      have hlen := (step_parts h1).2.1
      have push : ∀ {x : ItObj} {k : Nat}, x.pos ≤ w.text.length → ∀ (i : Nat) (o : ItObj), (w.its.set k (some x))[i]? = some (some o) → o.pos ≤ w.text.length := by
        intro x k hx i o ho
        by_cases e : k = i
        · subst e
          by_cases hlt : k < w.its.length
          · rw [List.getElem?_set_self hlt] at ho; cases ho; exact hx
          · rw [List.getElem?_eq_none (by simp; omega)] at ho; cases ho
        · rw [List.getElem?_set_ne e] at ho; exact hw i o ho
      have app : ∀ {x : ItObj}, x.pos ≤ w.text.length → ∀ (i : Nat) (o : ItObj), (w.its ++ [some x])[i]? = some (some o) → o.pos ≤ w.text.length := by
        intro x hx i o ho
        rcases Nat.lt_trichotomy i w.its.length with hlt | rfl | hgt
        · rw [List.getElem?_append_left hlt] at ho; exact hw i o ho
        · rw [List.getElem?_concat_length] at ho; cases ho; exact hx
        · rw [List.getElem?_eq_none (by simp; omega)] at ho; cases ho
      intro i o
      rw [hlen]
      cases op with
      | begin => cases h1; exact app (Nat.zero_le _) i o
      | copy k =>
        simp only [World.step, bind, Except.bind] at h1
        split at h1
        · cases h1
        · rename_i a ha
          cases h1
          exact app (hw k a (it_ok.1 ha)) i o
      | assign k j =>
        simp only [World.step, bind, Except.bind] at h1
        split at h1
        · cases h1
        · split at h1
          · cases h1
          · rename_i a ha
            cases h1
            exact push (hw j a (it_ok.1 ha)) i o
      | destroy k =>
        simp only [World.step, bind, Except.bind] at h1
        split at h1
        · cases h1
        · cases h1
          intro ho
          by_cases e : k = i
          · subst e
            by_cases hlt : k < w.its.length
            · rw [List.getElem?_set_self hlt] at ho; cases ho
            · rw [List.getElem?_eq_none (by simp; omega)] at ho; cases ho
          · rw [List.getElem?_set_ne e] at ho; exact hw i o ho
      | incr k =>
        simp only [World.step, bind, Except.bind] at h1
        split at h1
        · cases h1
        · rename_i a ha
          split at h1
          · cases h1
          · rename_i p hp
            cases h1
            refine push (x := { a with pos := p }) ?_ i o
            show p ≤ w.text.length
            have ha' := hw k a (it_ok.1 ha)
            by_cases hlt : a.pos < w.text.length
            · have e : w.text = w.text.take a.pos ++ w.text[a.pos] :: w.text.drop (a.pos + 1) ++ [] := by simp
              have hl : (w.text.take a.pos).length = a.pos := by simp; omega
              have hs : w.text.length = (w.text.take a.pos).length + (w.text[a.pos] :: w.text.drop (a.pos + 1)).length := by simp; omega
              have h1 := pctIncrement_mid (w.text.take a.pos) [] w.text[a.pos] (w.text.drop (a.pos + 1))
              rw [← e, ← hs, hl, hp] at h1
              cases h1
              cases ht : tripHead (w.text[a.pos] :: w.text.drop (a.pos + 1)) with
              | none => simp; omega
              | some b =>
                obtain ⟨x, y, z, e', _⟩ := tripHead_cons ht
                have : (w.text[a.pos] :: w.text.drop (a.pos + 1)).length = z.length + 3 := by rw [e']; simp
                simp at this ⊢
                omega
            · unfold pctIncrement at hp
              rw [if_pos (by omega)] at hp
              cases hp
      | deref k =>
        simp only [World.step, bind, Except.bind] at h1
        split at h1
        · cases h1
        · rename_i a ha
          split at h1
          · cases h1
          · split at h1
            · cases h1; exact hw i o
            · rename_i v _
              cases h1; exact push (x := { a with hex := v }) (hw k a (it_ok.1 ha)) i o
      | write r v =>
        simp only [World.step, bind, Except.bind] at h1
        split at h1
        · cases h1
        · rename_i x _
          cases x with
          | text p =>
            simp only [World.store, bind, Except.bind] at h1
            split at h1
            · cases h1
            · cases h1; exact hw i o
          | hex k =>
            simp only [World.store, bind, Except.bind] at h1
            split at h1
            · cases h1
            · rename_i a ha
              cases h1; exact push (x := { a with hex := v }) (hw k a (it_ok.1 ha)) i o
      | swap k j =>
        simp only [World.step, bind, Except.bind] at h1
        split at h1
        · cases h1
        · split at h1
          · cases h1
          · split at h1
            · cases h1
            · split at h1
              · cases h1
              · cases h1; exact hw i o
  have hl := (run_parts ops _ w h).2.1
  refine ⟨hl, fun i o ho => ?_⟩
  have := key ops _ w h (by simp) i o ho
  rw [hl] at this
  exact this

/-- C64: incrementing an iterator that is not at the end moves it over a triplet or over one byte, and changes nothing else. -/
theorem C64_incr (w : World) (i p : Nat) (h : At w i p) :
    ∃ w' o o', w.step (.incr i) = .ok w' ∧ w.its[i]? = some (some o) ∧ w'.its[i]? = some (some o') ∧ o'.hex = o.hex ∧
      (StartsTriplet (w.text.drop p) → o'.pos = p + 3) ∧ (¬ StartsTriplet (w.text.drop p) → o'.pos = p + 1) ∧
      w'.text = w.text ∧ w'.refs = w.refs ∧ ∀ j : Nat, j ≠ i → w'.its[j]? = w.its[j]? := by
  obtain ⟨⟨o, ho, rfl⟩, hp⟩ := h
  have e : w.text = w.text.take o.pos ++ w.text[o.pos] :: w.text.drop (o.pos + 1) ++ [] := by simp
  have hl : (w.text.take o.pos).length = o.pos := by simp; omega
  have hs : w.text.length = (w.text.take o.pos).length + (w.text[o.pos] :: w.text.drop (o.pos + 1)).length := by simp; omega
  have h1 := pctIncrement_mid (w.text.take o.pos) [] w.text[o.pos] (w.text.drop (o.pos + 1))
  rw [← e, ← hs, hl, ← List.drop_eq_getElem_cons hp] at h1
  have hset := List.getElem?_set_self (a := some { o with pos := o.pos + if (tripHead (w.text.drop o.pos)).isSome then 3 else 1 }) (List.getElem?_eq_some_iff.1 ho).1
  refine ⟨{ w with its := w.its.set i (some { o with pos := o.pos + if (tripHead (w.text.drop o.pos)).isSome then 3 else 1 }) }, o, _,
    by simp only [World.step, it_ok.2 ho, bind, Except.bind, h1], ho, hset, rfl, ?_, ?_, rfl, rfl, fun j hj => List.getElem?_set_ne (Ne.symm hj)⟩
  · intro ht
    rw [starts_iff] at ht
    simp [ht]
  · intro ht
    rw [starts_iff] at ht
    simp [ht]

/-- C64: dereferencing an iterator that is not at the end gives a reference that reads as the decoded character, and
changes nothing but the iterator itself: not the text, no position, no other iterator. -/
theorem C64_deref (w : World) (i p : Nat) (h : At w i p) :
    ∃ w' c, w.step (.deref i) = .ok w' ∧ Shows w.text p c ∧ w'.read w.refs.length = .ok c ∧ w'.text = w.text ∧ w'.refs.length = w.refs.length + 1 ∧
      At w' i p ∧ ∀ j : Nat, j ≠ i → w'.its[j]? = w.its[j]? := by
  have hp := h.2
  obtain ⟨o, c, ho, rfl, hc, ⟨_, h2, h3⟩ | ⟨_, h3⟩⟩ := deref_step h
  · refine ⟨_, c, h3, hc, ?_, rfl, by simp, ⟨⟨o, ho, rfl⟩, hp⟩, fun _ _ => rfl⟩
    simp [World.read, World.ref, bind, Except.bind, World.load, readAt, h2]
  · have hs := List.getElem?_set_self (a := some { o with hex := c }) (List.getElem?_eq_some_iff.1 ho).1
    refine ⟨_, c, h3, hc, ?_, rfl, by simp, ⟨⟨_, hs, rfl⟩, hp⟩, fun j hj => List.getElem?_set_ne (Ne.symm hj)⟩
    simp [World.read, World.ref, bind, Except.bind, World.load, World.it, List.getElem?_concat_length, hs]

/-- C64: how long a reference is good, as long as nobody writes to the text.  A reference to a character that is not
a triplet: for ever, whatever becomes of the iterator.  A reference to a decoded triplet: as long as the iterator
lives and is neither assigned to nor dereferenced again (incrementing it does no harm). -/
theorem C64_lasts (w : World) (i p : Nat) (h : At w i p) (w1 : World) (h1 : w.step (.deref i) = .ok w1) (c : UInt8) (hc : Shows w.text p c)
    (after : List Op) (w2 : World) (h2 : w1.run after = .ok w2) (hw : ∀ op ∈ after, ¬ Writes op) (ht : StartsTriplet (w.text.drop p) → ∀ op ∈ after, ¬ Touches i op) :
    w2.read w.refs.length = .ok c := by
  have hp := h.2
  obtain ⟨o, c', ho, rfl, hc', hh⟩ := deref_step h
  obtain rfl : c' = c := by rw [shows_iff hp] at hc hc'; rw [hc, hc']
  obtain ⟨r1, _, r3, _, r5⟩ := run_parts after w1 w2 h2
  rcases hh with ⟨_, g2, g3⟩ | ⟨g1, g3⟩
  · rw [g3] at h1
    cases h1
    have := ref_kept (r := w.refs.length) (x := .text o.pos) r1 (by simp)
    simp only [World.read, this, bind, Except.bind, World.load, readAt, r3 hw, g2]
  · rw [g3] at h1
    cases h1
    have := ref_kept (r := w.refs.length) (x := .hex i) r1 (by simp)
    have hs := List.getElem?_set_self (a := some { o with hex := c' }) (List.getElem?_eq_some_iff.1 ho).1
    obtain ⟨o', e1, e2⟩ := r5 i _ hs (ht g1) hw
    simp only [World.read, this, bind, Except.bind, World.load, it_ok.2 e1, e2]

/-- C64: a reference to a decoded triplet dangles once its iterator is destroyed. -/
theorem C64_dangles (w : World) (i p : Nat) (h : At w i p) (ht : StartsTriplet (w.text.drop p)) (w1 : World) (h1 : w.step (.deref i) = .ok w1)
    (after : List Op) (w2 : World) (h2 : w1.run after = .ok w2) (hd : .destroy i ∈ after) : w2.read w.refs.length = .error .dangling := by
  obtain ⟨o, c, ho, rfl, hc, ⟨g1, _⟩ | ⟨g1, g3⟩⟩ := deref_step h
  · exact absurd ht g1
  · rw [g3] at h1
    cases h1
    obtain ⟨r1, _⟩ := run_parts after _ w2 h2
    have := ref_kept (r := w.refs.length) (x := .hex i) r1 (by simp)
    simp only [World.read, this, bind, Except.bind, World.load, it_dead (destroyed after _ w2 i h2 hd)]

/-- C64: all references got from one iterator at triplets are to one object: from the second dereference on, the first
reference reads as the second does, whatever is done afterwards. -/
theorem C64_alias (w : World) (i p : Nat) (h : At w i p) (ht : StartsTriplet (w.text.drop p)) (w1 : World) (h1 : w.step (.deref i) = .ok w1)
    (between : List Op) (w2 : World) (h2 : w1.run between = .ok w2) (q : Nat) (h' : At w2 i q) (ht' : StartsTriplet (w2.text.drop q))
    (w3 : World) (h3 : w2.step (.deref i) = .ok w3) (after : List Op) (w4 : World) (h4 : w3.run after = .ok w4) :
    w4.read w.refs.length = w4.read w2.refs.length := by
  obtain ⟨o, c, ho, rfl, hc, ⟨g1, _⟩ | ⟨g1, g3⟩⟩ := deref_step h
  · exact absurd ht g1
  obtain ⟨o', c', ho', rfl, hc', ⟨g1', _⟩ | ⟨g1', g3'⟩⟩ := deref_step h'
  · exact absurd ht' g1'
  rw [g3] at h1; cases h1
  obtain ⟨s1, _⟩ := step_parts h3
  rw [g3'] at h3; cases h3
  obtain ⟨l1, r1⟩ := (run_parts between _ w2 h2).1
  obtain ⟨l2, r2⟩ := (run_parts after _ w4 h4).1
  obtain ⟨l3, r3⟩ := s1
  have e1 : w4.ref w.refs.length = .ok (.hex i) := ref_kept (w := w2) ⟨l3 ++ l2, by rw [r2, r3]; simp⟩ (by rw [r1]; simp)
  have e2 : w4.ref w2.refs.length = .ok (.hex i) := ref_kept (r := w2.refs.length) ⟨l2, r2⟩ (by simp)
  simp only [World.read, e1, e2]

/-- C64: `*it++`, that is, copy, increment the original, dereference the copy: the character can be read while the
copy lives; afterwards the reference is good exactly if the character was not a triplet. -/
theorem C64_postfix (w : World) (i p : Nat) (h : At w i p) (c : UInt8) (hc : Shows w.text p c) :
    ∃ w1 w2, w.run [.copy i, .incr i, .deref w.its.length] = .ok w1 ∧ w1.read w.refs.length = .ok c ∧
      w1.run [.destroy w.its.length] = .ok w2 ∧
      (¬ StartsTriplet (w.text.drop p) → w2.read w.refs.length = .ok c) ∧ (StartsTriplet (w.text.drop p) → w2.read w.refs.length = .error .dangling) := by
  obtain ⟨⟨o, ho, rfl⟩, hp⟩ := h
  have hlt := (List.getElem?_eq_some_iff.1 ho).1
  obtain ⟨q, hq⟩ : ∃ q, pctIncrement w.text o.pos w.text.length = .ok q := by
    have e : w.text = w.text.take o.pos ++ w.text[o.pos] :: w.text.drop (o.pos + 1) ++ [] := by simp
    have hl : (w.text.take o.pos).length = o.pos := by simp; omega
    have hs : w.text.length = (w.text.take o.pos).length + (w.text[o.pos] :: w.text.drop (o.pos + 1)).length := by simp; omega
    have h1 := pctIncrement_mid (w.text.take o.pos) [] w.text[o.pos] (w.text.drop (o.pos + 1))
    rw [← e, ← hs, hl] at h1
    exact ⟨_, h1⟩
  let wa : World := { w with its := w.its ++ [some o] }
  let wb : World := { w with its := (w.its ++ [some o]).set i (some { o with pos := q }) }
  have sa : w.step (.copy i) = .ok wa := by simp only [World.step, it_ok.2 ho, bind, Except.bind]; rfl
  have sb : wa.step (.incr i) = .ok wb := by
    have : wa.it i = .ok o := it_ok.2 (by show (w.its ++ [some o])[i]? = _; rw [List.getElem?_append_left hlt]; exact ho)
    have hq' : pctIncrement wa.text o.pos wa.text.length = .ok q := hq
    simp only [World.step, this, bind, Except.bind, hq']
    rfl
  have hb : wb.its[w.its.length]? = some (some o) := by
    show ((w.its ++ [some o]).set i _)[w.its.length]? = _
    rw [List.getElem?_set_ne (by omega), List.getElem?_concat_length]
  have hat : At wb w.its.length o.pos := ⟨⟨o, hb, rfl⟩, hp⟩
  obtain ⟨w1, c', s1, hc1, hr, _, _, hat1, _⟩ := C64_deref wb _ _ hat
  obtain rfl : c' = c := by
    have hc1 : Shows w.text o.pos c' := hc1
    rw [shows_iff hp] at hc hc1; rw [hc, hc1]
  obtain ⟨⟨o1, ho1, _⟩, _⟩ := hat1
  have s2 : w1.step (.destroy w.its.length) = .ok { w1 with its := w1.its.set w.its.length none } := by
    simp only [World.step, it_ok.2 ho1, bind, Except.bind]
  have run1 : w1.run [.destroy w.its.length] = .ok { w1 with its := w1.its.set w.its.length none } := by
    simp [World.run, s2, bind, Except.bind, pure, Except.pure]
  refine ⟨w1, _, ?_, hr, run1, fun hn => ?_, fun ht => ?_⟩
  · simp [World.run, sa, sb, s1, bind, Except.bind, pure, Except.pure]
  · refine C64_lasts wb _ _ hat w1 s1 c' hc [.destroy w.its.length] _ run1 ?_ (fun ht => absurd ht hn)
    intro op hop hw
    cases List.mem_singleton.1 hop
    cases hw
  · exact C64_dangles wb _ _ hat ht w1 s1 [.destroy w.its.length] _ run1 List.mem_cons_self

/-- C64: iterators at the same position read the same character, but refer to the same object only away from triplets
(or if they are one iterator). -/
theorem C64_same_object (w : World) (i j p : Nat) (hi : At w i p) (hj : At w j p) :
    ∃ w1 w2 x y c, w.step (.deref i) = .ok w1 ∧ w1.step (.deref j) = .ok w2 ∧ w2.refs = w.refs ++ [x, y] ∧ w2.read w.refs.length = .ok c ∧
      w2.read (w.refs.length + 1) = .ok c ∧ (x = y ↔ ¬ StartsTriplet (w.text.drop p) ∨ i = j) := by
  obtain ⟨o, c, ho, rfl, hc, hh⟩ := deref_step hi
  have hp := hi.2
  have uniq : ∀ {c'}, Shows w.text o.pos c' → c' = c := by
    intro c' h; rw [shows_iff hp] at hc h; rw [hc, h]
  rcases hh with ⟨g1, g2, g3⟩ | ⟨g1, g3⟩
  · obtain ⟨oj, cj, hoj, hpj, hcj, ⟨g1', g2', g3'⟩ | ⟨g1', _⟩⟩ := deref_step (w := { w with refs := w.refs ++ [.text o.pos] }) (i := j) (p := o.pos) hj
    · refine ⟨_, _, .text o.pos, .text o.pos, c, g3, g3', by simp, ?_, ?_, by simp [g1]⟩
      · simp [World.read, World.ref, bind, Except.bind, World.load, readAt, g2]
      · simp [World.read, World.ref, bind, Except.bind, World.load, readAt, g2]
    · exact absurd g1' g1
  · have hset := List.getElem?_set_self (a := some { o with hex := c }) (List.getElem?_eq_some_iff.1 ho).1
    have hatj : At { w with its := w.its.set i (some { o with hex := c }), refs := w.refs ++ [.hex i] } j o.pos := by
      refine ⟨?_, hp⟩
      by_cases e : i = j
      · subst e; exact ⟨_, hset, rfl⟩
      · obtain ⟨⟨oj, k1, k2⟩, _⟩ := hj
        exact ⟨oj, by rw [← k1]; exact List.getElem?_set_ne e, k2⟩
    obtain ⟨oj, cj, hoj, hpj, hcj, ⟨g1', _⟩ | ⟨g1', g3'⟩⟩ := deref_step hatj
    · exact absurd g1 g1'
    · obtain rfl := uniq hcj
      have hset' := List.getElem?_set_self (a := some { oj with hex := cj }) (List.getElem?_eq_some_iff.1 hoj).1
      refine ⟨_, _, .hex i, .hex j, cj, g3, g3', by simp, ?_, ?_, by simp [g1]⟩
      · have e : ((w.refs ++ [Ref.hex i]) ++ [Ref.hex j])[w.refs.length]? = some (.hex i) := by simp
        by_cases eij : i = j
        · subst eij
          exact read_hex (o := { oj with hex := cj }) e hset'
        · refine read_hex (o := { o with hex := cj }) e ?_
          show ((w.its.set i _).set j _)[i]? = _
          rw [List.getElem?_set_ne (Ne.symm eij)]; exact hset
      · have e : ((w.refs ++ [Ref.hex i]) ++ [Ref.hex j])[w.refs.length + 1]? = some (.hex j) := by simp
        exact read_hex (o := { oj with hex := cj }) e hset'

/-- C64: writing through a fresh reference changes the text, at the position of the iterator and nowhere else, unless
there is a triplet there; then the text is not changed, and dereferencing the iterator again gives the old character. -/
theorem C64_write (w : World) (i p : Nat) (h : At w i p) (c : UInt8) (hc : Shows w.text p c) (w1 : World) (h1 : w.step (.deref i) = .ok w1) (v : UInt8) :
    ∃ w2, w1.step (.write w.refs.length v) = .ok w2 ∧ w2.read w.refs.length = .ok v ∧
      (¬ StartsTriplet (w.text.drop p) → w2.text = w.text.set p v ∧ w2.its = w.its) ∧
      (StartsTriplet (w.text.drop p) → w2.text = w.text ∧ ∃ w3, w2.step (.deref i) = .ok w3 ∧ w3.read (w.refs.length + 1) = .ok c) := by
  obtain ⟨o, c', ho, rfl, hc', hh⟩ := deref_step h
  have hp := h.2
  obtain rfl : c' = c := by rw [shows_iff hp] at hc hc'; rw [hc, hc']
  rcases hh with ⟨g1, g2, g3⟩ | ⟨g1, g3⟩
  · rw [g3] at h1; cases h1
    refine ⟨{ w with text := w.text.set o.pos v, refs := w.refs ++ [.text o.pos] }, ?_, ?_, fun _ => ⟨rfl, rfl⟩, fun k => absurd k g1⟩
    · simp [World.step, World.ref, World.store, bind, Except.bind, readAt, g2]
    · simp [World.read, World.ref, World.load, bind, Except.bind, readAt, hp]
  · rw [g3] at h1; cases h1
    have hset := List.getElem?_set_self (a := some { o with hex := c' }) (List.getElem?_eq_some_iff.1 ho).1
    have hset2 := List.getElem?_set_self (a := some { o with hex := v }) (List.getElem?_eq_some_iff.1 hset).1
    have hit : World.it { w with its := w.its.set i (some { o with hex := c' }), refs := w.refs ++ [.hex i] } i = .ok { o with hex := c' } := it_ok.2 hset
    refine ⟨{ w with its := (w.its.set i (some { o with hex := c' })).set i (some { o with hex := v }), refs := w.refs ++ [.hex i] }, ?_, ?_, fun k => absurd g1 k, fun _ => ⟨rfl, ?_⟩⟩
    · have e : (w.refs ++ [Ref.hex i])[w.refs.length]? = some (.hex i) := by simp
      simp only [World.step, World.ref, e, World.store, bind, Except.bind, hit]
    · have e : (w.refs ++ [Ref.hex i])[w.refs.length]? = some (.hex i) := by simp
      exact read_hex (o := { o with hex := v }) e hset2
    · obtain ⟨w3, c'', k1, k2, k3, _⟩ := C64_deref { w with its := (w.its.set i (some { o with hex := c' })).set i (some { o with hex := v }), refs := w.refs ++ [.hex i] } i o.pos
        ⟨⟨_, hset2, rfl⟩, hp⟩
      obtain rfl : c'' = c' := by
        have k2 : Shows w.text o.pos c'' := k2
        rw [shows_iff hp] at hc k2; rw [hc, k2]
      refine ⟨w3, k1, ?_⟩
      simpa using k3

/-- C64: `iter_swap` exchanges the bytes at the two positions, whether or not they begin triplets. -/
theorem C64_swap (w : World) (i j p q : Nat) (hi : At w i p) (hj : At w j q) :
    ∃ w', w.step (.swap i j) = .ok w' ∧ w'.text[p]? = w.text[q]? ∧ w'.text[q]? = w.text[p]? ∧ (∀ k : Nat, k ≠ p → k ≠ q → w'.text[k]? = w.text[k]?) ∧ w'.its = w.its := by
  obtain ⟨⟨a, ha, rfl⟩, hp⟩ := hi
  obtain ⟨⟨b, hb, rfl⟩, hq⟩ := hj
  refine ⟨{ w with text := (w.text.set a.pos w.text[b.pos]).set b.pos w.text[a.pos] }, ?_, ?_, ?_, ?_, rfl⟩
  · simp only [World.step, it_ok.2 ha, it_ok.2 hb, bind, Except.bind, readAt, List.getElem?_eq_getElem hp, List.getElem?_eq_getElem hq]
  · show ((w.text.set a.pos _).set b.pos _)[a.pos]? = _
    by_cases e : b.pos = a.pos
    · simp [e, hp]
    · rw [List.getElem?_set_ne e, List.getElem?_set_self hp, List.getElem?_eq_getElem hq]
  · show ((w.text.set a.pos _).set b.pos _)[b.pos]? = _
    rw [List.getElem?_set_self (by simpa using hq), List.getElem?_eq_getElem hp]
  · intro k h1 h2
    show ((w.text.set a.pos _).set b.pos _)[k]? = _
    rw [List.getElem?_set_ne (Ne.symm h2), List.getElem?_set_ne (Ne.symm h1)]

/-- C64: so swapping the elements of `%41b` does not give what reads as `bA`. -/
theorem C64_swap_false : ∃ w w', use (b! "%41b") [.begin, .begin, .incr 1] = .ok w ∧ pctdecode w.text = .ok (b! "Ab") ∧ w.step (.swap 0 1) = .ok w' ∧
    pctdecode w'.text = .ok (b! "b41%") :=
  ⟨⟨b! "%41b", [some ⟨0, 0⟩, some ⟨3, 0⟩], []⟩, ⟨b! "b41%", [some ⟨0, 0⟩, some ⟨3, 0⟩], []⟩, by decide +kernel⟩

/-- The states spoken of above are reached: `%41b`, an iterator at the triplet and a copy of it at the `b`. -/
example : ∃ w, use (b! "%41b") [.begin, .copy 0, .incr 1] = .ok w ∧ At w 0 0 ∧ At w 1 3 ∧ StartsTriplet (w.text.drop 0) ∧ ¬ StartsTriplet (w.text.drop 3) ∧
    Shows w.text 0 0x41 ∧ Shows w.text 3 0x62 := by
  refine ⟨⟨b! "%41b", [some ⟨0, 0⟩, some ⟨3, 0⟩], []⟩, by decide +kernel, ⟨⟨_, rfl, rfl⟩, by decide⟩, ⟨⟨_, rfl, rfl⟩, by decide⟩, ?_, ?_, ?_, ?_⟩
  · rw [starts_iff]; decide +kernel
  · rw [starts_iff]; decide +kernel
  · rw [shows_iff (by decide)]; decide +kernel
  · rw [shows_iff (by decide)]; decide +kernel

end Verif
