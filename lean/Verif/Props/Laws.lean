import Verif.Model.Rule

/-!
# C100: rewriting a grammar
-/

namespace Verif.Laws
variable {α : Type}

/-! ### Specification -/

/-- What a match function must do: the text it says it matched is where its input begins. -/
def Proper (m : Matcher α) : Prop := ∀ sv h a, m (Rule.ofSV sv) = .ok (some (h, a)) → h.ptr = sv.ptr ∧ ∃ v, sv.chars = h.chars ++ v

/-- It comes to an end. -/
def Total (m : Matcher α) : Prop := ∀ sv, ∃ x, m (Rule.ofSV sv) = .ok x

/-- It does not match nothing. -/
def Consuming (m : Matcher α) : Prop := ∀ sv h a, m (Rule.ofSV sv) = .ok (some (h, a)) → h.chars ≠ []

/-- A chain of calls as a match function of its own: `[] (rule&& r) { return r.….matched ("…", r); }`. -/
def group (f : Rule α → M (Rule α)) : Matcher α := fun r => f r >>= Rule.matched r

/-- One call after the other: `r.f (…).g (…)`. -/
def andThen (f g : Rule α → M (Rule α)) : Rule α → M (Rule α) := fun r => f r >>= g

/-- The match function that matches nothing and always succeeds. -/
def nothing : Matcher α := group fun r => .ok r

/-! ### Lemmas -/

theorem step_error {m : Matcher α} {t : SV} {e : Fault} (h : m (Rule.ofSV t) = .error e) (acc : Acceptors α) (x : Option α) (o : Bool) :
    Rule.concatImpl m x o ⟨some t, acc⟩ = .error e := by
  simp [Rule.concatImpl, h, bind, Except.bind]

theorem step_none {m : Matcher α} {t : SV} (h : m (Rule.ofSV t) = .ok none) (acc : Acceptors α) (x : Option α) (o : Bool) :
    Rule.concatImpl m x o ⟨some t, acc⟩ = .ok (if o then ⟨some t, acc⟩ else Rule.failed) := by
  cases o <;> simp [Rule.concatImpl, h, bind, Except.bind]

theorem join_some (p : Nat) (u v : Str) (acc as : Acceptors α) :
    Rule.joinMatched ⟨some ⟨p, u ++ v⟩, acc⟩ (⟨p, u⟩, as) = .ok ⟨some ⟨p + u.length, v⟩, acc ++ as⟩ := by
  simp [Rule.joinMatched, SV.substrFrom, SV.size, bind, Except.bind, pure, Except.pure]

theorem step_some {m : Matcher α} {p : Nat} {u v : Str} {as : Acceptors α} (h : m (Rule.ofSV ⟨p, u ++ v⟩) = .ok (some (⟨p, u⟩, as))) (acc : Acceptors α)
    (x : Option α) (o : Bool) :
    Rule.concatImpl m x o ⟨some ⟨p, u ++ v⟩, acc⟩ = .ok ⟨some ⟨p + u.length, v⟩, acc ++ (as ++ (x.map fun x => (x, (⟨p, u⟩ : SV))).toList)⟩ := by
  cases x with
  | none => simp [Rule.concatImpl, h, bind, Except.bind, join_some]
  | some x => simp [Rule.concatImpl, h, bind, Except.bind, join_some]

theorem concat_error {m : Matcher α} {t : SV} {e : Fault} (h : m (Rule.ofSV t) = .error e) (acc : Acceptors α) : Rule.concat m ⟨some t, acc⟩ = .error e :=
  step_error h acc none false

theorem concat_none {m : Matcher α} {t : SV} (h : m (Rule.ofSV t) = .ok none) (acc : Acceptors α) : Rule.concat m ⟨some t, acc⟩ = .ok Rule.failed :=
  step_none h acc none false

theorem concat_some {m : Matcher α} {p : Nat} {u v : Str} {as : Acceptors α} (h : m (Rule.ofSV ⟨p, u ++ v⟩) = .ok (some (⟨p, u⟩, as))) (acc : Acceptors α) :
    Rule.concat m ⟨some ⟨p, u ++ v⟩, acc⟩ = .ok ⟨some ⟨p + u.length, v⟩, acc ++ as⟩ := by
  have := step_some h acc none false
  simpa [Rule.concat] using this

theorem matched_some (p : Nat) (u v : Str) (as : Acceptors α) :
    Rule.matched (Rule.ofSV ⟨p, u ++ v⟩) ⟨some ⟨p + u.length, v⟩, as⟩ = .ok (some (⟨p, u⟩, as)) := by
  simp [Rule.matched, Rule.ofSV, SV.size, SV.substr, bind, Except.bind, pure, Except.pure]

theorem alt_error {m : Matcher α} {ms : List (Matcher α)} {t : SV} {acc : Acceptors α} {e : Fault} (h : m (Rule.ofSV t) = .error e) :
    Rule.alternative (m :: ms) ⟨some t, acc⟩ = .error e := by simp [Rule.alternative, h, bind, Except.bind]

theorem alt_none {m : Matcher α} {ms : List (Matcher α)} {t : SV} {acc : Acceptors α} (h : m (Rule.ofSV t) = .ok none) :
    Rule.alternative (m :: ms) ⟨some t, acc⟩ = Rule.alternative ms ⟨some t, acc⟩ := by simp [Rule.alternative, h, bind, Except.bind]

theorem alt_some {m : Matcher α} {ms : List (Matcher α)} {t : SV} {acc : Acceptors α} {x : SV × Acceptors α} (h : m (Rule.ofSV t) = .ok (some x)) :
    Rule.alternative (m :: ms) ⟨some t, acc⟩ = Rule.joinMatched ⟨some t, acc⟩ x := by simp [Rule.alternative, h, bind, Except.bind]

/-- The three things a match function can do. -/
theorem cases_of {m : Matcher α} (hm : Proper m) (t : SV) : (∃ e, m (Rule.ofSV t) = .error e) ∨ m (Rule.ofSV t) = .ok none ∨
    ∃ p u v as, t = ⟨p, u ++ v⟩ ∧ m (Rule.ofSV t) = .ok (some (⟨p, u⟩, as)) := by
  cases h : m (Rule.ofSV t) with
  | error e => exact Or.inl ⟨e, rfl⟩
  | ok x =>
    cases x with
    | none => exact Or.inr (Or.inl rfl)
    | some x =>
      obtain ⟨⟨p, u⟩, as⟩ := x
      obtain ⟨h1, v, h2⟩ := hm t _ _ h
      obtain ⟨q, cs⟩ := t
      simp only at h1 h2
      subst h1; subst h2
      exact Or.inr (Or.inr ⟨p, u, v, as, rfl, rfl⟩)

theorem failed_matched (t : SV) : Rule.matched (Rule.ofSV t) (Rule.failed : Rule α) = .ok none := rfl

/-- What a group of two does. -/
theorem group_cases {a b : Matcher α} (ha : Proper a) (hb : Proper b) (t : SV) (acc : Acceptors α) :
    (∃ e, group (andThen (Rule.concat a) (Rule.concat b)) (Rule.ofSV t) = .error e ∧ andThen (Rule.concat a) (Rule.concat b) ⟨some t, acc⟩ = .error e) ∨
    (group (andThen (Rule.concat a) (Rule.concat b)) (Rule.ofSV t) = .ok none ∧ andThen (Rule.concat a) (Rule.concat b) ⟨some t, acc⟩ = .ok Rule.failed) ∨
    ∃ p u v as, t = ⟨p, u ++ v⟩ ∧ group (andThen (Rule.concat a) (Rule.concat b)) (Rule.ofSV t) = .ok (some (⟨p, u⟩, as)) ∧
      andThen (Rule.concat a) (Rule.concat b) ⟨some t, acc⟩ = .ok ⟨some ⟨p + u.length, v⟩, acc ++ as⟩ := by
  have hof : Rule.ofSV t = (⟨some t, []⟩ : Rule α) := rfl
  simp only [group, andThen]
  rcases cases_of ha t with ⟨e, h⟩ | h | ⟨p, u, v, as, rfl, h⟩
  · refine Or.inl ⟨e, ?_, ?_⟩
    · rw [hof, concat_error h]; rfl
    · rw [concat_error h]; rfl
  · refine Or.inr (Or.inl ⟨?_, ?_⟩)
    · rw [hof, concat_none h]; rfl
    · rw [concat_none h]; rfl
  · rw [hof, concat_some h, concat_some h]
    simp only [bind, Except.bind]
    rcases cases_of hb ⟨p + u.length, v⟩ with ⟨e, k⟩ | k | ⟨q, w, z, bs, hq, k⟩
    · refine Or.inl ⟨e, ?_, ?_⟩ <;> rw [concat_error k]
    · refine Or.inr (Or.inl ⟨?_, ?_⟩) <;> rw [concat_none k]
      rfl
    · obtain ⟨rfl, rfl⟩ := SV.mk.inj hq
      refine Or.inr (Or.inr ⟨p, u ++ w, z, as ++ bs, by rw [List.append_assoc], ?_, ?_⟩) <;> rw [concat_some k]
      · have := matched_some p (u ++ w) z (as ++ bs)
        simp only [Rule.ofSV, List.append_assoc, List.length_append] at this
        simp [Nat.add_assoc, this]
      · simp [Nat.add_assoc]

theorem proper_group {a b : Matcher α} (ha : Proper a) (hb : Proper b) : Proper (group (andThen (Rule.concat a) (Rule.concat b))) := by
  intro sv h as e
  rcases group_cases ha hb sv [] with ⟨_, k, _⟩ | ⟨k, _⟩ | ⟨p, u, v, bs, rfl, k, _⟩ <;> rw [k] at e
  · cases e
  · cases e
  · obtain ⟨rfl, rfl⟩ := Prod.mk.inj (Option.some.inj (Except.ok.inj e))
    exact ⟨rfl, v, rfl⟩

end Laws

open Laws
variable {α : Type}

/-! ### C100 -/

/-- **C100**, grouping: `r.concat (group of a and b)` is `r.concat (a).concat (b)`. -/
theorem C100_group (a b : Matcher α) (ha : Proper a) (hb : Proper b) (r : Rule α) :
    Rule.concat (group (andThen (Rule.concat a) (Rule.concat b))) r = andThen (Rule.concat a) (Rule.concat b) r := by
  obtain ⟨tail, acc⟩ := r
  cases tail with
  | none => rfl
  | some t =>
    rcases group_cases ha hb t acc with ⟨e, h, k⟩ | ⟨h, k⟩ | ⟨p, u, v, as, rfl, h, k⟩
    · rw [k]; exact step_error h acc none false
    · rw [k]; exact step_none h acc none false
    · rw [k]; exact concat_some h acc

/-- **C100**: so concatenation is associative. -/
theorem C100_concat_assoc (a b c : Matcher α) (ha : Proper a) (hb : Proper b) (hc : Proper c) (r : Rule α) :
    andThen (Rule.concat (group (andThen (Rule.concat a) (Rule.concat b)))) (Rule.concat c) r =
    andThen (Rule.concat a) (Rule.concat (group (andThen (Rule.concat b) (Rule.concat c)))) r := by
  have h1 : andThen (Rule.concat (group (andThen (Rule.concat a) (Rule.concat b)))) (Rule.concat c) r =
      (andThen (Rule.concat a) (Rule.concat b) r >>= Rule.concat c) := by
    rw [← C100_group a b ha hb r]; rfl
  rw [h1]
  simp only [andThen]
  cases Rule.concat a r with
  | error e => rfl
  | ok r' => exact (C100_group b c hb hc r').symm

/-- **C100**: `alternative` of one is `concat`. -/
theorem C100_alternative_one (a : Matcher α) (r : Rule α) : Rule.alternative [a] r = Rule.concat a r := by
  obtain ⟨tail, acc⟩ := r
  cases tail with
  | none => rfl
  | some t =>
    simp only [Rule.alternative, Rule.concat, Rule.concatImpl]
    cases a (Rule.ofSV t) with
    | error e => rfl
    | ok x =>
      cases x with
      | none => rfl
      | some x => rfl

theorem Laws.alternative_cases : ∀ (ms : List (Matcher α)), (∀ m ∈ ms, Proper m) → ∀ (t : SV),
    (∃ e, ∀ acc, Rule.alternative ms ⟨some t, acc⟩ = .error e) ∨ (∀ acc, Rule.alternative ms ⟨some t, acc⟩ = .ok Rule.failed) ∨
    ∃ p u v as, t = ⟨p, u ++ v⟩ ∧ ∀ acc, Rule.alternative ms ⟨some t, acc⟩ = .ok ⟨some ⟨p + u.length, v⟩, acc ++ as⟩
  | [], _, _ => Or.inr (Or.inl fun _ => rfl)
  | m :: ms, hm, t => by
    rcases cases_of (hm m (by simp)) t with ⟨e, h⟩ | h | ⟨p, u, v, as, rfl, h⟩
    · exact Or.inl ⟨e, fun acc => by simp [Rule.alternative, h, bind, Except.bind]⟩
    · have e : ∀ acc, Rule.alternative (m :: ms) ⟨some t, acc⟩ = Rule.alternative ms ⟨some t, acc⟩ := fun acc => by
        simp [Rule.alternative, h, bind, Except.bind]
      simp only [e]
      exact Laws.alternative_cases ms (fun m hm' => hm m (by simp [hm'])) t
    · exact Or.inr (Or.inr ⟨p, u, v, as, rfl, fun acc => by simp [Rule.alternative, h, bind, Except.bind, join_some]⟩)

/-- A group of alternatives tried within alternatives. -/
theorem Laws.group_alternative (ms : List (Matcher α)) (hm : ∀ m ∈ ms, Proper m) (t : SV) (acc : Acceptors α) :
    Rule.concat (group (Rule.alternative ms)) ⟨some t, acc⟩ = Rule.alternative ms ⟨some t, acc⟩ := by
  rcases Laws.alternative_cases ms hm t with ⟨e, h⟩ | h | ⟨p, u, v, as, rfl, h⟩
  · rw [h]
    exact step_error (m := group (Rule.alternative ms)) (by simp [group, Rule.ofSV, h, bind, Except.bind]) acc none false
  · rw [h]
    exact step_none (m := group (Rule.alternative ms)) (by simp only [group, Rule.ofSV, h]; rfl) acc none false
  · rw [h]
    exact concat_some (m := group (Rule.alternative ms)) (as := as) (p := p) (u := u) (v := v)
      (by simp only [group, Rule.ofSV, h]; exact matched_some p u v as) acc

/-- **C100**: alternatives can be grouped: `alternative (a, b, …)` is `alternative (a, group of alternative (b, …))`. -/
theorem C100_alternative_group (a : Matcher α) (ms : List (Matcher α)) (hm : ∀ m ∈ ms, Proper m) (r : Rule α) :
    Rule.alternative [a, group (Rule.alternative ms)] r = Rule.alternative (a :: ms) r := by
  obtain ⟨tail, acc⟩ := r
  cases tail with
  | none => rfl
  | some t =>
    have h := C100_alternative_one (group (Rule.alternative ms)) ⟨some t, acc⟩
    rw [Laws.group_alternative ms hm] at h
    cases k : a (Rule.ofSV t) with
    | error e => rw [alt_error k, alt_error k]
    | ok x =>
      cases x with
      | none => rw [alt_none k, alt_none k, h]
      | some x => rw [alt_some k, alt_some k]

/-- **C100**: trying an alternative again is no use: a later copy can be left out. -/
theorem C100_alternative_again (a : Matcher α) (ms ns : List (Matcher α)) (r : Rule α) :
    Rule.alternative (a :: ms ++ a :: ns) r = Rule.alternative (a :: ms ++ ns) r := by
  obtain ⟨tail, acc⟩ := r
  cases tail with
  | none => rfl
  | some t =>
    have key : a (Rule.ofSV t) = .ok none → ∀ ms : List (Matcher α), Rule.alternative (ms ++ a :: ns) ⟨some t, acc⟩ = Rule.alternative (ms ++ ns) ⟨some t, acc⟩ := by
      intro h ms
      induction ms with
      | nil => simp [Rule.alternative, h, bind, Except.bind]
      | cons m ms ih => simp only [List.cons_append, Rule.alternative, ih]
    simp only [List.cons_append]
    cases h : a (Rule.ofSV t) with
    | error e => rw [alt_error h, alt_error h]
    | ok x =>
      cases x with
      | none => rw [alt_none h, alt_none h, key h ms]
      | some x => rw [alt_some h, alt_some h]

/-- **C100**, factoring on the left: `r.alternative (ab, ac)` is `r.concat (a).alternative (b, c)`. -/
theorem C100_factor_left (a b c : Matcher α) (ha : Proper a) (hb : Proper b) (hc : Proper c) (r : Rule α) :
    Rule.alternative [group (andThen (Rule.concat a) (Rule.concat b)), group (andThen (Rule.concat a) (Rule.concat c))] r =
    andThen (Rule.concat a) (Rule.alternative [b, c]) r := by
  obtain ⟨tail, acc⟩ := r
  cases tail with
  | none => rfl
  | some t =>
    rcases cases_of ha t with ⟨e, h⟩ | h | ⟨p, u, v, as, rfl, h⟩
    · have k : group (andThen (Rule.concat a) (Rule.concat b)) (Rule.ofSV t) = .error e := by
        simp only [group, andThen]; rw [show (Rule.ofSV t : Rule α) = ⟨some t, []⟩ from rfl, concat_error h]; rfl
      simp only [Rule.alternative, k, andThen]
      rw [concat_error h]; rfl
    · have k : ∀ b : Matcher α, group (andThen (Rule.concat a) (Rule.concat b)) (Rule.ofSV t) = .ok none := fun b => by
        simp only [group, andThen]; rw [show (Rule.ofSV t : Rule α) = ⟨some t, []⟩ from rfl, concat_none h]; rfl
      simp only [Rule.alternative, k, andThen]
      rw [concat_none h]; rfl
    · have h1 : Rule.concat a ⟨some ⟨p, u ++ v⟩, acc⟩ = .ok ⟨some ⟨p + u.length, v⟩, acc ++ as⟩ := by
        have := step_some h acc none false
        simpa [Rule.concat] using this
      have h2 : Rule.concat a (Rule.ofSV ⟨p, u ++ v⟩) = .ok ⟨some ⟨p + u.length, v⟩, as⟩ := by
        exact concat_some h []
      have k : ∀ b : Matcher α, Proper b →
          (∃ e, b (Rule.ofSV ⟨p + u.length, v⟩) = .error e ∧ group (andThen (Rule.concat a) (Rule.concat b)) (Rule.ofSV ⟨p, u ++ v⟩) = .error e) ∨
          (b (Rule.ofSV ⟨p + u.length, v⟩) = .ok none ∧ group (andThen (Rule.concat a) (Rule.concat b)) (Rule.ofSV ⟨p, u ++ v⟩) = .ok none) ∨
          ∃ w z bs, v = w ++ z ∧ b (Rule.ofSV ⟨p + u.length, v⟩) = .ok (some (⟨p + u.length, w⟩, bs)) ∧
            group (andThen (Rule.concat a) (Rule.concat b)) (Rule.ofSV ⟨p, u ++ v⟩) = .ok (some (⟨p, u ++ w⟩, as ++ bs)) := by
        intro b hb
        rcases cases_of hb ⟨p + u.length, v⟩ with ⟨e, k⟩ | k | ⟨q, w, z, bs, hq, k⟩
        · refine Or.inl ⟨e, k, ?_⟩
          simp only [group, andThen, h2, bind, Except.bind]; rw [concat_error k]
        · refine Or.inr (Or.inl ⟨k, ?_⟩)
          simp only [group, andThen, h2, bind, Except.bind]; rw [concat_none k]; rfl
        · obtain ⟨rfl, rfl⟩ := SV.mk.inj hq
          refine Or.inr (Or.inr ⟨w, z, bs, rfl, k, ?_⟩)
          simp only [group, andThen, h2, bind, Except.bind]; rw [concat_some k]
          have := matched_some p (u ++ w) z (as ++ bs)
          simp only [List.append_assoc, List.length_append] at this
          simp [Nat.add_assoc, this]
      have fin : ∀ w z bs, v = w ++ z → Rule.joinMatched ⟨some ⟨p, u ++ v⟩, acc⟩ (⟨p, u ++ w⟩, as ++ bs) =
          Rule.joinMatched ⟨some ⟨p + u.length, v⟩, acc ++ as⟩ (⟨p + u.length, w⟩, bs) := by
        rintro w z bs rfl
        rw [← List.append_assoc, join_some, join_some]
        simp [Nat.add_assoc]
      simp only [andThen, h1, bind, Except.bind, Rule.alternative]
      rcases k b hb with ⟨e, k1, k2⟩ | ⟨k1, k2⟩ | ⟨w, z, bs, hv, k1, k2⟩
      · simp only [k1, k2]
      · simp only [k1, k2]
        rcases k c hc with ⟨e, k1, k2⟩ | ⟨k1, k2⟩ | ⟨w, z, bs, hv, k1, k2⟩
        · simp only [k1, k2]
        · simp only [k1, k2]
        · simp only [k1, k2]
          exact fin w z bs hv
      · simp only [k1, k2]
        exact fin w z bs hv

/-- **C100**: `optional (a)` is `alternative (a, nothing)`. -/
theorem C100_optional (a : Matcher α) (ha : Proper a) (r : Rule α) : Rule.optional a r = Rule.alternative [a, nothing] r := by
  obtain ⟨tail, acc⟩ := r
  cases tail with
  | none => rfl
  | some t =>
    have hn : ∀ acc : Acceptors α, Rule.alternative [nothing] ⟨some t, acc⟩ = .ok ⟨some t, acc⟩ := by
      intro acc
      obtain ⟨p, cs⟩ := t
      have := matched_some (α := α) p [] cs []
      simp only [List.nil_append, List.length_nil, Nat.add_zero] at this
      have h : (nothing : Matcher α) (Rule.ofSV ⟨p, cs⟩) = .ok (some (⟨p, []⟩, [])) := this
      rw [C100_alternative_one]
      have := step_some (m := nothing) (p := p) (u := []) (v := cs) h acc none false
      simpa [Rule.concat] using this
    simp only [Rule.optional, Rule.optionalA, Rule.ofSV]
    rw [Rule.alternative]
    simp only
    rcases cases_of ha t with ⟨e, h⟩ | h | ⟨p, u, v, as, rfl, h⟩
    · rw [step_error h, h]; rfl
    · rw [step_none h, h]
      simp only [bind, Except.bind, hn, if_true, Rule.joinRule, List.append_nil]
    · have k := step_some h [] none true
      rw [k, h]
      simp [bind, Except.bind, join_some, Rule.joinRule]

/-- **C100**: an accept function may be attached inside a group or to the group. -/
theorem C100_accept (a : Matcher α) (ha : Proper a) (x : α) (r : Rule α) : Rule.concat (group (Rule.concatA a x)) r = Rule.concatA a x r := by
  obtain ⟨tail, acc⟩ := r
  cases tail with
  | none => rfl
  | some t =>
    rcases cases_of ha t with ⟨e, h⟩ | h | ⟨p, u, v, as, rfl, h⟩
    · have k : group (Rule.concatA a x) (Rule.ofSV t) = .error e := by
        simp only [group, Rule.concatA, Rule.ofSV] at h ⊢; rw [step_error h]; rfl
      simp only [Rule.concat, Rule.concatA]
      rw [step_error h, step_error k]
    · have k : group (Rule.concatA a x) (Rule.ofSV t) = .ok none := by
        simp only [group, Rule.concatA, Rule.ofSV] at h ⊢; rw [step_none h]; rfl
      simp only [Rule.concat, Rule.concatA]
      rw [step_none h, step_none k]
    · have k : group (Rule.concatA a x) (Rule.ofSV ⟨p, u ++ v⟩) = .ok (some (⟨p, u⟩, as ++ [(x, ⟨p, u⟩)])) := by
        have h' := step_some h [] (some x) false
        simp only [List.nil_append, Option.map_some, Option.toList_some] at h'
        simp only [group, Rule.concatA]
        rw [show (Rule.ofSV ⟨p, u ++ v⟩ : Rule α) = ⟨some ⟨p, u ++ v⟩, []⟩ from rfl, h']
        exact matched_some p u v _
      simp only [Rule.concat, Rule.concatA]
      rw [step_some h, step_some k]
      simp

/-! ### Repetition -/

/-- Matching again and again, from an address and a text: what is matched, the acceptors, and how often. -/
inductive Laws.Runs (m : Matcher α) : Nat → Str → Str → Acceptors α → Nat → Prop
  | stop {p cs} : m (Rule.ofSV ⟨p, cs⟩) = .ok none → Runs m p cs [] [] 0
  | more {p w z bs u as k} : m (Rule.ofSV ⟨p, w ++ z⟩) = .ok (some (⟨p, w⟩, bs)) → w ≠ [] → Runs m (p + w.length) z u as k →
      Runs m p (w ++ z) (w ++ u) (bs ++ as) (k + 1)

theorem Laws.runs_exists {m : Matcher α} (h1 : Proper m) (h2 : Total m) (h3 : Consuming m) : ∀ (n : Nat) (p : Nat) (cs : Str), cs.length ≤ n → ∃ u as k, Laws.Runs m p cs u as k := by
  intro n
  induction n with
  | zero =>
    intro p cs hn
    obtain rfl := List.length_eq_zero_iff.1 (Nat.le_zero.1 hn)
    rcases cases_of h1 ⟨p, []⟩ with ⟨e, h⟩ | h | ⟨q, u, v, as, hq, h⟩
    · obtain ⟨x, k⟩ := h2 ⟨p, []⟩
      rw [k] at h; cases h
    · exact ⟨[], [], 0, .stop h⟩
    · obtain ⟨rfl, e⟩ := SV.mk.inj hq
      have := h3 _ _ _ h
      have : u = [] := by
        cases u with
        | nil => rfl
        | cons c u => simp at e
      contradiction
  | succ n ih =>
    intro p cs hn
    rcases cases_of h1 ⟨p, cs⟩ with ⟨e, h⟩ | h | ⟨q, w, z, bs, hq, h⟩
    · obtain ⟨x, k⟩ := h2 ⟨p, cs⟩
      rw [k] at h; cases h
    · exact ⟨[], [], 0, .stop h⟩
    · obtain ⟨rfl, rfl⟩ := SV.mk.inj hq
      have hw := h3 _ _ _ h
      have hl : 0 < w.length := List.length_pos_iff.2 hw
      obtain ⟨u, as, k, hr⟩ := ih (p + w.length) z (by simp at hn; omega)
      exact ⟨w ++ u, bs ++ as, k + 1, .more h hw hr⟩

theorem Laws.Runs.prefix {m : Matcher α} {p : Nat} {cs u : Str} {as : Acceptors α} {k : Nat} (h : Laws.Runs m p cs u as k) : k ≤ u.length ∧ ∃ v, cs = u ++ v := by
  induction h with
  | stop => exact ⟨Nat.le_refl _, _, rfl⟩
  | @more p w z bs u as k _ hw _ ih =>
    obtain ⟨h1, v, rfl⟩ := ih
    have hl : 0 < w.length := List.length_pos_iff.2 hw
    exact ⟨by simp; omega, v, by simp⟩

theorem Laws.Runs.loop {m : Matcher α} {p : Nat} {cs u : Str} {as : Acceptors α} {k : Nat} (h : Laws.Runs m p cs u as k) : ∀ (fuel count length : Nat) (acc : Acceptors α),
    k < fuel → count < uintMod → Rule.starLoop m uintMax fuel count ⟨p, cs⟩ length acc = .ok ((count + k) % uintMod, length + u.length, acc ++ as) := by
  induction h with
  | stop h =>
    intro fuel count length acc hf hc
    obtain ⟨fuel, rfl⟩ : ∃ n, fuel = n + 1 := ⟨fuel - 1, by omega⟩
    simp [Rule.starLoop, h, bind, Except.bind, Nat.mod_eq_of_lt hc]
  | @more p w z bs u as k h hw _ ih =>
    intro fuel count length acc hf hc
    obtain ⟨fuel, rfl⟩ : ∃ n, fuel = n + 1 := ⟨fuel - 1, by omega⟩
    have hlt : (count + 1) % uintMod < uintMod := Nat.mod_lt _ (by unfold uintMod; omega)
    have hmax : ¬ (count + 1) % uintMod > uintMax := by
      have : uintMod = uintMax + 1 := rfl
      omega
    have hrec := ih fuel ((count + 1) % uintMod) (length + w.length) (acc ++ bs) (by omega) hlt
    have hrm : SV.removePrefix ⟨p, w ++ z⟩ w.length = .ok ⟨p + w.length, z⟩ := by simp [SV.removePrefix, SV.substrFrom, SV.size]
    unfold Rule.starLoop
    simp only [h, bind, Except.bind, if_neg hmax, SV.size]
    rw [hrm]
    simp only [hrec]
    rw [show ((count + 1) % uintMod + k) % uintMod = (count + (k + 1)) % uintMod by rw [Nat.mod_add_mod]; congr 1; omega]
    simp [Nat.add_assoc]

theorem Laws.star_of_loop {m : Matcher α} {min max p count : Nat} {u v : Str} {acc as : Acceptors α}
    (h : Rule.starLoop m max ((SV.mk p (u ++ v)).size + max + 2) 0 ⟨p, u ++ v⟩ 0 acc = .ok (count, u.length, as)) :
    Rule.star m min max ⟨some ⟨p, u ++ v⟩, acc⟩ = if count < min then .ok Rule.failed else .ok ⟨some ⟨p + u.length, v⟩, as⟩ := by
  simp only [Rule.star, h, bind, Except.bind]
  split
  · rfl
  · simp [SV.substrFrom, SV.size, pure, Except.pure]

theorem Laws.Runs.star {m : Matcher α} {p : Nat} {u v : Str} {as : Acceptors α} {k : Nat} (h : Laws.Runs m p (u ++ v) u as k) (min : Nat) (acc : Acceptors α) :
    Rule.star m min uintMax ⟨some ⟨p, u ++ v⟩, acc⟩ = if k % uintMod < min then .ok Rule.failed else .ok ⟨some ⟨p + u.length, v⟩, acc ++ as⟩ := by
  have hk := h.prefix.1
  have hf : ∀ max, k < (SV.mk p (u ++ v)).size + max + 2 := by
    intro max
    simp [SV.size]; omega
  have hl := h.loop _ 0 0 acc (hf uintMax) (by unfold uintMod; omega)
  rw [Nat.zero_add, Nat.zero_add] at hl
  exact Laws.star_of_loop hl

theorem Laws.star_none (m : Matcher α) (min max : Nat) (acc : Acceptors α) : Rule.star m min max ⟨none, acc⟩ = .ok ⟨none, acc⟩ := rfl

theorem Laws.unroll (a : Matcher α) (h1 : Proper a) (h2 : Total a) (h3 : Consuming a) (r : Rule α) (mx : Nat) (hs : ∀ p u v as k, Laws.Runs a p (u ++ v) u as k → ∀ acc,
      Rule.star a 0 mx ⟨some ⟨p, u ++ v⟩, acc⟩ = .ok ⟨some ⟨p + u.length, v⟩, acc ++ as⟩) :
    Rule.star a 0 mx r = Rule.optional (group (andThen (Rule.concat a) (Rule.star a 0 mx))) r := by
  obtain ⟨tail, acc⟩ := r
  cases tail with
  | none => exact Laws.star_none a 0 mx acc
  | some t =>
    obtain ⟨p, cs⟩ := t
    obtain ⟨u, as, k, hr⟩ := Laws.runs_exists h1 h2 h3 cs.length p cs (Nat.le_refl _)
    obtain ⟨v, rfl⟩ := hr.prefix.2
    rw [hs p u v as k hr acc]
    simp only [Rule.optional, Rule.optionalA, Rule.ofSV]
    generalize hw : u ++ v = cs at hr
    cases hr with
    | stop h =>
      have hg : group (andThen (Rule.concat a) (Rule.star a 0 mx)) (Rule.ofSV ⟨p, cs⟩) = .ok none := by
        simp only [group, andThen]
        rw [show (Rule.ofSV ⟨p, cs⟩ : Rule α) = ⟨some ⟨p, cs⟩, []⟩ from rfl, concat_none h]
        exact congrArg (· >>= Rule.matched (Rule.ofSV ⟨p, cs⟩)) (Laws.star_none a 0 mx [])
      rw [step_none hg]
      simp at hw
      simp [bind, Except.bind, Rule.joinRule, hw]
    | @more _ w z bs u' as' k' h hne hr' =>
      obtain ⟨v', rfl⟩ := hr'.prefix.2
      have e : v = v' := by
        rw [← List.append_assoc] at hw
        exact List.append_cancel_left hw
      subst e
      have hg : group (andThen (Rule.concat a) (Rule.star a 0 mx)) (Rule.ofSV ⟨p, (w ++ u') ++ v⟩) = .ok (some (⟨p, w ++ u'⟩, bs ++ as')) := by
        simp only [group, andThen]
        rw [List.append_assoc, show (Rule.ofSV ⟨p, w ++ (u' ++ v)⟩ : Rule α) = ⟨some ⟨p, w ++ (u' ++ v)⟩, []⟩ from rfl, concat_some h]
        simp only [bind, Except.bind, List.nil_append]
        rw [hs _ _ _ _ _ hr' bs]
        have := matched_some p (w ++ u') v (bs ++ as')
        simp only [Rule.ofSV, List.append_assoc, List.length_append] at this
        simp [Nat.add_assoc, this]
      have := step_some hg [] none true
      rw [List.append_assoc] at this
      rw [this]
      simp [bind, Except.bind, Rule.joinRule]

/-- **C100**: `star (a)` is `optional (group of a and star (a))`. -/
theorem C100_star_unroll (a : Matcher α) (h1 : Proper a) (h2 : Total a) (h3 : Consuming a) (r : Rule α) :
    Rule.star a 0 uintMax r = Rule.optional (group (andThen (Rule.concat a) (Rule.star a 0 uintMax))) r :=
  Laws.unroll a h1 h2 h3 r uintMax fun p u v as k hr acc => by rw [hr.star 0 acc, if_neg (Nat.not_lt_zero _)]

theorem Laws.one (a : Matcher α) (h1 : Proper a) (h2 : Total a) (h3 : Consuming a) (r : Rule α) (hl : ∀ t, r.tail = some t → t.chars.length < 2 ^ 32) (mx : Nat) (hs : ∀ p u v as k, Laws.Runs a p (u ++ v) u as k → ∀ acc,
      Rule.star a 0 mx ⟨some ⟨p, u ++ v⟩, acc⟩ = .ok ⟨some ⟨p + u.length, v⟩, acc ++ as⟩)
    (ht : ∀ p u v as k, Laws.Runs a p (u ++ v) u as k → ∀ acc,
      Rule.star a 1 mx ⟨some ⟨p, u ++ v⟩, acc⟩ = if k % uintMod < 1 then .ok Rule.failed else .ok ⟨some ⟨p + u.length, v⟩, acc ++ as⟩) :
    Rule.star a 1 mx r = andThen (Rule.concat a) (Rule.star a 0 mx) r := by
  obtain ⟨tail, acc⟩ := r
  cases tail with
  | none => exact (Laws.star_none a 1 mx acc).trans (Laws.star_none a 0 mx acc).symm
  | some t =>
    obtain ⟨p, cs⟩ := t
    have hl := hl ⟨p, cs⟩ rfl
    obtain ⟨u, as, k, hr⟩ := Laws.runs_exists h1 h2 h3 cs.length p cs (Nat.le_refl _)
    obtain ⟨hk, v, rfl⟩ := hr.prefix
    have hk2 : k < uintMod := by
      have : uintMod = 2 ^ 32 := rfl
      simp at hl; omega
    rw [ht p u v as k hr acc, Nat.mod_eq_of_lt hk2]
    generalize hw : u ++ v = cs at hr
    simp only [andThen]
    cases hr with
    | stop h =>
      rw [concat_none h, if_pos (by omega)]
      exact (Laws.star_none a 0 mx []).symm
    | @more _ w z bs u' as' k' h hne hr' =>
      obtain ⟨v', rfl⟩ := hr'.prefix.2
      have e : v = v' := by
        rw [← List.append_assoc] at hw
        exact List.append_cancel_left hw
      subst e
      rw [if_neg (by omega), concat_some h]
      simp only [bind, Except.bind]
      rw [hs _ _ _ _ _ hr']
      simp [Nat.add_assoc]

/-- **C100**: `star (a, 1)` is `concat (a).star (a)`, for texts of less than 2^32 characters. -/
theorem C100_star_one (a : Matcher α) (h1 : Proper a) (h2 : Total a) (h3 : Consuming a) (r : Rule α) (hl : ∀ t, r.tail = some t → t.chars.length < 2 ^ 32) :
    Rule.star a 1 uintMax r = andThen (Rule.concat a) (Rule.star a 0 uintMax) r :=
  Laws.one a h1 h2 h3 r hl uintMax (fun p u v as k hr acc => by rw [hr.star 0 acc, if_neg (Nat.not_lt_zero _)]) fun p u v as k hr acc => hr.star 1 acc

/-- **C100**: `star (a, 0, 1)` is `optional (a)`. -/
theorem C100_star_optional (a : Matcher α) (h1 : Proper a) (h2 : Total a) (r : Rule α) : Rule.star a 0 1 r = Rule.optional a r := by
  obtain ⟨tail, acc⟩ := r
  cases tail with
  | none => rfl
  | some t =>
    simp only [Rule.optional, Rule.optionalA, Rule.ofSV]
    rcases cases_of h1 t with ⟨e, h⟩ | h | ⟨p, u, v, as, rfl, h⟩
    · obtain ⟨x, k⟩ := h2 t
      rw [k] at h; cases h
    · rw [step_none h]
      simp only [Rule.star]
      rw [show t.size + 1 + 2 = (t.size + 2) + 1 from rfl, Rule.starLoop]
      simp [h, bind, Except.bind, SV.substrFrom, pure, Except.pure, Rule.joinRule]
    · have k := step_some h [] none true
      rw [k]
      have hrm : SV.removePrefix ⟨p, u ++ v⟩ u.length = .ok ⟨p + u.length, v⟩ := by simp [SV.removePrefix, SV.substrFrom, SV.size]
      have hloop : Rule.starLoop a 1 ((SV.mk p (u ++ v)).size + 1 + 2) 0 ⟨p, u ++ v⟩ 0 acc = .ok (1, u.length, acc ++ as) ∨
          Rule.starLoop a 1 ((SV.mk p (u ++ v)).size + 1 + 2) 0 ⟨p, u ++ v⟩ 0 acc = .ok (2, u.length, acc ++ as) := by
        generalize (SV.mk p (u ++ v)).size = n
        rw [show n + 1 + 2 = (n + 1) + 1 + 1 from rfl, Rule.starLoop]
        simp only [h, bind, Except.bind, SV.size]
        rw [if_neg (by decide), hrm]
        simp only
        rw [Rule.starLoop]
        obtain ⟨x, hx⟩ := h2 ⟨p + u.length, v⟩
        simp only [hx, bind, Except.bind]
        cases x with
        | none => exact Or.inl (by simp [uintMod])
        | some x => exact Or.inr (by simp [uintMod])
      rcases hloop with hloop | hloop <;>
      · simp only [Rule.star, hloop, bind, Except.bind]
        simp [SV.substrFrom, SV.size, pure, Except.pure, Rule.joinRule]

/-! ### Rewritings that change what is matched -/

/-- The match function of one character. -/
def Laws.chr (c : UInt8) : Matcher Nat := Rule.singleCharP fun d => .ok (d == c)
/-- What is left of a text; `none` if the match fails. -/
def Laws.rest (f : Rule Nat → M (Rule Nat)) (s : Str) : Option (Option Str) := (f (Rule.ofSV ⟨0, s⟩)).toOption.map fun r => r.tail.map SV.chars

/-- **C100**: alternatives may not be exchanged, nor factored on the right, and what
`optional` took is not given back. -/
theorem C100_counterexamples :
    let x := chr 0x78
    let xy := group (andThen (Rule.concat (chr 0x78)) (Rule.concat (chr 0x79)))
    let z := chr 0x7A
    rest (Rule.alternative [x, xy]) (b! "xy") = some (some (b! "y")) ∧ rest (Rule.alternative [xy, x]) (b! "xy") = some (some []) ∧
    rest (andThen (Rule.alternative [x, xy]) (Rule.concat z)) (b! "xyz") = some none ∧
    rest (Rule.alternative [group (andThen (Rule.concat x) (Rule.concat z)), group (andThen (Rule.concat xy) (Rule.concat z))]) (b! "xyz") = some (some []) ∧
    rest (andThen (Rule.optional x) (Rule.concat x)) (b! "x") = some none ∧
    rest (Rule.alternative [group (andThen (Rule.concat x) (Rule.concat x)), x]) (b! "x") = some (some []) := by
  decide +kernel

/-- The conditions can be met: single characters are matched by proper, total and consuming match functions. -/
theorem Laws.chr_ok (c : UInt8) : Proper (chr c) ∧ Total (chr c) ∧ Consuming (chr c) := by
  have key : ∀ sv, (chr c) (Rule.ofSV sv) = .ok none ∨ ∃ d v, sv.chars = d :: v ∧ (chr c) (Rule.ofSV sv) = .ok (some (⟨sv.ptr, [d]⟩, [])) := by
    intro sv
    obtain ⟨p, cs⟩ := sv
    cases cs with
    | nil => exact Or.inl rfl
    | cons d v =>
      cases h : d == c with
      | true => exact Or.inr ⟨d, v, rfl, by simp [chr, Rule.singleCharP, Rule.ofSV, h, bind, Except.bind, pure, Except.pure, SV.substr]⟩
      | false => exact Or.inl (by simp [chr, Rule.singleCharP, Rule.ofSV, h, bind, Except.bind, pure, Except.pure])
  refine ⟨fun sv h a e => ?_, fun sv => ?_, fun sv h a e => ?_⟩
  · rcases key sv with k | ⟨d, v, hv, k⟩ <;> rw [k] at e
    · cases e
    · obtain ⟨rfl, rfl⟩ := Prod.mk.inj (Option.some.inj (Except.ok.inj e))
      exact ⟨rfl, v, hv⟩
  · rcases key sv with k | ⟨d, v, hv, k⟩
    · exact ⟨_, k⟩
    · exact ⟨_, k⟩
  · rcases key sv with k | ⟨d, v, hv, k⟩ <;> rw [k] at e
    · cases e
    · obtain ⟨rfl, rfl⟩ := Prod.mk.inj (Option.some.inj (Except.ok.inj e))
      simp

example (r : Rule Nat) : Rule.alternative [group (andThen (Rule.concat (chr 0x78)) (Rule.concat (chr 0x79))), group (andThen (Rule.concat (chr 0x78)) (Rule.concat (chr 0x7A)))] r =
    andThen (Rule.concat (chr 0x78)) (Rule.alternative [chr 0x79, chr 0x7A]) r :=
  C100_factor_left _ _ _ (chr_ok _).1 (chr_ok _).1 (chr_ok _).1 r
example : rest (Rule.alternative [group (andThen (Rule.concat (chr 0x78)) (Rule.concat (chr 0x79))), group (andThen (Rule.concat (chr 0x78)) (Rule.concat (chr 0x7A)))]) (b! "xz!") =
    some (some (b! "!")) := by decide +kernel
example (r : Rule Nat) : Rule.star (chr 0x78) 0 uintMax r = Rule.optional (group (andThen (Rule.concat (chr 0x78)) (Rule.star (chr 0x78) 0 uintMax))) r :=
  C100_star_unroll _ (chr_ok _).1 (chr_ok _).2.1 (chr_ok _).2.2 r
example : Rule.star (chr 0x78) 1 uintMax (Rule.ofSV ⟨0, b! "xxy"⟩) = andThen (Rule.concat (chr 0x78)) (Rule.star (chr 0x78) 0 uintMax) (Rule.ofSV ⟨0, b! "xxy"⟩) :=
  C100_star_one _ (chr_ok _).1 (chr_ok _).2.1 (chr_ok _).2.2 _ (by rintro t ht; cases ht; decide +kernel)
/-- A group is proper again, so the laws can be used inside one another. -/
example : Proper (group (andThen (Rule.concat (chr 0x78)) (Rule.concat (group (andThen (Rule.concat (chr 0x79)) (Rule.concat (chr 0x7A))))))) :=
  proper_group (chr_ok _).1 (proper_group (chr_ok _).1 (chr_ok _).1)

end Verif
