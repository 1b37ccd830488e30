import Verif.Props.Threads

/-!
# C77: which characters threads read

The iterators over percent-encoded text read only the text, and what they do depends on nothing but the characters
they read: whoever owns the text may change the others meanwhile.
-/

namespace Verif
open Verif.Refs Verif.Threads

namespace Threads.Pct

theorem mem_reads {t k n j : Nat} {a : Access} (h : a ∈ reads t k n) (hj : a.loc = .text j) : a.write = false ∧ k ≤ j ∧ j < k + n := by
  obtain ⟨i, hi, rfl⟩ := List.mem_map.1 h
  simp only [Loc.text.injEq] at hj
  have := List.mem_range.1 hi
  exact ⟨rfl, by omega, by omega⟩

theorem reads_mem {t k n j : Nat} (h1 : k ≤ j) (h2 : j < k + n) : (⟨t, .text j, false⟩ : Access) ∈ reads t k n :=
  List.mem_map.2 ⟨j - k, List.mem_range.2 (by omega), by simp; omega⟩

theorem readAt_ok {s : Str} {p : Nat} {c : UInt8} (h : readAt s p = .ok c) : s[p]? = some c ∧ p < s.length := by
  unfold readAt at h
  cases e : s[p]? with
  | none => rw [e] at h; cases h
  | some d =>
    rw [e] at h
    exact ⟨by rw [Except.ok.inj h], (List.getElem?_eq_some_iff.1 e).1⟩

theorem readAt_congr {s s' : Str} {p : Nat} (h : s'[p]? = s[p]?) : readAt s' p = readAt s p := by
  unfold readAt; rw [h]

/-- What is looked at: the character, and two more after a percent sign if there are two more. -/
theorem looked_ok {s : Str} {p n : Nat} (h : looked s p = .ok n) :
    ∃ c, s[p]? = some c ∧ p < s.length ∧
      ((n = 1 ∧ (c ≠ 0x25 ∨ s.length < p + 3)) ∨ (n = 3 ∧ c = 0x25 ∧ p + 3 ≤ s.length)) := by
  obtain ⟨c, h1, h2⟩ := bind_ok h
  obtain ⟨e1, e2⟩ := readAt_ok h1
  refine ⟨c, e1, e2, ?_⟩
  by_cases hc : c ≠ 0x25
  · simp [hc] at h2
    exact .inl ⟨h2.symm, .inl hc⟩
  · by_cases hd : ((s.length : Int) - (p : Int)) < 3
    · simp [hd] at h2
      exact .inl ⟨h2.symm, .inr (by omega)⟩
    · simp at hc
      simp [hc, hd] at h2
      exact .inr ⟨h2.symm, hc, by omega⟩

theorem looked_congr {s s' : Str} {p n : Nat} (hl : s'.length = s.length) (h : looked s p = .ok n)
    (ha : ∀ j, p ≤ j → j < p + n → s'[j]? = s[j]?) : looked s' p = .ok n := by
  obtain ⟨c, e1, e2, e3⟩ := looked_ok h
  unfold looked at h ⊢
  rw [readAt_congr (ha p (Nat.le_refl _) (by omega)), hl]
  exact h

theorem stored_congr {s s' : Str} {p n : Nat} {v : Option UInt8} (hl : s'.length = s.length) (h : looked s p = .ok n)
    (ha : ∀ j, p ≤ j → j < p + n → s'[j]? = s[j]?) (hv : stored s p s.length = .ok v) : stored s' p s'.length = .ok v := by
  obtain ⟨c, e1, e2, e3⟩ := looked_ok h
  rw [hl]
  have r0 := readAt_congr (ha p (Nat.le_refl _) (by omega))
  rcases e3 with ⟨rfl, hc⟩ | ⟨rfl, rfl, hc⟩
  · have q : readAt s p = .ok c := by unfold readAt; rw [e1]
    unfold stored at hv ⊢
    rw [r0, q]
    rw [q] at hv
    by_cases hcc : c ≠ 0x25
    · have hv' : (.ok none : M (Option UInt8)) = .ok v := by simpa [hcc, bind, Except.bind] using hv
      rw [← hv']
      simp [hcc, bind, Except.bind]
    · have hd : ((s.length : Int) - (p : Int)) < 3 := by
        rcases hc with hc | hc
        · exact absurd hc hcc
        · omega
      have hv' : (.ok none : M (Option UInt8)) = .ok v := by simpa [hd, bind, Except.bind] using hv
      rw [← hv']
      simp [hd, bind, Except.bind]
  · unfold stored at hv ⊢
    rw [r0, readAt_congr (ha (p + 1) (by omega) (by omega)), readAt_congr (ha (p + 2) (by omega) (by omega))]
    exact hv

theorem increment_congr {s s' : Str} {p n q : Nat} (hl : s'.length = s.length) (h : lookedIncr s p = .ok n)
    (ha : ∀ j, p ≤ j → j < p + n → s'[j]? = s[j]?) (hq : pctIncrement s p s.length = .ok q) :
    pctIncrement s' p s'.length = .ok q ∧ lookedIncr s' p = .ok n := by
  unfold lookedIncr at h ⊢
  rw [hl]
  by_cases hr : ((s.length : Int) - (p : Int)) < 3
  · simp only [hr, if_true] at h ⊢
    refine ⟨?_, h⟩
    unfold pctIncrement at hq ⊢
    simp only [hr, if_true] at hq ⊢
    exact hq
  · simp only [hr, if_false] at h ⊢
    refine ⟨?_, looked_congr hl h ha⟩
    obtain ⟨c, e1, e2, e3⟩ := looked_ok h
    have r0 := readAt_congr (ha p (Nat.le_refl _) (by omega))
    have q0 : readAt s p = .ok c := by unfold readAt; rw [e1]
    unfold pctIncrement at hq ⊢
    simp only [hr, if_false] at hq ⊢
    by_cases hz : ((s.length : Int) - (p : Int)) ≤ 0
    · omega
    simp only [hz, if_false] at hq ⊢
    rw [r0, q0]
    rw [q0] at hq
    rcases e3 with ⟨rfl, hc⟩ | ⟨rfl, rfl, hc⟩
    · have hcc : c ≠ 0x25 := hc.elim id (fun hx => by omega)
      have hq' : (.ok (p + 1) : M Nat) = .ok q := by simpa [hcc, bind, Except.bind] using hq
      rw [← hq']
      simp [hcc, bind, Except.bind]
    · rw [readAt_congr (ha (p + 1) (by omega) (by omega)), readAt_congr (ha (p + 2) (by omega) (by omega))]
      exact hq

/-- One operation: what it reads, and that it depends on that alone. -/
theorem step_text {s : Str} {t : Nat} {w w' : List ItObj} {o : Op} {l : List Access} {v : Option UInt8}
    (h : step s t w o = .ok (w', l, v)) :
    (∀ a ∈ l, ∀ k, a.loc = .text k → k < s.length) ∧
    ∀ s' : Str, s'.length = s.length → (∀ a ∈ l, ∀ k, a.loc = .text k → s'[k]? = s[k]?) → step s' t w o = .ok (w', l, v) := by
  cases o with
  | begin => cases h; exact ⟨by simp, fun _ _ _ => rfl⟩
  | copy i =>
    obtain ⟨x, h1, h2⟩ := bind_ok h
    cases h2
    exact ⟨by simp, fun _ _ _ => h⟩
  | assign i j =>
    obtain ⟨x, h1, h2⟩ := bind_ok h
    obtain ⟨y, h3, h4⟩ := bind_ok h2
    cases h4
    exact ⟨by simp, fun _ _ _ => h⟩
  | atEnd i =>
    obtain ⟨x, h1, h2⟩ := bind_ok h
    cases h2
    exact ⟨by simp, fun _ _ _ => h⟩
  | incr i =>
    obtain ⟨x, h1, h2⟩ := bind_ok h
    obtain ⟨p, h3, h4⟩ := bind_ok h2
    obtain ⟨n, h5, h6⟩ := bind_ok h4
    have := Prod.mk.inj (Except.ok.inj h6)
    obtain ⟨rfl, e⟩ := this
    obtain ⟨rfl, rfl⟩ := Prod.mk.inj e
    constructor
    · intro a ha k hk
      rcases List.mem_append.1 ha with ha | ha
      · obtain ⟨-, k1, k2⟩ := mem_reads ha hk
        unfold lookedIncr at h5
        by_cases hr : ((s.length : Int) - (x.pos : Int)) < 3
        · simp only [hr, if_true] at h5
          have := Except.ok.inj h5
          omega
        · simp only [hr, if_false] at h5
          obtain ⟨c, e1, e2, e3⟩ := looked_ok h5
          omega
      · simp at ha; subst ha; simp at hk
    · intro s' hl ha
      obtain ⟨g1, g2⟩ := increment_congr hl h5 (fun j j1 j2 => ha _ (List.mem_append_left _ (reads_mem (t := t) j1 j2)) j rfl) h3
      show (get w i >>= fun o => pctIncrement s' o.pos s'.length >>= fun pos => lookedIncr s' o.pos >>= fun n =>
        .ok (w.set i { o with pos := pos }, reads t o.pos n ++ [⟨t, .it i, true⟩], none)) = _
      rw [h1]
      show (pctIncrement s' x.pos s'.length >>= fun pos => lookedIncr s' x.pos >>= fun n =>
        .ok (w.set i { x with pos := pos }, reads t x.pos n ++ [⟨t, .it i, true⟩], none)) = _
      rw [g1, g2]
      rfl
  | deref i =>
    obtain ⟨x, h1, h2⟩ := bind_ok h
    obtain ⟨v', h3, h4⟩ := bind_ok h2
    obtain ⟨n, h5, h6⟩ := bind_ok h4
    obtain ⟨c, e1, e2, e3⟩ := looked_ok h5
    have hin : ∀ a ∈ reads t x.pos n, ∀ k, a.loc = .text k → k < s.length := by
      intro a ha k hk
      obtain ⟨-, k1, k2⟩ := mem_reads ha hk
      omega
    have unf : ∀ s' : Str, step s' t w (.deref i) = (get w i >>= fun o => stored s' o.pos s'.length >>= fun h => looked s' o.pos >>= fun n =>
        match h with
        | none => readAt s' o.pos >>= fun c => .ok (w, ⟨t, .it i, false⟩ :: reads t o.pos n, some c)
        | some v => .ok (w.set i { o with hex := v }, ⟨t, .it i, false⟩ :: (reads t o.pos n ++ [⟨t, .hex i, true⟩]), some v)) := fun _ => rfl
    cases v' with
    | none =>
      obtain ⟨d, h7, h8⟩ := bind_ok h6
      have := Prod.mk.inj (Except.ok.inj h8)
      obtain ⟨rfl, e⟩ := this
      obtain ⟨rfl, rfl⟩ := Prod.mk.inj e
      constructor
      · intro a ha k hk
        rcases List.mem_cons.1 ha with rfl | ha
        · simp at hk
        · exact hin a ha k hk
      · intro s' hl ha
        have hj : ∀ j, x.pos ≤ j → j < x.pos + n → s'[j]? = s[j]? := fun j j1 j2 =>
          ha _ (List.mem_cons_of_mem _ (reads_mem (t := t) j1 j2)) j rfl
        rw [unf, h1]
        show (stored s' x.pos s'.length >>= fun h => looked s' x.pos >>= fun n =>
        match h with
        | none => readAt s' x.pos >>= fun c => .ok (w, ⟨t, .it i, false⟩ :: reads t x.pos n, some c)
        | some v => .ok (w.set i { x with hex := v }, ⟨t, .it i, false⟩ :: (reads t x.pos n ++ [⟨t, .hex i, true⟩]), some v)) = _
        rw [stored_congr hl h5 hj h3, looked_congr hl h5 hj]
        show (readAt s' x.pos >>= fun c => (.ok (w, ⟨t, .it i, false⟩ :: reads t x.pos n, some c) : M (List ItObj × List Access × Option UInt8))) = _
        rw [readAt_congr (hj x.pos (Nat.le_refl _) (by omega)), h7]
        rfl
    | some u =>
      have := Prod.mk.inj (Except.ok.inj h6)
      obtain ⟨rfl, e⟩ := this
      obtain ⟨rfl, rfl⟩ := Prod.mk.inj e
      constructor
      · intro a ha k hk
        rcases List.mem_cons.1 ha with rfl | ha
        · simp at hk
        rcases List.mem_append.1 ha with ha | ha
        · exact hin a ha k hk
        · simp at ha; subst ha; simp at hk
      · intro s' hl ha
        have hj : ∀ j, x.pos ≤ j → j < x.pos + n → s'[j]? = s[j]? := fun j j1 j2 =>
          ha _ (List.mem_cons_of_mem _ (List.mem_append_left _ (reads_mem (t := t) j1 j2))) j rfl
        rw [unf, h1]
        show (stored s' x.pos s'.length >>= fun h => looked s' x.pos >>= fun n =>
        match h with
        | none => readAt s' x.pos >>= fun c => .ok (w, ⟨t, .it i, false⟩ :: reads t x.pos n, some c)
        | some v => .ok (w.set i { x with hex := v }, ⟨t, .it i, false⟩ :: (reads t x.pos n ++ [⟨t, .hex i, true⟩]), some v)) = _
        rw [stored_congr hl h5 hj h3, looked_congr hl h5 hj]
        rfl

end Threads.Pct

/-- C77: iterators over percent-encoded text read the characters of the text and nothing beyond it, and never write to it. -/
theorem C77_percent_text {s : Str} : ∀ {sched : List (Nat × Pct.Op)} {w w' : List ItObj} {log : List Access} {seen : List (Option UInt8)},
    Pct.run s w sched = .ok (w', log, seen) → ∀ a ∈ log, ∀ k, a.loc = .text k → a.write = false ∧ k < s.length := by
  intro sched w w' log seen h a ha k hk
  refine ⟨(Pct.run_did (m := 0) sched w w' log seen (Nat.zero_le _) (fun _ _ _ _ _ => Nat.zero_le _) h).text a ha k hk, ?_⟩
  induction sched generalizing w w' log seen with
  | nil => cases h; simp at ha
  | cons x ops ih =>
    obtain ⟨t, o⟩ := x
    obtain ⟨⟨w1, l1, v⟩, h1, h⟩ := Pct.bind_ok h
    obtain ⟨⟨w2, l2, vs⟩, h2, h⟩ := Pct.bind_ok h
    cases h
    rcases List.mem_append.1 ha with ha | ha
    · exact (Pct.step_text h1).1 a ha k hk
    · exact ih h2 ha

/-- C77: and they depend on no other characters.  On a text that is the same at the places that were read, and is as
long, the same schedule does the same things, reads the same places and yields the same. -/
theorem C77_percent_depends {s s' : Str} (hl : s'.length = s.length) : ∀ {sched : List (Nat × Pct.Op)} {w w' : List ItObj} {log : List Access} {seen : List (Option UInt8)},
    Pct.run s w sched = .ok (w', log, seen) → (∀ a ∈ log, ∀ k, a.loc = .text k → s'[k]? = s[k]?) →
    Pct.run s' w sched = .ok (w', log, seen) := by
  intro sched w w' log seen h ha
  induction sched generalizing w w' log seen with
  | nil => exact h
  | cons x ops ih =>
    obtain ⟨t, o⟩ := x
    obtain ⟨⟨w1, l1, v⟩, h1, h⟩ := Pct.bind_ok h
    obtain ⟨⟨w2, l2, vs⟩, h2, h⟩ := Pct.bind_ok h
    cases h
    have k1 := (Pct.step_text h1).2 s' hl (fun a hm => ha a (List.mem_append_left _ hm))
    have k2 := ih h2 (fun a hm => ha a (List.mem_append_right _ hm))
    have e1 : Pct.run s' w ((t, o) :: ops) = (Pct.step s' t w o >>= fun x => Pct.run s' x.1 ops >>= fun y => .ok (y.1, x.2.1 ++ y.2.1, x.2.2 :: y.2.2)) := rfl
    rw [e1, k1]
    show (Pct.run s' w1 ops >>= fun y => (.ok (y.1, l1 ++ y.2.1, v :: y.2.2) : M _)) = _
    rw [k2]
    rfl

/-- The iterator at the `a` of `a%41` reads one character when dereferenced; the triplet behind it can be anything. -/
example : Pct.run [0x61, 0x25, 0x34, 0x31] [⟨0, 0⟩] [(0, .deref 0), (1, .incr 0), (0, .deref 0)] =
      .ok ([⟨1, 0x41⟩], [⟨0, .it 0, false⟩, ⟨0, .text 0, false⟩, ⟨1, .text 0, false⟩, ⟨1, .it 0, true⟩,
        ⟨0, .it 0, false⟩, ⟨0, .text 1, false⟩, ⟨0, .text 2, false⟩, ⟨0, .text 3, false⟩, ⟨0, .hex 0, true⟩], [some 0x61, none, some 0x41]) := by
  decide +kernel

end Verif
