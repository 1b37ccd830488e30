import Verif.Proofs.TextUri

/-!
# Which views end up in the result; the ABNF languages have derivations
-/

namespace Verif

set_option linter.unusedSimpArgs false

/-- Run a list of acceptors. -/
def runAll (acc : Acceptors Act) (p : Parts SV) : M (Parts SV) := acc.foldlM (fun s a => runAct s a.1 a.2) p

theorem runAll_nil (p) : runAll [] p = .ok p := rfl
theorem runAll_cons (x : Act × SV) (acc p) : runAll (x :: acc) p =
    match runAct p x.1 x.2 with
    | .error f => .error f
    | .ok q => runAll acc q := by
  simp only [runAll, List.foldlM_cons, bind, Except.bind]
  cases runAct p x.1 x.2 <;> rfl

theorem runAll_append {a b : Acceptors Act} {p q : Parts SV} (h : runAll a p = .ok q) :
    runAll (a ++ b) p = runAll b q := by
  simp only [runAll] at h ⊢
  rw [List.foldlM_append, h]; rfl

theorem content_split {acc : Acceptors Act} {x y : Acts} (h : content acc = x ++ y) :
    ∃ a b, acc = a ++ b ∧ content a = x ∧ content b = y := by
  obtain ⟨a, b, h1, h2, h3⟩ := List.map_eq_append_iff.1 h
  exact ⟨a, b, h1, h2, h3⟩

theorem content_one {acc : Acceptors Act} {a : Act} {t : Str} (h : content acc = [(a, t)]) :
    ∃ v, acc = [(a, v)] ∧ v.chars = t := by
  simp only [content, List.map_eq_singleton_iff, Prod.mk.injEq] at h
  obtain ⟨⟨a', v⟩, rfl, rfl, h⟩ := h
  exact ⟨v, rfl, h⟩

theorem content_nil_iff {acc : Acceptors Act} (h : content acc = []) : acc = [] := by
  simpa [content] using h

theorem all_auth {acc : Acceptors Act} {A : Authority Str} (h : content acc = authActs A) (p : Parts SV)
    (hp : p.authority = none) : ∃ B : Authority SV, runAll acc p = .ok { p with authority := some B } ∧
      ∀ v ∈ B.userinfo.toList ++ [B.host] ++ B.port.toList, v ∈ acc.map (·.2) := by
  obtain ⟨u, hh, po⟩ := A
  obtain ⟨acc, a3, rfl, h, h3⟩ := content_split h
  obtain ⟨a1, a2, rfl, h1, h2⟩ := content_split h
  obtain ⟨v, rfl, rfl⟩ := content_one h2
  cases u with
  | none =>
    have := content_nil_iff h1; subst this
    cases po with
    | none =>
      have := content_nil_iff h3; subst this
      exact ⟨⟨none, v, none⟩, by simp [runAll_cons, runAct, runAll_nil, Parts.ensureAuthority, hp], by simp⟩
    | some x =>
      obtain ⟨w, rfl, rfl⟩ := content_one h3
      exact ⟨⟨none, v, some w⟩, by simp [runAll_cons, runAct, runAll_nil, Parts.ensureAuthority, hp], by simp⟩
  | some y =>
    obtain ⟨z, rfl, rfl⟩ := content_one h1
    cases po with
    | none =>
      have := content_nil_iff h3; subst this
      exact ⟨⟨some z, v, none⟩, by simp [runAll_cons, runAct, runAll_nil, Parts.ensureAuthority, hp], by simp⟩
    | some x =>
      obtain ⟨w, rfl, rfl⟩ := content_one h3
      exact ⟨⟨some z, v, some w⟩, by simp [runAll_cons, runAct, runAll_nil, Parts.ensureAuthority, hp], by simp⟩

theorem all_slash (b : Bool) {acc : Acceptors Act} {gs : List Str} (h : content acc = slashActs b gs) (p : Parts SV) :
    ∃ (ab : Bool) (hs : List SV), runAll acc p = .ok { p with path := ⟨ab, p.path.segments ++ hs⟩ } ∧
      ∀ v ∈ hs, v ∈ acc.map (·.2) := by
  induction gs generalizing acc p with
  | nil =>
    have := content_nil_iff h; subst this
    exact ⟨p.path.absolute, [], by simp [runAll_nil], by simp⟩
  | cons g gs ih =>
    have e : slashActs b (g :: gs) = [(Act.appendDir b, b! "/")] ++ [(Act.appendSegment, g)] ++ slashActs b gs := rfl
    rw [e] at h
    obtain ⟨acc, a3, rfl, h, h3⟩ := content_split h
    obtain ⟨a1, a2, rfl, h1, h2⟩ := content_split h
    obtain ⟨d, rfl, -⟩ := content_one h1
    obtain ⟨v, rfl, rfl⟩ := content_one h2
    obtain ⟨ab, hs, h4, h5⟩ := ih h3 { p with path := ⟨if b then true else p.path.absolute, p.path.segments ++ [v]⟩ }
    refine ⟨ab, v :: hs, ?_, ?_⟩
    · rw [runAll_append (q := { p with path := ⟨if b then true else p.path.absolute, p.path.segments ++ [v]⟩ })]
      · rw [h4]; simp
      · have e : ∀ l : List SV, ∃ x xs, l ++ [SV.null] = x :: xs := by
          intro l; cases l <;> exact ⟨_, _, rfl⟩
        obtain ⟨x, xs, hx⟩ := e p.path.segments
        have hd : (x :: xs).dropLast = p.path.segments := by rw [← hx]; simp
        simp [runAll_cons, runAct, runAll_nil, hx, hd]
    · intro w hw
      simp only [List.mem_cons] at hw
      rcases hw with rfl | hw
      · simp
      · have := h5 w hw
        simp only [List.map_append, List.mem_append]; exact Or.inr this

/-- A view of the acceptors, unless the path is the root. -/
theorem all_part {first t pa A pth} (h : PartR first t pa A pth) {acc : Acceptors Act} (hc : content acc = pa) (p : Parts SV)
    (h1 : p.authority = none) (h2 : p.path = ⟨false, []⟩) :
    ∃ B P, runAll acc p = .ok { p with authority := B, path := P } ∧
      (∀ a, B = some a → ∀ v ∈ a.userinfo.toList ++ [a.host] ++ a.port.toList, v ∈ acc.map (·.2)) ∧
      ((∀ v ∈ P.segments, v ∈ acc.map (·.2)) ∨ (B = none ∧ P = ⟨true, [SV.null]⟩)) := by
  obtain ⟨sch, au, pt, q, f⟩ := p
  simp only at h1 h2
  subst h1 h2
  cases h with
  | abempty a gs _ _ _ =>
    obtain ⟨a1, a2, rfl, hc1, hc2⟩ := content_split hc
    obtain ⟨B, r1, v1⟩ := all_auth hc1 ⟨sch, none, ⟨false, []⟩, q, f⟩ rfl
    obtain ⟨ab, hs, r2, v2⟩ := all_slash true hc2 ⟨sch, some B, ⟨false, []⟩, q, f⟩
    refine ⟨some B, ⟨ab, hs⟩, ?_, ?_, Or.inl ?_⟩
    · rw [runAll_append r1, r2]; simp
    · rintro _ ⟨⟩ v hv; simp only [List.map_append, List.mem_append]; exact Or.inl (v1 v hv)
    · intro v hv; simp only [List.map_append, List.mem_append]; exact Or.inr (v2 v hv)
  | root =>
    obtain ⟨v, rfl, -⟩ := content_one hc
    exact ⟨none, ⟨true, [SV.null]⟩, by simp [runAll_cons, runAct, runAll_nil], by simp, by simp⟩
  | absolute g gs _ _ =>
    rw [← List.append_assoc] at hc
    obtain ⟨a0, a3, rfl, hc0, hc3⟩ := content_split hc
    obtain ⟨a1, a2, rfl, hc1, hc2⟩ := content_split hc0
    obtain ⟨d, rfl, -⟩ := content_one hc1
    obtain ⟨v, rfl, -⟩ := content_one hc2
    obtain ⟨ab, hs, r2, v2⟩ := all_slash false hc3 ⟨sch, none, ⟨true, [v]⟩, q, f⟩
    refine ⟨none, ⟨ab, v :: hs⟩, ?_, by simp, Or.inl ?_⟩
    · rw [runAll_append (q := ⟨sch, none, ⟨true, [v]⟩, q, f⟩)]
      · rw [r2]; simp
      · simp [runAll_cons, runAct, runAll_nil]
    · intro w hw
      simp only [List.mem_cons] at hw
      rcases hw with rfl | hw
      · simp
      · have := v2 w hw
        simp only [List.map_append, List.mem_append]; exact Or.inr this
  | rootless g gs _ _ =>
    obtain ⟨a2, a3, rfl, hc2, hc3⟩ := content_split hc
    obtain ⟨v, rfl, -⟩ := content_one hc2
    obtain ⟨ab, hs, r2, v2⟩ := all_slash false hc3 ⟨sch, none, ⟨false, [v]⟩, q, f⟩
    refine ⟨none, ⟨ab, v :: hs⟩, ?_, by simp, Or.inl ?_⟩
    · rw [runAll_append (q := ⟨sch, none, ⟨false, [v]⟩, q, f⟩)]
      · rw [r2]; simp
      · simp [runAll_cons, runAct, runAll_nil]
    · intro w hw
      simp only [List.mem_cons] at hw
      rcases hw with rfl | hw
      · simp
      · have := v2 w hw
        simp only [List.map_append, List.mem_append]; exact Or.inr this
  | empty =>
    have := content_nil_iff hc; subst this
    exact ⟨none, ⟨false, []⟩, by simp [runAll_nil], by simp, by simp⟩

theorem all_opt (x : Act) {acc : Acceptors Act} {o : Option Str} (h : content acc = optActs x o) :
    (acc = [] ∧ o = none) ∨ ∃ v, acc = [(x, v)] := by
  cases o with
  | none => exact Or.inl ⟨content_nil_iff h, rfl⟩
  | some t => obtain ⟨v, h, -⟩ := content_one h; exact Or.inr ⟨v, h⟩

/-- The views of a result. -/
def ViewsFrom (q : Parts SV) (l : List SV) : Prop :=
  ∀ v ∈ q.views, v ∈ l ∨ (v = SV.null ∧ q.authority = none ∧ q.path = ⟨true, [SV.null]⟩)

theorem all_tail {q f : Option Str} {acc : Acceptors Act}
    (hc : content acc = optActs .setQuery q ++ optActs .setFragment f) (p : Parts SV) (h1 : p.query = none) (h2 : p.fragment = none) :
    ∃ q' f', runAll acc p = .ok { p with query := q', fragment := f' } ∧
      ∀ v ∈ Option.toList q' ++ Option.toList f', v ∈ acc.map (·.2) := by
  obtain ⟨a1, a2, rfl, hc1, hc2⟩ := content_split hc
  obtain ⟨sch, au, pt, q, f⟩ := p
  simp only at h1 h2
  subst h1 h2
  rcases all_opt _ hc1 with ⟨rfl, -⟩ | ⟨v, rfl⟩ <;> rcases all_opt _ hc2 with ⟨rfl, -⟩ | ⟨w, rfl⟩
  · exact ⟨none, none, by simp [runAll_nil], by simp⟩
  · exact ⟨none, some w, by simp [runAll_cons, runAct, runAll_nil], by simp⟩
  · exact ⟨some v, none, by simp [runAll_cons, runAct, runAll_nil], by simp⟩
  · exact ⟨some v, some w, by simp [runAll_cons, runAct, runAll_nil], by simp⟩

theorem all_body {first t pa A pth} (h : PartR first t pa A pth) {q f : Option Str} {acc : Acceptors Act}
    (hc : content acc = pa ++ (optActs .setQuery q ++ optActs .setFragment f)) (s : Option SV) :
    ∃ r, runAll acc ⟨s, none, ⟨false, []⟩, none, none⟩ = .ok r ∧ ViewsFrom r (s.toList ++ acc.map (·.2)) := by
  obtain ⟨a1, a2, rfl, hc1, hc2⟩ := content_split hc
  obtain ⟨B, P, r1, v1, v2⟩ := all_part h hc1 ⟨s, none, ⟨false, []⟩, none, none⟩ rfl rfl
  obtain ⟨q', f', r2, v3⟩ := all_tail hc2 ⟨s, B, P, none, none⟩ rfl rfl
  refine ⟨⟨s, B, P, q', f'⟩, by rw [runAll_append r1, r2], ?_⟩
  intro v hv
  simp only [Parts.views, List.mem_append] at hv
  simp only [List.map_append, List.mem_append]
  rcases hv with (((hv | hv) | hv) | hv) | hv
  · exact Or.inl (Or.inl hv)
  · cases B with
    | none => simp at hv
    | some a =>
      have := v1 a rfl v (by simpa [List.mem_append] using hv)
      exact Or.inl (Or.inr (Or.inl this))
  · rcases v2 with v2 | ⟨v2, v4⟩
    · exact Or.inl (Or.inr (Or.inl (v2 v hv)))
    · right
      rw [v4] at hv
      simp at hv
      exact ⟨hv, v2, v4⟩
  · exact Or.inl (Or.inr (Or.inr (v3 v (by simp only [List.mem_append]; exact Or.inl hv))))
  · exact Or.inl (Or.inr (Or.inr (v3 v (by simp only [List.mem_append]; exact Or.inr hv))))

theorem views_uriR {p s} {acc : Acceptors Act} {q : Parts SV} (h : UriR p s (content acc) ∨ RelR p s (content acc))
    (e : runAll acc Parts.init = .ok q) : ViewsFrom q (acc.map (·.2)) := by
  rcases h with ⟨sch, t, pa, h1, h2, h3, h4, h5, h6, hc⟩ | ⟨t, pa, h1, h3, h4, h5, h6, hc⟩
  · simp only [List.append_assoc] at hc
    obtain ⟨a1, a2, rfl, hc1, hc2⟩ := content_split hc
    obtain ⟨v, rfl, -⟩ := content_one hc1
    obtain ⟨r, r1, r2⟩ := all_body h3 hc2 (some v)
    have : runAll [(Act.setScheme, v)] Parts.init = .ok ⟨some v, none, ⟨false, []⟩, none, none⟩ := rfl
    rw [runAll_append this, r1] at e
    simp only [Except.ok.injEq] at e
    subst e
    simpa using r2
  · simp only [List.append_assoc] at hc
    obtain ⟨r, r1, r2⟩ := all_body h3 hc none
    have e' : runAll acc Parts.init = runAll acc ⟨none, none, ⟨false, []⟩, none, none⟩ := rfl
    rw [e', r1] at e
    simp only [Except.ok.injEq] at e
    subst e
    simpa using r2

/-! ### Languages and derivations -/

theorem rep0_slashes {s} : Abnf.many (Abnf.cat (Abnf.lit (b! "/")) Abnf.segment) s ↔
    ∃ gs, (∀ g ∈ gs, Abnf.segment g) ∧ s = Abnf.slashes gs := by
  constructor
  · rintro ⟨es, rfl, h, -, -⟩
    induction es with
    | nil => exact ⟨[], by simp, rfl⟩
    | cons e es ih =>
      obtain ⟨gs, h1, h2⟩ := ih fun x hx => h x (by simp [hx])
      obtain ⟨_, g, rfl, rfl, hg⟩ := h e (by simp)
      refine ⟨g :: gs, ?_, ?_⟩
      · intro x hx; rcases List.mem_cons.1 hx with rfl | hx
        · exact hg
        · exact h1 x hx
      · simp [slashes_cons, h2]
  · rintro ⟨gs, h, rfl⟩
    refine ⟨gs.map (b! "/" ++ ·), rfl, ?_, by simp, by simp⟩
    intro e he
    obtain ⟨g, hg, rfl⟩ := List.mem_map.1 he
    exact ⟨_, g, rfl, rfl, h g hg⟩

theorem opt_iff {d : Str} {L : Lang} {s} : Abnf.opt (Abnf.cat (Abnf.lit d) L) s ↔
    ∃ o : Option Str, (∀ t, o = some t → L t) ∧ s = Abnf.optText d o := by
  constructor
  · rintro (rfl | ⟨_, t, rfl, rfl, h⟩)
    · exact ⟨none, by simp, rfl⟩
    · exact ⟨some t, by simpa using h, rfl⟩
  · rintro ⟨o, h, rfl⟩
    cases o with
    | none => exact Or.inl rfl
    | some t => exact Or.inr ⟨_, t, rfl, rfl, h t rfl⟩

theorem authority_lang {s} : Abnf.authority s ↔ ∃ a, Abnf.AuthorityOk a ∧ s = Abnf.authorityText a := by
  constructor
  · rintro ⟨x, y, rfl, hx, h, z, rfl, hh, hz⟩
    obtain ⟨po, h1, rfl⟩ := opt_iff.1 hz
    rcases hx with rfl | ⟨u, _, rfl, hu, rfl⟩
    · exact ⟨⟨none, h, po⟩, ⟨by simp, hh, h1⟩, by rw [authorityText_eq]⟩
    · exact ⟨⟨some u, h, po⟩, ⟨by simpa using hu, hh, h1⟩, by rw [authorityText_eq]⟩
  · rintro ⟨⟨u, h, po⟩, ⟨h1, h2, h3⟩, rfl⟩
    rw [authorityText_eq]
    refine ⟨_, _, rfl, ?_, _, _, rfl, h2, opt_iff.2 ⟨po, h3, rfl⟩⟩
    cases u with
    | none => exact Or.inl rfl
    | some u => exact Or.inr ⟨u, _, rfl, h1 u rfl, rfl⟩

theorem part_lang {first : Lang} {s} :
    (Abnf.alt (Abnf.cat (Abnf.lit (b! "//")) (Abnf.cat Abnf.authority Abnf.pathAbempty))
      (Abnf.alt Abnf.pathAbsolute (Abnf.alt (Abnf.cat first (Abnf.many (Abnf.cat (Abnf.lit (b! "/")) Abnf.segment)))
      Abnf.pathEmpty))) s ↔ ∃ A P, Abnf.PartDerives first s A P := by
  constructor
  · rintro (⟨_, _, rfl, rfl, a, b, rfl, ha, hb⟩ | ⟨_, b, rfl, rfl, rfl | ⟨g, r, rfl, hg, hr⟩⟩ | ⟨g, r, rfl, hg, hr⟩ | h)
    · obtain ⟨A, hA, rfl⟩ := authority_lang.1 ha
      obtain ⟨gs, hgs, rfl⟩ := rep0_slashes.1 hb
      have := Abnf.PartDerives.abempty (first := first) A gs hA hgs
      rw [List.append_assoc] at this
      exact ⟨_, _, this⟩
    · exact ⟨_, _, .root⟩
    · obtain ⟨gs, hgs, rfl⟩ := rep0_slashes.1 hr
      have := Abnf.PartDerives.absolute (first := first) g gs hg hgs
      rw [List.append_assoc] at this
      exact ⟨_, _, this⟩
    · obtain ⟨gs, hgs, rfl⟩ := rep0_slashes.1 hr
      exact ⟨_, _, .rootless g gs hg hgs⟩
    · obtain ⟨es, rfl, -, -, h⟩ := h
      have : es = [] := by simpa using h 0 rfl
      subst this
      exact ⟨_, _, .empty⟩
  · rintro ⟨A, P, h⟩
    cases h with
    | abempty a gs h1 h2 =>
      refine Or.inl ⟨_, _, List.append_assoc _ _ _, rfl, _, _, rfl, authority_lang.2 ⟨_, h1, rfl⟩, rep0_slashes.2 ⟨gs, h2, rfl⟩⟩
    | root => exact Or.inr (Or.inl ⟨_, [], rfl, rfl, Or.inl rfl⟩)
    | absolute g gs h1 h2 =>
      exact Or.inr (Or.inl ⟨_, _, List.append_assoc _ _ _, rfl, Or.inr ⟨_, _, rfl, h1, rep0_slashes.2 ⟨gs, h2, rfl⟩⟩⟩)
    | rootless g gs h1 h2 => exact Or.inr (Or.inr (Or.inl ⟨_, _, rfl, h1, rep0_slashes.2 ⟨gs, h2, rfl⟩⟩))
    | empty => exact Or.inr (Or.inr (Or.inr ⟨[], rfl, by simp, by simp, by simp⟩))

theorem URI_lang {s} : Abnf.URI s ↔ ∃ p, Abnf.URIDerives s p := by
  constructor
  · rintro ⟨sch, _, rfl, hs, _, _, rfl, rfl, t, _, rfl, ht, _, _, rfl, hq, hf⟩
    obtain ⟨A, P, hp⟩ := part_lang.1 ht
    obtain ⟨q, hq', rfl⟩ := opt_iff.1 hq
    obtain ⟨f, hf', rfl⟩ := opt_iff.1 hf
    exact ⟨⟨some sch, A, P, q, f⟩, sch, t, rfl, hs, hp, hq', hf', by simp⟩
  · rintro ⟨p, sch, t, h1, h2, h3, h4, h5, rfl⟩
    refine ⟨sch, _, by simp only [List.append_assoc], h2, _, _, rfl, rfl, t, _, rfl, part_lang.2 ⟨_, _, h3⟩, _, _, rfl,
      opt_iff.2 ⟨_, h4, rfl⟩, opt_iff.2 ⟨_, h5, rfl⟩⟩

theorem relative_lang {s} : Abnf.relativeRef s ↔ ∃ p, Abnf.RelativeDerives s p := by
  constructor
  · rintro ⟨t, _, rfl, ht, _, _, rfl, hq, hf⟩
    obtain ⟨A, P, hp⟩ := part_lang.1 ht
    obtain ⟨q, hq', rfl⟩ := opt_iff.1 hq
    obtain ⟨f, hf', rfl⟩ := opt_iff.1 hf
    exact ⟨⟨none, A, P, q, f⟩, t, rfl, hp, hq', hf', by simp⟩
  · rintro ⟨p, t, h1, h3, h4, h5, rfl⟩
    refine ⟨t, _, by simp only [List.append_assoc], part_lang.2 ⟨_, _, h3⟩, _, _, rfl,
      opt_iff.2 ⟨_, h4, rfl⟩, opt_iff.2 ⟨_, h5, rfl⟩⟩

theorem reference_lang {s} : Abnf.URIReference s ↔ ∃ p, Abnf.ReferenceDerives s p := by
  constructor
  · rintro (h | h)
    · obtain ⟨p, h⟩ := URI_lang.1 h; exact ⟨p, Or.inl h⟩
    · obtain ⟨p, h⟩ := relative_lang.1 h; exact ⟨p, Or.inr h⟩
  · rintro ⟨p, h | h⟩
    · exact Or.inl (URI_lang.2 ⟨p, h⟩)
    · exact Or.inr (relative_lang.2 ⟨p, h⟩)

end Verif
