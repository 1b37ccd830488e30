import Verif.Proofs.HostExact

/-!
# Soundness of the rules that carry acceptors, and what the acceptors build
-/

namespace Verif
open Peg

abbrev Acts := List (Act × Str)

/-- Acceptors of an authority, in the order they are gathered. -/
def authActs (A : Authority Str) : Acts :=
  (match A.userinfo with
    | none => []
    | some x => [(Act.setUserinfo, x)]) ++ [(Act.setHost, A.host)] ++
  (match A.port with
    | none => []
    | some x => [(Act.setPort, x)])

/-- Acceptors of `*( "/" segment )`. -/
def slashActs (b : Bool) (gs : List Str) : Acts :=
  (gs.map fun g => [(Act.appendDir b, b! "/"), (Act.appendSegment, g)]).flatten

/-- Acceptors of an optional piece. -/
def optActs (x : Act) : Option Str → Acts
  | none => []
  | some t => [(x, t)]

/-- `segment-nz` as the code counts it. -/
def SegNzC : Lang := fun g => Abnf.segmentNz g ∧ Abnf.units g % 2 ^ 32 ≠ 0
/-- `segment-nz-nc` as the code counts it. -/
def SegNzNcC : Lang := fun g => Abnf.segmentNzNc g ∧ Abnf.units g % 2 ^ 32 ≠ 0

theorem sound_starE {p : PG.P} {f : UInt8 → Bool} {L : Lang} (hf : f 0x25 = false) (hL : ∀ u, L u ↔ ElemL f u)
    (hp : Sound p (Plain L)) :
    Sound (star p 1 uintMax) (Plain (fun u => Abnf.rep 1 none L u ∧ Abnf.units u % 2 ^ 32 ≠ 0)) := by
  refine sound_mono (sound_star hp 1 uintMax (by decide)) ?_
  rintro u a ⟨es, ⟨rfl, rfl, h⟩, h2, -, h3⟩
  have hc : ∀ e ∈ es.map Prod.fst, L e := by
    intro e he
    obtain ⟨x, hx, rfl⟩ := List.mem_map.1 he
    exact (h x hx).1
  refine ⟨⟨⟨es.map Prod.fst, rfl, hc, by simpa using h2, by simp⟩, ?_⟩, ?_⟩
  · have := h3 rfl
    rw [elem_units hf fun e he => (hL e).1 (hc e he), List.length_map]
    simp only [uintMod] at this
    omega
  · rw [List.flatten_eq_nil_iff]
    intro l hl
    obtain ⟨x, hx, rfl⟩ := List.mem_map.1 hl
    exact (h x hx).2

theorem sound_segmentNzC : Sound PG.segmentNz (Plain SegNzC) := sound_starE (by decide) pchar_elem sound_pchar
theorem sound_segmentNzNcC : Sound PG.segmentNzNc (Plain SegNzNcC) := by
  rw [PG.segmentNzNc, segmentNzNcElem_eq]
  exact sound_starE (by decide) nc_elem (sound_langeq (sound_elemP _) fun u => (nc_elem u).2)

/-- `hier-part` / `relative-part` with acceptors. -/
inductive PartR (first : Lang) : Str → Acts → Option (Authority Str) → Path Str → Prop
  | abempty (a gs) : Abnf.AuthorityOk a → Abnf.HostAccepted a.host → (∀ g ∈ gs, Abnf.segment g) →
      PartR first (b! "//" ++ Abnf.authorityText a ++ Abnf.slashes gs) (authActs a ++ slashActs true gs)
        (some a) ⟨!gs.isEmpty, gs⟩
  | root : PartR first (b! "/") [(.appendDir true, b! "/")] none ⟨true, [[]]⟩
  | absolute (g gs) : SegNzC g → (∀ g ∈ gs, Abnf.segment g) →
      PartR first (b! "/" ++ g ++ Abnf.slashes gs)
        ([(.appendDir true, b! "/")] ++ ([(.appendSegment, g)] ++ slashActs false gs)) none ⟨true, g :: gs⟩
  | rootless (g gs) : first g → (∀ g ∈ gs, Abnf.segment g) →
      PartR first (g ++ Abnf.slashes gs) ([(.recordInitial, g)] ++ slashActs false gs) none ⟨false, g :: gs⟩
  | empty : PartR first [] [] none ⟨false, []⟩

theorem PartR.derives {first first' u a A p} (hf : ∀ g, first' g → first g) (h : PartR first' u a A p) :
    Abnf.PartDerives first u A p := by
  cases h with
  | abempty _ _ h1 _ h3 => exact .abempty _ _ h1 h3
  | root => exact .root
  | absolute _ _ h1 h2 => exact .absolute _ _ h1.1 h2
  | rootless _ _ h1 h2 => exact .rootless _ _ (hf _ h1) h2
  | empty => exact .empty

theorem PartR.counted {first u a A p} (hf : ∀ g, first g → Abnf.units g % 2 ^ 32 ≠ 0) (h : PartR first u a A p) :
    A = none → ∀ g gs, p.segments = g :: gs → g ≠ [] → Abnf.units g % 2 ^ 32 ≠ 0 := by
  cases h with
  | abempty _ _ h1 _ h3 => simp
  | root => rintro - g gs e hg; simp at e; exact absurd e.1 (by first | exact hg | exact fun h => hg h.symm | exact fun h => hg h)
  | absolute _ _ h1 h2 => rintro - g gs e hg; simp at e; rw [← e.1]; exact h1.2
  | rootless _ _ h1 h2 => rintro - g gs e hg; simp at e; rw [← e.1]; exact hf _ h1
  | empty => simp

theorem PartR.hostOk {first u a A p} (h : PartR first u a A p) : ∀ x, A = some x → Abnf.HostAccepted x.host := by
  cases h
  · rintro x h; cases h; assumption
  all_goals simp

theorem nz_ne {g : Str} (h : Abnf.segmentNz g) : g ≠ [] := by
  rintro rfl
  obtain ⟨es, e, he, h1, -⟩ := h
  cases es with
  | nil => simp at h1
  | cons x es =>
    have := elemL_ne ((pchar_elem x).1 (he x (by simp)))
    simp at e; exact absurd e.1 this

theorem nznc_ne {g : Str} (h : Abnf.segmentNzNc g) : g ≠ [] := by
  rintro rfl
  obtain ⟨es, e, he, h1, -⟩ := h
  cases es with
  | nil => simp at h1
  | cons x es =>
    have := elemL_ne ((nc_elem x).1 (he x (by simp)))
    simp at e; exact absurd e.1 this

theorem PartR.ofDerives {first u A p} (hne : ∀ g, first g → g ≠ []) (h : Abnf.PartDerives first u A p)
    (ho : ∀ x, A = some x → Abnf.HostAccepted x.host)
    (hc : A = none → ∀ g gs, p.segments = g :: gs → g ≠ [] → Abnf.units g % 2 ^ 32 ≠ 0) :
    ∃ a, PartR (fun g => first g ∧ Abnf.units g % 2 ^ 32 ≠ 0) u a A p := by
  cases h with
  | abempty a gs h1 h2 => exact ⟨_, .abempty _ _ h1 (ho _ rfl) h2⟩
  | root => exact ⟨_, .root⟩
  | absolute g gs h1 h2 => exact ⟨_, .absolute _ _ ⟨h1, hc rfl g gs rfl (nz_ne h1)⟩ h2⟩
  | rootless g gs h1 h2 => exact ⟨_, .rootless _ _ ⟨h1, hc rfl g gs rfl (hne g h1)⟩ h2⟩
  | empty => exact ⟨_, .empty⟩

/-- Relation of a `"/" segment` element. -/
def SlashR (b : Bool) : Rel := fun u a =>
  ∃ g, Abnf.segment g ∧ u = b! "/" ++ g ∧ a = [(Act.appendDir b, b! "/"), (Act.appendSegment, g)]

/-- Relation of `*( "/" segment )`. -/
def SlashesR (b : Bool) : Rel := fun u a =>
  ∃ gs, (∀ g ∈ gs, Abnf.segment g) ∧ u = Abnf.slashes gs ∧ a = slashActs b gs

/-- Relation of an authority. -/
def AuthR : Rel := fun u a => ∃ A, (Abnf.AuthorityOk A ∧ Abnf.HostAccepted A.host) ∧ u = Abnf.authorityText A ∧ a = authActs A

/-- Relation of `[ delim text ]`. -/
def OptR (d : Str) (x : Act) (L : Lang) : Rel := fun u a =>
  ∃ o : Option Str, (∀ t, o = some t → L t) ∧ u = Abnf.optText d o ∧ a = optActs x o

theorem sound_slashSegment (b) : Sound (PG.slashSegment b) (SlashR b) := by
  refine sound_mono (sound_seq (sound_act (sound_ch _) _) (sound_act sound_segment _)) ?_
  rintro u a ⟨u1, u2, a1, a2, rfl, rfl, ⟨_, rfl, rfl, rfl⟩, _, rfl, h, rfl⟩
  exact ⟨u2, h, rfl, rfl⟩

theorem rrep_slashes {b es u a} (h : RRep (SlashR b) es u a) : SlashesR b u a := by
  obtain ⟨rfl, rfl, h⟩ := h
  induction es with
  | nil => exact ⟨[], by simp, rfl, rfl⟩
  | cons e es ih =>
    obtain ⟨gs, h1, h2, h3⟩ := ih fun x hx => h x (by simp [hx])
    obtain ⟨g, hg, e1, e2⟩ := h e (by simp)
    refine ⟨g :: gs, ?_, ?_, ?_⟩
    · intro x hx
      rcases List.mem_cons.1 hx with rfl | hx
      · exact hg
      · exact h1 x hx
    · simp only [List.map_cons, List.flatten_cons, h2, e1]; rfl
    · simp only [List.map_cons, List.flatten_cons, h3, e2]; rfl

theorem sound_slashes (b) : Sound (star (PG.slashSegment b) 0 uintMax) (SlashesR b) := by
  refine sound_mono (sound_star (sound_slashSegment b) 0 _ (by decide)) ?_
  rintro u a ⟨es, h, -⟩
  exact rrep_slashes h

theorem sound_authority : Sound PG.authority AuthR := by
  have hu : Sound (opt PG.userinfoAt) (fun u a => ∃ o : Option Str, (∀ x, o = some x → Abnf.userinfo x) ∧
      u = (match o with | none => [] | some x => x ++ b! "@") ∧ a = optActs .setUserinfo o) := by
    refine sound_mono (sound_opt (sound_seq (sound_act sound_userinfo _) (sound_ch _))) ?_
    rintro u a (⟨rfl, rfl⟩ | ⟨u1, u2, a1, a2, rfl, rfl, ⟨_, rfl, h, rfl⟩, rfl, rfl⟩)
    · exact ⟨none, by simp, rfl, rfl⟩
    · exact ⟨some u1, by simpa using h, rfl, rfl⟩
  have hp : Sound (opt PG.colonPort) (OptR (b! ":") .setPort Abnf.port) := by
    refine sound_mono (sound_opt (sound_seq (sound_ch _) (sound_act sound_port _))) ?_
    rintro u a (⟨rfl, rfl⟩ | ⟨u1, u2, a1, a2, rfl, rfl, ⟨rfl, rfl⟩, _, rfl, h, rfl⟩)
    · exact ⟨none, by simp, rfl, rfl⟩
    · exact ⟨some u2, by simpa using h, rfl, rfl⟩
  refine sound_mono (sound_seq (sound_seq hu (sound_act sound_host' _)) hp) ?_
  rintro u a ⟨_, _, _, _, rfl, rfl, ⟨_, hh, _, _, rfl, rfl, ⟨ui, h1, rfl, rfl⟩, _, rfl, h, rfl⟩, po, h2, rfl, rfl⟩
  refine ⟨⟨ui, hh, po⟩, ⟨⟨h1, h.1, h2⟩, h.2⟩, ?_, ?_⟩
  · cases ui <;> cases po <;> rfl
  · cases ui <;> cases po <;> rfl

theorem sound_optQ {p : PG.P} {L : Lang} (hp : Sound p (Plain L)) (c : UInt8) (x : Act) :
    Sound (opt (seq (PG.ch c) (act p x))) (OptR [c] x L) := by
  refine sound_mono (sound_opt (sound_seq (sound_ch _) (sound_act hp _))) ?_
  rintro u a (⟨rfl, rfl⟩ | ⟨u1, u2, a1, a2, rfl, rfl, ⟨rfl, rfl⟩, _, rfl, h, rfl⟩)
  · exact ⟨none, by simp, rfl, rfl⟩
  · exact ⟨some u2, by simpa using h, rfl, rfl⟩

/-- Some authority and path. -/
def PartRel (first : Lang) : Rel := fun u a => ∃ A p, PartR first u a A p

theorem sound_authAbempty (first) : Sound PG.authAbempty (PartRel first) := by
  refine sound_mono (sound_seq (sound_seq (sound_seq (sound_ch _) (sound_ch _)) sound_authority) (sound_slashes true)) ?_
  rintro u a ⟨_, _, _, _, rfl, rfl, ⟨_, _, _, _, rfl, rfl, ⟨_, _, _, _, rfl, rfl, ⟨rfl, rfl⟩, rfl, rfl⟩,
    A, hA, rfl, rfl⟩, gs, hgs, rfl, rfl⟩
  exact ⟨_, _, .abempty A gs hA.1 hA.2 hgs⟩

theorem sound_pathAbsolute (first) : Sound PG.pathAbsolute (PartRel first) := by
  refine sound_mono (sound_seq (sound_act (sound_ch _) _) (sound_opt (sound_seq (sound_act sound_segmentNzC _)
    (sound_slashes false)))) ?_
  rintro u a ⟨_, _, _, _, rfl, rfl, ⟨_, rfl, rfl, rfl⟩, (⟨rfl, rfl⟩ | ⟨g, _, _, _, rfl, rfl, ⟨_, rfl, hg, rfl⟩,
    gs, hgs, rfl, rfl⟩)⟩
  · exact ⟨_, _, .root⟩
  · refine ⟨none, ⟨true, g :: gs⟩, ?_⟩
    have := PartR.absolute (first := first) g gs hg hgs
    simpa using this

theorem sound_rootless {p : PG.P} {first : Lang} (hp : Sound p (Plain first)) :
    Sound (seq (act p .recordInitial) (star (PG.slashSegment false) 0 uintMax)) (PartRel first) := by
  refine sound_mono (sound_seq (sound_act hp _) (sound_slashes false)) ?_
  rintro u a ⟨g, _, _, _, rfl, rfl, ⟨_, rfl, hg, rfl⟩, gs, hgs, rfl, rfl⟩
  exact ⟨_, _, .rootless g gs hg hgs⟩

theorem sound_pathEmpty (first) : Sound PG.pathEmpty (PartRel first) := by
  refine sound_mono (sound_starPB sound_pchar 0 0 (by decide) (by decide)) ?_
  rintro u a ⟨⟨es, rfl, _, _, h⟩, rfl⟩
  have : es = [] := by simpa using h 0 rfl
  subst this
  exact ⟨_, _, .empty⟩

theorem sound_hierPart : Sound PG.hierPart (PartRel SegNzC) :=
  sound_alt_cons (sound_authAbempty _) (sound_alt_cons (sound_pathAbsolute _)
    (sound_alt_cons (sound_rootless sound_segmentNzC) (sound_alt_cons (sound_pathEmpty _) sound_alt_nil)))

theorem sound_relativePart : Sound PG.relativePart (PartRel SegNzNcC) :=
  sound_alt_cons (sound_authAbempty _) (sound_alt_cons (sound_pathAbsolute _)
    (sound_alt_cons (sound_rootless sound_segmentNzNcC) (sound_alt_cons (sound_pathEmpty _) sound_alt_nil)))

/-- `s` derived from `URI`, with the acceptors gathered. -/
def UriR (p : Parts Str) : Rel := fun s a => ∃ sch t pa, p.scheme = some sch ∧ Abnf.scheme sch ∧
  PartR SegNzC t pa p.authority p.path ∧
  (∀ q, p.query = some q → Abnf.query q) ∧ (∀ f, p.fragment = some f → Abnf.fragment f) ∧
  s = sch ++ b! ":" ++ t ++ Abnf.optText (b! "?") p.query ++ Abnf.optText (b! "#") p.fragment ∧
  a = [(Act.setScheme, sch)] ++ pa ++ optActs .setQuery p.query ++ optActs .setFragment p.fragment

/-- `s` derived from `relative-ref`, with the acceptors gathered. -/
def RelR (p : Parts Str) : Rel := fun s a => ∃ t pa, p.scheme = none ∧
  PartR SegNzNcC t pa p.authority p.path ∧
  (∀ q, p.query = some q → Abnf.query q) ∧ (∀ f, p.fragment = some f → Abnf.fragment f) ∧
  s = t ++ Abnf.optText (b! "?") p.query ++ Abnf.optText (b! "#") p.fragment ∧
  a = pa ++ optActs .setQuery p.query ++ optActs .setFragment p.fragment

theorem sound_URI : Sound PG.URI (fun u a => ∃ p, UriR p u a) := by
  refine sound_mono (sound_seq (sound_seq (sound_seq (sound_seq (sound_act sound_scheme _) (sound_ch _))
    sound_hierPart) (sound_optQ sound_query _ _)) (sound_optQ sound_query _ _)) ?_
  rintro u a ⟨_, _, _, _, rfl, rfl, ⟨_, _, _, _, rfl, rfl, ⟨_, t, _, pa, rfl, rfl, ⟨sch, _, _, _, rfl, rfl,
    ⟨_, rfl, hs, rfl⟩, rfl, rfl⟩, A, p, hp⟩, q, hq, rfl, rfl⟩, f, hf, rfl, rfl⟩
  exact ⟨⟨some sch, A, p, q, f⟩, sch, t, pa, rfl, hs, hp, hq, hf, rfl, by simp⟩

theorem sound_relativeRef : Sound PG.relativeRef (fun u a => ∃ p, RelR p u a) := by
  refine sound_mono (sound_seq (sound_seq sound_relativePart (sound_optQ sound_query _ _)) (sound_optQ sound_query _ _)) ?_
  rintro u a ⟨_, _, _, _, rfl, rfl, ⟨t, _, pa, _, rfl, rfl, ⟨A, p, hp⟩, q, hq, rfl, rfl⟩, f, hf, rfl, rfl⟩
  exact ⟨⟨none, A, p, q, f⟩, t, pa, rfl, hp, hq, hf, rfl, rfl⟩

theorem sound_URIReference : Sound PG.URIReference (fun u a => ∃ p, UriR p u a ∨ RelR p u a) :=
  sound_alt_cons (sound_mono sound_URI fun _ _ ⟨p, h⟩ => ⟨p, Or.inl h⟩)
    (sound_alt_cons (sound_mono sound_relativeRef fun _ _ ⟨p, h⟩ => ⟨p, Or.inr h⟩) sound_alt_nil)

theorem UriR.derives {p s a} (h : UriR p s a) : Abnf.URIDerives s p := by
  obtain ⟨sch, t, pa, h1, h2, h3, h4, h5, h6, -⟩ := h
  exact ⟨sch, t, h1, h2, h3.derives fun _ h => h.1, h4, h5, h6⟩

theorem RelR.derives {p s a} (h : RelR p s a) : Abnf.RelativeDerives s p := by
  obtain ⟨t, pa, h1, h3, h4, h5, h6, -⟩ := h
  exact ⟨t, h1, h3.derives fun _ h => h.1, h4, h5, h6⟩

theorem UriR.hostOk {p s a} (h : UriR p s a) : Abnf.HostOk p := by
  obtain ⟨sch, t, pa, h1, h2, h3, h4, h5, h6, -⟩ := h
  exact h3.hostOk

theorem RelR.hostOk {p s a} (h : RelR p s a) : Abnf.HostOk p := by
  obtain ⟨t, pa, h1, h3, h4, h5, h6, -⟩ := h
  exact h3.hostOk

theorem UriR.counted {p s a} (h : UriR p s a) : Abnf.PathCounted p := by
  obtain ⟨sch, t, pa, h1, h2, h3, h4, h5, h6, -⟩ := h
  exact h3.counted fun _ h => h.2

theorem RelR.counted {p s a} (h : RelR p s a) : Abnf.PathCounted p := by
  obtain ⟨t, pa, h1, h3, h4, h5, h6, -⟩ := h
  exact h3.counted fun _ h => h.2

theorem UriR.ofDerives {p s} (h : Abnf.URIDerives s p) (ho : Abnf.HostOk p) (hc : Abnf.PathCounted p) : ∃ a, UriR p s a := by
  obtain ⟨sch, t, h1, h2, h3, h4, h5, h6⟩ := h
  obtain ⟨pa, h3⟩ := PartR.ofDerives (fun _ h => nz_ne h) h3 ho hc
  exact ⟨_, sch, t, pa, h1, h2, h3, h4, h5, h6, rfl⟩

theorem RelR.ofDerives {p s} (h : Abnf.RelativeDerives s p) (ho : Abnf.HostOk p) (hc : Abnf.PathCounted p) : ∃ a, RelR p s a := by
  obtain ⟨t, h1, h3, h4, h5, h6⟩ := h
  obtain ⟨pa, h3⟩ := PartR.ofDerives (fun _ h => nznc_ne h) h3 ho hc
  exact ⟨_, t, pa, h1, h3, h4, h5, h6, rfl⟩

/-! ### Running the acceptors on text -/

/-- `runAct` at the level of text. -/
def runT (p : Parts Str) (x : Act × Str) : Option (Parts Str) :=
  match x.1 with
  | .setScheme => some { p with scheme := some x.2 }
  | .setUserinfo => some { p with authority := some { p.authority.getD ⟨none, [], none⟩ with userinfo := some x.2 } }
  | .setHost => some { p with authority := some { p.authority.getD ⟨none, [], none⟩ with host := x.2 } }
  | .setPort => some { p with authority := some { p.authority.getD ⟨none, [], none⟩ with port := some x.2 } }
  | .appendDir b => some { p with path := ⟨if b then true else p.path.absolute, p.path.segments ++ [[]]⟩ }
  | .appendSegment =>
      match p.path.segments with
      | [] => none
      | g :: gs => some { p with path := { p.path with segments := (g :: gs).dropLast ++ [x.2] } }
  | .recordInitial => some { p with path := { p.path with segments := p.path.segments ++ [x.2] } }
  | .setQuery => some { p with query := some x.2 }
  | .setFragment => some { p with fragment := some x.2 }

/-- A list of acceptors. -/
def runs : Acts → Parts Str → Option (Parts Str)
  | [], p => some p
  | x :: xs, p => match runT p x with
      | none => none
      | some q => runs xs q

theorem runs_append (a b : Acts) (p : Parts Str) : runs (a ++ b) p = (runs a p).bind (runs b) := by
  induction a generalizing p with
  | nil => rfl
  | cons x a ih =>
    simp only [List.cons_append, runs]
    cases runT p x with
    | none => rfl
    | some q => exact ih q

theorem runT_text (p : Parts SV) (a : Act) (s : SV) :
    match runAct p a s with
    | .ok q => runT p.text (a, s.chars) = some q.text
    | .error f => f = .emptyBack ∧ runT p.text (a, s.chars) = none := by
  obtain ⟨sch, au, ⟨ab, segs⟩, q, f⟩ := p
  cases a <;> simp only [runAct, runT, Parts.text, Parts.map, Option.map_some]
  · cases au <;> rfl
  · cases au <;> rfl
  · cases au <;> rfl
  · simp [Path.map, SV.null]
  · cases segs with
    | nil => simp [Path.map]
    | cons g gs => simp [Path.map, List.map_dropLast]
  · simp [Path.map]

theorem runs_text (acc : Acceptors Act) (p : Parts SV) :
    match acc.foldlM (fun s a => runAct s a.1 a.2) p with
    | .ok q => runs (content acc) p.text = some q.text
    | .error f => f = .emptyBack ∧ runs (content acc) p.text = none := by
  induction acc generalizing p with
  | nil => simp [pure, Except.pure, runs]
  | cons x acc ih =>
    simp only [List.foldlM_cons, bind, Except.bind, content_cons, runs]
    have := runT_text p x.1 x.2
    revert this
    cases runAct p x.1 x.2 with
    | error f => intro this; simp only at this ⊢; simp [this]
    | ok q => intro this; simp only at this ⊢; simp only [this]; exact ih q

theorem runs_authActs (A : Authority Str) (p : Parts Str) (h : p.authority = none) :
    runs (authActs A) p = some { p with authority := some A } := by
  obtain ⟨u, hh, po⟩ := A
  cases u <;> cases po <;> simp [authActs, runs, runT, h]

theorem runs_slashActs (b : Bool) (gs : List Str) (p : Parts Str) :
    runs (slashActs b gs) p = some { p with path :=
      ⟨if b && !gs.isEmpty then true else p.path.absolute, p.path.segments ++ gs⟩ } := by
  induction gs generalizing p with
  | nil => simp [slashActs, runs]
  | cons g gs ih =>
    have e : slashActs b (g :: gs) = [(Act.appendDir b, b! "/"), (Act.appendSegment, g)] ++ slashActs b gs := rfl
    rw [e, runs_append]
    have e2 : runs [(Act.appendDir b, b! "/"), (Act.appendSegment, g)] p =
        some { p with path := ⟨if b then true else p.path.absolute, p.path.segments ++ [g]⟩ } := by
      obtain ⟨sch, au, ⟨ab, segs⟩, q, f⟩ := p
      cases segs with
      | nil => simp [runs, runT]
      | cons x xs => simp [runs, runT, List.dropLast_cons_of_ne_nil]
    rw [e2]
    simp only [Option.bind_some, ih]
    cases b <;> simp

theorem runs_part {first t pa A pth} (h : PartR first t pa A pth) (p : Parts Str)
    (h1 : p.authority = none) (h2 : p.path = ⟨false, []⟩) :
    runs pa p = some { p with authority := A, path := pth } := by
  obtain ⟨sch, au, pt, q, f⟩ := p
  simp only at h1 h2
  subst h1 h2
  cases h with
  | abempty a gs _ _ _ =>
    rw [runs_append, runs_authActs _ _ rfl]
    simp only [Option.bind_some, runs_slashActs]
    cases gs <;> simp
  | root => rfl
  | absolute g gs _ _ =>
    rw [← List.append_assoc, runs_append]
    have : runs ([(.appendDir true, b! "/")] ++ [(.appendSegment, g)])
      (⟨sch, none, ⟨false, []⟩, q, f⟩ : Parts Str) = some ⟨sch, none, ⟨true, [g]⟩, q, f⟩ := rfl
    rw [this]
    simp [runs_slashActs]
  | rootless g gs _ _ =>
    rw [runs_append]
    have : runs [(.recordInitial, g)] (⟨sch, none, ⟨false, []⟩, q, f⟩ : Parts Str) =
      some ⟨sch, none, ⟨false, [g]⟩, q, f⟩ := rfl
    rw [this]
    simp [runs_slashActs]
  | empty => rfl

theorem runs_opt (q : Option Str) (p : Parts Str) (h : p.query = none) :
    runs (optActs .setQuery q) p = some { p with query := q } := by
  cases q <;> simp [optActs, runs, runT, ← h]

theorem runs_optF (q : Option Str) (p : Parts Str) (h : p.fragment = none) :
    runs (optActs .setFragment q) p = some { p with fragment := q } := by
  cases q <;> simp [optActs, runs, runT, ← h]

theorem runs_UriR {p s a} (h : UriR p s a) : runs a Parts.init = some p := by
  obtain ⟨sch, t, pa, h1, h2, h3, h4, h5, h6, rfl⟩ := h
  obtain ⟨sc, au, pt, q, f⟩ := p
  simp only at h1 h3
  subst h1
  simp only [runs_append]
  have : runs [(Act.setScheme, sch)] Parts.init = some { (Parts.init : Parts Str) with scheme := some sch } := rfl
  rw [this]
  simp only [Option.bind_some]
  rw [runs_part h3 _ rfl rfl]
  simp only [Option.bind_some]
  rw [runs_opt _ _ rfl]
  simp only [Option.bind_some]
  rw [runs_optF _ _ rfl]

theorem runs_RelR {p s a} (h : RelR p s a) : runs a Parts.init = some p := by
  obtain ⟨t, pa, h1, h3, h4, h5, h6, rfl⟩ := h
  obtain ⟨sc, au, pt, q, f⟩ := p
  simp only at h1 h3
  subst h1
  simp only [runs_append]
  rw [runs_part h3 _ rfl rfl]
  simp only [Option.bind_some]
  rw [runs_opt _ _ rfl]
  simp only [Option.bind_some]
  rw [runs_optF _ _ rfl]
  rfl

/-! ### From the pure level to `split` -/

/-- The outcome of running a grammar on a view, in terms of the pure function. -/
theorem runGrammar_spec {pl : Plat} {m : Matcher Act} {p : PG.P} (h : Denotes pl m p) (sv : SV) :
    match runGrammar m sv with
    | .error f => (f = .ctype ∧ Unsafe pl sv.chars) ∨
        (f = .emptyBack ∧ ∃ a, p sv.chars = some (sv.chars, a, []) ∧ runs a Parts.init = none)
    | .ok none => ∀ a, p sv.chars ≠ some (sv.chars, a, [])
    | .ok (some q) => ∃ acc : Acceptors Act, p sv.chars = some (sv.chars, content acc, []) ∧
        runs (content acc) Parts.init = some q.text ∧ (∀ a ∈ acc, Within a.2 sv) ∧
        acc.foldlM (fun s a => runAct s a.1 a.2) Parts.init = .ok q := by
  have h1 := (step_concat h).1 [] sv
  simp only [runGrammar, bind, Except.bind, Rule.ofSV]
  cases hx : Rule.concat m ⟨some sv, []⟩ with
  | error f => rw [hx] at h1; exact Or.inl h1
  | ok r =>
    rw [hx] at h1
    simp only [AgreeStep] at h1
    cases hp : p sv.chars with
    | none => rw [hp] at h1; simp only at h1; simp [Rule.done, h1]
    | some y =>
      obtain ⟨u, acts, v⟩ := y
      rw [hp] at h1
      obtain ⟨hc, ht, acc', ha, hco, hw⟩ := h1
      simp only [List.nil_append] at ha
      simp only [Rule.done, ht]
      cases v with
      | cons c v =>
        simp
      | nil =>
        simp only [List.append_nil] at hc
        rw [ha]
        have := runs_text acc' Parts.init
        have hi : (Parts.init : Parts SV).text = Parts.init := rfl
        rw [hi] at this
        subst hco
        subst hc
        simp only [bind, Except.bind]
        revert this
        cases hf : List.foldlM (fun s a => runAct s a.1 a.2) (Parts.init : Parts SV) acc' with
        | error f => intro this; right; exact ⟨this.1, _, rfl, this.2⟩
        | ok q => intro this; exact ⟨acc', rfl, this, hw, hf⟩

end Verif
