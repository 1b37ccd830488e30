import Verif.Proofs.SoundUri

/-!
# Completeness of the rules from `authority` up
-/

namespace Verif
open Peg

set_option linter.unusedSimpArgs false

/-- What may follow a segment. -/
def SegFollow (v : Str) : Prop := ∀ c, v.head? = some c → c = 0x2F ∨ c = 0x3F ∨ c = 0x23
/-- What may follow a path. -/
def PathFollow (v : Str) : Prop := ∀ c, v.head? = some c → c = 0x3F ∨ c = 0x23
/-- What may follow a query. -/
def QueryFollow (v : Str) : Prop := ∀ c, v.head? = some c → c = 0x23

theorem PathFollow.seg {v} (h : PathFollow v) : SegFollow v := fun c hc => Or.inr (h c hc)
theorem SegFollow.host {v} (h : SegFollow v) : HostFollow v := fun c hc => Or.inr (h c hc)

theorem SegFollow.not {v : Str} (h : SegFollow v) (f : UInt8 → Bool)
    (hf : (f 0x2F || f 0x3F || f 0x23) = false) : NotHead f v := by
  intro c hc
  simp only [Bool.or_eq_false_iff] at hf
  rcases h c hc with rfl | rfl | rfl
  · exact hf.1.1
  · exact hf.1.2
  · exact hf.2
theorem PathFollow.not {v : Str} (h : PathFollow v) (f : UInt8 → Bool)
    (hf : (f 0x3F || f 0x23) = false) : NotHead f v := by
  intro c hc
  simp only [Bool.or_eq_false_iff] at hf
  rcases h c hc with rfl | rfl
  · exact hf.1
  · exact hf.2
theorem QueryFollow.not {v : Str} (h : QueryFollow v) (f : UInt8 → Bool)
    (hf : f 0x23 = false) : NotHead f v := by
  intro c hc
  rw [h c hc]; exact hf

theorem segment_complete (m : Nat) {u v : Str} (hu : Abnf.rep m none Abnf.pchar u) (hv : SegFollow v)
    (hm : m ≤ Abnf.units u % uintMod) : star PG.pchar m uintMax (u ++ v) = some (u, [], v) := by
  rw [pchar_eq]
  exact complete_rep_elem pchar_elem (by decide) m hu (hv.not _ (by decide)) hm

theorem segmentNz_none {v : Str} (hv : NotHead isSegChar v) : PG.segmentNz v = none := by
  have : PG.pchar v = none := by
    rw [pchar_eq]
    apply elemP_none_of_head
    intro c hc
    simpa [isSegChar] using hv c hc
  simp only [PG.segmentNz, Peg.star, starLoop, this]
  simp

theorem segmentNzNc_none {v : Str} (hv : NotHead isSegNcChar v) : PG.segmentNzNc v = none := by
  have : PG.segmentNzNcElem v = none := by
    rw [segmentNzNcElem_eq]
    apply elemP_none_of_head
    intro c hc
    simpa [isSegNcChar] using hv c hc
  simp only [PG.segmentNzNc, Peg.star, starLoop, this]
  simp

theorem slashSegment_complete (b : Bool) {g v : Str} (hg : Abnf.segment g) (hv : SegFollow v) :
    PG.slashSegment b (b! "/" ++ g ++ v) =
      some (b! "/" ++ g, [(Act.appendDir b, b! "/"), (Act.appendSegment, g)], v) :=
  seq_some (act_some _ (ch_some 0x2F (g ++ v))) (act_some _ (segment_complete 0 hg hv (Nat.zero_le _)))

theorem slashes_follow {gs : List Str} {v : Str} (hv : PathFollow v) : SegFollow (Abnf.slashes gs ++ v) := by
  cases gs with
  | nil => simpa [Abnf.slashes] using hv.seg
  | cons g gs => intro c hc; simp [Abnf.slashes] at hc; exact Or.inl hc.symm

theorem slashes_complete (b : Bool) {gs : List Str} {v : Str} (hgs : ∀ g ∈ gs, Abnf.segment g) (hv : PathFollow v) :
    star (PG.slashSegment b) 0 uintMax (Abnf.slashes gs ++ v) = some (Abnf.slashes gs, slashActs b gs, v) := by
  let R : Rel := fun u a => ∃ g, Abnf.segment g ∧ u = b! "/" ++ g ∧
    a = [(Act.appendDir b, b! "/"), (Act.appendSegment, g)]
  have hc : Complete (PG.slashSegment b) R SegFollow := by
    rintro u a v ⟨g, hg, rfl, rfl⟩ hv
    exact slashSegment_complete b hg hv
  have := complete_star_listU hc 0 (by rintro u a ⟨g, -, rfl, -⟩; simp) v
    (gs.map fun g => (b! "/" ++ g, [(Act.appendDir b, b! "/"), (Act.appendSegment, g)]))
    (by
      intro e he
      obtain ⟨g, hg, rfl⟩ := List.mem_map.1 he
      exact ⟨g, hgs g hg, rfl, rfl⟩)
    (by
      intro es1 e es2 he
      have : ∃ gs', (es2.map Prod.fst).flatten = Abnf.slashes gs' := by
        obtain ⟨l1, l2, h1, h2, h3⟩ := List.map_eq_append_iff.1 he
        obtain ⟨x, l3, h4, h5, h6⟩ := List.map_eq_cons_iff.1 h3
        refine ⟨l3, ?_⟩
        rw [← h6]; simp [Abnf.slashes, Function.comp_def]
      obtain ⟨gs', e'⟩ := this
      rw [e']; exact slashes_follow hv)
    (Nat.zero_le _)
    (by
      refine seq_none_l (act_none _ (ch_none ?_))
      intro e
      have := hv _ e
      revert this; decide)
  have e1 : ((gs.map fun g => ((b! "/" ++ g, [(Act.appendDir b, b! "/"), (Act.appendSegment, g)]) :
      Str × List (Act × Str))).map Prod.fst).flatten = Abnf.slashes gs := by
    simp [Abnf.slashes, Function.comp_def]
  have e2 : ((gs.map fun g => ((b! "/" ++ g, [(Act.appendDir b, b! "/"), (Act.appendSegment, g)]) :
      Str × List (Act × Str))).map Prod.snd).flatten = slashActs b gs := by
    simp [slashActs, Function.comp_def]
  rw [e1, e2] at this
  exact this

theorem optQ_complete {p : PG.P} {c : UInt8} {x : Act} {o : Option Str} {v : Str}
    (hp : ∀ t, o = some t → p (t ++ v) = some (t, [], v)) (hv : o = none → v.head? ≠ some c) :
    opt (seq (PG.ch c) (act p x)) (Abnf.optText [c] o ++ v) = some (Abnf.optText [c] o, optActs x o, v) := by
  cases o with
  | none => exact opt_none (seq_none_l (ch_none (hv rfl)))
  | some t => exact opt_some (seq_some (ch_some c (t ++ v)) (act_some x (hp t rfl)))

theorem optText_cons (c : UInt8) (o : Option Str) (v : Str) :
    (o = none ∧ Abnf.optText [c] o ++ v = v) ∨ ∃ t, Abnf.optText [c] o ++ v = c :: t := by
  cases o with
  | none => exact Or.inl ⟨rfl, rfl⟩
  | some t => exact Or.inr ⟨t ++ v, rfl⟩

theorem authority_complete {A : Authority Str} {v : Str} (hA : Abnf.AuthorityOk A)
    (hh : Abnf.HostAccepted A.host) (hv : SegFollow v) :
    PG.authority (Abnf.authorityText A ++ v) = some (Abnf.authorityText A, authActs A, v) := by
  obtain ⟨ui, h, po⟩ := A
  obtain ⟨hu, hH, hp⟩ := hA
  simp only at hu hH hp hh
  have hpl : ∀ t, po = some t → PG.port (t ++ v) = some (t, [], v) := by
    rintro t rfl
    refine complete_rep_cls DIGIT_cls 0 (hp t rfl) (hv.not _ (by decide)) (Nat.zero_le _)
  have hport := optQ_complete (c := 0x3A) (x := .setPort) (v := v) hpl
    (by intro _ e; have := hv _ e; revert this; decide)
  have hhost : PG.host (h ++ (Abnf.optText (b! ":") po ++ v)) = some (h, [], Abnf.optText (b! ":") po ++ v) := by
    refine host_complete hh ?_
    rcases optText_cons 0x3A po v with ⟨-, e⟩ | ⟨t, e⟩
    · rw [e]; exact hv.host
    · rw [e]; intro c hc; simp at hc; exact Or.inl hc.symm
  cases ui with
  | some u =>
    have h1 : PG.userinfo (u ++ (0x40 :: (h ++ (Abnf.optText (b! ":") po ++ v)))) =
        some (u, [], 0x40 :: (h ++ (Abnf.optText (b! ":") po ++ v))) := by
      rw [PG.userinfo, userinfoElem_eq]
      exact complete_rep_elem user_elem (by decide) 0 (hu u rfl) (notHead_cons.2 (by decide))
        (Nat.zero_le _)
    have := seq_some (seq_some (opt_some (seq_some (act_some .setUserinfo h1)
      (ch_some 0x40 (h ++ (Abnf.optText (b! ":") po ++ v))))) (act_some .setHost hhost)) hport
    have e1 : Abnf.authorityText ⟨some u, h, po⟩ ++ v = u ++ (0x40 :: (h ++ (Abnf.optText (b! ":") po ++ v))) := by
      cases po <;> simp [Abnf.authorityText, Abnf.optText]
    rw [e1]
    refine Eq.trans this ?_
    cases po <;> simp [Abnf.authorityText, Abnf.optText, authActs, optActs]
  | none =>
    have h1 : PG.userinfoAt (h ++ (Abnf.optText (b! ":") po ++ v)) = none := by
      cases hq : PG.userinfoAt (h ++ (Abnf.optText (b! ":") po ++ v)) with
      | none => rfl
      | some y =>
        exfalso
        obtain ⟨x, a, r⟩ := y
        obtain ⟨e, u1, u2, a1, a2, rfl, -, ⟨a3, -, hx, -⟩, rfl, -⟩ :=
          sound_seq (sound_act sound_userinfo .setUserinfo) (sound_ch 0x40) _ _ _ _ hq
        rw [← List.append_assoc, List.append_assoc u1] at e
        refine no_delim (c := 0x40) (f := isUserinfoChar) ?_ ?_ (only_userinfo _ hx) e
        · intro hm
          rcases List.mem_append.1 hm with hm | hm
          · have := only_host _ hH _ hm; revert this; decide
          · cases po with
            | none => simp [Abnf.optText] at hm
            | some t =>
              simp [Abnf.optText] at hm
              have := only_port _ (hp t rfl) _ hm
              revert this; decide
        · intro d hd
          rcases hv d hd with rfl | rfl | rfl <;> decide
    have := seq_some (seq_some (opt_none h1) (act_some .setHost hhost)) hport
    have e1 : Abnf.authorityText ⟨none, h, po⟩ ++ v = h ++ (Abnf.optText (b! ":") po ++ v) := by
      cases po <;> simp [Abnf.authorityText, Abnf.optText]
    rw [e1]
    refine Eq.trans this ?_
    cases po <;> simp [Abnf.authorityText, Abnf.optText, authActs, optActs]

theorem pathEmpty_eq (v : Str) : PG.pathEmpty v = some ([], [], v) := star_zero _ _

/-- `hier-part` and `relative-part` differ in the first segment of a rootless path. -/
theorem part_complete {first : Lang} {fp : PG.P} {ff : UInt8 → Bool}
    (hfp : ∀ u v, first u → SegFollow v → fp (u ++ v) = some (u, [], v))
    (hnone : ∀ v, NotHead ff v → fp v = none) (hff : (ff 0x3F || ff 0x23) = false)
    (hne : ∀ u, first u → ∃ c t, u = c :: t ∧ isSegChar c = true)
    {t pa A p v} (h : PartR first t pa A p) (hv : PathFollow v) :
    alt [PG.authAbempty, PG.pathAbsolute, seq (act fp .recordInitial) (star (PG.slashSegment false) 0 uintMax),
      PG.pathEmpty] (t ++ v) = some (t, pa, v) := by
  cases h with
  | abempty a gs hA hH hgs =>
    have := seq_some (seq_some (seq_some (ch_some 0x2F (0x2F :: (Abnf.authorityText a ++ (Abnf.slashes gs ++ v))))
      (ch_some 0x2F _)) (authority_complete hA hH (slashes_follow (gs := gs) hv)))
      (slashes_complete true hgs hv)
    refine alt_hd ?_
    have e : b! "//" ++ Abnf.authorityText a ++ Abnf.slashes gs ++ v =
      0x2F :: 0x2F :: (Abnf.authorityText a ++ (Abnf.slashes gs ++ v)) := by simp
    rw [e]
    refine Eq.trans this ?_
    simp
  | root =>
    have hv2 : v.head? ≠ some 0x2F := by intro e; have := hv _ e; revert this; decide
    have h1 : PG.authAbempty (b! "/" ++ v) = none :=
      seq_none_l (seq_none_l (seq_none_r (ch_some 0x2F v) (ch_none hv2)))
    rw [alt_tl h1]
    refine alt_hd ?_
    have hn : PG.pathAbsoluteTail v = none :=
      seq_none_l (act_none _ (segmentNz_none (hv.not _ (by decide))))
    exact seq_some (act_some (.appendDir true) (ch_some 0x2F v)) (opt_none hn)
  | absolute g gs hg hgs =>
    obtain ⟨c, t, rfl, hc⟩ : ∃ c t, g = c :: t ∧ isSegChar c = true := by
      cases g with
      | nil =>
        obtain ⟨es, e, he, h1, -⟩ := hg.1
        cases es with
        | nil => simp at h1
        | cons x es =>
          have := elemL_ne ((pchar_elem x).1 (he x (by simp)))
          simp at e; exact absurd e.1 this
      | cons c t => exact ⟨c, t, rfl, only_segmentNz _ hg.1 c (by simp)⟩
    have hc2 : c ≠ 0x2F := by rintro rfl; revert hc; decide
    have e : b! "/" ++ (c :: t) ++ Abnf.slashes gs ++ v = 0x2F :: (c :: t ++ (Abnf.slashes gs ++ v)) := by simp
    rw [e]
    have h1 : PG.authAbempty (0x2F :: (c :: t ++ (Abnf.slashes gs ++ v))) = none :=
      seq_none_l (seq_none_l (seq_none_r (ch_some 0x2F _) (ch_none (by simpa using hc2))))
    rw [alt_tl h1]
    refine alt_hd ?_
    have := seq_some (act_some (.appendDir true) (ch_some 0x2F (c :: t ++ (Abnf.slashes gs ++ v))))
      (opt_some (seq_some (act_some .appendSegment (segment_complete 1 hg.1 (slashes_follow (gs := gs) hv) (by have := hg.2; simp only [uintMod]; omega)))
        (slashes_complete false hgs hv)))
    refine Eq.trans this ?_
    simp
  | rootless g gs hg hgs =>
    obtain ⟨c, t, rfl, hc⟩ := hne g hg
    have hc2 : c ≠ 0x2F := by rintro rfl; revert hc; decide
    have e : (c :: t) ++ Abnf.slashes gs ++ v = (c :: t) ++ (Abnf.slashes gs ++ v) := by simp
    rw [e]
    have h1 : PG.authAbempty ((c :: t) ++ (Abnf.slashes gs ++ v)) = none :=
      seq_none_l (seq_none_l (seq_none_l (ch_none (by simpa using hc2))))
    have h2 : PG.pathAbsolute ((c :: t) ++ (Abnf.slashes gs ++ v)) = none :=
      seq_none_l (act_none _ (ch_none (by simpa using hc2)))
    rw [alt_tl h1, alt_tl h2]
    refine alt_hd ?_
    exact seq_some (act_some .recordInitial (hfp _ _ hg (slashes_follow (gs := gs) hv)))
      (slashes_complete false hgs hv)
  | empty =>
    have hv2 : v.head? ≠ some 0x2F := by intro e; have := hv _ e; revert this; decide
    have h1 : PG.authAbempty v = none := seq_none_l (seq_none_l (seq_none_l (ch_none hv2)))
    have h2 : PG.pathAbsolute v = none := seq_none_l (act_none _ (ch_none hv2))
    have h3 : seq (act fp .recordInitial) (star (PG.slashSegment false) 0 uintMax) v = none :=
      seq_none_l (act_none _ (hnone v (hv.not _ hff)))
    show alt [PG.authAbempty, PG.pathAbsolute, seq (act fp .recordInitial) (star (PG.slashSegment false) 0 uintMax),
      PG.pathEmpty] v = _
    rw [alt_tl h1, alt_tl h2, alt_tl h3]
    exact alt_hd (pathEmpty_eq v)

theorem rep1_head {L : Lang} {u : Str} (hne : ∀ u, L u → u ≠ []) (h : Abnf.many1 L u) : ∃ c t, u = c :: t := by
  obtain ⟨es, rfl, he, h1, -⟩ := h
  cases es with
  | nil => simp at h1
  | cons x es =>
    have := hne x (he x (by simp))
    cases x with
    | nil => exact absurd rfl this
    | cons c t => exact ⟨c, _, rfl⟩

theorem hierPart_complete {t pa A p v} (h : PartR SegNzC t pa A p) (hv : PathFollow v) : PG.hierPart (t ++ v) = some (t, pa, v) := by
  refine part_complete (fp := PG.segmentNz) (ff := isSegChar) ?_ ?_ (by decide) ?_ h hv
  · intro u v hu hv; exact segment_complete 1 hu.1 hv (by have := hu.2; simp only [uintMod]; omega)
  · intro v hv; exact segmentNz_none hv
  · intro u hu
    obtain ⟨c, t, rfl⟩ := rep1_head (fun u hu => elemL_ne ((pchar_elem u).1 hu)) hu.1
    exact ⟨c, t, rfl, only_segmentNz _ hu.1 c (by simp)⟩

theorem relativePart_complete {t pa A p v} (h : PartR SegNzNcC t pa A p) (hv : PathFollow v) : PG.relativePart (t ++ v) = some (t, pa, v) := by
  refine part_complete (fp := PG.segmentNzNc) (ff := isSegNcChar) ?_ ?_ (by decide) ?_ h hv
  · intro u v hu hv
    rw [PG.segmentNzNc, segmentNzNcElem_eq]
    exact complete_rep_elem nc_elem (by decide) 1 hu.1 (hv.not _ (by decide)) (by have := hu.2; simp only [uintMod]; omega)
  · intro v hv; exact segmentNzNc_none hv
  · intro u hu
    obtain ⟨c, t, rfl⟩ := rep1_head (fun u hu => elemL_ne ((nc_elem u).1 hu)) hu.1
    exact ⟨c, t, rfl, only_mono only_segmentNzNc (g := isSegChar) (by byte_tac) _ hu.1 c (by simp)⟩

theorem query_complete {u v : Str} (hu : Abnf.query u) (hv : QueryFollow v) :
    PG.query (u ++ v) = some (u, [], v) := by
  rw [PG.query, queryElem_eq]
  exact complete_rep_elem query_elem (by decide) 0 hu (hv.not _ (by decide)) (Nat.zero_le _)

theorem fragment_follow (f : Option Str) : QueryFollow (Abnf.optText (b! "#") f) := by
  intro c hc
  cases f with
  | none => simp [Abnf.optText] at hc
  | some t => simp [Abnf.optText] at hc; exact hc.symm

theorem tail_follow (q f : Option Str) : PathFollow (Abnf.optText (b! "?") q ++ Abnf.optText (b! "#") f) := by
  intro c hc
  cases q with
  | none => simp only [Abnf.optText, List.nil_append] at hc; exact Or.inr (fragment_follow f c hc)
  | some t => simp [Abnf.optText] at hc; exact Or.inl hc.symm

theorem tail_complete {p : PG.P} {s : Str} {t pa : _} {q f : Option Str}
    (hq : ∀ x, q = some x → Abnf.query x) (hf : ∀ x, f = some x → Abnf.fragment x)
    (hp : p s = some (t, pa, Abnf.optText (b! "?") q ++ Abnf.optText (b! "#") f)) :
    seq (seq p (opt PG.questionQuery)) (opt PG.hashFragment) s =
      some (t ++ Abnf.optText (b! "?") q ++ Abnf.optText (b! "#") f, pa ++ optActs .setQuery q ++ optActs .setFragment f, []) := by
  have h1 : opt PG.questionQuery (Abnf.optText (b! "?") q ++ Abnf.optText (b! "#") f) =
      some (Abnf.optText (b! "?") q, optActs .setQuery q, Abnf.optText (b! "#") f) := by
    refine optQ_complete ?_ ?_
    · rintro x rfl
      exact query_complete (hq x rfl) (fragment_follow f)
    · rintro - e
      have := fragment_follow f _ e
      revert this; decide
  have h2 : opt PG.hashFragment (Abnf.optText (b! "#") f) = some (Abnf.optText (b! "#") f, optActs .setFragment f, []) := by
    have := optQ_complete (p := PG.query) (c := 0x23) (x := .setFragment) (o := f) (v := []) (by
      rintro x rfl
      exact query_complete (hf x rfl) (by simp [QueryFollow])) (by simp)
    rw [List.append_nil] at this
    exact this
  exact seq_some (seq_some hp h1) h2

theorem URI_complete {p s a} (h : UriR p s a) : PG.URI s = some (s, a, []) := by
  obtain ⟨sch, t, pa, h1, h2, h3, h4, h5, rfl, rfl⟩ := h
  obtain ⟨x, y, rfl, hx, hy⟩ := h2
  obtain ⟨c, rfl, hc⟩ := (ALPHA_cls x).1 hx
  let w := Abnf.optText (b! "?") p.query ++ Abnf.optText (b! "#") p.fragment
  have e1 : PG.scheme ([c] ++ y ++ (0x3A :: (t ++ w))) = some ([c] ++ y, [], 0x3A :: (t ++ w)) := by
    rw [PG.scheme, schemeElem_eq]
    exact seq_some (chr_some _ hc) (complete_rep_cls scheme_cls 0 hy (notHead_cons.2 (by decide)) (Nat.zero_le _))
  have e2 := seq_some (seq_some (act_some .setScheme e1) (ch_some 0x3A (t ++ w)))
    (hierPart_complete h3 (tail_follow p.query p.fragment))
  have e3 := tail_complete h4 h5 e2
  have e : [c] ++ y ++ b! ":" ++ t ++ Abnf.optText (b! "?") p.query ++ Abnf.optText (b! "#") p.fragment =
    [c] ++ y ++ (0x3A :: (t ++ w)) := by simp [w]
  rw [e]
  refine Eq.trans e3 ?_
  simp [w]

theorem relativeRef_complete {p s a} (h : RelR p s a) :
    PG.relativeRef s = some (s, a, []) := by
  obtain ⟨t, pa, h1, h3, h4, h5, rfl, rfl⟩ := h
  have e2 := relativePart_complete h3 (tail_follow p.query p.fragment)
  have e3 := tail_complete h4 h5 e2
  rw [List.append_assoc]
  refine Eq.trans e3 ?_
  simp

/-- A relative reference is not a URI. -/
theorem URI_none_of_relative {p s a} (h : RelR p s a) : PG.URI s = none := by
  obtain ⟨t, pa, h1, h3, h4, h5, rfl, -⟩ := h
  rw [List.append_assoc]
  have key : seq (act PG.scheme .setScheme) (PG.ch 0x3A)
      (t ++ (Abnf.optText (b! "?") p.query ++ Abnf.optText (b! "#") p.fragment)) = none := by
    have tf := tail_follow p.query p.fragment
    generalize Abnf.optText (b! "?") p.query ++ Abnf.optText (b! "#") p.fragment = v at tf
    have slash : ∀ w : Str, seq (act PG.scheme .setScheme) (PG.ch 0x3A) (0x2F :: w) = none := by
      intro w
      refine seq_none_l (act_none _ (seq_none_l (chr_none (notHead_cons.2 (by decide)))))
    cases hq : seq (act PG.scheme .setScheme) (PG.ch 0x3A) (t ++ v) with
    | none => rfl
    | some y =>
      exfalso
      obtain ⟨x, a, r⟩ := y
      obtain ⟨e, u1, u2, a1, a2, rfl, -, ⟨a3, -, hx, -⟩, rfl, -⟩ :=
        sound_seq (sound_act sound_scheme .setScheme) (sound_ch 0x3A) _ _ _ _ hq
      rw [List.append_assoc u1] at e
      generalize p.authority = pA at h3
      generalize p.path = pP at h3
      cases h3 with
      | abempty a gs _ _ _ => simp only [List.append_assoc] at hq; have := slash (0x2F :: (Abnf.authorityText a ++ (Abnf.slashes gs ++ v))); rw [show (b! "//" : Str) ++ (Abnf.authorityText a ++ (Abnf.slashes gs ++ v)) = 0x2F :: (0x2F :: (Abnf.authorityText a ++ (Abnf.slashes gs ++ v))) from rfl, this] at hq; simp at hq
      | root => have := slash v; rw [show (b! "/" : Str) ++ v = 0x2F :: v from rfl, this] at hq; simp at hq
      | absolute g gs _ _ => simp only [List.append_assoc] at hq; have := slash (g ++ (Abnf.slashes gs ++ v)); rw [show (b! "/" : Str) ++ (g ++ (Abnf.slashes gs ++ v)) = 0x2F :: (g ++ (Abnf.slashes gs ++ v)) from rfl, this] at hq; simp at hq
      | rootless g gs hg _ =>
        rw [List.append_assoc] at e
        refine no_delim (c := 0x3A) (f := isSchemeChar) ?_ ?_ (only_scheme _ hx) e
        · intro hm
          have := only_segmentNzNc _ hg.1 _ hm
          revert this; decide
        · intro d hd
          rcases slashes_follow tf d hd with rfl | rfl | rfl <;> decide
      | empty =>
        refine no_delim (c := 0x3A) (f := isSchemeChar) ?_ ?_ (only_scheme _ hx) e
        · simp
        · intro d hd
          rcases tf d hd with rfl | rfl <;> decide
  exact seq_none_l (seq_none_l (seq_none_l key))

theorem URIReference_complete {p s a} (h : UriR p s a ∨ RelR p s a) :
    PG.URIReference s = some (s, a, []) := by
  rcases h with h | h
  · exact alt_hd (URI_complete h)
  · simp only [PG.URIReference]
    rw [alt_tl (URI_none_of_relative h)]
    exact alt_hd (relativeRef_complete h)

/-! ### Sentences are ASCII -/

/-- A 7-bit character. -/
def isAscii (c : UInt8) : Bool := decide (c.toNat < 0x80)

theorem ctypeOk_of_ascii (pl : Plat) (c : UInt8) (h : isAscii c = true) : ctypeOk pl c = true := by
  simp [isAscii] at h
  simp only [ctypeOk]
  cases pl.charSigned <;> simp <;> omega

theorem lit_ascii {t : Str} (h : ∀ c ∈ t, isAscii c = true) : ∀ c ∈ t, isAscii c = true := h

theorem ascii_slashes {gs : List Str} (h : ∀ g ∈ gs, Abnf.segment g) : ∀ c ∈ Abnf.slashes gs, isAscii c = true := by
  intro c hc
  obtain ⟨e, he, hc⟩ := List.mem_flatten.1 hc
  obtain ⟨g, hg, rfl⟩ := List.mem_map.1 he
  rcases List.mem_cons.1 hc with rfl | hc
  · decide
  · exact only_mono only_segment (g := isAscii) (by byte_tac) _ (h g hg) c hc

theorem ascii_opt {L : Lang} {f : UInt8 → Bool} (hL : Only f L) (hf : ∀ c, f c = true → isAscii c = true) (d : UInt8)
    (hd : isAscii d = true) {o : Option Str} (h : ∀ t, o = some t → L t) : ∀ c ∈ Abnf.optText [d] o, isAscii c = true := by
  intro c hc
  cases o with
  | none => simp [Abnf.optText] at hc
  | some t =>
    rcases List.mem_cons.1 hc with rfl | hc
    · exact hd
    · exact hf c (hL t (h t rfl) c hc)

theorem ascii_part {first : Lang} {t A p} (hf : Only isAscii first) (h : Abnf.PartDerives first t A p) :
    ∀ c ∈ t, isAscii c = true := by
  intro c hc
  cases h with
  | abempty a gs hA hgs =>
    rcases List.mem_append.1 hc with hc | hc
    · rcases List.mem_append.1 hc with hc | hc
      · exact lit_ascii (by decide) c hc
      · have hh : ∀ c ∈ a.host, isAscii c = true :=
          only_mono only_host (by byte_tac) _ hA.host
        simp only [Abnf.authorityText] at hc
        rcases List.mem_append.1 hc with hc | hc
        · rcases List.mem_append.1 hc with hc | hc
          · cases hu : a.userinfo with
            | none => simp [hu] at hc
            | some u =>
              simp only [hu] at hc
              rcases List.mem_append.1 hc with hc | hc
              · exact only_mono only_userinfo (by byte_tac) _ (hA.userinfo u hu) c hc
              · exact lit_ascii (by decide) c hc
          · exact hh c hc
        · cases hp : a.port with
          | none => simp [hp] at hc
          | some u =>
            simp only [hp] at hc
            rcases List.mem_append.1 hc with hc | hc
            · exact lit_ascii (by decide) c hc
            · exact only_mono only_port (by byte_tac) _ (hA.port u hp) c hc
    · exact ascii_slashes hgs c hc
  | root => exact lit_ascii (by decide) c hc
  | absolute g gs hg hgs =>
    rcases List.mem_append.1 hc with hc | hc
    · rcases List.mem_append.1 hc with hc | hc
      · exact lit_ascii (by decide) c hc
      · exact only_mono only_segmentNz (by byte_tac) _ hg c hc
    · exact ascii_slashes hgs c hc
  | rootless g gs hg hgs =>
    rcases List.mem_append.1 hc with hc | hc
    · exact hf _ hg c hc
    · exact ascii_slashes hgs c hc
  | empty => simp at hc

theorem ascii_tail {q f : Option Str} (hq : ∀ t, q = some t → Abnf.query t) (hf : ∀ t, f = some t → Abnf.fragment t) :
    (∀ c ∈ Abnf.optText (b! "?") q, isAscii c = true) ∧ (∀ c ∈ Abnf.optText (b! "#") f, isAscii c = true) :=
  ⟨ascii_opt only_query (by byte_tac) 0x3F (by decide) hq, ascii_opt only_query (by byte_tac) 0x23 (by decide) hf⟩

theorem ascii_reference {s p} (h : Abnf.ReferenceDerives s p) : ∀ c ∈ s, isAscii c = true := by
  intro c hc
  rcases h with ⟨sch, t, h1, h2, h3, h4, h5, rfl⟩ | ⟨t, h1, h3, h4, h5, rfl⟩
  · simp only [List.mem_append] at hc
    rcases hc with (((hc | hc) | hc) | hc) | hc
    · exact only_mono only_scheme (by byte_tac) _ h2 c hc
    · exact lit_ascii (by decide) c hc
    · exact ascii_part (only_mono only_segmentNz (by byte_tac)) h3 c hc
    · exact (ascii_tail h4 h5).1 c hc
    · exact (ascii_tail h4 h5).2 c hc
  · simp only [List.mem_append] at hc
    rcases hc with (hc | hc) | hc
    · exact ascii_part (only_mono only_segmentNzNc (by byte_tac)) h3 c hc
    · exact (ascii_tail h4 h5).1 c hc
    · exact (ascii_tail h4 h5).2 c hc

theorem not_unsafe {pl s} (h : ∀ c ∈ s, isAscii c = true) : ¬ Unsafe pl s := by
  rintro ⟨c, hc, h1⟩
  rw [ctypeOk_of_ascii pl c (h c hc)] at h1
  simp at h1

end Verif
