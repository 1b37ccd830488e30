import Verif.Proofs.SinglePass
import Verif.Props.Chain
import Verif.Props.IcuHistory
import Verif.Props.IcuReuse
import Verif.Proofs.ByteCalls

/-!
# Views of single-pass ranges: C76
-/

set_option linter.unusedSimpArgs false
set_option linter.unusedVariables false

namespace Verif
open Verif.Unicode Verif.Icu

/-- For every stream that is not empty, a loop over the view yields exactly what the transcoder writes for all code units but the
last (without a call of `end_cp`).  That is never all: something was lost.  `well_formed ()` is right about the whole stream. -/
def LosesTheEnd {ι ο : Type} (T : Transcoder ι ο) (cap : Nat) : Prop :=
  ∀ s : List ι, s ≠ [] → ∃ st out st' o lost, T.run s = .ok (st, out) ∧ T.feed T.init s.dropLast = .ok (st', o) ∧ sharedRun T cap s = .ok (o, T.wellFormed st) ∧
    lost ≠ [] ∧ out = o ++ lost

theorem C76_stream (a b : Enc) : LosesTheEnd (a.coder b) (a.cap b) := by
  cases a <;> cases b
  · exact fun s hs => lawful8_8.single (by
      rintro l ⟨m, rfl | ⟨c, rfl⟩, rfl⟩
      · simp
      · simpa [maxOut8] using utf8_len _) s hs
  · exact fun s hs => lawful8_16.single (by
      rintro l ⟨m, rfl | ⟨c, rfl⟩, rfl⟩
      · simp
      · simpa [maxOut16] using utf16_len _) s hs
  · exact fun s hs => lawful8_32.single (by rintro l (rfl | ⟨c, rfl⟩) <;> simp [maxOut32]) s hs
  · exact fun s hs => lawful16_8.single (by
      rintro l ⟨m, rfl | ⟨c, rfl⟩ | ⟨a, b, rfl, ha, hb⟩, rfl⟩
      · simp
      · have := utf8_len (fixCp c)
        simp [maxOut16to8]; omega
      · have := utf8_len_bmp _ (fixCp_bmp ha)
        have := utf8_len_bmp _ (fixCp_bmp hb)
        simp [maxOut16to8]; omega) s hs
  · exact fun s hs => lawful16_16.single (by
      rintro l ⟨m, rfl | ⟨c, rfl⟩ | ⟨a, b, rfl, ha, hb⟩, rfl⟩
      · simp
      · simpa [maxOut16] using utf16_len _
      · have := utf16_len_bmp _ (fixCp_bmp ha)
        have := utf16_len_bmp _ (fixCp_bmp hb)
        simp [maxOut16]; omega) s hs
  · exact fun s hs => lawful16_32.single Q16_len s hs
  · exact fun s hs => simple32_8.lawful.single (by
      rintro l (rfl | ⟨c, rfl⟩)
      · simp
      · exact utf8_len _) s hs
  · exact fun s hs => simple32_16.lawful.single (by
      rintro l (rfl | ⟨c, rfl⟩)
      · simp
      · exact utf16_len _) s hs
  · exact fun s hs => simple32_32.lawful.single (by rintro l (rfl | ⟨c, rfl⟩) <;> simp [maxOut32]) s hs

theorem honest_enc (a b : Enc) : FlagIsHonest (a.coder b) a.form b.form := by
  cases a <;> cases b
  · exact C57_utf8_utf8
  · exact C57_utf8_utf16
  · exact C57_utf8_utf32
  · exact C57_utf16_utf8
  · exact C57_utf16_utf16
  · exact C57_utf16_utf32
  · exact C57_utf32_utf8
  · exact C57_utf32_utf16
  · exact C57_utf32_utf32

theorem prefixFree_enc (a : Enc) : PrefixFree a.form := by
  cases a
  · exact prefixFree8
  · exact prefixFree16
  · exact prefixFree32

theorem given_map {ι : Type} (s : List ι) : given (s.map Call.unit) = s := by
  induction s with
  | nil => rfl
  | cons c s ih => rw [List.map_cons, given, ih]

theorem form_inj (a : Enc) {cs ds : List Nat} (h : ∀ c ∈ cs, Scalar c) (h' : ∀ c ∈ ds, Scalar c) (e : cs.flatMap a.form = ds.flatMap a.form) : cs = ds := by
  have h1 := chain_text a .e32 cs h
  have h2 := chain_text a .e32 ds h'
  rw [e] at h1
  exact (flatMap_one cs).symm.trans ((converted_unique h1 h2).1.trans (flatMap_one ds))

/-- In particular, of a well-formed text the last character is lost, and `well_formed ()` is true. -/
theorem C76_last_character (a b : Enc) (cs : List Nat) (c : Nat) (h : ∀ d ∈ cs, Scalar d) (hc : Scalar c) :
    sharedRun (a.coder b) (a.cap b) ((cs ++ [c]).flatMap a.form) = .ok (cs.flatMap b.form, true) := by
  have hne : a.form c ≠ [] := (prefixFree_enc a).ne c hc
  have e0 : (cs ++ [c]).flatMap a.form = cs.flatMap a.form ++ a.form c := by rw [List.flatMap_append]; simp
  have hs : (cs ++ [c]).flatMap a.form ≠ [] := by rw [e0]; simp [hne]
  obtain ⟨st, out, st', o, lost, h1, h2, h3, h4, h5⟩ := C76_stream a b _ hs
  have hall : ∀ d ∈ cs ++ [c], Scalar d := by
    intro d hd
    rcases List.mem_append.1 hd with hd | hd
    · exact h d hd
    · rw [List.mem_singleton.1 hd]; exact hc
  obtain ⟨st2, g1, g2⟩ := chain_text a b (cs ++ [c]) hall
  have est : st = st2 := congrArg Prod.fst (Except.ok.inj (h1.symm.trans g1))
  rw [h3, est, g2]
  have ed : ((cs ++ [c]).flatMap a.form).dropLast = cs.flatMap a.form ++ (a.form c).dropLast := by
    rw [e0, List.dropLast_append_of_ne_nil hne]
  have eform : a.form c = (a.form c).dropLast ++ [(a.form c).getLast hne] := (List.dropLast_concat_getLast hne).symm
  have hbeg : (a.form c).dropLast = [] ∨ ∃ d q, Scalar d ∧ q ≠ [] ∧ a.form d = (a.form c).dropLast ++ q := Or.inr ⟨c, _, hc, by simp, eform⟩
  obtain ⟨st3, o3, k1, _, k2, k3⟩ := honest_enc a b ((((cs ++ [c]).flatMap a.form).dropLast).map Call.unit)
  rw [calls_map, h2] at k1
  have eo : o = o3 := congrArg Prod.snd (Except.ok.inj k1)
  have hw : (a.coder b).wellFormed st3 = true := by
    refine k2.2 ⟨⟨cs, _, h, hbeg, by rw [given_map, ed]⟩, fun x y hxy => ?_⟩
    have hm : Call.endCp ∈ (((cs ++ [c]).flatMap a.form).dropLast).map Call.unit := by rw [hxy]; simp
    obtain ⟨u, _, hu⟩ := List.mem_map.1 hm
    cases hu
  obtain ⟨cs', p, j1, j2, j3, j4, _⟩ := k3 hw
  rw [given_map, ed] at j2
  have jb : p = [] ∨ Begins a.form p := j3
  obtain ⟨ds, d1, d2⟩ := text_rest (prefixFree_enc a) cs cs' _ p h j1 jb j2
  have : ds = [] := by
    cases ds with
    | nil => rfl
    | cons d ds =>
      exfalso
      rw [List.flatMap_cons, List.append_assoc] at d2
      refine not_begins (prefixFree_enc a) (d1 d (by simp)) d2 ⟨c, _, hc, by simp, eform⟩
  subst this
  rw [List.flatMap_nil, List.nil_append] at d2
  rw [d2] at j2
  have : cs = cs' := form_inj a h j1 (List.append_cancel_right j2)
  subst this
  rw [eo, j4]

/-- Text of one character: nothing at all is yielded. -/
example : sharedRun t8_32 maxOut32 [0x41] = .ok ([], true) := by decide +kernel
/-- `a€` from a stream, as UTF-16 and as UTF-32. -/
example : sharedRun t8_16 maxOut16 [0x61, 0xE2, 0x82, 0xAC] = .ok ([0x61], true) ∧ viewRun t8_16 maxOut16 [0x61, 0xE2, 0x82, 0xAC] = .ok ([0x61, 0x20AC], true) := by
  decide +kernel
/-- A text that ends inside a character: the replacement character is lost, not the report. -/
example : sharedRun t8_32 maxOut32 [0x61, 0x62, 0xE2, 0x82] = .ok ([0x61, 0x62], false) := by decide +kernel

end Verif
