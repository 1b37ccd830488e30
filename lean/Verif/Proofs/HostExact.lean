import Verif.Proofs.CompleteV6

/-!
# Which characters the rules use; `host` exactly
-/

namespace Verif
open Peg

set_option linter.unusedSimpArgs false

/-- Every sentence of `L` uses only characters of the class. -/
def Only (f : UInt8 → Bool) (L : Lang) : Prop := ∀ u, L u → ∀ c ∈ u, f c = true

theorem only_cat {f A B} (hA : Only f A) (hB : Only f B) : Only f (Abnf.cat A B) := by
  rintro u ⟨a, b, rfl, ha, hb⟩ c hc
  rcases List.mem_append.1 hc with h | h
  · exact hA _ ha c h
  · exact hB _ hb c h
theorem only_alt {f A B} (hA : Only f A) (hB : Only f B) : Only f (Abnf.alt A B) := by
  rintro u (h | h)
  · exact hA u h
  · exact hB u h
theorem only_opt {f A} (hA : Only f A) : Only f (Abnf.opt A) := by
  rintro u (rfl | h)
  · simp
  · exact hA u h
theorem only_rep {f A m n} (hA : Only f A) : Only f (Abnf.rep m n A) := by
  rintro u ⟨es, rfl, h, -⟩ c hc
  obtain ⟨e, he, hc⟩ := List.mem_flatten.1 hc
  exact hA e (h e he) c hc
theorem only_many {f A} (hA : Only f A) : Only f (Abnf.many A) := only_rep hA
theorem only_many1 {f A} (hA : Only f A) : Only f (Abnf.many1 A) := only_rep hA
theorem only_cls {f : UInt8 → Bool} {g A} (h : ∀ u, A u ↔ Cls g u) (hf : ∀ c, g c = true → f c = true) : Only f A := by
  intro u hu c hc
  obtain ⟨d, rfl, hd⟩ := (h u).1 hu
  simp at hc; subst hc; exact hf _ hd
theorem only_elem {f : UInt8 → Bool} {g A} (h : ∀ u, A u ↔ ElemL g u) (hf : ∀ c, g c = true → f c = true)
    (hp : f 0x25 = true) (hx : ∀ c, isXDigitB c = true → f c = true) : Only f A := by
  intro u hu c hc
  rcases (h u).1 hu with ⟨d, rfl, hd⟩ | ⟨h1, h2, rfl, hh1, hh2⟩
  · simp at hc; subst hc; exact hf _ hd
  · simp at hc; rcases hc with rfl | rfl | rfl
    · exact hp
    · exact hx _ hh1
    · exact hx _ hh2
theorem only_lit {f t} (h : ∀ c ∈ t, f c = true) : Only f (Abnf.lit t) := by
  rintro u rfl; exact h
theorem only_mono {f g : UInt8 → Bool} {L} (h : Only f L) (hfg : ∀ c, f c = true → g c = true) : Only g L :=
  fun u hu c hc => hfg c (h u hu c hc)

theorem byte_imp {f g : UInt8 → Bool}
    (h : ((List.range 256).all fun n => !f (UInt8.ofNat n) || g (UInt8.ofNat n)) = true) :
    ∀ c, f c = true → g c = true := by
  intro c hc
  have := forall_byte (P := fun c => !f c || g c) h c
  simpa [hc] using this

/-- Decide an implication between classes of characters. -/
macro "byte_tac" : tactic => `(tactic| (apply byte_imp; decide +kernel))

/-- Characters of a dotted quad. -/
def isV4Char (c : UInt8) : Bool := isDigitB c || c == 0x2E
/-- Characters of a host. -/
def isHostChar (c : UInt8) : Bool := isUserChar c || c == 0x25 || c == 0x5B || c == 0x5D
/-- Characters of a userinfo. -/
def isUserinfoChar (c : UInt8) : Bool := isUserChar c || c == 0x25

theorem only_decOctet : Only isDigitB Abnf.decOctet := by
  have r : ∀ a b : Nat, 0x30 ≤ a → b ≤ 0x39 → Only isDigitB (Abnf.range a b) := by
    rintro a b ha hb u ⟨c, rfl, h1, h2⟩ d hd
    simp at hd; subst hd; simp [isDigitB]; omega
  have d := r 0x30 0x39 (by decide) (by decide)
  exact only_alt d (only_alt (only_cat (r _ _ (by decide) (by decide)) d)
    (only_alt (only_cat (only_lit (by decide)) (only_rep d))
    (only_alt (only_cat (only_lit (by decide)) (only_cat (r _ _ (by decide) (by decide)) d))
      (only_cat (only_lit (by decide)) (r _ _ (by decide) (by decide))))))

theorem only_ipv4 : Only isV4Char Abnf.IPv4address := by
  have o : Only isV4Char Abnf.decOctet := only_mono only_decOctet (by byte_tac)
  have d : Only isV4Char (Abnf.lit (b! ".")) := only_lit (by decide)
  exact only_cat o (only_cat d (only_cat o (only_cat d (only_cat o (only_cat d o)))))

/-- Characters of an IPv6 address. -/
def isV6Char (c : UInt8) : Bool := isXDigitB c || c == 0x3A || c == 0x2E
theorem only_h16 : Only isV6Char Abnf.h16 := only_rep (only_cls HEXDIG_cls (by byte_tac))
theorem only_h16c : Only isV6Char Abnf.h16c := only_cat only_h16 (only_lit (by decide))
theorem only_ls32 : Only isV6Char Abnf.ls32 :=
  only_alt (only_cat only_h16 (only_cat (only_lit (by decide)) only_h16)) (only_mono only_ipv4 (by byte_tac))

theorem only_ipv6c : Only isV6Char Abnf.IPv6address := by
  have cc : Only isV6Char (Abnf.lit (b! "::")) := only_lit (by decide)
  have t : ∀ n, Only isV6Char (Abnf.times n Abnf.h16c) := fun n => only_rep only_h16c
  have l : ∀ n, Only isV6Char (Abnf.opt (Abnf.cat (Abnf.upTo n Abnf.h16c) Abnf.h16)) :=
    fun n => only_opt (only_cat (only_rep only_h16c) only_h16)
  have s := only_ls32
  exact only_alt (only_cat (t _) s) (only_alt (only_cat cc (only_cat (t _) s))
    (only_alt (only_cat (only_opt only_h16) (only_cat cc (only_cat (t _) s)))
    (only_alt (only_cat (l _) (only_cat cc (only_cat (t _) s)))
    (only_alt (only_cat (l _) (only_cat cc (only_cat (t _) s)))
    (only_alt (only_cat (l _) (only_cat cc (only_cat only_h16c s)))
    (only_alt (only_cat (l _) (only_cat cc s))
    (only_alt (only_cat (l _) (only_cat cc only_h16)) (only_cat (l _) cc))))))))

theorem only_ipv6 : Only isHostChar Abnf.IPv6address := only_mono only_ipv6c (by byte_tac)

theorem only_ipvfuture : Only isHostChar Abnf.IPvFuture :=
  only_cat (only_alt (only_lit (by decide)) (only_lit (by decide)))
    (only_cat (only_rep (only_cls HEXDIG_cls (by byte_tac)))
    (only_cat (only_lit (by decide)) (only_rep (only_cls future_cls (by byte_tac)))))

theorem only_ipLiteral : Only isHostChar Abnf.IPLiteral :=
  only_cat (only_lit (by decide)) (only_cat (only_alt only_ipv6 only_ipvfuture) (only_lit (by decide)))

theorem only_regName : Only isUserinfoChar Abnf.regName :=
  only_rep (only_elem reg_elem (by byte_tac) (by decide) (by byte_tac))

theorem only_userinfo : Only isUserinfoChar Abnf.userinfo :=
  only_rep (only_elem user_elem (by byte_tac) (by decide) (by byte_tac))

theorem only_host : Only isHostChar Abnf.host :=
  only_alt only_ipLiteral (only_alt (only_mono only_ipv4 (by byte_tac)) (only_mono only_regName (by byte_tac)))

theorem only_port : Only isDigitB Abnf.port := only_rep (only_cls DIGIT_cls (by byte_tac))

theorem only_scheme : Only isSchemeChar Abnf.scheme :=
  only_cat (only_cls ALPHA_cls (by byte_tac)) (only_rep (only_cls scheme_cls (by byte_tac)))

/-- Characters of a segment. -/
def isSegChar (c : UInt8) : Bool := isPChar c || c == 0x25
/-- Characters of a segment without colon. -/
def isSegNcChar (c : UInt8) : Bool := isNcChar c || c == 0x25
/-- Characters of a query. -/
def isQryChar (c : UInt8) : Bool := isQueryChar c || c == 0x25

theorem only_pchar : Only isSegChar Abnf.pchar := only_elem pchar_elem (by byte_tac) (by decide) (by byte_tac)
theorem only_segment : Only isSegChar Abnf.segment := only_rep only_pchar
theorem only_segmentNz : Only isSegChar Abnf.segmentNz := only_rep only_pchar
theorem only_segmentNzNc : Only isSegNcChar Abnf.segmentNzNc :=
  only_rep (only_elem nc_elem (by byte_tac) (by decide) (by byte_tac))
theorem only_query : Only isQryChar Abnf.query :=
  only_rep (only_elem query_elem (by byte_tac) (by decide) (by byte_tac))

/-! ### Where a delimiter can be -/

/-- If neither `t` contains `c` nor can `v` begin with `c` or a character of the class, then the
text before a `c` in `t ++ v` is not made of characters of the class. -/
theorem no_delim {t v x r : Str} {c : UInt8} {f : UInt8 → Bool} (ht : c ∉ t)
    (hv : ∀ d, v.head? = some d → d ≠ c ∧ f d = false) (hx : ∀ d ∈ x, f d = true)
    (e : t ++ v = x ++ c :: r) : False := by
  rcases List.append_eq_append_iff.1 e with ⟨w, e1, e2⟩ | ⟨w, e1, e2⟩
  · -- x = t ++ w, v = w ++ c :: r
    cases w with
    | nil => have := hv c (by simp [e2]); exact this.1 rfl
    | cons d w =>
      have h1 := hv d (by simp [e2])
      have h2 := hx d (by simp [e1])
      rw [h1.2] at h2; simp at h2
  · -- t = x ++ w
    cases w with
    | nil => simp at e2; have := hv c (by simp [← e2]); exact this.1 rfl
    | cons d w =>
      simp at e2
      apply ht
      rw [e1, e2.1]; simp

/-! ### `host` -/

/-- What may follow a host. -/
def HostFollow (v : Str) : Prop := ∀ c, v.head? = some c → c = 0x3A ∨ c = 0x2F ∨ c = 0x3F ∨ c = 0x23

theorem HostFollow.not {v : Str} (h : HostFollow v) (f : UInt8 → Bool)
    (hf : (f 0x3A || f 0x2F || f 0x3F || f 0x23) = false) : NotHead f v := by
  intro c hc
  simp only [Bool.or_eq_false_iff] at hf
  rcases h c hc with rfl | rfl | rfl | rfl
  · exact hf.1.1.1
  · exact hf.1.1.2
  · exact hf.1.2
  · exact hf.2

theorem alt_ne_none {ps : List PG.P} {p : PG.P} {s : Str} (hp : p ∈ ps) (h : p s ≠ none) : alt ps s ≠ none := by
  induction ps with
  | nil => simp at hp
  | cons q ps ih =>
    simp only [Peg.alt]
    cases hq : q s with
    | some y => simp
    | none =>
      simp only
      rcases List.mem_cons.1 hp with rfl | hp
      · exact absurd hq h
      · exact ih hp

theorem decOctet_starts {u v : Str} (hu : Abnf.decOctet u) : PG.decOctet (u ++ v) ≠ none := by
  have h : ∃ c t, u = c :: t ∧ isDigitB c = true := by
    obtain ⟨c, t, rfl, hc⟩ := h16_head (decOctet_h16 hu)
    exact ⟨c, t, rfl, only_decOctet _ hu c (by simp)⟩
  obtain ⟨c, t, rfl, hc⟩ := h
  refine alt_ne_none (p := PG.digit) (by simp) ?_
  simp [PG.digit, chr, hc]

/-- If a text begins with a dotted quad then the parser finds one. -/
theorem ipv4_starts {u v : Str} (hu : Abnf.IPv4address u) : PG.ipv4address (u ++ v) ≠ none := by
  obtain ⟨a, _, rfl, ha, _, _, rfl, rfl, b, _, rfl, hb, _, _, rfl, rfl, c, _, rfl, hc, _, d, rfl, rfl, hd⟩ := hu
  have e := seq_some (seq_some (seq_some (seq_some (seq_some
    (decOctet_complete ha (dot_notDigit (b ++ (0x2E :: (c ++ (0x2E :: (d ++ v)))))))
    (ch_some 0x2E (b ++ (0x2E :: (c ++ (0x2E :: (d ++ v)))))))
    (decOctet_complete hb (dot_notDigit (c ++ (0x2E :: (d ++ v))))))
    (ch_some 0x2E (c ++ (0x2E :: (d ++ v)))))
    (decOctet_complete hc (dot_notDigit (d ++ v)))) (ch_some 0x2E (d ++ v))
  have hne := decOctet_starts (v := v) hd
  cases h : PG.decOctet (d ++ v) with
  | none => exact absurd h hne
  | some y =>
    obtain ⟨y1, y2, y3⟩ := y
    have := seq_some e h
    intro hn
    have e2 : a ++ (b! "." ++ (b ++ (b! "." ++ (c ++ (b! "." ++ d))))) ++ v =
      a ++ (0x2E :: (b ++ (0x2E :: (c ++ (0x2E :: (d ++ v)))))) := by simp
    rw [e2] at hn
    simp only [PG.ipv4address] at hn
    rw [this] at hn
    simp at hn

theorem ipv6_none {v : Str} (h1 : NotHead isXDigitB v) (h2 : v.head? ≠ some 0x3A) : PG.ipv6address v = none := by
  have hc : PG.h16Colon v = none := h16Colon_none' h1
  have cc : PG.colonColon v = none := seq_none_l (ch_none h2)
  have pre : ∀ n, PG.h16Prefix n v = none := by
    intro n
    refine seq_none_r (u := []) (a := []) (v := v) ?_ (h16_none h1)
    rw [star_cc_nil hc]; simp
  have fr : ∀ n, seq (opt (PG.h16Prefix n)) PG.colonColon v = none := fun n => seq_none_r (opt_none (pre n)) cc
  have a1 : PG.ipv6r1 v = none := seq_none_l (by rw [star_cc_nil hc]; simp)
  have a2 : PG.ipv6r2 v = none := seq_none_l (seq_none_l cc)
  have a3 : PG.ipv6r3 v = none := seq_none_l (seq_none_l (seq_none_r (opt_none (h16_none h1)) cc))
  have a4 : PG.ipv6r4 v = none := seq_none_l (seq_none_l (fr 1))
  have a5 : PG.ipv6r5 v = none := seq_none_l (seq_none_l (fr 2))
  have a6 : PG.ipv6r6 v = none := seq_none_l (seq_none_l (fr 3))
  have a7 : PG.ipv6r7 v = none := seq_none_l (fr 4)
  have a8 : PG.ipv6r8 v = none := seq_none_l (fr 5)
  have a9 : PG.ipv6r9 v = none := fr 6
  simp only [PG.ipv6address, Peg.alt, a1, a2, a3, a4, a5, a6, a7, a8, a9]

theorem complete_rep_cls {f : UInt8 → Bool} {L : Lang} (hL : ∀ u, L u ↔ Cls f u) (m : Nat) {u v : Str}
    (hu : Abnf.rep m none L u) (hv : NotHead f v) (hm : m ≤ u.length % uintMod) :
    star (chr f : PG.P) m uintMax (u ++ v) = some (u, [], v) := by
  obtain ⟨es, rfl, he, -, -⟩ := hu
  refine complete_many (complete_langeq (complete_chr f) fun u => (hL u).1) ?_ m _ v es rfl he
    (by rwa [cls_units fun e h => (hL e).1 (he e h)] at hm) (chr_none hv)
  intro u hu
  obtain ⟨c, rfl, _⟩ := (hL u).1 hu
  simp

theorem complete_rep_elem {f : UInt8 → Bool} {L : Lang} (hL : ∀ u, L u ↔ ElemL f u) (hf : f 0x25 = false) (m : Nat)
    {u v : Str} (hu : Abnf.rep m none L u) (hv : NotHead (fun c => f c || c == 0x25) v)
    (hm : m ≤ Abnf.units u % uintMod) :
    star (elemP f) m uintMax (u ++ v) = some (u, [], v) := by
  obtain ⟨es, rfl, he, -, -⟩ := hu
  refine complete_many (complete_langeq (complete_elemP f hf) fun u => (hL u).1) ?_ m _ v es rfl he
    (by rwa [elem_units hf fun e h => (hL e).1 (he e h)] at hm) (elemP_none_of_head fun c hc => ?_)
  · intro u hu; exact elemL_ne ((hL u).1 hu)
  · have := hv c hc
    simpa using this

theorem rep_weaken {L : Lang} {m : Nat} {u : Str} (h : Abnf.rep m none L u) : Abnf.many L u := by
  obtain ⟨es, e, he, -, -⟩ := h
  exact ⟨es, e, he, Nat.zero_le _, by simp⟩

theorem ipvfuture_complete {u v : Str} (hu : Abnf.IPvFuture u) (hv : V6Follow v)
    (hcnt : Abnf.FutureCounted (b! "[" ++ u ++ b! "]")) :
    PG.ipLiteralInner (u ++ v) = some (u, [], v) := by
  obtain ⟨l, _, rfl, hl, x, _, rfl, hx, _, y, rfl, rfl, hy⟩ := hu
  have hl' : Cls (fun d => d == 0x76 || d == 0x56) l :=
    (alt_cls (f := (· == 0x76)) (g := (· == 0x56)) (lit_cls _) (lit_cls _) l).1 hl
  obtain ⟨c, rfl, hc⟩ := hl'
  obtain ⟨hxc, hyc⟩ := hcnt c x y (by simpa using hc) (rep_weaken hx) (by simp)
  have hvn : NotHead isUserChar v := by obtain ⟨r, rfl⟩ := hv; exact notHead_cons.2 (by decide)
  have e6 : PG.ipv6address ([c] ++ (x ++ (b! "." ++ y)) ++ v) = none := by
    have hc' : c = 0x76 ∨ c = 0x56 := by simpa using hc
    apply ipv6_none
    · refine notHead_cons.2 ?_; rcases hc' with rfl | rfl <;> decide
    · rcases hc' with rfl | rfl <;> simp
  have e := seq_some (seq_some (seq_some (chr_some (f := fun d => d == 0x76 || d == 0x56) (x ++ (0x2E :: (y ++ v))) hc)
    (complete_rep_cls HEXDIG_cls 1 hx (notHead_cons.2 (by decide) : NotHead isXDigitB (0x2E :: (y ++ v))) (by simp only [uintMod]; omega)))
    (ch_some 0x2E (y ++ v))) (complete_rep_cls future_cls 1 hy hvn (by simp only [uintMod]; omega))
  simp only [PG.ipLiteralInner]
  rw [alt_tl e6]
  refine alt_hd ?_
  simp only [PG.ipvfuture, ipvfutureElem_eq]
  simpa [PG.letterV, PG.hexdig, List.append_assoc] using e

theorem ipLiteral_complete {u v : Str} (hu : Abnf.IPLiteral u) (hcnt : Abnf.FutureCounted u) :
    PG.ipLiteral (u ++ v) = some (u, [], v) := by
  obtain ⟨_, _, rfl, rfl, w, _, rfl, hw, rfl⟩ := hu
  have hin : PG.ipLiteralInner (w ++ (0x5D :: v)) = some (w, [], 0x5D :: v) := by
    rcases hw with hw | hw
    · exact alt_hd (ipv6_complete hw ⟨v, rfl⟩)
    · exact ipvfuture_complete hw ⟨v, rfl⟩ (by simpa using hcnt)
  have := seq_some (seq_some (ch_some 0x5B (w ++ (0x5D :: v))) hin) (ch_some 0x5D v)
  simpa [PG.ipLiteral, List.append_assoc] using this

theorem host_complete {u v : Str} (hu : Abnf.HostAccepted u) (hv : HostFollow v) :
    PG.host (u ++ v) = some (u, [], v) := by
  have hvb : v.head? ≠ some 0x5B := by
    intro e; have := hv _ e; revert this; decide
  rcases hu with h | h | ⟨h, hno⟩
  · exact alt_hd (ipLiteral_complete h.1 h.2)
  · have h1 : PG.ipLiteral (u ++ v) = none := by
      refine seq_none_l (seq_none_l (ch_none ?_))
      obtain ⟨a, t, ha, rfl⟩ := ipv4_head h
      obtain ⟨c, t', rfl, hc⟩ := h16_head (decOctet_h16 ha)
      simp
      rintro rfl
      revert hc; decide
    simp only [PG.host]
    rw [alt_tl h1]
    exact alt_hd (ipv4_complete h (hv.not _ (by decide)))
  · have h1 : PG.ipLiteral (u ++ v) = none := by
      refine seq_none_l (seq_none_l (ch_none ?_))
      cases u with
      | nil => exact hvb
      | cons c u =>
        have := only_regName _ h c (by simp)
        simp
        rintro rfl
        revert this; decide
    have h2 : PG.ipv4address (u ++ v) = none := by
      cases hq : PG.ipv4address (u ++ v) with
      | none => rfl
      | some y =>
        exfalso
        obtain ⟨x, a, r⟩ := y
        obtain ⟨e, hx, -⟩ := sound_ipv4address _ _ _ _ hq
        rcases List.append_eq_append_iff.1 e with ⟨w, e1, e2⟩ | ⟨w, e1, e2⟩
        · cases w with
          | nil => simp at e1; subst e1; exact hno x [] (by simp) hx
          | cons d w =>
            have h3 := only_ipv4 _ hx d (by simp [e1])
            have h4 := hv.not isV4Char (by decide) d (by simp [e2])
            rw [h4] at h3; simp at h3
        · exact hno x w e1 hx
    simp only [PG.host]
    rw [alt_tl h1, alt_tl h2]
    refine alt_hd ?_
    simp only [PG.regName, regNameElem_eq]
    exact complete_rep_elem reg_elem (by decide) 0 h (hv.not _ (by decide)) (Nat.zero_le _)

theorem sound_starC {p : PG.P} {f : UInt8 → Bool} (hp : Sound p (Plain (Cls f))) :
    Sound (star p 1 uintMax) (Plain (fun u => Abnf.rep 1 none (Cls f) u ∧ u.length % 2 ^ 32 ≠ 0)) := by
  refine sound_mono (sound_star hp 1 uintMax (by decide)) ?_
  rintro u a ⟨es, ⟨rfl, rfl, h⟩, h2, -, h3⟩
  have hc : ∀ e ∈ es.map Prod.fst, Cls f e := by
    intro e he
    obtain ⟨x, hx, rfl⟩ := List.mem_map.1 he
    exact (h x hx).1
  refine ⟨⟨⟨es.map Prod.fst, rfl, hc, by simpa using h2, by simp⟩, ?_⟩, ?_⟩
  · have := h3 rfl
    rw [cls_units hc, List.length_map]
    simp only [uintMod] at this
    omega
  · rw [List.flatten_eq_nil_iff]
    intro l hl
    obtain ⟨x, hx, rfl⟩ := List.mem_map.1 hl
    exact (h x hx).2

/-- Text before the first `c` is determined. -/
theorem split_at_unique {c : UInt8} : ∀ {x x' y y' : Str}, c ∉ x → c ∉ x' → x ++ c :: y = x' ++ c :: y' → x = x' ∧ y = y'
  | [], [], _, _, _, _, e => by simpa using e
  | [], d :: x', _, _, _, h', e => by simp at e; simp [e.1] at h'
  | d :: x, [], _, _, h, _, e => by simp at e; simp [e.1] at h
  | d :: x, d' :: x', y, y', h, h', e => by
    simp only [List.cons_append, List.cons.injEq] at e
    simp only [List.mem_cons, not_or] at h h'
    obtain ⟨rfl, e⟩ := e
    obtain ⟨rfl, rfl⟩ := split_at_unique h.2 h'.2 e
    exact ⟨rfl, rfl⟩

theorem sound_ipLiteral' : Sound PG.ipLiteral (Plain (fun u => Abnf.IPLiteral u ∧ Abnf.FutureCounted u)) := by
  have hf : Sound PG.ipvfuture (Plain (Abnf.cat (Abnf.cat (Abnf.cat (Abnf.alt (Abnf.lit (b! "v")) (Abnf.lit (b! "V")))
      (fun u => Abnf.rep 1 none (Cls isXDigitB) u ∧ u.length % 2 ^ 32 ≠ 0)) (Abnf.lit (b! ".")))
      (fun u => Abnf.rep 1 none (Cls isUserChar) u ∧ u.length % 2 ^ 32 ≠ 0))) := by
    rw [PG.ipvfuture, ipvfutureElem_eq]
    exact sound_seqP (sound_seqP (sound_seqP sound_letterV (sound_starC (sound_chr _))) (sound_ch 0x2E))
      (sound_starC (sound_chr _))
  have h2 := sound_seqP (sound_seqP (sound_ch 0x5B) (sound_altP_cons sound_ipv6address (sound_altP_one hf))) (sound_ch 0x5D)
  intro s u a v h
  obtain ⟨e, h1, h3⟩ := sound_ipLiteral _ _ _ _ h
  refine ⟨e, ⟨h1, ?_⟩, h3⟩
  obtain ⟨-, ⟨_, _, rfl, ⟨_, w, rfl, rfl, hw⟩, rfl⟩, -⟩ := h2 s u a v h
  intro c x y hc hx e
  simp only [List.append_assoc, List.cons_append, List.nil_append, List.cons.injEq, true_and] at e
  rcases hw with hw | ⟨_, y', rfl, ⟨_, _, rfl, ⟨l, x', rfl, hl, hx', hxn⟩, rfl⟩, hy', hyn⟩
  · exfalso
    cases w with
    | nil => simp at e
    | cons d w =>
      simp only [List.cons_append, List.cons.injEq] at e
      have := only_ipv6c _ hw d (by simp)
      rw [e.1] at this
      rcases hc with rfl | rfl <;> revert this <;> decide
  · have hdot : ∀ {z : Str}, (∀ d ∈ z, isXDigitB d = true) → (0x2E : UInt8) ∉ z := by
      intro z hz hm
      have := hz _ hm
      revert this; decide
    have hl' : ∃ c', l = [c'] := by rcases hl with rfl | rfl <;> exact ⟨_, rfl⟩
    obtain ⟨c', rfl⟩ := hl'
    simp only [List.append_assoc, List.cons_append, List.nil_append, List.cons.injEq] at e
    have o1 : ∀ d ∈ x', isXDigitB d = true := only_rep (f := isXDigitB) (only_cls (fun _ => Iff.rfl) fun _ h => h) _ hx'
    have o2 : ∀ d ∈ x, isXDigitB d = true := only_rep (f := isXDigitB) (only_cls HEXDIG_cls fun _ h => h) _ hx
    obtain ⟨rfl, e2⟩ := split_at_unique (hdot o1) (hdot o2) e.2
    have := List.append_cancel_right e2
    subst this
    exact ⟨hxn, hyn⟩

/-- What the parser takes as a host is a host of the accepted kind. -/
theorem sound_host' : Sound PG.host (Plain (fun u => Abnf.host u ∧ Abnf.HostAccepted u)) := by
  intro s u a v h
  obtain ⟨e, h1, h2⟩ := sound_host _ _ _ _ h
  refine ⟨e, ⟨h1, ?_⟩, h2⟩
  simp only [PG.host, Peg.alt] at h
  cases ha : PG.ipLiteral s with
  | some y =>
    simp only [ha, Option.some.injEq] at h
    subst h
    exact Or.inl (sound_ipLiteral' _ _ _ _ ha).2.1
  | none =>
    simp only [ha] at h
    cases hb : PG.ipv4address s with
    | some y =>
      simp only [hb, Option.some.injEq] at h
      subst h
      exact Or.inr (Or.inl (sound_ipv4address _ _ _ _ hb).2.1)
    | none =>
      simp only [hb] at h
      cases hc : PG.regName s with
      | none => simp [hc] at h
      | some y =>
        simp only [hc, Option.some.injEq] at h
        subst h
        obtain ⟨-, h3, -⟩ := sound_regName _ _ _ _ hc
        refine Or.inr (Or.inr ⟨h3, ?_⟩)
        rintro x w rfl hx
        rw [e, List.append_assoc] at hb
        exact ipv4_starts hx hb

end Verif
