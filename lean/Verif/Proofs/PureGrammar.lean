import Verif.Proofs.Peg
import Verif.Model.Grammar

/-!
# The grammar at the pure level

For each matcher of `Verif/Model/Grammar.lean` the pure parsing function it denotes.
-/

namespace Verif

/-- A property of all bytes can be checked by running through them. -/
theorem forall_byte {P : UInt8 → Bool} (h : (List.range 256).all (fun n => P (UInt8.ofNat n)) = true)
    (c : UInt8) : P c = true := by
  have := List.all_eq_true.1 h c.toNat (by simp; exact c.toNat_lt)
  simpa using this

/-- Two byte predicates that agree on all bytes. -/
theorem byte_ext {f g : UInt8 → Bool}
    (h : (List.range 256).all (fun n => f (UInt8.ofNat n) == g (UInt8.ofNat n)) = true) : f = g := by
  funext c
  have := forall_byte (P := fun c => f c == g c) h c
  simpa using this

namespace PG
open Peg

abbrev P := Peg Act

def ch (c : UInt8) : P := chr (· == c)
def isUnreserved (c : UInt8) : Bool :=
  isAlphaB c || isDigitB c || c == 0x2D || c == 0x2E || c == 0x5F || c == 0x7E

def unreserved : P := chr isUnreserved
def subDelims : P := chr Grammar.isSubDelim
def alpha : P := chr isAlphaB
def digit : P := chr isDigitB
def hexdig : P := chr isXDigitB
def range (a b : UInt8) : P := chr fun d => decide (a.toNat ≤ d.toNat) && decide (d.toNat ≤ b.toNat)
def letterV : P := chr fun d => d == 0x76 || d == 0x56

def singleColon : P := seq (ch 0x3A) (notAhead (· == 0x3A))
def pctEncoded : P := seq (seq (ch 0x25) hexdig) hexdig
def pchar : P := alt [unreserved, pctEncoded, subDelims, ch 0x3A, ch 0x40]
def userinfoElem : P := alt [unreserved, pctEncoded, subDelims, ch 0x3A]
def userinfo : P := star userinfoElem 0 uintMax
def schemeElem : P := alt [alpha, digit, ch 0x2B, ch 0x2D, ch 0x2E]
def scheme : P := seq alpha (star schemeElem 0 uintMax)
def regNameElem : P := alt [unreserved, pctEncoded, subDelims]
def regName : P := star regNameElem 0 uintMax
def octet25 : P := seq (seq (ch 0x32) (ch 0x35)) (range 0x30 0x35)
def octet2 : P := seq (seq (ch 0x32) (range 0x30 0x34)) digit
def octet1 : P := seq (seq (ch 0x31) digit) digit
def octetXX : P := seq (range 0x31 0x39) digit
def decOctet : P := alt [octet25, octet2, octet1, octetXX, digit]
def ipv4address : P :=
  seq (seq (seq (seq (seq (seq decOctet (ch 0x2E)) decOctet) (ch 0x2E)) decOctet) (ch 0x2E)) decOctet
def h16 : P := star hexdig 1 4
def h16Colon : P := seq h16 singleColon
def colonColon : P := seq (ch 0x3A) (ch 0x3A)
def h16h16 : P := seq (seq h16 (ch 0x3A)) h16
def ls32 : P := alt [h16h16, ipv4address]
def h16Prefix (n : Nat) : P := seq (star h16Colon 0 n) h16
def ipv6r1 : P := seq (star h16Colon 6 6) ls32
def ipv6r2 : P := seq (seq colonColon (star h16Colon 5 5)) ls32
def ipv6r3 : P := seq (seq (seq (opt h16) colonColon) (star h16Colon 4 4)) ls32
def ipv6r4 : P := seq (seq (seq (opt (h16Prefix 1)) colonColon) (star h16Colon 3 3)) ls32
def ipv6r5 : P := seq (seq (seq (opt (h16Prefix 2)) colonColon) (star h16Colon 2 2)) ls32
def ipv6r6 : P := seq (seq (seq (opt (h16Prefix 3)) colonColon) h16Colon) ls32
def ipv6r7 : P := seq (seq (opt (h16Prefix 4)) colonColon) ls32
def ipv6r8 : P := seq (seq (opt (h16Prefix 5)) colonColon) h16
def ipv6r9 : P := seq (opt (h16Prefix 6)) colonColon
def ipv6address : P :=
  alt [ipv6r1, ipv6r2, ipv6r3, ipv6r4, ipv6r5, ipv6r6, ipv6r7, ipv6r8, ipv6r9]
def ipvfutureElem : P := alt [unreserved, subDelims, ch 0x3A]
def ipvfuture : P :=
  seq (seq (seq letterV (star hexdig 1 uintMax)) (ch 0x2E)) (star ipvfutureElem 1 uintMax)
def ipLiteralInner : P := alt [ipv6address, ipvfuture]
def ipLiteral : P := seq (seq (ch 0x5B) ipLiteralInner) (ch 0x5D)
def host : P := alt [ipLiteral, ipv4address, regName]
def hostRule : P := act host .setHost
def userinfoAt : P := seq (act userinfo .setUserinfo) (ch 0x40)
def port : P := star digit 0 uintMax
def colonPort : P := seq (ch 0x3A) (act port .setPort)
def authority : P := seq (seq (opt userinfoAt) hostRule) (opt colonPort)
def segment : P := star pchar 0 uintMax
def segmentNz : P := star pchar 1 uintMax
def segmentNzNcElem : P := alt [unreserved, pctEncoded, subDelims, ch 0x40]
def segmentNzNc : P := star segmentNzNcElem 1 uintMax
def slashSegment (b : Bool) : P := seq (act (ch 0x2F) (.appendDir b)) (act segment .appendSegment)
def pathAbempty : P := star (slashSegment true) 0 uintMax
def pathAbsoluteTail : P := seq (act segmentNz .appendSegment) (star (slashSegment false) 0 uintMax)
def pathAbsolute : P := seq (act (ch 0x2F) (.appendDir true)) (opt pathAbsoluteTail)
def pathNoscheme : P := seq (act segmentNzNc .recordInitial) (star (slashSegment false) 0 uintMax)
def pathEmpty : P := star pchar 0 0
def pathRootless : P := seq (act segmentNz .recordInitial) (star (slashSegment false) 0 uintMax)
def authAbempty : P := seq (seq (seq (ch 0x2F) (ch 0x2F)) authority) pathAbempty
def relativePart : P := alt [authAbempty, pathAbsolute, pathNoscheme, pathEmpty]
def queryElem : P := alt [pchar, ch 0x2F, ch 0x3F]
def query : P := star queryElem 0 uintMax
def questionQuery : P := seq (ch 0x3F) (act query .setQuery)
def hashFragment : P := seq (ch 0x23) (act query .setFragment)
def relativeRef : P := seq (seq relativePart (opt questionQuery)) (opt hashFragment)
def hierPart : P := alt [authAbempty, pathAbsolute, pathRootless, pathEmpty]
def URI : P :=
  seq (seq (seq (seq (act scheme .setScheme) (ch 0x3A)) hierPart) (opt questionQuery)) (opt hashFragment)
def URIReference : P := alt [URI, relativeRef]

/-! ### Non-nullability of everything under a `star` -/

theorem nn_unreserved : NonNull unreserved := nonNull_chr _
theorem nn_ch (c) : NonNull (ch c) := nonNull_chr _
theorem nn_pct : NonNull pctEncoded := ((nn_ch _).seq_left).seq_left
theorem nn_pchar : NonNull pchar :=
  nn_unreserved.alt_cons (nn_pct.alt_cons ((nonNull_chr _).alt_cons ((nn_ch _).alt_cons
    ((nn_ch _).alt_cons nonNull_alt_nil))))
theorem nn_userinfoElem : NonNull userinfoElem :=
  nn_unreserved.alt_cons (nn_pct.alt_cons ((nonNull_chr _).alt_cons ((nn_ch _).alt_cons nonNull_alt_nil)))
theorem nn_schemeElem : NonNull schemeElem :=
  (nonNull_chr _).alt_cons ((nonNull_chr _).alt_cons ((nn_ch _).alt_cons ((nn_ch _).alt_cons
    ((nn_ch _).alt_cons nonNull_alt_nil))))
theorem nn_regNameElem : NonNull regNameElem :=
  nn_unreserved.alt_cons (nn_pct.alt_cons ((nonNull_chr _).alt_cons nonNull_alt_nil))
theorem nn_hexdig : NonNull hexdig := nonNull_chr _
theorem nn_ipvfutureElem : NonNull ipvfutureElem :=
  nn_unreserved.alt_cons ((nonNull_chr _).alt_cons ((nn_ch _).alt_cons nonNull_alt_nil))
theorem nn_segmentNzNcElem : NonNull segmentNzNcElem :=
  nn_unreserved.alt_cons (nn_pct.alt_cons ((nonNull_chr _).alt_cons ((nn_ch _).alt_cons nonNull_alt_nil)))
theorem nn_slashSegment (b) : NonNull (slashSegment b) := ((nn_ch _).act _).seq_left
theorem nn_queryElem : NonNull queryElem :=
  nn_pchar.alt_cons ((nn_ch _).alt_cons ((nn_ch _).alt_cons nonNull_alt_nil))

theorem nn_h16Colon : NonNull h16Colon := by
  intro s a v hs
  simp only [h16Colon, Peg.seq] at hs
  cases hp : h16 s with
  | none => simp [hp] at hs
  | some y =>
    obtain ⟨u, a', v'⟩ := y
    simp only [hp] at hs
    cases hq : singleColon v' with
    | none => simp [hq] at hs
    | some z =>
      obtain ⟨u2, a2, v2⟩ := z
      simp [hq] at hs
      have : NonNull singleColon := (nn_ch _).seq_left
      exact this v' a2 v2 (by rw [hq, hs.1.2])

/-! ### Each matcher denotes its pure function -/

section
variable (pl : Plat)
open Grammar

theorem den_ch {c : UInt8} (hc : c.toNat < 0x80)
    (h : (List.range 256).all (fun n => (toLowerB c == toLowerB (UInt8.ofNat n)) == (UInt8.ofNat n == c)) = true) :
    Denotes pl (singleCodePoint pl c) (ch c) := by
  have := den_singleChar (α := Act) (pl := pl) hc
  rw [byte_ext (f := fun d => toLowerB c == toLowerB d) (g := (· == c)) h] at this
  exact this

theorem den_commercialAt : Denotes pl (commercialAt pl) (ch 0x40) := den_ch pl (by decide) (by decide +kernel)
theorem den_colon : Denotes pl (colon pl) (ch 0x3A) := den_ch pl (by decide) (by decide +kernel)
theorem den_hash : Denotes pl (hash pl) (ch 0x23) := den_ch pl (by decide) (by decide +kernel)
theorem den_plus : Denotes pl (plus pl) (ch 0x2B) := den_ch pl (by decide) (by decide +kernel)
theorem den_minus : Denotes pl (minus pl) (ch 0x2D) := den_ch pl (by decide) (by decide +kernel)
theorem den_solidus : Denotes pl (solidus pl) (ch 0x2F) := den_ch pl (by decide) (by decide +kernel)
theorem den_questionMark : Denotes pl (questionMark pl) (ch 0x3F) := den_ch pl (by decide) (by decide +kernel)
theorem den_fullStop : Denotes pl (fullStop pl) (ch 0x2E) := den_ch pl (by decide) (by decide +kernel)
theorem den_lsb : Denotes pl (leftSquareBracket pl) (ch 0x5B) := den_ch pl (by decide) (by decide +kernel)
theorem den_rsb : Denotes pl (rightSquareBracket pl) (ch 0x5D) := den_ch pl (by decide) (by decide +kernel)
theorem den_percent : Denotes pl (percentSign pl) (ch 0x25) := den_ch pl (by decide) (by decide +kernel)
theorem den_one : Denotes pl (digitOne pl) (ch 0x31) := den_ch pl (by decide) (by decide +kernel)
theorem den_two : Denotes pl (digitTwo pl) (ch 0x32) := den_ch pl (by decide) (by decide +kernel)
theorem den_five : Denotes pl (digitFive pl) (ch 0x35) := den_ch pl (by decide) (by decide +kernel)
theorem den_v : Denotes pl (latinSmallLetterV pl) letterV := by
  have := den_singleChar (α := Act) (pl := pl) (c := 0x76) (by decide)
  rw [byte_ext (f := fun d => toLowerB 0x76 == toLowerB d) (g := fun d => d == 0x76 || d == 0x56)
    (by decide +kernel)] at this
  exact this

theorem den_range {a b : UInt8} (ha : a.toNat < 0x80) (hb : b.toNat < 0x80)
    (h : (List.range 256).all (fun n =>
      (decide ((toLowerB a).toNat ≤ (toLowerB (UInt8.ofNat n)).toNat) &&
        decide ((toLowerB (UInt8.ofNat n)).toNat ≤ (toLowerB b).toNat)) ==
      (decide (a.toNat ≤ (UInt8.ofNat n).toNat) && decide ((UInt8.ofNat n).toNat ≤ b.toNat))) = true) :
    Denotes pl (Rule.charRange pl a b) (range a b) := by
  have := den_charRange (α := Act) (pl := pl) ha hb
  rw [byte_ext (f := fun d => decide ((toLowerB a).toNat ≤ (toLowerB d).toNat) &&
        decide ((toLowerB d).toNat ≤ (toLowerB b).toNat))
    (g := fun d => decide (a.toNat ≤ d.toNat) && decide (d.toNat ≤ b.toNat)) h] at this
  exact this

theorem den_notColon : Denotes pl notColon (notAhead (· == 0x3A)) := by
  intro sv
  obtain ⟨p, cs⟩ := sv
  cases cs with
  | nil => simp [notColon, Rule.ofSV, SV.substr, SV.size, Agree, notAhead, bind, Except.bind, pure, Except.pure]
  | cons c s =>
    by_cases hc : c = 0x3A
    · simp [notColon, Rule.ofSV, hc, Agree, notAhead]
    · simp [notColon, Rule.ofSV, hc, Agree, notAhead, SV.substr, bind, Except.bind, pure, Except.pure]
      exact ⟨_, _, ⟨rfl, rfl⟩, rfl, rfl⟩

theorem den_singleColon : Denotes pl (Grammar.singleColon pl) singleColon :=
  den_matched (step_bind (step_concat (den_colon pl)) (step_concat (den_notColon pl)))

theorem den_subDelims : Denotes pl Grammar.subDelims subDelims :=
  den_singleCharP fun _ => Or.inl rfl

theorem den_unreserved : Denotes pl (Grammar.unreserved pl) unreserved :=
  den_singleCharP fun c => by
    rcases ctype_spec (pl := pl) (fun c => isAlphaB c || isDigitB c) c with h | h
    · left; simp [isalnum, h, bind, Except.bind, pure, Except.pure, isUnreserved]
    · right; simp [isalnum, h, bind, Except.bind]

theorem den_pctEncoded : Denotes pl (Grammar.pctEncoded pl) pctEncoded :=
  den_matched (step_bind (step_bind (step_concat (den_percent pl)) (step_concat den_hexdig))
    (step_concat den_hexdig))

theorem den_pchar : Denotes pl (Grammar.pchar pl) pchar :=
  den_matched (step_alternative (.cons (den_unreserved pl) (.cons (den_pctEncoded pl)
    (.cons (den_subDelims pl) (.cons (den_colon pl) (.cons (den_commercialAt pl) .nil))))))

theorem den_userinfoElem : Denotes pl (Grammar.userinfoElem pl) userinfoElem :=
  den_matched (step_alternative (.cons (den_unreserved pl) (.cons (den_pctEncoded pl)
    (.cons (den_subDelims pl) (.cons (den_colon pl) .nil)))))

theorem den_userinfo : Denotes pl (Grammar.userinfo pl) userinfo :=
  den_matched (step_star (den_userinfoElem pl) nn_userinfoElem _ _)

theorem den_schemeElem : Denotes pl (Grammar.schemeElem pl) schemeElem :=
  den_matched (step_alternative (.cons den_alpha (.cons den_digit
    (.cons (den_plus pl) (.cons (den_minus pl) (.cons (den_fullStop pl) .nil))))))

theorem den_scheme : Denotes pl (Grammar.scheme pl) scheme :=
  den_matched (step_bind (step_concat den_alpha) (step_star (den_schemeElem pl) nn_schemeElem _ _))

theorem den_regNameElem : Denotes pl (Grammar.regNameElem pl) regNameElem :=
  den_matched (step_alternative (.cons (den_unreserved pl) (.cons (den_pctEncoded pl)
    (.cons (den_subDelims pl) .nil))))

theorem den_regName : Denotes pl (Grammar.regName pl) regName :=
  den_matched (step_star (den_regNameElem pl) nn_regNameElem _ _)

theorem den_octet25 : Denotes pl (Grammar.octet25 pl) octet25 :=
  den_matched (step_bind (step_bind (step_concat (den_two pl)) (step_concat (den_five pl)))
    (step_concat (den_range pl (by decide) (by decide) (by decide +kernel))))

theorem den_octet2 : Denotes pl (Grammar.octet2 pl) octet2 :=
  den_matched (step_bind (step_bind (step_concat (den_two pl))
    (step_concat (den_range pl (by decide) (by decide) (by decide +kernel)))) (step_concat den_digit))

theorem den_octet1 : Denotes pl (Grammar.octet1 pl) octet1 :=
  den_matched (step_bind (step_bind (step_concat (den_one pl)) (step_concat den_digit))
    (step_concat den_digit))

theorem den_octetXX : Denotes pl (Grammar.octetXX pl) octetXX :=
  den_matched (step_bind (step_concat (den_range pl (by decide) (by decide) (by decide +kernel)))
    (step_concat den_digit))

theorem den_decOctet : Denotes pl (Grammar.decOctet pl) decOctet :=
  den_matched (step_alternative (.cons (den_octet25 pl) (.cons (den_octet2 pl)
    (.cons (den_octet1 pl) (.cons (den_octetXX pl) (.cons den_digit .nil))))))

theorem den_ipv4address : Denotes pl (Grammar.ipv4address pl) ipv4address :=
  den_matched (step_bind (step_bind (step_bind (step_bind (step_bind (step_bind
    (step_concat (den_decOctet pl)) (step_concat (den_fullStop pl))) (step_concat (den_decOctet pl)))
    (step_concat (den_fullStop pl))) (step_concat (den_decOctet pl))) (step_concat (den_fullStop pl)))
    (step_concat (den_decOctet pl)))

theorem den_h16 : Denotes pl (Grammar.h16 pl) h16 :=
  den_matched (step_star den_hexdig nn_hexdig _ _)

theorem den_h16Colon : Denotes pl (Grammar.h16Colon pl) h16Colon :=
  den_matched (step_bind (step_concat (den_h16 pl)) (step_concat (den_singleColon pl)))

theorem den_colonColon : Denotes pl (Grammar.colonColon pl) colonColon :=
  den_matched (step_bind (step_concat (den_colon pl)) (step_concat (den_colon pl)))

theorem den_h16h16 : Denotes pl (Grammar.h16h16 pl) h16h16 :=
  den_matched (step_bind (step_bind (step_concat (den_h16 pl)) (step_concat (den_colon pl)))
    (step_concat (den_h16 pl)))

theorem den_ls32 : Denotes pl (Grammar.ls32 pl) ls32 :=
  den_matched (step_alternative (.cons (den_h16h16 pl) (.cons (den_ipv4address pl) .nil)))

theorem den_h16Prefix (n) : Denotes pl (Grammar.h16Prefix pl n) (h16Prefix n) :=
  den_matched (step_bind (step_star (den_h16Colon pl) nn_h16Colon _ _) (step_concat (den_h16 pl)))

theorem den_ipv6r1 : Denotes pl (Grammar.ipv6r1 pl) ipv6r1 :=
  den_matched (step_bind (step_star (den_h16Colon pl) nn_h16Colon _ _) (step_concat (den_ls32 pl)))
theorem den_ipv6r2 : Denotes pl (Grammar.ipv6r2 pl) ipv6r2 :=
  den_matched (step_bind (step_bind (step_concat (den_colonColon pl))
    (step_star (den_h16Colon pl) nn_h16Colon _ _)) (step_concat (den_ls32 pl)))
theorem den_ipv6r3 : Denotes pl (Grammar.ipv6r3 pl) ipv6r3 :=
  den_matched (step_bind (step_bind (step_bind (step_optional (den_h16 pl)) (step_concat (den_colonColon pl)))
    (step_star (den_h16Colon pl) nn_h16Colon _ _)) (step_concat (den_ls32 pl)))
theorem den_ipv6r4 : Denotes pl (Grammar.ipv6r4 pl) ipv6r4 :=
  den_matched (step_bind (step_bind (step_bind (step_optional (den_h16Prefix pl 1)) (step_concat (den_colonColon pl)))
    (step_star (den_h16Colon pl) nn_h16Colon _ _)) (step_concat (den_ls32 pl)))
theorem den_ipv6r5 : Denotes pl (Grammar.ipv6r5 pl) ipv6r5 :=
  den_matched (step_bind (step_bind (step_bind (step_optional (den_h16Prefix pl 2)) (step_concat (den_colonColon pl)))
    (step_star (den_h16Colon pl) nn_h16Colon _ _)) (step_concat (den_ls32 pl)))
theorem den_ipv6r6 : Denotes pl (Grammar.ipv6r6 pl) ipv6r6 :=
  den_matched (step_bind (step_bind (step_bind (step_optional (den_h16Prefix pl 3)) (step_concat (den_colonColon pl)))
    (step_concat (den_h16Colon pl))) (step_concat (den_ls32 pl)))
theorem den_ipv6r7 : Denotes pl (Grammar.ipv6r7 pl) ipv6r7 :=
  den_matched (step_bind (step_bind (step_optional (den_h16Prefix pl 4)) (step_concat (den_colonColon pl)))
    (step_concat (den_ls32 pl)))
theorem den_ipv6r8 : Denotes pl (Grammar.ipv6r8 pl) ipv6r8 :=
  den_matched (step_bind (step_bind (step_optional (den_h16Prefix pl 5)) (step_concat (den_colonColon pl)))
    (step_concat (den_h16 pl)))
theorem den_ipv6r9 : Denotes pl (Grammar.ipv6r9 pl) ipv6r9 :=
  den_matched (step_bind (step_optional (den_h16Prefix pl 6)) (step_concat (den_colonColon pl)))

theorem den_ipv6address : Denotes pl (Grammar.ipv6address pl) ipv6address :=
  den_matched (step_alternative (.cons (den_ipv6r1 pl) (.cons (den_ipv6r2 pl) (.cons (den_ipv6r3 pl)
    (.cons (den_ipv6r4 pl) (.cons (den_ipv6r5 pl) (.cons (den_ipv6r6 pl) (.cons (den_ipv6r7 pl)
    (.cons (den_ipv6r8 pl) (.cons (den_ipv6r9 pl) .nil))))))))))

theorem den_ipvfutureElem : Denotes pl (Grammar.ipvfutureElem pl) ipvfutureElem :=
  den_matched (step_alternative (.cons (den_unreserved pl) (.cons (den_subDelims pl)
    (.cons (den_colon pl) .nil))))

theorem den_ipvfuture : Denotes pl (Grammar.ipvfuture pl) ipvfuture :=
  den_matched (step_bind (step_bind (step_bind (step_concat (den_v pl)) (step_star den_hexdig nn_hexdig _ _))
    (step_concat (den_fullStop pl))) (step_star (den_ipvfutureElem pl) nn_ipvfutureElem _ _))

theorem den_ipLiteralInner : Denotes pl (Grammar.ipLiteralInner pl) ipLiteralInner :=
  den_matched (step_alternative (.cons (den_ipv6address pl) (.cons (den_ipvfuture pl) .nil)))

theorem den_ipLiteral : Denotes pl (Grammar.ipLiteral pl) ipLiteral :=
  den_matched (step_bind (step_bind (step_concat (den_lsb pl)) (step_concat (den_ipLiteralInner pl)))
    (step_concat (den_rsb pl)))

theorem den_host : Denotes pl (Grammar.host pl) host :=
  den_matched (step_alternative (.cons (den_ipLiteral pl) (.cons (den_ipv4address pl)
    (.cons (den_regName pl) .nil))))

theorem den_hostRule : Denotes pl (Grammar.hostRule pl) hostRule :=
  den_matched (step_concatA (den_host pl) _)

theorem den_userinfoAt : Denotes pl (Grammar.userinfoAt pl) userinfoAt :=
  den_matched (step_bind (step_concatA (den_userinfo pl) _) (step_concat (den_commercialAt pl)))

theorem den_port : Denotes pl (Grammar.port pl) port :=
  den_matched (step_star den_digit (nonNull_chr _) _ _)

theorem den_colonPort : Denotes pl (Grammar.colonPort pl) colonPort :=
  den_matched (step_bind (step_concat (den_colon pl)) (step_concatA (den_port pl) _))

theorem den_authority : Denotes pl (Grammar.authority pl) authority :=
  den_matched (step_bind (step_bind (step_optional (den_userinfoAt pl)) (step_concat (den_hostRule pl)))
    (step_optional (den_colonPort pl)))

theorem den_segment : Denotes pl (Grammar.segment pl) segment :=
  den_matched (step_star (den_pchar pl) nn_pchar _ _)

theorem den_segmentNz : Denotes pl (Grammar.segmentNz pl) segmentNz :=
  den_matched (step_star (den_pchar pl) nn_pchar _ _)

theorem den_segmentNzNcElem : Denotes pl (Grammar.segmentNzNcElem pl) segmentNzNcElem :=
  den_matched (step_alternative (.cons (den_unreserved pl) (.cons (den_pctEncoded pl)
    (.cons (den_subDelims pl) (.cons (den_commercialAt pl) .nil)))))

theorem den_segmentNzNc : Denotes pl (Grammar.segmentNzNc pl) segmentNzNc :=
  den_matched (step_star (den_segmentNzNcElem pl) nn_segmentNzNcElem _ _)

theorem den_slashSegment (b) : Denotes pl (Grammar.slashSegment pl b) (slashSegment b) :=
  den_matched (step_bind (step_concatA (den_solidus pl) _) (step_concatA (den_segment pl) _))

theorem den_pathAbempty : Denotes pl (Grammar.pathAbempty pl) pathAbempty :=
  den_matched (step_star (den_slashSegment pl true) (nn_slashSegment _) _ _)

theorem den_pathAbsoluteTail : Denotes pl (Grammar.pathAbsoluteTail pl) pathAbsoluteTail :=
  den_matched (step_bind (step_concatA (den_segmentNz pl) _)
    (step_star (den_slashSegment pl false) (nn_slashSegment _) _ _))

theorem den_pathAbsolute : Denotes pl (Grammar.pathAbsolute pl) pathAbsolute :=
  den_matched (step_bind (step_concatA (den_solidus pl) _) (step_optional (den_pathAbsoluteTail pl)))

theorem den_pathNoscheme : Denotes pl (Grammar.pathNoscheme pl) pathNoscheme :=
  den_matched (step_bind (step_concatA (den_segmentNzNc pl) _)
    (step_star (den_slashSegment pl false) (nn_slashSegment _) _ _))

theorem den_pathEmpty : Denotes pl (Grammar.pathEmpty pl) pathEmpty :=
  den_matched (step_star (den_pchar pl) nn_pchar _ _)

theorem den_pathRootless : Denotes pl (Grammar.pathRootless pl) pathRootless :=
  den_matched (step_bind (step_concatA (den_segmentNz pl) _)
    (step_star (den_slashSegment pl false) (nn_slashSegment _) _ _))

theorem den_authAbempty : Denotes pl (Grammar.authAbempty pl) authAbempty :=
  den_matched (step_bind (step_bind (step_bind (step_concat (den_solidus pl)) (step_concat (den_solidus pl)))
    (step_concat (den_authority pl))) (step_concat (den_pathAbempty pl)))

theorem den_relativePart : Denotes pl (Grammar.relativePart pl) relativePart :=
  den_matched (step_alternative (.cons (den_authAbempty pl) (.cons (den_pathAbsolute pl)
    (.cons (den_pathNoscheme pl) (.cons (den_pathEmpty pl) .nil)))))

theorem den_queryElem : Denotes pl (Grammar.queryElem pl) queryElem :=
  den_matched (step_alternative (.cons (den_pchar pl) (.cons (den_solidus pl)
    (.cons (den_questionMark pl) .nil))))

theorem den_query : Denotes pl (Grammar.query pl) query :=
  den_matched (step_star (den_queryElem pl) nn_queryElem _ _)

theorem den_fragment : Denotes pl (Grammar.fragment pl) query := den_query pl

theorem den_questionQuery : Denotes pl (Grammar.questionQuery pl) questionQuery :=
  den_matched (step_bind (step_concat (den_questionMark pl)) (step_concatA (den_query pl) _))

theorem den_hashFragment : Denotes pl (Grammar.hashFragment pl) hashFragment :=
  den_matched (step_bind (step_concat (den_hash pl)) (step_concatA (den_fragment pl) _))

theorem den_relativeRef : Denotes pl (Grammar.relativeRef pl) relativeRef :=
  den_matched (step_bind (step_bind (step_concat (den_relativePart pl))
    (step_optional (den_questionQuery pl))) (step_optional (den_hashFragment pl)))

theorem den_hierPart : Denotes pl (Grammar.hierPart pl) hierPart :=
  den_matched (step_alternative (.cons (den_authAbempty pl) (.cons (den_pathAbsolute pl)
    (.cons (den_pathRootless pl) (.cons (den_pathEmpty pl) .nil)))))

theorem den_URI : Denotes pl (Grammar.URI pl) URI :=
  den_matched (step_bind (step_bind (step_bind (step_bind (step_concatA (den_scheme pl) _)
    (step_concat (den_colon pl))) (step_concat (den_hierPart pl))) (step_optional (den_questionQuery pl)))
    (step_optional (den_hashFragment pl)))

theorem den_URIReference : Denotes pl (Grammar.URIReference pl) URIReference :=
  den_matched (step_alternative (.cons (den_URI pl) (.cons (den_relativeRef pl) .nil)))

end
end PG
end Verif
