import Verif.Proofs.Cost

/-!
# The grammar as data is the grammar of the model
-/

namespace Verif.Cost.Uri
open Verif.Cost Rule

set_option linter.unusedSimpArgs false

theorem tolower_ascii (pl : Plat) (c : UInt8) (h : c.toNat < 0x80) : tolower pl c = .ok (toLowerB c) := by
  simp [tolower, ctype, ctypeOk, h]

theorem run_ch (pl : Plat) (c : UInt8) (h : c.toNat < 0x80) : (ch pl c).run = Grammar.singleCodePoint pl c := by
  funext r
  simp only [ch, Gr.run, Grammar.singleCodePoint, Rule.singleChar, tolower_ascii pl c h]
  rfl

theorem run_range (pl : Plat) (a b : UInt8) (ha : a.toNat < 0x80) (hb : b.toNat < 0x80) : (range pl a b).run = Rule.charRange pl a b := by
  funext r
  simp only [range, Gr.run, Rule.charRange, tolower_ascii pl a ha, tolower_ascii pl b hb]
  rfl

theorem run_notColon : notColon.run = Grammar.notColon := by
  funext r
  simp only [notColon, Gr.run, lookM, Grammar.notColon]
  cases r.tail with
  | none => rfl
  | some sv =>
    obtain ⟨p, l⟩ := sv
    cases l with
    | nil => rfl
    | cons c l => by_cases h : c = 0x3A <;> simp [h]

theorem run_alpha (pl : Plat) : (alpha pl).run = Rule.alpha pl := rfl
theorem run_digit (pl : Plat) : (digit pl).run = Rule.digit pl := rfl
theorem run_hexdig (pl : Plat) : (hexdig pl).run = Rule.hexdig pl := rfl
theorem run_commercialAt (pl : Plat) : (commercialAt pl).run = Grammar.commercialAt pl := run_ch pl _ (by decide)
theorem run_colon (pl : Plat) : (colon pl).run = Grammar.colon pl := run_ch pl _ (by decide)
theorem run_hash (pl : Plat) : (hash pl).run = Grammar.hash pl := run_ch pl _ (by decide)
theorem run_plus (pl : Plat) : (plus pl).run = Grammar.plus pl := run_ch pl _ (by decide)
theorem run_minus (pl : Plat) : (minus pl).run = Grammar.minus pl := run_ch pl _ (by decide)
theorem run_solidus (pl : Plat) : (solidus pl).run = Grammar.solidus pl := run_ch pl _ (by decide)
theorem run_questionMark (pl : Plat) : (questionMark pl).run = Grammar.questionMark pl := run_ch pl _ (by decide)
theorem run_fullStop (pl : Plat) : (fullStop pl).run = Grammar.fullStop pl := run_ch pl _ (by decide)
theorem run_leftSquareBracket (pl : Plat) : (leftSquareBracket pl).run = Grammar.leftSquareBracket pl := run_ch pl _ (by decide)
theorem run_rightSquareBracket (pl : Plat) : (rightSquareBracket pl).run = Grammar.rightSquareBracket pl := run_ch pl _ (by decide)
theorem run_percentSign (pl : Plat) : (percentSign pl).run = Grammar.percentSign pl := run_ch pl _ (by decide)
theorem run_digitOne (pl : Plat) : (digitOne pl).run = Grammar.digitOne pl := run_ch pl _ (by decide)
theorem run_digitTwo (pl : Plat) : (digitTwo pl).run = Grammar.digitTwo pl := run_ch pl _ (by decide)
theorem run_digitFive (pl : Plat) : (digitFive pl).run = Grammar.digitFive pl := run_ch pl _ (by decide)
theorem run_latinSmallLetterV (pl : Plat) : (latinSmallLetterV pl).run = Grammar.latinSmallLetterV pl := run_ch pl _ (by decide)
theorem run_singleColon (pl : Plat) : (singleColon pl).run = Grammar.singleColon pl := by
  funext r
  simp only [singleColon, Grammar.singleColon, Gr.run, Chain.run, Alts.run, alts, run_colon, run_notColon]
  rfl
theorem run_subDelims : subDelims.run = Grammar.subDelims := rfl
theorem run_unreserved (pl : Plat) : (unreserved pl).run = Grammar.unreserved pl := rfl
theorem run_pctEncoded (pl : Plat) : (pctEncoded pl).run = Grammar.pctEncoded pl := by
  funext r
  simp only [pctEncoded, Grammar.pctEncoded, Gr.run, Chain.run, Alts.run, alts, run_hexdig, run_percentSign]
  rfl
theorem run_pchar (pl : Plat) : (pchar pl).run = Grammar.pchar pl := by
  funext r
  simp only [pchar, Grammar.pchar, Gr.run, Chain.run, Alts.run, alts, run_commercialAt, run_colon, run_subDelims, run_unreserved, run_pctEncoded]
  rfl
theorem run_userinfoElem (pl : Plat) : (userinfoElem pl).run = Grammar.userinfoElem pl := by
  funext r
  simp only [userinfoElem, Grammar.userinfoElem, Gr.run, Chain.run, Alts.run, alts, run_colon, run_subDelims, run_unreserved, run_pctEncoded]
  rfl
theorem run_userinfo (pl : Plat) : (userinfo pl).run = Grammar.userinfo pl := by
  funext r
  simp only [userinfo, Grammar.userinfo, Gr.run, Chain.run, Alts.run, alts, run_userinfoElem]
  rfl
theorem run_schemeElem (pl : Plat) : (schemeElem pl).run = Grammar.schemeElem pl := by
  funext r
  simp only [schemeElem, Grammar.schemeElem, Gr.run, Chain.run, Alts.run, alts, run_alpha, run_digit, run_plus, run_minus, run_fullStop]
  rfl
theorem run_scheme (pl : Plat) : (scheme pl).run = Grammar.scheme pl := by
  funext r
  simp only [scheme, Grammar.scheme, Gr.run, Chain.run, Alts.run, alts, run_alpha, run_schemeElem]
  rfl
theorem run_regNameElem (pl : Plat) : (regNameElem pl).run = Grammar.regNameElem pl := by
  funext r
  simp only [regNameElem, Grammar.regNameElem, Gr.run, Chain.run, Alts.run, alts, run_subDelims, run_unreserved, run_pctEncoded]
  rfl
theorem run_regName (pl : Plat) : (regName pl).run = Grammar.regName pl := by
  funext r
  simp only [regName, Grammar.regName, Gr.run, Chain.run, Alts.run, alts, run_regNameElem]
  rfl
theorem run_octet25 (pl : Plat) : (octet25 pl).run = Grammar.octet25 pl := by
  funext r
  simp only [octet25, Grammar.octet25, Gr.run, Chain.run, Alts.run, alts, run_range pl 0x30 0x35 (by decide) (by decide), run_digitTwo, run_digitFive]
  rfl
theorem run_octet2 (pl : Plat) : (octet2 pl).run = Grammar.octet2 pl := by
  funext r
  simp only [octet2, Grammar.octet2, Gr.run, Chain.run, Alts.run, alts, run_range pl 0x30 0x34 (by decide) (by decide), run_digit, run_digitTwo]
  rfl
theorem run_octet1 (pl : Plat) : (octet1 pl).run = Grammar.octet1 pl := by
  funext r
  simp only [octet1, Grammar.octet1, Gr.run, Chain.run, Alts.run, alts, run_digit, run_digitOne]
  rfl
theorem run_octetXX (pl : Plat) : (octetXX pl).run = Grammar.octetXX pl := by
  funext r
  simp only [octetXX, Grammar.octetXX, Gr.run, Chain.run, Alts.run, alts, run_range pl 0x31 0x39 (by decide) (by decide), run_digit]
  rfl
theorem run_decOctet (pl : Plat) : (decOctet pl).run = Grammar.decOctet pl := by
  funext r
  simp only [decOctet, Grammar.decOctet, Gr.run, Chain.run, Alts.run, alts, run_digit, run_octet25, run_octet2, run_octet1, run_octetXX]
  rfl
theorem run_ipv4address (pl : Plat) : (ipv4address pl).run = Grammar.ipv4address pl := by
  funext r
  simp only [ipv4address, Grammar.ipv4address, Gr.run, Chain.run, Alts.run, alts, run_fullStop, run_decOctet]
  rfl
theorem run_h16 (pl : Plat) : (h16 pl).run = Grammar.h16 pl := by
  funext r
  simp only [h16, Grammar.h16, Gr.run, Chain.run, Alts.run, alts, run_hexdig]
  rfl
theorem run_h16Colon (pl : Plat) : (h16Colon pl).run = Grammar.h16Colon pl := by
  funext r
  simp only [h16Colon, Grammar.h16Colon, Gr.run, Chain.run, Alts.run, alts, run_singleColon, run_h16]
  rfl
theorem run_colonColon (pl : Plat) : (colonColon pl).run = Grammar.colonColon pl := by
  funext r
  simp only [colonColon, Grammar.colonColon, Gr.run, Chain.run, Alts.run, alts, run_colon]
  rfl
theorem run_h16h16 (pl : Plat) : (h16h16 pl).run = Grammar.h16h16 pl := by
  funext r
  simp only [h16h16, Grammar.h16h16, Gr.run, Chain.run, Alts.run, alts, run_colon, run_h16]
  rfl
theorem run_ls32 (pl : Plat) : (ls32 pl).run = Grammar.ls32 pl := by
  funext r
  simp only [ls32, Grammar.ls32, Gr.run, Chain.run, Alts.run, alts, run_ipv4address, run_h16h16]
  rfl
theorem run_h16Prefix (pl : Plat) (n : Nat) : (h16Prefix pl n).run = Grammar.h16Prefix pl n := by
  funext r
  simp only [h16Prefix, Grammar.h16Prefix, Gr.run, Chain.run, Alts.run, alts, run_h16, run_h16Colon]
  rfl
theorem run_ipv6r1 (pl : Plat) : (ipv6r1 pl).run = Grammar.ipv6r1 pl := by
  funext r
  simp only [ipv6r1, Grammar.ipv6r1, Gr.run, Chain.run, Alts.run, alts, run_h16Colon, run_ls32]
  rfl
theorem run_ipv6r2 (pl : Plat) : (ipv6r2 pl).run = Grammar.ipv6r2 pl := by
  funext r
  simp only [ipv6r2, Grammar.ipv6r2, Gr.run, Chain.run, Alts.run, alts, run_h16Colon, run_colonColon, run_ls32]
  rfl
theorem run_ipv6r3 (pl : Plat) : (ipv6r3 pl).run = Grammar.ipv6r3 pl := by
  funext r
  simp only [ipv6r3, Grammar.ipv6r3, Gr.run, Chain.run, Alts.run, alts, run_h16, run_h16Colon, run_colonColon, run_ls32]
  rfl
theorem run_ipv6r4 (pl : Plat) : (ipv6r4 pl).run = Grammar.ipv6r4 pl := by
  funext r
  simp only [ipv6r4, Grammar.ipv6r4, Gr.run, Chain.run, Alts.run, alts, run_h16Colon, run_colonColon, run_ls32, run_h16Prefix]
  rfl
theorem run_ipv6r5 (pl : Plat) : (ipv6r5 pl).run = Grammar.ipv6r5 pl := by
  funext r
  simp only [ipv6r5, Grammar.ipv6r5, Gr.run, Chain.run, Alts.run, alts, run_h16Colon, run_colonColon, run_ls32, run_h16Prefix]
  rfl
theorem run_ipv6r6 (pl : Plat) : (ipv6r6 pl).run = Grammar.ipv6r6 pl := by
  funext r
  simp only [ipv6r6, Grammar.ipv6r6, Gr.run, Chain.run, Alts.run, alts, run_h16Colon, run_colonColon, run_ls32, run_h16Prefix]
  rfl
theorem run_ipv6r7 (pl : Plat) : (ipv6r7 pl).run = Grammar.ipv6r7 pl := by
  funext r
  simp only [ipv6r7, Grammar.ipv6r7, Gr.run, Chain.run, Alts.run, alts, run_colonColon, run_ls32, run_h16Prefix]
  rfl
theorem run_ipv6r8 (pl : Plat) : (ipv6r8 pl).run = Grammar.ipv6r8 pl := by
  funext r
  simp only [ipv6r8, Grammar.ipv6r8, Gr.run, Chain.run, Alts.run, alts, run_h16, run_colonColon, run_h16Prefix]
  rfl
theorem run_ipv6r9 (pl : Plat) : (ipv6r9 pl).run = Grammar.ipv6r9 pl := by
  funext r
  simp only [ipv6r9, Grammar.ipv6r9, Gr.run, Chain.run, Alts.run, alts, run_colonColon, run_h16Prefix]
  rfl
theorem run_ipv6address (pl : Plat) : (ipv6address pl).run = Grammar.ipv6address pl := by
  funext r
  simp only [ipv6address, Grammar.ipv6address, Gr.run, Chain.run, Alts.run, alts, run_ipv6r1, run_ipv6r2, run_ipv6r3, run_ipv6r4, run_ipv6r5, run_ipv6r6, run_ipv6r7, run_ipv6r8, run_ipv6r9]
  rfl
theorem run_ipvfutureElem (pl : Plat) : (ipvfutureElem pl).run = Grammar.ipvfutureElem pl := by
  funext r
  simp only [ipvfutureElem, Grammar.ipvfutureElem, Gr.run, Chain.run, Alts.run, alts, run_colon, run_subDelims, run_unreserved]
  rfl
theorem run_ipvfuture (pl : Plat) : (ipvfuture pl).run = Grammar.ipvfuture pl := by
  funext r
  simp only [ipvfuture, Grammar.ipvfuture, Gr.run, Chain.run, Alts.run, alts, run_hexdig, run_fullStop, run_latinSmallLetterV, run_ipvfutureElem]
  rfl
theorem run_ipLiteralInner (pl : Plat) : (ipLiteralInner pl).run = Grammar.ipLiteralInner pl := by
  funext r
  simp only [ipLiteralInner, Grammar.ipLiteralInner, Gr.run, Chain.run, Alts.run, alts, run_ipv6address, run_ipvfuture]
  rfl
theorem run_ipLiteral (pl : Plat) : (ipLiteral pl).run = Grammar.ipLiteral pl := by
  funext r
  simp only [ipLiteral, Grammar.ipLiteral, Gr.run, Chain.run, Alts.run, alts, run_leftSquareBracket, run_rightSquareBracket, run_ipLiteralInner]
  rfl
theorem run_host (pl : Plat) : (host pl).run = Grammar.host pl := by
  funext r
  simp only [host, Grammar.host, Gr.run, Chain.run, Alts.run, alts, run_regName, run_ipv4address, run_ipLiteral]
  rfl
theorem run_hostRule (pl : Plat) : (hostRule pl).run = Grammar.hostRule pl := by
  funext r
  simp only [hostRule, Grammar.hostRule, Gr.run, Chain.run, Alts.run, alts, run_host]
  rfl
theorem run_userinfoAt (pl : Plat) : (userinfoAt pl).run = Grammar.userinfoAt pl := by
  funext r
  simp only [userinfoAt, Grammar.userinfoAt, Gr.run, Chain.run, Alts.run, alts, run_commercialAt, run_userinfo]
  rfl
theorem run_port (pl : Plat) : (port pl).run = Grammar.port pl := by
  funext r
  simp only [port, Grammar.port, Gr.run, Chain.run, Alts.run, alts, run_digit]
  rfl
theorem run_colonPort (pl : Plat) : (colonPort pl).run = Grammar.colonPort pl := by
  funext r
  simp only [colonPort, Grammar.colonPort, Gr.run, Chain.run, Alts.run, alts, run_colon, run_port]
  rfl
theorem run_authority (pl : Plat) : (authority pl).run = Grammar.authority pl := by
  funext r
  simp only [authority, Grammar.authority, Gr.run, Chain.run, Alts.run, alts, run_hostRule, run_userinfoAt, run_colonPort]
  rfl
theorem run_segment (pl : Plat) : (segment pl).run = Grammar.segment pl := by
  funext r
  simp only [segment, Grammar.segment, Gr.run, Chain.run, Alts.run, alts, run_pchar]
  rfl
theorem run_segmentNz (pl : Plat) : (segmentNz pl).run = Grammar.segmentNz pl := by
  funext r
  simp only [segmentNz, Grammar.segmentNz, Gr.run, Chain.run, Alts.run, alts, run_pchar]
  rfl
theorem run_segmentNzNcElem (pl : Plat) : (segmentNzNcElem pl).run = Grammar.segmentNzNcElem pl := by
  funext r
  simp only [segmentNzNcElem, Grammar.segmentNzNcElem, Gr.run, Chain.run, Alts.run, alts, run_commercialAt, run_subDelims, run_unreserved, run_pctEncoded]
  rfl
theorem run_segmentNzNc (pl : Plat) : (segmentNzNc pl).run = Grammar.segmentNzNc pl := by
  funext r
  simp only [segmentNzNc, Grammar.segmentNzNc, Gr.run, Chain.run, Alts.run, alts, run_segmentNzNcElem]
  rfl
theorem run_slashSegment (pl : Plat) (isAbs : Bool) : (slashSegment pl isAbs).run = Grammar.slashSegment pl isAbs := by
  funext r
  simp only [slashSegment, Grammar.slashSegment, Gr.run, Chain.run, Alts.run, alts, run_solidus, run_segment]
  rfl
theorem run_pathAbempty (pl : Plat) : (pathAbempty pl).run = Grammar.pathAbempty pl := by
  funext r
  simp only [pathAbempty, Grammar.pathAbempty, Gr.run, Chain.run, Alts.run, alts, run_slashSegment]
  rfl
theorem run_pathAbsoluteTail (pl : Plat) : (pathAbsoluteTail pl).run = Grammar.pathAbsoluteTail pl := by
  funext r
  simp only [pathAbsoluteTail, Grammar.pathAbsoluteTail, Gr.run, Chain.run, Alts.run, alts, run_segmentNz, run_slashSegment]
  rfl
theorem run_pathAbsolute (pl : Plat) : (pathAbsolute pl).run = Grammar.pathAbsolute pl := by
  funext r
  simp only [pathAbsolute, Grammar.pathAbsolute, Gr.run, Chain.run, Alts.run, alts, run_solidus, run_pathAbsoluteTail]
  rfl
theorem run_pathNoscheme (pl : Plat) : (pathNoscheme pl).run = Grammar.pathNoscheme pl := by
  funext r
  simp only [pathNoscheme, Grammar.pathNoscheme, Gr.run, Chain.run, Alts.run, alts, run_segmentNzNc, run_slashSegment]
  rfl
theorem run_pathEmpty (pl : Plat) : (pathEmpty pl).run = Grammar.pathEmpty pl := by
  funext r
  simp only [pathEmpty, Grammar.pathEmpty, Gr.run, Chain.run, Alts.run, alts, run_pchar]
  rfl
theorem run_pathRootless (pl : Plat) : (pathRootless pl).run = Grammar.pathRootless pl := by
  funext r
  simp only [pathRootless, Grammar.pathRootless, Gr.run, Chain.run, Alts.run, alts, run_segmentNz, run_slashSegment]
  rfl
theorem run_authAbempty (pl : Plat) : (authAbempty pl).run = Grammar.authAbempty pl := by
  funext r
  simp only [authAbempty, Grammar.authAbempty, Gr.run, Chain.run, Alts.run, alts, run_solidus, run_authority, run_pathAbempty]
  rfl
theorem run_relativePart (pl : Plat) : (relativePart pl).run = Grammar.relativePart pl := by
  funext r
  simp only [relativePart, Grammar.relativePart, Gr.run, Chain.run, Alts.run, alts, run_pathAbsolute, run_pathNoscheme, run_pathEmpty, run_authAbempty]
  rfl
theorem run_queryElem (pl : Plat) : (queryElem pl).run = Grammar.queryElem pl := by
  funext r
  simp only [queryElem, Grammar.queryElem, Gr.run, Chain.run, Alts.run, alts, run_solidus, run_questionMark, run_pchar]
  rfl
theorem run_query (pl : Plat) : (query pl).run = Grammar.query pl := by
  funext r
  simp only [query, Grammar.query, Gr.run, Chain.run, Alts.run, alts, run_queryElem]
  rfl
theorem run_questionQuery (pl : Plat) : (questionQuery pl).run = Grammar.questionQuery pl := by
  funext r
  simp only [questionQuery, Grammar.questionQuery, Gr.run, Chain.run, Alts.run, alts, run_questionMark, run_query]
  rfl
theorem run_fragment (pl : Plat) : (fragment pl).run = Grammar.fragment pl := run_query pl
theorem run_hashFragment (pl : Plat) : (hashFragment pl).run = Grammar.hashFragment pl := by
  funext r
  simp only [hashFragment, Grammar.hashFragment, Gr.run, Chain.run, Alts.run, alts, run_hash, run_fragment]
  rfl
theorem run_relativeRef (pl : Plat) : (relativeRef pl).run = Grammar.relativeRef pl := by
  funext r
  simp only [relativeRef, Grammar.relativeRef, Gr.run, Chain.run, Alts.run, alts, run_relativePart, run_questionQuery, run_hashFragment]
  rfl
theorem run_hierPart (pl : Plat) : (hierPart pl).run = Grammar.hierPart pl := by
  funext r
  simp only [hierPart, Grammar.hierPart, Gr.run, Chain.run, Alts.run, alts, run_pathAbsolute, run_pathEmpty, run_pathRootless, run_authAbempty]
  rfl
theorem run_URI (pl : Plat) : (URI pl).run = Grammar.URI pl := by
  funext r
  simp only [URI, Grammar.URI, Gr.run, Chain.run, Alts.run, alts, run_colon, run_scheme, run_questionQuery, run_hashFragment, run_hierPart]
  rfl
theorem run_URIReference (pl : Plat) : (URIReference pl).run = Grammar.URIReference pl := by
  funext r
  simp only [URIReference, Grammar.URIReference, Gr.run, Chain.run, Alts.run, alts, run_relativeRef, run_URI]
  rfl

end Verif.Cost.Uri
