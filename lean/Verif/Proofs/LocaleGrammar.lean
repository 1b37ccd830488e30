import Verif.Proofs.Locale

/-!
# The grammar of the URI library in a locale and in the "C" locale
-/

namespace Verif.Loc
open Cost (Gr Chain Alts)
open Cost.Uri (alts)

variable {P : UInt8 → Prop} {f : UInt8 → UInt8} {e : Env}

/-- The characters named in the grammar. -/
def named : List UInt8 := [0x40, 0x3A, 0x23, 0x2B, 0x2D, 0x2F, 0x3F, 0x2E, 0x5B, 0x5D, 0x25, 0x31, 0x32, 0x35, 0x76]
/-- The ranges of characters named in the grammar. -/
def ranges : List (UInt8 × UInt8) := [(0x30, 0x35), (0x30, 0x34), (0x31, 0x39)]

/-- The tests of single characters correspond. -/
structure Fits (P : UInt8 → Prop) (f : UInt8 → UInt8) (e : Env) : Prop where
  ch : ∀ c ∈ named, SimG P f (ch e c) (Cost.Uri.ch e.pl c)
  range : ∀ c ∈ ranges, SimG P f (range e c.1 c.2) (Cost.Uri.range e.pl c.1 c.2)
  alpha : SimG P f (alpha e) (Cost.Uri.alpha e.pl)
  digit : SimG P f (digit e) (Cost.Uri.digit e.pl)
  hexdig : SimG P f (hexdig e) (Cost.Uri.hexdig e.pl)
  unreserved : SimG P f (unreserved e) (Cost.Uri.unreserved e.pl)
  subDelims : SimG P f subDelims Cost.Uri.subDelims
  notColon : SimG P f notColon Cost.Uri.notColon

theorem sim_commercialAt (h : Fits P f e) : SimG P f (commercialAt e) (Cost.Uri.commercialAt e.pl) := h.ch _ (by decide)
theorem sim_colon (h : Fits P f e) : SimG P f (colon e) (Cost.Uri.colon e.pl) := h.ch _ (by decide)
theorem sim_hash (h : Fits P f e) : SimG P f (hash e) (Cost.Uri.hash e.pl) := h.ch _ (by decide)
theorem sim_plus (h : Fits P f e) : SimG P f (plus e) (Cost.Uri.plus e.pl) := h.ch _ (by decide)
theorem sim_minus (h : Fits P f e) : SimG P f (minus e) (Cost.Uri.minus e.pl) := h.ch _ (by decide)
theorem sim_solidus (h : Fits P f e) : SimG P f (solidus e) (Cost.Uri.solidus e.pl) := h.ch _ (by decide)
theorem sim_questionMark (h : Fits P f e) : SimG P f (questionMark e) (Cost.Uri.questionMark e.pl) := h.ch _ (by decide)
theorem sim_fullStop (h : Fits P f e) : SimG P f (fullStop e) (Cost.Uri.fullStop e.pl) := h.ch _ (by decide)
theorem sim_leftSquareBracket (h : Fits P f e) : SimG P f (leftSquareBracket e) (Cost.Uri.leftSquareBracket e.pl) := h.ch _ (by decide)
theorem sim_rightSquareBracket (h : Fits P f e) : SimG P f (rightSquareBracket e) (Cost.Uri.rightSquareBracket e.pl) := h.ch _ (by decide)
theorem sim_percentSign (h : Fits P f e) : SimG P f (percentSign e) (Cost.Uri.percentSign e.pl) := h.ch _ (by decide)
theorem sim_digitOne (h : Fits P f e) : SimG P f (digitOne e) (Cost.Uri.digitOne e.pl) := h.ch _ (by decide)
theorem sim_digitTwo (h : Fits P f e) : SimG P f (digitTwo e) (Cost.Uri.digitTwo e.pl) := h.ch _ (by decide)
theorem sim_digitFive (h : Fits P f e) : SimG P f (digitFive e) (Cost.Uri.digitFive e.pl) := h.ch _ (by decide)
theorem sim_latinSmallLetterV (h : Fits P f e) : SimG P f (latinSmallLetterV e) (Cost.Uri.latinSmallLetterV e.pl) := h.ch _ (by decide)
theorem sim_singleColon (h : Fits P f e) : SimG P f (singleColon e) (Cost.Uri.singleColon e.pl) := by
  simp only [singleColon, Cost.Uri.singleColon, alts]
  repeat' first | exact sim_colon h | exact h.notColon | constructor
theorem sim_pctEncoded (h : Fits P f e) : SimG P f (pctEncoded e) (Cost.Uri.pctEncoded e.pl) := by
  simp only [pctEncoded, Cost.Uri.pctEncoded, alts]
  repeat' first | exact sim_percentSign h | exact h.hexdig | constructor
theorem sim_pchar (h : Fits P f e) : SimG P f (pchar e) (Cost.Uri.pchar e.pl) := by
  simp only [pchar, Cost.Uri.pchar, alts]
  repeat' first | exact h.unreserved | exact sim_pctEncoded h | exact h.subDelims | exact sim_colon h | exact sim_commercialAt h | constructor
theorem sim_userinfoElem (h : Fits P f e) : SimG P f (userinfoElem e) (Cost.Uri.userinfoElem e.pl) := by
  simp only [userinfoElem, Cost.Uri.userinfoElem, alts]
  repeat' first | exact h.unreserved | exact sim_pctEncoded h | exact h.subDelims | exact sim_colon h | constructor
theorem sim_userinfo (h : Fits P f e) : SimG P f (userinfo e) (Cost.Uri.userinfo e.pl) := by
  simp only [userinfo, Cost.Uri.userinfo, alts]
  repeat' first | exact sim_userinfoElem h | constructor
theorem sim_schemeElem (h : Fits P f e) : SimG P f (schemeElem e) (Cost.Uri.schemeElem e.pl) := by
  simp only [schemeElem, Cost.Uri.schemeElem, alts]
  repeat' first | exact h.alpha | exact h.digit | exact sim_plus h | exact sim_minus h | exact sim_fullStop h | constructor
theorem sim_scheme (h : Fits P f e) : SimG P f (scheme e) (Cost.Uri.scheme e.pl) := by
  simp only [scheme, Cost.Uri.scheme, alts]
  repeat' first | exact h.alpha | exact sim_schemeElem h | constructor
theorem sim_regNameElem (h : Fits P f e) : SimG P f (regNameElem e) (Cost.Uri.regNameElem e.pl) := by
  simp only [regNameElem, Cost.Uri.regNameElem, alts]
  repeat' first | exact h.unreserved | exact sim_pctEncoded h | exact h.subDelims | constructor
theorem sim_regName (h : Fits P f e) : SimG P f (regName e) (Cost.Uri.regName e.pl) := by
  simp only [regName, Cost.Uri.regName, alts]
  repeat' first | exact sim_regNameElem h | constructor
theorem sim_octet25 (h : Fits P f e) : SimG P f (octet25 e) (Cost.Uri.octet25 e.pl) := by
  simp only [octet25, Cost.Uri.octet25, alts]
  repeat' first | exact sim_digitTwo h | exact sim_digitFive h | exact h.range (0x30, 0x35) (by decide) | constructor
theorem sim_octet2 (h : Fits P f e) : SimG P f (octet2 e) (Cost.Uri.octet2 e.pl) := by
  simp only [octet2, Cost.Uri.octet2, alts]
  repeat' first | exact sim_digitTwo h | exact h.range (0x30, 0x34) (by decide) | exact h.digit | constructor
theorem sim_octet1 (h : Fits P f e) : SimG P f (octet1 e) (Cost.Uri.octet1 e.pl) := by
  simp only [octet1, Cost.Uri.octet1, alts]
  repeat' first | exact sim_digitOne h | exact h.digit | constructor
theorem sim_octetXX (h : Fits P f e) : SimG P f (octetXX e) (Cost.Uri.octetXX e.pl) := by
  simp only [octetXX, Cost.Uri.octetXX, alts]
  repeat' first | exact h.range (0x31, 0x39) (by decide) | exact h.digit | constructor
theorem sim_decOctet (h : Fits P f e) : SimG P f (decOctet e) (Cost.Uri.decOctet e.pl) := by
  simp only [decOctet, Cost.Uri.decOctet, alts]
  repeat' first | exact sim_octet25 h | exact sim_octet2 h | exact sim_octet1 h | exact sim_octetXX h | exact h.digit | constructor
theorem sim_ipv4address (h : Fits P f e) : SimG P f (ipv4address e) (Cost.Uri.ipv4address e.pl) := by
  simp only [ipv4address, Cost.Uri.ipv4address, alts]
  repeat' first | exact sim_decOctet h | exact sim_fullStop h | constructor
theorem sim_h16 (h : Fits P f e) : SimG P f (h16 e) (Cost.Uri.h16 e.pl) := by
  simp only [h16, Cost.Uri.h16, alts]
  repeat' first | exact h.hexdig | constructor
theorem sim_h16Colon (h : Fits P f e) : SimG P f (h16Colon e) (Cost.Uri.h16Colon e.pl) := by
  simp only [h16Colon, Cost.Uri.h16Colon, alts]
  repeat' first | exact sim_h16 h | exact sim_singleColon h | constructor
theorem sim_colonColon (h : Fits P f e) : SimG P f (colonColon e) (Cost.Uri.colonColon e.pl) := by
  simp only [colonColon, Cost.Uri.colonColon, alts]
  repeat' first | exact sim_colon h | constructor
theorem sim_h16h16 (h : Fits P f e) : SimG P f (h16h16 e) (Cost.Uri.h16h16 e.pl) := by
  simp only [h16h16, Cost.Uri.h16h16, alts]
  repeat' first | exact sim_h16 h | exact sim_colon h | constructor
theorem sim_ls32 (h : Fits P f e) : SimG P f (ls32 e) (Cost.Uri.ls32 e.pl) := by
  simp only [ls32, Cost.Uri.ls32, alts]
  repeat' first | exact sim_h16h16 h | exact sim_ipv4address h | constructor
theorem sim_h16Prefix (h : Fits P f e) (n : Nat) : SimG P f (h16Prefix e n) (Cost.Uri.h16Prefix e.pl n) := by
  simp only [h16Prefix, Cost.Uri.h16Prefix, alts]
  repeat' first | exact sim_h16Colon h | exact sim_h16 h | constructor
theorem sim_ipv6r1 (h : Fits P f e) : SimG P f (ipv6r1 e) (Cost.Uri.ipv6r1 e.pl) := by
  simp only [ipv6r1, Cost.Uri.ipv6r1, alts]
  repeat' first | exact sim_h16Colon h | exact sim_ls32 h | constructor
theorem sim_ipv6r2 (h : Fits P f e) : SimG P f (ipv6r2 e) (Cost.Uri.ipv6r2 e.pl) := by
  simp only [ipv6r2, Cost.Uri.ipv6r2, alts]
  repeat' first | exact sim_colonColon h | exact sim_h16Colon h | exact sim_ls32 h | constructor
theorem sim_ipv6r3 (h : Fits P f e) : SimG P f (ipv6r3 e) (Cost.Uri.ipv6r3 e.pl) := by
  simp only [ipv6r3, Cost.Uri.ipv6r3, alts]
  repeat' first | exact sim_h16 h | exact sim_colonColon h | exact sim_h16Colon h | exact sim_ls32 h | constructor
theorem sim_ipv6r4 (h : Fits P f e) : SimG P f (ipv6r4 e) (Cost.Uri.ipv6r4 e.pl) := by
  simp only [ipv6r4, Cost.Uri.ipv6r4, alts]
  repeat' first | exact sim_h16Prefix h _ | exact sim_colonColon h | exact sim_h16Colon h | exact sim_ls32 h | constructor
theorem sim_ipv6r5 (h : Fits P f e) : SimG P f (ipv6r5 e) (Cost.Uri.ipv6r5 e.pl) := by
  simp only [ipv6r5, Cost.Uri.ipv6r5, alts]
  repeat' first | exact sim_h16Prefix h _ | exact sim_colonColon h | exact sim_h16Colon h | exact sim_ls32 h | constructor
theorem sim_ipv6r6 (h : Fits P f e) : SimG P f (ipv6r6 e) (Cost.Uri.ipv6r6 e.pl) := by
  simp only [ipv6r6, Cost.Uri.ipv6r6, alts]
  repeat' first | exact sim_h16Prefix h _ | exact sim_colonColon h | exact sim_h16Colon h | exact sim_ls32 h | constructor
theorem sim_ipv6r7 (h : Fits P f e) : SimG P f (ipv6r7 e) (Cost.Uri.ipv6r7 e.pl) := by
  simp only [ipv6r7, Cost.Uri.ipv6r7, alts]
  repeat' first | exact sim_h16Prefix h _ | exact sim_colonColon h | exact sim_ls32 h | constructor
theorem sim_ipv6r8 (h : Fits P f e) : SimG P f (ipv6r8 e) (Cost.Uri.ipv6r8 e.pl) := by
  simp only [ipv6r8, Cost.Uri.ipv6r8, alts]
  repeat' first | exact sim_h16Prefix h _ | exact sim_colonColon h | exact sim_h16 h | constructor
theorem sim_ipv6r9 (h : Fits P f e) : SimG P f (ipv6r9 e) (Cost.Uri.ipv6r9 e.pl) := by
  simp only [ipv6r9, Cost.Uri.ipv6r9, alts]
  repeat' first | exact sim_h16Prefix h _ | exact sim_colonColon h | constructor
theorem sim_ipv6address (h : Fits P f e) : SimG P f (ipv6address e) (Cost.Uri.ipv6address e.pl) := by
  simp only [ipv6address, Cost.Uri.ipv6address, alts]
  repeat' first | exact sim_ipv6r1 h | exact sim_ipv6r2 h | exact sim_ipv6r3 h | exact sim_ipv6r4 h | exact sim_ipv6r5 h | exact sim_ipv6r6 h | exact sim_ipv6r7 h | exact sim_ipv6r8 h | exact sim_ipv6r9 h | constructor
theorem sim_ipvfutureElem (h : Fits P f e) : SimG P f (ipvfutureElem e) (Cost.Uri.ipvfutureElem e.pl) := by
  simp only [ipvfutureElem, Cost.Uri.ipvfutureElem, alts]
  repeat' first | exact h.unreserved | exact h.subDelims | exact sim_colon h | constructor
theorem sim_ipvfuture (h : Fits P f e) : SimG P f (ipvfuture e) (Cost.Uri.ipvfuture e.pl) := by
  simp only [ipvfuture, Cost.Uri.ipvfuture, alts]
  repeat' first | exact sim_latinSmallLetterV h | exact h.hexdig | exact sim_fullStop h | exact sim_ipvfutureElem h | constructor
theorem sim_ipLiteralInner (h : Fits P f e) : SimG P f (ipLiteralInner e) (Cost.Uri.ipLiteralInner e.pl) := by
  simp only [ipLiteralInner, Cost.Uri.ipLiteralInner, alts]
  repeat' first | exact sim_ipv6address h | exact sim_ipvfuture h | constructor
theorem sim_ipLiteral (h : Fits P f e) : SimG P f (ipLiteral e) (Cost.Uri.ipLiteral e.pl) := by
  simp only [ipLiteral, Cost.Uri.ipLiteral, alts]
  repeat' first | exact sim_leftSquareBracket h | exact sim_ipLiteralInner h | exact sim_rightSquareBracket h | constructor
theorem sim_host (h : Fits P f e) : SimG P f (host e) (Cost.Uri.host e.pl) := by
  simp only [host, Cost.Uri.host, alts]
  repeat' first | exact sim_ipLiteral h | exact sim_ipv4address h | exact sim_regName h | constructor
theorem sim_hostRule (h : Fits P f e) : SimG P f (hostRule e) (Cost.Uri.hostRule e.pl) := by
  simp only [hostRule, Cost.Uri.hostRule, alts]
  repeat' first | exact sim_host h | constructor
theorem sim_userinfoAt (h : Fits P f e) : SimG P f (userinfoAt e) (Cost.Uri.userinfoAt e.pl) := by
  simp only [userinfoAt, Cost.Uri.userinfoAt, alts]
  repeat' first | exact sim_userinfo h | exact sim_commercialAt h | constructor
theorem sim_port (h : Fits P f e) : SimG P f (port e) (Cost.Uri.port e.pl) := by
  simp only [port, Cost.Uri.port, alts]
  repeat' first | exact h.digit | constructor
theorem sim_colonPort (h : Fits P f e) : SimG P f (colonPort e) (Cost.Uri.colonPort e.pl) := by
  simp only [colonPort, Cost.Uri.colonPort, alts]
  repeat' first | exact sim_colon h | exact sim_port h | constructor
theorem sim_authority (h : Fits P f e) : SimG P f (authority e) (Cost.Uri.authority e.pl) := by
  simp only [authority, Cost.Uri.authority, alts]
  repeat' first | exact sim_userinfoAt h | exact sim_hostRule h | exact sim_colonPort h | constructor
theorem sim_segment (h : Fits P f e) : SimG P f (segment e) (Cost.Uri.segment e.pl) := by
  simp only [segment, Cost.Uri.segment, alts]
  repeat' first | exact sim_pchar h | constructor
theorem sim_segmentNz (h : Fits P f e) : SimG P f (segmentNz e) (Cost.Uri.segmentNz e.pl) := by
  simp only [segmentNz, Cost.Uri.segmentNz, alts]
  repeat' first | exact sim_pchar h | constructor
theorem sim_segmentNzNcElem (h : Fits P f e) : SimG P f (segmentNzNcElem e) (Cost.Uri.segmentNzNcElem e.pl) := by
  simp only [segmentNzNcElem, Cost.Uri.segmentNzNcElem, alts]
  repeat' first | exact h.unreserved | exact sim_pctEncoded h | exact h.subDelims | exact sim_commercialAt h | constructor
theorem sim_segmentNzNc (h : Fits P f e) : SimG P f (segmentNzNc e) (Cost.Uri.segmentNzNc e.pl) := by
  simp only [segmentNzNc, Cost.Uri.segmentNzNc, alts]
  repeat' first | exact sim_segmentNzNcElem h | constructor
theorem sim_slashSegment (h : Fits P f e) (isAbs : Bool) : SimG P f (slashSegment e isAbs) (Cost.Uri.slashSegment e.pl isAbs) := by
  simp only [slashSegment, Cost.Uri.slashSegment, alts]
  repeat' first | exact sim_solidus h | exact sim_segment h | constructor
theorem sim_pathAbempty (h : Fits P f e) : SimG P f (pathAbempty e) (Cost.Uri.pathAbempty e.pl) := by
  simp only [pathAbempty, Cost.Uri.pathAbempty, alts]
  repeat' first | exact sim_slashSegment h _ | constructor
theorem sim_pathAbsoluteTail (h : Fits P f e) : SimG P f (pathAbsoluteTail e) (Cost.Uri.pathAbsoluteTail e.pl) := by
  simp only [pathAbsoluteTail, Cost.Uri.pathAbsoluteTail, alts]
  repeat' first | exact sim_segmentNz h | exact sim_slashSegment h _ | constructor
theorem sim_pathAbsolute (h : Fits P f e) : SimG P f (pathAbsolute e) (Cost.Uri.pathAbsolute e.pl) := by
  simp only [pathAbsolute, Cost.Uri.pathAbsolute, alts]
  repeat' first | exact sim_solidus h | exact sim_pathAbsoluteTail h | constructor
theorem sim_pathNoscheme (h : Fits P f e) : SimG P f (pathNoscheme e) (Cost.Uri.pathNoscheme e.pl) := by
  simp only [pathNoscheme, Cost.Uri.pathNoscheme, alts]
  repeat' first | exact sim_segmentNzNc h | exact sim_slashSegment h _ | constructor
theorem sim_pathEmpty (h : Fits P f e) : SimG P f (pathEmpty e) (Cost.Uri.pathEmpty e.pl) := by
  simp only [pathEmpty, Cost.Uri.pathEmpty, alts]
  repeat' first | exact sim_pchar h | constructor
theorem sim_pathRootless (h : Fits P f e) : SimG P f (pathRootless e) (Cost.Uri.pathRootless e.pl) := by
  simp only [pathRootless, Cost.Uri.pathRootless, alts]
  repeat' first | exact sim_segmentNz h | exact sim_slashSegment h _ | constructor
theorem sim_authAbempty (h : Fits P f e) : SimG P f (authAbempty e) (Cost.Uri.authAbempty e.pl) := by
  simp only [authAbempty, Cost.Uri.authAbempty, alts]
  repeat' first | exact sim_solidus h | exact sim_authority h | exact sim_pathAbempty h | constructor
theorem sim_relativePart (h : Fits P f e) : SimG P f (relativePart e) (Cost.Uri.relativePart e.pl) := by
  simp only [relativePart, Cost.Uri.relativePart, alts]
  repeat' first | exact sim_authAbempty h | exact sim_pathAbsolute h | exact sim_pathNoscheme h | exact sim_pathEmpty h | constructor
theorem sim_queryElem (h : Fits P f e) : SimG P f (queryElem e) (Cost.Uri.queryElem e.pl) := by
  simp only [queryElem, Cost.Uri.queryElem, alts]
  repeat' first | exact sim_pchar h | exact sim_solidus h | exact sim_questionMark h | constructor
theorem sim_query (h : Fits P f e) : SimG P f (query e) (Cost.Uri.query e.pl) := by
  simp only [query, Cost.Uri.query, alts]
  repeat' first | exact sim_queryElem h | constructor
theorem sim_questionQuery (h : Fits P f e) : SimG P f (questionQuery e) (Cost.Uri.questionQuery e.pl) := by
  simp only [questionQuery, Cost.Uri.questionQuery, alts]
  repeat' first | exact sim_questionMark h | exact sim_query h | constructor
theorem sim_fragment (h : Fits P f e) : SimG P f (fragment e) (Cost.Uri.fragment e.pl) := sim_query h
theorem sim_hashFragment (h : Fits P f e) : SimG P f (hashFragment e) (Cost.Uri.hashFragment e.pl) := by
  simp only [hashFragment, Cost.Uri.hashFragment, alts]
  repeat' first | exact sim_hash h | exact sim_fragment h | constructor
theorem sim_relativeRef (h : Fits P f e) : SimG P f (relativeRef e) (Cost.Uri.relativeRef e.pl) := by
  simp only [relativeRef, Cost.Uri.relativeRef, alts]
  repeat' first | exact sim_relativePart h | exact sim_questionQuery h | exact sim_hashFragment h | constructor
theorem sim_hierPart (h : Fits P f e) : SimG P f (hierPart e) (Cost.Uri.hierPart e.pl) := by
  simp only [hierPart, Cost.Uri.hierPart, alts]
  repeat' first | exact sim_authAbempty h | exact sim_pathAbsolute h | exact sim_pathRootless h | exact sim_pathEmpty h | constructor
theorem sim_URI (h : Fits P f e) : SimG P f (URI e) (Cost.Uri.URI e.pl) := by
  simp only [URI, Cost.Uri.URI, alts]
  repeat' first | exact sim_scheme h | exact sim_colon h | exact sim_hierPart h | exact sim_questionQuery h | exact sim_hashFragment h | constructor
theorem sim_URIReference (h : Fits P f e) : SimG P f (URIReference e) (Cost.Uri.URIReference e.pl) := by
  simp only [URIReference, Cost.Uri.URIReference, alts]
  repeat' first | exact sim_URI h | exact sim_relativeRef h | constructor

end Verif.Loc
