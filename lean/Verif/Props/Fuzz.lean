import Verif.Props.Pipeline
import Verif.Props.Punycode
import Verif.Props.Pct
import Verif.Props.Parse

/-!
# Property C70: the project's own fuzz targets, for every input

unittests/uri holds `FUZZ_TEST`s: functions of a random input with assertions in them, which the fuzzer runs for as long
as it is given.  Here each is a theorem over all inputs, its assertions being the conclusion.
-/

namespace Verif
open Codec PartsSpec Unicode

/-! ## test_uri.cpp -/

/-- `UriSplitNeverCrashes` (test_uri.cpp:1343-1348), on a platform where `char` is unsigned.  (Elsewhere there is the call of
a `<cctype>` function with a negative value, see C09, that implementations tolerate.) -/
theorem C70_split_never_crashes (pl : Plat) (hpl : pl.charSigned = false) (sv : SV) : ∃ o, split pl sv = .ok o := by
  cases h : split pl sv with
  | ok o => exact ⟨o, rfl⟩
  | error f =>
    have := (C09_parse_faults pl sv f (Or.inl h)).2.1
    rw [hpl] at this; cases this

/-- `SplitComposeEqual` (test_uri.cpp:1725-1732). -/
theorem C70_split_compose_equal (pl : Plat) (sv : SV) (p : Parts SV) (e : split pl sv = .ok (some p)) : compose p = sv.chars :=
  C05_compose_split pl sv p (Or.inl e)

example : (split x86 ⟨4096, b! "http://u@h:8/a/b?q#f"⟩).toOption.join.map compose = some (b! "http://u@h:8/a/b?q#f") := by decide +kernel

/-! ## test_pctdecode.cpp and test_pctencode.cpp -/

/-- `PctDecodeNeverCrashes` (test_pctdecode.cpp:81-87): the loop over the iterators ends, without reading out of bounds. -/
theorem C70_pctdecode_never_crashes (s : Str) : ∃ out, pctIterLoop s (pctdecodeEnd s) (s.length + 1) (pctdecodeBegin s) = .ok out := by
  rw [C27_begin_end s (s.length + 1) (by omega)]
  obtain ⟨d, h, _⟩ := C26_total s
  exact ⟨d, h⟩

/-- `PctDecodeViewNeverCrashes` (test_pctdecode.cpp:90-96). -/
theorem C70_pctdecode_view_never_crashes (s : Str) : ∃ out, pctViewCopy s = .ok out := by
  rw [C27_view s]
  obtain ⟨d, h, _⟩ := C26_total s
  exact ⟨d, h⟩

/-- `EncodeNeverCrashes` (test_pctencode.cpp:125-141), for the seven sets it draws from and all others. -/
theorem C70_pctencode_never_crashes (s : Str) (es : UInt8) : ∃ e, pctencode s es = .ok e := by
  by_cases h : es = EncSet.none
  · obtain ⟨e, he, _⟩ := C22_none s
    exact ⟨e, h ▸ he⟩
  · obtain ⟨e, he, _⟩ := C22_roundtrip s es h
    exact ⟨e, he⟩

/-- `RoundTrip` (test_pctencode.cpp:144-158): for the sets it draws from (`none` is not among them), what is read through the
decoding iterators over the encoded text is the text. -/
theorem C70_pct_round_trip (s : Str) (es : UInt8) (h : es ≠ EncSet.none) :
    ∃ e, pctencode s es = .ok e ∧ pctIterLoop e (pctdecodeEnd e) (e.length + 1) (pctdecodeBegin e) = .ok s := by
  obtain ⟨e, he, hd⟩ := C22_roundtrip s es h
  exact ⟨e, he, by rw [C27_begin_end e (e.length + 1) (by omega)]; exact hd⟩

example : ∀ es ∈ [EncSet.fragment, EncSet.query, EncSet.specialQuery, EncSet.path, EncSet.userinfo, EncSet.component, EncSet.formUrlencoded],
    es ≠ EncSet.none := by decide

/-! ## test_punycode.cpp -/

/-- `EncodeNeverCrashes` (test_punycode.cpp:473-478): any `char32_t` values, of whatever length. -/
theorem C70_punycode_encode_never_crashes (s : List Nat) (hs : ∀ c ∈ s, c < 2 ^ 32) (hl : s.length + 1 < 2 ^ 64) :
    ∃ t flag, Puny.encode s false = .ok (t, flag) := by
  obtain ⟨t, flag, h, _⟩ := C31_shape s ⟨hs, hl⟩ false
  exact ⟨t, flag, h⟩

/-- `DecodeNeverCrashes` (test_punycode.cpp:480-484). -/
theorem C70_punycode_decode_never_crashes (t : Str) (ht : t.length + 2 < 2 ^ 64) (bidi : Bool) : ∃ r, Puny.decode bidi t = .ok r := by
  rcases C32_total bidi t ht with h | h | ⟨s, h, _⟩ <;> exact ⟨_, h⟩

/-- `EncodeDecodeRoundTrip` (test_punycode.cpp:498-512): code points up to 0x10FFFF, surrogates among them. -/
theorem C70_punycode_round_trip (s : List Nat) (hs : ∀ c ∈ s, c ≤ 0x10FFFF) (hl : s.length ≤ 2 ^ 37) :
    ∃ t flag, Puny.encode s false = .ok (t, flag) ∧ ∀ bidi, Puny.decode bidi t = .ok (.ok (s, [])) := by
  obtain ⟨t, flag, h1, h2⟩ := C29_roundtrip s (Or.inr ⟨fun c hc => by have := hs c hc; omega, hl⟩) false
  exact ⟨t, flag, h1, h2 (Or.inr rfl)⟩

/-- A text has one last delimiter. -/
theorem last_delim_unique {x : UInt8} {a b a' b' : Str} (h : a ++ x :: b = a' ++ x :: b') (hb : x ∉ b) (hb' : x ∉ b') : a = a' ∧ b = b' := by
  rcases List.append_eq_append_iff.1 h with ⟨m, rfl, e⟩ | ⟨m, rfl, e⟩
  · cases m with
    | nil => simpa using e
    | cons y m => simp only [List.cons_append, List.cons.injEq] at e; exact absurd (e.2 ▸ by simp) hb
  · cases m with
    | nil => simp at e; exact ⟨by simp, e.symm⟩
    | cons y m => simp only [List.cons_append, List.cons.injEq] at e; exact absurd (e.2 ▸ by simp) hb'

/-- `ascii_part_end` (test_punycode.cpp:517-520): the text up to its last `-`, if it has one; else nothing. -/
def AsciiPart (t lit ext : Str) : Prop :=
  t = lit ++ ext ∧ (((0x2D : UInt8) ∉ t ∧ lit = []) ∨ ∃ digits, ext = 0x2D :: digits ∧ (0x2D : UInt8) ∉ digits)

/-- `DecodeEncodeRoundTrip` (test_punycode.cpp:522-549).  The test drops a `-` at the front when it is the only one; for every
other text, and so for every text it goes on with: when it is decoded, encoding the result gives a text of the same length, which
agrees with it up to the last `-`, and from there but for the case of letters. -/
theorem C70_punycode_decode_encode (t : Str) (ht : t.length + 2 < 2 ^ 64) (hlone : ¬ (t.count 0x2D = 1 ∧ b! "-" <+: t)) (bidi : Bool)
    (s : List Nat) (r : Str) (h : Puny.decode bidi t = .ok (.ok (s, r))) :
    ∃ e flag, Puny.encode s false = .ok (e, flag) ∧ e.length = t.length ∧ ∀ lit ext, AsciiPart t lit ext →
      lit <+: e ∧ (e.drop lit.length).map Rfc3492.lowerDigit = ext.map Rfc3492.lowerDigit := by
  obtain ⟨-, e, flag, he, hn⟩ := C30_reencode bidi t ht s r h
  have low : ∀ c, Rfc3492.lowerDigit (Rfc3492.lowerDigit c) = Rfc3492.lowerDigit c := by
    intro c
    have := forall_byte (P := fun c => decide (Rfc3492.lowerDigit (Rfc3492.lowerDigit c) = Rfc3492.lowerDigit c)) (by decide +kernel) c
    exact of_decide_eq_true this
  have lows : ∀ l : Str, (l.map Rfc3492.lowerDigit).map Rfc3492.lowerDigit = l.map Rfc3492.lowerDigit := by
    intro l; rw [List.map_map]; exact List.map_congr_left fun c _ => low c
  refine ⟨e, flag, he, ?_, ?_⟩
  · cases hn with
    | none _ => simp
    | some _ _ => simp
    | lone hx =>
      exfalso
      exact hlone ⟨by simp [List.count_cons, List.count_eq_zero.2 hx], by simp⟩
  · rintro lit ext ⟨h1, h2⟩
    cases hn with
    | none h =>
      rcases h2 with ⟨_, rfl⟩ | ⟨d, rfl, _⟩
      · simp only [List.nil_append] at h1
        subst h1
        exact ⟨by simp, by simpa using lows _⟩
      · exact absurd (h1 ▸ by simp) h
    | @some lit' ext' hx hl =>
      rcases h2 with ⟨h, _⟩ | ⟨d, rfl, hd⟩
      · exact absurd (by simp) h
      · obtain ⟨rfl, hy⟩ := last_delim_unique h1 hx hd
        subst hy
        refine ⟨⟨_, rfl⟩, ?_⟩
        simp only [List.drop_left, List.map_cons, lows]
    | lone hx =>
      exfalso
      exact hlone ⟨by simp [List.count_cons, List.count_eq_zero.2 hx], by simp⟩

/-- Decoded and encoded again, with capital digits. -/
example : Puny.decode true (b! "bcher-KvA") = .ok (.ok ([0x62, 0xFC, 0x63, 0x68, 0x65, 0x72], [])) ∧
    AsciiPart (b! "bcher-KvA") (b! "bcher") (b! "-KvA") ∧ ¬ ((b! "bcher-KvA").count 0x2D = 1 ∧ b! "-" <+: b! "bcher-KvA") :=
  ⟨by decide +kernel, ⟨rfl, Or.inr ⟨b! "KvA", rfl, by decide⟩⟩, by decide⟩

/-! ## test_parts.cpp -/

/-- The host does not begin with `xn--` and has no `.xn--` in it (test_parts.cpp:294). -/
def NoXn (h : Str) : Prop := ¬ b! "xn--" <+: h ∧ ¬ b! ".xn--" <:+: h

theorem noXn_noAce {h : Str} (hx : NoXn h) : NoAce h := by
  rintro ls ⟨h1, h2, rfl⟩ l hl - hpre
  have key : ∀ ls : List Str, l ∈ ls → b! "xn--" <+: joined 0x2E ls ∨ b! ".xn--" <:+: joined 0x2E ls := by
    intro ls
    induction ls with
    | nil => intro h; cases h
    | cons a ls ih =>
      intro h
      cases ls with
      | nil =>
        have : l = a := by simpa using h
        subst this
        exact Or.inl hpre
      | cons b ls =>
        simp only [joined]
        rcases List.mem_cons.1 h with rfl | h
        · exact Or.inl (hpre.trans (List.prefix_append _ _))
        · right
          rcases ih h with ⟨r, e⟩ | ⟨x, y, e⟩
          · exact ⟨a, r, by rw [← e]; simp⟩
          · exact ⟨a ++ 0x2E :: x, y, by rw [← e]; simp⟩
  rcases key ls hl with h | h
  · exact hx.1 h
  · exact hx.2 h

/-- `EncodeDecodeRoundTrip` (test_parts.cpp:290-326): for every `valid ()` value whose host passes the test's filter, the encoded
value is `valid ()`, decoding it succeeds, and every field of the result is that of the original. -/
theorem C70_parts_round_trip (pl : Plat) (hp : Heap) (store : Store) (p : Parts SV) (hn : p.path.segments.length + 6 ≤ 2 ^ 32)
    (haddr : ∀ n, hp.addr n ≠ 0) (hstore : store.cap ≠ 0 → store.addr ≠ 0) (hv : p.valid pl = .ok true)
    (ha : ∀ a, p.authority = some a → NoXn a.host.chars ∧ a.host.chars.length ≤ 2 ^ 37) :
    ∃ r st, encode hp store p = .ok (r, st) ∧ r.valid pl = .ok true ∧
      ∀ hp' store', ∃ q st', decode hp' store' r = .ok (.ok q, st') ∧ q.text = p.text := by
  have hrev := valid_reversible pl p hv fun a h => ⟨noXn_noAce (ha a h).1, (ha a h).2⟩
  obtain ⟨r, st, e, hr⟩ := C38_valid pl hp store p hn (fun a h => (ha a h).2) hv
  obtain ⟨r', st', e', hd⟩ := C37_roundtrip hp store p hn haddr hstore (fun s h => (hrev .scheme s h).1 (Or.inl rfl))
    (fun a h => ⟨fun t ht => (hrev .port t ⟨a, h, ht⟩).1 (Or.inr rfl), (hrev .host a.host ⟨a, h, rfl⟩).2 rfl⟩)
  rw [e] at e'
  simp only [Except.ok.injEq, Prod.mk.injEq] at e'
  obtain ⟨rfl, rfl⟩ := e'
  exact ⟨r, st, e, hr, hd⟩

/-- A path whose text begins with `//`, and what is then read as the authority: the segment behind. -/
inductive DoubleSlash : Path Str → Str → Prop
  | absolute {x gs} : DoubleSlash ⟨true, [] :: x :: gs⟩ x
  | relative {x gs} : DoubleSlash ⟨false, [] :: [] :: x :: gs⟩ x

/-- The text of an authority the parser accepts. -/
def IsAuthority (x : Str) : Prop := ∃ a, Abnf.AuthorityOk a ∧ Abnf.HostAccepted a.host ∧ x = Abnf.authorityText a

/-- The text of a path without authority, derived as what the parser makes of it. -/
theorem path_derives {P : Path Str} (hs : ∀ g ∈ P.segments, Abnf.segment g ∧ g.length < 2 ^ 32)
    (hd : ∀ x, DoubleSlash P x → IsAuthority x) :
    ∃ A P', Abnf.PartDerives Abnf.segmentNz (pathText P) A P' ∧ (∀ a, A = some a → Abnf.HostAccepted a.host) ∧
      ∀ g ∈ P'.segments, Abnf.segment g ∧ g.length < 2 ^ 32 := by
  have abs : ∀ gs : List Str, (∀ g ∈ gs, Abnf.segment g ∧ g.length < 2 ^ 32) → gs ≠ [] → (∀ x, DoubleSlash ⟨true, gs⟩ x → IsAuthority x) →
      ∃ A P', Abnf.PartDerives Abnf.segmentNz (Abnf.slashes gs) A P' ∧ (∀ a, A = some a → Abnf.HostAccepted a.host) ∧
      ∀ g ∈ P'.segments, Abnf.segment g ∧ g.length < 2 ^ 32 := by
    intro gs hs hne hd
    obtain ⟨g, gs, rfl⟩ := List.exists_cons_of_ne_nil hne
    by_cases hg : g = []
    · subst hg
      cases gs with
      | nil => exact ⟨none, ⟨true, [[]]⟩, by simpa [slashes_cons, slashes_nil] using Abnf.PartDerives.root, by simp, hs⟩
      | cons x gs =>
        obtain ⟨a, h1, h2, rfl⟩ := hd x .absolute
        have hs' : ∀ g ∈ gs, Abnf.segment g ∧ g.length < 2 ^ 32 := fun g hg => hs g (by simp [hg])
        refine ⟨some a, ⟨!gs.isEmpty, gs⟩, ?_, fun b hb => by cases hb; exact h2, hs'⟩
        have := Abnf.PartDerives.abempty (first := Abnf.segmentNz) a gs h1 (fun g hg => (hs' g hg).1)
        simpa [slashes_cons] using this
    · refine ⟨none, ⟨true, g :: gs⟩, ?_, by simp, hs⟩
      have := Abnf.PartDerives.absolute (first := Abnf.segmentNz) g gs (segmentNz_of (hs g (by simp)).1 hg) (fun x hx => (hs x (by simp [hx])).1)
      simpa [slashes_cons] using this
  obtain ⟨ab, gs⟩ := P
  cases gs with
  | nil => exact ⟨none, ⟨false, []⟩, .empty, by simp, by simp⟩
  | cons g gs =>
    cases ab with
    | true =>
      have := abs (g :: gs) hs (by simp) hd
      simpa [pathText, slashes_cons] using this
    | false =>
      by_cases hg : g = []
      · subst hg
        cases gs with
        | nil => exact ⟨none, ⟨false, []⟩, .empty, by simp, by simp⟩
        | cons x gs =>
          have := abs (x :: gs) (fun g hg => hs g (by simp [List.mem_cons.1 hg])) (by simp) (fun y hy => by
            cases hy; exact hd y .relative)
          simpa [pathText] using this
      · refine ⟨none, ⟨false, g :: gs⟩, ?_, by simp, hs⟩
        have := Abnf.PartDerives.rootless (first := Abnf.segmentNz) g gs (segmentNz_of (hs g (by simp)).1 hg) (fun x hx => (hs x (by simp [hx])).1)
        simpa [pathText] using this

theorem doubleSlash_text {P : Path Str} {x : Str} (h : DoubleSlash P x) : ∃ gs, x :: gs <:+ P.segments ∧ pathText P = b! "//" ++ (x ++ Abnf.slashes gs) := by
  cases h with
  | @absolute _ gs => exact ⟨gs, ⟨[[]], rfl⟩, by simp [pathText, slashes_cons]⟩
  | @relative _ gs => exact ⟨gs, ⟨[[], []], rfl⟩, by simp [pathText, slashes_cons]⟩

/-- **C70.** When the text composed of a `valid ()` value is accepted at all: always with an authority; without one, unless the
path's text begins with `//` and what follows, up to the next `/`, is no authority.  For the value that `encode` returned this is
the condition under which `EncodeAndComposeValidAlwaysAgree` (test_parts.cpp:275-288) holds. -/
theorem C70_compose_accepted (pl : Plat) (p : Parts SV) (ptr : Nat) (hv : p.valid pl = .ok true)
    (hlen : ∀ v ∈ p.path.segments, v.chars.length < 2 ^ 32) :
    (∃ q, split pl ⟨ptr, compose p⟩ = .ok (some q)) ↔
    (p.authority = none → ∀ x, DoubleSlash p.text.path x → IsAuthority x) := by
  have ok := valid_sound hv
  have hseg : ∀ g ∈ p.text.path.segments, Abnf.segment g ∧ g.length < 2 ^ 32 := by
    intro g hg
    refine ⟨ok.path g hg, ?_⟩
    simp only [Parts.text, Parts.map, Path.map, List.mem_map] at hg
    obtain ⟨v, h, rfl⟩ := hg
    exact hlen v h
  have hauth : p.text.authority = none ↔ p.authority = none := by simp [Parts.text, Parts.map]
  obtain ⟨sch, hs1, hs2⟩ := ok.scheme
  constructor
  · rintro ⟨q, e⟩ ha x hx
    obtain ⟨gs, hsuf, ht⟩ := doubleSlash_text hx
    have hxs : ∀ g ∈ x :: gs, Abnf.segment g := fun g hg => (hseg g (hsuf.subset hg)).1
    have hB := appendixB_of_derives (Or.inl (split_spec e).1)
    have hho := (split_spec e).2.1
    have hde := (split_spec e).1
    have hc : compose p = sch ++ 0x3A :: 0x2F :: 0x2F :: (x ++ (Abnf.slashes gs ++ (Abnf.optText (b! "?") p.text.query ++ Abnf.optText (b! "#") p.text.fragment))) := by
      rw [compose_text]
      simp only [recompose, rooted, hs1, hauth.2 ha, Option.isSome_none, Bool.or_false, ht]
      simp
    rw [hc] at hB
    have t1 := takeWhile_stop (f := fun c => !oneOf (b! ":/?#") c) (u := sch)
      (v := 0x3A :: 0x2F :: 0x2F :: (x ++ (Abnf.slashes gs ++ (Abnf.optText (b! "?") p.text.query ++ Abnf.optText (b! "#") p.text.fragment))))
      (only_mono only_scheme (g := fun c => !oneOf (b! ":/?#") c) (by byte_tac) _ hs2) (by intro c hc; simp at hc; subst hc; decide)
    have t2 := takeWhile_stop (f := fun c => !oneOf (b! "/?#") c) (u := x)
      (v := Abnf.slashes gs ++ (Abnf.optText (b! "?") p.text.query ++ Abnf.optText (b! "#") p.text.fragment))
      (only_mono only_segment (g := fun c => !oneOf (b! "/?#") c) (by byte_tac) _ (hxs x (by simp))) (by
        intro c hc
        rcases slashes_follow (gs := gs) (tail_follow p.text.query p.text.fragment) c hc with rfl | rfl | rfl <;> decide)
    have hg := congrArg Groups.authority hB
    simp only [AppendixB.parse, AppendixB.scheme, t1, ne_eq, scheme_ne hs2, not_false_iff, if_true, AppendixB.authority, and_self, t2,
      groupsOf] at hg
    cases hqa : q.text.authority with
    | none => rw [hqa] at hg; simp at hg
    | some a =>
      rw [hqa] at hg
      simp only [Option.map_some, Option.some.injEq] at hg
      refine ⟨a, ?_, hho a hqa, hg⟩
      obtain ⟨_, t, _, _, h3, _⟩ := hde
      rw [hqa] at h3
      generalize q.text.path = P at h3
      cases h3 with
      | abempty _ _ h _ => exact h
  · intro hd
    have key : ∃ r, Abnf.URIDerives (compose p) r ∧ Abnf.HostOk r ∧ Abnf.PathCounted r := by
      cases ha : p.authority with
      | some a =>
        obtain ⟨r, h1, h2, h3⟩ := derives_of_components ok (fun h => by rw [hauth, ha] at h; cases h)
        rw [← compose_text] at h1
        refine ⟨r, h1, h2, fun h => ?_⟩
        rw [h3.2.1, hauth, ha] at h; cases h
      | none =>
        obtain ⟨A, P', h1, h2, h3⟩ := path_derives hseg (hd ha)
        refine ⟨⟨some sch, A, P', p.text.query, p.text.fragment⟩, ⟨sch, _, rfl, hs2, h1, ok.query, ok.fragment, ?_⟩, h2, pathCounted_of_short h3⟩
        rw [compose_text]
        simp [recompose, rooted, hs1, hauth.2 ha]
    obtain ⟨r, h1, h2, h3⟩ := key
    obtain ⟨q, e, _⟩ := split_complete (pl := pl) (sv := ⟨ptr, compose p⟩) h1 h2 h3
    exact ⟨q, e⟩

/-- The condition is met where the path does not begin with two slashes, and where an authority can be read behind them. -/
example : (∀ x, ¬ DoubleSlash ⟨true, [b! "a", [], b! "b"]⟩ x) ∧ IsAuthority (b! "h:8") := by
  refine ⟨fun x h => (by cases h), ?_⟩
  exact (C70_compose_accepted x86 ⟨some (vw (b! "s")), none, ⟨true, [vw [], vw (b! "h:8"), vw (b! "b")]⟩, none, none⟩ 4096 (by decide +kernel)
    (by decide +kernel)).1 (by
      obtain ⟨p, e, _⟩ := run_text (x := split x86 ⟨4096, b! "s://h:8/b"⟩)
        (p := ⟨some (b! "s"), some ⟨none, b! "h", some (b! "8")⟩, ⟨true, [b! "b"]⟩, none, none⟩) (by decide +kernel)
      exact ⟨p, e⟩) rfl _ .absolute

/-- `EncodeAndComposeValidAlwaysAgree` (test_parts.cpp:275-288) is not true of every input: here the value is encoded (to itself),
is `valid ()`, and its text is rejected. -/
theorem C70_compose_valid_counterexample :
    let p : Parts SV := ⟨some (vw (b! "s")), none, ⟨true, [vw [], vw (b! "a:b:c")]⟩, none, none⟩
    ∃ r st, encode heap0 store0 p = .ok (r, st) ∧ r.valid x86 = .ok true ∧ split x86 ⟨4096, compose r⟩ = .ok none := by
  refine ⟨_, _, rfl, ?_, ?_⟩ <;> decide +kernel

end Verif
