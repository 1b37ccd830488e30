import Verif.Props.Parse
import Verif.Props.Resolve
import Verif.Spec.Chars

/-!
# Property C113: what other readers of a text take for its host
-/

namespace Verif.Readers
set_option linter.unusedSimpArgs false

/-! ### Specification: the habits of readers -/

/-- The text before and behind the first `c`. -/
def cutFirst (c : UInt8) (s : Str) : Option (Str × Str) :=
  match s.dropWhile (· != c) with
  | [] => none
  | _ :: r => some (s.takeWhile (· != c), r)

/-- The text before and behind the last `c`. -/
def cutLast (c : UInt8) (s : Str) : Option (Str × Str) :=
  (cutFirst c s.reverse).map fun x => (x.2.reverse, x.1.reverse)

def cut (last : Bool) (c : UInt8) (s : Str) : Option (Str × Str) := if last then cutLast c s else cutFirst c s

/-- What differs between readers: at which characters the authority ends, and whether they look for the first or the last `@` and `:`. -/
structure Habits where
  stops : Str
  lastAt : Bool
  lastColon : Bool

/-- The authority ends at `/`, `?` and `#`, and otherwise at characters only that no URI has (such as `\`, or a space). -/
def Habits.Reasonable (h : Habits) : Prop :=
  (∀ c ∈ b! "/?#", c ∈ h.stops) ∧ ∀ c ∈ h.stops, c ∈ b! "/?#" ∨ c ∉ Spec.uriChars

/-- Host and port: a host in brackets ends at the first `]`, another one at a colon. -/
def hostPort (last : Bool) (t : Str) : Str × Option Str :=
  if t.head? = some 0x5B then
    (t.takeWhile (· != 0x5D) ++ b! "]", (cutFirst 0x3A (t.dropWhile (· != 0x5D))).map (·.2))
  else
    match cut last 0x3A t with
    | some (x, p) => (x, some p)
    | none => (t, none)

/-- Userinfo, host and port of a text that begins behind `//`. -/
def Habits.read (h : Habits) (t : Str) : Option Str × Str × Option Str :=
  match cut h.lastAt 0x40 (t.takeWhile (!h.stops.contains ·)) with
  | some (u, r) => (some u, hostPort h.lastColon r)
  | none => (none, hostPort h.lastColon (t.takeWhile (!h.stops.contains ·)))

/-- The text behind `//`, if it begins so. -/
def behindSlashes : Str → Option Str
  | 0x2F :: 0x2F :: t => some t
  | _ => none

/-- The text behind the first colon. -/
def behindColon (s : Str) : Option Str := (cutFirst 0x3A s).map (·.2)

/-- The text behind the first `pat`, wherever it is. -/
def behindFirst (pat : Str) : Str → Option Str
  | [] => none
  | c :: s => if pat.isPrefixOf (c :: s) then some ((c :: s).drop pat.length) else behindFirst pat s

/-! ### Proofs -/

theorem cutFirst_none {c : UInt8} {s : Str} (h : c ∉ s) : cutFirst c s = none := by
  have := (takeWhile_stop (f := fun x => x != c) (u := s) (v := []) (fun x hx => by simp; rintro rfl; exact h hx) (by simp)).2
  rw [List.append_nil] at this
  simp [cutFirst, this]

theorem cutFirst_some {c : UInt8} {s t : Str} (h : c ∉ s) : cutFirst c (s ++ c :: t) = some (s, t) := by
  have := takeWhile_stop (f := fun x => x != c) (u := s) (v := c :: t) (fun x hx => by simp; rintro rfl; exact h hx) (by simp)
  simp [cutFirst, this.1, this.2]

theorem cut_none {l : Bool} {c : UInt8} {s : Str} (h : c ∉ s) : cut l c s = none := by
  cases l
  · exact cutFirst_none h
  · simp [cut, cutLast, cutFirst_none (s := s.reverse) (c := c) (by simpa using h)]

theorem cut_some {l : Bool} {c : UInt8} {s t : Str} (h : c ∉ s) (h' : c ∉ t) : cut l c (s ++ c :: t) = some (s, t) := by
  cases l
  · exact cutFirst_some h
  · have := cutFirst_some (s := t.reverse) (t := s.reverse) (c := c) (by simpa using h')
    simp [cut, cutLast, this]

/-- Characters of a name or an address without brackets. -/
def isNameChar (c : UInt8) : Bool := isRegChar c || c == 0x25

theorem name_only : Only isNameChar (Abnf.regName) := only_rep (only_elem reg_elem (by byte_tac) (by decide) (by byte_tac))

/-- Characters between brackets. -/
def isLiteralChar (c : UInt8) : Bool := isUserChar c

theorem literal_only : Only isLiteralChar (Abnf.alt Abnf.IPv6address Abnf.IPvFuture) :=
  only_alt (only_mono only_ipv6c (by byte_tac))
    (only_cat (only_alt (only_lit (by decide)) (only_lit (by decide)))
    (only_cat (only_rep (only_cls HEXDIG_cls (by byte_tac)))
    (only_cat (only_lit (by decide)) (only_rep (only_cls future_cls (by byte_tac))))))

theorem host_cases {h : Str} (hh : Abnf.host h) : (∃ m, h = 0x5B :: (m ++ [0x5D]) ∧ ∀ c ∈ m, isLiteralChar c = true) ∨ ∀ c ∈ h, isNameChar c = true := by
  rcases hh with hh | hh | hh
  · obtain ⟨_, _, rfl, rfl, m, _, rfl, hm, rfl⟩ := hh
    exact Or.inl ⟨m, by simp, literal_only m hm⟩
  · exact Or.inr (only_mono only_ipv4 (by byte_tac) h hh)
  · exact Or.inr (name_only h hh)

/-- A port with its colon. -/
def portText (p : Option Str) : Str := Abnf.optText (b! ":") p

theorem hostPort_read {l : Bool} {h : Str} {p : Option Str} (hh : Abnf.host h) (hp : ∀ t, p = some t → Abnf.port t) :
    hostPort l (h ++ portText p) = (h, p) := by
  rcases host_cases hh with ⟨m, rfl, hm⟩ | hn
  · have h5 : ∀ c ∈ (0x5B :: m : Str), (c != 0x5D) = true := by
      intro c hc
      rcases List.mem_cons.1 hc with rfl | hc
      · decide
      · have := hm c hc
        simp; rintro rfl; revert this; decide +kernel
    have tw := fun v : Str => takeWhile_stop (f := fun x : UInt8 => x != 0x5D) (u := 0x5B :: m) (v := 0x5D :: v) h5 (by simp)
    have e : ∀ v : Str, (0x5B :: (m ++ [0x5D])) ++ v = (0x5B :: m) ++ 0x5D :: v := by simp
    rw [e]
    unfold hostPort
    rw [if_pos (by simp), (tw _).1, (tw _).2]
    cases p with
    | none => simp [cutFirst, portText, Abnf.optText]
    | some p =>
      have := cutFirst_some (c := 0x3A) (s := [0x5D]) (t := p) (by decide)
      have e2 : (0x5D :: (b! ":" ++ p)) = [0x5D] ++ 0x3A :: p := rfl
      simp only [portText, Abnf.optText, e2, this]
      simp
  · have hc : (0x3A : UInt8) ∉ h := fun hx => by have := hn _ hx; revert this; decide +kernel
    have hb : ∀ v : Str, v.head? ≠ some 0x5B → (h ++ v).head? ≠ some 0x5B := by
      intro v hv
      cases h with
      | nil => exact hv
      | cons c h =>
        intro e
        simp only [List.cons_append, List.head?_cons, Option.some.injEq] at e
        have := hn c (by simp); rw [e] at this; revert this; decide +kernel
    unfold hostPort
    cases p with
    | none =>
      have e2 : h ++ portText none = h := List.append_nil h
      have e3 := hb [] (by simp)
      rw [List.append_nil] at e3
      rw [e2, if_neg e3, cut_none hc]
    | some p =>
      have hp' : (0x3A : UInt8) ∉ p := fun hx => by have := only_port p (hp p rfl) _ hx; revert this; decide +kernel
      have e2 : h ++ portText (some p) = h ++ 0x3A :: p := rfl
      rw [e2, if_neg (hb _ (by simp)), cut_some hc hp']

theorem authority_chars {a : Authority Str} (ha : Abnf.AuthorityOk a) : ∀ c ∈ Abnf.authorityText a, (isHostChar c || c == 0x40) = true := by
  intro c hc
  unfold Abnf.authorityText at hc
  rcases List.mem_append.1 hc with hc | hc
  · rcases List.mem_append.1 hc with hc | hc
    · cases e : a.userinfo with
      | none => simp [e] at hc
      | some u =>
        rw [e] at hc
        rcases List.mem_append.1 hc with hc | hc
        · exact only_mono (g := fun c => isHostChar c || c == 0x40) only_userinfo (by byte_tac) u (ha.userinfo u e) c hc
        · exact (by decide +kernel : ∀ c ∈ b! "@", (isHostChar c || c == 0x40) = true) c hc
    · exact only_mono (g := fun c => isHostChar c || c == 0x40) only_host (by byte_tac) _ ha.host c hc
  · cases e : a.port with
    | none => simp [e] at hc
    | some u =>
      rw [e] at hc
      rcases List.mem_append.1 hc with hc | hc
      · exact (by decide +kernel : ∀ c ∈ b! ":", (isHostChar c || c == 0x40) = true) c hc
      · exact only_mono (g := fun c => isHostChar c || c == 0x40) only_port (by byte_tac) u (ha.port u e) c hc

theorem auth_uri (c : UInt8) : (isHostChar c || c == 0x40) = true → c ∈ Spec.uriChars ∧ c ∉ b! "/?#" :=
  of_decide_eq_true (forall_byte (P := fun c => decide ((isHostChar c || c == 0x40) = true → c ∈ Spec.uriChars ∧ c ∉ b! "/?#")) (by decide +kernel) c)

/-- What a reader with such habits finds behind `//`. -/
theorem read_authority {h : Habits} (hr : h.Reasonable) {a : Authority Str} (ha : Abnf.AuthorityOk a) {v : Str}
    (hv : ∀ c, v.head? = some c → c ∈ b! "/?#") : h.read (Abnf.authorityText a ++ v) = (a.userinfo, a.host, a.port) := by
  have tw := (takeWhile_stop (f := fun c => !h.stops.contains c) (u := Abnf.authorityText a) (v := v) (by
    intro c hc
    obtain ⟨h1, h2⟩ := auth_uri c (authority_chars ha c hc)
    simp only [Bool.not_eq_true', List.contains_eq_mem, decide_eq_false_iff_not]
    intro hs
    rcases hr.2 c hs with h | h
    · exact h2 h
    · exact h h1) (by
    intro c hc
    simpa using hr.1 c (hv c hc))).1
  unfold Habits.read
  rw [tw]
  have hh : (0x40 : UInt8) ∉ a.host := fun hx => by have := only_host _ ha.host _ hx; revert this; decide +kernel
  have hp : (0x40 : UInt8) ∉ portText a.port := by
    cases e : a.port with
    | none => simp [portText, Abnf.optText]
    | some p =>
      intro hx
      rcases List.mem_append.1 hx with hx | hx
      · revert hx; decide
      · have := only_port _ (ha.port p e) _ hx; revert this; decide +kernel
  have hhp := hostPort_read (l := h.lastColon) ha.host ha.port
  have et : Abnf.authorityText a = (match a.userinfo with | none => [] | some u => u ++ b! "@") ++ a.host ++ portText a.port := by
    unfold Abnf.authorityText portText Abnf.optText; cases a.userinfo <;> cases a.port <;> rfl
  rw [et]
  cases e : a.userinfo with
  | none =>
    simp only [List.nil_append]
    rw [cut_none (by intro hx; rcases List.mem_append.1 hx with hx | hx; exact hh hx; exact hp hx)]
    simp only [hhp]
  | some u =>
    have hu : (0x40 : UInt8) ∉ u := fun hx => by have := only_userinfo _ (ha.userinfo u e) _ hx; revert this; decide +kernel
    have e2 : ∀ x y : Str, u ++ b! "@" ++ x ++ y = u ++ 0x40 :: (x ++ y) := by simp
    simp only []
    rw [e2, cut_some hu (by intro hx; rcases List.mem_append.1 hx with hx | hx; exact hh hx; exact hp hx)]
    simp only [hhp]

theorem slashes_head {gs : List Str} {q f : Option Str} : ∀ c, (Abnf.slashes gs ++ Abnf.optText (b! "?") q ++ Abnf.optText (b! "#") f).head? = some c → c ∈ b! "/?#" := by
  intro c hc
  cases gs with
  | nil =>
    cases q with
    | none =>
      cases f with
      | none => simp [Abnf.slashes, Abnf.optText] at hc
      | some f => simp [Abnf.slashes, Abnf.optText] at hc; subst hc; decide
    | some q => simp [Abnf.slashes, Abnf.optText] at hc; subst hc; decide
  | cons g gs => simp [Abnf.slashes] at hc; subst hc; decide

theorem behindSlashes_none {s : Str} (h : s.head? ≠ some 0x2F) : behindSlashes s = none := by
  unfold behindSlashes
  split
  · simp at h
  · rfl

theorem behindSlashes_one {s : Str} (h : s.head? ≠ some 0x2F) : behindSlashes (0x2F :: s) = none := by
  unfold behindSlashes
  split
  · rename_i e; cases e; simp at h
  · rfl

theorem opt_head {q f : Option Str} : (Abnf.optText (b! "?") q ++ Abnf.optText (b! "#") f).head? ≠ some 0x2F := by
  cases q <;> cases f <;> simp [Abnf.optText]

theorem segment_head {g v : Str} (hg : Abnf.segment g) (hne : g ≠ []) : (g ++ v).head? ≠ some 0x2F := by
  cases g with
  | nil => exact absurd rfl hne
  | cons c g =>
    intro e
    simp only [List.cons_append, List.head?_cons, Option.some.injEq] at e
    exact segment_noSlash hg (by rw [e]; simp)

theorem read_part {first : Lang} (hne : ∀ g, first g → g ≠ []) (hs : ∀ g, first g → Abnf.segment g) {t A P} (d : Abnf.PartDerives first t A P)
    {h : Habits} (hr : h.Reasonable) (q f : Option Str) :
    (behindSlashes (t ++ Abnf.optText (b! "?") q ++ Abnf.optText (b! "#") f)).map h.read = A.map fun a => (a.userinfo, a.host, a.port) := by
  cases d with
  | abempty a gs ha _ =>
    have : behindSlashes (b! "//" ++ Abnf.authorityText a ++ Abnf.slashes gs ++ Abnf.optText (b! "?") q ++ Abnf.optText (b! "#") f) =
        some (Abnf.authorityText a ++ (Abnf.slashes gs ++ Abnf.optText (b! "?") q ++ Abnf.optText (b! "#") f)) := by
      simp [behindSlashes]
    rw [this]
    simp only [Option.map_some]
    rw [read_authority hr ha slashes_head]
  | root =>
    rw [List.append_assoc]
    simp only [List.cons_append, List.nil_append]
    rw [behindSlashes_one opt_head]; rfl
  | absolute g gs hg _ =>
    obtain ⟨hg1, hg2⟩ := And.intro (segmentNz_segment hg) (segmentNz_ne hg)
    simp only [List.append_assoc, List.cons_append, List.nil_append]
    rw [behindSlashes_one (segment_head hg1 hg2)]; rfl
  | rootless g gs hg _ =>
    simp only [List.append_assoc]
    rw [behindSlashes_none (segment_head (hs g hg) (hne g hg))]; rfl
  | empty =>
    simp only [List.nil_append]
    rw [behindSlashes_none opt_head]; rfl

theorem scheme_noColon {s : Str} (h : Abnf.scheme s) : (0x3A : UInt8) ∉ s := fun hx => by
  have := only_scheme _ h _ hx; revert this; decide +kernel

theorem behindColon_scheme {s t : Str} (h : Abnf.scheme s) : behindColon (s ++ b! ":" ++ t) = some t := by
  have : s ++ b! ":" ++ t = s ++ 0x3A :: t := by simp
  rw [this, behindColon, cutFirst_some (scheme_noColon h)]; rfl

theorem behindFirst_scheme {s t : Str} (h : (0x3A : UInt8) ∉ s) : behindFirst (b! "://") (s ++ b! "://" ++ t) = some t := by
  induction s with
  | nil => simp [behindFirst, List.isPrefixOf]
  | cons c s ih =>
    have hc : c ≠ 0x3A := fun e => h (by simp [e])
    have : (b! "://").isPrefixOf (c :: (s ++ b! "://" ++ t)) = false := by
      simp only [List.isPrefixOf, Bool.and_eq_false_iff]
      exact Or.inl (by simpa using fun e => hc e.symm)
    show behindFirst (b! "://") (c :: (s ++ b! "://" ++ t)) = some t
    rw [behindFirst, this]
    exact ih fun hx => h (by simp [hx])

theorem uri_read {s : Str} {p : Parts Str} (d : Abnf.URIDerives s p) {h : Habits} (hr : h.Reasonable) :
    ((behindColon s).bind behindSlashes).map h.read = p.authority.map fun a => (a.userinfo, a.host, a.port) := by
  obtain ⟨sch, t, h1, h2, h3, h4, h5, rfl⟩ := d
  have := behindColon_scheme (t := t ++ Abnf.optText (b! "?") p.query ++ Abnf.optText (b! "#") p.fragment) h2
  simp only [List.append_assoc] at this ⊢
  rw [this]
  have := read_part (fun g => segmentNz_ne) (fun g => segmentNz_segment) h3 hr p.query p.fragment
  simp only [List.append_assoc] at this
  exact this

theorem relative_read {s : Str} {p : Parts Str} (d : Abnf.RelativeDerives s p) {h : Habits} (hr : h.Reasonable) :
    (behindSlashes s).map h.read = p.authority.map fun a => (a.userinfo, a.host, a.port) := by
  obtain ⟨t, h1, h3, h4, h5, rfl⟩ := d
  exact read_part (fun g => segmentNzNc_ne) (fun g => segmentNzNc_segment) h3 hr p.query p.fragment

end Verif.Readers

/-! ### The property -/

namespace Verif
open Readers

/-- **C113**: whatever the habits of a reader, it finds in an accepted text the userinfo, host and port that `split` reports, and finds none exactly when `split` does. -/
theorem C113_split (pl : Plat) (sv : SV) (q : Parts SV) (e : split pl sv = .ok (some q)) (h : Habits) (hr : h.Reasonable) :
    ((behindColon sv.chars).bind behindSlashes).map h.read = q.text.authority.map fun a => (a.userinfo, a.host, a.port) :=
  uri_read (split_spec e).1 hr

/-- **C113** for references: without a scheme the text is looked at from its beginning. -/
theorem C113_reference (pl : Plat) (sv : SV) (q : Parts SV) (e : splitReference pl sv = .ok (some q)) (h : Habits) (hr : h.Reasonable) :
    ((if q.scheme = none then some sv.chars else behindColon sv.chars).bind behindSlashes).map h.read =
      q.text.authority.map fun a => (a.userinfo, a.host, a.port) := by
  have ht : q.text.scheme = q.scheme.map SV.chars := rfl
  rcases (splitReference_spec e).1 with d | d
  · have : q.scheme ≠ none := by
      obtain ⟨sch, t, h1, _⟩ := d
      intro h0; rw [ht, h0] at h1; simp at h1
    rw [if_neg this]
    exact uri_read d hr
  · have : q.scheme = none := by
      obtain ⟨t, h1, _⟩ := d
      rw [ht] at h1; simpa using h1
    rw [if_pos this]
    exact relative_read d hr

/-- **C113** for readers that search for `://`: they find the authority that there is. -/
theorem C113_search (pl : Plat) (sv : SV) (q : Parts SV) (e : split pl sv = .ok (some q)) (ha : q.authority ≠ none) (h : Habits) (hr : h.Reasonable) :
    (behindFirst (b! "://") sv.chars).map h.read = q.text.authority.map fun a => (a.userinfo, a.host, a.port) := by
  have d := (split_spec e).1
  rw [← uri_read d hr]
  obtain ⟨sch, t, h1, h2, h3, h4, h5, hs⟩ := d
  have ha' : q.text.authority ≠ none := by simpa [Parts.text, Parts.map] using ha
  have ht : ∃ r, t = b! "//" ++ r := by
    generalize q.text.authority = A at ha' h3
    generalize q.text.path = P at h3
    cases h3 with
    | abempty a gs _ _ => exact ⟨_, List.append_assoc ..⟩
    | _ => exact absurd rfl ha'
  obtain ⟨r, rfl⟩ := ht
  rw [hs]
  have e1 : ∀ x y : Str, sch ++ b! ":" ++ (b! "//" ++ r) ++ x ++ y = sch ++ b! "://" ++ (r ++ x ++ y) := by simp
  have e2 : ∀ x y : Str, sch ++ b! ":" ++ (b! "//" ++ r) ++ x ++ y = sch ++ b! ":" ++ (0x2F :: 0x2F :: (r ++ x ++ y)) := by simp
  rw [e2, behindColon_scheme h2, ← e2, e1, behindFirst_scheme (scheme_noColon h2)]
  rfl

/-- **C113**, where such a reader errs: without an authority `://` may stand further on. -/
theorem C113_search_counterexample :
    (split x86 ⟨4096, b! "a:/b?u=c://h/"⟩).map (·.map (·.text.authority)) = .ok (some none) ∧
    (behindFirst (b! "://") (b! "a:/b?u=c://h/")).map (Habits.read ⟨b! "/?#", false, false⟩) = some (none, b! "h", none) := by
  exact ⟨by decide +kernel, by decide +kernel⟩

/-- **C113**, where a web browser does: it skips any number of slashes and takes `h` for the host of these. -/
theorem C113_slashes_counterexample :
    (split x86 ⟨4096, b! "http:/h/x"⟩).map (·.map (·.text.authority)) = .ok (some none) ∧
    (split x86 ⟨4096, b! "http:///h/x"⟩).map (·.map (·.text.authority)) = .ok (some (some ⟨none, [], none⟩)) := by
  exact ⟨by decide +kernel, by decide +kernel⟩

/-- Of a text that is not accepted readers may differ: `http://a@b@c/` and `http://a\@c/` are rejected. -/
theorem C113_differ : 
    Habits.read ⟨b! "/?#", false, false⟩ (b! "a@b:1@c/") = (some (b! "a"), b! "b", some (b! "1@c")) ∧
    Habits.read ⟨b! "/?#", true, false⟩ (b! "a@b:1@c/") = (some (b! "a@b:1"), b! "c", none) ∧
    Habits.read ⟨b! "/?#", true, false⟩ (b! "a\\@c/") = (some (b! "a\\"), b! "c", none) ∧
    Habits.read ⟨b! "/?#\\", true, false⟩ (b! "a\\@c/") = (none, b! "a", none) ∧
    split x86 ⟨4096, b! "http://a@b:1@c/"⟩ = .ok none ∧ split x86 ⟨4096, b! "http://a\\@c/"⟩ = .ok none := by
  refine ⟨by decide +kernel, by decide +kernel, by decide +kernel, by decide +kernel, by decide +kernel, by decide +kernel⟩

example : Habits.Reasonable ⟨b! "/?#\\ ", true, false⟩ ∧
    Habits.read ⟨b! "/?#\\ ", true, false⟩ (b! "u:p@[::1]:80/x:y@z") = (some (b! "u:p"), b! "[::1]", some (b! "80")) ∧
    (split x86 ⟨4096, b! "s://u:p@[::1]:80/x:y@z"⟩).map (·.map (·.text.authority)) = .ok (some (some ⟨some (b! "u:p"), b! "[::1]", some (b! "80")⟩)) := by
  unfold Habits.Reasonable; decide +kernel

end Verif
