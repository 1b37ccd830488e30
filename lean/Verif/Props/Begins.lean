import Verif.Props.Readers
import Verif.Props.Exchange

/-!
# Property C115: what it means that a URI begins with another
-/

namespace Verif
set_option linter.unusedSimpArgs false

/-! ### Proofs -/

/-- The URI has an authority: its text in pieces. -/
theorem with_authority {s : Str} {p : Parts Str} (d : Abnf.URIDerives s p) (ha : p.authority ≠ none) :
    ∃ sch a, p.scheme = some sch ∧ Abnf.scheme sch ∧ p.authority = some a ∧ Abnf.AuthorityOk a ∧ (∀ g ∈ p.path.segments, Abnf.segment g) ∧
      s = sch ++ b! "://" ++ (Abnf.authorityText a ++ (Abnf.slashes p.path.segments ++ Abnf.optText (b! "?") p.query ++ Abnf.optText (b! "#") p.fragment)) := by
  obtain ⟨sc, A, P, q, f⟩ := p
  obtain ⟨sch, t, h1, h2, h3, h4, h5, rfl⟩ := d
  simp only at h1 h3 ha ⊢
  cases h3 with
  | abempty a gs hA hgs => exact ⟨sch, a, h1, h2, rfl, hA, hgs, by simp⟩
  | _ => exact absurd rfl ha

/-- A character that ends an authority, or a segment. -/
def ends (c : UInt8) : Bool := oneOf (b! "/?#") c

theorem ends_iff {c : UInt8} : ends c = true ↔ c ∈ b! "/?#" := by simp [ends, oneOf]

theorem cut_same {u v x y : Str} (hu : ∀ c ∈ u, ends c = false) (hx : ∀ c ∈ x, ends c = false)
    (hv : ∀ c, v.head? = some c → ends c = true) (hy : ∀ c, y.head? = some c → ends c = true) (h : u ++ v = x ++ y) : u = x ∧ v = y := by
  have a := takeWhile_stop (f := fun c => !ends c) (u := u) (v := v) (fun c hc => by simp [hu c hc]) (fun c hc => by simp [hv c hc])
  have b := takeWhile_stop (f := fun c => !ends c) (u := x) (v := y) (fun c hc => by simp [hx c hc]) (fun c hc => by simp [hy c hc])
  rw [h] at a
  exact ⟨a.1.symm.trans b.1, a.2.symm.trans b.2⟩

theorem authority_ends {a : Authority Str} (ha : Abnf.AuthorityOk a) : ∀ c ∈ Abnf.authorityText a, ends c = false := by
  intro c hc
  have := (Readers.auth_uri c (Readers.authority_chars ha c hc)).2
  cases h : ends c with
  | false => rfl
  | true => exact absurd (ends_iff.1 h) this

theorem segment_ends {g : Str} (hg : Abnf.segment g) : ∀ c ∈ g, ends c = false := by
  intro c hc
  have := only_segment g hg c hc
  have k := of_decide_eq_true (forall_byte (P := fun c => decide (isSegChar c = true → ends c = false)) (by decide +kernel) c)
  exact k this

theorem tail_head {gs : List Str} {q f : Option Str} : ∀ c, (Abnf.slashes gs ++ Abnf.optText (b! "?") q ++ Abnf.optText (b! "#") f).head? = some c → ends c = true :=
  fun c hc => ends_iff.2 (Readers.slashes_head c hc)

theorem authority_same {a a' : Authority Str} (ha : Abnf.AuthorityOk a) (ha' : Abnf.AuthorityOk a') (h : Abnf.authorityText a = Abnf.authorityText a') : a = a' := by
  have hr : Readers.Habits.Reasonable ⟨b! "/?#", false, false⟩ := ⟨fun c h => h, fun c h => Or.inl h⟩
  have h1 := Readers.read_authority (v := []) hr ha (by simp)
  have h2 := Readers.read_authority (v := []) hr ha' (by simp)
  rw [h, h2] at h1
  obtain ⟨u, x, t⟩ := a
  obtain ⟨u', x', t'⟩ := a'
  simp only [Prod.mk.injEq] at h1
  simp [h1]

theorem scheme_same {s s' t t' : Str} (h : Abnf.scheme s) (h' : Abnf.scheme s') (e : s ++ b! "://" ++ t = s' ++ b! "://" ++ t') : s = s' ∧ t = t' := by
  have k := fun (x y : Str) (hx : Abnf.scheme x) => Readers.cutFirst_some (c := 0x3A) (s := x) (t := 0x2F :: 0x2F :: y) (Readers.scheme_noColon hx)
  have e2 : ∀ x y : Str, x ++ b! "://" ++ y = x ++ 0x3A :: 0x2F :: 0x2F :: y := by simp
  rw [e2, e2] at e
  have := k s t h
  rw [e, k s' t' h'] at this
  simp only [Option.some.injEq, Prod.mk.injEq, List.cons.injEq, true_and] at this
  exact ⟨this.1.symm, this.2.symm⟩

theorem begin_segments {x v : Str} (hv : v.head? ≠ some 0x2F) (hve : ∀ c, v.head? = some c → ends c = true) :
    ∀ {ds gs : List Str}, (∀ d ∈ ds, Abnf.segment d) → (∀ g ∈ gs, Abnf.segment g) → Abnf.slashes ds ++ 0x2F :: x = Abnf.slashes gs ++ v →
      ∃ more, more ≠ [] ∧ gs = ds ++ more
  | [], [], _, _, h => by
    simp only [Abnf.slashes, List.map_nil, List.flatten_nil, List.nil_append] at h
    exact absurd (by rw [← h]; rfl) hv
  | [], g :: gs, _, _, _ => ⟨g :: gs, by simp, rfl⟩
  | d :: ds, [], _, _, h => by
    simp only [Abnf.slashes, List.map_nil, List.flatten_nil, List.nil_append, List.map_cons, List.flatten_cons, List.append_assoc, List.cons_append] at h
    exact absurd (by rw [← h]; rfl) hv
  | d :: ds, g :: gs, hd, hg, h => by
    have e : ∀ (g : Str) gs, Abnf.slashes (g :: gs) = 0x2F :: (g ++ Abnf.slashes gs) := by simp [Abnf.slashes]
    rw [e, e, List.cons_append, List.cons_append, List.cons.injEq, List.append_assoc, List.append_assoc] at h
    have sh : ∀ gs : List Str, ∀ c, (Abnf.slashes gs).head? = some c → ends c = true := by
      intro gs c hc
      cases gs with
      | nil => simp [Abnf.slashes] at hc
      | cons g gs => simp [Abnf.slashes] at hc; subst hc; decide
    have both : ∀ (a b : Str), (∀ c, a.head? = some c → ends c = true) → (∀ c, b.head? = some c → ends c = true) → ∀ c, (a ++ b).head? = some c → ends c = true := by
      intro a b ha hb c hc
      cases a with
      | nil => exact hb c hc
      | cons y a => exact ha c hc
    obtain ⟨rfl, h2⟩ := cut_same (segment_ends (hd d (by simp))) (segment_ends (hg g (by simp)))
      (both _ _ (sh ds) (by intro c hc; simp at hc; subst hc; decide)) (both _ _ (sh gs) hve) h.2
    obtain ⟨more, h3, rfl⟩ := begin_segments hv hve (fun y hy => hd y (by simp [hy])) (fun y hy => hg y (by simp [hy])) h2
    exact ⟨more, h3, rfl⟩

theorem slashes_both (a b : List Str) : Abnf.slashes (a ++ b) = Abnf.slashes a ++ Abnf.slashes b := by simp [Abnf.slashes]

/-! ### The property -/

/-- **C115**: a URI begins with another one that has an authority and ends in a slash exactly if scheme and authority are the same, character by
character, and its path goes on below the same segments. -/
theorem C115_begins (pl : Plat) (P s : Str) (p q : Parts Str) (hP : SplitsTo pl P p) (hs : SplitsTo pl s q) (ha : p.authority ≠ none)
    (ds : List Str) (hd : p.path.segments = ds ++ [[]]) (hq : p.query = none) (hf : p.fragment = none) :
    P <+: s ↔ q.scheme = p.scheme ∧ q.authority = p.authority ∧ ∃ more, more ≠ [] ∧ q.path.segments = ds ++ more := by
  obtain ⟨sch, a, h1, h2, h3, h4, h5, h6⟩ := with_authority (splitsTo_iff.1 hP).1 ha
  have e1 : P = sch ++ b! "://" ++ (Abnf.authorityText a ++ (Abnf.slashes ds ++ b! "/")) := by
    rw [h6, hd, hq, hf, slashes_both]; simp [Abnf.optText, Abnf.slashes]
  constructor
  · rintro ⟨x, rfl⟩
    have ha' : q.authority ≠ none := by
      intro h0
      have hr : Readers.Habits.Reasonable ⟨b! "/?#", false, false⟩ := ⟨fun c h => h, fun c h => Or.inl h⟩
      have := Readers.uri_read (splitsTo_iff.1 hs).1 hr
      rw [h0, e1] at this
      have e2 : sch ++ b! "://" ++ (Abnf.authorityText a ++ (Abnf.slashes ds ++ b! "/")) ++ x =
          sch ++ b! ":" ++ (0x2F :: 0x2F :: (Abnf.authorityText a ++ (Abnf.slashes ds ++ b! "/") ++ x)) := by simp
      rw [e2, Readers.behindColon_scheme h2] at this
      simp [Readers.behindSlashes] at this
    obtain ⟨sch', a', k1, k2, k3, k4, k5, k6⟩ := with_authority (splitsTo_iff.1 hs).1 ha'
    rw [e1] at k6
    have e2 : sch ++ b! "://" ++ (Abnf.authorityText a ++ (Abnf.slashes ds ++ b! "/")) ++ x = sch ++ b! "://" ++ (Abnf.authorityText a ++ (Abnf.slashes ds ++ 0x2F :: x)) := by simp
    rw [e2] at k6
    obtain ⟨rfl, k7⟩ := scheme_same h2 k2 k6
    obtain ⟨k8, k9⟩ := cut_same (authority_ends h4) (authority_ends k4) (by
      intro c hc
      cases ds with
      | nil => simp [Abnf.slashes] at hc; subst hc; decide
      | cons d ds => simp [Abnf.slashes] at hc; subst hc; decide) tail_head k7
    obtain rfl := authority_same h4 k4 k8
    refine ⟨by rw [h1, k1], by rw [h3, k3], ?_⟩
    rw [List.append_assoc] at k9
    refine begin_segments (x := x) (v := Abnf.optText (b! "?") q.query ++ Abnf.optText (b! "#") q.fragment) Readers.opt_head ?_ ?_ k5 k9
    · intro c hc
      exact tail_head (gs := []) c (by simpa [Abnf.slashes] using hc)
    · intro d hd'
      exact h5 d (by rw [hd]; simp [hd'])
  · rintro ⟨k1, k2, more, k3, k4⟩
    have ha' : q.authority ≠ none := by rw [k2]; exact ha
    obtain ⟨sch', a', l1, l2, l3, l4, l5, l6⟩ := with_authority (splitsTo_iff.1 hs).1 ha'
    obtain rfl : sch = sch' := by rw [k1, h1] at l1; exact Option.some.inj l1
    obtain rfl : a = a' := by rw [k2, h3] at l3; exact Option.some.inj l3
    cases more with
    | nil => exact absurd rfl k3
    | cons m more =>
      rw [l6, e1, k4, slashes_both]
      exact ⟨m ++ Abnf.slashes more ++ Abnf.optText (b! "?") q.query ++ Abnf.optText (b! "#") q.fragment, by simp [Abnf.slashes]⟩

/-- **C115**, for one that ends with its authority: then what comes behind decides. -/
theorem C115_origin (pl : Plat) (P x : Str) (p q : Parts Str) (hP : SplitsTo pl P p) (hs : SplitsTo pl (P ++ x) q) (ha : p.authority ≠ none)
    (hd : p.path.segments = []) (hq : p.query = none) (hf : p.fragment = none) :
    (q.scheme = p.scheme ∧ q.authority = p.authority) ↔ ∀ c, x.head? = some c → c ∈ b! "/?#" := by
  obtain ⟨sch, a, h1, h2, h3, h4, h5, h6⟩ := with_authority (splitsTo_iff.1 hP).1 ha
  have e1 : P = sch ++ b! "://" ++ Abnf.authorityText a := by
    rw [h6, hd, hq, hf]; simp [Abnf.optText, Abnf.slashes]
  have ha' : q.authority ≠ none := by
    intro h0
    have hr : Readers.Habits.Reasonable ⟨b! "/?#", false, false⟩ := ⟨fun c h => h, fun c h => Or.inl h⟩
    have := Readers.uri_read (splitsTo_iff.1 hs).1 hr
    rw [h0, e1] at this
    have e2 : sch ++ b! "://" ++ Abnf.authorityText a ++ x = sch ++ b! ":" ++ (0x2F :: 0x2F :: (Abnf.authorityText a ++ x)) := by simp
    rw [e2, Readers.behindColon_scheme h2] at this
    simp [Readers.behindSlashes] at this
  obtain ⟨sch', a', k1, k2, k3, k4, k5, k6⟩ := with_authority (splitsTo_iff.1 hs).1 ha'
  rw [e1, List.append_assoc] at k6
  obtain ⟨rfl, k7⟩ := scheme_same h2 k2 k6
  constructor
  · rintro ⟨-, l⟩
    rw [k3, h3] at l
    obtain rfl := Option.some.inj l
    rw [List.append_cancel_left k7]
    exact fun c hc => ends_iff.1 (tail_head c hc)
  · intro hx
    obtain ⟨k8, -⟩ := cut_same (authority_ends h4) (authority_ends k4) (fun c hc => ends_iff.2 (hx c hc)) tail_head k7
    obtain rfl := authority_same h4 k4 k8
    exact ⟨by rw [h1, k1], by rw [h3, k3]⟩

/-- **C115**, why the slash matters: `http://h` begins `http://h.x/`, `http://h@x/` and `http://h:1@x/`, which have other hosts. -/
theorem C115_counterexample :
    ([b! "http://h.x/", b! "http://h@x/", b! "http://h:1@x/"].map fun s => ((b! "http://h").isPrefixOf s, (split x86 ⟨4096, s⟩).map (·.bind (·.text.authority.map (·.host))))) =
      [(true, .ok (some (b! "h.x"))), (true, .ok (some (b! "x"))), (true, .ok (some (b! "x")))] := by
  decide +kernel

/-- **C115**, and why resolution must come first: `http://h/a/../b` begins with `http://h/a/`. -/
theorem C115_dots_counterexample : (b! "http://h/a/").isPrefixOf (b! "http://h/a/../b") = true ∧
    (joinStr x86 ⟨4096, b! "http://h/"⟩ ⟨8192, b! "http://h/a/../b"⟩ true).map (·.map compose) = .ok (some (b! "http://h/b")) := by
  exact ⟨by decide +kernel, by decide +kernel⟩

example : SplitsTo x86 (b! "s://u@h:1/a/") ⟨some (b! "s"), some ⟨some (b! "u"), b! "h", some (b! "1")⟩, ⟨true, [b! "a", []]⟩, none, none⟩ ∧
    SplitsTo x86 (b! "s://u@h:1/a/b?c") ⟨some (b! "s"), some ⟨some (b! "u"), b! "h", some (b! "1")⟩, ⟨true, [b! "a", b! "b"]⟩, some (b! "c"), none⟩ :=
  ⟨c91_splits x86 (run_text (by decide +kernel)), c91_splits x86 (run_text (by decide +kernel))⟩

end Verif
