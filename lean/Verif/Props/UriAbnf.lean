import Verif.Proofs.UriAbnf
import Verif.Props.Parse

/-!
# Property C78: the grammar file of the system tests
-/

namespace Verif.AbnfFile

/-- The text is a sentence of that rule of the grammar that is written in uri.abnf. -/
def Sentence (rule : Str) (s : Str) : Prop := ∃ G, parse (uriAbnf ++ coreAbnf) = some G ∧ Generates G (.rule rule) s

theorem sentence_iff {rule : Str} {L : Lang} (h : lang G (.rule rule) = L) (s : Str) : Sentence rule s ↔ L s := by
  rw [← h]
  constructor
  · rintro ⟨g, h1, h2⟩
    rw [parsed] at h1
    cases h1
    exact h2
  · intro h; exact ⟨G, parsed, h⟩

end Verif.AbnfFile

namespace Verif
open Verif.AbnfFile

/-! ### C78 -/

/-- What `split` and `split_reference` accept are sentences of the file. -/
theorem C78_sound (pl : Plat) (sv : SV) (q : Parts SV) :
    (split pl sv = .ok (some q) → Sentence (b! "URI") sv.chars) ∧ (splitReference pl sv = .ok (some q) → Sentence (b! "URI-reference") sv.chars) :=
  ⟨fun e => (sentence_iff L_URI _).2 (C01_split_sound pl sv q e).1, fun e => (sentence_iff L_URIReference _).2 (C03_splitReference_sound pl sv q e).1⟩

/-- And their components are sentences of the rules named after them. -/
theorem C78_components (pl : Plat) (sv : SV) (q : Parts SV) (e : split pl sv = .ok (some q) ∨ splitReference pl sv = .ok (some q)) :
    (∀ x, q.text.scheme = some x → Sentence (b! "scheme") x) ∧
    (∀ a, q.text.authority = some a → (∀ x, a.userinfo = some x → Sentence (b! "userinfo") x) ∧ Sentence (b! "host") a.host ∧ ∀ x, a.port = some x → Sentence (b! "port") x) ∧
    (∀ x ∈ q.text.path.segments, Sentence (b! "segment") x) ∧
    (∀ x, q.text.query = some x → Sentence (b! "query") x) ∧ (∀ x, q.text.fragment = some x → Sentence (b! "fragment") x) := by
  have part : ∀ {first : Lang} {t a p}, (∀ g, first g → Abnf.segment g) → Abnf.PartDerives first t a p →
      (∀ x, a = some x → Abnf.AuthorityOk x) ∧ ∀ x ∈ p.segments, Abnf.segment x := by
    intro first t a p hf h
    cases h with
    | abempty a gs h1 h2 => exact ⟨fun x hx => by cases hx; exact h1, h2⟩
    | root => exact ⟨nofun, fun x hx => by simp at hx; subst hx; exact ⟨[], rfl, by simp, by simp, by simp⟩⟩
    | absolute g gs h1 h2 =>
      refine ⟨nofun, fun x hx => ?_⟩
      rcases List.mem_cons.1 hx with rfl | hx
      · obtain ⟨es, k1, k2, _, k4⟩ := h1
        exact ⟨es, k1, k2, Nat.zero_le _, k4⟩
      · exact h2 x hx
    | rootless g gs h1 h2 =>
      refine ⟨nofun, fun x hx => ?_⟩
      rcases List.mem_cons.1 hx with rfl | hx
      · exact hf _ h1
      · exact h2 x hx
    | empty => exact ⟨nofun, nofun⟩
  have nz : ∀ g, Abnf.segmentNz g → Abnf.segment g := by
    rintro g ⟨es, k1, k2, _, k4⟩
    exact ⟨es, k1, k2, Nat.zero_le _, k4⟩
  have nznc : ∀ g, Abnf.segmentNzNc g → Abnf.segment g := by
    rintro g ⟨es, k1, k2, _, k4⟩
    refine ⟨es, k1, fun e he => ?_, Nat.zero_le _, k4⟩
    rcases k2 e he with h | h | h | h
    · exact .inl h
    · exact .inr (.inl h)
    · exact .inr (.inr (.inl h))
    · exact .inr (.inr (.inr (.inr h)))
  suffices fin : (∀ x, q.text.scheme = some x → Abnf.scheme x) ∧ (∀ x, q.text.authority = some x → Abnf.AuthorityOk x) ∧ (∀ x ∈ q.text.path.segments, Abnf.segment x) ∧
      (∀ x, q.text.query = some x → Abnf.query x) ∧ (∀ x, q.text.fragment = some x → Abnf.fragment x) by
    obtain ⟨h1, h2, h3, h4, h5⟩ := fin
    exact ⟨fun x hx => (sentence_iff L_scheme _).2 (h1 x hx), fun a ha => ⟨fun x hx => (sentence_iff L_userinfo _).2 ((h2 a ha).userinfo x hx),
      (sentence_iff L_host _).2 (h2 a ha).host, fun x hx => (sentence_iff L_port _).2 ((h2 a ha).port x hx)⟩, fun x hx => (sentence_iff L_segment _).2 (h3 x hx),
      fun x hx => (sentence_iff L_query _).2 (h4 x hx), fun x hx => (sentence_iff L_fragment _).2 (h5 x hx)⟩
  have uri : ∀ p : Parts Str, Abnf.URIDerives sv.chars p → (∀ x, p.scheme = some x → Abnf.scheme x) ∧ (∀ x, p.authority = some x → Abnf.AuthorityOk x) ∧
      (∀ x ∈ p.path.segments, Abnf.segment x) ∧ (∀ x, p.query = some x → Abnf.query x) ∧ (∀ x, p.fragment = some x → Abnf.fragment x) := fun p h => by
    obtain ⟨sch, t, h1, h2, h3, h4, h5, _⟩ := h
    obtain ⟨k1, k2⟩ := part nz h3
    exact ⟨fun x hx => by rw [h1] at hx; cases hx; exact h2, k1, k2, h4, h5⟩
  rcases e with e | e
  · exact uri _ (C01_split_sound pl sv q e).2
  · rcases (C03_splitReference_sound pl sv q e).2 with h | ⟨t, h1, h3, h4, h5, _⟩
    · exact uri _ h
    · obtain ⟨k1, k2⟩ := part nznc h3
      exact ⟨fun x hx => (by rw [h1] at hx; cases hx), k1, k2, h4, h5⟩

/-- What is not a sentence is rejected. -/
theorem C78_rejects (pl : Plat) (sv : SV) (hs : CtypeSafe pl sv.chars) :
    (¬ Sentence (b! "URI") sv.chars → split pl sv = .ok none) ∧ (¬ Sentence (b! "URI-reference") sv.chars → splitReference pl sv = .ok none) :=
  ⟨fun h => C02_split_rejects pl sv (fun h' => h ((sentence_iff L_URI _).2 h')) hs,
   fun h => C03_splitReference_rejects pl sv (fun h' => h ((sentence_iff L_URIReference _).2 h')) hs⟩

/-- A sentence of less than 2^32 characters in which there is no IPv4 address is accepted. -/
theorem C78_complete (pl : Plat) (sv : SV) (hlen : sv.chars.length < 2 ^ 32) (h4 : ∀ u v x, sv.chars = u ++ x ++ v → ¬ Sentence (b! "IPv4address") x) :
    (Sentence (b! "URI") sv.chars → ∃ q, split pl sv = .ok (some q)) ∧ (Sentence (b! "URI-reference") sv.chars → ∃ q, splitReference pl sv = .ok (some q)) := by
  have inPart : ∀ {first t a p}, Abnf.PartDerives first t a p → ∀ x, a = some x → ∃ u v, t = u ++ x.host ++ v := by
    intro first t a p h x hx
    cases h with
    | abempty a gs _ _ =>
      cases hx
      refine ⟨b! "//" ++ (match x.userinfo with | none => [] | some u => u ++ b! "@"), (match x.port with | none => [] | some p => b! ":" ++ p) ++ Abnf.slashes gs, ?_⟩
      simp only [Abnf.authorityText, List.append_assoc]
      rfl
    | root => cases hx
    | absolute => cases hx
    | rootless => cases hx
    | empty => cases hx
  have host : ∀ p, Abnf.ReferenceDerives sv.chars p → ∀ a, p.authority = some a → Abnf.IPv4address a.host ∨ ∀ u v, a.host = u ++ v → ¬ Abnf.IPv4address u := by
    intro p hd a ha
    refine .inr fun u v e hu => ?_
    rcases hd with ⟨sch, t, _, _, k3, _, _, k6⟩ | ⟨t, _, k3, _, _, k6⟩
    · obtain ⟨x, y, e'⟩ := inPart k3 a ha
      exact h4 (sch ++ b! ":" ++ x) (v ++ y ++ Abnf.optText (b! "?") p.query ++ Abnf.optText (b! "#") p.fragment) u
        (by rw [k6, e', e]; simp only [List.append_assoc]) ((sentence_iff L_IPv4address _).2 hu)
    · obtain ⟨x, y, e'⟩ := inPart k3 a ha
      exact h4 x (v ++ y ++ Abnf.optText (b! "?") p.query ++ Abnf.optText (b! "#") p.fragment) u
        (by rw [k6, e', e]; simp only [List.append_assoc]) ((sentence_iff L_IPv4address _).2 hu)
  constructor
  · intro h
    obtain ⟨p, hp⟩ := URI_lang.1 ((sentence_iff L_URI _).1 h)
    obtain ⟨q, hq, _⟩ := C02_split_complete pl sv p hp hlen (host p (.inl hp))
    exact ⟨q, hq⟩
  · intro h
    obtain ⟨p, hp⟩ := reference_lang.1 ((sentence_iff L_URIReference _).1 h)
    obtain ⟨q, hq, _⟩ := C03_splitReference_complete pl sv p hp hlen (host p hp)
    exact ⟨q, hq⟩

/-- A bracketed host of less than 2^32 characters is `valid ()` iff it is an `IP-literal` of the file; and the code's rule for IPv4
addresses accepts exactly the `IPv4address`es of the file. -/
theorem C78_addresses (pl : Plat) (h : SV) :
    (h.chars.head? = some 0x5B → h.chars.length < 2 ^ 32 → ((Authority.mk none h none).valid pl = .ok true ↔ Sentence (b! "IP-literal") h.chars)) ∧
    (fieldOk (Grammar.ipv4address pl) h = .ok true ↔ Sentence (b! "IPv4address") h.chars) :=
  ⟨fun hb hlen => (C12_bracketed_host pl h hb hlen).trans (sentence_iff L_IPLiteral _).symm, (C12_ipv4 pl h).trans (sentence_iff L_IPv4address _).symm⟩

/-- A URI; and one that is too short for an IPv4 address to be in it. -/
example : (∃ q, split x86 ⟨0, b! "http://u@h:8/a/b?q#f"⟩ = .ok (some q)) ∧ Sentence (b! "URI") (b! "http://u@h:8/a/b?q#f") ∧
    ¬ Sentence (b! "URI") (b! "http:// ") := by
  have h : (split x86 ⟨0, b! "http://u@h:8/a/b?q#f"⟩).toOption.isSome = true ∧ ((split x86 ⟨0, b! "http://u@h:8/a/b?q#f"⟩).toOption.bind id).isSome = true := by decide +kernel
  obtain ⟨q, hq⟩ : ∃ q, split x86 ⟨0, b! "http://u@h:8/a/b?q#f"⟩ = .ok (some q) := by
    revert h
    cases split x86 ⟨0, b! "http://u@h:8/a/b?q#f"⟩ with
    | error => simp [Except.toOption]
    | ok o => cases o with
      | none => simp [Except.toOption]
      | some q => exact fun _ => ⟨q, rfl⟩
  refine ⟨⟨q, hq⟩, (C78_sound x86 _ q).1 hq, fun hs => ?_⟩
  obtain ⟨q, hq⟩ := (C78_complete x86 ⟨0, b! "http:// "⟩ (by decide) (fun u v x e hx => by
    obtain ⟨_, _, _, rfl⟩ : ∃ a b c : Str, x = a ++ b! "." ++ b ++ b! "." ++ c := by
      obtain ⟨a, _, rfl, _, _, _, rfl, rfl, b, _, rfl, _, _, c, rfl, rfl, _⟩ := (sentence_iff L_IPv4address _).1 hx
      exact ⟨a, b, c, by simp⟩
    have := congrArg (fun s => s.contains 0x2E) e
    simp at this)).1 hs
  have h : (split x86 ⟨0, b! "http:// "⟩).toOption.bind id = none := by decide +kernel
  rw [hq] at h
  cases h

end Verif
