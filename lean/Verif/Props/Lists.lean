import Verif.Props.Exchange
import Verif.Proofs.PartsHost

/-!
# Property C114: lists of encoded texts between delimiters
-/

namespace Verif
set_option linter.unusedSimpArgs false
open Codec PctSpec PartsSpec

/-! ### Specification -/

/-- `e` is `s` encoded with the set `es`, and decodes to `s`. -/
def Stored (es : UInt8) (s e : Str) : Prop := pctencode s es = .ok e ∧ pctdecode e = .ok s

/-- A pair of name and value: the texts between the equals signs of `f` are the two encoded. -/
def StoredPair (es : UInt8) (kv : Str × Str) (f : Str) : Prop :=
  ∃ k v, Stored es kv.1 k ∧ Stored es kv.2 v ∧ f = k ++ b! "=" ++ v ∧ Labels 0x3D f [k, v]

/-! ### Proofs -/

theorem hexU_untouched (es : UInt8) : ∀ v, v < 16 → needsPctencodeB (hexU v) es = false
  | 0, _ => rfl | 1, _ => rfl | 2, _ => rfl | 3, _ => rfl | 4, _ => rfl | 5, _ => rfl | 6, _ => rfl | 7, _ => rfl
  | 8, _ => rfl | 9, _ => rfl | 10, _ => rfl | 11, _ => rfl | 12, _ => rfl | 13, _ => rfl | 14, _ => rfl | 15, _ => rfl
  | n + 16, h => absurd h (by omega)

theorem dot_plain (es : UInt8) : needsPctencodeB 0x2E es = false := by
  have : (encodeTable.getD (0x2E - 0x21 : UInt8).toNat 0 &&& es) = 0 := by
    have : encodeTable.getD (0x2E - 0x21 : UInt8).toNat 0 = 0 := by decide +kernel
    rw [this]; simp
  show ((encodeTable.getD (0x2E - 0x21 : UInt8).toNat 0 &&& es) != 0) = false
  rw [this]; rfl

theorem encP_rest {es : UInt8} {s : Str} {d : UInt8} (h : d ∈ encP es s) : needsPctencodeB d es = false ∨ d = 0x25 := by
  obtain ⟨c, _, h⟩ := List.mem_flatMap.1 h
  unfold encB at h
  split at h
  · have := c.toNat_lt
    simp only [List.mem_cons, List.not_mem_nil, or_false] at h
    rcases h with rfl | rfl | rfl
    · exact Or.inr rfl
    · exact Or.inl (hexU_untouched es _ (by omega))
    · exact Or.inl (hexU_untouched es _ (by omega))
  · rename_i hc
    simp only [List.mem_singleton] at h
    subst h
    exact Or.inl (by simpa using hc)

theorem stored_encP {es : UInt8} (h : es ≠ EncSet.none) (s : Str) : Stored es s (encP es s) :=
  ⟨pctencode_eq s es, by rw [pctdecode_eq, decP_encP es s (Or.inl h)]⟩

theorem stored_made {es : UInt8} {s e : Str} (h : Stored es s e) : e = encP es s := by
  have := h.1; rw [pctencode_eq] at this; exact (Except.ok.inj this).symm

theorem each_made {α β : Type} {R : α → β → Prop} {f : α → β} (h : ∀ a, R a (f a)) : ∀ as : List α, Each R as (as.map f)
  | [] => .nil
  | a :: as => .cons (h a) (each_made h as)

theorem many_both {L : Lang} {s t : Str} (hs : Abnf.many L s) (ht : Abnf.many L t) : Abnf.many L (s ++ t) := by
  obtain ⟨es, rfl, h, -, -⟩ := hs
  obtain ⟨fs, rfl, k, -, -⟩ := ht
  exact ⟨es ++ fs, by simp, fun e he => (List.mem_append.1 he).elim (h e) (k e), Nat.zero_le _, by simp⟩

theorem many_joined {L : Lang} {d : UInt8} (hd : L [d]) : ∀ {ls : List Str}, (∀ l ∈ ls, Abnf.many L l) → Abnf.many L (joined d ls)
  | [], _ => ⟨[], rfl, by simp, Nat.zero_le _, by simp⟩
  | [l], h => h l (by simp)
  | l :: m :: ls, h => by
    show Abnf.many L (l ++ ([d] ++ joined d (m :: ls)))
    exact many_both (h l (by simp)) (many_both (by simpa using many_of_flatMap (L := L) (f := fun c => [c]) (s := [d]) (by simpa using hd))
      (many_joined hd fun x hx => h x (by simp [hx])))

/-- Characters of a query. -/
def QueryChar : Lang := Abnf.alt Abnf.pchar (Abnf.alt (Abnf.lit (b! "/")) (Abnf.lit (b! "?")))

theorem encP_chars {es : UInt8} (hes : es = EncSet.component ∨ es = EncSet.formUrlencoded) (s : Str) :
    Abnf.query (encP es s) ∧ Abnf.segment (encP es s) := by
  constructor
  · apply many_of_flatMap
    intro c _
    rw [query_elem]
    apply encB_elem
    have := forall_byte (P := fun c => decide ((needsPctencodeB c EncSet.component = true ∨ isQueryChar c = true) ∧
      (needsPctencodeB c EncSet.formUrlencoded = true ∨ isQueryChar c = true))) (by decide +kernel) c
    have := of_decide_eq_true this
    rcases hes with rfl | rfl
    · exact this.1
    · exact this.2
  · apply many_of_flatMap
    intro c _
    rw [pchar_elem]
    apply encB_elem
    have := forall_byte (P := fun c => decide ((needsPctencodeB c EncSet.component = true ∨ isPChar c = true) ∧
      (needsPctencodeB c EncSet.formUrlencoded = true ∨ isPChar c = true))) (by decide +kernel) c
    have := of_decide_eq_true this
    rcases hes with rfl | rfl
    · exact this.1
    · exact this.2

theorem joined_slashes : ∀ {gs : List Str}, gs ≠ [] → Abnf.slashes gs = b! "/" ++ joined 0x2F gs
  | [], h => absurd rfl h
  | [g], _ => by simp [Abnf.slashes, joined]
  | g :: h :: gs, _ => by
    have := joined_slashes (gs := h :: gs) (by simp)
    show b! "/" ++ g ++ Abnf.slashes (h :: gs) = b! "/" ++ (g ++ 0x2F :: joined 0x2F (h :: gs))
    rw [this]; simp

/-! ### The property -/

/-- **C114**: if the set encodes the delimiter, the texts between the delimiters in the encoded texts joined are these, and each decodes to the text it was made from. -/
theorem C114_list (es d : UInt8) (hes : es ≠ EncSet.none) (hd : needsPctencode [d] es = true) (hp : d ≠ 0x25) (ss : List Str) (hne : ss ≠ []) :
    ∃ encs, Each (Stored es) ss encs ∧ Labels d (joined d encs) encs := by
  refine ⟨ss.map (encP es), each_made (stored_encP hes) ss, by simpa using hne, ?_, rfl⟩
  intro l hl hm
  obtain ⟨s, _, rfl⟩ := List.mem_map.1 hl
  have hd' : needsPctencodeB d es = true := by simpa [needsPctencode] using hd
  rcases encP_rest hm with h | h
  · rw [hd'] at h; cases h
  · exact hp h

/-- **C114**: and only then: for any other delimiter there is a text that is taken for several. -/
theorem C114_exact (es d : UInt8) : (needsPctencode [d] es = true ∧ d ≠ 0x25) ↔
    ∀ s e, pctencode s es = .ok e → d ∉ e := by
  constructor
  · rintro ⟨hd, hp⟩ s e h hm
    rw [pctencode_eq] at h
    rw [← Except.ok.inj h] at hm
    have hd' : needsPctencodeB d es = true := by simpa [needsPctencode] using hd
    rcases encP_rest hm with h | h
    · rw [hd'] at h; cases h
    · exact hp h
  · intro h
    have := h [d] _ (pctencode_eq [d] es)
    by_cases hd : needsPctencodeB d es = true
    · refine ⟨by simpa [needsPctencode] using hd, ?_⟩
      rintro rfl
      apply this
      simp [encP, encB, hd]
    · exfalso; apply this
      simp [encP, encB, hd]

/-- **C114** for the parameters of a query: behind a URI without query and fragment the pairs of names and values, encoded with `component` or
`form_urlencoded`, joined by `=` and `&`, are its query, and cutting the query at `&` and each piece at `=` gives texts that decode to the
names and values. -/
theorem C114_query (pl : Plat) (s : Str) (p : Parts Str) (h : SplitsTo pl s p) (hq : p.query = none) (hf : p.fragment = none)
    (es : UInt8) (hes : es = EncSet.component ∨ es = EncSet.formUrlencoded) (kvs : List (Str × Str)) (hne : kvs ≠ []) :
    ∃ fs, Each (StoredPair es) kvs fs ∧ SplitsTo pl (s ++ b! "?" ++ joined 0x26 fs) { p with query := some (joined 0x26 fs) } ∧
      Labels 0x26 (joined 0x26 fs) fs := by
  have hn : es ≠ EncSet.none := by rcases hes with rfl | rfl <;> decide
  have hc : ∀ d ∈ b! "=&", ∀ x, d ∉ encP es x := by
    intro d hd x hm
    have := encP_rest hm
    clear hm
    revert this
    rcases hes with rfl | rfl <;> revert d <;> decide +kernel
  have hs : (0x3F : UInt8) ∉ s ∧ (0x23 : UInt8) ∉ s := by
    obtain ⟨⟨sch, t, h1, h2, h3, h4, h5, h6⟩, -, -⟩ := splitsTo_iff.1 h
    rw [hq, hf] at h6
    subst h6
    have a := part_delims (fun g => segmentNz_segment) h3
    have b1 : (0x3F : UInt8) ∉ sch := fun hx => by have := only_scheme _ h2 _ hx; revert this; decide +kernel
    have b2 : (0x23 : UInt8) ∉ sch := fun hx => by have := only_scheme _ h2 _ hx; revert this; decide +kernel
    simp [Abnf.optText, a.1, a.2, b1, b2]
  let g : Str × Str → Str := fun kv => encP es kv.1 ++ b! "=" ++ encP es kv.2
  have hgq : ∀ kv, Abnf.query (g kv) := fun kv =>
    many_both (many_both (encP_chars hes _).1 (by
      have : Abnf.many QueryChar ([0x3D].flatMap fun c => [c]) := many_of_flatMap (by
        intro c hc
        have : c = 0x3D := by simpa using hc
        subst this
        exact (query_elem _).2 (Or.inl ⟨_, rfl, by decide +kernel⟩))
      exact this)) (encP_chars hes _).1
  have hqq : Abnf.query (joined 0x26 (kvs.map g)) := many_joined (L := QueryChar) ((query_elem _).2 (Or.inl ⟨_, rfl, by decide +kernel⟩)) (by
    intro l hl
    obtain ⟨kv, _, rfl⟩ := List.mem_map.1 hl
    exact hgq kv)
  refine ⟨kvs.map g, each_made ?_ kvs, ?_, by simpa using hne, ?_, rfl⟩
  · intro kv
    refine ⟨_, _, stored_encP hn kv.1, stored_encP hn kv.2, rfl, by simp, ?_, ?_⟩
    · intro l hl
      simp only [List.mem_cons, List.not_mem_nil, or_false] at hl
      rcases hl with rfl | rfl <;> exact hc _ (by decide) _
    · simp [joined, g]
  · refine ((C91_query pl s _ { p with query := some (joined 0x26 (kvs.map g)) } hs.1 hs.2 (query_noHash hqq)).2).2 ⟨hqq, rfl, ?_⟩
    have : ({ p with query := none } : Parts Str) = p := by rw [← hq]
    simpa [this] using h
  · intro l hl hm
    obtain ⟨kv, _, rfl⟩ := List.mem_map.1 hl
    simp only [g, List.mem_append] at hm
    rcases hm with (hm | hm) | hm
    · exact hc _ (by decide) _ hm
    · revert hm; decide
    · exact hc _ (by decide) _ hm

/-- **C114** for a path: behind an authority without a path the texts, encoded with `component` or `form_urlencoded` and joined by `/`, are the
segments of the path, each of which decodes to its text. -/
theorem C114_path (pl : Plat) (s : Str) (p : Parts Str) (h : SplitsTo pl s p) (ha : p.authority ≠ none) (hp : p.path.segments = [])
    (hq : p.query = none) (hf : p.fragment = none) (es : UInt8) (hes : es = EncSet.component ∨ es = EncSet.formUrlencoded) (ss : List Str) (hne : ss ≠ []) :
    ∃ encs, Each (Stored es) ss encs ∧ SplitsTo pl (s ++ b! "/" ++ joined 0x2F encs) { p with path := ⟨true, encs⟩ } := by
  have hn : es ≠ EncSet.none := by rcases hes with rfl | rfl <;> decide
  have hne' : ss.map (encP es) ≠ [] := by simpa using hne
  refine ⟨ss.map (encP es), each_made (stored_encP hn) ss, ?_⟩
  obtain ⟨⟨sch, t, h1, h2, h3, h4, h5, h6⟩, k1, k2⟩ := splitsTo_iff.1 h
  refine splitsTo_iff.2 ⟨⟨sch, t ++ Abnf.slashes (ss.map (encP es)), h1, h2, ?_, h4, h5, ?_⟩, k1, fun ha' => absurd ha' ha⟩
  · obtain ⟨sc, A, P, q, f⟩ := p
    simp only at h3 ha hp ⊢
    cases h3 with
    | abempty a gs hA hgs =>
      simp only at hp; subst hp
      have := Abnf.PartDerives.abempty (first := Abnf.segmentNz) a (ss.map (encP es)) hA (by
        intro g hg
        obtain ⟨x, _, rfl⟩ := List.mem_map.1 hg
        exact (encP_chars hes x).2)
      have e : (!(ss.map (encP es)).isEmpty) = true := by
        cases ss with
        | nil => exact absurd rfl hne
        | cons => rfl
      rw [e] at this
      simpa [Abnf.slashes] using this
    | _ => exact absurd rfl ha
  · rw [hq, hf] at h6 ⊢
    rw [joined_slashes hne', h6]
    simp [Abnf.optText]

/-- **C114**, where it fails: with the set `path` a text with a slash becomes two segments; with the set `query` a value with `&` becomes two; and
decoding before cutting loses where the texts end. -/
theorem C114_counterexample :
    (pctencode (b! "a/b") EncSet.path = .ok (b! "a/b") ∧ needsPctencode (b! "/") EncSet.path = false) ∧
    (pctencode (b! "a&b") EncSet.query = .ok (b! "a&b") ∧ needsPctencode (b! "&") EncSet.query = false) ∧
    (pctencode (b! "a&b") EncSet.component = .ok (b! "a%26b") ∧ pctdecode (b! "a%26b&c") = .ok (b! "a&b&c")) := by
  decide +kernel

/-- **C114**: the texts `.` and `..` are not encoded by any set: as segments they survive `split` but not resolution. -/
theorem C114_dots_counterexample : (∀ es, pctencode (b! "..") es = .ok (b! "..")) ∧
    (joinStr x86 ⟨4096, b! "s://h/"⟩ ⟨8192, b! "/a/../b"⟩ true).map (·.map compose) = .ok (some (b! "s://h/b")) :=
  ⟨fun es => by rw [pctencode_eq]; have : needsPctencodeB 0x2E es = false := dot_plain es; simp [encP, encB, this], by decide +kernel⟩

example : SplitsTo x86 (b! "http://h") ⟨some (b! "http"), some ⟨none, b! "h", none⟩, ⟨false, []⟩, none, none⟩ ∧
    StoredPair EncSet.component (b! "a&", b! "1=2") (b! "a%26=1%3D2") := by
  refine ⟨c91_splits x86 (run_text (by decide +kernel)), _, _, stored_encP (by decide) _, stored_encP (by decide) _, by decide +kernel, by decide +kernel, by decide +kernel, by decide +kernel⟩

end Verif
