import Verif.Proofs.Chars

/-!
# Soundness of the rules below `authority`
-/

namespace Verif
open Peg

theorem rep_mono {A B : Lang} (h : ∀ u, A u → B u) {m n u} (hr : Abnf.rep m n A u) : Abnf.rep m n B u := by
  obtain ⟨es, h1, h2, h3, h4⟩ := hr
  exact ⟨es, h1, fun e he => h _ (h2 e he), h3, h4⟩

theorem cat_mono {A A' B B' : Lang} (h : ∀ u, A u → A' u) (h' : ∀ u, B u → B' u) {u}
    (hr : Abnf.cat A B u) : Abnf.cat A' B' u := by
  obtain ⟨x, y, h1, h2, h3⟩ := hr
  exact ⟨x, y, h1, h _ h2, h' _ h3⟩

theorem cat_assoc {A B C : Lang} {u} : Abnf.cat (Abnf.cat A B) C u ↔ Abnf.cat A (Abnf.cat B C) u := by
  constructor
  · rintro ⟨_, z, rfl, ⟨x, y, rfl, hx, hy⟩, hz⟩
    exact ⟨x, y ++ z, by simp, hx, y, z, rfl, hy, hz⟩
  · rintro ⟨x, _, rfl, hx, y, z, rfl, hy, hz⟩
    exact ⟨x ++ y, z, by simp, ⟨x, y, rfl, hx, hy⟩, hz⟩

theorem sound_assoc {p q r A B C} (h : Sound (seq p q) (Plain (Abnf.cat A B))) (hr : Sound r (Plain C)) :
    Sound (seq (seq p q) r) (Plain (Abnf.cat A (Abnf.cat B C))) :=
  sound_langeq (sound_seqP h hr) fun _ => cat_assoc.1

theorem sound_ch (c : UInt8) : Sound (PG.ch c) (Plain (Abnf.lit [c])) :=
  sound_langeq (sound_chr _) fun u h => (lit_cls c u).2 h

theorem sound_alpha : Sound PG.alpha (Plain Abnf.ALPHA) := sound_langeq (sound_chr _) fun u => (ALPHA_cls u).2
theorem sound_digit : Sound PG.digit (Plain Abnf.DIGIT) := sound_langeq (sound_chr _) fun u => (DIGIT_cls u).2
theorem sound_hexdig : Sound PG.hexdig (Plain Abnf.HEXDIG) := sound_langeq (sound_chr _) fun u => (HEXDIG_cls u).2
theorem sound_range (a b : UInt8) : Sound (PG.range a b) (Plain (Abnf.range a.toNat b.toNat)) :=
  sound_langeq (sound_chr _) fun u => (range_cls _ _ u).2

theorem sound_pchar : Sound PG.pchar (Plain Abnf.pchar) := by
  rw [pchar_eq]; exact sound_langeq (sound_elemP _) fun u => (pchar_elem u).2

theorem sound_userinfo : Sound PG.userinfo (Plain Abnf.userinfo) := by
  rw [PG.userinfo, userinfoElem_eq]
  exact sound_langeq (sound_starP (sound_elemP _) 0 (by decide)) fun u => rep_mono fun u => (user_elem u).2

theorem sound_regName : Sound PG.regName (Plain Abnf.regName) := by
  rw [PG.regName, regNameElem_eq]
  exact sound_langeq (sound_starP (sound_elemP _) 0 (by decide)) fun u => rep_mono fun u => (reg_elem u).2

theorem sound_scheme : Sound PG.scheme (Plain Abnf.scheme) := by
  rw [PG.scheme, schemeElem_eq]
  exact sound_langeq (sound_seqP sound_alpha (sound_starP (sound_chr _) 0 (by decide)))
    fun u => cat_mono (fun _ h => h) fun u => rep_mono fun u => (scheme_cls u).2

theorem sound_port : Sound PG.port (Plain Abnf.port) := sound_starP sound_digit 0 (by decide)

theorem sound_segment : Sound PG.segment (Plain Abnf.segment) := sound_starP sound_pchar 0 (by decide)
theorem sound_segmentNz : Sound PG.segmentNz (Plain Abnf.segmentNz) := sound_starP sound_pchar 1 (by decide)
theorem sound_segmentNzNc : Sound PG.segmentNzNc (Plain Abnf.segmentNzNc) := by
  rw [PG.segmentNzNc, segmentNzNcElem_eq]
  exact sound_langeq (sound_starP (sound_elemP _) 1 (by decide)) fun u => rep_mono fun u => (nc_elem u).2
theorem sound_query : Sound PG.query (Plain Abnf.query) := by
  rw [PG.query, queryElem_eq]
  exact sound_langeq (sound_starP (sound_elemP _) 0 (by decide)) fun u => rep_mono fun u => (query_elem u).2

theorem sound_decOctet : Sound PG.decOctet (Plain Abnf.decOctet) := by
  have h25 : Sound PG.octet25 (Plain Abnf.decOctet) := by
    refine sound_langeq (sound_assoc (sound_seqP (sound_ch _) (sound_ch _)) (sound_range _ _)) ?_
    rintro u ⟨_, _, rfl, rfl, _, _, rfl, rfl, h⟩
    exact Or.inr (Or.inr (Or.inr (Or.inr ⟨[50, 53], _, by simp, rfl, h⟩)))
  have h2 : Sound PG.octet2 (Plain Abnf.decOctet) := by
    refine sound_langeq (sound_assoc (sound_seqP (sound_ch _) (sound_range _ _)) sound_digit) ?_
    intro u h
    exact Or.inr (Or.inr (Or.inr (Or.inl h)))
  have h1 : Sound PG.octet1 (Plain Abnf.decOctet) := by
    refine sound_langeq (sound_assoc (sound_seqP (sound_ch _) sound_digit) sound_digit) ?_
    rintro u ⟨_, _, rfl, h, a, b, rfl, ha, hb⟩
    refine Or.inr (Or.inr (Or.inl ⟨_, _, rfl, h, [a, b], by simp, ?_, by simp, by simp⟩))
    intro e he
    simp at he
    rcases he with rfl | rfl <;> assumption
  have hx : Sound PG.octetXX (Plain Abnf.decOctet) := by
    refine sound_langeq (sound_seqP (sound_range _ _) sound_digit) ?_
    intro u h
    exact Or.inr (Or.inl h)
  exact sound_alt_cons h25 (sound_alt_cons h2 (sound_alt_cons h1 (sound_alt_cons hx (sound_alt_cons
    (sound_langeq sound_digit fun u h => Or.inl h) sound_alt_nil))))

theorem sound_ipv4address : Sound PG.ipv4address (Plain Abnf.IPv4address) := by
  have d := sound_decOctet
  have f := sound_ch 0x2E
  refine sound_langeq (sound_seqP (sound_seqP (sound_seqP (sound_seqP (sound_seqP (sound_seqP d f) d) f) d) f) d) ?_
  intro u h
  simp only [cat_assoc] at h
  exact h

theorem sound_h16 : Sound PG.h16 (Plain Abnf.h16) :=
  sound_starPB sound_hexdig 1 4 (by decide) (by decide)

theorem sound_singleColon : Sound PG.singleColon (Plain (Abnf.lit (b! ":"))) := by
  have hn : Sound (notAhead (· == 0x3A)) (Plain (Abnf.lit [])) := by
    intro s u a v h
    cases s with
    | nil => simp [notAhead] at h; obtain ⟨rfl, rfl, rfl⟩ := h; exact ⟨rfl, rfl, rfl⟩
    | cons c s =>
      simp only [notAhead] at h
      split at h
      · simp at h
      · simp at h; obtain ⟨rfl, rfl, rfl⟩ := h; exact ⟨rfl, rfl, rfl⟩
  refine sound_langeq (sound_seqP (sound_ch _) hn) ?_
  rintro u ⟨_, _, rfl, rfl, rfl⟩
  rfl

theorem sound_h16Colon : Sound PG.h16Colon (Plain Abnf.h16c) := sound_seqP sound_h16 sound_singleColon

theorem sound_colonColon : Sound PG.colonColon (Plain (Abnf.lit (b! "::"))) := by
  refine sound_langeq (sound_seqP (sound_ch _) (sound_ch _)) ?_
  rintro u ⟨_, _, rfl, rfl, rfl⟩
  rfl

theorem sound_ls32 : Sound PG.ls32 (Plain Abnf.ls32) :=
  sound_altP_cons (sound_assoc (sound_seqP sound_h16 (sound_ch _)) sound_h16)
    (sound_altP_one sound_ipv4address)

theorem sound_h16Prefix (n : Nat) (hn : n < uintMax) :
    Sound (PG.h16Prefix n) (Plain (Abnf.cat (Abnf.upTo n Abnf.h16c) Abnf.h16)) :=
  sound_seqP (sound_starPB sound_h16Colon 0 n (Nat.zero_le _) hn) sound_h16

theorem sound_times (n : Nat) (hn : n < uintMax) :
    Sound (star PG.h16Colon n n) (Plain (Abnf.times n Abnf.h16c)) :=
  sound_starPB sound_h16Colon n n (Nat.le_refl _) hn

theorem sound_ipv6address : Sound PG.ipv6address (Plain Abnf.IPv6address) := by
  have l := sound_ls32
  have cc := sound_colonColon
  have op := fun (n : Nat) (hn : n < uintMax) => sound_optP (sound_h16Prefix n hn)
  have re : ∀ {A B C D : Lang} {u}, Abnf.cat (Abnf.cat (Abnf.cat A B) C) D u →
      Abnf.cat A (Abnf.cat B (Abnf.cat C D)) u := by
    intro A B C D u h; simp only [cat_assoc] at h; exact h
  have h1 := sound_seqP (sound_times 6 (by decide)) l
  have h2 := sound_assoc (sound_seqP cc (sound_times 5 (by decide))) l
  have h3 := sound_langeq (sound_seqP (sound_seqP (sound_seqP (sound_optP sound_h16) cc) (sound_times 4 (by decide))) l) fun _ => re
  have h4 := sound_langeq (sound_seqP (sound_seqP (sound_seqP (op 1 (by decide)) cc) (sound_times 3 (by decide))) l) fun _ => re
  have h5 := sound_langeq (sound_seqP (sound_seqP (sound_seqP (op 2 (by decide)) cc) (sound_times 2 (by decide))) l) fun _ => re
  have h6 := sound_langeq (sound_seqP (sound_seqP (sound_seqP (op 3 (by decide)) cc) sound_h16Colon) l) fun _ => re
  have h7 := sound_assoc (sound_seqP (op 4 (by decide)) cc) l
  have h8 := sound_assoc (sound_seqP (op 5 (by decide)) cc) sound_h16
  have h9 := sound_seqP (op 6 (by decide)) cc
  exact sound_altP_cons h1 (sound_altP_cons h2 (sound_altP_cons h3 (sound_altP_cons h4
    (sound_altP_cons h5 (sound_altP_cons h6 (sound_altP_cons h7 (sound_altP_cons h8 (sound_altP_one h9))))))))

theorem sound_letterV : Sound PG.letterV (Plain (Abnf.alt (Abnf.lit (b! "v")) (Abnf.lit (b! "V")))) :=
  sound_langeq (sound_chr _) fun u => (alt_cls (lit_cls _) (lit_cls _) u).2

theorem sound_ipvfuture : Sound PG.ipvfuture (Plain Abnf.IPvFuture) := by
  rw [PG.ipvfuture, ipvfutureElem_eq]
  have := sound_seqP (sound_seqP (sound_seqP sound_letterV (sound_starP sound_hexdig 1 (by decide)))
    (sound_ch 0x2E)) (sound_starP (sound_chr isUserChar) 1 (by decide))
  refine sound_langeq this ?_
  intro u h
  simp only [cat_assoc] at h
  exact cat_mono (fun _ h => h) (fun _ => cat_mono (fun _ h => h) (fun _ => cat_mono (fun _ h => h)
    fun u => rep_mono fun u => (future_cls u).2)) h

theorem sound_ipLiteral : Sound PG.ipLiteral (Plain Abnf.IPLiteral) :=
  sound_assoc (sound_seqP (sound_ch _) (sound_altP_cons sound_ipv6address (sound_altP_one sound_ipvfuture)))
    (sound_ch _)

theorem sound_host : Sound PG.host (Plain Abnf.host) :=
  sound_altP_cons sound_ipLiteral (sound_altP_cons sound_ipv4address (sound_altP_one sound_regName))

end Verif
