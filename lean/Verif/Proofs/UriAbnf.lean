import Verif.Spec.AbnfNotation
import Verif.Spec.UriAbnf
import Verif.Spec.Abnf
import Verif.Proofs.Chars

/-!
# The rules of uri.abnf generate the languages of `Spec/Abnf`
-/

set_option linter.unusedSimpArgs false

namespace Verif.AbnfFile
open Verif.Abnf

/-- What `e` generates. -/
def lang (G : Grammar) (e : Elem) : Lang := fun s => Generates G e s

theorem lower_plain {c d : UInt8} (hd : isAlpha d = false) (h : lower c = lower d) : c = d := by
  have h1 : ∀ d : UInt8, isAlpha d = true ∨ lower d = d := fun d =>
    of_decide_eq_true (forall_byte (P := fun d => decide (isAlpha d = true ∨ lower d = d)) (by decide +kernel) d)
  have h2 : ∀ c : UInt8, lower c = c ∨ isAlpha (lower c) = true := fun d =>
    of_decide_eq_true (forall_byte (P := fun c => decide (lower c = c ∨ isAlpha (lower c) = true)) (by decide +kernel) d)
  rcases h1 d with h' | h'
  · rw [hd] at h'; cases h'
  · rw [h'] at h
    rcases h2 c with k | k
    · rw [← k, h]
    · rw [h, hd] at k; cases k

theorem lang_str {G : Grammar} {t : Str} (h : t.all (fun c => !isAlpha c) = true) : lang G (.str t) = lit t := by
  funext s
  apply propext
  constructor
  · intro g
    cases g with
    | str e =>
      show s = t
      rw [List.all_eq_true] at h
      have : ∀ (s t : Str), (∀ x ∈ t, (!isAlpha x) = true) → s.map lower = t.map lower → s = t := by
        intro s
        induction s with
        | nil => intro t _ e; cases t with
          | nil => rfl
          | cons => simp at e
        | cons c s ih =>
          intro t h e
          cases t with
          | nil => simp at e
          | cons d t =>
            simp only [List.map_cons, List.cons.injEq] at e
            rw [ih t (fun x hx => h x (List.mem_cons_of_mem _ hx)) e.2, lower_plain (by simpa using h d List.mem_cons_self) e.1]
      exact this s t h e
  · rintro rfl; exact .str rfl

theorem lang_letter {G : Grammar} {c d : UInt8} (h : ∀ x, lower x = lower c ↔ x = c ∨ x = d) : lang G (.str [c]) = lit [c] ∕ lit [d] := by
  funext s
  apply propext
  constructor
  · intro g
    cases g with
    | str e =>
      match s, e with
      | [], e => simp at e
      | [x], e =>
        rcases (h x).1 (by simpa using e) with rfl | rfl
        · exact .inl rfl
        · exact .inr rfl
      | _ :: _ :: _, e => simp at e
  · rintro (rfl | rfl)
    · exact .str rfl
    · exact .str (by simpa using (h d).2 (.inr rfl))

theorem lang_range {G : Grammar} {a b : Nat} : lang G (.range a b) = Abnf.range a b := by
  funext s
  apply propext
  constructor
  · intro g
    cases g with
    | range h1 h2 => exact ⟨_, rfl, h1, h2⟩
  · rintro ⟨c, rfl, h1, h2⟩; exact .range h1 h2

theorem lang_cat {G : Grammar} {a b : Elem} : lang G (.cat a b) = lang G a ⬝ lang G b := by
  funext s
  apply propext
  constructor
  · intro g
    cases g with
    | cat h1 h2 => exact ⟨_, _, rfl, h1, h2⟩
  · rintro ⟨x, y, rfl, h1, h2⟩; exact .cat h1 h2

theorem lang_alt {G : Grammar} {a b : Elem} : lang G (.alt a b) = (lang G a ∕ lang G b) := by
  funext s
  apply propext
  constructor
  · intro g
    cases g with
    | altLeft h => exact .inl h
    | altRight h => exact .inr h
  · rintro (h | h)
    · exact .altLeft h
    · exact .altRight h

theorem lang_opt {G : Grammar} {e : Elem} : lang G (.opt e) = Abnf.opt (lang G e) := by
  funext s
  apply propext
  constructor
  · intro g
    cases g with
    | optNone => exact .inl rfl
    | optSome h => exact .inr h
  · rintro (rfl | h)
    · exact .optNone
    · exact .optSome h

theorem lang_rep {G : Grammar} {m : Nat} {n : Option Nat} {e : Elem} : lang G (.rep m n e) = Abnf.rep m n (lang G e) := by
  funext s
  apply propext
  constructor
  · intro g
    have key : ∀ x s, Generates G x s → ∀ m n, x = .rep m n e → Abnf.rep m n (lang G e) s := by
      intro x s g
      induction g with
      | repNone => rintro m n h; cases h; exact ⟨[], rfl, by simp, Nat.zero_le _, fun _ _ => Nat.zero_le _⟩
      | @repMore m' e' s t h1 h2 _ ih2 =>
        rintro m n h
        cases h
        obtain ⟨es, rfl, k1, k2, k3⟩ := ih2 _ _ rfl
        refine ⟨s :: es, rfl, ?_, by simp only [List.length_cons]; omega, nofun⟩
        intro y hy
        rcases List.mem_cons.1 hy with rfl | hy
        · exact h1
        · exact k1 y hy
      | @repMoreLimit m' n' e' s t h1 h2 _ ih2 =>
        rintro m n h
        cases h
        obtain ⟨es, rfl, k1, k2, k3⟩ := ih2 _ _ rfl
        refine ⟨s :: es, rfl, ?_, by simp only [List.length_cons]; omega, fun k hk => ?_⟩
        · intro y hy
          rcases List.mem_cons.1 hy with rfl | hy
          · exact h1
          · exact k1 y hy
        · cases hk
          have := k3 _ rfl
          simp only [List.length_cons]; omega
      | _ => rintro m n h; cases h
    exact key _ _ g m n rfl
  · rintro ⟨es, rfl, h1, h2, h3⟩
    show Generates G (.rep m n e) es.flatten
    induction es generalizing m n with
    | nil =>
      have : m = 0 := by simpa using h2
      subst this
      exact .repNone
    | cons x es ih =>
      have hm : m - 1 ≤ es.length := by simp only [List.length_cons] at h2; omega
      cases n with
      | none => exact .repMore (h1 x List.mem_cons_self) (ih (fun y hy => h1 y (List.mem_cons_of_mem _ hy)) hm nofun)
      | some k =>
        have hk := h3 k rfl
        simp only [List.length_cons] at hk
        cases k with
        | zero => omega
        | succ k => exact .repMoreLimit (h1 x List.mem_cons_self) (ih (fun y hy => h1 y (List.mem_cons_of_mem _ hy)) hm (fun j hj => by cases hj; omega))

theorem lang_rule {G : Grammar} {n : Str} {e : Elem} (h : (n, e) ∈ G) (hu : ∀ x ∈ G, x.1 = n → x.2 = e) : lang G (.rule n) = lang G e := by
  funext s
  apply propext
  constructor
  · intro g
    cases g with
    | rule hm g =>
      have := hu _ hm rfl
      subst this
      exact g
  · intro g; exact .rule h g

theorem cat_assoc (A B C : Lang) : (A ⬝ B) ⬝ C = A ⬝ B ⬝ C := by
  funext s
  apply propext
  constructor
  · rintro ⟨_, c, rfl, ⟨a, b, rfl, ha, hb⟩, hc⟩
    exact ⟨a, b ++ c, by simp, ha, b, c, rfl, hb, hc⟩
  · rintro ⟨a, _, rfl, ha, b, c, rfl, hb, hc⟩
    exact ⟨a ++ b, c, by simp, ⟨a, b, rfl, ha, hb⟩, hc⟩

/-- The rules of uri.abnf and the core rules it uses. -/
def G : Grammar := [
  (b! "URI", .cat (.rule (b! "scheme")) (.cat (.str (b! ":")) (.cat (.rule (b! "hier-part")) (.cat (.opt (.cat (.str (b! "?")) (.rule (b! "query")))) (.opt (.cat (.str (b! "#")) (.rule (b! "fragment")))))))),
  (b! "hier-part", .alt (.cat (.str (b! "//")) (.cat (.rule (b! "authority")) (.rule (b! "path-abempty")))) (.alt (.rule (b! "path-absolute")) (.alt (.rule (b! "path-rootless")) (.rule (b! "path-empty"))))),
  (b! "URI-reference", .alt (.rule (b! "URI")) (.rule (b! "relative-ref"))),
  (b! "absolute-URI", .cat (.rule (b! "scheme")) (.cat (.str (b! ":")) (.cat (.rule (b! "hier-part")) (.opt (.cat (.str (b! "?")) (.rule (b! "query"))))))),
  (b! "relative-ref", .cat (.rule (b! "relative-part")) (.cat (.opt (.cat (.str (b! "?")) (.rule (b! "query")))) (.opt (.cat (.str (b! "#")) (.rule (b! "fragment")))))),
  (b! "relative-part", .alt (.cat (.str (b! "//")) (.cat (.rule (b! "authority")) (.rule (b! "path-abempty")))) (.alt (.rule (b! "path-absolute")) (.alt (.rule (b! "path-noscheme")) (.rule (b! "path-empty"))))),
  (b! "scheme", .cat (.rule (b! "ALPHA")) (.rep 0 none (.alt (.rule (b! "ALPHA")) (.alt (.rule (b! "DIGIT")) (.alt (.str (b! "+")) (.alt (.str (b! "-")) (.str (b! ".")))))))),
  (b! "authority", .cat (.opt (.cat (.rule (b! "userinfo")) (.str (b! "@")))) (.cat (.rule (b! "host")) (.opt (.cat (.str (b! ":")) (.rule (b! "port")))))),
  (b! "userinfo", .rep 0 none (.alt (.rule (b! "unreserved")) (.alt (.rule (b! "pct-encoded")) (.alt (.rule (b! "sub-delims")) (.str (b! ":")))))),
  (b! "host", .alt (.rule (b! "IP-literal")) (.alt (.rule (b! "IPv4address")) (.rule (b! "reg-name")))),
  (b! "port", .rep 0 none (.rule (b! "DIGIT"))),
  (b! "IP-literal", .cat (.str (b! "[")) (.cat (.alt (.rule (b! "IPv6address")) (.rule (b! "IPvFuture"))) (.str (b! "]")))),
  (b! "IPvFuture", .cat (.str (b! "v")) (.cat (.rep 1 none (.rule (b! "HEXDIG"))) (.cat (.str (b! ".")) (.rep 1 none (.alt (.rule (b! "unreserved")) (.alt (.rule (b! "sub-delims")) (.str (b! ":")))))))),
  (b! "IPv6address", .alt (.cat (.rep 6 (some 6) (.cat (.rule (b! "h16")) (.str (b! ":")))) (.rule (b! "ls32"))) (.alt (.cat (.str (b! "::")) (.cat (.rep 5 (some 5) (.cat (.rule (b! "h16")) (.str (b! ":")))) (.rule (b! "ls32")))) (.alt (.cat (.opt (.rule (b! "h16"))) (.cat (.str (b! "::")) (.cat (.rep 4 (some 4) (.cat (.rule (b! "h16")) (.str (b! ":")))) (.rule (b! "ls32"))))) (.alt (.cat (.opt (.cat (.rep 0 (some 1) (.cat (.rule (b! "h16")) (.str (b! ":")))) (.rule (b! "h16")))) (.cat (.str (b! "::")) (.cat (.rep 3 (some 3) (.cat (.rule (b! "h16")) (.str (b! ":")))) (.rule (b! "ls32"))))) (.alt (.cat (.opt (.cat (.rep 0 (some 2) (.cat (.rule (b! "h16")) (.str (b! ":")))) (.rule (b! "h16")))) (.cat (.str (b! "::")) (.cat (.rep 2 (some 2) (.cat (.rule (b! "h16")) (.str (b! ":")))) (.rule (b! "ls32"))))) (.alt (.cat (.opt (.cat (.rep 0 (some 3) (.cat (.rule (b! "h16")) (.str (b! ":")))) (.rule (b! "h16")))) (.cat (.str (b! "::")) (.cat (.rule (b! "h16")) (.cat (.str (b! ":")) (.rule (b! "ls32")))))) (.alt (.cat (.opt (.cat (.rep 0 (some 4) (.cat (.rule (b! "h16")) (.str (b! ":")))) (.rule (b! "h16")))) (.cat (.str (b! "::")) (.rule (b! "ls32")))) (.alt (.cat (.opt (.cat (.rep 0 (some 5) (.cat (.rule (b! "h16")) (.str (b! ":")))) (.rule (b! "h16")))) (.cat (.str (b! "::")) (.rule (b! "h16")))) (.cat (.opt (.cat (.rep 0 (some 6) (.cat (.rule (b! "h16")) (.str (b! ":")))) (.rule (b! "h16")))) (.str (b! "::"))))))))))),
  (b! "h16", .rep 1 (some 4) (.rule (b! "HEXDIG"))),
  (b! "ls32", .alt (.cat (.rule (b! "h16")) (.cat (.str (b! ":")) (.rule (b! "h16")))) (.rule (b! "IPv4address"))),
  (b! "IPv4address", .cat (.rule (b! "dec-octet")) (.cat (.str (b! ".")) (.cat (.rule (b! "dec-octet")) (.cat (.str (b! ".")) (.cat (.rule (b! "dec-octet")) (.cat (.str (b! ".")) (.rule (b! "dec-octet")))))))),
  (b! "dec-octet", .alt (.rule (b! "DIGIT")) (.alt (.cat (.range 49 57) (.rule (b! "DIGIT"))) (.alt (.cat (.str (b! "1")) (.rep 2 (some 2) (.rule (b! "DIGIT")))) (.alt (.cat (.str (b! "2")) (.cat (.range 48 52) (.rule (b! "DIGIT")))) (.cat (.str (b! "25")) (.range 48 53)))))),
  (b! "reg-name", .rep 0 none (.alt (.rule (b! "unreserved")) (.alt (.rule (b! "pct-encoded")) (.rule (b! "sub-delims"))))),
  (b! "path", .alt (.rule (b! "path-abempty")) (.alt (.rule (b! "path-absolute")) (.alt (.rule (b! "path-noscheme")) (.alt (.rule (b! "path-rootless")) (.rule (b! "path-empty")))))),
  (b! "path-abempty", .rep 0 none (.cat (.str (b! "/")) (.rule (b! "segment")))),
  (b! "path-absolute", .cat (.str (b! "/")) (.opt (.cat (.rule (b! "segment-nz")) (.rep 0 none (.cat (.str (b! "/")) (.rule (b! "segment"))))))),
  (b! "path-noscheme", .cat (.rule (b! "segment-nz-nc")) (.rep 0 none (.cat (.str (b! "/")) (.rule (b! "segment"))))),
  (b! "path-rootless", .cat (.rule (b! "segment-nz")) (.rep 0 none (.cat (.str (b! "/")) (.rule (b! "segment"))))),
  (b! "path-empty", .rep 0 (some 0) (.rule (b! "pchar"))),
  (b! "segment", .rep 0 none (.rule (b! "pchar"))),
  (b! "segment-nz", .rep 1 none (.rule (b! "pchar"))),
  (b! "segment-nz-nc", .rep 1 none (.alt (.rule (b! "unreserved")) (.alt (.rule (b! "pct-encoded")) (.alt (.rule (b! "sub-delims")) (.str (b! "@")))))),
  (b! "pchar", .alt (.rule (b! "unreserved")) (.alt (.rule (b! "pct-encoded")) (.alt (.rule (b! "sub-delims")) (.alt (.str (b! ":")) (.str (b! "@")))))),
  (b! "query", .rep 0 none (.alt (.rule (b! "pchar")) (.alt (.str (b! "/")) (.str (b! "?"))))),
  (b! "fragment", .rep 0 none (.alt (.rule (b! "pchar")) (.alt (.str (b! "/")) (.str (b! "?"))))),
  (b! "pct-encoded", .cat (.str (b! "%")) (.cat (.rule (b! "HEXDIG")) (.rule (b! "HEXDIG")))),
  (b! "unreserved", .alt (.rule (b! "ALPHA")) (.alt (.rule (b! "DIGIT")) (.alt (.str (b! "-")) (.alt (.str (b! ".")) (.alt (.str (b! "_")) (.str (b! "~"))))))),
  (b! "reserved", .alt (.rule (b! "gen-delims")) (.rule (b! "sub-delims"))),
  (b! "gen-delims", .alt (.str (b! ":")) (.alt (.str (b! "/")) (.alt (.str (b! "?")) (.alt (.str (b! "#")) (.alt (.str (b! "[")) (.alt (.str (b! "]")) (.str (b! "@")))))))),
  (b! "sub-delims", .alt (.str (b! "!")) (.alt (.str (b! "$")) (.alt (.str (b! "&")) (.alt (.str (b! "'")) (.alt (.str (b! "(")) (.alt (.str (b! ")")) (.alt (.str (b! "*")) (.alt (.str (b! "+")) (.alt (.str (b! ",")) (.alt (.str (b! ";")) (.str (b! "=")))))))))))),
  (b! "ALPHA", .alt (.range 65 90) (.range 97 122)),
  (b! "DIGIT", .range 48 57),
  (b! "HEXDIG", .alt (.rule (b! "DIGIT")) (.alt (.str (b! "A")) (.alt (.str (b! "B")) (.alt (.str (b! "C")) (.alt (.str (b! "D")) (.alt (.str (b! "E")) (.str (b! "F"))))))))]
/-- That is what the text says. -/
theorem parsed : parse (uriAbnf ++ coreAbnf) = some G := by decide +kernel

theorem L_ALPHA : lang G (.rule (b! "ALPHA")) = Abnf.ALPHA := by
  rw [lang_rule (e := .alt (.range 65 90) (.range 97 122)) (by decide +kernel) (by decide +kernel)]
  simp only [lang_cat, lang_alt, lang_opt, lang_rep, lang_range]
  rfl

theorem L_DIGIT : lang G (.rule (b! "DIGIT")) = Abnf.DIGIT := by
  rw [lang_rule (e := .range 48 57) (by decide +kernel) (by decide +kernel)]
  simp only [lang_cat, lang_alt, lang_opt, lang_rep, lang_range]
  rfl

theorem L_scheme : lang G (.rule (b! "scheme")) = Abnf.scheme := by
  rw [lang_rule (e := .cat (.rule (b! "ALPHA")) (.rep 0 none (.alt (.rule (b! "ALPHA")) (.alt (.rule (b! "DIGIT")) (.alt (.str (b! "+")) (.alt (.str (b! "-")) (.str (b! ".")))))))) (by decide +kernel) (by decide +kernel)]
  have s0 : lang G (.str (b! "+")) = lit (b! "+") := lang_str (by decide +kernel)
  have s1 : lang G (.str (b! "-")) = lit (b! "-") := lang_str (by decide +kernel)
  have s2 : lang G (.str (b! ".")) = lit (b! ".") := lang_str (by decide +kernel)
  simp only [lang_cat, lang_alt, lang_opt, lang_rep, lang_range, s0, s1, s2, L_ALPHA, L_DIGIT]
  rfl

theorem L_unreserved : lang G (.rule (b! "unreserved")) = Abnf.unreserved := by
  rw [lang_rule (e := .alt (.rule (b! "ALPHA")) (.alt (.rule (b! "DIGIT")) (.alt (.str (b! "-")) (.alt (.str (b! ".")) (.alt (.str (b! "_")) (.str (b! "~"))))))) (by decide +kernel) (by decide +kernel)]
  have s0 : lang G (.str (b! "-")) = lit (b! "-") := lang_str (by decide +kernel)
  have s1 : lang G (.str (b! ".")) = lit (b! ".") := lang_str (by decide +kernel)
  have s2 : lang G (.str (b! "_")) = lit (b! "_") := lang_str (by decide +kernel)
  have s3 : lang G (.str (b! "~")) = lit (b! "~") := lang_str (by decide +kernel)
  simp only [lang_cat, lang_alt, lang_opt, lang_rep, lang_range, s0, s1, s2, s3, L_ALPHA, L_DIGIT]
  rfl

theorem L_HEXDIG : lang G (.rule (b! "HEXDIG")) = Abnf.HEXDIG := by
  rw [lang_rule (e := .alt (.rule (b! "DIGIT")) (.alt (.str (b! "A")) (.alt (.str (b! "B")) (.alt (.str (b! "C")) (.alt (.str (b! "D")) (.alt (.str (b! "E")) (.str (b! "F")))))))) (by decide +kernel) (by decide +kernel)]
  have s0 : lang G (.str (b! "A")) = lit [0x41] ∕ lit [0x61] := lang_letter (fun x => of_decide_eq_true (forall_byte (P := fun x => decide (lower x = lower 0x41 ↔ x = 0x41 ∨ x = 0x61)) (by decide +kernel) x))
  have s1 : lang G (.str (b! "B")) = lit [0x42] ∕ lit [0x62] := lang_letter (fun x => of_decide_eq_true (forall_byte (P := fun x => decide (lower x = lower 0x42 ↔ x = 0x42 ∨ x = 0x62)) (by decide +kernel) x))
  have s2 : lang G (.str (b! "C")) = lit [0x43] ∕ lit [0x63] := lang_letter (fun x => of_decide_eq_true (forall_byte (P := fun x => decide (lower x = lower 0x43 ↔ x = 0x43 ∨ x = 0x63)) (by decide +kernel) x))
  have s3 : lang G (.str (b! "D")) = lit [0x44] ∕ lit [0x64] := lang_letter (fun x => of_decide_eq_true (forall_byte (P := fun x => decide (lower x = lower 0x44 ↔ x = 0x44 ∨ x = 0x64)) (by decide +kernel) x))
  have s4 : lang G (.str (b! "E")) = lit [0x45] ∕ lit [0x65] := lang_letter (fun x => of_decide_eq_true (forall_byte (P := fun x => decide (lower x = lower 0x45 ↔ x = 0x45 ∨ x = 0x65)) (by decide +kernel) x))
  have s5 : lang G (.str (b! "F")) = lit [0x46] ∕ lit [0x66] := lang_letter (fun x => of_decide_eq_true (forall_byte (P := fun x => decide (lower x = lower 0x46 ↔ x = 0x46 ∨ x = 0x66)) (by decide +kernel) x))
  simp only [lang_cat, lang_alt, lang_opt, lang_rep, lang_range, s0, s1, s2, s3, s4, s5, L_DIGIT]
  funext s
  apply propext
  have key : ∀ c : UInt8, (c = 65 ∨ c = 97) ∨ (c = 66 ∨ c = 98) ∨ (c = 67 ∨ c = 99) ∨ (c = 68 ∨ c = 100) ∨ (c = 69 ∨ c = 101) ∨ (c = 70 ∨ c = 102) ↔
      (0x41 ≤ c.toNat ∧ c.toNat ≤ 0x46) ∨ (0x61 ≤ c.toNat ∧ c.toNat ≤ 0x66) := fun c =>
    of_decide_eq_true (forall_byte (P := fun c => decide ((c = 65 ∨ c = 97) ∨ (c = 66 ∨ c = 98) ∨ (c = 67 ∨ c = 99) ∨ (c = 68 ∨ c = 100) ∨ (c = 69 ∨ c = 101) ∨ (c = 70 ∨ c = 102) ↔
      (0x41 ≤ c.toNat ∧ c.toNat ≤ 0x46) ∨ (0x61 ≤ c.toNat ∧ c.toNat ≤ 0x66))) (by decide +kernel) c)
  simp only [HEXDIG, alt, lit, Abnf.range]
  refine or_congr Iff.rfl ?_
  constructor
  · intro h
    have : ∃ c, s = [c] ∧ ((c = 65 ∨ c = 97) ∨ (c = 66 ∨ c = 98) ∨ (c = 67 ∨ c = 99) ∨ (c = 68 ∨ c = 100) ∨ (c = 69 ∨ c = 101) ∨ (c = 70 ∨ c = 102)) := by
      rcases h with (h | h) | (h | h) | (h | h) | (h | h) | (h | h) | h | h <;> exact ⟨_, h, by simp⟩
    obtain ⟨c, rfl, hh⟩ := this
    rcases (key c).1 hh with h | h
    · exact .inl ⟨c, rfl, h⟩
    · exact .inr ⟨c, rfl, h⟩
  · intro h
    have : ∃ c : UInt8, s = [c] ∧ ((0x41 ≤ c.toNat ∧ c.toNat ≤ 0x46) ∨ (0x61 ≤ c.toNat ∧ c.toNat ≤ 0x66)) := by
      rcases h with ⟨c, h, k⟩ | ⟨c, h, k⟩
      · exact ⟨c, h, .inl k⟩
      · exact ⟨c, h, .inr k⟩
    obtain ⟨c, rfl, hh⟩ := this
    have := (key c).2 hh
    simpa using this

theorem L_pctEncoded : lang G (.rule (b! "pct-encoded")) = Abnf.pctEncoded := by
  rw [lang_rule (e := .cat (.str (b! "%")) (.cat (.rule (b! "HEXDIG")) (.rule (b! "HEXDIG")))) (by decide +kernel) (by decide +kernel)]
  have s0 : lang G (.str (b! "%")) = lit (b! "%") := lang_str (by decide +kernel)
  simp only [lang_cat, lang_alt, lang_opt, lang_rep, lang_range, s0, L_HEXDIG]
  rfl

theorem L_subDelims : lang G (.rule (b! "sub-delims")) = Abnf.subDelims := by
  rw [lang_rule (e := .alt (.str (b! "!")) (.alt (.str (b! "$")) (.alt (.str (b! "&")) (.alt (.str (b! "'")) (.alt (.str (b! "(")) (.alt (.str (b! ")")) (.alt (.str (b! "*")) (.alt (.str (b! "+")) (.alt (.str (b! ",")) (.alt (.str (b! ";")) (.str (b! "=")))))))))))) (by decide +kernel) (by decide +kernel)]
  have s0 : lang G (.str (b! "!")) = lit (b! "!") := lang_str (by decide +kernel)
  have s1 : lang G (.str (b! "$")) = lit (b! "$") := lang_str (by decide +kernel)
  have s2 : lang G (.str (b! "&")) = lit (b! "&") := lang_str (by decide +kernel)
  have s3 : lang G (.str (b! "'")) = lit (b! "'") := lang_str (by decide +kernel)
  have s4 : lang G (.str (b! "(")) = lit (b! "(") := lang_str (by decide +kernel)
  have s5 : lang G (.str (b! ")")) = lit (b! ")") := lang_str (by decide +kernel)
  have s6 : lang G (.str (b! "*")) = lit (b! "*") := lang_str (by decide +kernel)
  have s7 : lang G (.str (b! "+")) = lit (b! "+") := lang_str (by decide +kernel)
  have s8 : lang G (.str (b! ",")) = lit (b! ",") := lang_str (by decide +kernel)
  have s9 : lang G (.str (b! ";")) = lit (b! ";") := lang_str (by decide +kernel)
  have s10 : lang G (.str (b! "=")) = lit (b! "=") := lang_str (by decide +kernel)
  simp only [lang_cat, lang_alt, lang_opt, lang_rep, lang_range, s0, s1, s2, s3, s4, s5, s6, s7, s8, s9, s10]
  rfl

theorem L_userinfo : lang G (.rule (b! "userinfo")) = Abnf.userinfo := by
  rw [lang_rule (e := .rep 0 none (.alt (.rule (b! "unreserved")) (.alt (.rule (b! "pct-encoded")) (.alt (.rule (b! "sub-delims")) (.str (b! ":")))))) (by decide +kernel) (by decide +kernel)]
  have s0 : lang G (.str (b! ":")) = lit (b! ":") := lang_str (by decide +kernel)
  simp only [lang_cat, lang_alt, lang_opt, lang_rep, lang_range, s0, L_pctEncoded, L_subDelims, L_unreserved]
  rfl

theorem L_h16 : lang G (.rule (b! "h16")) = Abnf.h16 := by
  rw [lang_rule (e := .rep 1 (some 4) (.rule (b! "HEXDIG"))) (by decide +kernel) (by decide +kernel)]
  simp only [lang_cat, lang_alt, lang_opt, lang_rep, lang_range, L_HEXDIG]
  rfl

theorem L_decOctet : lang G (.rule (b! "dec-octet")) = Abnf.decOctet := by
  rw [lang_rule (e := .alt (.rule (b! "DIGIT")) (.alt (.cat (.range 49 57) (.rule (b! "DIGIT"))) (.alt (.cat (.str (b! "1")) (.rep 2 (some 2) (.rule (b! "DIGIT")))) (.alt (.cat (.str (b! "2")) (.cat (.range 48 52) (.rule (b! "DIGIT")))) (.cat (.str (b! "25")) (.range 48 53)))))) (by decide +kernel) (by decide +kernel)]
  have s0 : lang G (.str (b! "1")) = lit (b! "1") := lang_str (by decide +kernel)
  have s1 : lang G (.str (b! "2")) = lit (b! "2") := lang_str (by decide +kernel)
  have s2 : lang G (.str (b! "25")) = lit (b! "25") := lang_str (by decide +kernel)
  simp only [lang_cat, lang_alt, lang_opt, lang_rep, lang_range, s0, s1, s2, L_DIGIT]
  rfl

theorem L_IPv4address : lang G (.rule (b! "IPv4address")) = Abnf.IPv4address := by
  rw [lang_rule (e := .cat (.rule (b! "dec-octet")) (.cat (.str (b! ".")) (.cat (.rule (b! "dec-octet")) (.cat (.str (b! ".")) (.cat (.rule (b! "dec-octet")) (.cat (.str (b! ".")) (.rule (b! "dec-octet")))))))) (by decide +kernel) (by decide +kernel)]
  have s0 : lang G (.str (b! ".")) = lit (b! ".") := lang_str (by decide +kernel)
  simp only [lang_cat, lang_alt, lang_opt, lang_rep, lang_range, s0, L_decOctet]
  rfl

theorem L_ls32 : lang G (.rule (b! "ls32")) = Abnf.ls32 := by
  rw [lang_rule (e := .alt (.cat (.rule (b! "h16")) (.cat (.str (b! ":")) (.rule (b! "h16")))) (.rule (b! "IPv4address"))) (by decide +kernel) (by decide +kernel)]
  have s0 : lang G (.str (b! ":")) = lit (b! ":") := lang_str (by decide +kernel)
  simp only [lang_cat, lang_alt, lang_opt, lang_rep, lang_range, s0, L_IPv4address, L_h16]
  rfl

theorem L_IPv6address : lang G (.rule (b! "IPv6address")) = Abnf.IPv6address := by
  rw [lang_rule (e := .alt (.cat (.rep 6 (some 6) (.cat (.rule (b! "h16")) (.str (b! ":")))) (.rule (b! "ls32"))) (.alt (.cat (.str (b! "::")) (.cat (.rep 5 (some 5) (.cat (.rule (b! "h16")) (.str (b! ":")))) (.rule (b! "ls32")))) (.alt (.cat (.opt (.rule (b! "h16"))) (.cat (.str (b! "::")) (.cat (.rep 4 (some 4) (.cat (.rule (b! "h16")) (.str (b! ":")))) (.rule (b! "ls32"))))) (.alt (.cat (.opt (.cat (.rep 0 (some 1) (.cat (.rule (b! "h16")) (.str (b! ":")))) (.rule (b! "h16")))) (.cat (.str (b! "::")) (.cat (.rep 3 (some 3) (.cat (.rule (b! "h16")) (.str (b! ":")))) (.rule (b! "ls32"))))) (.alt (.cat (.opt (.cat (.rep 0 (some 2) (.cat (.rule (b! "h16")) (.str (b! ":")))) (.rule (b! "h16")))) (.cat (.str (b! "::")) (.cat (.rep 2 (some 2) (.cat (.rule (b! "h16")) (.str (b! ":")))) (.rule (b! "ls32"))))) (.alt (.cat (.opt (.cat (.rep 0 (some 3) (.cat (.rule (b! "h16")) (.str (b! ":")))) (.rule (b! "h16")))) (.cat (.str (b! "::")) (.cat (.rule (b! "h16")) (.cat (.str (b! ":")) (.rule (b! "ls32")))))) (.alt (.cat (.opt (.cat (.rep 0 (some 4) (.cat (.rule (b! "h16")) (.str (b! ":")))) (.rule (b! "h16")))) (.cat (.str (b! "::")) (.rule (b! "ls32")))) (.alt (.cat (.opt (.cat (.rep 0 (some 5) (.cat (.rule (b! "h16")) (.str (b! ":")))) (.rule (b! "h16")))) (.cat (.str (b! "::")) (.rule (b! "h16")))) (.cat (.opt (.cat (.rep 0 (some 6) (.cat (.rule (b! "h16")) (.str (b! ":")))) (.rule (b! "h16")))) (.str (b! "::"))))))))))) (by decide +kernel) (by decide +kernel)]
  have s0 : lang G (.str (b! ":")) = lit (b! ":") := lang_str (by decide +kernel)
  have s1 : lang G (.str (b! "::")) = lit (b! "::") := lang_str (by decide +kernel)
  simp only [lang_cat, lang_alt, lang_opt, lang_rep, lang_range, s0, s1, L_h16, L_ls32]
  simp only [IPv6address, h16c, cat_assoc, times, upTo]

theorem L_IPvFuture : lang G (.rule (b! "IPvFuture")) = Abnf.IPvFuture := by
  rw [lang_rule (e := .cat (.str (b! "v")) (.cat (.rep 1 none (.rule (b! "HEXDIG"))) (.cat (.str (b! ".")) (.rep 1 none (.alt (.rule (b! "unreserved")) (.alt (.rule (b! "sub-delims")) (.str (b! ":")))))))) (by decide +kernel) (by decide +kernel)]
  have s0 : lang G (.str (b! ".")) = lit (b! ".") := lang_str (by decide +kernel)
  have s1 : lang G (.str (b! ":")) = lit (b! ":") := lang_str (by decide +kernel)
  have s2 : lang G (.str (b! "v")) = lit [0x76] ∕ lit [0x56] := lang_letter (fun x => of_decide_eq_true (forall_byte (P := fun x => decide (lower x = lower 0x76 ↔ x = 0x76 ∨ x = 0x56)) (by decide +kernel) x))
  simp only [lang_cat, lang_alt, lang_opt, lang_rep, lang_range, s0, s1, s2, L_HEXDIG, L_subDelims, L_unreserved]
  rfl

theorem L_IPLiteral : lang G (.rule (b! "IP-literal")) = Abnf.IPLiteral := by
  rw [lang_rule (e := .cat (.str (b! "[")) (.cat (.alt (.rule (b! "IPv6address")) (.rule (b! "IPvFuture"))) (.str (b! "]")))) (by decide +kernel) (by decide +kernel)]
  have s0 : lang G (.str (b! "[")) = lit (b! "[") := lang_str (by decide +kernel)
  have s1 : lang G (.str (b! "]")) = lit (b! "]") := lang_str (by decide +kernel)
  simp only [lang_cat, lang_alt, lang_opt, lang_rep, lang_range, s0, s1, L_IPv6address, L_IPvFuture]
  rfl

theorem L_regName : lang G (.rule (b! "reg-name")) = Abnf.regName := by
  rw [lang_rule (e := .rep 0 none (.alt (.rule (b! "unreserved")) (.alt (.rule (b! "pct-encoded")) (.rule (b! "sub-delims"))))) (by decide +kernel) (by decide +kernel)]
  simp only [lang_cat, lang_alt, lang_opt, lang_rep, lang_range, L_pctEncoded, L_subDelims, L_unreserved]
  rfl

theorem L_host : lang G (.rule (b! "host")) = Abnf.host := by
  rw [lang_rule (e := .alt (.rule (b! "IP-literal")) (.alt (.rule (b! "IPv4address")) (.rule (b! "reg-name")))) (by decide +kernel) (by decide +kernel)]
  simp only [lang_cat, lang_alt, lang_opt, lang_rep, lang_range, L_IPLiteral, L_IPv4address, L_regName]
  rfl

theorem L_port : lang G (.rule (b! "port")) = Abnf.port := by
  rw [lang_rule (e := .rep 0 none (.rule (b! "DIGIT"))) (by decide +kernel) (by decide +kernel)]
  simp only [lang_cat, lang_alt, lang_opt, lang_rep, lang_range, L_DIGIT]
  rfl

theorem L_authority : lang G (.rule (b! "authority")) = Abnf.authority := by
  rw [lang_rule (e := .cat (.opt (.cat (.rule (b! "userinfo")) (.str (b! "@")))) (.cat (.rule (b! "host")) (.opt (.cat (.str (b! ":")) (.rule (b! "port")))))) (by decide +kernel) (by decide +kernel)]
  have s0 : lang G (.str (b! ":")) = lit (b! ":") := lang_str (by decide +kernel)
  have s1 : lang G (.str (b! "@")) = lit (b! "@") := lang_str (by decide +kernel)
  simp only [lang_cat, lang_alt, lang_opt, lang_rep, lang_range, s0, s1, L_host, L_port, L_userinfo]
  rfl

theorem L_pchar : lang G (.rule (b! "pchar")) = Abnf.pchar := by
  rw [lang_rule (e := .alt (.rule (b! "unreserved")) (.alt (.rule (b! "pct-encoded")) (.alt (.rule (b! "sub-delims")) (.alt (.str (b! ":")) (.str (b! "@")))))) (by decide +kernel) (by decide +kernel)]
  have s0 : lang G (.str (b! ":")) = lit (b! ":") := lang_str (by decide +kernel)
  have s1 : lang G (.str (b! "@")) = lit (b! "@") := lang_str (by decide +kernel)
  simp only [lang_cat, lang_alt, lang_opt, lang_rep, lang_range, s0, s1, L_pctEncoded, L_subDelims, L_unreserved]
  rfl

theorem L_segment : lang G (.rule (b! "segment")) = Abnf.segment := by
  rw [lang_rule (e := .rep 0 none (.rule (b! "pchar"))) (by decide +kernel) (by decide +kernel)]
  simp only [lang_cat, lang_alt, lang_opt, lang_rep, lang_range, L_pchar]
  rfl

theorem L_pathAbempty : lang G (.rule (b! "path-abempty")) = Abnf.pathAbempty := by
  rw [lang_rule (e := .rep 0 none (.cat (.str (b! "/")) (.rule (b! "segment")))) (by decide +kernel) (by decide +kernel)]
  have s0 : lang G (.str (b! "/")) = lit (b! "/") := lang_str (by decide +kernel)
  simp only [lang_cat, lang_alt, lang_opt, lang_rep, lang_range, s0, L_segment]
  rfl

theorem L_segmentNz : lang G (.rule (b! "segment-nz")) = Abnf.segmentNz := by
  rw [lang_rule (e := .rep 1 none (.rule (b! "pchar"))) (by decide +kernel) (by decide +kernel)]
  simp only [lang_cat, lang_alt, lang_opt, lang_rep, lang_range, L_pchar]
  rfl

theorem L_pathAbsolute : lang G (.rule (b! "path-absolute")) = Abnf.pathAbsolute := by
  rw [lang_rule (e := .cat (.str (b! "/")) (.opt (.cat (.rule (b! "segment-nz")) (.rep 0 none (.cat (.str (b! "/")) (.rule (b! "segment"))))))) (by decide +kernel) (by decide +kernel)]
  have s0 : lang G (.str (b! "/")) = lit (b! "/") := lang_str (by decide +kernel)
  simp only [lang_cat, lang_alt, lang_opt, lang_rep, lang_range, s0, L_segment, L_segmentNz]
  rfl

theorem L_pathRootless : lang G (.rule (b! "path-rootless")) = Abnf.pathRootless := by
  rw [lang_rule (e := .cat (.rule (b! "segment-nz")) (.rep 0 none (.cat (.str (b! "/")) (.rule (b! "segment"))))) (by decide +kernel) (by decide +kernel)]
  have s0 : lang G (.str (b! "/")) = lit (b! "/") := lang_str (by decide +kernel)
  simp only [lang_cat, lang_alt, lang_opt, lang_rep, lang_range, s0, L_segment, L_segmentNz]
  rfl

theorem L_pathEmpty : lang G (.rule (b! "path-empty")) = Abnf.pathEmpty := by
  rw [lang_rule (e := .rep 0 (some 0) (.rule (b! "pchar"))) (by decide +kernel) (by decide +kernel)]
  simp only [lang_cat, lang_alt, lang_opt, lang_rep, lang_range, L_pchar]
  rfl

theorem L_hierPart : lang G (.rule (b! "hier-part")) = Abnf.hierPart := by
  rw [lang_rule (e := .alt (.cat (.str (b! "//")) (.cat (.rule (b! "authority")) (.rule (b! "path-abempty")))) (.alt (.rule (b! "path-absolute")) (.alt (.rule (b! "path-rootless")) (.rule (b! "path-empty"))))) (by decide +kernel) (by decide +kernel)]
  have s0 : lang G (.str (b! "//")) = lit (b! "//") := lang_str (by decide +kernel)
  simp only [lang_cat, lang_alt, lang_opt, lang_rep, lang_range, s0, L_authority, L_pathAbempty, L_pathAbsolute, L_pathEmpty, L_pathRootless]
  rfl

theorem L_query : lang G (.rule (b! "query")) = Abnf.query := by
  rw [lang_rule (e := .rep 0 none (.alt (.rule (b! "pchar")) (.alt (.str (b! "/")) (.str (b! "?"))))) (by decide +kernel) (by decide +kernel)]
  have s0 : lang G (.str (b! "/")) = lit (b! "/") := lang_str (by decide +kernel)
  have s1 : lang G (.str (b! "?")) = lit (b! "?") := lang_str (by decide +kernel)
  simp only [lang_cat, lang_alt, lang_opt, lang_rep, lang_range, s0, s1, L_pchar]
  rfl

theorem L_fragment : lang G (.rule (b! "fragment")) = Abnf.fragment := by
  rw [lang_rule (e := .rep 0 none (.alt (.rule (b! "pchar")) (.alt (.str (b! "/")) (.str (b! "?"))))) (by decide +kernel) (by decide +kernel)]
  have s0 : lang G (.str (b! "/")) = lit (b! "/") := lang_str (by decide +kernel)
  have s1 : lang G (.str (b! "?")) = lit (b! "?") := lang_str (by decide +kernel)
  simp only [lang_cat, lang_alt, lang_opt, lang_rep, lang_range, s0, s1, L_pchar]
  rfl

theorem L_URI : lang G (.rule (b! "URI")) = Abnf.URI := by
  rw [lang_rule (e := .cat (.rule (b! "scheme")) (.cat (.str (b! ":")) (.cat (.rule (b! "hier-part")) (.cat (.opt (.cat (.str (b! "?")) (.rule (b! "query")))) (.opt (.cat (.str (b! "#")) (.rule (b! "fragment")))))))) (by decide +kernel) (by decide +kernel)]
  have s0 : lang G (.str (b! "#")) = lit (b! "#") := lang_str (by decide +kernel)
  have s1 : lang G (.str (b! ":")) = lit (b! ":") := lang_str (by decide +kernel)
  have s2 : lang G (.str (b! "?")) = lit (b! "?") := lang_str (by decide +kernel)
  simp only [lang_cat, lang_alt, lang_opt, lang_rep, lang_range, s0, s1, s2, L_fragment, L_hierPart, L_query, L_scheme]
  rfl

theorem L_segmentNzNc : lang G (.rule (b! "segment-nz-nc")) = Abnf.segmentNzNc := by
  rw [lang_rule (e := .rep 1 none (.alt (.rule (b! "unreserved")) (.alt (.rule (b! "pct-encoded")) (.alt (.rule (b! "sub-delims")) (.str (b! "@")))))) (by decide +kernel) (by decide +kernel)]
  have s0 : lang G (.str (b! "@")) = lit (b! "@") := lang_str (by decide +kernel)
  simp only [lang_cat, lang_alt, lang_opt, lang_rep, lang_range, s0, L_pctEncoded, L_subDelims, L_unreserved]
  rfl

theorem L_pathNoscheme : lang G (.rule (b! "path-noscheme")) = Abnf.pathNoscheme := by
  rw [lang_rule (e := .cat (.rule (b! "segment-nz-nc")) (.rep 0 none (.cat (.str (b! "/")) (.rule (b! "segment"))))) (by decide +kernel) (by decide +kernel)]
  have s0 : lang G (.str (b! "/")) = lit (b! "/") := lang_str (by decide +kernel)
  simp only [lang_cat, lang_alt, lang_opt, lang_rep, lang_range, s0, L_segment, L_segmentNzNc]
  rfl

theorem L_relativePart : lang G (.rule (b! "relative-part")) = Abnf.relativePart := by
  rw [lang_rule (e := .alt (.cat (.str (b! "//")) (.cat (.rule (b! "authority")) (.rule (b! "path-abempty")))) (.alt (.rule (b! "path-absolute")) (.alt (.rule (b! "path-noscheme")) (.rule (b! "path-empty"))))) (by decide +kernel) (by decide +kernel)]
  have s0 : lang G (.str (b! "//")) = lit (b! "//") := lang_str (by decide +kernel)
  simp only [lang_cat, lang_alt, lang_opt, lang_rep, lang_range, s0, L_authority, L_pathAbempty, L_pathAbsolute, L_pathEmpty, L_pathNoscheme]
  rfl

theorem L_relativeRef : lang G (.rule (b! "relative-ref")) = Abnf.relativeRef := by
  rw [lang_rule (e := .cat (.rule (b! "relative-part")) (.cat (.opt (.cat (.str (b! "?")) (.rule (b! "query")))) (.opt (.cat (.str (b! "#")) (.rule (b! "fragment")))))) (by decide +kernel) (by decide +kernel)]
  have s0 : lang G (.str (b! "#")) = lit (b! "#") := lang_str (by decide +kernel)
  have s1 : lang G (.str (b! "?")) = lit (b! "?") := lang_str (by decide +kernel)
  simp only [lang_cat, lang_alt, lang_opt, lang_rep, lang_range, s0, s1, L_fragment, L_query, L_relativePart]
  rfl

theorem L_URIReference : lang G (.rule (b! "URI-reference")) = Abnf.URIReference := by
  rw [lang_rule (e := .alt (.rule (b! "URI")) (.rule (b! "relative-ref"))) (by decide +kernel) (by decide +kernel)]
  simp only [lang_cat, lang_alt, lang_opt, lang_rep, lang_range, L_URI, L_relativeRef]
  rfl

end Verif.AbnfFile
