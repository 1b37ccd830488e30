import Verif.Model.CodecCost
import Verif.Proofs.PunyCost
import Verif.Proofs.PartsVisit

/-!
# Running time of `encode` and `decode`

Forgetting the steps gives the models without them, and bounds.
-/

namespace Verif.Cost.Codec
open Verif.Codec (Heap Store CpIter Field EncSize DecSize encSetOf bitPos setBit entry check fieldLast isNotDot idnaPrefix)

set_option linter.unusedSimpArgs false

/-! ### Results -/

theorem needsPctencode_fst (es : UInt8) : ∀ s : Str, (needsPctencode es s).1 = .ok (Verif.needsPctencode s es)
  | [] => rfl
  | c :: s => by
      have ih := needsPctencode_fst es s
      unfold needsPctencode
      rw [tick_fst]
      unfold Verif.needsPctencode at ih ⊢
      by_cases h : needsPctencodeB c es = true
      · simp [h]
      · simp [h, ih]

theorem pctencode_fst (es : UInt8) : ∀ s : Str, (pctencode es s).1 = pctencodeM es s
  | [] => rfl
  | c :: s => by
      have ih := pctencode_fst es s
      unfold pctencode pctencodeM
      by_cases h : needsPctencodeB c es = true
      · simp only [h, if_true, tick_fst, andThen_fst, ret_fst, ih]
      · simp only [h, if_false, tick_fst, andThen_fst, ret_fst, ih, Bool.false_eq_true]

theorem pctEncodedSize_fst (s : Str) (es : UInt8) : (pctEncodedSize s es).1 = Verif.pctEncodedSize s es := by
  unfold pctEncodedSize Verif.pctEncodedSize
  rw [andThen_fst, needsPctencode_fst]
  cases h : Verif.needsPctencode s es
  · rfl
  · show (andThen (pctencode es s) fun sink => ret (.ok sink.length)).1 = _
    rw [andThen_fst, pctencode_fst]
    rfl

theorem pctIterLoop_fst (s : Str) (last : PctIter) : ∀ (fuel : Nat) (it : PctIter), (pctIterLoop s last fuel it).1 = Verif.pctIterLoop s last fuel it
  | 0, _ => rfl
  | fuel + 1, it => by
      unfold pctIterLoop Verif.pctIterLoop
      simp only [tick_fst, andThen_fst, ret_fst]
      cases it.eq last with
      | error e => rfl
      | ok b =>
        cases b
        · simp only [Bool.false_eq_true, if_false, bind, Except.bind, andThen_fst, tick_fst, ret_fst]
          cases pctDeref s it.pos it.stop with
          | error e => rfl
          | ok c =>
            simp only
            cases pctIncrement s it.pos it.stop with
            | error e => rfl
            | ok q => simp only [pctIterLoop_fst s last fuel]
        · rfl

theorem pctdecode_fst (s : Str) : (pctdecode s).1 = Verif.pctdecode s := pctIterLoop_fst _ _ _ _

theorem pctViewLoop_fst (s : Str) (last : Nat) : ∀ (fuel pos : Nat), (pctViewLoop s last fuel pos).1 = Verif.pctViewLoop s last fuel pos
  | 0, _ => rfl
  | fuel + 1, pos => by
      unfold pctViewLoop Verif.pctViewLoop
      rw [tick_fst]
      by_cases h : (pos == last) = true
      · simp only [h, if_true, ret_fst]
      · simp only [h, if_false, Bool.false_eq_true, andThen_fst, tick_fst, ret_fst, bind, Except.bind]
        cases pctDeref s pos s.length with
        | error e => rfl
        | ok c =>
          simp only
          cases pctIncrement s pos s.length with
          | error e => rfl
          | ok q => simp only [pctViewLoop_fst s last fuel]

theorem pctViewCopy_fst (s : Str) : (pctViewCopy s).1 = Verif.pctViewCopy s := pctViewLoop_fst _ _ _ _

theorem pctDecodedSize_fst (s : Str) : (pctDecodedSize s).1 = Verif.pctDecodedSize s := by
  unfold pctDecodedSize Verif.pctDecodedSize
  rw [tick_fst]
  by_cases h : (!needsPctdecode s) = true
  · simp only [h, if_true, ret_fst]
  · simp only [h, if_false, Bool.false_eq_true, andThen_fst, ret_fst, pctdecode_fst]

section
variable {ι ο : Type} (T : Icu.Transcoder ι ο) (cap : Nat)

theorem fillLoop_fst : ∀ (s : List ι) (st : T.σ), (fillLoop T cap st s).1 = Icu.fillLoop T cap st s
  | [], _ => rfl
  | c :: s, st => by
      unfold fillLoop Icu.fillLoop
      simp only [tick_fst, andThen_fst, ret_fst]
      cases T.step st c with
      | error e => rfl
      | ok r =>
        obtain ⟨st', o⟩ := r
        simp only [bind, Except.bind]
        by_cases h1 : o.length > cap
        · simp only [h1, if_true, ret_fst]
        · by_cases h2 : o.isEmpty = true
          · simp only [h1, h2, if_true, if_false, fillLoop_fst s]
          · simp only [h1, h2, if_false, Bool.false_eq_true, ret_fst]

theorem fill_fst (it : Icu.ViewIt ι ο T) : (fill T cap it).1 = Icu.fill T cap it := by
  unfold fill Icu.fill
  rw [tick_fst]
  by_cases h : (!it.buf.isEmpty) = true
  · simp only [h, if_true, ret_fst]
  · simp only [h, if_false, Bool.false_eq_true, andThen_fst, ret_fst, fillLoop_fst]
    cases Icu.fillLoop T cap it.tr it.next with
    | error e => rfl
    | ok r =>
      obtain ⟨st, rest, o⟩ := r
      simp only [bind, Except.bind]
      by_cases h2 : rest.isEmpty = true
      · simp only [h2, if_true]
        cases T.endCp st with
        | error e => rfl
        | ok e =>
          simp only
          by_cases h3 : (o ++ e.2).length > cap
          · simp only [h3, if_true, ret_fst]
          · simp only [h3, if_false, ret_fst]
      · simp only [h2, if_false, Bool.false_eq_true]
        by_cases h3 : (o ++ []).length > cap
        · simp only [h3, if_true, ret_fst]
        · simp only [h3, if_false, ret_fst]

theorem viewBegin_fst (s : List ι) : (viewBegin T cap s).1 = Icu.viewBegin T cap s := by
  unfold viewBegin Icu.viewBegin
  rw [tick_fst]
  by_cases h : s.isEmpty = true
  · simp only [h, if_true, ret_fst]
  · simp only [h, if_false, Bool.false_eq_true, fill_fst]

theorem incr_fst (it : Icu.ViewIt ι ο T) : (incr T cap it).1 = it.incr T cap := by
  unfold incr Icu.ViewIt.incr
  cases it.buf with
  | nil => rfl
  | cons x b =>
    by_cases h : b.isEmpty = true
    · simp only [h, if_true, fill_fst]
    · simp only [h, if_false, Bool.false_eq_true, ret_fst]

theorem viewLoop_fst : ∀ (fuel : Nat) (it : Icu.ViewIt ι ο T), (viewLoop T cap fuel it).1 = Icu.viewLoop T cap fuel it
  | 0, _ => rfl
  | fuel + 1, it => by
      unfold viewLoop Icu.viewLoop
      rw [tick_fst]
      by_cases h : it.atEnd = true
      · simp only [h, if_true, ret_fst]
      · simp only [h, if_false, Bool.false_eq_true, andThen_fst, tick_fst, ret_fst, bind, Except.bind]
        cases it.deref with
        | error e => rfl
        | ok c =>
          simp only [incr_fst]
          cases it.incr T cap with
          | error e => rfl
          | ok it' =>
            simp only [viewLoop_fst fuel]

theorem viewRun_fst (s : List ι) : (viewRun T cap s).1 = Icu.viewRun T cap s := by
  unfold viewRun Icu.viewRun
  simp only [andThen_fst, viewBegin_fst, ret_fst, viewLoop_fst]

end

theorem labelLoop_fst : ∀ (fuel : Nat) (it : CpIter), (labelLoop fuel it).1 = Verif.Codec.labelLoop fuel it
  | 0, _ => rfl
  | fuel + 1, it => by
      unfold labelLoop Verif.Codec.labelLoop
      rw [tick_fst]
      by_cases h : it.atEnd = true
      · simp only [h, if_true, ret_fst]
      · simp only [h, if_false, Bool.false_eq_true, andThen_fst, tick_fst, ret_fst, bind, Except.bind]
        cases it.deref with
        | error e => rfl
        | ok c =>
          simp only
          by_cases hd : isNotDot c = true
          · simp only [hd, if_true, tick_fst, andThen_fst, incr_fst, bind, Except.bind]
            cases it.incr Icu.t8_32 Icu.maxOut32 with
            | error e => rfl
            | ok it' => simp only [labelLoop_fst fuel, ret_fst]
          · simp only [hd, if_false, Bool.false_eq_true, ret_fst]

theorem punyEncodedLoop_fst (bound : Nat) : ∀ (fuel : Nat) (it : CpIter), (punyEncodedLoop bound fuel it).1 = Verif.Codec.punyEncodedLoop bound fuel it
  | 0, _ => rfl
  | fuel + 1, it => by
      unfold punyEncodedLoop Verif.Codec.punyEncodedLoop
      simp only [tick_fst, andThen_fst, labelLoop_fst, bind, Except.bind]
      cases Verif.Codec.labelLoop bound it with
      | error e => rfl
      | ok l =>
        obtain ⟨label, it'⟩ := l
        simp only [encode_fst]
        cases Puny.encode label true with
        | error e => rfl
        | ok e =>
          obtain ⟨segment, nonAscii⟩ := e
          simp only
          by_cases h : it'.atEnd = true
          · simp only [h, if_true, ret_fst]
          · simp only [h, if_false, Bool.false_eq_true, andThen_fst, incr_fst, bind, Except.bind]
            cases it'.incr Icu.t8_32 Icu.maxOut32 with
            | error e => rfl
            | ok it2 => simp only [punyEncodedLoop_fst bound fuel, ret_fst]

theorem punyEncoded_fst (s : Str) : (punyEncoded s).1 = Verif.Codec.punyEncoded s := by
  unfold punyEncoded Verif.Codec.punyEncoded
  simp only [andThen_fst, viewBegin_fst, punyEncodedLoop_fst]
  rfl

theorem punyEncodedSize_fst (s : Str) : (punyEncodedSize s).1 = Verif.Codec.punyEncodedSize s := by
  unfold punyEncodedSize Verif.Codec.punyEncodedSize
  simp only [andThen_fst, punyEncoded_fst, ret_fst]

theorem punyDecodedNext_fst {loop : Str → CM (Str × Except Puny.Err Bool)} {loop' : Str → M (Str × Except Puny.Err Bool)}
    (h : ∀ s, (loop s).1 = loop' s) (out first : Str) (enc : Bool) : (punyDecodedNext loop out first enc).1 =
      (match first with
        | [] => .ok (out, .ok enc)
        | _ :: first => do
            let (rest, r) ← loop' first
            .ok (out ++ 0x2E :: rest, r.map (enc || ·))) := by
  cases first with
  | nil => rfl
  | cons c first =>
    unfold punyDecodedNext
    simp only [tick_fst, andThen_fst, h, ret_fst]

theorem punyDecodedLoop_fst : ∀ (fuel : Nat) (s : Str), (punyDecodedLoop fuel s).1 = Verif.Codec.punyDecodedLoop fuel s
  | 0, _ => rfl
  | fuel + 1, s => by
      have ih := punyDecodedLoop_fst fuel
      unfold punyDecodedLoop Verif.Codec.punyDecodedLoop
      rw [tick_fst]
      by_cases h : startsWith (· == ·) id id (s.takeWhile (fun c => isNotDot c.toNat)) idnaPrefix = true
      · simp only [h, if_true, andThen_fst, decode_fst, bind, Except.bind]
        cases Puny.decode false ((s.takeWhile (fun c => isNotDot c.toNat)).drop idnaPrefix.length) with
        | error e => rfl
        | ok d =>
          cases d with
          | error err => rfl
          | ok r =>
            obtain ⟨str, rest⟩ := r
            simp only [andThen_fst, viewRun_fst, bind, Except.bind]
            cases Icu.viewRun Icu.t32_8 Icu.maxOut8 str with
            | error e => rfl
            | ok o =>
              simp only
              rw [punyDecodedNext_fst ih]
              rfl
      · simp only [h, if_false, Bool.false_eq_true]
        rw [punyDecodedNext_fst ih]
        rfl

theorem punyDecoded_fst (s : Str) : (punyDecoded s).1 = Verif.Codec.punyDecoded s := punyDecodedLoop_fst _ _

theorem punyDecodedSize_fst (s : Str) : (punyDecodedSize s).1 = Verif.Codec.punyDecodedSize s := by
  unfold punyDecodedSize Verif.Codec.punyDecodedSize
  simp only [andThen_fst, punyDecoded_fst, bind, Except.bind]
  cases Verif.Codec.punyDecoded s with
  | error e => rfl
  | ok r =>
    obtain ⟨out, r⟩ := r
    cases r <;> rfl

section
variable {σ : Type} {f : SV → Nat → Field → σ → CM (SV × σ)} {g : SV → Nat → Field → σ → M (SV × σ)}

theorem visit_fst (h : ∀ v i fld st, (f v i fld st).1 = g v i fld st) (fld : Field) (v : SV) (st : σ) :
    (visit f fld v st).1 = Verif.Codec.visit g fld v st := by
  unfold visit Verif.Codec.visit
  rw [tick_fst]
  by_cases hp : v.ptr ≠ 0
  · rw [if_pos hp, if_pos hp, h]
  · rw [if_neg hp, if_neg hp, ret_fst]

theorem visitOpt_fst (h : ∀ v i fld st, (f v i fld st).1 = g v i fld st) (fld : Field) (v : Option SV) (st : σ) :
    (visitOpt f fld v st).1 = Verif.Codec.visitOpt g fld v st := by
  unfold visitOpt Verif.Codec.visitOpt
  cases v with
  | none => rfl
  | some v => simp only [andThen_fst, visit_fst h, ret_fst]

theorem visitSegments_fst (h : ∀ v i fld st, (f v i fld st).1 = g v i fld st) : ∀ (vs : List SV) (n : Nat) (st : σ),
    (visitSegments f vs n st).1 = Verif.Codec.visitSegments g vs n st
  | [], _, _ => rfl
  | v :: vs, n, st => by
      unfold visitSegments Verif.Codec.visitSegments
      rw [tick_fst]
      by_cases hp : v.ptr ≠ 0
      · rw [if_pos hp, if_pos hp]
        simp only [andThen_fst, h, visitSegments_fst h vs, ret_fst]
      · rw [if_neg hp, if_neg hp]
        simp only [andThen_fst, h, visitSegments_fst h vs, ret_fst]

theorem visitAuthority_fst (h : ∀ v i fld st, (f v i fld st).1 = g v i fld st) (a : Option (Authority SV)) (st : σ) :
    (visitAuthority f a st).1 = Verif.Codec.visitAuthority g a st := by
  unfold visitAuthority Verif.Codec.visitAuthority
  cases a with
  | none => rfl
  | some a => simp only [tick_fst, andThen_fst, visitOpt_fst h, visit_fst h, ret_fst]

theorem partsStrings_fst (h : ∀ v i fld st, (f v i fld st).1 = g v i fld st) (p : Parts SV) (st : σ) :
    (partsStrings f p st).1 = Verif.Codec.partsStrings g p st := by
  unfold partsStrings Verif.Codec.partsStrings
  simp only [tick_fst, andThen_fst, visitOpt_fst h, visitSegments_fst h, visitAuthority_fst h, ret_fst]

end

theorem encodeSize_fst (v : SV) (i : Nat) (fld : Field) (st : EncSize) : (encodeSize v i fld st).1 = Verif.Codec.encodeSize v i fld st := by
  unfold encodeSize Verif.Codec.encodeSize
  have : (encodedSize fld v.chars).1 = Verif.Codec.encodedSize fld v.chars := by
    unfold encodedSize Verif.Codec.encodedSize
    by_cases h : fld = .host
    · rw [if_pos h, if_pos h, punyEncodedSize_fst]
    · rw [if_neg h, if_neg h, pctEncodedSize_fst]
  simp only [tick_fst, andThen_fst, ret_fst, this]

theorem encodeWrite_fst (hp : Heap) (bits : Nat → Bool) (v : SV) (i : Nat) (fld : Field) (st : Store) :
    (encodeWrite hp bits v i fld st).1 = Verif.Codec.encodeWrite hp bits v i fld st := by
  unfold encodeWrite Verif.Codec.encodeWrite
  simp only [tick_fst, andThen_fst, ret_fst]
  cases entry v i fld with
  | error e => rfl
  | ok _ =>
    simp only [bind, Except.bind]
    by_cases h1 : bitPos fld i < fieldLast ∧ bits (bitPos fld i) = false
    · rw [if_pos h1, if_pos h1]; rfl
    · rw [if_neg h1, if_neg h1]
      by_cases h2 : fld = .host
      · rw [if_pos h2, if_pos h2]
        unfold encodeWriteHost
        simp only [andThen_fst, ret_fst, punyEncodedSize_fst, punyEncoded_fst, bind, Except.bind]
      · rw [if_neg h2, if_neg h2]
        unfold encodeWritePct
        simp only [andThen_fst, ret_fst, needsPctencode_fst, bind, Except.bind]
        cases check (decide (fld = .path) || Verif.needsPctencode v.chars (encSetOf fld)) with
        | error e => rfl
        | ok _ =>
          simp only
          by_cases h3 : bitPos fld i ≥ fieldLast ∧ Verif.needsPctencode v.chars (encSetOf fld) = false
          · rw [if_pos h3, if_pos h3]; rfl
          · rw [if_neg h3, if_neg h3]
            simp only [andThen_fst, ret_fst, pctEncodedSize_fst, pctencode_fst, bind, Except.bind]

theorem codec_encode_fst (hp : Heap) (store : Store) (p : Parts SV) : (encode hp store p).1 = Verif.Codec.encode hp store p := by
  unfold encode Verif.Codec.encode
  simp only [tick_fst, andThen_fst, ret_fst, partsStrings_fst encodeSize_fst, partsStrings_fst (encodeWrite_fst hp _)]

theorem decodeSize_fst (v : SV) (i : Nat) (fld : Field) (st : DecSize) : (decodeSize v i fld st).1 = Verif.Codec.decodeSize v i fld st := by
  unfold decodeSize Verif.Codec.decodeSize
  have hs : (decodedSize fld v.chars).1 = Verif.Codec.decodedSize fld v.chars := by
    unfold decodedSize Verif.Codec.decodedSize
    by_cases h : fld = .host
    · rw [if_pos h, if_pos h, punyDecodedSize_fst]
    · rw [if_neg h, if_neg h, andThen_fst, pctDecodedSize_fst]; rfl
  simp only [tick_fst, andThen_fst, ret_fst]
  cases entry v i fld with
  | error e => rfl
  | ok _ =>
    simp only [bind, Except.bind]
    cases st.error with
    | some e => rfl
    | none =>
      simp only [andThen_fst, hs, bind, Except.bind]
      cases Verif.Codec.decodedSize fld v.chars with
      | error e => rfl
      | ok r => cases r <;> rfl

theorem decodeWrite_fst (hp : Heap) (bits : Nat → Bool) (v : SV) (i : Nat) (fld : Field) (st : Store) :
    (decodeWrite hp bits v i fld st).1 = Verif.Codec.decodeWrite hp bits v i fld st := by
  unfold decodeWrite Verif.Codec.decodeWrite
  simp only [tick_fst, andThen_fst, ret_fst]
  cases entry v i fld with
  | error e => rfl
  | ok _ =>
    simp only [bind, Except.bind]
    cases check (decide (fld.val < fieldLast)) with
    | error e => rfl
    | ok _ =>
      simp only
      by_cases h1 : bitPos fld i < fieldLast ∧ bits (bitPos fld i) = false
      · rw [if_pos h1, if_pos h1]; rfl
      · rw [if_neg h1, if_neg h1]
        by_cases h2 : fld = .host
        · rw [if_pos h2, if_pos h2]
          unfold decodeWriteHost
          simp only [andThen_fst, ret_fst, punyDecoded_fst, bind, Except.bind]
        · rw [if_neg h2, if_neg h2]
          unfold decodeWritePct
          simp only [andThen_fst, ret_fst, pctDecodedSize_fst, bind, Except.bind]
          cases Verif.pctDecodedSize v.chars with
          | error e => rfl
          | ok n =>
            simp only
            by_cases h3 : bitPos fld i ≥ fieldLast ∧ n = 0
            · rw [if_pos h3, if_pos h3]; rfl
            · rw [if_neg h3, if_neg h3]
              simp only [andThen_fst, ret_fst, pctViewCopy_fst, bind, Except.bind]

theorem codec_decode_fst (hp : Heap) (store : Store) (p : Parts SV) : (decode hp store p).1 = Verif.Codec.decode hp store p := by
  unfold decode Verif.Codec.decode
  simp only [tick_fst, andThen_fst, partsStrings_fst decodeSize_fst, bind, Except.bind]
  cases Verif.Codec.partsStrings Verif.Codec.decodeSize p ⟨0, none, fun _ => false⟩ with
  | error e => rfl
  | ok a =>
    obtain ⟨r, st⟩ := a
    simp only
    cases st.error with
    | some e => rfl
    | none =>
      simp only [andThen_fst, ret_fst, partsStrings_fst (decodeWrite_fst hp _), bind, Except.bind]

end Verif.Cost.Codec
