import Verif.Codec

/- Helper lemmas for the round trips C34 and C35. -/
namespace Lair.Codec
open Mp

@[simp] theorem dSized_sBin {n : Nat} (b : B n) : dSized n (sBin b.val) = some b := by
  simp [dSized, sBin, Base64.ofTextSized_toText]
@[simp] theorem dBin_sBin (b : Bytes) : dBin (sBin b) = some b := by simp [dBin, sBin, Base64.ofText_toText]
@[simp] theorem dStr_str (s : String) : dStr (.str s) = some s := rfl
@[simp] theorem dBool_bool (b : Bool) : dBool (.bool b) = some b := rfl
@[simp] theorem dU32_sU32 (n : UInt32) : dU32 (sU32 n) = some n := by
  have := n.toNat_lt
  simp [dU32, sU32]; omega
@[simp] theorem dU8_sU8 (n : UInt8) : dU8 (sU8 n) = some n := by
  have := n.toNat_lt
  simp [dU8, sU8]; omega
theorem dVals_valsOf {α : Type} {f : α → Val} {g : Val → Option α} (h : ∀ a, g (f a) = some a) (l : List α) :
    dVals g (valsOf f l) = some l := by
  induction l with
  | nil => rfl
  | cons a as ih => simp [valsOf, dVals, h, ih]
theorem dList_sList {α : Type} {f : α → Val} {g : Val → Option α} (h : ∀ a, g (f a) = some a) (l : List α) :
    dList g (sList f l) = some l := by simp [dList, sList, dVals_valsOf h]
@[simp] theorem dSeq_sSeq (b : Bytes) : dSeq (sSeq b) = some b := dList_sList dU8_sU8 b
@[simp] theorem dSeqSized_sSeq {n : Nat} (b : B n) : dSeqSized n (sSeq b.val) = some b := by simp [dSeqSized]
@[simp] theorem dPath (p : List UInt32) : dList dU32 (sList sU32 p) = some p := dList_sList dU32_sU32 p
@[simp] theorem isNil_sSecret {n : Nat} (s : SecretSized n) : isNil (sSecret s) = false := rfl
@[simp] theorem isNil_sDeep (d : DeepPass) : isNil (sDeep d) = false := rfl
@[simp] theorem dSecret_sSecret {n : Nat} (s : SecretSized n) : dSecret n (sSecret s) = some s := by
  simp [dSecret, sSecret]
@[simp] theorem dSecretData_s (s : SecretData) : dSecretData (sSecretData s) = some s := by
  simp [dSecretData, sSecretData]

theorem fld_cons_self (k : String) (v : Val) (l : List (String × Val)) (h : ∀ p ∈ l, p.1 ≠ k) :
    fld ((k, v) :: l) k = some v := by
  have : l.filter (fun p => decide (p.1 = k)) = [] := by
    rw [List.filter_eq_nil_iff]; intro p hp; simpa using h p hp
  simp [fld, this]
theorem fld_cons_ne (k k' : String) (v : Val) (l : List (String × Val)) (h : k' ≠ k) :
    fld ((k', v) :: l) k = fld l k := by simp [fld, h]

@[simp] theorem dSeedInfo_s (i : SeedInfo) : dSeedInfo (sSeedInfo i) = some i := by
  obtain ⟨ed, x, e⟩ := i
  cases e <;> simp [dSeedInfo, sSeedInfo, fld, sFlag, dFlag, fldOpt]
@[simp] theorem dCertInfo_s (i : CertInfo) : dCertInfo (sCertInfo i) = some i := by
  simp [dCertInfo, sCertInfo, fld]
@[simp] theorem dDeep_s (d : DeepPass) : dDeep (sDeep d) = some d := by
  simp [dDeep, sDeep, fld]
theorem dEntry_s (e : Entry) : dEntry (sEntry e) = some e := by
  cases e <;> simp [dEntry, sEntry, fld]
@[simp] theorem dEntryInfo_s (e : EntryInfo) : dEntryInfo (sEntryInfo e) = some e := by
  cases e <;> simp [dEntryInfo, sEntryInfo, fld]
@[simp] theorem dInfos (l : List EntryInfo) : dList dEntryInfo (sList sEntryInfo l) = some l :=
  dList_sList dEntryInfo_s l

theorem dReq_s (id : String) (r : Req) :
    dReq (reqFields r).1 (("type", .str (reqFields r).1) :: ("msgId", .str id) :: (reqFields r).2) = some r := by
  cases r with
  | newSeed t d e => cases d <;> cases e <;> simp [dReq, reqFields, fld, sOpt, sFlag, dFlag, fldOpt]
  | importSeed s r d n c t e => cases d <;> simp [dReq, reqFields, fld, sOpt, fldOpt]
  | deriveSeed st sd dt dd p => cases sd <;> cases dd <;> simp [dReq, reqFields, fld, sOpt, fldOpt]
  | exportSeed t s r d => cases d <;> simp [dReq, reqFields, fld, sOpt, fldOpt]
  | sign pk d m => cases d <;> simp [dReq, reqFields, fld, sOpt, fldOpt]
  | boxEnc s r d m => cases d <;> simp [dReq, reqFields, fld, sOpt, fldOpt]
  | boxDec s r d n c => cases d <;> simp [dReq, reqFields, fld, sOpt, fldOpt]
  | boxEncEd s r d m => cases d <;> simp [dReq, reqFields, fld, sOpt, fldOpt]
  | boxDecEd s r d n c => cases d <;> simp [dReq, reqFields, fld, sOpt, fldOpt]
  | sboxEnc t d m => cases d <;> simp [dReq, reqFields, fld, sOpt, fldOpt]
  | sboxDec t d n c => cases d <;> simp [dReq, reqFields, fld, sOpt, fldOpt]
  | hello => simp [dReq, reqFields]
  | listEntries => simp [dReq, reqFields]
  | unlock p => simp [dReq, reqFields, fld]
  | getEntry p => simp [dReq, reqFields, fld]
  | newCert p => simp [dReq, reqFields, fld]
  | getCertKey p => simp [dReq, reqFields, fld]

theorem dResp_s (id : String) (r : Resp) :
    dResp (respFields r).1 (("type", .str (respFields r).1) :: ("msgId", .str id) :: (respFields r).2) = some r := by
  cases r <;> simp [dResp, respFields, fld]

theorem dReq_resp (l : List (String × Val)) (r : Resp) : dReq (respFields r).1 l = none := by
  cases r <;> simp [dReq, respFields]

theorem keys_req (r : Req) : ∀ p ∈ (reqFields r).2, p.1 ≠ "type" ∧ p.1 ≠ "msgId" := by
  cases r with
  | newSeed t d e => cases d <;> cases e <;> simp [reqFields, sOpt, sFlag]
  | importSeed s r d n c t e => cases d <;> simp [reqFields, sOpt]
  | deriveSeed st sd dt dd p => cases sd <;> cases dd <;> simp [reqFields, sOpt]
  | exportSeed t s r d => cases d <;> simp [reqFields, sOpt]
  | sign pk d m => cases d <;> simp [reqFields, sOpt]
  | boxEnc s r d m => cases d <;> simp [reqFields, sOpt]
  | boxDec s r d n c => cases d <;> simp [reqFields, sOpt]
  | boxEncEd s r d m => cases d <;> simp [reqFields, sOpt]
  | boxDecEd s r d n c => cases d <;> simp [reqFields, sOpt]
  | sboxEnc t d m => cases d <;> simp [reqFields, sOpt]
  | sboxDec t d n c => cases d <;> simp [reqFields, sOpt]
  | _ => simp [reqFields]

theorem keys_resp (r : Resp) : ∀ p ∈ (respFields r).2, p.1 ≠ "type" ∧ p.1 ≠ "msgId" := by
  cases r <;> simp [respFields]

theorem dMsg_s (m : Msg) : dMsg (sMsg m) = some m := by
  cases m with
  | req id r =>
    have hk := keys_req r
    have h1 : fld (("type", Val.str (reqFields r).1) :: ("msgId", .str id) :: (reqFields r).2) "type" =
        some (.str (reqFields r).1) :=
      fld_cons_self _ _ _ (by
        intro p hp; rcases List.mem_cons.1 hp with rfl | hp
        · simp
        · exact (hk p hp).1)
    have h2 : fld (("type", Val.str (reqFields r).1) :: ("msgId", .str id) :: (reqFields r).2) "msgId" =
        some (.str id) := by
      rw [fld_cons_ne _ _ _ _ (by decide)]
      exact fld_cons_self _ _ _ (fun p hp => (hk p hp).2)
    simp only [dMsg, sMsg, dMap_sMap, Option.bind_eq_bind, Option.bind_some, h1, h2, dStr_str, dReq_s id r]
  | res id r =>
    have hk := keys_resp r
    have h1 : fld (("type", Val.str (respFields r).1) :: ("msgId", .str id) :: (respFields r).2) "type" =
        some (.str (respFields r).1) :=
      fld_cons_self _ _ _ (by
        intro p hp; rcases List.mem_cons.1 hp with rfl | hp
        · simp
        · exact (hk p hp).1)
    have h2 : fld (("type", Val.str (respFields r).1) :: ("msgId", .str id) :: (respFields r).2) "msgId" =
        some (.str id) := by
      rw [fld_cons_ne _ _ _ _ (by decide)]
      exact fld_cons_self _ _ _ (fun p hp => (hk p hp).2)
    simp only [dMsg, sMsg, dMap_sMap, Option.bind_eq_bind, Option.bind_some, h1, h2, dStr_str, dReq_resp, dResp_s id r]

/-! ### Sizes -/

mutual
/-- all numbers fit in 64 bits. Specification: nothing in the code corresponds. -/
def _root_.Lair.Mp.Val.Ints : Val → Prop
  | .uint n => n < 2 ^ 64
  | .neg n => n < 2 ^ 63
  | .float b => b.length = 4 ∨ b.length = 8
  | .arr vs => vs.Ints
  | .map fs => fs.Ints
  | _ => True
/-- Specification: nothing in the code corresponds. -/
def _root_.Lair.Mp.Vals.Ints : Vals → Prop
  | .nil => True
  | .cons v vs => v.Ints ∧ vs.Ints
/-- Specification: nothing in the code corresponds. -/
def _root_.Lair.Mp.Fields.Ints : Fields → Prop
  | .nil => True
  | .cons _ v fs => v.Ints ∧ fs.Ints
end

theorem enc_pos : (v : Val) → 1 ≤ (enc v).length := by
  intro v
  have := size_le v
  omega

theorem encVals_len : (vs : Vals) → vs.length ≤ (encVals vs).length
  | .nil => by simp [Vals.length]
  | .cons v vs => by
    have := encVals_len vs; have := enc_pos v
    simp only [Vals.length, encVals, List.length_append]; omega

theorem encFields_len : (fs : Fields) → fs.length ≤ (encFields fs).length
  | .nil => by simp [Fields.length]
  | .cons k v fs => by
    have := encFields_len fs; have := enc_pos v
    simp only [Fields.length, encFields, List.length_append]; omega

mutual
theorem fits_of : (v : Val) → v.Ints → (enc v).length < 2 ^ 32 → v.Fits
  | .nil, _, _ => trivial
  | .bool _, _, _ => trivial
  | .uint n, h, _ => by simpa [Val.Fits, Val.Ints] using h
  | .neg n, h, _ => by simpa [Val.Fits, Val.Ints] using h
  | .float b, h, _ => by simpa [Val.Fits, Val.Ints] using h
  | .str s, _, h => by
    simp only [enc, encStr, List.length_append] at h
    simp only [Val.Fits]; omega
  | .bin b, _, h => by
    simp only [enc, List.length_append] at h
    simp only [Val.Fits]; omega
  | .ext _ b, _, h => by
    simp only [enc, List.length_append, List.length_cons] at h
    simp only [Val.Fits]; omega
  | .arr vs, h, hl => by
    simp only [enc, List.length_append] at hl
    have := encVals_len vs
    exact ⟨by omega, fitsVals_of vs h (by omega)⟩
  | .map fs, h, hl => by
    simp only [enc, List.length_append] at hl
    have := encFields_len fs
    exact ⟨by omega, fitsFields_of fs h (by omega)⟩
theorem fitsVals_of : (vs : Vals) → vs.Ints → (encVals vs).length < 2 ^ 32 → vs.Fits
  | .nil, _, _ => trivial
  | .cons v vs, h, hl => by
    simp only [encVals, List.length_append] at hl
    exact ⟨fits_of v h.1 (by omega), fitsVals_of vs h.2 (by omega)⟩
theorem fitsFields_of : (fs : Fields) → fs.Ints → (encFields fs).length < 2 ^ 32 → fs.Fits
  | .nil, _, _ => trivial
  | .cons k v fs, h, hl => by
    simp only [encFields, encStr, List.length_append] at hl
    exact ⟨by omega, fits_of v h.1 (by omega), fitsFields_of fs h.2 (by omega)⟩
end

theorem ints_list {α : Type} (f : α → Val) (h : ∀ a, (f a).Ints) (l : List α) : (sList f l).Ints := by
  unfold sList
  induction l with
  | nil => trivial
  | cons a as ih => exact ⟨h a, ih⟩
theorem ints_map (l : List (String × Val)) (h : ∀ p ∈ l, p.2.Ints) : (sMap l).Ints := by
  unfold sMap
  induction l with
  | nil => trivial
  | cons p r ih =>
    obtain ⟨k, v⟩ := p
    exact ⟨h _ (List.mem_cons_self ..), ih (fun p hp => h p (List.mem_cons_of_mem _ hp))⟩
@[simp] theorem ints_str (s : String) : (Val.str s).Ints := trivial
@[simp] theorem ints_bool (s : Bool) : (Val.bool s).Ints := trivial
@[simp] theorem ints_bin (b : Bytes) : (sBin b).Ints := trivial
@[simp] theorem ints_u32 (n : UInt32) : (sU32 n).Ints := by
  have := n.toNat_lt
  show n.toNat < 2 ^ 64
  omega
@[simp] theorem ints_seq (b : Bytes) : (sSeq b).Ints := by
  apply ints_list
  intro a
  have := a.toNat_lt
  show a.toNat < 2 ^ 64
  omega
@[simp] theorem ints_path (p : List UInt32) : (sList sU32 p).Ints := ints_list _ ints_u32 p
@[simp] theorem ints_secret {n : Nat} (s : SecretSized n) : (sSecret s).Ints := ⟨trivial, trivial, trivial⟩
@[simp] theorem ints_secretData (s : SecretData) : (sSecretData s).Ints := ⟨trivial, trivial, trivial⟩
@[simp] theorem ints_seedInfo (i : SeedInfo) : (sSeedInfo i).Ints := by
  apply ints_map
  obtain ⟨a, b, e⟩ := i
  cases e <;> simp [sFlag]
@[simp] theorem ints_certInfo (i : CertInfo) : (sCertInfo i).Ints := by apply ints_map; simp
@[simp] theorem ints_deep (i : DeepPass) : (sDeep i).Ints := by apply ints_map; simp
theorem ints_entry (e : Entry) : (sEntry e).Ints := by cases e <;> apply ints_map <;> simp
@[simp] theorem ints_entryInfo (e : EntryInfo) : (sEntryInfo e).Ints := by cases e <;> apply ints_map <;> simp
@[simp] theorem ints_infos (l : List EntryInfo) : (sList sEntryInfo l).Ints := ints_list _ ints_entryInfo l

theorem ints_optDeep (k : String) (d : Option DeepPass) : ∀ p ∈ sOpt k sDeep d, p.2.Ints := by
  cases d <;> simp [sOpt]
theorem ints_optSecret (k : String) (d : Option (SecretSized 81)) : ∀ p ∈ sOpt k sSecret d, p.2.Ints := by
  cases d <;> simp [sOpt]

theorem ints_msg (m : Msg) : (sMsg m).Ints := by
  cases m with
  | req id r =>
    apply ints_map
    intro p hp
    rcases List.mem_cons.1 hp with rfl | hp
    · trivial
    rcases List.mem_cons.1 hp with rfl | hp
    · trivial
    revert p
    cases r with
    | newSeed t d e => cases d <;> cases e <;> simp [reqFields, sOpt, sFlag]
    | importSeed s r d n c t e => cases d <;> simp [reqFields, sOpt]
    | deriveSeed st sd dt dd p => cases sd <;> cases dd <;> simp [reqFields, sOpt]
    | exportSeed t s r d => cases d <;> simp [reqFields, sOpt]
    | sign pk d m => cases d <;> simp [reqFields, sOpt]
    | boxEnc s r d m => cases d <;> simp [reqFields, sOpt]
    | boxDec s r d n c => cases d <;> simp [reqFields, sOpt]
    | boxEncEd s r d m => cases d <;> simp [reqFields, sOpt]
    | boxDecEd s r d n c => cases d <;> simp [reqFields, sOpt]
    | sboxEnc t d m => cases d <;> simp [reqFields, sOpt]
    | sboxDec t d n c => cases d <;> simp [reqFields, sOpt]
    | _ => simp [reqFields]
  | res id r =>
    apply ints_map
    intro p hp
    rcases List.mem_cons.1 hp with rfl | hp
    · trivial
    rcases List.mem_cons.1 hp with rfl | hp
    · trivial
    revert p
    cases r <;> simp [respFields]

theorem decodeEntry_encode (e : Entry) (rest : Bytes) (h : (encodeEntry e).length < 2 ^ 32) :
    decodeEntry (encodeEntry e ++ rest) = some e := by
  unfold decodeEntry encodeEntry at *
  rw [decode_enc _ (fits_of _ (ints_entry e) h)]
  exact dEntry_s e

theorem decodeMsg_encode (m : Msg) (rest : Bytes) (h : (encodeMsg m).length < 2 ^ 32) :
    decodeMsg (encodeMsg m ++ rest) = some m := by
  unfold decodeMsg encodeMsg at *
  rw [decode_enc _ (fits_of _ (ints_msg m) h)]
  exact dMsg_s m

end Lair.Codec
