import Verif.Oblivious
import Verif.SystemLemmas

/- Exact size of a `ListEntries` response. -/
namespace Lair.Codec
open Mp

/-- SPECIFICATION: bytes an entry takes in a listing. A seed 143 bytes (12 more if exportable), a deep-locked one 10 more, plus the
    encoded tag; a certificate 93 bytes plus the encoded tag, SNI and certificate (base64). -/
def listedSize : Entry → Nat
  | .seed t i _ => 143 + (encStr t).length + if i.exportable then 12 else 0
  | .deep t i _ _ _ _ => 153 + (encStr t).length + if i.exportable then 12 else 0
  | .cert t i _ => 93 + (encStr t).length + (encStr i.sni).length + (enc (sBin i.cert)).length

theorem sBin32_len (b : B 32) : (enc (sBin b.val)).length = 45 := by
  simp only [sBin, enc, encStr_len, Base64.toText, utf8_ofList_len _ (encode_size b.val), encode_len, b.len, strHdr]
  decide

theorem sSeedInfo_len (i : SeedInfo) : (enc (sSeedInfo i)).length = 118 + if i.exportable then 12 else 0 := by
  unfold sSeedInfo
  cases hx : i.exportable with
  | true =>
    simp only [sFlag, if_true, List.cons_append, List.nil_append]
    rw [enc_map_len _ (by simp)]
    simp only [List.map_cons, List.map_nil, List.sum_cons, List.sum_nil, sBin32_len,
      show (encStr "ed25519PubKey").length = 14 from by decide +kernel, show (encStr "x25519PubKey").length = 13 from by decide +kernel,
      show (encStr "exportable").length = 11 from by decide +kernel, enc, List.length_singleton]
    rfl
  | false =>
    simp only [sFlag, Bool.false_eq_true, if_false, List.cons_append, List.nil_append]
    rw [enc_map_len _ (by simp)]
    simp only [List.map_cons, List.map_nil, List.sum_cons, List.sum_nil, sBin32_len,
      show (encStr "ed25519PubKey").length = 14 from by decide +kernel, show (encStr "x25519PubKey").length = 13 from by decide +kernel]
    rfl

theorem info_len (e : Entry) : (enc (sEntryInfo e.info)).length = listedSize e := by
  cases e with
  | seed t i s =>
    simp only [Entry.info, sEntryInfo, listedSize]
    rw [enc_map_len _ (by simp)]
    simp only [List.map_cons, List.map_nil, List.sum_cons, List.sum_nil, sSeedInfo_len, enc,
      show (encStr "type").length = 5 from by decide +kernel, show (encStr "seed").length = 5 from by decide +kernel,
      show (encStr "tag").length = 4 from by decide +kernel, show (encStr "seed_info").length = 10 from by decide +kernel]
    omega
  | deep t i salt o m s =>
    simp only [Entry.info, sEntryInfo, listedSize]
    rw [enc_map_len _ (by simp)]
    simp only [List.map_cons, List.map_nil, List.sum_cons, List.sum_nil, sSeedInfo_len, enc,
      show (encStr "type").length = 5 from by decide +kernel, show (encStr "deepLockedSeed").length = 15 from by decide +kernel,
      show (encStr "tag").length = 4 from by decide +kernel, show (encStr "seed_info").length = 10 from by decide +kernel]
    omega
  | cert t i p =>
    simp only [Entry.info, sEntryInfo, listedSize]
    rw [enc_map_len _ (by simp)]
    simp only [List.map_cons, List.map_nil, List.sum_cons, List.sum_nil, enc,
      show (encStr "type").length = 5 from by decide +kernel, show (encStr "wkaTlsCert").length = 11 from by decide +kernel,
      show (encStr "tag").length = 4 from by decide +kernel, show (encStr "cert_info").length = 10 from by decide +kernel]
    have : (enc (sCertInfo i)).length = 62 + (encStr i.sni).length + (enc (sBin i.cert)).length := by
      unfold sCertInfo
      rw [enc_map_len _ (by simp)]
      simp only [List.map_cons, List.map_nil, List.sum_cons, List.sum_nil, sBin32_len, enc,
        show (encStr "sni").length = 4 from by decide +kernel, show (encStr "digest").length = 7 from by decide +kernel,
        show (encStr "cert").length = 5 from by decide +kernel]
      omega
    omega

theorem valsLen {α : Type} (f : α → Val) (l : List α) : (encVals (valsOf f l)).length = (l.map (fun a => (enc (f a)).length)).sum := by
  induction l with
  | nil => rfl
  | cons a l ih => simp [valsOf, encVals, ih]

theorem valsOf_length {α : Type} (f : α → Val) (l : List α) : (valsOf f l).length = l.length := by
  induction l with
  | nil => rfl
  | cons a l ih => simp [valsOf, Vals.length, ih]

/-- The size of the response. -/
theorem len_resList (id : String) (infos : List EntryInfo) :
    (encodeMsg (.res id (.listEntries infos))).length =
      37 + (encStr id).length + (encArrHdr infos.length).length + (infos.map (fun i => (enc (sEntryInfo i)).length)).sum := by
  simp only [encodeMsg, sMsg, respFields]
  rw [enc_map_len _ (by simp)]
  simp only [List.map_cons, List.map_nil, List.sum_cons, List.sum_nil, sList, enc, List.length_append, valsLen, valsOf_length,
    show (encStr "type").length = 5 from by decide +kernel, show (encStr "resListEntries").length = 15 from by decide +kernel,
    show (encStr "msgId").length = 6 from by decide +kernel, show (encStr "entryList").length = 10 from by decide +kernel]
  omega

theorem sum_perm {l l' : List Nat} (h : l.Perm l') : l.sum = l'.sum := by
  induction h with
  | nil => rfl
  | cons x _ ih => simp [ih]
  | swap x y l => simp only [List.sum_cons]; omega
  | trans _ _ h1 h2 => rw [h1, h2]

theorem listed_sum {infos : List EntryInfo} {tbl : List Entry} (h : infos.Perm (tbl.map Entry.info)) :
    (infos.map (fun i => (enc (sEntryInfo i)).length)).sum = (tbl.map listedSize).sum := by
  rw [sum_perm (h.map _), List.map_map]
  congr 1
  apply List.map_congr_left
  intro e _
  exact info_len e

theorem encArrHdr_len (n : Nat) : 1 ≤ (encArrHdr n).length ∧ (encArrHdr n).length ≤ 5 := by
  unfold encArrHdr
  split
  · simp
  · split <;> simp [be_length]

theorem listedSize_min (e : Entry) : 96 ≤ listedSize e := by
  cases e with
  | seed t i s => have := encStr_pos t; simp only [listedSize]; omega
  | deep t i a b c s => have := encStr_pos t; simp only [listedSize]; omega
  | cert t i p =>
    have h1 := encStr_pos t
    have h2 := encStr_pos i.sni
    have h3 : 1 ≤ (enc (sBin i.cert)).length := by simp only [sBin, enc]; exact encStr_pos _
    simp only [listedSize]; omega

end Lair.Codec
