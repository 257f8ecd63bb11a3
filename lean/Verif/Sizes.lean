import Verif.System

/- Sizes of encoded messages, for the frame limit. -/
namespace Lair.Codec
open Mp

/-- A string of `n` letters. For examples only: nothing in the code corresponds. -/
def letters (n : Nat) : String := String.ofList (List.replicate n 'a')

theorem utf8_letters (n : Nat) : (utf8 (letters n)).length = n := by
  have : (letters n).utf8ByteSize = n := by
    unfold letters
    induction n with
    | zero => rfl
    | succ n ih =>
      simp only [List.replicate_succ, String.ofList_cons]
      rw [String.utf8ByteSize_append, ih]
      have : (String.singleton 'a').utf8ByteSize = 1 := by decide +kernel
      omega
  exact this

/-- Size of the header of a string of `n` bytes. Proof device: nothing in the code corresponds. -/
def strHdr (n : Nat) : Nat := if n < 32 then 1 else if n < 256 then 2 else if n < 65536 then 3 else 5

theorem encStr_len (s : String) : (encStr s).length = strHdr (utf8 s).length + (utf8 s).length := by
  simp only [encStr, List.length_append, encStrHdr, strHdr]
  split
  · simp
  · split
    · simp [be_length]
    · split <;> simp [be_length]

theorem encFields_len' (l : List (String × Val)) :
    (encFields (fieldsOf l)).length = (l.map (fun p => (encStr p.1).length + (enc p.2).length)).sum := by
  induction l with
  | nil => rfl
  | cons p r ih => obtain ⟨k, v⟩ := p; simp [fieldsOf, encFields, ih]; omega

theorem fieldsOf_length (l : List (String × Val)) : (fieldsOf l).length = l.length := by
  induction l with
  | nil => rfl
  | cons p r ih => obtain ⟨k, v⟩ := p; simp [fieldsOf, Fields.length, ih]

theorem enc_map_len (l : List (String × Val)) (h : l.length < 16) :
    (enc (sMap l)).length = 1 + (l.map (fun p => (encStr p.1).length + (enc p.2).length)).sum := by
  simp only [sMap, enc, List.length_append, encFields_len', fieldsOf_length, encMapHdr]
  rw [if_pos h]; simp

/-- `Hello` request. -/
theorem len_hello (id : String) : (encodeMsg (.req id .hello)).length = 21 + (encStr id).length := by
  simp only [encodeMsg, sMsg, reqFields]
  rw [enc_map_len _ (by simp)]
  simp only [List.map_cons, List.map_nil, List.sum_cons, List.sum_nil, enc,
    show (encStr "type").length = 5 from by decide +kernel, show (encStr "reqHello").length = 9 from by decide +kernel,
    show (encStr "msgId").length = 6 from by decide +kernel]
  omega

theorem len_resUnlock (id : String) : (encodeMsg (.res id .unlock)).length = 22 + (encStr id).length := by
  simp only [encodeMsg, sMsg, respFields]
  rw [enc_map_len _ (by simp)]
  simp only [List.map_cons, List.map_nil, List.sum_cons, List.sum_nil, enc,
    show (encStr "type").length = 5 from by decide +kernel, show (encStr "resUnlock").length = 10 from by decide +kernel,
    show (encStr "msgId").length = 6 from by decide +kernel]
  omega

theorem len_reqUnlock (id : String) (p : SecretSized 81) :
    22 + (encStr id).length ≤ (encodeMsg (.req id (.unlock p))).length := by
  simp only [encodeMsg, sMsg, reqFields]
  rw [enc_map_len _ (by simp)]
  simp only [List.map_cons, List.map_nil, List.sum_cons, List.sum_nil, enc,
    show (encStr "type").length = 5 from by decide +kernel, show (encStr "reqUnlock").length = 10 from by decide +kernel,
    show (encStr "msgId").length = 6 from by decide +kernel]
  omega

theorem len_error (id e : String) :
    (encodeMsg (.res id (.error e))).length = 27 + (encStr id).length + (encStr e).length := by
  simp only [encodeMsg, sMsg, respFields]
  rw [enc_map_len _ (by simp)]
  simp only [List.map_cons, List.map_nil, List.sum_cons, List.sum_nil, enc,
    show (encStr "type").length = 5 from by decide +kernel, show (encStr "resError").length = 9 from by decide +kernel,
    show (encStr "msgId").length = 6 from by decide +kernel, show (encStr "error").length = 6 from by decide +kernel]
  omega

theorem len_resHello (id n v : String) (pk : B 32) :
    28 + (encStr id).length ≤ (encodeMsg (.res id (.hello n v pk))).length := by
  simp only [encodeMsg, sMsg, respFields]
  rw [enc_map_len _ (by simp)]
  simp only [List.map_cons, List.map_nil, List.sum_cons, List.sum_nil, enc,
    show (encStr "type").length = 5 from by decide +kernel, show (encStr "resHello").length = 9 from by decide +kernel,
    show (encStr "msgId").length = 6 from by decide +kernel, show (encStr "name").length = 5 from by decide +kernel,
    show (encStr "version").length = 8 from by decide +kernel]
  omega

theorem len_newSeed (id t : String) :
    (encodeMsg (.req id (.newSeed t none false))).length = 27 + (encStr id).length + (encStr t).length := by
  simp only [encodeMsg, sMsg, reqFields, sOpt, sFlag]
  rw [enc_map_len _ (by simp)]
  simp only [List.map_cons, List.map_nil, List.sum_cons, List.sum_nil, enc, List.append_nil, Bool.false_eq_true, if_false,
    show (encStr "type").length = 5 from by decide +kernel, show (encStr "reqNewSeed").length = 11 from by decide +kernel,
    show (encStr "msgId").length = 6 from by decide +kernel, show (encStr "tag").length = 4 from by decide +kernel]
  omega

theorem len_resNewSeed (id t : String) (i : SeedInfo) :
    36 + (encStr id).length + (encStr t).length + (enc (sSeedInfo i)).length ≤
      (encodeMsg (.res id (.newSeed t i))).length := by
  simp only [encodeMsg, sMsg, respFields]
  rw [enc_map_len _ (by simp)]
  simp only [List.map_cons, List.map_nil, List.sum_cons, List.sum_nil, enc,
    show (encStr "type").length = 5 from by decide +kernel, show (encStr "resNewSeed").length = 11 from by decide +kernel,
    show (encStr "msgId").length = 6 from by decide +kernel, show (encStr "tag").length = 4 from by decide +kernel,
    show (encStr "seedInfo").length = 9 from by decide +kernel]
  omega

end Lair.Codec
