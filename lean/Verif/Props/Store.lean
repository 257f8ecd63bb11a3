import Verif.StoreLemmas
import Verif.MemStore
import Verif.SqlStore
import Verif.CodecLemmas
import Verif.Base64

/-
Properties of the stores and encodings: C08, C09, C10, C33, C34, C35.
The specification is `tableRun` in `Verif.StoreSpec` (a plain list of accepted entries).
-/
namespace Lair

/-- C08. Any history of calls on a new in-memory store is answered as the write-once table answers it: a write is
    accepted iff it clashes with no accepted entry, lookups return the accepted entry with that tag / key, and the
    listing is the accepted entries' public information (up to order). -/
theorem C08_mem_store_is_table (ops : List StoreOp) :
    SameObsList (MemStore.impl.run MemStore.impl.empty ops).1 (tableRun (fun _ => true) [] ops).1 := by
  have := (refines_run MemStore.refines _ (refines_init MemStore.refines) ops).1
  rwa [MemStore.refines.empty_tbl] at this

/-- C09. The same for the SQLite store; entries whose encoding exceeds SQLite's length limit are refused. -/
theorem C09_sql_store_is_table (ops : List StoreOp) :
    SameObsList (SqlStore.impl.run SqlStore.impl.empty ops).1 (tableRun SqlStore.fits [] ops).1 := by
  have := (refines_run SqlStore.refines _ (refines_init SqlStore.refines) ops).1
  rwa [SqlStore.refines.empty_tbl] at this

/-- C09. Whatever is in the database - also rows written by something else, or damaged -, a listing that succeeds has exactly one
    item per row, in order, the public information of the entry stored there: a row that cannot be read is never left out. -/
theorem C09_listing_leaves_nothing_out (s : SqlStore) (l : List EntryInfo) (h : SqlStore.list s = .ok l) :
    ∃ es : List Entry, s.rows.map (fun r => Codec.decodeEntry r.data) = es.map some ∧ l = es.map Entry.info := by
  unfold SqlStore.list at h
  revert h
  generalize s.rows = rows
  induction rows generalizing l with
  | nil => intro h; cases h; exact ⟨[], rfl, rfl⟩
  | cons r rs ih =>
    intro h
    rw [SqlStore.decodeAll] at h
    cases hd : Codec.decodeEntry r.data with
    | none => rw [hd] at h; cases h
    | some e =>
      rw [hd] at h
      cases hr : SqlStore.decodeAll rs with
      | error m => rw [hr] at h; cases h
      | ok l' =>
        rw [hr] at h; cases h
        obtain ⟨es, h1, rfl⟩ := ih l' hr
        exact ⟨e :: es, by simp [hd, h1], rfl⟩

/-- C09. A listing or lookup that meets a row it cannot decode fails. -/
theorem C09_damaged_row_is_an_error (s : SqlStore) (r : SqlRow) (hr : r ∈ s.rows) (hd : Codec.decodeEntry r.data = none) :
    ∃ e, SqlStore.list s = .error e := by
  cases h : SqlStore.list s with
  | error e => exact ⟨e, rfl⟩
  | ok l =>
    obtain ⟨es, h1, -⟩ := C09_listing_leaves_nothing_out s l h
    have : Codec.decodeEntry r.data ∈ s.rows.map (fun r => Codec.decodeEntry r.data) := List.mem_map.mpr ⟨r, hr, rfl⟩
    rw [h1, hd] at this
    simp at this

theorem tableRun_congr (f g : Entry → Bool) (ops : List StoreOp) (h : ∀ e, StoreOp.write e ∈ ops → f e = g e)
    (t : List Entry) : tableRun f t ops = tableRun g t ops := by
  induction ops generalizing t with
  | nil => rfl
  | cons op ops ih =>
    have h1 : tableStep f t op = tableStep g t op := by
      cases op with
      | write e => simp only [tableStep, h e (by simp)]
      | _ => rfl
    simp only [tableRun, h1]
    rw [ih (fun e he => h e (List.mem_cons_of_mem _ he))]

/-- C10. Every history of calls whose entries fit SQLite's limit (a billion bytes each) is answered alike by both
    stores: same acceptances, same lookups, same listings up to order. -/
theorem C10_stores_interchangeable (ops : List StoreOp)
    (hfit : ∀ e, StoreOp.write e ∈ ops → (Codec.encodeEntry e).length ≤ 1000000000) :
    SameObsList (MemStore.impl.run MemStore.impl.empty ops).1 (SqlStore.impl.run SqlStore.impl.empty ops).1 := by
  have h1 := C08_mem_store_is_table ops
  have h2 := C09_sql_store_is_table ops
  rw [tableRun_congr (fun _ => true) SqlStore.fits ops (fun e he => by
    have := hfit e he
    simp [SqlStore.fits, SqlStore.maxLength, this])] at h1
  exact h1.trans h2.symm

/-- C34. The stored bytes of an entry decode to that entry (for every entry below MessagePack's 4 GiB limit). -/
theorem C34_entry_codec_roundtrip (e : Entry) (h : (Codec.encodeEntry e).length < 2 ^ 32) :
    Codec.decodeEntry (Codec.encodeEntry e) = some e := by
  simpa using Codec.decodeEntry_encode e [] h

/-- C35. Each protocol message decodes to the same message (any message that fits a frame does). -/
theorem C35_msg_codec_roundtrip (m : Msg) (h : (Codec.encodeMsg m).length < 2 ^ 32) :
    Codec.decodeMsg (Codec.encodeMsg m) = some m := by
  simpa using Codec.decodeMsg_encode m [] h

/-- C35. Consequently two messages with the same bytes are the same message: no message is mistaken for another. -/
theorem C35_msg_codec_injective (m m' : Msg) (h : (Codec.encodeMsg m).length < 2 ^ 32)
    (he : Codec.encodeMsg m = Codec.encodeMsg m') : m = m' := by
  have h1 := C35_msg_codec_roundtrip m h
  have h2 := C35_msg_codec_roundtrip m' (he ▸ h)
  rw [he, h2] at h1
  exact (Option.some.inj h1).symm

/-- C33. Printing and parsing a binary value is the identity. -/
theorem C33_base64_roundtrip (b : Bytes) : Base64.ofText (Base64.toText b) = some b := Base64.ofText_toText b

/-- C33. Canonical: at most one text is accepted for a value, the printed one. -/
theorem C33_base64_canonical (s t : String) (b : Bytes) (hs : Base64.ofText s = some b) (ht : Base64.ofText t = some b) :
    s = t ∧ s = Base64.toText b := by
  rw [Base64.toText_of_ofText hs, Base64.toText_of_ofText ht]
  exact ⟨rfl, rfl⟩

/-- C33. A fixed-size value is accepted exactly from the printed text of a value of that size. -/
theorem C33_base64_sized (n : Nat) (s : String) (b : B n) :
    Base64.ofTextSized n s = some b ↔ s = Base64.toText b.val := by
  constructor
  · intro h
    unfold Base64.ofTextSized at h
    cases hd : Base64.ofText s with
    | none => simp [hd] at h
    | some x =>
      simp only [hd, Option.bind_some, B.ofBytes?_eq_some] at h
      subst h
      exact Base64.toText_of_ofText hd
  · rintro rfl; exact Base64.ofTextSized_toText b

/-- C33. A text of a value of another size is refused. -/
theorem C33_base64_wrong_size (n : Nat) (b : Bytes) (h : b.length ≠ n) :
    Base64.ofTextSized n (Base64.toText b) = none := by
  simp [Base64.ofTextSized, Base64.ofText_toText, B.ofBytes?, h]

/-! ### Concrete cases -/

section Examples

/-- A seed entry for the examples. -/
def exSeed (tag : String) (x : UInt8) : Entry :=
  .seed tag ⟨B.fill 32 x, B.fill 32 (x + 1), true⟩ ⟨B.fill 24 0, B.fill 49 x⟩

def exDeep (tag : String) (x : UInt8) : Entry :=
  .deep tag ⟨B.fill 32 x, B.fill 32 (x + 1), true⟩ (B.fill 16 1) 3 4 ⟨B.fill 24 0, B.fill 49 x⟩

/-- The table accepts `a`, refuses an entry with the tag of `a`, refuses one with the keys of `a`, accepts `c`. -/
example : (tableRun (fun _ => true) [] [.write (exSeed "a" 1), .write (exSeed "a" 9), .write (exDeep "b" 1),
      .write (exDeep "c" 5), .byTag "c", .byEd (B.fill 32 1), .byX (B.fill 32 9)]).1
    = [.wrote true, .wrote false, .wrote false, .wrote true, .got (some (exDeep "c" 5)), .got (some (exSeed "a" 1)),
      .got none] := by decide +kernel

/-- ... and so does the in-memory store. -/
example : (MemStore.impl.run MemStore.impl.empty [.write (exSeed "a" 1), .write (exSeed "a" 9), .write (exDeep "b" 1),
      .write (exDeep "c" 5), .byTag "c", .byEd (B.fill 32 1), .byX (B.fill 32 9)]).1
    = [.wrote true, .wrote false, .wrote false, .wrote true, .got (some (exDeep "c" 5)), .got (some (exSeed "a" 1)),
      .got none] := by decide +kernel

/-- A database with a good and a damaged row, and one with two good rows. -/
example : SqlStore.list ⟨[⟨0, "a", none, none, Codec.encodeEntry (exSeed "a" 1)⟩, ⟨1, "b", none, none, [1, 2]⟩]⟩ = .error "decode error" ∧
    SqlStore.list ⟨[⟨0, "a", none, none, Codec.encodeEntry (exSeed "a" 1)⟩, ⟨1, "b", none, none, Codec.encodeEntry (exDeep "b" 5)⟩]⟩ =
      .ok [(exSeed "a" 1).info, (exDeep "b" 5).info] := by decide +kernel

/-- The size hypotheses of C10, C34 and C35 hold of ordinary entries and messages. -/
example : (Codec.encodeEntry (exDeep "hello" 3)).length ≤ 1000000000 ∧
    (Codec.encodeEntry (exSeed "hello" 3)).length < 2 ^ 32 := by decide +kernel

example : (Codec.encodeMsg (.req "id7" (.sign (B.fill 32 1) none [1, 2, 3]))).length < 2 ^ 32 := by decide +kernel

/-- The accepted and refused texts of C33 exist. -/
example : Base64.ofText "AQID" = some [1, 2, 3] ∧ Base64.ofText "AQ" = some [1] ∧ Base64.ofText "AR" = none ∧
    Base64.ofTextSized 3 "AQID" = some ⟨[1, 2, 3], rfl⟩ ∧ Base64.ofTextSized 4 "AQID" = none := by decide +kernel

end Examples

end Lair
