import Verif.StoreSpec
import Verif.CodecLemmas

/-
The SQLite store (crates/lair_keystore/src/store_sqlite.rs:344-504) over the table of crates/lair_keystore/src/sql/schema.sql:

  lair_keystore(id INTEGER PRIMARY KEY, tag TEXT NOT NULL UNIQUE, ed25519_pub_key BLOB NULL UNIQUE,
                x25519_pub_key BLOB NULL UNIQUE, data BLOB NOT NULL)

Each method is one transaction (store_sqlite.rs:77-115: committed only on success), so it is one atomic step here.
SQLite itself is modelled as: a list of rows in rowid order, UNIQUE constraints in which NULLs never collide, an insert that
is refused (with rollback, `INSERT OR ROLLBACK`) when a constraint or the maximum blob size is violated.
Not modelled: I/O errors (they appear as failing store calls in the server model), encryption at rest.
-/
namespace Lair

/-- A row of `lair_keystore`. Code: the table made at store_sqlite.rs:141-253 (sql/schema.sql). -/
structure SqlRow where
  id : Nat
  tag : String
  ed : Option Bytes
  x : Option Bytes
  data : Bytes

/-- The table. Code: the table made at store_sqlite.rs:141-253 (sql/schema.sql). -/
structure SqlStore where
  rows : List SqlRow

namespace SqlStore

/-- `SQLITE_MAX_LENGTH`: a longer value is refused ("string or blob too big").
    SQLite, as used at store_sqlite.rs:390-437. -/
def maxLength : Nat := 1000000000

/-- A UNIQUE column that may be NULL. Code: store_sqlite.rs:390-437. -/
def uniqueOk (old : List (Option Bytes)) : Option Bytes → Bool
  | none => true
  | some k => old.all (fun o => o ≠ some k)

/-- `INSERT OR ROLLBACK INTO lair_keystore (tag, ed25519_pub_key, x25519_pub_key, data)` (sql/insert_seed.sql, insert.sql).
    For certificates the key columns are not given, i.e. NULL. Code: store_sqlite.rs:390-437. -/
def insertRow (s : SqlStore) (tag : String) (ed x : Option Bytes) (data : Bytes) : Res Unit × SqlStore :=
  if maxLength < data.length then (.error "string or blob too big", s)
  else if s.rows.any (fun r => r.tag = tag) then (.error "UNIQUE constraint failed: lair_keystore.tag", s)
  else if !uniqueOk (s.rows.map (·.ed)) ed then (.error "UNIQUE constraint failed: lair_keystore.ed25519_pub_key", s)
  else if !uniqueOk (s.rows.map (·.x)) x then (.error "UNIQUE constraint failed: lair_keystore.x25519_pub_key", s)
  else (.ok (), ⟨s.rows ++ [⟨s.rows.length + 1, tag, ed, x, data⟩]⟩)

/-- `write_entry` (store_sqlite.rs:390-437): Seed and DeepLockedSeed go through INSERT_SEED, WkaTlsCert through INSERT. -/
def write (s : SqlStore) (e : Entry) : Res Unit × SqlStore :=
  match e with
  | .seed t i _ => insertRow s t (some i.ed.val) (some i.x.val) (Codec.encodeEntry e)
  | .deep t i _ _ _ _ => insertRow s t (some i.ed.val) (some i.x.val) (Codec.encodeEntry e)
  | .cert t _ _ => insertRow s t none none (Codec.encodeEntry e)

/-- `query_row`: no row is the error `QueryReturnedNoRows`; the data column is then decoded.
    Code: store_sqlite.rs:439-510. -/
def queryRow (s : SqlStore) (p : SqlRow → Bool) : Res Entry :=
  match s.rows.find? p with
  | none => .error "Query returned no rows"
  | some r => Res.ofOption "decode error" (Codec.decodeEntry r.data)

/-- `get_entry_by_tag` (store_sqlite.rs:439-458). -/
def byTag (s : SqlStore) (t : String) : Res Entry := queryRow s (fun r => r.tag = t)
/-- `get_entry_by_ed25519_pub_key` (store_sqlite.rs:460-481). -/
def byEd (s : SqlStore) (k : B 32) : Res Entry := queryRow s (fun r => r.ed = some k.val)
/-- `get_entry_by_x25519_pub_key` (store_sqlite.rs:483-504). -/
def byX (s : SqlStore) (k : B 32) : Res Entry := queryRow s (fun r => r.x = some k.val)

/-- Decode each selected row, failing at the first that does not decode. Code: store_sqlite.rs:344-388. -/
def decodeAll : List SqlRow → Res (List EntryInfo)
  | [] => .ok []
  | r :: rs =>
    match Codec.decodeEntry r.data with
    | none => .error "decode error"
    | some e =>
      match decodeAll rs with
      | .ok l => .ok (e.info :: l)
      | .error m => .error m

/-- `list_entries` (store_sqlite.rs:344-388): SELECT_ALL, no ORDER BY (rowid order here). -/
def list (s : SqlStore) : Res (List EntryInfo) := decodeAll s.rows

/-- A new database (store_sqlite.rs:206-216, sql/schema.sql). -/
def empty : SqlStore := ⟨[]⟩

/-- The store as an implementation of `AsLairStore`. Code: store_sqlite.rs:339-510. -/
def impl : StoreImpl SqlStore := ⟨empty, write, byTag, byEd, byX, list⟩

/-- What SQLite has room for. SQLite, as used at store_sqlite.rs:390-437. -/
def fits (e : Entry) : Bool := decide ((Codec.encodeEntry e).length ≤ maxLength)

/-- Abstraction: decode the rows. Specification: nothing in the code corresponds. -/
def tbl (s : SqlStore) : List Entry := s.rows.filterMap (fun r => Codec.decodeEntry r.data)

/-- A row is exactly what `write` stores for the entry. Proof device: nothing in the code corresponds. -/
def RowOf (r : SqlRow) (e : Entry) : Prop :=
  Codec.decodeEntry r.data = some e ∧ r.tag = e.tag ∧ r.ed = e.edKey.map B.val ∧ r.x = e.xKey.map B.val

/-- Representation invariant: every row holds an entry and its columns, and no two clash.
    Proof device: nothing in the code corresponds. -/
structure Ok (s : SqlStore) : Prop where
  rows : ∀ r ∈ s.rows, ∃ e, RowOf r e
  distinct : Distinct (tbl s)

theorem optVal_inj {a : Option (B 32)} {k : B 32} : a.map B.val = some k.val ↔ a = some k := by
  cases a with
  | none => simp
  | some b => simp; exact ⟨fun h => B.ext h, fun h => by rw [h]⟩

theorem mem_tbl_iff {s : SqlStore} (h : Ok s) (e : Entry) : e ∈ tbl s ↔ ∃ r ∈ s.rows, RowOf r e := by
  unfold tbl
  rw [List.mem_filterMap]
  constructor
  · rintro ⟨r, hr, hd⟩
    obtain ⟨e', he'⟩ := h.rows r hr
    have := he'.1.symm.trans hd
    cases this
    exact ⟨r, hr, he'⟩
  · rintro ⟨r, hr, hd⟩
    exact ⟨r, hr, hd.1⟩

theorem insertRow_eq (s : SqlStore) (e : Entry) :
    write s e = insertRow s e.tag (e.edKey.map B.val) (e.xKey.map B.val) (Codec.encodeEntry e) := by
  cases e <;> rfl

theorem uniqueOk_iff (old : List (Option Bytes)) (k : Option Bytes) :
    uniqueOk old k = true ↔ ∀ b, k = some b → some b ∉ old := by
  cases k with
  | none => simp [uniqueOk]
  | some k =>
    simp only [uniqueOk, List.all_eq_true, decide_eq_true_eq, ne_eq, Option.some.injEq]
    constructor
    · rintro h b rfl hm; exact h _ hm rfl
    · intro h o ho hk; subst hk; exact h k rfl ho

theorem no_clash_iff {s : SqlStore} (h : Ok s) (e : Entry) :
    (∀ e' ∈ tbl s, ¬ Clash e' e) ↔
      (s.rows.any (fun r => r.tag = e.tag) = false ∧
       uniqueOk (s.rows.map (·.ed)) (e.edKey.map B.val) = true ∧
       uniqueOk (s.rows.map (·.x)) (e.xKey.map B.val) = true) := by
  rw [uniqueOk_iff, uniqueOk_iff]
  constructor
  · intro hn
    refine ⟨?_, ?_, ?_⟩
    · rw [List.any_eq_false]
      intro r hr ht
      obtain ⟨e', he'⟩ := h.rows r hr
      have := (mem_tbl_iff h e').2 ⟨r, hr, he'⟩
      simp at ht
      exact hn e' this (Or.inl (he'.2.1.symm.trans ht))
    · intro b hb hm
      rw [List.mem_map] at hm
      obtain ⟨r, hr, hrb⟩ := hm
      obtain ⟨e', he'⟩ := h.rows r hr
      have := (mem_tbl_iff h e').2 ⟨r, hr, he'⟩
      rw [Option.map_eq_some_iff] at hb
      obtain ⟨k, hk, rfl⟩ := hb
      exact hn e' this (Or.inr (Or.inl ⟨k, optVal_inj.1 (he'.2.2.1.symm.trans hrb), hk⟩))
    · intro b hb hm
      rw [List.mem_map] at hm
      obtain ⟨r, hr, hrb⟩ := hm
      obtain ⟨e', he'⟩ := h.rows r hr
      have := (mem_tbl_iff h e').2 ⟨r, hr, he'⟩
      rw [Option.map_eq_some_iff] at hb
      obtain ⟨k, hk, rfl⟩ := hb
      exact hn e' this (Or.inr (Or.inr ⟨k, optVal_inj.1 (he'.2.2.2.symm.trans hrb), hk⟩))
  · rintro ⟨h1, h2, h3⟩ e' hm hc
    obtain ⟨r, hr, he'⟩ := (mem_tbl_iff h e').1 hm
    rcases hc with hc | ⟨k, hk1, hk2⟩ | ⟨k, hk1, hk2⟩
    · rw [List.any_eq_false] at h1
      exact h1 r hr (by simp [he'.2.1, hc])
    · apply h2 k.val (by simp [hk2])
      rw [List.mem_map]
      exact ⟨r, hr, by rw [he'.2.2.1, hk1]; rfl⟩
    · apply h3 k.val (by simp [hk2])
      rw [List.mem_map]
      exact ⟨r, hr, by rw [he'.2.2.2, hk1]; rfl⟩

theorem queryRow_iff {s : SqlStore} (h : Ok s) (p : SqlRow → Bool) (q : Entry → Prop) (e : Entry)
    (hpq : ∀ r e, RowOf r e → (p r = true ↔ q e)) (hq : ∀ a b, q a → q b → Clash a b) :
    queryRow s p = .ok e ↔ e ∈ tbl s ∧ q e := by
  unfold queryRow
  constructor
  · intro hh
    split at hh
    · cases hh
    · rename_i r hf
      have hr := List.mem_of_find?_eq_some hf
      have hp := List.find?_some hf
      obtain ⟨e', he'⟩ := h.rows r hr
      rw [he'.1] at hh
      cases hh
      exact ⟨(mem_tbl_iff h _).2 ⟨r, hr, he'⟩, (hpq r _ he').1 hp⟩
  · rintro ⟨hm, hqe⟩
    obtain ⟨r, hr, he⟩ := (mem_tbl_iff h e).1 hm
    cases hf : s.rows.find? p with
    | none =>
      rw [List.find?_eq_none] at hf
      exact absurd ((hpq r e he).2 hqe) (hf r hr)
    | some r' =>
      have hr' := List.mem_of_find?_eq_some hf
      have hp' := List.find?_some hf
      obtain ⟨e', he'⟩ := h.rows r' hr'
      have hq' := (hpq r' e' he').1 hp'
      have hm' := (mem_tbl_iff h e').2 ⟨r', hr', he'⟩
      have : e' = e := h.distinct.eq_of_clash hm' hm (hq _ _ hq' hqe)
      subst this
      simp [he'.1]

/-- The SQLite store refines the same write-once table. -/
theorem refines : Refines impl fits Ok tbl where
  empty_ok := ⟨(by intro r hr; exact absurd hr (by simp [impl, empty])), List.Pairwise.nil⟩
  empty_tbl := rfl
  write_new := by
    intro s e h hf hn
    obtain ⟨h1, h2, h3⟩ := (no_clash_iff h e).1 hn
    have hlen : (Codec.encodeEntry e).length ≤ maxLength := by simpa [fits] using hf
    have hdec : Codec.decodeEntry (Codec.encodeEntry e) = some e := by
      have := Codec.decodeEntry_encode e [] (by unfold maxLength at hlen; omega)
      simpa using this
    have hw : impl.write s e = (.ok (), ⟨s.rows ++ [⟨s.rows.length + 1, e.tag, e.edKey.map B.val, e.xKey.map B.val,
        Codec.encodeEntry e⟩]⟩) := by
      show write s e = _
      rw [insertRow_eq, insertRow, if_neg (by omega)]
      simp only [h1, h2, h3]
      simp
    rw [hw]
    have ht : tbl ⟨s.rows ++ [⟨s.rows.length + 1, e.tag, e.edKey.map B.val, e.xKey.map B.val,
        Codec.encodeEntry e⟩]⟩ = tbl s ++ [e] := by
      simp [tbl, List.filterMap_append, hdec]
    refine ⟨rfl, ⟨?_, ?_⟩, ht⟩
    · intro r hr
      rcases List.mem_append.1 hr with hr | hr
      · exact h.rows r hr
      · simp at hr; subst hr
        exact ⟨e, hdec, rfl, rfl, rfl⟩
    · show Distinct (tbl _)
      rw [ht]; exact h.distinct.append_one hn
  write_clash := by
    intro s e h hc
    show (∃ m, (write s e).1 = .error m) ∧ (write s e).2 = s
    rw [insertRow_eq, insertRow]
    split
    · exact ⟨⟨_, rfl⟩, rfl⟩
    · rename_i hlen
      split
      · exact ⟨⟨_, rfl⟩, rfl⟩
      · split
        · exact ⟨⟨_, rfl⟩, rfl⟩
        · split
          · exact ⟨⟨_, rfl⟩, rfl⟩
          · rename_i a b c
            rcases hc with hc | ⟨e', hm, hcl⟩
            · simp [fits] at hc; omega
            · exact absurd hcl ((no_clash_iff h e).2 ⟨by simpa using a, by simpa using b, by simpa using c⟩ e' hm)
  byTag_iff := by
    intro s t e h
    exact queryRow_iff h (fun r => r.tag = t) (fun e => e.tag = t) e (by intro r e he; simp [he.2.1]) (by
      intro a b ha hb; exact Or.inl (ha.trans hb.symm))
  byEd_iff := by
    intro s k e h
    exact queryRow_iff h (fun r => r.ed = some k.val) (fun e => e.edKey = some k) e (by
      intro r e he; simp only [he.2.2.1, decide_eq_true_eq]; exact optVal_inj) (by
      intro a b ha hb; exact Or.inr (Or.inl ⟨k, ha, hb⟩))
  byX_iff := by
    intro s k e h
    exact queryRow_iff h (fun r => r.x = some k.val) (fun e => e.xKey = some k) e (by
      intro r e he; simp only [he.2.2.2, decide_eq_true_eq]; exact optVal_inj) (by
      intro a b ha hb; exact Or.inr (Or.inr ⟨k, ha, hb⟩))
  list_perm := by
    intro s h
    suffices hs : ∀ rows : List SqlRow, (∀ r ∈ rows, ∃ e, RowOf r e) →
        decodeAll rows = .ok ((rows.filterMap (fun r => Codec.decodeEntry r.data)).map Entry.info) by
      exact ⟨_, hs s.rows h.rows, List.Perm.refl _⟩
    intro rows
    induction rows with
    | nil => intro _; rfl
    | cons r rs ih =>
      intro hr
      obtain ⟨e, he⟩ := hr r (List.mem_cons_self ..)
      have := ih (fun r hr' => hr r (List.mem_cons_of_mem _ hr'))
      simp [decodeAll, he.1, this]

end SqlStore
end Lair
