import Verif.StoreSpec
import Verif.AMap

/-
The in-memory store (crates/lair_keystore_api/src/mem_store.rs).
The `RwLock` around the three maps makes each method one atomic step (lock held for the whole body, mem_store.rs:66,
114, 158, 173, 194); the model is therefore a function of the maps.
-/
namespace Lair

/-- `PrivMemStoreInner` (mem_store.rs:44-53) without the context key. -/
structure MemStore where
  entryByTag : AMap String Entry
  edPkToTag : AMap (B 32) String
  xPkToTag : AMap (B 32) String

namespace MemStore

/-- `connect_to_store` (mem_store.rs:22-42): three empty maps. -/
def empty : MemStore := ⟨[], [], []⟩

/-- `if let Some(ed) = ed { map.insert(ed, tag) }` (mem_store.rs:135-143). -/
def putOpt (m : AMap (B 32) String) (k : Option (B 32)) (tag : String) : AMap (B 32) String :=
  match k with
  | some k => m.insert k tag
  | none => m

/-- `if let Some(ed) = &ed { map.contains_key(ed) }` (mem_store.rs:121-133). -/
def hasOpt (m : AMap (B 32) String) (k : Option (B 32)) : Bool :=
  match k with
  | some k => (m.get k).isSome
  | none => false

/-- `write_entry` (mem_store.rs:95-150). -/
def write (s : MemStore) (e : Entry) : Res Unit × MemStore :=
  if (s.entryByTag.get e.tag).isSome then (.error "tag already registered", s)
  else if hasOpt s.edPkToTag e.edKey then (.error "ed pk already registered", s)
  else if hasOpt s.xPkToTag e.xKey then (.error "x pk already registered", s)
  else (.ok (), ⟨s.entryByTag.insert e.tag e, putOpt s.edPkToTag e.edKey e.tag, putOpt s.xPkToTag e.xKey e.tag⟩)

/-- `get_entry_by_tag` (mem_store.rs:152-165). -/
def byTag (s : MemStore) (t : String) : Res Entry := Res.ofOption "tag not found" (s.entryByTag.get t)

/-- `get_entry_by_ed25519_pub_key` (mem_store.rs:167-186). -/
def byEd (s : MemStore) (k : B 32) : Res Entry :=
  match s.edPkToTag.get k with
  | none => .error "pub key not found"
  | some t => Res.ofOption "tag not found" (s.entryByTag.get t)

/-- `get_entry_by_x25519_pub_key` (mem_store.rs:188-207). -/
def byX (s : MemStore) (k : B 32) : Res Entry :=
  match s.xPkToTag.get k with
  | none => .error "pub key not found"
  | some t => Res.ofOption "tag not found" (s.entryByTag.get t)

/-- `list_entries` (mem_store.rs:62-93); the map's iteration order is unspecified, see `Refines.list_perm`. -/
def list (s : MemStore) : Res (List EntryInfo) := .ok (s.entryByTag.values.map Entry.info)

/-- The store as an implementation of `AsLairStore`. Code: mem_store.rs:57-208. -/
def impl : StoreImpl MemStore := ⟨empty, write, byTag, byEd, byX, list⟩

/-- Abstraction: the accepted entries, oldest first (`insert` puts the newest in front).
    Specification: nothing in the code corresponds. -/
def tbl (s : MemStore) : List Entry := s.entryByTag.values.reverse

/-- Representation invariant: the indexes are exactly the key columns of the entries.
    Proof device: nothing in the code corresponds. -/
structure Ok (s : MemStore) : Prop where
  nodup : s.entryByTag.Nodup
  tags : ∀ t e, s.entryByTag.get t = some e → e.tag = t
  ed : ∀ k t, s.edPkToTag.get k = some t ↔ ∃ e, s.entryByTag.get t = some e ∧ e.edKey = some k
  x : ∀ k t, s.xPkToTag.get k = some t ↔ ∃ e, s.entryByTag.get t = some e ∧ e.xKey = some k

theorem mem_tbl {s : MemStore} (h : Ok s) (e : Entry) : e ∈ tbl s ↔ s.entryByTag.get e.tag = some e := by
  unfold tbl AMap.values
  rw [List.mem_reverse, List.mem_map]
  constructor
  · rintro ⟨⟨t, e'⟩, hm, rfl⟩
    have := AMap.get_of_mem h.nodup hm
    simp only
    rw [h.tags _ _ this]; exact this
  · intro hg; exact ⟨(e.tag, e), AMap.mem_of_get hg, rfl⟩

theorem get_putOpt (m : AMap (B 32) String) (k : Option (B 32)) (t : String) (k' : B 32) :
    (putOpt m k t).get k' = if k = some k' then some t else m.get k' := by
  cases k with
  | none => simp [putOpt]
  | some k =>
    simp only [putOpt, AMap.get_insert, Option.some.injEq]
    by_cases h : k' = k
    · simp [h]
    · have : ¬ k = k' := fun h' => h h'.symm
      simp [h, this]

theorem hasOpt_iff (m : AMap (B 32) String) (k : Option (B 32)) :
    hasOpt m k = true ↔ ∃ k' t, k = some k' ∧ m.get k' = some t := by
  cases k with
  | none => simp [hasOpt]
  | some k => simp [hasOpt, Option.isSome_iff_exists]

theorem index_step {et : AMap String Entry} {idx : AMap (B 32) String} {key : Entry → Option (B 32)} {e : Entry}
    (hidx : ∀ k t, idx.get k = some t ↔ ∃ e, et.get t = some e ∧ key e = some k)
    (hnew : et.get e.tag = none) (hk : hasOpt idx (key e) = false) (k : B 32) (t : String) :
    (putOpt idx (key e) e.tag).get k = some t ↔ ∃ e', (et.insert e.tag e).get t = some e' ∧ key e' = some k := by
  rw [get_putOpt]
  constructor
  · split
    · rename_i hek; intro h; cases h
      exact ⟨e, by simp, hek⟩
    · intro h
      obtain ⟨e', h1, h2⟩ := (hidx k t).1 h
      refine ⟨e', ?_, h2⟩
      rw [AMap.get_insert_ne]; exact h1
      rintro rfl; rw [hnew] at h1; cases h1
  · rintro ⟨e', h1, h2⟩
    rw [AMap.get_insert] at h1
    split at h1
    · rename_i ht; cases h1; rw [if_pos h2, ht]
    · have hget := (hidx k t).2 ⟨e', h1, h2⟩
      split
      · rename_i hek
        have : hasOpt idx (key e) = true := (hasOpt_iff _ _).2 ⟨k, t, hek, hget⟩
        rw [hk] at this; cases this
      · exact hget

theorem no_clash_iff {s : MemStore} (h : Ok s) (e : Entry) :
    (∀ e' ∈ tbl s, ¬ Clash e' e) ↔
      (s.entryByTag.get e.tag = none ∧ hasOpt s.edPkToTag e.edKey = false ∧ hasOpt s.xPkToTag e.xKey = false) := by
  constructor
  · intro hn
    refine ⟨?_, ?_, ?_⟩
    · cases hg : s.entryByTag.get e.tag with
      | none => rfl
      | some e' =>
        have ht := h.tags _ _ hg
        have : e' ∈ tbl s := (mem_tbl h e').2 (by rw [ht]; exact hg)
        exact absurd (Or.inl ht) (hn e' this)
    · cases hg : hasOpt s.edPkToTag e.edKey with
      | false => rfl
      | true =>
        obtain ⟨k, t, h1, h2⟩ := (hasOpt_iff _ _).1 hg
        obtain ⟨e', h3, h4⟩ := (h.ed k t).1 h2
        have : e' ∈ tbl s := (mem_tbl h e').2 (by rw [h.tags _ _ h3]; exact h3)
        exact absurd (Or.inr (Or.inl ⟨k, h4, h1⟩)) (hn e' this)
    · cases hg : hasOpt s.xPkToTag e.xKey with
      | false => rfl
      | true =>
        obtain ⟨k, t, h1, h2⟩ := (hasOpt_iff _ _).1 hg
        obtain ⟨e', h3, h4⟩ := (h.x k t).1 h2
        have : e' ∈ tbl s := (mem_tbl h e').2 (by rw [h.tags _ _ h3]; exact h3)
        exact absurd (Or.inr (Or.inr ⟨k, h4, h1⟩)) (hn e' this)
  · rintro ⟨h1, h2, h3⟩ e' hm hc
    have hg := (mem_tbl h e').1 hm
    rcases hc with hc | ⟨k, hk1, hk2⟩ | ⟨k, hk1, hk2⟩
    · rw [hc, h1] at hg; cases hg
    · have := (h.ed k e'.tag).2 ⟨e', hg, hk1⟩
      have : hasOpt s.edPkToTag e.edKey = true := (hasOpt_iff _ _).2 ⟨k, _, hk2, this⟩
      rw [h2] at this; cases this
    · have := (h.x k e'.tag).2 ⟨e', hg, hk1⟩
      have : hasOpt s.xPkToTag e.xKey = true := (hasOpt_iff _ _).2 ⟨k, _, hk2, this⟩
      rw [h3] at this; cases this

/-- The in-memory store refines the write-once table. -/
theorem refines : Refines impl (fun _ => true) Ok tbl where
  empty_ok := ⟨by simp [impl, empty, AMap.Nodup], by simp [impl, empty, AMap.get],
    by simp [impl, empty, AMap.get], by simp [impl, empty, AMap.get]⟩
  empty_tbl := rfl
  write_new := by
    intro s e h _ hn
    obtain ⟨h1, h2, h3⟩ := (no_clash_iff h e).1 hn
    have hw : impl.write s e = (.ok (), ⟨s.entryByTag.insert e.tag e, putOpt s.edPkToTag e.edKey e.tag,
        putOpt s.xPkToTag e.xKey e.tag⟩) := by
      simp [impl, write, h1, h2, h3]
    rw [hw]
    refine ⟨rfl, ⟨AMap.nodup_insert h.nodup _ _, ?_, ?_, ?_⟩, ?_⟩
    · intro t e' hg
      simp only [AMap.get_insert] at hg
      split at hg
      · rename_i ht; cases hg; exact ht.symm
      · exact h.tags t e' hg
    · exact index_step h.ed h1 h2
    · exact index_step h.x h1 h3
    · simp [tbl, AMap.insert, AMap.erase_of_get_none _ _ h1, AMap.values]
  write_clash := by
    intro s e h hc
    have hnot : ¬ (s.entryByTag.get e.tag = none ∧ hasOpt s.edPkToTag e.edKey = false ∧
        hasOpt s.xPkToTag e.xKey = false) := by
      rw [← no_clash_iff h e]
      intro hn
      obtain ⟨e', hm, hcl⟩ := hc.resolve_left (by simp)
      exact hn e' hm hcl
    simp only [impl, write]
    split
    · exact ⟨⟨_, rfl⟩, rfl⟩
    · split
      · exact ⟨⟨_, rfl⟩, rfl⟩
      · split
        · exact ⟨⟨_, rfl⟩, rfl⟩
        · rename_i a b c
          exact absurd ⟨by simpa using a, by simpa using b, by simpa using c⟩ hnot
  byTag_iff := by
    intro s t e h
    simp only [impl, byTag, Res.ofOption_eq_ok]
    constructor
    · intro hg
      have := h.tags _ _ hg
      exact ⟨(mem_tbl h e).2 (by rw [this]; exact hg), this⟩
    · rintro ⟨hm, rfl⟩; exact (mem_tbl h e).1 hm
  byEd_iff := by
    intro s k e h
    simp only [impl, byEd]
    constructor
    · split
      · intro h'; cases h'
      · rename_i t ht
        rw [Res.ofOption_eq_ok]
        intro hg
        obtain ⟨e', h1, h2⟩ := (h.ed k t).1 ht
        rw [h1] at hg; cases hg
        exact ⟨(mem_tbl h _).2 (by rw [h.tags _ _ h1]; exact h1), h2⟩
    · rintro ⟨hm, hk⟩
      have hg := (mem_tbl h e).1 hm
      have := (h.ed k e.tag).2 ⟨e, hg, hk⟩
      simp [this, hg]
  byX_iff := by
    intro s k e h
    simp only [impl, byX]
    constructor
    · split
      · intro h'; cases h'
      · rename_i t ht
        rw [Res.ofOption_eq_ok]
        intro hg
        obtain ⟨e', h1, h2⟩ := (h.x k t).1 ht
        rw [h1] at hg; cases hg
        exact ⟨(mem_tbl h _).2 (by rw [h.tags _ _ h1]; exact h1), h2⟩
    · rintro ⟨hm, hk⟩
      have hg := (mem_tbl h e).1 hm
      have := (h.x k e.tag).2 ⟨e, hg, hk⟩
      simp [this, hg]
  list_perm := by
    intro s _
    refine ⟨_, rfl, ?_⟩
    unfold tbl
    exact (List.reverse_perm _).symm.map _

end MemStore
end Lair
