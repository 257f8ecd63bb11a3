import Verif.Basic

/-
`lru::LruCache` (crate `lru`), the three caches of the server (priv_srv.rs:25-28, 122-134):
a list of (key, value), most recently used first, of at most `cap` elements.
-/
namespace Lair

/-- The `lru::LruCache` of priv_srv.rs:25-28: most recently used first. -/
abbrev Lru (κ ν : Type) := List (κ × ν)

namespace Lru
variable {κ ν : Type} [DecidableEq κ]

/-- All elements but those with key `k`. The lru crate, as used at priv_srv.rs:25-28 and in priv_api.rs. -/
def remove (c : Lru κ ν) (k : κ) : Lru κ ν := c.filter (fun p => p.1 ≠ k)

/-- The value of key `k`. The lru crate, as used at priv_srv.rs:25-28 and in priv_api.rs. -/
def peek (c : Lru κ ν) (k : κ) : Option ν := (c.find? (fun p => p.1 = k)).map Prod.snd

/-- `LruCache::get`: the value, and the cache with that element moved to the front.
    The lru crate, as used at priv_srv.rs:25-28 and in priv_api.rs. -/
def get (c : Lru κ ν) (k : κ) : Option ν × Lru κ ν :=
  match c.find? (fun p => p.1 = k) with
  | some p => (some p.2, p :: remove c k)
  | none => (none, c)

/-- `LruCache::put` with capacity `cap`: insert or replace in front, dropping the least recently used element.
    The lru crate, as used at priv_srv.rs:25-28 and in priv_api.rs. -/
def put (cap : Nat) (c : Lru κ ν) (k : κ) (v : ν) : Lru κ ν := ((k, v) :: remove c k).take cap

theorem mem_remove {c : Lru κ ν} {k : κ} {p : κ × ν} (h : p ∈ remove c k) : p ∈ c := (List.mem_filter.1 h).1

theorem get_fst {c : Lru κ ν} {k : κ} {v : ν} (h : (get c k).1 = some v) : (k, v) ∈ c := by
  unfold get at h
  split at h
  · rename_i p hp
    have h1 := List.mem_of_find?_eq_some hp
    have h2 := List.find?_some hp
    simp at h2 h
    subst h2; subst h; exact h1
  · cases h

theorem mem_get {c : Lru κ ν} {k : κ} {p : κ × ν} (h : p ∈ (get c k).2) : p ∈ c := by
  unfold get at h
  split at h
  · rename_i q hq
    rcases List.mem_cons.1 h with rfl | h
    · exact List.mem_of_find?_eq_some hq
    · exact mem_remove h
  · exact h

theorem get_length (c : Lru κ ν) (k : κ) : (get c k).2.length ≤ c.length := by
  unfold get
  split
  · rename_i q hq
    have h1 := List.mem_of_find?_eq_some hq
    have h2 := List.find?_some hq
    simp only [List.length_cons, remove]
    have : (c.filter (fun p => decide (p.1 ≠ k))).length < c.length := by
      rw [List.length_filter_lt_length_iff_exists]
      exact ⟨q, h1, by simpa using h2⟩
    omega
  · exact Nat.le_refl _

theorem mem_put {cap : Nat} {c : Lru κ ν} {k : κ} {v : ν} {p : κ × ν} (h : p ∈ put cap c k v) : p = (k, v) ∨ p ∈ c := by
  have := List.mem_of_mem_take h
  rcases List.mem_cons.1 this with h | h
  · exact Or.inl h
  · exact Or.inr (mem_remove h)

theorem put_length (cap : Nat) (c : Lru κ ν) (k : κ) (v : ν) : (put cap c k v).length ≤ cap := by
  unfold put
  exact Nat.le_trans (by rw [List.length_take]; exact Nat.min_le_left _ _) (Nat.le_refl _)

end Lru
end Lair
