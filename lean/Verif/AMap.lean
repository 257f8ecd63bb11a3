/-
A finite map as an association list: the model of `std::collections::HashMap` (keys unique, iteration order unspecified).
-/
namespace Lair

/-- An association list: a Rust `HashMap` (e.g. mem_store.rs:44-53) with no claim about its order. -/
abbrev AMap (α β : Type) := List (α × β)

namespace AMap
variable {α β : Type} [DecidableEq α]

/-- `HashMap::get`. std `HashMap`, as used at mem_store.rs:44-53, async_io.rs:93-98. -/
def get (m : AMap α β) (k : α) : Option β :=
  match m with
  | [] => none
  | (k', v) :: rest => if k' = k then some v else get rest k

/-- `HashMap::remove`, the remaining map. std `HashMap`, as used at mem_store.rs:44-53, async_io.rs:93-98. -/
def erase (m : AMap α β) (k : α) : AMap α β := m.filter (fun p => p.1 ≠ k)

/-- `HashMap::insert` (replaces an existing value).
    std `HashMap`, as used at mem_store.rs:44-53, async_io.rs:93-98. -/
def insert (m : AMap α β) (k : α) (v : β) : AMap α β := (k, v) :: erase m k

/-- `HashMap::values`. std `HashMap`, as used at mem_store.rs:44-53, async_io.rs:93-98. -/
def values (m : AMap α β) : List β := m.map Prod.snd

theorem get_erase_self (m : AMap α β) (k : α) : get (erase m k) k = none := by
  induction m with
  | nil => rfl
  | cons p rest ih =>
    obtain ⟨k', v⟩ := p
    unfold erase at ih ⊢
    by_cases h : k' = k
    · simp [h]; simpa using ih
    · simp [h, get]; simpa using ih

theorem get_erase_ne (m : AMap α β) {k k' : α} (h : k' ≠ k) : get (erase m k) k' = get m k' := by
  induction m with
  | nil => rfl
  | cons p rest ih =>
    obtain ⟨k2, v⟩ := p
    unfold erase at ih ⊢
    by_cases h2 : k2 = k
    · subst h2; simp [get, Ne.symm h]; simpa using ih
    · simp [h2, get]
      split
      · rfl
      · simpa using ih

@[simp] theorem get_insert_self (m : AMap α β) (k : α) (v : β) : get (insert m k v) k = some v := by
  simp [insert, get]

theorem get_insert_ne (m : AMap α β) {k k' : α} (v : β) (h : k' ≠ k) : get (insert m k v) k' = get m k' := by
  simp [insert, get, Ne.symm h, get_erase_ne m h]

theorem get_insert (m : AMap α β) (k k' : α) (v : β) :
    get (insert m k v) k' = if k' = k then some v else get m k' := by
  by_cases h : k' = k
  · subst h; simp
  · simp [h, get_insert_ne m v h]

theorem erase_of_get_none (m : AMap α β) (k : α) (h : get m k = none) : erase m k = m := by
  induction m with
  | nil => rfl
  | cons p rest ih =>
    obtain ⟨k', v⟩ := p
    by_cases h2 : k' = k
    · simp [get, h2] at h
    · simp [get, h2] at h
      have := ih h
      unfold erase at *
      simp [h2]; simpa using this

/-- Keys are unique. Specification: nothing in the code corresponds. -/
def Nodup (m : AMap α β) : Prop := (m.map Prod.fst).Nodup

theorem mem_of_get {m : AMap α β} {k : α} {v : β} (h : get m k = some v) : (k, v) ∈ m := by
  induction m with
  | nil => simp [get] at h
  | cons p rest ih =>
    obtain ⟨k', v'⟩ := p
    unfold get at h
    split at h
    · rename_i hk; cases hk; cases h; simp
    · exact List.mem_cons_of_mem _ (ih h)

theorem get_of_mem {m : AMap α β} (hn : Nodup m) {k : α} {v : β} (h : (k, v) ∈ m) : get m k = some v := by
  induction m with
  | nil => cases h
  | cons p rest ih =>
    obtain ⟨k', v'⟩ := p
    unfold Nodup at hn ih
    rw [List.map_cons, List.nodup_cons] at hn
    rcases List.mem_cons.mp h with h | h
    · cases h; simp [get]
    · have hk : k' ≠ k := by
        rintro rfl
        exact hn.1 (List.mem_map.2 ⟨_, h, rfl⟩)
      simp [get, hk, ih hn.2 h]

theorem nodup_erase {m : AMap α β} (hn : Nodup m) (k : α) : Nodup (erase m k) := by
  unfold Nodup erase at *
  exact (List.filter_sublist.map _).nodup hn

theorem nodup_insert {m : AMap α β} (hn : Nodup m) (k : α) (v : β) : Nodup (insert m k v) := by
  have := nodup_erase hn k
  unfold Nodup insert at *
  rw [List.map_cons, List.nodup_cons]
  refine ⟨?_, this⟩
  intro h
  rw [List.mem_map] at h
  obtain ⟨p, hp, hpk⟩ := h
  simp [erase] at hp
  exact hp.2 hpk

end AMap
end Lair
