import Verif.Migration

/-
C43: migrating an unencrypted database never loses it.
-/
namespace Lair.Migr

-- `ρ`: what a database file contains, `empty`: what new tables contain
variable {ρ : Type} (empty : ρ)

/-- The entries are in the store file, readable with `key` (or still unencrypted). -/
def InPlace (key : B 32) (rows : ρ) (fs : Fs ρ) : Prop :=
  fs.main = some (.plain rows) ∨ fs.main = some (.enc key (some rows))

/-- The entries are in some file. -/
def Somewhere (key : B 32) (rows : ρ) (fs : Fs ρ) : Prop := InPlace key rows fs ∨ fs.tmp = some (.enc key (some rows))

/-- C43. Without a crash, migration succeeds, the server starts with exactly the old entries, and the store file is encrypted with the
    right key and nothing is left behind. -/
theorem C43_migration_keeps_entries (key : B 32) (rows : ρ) :
    let fs : Fs ρ := ⟨some (.plain rows), none⟩
    (start empty true key fs).2 = some rows ∧
      lastOr fs (start empty true key fs).1 = ⟨some (.enc key (some rows)), none⟩ := by
  simp [start, openDb, migrate, lastOr]

/-- C43. At every crash point the entries are complete in one of the two files. -/
theorem C43_entries_always_somewhere (key : B 32) (rows : ρ) (fs : Fs ρ) (h : InPlace key rows fs) (allow : Bool) (n : Nat) :
    Somewhere key rows (after empty allow key fs n) := by
  rcases fs with ⟨main, tmp⟩
  rcases h with h | h
  · simp only at h
    subst h
    cases allow with
    | false => simp [after, start, openDb, lastOr, Somewhere, InPlace]
    | true =>
      have four : ∀ a b c d : Fs ρ, ∀ f : Fs ρ, ∀ m : Nat, lastOr f ([a, b, c, d].take m) = f ∨ lastOr f ([a, b, c, d].take m) = a ∨
          lastOr f ([a, b, c, d].take m) = b ∨ lastOr f ([a, b, c, d].take m) = c ∨ lastOr f ([a, b, c, d].take m) = d := by
        intro a b c d f m
        match m with
        | 0 => simp [lastOr]
        | 1 => simp [lastOr]
        | 2 => simp [lastOr]
        | 3 => simp [lastOr]
        | m + 4 => simp [lastOr]
      have three : ∀ b c d : Fs ρ, ∀ f : Fs ρ, ∀ m : Nat, lastOr f ([b, c, d].take m) = f ∨
          lastOr f ([b, c, d].take m) = b ∨ lastOr f ([b, c, d].take m) = c ∨ lastOr f ([b, c, d].take m) = d := by
        intro b c d f m
        match m with
        | 0 => simp [lastOr]
        | 1 => simp [lastOr]
        | 2 => simp [lastOr]
        | m + 3 => simp [lastOr]
      cases tmp with
      | none =>
        have hs : (start empty true key ⟨some (.plain rows), none⟩).1 =
            [⟨some (.plain rows), some (.enc key none)⟩, ⟨some (.plain rows), some (.enc key (some rows))⟩,
              ⟨none, some (.enc key (some rows))⟩, ⟨some (.enc key (some rows)), none⟩] := by
          simp [start, openDb, migrate, lastOr]
        unfold after
        rw [hs]
        rcases four ⟨some (.plain rows), some (.enc key none)⟩ ⟨some (.plain rows), some (.enc key (some rows))⟩
          ⟨none, some (.enc key (some rows))⟩ ⟨some (.enc key (some rows)), none⟩ ⟨some (.plain rows), none⟩ n with e | e | e | e | e <;>
          (rw [e]; simp [Somewhere, InPlace])
      | some t =>
        cases t with
        | plain r => simp [after, start, openDb, migrate, lastOr, Somewhere, InPlace]
        | enc k r =>
          cases r with
          | some r => simp [after, start, openDb, migrate, lastOr, Somewhere, InPlace]
          | none =>
            by_cases hk : k = key
            · subst hk
              have hs : (start empty true k ⟨some (.plain rows), some (.enc k none)⟩).1 =
                  [⟨some (.plain rows), some (.enc k (some rows))⟩,
                    ⟨none, some (.enc k (some rows))⟩, ⟨some (.enc k (some rows)), none⟩] := by
                simp [start, openDb, migrate, lastOr]
              unfold after
              rw [hs]
              rcases three ⟨some (.plain rows), some (.enc k (some rows))⟩
                ⟨none, some (.enc k (some rows))⟩ ⟨some (.enc k (some rows)), none⟩ ⟨some (.plain rows), some (.enc k none)⟩ n with e | e | e | e <;>
                (rw [e]; simp [Somewhere, InPlace])
            · simp [after, start, openDb, migrate, lastOr, Somewhere, InPlace, hk]
  · simp only at h
    subst h
    simp [after, start, openDb, lastOr, Somewhere, InPlace]

/-- C43. A start that crashes at any point but one - right after the unencrypted file was removed - leaves the entries in the store
    file, and a later start either opens them or fails: it never opens an empty store. -/
theorem C43_recoverable_in_place_partial (key : B 32) (rows : ρ) (n : Nat) (hn : n ≠ 3) (allow : Bool) :
    let fs' := after empty true key ⟨some (.plain rows), none⟩ n
    InPlace key rows fs' ∧ ((start empty allow key fs').2 = some rows ∨ (start empty allow key fs').2 = none) := by
  have hs : (start empty true key ⟨some (.plain rows), none⟩).1 =
      [⟨some (.plain rows), some (.enc key none)⟩, ⟨some (.plain rows), some (.enc key (some rows))⟩,
        ⟨none, some (.enc key (some rows))⟩, ⟨some (.enc key (some rows)), none⟩] := by
    simp [start, openDb, migrate, lastOr]
  have hopen : ∀ (fs : Fs ρ), InPlace key rows fs → (start empty allow key fs).2 = some rows ∨ (start empty allow key fs).2 = none := by
    intro fs h
    rcases fs with ⟨main, tmp⟩
    rcases h with h | h
    · simp only at h; subst h
      cases allow with
      | false => simp [start, openDb]
      | true =>
        rcases tmp with - | (r | ⟨k, - | r⟩)
        · simp [start, openDb, migrate, lastOr]
        · simp [start, openDb, migrate]
        · by_cases hk : k = key <;> simp [start, openDb, migrate, lastOr, hk]
        · simp [start, openDb, migrate]
    · simp only at h; subst h
      simp [start, openDb]
  have hin : InPlace key rows (after empty true key ⟨some (.plain rows), none⟩ n) := by
    unfold after
    rw [hs]
    match n, hn with
    | 0, _ => simp [lastOr, InPlace]
    | 1, _ => simp [lastOr, InPlace]
    | 2, _ => simp [lastOr, InPlace]
    | n + 4, _ => simp [lastOr, InPlace]
  exact ⟨hin, hopen _ hin⟩

/-- C43. A migration interrupted before the export was complete can be repeated: the next start that is allowed to migrate succeeds with
    exactly the entries and ends with the encrypted store in place, nothing left behind. -/
theorem C43_interrupted_then_completed (key : B 32) (rows : ρ) (n : Nat) (hn : n ≤ 1) :
    let fs := after empty true key ⟨some (.plain rows), none⟩ n
    (start empty true key fs).2 = some rows ∧ lastOr fs (start empty true key fs).1 = ⟨some (.enc key (some rows)), none⟩ := by
  match n, hn with
  | 0, _ => simp [after, start, openDb, migrate, lastOr]
  | 1, _ => simp [after, start, openDb, migrate, lastOr]

/-- C43 does not hold. A crash between removing the unencrypted file and renaming the encrypted one: the next start succeeds with an
    EMPTY store, and every later start, whatever crashes happen, opens a store without the entries. -/
theorem C43_crash_loses_entries (key : B 32) (rows : ρ) (hr : rows ≠ empty) (runs : List (Bool × Nat)) (allow : Bool) :
    let fs := after empty true key ⟨some (.plain rows), none⟩ 3
    (start empty allow key fs).2 = some empty ∧
      ¬ InPlace key rows (runs.foldl (fun fs r => after empty r.1 key fs r.2) fs) ∧
      (start empty allow key (runs.foldl (fun fs r => after empty r.1 key fs r.2) fs)).2 = some empty := by
  have h0 : after empty true key ⟨some (.plain rows), none⟩ 3 = ⟨none, some (.enc key (some rows))⟩ := by
    simp [after, start, openDb, migrate, lastOr]
  have inv : ∀ (runs : List (Bool × Nat)) (fs : Fs ρ), (fs.main = none ∨ fs.main = some (.enc key none) ∨ fs.main = some (.enc key (some empty))) →
      let fs' := runs.foldl (fun fs r => after empty r.1 key fs r.2) fs
      (fs'.main = none ∨ fs'.main = some (.enc key none) ∨ fs'.main = some (.enc key (some empty))) := by
    intro runs
    induction runs with
    | nil => intro fs h; exact h
    | cons r rs ih =>
      intro fs h
      apply ih
      rcases fs with ⟨main, tmp⟩
      rcases h with h | h | h <;> (simp only at h; subst h)
      · have hs : (start empty r.1 key ⟨none, tmp⟩).1 = [⟨some (.enc key none), tmp⟩, ⟨some (.enc key (some empty)), tmp⟩] := by
          simp [start, openDb]
        simp only [after, hs]
        match r.2 with
        | 0 => simp [lastOr]
        | 1 => simp [lastOr]
        | m + 2 => simp [lastOr]
      · have hs : (start empty r.1 key ⟨some (.enc key none), tmp⟩).1 = [⟨some (.enc key (some empty)), tmp⟩] := by
          simp [start, openDb]
        simp only [after, hs]
        match r.2 with
        | 0 => simp [lastOr]
        | m + 1 => simp [lastOr]
      · simp [after, start, openDb, lastOr]
  have hempty : ∀ fs : Fs ρ, (fs.main = none ∨ fs.main = some (.enc key none) ∨ fs.main = some (.enc key (some empty))) →
      (start empty allow key fs).2 = some empty ∧ ¬ InPlace key rows fs := by
    intro fs h
    rcases fs with ⟨main, tmp⟩
    rcases h with h | h | h <;> (simp only at h; subst h)
    · simp [start, openDb, InPlace]
    · simp [start, openDb, InPlace]
    · simp [start, openDb, InPlace, Ne.symm hr]
  intro fs
  have hfs : fs = ⟨none, some (.enc key (some rows))⟩ := h0
  refine ⟨(hempty fs (by rw [hfs]; exact Or.inl rfl)).1, ?_⟩
  have hi := hempty _ (inv runs fs (by rw [hfs]; exact Or.inl rfl))
  exact ⟨hi.2, hi.1⟩

/-- C43 does not hold. A crash between the export and removing the unencrypted file: every later start fails, because the export finds
    the tables in the left-over file. -/
theorem C43_crash_blocks_later_migration (key : B 32) (rows : ρ) (runs : List (Bool × Nat)) (allow : Bool) :
    let fs := after empty true key ⟨some (.plain rows), none⟩ 2
    (start empty allow key (runs.foldl (fun fs r => after empty r.1 key fs r.2) fs)).2 = none := by
  have h0 : after empty true key ⟨some (.plain rows), none⟩ 2 = ⟨some (.plain rows), some (.enc key (some rows))⟩ := by
    simp [after, start, openDb, migrate, lastOr]
  have hstay : ∀ a n, after empty a key ⟨some (.plain rows), some (.enc key (some rows))⟩ n = ⟨some (.plain rows), some (.enc key (some rows))⟩ := by
    intro a n
    cases a <;> simp [after, start, openDb, migrate, lastOr]
  have hfold : ∀ runs : List (Bool × Nat), runs.foldl (fun fs r => after empty r.1 key fs r.2) ⟨some (.plain rows), some (.enc key (some rows))⟩ =
      ⟨some (.plain rows), some (.enc key (some rows))⟩ := by
    intro runs
    induction runs with
    | nil => rfl
    | cons r rs ih => simp only [List.foldl_cons, hstay, ih]
  intro fs
  have : fs = ⟨some (.plain rows), some (.enc key (some rows))⟩ := h0
  rw [this, hfold]
  cases allow <;> simp [start, openDb, migrate]

/-- C43. A start with another key fails and changes no file, with and without permission to migrate. -/
theorem C43_wrong_key_changes_nothing (key key' : B 32) (hk : key' ≠ key) (rows : Option ρ) (tmp : Option (Db ρ)) (allow : Bool) (n : Nat) :
    let fs : Fs ρ := ⟨some (.enc key rows), tmp⟩
    (start empty allow key' fs).2 = none ∧ after empty allow key' fs n = fs := by
  cases allow <;> simp [start, openDb, migrate, after, lastOr, Ne.symm hk]

/-- C43. An unencrypted store is refused and untouched unless migration is asked for. -/
theorem C43_plain_refused_unless_asked (key : B 32) (rows : ρ) (tmp : Option (Db ρ)) (n : Nat) :
    let fs : Fs ρ := ⟨some (.plain rows), tmp⟩
    (start empty false key fs).2 = none ∧ after empty false key fs n = fs := by
  simp [start, openDb, after, lastOr]

/-- An already encrypted store opens with its entries and is not changed. -/
theorem C43_encrypted_store_opens (key : B 32) (rows : ρ) (tmp : Option (Db ρ)) (allow : Bool) (n : Nat) :
    let fs : Fs ρ := ⟨some (.enc key (some rows)), tmp⟩
    (start empty allow key fs).2 = some rows ∧ after empty allow key fs n = fs := by
  cases allow <;> simp [start, openDb, after, lastOr]

example : let e : Entry := .cert "t" ⟨"s", B.fill 32 1, [1]⟩ ⟨B.fill 24 0, [2]⟩
    InPlace (B.fill 32 7) [e] ⟨some (.plain [e]), none⟩ ∧ [e] ≠ [] ∧
      (start ([] : List Entry) true (B.fill 32 7) (after [] true (B.fill 32 7) ⟨some (.plain [e]), none⟩ 3)).2 = some [] := by
  refine ⟨Or.inl rfl, by simp, by decide +kernel⟩

end Lair.Migr
