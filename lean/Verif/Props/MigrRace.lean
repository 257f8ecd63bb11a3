import Verif.MigrRaceLemmas

/-
C43 with several processes at once: what happens if a second process opens the store while one is migrating it. The pid file does not
prevent that (C42), and an in-process keystore (`in_proc_keystore.rs`) has none.
-/
namespace Lair.MigrRace

variable {α : Type}

/-- No process stops or fails from outside. -/
def NoStop (evs : List (Evt α)) : Prop := ∀ p, Evt.stop p ∉ evs

/-- The entries inserted in a history. -/
def Inserted (evs : List (Evt α)) (a : α) : Prop := ∃ p, Evt.insert p a ∈ evs

/-- Process `p` has opened the store. -/
def IsUp (s : St α) (p : Nat) : Prop := ∃ q i, s.procs[p]? = some q ∧ q.phase = .up i

/-- The run of `C43_two_migrations_lose_everything`. -/
def lossRun : List (Evt α) :=
  [.launch true, .launch true, .step 0, .step 1, .step 0, .step 0, .step 0, .step 0, .step 0, .step 1, .step 0, .step 1, .step 1,
    .step 1, .step 1, .step 1, .step 1, .step 1, .step 0, .step 0]

theorem lossRun_end (rows : List α) : (St.init rows).run lossRun =
    ⟨[.plain rows, .enc rows, .blank, .enc []], some 3, none, [⟨true, .up 3⟩, ⟨true, .up 3⟩], []⟩ := by
  simp [lossRun, St.run, St.next, St.advance, St.connect, St.openMain, St.openTmp, St.file, St.goto, Phase.holds, St.init]

/-- The run of `C43_second_migration_loses_new_entry`. -/
def overwriteRun (a : α) : List (Evt α) :=
  [.launch true, .launch true, .step 0, .step 1, .step 0, .step 1, .step 0, .step 0, .step 0, .step 0, .step 0, .step 0, .step 0,
    .insert 0 a, .stop 0, .step 1, .step 1, .step 1, .step 1, .step 1, .step 1, .step 1]

theorem overwriteRun_end (rows : List α) (a : α) : (St.init rows).run (overwriteRun a) =
    ⟨[.plain rows, .enc (rows ++ [a]), .enc rows], some 2, none, [⟨true, .over⟩, ⟨true, .up 2⟩], [a]⟩ := by
  simp [overwriteRun, St.run, St.next, St.advance, St.connect, St.openMain, St.openTmp, St.file, St.goto, Phase.holds, St.init]

/-- The run of `C43_start_during_migration_loses_entries`. -/
def gapRun (a : α) : List (Evt α) :=
  [.launch true, .launch false, .step 0, .step 0, .step 0, .step 0, .step 0, .step 0, .step 1, .step 1, .insert 1 a,
    .step 0, .step 0, .step 0]

theorem gapRun_end (rows : List α) (a : α) : (St.init rows).run (gapRun a) =
    ⟨[.plain rows, .enc rows, .enc [a]], some 1, none, [⟨true, .up 1⟩, ⟨false, .up 2⟩], [a]⟩ := by
  simp [gapRun, St.run, St.next, St.advance, St.connect, St.openMain, St.openTmp, St.file, St.goto, Phase.holds, St.init]

/-- C43 does not hold. Two processes start at the same time on an unencrypted store, both asked to migrate it. No crash, no failure:
    both start successfully, and all entries are gone for good - whatever happens afterwards, the store never contains
    anything but what is inserted then. (The second one opens the store file between the removal and the renaming by the first,
    which creates an empty one; exports that; and then removes what the first has made.) -/
theorem C43_two_migrations_lose_everything (rows : List α) :
    ∃ evs : List (Evt α), NoStop evs ∧ (∀ a, ¬ Inserted evs a) ∧ IsUp ((St.init rows).run evs) 0 ∧ IsUp ((St.init rows).run evs) 1 ∧
      ∀ more, ∀ a ∈ ((St.init rows).run (evs ++ more)).stored, Inserted more a := by
  refine ⟨lossRun, by simp [NoStop, lossRun], by simp [Inserted, lossRun], ?_, ?_, fun more => ?_⟩
  · rw [lossRun_end]; exact ⟨_, 3, rfl, rfl⟩
  · rw [lossRun_end]; exact ⟨_, 3, rfl, rfl⟩
  · rw [run_append, lossRun_end]
    refine (Done.run (P := Inserted more) (rows := []) more ⟨⟨3, [], rfl, by simp, rfl, by simp, by simp⟩, ?_⟩
      (fun p a h => ⟨p, h⟩)).stored.2
    intro p q hq
    match p with
    | 0 => cases hq; rfl
    | 1 => cases hq; rfl
    | n + 2 => cases hq

/-- C43 does not hold. The first of two processes that start at the same time has finished migrating; it inserts an entry, reports
    success and ends. The second then replaces the store by its own copy: the old entries are there, the new one is lost for good. -/
theorem C43_second_migration_loses_new_entry (rows : List α) (a : α) (ha : a ∉ rows) :
    ∃ evs : List (Evt α), IsUp ((St.init rows).run evs) 1 ∧ a ∈ ((St.init rows).run evs).acked ∧
      ∀ more, ¬ Inserted more a → rows <+: ((St.init rows).run (evs ++ more)).stored ∧ a ∉ ((St.init rows).run (evs ++ more)).stored := by
  refine ⟨overwriteRun a, ?_, ?_, fun more hm => ?_⟩
  · rw [overwriteRun_end]; exact ⟨_, 2, rfl, rfl⟩
  · rw [overwriteRun_end]; simp
  · rw [run_append, overwriteRun_end]
    have := (Done.run (P := fun b => b ∈ rows ∨ Inserted more b) (rows := rows) more (s := ⟨[.plain rows, .enc (rows ++ [a]), .enc rows], some 2, none, [⟨true, .over⟩, ⟨true, .up 2⟩], [a]⟩)
      ⟨⟨2, rows, rfl, by simp, rfl, List.prefix_refl _, fun b hb => Or.inl hb⟩, by
        intro p q hq
        match p with
        | 0 => cases hq; rfl
        | 1 => cases hq; rfl
        | n + 2 => cases hq⟩ (fun p b h => Or.inr ⟨p, h⟩)).stored
    exact ⟨this.1, fun h => (this.2 a h).elim ha hm⟩

/-- C43 does not hold. A process that opens the store just while another is replacing it - and is not asked to migrate - is given an
    empty store; what it inserts and reports as stored is lost. -/
theorem C43_start_during_migration_loses_entries (rows : List α) (a : α) (ha : a ∉ rows) :
    ∃ evs : List (Evt α), NoStop evs ∧ IsUp ((St.init rows).run evs) 0 ∧ IsUp ((St.init rows).run evs) 1 ∧ a ∈ ((St.init rows).run evs).acked ∧
      ∀ more, ¬ Inserted more a → rows <+: ((St.init rows).run (evs ++ more)).stored ∧ a ∉ ((St.init rows).run (evs ++ more)).stored := by
  refine ⟨gapRun a, by simp [NoStop, gapRun], ?_, ?_, ?_, fun more hm => ?_⟩
  · rw [gapRun_end]; exact ⟨_, 1, rfl, rfl⟩
  · rw [gapRun_end]; exact ⟨_, 2, rfl, rfl⟩
  · rw [gapRun_end]; simp
  · rw [run_append, gapRun_end]
    have := (Done.run (P := fun b => b ∈ rows ∨ Inserted more b) (rows := rows) more (s := ⟨[.plain rows, .enc rows, .enc [a]], some 1, none, [⟨true, .up 1⟩, ⟨false, .up 2⟩], [a]⟩)
      ⟨⟨1, rows, rfl, by simp, rfl, List.prefix_refl _, fun b hb => Or.inl hb⟩, by
        intro p q hq
        match p with
        | 0 => cases hq; rfl
        | 1 => cases hq; rfl
        | n + 2 => cases hq⟩ (fun p b h => Or.inr ⟨p, h⟩)).stored
    exact ⟨this.1, fun h => (this.2 a h).elim ha hm⟩

theorem stage_run {rows : List α} : ∀ (evs : List (Evt α)) (s : St α), Stage rows s → AtMostOne s → AllOrderly s evs → Stage rows (s.run evs)
  | [], _, h, _, _ => h
  | ev :: evs, s, h, hu, ho => by
    simp only [St.run, List.foldl_cons]
    exact stage_run evs (s.next ev) (h.next hu ev ho.1) (hu.next ev (fun e => by subst e; exact ho.1)) ho.2

/-- C43 (partial), with any number of processes. As long as those that are asked to migrate start one after the other and do not stop
    halfway, the old entries are in the store, before, during and after the migration, whatever other processes do, stop or
    insert: at every moment except between the removal of the old store file and the renaming of the new one. Missing: without
    that condition it is false, see `C43_two_migrations_lose_everything`; and entries that others insert at that one moment are
    lost, see `C43_start_during_migration_loses_entries`. -/
theorem C43_migrations_in_turn_partial (rows : List α) (evs : List (Evt α)) (ho : AllOrderly (St.init rows) evs)
    (hr : ∀ q ∈ ((St.init rows).run evs).procs, q.phase ≠ .removed) : rows <+: ((St.init rows).run evs).stored := by
  have := stage_run evs (St.init rows) (.before rfl rfl (by simp [St.init]) (by simp [St.init])) (by simp [AtMostOne, St.init]) ho
  cases this with
  | before h1 h2 _ _ => simp [St.stored, h1, file_of h2]
  | exported j l h1 h2 _ _ _ _ _ => simp [St.stored, h1, file_of h2]
  | removed j l _ _ _ _ _ h7 =>
    obtain ⟨p, q, hq, e⟩ := h7
    exact absurd e (hr q (List.mem_of_getElem? hq))
  | over h => exact h.stored.1

-- the hypotheses are met by a run in which one process migrates, another that is not asked to starts in between, inserts and is stopped,
-- and later a second one that is asked to starts and inserts
example : let evs : List (Evt Nat) := gapRun 7 ++ [.stop 1, .launch true, .step 2, .step 2, .insert 2 8]
    AllOrderly (St.init [1, 2]) evs ∧ (∀ q ∈ ((St.init [1, 2]).run evs).procs, q.phase ≠ .removed) ∧
      ((St.init [1, 2]).run evs).stored = [1, 2, 8] ∧ ((St.init [1, 2]).run evs).acked = [7, 8] := by
  refine ⟨?_, by decide, by decide, by decide⟩
  simp [gapRun, AllOrderly, Orderly, Proc.migrating, St.next, St.advance, St.connect, St.openMain, St.openTmp, St.file, St.goto, Phase.holds, St.init]

-- the losses happen with concrete entries
example : ((St.init [1, 2]).run (lossRun ++ [.insert 1 5])).stored = [5] := by decide
example : ((St.init [1, 2]).run (overwriteRun 7)).stored = [1, 2] := by decide

theorem kept_run {rows : List α} : ∀ (evs : List (Evt α)) (s : St α), Kept rows s → AtMostOne s → InTurn s evs → Kept rows (s.run evs)
  | [], _, h, _, _ => h
  | ev :: evs, s, h, hu, ho => by
    simp only [St.run, List.foldl_cons]
    exact kept_run evs (s.next ev) (h.next hu ev) (hu.next ev ho.1) ho.2

/-- C43. If those that are asked to migrate do not start at the same time, the old entries are at every moment complete in the store file
    or in the temporary file, whoever stops or crashes, wherever, and whatever the others do. -/
theorem C43_never_gone_from_disk (rows : List α) (evs : List (Evt α)) (ho : InTurn (St.init rows) evs) :
    ∃ i, (((St.init rows).run evs).main = some i ∨ ((St.init rows).run evs).tmp = some i) ∧ ((St.init rows).run evs).has i rows := by
  have := kept_run evs (St.init rows) (.old rfl rfl (by simp [St.init]) (by simp [St.init])) (by simp [AtMostOne, St.init]) ho
  cases this with
  | old h1 h2 _ _ => exact ⟨0, Or.inl h1, Or.inl (file_of h2)⟩
  | gap j l h3 h4 h5 _ _ =>
    obtain ⟨t, ht⟩ := h5
    exact ⟨j, Or.inr h3, Or.inr ⟨t, by rw [file_of h4, ht]⟩⟩
  | new h =>
    obtain ⟨i, l, h1, _, h3, ⟨t, ht⟩, _⟩ := h.ex
    exact ⟨i, Or.inl h1, Or.inr ⟨t, by rw [h3, ht]⟩⟩

-- a run with two crashed migrations and a third process; the entries are in the temporary file only
example : let evs : List (Evt Nat) := [.launch true, .step 0, .step 0, .step 0, .step 0, .stop 0, .launch true, .step 1, .step 1, .step 1,
      .step 1, .step 1, .step 1, .stop 1, .launch true, .step 2, .step 2, .insert 2 9]
    InTurn (St.init [1, 2]) evs ∧ ((St.init [1, 2]).run evs).stored = [9] ∧ ((St.init [1, 2]).run evs).tmp = some 1 ∧
      ((St.init [1, 2]).run evs).file 1 = .enc [1, 2] := by
  refine ⟨?_, by decide, by decide, by decide⟩
  simp [InTurn, Proc.migrating, St.next, St.advance, St.connect, St.openMain, St.openTmp, St.file, St.goto, Phase.holds, St.init]


/-- The process is in the middle of `encrypt_unencrypted_database`, between taking the exclusive lock of file `i` and giving it back. -/
def Proc.hasLock (q : Proc) (i : Nat) : Prop := q.phase = .locked i ∨ ∃ j, q.phase = .attached i j

/-- No two processes have the lock of one file. -/
def LockExcl (s : St α) : Prop := ∀ (p p' : Nat) (q q' : Proc) (i : Nat), s.procs[p]? = some q → s.procs[p']? = some q' → q.hasLock i →
  q'.hasLock i → p = p'

theorem holds_iff {q : Proc} {i : Nat} : q.phase.holds i = true ↔ q.hasLock i := by
  unfold Proc.hasLock
  cases h : q.phase <;> simp [Phase.holds]

theorem goto_get (s : St α) (p : Nat) (ph : Phase) (p' : Nat) : (s.goto p ph).procs[p']? =
    (s.procs[p']?).map (fun q => if p = p' then { q with phase := ph } else q) := by
  simp only [St.goto, List.getElem?_modify]
  by_cases h : p = p' <;> cases s.procs[p']? <;> simp [h]

/-- Going on to a phase `ph` keeps it if every lock `ph` has was had before, or nobody has it. -/
theorem lockExcl_goto {s : St α} (h : LockExcl s) {p : Nat} {q : Proc} (hq : s.procs[p]? = some q) {ph : Phase}
    (hph : ∀ i, ph.holds i = true → q.hasLock i ∨ ∀ r ∈ s.procs, ¬ r.hasLock i) : LockExcl (s.goto p ph) := by
  intro a b qa qb i ha hb hla hlb
  rw [goto_get] at ha hb
  obtain ⟨ra, hra, ea⟩ := Option.map_eq_some_iff.mp ha
  obtain ⟨rb, hrb, eb⟩ := Option.map_eq_some_iff.mp hb
  by_cases h1 : p = a <;> by_cases h2 : p = b
  · exact h1.symm.trans h2
  · subst h1
    rw [hq] at hra; cases hra
    simp only [if_true] at ea
    simp only [h2, if_false] at eb
    subst ea eb
    rcases hph i (holds_iff.mpr hla) with h3 | h3
    · exact h p b q rb i hq hrb h3 hlb
    · exact absurd hlb (h3 rb (List.mem_of_getElem? hrb))
  · subst h2
    rw [hq] at hrb; cases hrb
    simp only [if_true] at eb
    simp only [h1, if_false] at ea
    subst ea eb
    rcases hph i (holds_iff.mpr hlb) with h3 | h3
    · exact h a p ra q i hra hq hla h3
    · exact absurd hla (h3 ra (List.mem_of_getElem? hra))
  · simp only [h1, if_false] at ea
    simp only [h2, if_false] at eb
    subst ea eb
    exact h a b ra rb i hra hrb hla hlb

theorem lockExcl_congr {s t : St α} (hp : t.procs = s.procs) (h : LockExcl s) : LockExcl t := by unfold LockExcl at *; rw [hp]; exact h

theorem lockExcl_next (s : St α) (h : LockExcl s) (e : Evt α) : LockExcl (s.next e) := by
  cases e with
  | launch allow =>
    intro a b qa qb i ha hb hla hlb
    have aux : ∀ (a : Nat) (qa : Proc), (s.procs ++ [(⟨allow, .fresh⟩ : Proc)])[a]? = some qa → qa.hasLock i → s.procs[a]? = some qa := by
      intro a qa ha hl
      rw [List.getElem?_append] at ha
      split at ha
      · exact ha
      · have := List.mem_of_getElem? ha
        simp only [List.mem_singleton] at this
        subst this
        simp [Proc.hasLock] at hl
    exact h a b qa qb i (aux a qa ha hla) (aux b qb hb hlb) hla hlb
  | stop p =>
    cases hq : s.procs[p]? with
    | some q => exact lockExcl_goto h hq (by simp [Phase.holds])
    | none =>
      refine lockExcl_congr (s := s) ?_ h
      simp only [St.next, St.goto]
      rw [List.modify_eq_self]
      exact List.getElem?_eq_none_iff.mp hq
  | insert p a =>
    simp only [St.next]
    split
    · split
      · exact lockExcl_congr rfl h
      · exact h
    · exact h
  | step p =>
    simp only [St.next]
    split
    · rename_i q hq
      have main : ∀ (t : St α) (ph : Phase), t.procs = s.procs → (∀ i, ph.holds i = true → q.hasLock i ∨ ∀ r ∈ s.procs, ¬ r.hasLock i) →
          LockExcl (t.goto p ph) := by
        intro t ph hp hph
        exact lockExcl_goto (lockExcl_congr hp h) (by rw [hp]; exact hq) (by rw [hp]; exact hph)
      have conn : ∀ ph : Phase, (∀ i, ph.holds i = false) → LockExcl (s.connect p ph) := by
        intro ph hph
        unfold St.connect
        split
        rename_i s' i hs
        have hp : s'.procs = s.procs := by have := openMain_procs s; rw [hs] at this; exact this
        split
        · exact main _ _ hp (fun i hi => by rw [hph] at hi; cases hi)
        · exact main _ _ hp (by simp [Phase.holds])
      unfold St.advance
      split
      · exact conn _ (by intro i; split <;> rfl)
      · split
        rename_i s' i hs
        have hp : s'.procs = s.procs := by have := openMain_procs s; rw [hs] at this; exact this
        split <;> exact main _ _ hp (by simp [Phase.holds])
      · rename_i i hph
        split
        · exact main _ _ rfl (by simp [Phase.holds])
        · split
          · exact h
          · rename_i hno
            refine main _ _ rfl ?_
            intro k hk
            simp only [Phase.holds, beq_iff_eq] at hk
            subst hk
            right
            intro r hr hl
            exact hno (List.any_eq_true.mpr ⟨r, hr, holds_iff.mpr hl⟩)
      · rename_i i hph
        split
        rename_i s' j hs
        have hp : s'.procs = s.procs := by have := openTmp_procs s; rw [hs] at this; exact this
        split
        · exact main _ _ hp (by simp [Phase.holds])
        · refine main _ _ hp ?_
          intro k hk
          simp only [Phase.holds, beq_iff_eq] at hk
          subst hk
          exact Or.inl (Or.inl hph)
      · split
        · exact main _ _ rfl (by simp [Phase.holds])
        · exact main _ _ rfl (by simp [Phase.holds])
        · exact main _ _ rfl (by simp [Phase.holds])
      · split
        · exact main _ _ rfl (by simp [Phase.holds])
        · exact main _ _ rfl (by simp [Phase.holds])
      · split
        · exact main _ _ rfl (by simp [Phase.holds])
        · exact main _ _ rfl (by simp [Phase.holds])
      · exact conn _ (by intro i; rfl)
      · split
        · exact main _ _ rfl (by simp [Phase.holds])
        · exact main _ _ rfl (by simp [Phase.holds])
        · exact main _ _ rfl (by simp [Phase.holds])
      · exact h
      · exact h
    · exact h

/-- **C43** At no time are two processes at work on exporting the same store file: what is between `BEGIN EXCLUSIVE` and the end of the
    export belongs to one process at a time, however many are started and however their steps mix. (That is why the losses above
    need a second process that goes on *after* the first one's export.) -/
theorem C43_export_exclusive (rows : List α) (evs : List (Evt α)) (p p' : Nat) (q q' : Proc) (i : Nat)
    (hp : ((St.init rows).run evs).procs[p]? = some q) (hp' : ((St.init rows).run evs).procs[p']? = some q')
    (hl : q.phase = .locked i ∨ ∃ j, q.phase = .attached i j) (hl' : q'.phase = .locked i ∨ ∃ j, q'.phase = .attached i j) : p = p' := by
  have : ∀ (evs : List (Evt α)) (s : St α), LockExcl s → LockExcl (s.run evs) := by
    intro evs
    induction evs with
    | nil => exact fun s h => h
    | cons e evs ih => exact fun s h => ih _ (lockExcl_next s h e)
  exact this evs _ (by intro a b qa qb i ha; simp [St.init] at ha) p p' q q' i hp hp' hl hl'

-- two processes that both want to migrate: one has the lock, the other waits for it
example : ((St.init [1]).run [.launch true, .launch true, .step 0, .step 1, .step 0, .step 1, .step 0, .step 1, .step 0, .step 1]).procs.map
    (·.phase) = [Phase.attached 0 1, .vacuumed 0] := by decide

end Lair.MigrRace
