import Verif.Durable
import Verif.Props.Entries
import Verif.Props.Init

/-
C77: what survives a power failure.
-/
namespace Lair.Power

variable {E : Env} {st : SqlStore} {level : Nat}

/-- The entries of the keystore. -/
def St.entries (s : St E) : List Entry := s.sys.entries

theorem entries_eq (s : St E) : s.entries = SqlStore.tbl s.store := rfl

/-- Every row of a good table is an entry. -/
theorem filterMap_take {α β : Type} (f : α → Option β) (l : List α) (h : ∀ a ∈ l, (f a).isSome = true) (n : Nat) :
    (l.take n).filterMap f = (l.filterMap f).take n ∧ (l.filterMap f).length = l.length := by
  induction l generalizing n with
  | nil => simp
  | cons a l ih =>
    obtain ⟨b, hb⟩ := Option.isSome_iff_exists.1 (h a (by simp))
    have ih' := ih (fun x hx => h x (by simp [hx]))
    cases n with
    | zero => simp [hb, (ih' 0).2]
    | succ n => simp [hb, (ih' n).1, (ih' n).2]

theorem row_some {s : SqlStore} (h : SqlStore.Ok s) : ∀ r ∈ s.rows, (Codec.decodeEntry r.data).isSome = true := by
  intro r hr
  obtain ⟨e, he⟩ := h.rows r hr
  simp [he.1]

theorem tbl_cut {s : SqlStore} (h : SqlStore.Ok s) (n : Nat) : SqlStore.tbl (cut s n) = (SqlStore.tbl s).take n :=
  (filterMap_take _ s.rows (row_some h) n).1

theorem tbl_length {s : SqlStore} (h : SqlStore.Ok s) : (SqlStore.tbl s).length = s.rows.length :=
  (filterMap_take _ s.rows (row_some h) 0).2

theorem good_cut (h : GoodStore (sqlEnv E) st) (n : Nat) : GoodStore (sqlEnv E) (cut st n) := by
  have hok : SqlStore.Ok st := h.ok
  have ht : SqlStore.tbl (cut st n) = (SqlStore.tbl st).take n := tbl_cut hok n
  have hd : Distinct (SqlStore.tbl (cut st n)) := by
    rw [ht]; exact List.Pairwise.sublist (List.take_sublist _ _) hok.distinct
  refine ⟨⟨fun r hr => hok.rows r (List.mem_of_mem_take hr), hd⟩, hd, ?_⟩
  intro e he
  have he' : e ∈ (SqlStore.tbl st).take n := by rw [← ht]; exact he
  exact h.wf e (List.mem_of_mem_take he')

/-- The state is that of a server on a good store that has seen no power failure. -/
structure PInv (p : St E) : Prop where
  sys : ∃ st' evs, GoodStore (sqlEnv E) st' ∧ p.sys = Sys.run (sqlEnv E) st' evs
  sure : p.sure ≤ p.entries.length

theorem PInv.good {p : St E} (h : PInv p) : GoodStore (sqlEnv E) p.store := by
  obtain ⟨st', evs, hg, hs⟩ := h.sys
  have := goodStore_run hg evs
  rw [← hs] at this
  exact this

theorem PInv.len {p : St E} (h : PInv p) : p.entries.length = p.store.rows.length := tbl_length h.good.ok

theorem PInv.grow {p : St E} (h : PInv p) (e : Event) : p.entries <+: (p.sys.step e).entries := by
  obtain ⟨st', evs, hg, hs⟩ := h.sys
  have := C05_entries_only_appended hg evs [e]
  rw [run_append, ← hs] at this
  exact this

theorem PInv.step {p : St E} (h : PInv p) (e : PowEv) : PInv (p.step level e) := by
  cases e with
  | ev e =>
    obtain ⟨st', evs, hg, hs⟩ := h.sys
    have h' : PInv (⟨p.sys.step e, 0⟩ : St E) := ⟨⟨st', evs ++ [e], hg, by rw [run_append, ← hs]; rfl⟩, Nat.zero_le _⟩
    refine ⟨h'.sys, ?_⟩
    show (if _ then _ else _) ≤ (p.sys.step e).entries.length
    split
    · exact Nat.le_of_eq h'.len.symm
    · exact Nat.le_trans h.sure (h.grow e).length_le
  | checkpoint => exact ⟨h.sys, Nat.le_of_eq h.len.symm⟩
  | flushed n =>
    refine ⟨h.sys, ?_⟩
    show max p.sure (min n p.store.rows.length) ≤ p.entries.length
    have := h.sure; have := h.len; omega
  | power n =>
    refine ⟨⟨_, [], good_cut h.good _, rfl⟩, ?_⟩
    show max p.sure (min n p.store.rows.length) ≤ (SqlStore.tbl (cut p.store _)).length
    rw [tbl_cut h.good.ok, List.length_take]
    have := h.sure; have := h.len
    have : (SqlStore.tbl p.store).length = p.entries.length := rfl
    omega

theorem PInv.foldl {p : St E} (h : PInv p) (evs : List PowEv) : PInv (evs.foldl (St.step level) p) := by
  induction evs generalizing p with
  | nil => exact h
  | cons e es ih => exact ih (h.step e)

theorem PInv.init (hst : GoodStore (sqlEnv E) st) : PInv (⟨Sys.init (sqlEnv E) st, st.rows.length⟩ : St E) :=
  ⟨⟨st, [], hst, rfl⟩, Nat.le_of_eq (tbl_length hst.ok).symm⟩

theorem PInv.run (hst : GoodStore (sqlEnv E) st) (evs : List PowEv) : PInv (run E level st evs) := (PInv.init hst).foldl evs

theorem prun_append (E : Env) (level : Nat) (st : SqlStore) (a b : List PowEv) :
    run E level st (a ++ b) = b.foldl (St.step level) (run E level st a) := by simp [run, List.foldl_append]

/-- The entries on the disk are never lost and never change. -/
theorem sure_step {p : St E} (h : PInv p) (l : List Entry) (hl : l <+: p.entries) (hs : l.length ≤ p.sure) (e : PowEv) :
    l <+: (p.step level e).entries ∧ l.length ≤ (p.step level e).sure := by
  have hlen := h.len
  cases e with
  | ev e =>
    refine ⟨hl.trans (h.grow e), ?_⟩
    show _ ≤ (if _ then _ else _)
    split
    · have h1 : PInv (St.step level p (.ev e)) := h.step (.ev e)
      have := h1.len
      have h2 := (hl.trans (h.grow e)).length_le
      exact Nat.le_trans h2 (Nat.le_of_eq this)
    · exact hs
  | checkpoint =>
    refine ⟨hl, ?_⟩
    show _ ≤ p.store.rows.length
    have := hl.length_le
    omega
  | flushed n => exact ⟨hl, Nat.le_trans hs (Nat.le_max_left _ _)⟩
  | power n =>
    refine ⟨?_, Nat.le_trans hs (Nat.le_max_left _ _)⟩
    show l <+: SqlStore.tbl (cut p.store _)
    rw [tbl_cut h.good.ok]
    exact List.prefix_take_iff.2 ⟨hl, Nat.le_trans hs (Nat.le_max_left _ _)⟩

theorem sure_foldl {p : St E} (h : PInv p) (l : List Entry) (hl : l <+: p.entries) (hs : l.length ≤ p.sure) (evs : List PowEv) :
    l <+: (evs.foldl (St.step level) p).entries := by
  induction evs generalizing p with
  | nil => exact hl
  | cons e es ih =>
    obtain ⟨h1, h2⟩ := sure_step (level := level) h l hl hs e
    exact ih (h.step e) h1 h2

/-! ### C77 -/

/-- C77 (part: no corruption). After any history with power failures, the server is in a state that a server reaches without power failures
    from a good store: every other property of this development holds of it. -/
theorem C77_still_a_keystore_partial (hst : GoodStore (sqlEnv E) st) (evs : List PowEv) :
    ∃ st' evs', GoodStore (sqlEnv E) st' ∧ (run E level st evs).sys = Sys.run (sqlEnv E) st' evs' := (PInv.run hst evs).sys

/-- C77 (part: order). What a power failure leaves is the oldest entries: nothing is reordered, altered or invented, and an entry is
    lost only together with everything newer. -/
theorem C77_a_prefix_survives_partial (hst : GoodStore (sqlEnv E) st) (evs : List PowEv) (n : Nat) :
    (run E level st (evs ++ [.power n])).entries <+: (run E level st evs).entries := by
  rw [prun_append]
  show SqlStore.tbl (cut _ _) <+: _
  rw [tbl_cut (PInv.run hst evs).good.ok]
  exact List.take_prefix _ _

/-- C77 (part: after a checkpoint). What is in the keystore at a checkpoint is in it forever, whatever power failures come. An orderly end of the
    server is one. -/
theorem C77_checkpointed_entries_survive_partial (hst : GoodStore (sqlEnv E) st) (evs later : List PowEv) :
    (run E level st evs).entries <+: (run E level st (evs ++ [.checkpoint] ++ later)).entries := by
  rw [prun_append, prun_append]
  have h : PInv (run E level st evs) := PInv.run hst evs
  refine sure_foldl (h.step (level := level) .checkpoint) (run E level st evs).entries (List.prefix_refl _) ?_ later
  show (run E level st evs).entries.length ≤ (run E level st evs).store.rows.length
  exact Nat.le_of_eq h.len

/-- C77 (part: the first entries). If the first `n` rows are on the disk, the first `n` entries are there forever. -/
theorem C77_flushed_entries_survive_partial (hst : GoodStore (sqlEnv E) st) (evs later : List PowEv) (n : Nat) :
    (run E level st evs).entries.take n <+: (run E level st (evs ++ [.flushed n] ++ later)).entries := by
  rw [prun_append, prun_append]
  have h : PInv (run E level st evs) := PInv.run hst evs
  refine sure_foldl (h.step (level := level) (.flushed n)) ((run E level st evs).entries.take n) (List.take_prefix _ _) ?_ later
  show _ ≤ max _ (min n (run E level st evs).store.rows.length)
  rw [List.length_take, h.len]
  exact Nat.le_max_right _ _

theorem synchronous_waits : commitWaits synchronous = false := by decide

theorem sure_evs (p : St E) (b : List Event) : ((b.map PowEv.ev).foldl (St.step synchronous) p).sure = p.sure := by
  induction b generalizing p with
  | nil => rfl
  | cons e b ih =>
    simp only [List.map_cons, List.foldl_cons]
    rw [ih]
    simp [St.step, synchronous_waits]

/-- C77 is violated: with the setting the store uses, a power failure can take the keystore back to its last checkpoint, whatever
    was created, answered and used in between. -/
theorem C77_everything_since_the_checkpoint_can_be_lost (hst : GoodStore (sqlEnv E) st) (a : List PowEv) (b : List Event) :
    (run E synchronous st (a ++ [.checkpoint] ++ b.map .ev ++ [.power 0])).entries = (run E synchronous st a).entries := by
  have h : PInv (run E synchronous st a) := PInv.run hst a
  have hb : PInv (run E synchronous st (a ++ [.checkpoint] ++ b.map .ev)) := PInv.run hst _
  have hk := C77_checkpointed_entries_survive_partial (level := synchronous) hst a (b.map .ev)
  have hs : (run E synchronous st (a ++ [.checkpoint] ++ b.map .ev)).sure = (run E synchronous st a).entries.length := by
    rw [prun_append, sure_evs, prun_append]
    exact h.len.symm
  rw [prun_append]
  show SqlStore.tbl (cut _ (max _ (min 0 _))) = _
  rw [tbl_cut hb.good.ok, hs]
  obtain ⟨m, hm⟩ := hk
  show (run E synchronous st (a ++ [.checkpoint] ++ b.map .ev)).entries.take _ = _
  rw [← hm]
  simp

/-- C77, what the setting FULL would give: a power failure loses nothing. -/
theorem C77_full_would_keep_everything (hlevel : 2 ≤ level) (hst : GoodStore (sqlEnv E) st) (evs later : List PowEv) :
    (run E level st evs).entries <+: (run E level st (evs ++ later)).entries := by
  have hsure : ∀ (evs : List PowEv) (p : St E), PInv p → p.entries.length ≤ p.sure →
      (evs.foldl (St.step level) p).entries.length ≤ (evs.foldl (St.step level) p).sure := by
    intro evs
    induction evs with
    | nil => intro p _ h; exact h
    | cons e es ih =>
      intro p hp hs
      refine ih _ (hp.step e) ?_
      have hp' : PInv (p.step level e) := hp.step e
      cases e with
      | ev e =>
        show _ ≤ (if commitWaits level then _ else _)
        rw [show commitWaits level = true by simp [commitWaits, hlevel]]
        exact Nat.le_of_eq hp'.len
      | checkpoint => exact Nat.le_of_eq hp.len
      | flushed n => exact Nat.le_trans hs (Nat.le_max_left _ _)
      | power n =>
        refine Nat.le_trans ?_ (Nat.le_max_left _ _)
        refine Nat.le_trans ?_ hs
        show (SqlStore.tbl (cut p.store _)).length ≤ (SqlStore.tbl p.store).length
        rw [tbl_cut hp.good.ok]
        exact (List.take_prefix _ _).length_le
  rw [prun_append]
  exact sure_foldl (PInv.run hst evs) _ (List.prefix_refl _)
    (hsure evs _ (PInv.init hst) (Nat.le_of_eq (tbl_length hst.ok))) later

/-- C77. Crashes of the process alone lose nothing, whatever the setting. -/
theorem C77_process_crashes_lose_nothing (hst : GoodStore (sqlEnv E) st) (evs : List PowEv) (later : List Event) :
    (run E level st evs).entries <+: (run E level st (evs ++ later.map .ev)).entries := by
  rw [prun_append]
  have h : PInv (run E level st evs) := PInv.run hst evs
  generalize run E level st evs = p at h
  induction later generalizing p with
  | nil => exact List.prefix_refl _
  | cons e es ih => exact (h.grow e).trans (ih _ (h.step (.ev e)))

/-! ### The configuration file -/

/-- A history in which the configuration file stays `c`. -/
def Kept (c : Bytes) (s : ISt) : Prop := Init.Quiet s.st c ∧ s.sure = true

/-- C77 (part: configuration). An `init` that reported success leaves its configuration for good once the operating system has
    written it, whatever later `init`s, crashes and power failures come. -/
theorem C77_flushed_config_survives_partial (evs : List Init.Ev) (k : Nat) (cfg : Bytes)
    (hk : (Init.St.run ⟨none, []⟩ evs).procs[k]? = some ⟨cfg, .done⟩) (later : List InitPowEv) :
    (initRun (evs.map .ev ++ [.flushed] ++ later)).st.file = some cfg := by
  have hst : ∀ (evs : List Init.Ev) (s : ISt), ((evs.map InitPowEv.ev).foldl ISt.step s).st = s.st.run evs := by
    intro evs
    induction evs with
    | nil => intro s; rfl
    | cons e es ih => intro s; simp only [List.map_cons, List.foldl_cons]; rw [ih]; rfl
  have hq : Init.Quiet (Init.St.run ⟨none, []⟩ evs) cfg := by
    have hi := (Init.Inv.init none).run evs
    generalize Init.St.run ⟨none, []⟩ evs = s at hk hi
    refine ⟨hi.done k _ hk rfl, ?_⟩
    intro i p hp w hw
    have := hi.one i k p _ hp hk (by rw [hw]; rfl) rfl
    subst this
    rw [hk] at hp
    cases hp
    cases hw
  have hkeep : ∀ (later : List InitPowEv) (s : ISt), Kept cfg s → Kept cfg (later.foldl ISt.step s) := by
    intro later
    induction later with
    | nil => intro s h; exact h
    | cons e es ih =>
      intro s h
      refine ih _ ?_
      cases e with
      | ev e =>
        obtain ⟨h1, h2⟩ := h
        have h3 := (h1.step e).1
        refine ⟨h3, ?_⟩
        show (s.sure && decide _) = true
        rw [h2, h1.file, h3.file]
        simp
      | flushed => exact ⟨h.1, rfl⟩
      | power keep =>
        obtain ⟨h1, h2⟩ := h
        refine ⟨⟨?_, by simp [ISt.step]⟩, rfl⟩
        show (if s.sure then s.st.file else _) = _
        rw [h2]
        exact h1.file
  unfold initRun
  rw [List.foldl_append, List.foldl_append]
  refine (hkeep later _ ⟨?_, rfl⟩).1.file
  show Init.Quiet (((evs.map InitPowEv.ev).foldl ISt.step _).st) cfg
  rw [hst]
  exact hq

/-- C77 is violated for the configuration: after an `init` has reported success, a power failure can leave an empty
    configuration file (or none), and an empty one stays: every later `init` is refused. -/
theorem C77_config_can_be_lost (cfg : Bytes) :
    ∃ evs : List Init.Ev, (Init.St.run ⟨none, []⟩ evs).procs[0]? = some ⟨cfg, .done⟩ ∧
      (initRun (evs.map .ev ++ [.power none])).st.file = none ∧
      ∀ later : List Init.Ev,
        let s := (initRun (evs.map .ev ++ [.power (some 0)] ++ later.map .ev)).st
        s.file = some [] ∧ ∀ p ∈ s.procs, p.phase ≠ .done := by
  have hst : ∀ (evs : List Init.Ev) (s : ISt), ((evs.map InitPowEv.ev).foldl ISt.step s).st = s.st.run evs := by
    intro evs
    induction evs with
    | nil => intro s; rfl
    | cons e es ih => intro s; simp only [List.map_cons, List.foldl_cons]; rw [ih]; rfl
  have hfin : initRun (([.launch cfg, .check 0, .create 0, .write 0 cfg.length, .finish 0] : List Init.Ev).map .ev) =
      ⟨⟨some cfg, [⟨cfg, .done⟩]⟩, false⟩ := by
    simp [initRun, ISt.step, Init.St.step, Init.St.setPhase, Init.writeAt]
  refine ⟨[.launch cfg, .check 0, .create 0, .write 0 cfg.length, .finish 0], ?_, ?_, ?_⟩
  · simp [Init.St.run, Init.St.step, Init.St.setPhase, Init.writeAt]
  · unfold initRun at hfin ⊢
    rw [List.foldl_append, hfin]
    rfl
  · intro later
    show Init.St.file (ISt.st _) = _ ∧ ∀ p ∈ Init.St.procs (ISt.st _), _
    unfold initRun at hfin ⊢
    rw [List.foldl_append, List.foldl_append, hfin, hst]
    exact Init.C48_existing_kept [] later

/-! ### Concrete cases -/

section Examples
open Ex

/-- Create a seed after a checkpoint. -/
def created : List PowEv := (unlock 0 ++ serve 0 (.req "a" (.newSeed "alice" none true)) 11).map .ev

set_option maxRecDepth 100000 in
/-- C77 is violated, a whole run: the client is told that the seed is created, the power fails, and the seed is unknown. -/
theorem C77_acknowledged_seed_lost :
    (run (env false 2) synchronous SqlStore.empty created).sys.sent.map (fun x => (x.1, x.2.1)) = [(0, 0), (1, 0)] ∧
    (run (env false 2) synchronous SqlStore.empty created).sys.done.map (fun d => d.outcome) =
      [.ok .unlock, .ok (.newSeed "alice" ⟨B.fill 32 11, B.fill 32 11, true⟩)] ∧
    (run (env false 2) synchronous SqlStore.empty (created ++ [.power 0] ++ (unlock 0 ++
      serve 0 (.req "b" (.getEntry "alice")) 0).map .ev)).sys.done.map (fun d => d.outcome) =
      [.ok .unlock, .error "Query returned no rows"] := by decide +kernel

set_option maxRecDepth 100000 in
example : -- with a checkpoint in between, or with `synchronous = 2`, the seed is there
    (run (env false 2) synchronous SqlStore.empty (created ++ [.checkpoint, .power 0])).entries.map Entry.tag = ["alice"] ∧
    (run (env false 2) 2 SqlStore.empty (created ++ [.power 0])).entries.map Entry.tag = ["alice"] ∧
    (run (env false 2) synchronous SqlStore.empty (created ++ [.flushed 1, .power 0])).entries.map Entry.tag = ["alice"] ∧
    (run (env false 2) synchronous SqlStore.empty (created ++ [.power 1])).entries.map Entry.tag = ["alice"] ∧
    (run (env false 2) synchronous SqlStore.empty (created ++ [.ev .restart])).entries.map Entry.tag = ["alice"] := by
  decide +kernel

/-- The empty database meets the hypothesis of the theorems. -/
example : GoodStore (sqlEnv (env false 2)) SqlStore.empty := goodStore_empty (sqlEnv (env false 2))

/-- An `init` that has reported success. -/
example : (Init.St.run ⟨none, []⟩ [.launch [1, 2], .check 0, .create 0, .write 0 1, .write 0 1, .finish 0]).procs[0]? =
    some ⟨[1, 2], .done⟩ := by decide +kernel

end Examples
end Lair.Power
