import Verif.Props.Local

/-
Several server processes on one store file. The pid file is meant to prevent this and does not always (C42), and `import-seed`
(lair_keystore/src/bin/lair-keystore-bin/cmd_import_seed.rs) is a server process, too.

Every access of the store is one SQLite transaction (store_sqlite.rs:77-115, :396-436), and SQLite lets any number of processes share a
file and serialises their transactions; so at any time all processes see the same store. Everything else - caches, unlock flags,
requests in flight - is each process's own. Simplification: waiting for another process's lock (`busy_timeout`) takes no time; that it
may fail after 30 seconds is one of the failures the environment may inject into any access.
-/
namespace Lair

/-- The store file and the processes that use it, each with its clients and its store handle (Local.lean).
    Code: store_sqlite.rs:339-510, on one file from several processes. -/
structure Multi (E : Env) where
  store : E.S.σ
  procs : List (LSys E)

/-- What can happen. Code: store_sqlite.rs:339-510, on one file from several processes. -/
inductive MEvent where
  /-- another process starts a server on the file -/
  | start
  /-- something happens in the `j`-th process -/
  | at (j : Nat) (ev : LEvent)

/-- A process sees the store as it is now. Code: store_sqlite.rs:339-510, on one file from several processes. -/
def LSys.onStore {E : Env} (l : LSys E) (st : E.S.σ) : LSys E := { l with sys := { l.sys with sh := { l.sys.sh with store := st } } }

/-- One event. What a process does to the store, all see.
    Code: store_sqlite.rs:339-510, on one file from several processes. -/
def Multi.step {E : Env} (m : Multi E) : MEvent → Multi E
  | .start => { m with procs := m.procs ++ [⟨.init E m.store, []⟩] }
  | .at j ev =>
    match m.procs[j]? with
    | none => m
    | some l => ⟨(l.step ev).sys.sh.store, (m.procs.set j (l.step ev)).map fun p => p.onStore (l.step ev).sys.sh.store⟩

/-- A run, from a file on which no process is at work. Specification: nothing in the code corresponds. -/
def Multi.run (E : Env) (st : E.S.σ) (evs : List MEvent) : Multi E := evs.foldl Multi.step ⟨st, []⟩

/-- The entries in the file. Specification: nothing in the code corresponds. -/
def Multi.entries {E : Env} (m : Multi E) : List Entry := E.S.tbl m.store

/-! ### Calls of the handle depend on the store only -/

/-- Actions that have to do with nothing but the store and the random generator.
    Proof device: nothing in the code corresponds. -/
def Act.ofStore : Act → Bool
  | .storeTag _ => true
  | .storeEd _ => true
  | .storeX _ => true
  | .write _ => true
  | .list => true
  | .random _ => true
  | .genCert => true
  | .alloc => true
  | _ => false

/-- The program only calls the store and draws random bytes: no cache, no flag, no fallback (the methods of `LairStore`, lair_store.rs:229-490). -/
def Prog.OfStore {α : Type} : Prog α → Prop
  | .ret _ => True
  | .fail _ => True
  | .step a k => a.ofStore = true ∧ ∀ o, (k o).OfStore

theorem Prog.OfStore.bind {α β : Type} {p : Prog α} {f : α → Prog β} (hp : p.OfStore) (hf : ∀ a, (f a).OfStore) : (p.bind f).OfStore := by
  induction p with
  | ret a => exact hf a
  | fail e => trivial
  | step a k ih => exact ⟨hp.1, fun o => ih o (hp.2 o)⟩

theorem Prog.OfStore.ofRes {α : Type} (r : Res α) : (Prog.ofRes r).OfStore := by cases r <;> trivial

theorem LocalCall.ofStore (E : Env) (x : LocalCall) : (x.prog E).OfStore := by
  have hs : ∀ seed tag y, (Lair.insertSeed E seed tag y).OfStore := fun seed tag y =>
    ⟨rfl, fun o => .bind (.ofRes o) fun _ => ⟨rfl, fun _ => ⟨rfl, fun r => .bind (.ofRes r) fun _ => trivial⟩⟩⟩
  have hd : ∀ seed tag ops mem pass y, (Lair.insertDeep E seed tag ops mem pass y).OfStore := fun seed tag ops mem pass y =>
    ⟨rfl, fun o => .bind (.ofRes o) fun _ => ⟨rfl, fun (salt : B 16) => by
      refine Prog.OfStore.bind (p := Prog.ofOpt "argon2id error" (E.C.argon2id pass.val salt ops mem)) ?_ fun key => ⟨rfl, fun _ => ⟨rfl, fun r => .bind (.ofRes r) fun _ => trivial⟩⟩
      cases E.C.argon2id pass.val salt ops mem <;> trivial⟩⟩
  cases x with
  | insertSeed seed tag y => exact .bind (hs ..) fun _ => trivial
  | newSeed tag y => exact .bind (.bind ⟨rfl, fun o => .ofRes o⟩ fun _ => ⟨rfl, fun _ => hs ..⟩) fun _ => trivial
  | insertDeep seed tag ops mem pass y => exact .bind (hd ..) fun _ => trivial
  | newDeep tag ops mem pass y => exact .bind (.bind ⟨rfl, fun o => .ofRes o⟩ fun _ => ⟨rfl, fun _ => hd ..⟩) fun _ => trivial
  | newCert tag =>
    exact .bind ⟨rfl, fun o => .bind (.ofRes o) fun _ => ⟨rfl, fun _ => ⟨rfl, fun _ => ⟨rfl, fun r => .bind (.ofRes r) fun _ => trivial⟩⟩⟩⟩
      fun _ => trivial
  | list => exact ⟨rfl, fun r => .bind (.ofRes r) fun _ => trivial⟩
  | byTag t => exact ⟨rfl, fun r => .bind (.ofRes r) fun _ => trivial⟩
  | byEd t => exact ⟨rfl, fun r => .bind (.ofRes r) fun _ => trivial⟩
  | byX t => exact ⟨rfl, fun r => .bind (.ofRes r) fun _ => trivial⟩

variable {E : Env}

theorem exec_ofStore (ch : Choice) (s t : Shared E) (a : Act) (ha : a.ofStore = true) (h : s.store = t.store) :
    (exec 0 ch t a).1 = (exec 0 ch s a).1 ∧ (exec 0 ch t a).2.1 = { t with store := (exec 0 ch s a).2.1.store } := by
  obtain ⟨st, c1, c2, c3, u⟩ := t
  simp only at h
  subst h
  cases a with
  | storeTag t => simp only [exec]; split <;> exact ⟨rfl, rfl⟩
  | storeEd t => simp only [exec]; split <;> exact ⟨rfl, rfl⟩
  | storeX t => simp only [exec]; split <;> exact ⟨rfl, rfl⟩
  | write t => simp only [exec]; split <;> exact ⟨rfl, rfl⟩
  | list => simp only [exec]; split <;> exact ⟨rfl, rfl⟩
  | alloc => simp only [exec]; split <;> exact ⟨rfl, rfl⟩
  | random n => exact ⟨rfl, rfl⟩
  | genCert => exact ⟨rfl, rfl⟩
  | _ => cases ha

theorem runAlone_ofStore {α : Type} {p : Prog α} (hp : p.OfStore) : ∀ (ch : Nat → Choice) (s t : Shared E), s.store = t.store →
    (Cli.runAlone ch t p).1 = (Cli.runAlone ch s p).1 ∧ (Cli.runAlone ch t p).2 = { t with store := (Cli.runAlone ch s p).2.store } := by
  induction p with
  | ret a => intro ch s t h; exact ⟨rfl, by simp [Cli.runAlone, h]⟩
  | fail a => intro ch s t h; exact ⟨rfl, by simp [Cli.runAlone, h]⟩
  | step a k ih =>
    intro ch s t h
    obtain ⟨h1, h2⟩ := exec_ofStore (ch 0) s t a hp.1 h
    simp only [Cli.runAlone]
    rw [h1]
    have := ih (exec 0 (ch 0) s a).1 (hp.2 _) (fun n => ch (n + 1)) (exec 0 (ch 0) s a).2.1 (exec 0 (ch 0) t a).2.1 (by rw [h2])
    refine ⟨this.1, this.2.trans ?_⟩
    rw [h2]

end Lair
