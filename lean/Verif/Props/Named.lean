import Verif.Props.InMemory

/-
C76, which seeds are kept in memory: only of entries that a request received since the server's last start, on a connection that has
been unlocked, has named as the one to use. Creating, importing or deriving a seed, and listing, keep nothing.
-/
namespace Lair.Props
open Lair Prog

variable {E : Env} {st : E.S.σ}

/-- The request names this entry as one to be used: by its tag or by one of its public keys. -/
def Names : Req → Entry → Prop
  | .getEntry t, e => e.tag = t
  | .exportSeed t sender _ _, e => e.tag = t ∨ e.xKey = some sender
  | .importSeed _ recipient _ _ _ _ _, e => e.xKey = some recipient
  | .sign k _ _, e => e.edKey = some k
  | .boxEnc sender _ _ _, e => e.xKey = some sender
  | .boxDec _ recipient _ _ _, e => e.xKey = some recipient
  | .boxEncEd sender _ _ _, e => e.edKey = some sender
  | .boxDecEd _ recipient _ _ _, e => e.edKey = some recipient
  | .getCertKey t, e => e.tag = t
  | .sboxEnc t _ _, e => e.tag = t
  | .sboxDec t _ _ _, e => e.tag = t
  | _, _ => False

/-- Lookups in the store return an entry with the tag or key that was asked for. -/
def ActFound : (a : Act) → a.Out → Prop
  | .storeTag t, r => ∀ e, (r : Res Entry) = .ok e → e.tag = t
  | .storeEd k, r => ∀ e, (r : Res Entry) = .ok e → e.edKey = some k
  | .storeX k, r => ∀ e, (r : Res Entry) = .ok e → e.xKey = some k
  | _, _ => True

/-- Only such entries are put into the caches. -/
def Act.Keeps (P : Entry → Prop) : Act → Prop
  | .register f => P f.entry
  | _ => True

/-- A program that keeps only entries with property `P`. -/
def Keeps {α : Type} (P : Entry → Prop) : Prog α → Prop
  | .ret _ => True
  | .fail _ => True
  | .step a k => Act.Keeps P a ∧ ∀ o, ActFound a o → Keeps P (k o)

section Rules
variable {α β : Type} {P : Entry → Prop}

theorem keeps_bind' {p : Prog α} {f : α → Prog β} (hp : Keeps P p) (hf : ∀ a, Keeps P (f a)) : Keeps P (p.bind f) := by
  induction p with
  | ret a => exact hf a
  | fail e => trivial
  | step a k ih => exact ⟨hp.1, fun o ho => ih o (hp.2 o ho)⟩

theorem keeps_bind {p : Prog α} {f : α → Prog β} (hp : Keeps P p) (hf : ∀ a, Keeps P (f a)) : Keeps P (p >>= f) := keeps_bind' hp hf

theorem keeps_attempt_bind {p : Prog α} {f : Res α → Prog β} (hp : Keeps P p) (hf : ∀ r, Keeps P (f r)) : Keeps P (p.attempt >>= f) := by
  induction p with
  | ret a => exact hf (.ok a)
  | fail e => exact hf (.error e)
  | step a k ih => exact ⟨hp.1, fun o ho => ih o (hp.2 o ho)⟩

theorem keeps_ofRes (r : Res α) : Keeps P (Prog.ofRes r) := by cases r <;> trivial

theorem keeps_ofOpt (e : String) (o : Option α) : Keeps P (Prog.ofOpt e o) := by cases o <;> trivial

theorem keeps_random (n : Nat) : Keeps P (Prog.act (.random n)) := ⟨trivial, fun _ _ => trivial⟩

theorem keeps_checkUnlocked : Keeps P checkUnlocked := by
  refine ⟨trivial, fun o _ => ?_⟩
  cases (show Bool from o) <;> trivial

theorem keeps_alloc : Keeps P alloc := ⟨trivial, fun _ _ => keeps_ofRes _⟩

/-- Registering an entry keeps that entry. -/
theorem keeps_genAndRegister {e : Entry} (h : P e) : Keeps P (genAndRegister E e) := by
  refine keeps_bind keeps_alloc fun _ => ?_
  cases hf : fullOf E.C E.bidi e with
  | error x => trivial
  | ok f => exact ⟨by show P f.entry; rw [fullOf_entry hf]; exact h, fun _ _ => trivial⟩

theorem keeps_fullByTag {t : String} (h : ∀ e : Entry, e.tag = t → P e) : Keeps P (fullByTag E t) := by
  refine ⟨trivial, fun o _ => ?_⟩
  cases (show Option Full from o) with
  | some f => trivial
  | none =>
    refine ⟨trivial, fun r hr => ?_⟩
    cases hx : (show Res Entry from r) with
    | error x => trivial
    | ok e => exact keeps_genAndRegister (h e (hr e hx))

theorem keeps_fullByEd {k : B 32} (h : ∀ e : Entry, e.edKey = some k → P e) : Keeps P (fullByEd E k) := by
  refine ⟨trivial, fun o _ => ?_⟩
  cases (show Option Full from o) with
  | some f => trivial
  | none =>
    refine ⟨trivial, fun r hr => ?_⟩
    cases hx : (show Res Entry from r) with
    | error x => trivial
    | ok e => exact keeps_genAndRegister (h e (hr e hx))

theorem keeps_fullByX {k : B 32} (h : ∀ e : Entry, e.xKey = some k → P e) : Keeps P (fullByX E k) := by
  refine ⟨trivial, fun o _ => ?_⟩
  cases (show Option Full from o) with
  | some f => trivial
  | none =>
    refine ⟨trivial, fun r hr => ?_⟩
    cases hx : (show Res Entry from r) with
    | error x => trivial
    | ok e => exact keeps_genAndRegister (h e (hr e hx))

theorem keeps_insertSeed (s : B 32) (t : String) (x : Bool) : Keeps P (insertSeed E s t x) :=
  keeps_bind keeps_alloc fun _ => keeps_bind (keeps_random _) fun _ => ⟨trivial, fun _ _ => keeps_bind (keeps_ofRes _) fun _ => trivial⟩

theorem keeps_insertDeep (s : B 32) (t : String) (o m : UInt32) (p : B 64) (x : Bool) : Keeps P (insertDeep E s t o m p x) :=
  keeps_bind keeps_alloc fun _ => keeps_bind (keeps_random _) fun _ => keeps_bind (keeps_ofOpt _ _) fun _ =>
    keeps_bind (keeps_random _) fun _ => ⟨trivial, fun _ _ => keeps_bind (keeps_ofRes _) fun _ => trivial⟩

theorem keeps_insertMaybeDeep (c : Nat) (s : B 32) (t : String) (d : Option DeepPass) (x : Bool) :
    Keeps P (insertMaybeDeep E c s t d x) := by
  cases d with
  | none => exact keeps_insertSeed _ _ _
  | some d => exact keeps_bind (keeps_ofOpt _ _) fun _ => keeps_insertDeep _ _ _ _ _ _

theorem keeps_newCert (t : String) : Keeps P (newCert E t) :=
  keeps_bind keeps_alloc fun _ => keeps_bind (p := Prog.act .genCert) ⟨trivial, fun _ _ => trivial⟩ fun _ => keeps_bind (keeps_random _) fun _ =>
    ⟨trivial, fun _ _ => keeps_bind (keeps_ofRes _) fun _ => trivial⟩

end Rules

/-- Every handler keeps only entries its request names. -/
theorem keeps_handleReq (c : Nat) (r : Req) : Keeps (Names r) (handleReq E c r) := by
  cases r with
  | hello => trivial
  | unlock p => exact keeps_bind keeps_alloc fun _ => keeps_bind (keeps_ofRes _) fun _ => ⟨trivial, fun _ _ => trivial⟩
  | getEntry t => exact keeps_bind keeps_checkUnlocked fun _ => keeps_bind (keeps_fullByTag fun _ h => h) fun _ => trivial
  | listEntries => exact keeps_bind keeps_checkUnlocked fun _ => ⟨trivial, fun _ _ => keeps_bind (keeps_ofRes _) fun _ => trivial⟩
  | newSeed t d x =>
    refine keeps_bind keeps_checkUnlocked fun _ => ?_
    cases d with
    | none => exact keeps_bind (keeps_random _) fun _ => keeps_bind (keeps_insertSeed _ _ _) fun _ => trivial
    | some d => exact keeps_bind (keeps_ofOpt _ _) fun _ => keeps_bind (keeps_random _) fun _ =>
        keeps_bind (keeps_insertDeep _ _ _ _ _ _) fun _ => trivial
  | exportSeed t s r x =>
    refine keeps_bind keeps_checkUnlocked fun _ => keeps_bind (keeps_fullByTag fun _ h => .inl h) fun _ =>
      keeps_bind (keeps_fullByX fun _ h => .inr h) fun _ => keeps_bind (keeps_random _) fun _ => ?_
    split
    · trivial
    · split
      · trivial
      · split
        · trivial
        · exact keeps_bind keeps_alloc fun _ => keeps_bind (keeps_ofOpt _ _) fun _ => trivial
  | importSeed s r d n ci t x =>
    refine keeps_bind keeps_checkUnlocked fun _ => keeps_bind keeps_checkUnlocked fun _ => keeps_bind (keeps_fullByX fun _ h => h) fun _ => ?_
    split
    · trivial
    · exact keeps_bind keeps_alloc fun _ => keeps_bind (keeps_ofOpt _ _) fun _ => keeps_bind (keeps_ofOpt _ _) fun _ =>
        keeps_bind (keeps_ofOpt _ _) fun _ => keeps_bind (keeps_insertMaybeDeep _ _ _ _ _) fun _ => trivial
  | deriveSeed s sd d dd p =>
    exact keeps_bind keeps_checkUnlocked fun _ => ⟨trivial, fun _ _ => keeps_bind (keeps_ofRes _) fun _ => keeps_bind keeps_alloc fun _ =>
      keeps_bind (keeps_ofRes _) fun _ => keeps_bind (keeps_insertMaybeDeep _ _ _ _ _) fun _ => trivial⟩
  | sign k d m =>
    refine keeps_bind keeps_checkUnlocked fun _ => keeps_attempt_bind (keeps_fullByEd fun _ h => h) fun r => ?_
    split
    · exact keeps_bind keeps_alloc fun _ => keeps_bind (keeps_ofRes _) fun _ => trivial
    · split
      · exact ⟨trivial, fun _ _ => keeps_bind (keeps_ofRes _) fun _ => trivial⟩
      · trivial
  | boxEnc s r x m =>
    refine keeps_bind keeps_checkUnlocked fun _ => keeps_bind (keeps_fullByX fun _ h => h) fun _ => keeps_bind (keeps_random _) fun _ => ?_
    split
    · trivial
    · exact keeps_bind keeps_alloc fun _ => keeps_bind (keeps_ofOpt _ _) fun _ => trivial
  | boxDec s r x n ci =>
    refine keeps_bind keeps_checkUnlocked fun _ => keeps_bind (keeps_fullByX fun _ h => h) fun _ => ?_
    split
    · trivial
    · split
      · trivial
      · exact keeps_bind keeps_alloc fun _ => keeps_bind (keeps_ofOpt _ _) fun _ => trivial
  | boxEncEd s r x m =>
    refine keeps_bind keeps_checkUnlocked fun _ => keeps_bind (keeps_fullByEd fun _ h => h) fun _ => keeps_bind (keeps_random _) fun _ => ?_
    split
    · trivial
    · exact keeps_bind (keeps_ofOpt _ _) fun _ => keeps_bind keeps_alloc fun _ => keeps_bind (keeps_ofOpt _ _) fun _ => trivial
  | boxDecEd s r x n ci =>
    refine keeps_bind keeps_checkUnlocked fun _ => keeps_bind (keeps_fullByEd fun _ h => h) fun _ => ?_
    split
    · trivial
    · split
      · trivial
      · exact keeps_bind (keeps_ofOpt _ _) fun _ => keeps_bind keeps_alloc fun _ => keeps_bind (keeps_ofOpt _ _) fun _ => trivial
  | newCert t =>
    exact keeps_bind keeps_checkUnlocked fun _ => keeps_bind (keeps_newCert _) fun _ => trivial
  | getCertKey t =>
    refine keeps_bind keeps_checkUnlocked fun _ => keeps_bind (keeps_fullByTag fun _ h => h) fun _ => ?_
    split
    · exact keeps_bind keeps_alloc fun _ => keeps_bind (keeps_ofOpt _ _) fun _ => keeps_bind (keeps_random _) fun _ => trivial
    · trivial
  | sboxEnc t x m =>
    refine keeps_bind keeps_checkUnlocked fun _ => keeps_bind (keeps_fullByTag fun _ h => h) fun _ => keeps_bind (keeps_random _) fun _ => ?_
    split
    · trivial
    · exact keeps_bind keeps_alloc fun _ => trivial
  | sboxDec t x n ci =>
    refine keeps_bind keeps_checkUnlocked fun _ => keeps_bind (keeps_fullByTag fun _ h => h) fun _ => ?_
    split
    · trivial
    · split
      · trivial
      · exact keeps_bind keeps_alloc fun _ => keeps_bind (keeps_ofOpt _ _) fun _ => trivial

theorem exec_found (c : Nat) (ch : Choice) (s : Shared E) (h : Inv s) (a : Act) : ActFound a (exec c ch s a).1 := by
  cases a with
  | storeTag t =>
    intro e he
    simp only [exec] at he
    split at he
    · cases he
    · exact ((E.S.R.byTag_iff _ _ _ h.ok).1 he).2
  | storeEd k =>
    intro e he
    simp only [exec] at he
    split at he
    · cases he
    · exact ((E.S.R.byEd_iff _ _ _ h.ok).1 he).2
  | storeX k =>
    intro e he
    simp only [exec] at he
    split at he
    · cases he
    · exact ((E.S.R.byX_iff _ _ _ h.ok).1 he).2
  | _ => trivial

/-- An element of a cache after an action was there before, or the action put it there. -/
theorem exec_kept_from (c : Nat) (ch : Choice) (s : Shared E) (a : Act) :
    ∀ f ∈ (exec c ch s a).2.1.cTag.map Prod.snd ++ (exec c ch s a).2.1.cEd.map Prod.snd ++ (exec c ch s a).2.1.cX.map Prod.snd,
      f ∈ s.cTag.map Prod.snd ++ s.cEd.map Prod.snd ++ s.cX.map Prod.snd ∨ a = .register f := by
  intro f hf
  simp only [List.mem_append, List.mem_map] at hf ⊢
  have hget : ∀ {κ : Type} [DecidableEq κ] (l : Lru κ Full) (k : κ), (∃ p, p ∈ (l.get k).2 ∧ p.2 = f) → ∃ p, p ∈ l ∧ p.2 = f :=
    fun l k ⟨p, hp, h⟩ => ⟨p, Lru.mem_get hp, h⟩
  have hput : ∀ {κ : Type} [DecidableEq κ] (l : Lru κ Full) (k : κ) (g : Full), (∃ p, p ∈ l.put E.cap k g ∧ p.2 = f) →
      (∃ p, p ∈ l ∧ p.2 = f) ∨ Act.register g = .register f := by
    rintro κ _ l k g ⟨p, hp, h⟩
    rcases Lru.mem_put hp with rfl | hp
    · exact .inr (by rw [← h])
    · exact .inl ⟨p, hp, h⟩
  cases a with
  | register g =>
    simp only [exec] at hf
    rcases hf with (h | h) | h
    · rcases hput _ _ _ h with h | h
      · exact .inl (.inl (.inl h))
      · exact .inr h
    · split at h
      · rcases hput _ _ _ h with h | h
        · exact .inl (.inl (.inr h))
        · exact .inr h
      · exact .inl (.inl (.inr h))
    · split at h
      · rcases hput _ _ _ h with h | h
        · exact .inl (.inr h)
        · exact .inr h
      · exact .inl (.inr h)
  | cacheTag t =>
    rcases hf with (h | h) | h
    · exact .inl (.inl (.inl (hget _ _ h)))
    · exact .inl (.inl (.inr h))
    · exact .inl (.inr h)
  | cacheEd t =>
    rcases hf with (h | h) | h
    · exact .inl (.inl (.inl h))
    · exact .inl (.inl (.inr (hget _ _ h)))
    · exact .inl (.inr h)
  | cacheX t =>
    rcases hf with (h | h) | h
    · exact .inl (.inl (.inl h))
    · exact .inl (.inl (.inr h))
    · exact .inl (.inr (hget _ _ h))
  | write e => left; simp only [exec] at hf; split at hf <;> exact hf
  | storeTag t => left; simp only [exec] at hf; split at hf <;> exact hf
  | storeEd t => left; simp only [exec] at hf; split at hf <;> exact hf
  | storeX t => left; simp only [exec] at hf; split at hf <;> exact hf
  | list => left; simp only [exec] at hf; split at hf <;> exact hf
  | alloc => left; simp only [exec] at hf; split at hf <;> exact hf
  | _ => exact .inl hf

/-- The same for messages: a response is refused and names nothing. -/
def MsgNames : Msg → Entry → Prop
  | .req _ r, e => Names r e
  | .res _ _, _ => False

theorem keeps_handle (c : Nat) (m : Msg) : Keeps (MsgNames m) (handle E c m) := by
  cases m with
  | req i r => exact keeps_handleReq c r
  | res i r => trivial

/-- What is kept, and what handlers still running may keep, was named by a request among the events `evs`. -/
structure NamedInv (evs : List Event) (s : Sys E) : Prop where
  threads : ∀ t ∈ s.threads, Event.recv t.conn t.msg ∈ evs ∧ Keeps (MsgNames t.msg) t.prog
  kept : ∀ f ∈ kept s, ∃ c i r, Event.recv c (.req i r) ∈ evs ∧ s.sh.unlocked c = true ∧ Names r f.entry

theorem namedInv_step {evs : List Event} {s : Sys E} (h : SysInv st s) (hk : NamedInv evs s) (ev : Event) :
    NamedInv (evs ++ [ev]) (s.step ev) := by
  have hthr : ∀ t ∈ s.threads, Event.recv t.conn t.msg ∈ evs ++ [ev] ∧ Keeps (MsgNames t.msg) t.prog :=
    fun t ht => ⟨List.mem_append_left _ (hk.threads t ht).1, (hk.threads t ht).2⟩
  have hkp : ∀ f ∈ kept s, ∃ c i r, Event.recv c (.req i r) ∈ evs ++ [ev] ∧ s.sh.unlocked c = true ∧ Names r f.entry := by
    intro f hf
    obtain ⟨c, i, r, h1, h2⟩ := hk.kept f hf
    exact ⟨c, i, r, List.mem_append_left _ h1, h2⟩
  cases ev with
  | recv c m =>
    refine ⟨fun t ht => ?_, hkp⟩
    rcases List.mem_append.1 ht with ht | ht
    · exact hthr t ht
    · simp at ht; subst ht
      exact ⟨by simp, keeps_handle c m⟩
  | restart => exact ⟨fun t ht => by simp [Sys.step] at ht, fun f hf => by cases hf⟩
  | step i ch =>
    cases hti : s.threads[i]? with
    | none => rw [step_none s i ch hti]; exact ⟨hthr, hkp⟩
    | some t =>
      have htm : t ∈ s.threads := List.mem_of_getElem? hti
      cases hp : t.prog with
      | ret r => rw [step_ret s i ch t r hti hp]; exact ⟨fun t' ht' => hthr t' (List.mem_of_mem_eraseIdx ht'), hkp⟩
      | fail e => rw [step_fail s i ch t e hti hp]; exact ⟨fun t' ht' => hthr t' (List.mem_of_mem_eraseIdx ht'), hkp⟩
      | step a k =>
        rw [step_act s i ch t a k hti hp]
        have ha := thread_act h htm hp
        have he := exec_ext t.conn ch s.sh h.inv a
        refine ⟨fun t' ht' => ?_, fun f hf => ?_⟩
        · rcases List.mem_or_eq_of_mem_set ht' with ht' | rfl
          · exact hthr t' ht'
          · refine ⟨(hthr t htm).1, ?_⟩
            have := (hthr t htm).2
            rw [hp] at this
            exact this.2 _ (exec_found _ _ _ h.inv _)
        · rcases exec_kept_from t.conn ch s.sh a f hf with h1 | rfl
          · obtain ⟨c, i, r, h2, h3, h4⟩ := hkp f h1
            exact ⟨c, i, r, h2, he.unlocked c h3, h4⟩
          · have hn := (hthr t htm).2
            rw [hp] at hn
            replace hn : MsgNames t.msg f.entry := hn.1
            cases hm : t.msg with
            | res j r => rw [hm] at hn; cases hn
            | req j r =>
              rw [hm] at hn
              exact ⟨t.conn, j, r, hm ▸ (hthr t htm).1, he.unlocked _ ha.1, hn⟩

theorem namedInv_from {evs : List Event} {s : Sys E} (h : SysInv st s) (hk : NamedInv [] s) : NamedInv evs (evs.foldl Sys.step s) := by
  have : ∀ (evs pre : List Event) (s : Sys E), SysInv st s → NamedInv pre s → NamedInv (pre ++ evs) (evs.foldl Sys.step s) := by
    intro evs
    induction evs with
    | nil => intro pre s _ hk; simpa using hk
    | cons ev evs ih =>
      intro pre s h hk
      have := ih (pre ++ [ev]) _ (sysInv_step h ev) (namedInv_step h hk ev)
      simpa using this
  simpa using this evs [] s h hk

/-- C76. Whatever is kept is of an entry that some request has named as the one to use (by tag or public key), received since the server's last
    start on a connection that is unlocked: a seed nobody has asked for since then is not unsealed, and creating, importing, deriving
    or listing seeds leaves none of them unsealed. `before` is everything up to the last start: nothing, or a history ending with a restart. -/
theorem C76_kept_only_if_named (hst : GoodStore E st) (before evs : List Event)
    (hb : before = [] ∨ ∃ pre, before = pre ++ [.restart]) (f : Full) (hf : f ∈ kept (Sys.run E st (before ++ evs))) :
    ∃ c i r, Event.recv c (.req i r) ∈ evs ∧ (Sys.run E st (before ++ evs)).sh.unlocked c = true ∧ Names r f.entry := by
  have h0 : NamedInv [] (Sys.run E st before) := by
    rcases hb with rfl | ⟨pre, rfl⟩
    · exact ⟨fun t ht => by simp [Sys.run, Sys.init] at ht, fun f hf => by cases hf⟩
    · simp only [Sys.run, List.foldl_append, List.foldl_cons, List.foldl_nil]
      exact ⟨fun t ht => by simp [Sys.step] at ht, fun f hf => by cases hf⟩
  have h := namedInv_from (evs := evs) (sysInv_run hst before) h0
  simp only [Sys.run, List.foldl_append] at hf ⊢
  exact h.kept f hf

/-! ### The hypotheses are met -/

/-- After a restart one of two seeds is signed with: it is kept, the other is not. -/
def namedRun : List Event :=
  Ex.unlock 0 ++ Ex.serve 0 (.req "d" (.sign (B.fill 32 1) none [1])) 1 ++ Ex.serve 0 (.req "e" (.newSeed "c" none true)) 3 ++
  Ex.serve 0 (.req "l" .listEntries) 3

set_option maxRecDepth 100000 in
example : ((kept (Sys.run (Ex.env false 2) MemStore.empty ((memoryRun ++ [.restart]) ++ namedRun))).map fun f => (f.entry.tag, f.entry.edKey)) =
    [("a", some (B.fill 32 1)), ("a", some (B.fill 32 1)), ("a", some (B.fill 32 1))] := by decide +kernel

end Lair.Props
