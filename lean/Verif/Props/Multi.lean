import Verif.Multi

/-
C69: several servers on one store file.
-/
namespace Lair
open Cli

variable {E : Env} {st : E.S.σ}

/-! ### Specification -/

/-- How many servers have been started. -/
def startCount (evs : List MEvent) : Nat := evs.countP fun ev => match ev with
  | .start => true
  | _ => false

/-- What happened in process `j`. -/
def ownEvents (j : Nat) (evs : List MEvent) : List LEvent := evs.filterMap fun ev => match ev with
  | .start => none
  | .at k e => if k = j then some e else none

/-- SPECIFICATION: the story of process `j` told without the others: a server alone on the store `st`, in which - at the times when other
    processes add entries - somebody calls the store handle to add them. `own` marks what really happened in process `j`. -/
structure Alone (E : Env) (st : E.S.σ) (j : Nat) (evs : List MEvent) (story : List (Bool × LEvent)) : Prop where
  /-- everything that happened in the process since it was started, in order -/
  own : ∃ a b, evs = a ++ .start :: b ∧ startCount a = j ∧ (story.filter fun p => p.1).map Prod.snd = ownEvents j b
  /-- nothing else but additions of entries -/
  others : ∀ ev, (false, ev) ∈ story → ∃ (x : LocalCall) (ch : Nat → Choice), ev = .call x ch ∧ x.adds = true

/-! ### helper facts -/

theorem mrun_snoc (evs : List MEvent) (ev : MEvent) : Multi.run E st (evs ++ [ev]) = (Multi.run E st evs).step ev := by
  simp [Multi.run, List.foldl_append]

theorem lrun_snoc (evs : List LEvent) (ev : LEvent) : LSys.run E st (evs ++ [ev]) = (LSys.run E st evs).step ev := by
  simp [LSys.run, List.foldl_append]

/-- `sys` of a step depends on `sys` only. -/
theorem lstep_sys (l l' : LSys E) (h : l.sys = l'.sys) (ev : LEvent) : (l.step ev).sys = (l'.step ev).sys := by
  cases ev <;> simp [LSys.step, h]

/-- Choices that give these random values. -/
def giving (hdr : B 24) (salt : B 16) (n : Nat) : Choice :=
  ⟨fun k => if h : k = 24 then h ▸ hdr else if h : k = 16 then h ▸ salt else B.fill k 0, n, .error "", none⟩

theorem giving24 (hdr : B 24) (salt : B 16) (n : Nat) : (giving hdr salt n).rnd 24 = hdr := rfl
theorem giving16 (hdr : B 24) (salt : B 16) (n : Nat) : (giving hdr salt n).rnd 16 = salt := rfl

theorem runAlone_finishWith_state {α : Type} (ch : Nat → Choice) (s : Shared E) (e : Entry) (a : α) :
    (runAlone ch s (finishWith e a)).2 = (exec 0 (ch 0) s (.write e)).2.1 := by
  have hr : ∀ x : Res Unit × Shared E × List Ev, exec 0 (ch 0) s (.write e) = x →
      runAlone ch s (finishWith e a) = runAlone (fun n => ch (n + 1)) x.2.1 ((Prog.ofRes x.1).bind fun _ => .ret a) := by
    rintro x rfl; rfl
  rw [hr _ rfl]
  generalize exec 0 (ch 0) s (.write e) = x
  obtain ⟨r, s', l⟩ := x
  cases r <;> rfl

/-- An entry a server makes, a call of the handle makes, too. -/
theorem made_call {e : Entry} (h : Made E e) : ∃ (x : LocalCall) (ch : Nat → Choice), x.adds = true ∧
    ∀ s : Shared E, (runAlone ch s (x.prog E)).2 = { s with store := (E.S.I.write s.store e).2 } := by
  have hw : ∀ (hdr : B 24) (salt : B 16) (n : Nat) (s : Shared E), (exec 0 (giving hdr salt n) s (.write e)).2.1 =
      { s with store := (E.S.I.write s.store e).2 } := fun _ _ _ _ => rfl
  cases e with
  | seed t i enc =>
    obtain ⟨hdr, seed, rfl, h1, h2⟩ := h
    refine ⟨.insertSeed seed t i.exportable, fun _ => giving hdr (B.fill 16 0) 0, rfl, fun s => ?_⟩
    simp only [LocalCall.prog, runAlone_bind_ret, runAlone_insertSeed_eq]
    show (runAlone _ s (finishWith _ _)).2 = _
    rw [runAlone_finishWith_state, giving24]
    have : i = ⟨E.C.edPk seed, E.C.xPk seed, i.exportable⟩ := by rw [← h1, ← h2]
    rw [← this]
    exact hw hdr _ _ s
  | deep t i salt ops mem enc =>
    obtain ⟨hdr, p, key, seed, hk, rfl, h1, h2⟩ := h
    refine ⟨.insertDeep seed t ops mem p i.exportable, fun _ => giving hdr salt 0, rfl, fun s => ?_⟩
    simp only [LocalCall.prog, runAlone_bind_ret, runAlone_insertDeep_eq, giving16, hk, giving24]
    show (runAlone _ s (finishWith _ _)).2 = _
    rw [runAlone_finishWith_state]
    have : i = ⟨E.C.edPk seed, E.C.xPk seed, i.exportable⟩ := by rw [← h1, ← h2]
    rw [← this]
    exact hw hdr _ _ s
  | cert t i priv =>
    obtain ⟨hdr, n, rfl, rfl⟩ := h
    refine ⟨.newCert t, fun _ => giving hdr (B.fill 16 0) n, rfl, fun s => ?_⟩
    simp only [LocalCall.prog, runAlone_bind_ret]
    have hr : ∀ x : Res Unit × Shared E × List Ev, exec 0 (giving hdr (B.fill 16 0) n) s .alloc = x →
        runAlone (fun _ => giving hdr (B.fill 16 0) n) s (newCert E t) =
          runAlone (fun _ => giving hdr (B.fill 16 0) n) x.2.1 ((Prog.ofRes x.1).bind fun _ =>
          .step .genCert fun (g : CertGen) => .step (.random 24) fun (hdr : B 24) =>
            finishWith (.cert t ⟨g.sni, E.C.blake2b32 g.cert, g.cert⟩ (SecretData.encrypt E.C E.bidi hdr g.priv))
              ⟨g.sni, E.C.blake2b32 g.cert, g.cert⟩) := by
      rintro x rfl; rfl
    rw [hr _ (exec_alloc_ok rfl)]
    exact (runAlone_finishWith_state (fun _ => giving hdr (B.fill 16 0) n) s _
      (⟨(E.certGen n).sni, E.C.blake2b32 (E.certGen n).cert, (E.certGen n).cert⟩ : CertInfo)).trans (hw hdr _ _ s)

/-- A request of the process that is about to write, writes an entry made as the server makes them. -/
theorem lthread_made (hk : HasPassphrase E) (hst : GoodStore E st) (evs : List LEvent) {t : Thread E}
    (ht : t ∈ (LSys.run E st evs).sys.threads) {e : Entry} {k : Res Unit → Prog Resp} (hp : t.prog = .step (.write e) k) : Made E e := by
  obtain ⟨c, a, h⟩ := lrun_one (st := st) hk evs
  obtain ⟨u, hu, hs⟩ := h.threads.mem t ht
  have hact : u.prog = .step (.write e) k := by rw [← hs.prog, hp]
  have h2 : (Sys.run E st a).sh.unlocked u.conn = true ∧ Made E e := thread_act (sysInv_run hst a) hu hact
  exact h2.2

/-- What a process does to the store, somebody with a handle could have done: nothing, or an addition. -/
theorem store_change (hk : HasPassphrase E) (hst : GoodStore E st) (evs : List LEvent) (l : LSys E) (hl : (LSys.run E st evs).sys = l.sys)
    (ev : LEvent) : (l.step ev).sys.sh.store = l.sys.sh.store ∨
      ∃ (x : LocalCall) (ch : Nat → Choice), x.adds = true ∧ ∀ t : Shared E, t.store = l.sys.sh.store →
        (runAlone ch t (x.prog E)).2 = { t with store := (l.step ev).sys.sh.store } := by
  have hok : E.S.ok l.sys.sh.store := by rw [← hl]; exact (lrun_inv hk hst evs).1
  cases ev with
  | call x ch =>
    cases hx : x.adds with
    | true => exact Or.inr ⟨x, ch, hx, fun t ht => (runAlone_ofStore (x.ofStore E) ch l.sys.sh t ht.symm).2⟩
    | false =>
      left
      have := (C68_lookup (st := st) hk hst evs ch).1 x hx
      rw [lrun_snoc] at this
      rw [lstep_sys l _ hl.symm, this, hl]
  | srv ev =>
    show (l.sys.step ev).sh.store = _ ∨ ∃ (x : LocalCall) (ch : Nat → Choice), x.adds = true ∧ ∀ t : Shared E, t.store = l.sys.sh.store →
        (runAlone ch t (x.prog E)).2 = { t with store := (l.sys.step ev).sh.store }
    cases ev with
    | recv c m => exact Or.inl rfl
    | restart => exact Or.inl rfl
    | step i ch =>
      cases hti : l.sys.threads[i]? with
      | none => rw [step_none _ i ch hti]; exact Or.inl rfl
      | some t =>
        cases hp : t.prog with
        | ret r => rw [step_ret _ i ch t r hti hp]; exact Or.inl rfl
        | fail e => rw [step_fail _ i ch t e hti hp]; exact Or.inl rfl
        | step a k =>
          rw [step_act _ i ch t a k hti hp]
          show (exec t.conn ch l.sys.sh a).2.1.store = _ ∨ ∃ (x : LocalCall) (ch' : Nat → Choice), x.adds = true ∧ ∀ t' : Shared E, t'.store = l.sys.sh.store →
            (runAlone ch' t' (x.prog E)).2 = { t' with store := (exec t.conn ch l.sys.sh a).2.1.store }
          cases a with
          | write e =>
            cases hf : ch.fault with
            | some x => left; simp [exec, hf]
            | none =>
              obtain ⟨x, ch', hx, hc⟩ := made_call (lthread_made hk hst evs (by rw [hl]; exact List.mem_of_getElem? hti) hp)
              refine Or.inr ⟨x, ch', hx, fun t' ht' => ?_⟩
              rw [hc t', ht']
              simp only [exec, hf]
          | storeTag t => left; simp only [exec]; split <;> rfl
          | storeEd t => left; simp only [exec]; split <;> rfl
          | storeX t => left; simp only [exec]; split <;> rfl
          | list => left; simp only [exec]; split <;> rfl
          | alloc => left; simp only [exec]; split <;> rfl
          | _ => exact Or.inl rfl

/-- The invariant: everyone sees the same store, and everyone's story can be told without the others. -/
structure MInv (st : E.S.σ) (evs : List MEvent) (m : Multi E) : Prop where
  same : ∀ l ∈ m.procs, l.sys.sh.store = m.store
  count : startCount evs = m.procs.length
  fresh : ∃ calls : List LEvent, (∀ ev ∈ calls, ∃ (x : LocalCall) (ch : Nat → Choice), ev = .call x ch ∧ x.adds = true) ∧ (LSys.run E st calls).sys = .init E m.store
  told : ∀ j l, m.procs[j]? = some l → ∃ story, Alone E st j evs story ∧ (LSys.run E st (story.map Prod.snd)).sys = l.sys

theorem alone_later {j : Nat} {evs : List MEvent} {story : List (Bool × LEvent)} (h : Alone E st j evs story) (ev : MEvent)
    (hev : ∀ e, ev ≠ .at j e) : Alone E st j (evs ++ [ev]) story := by
  obtain ⟨⟨a, b, h1, h2, h3⟩, h4⟩ := h
  refine ⟨⟨a, b ++ [ev], by simp [h1], h2, ?_⟩, h4⟩
  rw [h3]
  cases ev with
  | start => simp [ownEvents]
  | «at» k e =>
    have : k ≠ j := fun hkj => hev e (by rw [hkj])
    simp [ownEvents, this]

theorem minv_step (hk : HasPassphrase E) (hst : GoodStore E st) {evs : List MEvent} {m : Multi E} (h : MInv st evs m) (ev : MEvent) :
    MInv st (evs ++ [ev]) (m.step ev) := by
  cases ev with
  | start =>
    refine ⟨?_, ?_, h.fresh, ?_⟩
    · intro l hl
      rcases List.mem_append.1 hl with hl | hl
      · exact h.same l hl
      · simp at hl; subst hl; rfl
    · have := h.count
      simp only [startCount] at this
      simp [startCount, Multi.step, List.countP_append, this]
    · intro j l hl
      simp only [Multi.step] at hl
      rcases Nat.lt_or_ge j m.procs.length with hj | hj
      · rw [List.getElem?_append_left hj] at hl
        obtain ⟨story, h1, h2⟩ := h.told j l hl
        exact ⟨story, alone_later h1 _ (by simp), h2⟩
      · rw [List.getElem?_append_right hj] at hl
        have hj' : j - m.procs.length = 0 := by
          rcases Nat.eq_zero_or_pos (j - m.procs.length) with h0 | h0
          · exact h0
          · rw [List.getElem?_eq_none (by simp; omega)] at hl; cases hl
        rw [hj'] at hl
        simp at hl
        subst hl
        obtain ⟨calls, hc1, hc2⟩ := h.fresh
        refine ⟨calls.map fun ev => (false, ev), ⟨⟨evs, [], rfl, ?_, ?_⟩, ?_⟩, ?_⟩
        · rw [h.count]; omega
        · simp [ownEvents, List.filter_map, Function.comp_def]
        · intro ev hev
          simp at hev
          exact hc1 ev hev
        · simpa [List.map_map, Function.comp_def] using hc2
  | «at» j ev =>
    have hcount : startCount (evs ++ [.at j ev]) = startCount evs := by simp [startCount, List.countP_append]
    cases hl : m.procs[j]? with
    | none =>
      have hs : m.step (.at j ev) = m := by simp [Multi.step, hl]
      rw [hs]
      refine ⟨h.same, by rw [hcount]; exact h.count, h.fresh, ?_⟩
      intro k l hkl
      obtain ⟨story, h1, h2⟩ := h.told k l hkl
      refine ⟨story, alone_later h1 _ ?_, h2⟩
      intro e he
      cases he
      rw [hl] at hkl; cases hkl
    | some l =>
      have hs : m.step (.at j ev) = ⟨(l.step ev).sys.sh.store, (m.procs.set j (l.step ev)).map fun p => p.onStore (l.step ev).sys.sh.store⟩ := by
        simp [Multi.step, hl]
      rw [hs]
      obtain ⟨story, hstory, hlsys⟩ := h.told j l hl
      have hlm : l ∈ m.procs := List.mem_of_getElem? hl
      have hmst : l.sys.sh.store = m.store := h.same l hlm
      have hchange := store_change hk hst _ l hlsys ev
      have honto : ∀ p : LSys E, p.sys.sh.store = (l.step ev).sys.sh.store → (p.onStore (l.step ev).sys.sh.store) = p := by
        intro p hp
        rw [← hp]
        rfl
      refine ⟨?_, ?_, ?_, ?_⟩
      · intro p hp
        obtain ⟨q, -, rfl⟩ := List.mem_map.1 hp
        rfl
      · rw [hcount, h.count]; simp
      · obtain ⟨calls, hc1, hc2⟩ := h.fresh
        rcases hchange with hsame | ⟨x, ch, hx, hc⟩
        · exact ⟨calls, hc1, by rw [hc2, hsame, hmst]⟩
        · refine ⟨calls ++ [.call x ch], ?_, ?_⟩
          · intro ev hev
            rcases List.mem_append.1 hev with hev | hev
            · exact hc1 ev hev
            · simp at hev; exact ⟨x, ch, hev, hx⟩
          · rw [lrun_snoc, lstep_sys _ (⟨.init E m.store, []⟩ : LSys E) hc2]
            have := hc (Sys.init E m.store).sh hmst.symm
            simp only [LSys.step, this]
            rfl
      · intro k p hkp
        simp only [List.getElem?_map, List.getElem?_set] at hkp
        by_cases hkj : j = k
        · subst hkj
          have hlt : j < m.procs.length := by
            rcases Nat.lt_or_ge j m.procs.length with h' | h'
            · exact h'
            · rw [List.getElem?_eq_none h'] at hl; cases hl
          simp [hlt] at hkp
          rw [honto _ rfl] at hkp
          subst hkp
          obtain ⟨⟨a, b, h1, h2, h3⟩, h4⟩ := hstory
          refine ⟨story ++ [(true, ev)], ⟨⟨a, b ++ [.at j ev], by simp [h1], h2, ?_⟩, ?_⟩, ?_⟩
          · simp [ownEvents, List.filter_append] at h3 ⊢
            exact h3
          · intro ev' hev'
            rcases List.mem_append.1 hev' with hev' | hev'
            · exact h4 ev' hev'
            · simp at hev'
          · rw [List.map_append, List.map_cons, List.map_nil, lrun_snoc]
            exact lstep_sys _ _ hlsys ev
        · simp only [hkj, if_false] at hkp
          cases hp : m.procs[k]? with
          | none => rw [hp] at hkp; cases hkp
          | some q =>
            rw [hp] at hkp
            simp at hkp
            subst hkp
            obtain ⟨story', hstory', hqsys⟩ := h.told k q hp
            have hqst : q.sys.sh.store = m.store := h.same q (List.mem_of_getElem? hp)
            have hne : ∀ e, MEvent.at j ev ≠ .at k e := by
              intro e he; cases he; exact hkj rfl
            rcases hchange with hsame | ⟨x, ch, hx, hc⟩
            · refine ⟨story', alone_later hstory' _ hne, ?_⟩
              rw [hqsys, hsame, hmst, ← hqst]; rfl
            · obtain ⟨⟨a, b, h1, h2, h3⟩, h4⟩ := alone_later hstory' (.at j ev) hne
              refine ⟨story' ++ [(false, .call x ch)], ⟨⟨a, b, h1, h2, ?_⟩, ?_⟩, ?_⟩
              · rw [← h3]; simp [List.filter_append]
              · intro ev' hev'
                rcases List.mem_append.1 hev' with hev' | hev'
                · exact h4 ev' hev'
                · simp at hev'; exact ⟨x, ch, hev', hx⟩
              · rw [List.map_append, List.map_cons, List.map_nil, lrun_snoc, lstep_sys _ q hqsys]
                have := hc q.sys.sh (by rw [hqst, hmst])
                simp only [LSys.step, this]
                rfl

theorem minv_run (hk : HasPassphrase E) (hst : GoodStore E st) (evs : List MEvent) : MInv st evs (Multi.run E st evs) := by
  have key : ∀ (evs pre : List MEvent) (m : Multi E), MInv st pre m → MInv st (pre ++ evs) (evs.foldl Multi.step m) := by
    intro evs
    induction evs with
    | nil => intro pre m h; simpa using h
    | cons ev evs ih =>
      intro pre m h
      have := ih (pre ++ [ev]) (m.step ev) (minv_step hk hst h ev)
      simpa using this
  have h0 : MInv st [] (⟨st, []⟩ : Multi E) := ⟨by simp, rfl, ⟨[], by simp, rfl⟩, by simp⟩
  exact key evs [] _ h0

/-- Where a process of the next state comes from. -/
theorem procs_step (m : Multi E) (ev : MEvent) (k : Nat) (p : LSys E) (h : (m.step ev).procs[k]? = some p) :
    (∃ q st', m.procs[k]? = some q ∧ p = q.onStore st') ∨ (ev = .start ∧ k = m.procs.length ∧ p = ⟨.init E m.store, []⟩) ∨
    ∃ q e, ev = .at k e ∧ m.procs[k]? = some q ∧ p = q.step e := by
  cases ev with
  | start =>
    simp only [Multi.step] at h
    rcases Nat.lt_or_ge k m.procs.length with hk | hk
    · rw [List.getElem?_append_left hk] at h
      exact Or.inl ⟨p, p.sys.sh.store, h, rfl⟩
    · rw [List.getElem?_append_right hk] at h
      rcases Nat.eq_zero_or_pos (k - m.procs.length) with h0 | h0
      · rw [h0] at h
        simp at h
        exact Or.inr (Or.inl ⟨rfl, by omega, h.symm⟩)
      · rw [List.getElem?_eq_none (by simp; omega)] at h; cases h
  | «at» j ev =>
    cases hl : m.procs[j]? with
    | none =>
      have hs : m.step (.at j ev) = m := by simp [Multi.step, hl]
      rw [hs] at h
      exact Or.inl ⟨p, p.sys.sh.store, h, rfl⟩
    | some l =>
      have hs : m.step (.at j ev) = ⟨(l.step ev).sys.sh.store, (m.procs.set j (l.step ev)).map fun p => p.onStore (l.step ev).sys.sh.store⟩ := by
        simp [Multi.step, hl]
      rw [hs] at h
      simp only [List.getElem?_map, List.getElem?_set] at h
      by_cases hjk : j = k
      · subst hjk
        have hlt : j < m.procs.length := by
          rcases Nat.lt_or_ge j m.procs.length with h' | h'
          · exact h'
          · rw [List.getElem?_eq_none h'] at hl; cases hl
        simp [hlt] at h
        exact Or.inr (Or.inr ⟨l, ev, rfl, hl, h.symm⟩)
      · simp only [hjk, if_false] at h
        cases hq : m.procs[k]? with
        | none => rw [hq] at h; cases h
        | some q =>
          rw [hq] at h
          simp at h
          exact Or.inl ⟨q, _, rfl, h.symm⟩

/-- What the records of a process say about each other. -/
structure Ghost (l : LSys E) : Prop where
  tid : ∀ t ∈ l.sys.threads, t.id < l.sys.inbox.length
  did : ∀ d ∈ l.sys.done, d.id < l.sys.inbox.length
  tlog : ∀ t ∈ l.sys.threads, ∀ ev ∈ t.log, (t.id, ev) ∈ l.sys.hist
  dlog : ∀ d ∈ l.sys.done, ∀ ev ∈ d.log, (d.id, ev) ∈ l.sys.hist

/-- Requests with a number from `n` on have started when the entries `T` were there. -/
structure AfterT (n : Nat) (T : List Entry) (l : LSys E) : Prop where
  threads : ∀ t ∈ l.sys.threads, n ≤ t.id → T <+: E.S.tbl t.start.store
  done : ∀ d ∈ l.sys.done, n ≤ d.id → T <+: E.S.tbl d.start.store

theorem mem_finish_done {s : Sys E} {i : Nat} {t : Thread E} {o : Res Resp} {d : Done E} (h : d ∈ (s.finish i t o).done) :
    d ∈ s.done ∨ d = ⟨t.id, t.conn, t.msg, t.start, s.sh, t.log, o, deliver t.msg.id o⟩ := by
  rcases List.mem_append.1 h with h | h
  · exact Or.inl h
  · exact Or.inr (by simpa using h)

theorem ghost_step {l : LSys E} (h : Ghost l) (ev : LEvent) : Ghost (l.step ev) := by
  cases ev with
  | call x ch => exact ⟨h.tid, h.did, h.tlog, h.dlog⟩
  | srv ev =>
    cases ev with
    | recv c m =>
      refine ⟨?_, ?_, ?_, h.dlog⟩
      · intro t ht
        show t.id < (l.sys.inbox ++ [(c, m)]).length
        rcases List.mem_append.1 ht with ht | ht
        · have := h.tid t ht; simp; omega
        · simp at ht; subst ht; simp
      · intro d hd
        have := h.did d hd
        show d.id < (l.sys.inbox ++ [(c, m)]).length
        simp; omega
      · intro t ht ev hev
        rcases List.mem_append.1 ht with ht | ht
        · exact h.tlog t ht ev hev
        · simp at ht; subst ht; cases hev
    | restart => exact ⟨by simp [LSys.step, Sys.step], h.did, by simp [LSys.step, Sys.step], h.dlog⟩
    | step i ch =>
      have fin : ∀ (t : Thread E) (o : Res Resp), t ∈ l.sys.threads → ∀ log, Ghost (⟨l.sys.finish i t o, log⟩ : LSys E) := by
        intro t o ht log
        refine ⟨fun u hu => h.tid u (List.mem_of_mem_eraseIdx hu), ?_, fun u hu => h.tlog u (List.mem_of_mem_eraseIdx hu), ?_⟩
        · intro d hd
          rcases mem_finish_done hd with hd | rfl
          · exact h.did d hd
          · exact h.tid t ht
        · intro d hd
          rcases mem_finish_done hd with hd | rfl
          · exact h.dlog d hd
          · exact h.tlog t ht
      simp only [LSys.step]
      cases hti : l.sys.threads[i]? with
      | none => rw [step_none _ i ch hti]; exact ⟨h.tid, h.did, h.tlog, h.dlog⟩
      | some t =>
        have ht := List.mem_of_getElem? hti
        cases hp : t.prog with
        | ret r => rw [step_ret _ i ch t r hti hp]; exact fin t _ ht _
        | fail e => rw [step_fail _ i ch t e hti hp]; exact fin t _ ht _
        | step a k =>
          rw [step_act _ i ch t a k hti hp]
          refine ⟨?_, h.did, ?_, ?_⟩
          · intro u hu
            rcases List.mem_or_eq_of_mem_set hu with hu | rfl
            · exact h.tid u hu
            · exact h.tid t ht
          · intro u hu ev hev
            show (u.id, ev) ∈ l.sys.hist ++ _
            rcases List.mem_or_eq_of_mem_set hu with hu | rfl
            · exact List.mem_append_left _ (h.tlog u hu ev hev)
            · rcases List.mem_append.1 hev with hev | hev
              · exact List.mem_append_left _ (h.tlog t ht ev hev)
              · exact List.mem_append_right _ (List.mem_map.2 ⟨ev, hev, rfl⟩)
          · intro d hd ev hev
            exact List.mem_append_left _ (h.dlog d hd ev hev)

theorem afterT_step {n : Nat} {T : List Entry} {l : LSys E} (h : AfterT n T l) (hT : T <+: E.S.tbl l.sys.sh.store) (ev : LEvent) :
    AfterT n T (l.step ev) := by
  cases ev with
  | call x ch => exact ⟨h.threads, h.done⟩
  | srv ev =>
    cases ev with
    | recv c m =>
      refine ⟨?_, h.done⟩
      intro t ht hn
      rcases List.mem_append.1 ht with ht | ht
      · exact h.threads t ht hn
      · simp at ht; subst ht; exact hT
    | restart => exact ⟨by simp [LSys.step, Sys.step], h.done⟩
    | step i ch =>
      have fin : ∀ (t : Thread E) (o : Res Resp), t ∈ l.sys.threads → ∀ log, AfterT n T (⟨l.sys.finish i t o, log⟩ : LSys E) := by
        intro t o ht log
        refine ⟨fun u hu => h.threads u (List.mem_of_mem_eraseIdx hu), ?_⟩
        intro d hd
        rcases mem_finish_done hd with hd | rfl
        · exact h.done d hd
        · exact h.threads t ht
      simp only [LSys.step]
      cases hti : l.sys.threads[i]? with
      | none => rw [step_none _ i ch hti]; exact ⟨h.threads, h.done⟩
      | some t =>
        have ht := List.mem_of_getElem? hti
        cases hp : t.prog with
        | ret r => rw [step_ret _ i ch t r hti hp]; exact fin t _ ht _
        | fail e => rw [step_fail _ i ch t e hti hp]; exact fin t _ ht _
        | step a k =>
          rw [step_act _ i ch t a k hti hp]
          refine ⟨?_, h.done⟩
          intro u hu
          rcases List.mem_or_eq_of_mem_set hu with hu | rfl
          · exact h.threads u hu
          · exact h.threads t ht

/-- What an event in a process does to the entries, and what of it the process has done for a request. -/
theorem lstep_tbl {l : LSys E} (hi : Inv l.sys.sh) (ev : LEvent) : ∃ more, E.S.tbl (l.step ev).sys.sh.store = E.S.tbl l.sys.sh.store ++ more ∧
    (writesOf (l.step ev).sys.hist = writesOf l.sys.hist ∨ writesOf (l.step ev).sys.hist = writesOf l.sys.hist ++ more) := by
  cases ev with
  | call x ch =>
    cases hx : x.adds with
    | true =>
      rcases oneNew_call x hx ch l.sys.sh hi.ok with ⟨_, h2⟩ | ⟨o, e, h1, h2, _⟩
      · exact ⟨[], by simp [LSys.step, h2], Or.inl rfl⟩
      · exact ⟨[e], h2, Or.inl rfl⟩
    | false =>
      refine ⟨[], ?_, Or.inl rfl⟩
      have h2 : (runAlone ch l.sys.sh (x.prog E)).2 = l.sys.sh := by
        cases x with
        | list =>
          simp only [LocalCall.prog, runAlone, exec]
          cases (ch 0).fault with
          | some y => rfl
          | none => simp only; cases E.S.I.list l.sys.sh.store <;> rfl
        | byTag t => exact lookup_same 0 _ rfl _ _
        | byEd t => exact lookup_same 0 _ rfl _ _
        | byX t => exact lookup_same 0 _ rfl _ _
        | _ => cases hx
      simp [LSys.step, h2]
  | srv ev =>
    simp only [LSys.step]
    cases ev with
    | recv c m => exact ⟨[], by simp [Sys.step], Or.inl rfl⟩
    | restart => exact ⟨[], by simp [Sys.step], Or.inl rfl⟩
    | step i ch =>
      cases hti : l.sys.threads[i]? with
      | none => rw [step_none _ i ch hti]; exact ⟨[], by simp, Or.inl rfl⟩
      | some t =>
        cases hp : t.prog with
        | ret r => rw [step_ret _ i ch t r hti hp]; exact ⟨[], by simp [Sys.finish], Or.inl rfl⟩
        | fail e => rw [step_fail _ i ch t e hti hp]; exact ⟨[], by simp [Sys.finish], Or.inl rfl⟩
        | step a k =>
          rw [step_act _ i ch t a k hti hp]
          refine ⟨_, exec_tbl t.conn ch l.sys.sh hi a t.id, Or.inr ?_⟩
          simp [Sys.perform, writesOf]

theorem lrun_good (hk : HasPassphrase E) (hst : GoodStore E st) (evs : List LEvent) : Inv (LSys.run E st evs).sys.sh := by
  obtain ⟨c, a, h⟩ := lrun_one (st := st) hk evs
  have i := (sysInv_run hst a).inv
  obtain ⟨l1, l2, l3, l4, l5⟩ := h.sh
  generalize (LSys.run E st evs).sys.sh = s at *
  obtain ⟨s1, s2, s3, s4, s5⟩ := s
  simp only at l1 l2 l3 l4
  subst l1 l2 l3 l4
  exact ⟨i.ok, i.distinct, i.wf, i.cTag, i.cEd, i.cX, i.lTag, i.lEd, i.lX⟩

/-- What holds of the writes of all processes. -/
structure Writes (m : Multi E) : Prop where
  ghost : ∀ l ∈ m.procs, Ghost l
  mem : ∀ l ∈ m.procs, ∀ e ∈ writesOf l.sys.hist, e ∈ E.S.tbl m.store
  one : ∀ l ∈ m.procs, (writesOf l.sys.hist).Pairwise fun a b => ¬ Clash a b
  two : ∀ (i j : Nat) (l p : LSys E), i ≠ j → m.procs[i]? = some l → m.procs[j]? = some p → ∀ e ∈ writesOf l.sys.hist, ∀ e' ∈ writesOf p.sys.hist, ¬ Clash e e'

theorem mprocs_inv (hk : HasPassphrase E) (hst : GoodStore E st) (evs : List MEvent) (l : LSys E) (hl : l ∈ (Multi.run E st evs).procs) :
    Inv l.sys.sh := by
  obtain ⟨j, hj⟩ := List.mem_iff_getElem?.1 hl
  obtain ⟨story, _, h⟩ := (minv_run hk hst evs).told j l hj
  rw [← h]; exact lrun_good hk hst _

theorem mstore_good (hk : HasPassphrase E) (hst : GoodStore E st) (evs : List MEvent) : GoodStore E (Multi.run E st evs).store := by
  obtain ⟨calls, _, h⟩ := (minv_run hk hst evs).fresh
  have i := lrun_good hk hst calls
  rw [h] at i
  exact ⟨i.ok, i.distinct, i.wf⟩

theorem mstep_tbl (hk : HasPassphrase E) (hst : GoodStore E st) (evs : List MEvent) (ev : MEvent) :
    E.S.tbl (Multi.run E st evs).store <+: E.S.tbl (Multi.run E st (evs ++ [ev])).store := by
  rw [mrun_snoc]
  cases ev with
  | start => exact List.prefix_refl _
  | «at» j ev =>
    simp only [Multi.step]
    cases hl : (Multi.run E st evs).procs[j]? with
    | none => exact List.prefix_refl _
    | some l =>
      have hm := List.mem_of_getElem? hl
      obtain ⟨more, h, _⟩ := lstep_tbl (mprocs_inv hk hst evs l hm) ev
      rw [(minv_run hk hst evs).same l hm] at h
      exact ⟨more, h.symm⟩

theorem mrun_tbl (hk : HasPassphrase E) (hst : GoodStore E st) (evs₁ evs₂ : List MEvent) :
    E.S.tbl (Multi.run E st evs₁).store <+: E.S.tbl (Multi.run E st (evs₁ ++ evs₂)).store := by
  induction evs₂ generalizing evs₁ with
  | nil => simp
  | cons ev evs₂ ih =>
    have := (mstep_tbl hk hst evs₁ ev).trans (ih (evs₁ ++ [ev]))
    simpa using this

theorem writes_run (hk : HasPassphrase E) (hst : GoodStore E st) (evs : List MEvent) : Writes (Multi.run E st evs) := by
  have key : ∀ (evs pre : List MEvent), Writes (Multi.run E st pre) → Writes (Multi.run E st (pre ++ evs)) := by
    intro evs
    induction evs with
    | nil => intro pre h; simpa using h
    | cons ev evs ih =>
      intro pre h
      have hnext : Writes (Multi.run E st (pre ++ [ev])) := by
        have hpre := (mstep_tbl hk hst pre ev)
        have hdist := (mstore_good hk hst (pre ++ [ev])).distinct
        -- what the writes of a process become
        have wr : ∀ (k : Nat) (p : LSys E), (Multi.run E st (pre ++ [ev])).procs[k]? = some p →
            Ghost p ∧ ((writesOf p.sys.hist = [] ∨ ∃ q, (Multi.run E st pre).procs[k]? = some q ∧ writesOf p.sys.hist = writesOf q.sys.hist) ∨
              ∃ q e more, ev = .at k e ∧ (Multi.run E st pre).procs[k]? = some q ∧
                E.S.tbl (Multi.run E st (pre ++ [ev])).store = E.S.tbl (Multi.run E st pre).store ++ more ∧
                writesOf p.sys.hist = writesOf q.sys.hist ++ more) := by
          intro k p hp
          rw [mrun_snoc] at hp ⊢
          rcases procs_step _ _ _ _ hp with ⟨q, st', hq, rfl⟩ | ⟨_, _, rfl⟩ | ⟨q, e, rfl, hq, rfl⟩
          · have g := h.ghost q (List.mem_of_getElem? hq)
            exact ⟨⟨g.tid, g.did, g.tlog, g.dlog⟩, Or.inl (Or.inr ⟨q, hq, rfl⟩)⟩
          · exact ⟨⟨by simp [Sys.init], by simp [Sys.init], by simp [Sys.init], by simp [Sys.init]⟩, Or.inl (Or.inl rfl)⟩
          · have hqm := List.mem_of_getElem? hq
            refine ⟨ghost_step (h.ghost q hqm) e, ?_⟩
            obtain ⟨more, h1, h2⟩ := lstep_tbl (mprocs_inv hk hst pre q hqm) e
            rcases h2 with h2 | h2
            · exact Or.inl (Or.inr ⟨q, hq, h2⟩)
            · refine Or.inr ⟨q, e, more, rfl, hq, ?_, h2⟩
              rw [(minv_run hk hst pre).same q hqm] at h1
              rw [← h1]
              simp [Multi.step, hq]
        have wmem : ∀ (k : Nat) (p : LSys E), (Multi.run E st (pre ++ [ev])).procs[k]? = some p →
            ∀ e ∈ writesOf p.sys.hist, e ∈ E.S.tbl (Multi.run E st (pre ++ [ev])).store := by
          intro k p hp e he
          rcases (wr k p hp).2 with (h0 | ⟨q, hq, h0⟩) | ⟨q, _, more, _, hq, ht, h0⟩
          · rw [h0] at he; cases he
          · rw [h0] at he
            exact hpre.subset (h.mem q (List.mem_of_getElem? hq) e he)
          · rw [h0] at he
            rw [ht]
            rcases List.mem_append.1 he with he | he
            · exact List.mem_append_left _ (h.mem q (List.mem_of_getElem? hq) e he)
            · exact List.mem_append_right _ he
        -- an old entry and one just added do not clash
        have clean : ∀ more, E.S.tbl (Multi.run E st (pre ++ [ev])).store = E.S.tbl (Multi.run E st pre).store ++ more →
            ∀ a ∈ E.S.tbl (Multi.run E st pre).store, ∀ b ∈ more, ¬ Clash a b := by
          intro more hm a ha b hb
          rw [hm] at hdist
          exact (List.pairwise_append.1 hdist).2.2 a ha b hb
        have cross : ∀ (i j : Nat) (l p : LSys E), i ≠ j → (Multi.run E st (pre ++ [ev])).procs[i]? = some l →
            (Multi.run E st (pre ++ [ev])).procs[j]? = some p → (∃ q, (Multi.run E st pre).procs[j]? = some q ∧ writesOf p.sys.hist = writesOf q.sys.hist) →
            ∀ e ∈ writesOf l.sys.hist, ∀ e' ∈ writesOf p.sys.hist, ¬ Clash e e' := by
          intro i j l p hij hl hp ⟨q, hq, hpq⟩ e he e' he'
          rw [hpq] at he'
          rcases (wr i l hl).2 with (h0 | ⟨q', hq', h0⟩) | ⟨q', _, more, _, hq', ht, h0⟩
          · rw [h0] at he; cases he
          · rw [h0] at he
            exact h.two i j q' q hij hq' hq e he e' he'
          · rw [h0] at he
            rcases List.mem_append.1 he with he | he
            · exact h.two i j q' q hij hq' hq e he e' he'
            · exact fun hc => clean more ht e' (h.mem q (List.mem_of_getElem? hq) e' he') e he (clash_symm hc)
        refine ⟨?_, ?_, ?_, ?_⟩
        · intro l hl
          obtain ⟨k, hk'⟩ := List.mem_iff_getElem?.1 hl
          exact (wr k l hk').1
        · intro l hl
          obtain ⟨k, hk'⟩ := List.mem_iff_getElem?.1 hl
          exact wmem k l hk'
        · intro l hl
          obtain ⟨k, hk'⟩ := List.mem_iff_getElem?.1 hl
          rcases (wr k l hk').2 with (h0 | ⟨q, hq, h0⟩) | ⟨q, _, more, _, hq, ht, h0⟩
          · rw [h0]; exact List.Pairwise.nil
          · rw [h0]; exact h.one q (List.mem_of_getElem? hq)
          · rw [h0]
            refine List.pairwise_append.2 ⟨h.one q (List.mem_of_getElem? hq), ?_, ?_⟩
            · have := hdist
              rw [ht] at this
              exact (List.pairwise_append.1 this).2.1
            · exact fun a ha b hb => clean more ht a (h.mem q (List.mem_of_getElem? hq) a ha) b hb
        · intro i j l p hij hl hp
          rcases (wr j p hp).2 with (h0 | hold) | ⟨q, e, more, hev, hq, ht, h0⟩
          · intro e _ e' he'; rw [h0] at he'; cases he'
          · exact cross i j l p hij hl hp hold
          · -- then process `i` is as before
            rcases (wr i l hl).2 with (h0' | hold) | ⟨_, _, _, hev', _⟩
            · intro e he; rw [h0'] at he; cases he
            · intro e he e' he' hc
              exact cross j i p l (Ne.symm hij) hp hl hold e' he' e he (clash_symm hc)
            · rw [hev] at hev'
              cases hev'
              exact absurd rfl hij
      have := ih (pre ++ [ev]) hnext
      simpa using this
  have h0 : Writes (Multi.run E st []) := ⟨by simp [Multi.run], by simp [Multi.run], by simp [Multi.run], by simp [Multi.run]⟩
  exact key evs [] h0

/-- What a finished request of a process has done. -/
theorem mdone_spec (hk : HasPassphrase E) (hst : GoodStore E st) (evs : List MEvent) (j : Nat) (l : LSys E)
    (hl : (Multi.run E st evs).procs[j]? = some l) (d : Done E) (hd : d ∈ l.sys.done) :
    ∃ d' : Done E, HSpec d'.conn d'.start d'.stop d.log d.outcome d.msg ∧ d.start.store = d'.start.store ∧ Inv d'.stop ∧ Ext d'.start d'.stop := by
  obtain ⟨story, _, h⟩ := (minv_run hk hst evs).told j l hl
  rw [← h] at hd
  obtain ⟨c, a, hb⟩ := lrun_one (st := st) hk (story.map Prod.snd)
  obtain ⟨d', hd', hs⟩ := hb.done.mem d hd
  have hd'' : d' ∈ (Sys.run E st a).done := (List.mem_filter.1 hd').1
  obtain ⟨_, hi, hx⟩ := done_inv hst hd''
  refine ⟨d', ?_, hs.start.store, hi, hx⟩
  have := done_spec hst hd''
  rw [← hs.msg, ← hs.log, ← hs.outcome] at this
  exact this

/-- A creation that succeeded has written. -/
theorem mcreation (hk : HasPassphrase E) (hst : GoodStore E st) (evs : List MEvent) (j : Nat) (l : LSys E)
    (hl : (Multi.run E st evs).procs[j]? = some l) (d : Done E) (hd : d ∈ l.sys.done) (i t : String) (r : Req) (hm : d.msg = .req i r)
    (hc : Creates r t) (resp : Resp) (ho : d.outcome = .ok resp) :
    ∃ e, e.tag = t ∧ Reports resp e ∧ (d.id, Ev.wrote e) ∈ l.sys.hist ∧ ∀ e' ∈ E.S.tbl d.start.store, ¬ Clash e' e := by
  obtain ⟨d', hs, hst', _⟩ := mdone_spec hk hst evs j l hl d hd
  rcases hspec_effect hs with ⟨i', r', t', e, resp', h1, h2, h3, h4, h5, h6, h7, h8⟩ | ⟨_, h⟩
  · rw [hm] at h1; cases h1
    rw [ho] at h4; cases h4
    have : t' = t := by cases r <;> simp_all [Creates]
    refine ⟨e, by rw [h5, this], h6, ?_, by rw [hst']; exact h8⟩
    exact ((writes_run hk hst evs).ghost l (List.mem_of_getElem? hl)).dlog d hd _ (by rw [h3]; simp)
  · obtain ⟨x, hx⟩ := h i r t hm hc
    rw [ho] at hx; cases hx

/-! ### C69 -/

/-- C69. Every process behaves as if it were alone on the store, and somebody in it used the store handle at the times when the others
    add entries: same shared state, same requests in flight, same finished requests. So all that is proved of a server with a store
    handle beside it (C68), and with it of a server (C01 and so on), holds of every one of several servers on one file. -/
theorem C69_each_as_if_alone (hk : HasPassphrase E) (hst : GoodStore E st) (evs : List MEvent) (j : Nat) (l : LSys E)
    (hl : (Multi.run E st evs).procs[j]? = some l) :
    ∃ story, Alone E st j evs story ∧ (LSys.run E st (story.map Prod.snd)).sys = l.sys :=
  (minv_run hk hst evs).told j l hl

/-- C69. No client can tell that there are other servers: there is a run of one server, serving clients only, in which the clients of
    this process (on any number `n` of connections) have got the same answers to the same messages in the same order. -/
theorem C69_clients_cannot_tell (hk : HasPassphrase E) (hst : GoodStore E st) (evs : List MEvent) (j : Nat) (l : LSys E)
    (hl : (Multi.run E st evs).procs[j]? = some l) (n : Nat) :
    ∃ a : List Event, ∀ d < n,
      (l.sys.done.filter fun x => x.conn = d).map (fun x => (x.msg, x.outcome, x.wire)) =
      ((Sys.run E st a).done.filter fun x => x.conn = d).map (fun x => (x.msg, x.outcome, x.wire)) := by
  obtain ⟨story, _, h⟩ := (minv_run hk hst evs).told j l hl
  obtain ⟨c, hn, hc⟩ := spare_from (story.map Prod.snd) n
  obtain ⟨p, hp⟩ := hk.on c
  obtain ⟨bs, hl, _, _, hb⟩ := beside_run hp (story.map Prod.snd) _ _ (beside_init (E := E) (st := st) c) hc
  have hb := hb (story.map Prod.snd).length
  rw [List.take_length] at hb
  refine ⟨(bs.take (story.map Prod.snd).length).flatten, fun d hd => ?_⟩
  rw [← h]
  exact same_answers hb (by omega)

/-- C69. There is one store: every process works on the entries in the file. -/
theorem C69_one_store (hk : HasPassphrase E) (hst : GoodStore E st) (evs : List MEvent) (l : LSys E)
    (hl : l ∈ (Multi.run E st evs).procs) : l.sys.entries = (Multi.run E st evs).entries :=
  congrArg E.S.tbl ((minv_run hk hst evs).same l hl)

/-- C69. Entries stay for ever, whichever process added them and whatever the others do, and no two have the same tag or key. -/
theorem C69_entries_permanent (hk : HasPassphrase E) (hst : GoodStore E st) (evs₁ evs₂ : List MEvent) :
    (Multi.run E st evs₁).entries <+: (Multi.run E st (evs₁ ++ evs₂)).entries ∧
    ((Multi.run E st evs₁).entries.map Entry.tag).Nodup ∧
    ((Multi.run E st evs₁).entries.filterMap Entry.edKey).Nodup ∧
    ((Multi.run E st evs₁).entries.filterMap Entry.xKey).Nodup :=
  ⟨mrun_tbl hk hst evs₁ evs₂, C06_tags_and_keys_unique (mstore_good hk hst evs₁) []⟩

/-- C69. A creation that one server has answered with success is in the file, under the requested tag, with the information the answer
    reports, and was new. -/
theorem C69_success_means_stored (hk : HasPassphrase E) (hst : GoodStore E st) (evs : List MEvent) (j : Nat) (l : LSys E)
    (hl : (Multi.run E st evs).procs[j]? = some l) (d : Done E) (hd : d ∈ l.sys.done) (i t : String) (r : Req) (hm : d.msg = .req i r)
    (hc : Creates r t) (resp : Resp) (ho : d.outcome = .ok resp) :
    ∃ e ∈ (Multi.run E st evs).entries, e.tag = t ∧ Reports resp e ∧ ∀ e' ∈ E.S.tbl d.start.store, ¬ Clash e' e := by
  obtain ⟨e, h1, h2, h3, h4⟩ := mcreation hk hst evs j l hl d hd i t r hm hc resp ho
  refine ⟨e, (writes_run hk hst evs).mem l (List.mem_of_getElem? hl) e ?_, h1, h2, h4⟩
  exact List.mem_filterMap.2 ⟨_, h3, rfl⟩

/-- C69. Of two creations of one tag at most one succeeds, at whichever of the servers they are made and however they interleave. -/
theorem C69_racing_creations (hk : HasPassphrase E) (hst : GoodStore E st) (evs : List MEvent) (j₁ j₂ : Nat) (l₁ l₂ : LSys E)
    (hl₁ : (Multi.run E st evs).procs[j₁]? = some l₁) (hl₂ : (Multi.run E st evs).procs[j₂]? = some l₂) (d₁ d₂ : Done E)
    (hd₁ : d₁ ∈ l₁.sys.done) (hd₂ : d₂ ∈ l₂.sys.done) (hne : (j₁, d₁.id) ≠ (j₂, d₂.id)) (t i₁ i₂ : String) (r₁ r₂ : Req)
    (hm₁ : d₁.msg = .req i₁ r₁) (hm₂ : d₂.msg = .req i₂ r₂) (hc₁ : Creates r₁ t) (hc₂ : Creates r₂ t) :
    ¬ (d₁.outcome.isOk = true ∧ d₂.outcome.isOk = true) := by
  rintro ⟨ho₁, ho₂⟩
  cases hr₁ : d₁.outcome with
  | error x => rw [hr₁] at ho₁; cases ho₁
  | ok a =>
  cases hr₂ : d₂.outcome with
  | error x => rw [hr₂] at ho₂; cases ho₂
  | ok b =>
  obtain ⟨e₁, ht₁, _, hh₁, _⟩ := mcreation hk hst evs j₁ l₁ hl₁ d₁ hd₁ i₁ t r₁ hm₁ hc₁ a hr₁
  obtain ⟨e₂, ht₂, _, hh₂, _⟩ := mcreation hk hst evs j₂ l₂ hl₂ d₂ hd₂ i₂ t r₂ hm₂ hc₂ b hr₂
  have hw := writes_run hk hst evs
  have hcl : Clash e₁ e₂ := Or.inl (by rw [ht₁, ht₂])
  by_cases hj : j₁ = j₂
  · subst hj
    rw [hl₁] at hl₂; cases hl₂
    have hid : d₁.id ≠ d₂.id := fun h => hne (by rw [h])
    have h1 := hw.one l₁ (List.mem_of_getElem? hl₁)
    unfold writesOf at h1
    rw [List.pairwise_filterMap] at h1
    exact pairwise_ne (by
      intro a b h x hx y hy hc
      exact h y hy x hx (clash_symm hc)) h1 hh₁ hh₂ (by intro h; exact hid (congrArg Prod.fst h)) e₁ rfl e₂ rfl hcl
  · exact hw.two j₁ j₂ l₁ l₂ hj hl₁ hl₂ e₁ (List.mem_filterMap.2 ⟨_, hh₁, rfl⟩) e₂ (List.mem_filterMap.2 ⟨_, hh₂, rfl⟩) hcl

/-- How many messages process `j` has received. -/
def Multi.received (m : Multi E) (j : Nat) : Nat := match m.procs[j]? with
  | none => 0
  | some l => l.sys.inbox.length

/-- C69. Once an entry is in the file, every get-entry request for it, at every server, also one started later, is answered with its
    information, unless the environment makes it fail or its connection is locked. -/
theorem C69_seen_everywhere (hk : HasPassphrase E) (hst : GoodStore E st) (evs₁ evs₂ : List MEvent) (e : Entry)
    (he : e ∈ (Multi.run E st evs₁).entries) (j : Nat) (l : LSys E) (hl : (Multi.run E st (evs₁ ++ evs₂)).procs[j]? = some l)
    (d : Done E) (hd : d ∈ l.sys.done) (hlater : (Multi.run E st evs₁).received j ≤ d.id) (i : String)
    (hm : d.msg = .req i (.getEntry e.tag)) (hf : Ev.fault ∉ d.log) (hlock : d.outcome ≠ .error "KeystoreLocked") :
    d.outcome = .ok (.getEntry e.info) := by
  have key : ∀ (evs pre : List MEvent), (∀ k p, (Multi.run E st (evs₁ ++ pre)).procs[k]? = some p →
        AfterT ((Multi.run E st evs₁).received k) (Multi.run E st evs₁).entries p) →
      ∀ k p, (Multi.run E st (evs₁ ++ (pre ++ evs))).procs[k]? = some p →
        AfterT ((Multi.run E st evs₁).received k) (Multi.run E st evs₁).entries p := by
    intro evs
    induction evs with
    | nil => intro pre h; simpa using h
    | cons ev evs ih =>
      intro pre h
      have hnext : ∀ k p, (Multi.run E st (evs₁ ++ (pre ++ [ev]))).procs[k]? = some p →
          AfterT ((Multi.run E st evs₁).received k) (Multi.run E st evs₁).entries p := by
        intro k p hp
        rw [← List.append_assoc, mrun_snoc] at hp
        rcases procs_step _ _ _ _ hp with ⟨q, st', hq, rfl⟩ | ⟨_, _, rfl⟩ | ⟨q, e, rfl, hq, rfl⟩
        · exact ⟨(h k q hq).threads, (h k q hq).done⟩
        · exact ⟨by simp [Sys.init], by simp [Sys.init]⟩
        · refine afterT_step (h k q hq) ?_ e
          rw [(minv_run hk hst (evs₁ ++ pre)).same q (List.mem_of_getElem? hq)]
          exact mrun_tbl hk hst evs₁ pre
      have := ih (pre ++ [ev]) hnext
      simpa using this
  have h0 : ∀ k p, (Multi.run E st (evs₁ ++ [])).procs[k]? = some p →
      AfterT ((Multi.run E st evs₁).received k) (Multi.run E st evs₁).entries p := by
    intro k p hp
    rw [List.append_nil] at hp
    have g := (writes_run hk hst evs₁).ghost p (List.mem_of_getElem? hp)
    have hr : (Multi.run E st evs₁).received k = p.sys.inbox.length := by simp [Multi.received, hp]
    rw [hr]
    refine ⟨fun t ht hn => ?_, fun d hd hn => ?_⟩
    · have := g.tid t ht; omega
    · have := g.did d hd; omega
  have ha := key evs₂ [] h0 j l (by simpa using hl)
  have hstart : e ∈ E.S.tbl d.start.store := (ha.done d hd hlater).subset he
  obtain ⟨d', hsp, hst', hi, hx⟩ := mdone_spec hk hst _ j l hl d hd
  rw [hst'] at hstart
  rw [hm] at hsp
  rcases hsp with ⟨_, h, _⟩ | ⟨_, ⟨h, _⟩ | ⟨_, h⟩ | ⟨_, e', he', ht, ho⟩⟩
  · exact absurd h hlock
  · rw [h] at hf; simp at hf
  · exact absurd rfl (h e hstart)
  · have : e' = e := hi.distinct.eq_of_clash he' (hx.mem hstart) (Or.inl ht)
    rw [ho, this]

/-! ### Examples: the hypotheses are met -/

namespace MultiEx
open Ex

def on (j : Nat) (evs : List Event) : List MEvent := evs.map fun ev => .at j (.srv ev)

/-- Two servers. A client of the first creates "alice"; a client of the second asks for it, and tries to create it again; somebody with
    the store handle of the second adds "bob"; the first restarts and its client asks for "bob"; a third server is started and asked for
    both. -/
def before : List MEvent := [.start, .start] ++ on 0 (unlock 0) ++ on 1 (unlock 0) ++ on 0 (serve 0 (.req "a" (.newSeed "alice" none true)) 7)

def rest : List MEvent := on 1 (serve 0 (.req "b" (.getEntry "alice")) 0) ++ on 1 (serve 0 (.req "c" (.newSeed "alice" none true)) 9) ++
  [.at 1 (.call (.insertSeed (B.fill 32 11) "bob" false) (fun _ => calm 1)), .at 0 (.srv .restart)] ++ on 0 (unlock 0) ++
  on 0 (serve 0 (.req "d" (.getEntry "bob")) 0) ++ [.start] ++ on 2 (unlock 0) ++ on 2 (serve 0 (.req "e" (.getEntry "alice")) 0)

def after : Multi (env false 2) := Multi.run (env false 2) MemStore.empty (before ++ rest)

set_option maxRecDepth 100000 in
example : after.entries.map Entry.tag = ["alice", "bob"] ∧ after.procs.length = 3 := by decide +kernel

-- what the requests of the three processes were answered: success or not
set_option maxRecDepth 100000 in
example : after.procs.map (fun l => l.sys.done.map fun d => d.outcome.isOk) =
    [[true, true, true, true], [true, true, false], [true, true]] := by decide +kernel

set_option maxRecDepth 100000 in
example : (Multi.run (env false 2) MemStore.empty before).entries.map Entry.tag = ["alice"] ∧
    (Multi.run (env false 2) MemStore.empty before).received 1 = 1 ∧ (Multi.run (env false 2) MemStore.empty before).received 2 = 0 := by
  decide +kernel

example : HasPassphrase (env false 2) ∧ GoodStore (env false 2) MemStore.empty :=
  ⟨⟨0, sent 0 pass, by decide +kernel⟩, goodStore_empty (env false 2)⟩

end MultiEx
end Lair
