import Verif.HandlerProofs

/-
The running server: any number of connections, each with any number of requests in flight, interleaved arbitrarily
(`for_each_concurrent`, priv_srv.rs:191-223; one such loop per connection), plus crashes / restarts of the process.
-/
namespace Lair

variable {E : Env}

/-- Does a message fit one encrypted frame? The cipher is 17 bytes longer than the encoding and frames hold 8192
    bytes (sodium_secretstream.rs:16, framed.rs:23, crypt.rs:37). -/
def sendable (m : Msg) : Bool := decide ((Codec.encodeMsg m).length + 17 ≤ 8192)

/-- Try to send an error (priv_srv.rs:213-221); a failure to do so is only logged. -/
def deliverErr (id : String) (e : String) : List Resp := if sendable (.res id (.error e)) then [.error e] else []

/-- What goes out for a finished handler: its response, or an error if it failed or the response could not be sent
    (priv_srv.rs:202-221: the `send` is inside the handler, its failure makes the handler fail). -/
def deliver (id : String) : Res Resp → List Resp
  | .ok r => if sendable (.res id r) then [r] else deliverErr id "FrameOverflow"
  | .error e => deliverErr id e

/-- A request being handled. `start` and `log` are ghost. -/
structure Thread (E : Env) where
  id : Nat
  conn : Nat
  msg : Msg
  start : Shared E
  log : List Ev
  prog : Prog Resp

/-- A finished request (ghost record): the state when it arrived, the state when it finished, the effects it had, the
    outcome of its handler, and the responses put on its connection. -/
structure Done (E : Env) where
  id : Nat
  conn : Nat
  msg : Msg
  start : Shared E
  stop : Shared E
  log : List Ev
  outcome : Res Resp
  wire : List Resp

/-- The whole system. All fields but `sh` and `threads` are ghost history. -/
structure Sys (E : Env) where
  sh : Shared E
  threads : List (Thread E)
  done : List (Done E)
  /-- all effects so far, with the number of the request that caused them -/
  hist : List (Nat × Ev)
  /-- all messages received so far: connection and message -/
  inbox : List (Nat × Msg)
  /-- requests abandoned by a restart -/
  dropped : List Nat

/-- What can happen next. Code: priv_srv.rs:141-236. -/
inductive Event where
  /-- a message arrives on a connection -/
  | recv (c : Nat) (m : Msg)
  /-- the `i`-th request in flight makes one step -/
  | step (i : Nat) (ch : Choice)
  /-- the process ends at this point and is started again on the same store -/
  | restart

/-- A finished request leaves the system with its outcome recorded. Code: priv_srv.rs:191-225; the record is ghost. -/
def Sys.finish (s : Sys E) (i : Nat) (t : Thread E) (o : Res Resp) : Sys E :=
  { s with
    threads := s.threads.eraseIdx i
    done := s.done ++ [⟨t.id, t.conn, t.msg, t.start, s.sh, t.log, o, deliver t.msg.id o⟩] }

/-- One action of a request. Code: priv_srv.rs:141-236. -/
def Sys.perform (s : Sys E) (i : Nat) (t : Thread E) (ch : Choice) (a : Act) (k : a.Out → Prog Resp) : Sys E :=
  { s with
    sh := (exec t.conn ch s.sh a).2.1
    threads := s.threads.set i { t with
      log := t.log ++ (exec t.conn ch s.sh a).2.2
      prog := k (exec t.conn ch s.sh a).1 }
    hist := s.hist ++ (exec t.conn ch s.sh a).2.2.map (fun ev => (t.id, ev)) }

/-- One event. Code: priv_srv.rs:141-236. -/
def Sys.step (s : Sys E) : Event → Sys E
  | .recv c m =>
    { s with
      threads := s.threads ++ [⟨s.inbox.length, c, m, s.sh, [], handle E c m⟩]
      inbox := s.inbox ++ [(c, m)] }
  | .step i ch =>
    match s.threads[i]? with
    | none => s
    | some t =>
      match t.prog with
      | .ret r => s.finish i t (.ok r)
      | .fail e => s.finish i t (.error e)
      | .step a k => s.perform i t ch a k
  | .restart =>
    { s with
      sh := ⟨s.sh.store, [], [], [], fun _ => false⟩
      threads := []
      dropped := s.dropped ++ s.threads.map Thread.id }

/-- A newly started server on store `st`. Code: Srv::new, priv_srv.rs:34-138. -/
def Sys.init (E : Env) (st : E.S.σ) : Sys E := ⟨⟨st, [], [], [], fun _ => false⟩, [], [], [], [], []⟩

/-- All events of a run. Code: priv_srv.rs:141-236. -/
def Sys.run (E : Env) (st : E.S.σ) (evs : List Event) : Sys E := evs.foldl Sys.step (Sys.init E st)

/-- A store a server may be started on: one whose entries were written by a server (with the same keys). An empty
    store is such a store (`goodStore_empty`), and so is the store of any run (`goodStore_run`).
    Specification: nothing in the code corresponds. -/
structure GoodStore (E : Env) (st : E.S.σ) : Prop where
  ok : E.S.ok st
  distinct : Distinct (E.S.tbl st)
  wf : ∀ e ∈ E.S.tbl st, WF E e

theorem goodStore_empty (E : Env) : GoodStore E E.S.I.empty :=
  ⟨E.S.R.empty_ok, by rw [E.S.R.empty_tbl]; exact List.Pairwise.nil, by rw [E.S.R.empty_tbl]; simp⟩

/-- Entries written, in order. Specification: nothing in the code corresponds. -/
def writesOf (h : List (Nat × Ev)) : List Entry := h.filterMap (fun p => match p.2 with
  | .wrote e => some e
  | _ => none)

/-- The part of the history caused by one request. Specification: nothing in the code corresponds. -/
def histOf (h : List (Nat × Ev)) (id : Nat) : List Ev := (h.filter (fun p => p.1 = id)).map Prod.snd

theorem step_none (s : Sys E) (i : Nat) (ch : Choice) (h : s.threads[i]? = none) : s.step (.step i ch) = s := by
  simp only [Sys.step, h]

theorem step_ret (s : Sys E) (i : Nat) (ch : Choice) (t : Thread E) (r : Resp) (h : s.threads[i]? = some t)
    (hp : t.prog = .ret r) : s.step (.step i ch) = s.finish i t (.ok r) := by
  simp only [Sys.step, h, hp]

theorem step_fail (s : Sys E) (i : Nat) (ch : Choice) (t : Thread E) (r : String) (h : s.threads[i]? = some t)
    (hp : t.prog = .fail r) : s.step (.step i ch) = s.finish i t (.error r) := by
  simp only [Sys.step, h, hp]

theorem step_act (s : Sys E) (i : Nat) (ch : Choice) (t : Thread E) (a : Act) (k : a.Out → Prog Resp)
    (h : s.threads[i]? = some t) (hp : t.prog = .step a k) : s.step (.step i ch) = s.perform i t ch a k := by
  simp only [Sys.step, h, hp]

/-! ### System invariant -/

/-- System invariant (ghost): every request in flight still meets its handler's specification, every finished one has met it, and the table is what was written. -/
structure SysInv (st : E.S.σ) (s : Sys E) : Prop where
  inv : Inv s.sh
  threads : ∀ t ∈ s.threads, Inv t.start ∧ Ext t.start s.sh ∧
    Sat t.conn t.msg (fun s₁ l o => HSpec t.conn t.start s₁ l o t.msg) t.prog s.sh t.log
  done : ∀ d ∈ s.done, Inv d.start ∧ Inv d.stop ∧ Ext d.start d.stop ∧
    HSpec d.conn d.start d.stop d.log d.outcome d.msg ∧ d.wire = deliver d.msg.id d.outcome ∧
    ∃ more, s.sh.tbl = d.stop.tbl ++ more
  tbl : s.sh.tbl = E.S.tbl st ++ writesOf s.hist

theorem inv_fresh (E : Env) (st : E.S.σ) (h : GoodStore E st) : Inv (⟨st, [], [], [], fun _ => false⟩ : Shared E) :=
  ⟨h.ok, h.distinct, h.wf, by simp, by simp, by simp, by simp, by simp, by simp⟩

theorem sysInv_init {st : E.S.σ} (h : GoodStore E st) : SysInv st (Sys.init E st) :=
  ⟨inv_fresh E st h, by simp [Sys.init], by simp [Sys.init], by simp [Sys.init, writesOf, Shared.tbl]⟩

theorem exec_tbl (c : Nat) (ch : Choice) (s : Shared E) (hi : Inv s) (a : Act) (id : Nat) :
    (exec c ch s a).2.1.tbl = s.tbl ++ writesOf ((exec c ch s a).2.2.map (fun ev => (id, ev))) := by
  cases a with
  | write e =>
    cases hf : ch.fault with
    | some x => simp [exec, hf, writesOf]
    | none =>
      rcases exec_write c ch s hi e hf with ⟨_, h2, h3, _⟩ | ⟨x, _, h2, h3, _⟩
      · rw [h2, h3]; simp [writesOf]
      · rw [h2, h3]; simp [writesOf]
  | storeTag t => simp only [exec]; split <;> simp [writesOf]
  | storeEd t => simp only [exec]; split <;> simp [writesOf]
  | storeX t => simp only [exec]; split <;> simp [writesOf]
  | list => simp only [exec]; split <;> simp [writesOf]
  | alloc => simp only [exec]; split <;> simp [writesOf]
  | _ => simp [exec, writesOf, Shared.tbl]

theorem sysInv_step {st : E.S.σ} {s : Sys E} (h : SysInv st s) (ev : Event) : SysInv st (s.step ev) := by
  cases ev with
  | recv c m =>
    refine ⟨h.inv, ?_, h.done, h.tbl⟩
    intro t ht
    rcases List.mem_append.1 ht with ht | ht
    · exact h.threads t ht
    · simp at ht; subst ht
      exact ⟨h.inv, Ext.refl _, handle_ok s.sh c m⟩
  | restart =>
    refine ⟨?_, by simp [Sys.step], ?_, ?_⟩
    · exact inv_fresh E s.sh.store ⟨h.inv.ok, h.inv.distinct, h.inv.wf⟩
    · exact h.done
    · exact h.tbl
  | step i ch =>
    cases hti : s.threads[i]? with
    | none => rw [step_none s i ch hti]; exact h
    | some t =>
      have htm : t ∈ s.threads := List.mem_of_getElem? hti
      obtain ⟨hs, he, hsat⟩ := h.threads t htm
      have hfin : ∀ o, HSpec t.conn t.start s.sh t.log o t.msg →
          SysInv st (s.finish i t o) := by
        intro o ho
        refine ⟨h.inv, fun t' ht' => h.threads t' (List.mem_of_mem_eraseIdx ht'), ?_, h.tbl⟩
        intro d hd
        rcases List.mem_append.1 hd with hd | hd
        · exact h.done d hd
        · simp at hd; subst hd
          exact ⟨hs, h.inv, he, ho, rfl, [], by simp [Sys.finish]⟩
      cases hp : t.prog with
      | ret r => rw [hp] at hsat; rw [step_ret s i ch t r hti hp]; exact hfin _ (hsat s.sh (Ext.refl _) h.inv)
      | fail e => rw [hp] at hsat; rw [step_fail s i ch t e hti hp]; exact hfin _ (hsat s.sh (Ext.refl _) h.inv)
      | step a k =>
        rw [hp] at hsat
        rw [step_act s i ch t a k hti hp]
        obtain ⟨hok, hk⟩ := hsat s.sh (Ext.refl _) h.inv
        have hx := exec_ext t.conn ch s.sh h.inv a
        have hi' := exec_inv t.conn t.msg ch s.sh h.inv a hok
        refine ⟨hi', ?_, ?_, ?_⟩
        · intro t' ht'
          rcases List.mem_or_eq_of_mem_set ht' with ht' | rfl
          · obtain ⟨a1, a2, a3⟩ := h.threads t' ht'
            exact ⟨a1, a2.trans hx, a3.later hx⟩
          · exact ⟨hs, he.trans hx, hk ch⟩
        · intro d hd
          obtain ⟨a1, a2, a3, a4, a5, more, hm⟩ := h.done d hd
          obtain ⟨more2, hm2⟩ := hx.tbl
          exact ⟨a1, a2, a3, a4, a5, more ++ more2, by simp only [Sys.perform]; rw [hm2, hm, List.append_assoc]⟩
        · show (exec t.conn ch s.sh a).2.1.tbl = _
          rw [exec_tbl t.conn ch s.sh h.inv a t.id, h.tbl]
          simp [writesOf, Sys.perform]

theorem sysInv_foldl {st : E.S.σ} (evs : List Event) (s : Sys E) (h : SysInv st s) : SysInv st (evs.foldl Sys.step s) := by
  induction evs generalizing s with
  | nil => exact h
  | cons ev evs ih => exact ih _ (sysInv_step h ev)

/-- The invariant holds after every run. -/
theorem sysInv_run {st : E.S.σ} (h : GoodStore E st) (evs : List Event) : SysInv st (Sys.run E st evs) :=
  sysInv_foldl evs _ (sysInv_init h)

theorem goodStore_run {st : E.S.σ} (h : GoodStore E st) (evs : List Event) : GoodStore E (Sys.run E st evs).sh.store :=
  let i := (sysInv_run h evs).inv
  ⟨i.ok, i.distinct, i.wf⟩

theorem run_append (E : Env) (st : E.S.σ) (a b : List Event) :
    Sys.run E st (a ++ b) = b.foldl Sys.step (Sys.run E st a) := by simp [Sys.run, List.foldl_append]

/-- Tables only grow, restarts included. -/
theorem tbl_step {st : E.S.σ} {s : Sys E} (h : SysInv st s) (ev : Event) : ∃ more, (s.step ev).sh.tbl = s.sh.tbl ++ more := by
  have h' := sysInv_step h ev
  have : ∃ hm, (s.step ev).hist = s.hist ++ hm := by
    cases ev with
    | recv c m => exact ⟨[], by simp [Sys.step]⟩
    | restart => exact ⟨[], by simp [Sys.step]⟩
    | step i ch =>
      simp only [Sys.step]
      split
      · exact ⟨[], by simp⟩
      · split
        · exact ⟨[], by simp [Sys.finish]⟩
        · exact ⟨[], by simp [Sys.finish]⟩
        · exact ⟨_, rfl⟩
  obtain ⟨hm, hh⟩ := this
  refine ⟨writesOf hm, ?_⟩
  rw [h'.tbl, h.tbl, hh]
  simp [writesOf]

theorem tbl_foldl {st : E.S.σ} (evs : List Event) (s : Sys E) (h : SysInv st s) :
    ∃ more, (evs.foldl Sys.step s).sh.tbl = s.sh.tbl ++ more := by
  induction evs generalizing s with
  | nil => exact ⟨[], by simp⟩
  | cons ev evs ih =>
    obtain ⟨m1, h1⟩ := tbl_step h ev
    obtain ⟨m2, h2⟩ := ih _ (sysInv_step h ev)
    exact ⟨m1 ++ m2, by simp only [List.foldl_cons]; rw [h2, h1, List.append_assoc]⟩

/-! ### Bookkeeping of requests -/

theorem perm_eraseIdx {α : Type} (l : List α) (i : Nat) (a : α) (h : l[i]? = some a) : l.Perm (a :: l.eraseIdx i) := by
  induction l generalizing i with
  | nil => simp at h
  | cons x xs ih =>
    cases i with
    | zero => simp at h; subst h; simp
    | succ i =>
      simp at h
      have := ih i h
      simp only [List.eraseIdx_cons_succ]
      exact (List.Perm.cons x this).trans (List.Perm.swap _ _ _)

/-- Every received message is in exactly one of: in flight, finished, abandoned by a restart; and in-flight and finished
    requests have the connection and content they were received with.
    Proof device: nothing in the code corresponds. -/
structure IdInv (s : Sys E) : Prop where
  perm : (s.threads.map Thread.id ++ s.done.map Done.id ++ s.dropped).Perm (List.range s.inbox.length)
  threads : ∀ t ∈ s.threads, s.inbox[t.id]? = some (t.conn, t.msg) ∧ t.log = histOf s.hist t.id
  done : ∀ d ∈ s.done, s.inbox[d.id]? = some (d.conn, d.msg) ∧ d.log = histOf s.hist d.id
  hist : ∀ p ∈ s.hist, p.1 < s.inbox.length

theorem histOf_append (a b : List (Nat × Ev)) (id : Nat) : histOf (a ++ b) id = histOf a id ++ histOf b id := by
  simp [histOf]

theorem histOf_same (l : List Ev) (id : Nat) : histOf (l.map (fun ev => (id, ev))) id = l := by
  induction l with
  | nil => rfl
  | cons x xs ih => simp [histOf] at *; simpa using ih

theorem histOf_other (l : List Ev) (id id' : Nat) (h : id' ≠ id) : histOf (l.map (fun ev => (id', ev))) id = [] := by
  induction l with
  | nil => rfl
  | cons x xs ih => simp [histOf, h] at *

theorem histOf_fresh (h : List (Nat × Ev)) (n : Nat) (hn : ∀ p ∈ h, p.1 < n) : histOf h n = [] := by
  induction h with
  | nil => rfl
  | cons x xs ih =>
    have h1 := hn x (by simp)
    have h2 := ih (fun p hp => hn p (by simp [hp]))
    have : ¬ x.1 = n := by omega
    simp [histOf, this] at *
    exact fun a b => h2 a b

theorem idInv_init (st : E.S.σ) : IdInv (Sys.init E st) :=
  ⟨by simp [Sys.init], by simp [Sys.init], by simp [Sys.init], by simp [Sys.init]⟩

theorem map_id_set (l : List (Thread E)) (i : Nat) (t t' : Thread E) (h : l[i]? = some t) (hid : t'.id = t.id) :
    (l.set i t').map Thread.id = l.map Thread.id := by
  rw [List.map_set, hid]
  have hi : i < l.length := by
    rw [List.getElem?_eq_some_iff] at h; exact h.1
  have : (l.map Thread.id)[i]'(by simpa using hi) = t.id := by
    rw [List.getElem?_eq_some_iff] at h; obtain ⟨_, h2⟩ := h; simp [h2]
  rw [← this]
  exact List.set_getElem_self _

theorem idInv_step {s : Sys E} (h : IdInv s) (ev : Event) : IdInv (s.step ev) := by
  cases ev with
  | recv c m =>
    have hfresh := histOf_fresh s.hist s.inbox.length h.hist
    refine ⟨?_, ?_, ?_, ?_⟩
    · simp only [Sys.step, List.map_append, List.map_cons, List.map_nil, List.length_append, List.length_cons,
        List.length_nil, List.range_succ]
      refine List.Perm.trans ?_ (List.Perm.append_right _ h.perm)
      simp only [List.append_assoc]
      refine List.Perm.append_left _ ?_
      refine (List.perm_append_comm).trans ?_
      simp
    · intro t ht
      rcases List.mem_append.1 ht with ht | ht
      · obtain ⟨h1, h2⟩ := h.threads t ht
        refine ⟨?_, h2⟩
        show (s.inbox ++ [(c, m)])[t.id]? = _
        rw [List.getElem?_append_left]; exact h1
        exact (List.getElem?_eq_some_iff.1 h1).1
      · simp at ht; subst ht
        refine ⟨by simp [Sys.step], ?_⟩
        exact hfresh.symm
    · intro d hd
      obtain ⟨h1, h2⟩ := h.done d hd
      refine ⟨?_, h2⟩
      show (s.inbox ++ [(c, m)])[d.id]? = _
      rw [List.getElem?_append_left]; exact h1
      exact (List.getElem?_eq_some_iff.1 h1).1
    · intro p hp
      have := h.hist p hp
      simp [Sys.step]; omega
  | restart =>
    refine ⟨?_, by simp [Sys.step], h.done, h.hist⟩
    simp only [Sys.step, List.map_nil, List.nil_append]
    refine List.Perm.trans ?_ h.perm
    rw [← List.append_assoc, List.append_assoc (s.threads.map Thread.id)]
    exact List.perm_append_comm
  | step i ch =>
    cases hti : s.threads[i]? with
    | none => rw [step_none s i ch hti]; exact h
    | some t =>
      have htm : t ∈ s.threads := List.mem_of_getElem? hti
      have hfin : ∀ o, IdInv (s.finish i t o) := by
        intro o
        refine ⟨?_, fun t' ht' => h.threads t' (List.mem_of_mem_eraseIdx ht'), ?_, h.hist⟩
        · refine List.Perm.trans ?_ h.perm
          have hp := ((perm_eraseIdx s.threads i t hti).map Thread.id).symm
          simp only [Sys.finish, List.map_append, List.map_cons, List.map_nil] at hp ⊢
          refine List.Perm.append_right _ ?_
          refine List.Perm.trans ?_ (List.Perm.append_right _ hp)
          rw [← List.append_assoc]
          exact List.perm_append_comm
        · intro d hd
          rcases List.mem_append.1 hd with hd | hd
          · exact h.done d hd
          · simp at hd; subst hd
            exact h.threads t htm
      cases hp : t.prog with
      | ret r => rw [step_ret s i ch t r hti hp]; exact hfin _
      | fail e => rw [step_fail s i ch t e hti hp]; exact hfin _
      | step a k =>
        rw [step_act s i ch t a k hti hp]
        have hlt : t.id < s.inbox.length := (List.getElem?_eq_some_iff.1 (h.threads t htm).1).1
        have hnd : (s.threads.map Thread.id ++ s.done.map Done.id ++ s.dropped).Nodup :=
          h.perm.nodup_iff.2 List.nodup_range
        refine ⟨?_, ?_, ?_, ?_⟩
        · simp only [Sys.perform]
          rw [map_id_set s.threads i t { t with
            log := t.log ++ (exec t.conn ch s.sh a).2.2
            prog := k (exec t.conn ch s.sh a).1 } hti rfl]
          exact h.perm
        · intro t' ht'
          obtain ⟨j, hj⟩ := List.mem_iff_getElem?.1 ht'
          simp only [Sys.perform] at hj
          rw [List.getElem?_set] at hj
          split at hj
          · rename_i hij
            split at hj
            · cases hj
              obtain ⟨h1, h2⟩ := h.threads t htm
              refine ⟨h1, ?_⟩
              simp only [Sys.perform]
              rw [histOf_append, histOf_same, ← h2]
            · cases hj
          · rename_i hij
            have ht'm := List.mem_of_getElem? hj
            obtain ⟨h1, h2⟩ := h.threads t' ht'm
            refine ⟨h1, ?_⟩
            have hne : t.id ≠ t'.id := by
              intro heq
              have hn1 : (s.threads.map Thread.id).Nodup := by
                rw [List.append_assoc] at hnd
                exact (List.nodup_append.1 hnd).1
              apply hij
              have hi1 := (List.getElem?_eq_some_iff.1 hti)
              have hj1 := (List.getElem?_eq_some_iff.1 hj)
              obtain ⟨hi1, hi2⟩ := hi1
              obtain ⟨hj1, hj2⟩ := hj1
              rcases Nat.lt_trichotomy i j with h' | h' | h'
              · have := List.pairwise_iff_getElem.1 hn1 i j (by simpa using hi1) (by simpa using hj1) h'
                simp [hi2, hj2, heq] at this
              · exact h'
              · have := List.pairwise_iff_getElem.1 hn1 j i (by simpa using hj1) (by simpa using hi1) h'
                simp [hi2, hj2, heq] at this
            simp only [Sys.perform]
            rw [histOf_append, histOf_other _ _ _ hne, List.append_nil, ← h2]
        · intro d hd
          obtain ⟨h1, h2⟩ := h.done d hd
          refine ⟨h1, ?_⟩
          have hne : t.id ≠ d.id := by
            intro heq
            rw [List.append_assoc, List.nodup_append] at hnd
            exact hnd.2.2 t.id (List.mem_map.2 ⟨t, htm, rfl⟩) d.id
              (List.mem_append_left _ (List.mem_map.2 ⟨d, hd, rfl⟩)) heq
          simp only [Sys.perform]
          rw [histOf_append, histOf_other _ _ _ hne, List.append_nil, ← h2]
        · intro p hp
          rcases List.mem_append.1 hp with hp | hp
          · exact h.hist p hp
          · simp at hp
            obtain ⟨x, _, rfl⟩ := hp
            exact hlt

theorem idInv_run (st : E.S.σ) (evs : List Event) : IdInv (Sys.run E st evs) := by
  have : ∀ s : Sys E, IdInv s → IdInv (evs.foldl Sys.step s) := by
    induction evs with
    | nil => exact fun s h => h
    | cons ev evs ih => exact fun s h => ih _ (idInv_step h ev)
  exact this _ (idInv_init st)

end Lair
