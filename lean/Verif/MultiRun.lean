import Verif.MultiLin
import Verif.KeystoreLin

/- Facts about runs of several processes, event by event. -/
namespace Lair
open Cli

variable {E : Env} {st : E.S.σ} {evs : List MEvent}

theorem mrun_at {n : Nat} {ev : MEvent} (h : evs[n]? = some ev) :
    Multi.run E st (evs.take (n + 1)) = (Multi.run E st (evs.take n)).step ev := by
  rw [List.take_add_one, h]; exact mrun_snoc _ _

theorem mrun_end {n : Nat} (h : evs[n]? = none) : Multi.run E st (evs.take (n + 1)) = Multi.run E st (evs.take n) := by
  rw [List.take_add_one, h]; simp

theorem procs_length (m : Multi E) (ev : MEvent) : m.procs.length ≤ (m.step ev).procs.length := by
  cases ev with
  | start => simp [Multi.step]
  | «at» j ev =>
    simp only [Multi.step]
    cases m.procs[j]? <;> simp

/-- What becomes of a process. -/
theorem procs_forward (m : Multi E) (ev : MEvent) (k : Nat) (q : LSys E) (h : m.procs[k]? = some q) :
    ∃ p, (m.step ev).procs[k]? = some p ∧ ((∃ st', p = q.onStore st') ∨ ∃ e, ev = .at k e ∧ p = q.step e) := by
  have hlt : k < m.procs.length := (List.getElem?_eq_some_iff.1 h).1
  have hlt' : k < (m.step ev).procs.length := Nat.lt_of_lt_of_le hlt (procs_length m ev)
  refine ⟨(m.step ev).procs[k], List.getElem?_eq_getElem hlt', ?_⟩
  rcases procs_step m ev k _ (List.getElem?_eq_getElem hlt') with ⟨q', st', h1, h2⟩ | ⟨_, h1, _⟩ | ⟨q', e, h0, h1, h2⟩
  · rw [h] at h1; cases h1; exact Or.inl ⟨st', h2⟩
  · omega
  · rw [h] at h1; cases h1; exact Or.inr ⟨e, h0, h2⟩

/-- Process `l'` is a later state of `l`. Proof device: nothing in the code corresponds. -/
structure Later (l l' : LSys E) : Prop where
  inbox : l.sys.inbox <+: l'.sys.inbox
  done : l.sys.done <+: l'.sys.done
  hist : l.sys.hist <+: l'.sys.hist

theorem Later.refl (l : LSys E) : Later l l := ⟨List.prefix_refl _, List.prefix_refl _, List.prefix_refl _⟩

theorem Later.trans {a b c : LSys E} (h : Later a b) (h' : Later b c) : Later a c :=
  ⟨h.inbox.trans h'.inbox, h.done.trans h'.done, h.hist.trans h'.hist⟩

theorem proc_later_step (l : LSys E) (ev : LEvent) : Later l (l.step ev) := by
  cases ev with
  | call x ch => exact ⟨List.prefix_refl _, List.prefix_refl _, List.prefix_refl _⟩
  | srv ev =>
    obtain ⟨a, ha⟩ := inbox_step l.sys ev
    obtain ⟨b, hb⟩ := done_step l.sys ev
    obtain ⟨c, hc, _⟩ := hist_step l.sys ev
    exact ⟨⟨a, ha.symm⟩, ⟨b, hb.symm⟩, ⟨c, hc.symm⟩⟩

theorem proc_next {n j : Nat} {l : LSys E} (hl : (Multi.run E st (evs.take n)).procs[j]? = some l) :
    ∃ l', (Multi.run E st (evs.take (n + 1))).procs[j]? = some l' ∧ Later l l' := by
  cases hev : evs[n]? with
  | none => rw [mrun_end hev]; exact ⟨l, hl, .refl l⟩
  | some ev =>
    rw [mrun_at hev]
    obtain ⟨p, h1, ⟨st', rfl⟩ | ⟨e, _, rfl⟩⟩ := procs_forward _ ev j l hl
    · exact ⟨_, h1, ⟨List.prefix_refl _, List.prefix_refl _, List.prefix_refl _⟩⟩
    · exact ⟨_, h1, proc_later_step l e⟩

theorem proc_later {n m j : Nat} {l : LSys E} (h : n ≤ m) (hl : (Multi.run E st (evs.take n)).procs[j]? = some l) :
    ∃ l', (Multi.run E st (evs.take m)).procs[j]? = some l' ∧ Later l l' := by
  induction h with
  | refl => exact ⟨l, hl, .refl l⟩
  | step _ ih =>
    obtain ⟨l', h1, h2⟩ := ih
    obtain ⟨l'', h3, h4⟩ := proc_next h1
    exact ⟨l'', h3, h2.trans h4⟩

theorem mtbl_later (hk : HasPassphrase E) (hst : GoodStore E st) {n m : Nat} (h : n ≤ m) :
    ∃ more, E.S.tbl (Multi.run E st (evs.take m)).store = E.S.tbl (Multi.run E st (evs.take n)).store ++ more := by
  have : evs.take m = evs.take n ++ (evs.take m).drop n := by
    have := List.take_append_drop n (evs.take m)
    rw [List.take_take, Nat.min_eq_left h] at this
    exact this.symm
  rw [this]
  obtain ⟨more, hm⟩ := mrun_tbl hk hst (evs.take n) ((evs.take m).drop n)
  exact ⟨more, hm.symm⟩

/-- With event `q`, process `j` finishes its request `k`. Proof device: nothing in the code corresponds. -/
def FinAt (E : Env) (st : E.S.σ) (evs : List MEvent) (q j k : Nat) : Prop :=
  ∃ i ch l t, evs[q]? = some (.at j (.srv (.step i ch))) ∧ (Multi.run E st (evs.take q)).procs[j]? = some l ∧
    l.sys.threads[i]? = some t ∧ t.id = k ∧ ∀ a f, t.prog ≠ .step a f

/-- What holds of process `j` after `n` events. Proof device: nothing in the code corresponds. -/
structure PInv (E : Env) (st : E.S.σ) (evs : List MEvent) (n j : Nat) (l : LSys E) : Prop where
  id : IdInv l.sys
  recv : ∀ k c m, l.sys.inbox[k]? = some (c, m) → ∃ p, p < n ∧ RecvAt E st evs p j k c m
  start : ∀ t ∈ l.sys.threads, ∃ p, p < n ∧ RecvAt E st evs p j t.id t.conn t.msg ∧ t.start.store = (Multi.run E st (evs.take p)).store
  fin : ∀ d ∈ l.sys.done, ∃ p q, p < q ∧ q < n ∧ RecvAt E st evs p j d.id d.conn d.msg ∧
    d.start.store = (Multi.run E st (evs.take p)).store ∧ d.stop.store = (Multi.run E st (evs.take q)).store ∧ FinAt E st evs q j d.id

theorem idInv_onStore {l : LSys E} (h : IdInv l.sys) (st' : E.S.σ) : IdInv (l.onStore st').sys := ⟨h.perm, h.threads, h.done, h.hist⟩

theorem idInv_lstep {l : LSys E} (h : IdInv l.sys) (ev : LEvent) : IdInv (l.step ev).sys := by
  cases ev with
  | call x ch => exact ⟨h.perm, h.threads, h.done, h.hist⟩
  | srv ev => exact idInv_step h ev

theorem PInv.later {n j : Nat} {l : LSys E} (h : PInv E st evs n j l) {l' : LSys E} (hid : IdInv l'.sys)
    (hin : l'.sys.inbox = l.sys.inbox) (hth : ∀ t ∈ l'.sys.threads, ∃ t' ∈ l.sys.threads, t'.id = t.id ∧ t'.conn = t.conn ∧ t'.msg = t.msg ∧ t'.start = t.start)
    (hdo : l'.sys.done = l.sys.done) : PInv E st evs (n + 1) j l' := by
  refine ⟨hid, ?_, ?_, ?_⟩
  · intro k c m hkm
    rw [hin] at hkm
    obtain ⟨p, h1, h2⟩ := h.recv k c m hkm
    exact ⟨p, by omega, h2⟩
  · intro t ht
    obtain ⟨t', ht', e1, e2, e3, e4⟩ := hth t ht
    obtain ⟨p, h1, h2, h3⟩ := h.start t' ht'
    exact ⟨p, by omega, by rw [← e1, ← e2, ← e3]; exact h2, by rw [← e4]; exact h3⟩
  · intro d hd
    rw [hdo] at hd
    obtain ⟨p, q, h1, h2, h3⟩ := h.fin d hd
    exact ⟨p, q, h1, by omega, h3⟩

theorem pinv_run (hk : HasPassphrase E) (hst : GoodStore E st) (evs : List MEvent) :
    ∀ n j l, (Multi.run E st (evs.take n)).procs[j]? = some l → PInv E st evs n j l := by
  intro n
  induction n with
  | zero => intro j l hl; simp [Multi.run] at hl
  | succ n ih =>
    intro j p hp
    cases hev : evs[n]? with
    | none =>
      rw [mrun_end hev] at hp
      have h := ih j p hp
      exact h.later h.id rfl (fun t ht => ⟨t, ht, rfl, rfl, rfl, rfl⟩) rfl
    | some ev =>
      rw [mrun_at hev] at hp
      rcases procs_step _ _ _ _ hp with ⟨q, st', hq, rfl⟩ | ⟨_, _, rfl⟩ | ⟨q, e, rfl, hq, rfl⟩
      · have h := ih j q hq
        exact h.later (idInv_onStore h.id st') rfl (fun t ht => ⟨t, ht, rfl, rfl, rfl, rfl⟩) rfl
      · exact ⟨idInv_init _, by simp [Sys.init], by simp [Sys.init], by simp [Sys.init]⟩
      · have h := ih j q hq
        have hid := idInv_lstep h.id e
        have hsame : q.sys.sh.store = (Multi.run E st (evs.take n)).store := (minv_run hk hst _).same q (List.mem_of_getElem? hq)
        cases e with
        | call x ch => exact h.later hid rfl (fun t ht => ⟨t, ht, rfl, rfl, rfl, rfl⟩) rfl
        | srv e =>
          cases e with
          | restart => exact h.later hid rfl (by simp [LSys.step, Sys.step]) rfl
          | recv c m =>
            have hr : RecvAt E st evs n j q.sys.inbox.length c m := ⟨hev, q, hq, rfl⟩
            refine ⟨hid, ?_, ?_, ?_⟩
            · intro k c' m' hkm
              simp only [LSys.step, Sys.step] at hkm
              rcases Nat.lt_or_ge k q.sys.inbox.length with hlt | hge
              · rw [List.getElem?_append_left hlt] at hkm
                obtain ⟨p, h1, h2⟩ := h.recv k c' m' hkm
                exact ⟨p, by omega, h2⟩
              · rw [List.getElem?_append_right hge] at hkm
                rcases Nat.eq_zero_or_pos (k - q.sys.inbox.length) with h0 | h0
                · rw [h0] at hkm
                  simp at hkm
                  obtain ⟨rfl, rfl⟩ := hkm
                  have : k = q.sys.inbox.length := by omega
                  rw [this]
                  exact ⟨n, by omega, hr⟩
                · rw [List.getElem?_eq_none (by simp; omega)] at hkm; cases hkm
            · intro t ht
              rcases List.mem_append.1 ht with ht | ht
              · obtain ⟨p, h1, h2⟩ := h.start t ht
                exact ⟨p, by omega, h2⟩
              · simp at ht; subst ht
                exact ⟨n, by omega, hr, hsame⟩
            · intro d hd
              obtain ⟨p, q, h1, h2, h3⟩ := h.fin d hd
              exact ⟨p, q, h1, by omega, h3⟩
          | step i ch =>
            have fin : ∀ (t : Thread E) (o : Res Resp), q.sys.threads[i]? = some t → (∀ a f, t.prog ≠ .step a f) → ∀ log,
                IdInv (q.sys.finish i t o) → PInv E st evs (n + 1) j ⟨q.sys.finish i t o, log⟩ := by
              intro t o hti hp log hid
              refine ⟨hid, ?_, ?_, ?_⟩
              · intro k c m hkm
                obtain ⟨p, h1, h2⟩ := h.recv k c m hkm
                exact ⟨p, by omega, h2⟩
              · intro t ht
                obtain ⟨p, h1, h2⟩ := h.start t (List.mem_of_mem_eraseIdx ht)
                exact ⟨p, by omega, h2⟩
              · intro d hd
                rcases mem_finish_done hd with hd | rfl
                · obtain ⟨p, q, h1, h2, h3⟩ := h.fin d hd
                  exact ⟨p, q, h1, by omega, h3⟩
                · obtain ⟨p, h1, h2, h3⟩ := h.start t (List.mem_of_getElem? hti)
                  exact ⟨p, n, h1, by omega, h2, h3, hsame, i, ch, q, t, hev, hq, hti, rfl, hp⟩
            simp only [LSys.step] at hid ⊢
            cases hti : q.sys.threads[i]? with
            | none =>
              have hs := step_none q.sys i ch hti
              rw [hs] at hid ⊢
              exact h.later hid rfl (fun t ht => ⟨t, ht, rfl, rfl, rfl, rfl⟩) rfl
            | some t =>
              cases hp : t.prog with
              | ret r =>
                have hs := step_ret q.sys i ch t r hti hp
                rw [hs] at hid ⊢
                exact fin t _ hti (by rw [hp]; intro a f hc; cases hc) _ hid
              | fail x =>
                have hs := step_fail q.sys i ch t x hti hp
                rw [hs] at hid ⊢
                exact fin t _ hti (by rw [hp]; intro a f hc; cases hc) _ hid
              | step a k =>
                have hs := step_act q.sys i ch t a k hti hp
                rw [hs] at hid ⊢
                refine h.later hid rfl ?_ rfl
                intro u hu
                rcases List.mem_or_eq_of_mem_set hu with hu | rfl
                · exact ⟨u, hu, rfl, rfl, rfl, rfl⟩
                · exact ⟨t, List.mem_of_getElem? hti, rfl, rfl, rfl, rfl⟩

/-! ### When things happen -/

theorem recvAt_next {p j k c : Nat} {m : Msg} (h : RecvAt E st evs p j k c m) :
    ∃ l', (Multi.run E st (evs.take (p + 1))).procs[j]? = some l' ∧ l'.sys.inbox.length = k + 1 ∧ l'.sys.inbox[k]? = some (c, m) := by
  obtain ⟨hev, l, hl, hlen⟩ := h
  rw [mrun_at hev]
  have hsome : ((Multi.run E st (evs.take p)).step (.at j (.srv (.recv c m)))).procs[j]? = some ((l.step (.srv (.recv c m))).onStore (l.step (.srv (.recv c m))).sys.sh.store) := by
    obtain ⟨hlt, hj⟩ := List.getElem?_eq_some_iff.1 hl
    simp [Multi.step, hlt, hj]
  refine ⟨_, hsome, ?_, ?_⟩
  · simp [LSys.onStore, LSys.step, Sys.step, hlen]
  · simp [LSys.onStore, LSys.step, Sys.step, ← hlen]

theorem recvAt_unique {p p' j k c c' : Nat} {m m' : Msg} (h : RecvAt E st evs p j k c m) (h' : RecvAt E st evs p' j k c' m') : p = p' := by
  have key : ∀ {p p' j k c c' : Nat} {m m' : Msg}, RecvAt E st evs p j k c m → RecvAt E st evs p' j k c' m' → ¬ p < p' := by
    intro p p' j k c c' m m' h h' hlt
    obtain ⟨l', h1, h2, _⟩ := recvAt_next h
    obtain ⟨l'', h3, h4⟩ := proc_later (show p + 1 ≤ p' by omega) h1
    obtain ⟨_, q, h5, h6⟩ := h'
    rw [h3] at h5; cases h5
    have := h4.inbox.length_le
    omega
  have a := key h h'
  have b := key h' h
  omega

theorem recvAt_fun {p j j' k k' c c' : Nat} {m m' : Msg} (h : RecvAt E st evs p j k c m) (h' : RecvAt E st evs p j' k' c' m') :
    j = j' ∧ k = k' ∧ c = c' ∧ m = m' := by
  obtain ⟨h1, l, h2, h3⟩ := h
  obtain ⟨h1', l', h2', h3'⟩ := h'
  rw [h1] at h1'
  cases h1'
  rw [h2] at h2'
  cases h2'
  exact ⟨rfl, h3.symm.trans h3', rfl, rfl⟩

theorem recvAt_take {p j k c y : Nat} {m : Msg} (h : RecvAt E st (evs.take y) p j k c m) : p < y ∧ RecvAt E st evs p j k c m := by
  obtain ⟨h1, h2⟩ := h
  have hlt : p < y := by
    have := (List.getElem?_eq_some_iff.1 h1).1
    simp at this; omega
  rw [List.getElem?_take_of_lt hlt] at h1
  rw [List.take_take, Nat.min_eq_left (by omega)] at h2
  exact ⟨hlt, h1, h2⟩

/-- The content of a received message. -/
theorem recvAt_inbox {p j k c n : Nat} {m : Msg} (h : RecvAt E st evs p j k c m) (hn : p < n) {l : LSys E}
    (hl : (Multi.run E st (evs.take n)).procs[j]? = some l) : l.sys.inbox[k]? = some (c, m) := by
  obtain ⟨l', h1, _, h2⟩ := recvAt_next h
  obtain ⟨l'', h3, h4⟩ := proc_later (show p + 1 ≤ n by omega) h1
  rw [h3] at hl; cases hl
  obtain ⟨more, hm⟩ := h4.inbox
  rw [← hm, List.getElem?_append_left (List.getElem?_eq_some_iff.1 h2).1]
  exact h2

theorem finAt_done {q j k : Nat} (h : FinAt E st evs q j k) :
    ∃ l', (Multi.run E st (evs.take (q + 1))).procs[j]? = some l' ∧ ∃ d ∈ l'.sys.done, d.id = k := by
  obtain ⟨i, ch, l, t, hev, hl, hti, hid, hp⟩ := h
  rw [mrun_at hev]
  have hsome : ((Multi.run E st (evs.take q)).step (.at j (.srv (.step i ch)))).procs[j]? =
      some ((l.step (.srv (.step i ch))).onStore (l.step (.srv (.step i ch))).sys.sh.store) := by
    obtain ⟨hlt, hj⟩ := List.getElem?_eq_some_iff.1 hl
    simp [Multi.step, hlt, hj]
  refine ⟨_, hsome, ?_⟩
  show ∃ d ∈ (l.sys.step (.step i ch)).done, d.id = k
  cases hprog : t.prog with
  | ret r =>
    rw [step_ret _ i ch t r hti hprog]
    exact ⟨_, List.mem_append_right _ (List.mem_singleton.2 rfl), hid⟩
  | fail x =>
    rw [step_fail _ i ch t x hti hprog]
    exact ⟨_, List.mem_append_right _ (List.mem_singleton.2 rfl), hid⟩
  | step a f => exact absurd hprog (hp a f)

/-- A request that is finished is not in flight later. -/
theorem done_not_later (hk : HasPassphrase E) (hst : GoodStore E st) {n m j : Nat} {l l' : LSys E} (hnm : n ≤ m)
    (hl : (Multi.run E st (evs.take n)).procs[j]? = some l) (hl' : (Multi.run E st (evs.take m)).procs[j]? = some l')
    {d : Done E} (hd : d ∈ l.sys.done) {t : Thread E} (ht : t ∈ l'.sys.threads) : t.id ≠ d.id := by
  obtain ⟨l'', h1, h2⟩ := proc_later hnm hl
  rw [hl'] at h1; cases h1
  exact (pinv_run hk hst evs m j l' hl').id.done_not_thread (h2.done.subset hd) t ht

theorem finAt_unique (hk : HasPassphrase E) (hst : GoodStore E st) {q q' j k : Nat} (h : FinAt E st evs q j k) (h' : FinAt E st evs q' j k) :
    q = q' := by
  have key : ∀ {q q' j k : Nat}, FinAt E st evs q j k → FinAt E st evs q' j k → ¬ q < q' := by
    intro q q' j k h h' hlt
    obtain ⟨l', h1, d, hd, hdk⟩ := finAt_done h
    obtain ⟨i, ch, l, t, hev, hl, hti, hid, hp⟩ := h'
    exact done_not_later hk hst (show q + 1 ≤ q' by omega) h1 hl hd (List.mem_of_getElem? hti) (hid.trans hdk.symm)
  have a := key h h'
  have b := key h' h
  omega

/-- A finished request, seen at its time. -/
theorem doneOf_fin (hk : HasPassphrase E) (hst : GoodStore E st) {y x : Nat} {d : Done E} (h : DoneOf E st (evs.take y) x d) :
    ∃ j l q, RecvAt E st evs x j d.id d.conn d.msg ∧ (Multi.run E st (evs.take y)).procs[j]? = some l ∧ d ∈ l.sys.done ∧
      x < q ∧ q < y ∧ FinAt E st evs q j d.id ∧ d.start.store = (Multi.run E st (evs.take x)).store ∧
      d.stop.store = (Multi.run E st (evs.take q)).store := by
  obtain ⟨j, c, m, l, h1, h2, h3⟩ := h
  obtain ⟨_, h1⟩ := recvAt_take h1
  obtain ⟨p, q, a1, a2, a3, a4, a5, a6⟩ := (pinv_run hk hst evs y j l h2).fin d h3
  have := recvAt_unique h1 a3
  subst this
  exact ⟨j, l, q, a3, h2, h3, a1, a2, a6, a4, a5⟩

end Lair
