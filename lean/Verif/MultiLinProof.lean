import Verif.MultiRun
import Verif.TimedHistory
import Verif.HandlePoints

/- C72: the proof that every run of several processes is explained by one sequential history. -/
namespace Lair
open Cli

section
variable {E : Env} {st : E.S.σ} {evs : List MEvent}

/-- The entries after `n` events. Proof device: nothing in the code corresponds. -/
def mtb (E : Env) (st : E.S.σ) (evs : List MEvent) (n : Nat) : List Entry := E.S.tbl (Multi.run E st (evs.take n)).store

theorem mtb_end : mtb E st evs evs.length = (Multi.run E st evs).entries := by simp [mtb, Multi.entries]

theorem mtb_later (hk : HasPassphrase E) (hst : GoodStore E st) {n m : Nat} (h : n ≤ m) : ∃ more, mtb E st evs m = mtb E st evs n ++ more :=
  mtbl_later hk hst h

/-- What a finished request of a process has done. -/
theorem mdone_full (hk : HasPassphrase E) (hst : GoodStore E st) (evs : List MEvent) (j : Nat) (l : LSys E)
    (hl : (Multi.run E st evs).procs[j]? = some l) (d : Done E) (hd : d ∈ l.sys.done) :
    ∃ s₀ s₁ : Shared E, HSpec d.conn s₀ s₁ d.log d.outcome d.msg ∧ s₀.store = d.start.store ∧ s₁.store = d.stop.store ∧
      s₀.unlocked d.conn = d.start.unlocked d.conn ∧ Inv s₁ ∧ Ext s₀ s₁ := by
  obtain ⟨story, _, h⟩ := (minv_run hk hst evs).told j l hl
  rw [← h] at hd
  obtain ⟨c, a, hb⟩ := lrun_one (st := st) hk (story.map Prod.snd)
  obtain ⟨d', hd', hs⟩ := hb.done.mem d hd
  have hd'' : d' ∈ (Sys.run E st a).done := (List.mem_filter.1 hd').1
  obtain ⟨_, hi, hx⟩ := done_inv hst hd''
  refine ⟨d'.start, d'.stop, ?_, hs.start.store.symm, hs.stop.store.symm, (hs.start.unlocked _ hs.other).symm, hi, hx⟩
  have := done_spec hst hd''
  rw [← hs.msg, ← hs.log, ← hs.outcome, ← hs.conn] at this
  exact this

/-- The run of a request in flight that added something. -/
theorem mthread_writer (hk : HasPassphrase E) (hst : GoodStore E st) (evs : List MEvent) (j : Nat) (l : LSys E)
    (hl : (Multi.run E st evs).procs[j]? = some l) (t : Thread E) (ht : t ∈ l.sys.threads) {e : Entry} (he : Ev.wrote e ∈ t.log) :
    ∃ (s₀ s₁ : Shared E) (o : Res Resp), Ext s₀ s₁ ∧ HSpec t.conn s₀ s₁ t.log o t.msg ∧ s₁.tbl = E.S.tbl (Multi.run E st evs).store := by
  have hsame := (minv_run hk hst evs).same l (List.mem_of_getElem? hl)
  obtain ⟨story, _, h⟩ := (minv_run hk hst evs).told j l hl
  rw [← h] at ht hsame
  obtain ⟨c, a, hb⟩ := lrun_one (st := st) hk (story.map Prod.snd)
  obtain ⟨u, hu, hs⟩ := hb.threads.mem t ht
  obtain ⟨s₁, o, h1, h2, h3⟩ := thread_writer (sysInv_run hst a) (idInv_run st a) hu (e := e) (by rw [← hs.log]; exact he)
  refine ⟨u.start, s₁, o, h1, ?_, ?_⟩
  · rw [← ((idInv_run st a).threads u hu).2, ← hs.msg, ← hs.log, ← hs.conn] at h2
    exact h2
  · rw [h3, ← hsame, hb.sh.store]; rfl

/-! ### Additions -/

theorem exec_wrote {c : Nat} {ch : Choice} {s : Shared E} {a : Act} {e : Entry} (h : Ev.wrote e ∈ (exec c ch s a).2.2) :
    (exec c ch s a).2.2 = [.wrote e] := by
  cases a with
  | write e' =>
    cases hf : ch.fault with
    | some x => simp [exec, hf] at h
    | none =>
      simp only [exec, hf] at h ⊢
      split at h
      · simp at h; subst h; simp_all
      · simp at h
  | storeTag t => simp only [exec] at h; split at h <;> simp at h
  | storeEd t => simp only [exec] at h; split at h <;> simp at h
  | storeX t => simp only [exec] at h; split at h <;> simp at h
  | list => simp only [exec] at h; split at h <;> simp at h
  | alloc => simp only [exec] at h; split at h <;> simp at h
  | _ => simp [exec] at h

/-- With event `n`, the operation that began with event `p` adds the entry `e`.
    Proof device: nothing in the code corresponds. -/
def WroteAt (E : Env) (st : E.S.σ) (evs : List MEvent) (n p : Nat) (e : Entry) : Prop :=
  mtb E st evs (n + 1) = mtb E st evs n ++ [e] ∧
  ((p = n ∧ ∃ j l x ch, evs[n]? = some (.at j (.call x ch)) ∧ (Multi.run E st (evs.take n)).procs[j]? = some l ∧
      E.S.tbl (runAlone ch l.sys.sh (x.prog E)).2.store = E.S.tbl l.sys.sh.store ++ [e] ∧ E.S.tbl l.sys.sh.store = mtb E st evs n) ∨
   ∃ j i ch l t l' t', evs[n]? = some (.at j (.srv (.step i ch))) ∧ (Multi.run E st (evs.take n)).procs[j]? = some l ∧
      l.sys.threads[i]? = some t ∧ (Multi.run E st (evs.take (n + 1))).procs[j]? = some l' ∧ t' ∈ l'.sys.threads ∧ t'.id = t.id ∧
      Ev.wrote e ∈ t'.log ∧ p ≤ n ∧ RecvAt E st evs p j t.id t'.conn t'.msg)

/-- What a step of a request in flight adds. -/
theorem step_wrote (hk : HasPassphrase E) (hst : GoodStore E st) {n j i : Nat} {ch : Choice} {l : LSys E} {t : Thread E}
    (hev : evs[n]? = some (.at j (.srv (.step i ch)))) (hl : (Multi.run E st (evs.take n)).procs[j]? = some l)
    (hti : l.sys.threads[i]? = some t) {a : Act} {f : a.Out → Prog Resp} (hp : t.prog = .step a f) {e : Entry}
    (he : Ev.wrote e ∈ (exec t.conn ch l.sys.sh a).2.2) :
    ∃ p, RecvAt E st evs p j t.id t.conn t.msg ∧ WroteAt E st evs n p e := by
  have hm := List.mem_of_getElem? hl
  have hsame := (minv_run hk hst (evs.take n)).same l hm
  have hstep := step_act l.sys i ch t a f hti hp
  obtain ⟨hlt, hj⟩ := List.getElem?_eq_some_iff.1 hl
  have hnext : (Multi.run E st (evs.take (n + 1))).procs[j]? = some (l.step (.srv (.step i ch))) := by
    rw [mrun_at hev]
    simp [Multi.step, hlt, hj]
    rfl
  have hstore : (Multi.run E st (evs.take (n + 1))).store = (l.step (.srv (.step i ch))).sys.sh.store := by
    rw [mrun_at hev]
    simp [Multi.step, hl]
  obtain ⟨p, hpn, hr, _⟩ := (pinv_run hk hst evs n j l hl).start t (List.mem_of_getElem? hti)
  refine ⟨p, hr, ?_, Or.inr ⟨j, i, ch, l, t, _, { t with log := t.log ++ (exec t.conn ch l.sys.sh a).2.2, prog := f (exec t.conn ch l.sys.sh a).1 },
    hev, hl, hti, hnext, ?_, rfl, List.mem_append_right _ he, by omega, hr⟩⟩
  · have ht := exec_tbl t.conn ch l.sys.sh (mprocs_inv hk hst _ l hm) a 0
    rw [exec_wrote he] at ht
    show E.S.tbl _ = E.S.tbl _ ++ [e]
    rw [hstore, ← hsame]
    simp only [LSys.step, hstep]
    exact ht
  · simp only [LSys.step, hstep]
    have hit : i < l.sys.threads.length := (List.getElem?_eq_some_iff.1 hti).1
    exact List.mem_set hit _

theorem wroteAt_of (hk : HasPassphrase E) (hst : GoodStore E st) (n : Nat) (hn : n < evs.length) :
    mtb E st evs (n + 1) = mtb E st evs n ∨ ∃ p e, WroteAt E st evs n p e := by
  have hev : evs[n]? = some evs[n] := List.getElem?_eq_getElem hn
  generalize evs[n] = ev at hev
  have hrun : Multi.run E st (evs.take (n + 1)) = _ := mrun_at hev
  cases ev with
  | start => left; simp only [mtb]; rw [hrun]; rfl
  | «at» j ev =>
    cases hl : (Multi.run E st (evs.take n)).procs[j]? with
    | none => left; simp only [mtb]; rw [hrun]; simp [Multi.step, hl]
    | some l =>
      have hm := List.mem_of_getElem? hl
      have hsame := (minv_run hk hst (evs.take n)).same l hm
      have hstore : (Multi.run E st (evs.take (n + 1))).store = (l.step ev).sys.sh.store := by
        rw [hrun]; simp [Multi.step, hl]
      have same : (l.step ev).sys.sh.tbl = l.sys.sh.tbl → mtb E st evs (n + 1) = mtb E st evs n := by
        intro h
        show E.S.tbl _ = E.S.tbl _
        rw [hstore, ← hsame]; exact h
      cases ev with
      | call x ch =>
        obtain ⟨more, h1, _⟩ := lstep_tbl (mprocs_inv hk hst _ l hm) (.call x ch)
        cases hx : x.adds with
        | false =>
          left
          apply same
          rcases more with _ | ⟨e, more⟩
          · rw [List.append_nil] at h1; exact h1
          · exfalso
            have : (runAlone ch l.sys.sh (x.prog E)).2 = l.sys.sh := by
              cases x with
              | list =>
                simp only [LocalCall.prog, runAlone, exec]
                cases (ch 0).fault with
                | some y => rfl
                | none => simp only; cases E.S.I.list l.sys.sh.store <;> rfl
              | byTag t => exact lookup_same 0 _ rfl _ _
              | byEd t => exact lookup_same 0 _ rfl _ _
              | byX t => exact lookup_same 0 _ rfl _ _
              | _ => cases hx
            simp [LSys.step, this] at h1
        | true =>
          rcases oneNew_call x hx ch l.sys.sh (mprocs_inv hk hst _ l hm).ok with ⟨_, h2⟩ | ⟨o, e, _, h2, _⟩
          · left; apply same; simp [LSys.step, h2]
          · right
            refine ⟨n, e, ?_, Or.inl ⟨rfl, j, l, x, ch, hev, hl, h2, by rw [hsame]; rfl⟩⟩
            show E.S.tbl _ = E.S.tbl _ ++ [e]
            rw [hstore, ← hsame]; exact h2
      | srv ev =>
        cases ev with
        | recv c m => left; exact same rfl
        | restart => left; exact same rfl
        | step i ch =>
          cases hti : l.sys.threads[i]? with
          | none => left; apply same; simp only [LSys.step]; rw [step_none _ i ch hti]
          | some t =>
            cases hp : t.prog with
            | ret r => left; apply same; simp only [LSys.step]; rw [step_ret _ i ch t r hti hp]; rfl
            | fail x => left; apply same; simp only [LSys.step]; rw [step_fail _ i ch t x hti hp]; rfl
            | step a f =>
              by_cases hw : ∃ e, Ev.wrote e ∈ (exec t.conn ch l.sys.sh a).2.2
              · obtain ⟨e, he⟩ := hw
                obtain ⟨p, _, h⟩ := step_wrote hk hst hev hl hti hp he
                exact Or.inr ⟨p, e, h⟩
              · left
                apply same
                simp only [LSys.step]
                rw [step_act _ i ch t a f hti hp]
                show (exec t.conn ch l.sys.sh a).2.1.tbl = _
                rw [exec_tbl t.conn ch l.sys.sh (mprocs_inv hk hst _ l hm) a 0]
                have : writesOf ((exec t.conn ch l.sys.sh a).2.2.map fun ev => (0, ev)) = [] := by
                  simp only [writesOf, List.filterMap_eq_nil_iff, List.mem_map]
                  rintro _ ⟨ev, hev, rfl⟩
                  cases ev with
                  | wrote e => exact absurd ⟨e, hev⟩ hw
                  | _ => rfl
                rw [this, List.append_nil]

/-- Everything a request has added, it added at some time. -/
theorem hist_wroteAt (hk : HasPassphrase E) (hst : GoodStore E st) : ∀ n j l, n ≤ evs.length → (Multi.run E st (evs.take n)).procs[j]? = some l →
    ∀ k e, (k, Ev.wrote e) ∈ l.sys.hist → ∃ m p c msg, m < n ∧ RecvAt E st evs p j k c msg ∧ WroteAt E st evs m p e := by
  intro n
  induction n with
  | zero => intro j l _ hl; simp [Multi.run] at hl
  | succ n ih =>
    intro j q hn hq k e he
    have old : ∀ l, (Multi.run E st (evs.take n)).procs[j]? = some l → (k, Ev.wrote e) ∈ l.sys.hist →
        ∃ m p c msg, m < n + 1 ∧ RecvAt E st evs p j k c msg ∧ WroteAt E st evs m p e := by
      intro l hl h
      obtain ⟨m, p, c, msg, h1, h2⟩ := ih j l (by omega) hl k e h
      exact ⟨m, p, c, msg, by omega, h2⟩
    have hev : evs[n]? = some evs[n] := List.getElem?_eq_getElem (by omega)
    generalize evs[n] = ev at hev
    rw [mrun_at hev] at hq
    rcases procs_step _ _ _ _ hq with ⟨l, st', hl, rfl⟩ | ⟨_, _, rfl⟩ | ⟨l, ev', rfl, hl, rfl⟩
    · exact old l hl he
    · simp [Sys.init] at he
    · cases ev' with
      | call x ch => exact old l hl he
      | srv ev =>
        cases ev with
        | recv c m => exact old l hl he
        | restart => exact old l hl he
        | step i ch =>
          simp only [LSys.step] at he
          cases hti : l.sys.threads[i]? with
          | none => rw [step_none _ i ch hti] at he; exact old l hl he
          | some t =>
            cases hp : t.prog with
            | ret r => rw [step_ret _ i ch t r hti hp] at he; exact old l hl he
            | fail x => rw [step_fail _ i ch t x hti hp] at he; exact old l hl he
            | step a f =>
              rw [step_act _ i ch t a f hti hp] at he
              rcases List.mem_append.1 he with he | he
              · exact old l hl he
              · simp only [List.mem_map] at he
                obtain ⟨ev, hev', heq⟩ := he
                cases heq
                obtain ⟨p, h1, h2⟩ := step_wrote hk hst hev hl hti hp hev'
                exact ⟨n, p, _, _, by omega, h1, h2⟩

theorem wroteAt_fun {n p p' : Nat} {e e' : Entry} (h : WroteAt E st evs n p e) (h' : WroteAt E st evs n p' e') : p = p' ∧ e = e' := by
  obtain ⟨h1, h2⟩ := h
  obtain ⟨h1', h2'⟩ := h'
  have he : e = e' := by
    rw [h1] at h1'
    simpa using h1'
  refine ⟨?_, he⟩
  rcases h2 with ⟨rfl, j, l, x, ch, hev, _⟩ | ⟨j, i, ch, l, t, l', t', hev, hl, hti, _, _, _, _, _, hr⟩ <;>
    rcases h2' with ⟨rfl, j2, l2, x2, ch2, hev2, _⟩ | ⟨j2, i2, ch2, l2, t2, l2', t2', hev2, hl2, hti2, _, _, _, _, _, hr2⟩
  · rfl
  · rw [hev] at hev2; cases hev2
  · rw [hev] at hev2; cases hev2
  · rw [hev] at hev2; cases hev2
    rw [hl] at hl2; cases hl2
    rw [hti] at hti2; cases hti2
    exact recvAt_unique hr hr2

theorem mtb_nodup (hk : HasPassphrase E) (hst : GoodStore E st) (n : Nat) : (mtb E st evs n).Nodup :=
  distinct_nodup (mstore_good hk hst (evs.take n)).distinct

/-- An operation adds at most once. -/
theorem wroteAt_inj (hk : HasPassphrase E) (hst : GoodStore E st) {n m p : Nat} {e e' : Entry} (h : WroteAt E st evs n p e)
    (h' : WroteAt E st evs m p e') : n = m := by
  have key : ∀ {n m : Nat} {e e' : Entry}, WroteAt E st evs n p e → WroteAt E st evs m p e' → ¬ n < m := by
    intro n m e e' h h' hlt
    obtain ⟨h1, h2⟩ := h
    obtain ⟨h1', h2'⟩ := h'
    rcases h2 with ⟨rfl, j, l, x, ch, hev, _⟩ | ⟨j, i, ch, l, t, l', t', hev, hl, hti, hl', ht', hid, hw, _, hr⟩ <;>
      rcases h2' with ⟨rfl, j2, l2, x2, ch2, hev2, _⟩ | ⟨j2, i2, ch2, l2, t2, l2', t2', hev2, hl2, hti2, hl2', ht2', hid2, hw2, _, hr2⟩
    · omega
    · have := hr2.1; rw [hev] at this; cases this
    · have := hr.1; rw [hev2] at this; cases this
    · obtain ⟨rfl, hkk, _, _⟩ := recvAt_fun hr hr2
      obtain ⟨l3, hl3, hlater⟩ := proc_later (show n + 1 ≤ m + 1 by omega) hl'
      rw [hl2'] at hl3; cases hl3
      have hi1 := (pinv_run hk hst evs _ _ _ hl').id
      have hi2 := (pinv_run hk hst evs _ _ _ hl2').id
      have hmem : Ev.wrote e ∈ t2'.log := by
        rw [(hi2.threads _ ht2').2, hid2, ← hkk]
        rw [(hi1.threads _ ht').2, hid] at hw
        exact mem_histOf.2 (hlater.hist.subset (mem_histOf.1 hw))
      obtain ⟨s₀, s₁, o, _, hspec, _⟩ := mthread_writer hk hst _ _ _ hl2' t2' ht2' hw2
      have h3 := hspec_single hspec hw2
      rw [h3] at hmem
      simp at hmem
      subst hmem
      have hin : e ∈ mtb E st evs m := by
        obtain ⟨more, hmore⟩ := mtb_later hk hst (evs := evs) (show n + 1 ≤ m by omega)
        rw [hmore, h1]; simp
      have hnd := mtb_nodup hk hst (evs := evs) (m + 1)
      rw [h1'] at hnd
      exact (List.nodup_append.1 hnd).2.2 e hin e (by simp) rfl
  have a := key h h'
  have b := key h' h
  omega

theorem LuckOf.mono {l l' : List Ev} {call : Call} {r : Luck} (h : LuckOf E l call r) (hs : ∀ ev ∈ l, ev ∈ l') : LuckOf E l' call r := by
  refine ⟨h.1, fun sig hsig => ?_⟩
  obtain ⟨pk, pw, data, h1, h2⟩ := h.2 sig hsig
  exact ⟨pk, pw, data, h1, hs _ h2⟩

/-! ### The operations -/

variable {okLim : UInt32 → UInt32 → Bool} {room : Item → Bool} {H : List (B 64)} {Λ : List (UInt32 × UInt32)}

/-- What calls a run may contain. Proof device: nothing in the code corresponds. -/
structure WithinRun (E : Env) (evs : List MEvent) (H : List (B 64)) (Λ : List (UInt32 × UInt32)) : Prop where
  requests : ∀ j c i r call, MEvent.at j (.srv (.recv c (.req i r))) ∈ evs → r.call? E c = some call → call.within H Λ
  handles : ∀ j x ch call, MEvent.at j (.call x ch) ∈ evs → x.asCall = some call → call.within H Λ

/-- What is known of an operation that adds an entry. Proof device: nothing in the code corresponds. -/
structure MWriterOp (E : Env) (st : E.S.σ) (evs : List MEvent) (okLim : UInt32 → UInt32 → Bool) (room : Item → Bool) (H : List (B 64))
    (Λ : List (UInt32 × UInt32)) (n : Nat) (p : Nat × Entry) (op : Op) : Prop where
  id : op.id = p.1
  real : IsOperation E st evs op
  spec : ∃ item, Repr E item p.2 ∧ Known H Λ [item] ∧ ∀ ks, Stands E ks (mtb E st evs n) → Known H Λ ks →
      ∃ v, Keystore.call E.C okLim room op.luck ks op.call = (some v, ks ++ [item]) ∧ ∀ o, op.ans = some o → Agrees (some v) o

theorem doneOf_fun (hk : HasPassphrase E) (hst : GoodStore E st) {p : Nat} {d d' : Done E} (h : DoneOf E st evs p d) (h' : DoneOf E st evs p d') :
    d = d' := by
  obtain ⟨j, c, m, l, h1, h2, h3⟩ := h
  obtain ⟨j', c', m', l', h1', h2', h3'⟩ := h'
  obtain ⟨rfl, hid, _, _⟩ := recvAt_fun h1 h1'
  rw [h2] at h2'; cases h2'
  have hl : (Multi.run E st (evs.take evs.length)).procs[j]? = some l := by simpa using h2
  exact nodup_map_inj (pinv_run hk hst evs _ j l hl).id.done_ids h3 h3' hid

theorem mwriter_op (hk : HasPassphrase E) (hst : GoodStore E st) (hv : View E okLim room H Λ (mtb E st evs evs.length))
    (hcalls : WithinRun E evs H Λ) {n p : Nat} {e : Entry} (hn : n < evs.length) (hw : WroteAt E st evs n p e) :
    ∃ op, MWriterOp E st evs okLim room H Λ n (p, e) op := by
  obtain ⟨h1, h2⟩ := hw
  obtain ⟨more, hmore⟩ := mtb_later hk hst (evs := evs) (show n + 1 ≤ evs.length by omega)
  have hplace : mtb E st evs evs.length = mtb E st evs n ++ e :: more := by rw [hmore, h1]; simp
  have hTn := mtb_nodup hk hst (evs := evs) evs.length
  rcases h2 with ⟨rfl, j, l, x, ch, hev, hl, htbl, htb⟩ | ⟨j, i, ch, l, t, l', t', hev, hl, hti, hl', ht', hid, hwr, hpn, hr⟩
  · -- a handle call
    have hi := mprocs_inv hk hst _ l (List.mem_of_getElem? hl)
    have hcall : ∃ call, x.asCall = some call := by
      cases x with
      | byEd y =>
        have : (runAlone ch l.sys.sh ((LocalCall.byEd y).prog E)).2 = l.sys.sh := lookup_same 0 _ rfl _ _
        rw [this] at htbl; exact absurd htbl no_growth
      | byX y =>
        have : (runAlone ch l.sys.sh ((LocalCall.byX y).prog E)).2 = l.sys.sh := lookup_same 0 _ rfl _ _
        rw [this] at htbl; exact absurd htbl no_growth
      | _ => exact ⟨_, rfl⟩
    obtain ⟨call, hc⟩ := hcall
    obtain ⟨item, luck, a1, a2, a3, a4⟩ := (handle_point hv l.sys.sh hi x call hc (hcalls.handles j x ch call (List.mem_of_getElem? hev) hc) ch).adds e htbl
    refine ⟨⟨p, call, luck, some ((l.result x ch).map LocalOut.asAns)⟩, rfl, Or.inr ⟨x, ch, _, ⟨j, l, hev, hl, rfl⟩, hc, a1, rfl⟩,
      item, a2, a3, ?_⟩
    intro ks hs _
    rw [← htb] at hs
    obtain ⟨v, b1, b2⟩ := a4 ks hs
    exact ⟨v, b1, fun o ho => by cases ho; exact b2⟩
  · -- a request
    have hlL : ∃ lL, (Multi.run E st (evs.take evs.length)).procs[j]? = some lL ∧ Later l' lL := proc_later (by omega) hl'
    obtain ⟨lL, hlL, hlater⟩ := hlL
    have hlL' : (Multi.run E st evs).procs[j]? = some lL := by simpa using hlL
    have hiL := (pinv_run hk hst evs _ j lL hlL).id
    have hi' := (pinv_run hk hst evs _ j l' hl').id
    have hmem : Ev.wrote e ∈ histOf lL.sys.hist t.id := by
      rw [(hi'.threads t' ht').2, hid] at hwr
      exact mem_histOf.2 (hlater.hist.subset (mem_histOf.1 hwr))
    -- the message
    have hmsg : ∃ i r, t'.msg = .req i r := by
      obtain ⟨s₀, s₁, o, _, hspec, _⟩ := mthread_writer hk hst _ _ _ hl' t' ht' hwr
      cases hm : t'.msg with
      | res i r => rw [hm] at hspec; obtain ⟨h3, _⟩ := hspec; rw [h3] at hwr; cases hwr
      | req i r => exact ⟨i, r, rfl⟩
    obtain ⟨i, r, hm⟩ := hmsg
    rw [hm] at hr
    have hrin : MEvent.at j (.srv (.recv t'.conn (.req i r))) ∈ evs := List.mem_of_getElem? hr.1
    by_cases hd : ∃ d, DoneOf E st evs p d
    · obtain ⟨d, hd⟩ := hd
      have hd' := hd
      have hdf : DoneOf E st (evs.take evs.length) p d := by simpa using hd
      obtain ⟨jd, ld, q, a1, a2, a3, a4, a5, a6, a7, a8⟩ := doneOf_fin hk hst hdf
      obtain ⟨rfl, hdid, hdc, hdm⟩ := recvAt_fun a1 hr
      have a2' : (Multi.run E st evs).procs[jd]? = some ld := by simpa using a2
      rw [a2'] at hlL'; cases hlL'
      obtain ⟨s₀, s₁, b1, b2, b3, b4, b5, b6⟩ := mdone_full hk hst evs jd lL a2' d a3
      rw [hdm, hdc] at b1
      have hlog : d.log = histOf lL.sys.hist t.id := by rw [(hiL.done d a3).2, hdid]
      have hwd : Ev.wrote e ∈ d.log := by rw [hlog]; exact hmem
      obtain ⟨call, hcall⟩ := writer_call b1 hwd
      have hT : ∃ more, mtb E st evs evs.length = s₁.tbl ++ more := by
        obtain ⟨more, hq⟩ := mtb_later hk hst (evs := evs) (show q ≤ evs.length by omega)
        refine ⟨more, ?_⟩
        rw [hq]
        show E.S.tbl _ ++ more = E.S.tbl s₁.store ++ more
        rw [b3, a8]
      obtain ⟨_, pre, rest, item, luck, c1, c2, c3, c4, c5, c6, c7⟩ := writer_point hv hcall
        (hcalls.requests _ _ _ _ _ hrin hcall) b6 hT b1 hwd
      have hpre : pre = mtb E st evs n := nodup_split hTn c1 hplace
      subst hpre
      refine ⟨⟨p, call, luck, some (answerOf E.C (E.encKey t'.conn) d.outcome)⟩, rfl,
        Or.inl ⟨jd, t.id, t'.conn, i, r, _, hr, hcall, ⟨jd, t.id, t'.conn, _, lL, hr, a2', rfl⟩, ?_, ?_, ?_⟩, item, c4, c5, ?_⟩
      · rw [← hlog]; exact c6
      · intro d2 hd2
        rw [doneOf_fun hk hst hd2 hd']
      · intro hno; exact absurd hd' (hno d)
      · intro ks hs hkn
        obtain ⟨v, e1, e2⟩ := c7 ks hs hkn
        exact ⟨v, e1, fun o ho => by cases ho; exact e2⟩
    · obtain ⟨s₀, s₁, o, b1, b2, b3⟩ := mthread_writer hk hst _ _ _ hl' t' ht' hwr
      rw [hm] at b2
      obtain ⟨call, hcall⟩ := writer_call b2 hwr
      obtain ⟨_, pre, rest, item, luck, c1, c2, c3, c4, c5, c6, c7⟩ := writer_point hv hcall
        (hcalls.requests _ _ _ _ _ hrin hcall) b1 ⟨more, by rw [hmore, b3]; rfl⟩ b2 hwr
      have hpre : pre = mtb E st evs n := nodup_split hTn c1 hplace
      subst hpre
      refine ⟨⟨p, call, luck, none⟩, rfl,
        Or.inl ⟨j, t.id, t'.conn, i, r, _, hr, hcall, ⟨j, t.id, t'.conn, _, lL, hr, hlL', rfl⟩, ?_, ?_, ?_⟩, item, c4, c5, ?_⟩
      · refine c6.mono ?_
        intro ev hev'
        rw [(hi'.threads t' ht').2, hid] at hev'
        exact mem_histOf.2 (hlater.hist.subset (mem_histOf.1 hev'))
      · intro d hd2; exact absurd ⟨d, hd2⟩ hd
      · intro _; rfl
      · intro ks hs hkn
        obtain ⟨v, e1, e2⟩ := c7 ks hs hkn
        exact ⟨v, e1, fun o ho => by cases ho⟩

/-- What is known of an operation that ends with event `n` without having added anything.
    Proof device: nothing in the code corresponds. -/
structure MReaderOp (E : Env) (st : E.S.σ) (evs : List MEvent) (okLim : UInt32 → UInt32 → Bool) (room : Item → Bool) (H : List (B 64))
    (Λ : List (UInt32 × UInt32)) (n r : Nat) (op : Op) : Prop where
  le : op.id ≤ n
  lo : (mtb E st evs op.id).length ≤ r
  hi : r ≤ (mtb E st evs n).length
  real : IsOperation E st evs op
  spec : ∀ ks, Stands E ks ((mtb E st evs evs.length).take r) → Known H Λ ks →
      ∃ a, Keystore.call E.C okLim room op.luck ks op.call = (a, ks) ∧ ∀ o, op.ans = some o → Agrees a o
  kind : (∃ j d l, RecvAt E st evs op.id j d.id d.conn d.msg ∧ (Multi.run E st evs).procs[j]? = some l ∧ d ∈ l.sys.done ∧
      FinAt E st evs n j d.id ∧ ∀ e, Ev.wrote e ∉ d.log) ∨
    (op.id = n ∧ ∃ j x ch, evs[n]? = some (.at j (.call x ch)) ∧ mtb E st evs (n + 1) = mtb E st evs n)

theorem mreader_done (hk : HasPassphrase E) (hst : GoodStore E st) (hv : View E okLim room H Λ (mtb E st evs evs.length))
    (hcalls : WithinRun E evs H Λ) {p : Nat} {d : Done E} (hd : DoneOf E st evs p d) (hc : Counted d) (hq : ∀ e, Ev.wrote e ∉ d.log) :
    ∃ j n r op, n < evs.length ∧ RecvAt E st evs p j d.id d.conn d.msg ∧ FinAt E st evs n j d.id ∧ op.id = p ∧
      MReaderOp E st evs okLim room H Λ n r op := by
  have hdf : DoneOf E st (evs.take evs.length) p d := by simpa using hd
  obtain ⟨j, l, n, a1, a2, a3, a4, a5, a6, a7, a8⟩ := doneOf_fin hk hst hdf
  have a2' : (Multi.run E st evs).procs[j]? = some l := by simpa using a2
  obtain ⟨s₀, s₁, b1, b2, b3, b4, b5, b6⟩ := mdone_full hk hst evs j l a2' d a3
  obtain ⟨⟨i, r, call, hm, hcall⟩, hnf, hlock⟩ := hc
  have a1' := a1
  rw [hm] at b1 a1
  have hrin : MEvent.at j (.srv (.recv d.conn (.req i r))) ∈ evs := List.mem_of_getElem? a1.1
  have t0 : s₀.tbl = mtb E st evs p := by show E.S.tbl s₀.store = E.S.tbl _; rw [b2, a7]
  have t1 : s₁.tbl = mtb E st evs n := by show E.S.tbl s₁.store = E.S.tbl _; rw [b3, a8]
  obtain ⟨more, hmore⟩ := mtb_later hk hst (evs := evs) (show n ≤ evs.length by omega)
  obtain ⟨U, ⟨a, ha⟩, ⟨b, hb⟩, luck, hl, hp⟩ := reader_point hv hcall (hcalls.requests _ _ _ _ _ hrin hcall) b6 b5
    ⟨more, by rw [t1]; exact hmore⟩ b1 hnf hq (by rw [b4]; exact hlock)
  refine ⟨j, n, U.length, ⟨p, call, luck, some (answerOf E.C (E.encKey d.conn) d.outcome)⟩, a5, a1', a6, rfl, ?_⟩
  refine ⟨by simp only; omega, ?_, ?_, ?_, ?_, ?_⟩
  · simp only; rw [← t0, ha]; simp
  · rw [← t1, hb]; simp
  · refine Or.inl ⟨j, d.id, d.conn, i, r, _, a1, hcall, ⟨j, d.id, d.conn, _, l, a1, a2', rfl⟩, ?_, ?_, ?_⟩
    · rw [← ((pinv_run hk hst evs _ j l a2).id.done d a3).2]; exact hl
    · intro d2 hd2; rw [doneOf_fun hk hst hd2 hd]
    · intro hno; exact absurd hd (hno d)
  · intro ks hs hkn
    have hU : (mtb E st evs evs.length).take U.length = U := by rw [hmore, ← t1, hb]; simp
    rw [hU] at hs
    obtain ⟨v, e1, e2⟩ := hp ks hs hkn
    exact ⟨v, e1, fun o ho => by cases ho; exact e2⟩
  · exact Or.inl ⟨j, d, l, a1', a2', a3, a6, hq⟩

theorem mreader_call (hk : HasPassphrase E) (hst : GoodStore E st) (hv : View E okLim room H Λ (mtb E st evs evs.length))
    (hcalls : WithinRun E evs H Λ) {n j : Nat} {l : LSys E} {x : LocalCall} {ch : Nat → Choice} {call : Call} (hn : n < evs.length)
    (hev : evs[n]? = some (.at j (.call x ch))) (hl : (Multi.run E st (evs.take n)).procs[j]? = some l) (hc : x.asCall = some call)
    (hfine : ∀ n, (ch n).fault = none) (htb : mtb E st evs (n + 1) = mtb E st evs n) :
    ∃ r op, MReaderOp E st evs okLim room H Λ n r op := by
  have hm := List.mem_of_getElem? hl
  have hi := mprocs_inv hk hst _ l hm
  have hsame := (minv_run hk hst (evs.take n)).same l hm
  have hstore : (Multi.run E st (evs.take (n + 1))).store = (runAlone ch l.sys.sh (x.prog E)).2.store := by
    rw [mrun_at hev]; simp [Multi.step, hl, LSys.step]
  have t0 : E.S.tbl l.sys.sh.store = mtb E st evs n := by rw [hsame]; rfl
  obtain ⟨more, hmore⟩ := mtb_later hk hst (evs := evs) (show n ≤ evs.length by omega)
  obtain ⟨luck, h1, h2⟩ := (handle_point hv l.sys.sh hi x call hc (hcalls.handles j x ch call (List.mem_of_getElem? hev) hc) ch).reads hfine
    (by rw [← hstore, t0]; exact htb)
  refine ⟨(mtb E st evs n).length, ⟨n, call, luck, some ((l.result x ch).map LocalOut.asAns)⟩, Nat.le_refl _, Nat.le_refl _, Nat.le_refl _,
    Or.inr ⟨x, ch, _, ⟨j, l, hev, hl, rfl⟩, hc, h1, rfl⟩, ?_, Or.inr ⟨rfl, j, x, ch, hev, htb⟩⟩
  intro ks hs _
  have hU : (mtb E st evs evs.length).take (mtb E st evs n).length = mtb E st evs n := by rw [hmore]; simp
  rw [hU, ← t0] at hs
  obtain ⟨v, e1, e2⟩ := h2 ks hs
  exact ⟨v, e1, fun o ho => by cases ho; exact e2⟩

theorem finAt_fun {n j j' k k' : Nat} (h : FinAt E st evs n j k) (h' : FinAt E st evs n j' k') : j = j' ∧ k = k' := by
  obtain ⟨i, ch, l, t, h1, h2, h3, h4, _⟩ := h
  obtain ⟨i', ch', l', t', h1', h2', h3', h4', _⟩ := h'
  rw [h1] at h1'; cases h1'
  rw [h2] at h2'; cases h2'
  rw [h3] at h3'; cases h3'
  exact ⟨rfl, h4.symm.trans h4'⟩

/-- Every run of several processes is explained by one sequential history. -/
theorem mexplained (hk : HasPassphrase E) (hst : GoodStore E st) (hv : View E okLim room H Λ (mtb E st evs evs.length))
    (hcalls : WithinRun E evs H Λ) {ks₀ : Keystore} (hks : Stands E ks₀ (E.S.tbl st)) (hkn : Known H Λ ks₀) :
    ∃ ops, MExplains E st evs okLim room ks₀ ops := by
  -- choose the operations
  have hf : ∀ n : Nat, ∃ q : Option (Nat × Op), (∀ r op, q = some (r, op) → MReaderOp E st evs okLim room H Λ n r op) ∧
      ((∃ r op, MReaderOp E st evs okLim room H Λ n r op) → q ≠ none) := by
    intro n
    by_cases h : ∃ r op, MReaderOp E st evs okLim room H Λ n r op
    · obtain ⟨r, op, ho⟩ := h
      exact ⟨some (r, op), fun r' op' he => (by cases he; exact ho), fun _ => by simp⟩
    · exact ⟨none, fun r op he => (by cases he), fun h' => absurd h' h⟩
  obtain ⟨f, hf⟩ := Classical.axiomOfChoice hf
  have hw : ∀ n : Nat, ∃ q : Option (Nat × Entry), (∀ p, q = some p → WroteAt E st evs n p.1 p.2) ∧
      ((∃ p e, WroteAt E st evs n p e) → q ≠ none) := by
    intro n
    by_cases h : ∃ p e, WroteAt E st evs n p e
    · obtain ⟨p, e, ho⟩ := h
      exact ⟨some (p, e), fun p' he => (by cases he; exact ho), fun _ => by simp⟩
    · exact ⟨none, fun p he => (by cases he), fun h' => absurd h' h⟩
  obtain ⟨w, hw⟩ := Classical.axiomOfChoice hw
  have hw' : ∀ {n p e}, WroteAt E st evs n p e → w n = some (p, e) := by
    intro n p e h
    cases hwn : w n with
    | none => exact absurd hwn ((hw n).2 ⟨p, e, h⟩)
    | some q =>
      obtain ⟨rfl, rfl⟩ := wroteAt_fun h ((hw n).1 q hwn)
      rfl
  have hg : ∀ p : Nat × Entry, ∃ op, ∀ n, n < evs.length → WroteAt E st evs n p.1 p.2 → MWriterOp E st evs okLim room H Λ n p op := by
    intro p
    by_cases h : ∃ n, n < evs.length ∧ WroteAt E st evs n p.1 p.2
    · obtain ⟨n, hn, h⟩ := h
      obtain ⟨op, ho⟩ := mwriter_op hk hst hv hcalls hn h
      refine ⟨op, fun m _ hm => ?_⟩
      rw [← wroteAt_inj hk hst h hm]; exact ho
    · exact ⟨⟨0, .listEntries, mkLuck E (zero 32) (zero 24) 0 none, none⟩, fun n hn h' => absurd ⟨n, hn, h'⟩ h⟩
  obtain ⟨g, hg⟩ := Classical.axiomOfChoice hg
  have hgw : ∀ n p, n < evs.length → w n = some p → MWriterOp E st evs okLim room H Λ n p (g p) :=
    fun n p hn h => hg p n hn ((hw n).1 p h)
  have hpl : ∀ n p, n < evs.length → w n = some p → p.1 ≤ n := by
    intro n p hn h
    rcases ((hw n).1 p h).2 with ⟨h1, _⟩ | ⟨_, _, _, _, _, _, _, _, _, _, _, _, _, _, h1, _⟩
    · omega
    · exact h1
  -- events of different kinds
  have nocall : ∀ {p j k c m j' x ch}, RecvAt E st evs p j k c m → evs[p]? ≠ some (.at j' (.call x ch)) := by
    intro p j k c m j' x ch h he
    rw [h.1] at he; cases he
  refine Exists.elim (timed_history (E := E) (okLim := okLim) (room := room) (H := H) (Λ := Λ) (L := evs.length)
    (tb := mtb E st evs) (w := w) (f := f) (g := g) ?_ ?_ ?_ ?_ ?_ ?_ ?_ ?_ (MBefore E st evs) ?_ ?_ (ks₀ := ks₀) hks hkn) ?_
  rotate_right 1
  · rintro ops ⟨o1, o2, o3, o4, o5⟩
    refine ⟨ops, o1, by rw [← mtb_end]; exact o2, o3, o4, ?_, ?_, ?_⟩
    · -- all requests
      intro p d hd hc
      by_cases hq : ∀ e, Ev.wrote e ∉ d.log
      · obtain ⟨j, n, r, op, h1, h2, h3, h4, h5⟩ := mreader_done hk hst hv hcalls hd hc hq
        cases hfn : f n with
        | none => exact absurd hfn ((hf n).2 ⟨r, op, h5⟩)
        | some q =>
          obtain ⟨r', op'⟩ := q
          refine ⟨op', (o5 op').2 (Or.inl ⟨n, r', h1, hfn⟩), ?_⟩
          have hr := (hf n).1 r' op' hfn
          rcases hr.kind with ⟨j', d', l', b1, b2, b3, b4, b5⟩ | ⟨_, j', x, ch, b1, _⟩
          · obtain ⟨rfl, hid⟩ := finAt_fun h3 b4
            rw [hid] at h2
            exact (recvAt_unique h2 b1).symm
          · obtain ⟨i, ch', l, t, b2, _⟩ := h3
            rw [b1] at b2; cases b2
      · obtain ⟨e, he⟩ := Classical.not_forall.1 hq
        have he := Classical.not_not.1 he
        obtain ⟨j, c, m, l, h1, h2, h3⟩ := hd
        have h2' : (Multi.run E st (evs.take evs.length)).procs[j]? = some l := by simpa using h2
        rw [((pinv_run hk hst evs _ j l h2').id.done d h3).2] at he
        obtain ⟨n, p', c', m', a1, a2, a3⟩ := hist_wroteAt hk hst _ j l (Nat.le_refl _) h2' _ _ (mem_histOf.1 he)
        have := recvAt_unique h1 a2
        subst this
        exact ⟨g (p, e), (o5 _).2 (Or.inr ⟨n, (p, e), a1, hw' a3, rfl⟩), (hgw n _ a1 (hw' a3)).id⟩
    · -- all handle calls
      intro p x ch r hca hne hfine
      obtain ⟨j, l, hev, hl, rfl⟩ := hca
      have hp : p < evs.length := (List.getElem?_eq_some_iff.1 hev).1
      obtain ⟨call, hc⟩ := Option.ne_none_iff_exists'.1 hne
      rcases wroteAt_of hk hst p hp with htb | ⟨p', e, hwp⟩
      · cases hfn : f p with
        | none => exact absurd hfn ((hf p).2 (mreader_call hk hst hv hcalls hp hev hl hc hfine htb))
        | some q =>
          obtain ⟨r', op'⟩ := q
          refine ⟨op', (o5 op').2 (Or.inl ⟨p, r', hp, hfn⟩), ?_⟩
          rcases ((hf p).1 r' op' hfn).kind with ⟨j', d', l', b1, b2, b3, b4, b5⟩ | ⟨h, _⟩
          · obtain ⟨i, ch', l, t, b2, _⟩ := b4
            rw [hev] at b2; cases b2
          · exact h
      · have hpp : p' = p := by
          rcases hwp.2 with ⟨h, _⟩ | ⟨_, _, _, _, _, _, _, h, _⟩
          · exact h
          · rw [hev] at h; cases h
        subst hpp
        exact ⟨g (p', e), (o5 _).2 (Or.inr ⟨p', (p', e), hp, hw' hwp, rfl⟩), (hgw p' _ hp (hw' hwp)).id⟩
    · intro op hop
      rcases (o5 op).1 hop with ⟨n, r, hn, h⟩ | ⟨n, p, hn, h, rfl⟩
      · exact ((hf n).1 r op h).real
      · exact (hgw n p hn h).real
  · -- the table
    intro n hn
    cases hwn : w n with
    | none =>
      rcases wroteAt_of hk hst (evs := evs) n hn with h | ⟨p, e, h⟩
      · simpa using h
      · exact absurd hwn ((hw n).2 ⟨p, e, h⟩)
    | some p => exact ((hw n).1 p hwn).1
  · exact fun n p hn h => ⟨hpl n p hn h, (hgw n p hn h).id⟩
  · intro n m p q hn hm h h' hpq
    have a := (hw n).1 p h
    have b := (hw m).1 q h'
    rw [hpq] at a
    exact wroteAt_inj hk hst a b
  · exact fun n p hn h => (hgw n p hn h).spec
  · exact fun n r op hn h => ⟨((hf n).1 r op h).le, ((hf n).1 r op h).lo, ((hf n).1 r op h).hi⟩
  · intro n m r s op op' hn hm h h' heq
    rcases ((hf n).1 r op h).kind with ⟨j, d, l, b1, b2, b3, b4, b5⟩ | ⟨h1, j, x, ch, h2, _⟩ <;>
      rcases ((hf m).1 s op' h').kind with ⟨j', d', l', b1', b2', b3', b4', b5'⟩ | ⟨h1', j', x', ch', h2', _⟩
    · rw [heq] at b1
      obtain ⟨rfl, hid, _, _⟩ := recvAt_fun b1 b1'
      rw [hid] at b4
      exact finAt_unique hk hst b4 b4'
    · rw [heq, h1'] at b1; exact absurd h2' (nocall b1)
    · rw [← heq, h1] at b1'; exact absurd h2 (nocall b1')
    · omega
  · exact fun n r op hn h => ((hf n).1 r op h).spec
  · -- a reader is not a writer
    intro n m r op p hn hm h h' heq
    rcases ((hf n).1 r op h).kind with ⟨j, d, l, b1, b2, b3, b4, b5⟩ | ⟨h1, j, x, ch, h2, h3⟩ <;>
      rcases ((hw m).1 p h').2 with ⟨a1, j', l', x', ch', a2, _⟩ | ⟨j', i', ch', l', t, l'', t', a1, a2, a3, a4, a5, a6, a7, a8, a9⟩
    · rw [heq, a1] at b1; exact absurd a2 (nocall b1)
    · rw [heq] at b1
      obtain ⟨rfl, hid, _, _⟩ := recvAt_fun b1 a9
      have b2' : (Multi.run E st (evs.take evs.length)).procs[j]? = some l := by simpa using b2
      obtain ⟨l3, hl3, hlater⟩ := proc_later (show m + 1 ≤ evs.length by omega) a4
      rw [b2'] at hl3; cases hl3
      apply b5 p.2
      rw [((pinv_run hk hst evs _ j l b2').id.done d b3).2, hid]
      rw [((pinv_run hk hst evs _ j l'' a4).id.threads t' a5).2, a6] at a7
      exact mem_histOf.2 (hlater.hist.subset (mem_histOf.1 a7))
    · have : n = m := by omega
      subst this
      have := ((hw n).1 p h').1
      rw [h3] at this
      exact no_growth this
    · rw [← heq, h1] at a9; exact absurd h2 (nocall a9)
  · -- the order: readers
    intro n r op y hn h hb
    rcases ((hf n).1 r op h).kind with ⟨j, d, l, b1, b2, b3, b4, b5⟩ | ⟨h1, j, x, ch, h2, h3⟩
    · rcases hb with ⟨d', hd'⟩ | ⟨a, ch, r', j', l', h1, _⟩
      · obtain ⟨j', l', q, c1, _, _, _, c5, c6, _⟩ := doneOf_fin hk hst hd'
        obtain ⟨rfl, hid, _, _⟩ := recvAt_fun b1 c1
        rw [← hid] at c6
        rw [finAt_unique hk hst b4 c6]; exact c5
      · rw [List.getElem?_take] at h1
        split at h1
        · exact absurd h1 (nocall b1)
        · cases h1
    · rw [h1] at hb
      rcases hb with ⟨d', hd'⟩ | ⟨a, ch, r', j', l', h1, _⟩
      · obtain ⟨j', l', q, c1, _⟩ := doneOf_fin hk hst hd'
        exact absurd h2 (nocall c1)
      · rw [List.getElem?_take] at h1
        split at h1
        · assumption
        · cases h1
  · -- the order: writers
    intro n p y hn h hb
    rcases ((hw n).1 p h).2 with ⟨a1, j', l', x', ch', a2, _⟩ | ⟨j', i', ch', l', t, l'', t', a1, a2, a3, a4, a5, a6, a7, a8, a9⟩
    · rw [a1] at hb
      rcases hb with ⟨d', hd'⟩ | ⟨a, ch, r', j', l', h1, _⟩
      · obtain ⟨j', l', q, c1, _⟩ := doneOf_fin hk hst hd'
        exact absurd a2 (nocall c1)
      · rw [List.getElem?_take] at h1
        split at h1
        · assumption
        · cases h1
    · rcases hb with ⟨d', hd'⟩ | ⟨a, ch, r', j', l', h1, _⟩
      · obtain ⟨j2, l2, q, c1, c2, c3, _⟩ := doneOf_fin hk hst hd'
        obtain ⟨rfl, hid, _, _⟩ := recvAt_fun c1 a9
        rcases Nat.lt_or_ge n y with hlt | hge
        · exact hlt
        · exact absurd (a6.trans hid.symm) (done_not_later hk hst (show y ≤ n + 1 by omega) c2 a4 c3 a5)
      · rw [List.getElem?_take] at h1
        split at h1
        · exact absurd h1 (nocall a9)
        · cases h1

end
end Lair
