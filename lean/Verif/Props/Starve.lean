import Verif.Fifo

/-
C89: no request starves. However many requests are made on a connection, for ever, every single one is answered, under every schedule that is fair to
each part of the system and serves the callers of a sending half in turn.

`World.Moves` (Progress.lean) says what it means that something goes on; `World.Breaks` (Props/Usable.lean) lists what can do damage to a connection.
-/
namespace Lair

variable {S : SStream} {E : Env} {st : E.S.σ}

/-! ### Specification -/

/-- SPECIFICATION: the parts of the system that work for a connection, each on its own: the client's sending half, the wire to the server, the
    server's receive loop, each handler (by the number of its request), the server's sending half, the wire to the client, the client's receive
    loop, each caller. -/
inductive Part where
  | sendUp | wireUp | takeUp
  | handler (h : Nat)
  | sendDown | wireDown | takeDown
  | caller (k : Nat)
  deriving DecidableEq

/-- SPECIFICATION: this event brings something forward that concerns connection `c`, and it is this part of the system that goes on. -/
def World.MovesPart (w : World E S) (c : Nat) (p : Part) (e : WEv S) : Prop :=
  w.Moves c e ∧ match p, e with
    | .sendUp, .net _ (.upSend _) => True
    | .wireUp, .net _ (.upArrive _) => True
    | .takeUp, .serve _ => True
    | .handler h, .act i _ => ∃ t, w.sys.threads[i]? = some t ∧ t.id = h
    | .sendDown, .net _ (.downSend _) => True
    | .wireDown, .net _ (.downArrive _) => True
    | .takeDown, .net _ .poll => True
    | .caller k, .net _ (.asked j) => j = k
    | .caller k, .net _ (.wake j) => j = k
    | _, _ => False

/-- SPECIFICATION: the permits of the two sending halves of connection `c` go to the callers in turn (`SndSt.InTurn`, Fifo.lean). -/
def World.InTurn (w : World E S) (c : Nat) : WEv S → Prop
  | .net d (.upSend e) => d = c → ∀ x, w.conns[c]? = some x → x.up.snd.InTurn e
  | .net d (.downSend e) => d = c → ∀ x, w.conns[c]? = some x → x.down.snd.InTurn e
  | _ => True

/-! ### The two directions -/

/-- One step of the direction from the server: no answer is given up. Proof device: nothing in the code corresponds. -/
def DStep (l l' : Link S) : Prop :=
  LStep l l' ∧ ∀ (j : Nat) (mo : Option Msg) (b : Bool), l'.snd.calls[j]? = some ⟨mo, .dropped b⟩ → l.snd.calls[j]? = some ⟨mo, .dropped b⟩

theorem DStep.of {l l' : Link S} (h : LStep l l') (he : l'.snd = l.snd ∨ ∃ e, (∀ k, e ≠ .drop k) ∧ l'.snd = l.snd.step e) : DStep l l' := by
  refine ⟨h, fun j mo b hj => ?_⟩
  rcases he with he | ⟨e, hd, he⟩
  · rw [he] at hj; exact hj
  · rw [he] at hj
    rcases l.snd.call_of_step e hj with ⟨ph, h0⟩ | ⟨rfl, rfl⟩
    · obtain ⟨ph', h1, hm⟩ := l.snd.step_move e h0
      rw [hj] at h1; cases h1
      cases hm with
      | same => exact h0
      | drop hk => exact absurd hk (hd j)
    · simp [SndSt.step] at hj

theorem DStep.same (l : Link S) : DStep l l := .of .same (Or.inl rfl)

theorem DStep.call (l : Link S) (m : Msg) : DStep l (l.send (.call (some m))) := .of .call (Or.inr ⟨.call (some m), by simp, rfl⟩)

/-- One event on the connection. -/
theorem Conn.links {w : World E S} {c : Nat} {x : Conn S} (hx : w.conns[c]? = some x) (hf : x.Fine)
    (e : NEv) (hb : ¬ w.Breaks c (.net c e)) (ht : w.InTurn c (.net c e)) : LStep x.up (x.step e).up ∧ DStep x.down (x.step e).down := by
  obtain ⟨b1, b2, b3, b4, b5, b6⟩ := World.Breaks.net hb
  cases e with
  | ask id q => exact ⟨.call, .same _⟩
  | asked k =>
    simp only [Conn.step]
    split
    · split
      · exact ⟨.same, .same _⟩
      · exact ⟨.same, .same _⟩
    · exact ⟨.same, .same _⟩
  | wake k => exact ⟨.same, .same _⟩
  | timeout k => exact ⟨.same, .same _⟩
  | cancel k =>
    simp only [Conn.step]
    split
    · rename_i a hak
      refine ⟨.drop (fun s hs hh => ?_), .same _⟩
      refine hb ⟨rfl, x, a, s, hx, hak, hs, ?_⟩
      obtain ⟨mo, ph⟩ := s
      cases ph with
      | taken => exact Or.inl rfl
      | writing r => exact Or.inr ⟨r, rfl⟩
      | _ => exact hh.elim
    · exact ⟨.same, .same _⟩
  | shutdown => exact absurd rfl b1
  | upSend e =>
    simp only [Conn.step]
    split
    · rename_i he
      exact ⟨.prog (internal_progress he (fun k hk => b5 k (by rw [hk]))) (ht rfl x hx), .same _⟩
    · exact ⟨.same, .same _⟩
  | upArrive b => exact ⟨.arrive, .same _⟩
  | upClose => exact absurd rfl b3
  | downSend e =>
    simp only [Conn.step]
    split
    · rename_i he
      simp only [Bool.and_eq_true] at he
      exact ⟨.same, .of (.prog (internal_progress he.1 (fun k hk => b6 k (by rw [hk]))) (ht rfl x hx))
        (Or.inr ⟨e, fun k hk => by rw [hk] at he; simp [SEv.internal] at he, rfl⟩)⟩
    · exact ⟨.same, .same _⟩
  | downRetry k =>
    simp only [Conn.step]
    split
    · exact ⟨.same, .same _⟩
    · split
      · split
        · exact ⟨.same, .call _ _⟩
        · exact ⟨.same, .same _⟩
      · exact ⟨.same, .same _⟩
  | downShutdown => exact absurd rfl b2
  | downArrive b => exact ⟨.same, .of .arrive (Or.inl rfl)⟩
  | downClose => exact absurd rfl b4
  | poll =>
    have hp : DStep x.down x.down.poll := .of .poll (Or.inl rfl)
    simp only [Conn.step]
    split
    · exact ⟨.same, hp⟩
    · exact ⟨.same, hp⟩
    · exact ⟨.same, hp⟩

/-- One event in the world. -/
theorem links_step {w : World E S} {c : Nat} {x x' : Conn S} (hx : w.conns[c]? = some x) (hf : x.Fine) {ev : WEv S} (hb : ¬ w.Breaks c ev)
    (ht : w.InTurn c ev) (hx' : (w.step ev).conns[c]? = some x') : LStep x.up x'.up ∧ DStep x.down x'.down := by
  have hlt := (List.getElem?_eq_some_iff.mp hx).1
  have same : w.conns[c]? = some x' → LStep x.up x'.up ∧ DStep x.down x'.down := by
    intro h; rw [hx] at h; cases h; exact ⟨.same, .same _⟩
  have hmod : ∀ {d : Nat} {f : Conn S → Conn S}, (w.conns.modify d f)[c]? = some x' → x' = x ∨ d = c ∧ x' = f x := by
    intro d f hy
    rw [List.getElem?_modify, hx] at hy
    by_cases hdc : d = c
    · right; simp [hdc] at hy; exact ⟨hdc, hy.symm⟩
    · left; simp [hdc] at hy; exact hy.symm
  cases ev with
  | connect u d =>
    simp only [World.step] at hx'
    rw [List.getElem?_append_left hlt] at hx'
    exact same hx'
  | restart => exact absurd trivial hb
  | net d e =>
    rcases hmod hx' with rfl | ⟨rfl, rfl⟩
    · exact ⟨.same, .same _⟩
    · exact Conn.links hx hf e hb ht
  | serve d =>
    simp only [World.step] at hx'
    split at hx'
    · exact same hx'
    · split at hx'
      · exact same hx'
      · split at hx'
        · rcases hmod hx' with rfl | ⟨rfl, rfl⟩
          · exact ⟨.same, .same _⟩
          · exact ⟨.poll, .same _⟩
        · rcases hmod hx' with rfl | ⟨rfl, rfl⟩
          · exact ⟨.same, .same _⟩
          · exact ⟨.poll, .same _⟩
  | act i ch =>
    simp only [World.step] at hx'
    split at hx'
    · exact same hx'
    · split at hx'
      · rename_i o _
        rcases hmod hx' with rfl | ⟨rfl, rfl⟩
        · exact ⟨.same, .same _⟩
        · cases o with
          | ok r => exact ⟨.same, .call _ _⟩
          | error e => exact ⟨.same, .call _ _⟩
      · exact same hx'

/-! ### The server -/

theorem sys_step {w : World E S} {c : Nat} {ev : WEv S} (hb : ¬ w.Breaks c ev) :
    ((w.step ev).sys = w.sys ∧ ∀ i ch, ev ≠ .act i ch) ∨ ∃ e, e ≠ .restart ∧ (w.step ev).sys = w.sys.step e ∧ ∀ i ch, ev = .act i ch → e = .step i ch := by
  cases ev with
  | connect u d => exact Or.inl ⟨rfl, by simp⟩
  | restart => exact absurd trivial hb
  | net d e => exact Or.inl ⟨rfl, by simp⟩
  | serve d =>
    simp only [World.step]
    split
    · exact Or.inl ⟨rfl, by simp⟩
    · split
      · exact Or.inl ⟨rfl, by simp⟩
      · split
        · rename_i m _
          exact Or.inr ⟨.recv d m, by simp, rfl, by simp⟩
        · exact Or.inl ⟨rfl, by simp⟩
  | act i ch =>
    refine Or.inr ⟨.step i ch, by simp, ?_, fun i' ch' h => by cases h; rfl⟩
    simp only [World.step]
    split
    · rfl
    · split <;> rfl

/-- A request in the server is still there, or handled. -/
theorem sys_next {s : Sys E} {t : Thread E} (h : t ∈ s.threads) {e : Event} (he : e ≠ .restart) :
    (∃ t' ∈ (s.step e).threads, t'.id = t.id ∧ t'.conn = t.conn ∧ t'.msg = t.msg) ∨ ∃ d ∈ (s.step e).done, d.conn = t.conn ∧ d.msg = t.msg := by
  cases e with
  | recv c m => exact Or.inl ⟨t, List.mem_append_left _ h, rfl, rfl, rfl⟩
  | restart => exact absurd rfl he
  | step i ch =>
    cases hi : s.threads[i]? with
    | none => rw [step_none s i ch hi]; exact Or.inl ⟨t, h, rfl, rfl, rfl⟩
    | some u =>
      have fin : ∀ o, (∃ t' ∈ (s.finish i u o).threads, t'.id = t.id ∧ t'.conn = t.conn ∧ t'.msg = t.msg) ∨
          ∃ d ∈ (s.finish i u o).done, d.conn = t.conn ∧ d.msg = t.msg := by
        intro o
        rcases List.mem_cons.mp ((perm_eraseIdx s.threads i u hi).mem_iff.mp h) with rfl | hm
        · exact Or.inr ⟨_, List.mem_append_right _ (List.mem_singleton.mpr rfl), rfl, rfl⟩
        · exact Or.inl ⟨t, hm, rfl, rfl, rfl⟩
      cases hp : u.prog with
      | ret r => rw [step_ret s i ch u r hi hp]; exact fin _
      | fail er => rw [step_fail s i ch u er hi hp]; exact fin _
      | step a k =>
        rw [step_act s i ch u a k hi hp]
        obtain ⟨j, hj⟩ := List.mem_iff_getElem?.mp h
        left
        by_cases hij : i = j
        · subst hij
          rw [hi] at hj; cases hj
          exact ⟨{ t with log := t.log ++ (exec t.conn ch s.sh a).2.2, prog := k (exec t.conn ch s.sh a).1 }, List.mem_iff_getElem?.mpr ⟨i, by
            simp only [Sys.perform]
            rw [List.getElem?_set, if_pos rfl, if_pos (List.getElem?_eq_some_iff.mp hi).1]⟩, rfl, rfl, rfl⟩
        · exact ⟨t, List.mem_iff_getElem?.mpr ⟨j, by
            simp only [Sys.perform]
            rw [List.getElem?_set, if_neg hij]; exact hj⟩, rfl, rfl, rfl⟩

theorem done_kept (s : Sys E) (e : Event) {d : Done E} (h : d ∈ s.done) : d ∈ (s.step e).done := by
  cases e with
  | recv c m => exact h
  | restart => exact h
  | step i ch =>
    cases hi : s.threads[i]? with
    | none => rw [step_none s i ch hi]; exact h
    | some u =>
      cases hp : u.prog with
      | ret r => rw [step_ret s i ch u r hi hp]; exact List.mem_append_left _ h
      | fail er => rw [step_fail s i ch u er hi hp]; exact List.mem_append_left _ h
      | step a k => rw [step_act s i ch u a k hi hp]; exact h

theorem inbox_kept (s : Sys E) (e : Event) : s.inbox.length ≤ (s.step e).inbox.length := by
  cases e with
  | recv c m => simp [Sys.step]
  | restart => exact Nat.le_refl _
  | step i ch =>
    cases hi : s.threads[i]? with
    | none => rw [step_none s i ch hi]; exact Nat.le_refl _
    | some u =>
      cases hp : u.prog with
      | ret r => rw [step_ret s i ch u r hi hp]; exact Nat.le_refl _
      | fail er => rw [step_fail s i ch u er hi hp]; exact Nat.le_refl _
      | step a k => rw [step_act s i ch u a k hi hp]; exact Nat.le_refl _

/-! ### The caller -/

theorem ask_req (s : CliSt) (id : String) {k : Nat} {q : CReq} (hk : s.reqs[k]? = some q) :
    ∃ q', (s.step (.start id)).reqs[k]? = some q' ∧ q'.phase = q.phase := by
  have hr : ∃ q', (s.remove id).reqs[k]? = some q' ∧ q'.phase = q.phase := by
    simp only [CliSt.remove]
    split
    · exact ⟨q, hk, rfl⟩
    · rename_i j _
      simp only [dropSender, List.getElem?_modify, hk]
      by_cases hj : j = k
      · refine ⟨q.drop, by simp [hj], ?_⟩
        rcases q.drop_cases with h | ⟨-, h⟩ <;> rw [h]
      · exact ⟨q, by simp [hj], rfl⟩
  obtain ⟨q', h1, h2⟩ := hr
  refine ⟨q', ?_, h2⟩
  simp only [CliSt.step]
  rw [List.getElem?_append_left (List.getElem?_eq_some_iff.mp h1).1]; exact h1

/-- A request in the next state. -/
theorem req_next {w : World E S} (hw : WorldInv st w) {c : Nat} {x x' : Conn S} (hx : w.conns[c]? = some x) {ev : WEv S}
    (hx' : (w.step ev).conns[c]? = some x') {k : Nat} {a : Asked} {q : CReq} (ha : x.asked[k]? = some a) (hq : x.cli.reqs[k]? = some q) :
    x'.asked[k]? = some a ∧ ∃ q', x'.cli.reqs[k]? = some q' ∧ q'.cost ≤ q.cost := by
  by_cases hask : ∃ id r, ev = .net c (.ask id r)
  · obtain ⟨id, r, rfl⟩ := hask
    have hx2 : (w.step (.net c (.ask id r))).conns[c]? = some (x.step (.ask id r)) := by simp only [World.step]; rw [List.getElem?_modify, hx]; simp
    rw [hx2] at hx'; cases hx'
    obtain ⟨q', h1, h2⟩ := ask_req x.cli id hq
    refine ⟨?_, q', h1, by simp [CReq.cost, h2]⟩
    show (x.asked ++ _)[k]? = _
    rw [List.getElem?_append_left (List.getElem?_eq_some_iff.mp ha).1]; exact ha
  · obtain ⟨h1, h2⟩ := table_step hx hx' (fun id r h => hask ⟨id, r, h⟩)
    refine ⟨by rw [h1]; exact ha, ?_⟩
    rcases h2 with h2 | ⟨ce, -, h2⟩
    · exact ⟨q, by rw [h2]; exact hq, Nat.le_refl _⟩
    · obtain ⟨q', g1, g2⟩ := step_change (cinv_of (hw.conns c x hx)) ce hq
      exact ⟨q', by rw [h2]; exact g1, g2.cost⟩

/-- A caller that goes on comes nearer to its end. -/
theorem caller_step {w : World E S} {c : Nat} {x x' : Conn S} (hx : w.conns[c]? = some x) {ev : WEv S}
    (hx' : (w.step ev).conns[c]? = some x') {k : Nat} {q q' : CReq} (hq : x.cli.reqs[k]? = some q) (hq' : x'.cli.reqs[k]? = some q')
    (hm : w.MovesPart c (.caller k) ev) : q'.cost < q.cost := by
  obtain ⟨hmv, hp⟩ := hm
  cases ev with
  | net d e =>
    obtain ⟨rfl, y, hy, hmv⟩ := hmv
    rw [hx] at hy; cases hy
    have hx2 : (w.step (.net d e)).conns[d]? = some (x.step e) := by simp only [World.step]; rw [List.getElem?_modify, hx]; simp
    rw [hx2] at hx'; cases hx'
    cases e with
    | asked j =>
      have hjk : j = k := hp
      subst hjk
      obtain ⟨a, m, r, q0, g1, g2, g3, g4⟩ := hmv
      rw [hq] at g3; cases g3
      simp only [Conn.step, g1, g2, Conn.cliStep] at hq'
      obtain ⟨id, ph, sl⟩ := q
      simp only at g4; subst g4
      cases r with
      | ok u =>
        simp only [CliSt.step, hq] at hq'
        rw [List.getElem?_modify, hq] at hq'
        simp at hq'; subst hq'
        simp [CReq.cost]
      | error er =>
        obtain ⟨q2, h1, h2⟩ := finish_cost x.cli j id (.error er) hq
        simp only [CliSt.step, hq] at hq'
        rw [h1] at hq'; cases hq'
        simp [CReq.cost, h2]
    | wake j =>
      have hjk : j = k := hp
      subst hjk
      obtain ⟨q0, g1, g2, g3⟩ := hmv
      rw [hq] at g1; cases g1
      obtain ⟨id, ph, sl⟩ := q
      simp only at g2; subst g2
      simp only [Conn.step, Conn.cliStep] at hq'
      cases sl with
      | empty => exact absurd rfl g3
      | full m =>
        obtain ⟨q2, h1, h2⟩ := finish_cost x.cli j id (.ok m) hq
        simp only [CliSt.step, hq] at hq'
        rw [h1] at hq'; cases hq'
        simp [CReq.cost, h2]
      | dropped =>
        obtain ⟨q2, h1, h2⟩ := finish_cost x.cli j id (.error "ConnectionAborted") hq
        simp only [CliSt.step, hq] at hq'
        rw [h1] at hq'; cases hq'
        simp [CReq.cost, h2]
    | _ => exact hp.elim
  | _ => exact hp.elim

/-! ### No request starves -/

/-- C89. A client connects; from then on anything may happen, for ever: any requests on this connection and on others, in any number, at any time,
    requests given up, times running out - as long as (1) nothing happens that breaks this connection, (2) the message ids on it differ, (3) the
    callers of a sending half get the permit in turn, (4) no part of the system that works for this connection is stalled: whenever one of them
    can go on, it does go on some time later. Then every request ever made on this connection that is not given up and whose time does not run out is
    answered: from some time on its result is the outcome of a handling, by the server, of exactly this request. -/
theorem C89_no_request_starves (L : S.Lawful) (hst : GoodStore E st) (evs : List (WEv S)) (u v : S.St) (σ : Nat → WEv S) :
    let c := (World.run E S st evs).conns.length
    let W := World.after E S st (evs ++ [.connect u v]) σ
    (∀ n, ¬ (W n).Breaks c (σ n)) →
    (∀ n, (W n).FreshIds c) →
    (∀ n, (W n).InTurn c (σ n)) →
    (∀ p n, (∃ e, (W n).MovesPart c p e) → ∃ m, n ≤ m ∧ (W m).MovesPart c p (σ m)) →
    ∀ n k id q, (W n).request c k = some (id, q) → (∀ m, σ m ≠ .net c (.cancel k) ∧ σ m ≠ .net c (.timeout k)) →
      ∃ T, ∀ m, T ≤ m → ∃ d ∈ (W m).sys.done, d.conn = c ∧ d.msg = .req id q ∧ (W m).result c k = some d.outcome := by
  intro c W hb hfresh hturn hfair n k id q hreq hkeep
  -- the connection, at all times
  have hx0 : (World.run E S st (evs ++ [.connect u v])).conns[c]? = some (Conn.init u v) := by
    rw [run_ext evs]; simp [World.step, c]
  obtain ⟨x0, hx0', hf0, hi0⟩ := unbroken_start (E := E) (S := S) (st := st) L evs [] u v (by intro a e b hab; simp at hab)
  have hx0'' : (World.run E S st (evs ++ [.connect u v])).conns[c]? = some x0 := hx0'
  rw [hx0] at hx0''; cases hx0''
  have hall := after_fine (σ := σ) L hx0 hf0 hi0 hb
  let X : Nat → Conn S := fun n => ((W n).conns[c]?).getD (Conn.init u v)
  have hX : ∀ n, (W n).conns[c]? = some (X n) ∧ (X n).Fine ∧ InFlight (W n).sys c (X n) := by
    intro n
    obtain ⟨x', h1, h2, h3⟩ := hall n
    have h1' : (W n).conns[c]? = some x' := h1
    have : X n = x' := by simp only [X, h1', Option.getD_some]
    rw [this]; exact ⟨h1, h2, h3⟩
  have hgood : ∀ n, (X n).up.Good ∧ (X n).down.Good := fun n => fine_good L (hX n).1 (hX n).2.1
  have hWs : ∀ n, W (n + 1) = (W n).step (σ n) := by
    intro n
    show World.after E S st _ σ (n + 1) = _
    rw [after_succ]
    exact run_ext _ _
  have hinv : ∀ n, WorldInv st (W n) := fun n => worldInv_run st _
  have hX1 : ∀ n, ((W n).step (σ n)).conns[c]? = some (X (n + 1)) := fun n => by rw [← hWs]; exact (hX (n + 1)).1
  have hlinks : ∀ n, LStep (X n).up (X (n + 1)).up ∧ DStep (X n).down (X (n + 1)).down :=
    fun n => links_step (hX n).1 (hX n).2.1 (hb n) (hturn n) (hX1 n)
  have hXe : ∀ n e, σ n = .net c e → X (n + 1) = (X n).step e := by
    intro n e he
    have h := hX1 n
    rw [he] at h
    simp only [World.step] at h
    rw [List.getElem?_modify, (hX n).1] at h
    simp at h; exact h.symm
  have hX0 : X 0 = Conn.init u v := by
    have h := (hX 0).1
    have : W 0 = World.run E S st (evs ++ [.connect u v]) := by simp [W, World.after]
    rw [this, hx0] at h
    exact (Option.some.inj h).symm
  -- the two directions
  have up : Trace (fun n => (X n).up) u := by
    refine ⟨by rw [hX0]; rfl, fun n => (hgood n).1, fun n => (hX n).2.2.upP, fun n => (hlinks n).1, ?_, ?_, ?_⟩
    · rintro n ⟨e, he⟩
      obtain ⟨m, hm, ⟨hmv, hp⟩⟩ := hfair .sendUp n ⟨.net c (.upSend e), ⟨rfl, X n, (hX n).1, he⟩, trivial⟩
      have ht := hturn m
      have hs := hXe m
      generalize σ m = ev at *
      cases ev with
      | net d e' =>
        cases e' with
        | upSend e' =>
          obtain ⟨rfl, y, hy, hmv⟩ := hmv
          have := (hX m).1; rw [hy] at this; cases this
          refine ⟨m, hm, e', hmv, ht rfl _ hy, ?_⟩
          show (X (m + 1)).up = _
          rw [hs _ rfl]
          simp only [Conn.step, SEv.progress_internal (Moves.progress hmv), if_true]
        | _ => exact hp.elim
      | _ => exact hp.elim
    · rintro n ⟨b, hb1, hb2⟩
      obtain ⟨m, hm, ⟨hmv, hp⟩⟩ := hfair .wireUp n ⟨.net c (.upArrive b), ⟨rfl, X n, (hX n).1, hb1, hb2⟩, trivial⟩
      have hs := hXe m
      generalize σ m = ev at *
      cases ev with
      | net d e' =>
        cases e' with
        | upArrive b' =>
          obtain ⟨rfl, y, hy, hmv⟩ := hmv
          refine ⟨m, hm, b', hmv.1, ?_⟩
          show (X (m + 1)).up = _
          rw [hs _ rfl]; rfl
        | _ => exact hp.elim
      | _ => exact hp.elim
    · rintro n ⟨i, hi⟩
      obtain ⟨m, hm, ⟨hmv, hp⟩⟩ := hfair .takeUp n ⟨.serve c, ⟨rfl, X n, i, (hX n).1, hi⟩, trivial⟩
      have hs := hX1 m
      generalize σ m = ev at *
      cases ev with
      | serve d =>
        obtain ⟨rfl, y, i', hy, hmv⟩ := hmv
        have h2 := (hX m).1; rw [hy] at h2; cases h2
        refine ⟨m, hm, ⟨i', hmv⟩, ?_⟩
        simp only [World.step, hy, (hX m).2.1.here, hmv, Bool.false_eq_true, if_false] at hs
        have hs' : ((W m).conns.modify c (fun x => { x with up := x.up.poll }))[c]? = some (X (m + 1)) := hs
        rw [List.getElem?_modify, hy] at hs'
        simp at hs'
        show (X (m + 1)).up = _
        rw [← hs']
      | _ => exact hp.elim
  have down : Trace (fun n => (X n).down) v := by
    refine ⟨by rw [hX0]; rfl, fun n => (hgood n).2, fun n => (hX n).2.2.downP, fun n => (hlinks n).2.1, ?_, ?_, ?_⟩
    · rintro n ⟨e, he⟩
      obtain ⟨m, hm, ⟨hmv, hp⟩⟩ := hfair .sendDown n ⟨.net c (.downSend e), ⟨rfl, X n, (hX n).1, he⟩, trivial⟩
      have ht := hturn m
      have hs := hXe m
      generalize σ m = ev at *
      cases ev with
      | net d e' =>
        cases e' with
        | downSend e' =>
          obtain ⟨rfl, y, hy, hmv⟩ := hmv
          have := (hX m).1; rw [hy] at this; cases this
          refine ⟨m, hm, e', hmv, ht rfl _ hy, ?_⟩
          show (X (m + 1)).down = _
          rw [hs _ rfl]
          simp only [Conn.step, SEv.progress_internal (Moves.progress hmv), (hX m).2.1.here, Bool.not_false, Bool.and_true, if_true]
        | _ => exact hp.elim
      | _ => exact hp.elim
    · rintro n ⟨b, hb1, hb2⟩
      obtain ⟨m, hm, ⟨hmv, hp⟩⟩ := hfair .wireDown n ⟨.net c (.downArrive b), ⟨rfl, X n, (hX n).1, hb1, hb2⟩, trivial⟩
      have hs := hXe m
      generalize σ m = ev at *
      cases ev with
      | net d e' =>
        cases e' with
        | downArrive b' =>
          obtain ⟨rfl, y, hy, hmv⟩ := hmv
          refine ⟨m, hm, b', hmv.1, ?_⟩
          show (X (m + 1)).down = _
          rw [hs _ rfl]; rfl
        | _ => exact hp.elim
      | _ => exact hp.elim
    · rintro n ⟨i, hi⟩
      obtain ⟨m, hm, ⟨hmv, hp⟩⟩ := hfair .takeDown n ⟨.net c .poll, ⟨rfl, X n, (hX n).1, i, hi⟩, trivial⟩
      have hs := hXe m
      generalize σ m = ev at *
      cases ev with
      | net d e' =>
        cases e' with
        | poll =>
          obtain ⟨rfl, y, hy, i', hmv⟩ := hmv
          have h2 := (hX m).1; rw [hy] at h2; cases h2
          refine ⟨m, hm, ⟨i', hmv⟩, ?_⟩
          show (X (m + 1)).down = _
          rw [hs _ rfl]
          simp only [Conn.step, hmv]
        | _ => exact hp.elim
      | _ => exact hp.elim
  -- the request
  obtain ⟨y, a, hy, ha, rfl, rfl⟩ := request_some hreq
  have hy' := (hX n).1
  rw [hy] at hy'; cases hy'
  have hlen : ∀ n, (X n).cli.reqs.length = (X n).asked.length := fun n => by
    simpa using congrArg List.length (ids_of ((hinv n).conns c _ (hX n).1))
  have hnod : ∀ n, ((X n).asked.map Asked.id).Nodup := fun n => hfresh n _ (hX n).1
  -- it runs or is answered
  have hwell : ∀ n q, (X n).cli.reqs[k]? = some q → q.Well := by
    intro n
    induction n with
    | zero => intro q hq; rw [hX0] at hq; simp [Conn.init, CliSt.init] at hq
    | succ n ih =>
      intro q hq
      by_cases hask : ∃ id r, σ n = .net c (.ask id r)
      · obtain ⟨id, r, he⟩ := hask
        rw [hXe n _ he] at hq
        have hq' : ((X n).cli.step (.start id)).reqs[k]? = some q := hq
        cases hqn : (X n).cli.reqs[k]? with
        | some q0 =>
          obtain ⟨q1, h1, h2⟩ := ask_req (X n).cli id hqn
          rw [hq'] at h1; cases h1
          exact (ih q0 hqn).of_phase h2
        | none =>
          simp only [CliSt.step] at hq'
          rw [List.getElem?_append_right (by
            have h0 := List.getElem?_eq_none_iff.mp hqn
            have : ((X n).cli.remove id).reqs.length = (X n).cli.reqs.length := by
              simp only [CliSt.remove]; split <;> simp [dropSender]
            omega)] at hq'
          have hm := List.mem_of_getElem? hq'
          simp only [List.mem_singleton] at hm
          subst hm
          exact Or.inl (Or.inl rfl)
      · have hnoask : ∀ id r, σ n ≠ .net c (.ask id r) := fun id r h => hask ⟨id, r, h⟩
        have hlenn : (X (n + 1)).asked = (X n).asked := asked_kept (hX n).1 (hX1 n) hnoask
        have hk : k < (X n).cli.reqs.length := by
          rw [hlen, ← hlenn, ← hlen]; exact (List.getElem?_eq_some_iff.mp hq).1
        have hq0 : (X n).cli.reqs[k]? = some (X n).cli.reqs[k] := List.getElem?_eq_getElem hk
        obtain ⟨x', h1, -, q', h3, h4⟩ := well_step L _ c (X n) (hX n).1 (hX n).2.1 (hX n).2.2 (hnod n) hq0 (ih _ hq0) (σ n) hnoask (hkeep n).1 (hkeep n).2
        rw [run_ext] at h1
        have h1' : ((W n).step (σ n)).conns[c]? = some x' := h1
        rw [hX1 n] at h1'; cases h1'
        rw [hq] at h3; cases h3
        exact h4
  -- from now on
  have hka : k < (X n).cli.reqs.length := by rw [hlen]; exact (List.getElem?_eq_some_iff.mp ha).1
  have hreqs : ∀ d, (X (n + d)).asked[k]? = some a ∧ ∃ q, (X (n + d)).cli.reqs[k]? = some q := by
    intro d
    induction d with
    | zero => exact ⟨ha, _, List.getElem?_eq_getElem hka⟩
    | succ d ih =>
      obtain ⟨h1, q, h2⟩ := ih
      obtain ⟨g1, q', g2, -⟩ := req_next (hinv (n + d)) (hX (n + d)).1 (hX1 (n + d)) h1 h2
      exact ⟨g1, q', g2⟩
  have hcost : ∀ m d q q', n ≤ m → (X m).cli.reqs[k]? = some q → (X (m + d)).cli.reqs[k]? = some q' → q'.cost ≤ q.cost := by
    intro m d q q' hm hq
    induction d generalizing q' with
    | zero => intro hq'; rw [show m + 0 = m from rfl, hq] at hq'; cases hq'; exact Nat.le_refl _
    | succ d ih =>
      intro hq'
      obtain ⟨h1, q1, h2⟩ := hreqs (m + d - n)
      rw [show n + (m + d - n) = m + d by omega] at h1 h2
      obtain ⟨-, q2, g2, g3⟩ := req_next (hinv (m + d)) (hX (m + d)).1 (hX1 (m + d)) h1 h2
      have hq'' : (X (m + d + 1)).cli.reqs[k]? = some q' := hq'
      rw [g2] at hq''; cases hq''
      exact Nat.le_trans g3 (ih q1 h2)
  -- once it has ended, it is answered
  have hend : (∃ T q, n ≤ T ∧ (X T).cli.reqs[k]? = some q ∧ q.cost = 0) →
      ∃ T, ∀ m, T ≤ m → ∃ d ∈ (W m).sys.done, d.conn = c ∧ d.msg = .req a.id a.req ∧ (W m).result c k = some d.outcome := by
    rintro ⟨T, q, hT, hq, hq0⟩
    refine ⟨T, fun m hm => ?_⟩
    obtain ⟨h1, q', h2⟩ := hreqs (m - n)
    rw [show n + (m - n) = m by omega] at h1 h2
    have hc0 := hcost T (m - T) q q' hT hq (by rw [show T + (m - T) = m by omega]; exact h2)
    rcases hwell m q' h2 with (hp | hp) | ⟨r, hp⟩
    · have : q'.cost = 2 := by simp [CReq.cost, hp]
      omega
    · have : q'.cost = 1 := by simp [CReq.cost, hp]
      omega
    · exact done_answered L hst _ c (X m) (hX m).1 (hX m).2.1 (hX m).2.2 (hnod m) h1 h2 hp
  refine Classical.byContradiction fun hno => ?_
  have hact : ∀ m q, n ≤ m → (X m).cli.reqs[k]? = some q → q.active := by
    intro m q hm hq
    rcases hwell m q hq with hp | ⟨r, hp⟩
    · exact hp
    · exact absurd (hend ⟨m, q, hm, hq, by simp [CReq.cost, hp]⟩) hno
  -- the request reaches the server
  have hsent : ∀ m, n ≤ m → ∃ ph, (X m).up.snd.calls[a.call]? = some ⟨some (.req a.id a.req), ph⟩ ∧ ∀ b, ph ≠ .dropped b := by
    intro m hm
    obtain ⟨h1, q, h2⟩ := hreqs (m - n)
    rw [show n + (m - n) = m by omega] at h1 h2
    obtain ⟨ph, g1, g2⟩ := (hX m).2.2.sent k a h1
    exact ⟨ph, g1, g2 (hnod m) q h2 (hact m q hm h2)⟩
  obtain ⟨ph, hcall, -⟩ := hsent n (Nat.le_refl _)
  obtain ⟨T1, hT1, hup⟩ := up.delivered L (j := a.call) (n := n) hcall (by
    intro d b hd
    obtain ⟨ph', g1, g2⟩ := hsent (n + d) (by omega)
    have hd' : (X (n + d)).up.snd.calls[a.call]? = _ := hd
    rw [g1] at hd'; cases hd'
    exact g2 b rfl)
  -- it is handled
  have hids : ∀ m, IdInv (W m).sys := fun m => by rw [(hinv m).sys]; exact idInv_run st _
  have hdone : ∀ m p, (∃ d ∈ (W m).sys.done, d.conn = c ∧ d.msg = .req a.id a.req) → m ≤ p → ∃ d ∈ (W p).sys.done, d.conn = c ∧ d.msg = .req a.id a.req := by
    rintro m p ⟨d, hd, hdc, hdm⟩ hmp
    refine ⟨d, ?_, hdc, hdm⟩
    obtain ⟨i, rfl⟩ : ∃ i, p = m + i := ⟨p - m, by omega⟩
    clear hmp
    induction i with
    | zero => exact hd
    | succ i ih =>
      rw [← Nat.add_assoc, hWs]
      rcases sys_step (hb (m + i)) with ⟨h, -⟩ | ⟨e, -, h, -⟩
      · rw [h]; exact ih
      · rw [h]; exact done_kept _ _ ih
  have hhandled : ∃ T2, n ≤ T2 ∧ ∃ d ∈ (W T2).sys.done, d.conn = c ∧ d.msg = .req a.id a.req := by
    rcases (hX T1).2.2.taken (hX T1).2.1.here _ (hup 0).1 with ⟨t, ht, htc, htm⟩ | hd
    · have main : ∀ N m (t : Thread E), n ≤ m → t ∈ (W m).sys.threads → t.conn = c → t.msg = .req a.id a.req → LeftInv t.id N (W m).sys →
          ∃ T2, n ≤ T2 ∧ ∃ d ∈ (W T2).sys.done, d.conn = c ∧ d.msg = .req a.id a.req := by
        intro N
        induction N using Nat.strongRecOn with
        | ind N ih =>
          intro m t hm ht htc htm hleft
          obtain ⟨i0, hi0⟩ := List.mem_iff_getElem?.mp ht
          obtain ⟨p, hp, hmv, hpart⟩ := hfair (.handler t.id) m
            ⟨.act i0 ⟨fun n => B.fill n 0, 0, .error "", none⟩, ⟨t, hi0, htc⟩, t, hi0, rfl⟩
          -- between
          have hbet : ∀ i, (∃ d ∈ (W (m + i)).sys.done, d.conn = c ∧ d.msg = .req a.id a.req) ∨
              ((∃ t' ∈ (W (m + i)).sys.threads, t'.id = t.id ∧ t'.conn = c ∧ t'.msg = .req a.id a.req) ∧ LeftInv t.id N (W (m + i)).sys ∧
                t.id < (W (m + i)).sys.inbox.length) := by
            intro i
            induction i with
            | zero => exact Or.inr ⟨⟨t, ht, rfl, htc, htm⟩, hleft, (List.getElem?_eq_some_iff.mp ((hids m).threads t ht).1).1⟩
            | succ i ihi =>
              rcases ihi with hd | ⟨⟨t', ht', e1, e2, e3⟩, hl, hin⟩
              · exact Or.inl (hdone _ _ hd (by omega))
              · rw [← Nat.add_assoc, hWs]
                rcases sys_step (hb (m + i)) with ⟨h, -⟩ | ⟨e, he, h, -⟩
                · rw [h]; exact Or.inr ⟨⟨t', ht', e1, e2, e3⟩, hl, hin⟩
                · rw [h]
                  rcases sys_next ht' he with ⟨t2, q1, q2, q3, q4⟩ | ⟨d, q1, q2, q3⟩
                  · exact Or.inr ⟨⟨t2, q1, q2.trans e1, q3.trans e2, q4.trans e3⟩, (left_step (hids _) hin hl e).1, Nat.lt_of_lt_of_le hin (inbox_kept _ _)⟩
                  · exact Or.inl ⟨d, q1, q2.trans e2, q3.trans e3⟩
          have hp' := hbet (p - m)
          rw [show m + (p - m) = p by omega] at hp'
          rcases hp' with hd | ⟨⟨t', ht', e1, e2, e3⟩, hl, hin⟩
          · exact ⟨p, by omega, hd⟩
          have hbp := hb p
          have hw1 := hWs p
          generalize σ p = ev at *
          cases ev with
          | act i ch =>
            obtain ⟨t3, ht3, ht3id⟩ := hpart
            rcases sys_step hbp with h | ⟨e, he, h, hact⟩
            · exact absurd rfl (h.2 i ch)
            · have he' := hact i ch rfl
              subst he'
              rcases (left_step (hids p) hin hl (.step i ch)).2 (by simp [Sys.stepped, ht3, ht3id]) with g | ⟨N', g1, g2⟩
              · rcases sys_next ht' he with ⟨t2, q1, q2, -, -⟩ | ⟨d, q1, q2, q3⟩
                · exact absurd (q2.trans e1) (g t2 q1)
                · exact ⟨p + 1, by omega, d, by rw [hw1, h]; exact q1, q2.trans e2, q3.trans e3⟩
              · rcases sys_next ht' he with ⟨t2, q1, q2, q3, q4⟩ | ⟨d, q1, q2, q3⟩
                · exact ih N' (by omega) (p + 1) t2 (by omega) (by rw [hw1, h]; exact q1) (q3.trans e2) (q4.trans e3) (by rw [q2, e1, hw1, h]; exact g2)
                · exact ⟨p + 1, by omega, d, by rw [hw1, h]; exact q1, q2.trans e2, q3.trans e3⟩
          | _ => exact hpart.elim
      refine main 16 T1 t hT1 ht htc htm (fun t' ht' _ => ?_)
      have := within_run (E := E) st (W T1).sevs
      rw [← (hinv T1).sys] at this
      exact this t' ht'
    · exact ⟨T1, hT1, hd⟩
  obtain ⟨T2, hT2, d, hd, hdc, hdm⟩ := hhandled
  -- the answer reaches the client
  obtain ⟨j, ph2, hj, hnd⟩ := (hX T2).2.2.answered d hd hdc
  obtain ⟨T3, hT3, hdown⟩ := down.delivered L (j := j) (n := T2) hj (by
    intro i b hi
    have hi' : (X (T2 + i)).down.snd.calls[j]? = some ⟨some (.res d.msg.id (.ofOutcome d.outcome)), .dropped b⟩ := hi
    have back : ∀ i, (X (T2 + i)).down.snd.calls[j]? = some ⟨some (.res d.msg.id (.ofOutcome d.outcome)), .dropped b⟩ →
        (X T2).down.snd.calls[j]? = some ⟨some (.res d.msg.id (.ofOutcome d.outcome)), .dropped b⟩ := by
      intro i
      induction i with
      | zero => exact fun h => h
      | succ i ih => exact fun h => ih ((hlinks (T2 + i)).2.2 _ _ _ h)
    have := back i hi'
    have hj' : (X T2).down.snd.calls[j]? = _ := hj
    rw [hj'] at this; cases this
    exact hnd b rfl)
  -- the caller takes it
  have hcan : ∀ m, T1 ≤ m → T3 ≤ m → ∃ e, (W m).MovesPart c (.caller k) e := by
    intro m h1 h3
    obtain ⟨g1, q, g2⟩ := hreqs (m - n)
    rw [show n + (m - n) = m by omega] at g1 g2
    have hqa := hact m q (by omega) g2
    have hcall : (X m).up.snd.calls[a.call]? = some ⟨some (.req a.id a.req), .done (.ok ())⟩ := by
      have := (hup (m - T1)).2
      rwa [show T1 + (m - T1) = m by omega] at this
    have hgot := (hdown (m - T3)).1
    rw [show T3 + (m - T3) = m by omega] at hgot
    have hended := ended_of_good L (connWire_run L st _ c (X m) (hX m).1) (hgood m).2
    have hqid : q.id = a.id := by
      have := congrArg (fun l => l[k]?) (ids_of ((hinv m).conns c _ (hX m).1))
      simp only [List.getElem?_map, g1, g2, Option.map_some, Option.some.injEq] at this
      exact this
    have hslot : q.slot ≠ .empty := by
      intro hem
      refine ((hX m).2.2.slot hended (hnod m) k q g2 hqa).2 hem _ hgot ?_
      rw [hqid, hdm]; rfl
    rcases hqa with hp | hp
    · exact ⟨.net c (.asked k), ⟨rfl, X m, (hX m).1, a, _, _, q, g1, hcall, g2, hp⟩, rfl⟩
    · exact ⟨.net c (.wake k), ⟨rfl, X m, (hX m).1, q, g2, hp, hslot⟩, rfl⟩
  have hlast : ∀ N m q, n ≤ m → T1 ≤ m → T3 ≤ m → (X m).cli.reqs[k]? = some q → q.cost ≤ N → False := by
    intro N
    induction N with
    | zero =>
      intro m q hm _ _ hq hc
      rcases hact m q hm hq with hp | hp <;> simp [CReq.cost, hp] at hc
    | succ N ih =>
      intro m q hm h1 h3 hq hc
      obtain ⟨p, hp, hmv⟩ := hfair _ m (hcan m h1 h3)
      obtain ⟨-, q1, g1⟩ := hreqs (p - n)
      rw [show n + (p - n) = p by omega] at g1
      obtain ⟨-, q2, g2⟩ := hreqs (p + 1 - n)
      rw [show n + (p + 1 - n) = p + 1 by omega] at g2
      have h4 := caller_step (hX p).1 (hX1 p) g1 g2 hmv
      have h5 := hcost m (p - m) q q1 hm hq (by rw [show m + (p - m) = p by omega]; exact g1)
      exact ih (p + 1) q2 (by omega) (by omega) (by omega) g2 (by omega)
  obtain ⟨-, q, g⟩ := hreqs (T1 + T3 - n)
  rw [show n + (T1 + T3 - n) = T1 + T3 by omega] at g
  exact hlast _ (T1 + T3) q (by omega) (by omega) (by omega) g (Nat.le_refl _)

end Lair
