import Verif.Props.Session

/-
What one client sees of a run of the server, and programs that see nothing of the keystore. Used by `Props/Blind.lean`
(non-interference). Nothing here models further code: the system is that of `Verif.System`.
-/
namespace Lair

/-! ### SPECIFICATION: what one client sees -/

/-- Something the client of a connection says or sees, in order. Specification: nothing in the code corresponds. -/
inductive Seen where
  /-- the client sent this message -/
  | said (m : Msg)
  /-- the client received this answer to its message with this id -/
  | heard (id : String) (r : Resp)
  /-- the server process ended and was started again -/
  | lost
deriving DecidableEq

/-- What the client of connection `c` says or sees when `ev` happens in state `s`. The answers are those of the requests
    of this connection that finish with this event (the records the event adds to the history).
    Specification: nothing in the code corresponds. -/
def seenAt {E : Env} (c : Nat) (s : Sys E) (ev : Event) : List Seen :=
  (match ev with
    | .recv d m => if d = c then [Seen.said m] else []
    | .restart => [Seen.lost]
    | .step _ _ => []) ++
  (((s.step ev).done.drop s.done.length).filter (fun d => d.conn = c)).flatMap
    (fun d => d.wire.map (Seen.heard d.msg.id))

/-- What it sees from state `s` on while `evs` happen. Specification: nothing in the code corresponds. -/
def seenFrom {E : Env} (c : Nat) : Sys E → List Event → List Seen
  | _, [] => []
  | s, ev :: evs => seenAt c s ev ++ seenFrom c (s.step ev) evs

/-- What the client of connection `c` sees of the run of the server on store `st` in which `evs` happen.
    Specification: nothing in the code corresponds. -/
def seen (E : Env) (st : E.S.σ) (c : Nat) (evs : List Event) : List Seen := seenFrom c (Sys.init E st) evs

/-- Only connection `c` sends messages. Specification: nothing in the code corresponds. -/
def OnlyFrom (c : Nat) (evs : List Event) : Prop := ∀ d m, Event.recv d m ∈ evs → d = c

/-- Connection `c` sends no message. Specification: nothing in the code corresponds. -/
def NoneFrom (c : Nat) (evs : List Event) : Prop := ∀ d m, Event.recv d m ∈ evs → d ≠ c

/-- The right passphrase of keystore `E` is never among what the client says.
    Specification: nothing in the code corresponds. -/
def NeverRight (E : Env) (c : Nat) (tr : List Seen) : Prop :=
  ∀ i p, Seen.said (.req i (.unlock p)) ∈ tr → ¬ RightPassphrase E c p

/-- Two keystores that look the same from outside: same announced identity, same cryptography, same passphrase (salt, limits
    and encrypted identity seed of the configuration), same key of connection `c`. They may differ in the kind of store and
    in its encryption key, in the cache size, in whether a fallback signer is configured, in certificate generation, and
    in what the server uses to encrypt secrets for its clients. Specification: nothing in the code corresponds. -/
structure SameFront (E E' : Env) (c : Nat) : Prop where
  crypto : E.C = E'.C
  name : E.name = E'.name
  version : E.version = E'.version
  idPk : E.idPk = E'.idPk
  salt : E.salt = E'.salt
  ops : E.ops = E'.ops
  mem : E.mem = E'.mem
  idSeedEnc : E.idSeedEnc = E'.idSeedEnc
  decKey : E.decKey c = E'.decKey c
  debugFmt : E.debugFmt = E'.debugFmt

theorem SameFront.refl (E : Env) (c : Nat) : SameFront E E c := ⟨rfl, rfl, rfl, rfl, rfl, rfl, rfl, rfl, rfl, rfl⟩

theorem SameFront.symm {E E' : Env} {c : Nat} (h : SameFront E E' c) : SameFront E' E c :=
  ⟨h.1.symm, h.2.symm, h.3.symm, h.4.symm, h.5.symm, h.6.symm, h.7.symm, h.8.symm, h.9.symm, h.10.symm⟩

theorem SameFront.unlockCheck {E E' : Env} {c : Nat} (h : SameFront E E' c) (p : SecretSized 81) :
    unlockCheck E c p = unlockCheck E' c p := by
  unfold Lair.unlockCheck decPass
  rw [h.crypto, h.idPk, h.salt, h.ops, h.mem, h.idSeedEnc, h.decKey]

theorem SameFront.right {E E' : Env} {c : Nat} (h : SameFront E E' c) (p : SecretSized 81) :
    RightPassphrase E c p ↔ RightPassphrase E' c p := by
  rw [← rightPassphrase_iff, ← rightPassphrase_iff, h.unlockCheck]

theorem SameFront.never {E E' : Env} {c : Nat} (h : SameFront E E' c) {tr : List Seen} (hn : NeverRight E c tr) :
    NeverRight E' c tr := fun i p hp hr => hn i p hp ((h.right p).2 hr)

/-! ### Programs that see nothing -/

/-- Two programs that do the same as long as the connection's flag is down, and only look at that flag or allocate.
    Proof device: nothing in the code corresponds. -/
inductive BSim : Prog Resp → Prog Resp → Prop where
  | ret (r : Resp) : BSim (.ret r) (.ret r)
  | fail (e : String) : BSim (.fail e) (.fail e)
  | load (k k' : Act.loadUnlocked.Out → Prog Resp) (h : BSim (k false) (k' false)) :
      BSim (.step .loadUnlocked k) (.step .loadUnlocked k')
  | alloc (k k' : Act.alloc.Out → Prog Resp) (h : ∀ r, BSim (k r) (k' r)) : BSim (.step .alloc k) (.step .alloc k')

/-- A gated request only loads the flag. -/
theorem bsim_gate {k k' : Unit → Prog Resp} : BSim (checkUnlocked.bind k) (checkUnlocked.bind k') := by
  refine BSim.load _ _ ?_
  exact BSim.fail "KeystoreLocked"

theorem bsim_handle {E E' : Env} {c : Nat} (h : SameFront E E' c) (m : Msg)
    (hno : ∀ i p, m = .req i (.unlock p) → ¬ RightPassphrase E c p) : BSim (handle E c m) (handle E' c m) := by
  cases m with
  | res i r =>
    simp only [handle]
    rw [h.debugFmt]
    exact BSim.fail _
  | req i r =>
    cases r with
    | hello =>
      simp only [handle, handleReq, hHello]
      rw [h.name, h.version, h.idPk]
      exact BSim.ret _
    | unlock p =>
      simp only [handle, handleReq]
      have h1 := hno i p rfl
      rw [← rightPassphrase_iff] at h1
      have h2 := h.unlockCheck p
      refine BSim.alloc _ _ ?_
      intro r
      cases r with
      | error e => exact BSim.fail e
      | ok u =>
        show BSim ((Prog.ofRes (unlockCheck E c p)).bind _) ((Prog.ofRes (unlockCheck E' c p)).bind _)
        rw [← h2]
        cases hu : unlockCheck E c p with
        | ok u => exact absurd hu h1
        | error e => exact BSim.fail e
    | _ => exact bsim_gate

/-! ### Lists with a distinguished element -/

theorem split_at {α : Type} {l : List α} {i : Nat} {t : α} (h : l[i]? = some t) :
    ∃ a b, l = a ++ t :: b ∧ a.length = i := by
  obtain ⟨hi, rfl⟩ := List.getElem?_eq_some_iff.1 h
  refine ⟨l.take i, l.drop (i + 1), ?_, by simp; omega⟩
  rw [← List.drop_eq_getElem_cons hi, List.take_append_drop]

theorem get_mid {α : Type} (a b : List α) (t : α) : (a ++ t :: b)[a.length]? = some t := by simp

theorem set_mid {α : Type} (a b : List α) (t u : α) : (a ++ t :: b).set a.length u = a ++ u :: b := by simp

theorem erase_mid {α : Type} (a b : List α) (t : α) : (a ++ t :: b).eraseIdx a.length = a ++ b := by
  rw [List.eraseIdx_append_of_length_le (Nat.le_refl _)]; simp

/-- Pointwise relation of lists. Proof device: nothing in the code corresponds. -/
inductive Each2 {α β : Type} (R : α → β → Prop) : List α → List β → Prop where
  | nil : Each2 R [] []
  | cons {a b l l'} (h : R a b) (t : Each2 R l l') : Each2 R (a :: l) (b :: l')

theorem Each2.append {α β : Type} {R : α → β → Prop} {a b : List α} {a' b' : List β} (h : Each2 R a a') (h' : Each2 R b b') :
    Each2 R (a ++ b) (a' ++ b') := by
  induction h with
  | nil => exact h'
  | cons h _ ih => exact .cons h ih

theorem Each2.split {α β : Type} {R : α → β → Prop} {a b : List α} {t : α} {l' : List β} (h : Each2 R (a ++ t :: b) l') :
    ∃ a' t' b', l' = a' ++ t' :: b' ∧ Each2 R a a' ∧ R t t' ∧ Each2 R b b' := by
  induction a generalizing l' with
  | nil =>
    cases h with
    | cons h t => exact ⟨[], _, _, rfl, .nil, h, t⟩
  | cons x xs ih =>
    cases h with
    | cons h t =>
      obtain ⟨a', t', b', rfl, h1, h2, h3⟩ := ih t
      exact ⟨_ :: a', t', b', rfl, .cons h h1, h2, h3⟩

/-! ### Facts about one event -/

variable {E E' : Env}

theorem seenAt_recv (c d : Nat) (m : Msg) (s : Sys E) :
    seenAt c s (.recv d m) = if d = c then [Seen.said m] else [] := by
  simp [seenAt, Sys.step]

theorem seenAt_restart (c : Nat) (s : Sys E) : seenAt c s .restart = [Seen.lost] := by
  simp [seenAt, Sys.step]

theorem seenAt_none (c i : Nat) (ch : Choice) (s : Sys E) (h : s.threads[i]? = none) : seenAt c s (.step i ch) = [] := by
  simp [seenAt, step_none s i ch h]

theorem seenAt_ret (c i : Nat) (ch : Choice) (s : Sys E) (t : Thread E) (r : Resp) (h : s.threads[i]? = some t)
    (hp : t.prog = .ret r) :
    seenAt c s (.step i ch) = if t.conn = c then (deliver t.msg.id (.ok r)).map (Seen.heard t.msg.id) else [] := by
  simp only [seenAt, step_ret s i ch t r h hp, Sys.finish]
  by_cases hc : t.conn = c <;> simp [hc]

theorem seenAt_fail (c i : Nat) (ch : Choice) (s : Sys E) (t : Thread E) (e : String) (h : s.threads[i]? = some t)
    (hp : t.prog = .fail e) :
    seenAt c s (.step i ch) = if t.conn = c then (deliver t.msg.id (.error e)).map (Seen.heard t.msg.id) else [] := by
  simp only [seenAt, step_fail s i ch t e h hp, Sys.finish]
  by_cases hc : t.conn = c <;> simp [hc]

theorem seenAt_act (c i : Nat) (ch : Choice) (s : Sys E) (t : Thread E) (a : Act) (k : a.Out → Prog Resp)
    (h : s.threads[i]? = some t) (hp : t.prog = .step a k) : seenAt c s (.step i ch) = [] := by
  simp [seenAt, step_act s i ch t a k h hp, Sys.perform]

/-- Only a request of the connection itself raises its flag. -/
theorem flag_other (c d : Nat) (ch : Choice) (s : Shared E) (a : Act) (h : d ≠ c) :
    (exec d ch s a).2.1.unlocked c = s.unlocked c := by
  cases a with
  | setUnlocked => simp [exec, Ne.symm h]
  | storeTag t => simp only [exec]; split <;> rfl
  | storeEd t => simp only [exec]; split <;> rfl
  | storeX t => simp only [exec]; split <;> rfl
  | list => simp only [exec]; split <;> rfl
  | alloc => simp only [exec]; split <;> rfl
  | write e => simp only [exec]; split <;> rfl
  | _ => rfl

theorem exec_alloc_sh (c : Nat) (ch : Choice) (s : Shared E) : (exec c ch s .alloc).2.1 = s := by
  simp only [exec]; split <;> rfl

theorem exec_alloc_out (c c' : Nat) (ch : Choice) (s : Shared E) (s' : Shared E') :
    (exec c ch s .alloc).1 = (exec c' ch s' .alloc).1 := by
  cases hf : ch.fault <;> simp only [exec, hf] <;> rfl

/-! ### First simulation: the client of `c` alone on another keystore -/

/-- The request `t` and its copy on the other keystore. Proof device: nothing in the code corresponds. -/
structure Twin (c : Nat) (t : Thread E) (t' : Thread E') : Prop where
  conn : t.conn = c
  conn' : t'.conn = c
  msg : t.msg = t'.msg
  prog : BSim t.prog t'.prog

/-- Simulation relation of C82 (ghost): the requests of `c` and their copies on the other keystore, in the same order. -/
structure SoloSim (c : Nat) (st' : E'.S.σ) (s : Sys E) (s' : Sys E') : Prop where
  threads : Each2 (Twin c) (s.threads.filter (fun t => t.conn = c)) s'.threads
  flag : s.sh.unlocked c = false
  flag' : s'.sh.unlocked c = false
  store : s'.sh.store = st'

/-- The message is not the right passphrase. Proof device: nothing in the code corresponds. -/
def NotRight (E : Env) (c : Nat) (ev : Event) : Prop :=
  ∀ i p, ev = .recv c (.req i (.unlock p)) → ¬ RightPassphrase E c p

theorem alone_step {c : Nat} {st' : E'.S.σ} {s : Sys E} {s' : Sys E'} (hf : SameFront E E' c) (h : SoloSim c st' s s')
    (ev : Event) (hno : NotRight E c ev) :
    ∃ evs', OnlyFrom c evs' ∧ SoloSim c st' (s.step ev) (evs'.foldl Sys.step s') ∧ seenFrom c s' evs' = seenAt c s ev := by
  have skip : SoloSim c st' (s.step ev) s' → seenAt c s ev = [] →
      ∃ evs', OnlyFrom c evs' ∧ SoloSim c st' (s.step ev) (evs'.foldl Sys.step s') ∧ seenFrom c s' evs' = seenAt c s ev :=
    fun h1 h2 => ⟨[], by intro d m hm; simp at hm, h1, by rw [h2]; rfl⟩
  have one : ∀ ev', (∀ d m, ev' = Event.recv d m → d = c) → SoloSim c st' (s.step ev) (s'.step ev') →
      seenAt c s' ev' = seenAt c s ev →
      ∃ evs', OnlyFrom c evs' ∧ SoloSim c st' (s.step ev) (evs'.foldl Sys.step s') ∧ seenFrom c s' evs' = seenAt c s ev := by
    intro ev' h0 h1 h2
    refine ⟨[ev'], ?_, h1, by simp [seenFrom, h2]⟩
    intro d m hm
    simp at hm
    exact h0 d m hm.symm
  cases ev with
  | recv d m =>
    by_cases hd : d = c
    · subst hd
      refine one (.recv d m) (fun _ _ he => by cases he; rfl) ?_ (by rw [seenAt_recv, seenAt_recv])
      refine ⟨?_, h.flag, h.flag', h.store⟩
      simp only [Sys.step, List.filter_append]
      refine h.threads.append ?_
      simp
      exact .cons ⟨rfl, rfl, rfl, bsim_handle hf m (fun i p hm => hno i p (by rw [hm]))⟩ .nil
    · refine skip ⟨?_, h.flag, h.flag', h.store⟩ (by rw [seenAt_recv]; simp [hd])
      simp only [Sys.step, List.filter_append]
      simpa [hd] using h.threads
  | restart =>
    refine one .restart (fun _ _ he => by cases he) ⟨?_, rfl, rfl, h.store⟩ (by rw [seenAt_restart, seenAt_restart])
    simp [Sys.step]
    exact .nil
  | step i ch =>
    cases hti : s.threads[i]? with
    | none =>
      refine skip ?_ (seenAt_none c i ch s hti)
      rw [step_none s i ch hti]; exact h
    | some t =>
      obtain ⟨a, b, hl, hi⟩ := split_at hti
      subst hi
      by_cases hc : t.conn = c
      · have hth := h.threads
        rw [hl, List.filter_append, List.filter_cons_of_pos (by simp [hc])] at hth
        obtain ⟨a', t', b', hl', h1, h2, h3⟩ := hth.split
        have hti' : s'.threads[a'.length]? = some t' := by rw [hl']; exact get_mid _ _ _
        have hfin : ∀ o : Res Resp, SoloSim c st' (s.finish a.length t o) (s'.finish a'.length t' o) := by
          intro o
          refine ⟨?_, h.flag, h.flag', h.store⟩
          simp only [Sys.finish]
          rw [hl, hl', erase_mid, erase_mid, List.filter_append]
          exact h1.append h3
        refine one (.step a'.length ch) (fun _ _ he => by cases he) ?_ ?_
        · have hb := h2.prog
          have hperf : ∀ (x : Act) (k k' : x.Out → Prog Resp), (exec t.conn ch s.sh x).2.1.unlocked c = false →
              (exec t'.conn ch s'.sh x).2.1.unlocked c = false → (exec t'.conn ch s'.sh x).2.1.store = s'.sh.store →
              BSim (k (exec t.conn ch s.sh x).1) (k' (exec t'.conn ch s'.sh x).1) →
              SoloSim c st' (s.perform a.length t ch x k) (s'.perform a'.length t' ch x k') := by
            intro x k k' g1 g2 g3 g4
            refine ⟨?_, g1, g2, by rw [← h.store]; exact g3⟩
            simp only [Sys.perform]
            rw [hl, hl', set_mid, set_mid, List.filter_append, List.filter_cons_of_pos (by simp [hc])]
            exact h1.append (.cons ⟨hc, h2.conn', h2.msg, g4⟩ h3)
          generalize hp : t.prog = p at hb
          generalize hp' : t'.prog = p' at hb
          cases hb with
          | ret r => rw [step_ret s _ ch t r hti hp, step_ret s' _ ch t' r hti' hp']; exact hfin _
          | fail e => rw [step_fail s _ ch t e hti hp, step_fail s' _ ch t' e hti' hp']; exact hfin _
          | load k k' hk =>
            rw [step_act s _ ch t _ k hti hp, step_act s' _ ch t' _ k' hti' hp']
            refine hperf _ _ _ h.flag h.flag' rfl ?_
            simp only [exec]
            rw [hc, h2.conn', h.flag, h.flag']
            exact hk
          | alloc k k' hk =>
            rw [step_act s _ ch t _ k hti hp, step_act s' _ ch t' _ k' hti' hp']
            refine hperf .alloc k k' ?_ ?_ ?_ ?_
            · rw [exec_alloc_sh]; exact h.flag
            · rw [exec_alloc_sh]; exact h.flag'
            · rw [exec_alloc_sh]
            · rw [exec_alloc_out t.conn t'.conn ch s.sh s'.sh]; exact hk _
        · have hb := h2.prog
          generalize hp : t.prog = p at hb
          generalize hp' : t'.prog = p' at hb
          cases hb with
          | ret r =>
            rw [seenAt_ret c _ ch s t r hti hp, seenAt_ret c _ ch s' t' r hti' hp', hc, h2.conn', h2.msg]
          | fail e =>
            rw [seenAt_fail c _ ch s t e hti hp, seenAt_fail c _ ch s' t' e hti' hp', hc, h2.conn', h2.msg]
          | load k k' hk => rw [seenAt_act c _ ch s t _ k hti hp, seenAt_act c _ ch s' t' _ k' hti' hp']
          | alloc k k' hk => rw [seenAt_act c _ ch s t _ k hti hp, seenAt_act c _ ch s' t' _ k' hti' hp']
      · have hth := h.threads
        rw [hl, List.filter_append, List.filter_cons_of_neg (by simp [hc]), ← List.filter_append] at hth
        cases hp : t.prog with
        | ret r =>
          refine skip ?_ (by rw [seenAt_ret c _ ch s t r hti hp]; simp [hc])
          rw [step_ret s _ ch t r hti hp]
          refine ⟨?_, h.flag, h.flag', h.store⟩
          simp only [Sys.finish]; rw [hl, erase_mid]; exact hth
        | fail e =>
          refine skip ?_ (by rw [seenAt_fail c _ ch s t e hti hp]; simp [hc])
          rw [step_fail s _ ch t e hti hp]
          refine ⟨?_, h.flag, h.flag', h.store⟩
          simp only [Sys.finish]; rw [hl, erase_mid]; exact hth
        | step x k =>
          refine skip ?_ (seenAt_act c _ ch s t x k hti hp)
          rw [step_act s _ ch t x k hti hp]
          refine ⟨?_, by rw [← h.flag]; exact flag_other c t.conn ch s.sh x hc, h.flag', h.store⟩
          simp only [Sys.perform]; rw [hl, set_mid, List.filter_append, List.filter_cons_of_neg (by simp [hc]), ← List.filter_append]
          exact hth

theorem seenFrom_append (c : Nat) (s : Sys E) (a b : List Event) :
    seenFrom c s (a ++ b) = seenFrom c s a ++ seenFrom c (a.foldl Sys.step s) b := by
  induction a generalizing s with
  | nil => rfl
  | cons x xs ih => simp [seenFrom, ih]

theorem notRight_of_seen {c : Nat} {s : Sys E} {ev : Event} {tr : List Seen} (h : NeverRight E c (seenAt c s ev ++ tr)) :
    NotRight E c ev := by
  intro i p he
  refine h i p ?_
  subst he
  rw [seenAt_recv]; simp

theorem alone_run {c : Nat} {st' : E'.S.σ} (hf : SameFront E E' c) (evs : List Event) (s : Sys E) (s' : Sys E')
    (h : SoloSim c st' s s') (hno : NeverRight E c (seenFrom c s evs)) :
    ∃ evs', OnlyFrom c evs' ∧ SoloSim c st' (evs.foldl Sys.step s) (evs'.foldl Sys.step s') ∧
      seenFrom c s' evs' = seenFrom c s evs := by
  induction evs generalizing s s' with
  | nil => exact ⟨[], by intro d m hm; simp at hm, h, rfl⟩
  | cons ev evs ih =>
    obtain ⟨e1, a1, a2, a3⟩ := alone_step hf h ev (notRight_of_seen hno)
    obtain ⟨e2, b1, b2, b3⟩ := ih _ _ a2 (fun i p hp => hno i p (List.mem_append_right _ hp))
    refine ⟨e1 ++ e2, ?_, ?_, ?_⟩
    · intro d m hm
      rcases List.mem_append.1 hm with hm | hm
      · exact a1 d m hm
      · exact b1 d m hm
    · rw [List.foldl_append]; exact b2
    · rw [seenFrom_append, a3, b3]; rfl

/-! ### Second simulation: everyone else without the client of `c` -/

/-- A program that only looks at the connection's flag or allocates. Proof device: nothing in the code corresponds. -/
def Idle (p : Prog Resp) : Prop := ∃ p', BSim p p'

/-- The same request in both runs (only its number differs). Proof device: nothing in the code corresponds. -/
structure SameReq (t t' : Thread E) : Prop where
  conn : t.conn = t'.conn
  msg : t.msg = t'.msg
  prog : t.prog = t'.prog

/-- SPECIFICATION: everything the server did so far: entries added, calls of the fallback signer and their answers, unlocked
    connections - without the injected failures. -/
def Sys.deeds (s : Sys E) : List Ev := (s.hist.map Prod.snd).filter (fun ev => ev ≠ .fault)

/-- Simulation relation of C83 (ghost): the requests of everyone but `c`, and equal shared state. -/
structure RestSim (c : Nat) (s s' : Sys E) : Prop where
  threads : Each2 SameReq (s.threads.filter (fun t => t.conn ≠ c)) s'.threads
  idle : ∀ t ∈ s.threads, t.conn = c → Idle t.prog
  flag : s.sh.unlocked c = false
  sh : s'.sh = s.sh
  deeds : s'.deeds = s.deeds

theorem deeds_append (a : List (Nat × Ev)) (id : Nat) (l : List Ev) :
    ((a ++ l.map (fun ev => (id, ev))).map Prod.snd).filter (fun ev => ev ≠ .fault) =
      ((a.map Prod.snd).filter (fun ev => ev ≠ .fault)) ++ l.filter (fun ev => ev ≠ .fault) := by
  simp [Function.comp_def]

theorem others_step {c : Nat} {s s' : Sys E} (h : RestSim c s s') (ev : Event) (hno : NotRight E c ev) :
    ∃ evs', NoneFrom c evs' ∧ RestSim c (s.step ev) (evs'.foldl Sys.step s') ∧
      ∀ d, d ≠ c → seenFrom d s' evs' = seenAt d s ev := by
  have skip : RestSim c (s.step ev) s' → (∀ d, d ≠ c → seenAt d s ev = []) →
      ∃ evs', NoneFrom c evs' ∧ RestSim c (s.step ev) (evs'.foldl Sys.step s') ∧
        ∀ d, d ≠ c → seenFrom d s' evs' = seenAt d s ev :=
    fun h1 h2 => ⟨[], by intro d m hm; simp at hm, h1, fun d hd => by rw [h2 d hd]; rfl⟩
  have one : ∀ ev', (∀ d m, ev' = Event.recv d m → d ≠ c) → RestSim c (s.step ev) (s'.step ev') →
      (∀ d, d ≠ c → seenAt d s' ev' = seenAt d s ev) →
      ∃ evs', NoneFrom c evs' ∧ RestSim c (s.step ev) (evs'.foldl Sys.step s') ∧
        ∀ d, d ≠ c → seenFrom d s' evs' = seenAt d s ev := by
    intro ev' h0 h1 h2
    refine ⟨[ev'], ?_, h1, fun d hd => by simp [seenFrom, h2 d hd]⟩
    intro d m hm
    simp at hm
    exact h0 d m hm.symm
  cases ev with
  | recv d m =>
    by_cases hd : d = c
    · subst hd
      refine skip ⟨?_, ?_, h.flag, h.sh, h.deeds⟩ (fun x hx => by rw [seenAt_recv]; simp [Ne.symm hx])
      · simp only [Sys.step, List.filter_append]
        simpa using h.threads
      · intro t ht hc
        rcases List.mem_append.1 ht with ht | ht
        · exact h.idle t ht hc
        · simp at ht; subst ht
          exact ⟨_, bsim_handle (SameFront.refl E d) m (fun i p hm => hno i p (by rw [hm]))⟩
    · refine one (.recv d m) (fun _ _ he => by cases he; exact hd) ⟨?_, ?_, h.flag, h.sh, h.deeds⟩
        (fun x _ => by rw [seenAt_recv, seenAt_recv])
      · simp only [Sys.step, List.filter_append]
        refine h.threads.append ?_
        simp [hd]
        exact .cons ⟨rfl, rfl, rfl⟩ .nil
      · intro t ht hc
        rcases List.mem_append.1 ht with ht | ht
        · exact h.idle t ht hc
        · simp at ht; subst ht
          exact absurd hc hd
  | restart =>
    refine one .restart (fun _ _ he => by cases he) ⟨?_, ?_, rfl, ?_, h.deeds⟩
      (fun d _ => by rw [seenAt_restart, seenAt_restart])
    · simp [Sys.step]; exact .nil
    · simp [Sys.step]
    · simp [Sys.step, h.sh]
  | step i ch =>
    cases hti : s.threads[i]? with
    | none =>
      refine skip ?_ (fun d _ => seenAt_none d i ch s hti)
      rw [step_none s i ch hti]; exact h
    | some t =>
      obtain ⟨a, b, hl, hi⟩ := split_at hti
      subst hi
      by_cases hc : t.conn = c
      · have hth := h.threads
        rw [hl, List.filter_append, List.filter_cons_of_neg (by simp [hc]), ← List.filter_append] at hth
        have hidle := h.idle t (List.mem_of_getElem? hti) hc
        have hfin : ∀ o, RestSim c (s.finish a.length t o) s' := by
          intro o
          refine ⟨?_, fun t' ht' => h.idle t' (List.mem_of_mem_eraseIdx ht'), h.flag, h.sh, h.deeds⟩
          simp only [Sys.finish]; rw [hl, erase_mid]; exact hth
        have hperf : ∀ (x : Act) (k : x.Out → Prog Resp), (exec t.conn ch s.sh x).2.1 = s.sh →
            (exec t.conn ch s.sh x).2.2.filter (fun ev => ev ≠ .fault) = [] → Idle (k (exec t.conn ch s.sh x).1) →
            RestSim c (s.perform a.length t ch x k) s' := by
          intro x k g1 g2 g3
          refine ⟨?_, ?_, ?_, ?_, ?_⟩
          · simp only [Sys.perform]
            rw [hl, set_mid, List.filter_append, List.filter_cons_of_neg (by simp [hc]), ← List.filter_append]
            exact hth
          · intro t' ht' hc'
            rcases List.mem_or_eq_of_mem_set ht' with ht' | rfl
            · exact h.idle t' ht' hc'
            · exact g3
          · simp only [Sys.perform, g1]; exact h.flag
          · simp only [Sys.perform, g1]; exact h.sh
          · rw [h.deeds]
            simp only [Sys.deeds, Sys.perform]
            rw [deeds_append, g2, List.append_nil]
        obtain ⟨p', hb⟩ := hidle
        generalize hp : t.prog = p at hb
        cases hb with
        | ret r =>
          refine skip ?_ (fun d hd => by rw [seenAt_ret d _ ch s t r hti hp]; simp [hc, Ne.symm hd])
          rw [step_ret s _ ch t r hti hp]; exact hfin _
        | fail e =>
          refine skip ?_ (fun d hd => by rw [seenAt_fail d _ ch s t e hti hp]; simp [hc, Ne.symm hd])
          rw [step_fail s _ ch t e hti hp]; exact hfin _
        | load k k' hk =>
          refine skip ?_ (fun d hd => seenAt_act d _ ch s t _ k hti hp)
          rw [step_act s _ ch t _ k hti hp]
          refine hperf .loadUnlocked k rfl rfl ⟨k' false, ?_⟩
          simp only [exec]
          rw [hc, h.flag]
          exact hk
        | alloc k k' hk =>
          refine skip ?_ (fun d hd => seenAt_act d _ ch s t _ k hti hp)
          rw [step_act s _ ch t _ k hti hp]
          refine hperf .alloc k (exec_alloc_sh _ _ _) ?_ ⟨_, hk _⟩
          cases hfa : ch.fault <;> simp [exec, hfa]
      · have hth := h.threads
        rw [hl, List.filter_append, List.filter_cons_of_pos (by simp [hc])] at hth
        obtain ⟨a', t', b', hl', h1, h2, h3⟩ := hth.split
        have hti' : s'.threads[a'.length]? = some t' := by rw [hl']; exact get_mid _ _ _
        have hfin : ∀ o, RestSim c (s.finish a.length t o) (s'.finish a'.length t' o) := by
          intro o
          refine ⟨?_, fun t' ht' => h.idle t' (List.mem_of_mem_eraseIdx ht'), h.flag, h.sh, h.deeds⟩
          simp only [Sys.finish]
          rw [hl, hl', erase_mid, erase_mid, List.filter_append]
          exact h1.append h3
        refine one (.step a'.length ch) (fun _ _ he => by cases he) ?_ ?_
        · cases hp : t.prog with
          | ret r =>
            rw [step_ret s _ ch t r hti hp, step_ret s' _ ch t' r hti' (by rw [← h2.prog]; exact hp)]; exact hfin _
          | fail e =>
            rw [step_fail s _ ch t e hti hp, step_fail s' _ ch t' e hti' (by rw [← h2.prog]; exact hp)]; exact hfin _
          | step x k =>
            rw [step_act s _ ch t x k hti hp, step_act s' _ ch t' x k hti' (by rw [← h2.prog]; exact hp)]
            refine ⟨?_, ?_, ?_, ?_, ?_⟩
            · simp only [Sys.perform]
              rw [hl, hl', set_mid, set_mid, List.filter_append, List.filter_cons_of_pos (by simp [hc])]
              refine h1.append (.cons ⟨h2.conn, h2.msg, ?_⟩ h3)
              simp only
              rw [h.sh, h2.conn]
            · intro u hu hcu
              rcases List.mem_or_eq_of_mem_set hu with hu | rfl
              · exact h.idle u hu hcu
              · exact absurd hcu hc
            · rw [← h.flag]; exact flag_other c t.conn ch s.sh x hc
            · simp only [Sys.perform]; rw [h.sh, h2.conn]
            · have hd := h.deeds
              simp only [Sys.deeds, Sys.perform] at hd ⊢
              rw [deeds_append, deeds_append, hd, h.sh, h2.conn]
        · intro d _
          cases hp : t.prog with
          | ret r =>
            rw [seenAt_ret d _ ch s t r hti hp, seenAt_ret d _ ch s' t' r hti' (by rw [← h2.prog]; exact hp),
              h2.conn, h2.msg]
          | fail e =>
            rw [seenAt_fail d _ ch s t e hti hp, seenAt_fail d _ ch s' t' e hti' (by rw [← h2.prog]; exact hp),
              h2.conn, h2.msg]
          | step x k =>
            rw [seenAt_act d _ ch s t x k hti hp, seenAt_act d _ ch s' t' x k hti' (by rw [← h2.prog]; exact hp)]

theorem others_run {c : Nat} (evs : List Event) (s s' : Sys E) (h : RestSim c s s')
    (hno : NeverRight E c (seenFrom c s evs)) :
    ∃ evs', NoneFrom c evs' ∧ RestSim c (evs.foldl Sys.step s) (evs'.foldl Sys.step s') ∧
      ∀ d, d ≠ c → seenFrom d s' evs' = seenFrom d s evs := by
  induction evs generalizing s s' with
  | nil => exact ⟨[], by intro d m hm; simp at hm, h, fun _ _ => rfl⟩
  | cons ev evs ih =>
    obtain ⟨e1, a1, a2, a3⟩ := others_step h ev (notRight_of_seen hno)
    obtain ⟨e2, b1, b2, b3⟩ := ih _ _ a2 (fun i p hp => hno i p (List.mem_append_right _ hp))
    refine ⟨e1 ++ e2, ?_, ?_, ?_⟩
    · intro d m hm
      rcases List.mem_append.1 hm with hm | hm
      · exact a1 d m hm
      · exact b1 d m hm
    · rw [List.foldl_append]; exact b2
    · intro d hd
      rw [seenFrom_append, a3 d hd, b3 d hd]; rfl

end Lair
