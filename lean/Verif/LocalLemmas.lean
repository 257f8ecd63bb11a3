import Verif.Local

/- A call of the store handle is the request of one more client. Proof devices for `Verif.Props.Local`. -/
namespace Lair

variable {E : Env}

/-- Run a program of connection `c` alone, with its effects. Proof device: nothing in the code corresponds. -/
def alone {α : Type} (c : Nat) : (ch : Nat → Choice) → Shared E → Prog α → Res α × Shared E × List Ev
  | _, s, .ret a => (.ok a, s, [])
  | _, s, .fail e => (.error e, s, [])
  | ch, s, .step a k =>
    let x := exec c (ch 0) s a
    let r := alone c (fun n => ch (n + 1)) x.2.1 (k x.1)
    (r.1, r.2.1, x.2.2 ++ r.2.2)

/-- A request that runs alone from where it is to its end. -/
theorem alone_steps (p : Prog Resp) : ∀ (ch : Nat → Choice) (s : Sys E) (i : Nat) (t : Thread E), s.threads[i]? = some t → t.prog = p →
    ∃ evs : List Event, (∀ ev ∈ evs, ∃ ch', ev = .step i ch') ∧ evs.foldl Sys.step s =
      { s with
        sh := (alone t.conn ch s.sh p).2.1
        threads := s.threads.eraseIdx i
        hist := s.hist ++ (alone t.conn ch s.sh p).2.2.map (fun ev => (t.id, ev))
        done := s.done ++ [⟨t.id, t.conn, t.msg, t.start, (alone t.conn ch s.sh p).2.1, t.log ++ (alone t.conn ch s.sh p).2.2,
          (alone t.conn ch s.sh p).1, deliver t.msg.id (alone t.conn ch s.sh p).1⟩] } := by
  induction p with
  | ret r =>
    intro ch s i t ht hp
    refine ⟨[.step i (ch 0)], by simp, ?_⟩
    simp only [List.foldl_cons, List.foldl_nil]
    rw [step_ret s i _ t r ht hp]
    simp [Sys.finish, alone]
  | fail e =>
    intro ch s i t ht hp
    refine ⟨[.step i (ch 0)], by simp, ?_⟩
    simp only [List.foldl_cons, List.foldl_nil]
    rw [step_fail s i _ t e ht hp]
    simp [Sys.finish, alone]
  | step a k ih =>
    intro ch s i t ht hp
    have hlen : i < s.threads.length := (List.getElem?_eq_some_iff.1 ht).1
    obtain ⟨evs, he, hr⟩ := ih (exec t.conn (ch 0) s.sh a).1 (fun n => ch (n + 1)) (s.perform i t (ch 0) a k) i
      { t with
        log := t.log ++ (exec t.conn (ch 0) s.sh a).2.2
        prog := k (exec t.conn (ch 0) s.sh a).1 } (by simp [Sys.perform, hlen]) rfl
    refine ⟨.step i (ch 0) :: evs, ?_, ?_⟩
    · intro ev hev
      rcases List.mem_cons.1 hev with rfl | hev
      · exact ⟨_, rfl⟩
      · exact he ev hev
    · simp only [List.foldl_cons]
      rw [step_act s i _ t a k ht hp, hr]
      simp only [Sys.perform, alone, List.map_append, List.append_assoc]
      rw [List.eraseIdx_set_eq]

/-- A message that arrives and is handled with nothing else happening. -/
theorem alone_request (c : Nat) (m : Msg) (ch : Nat → Choice) (s : Sys E) :
    ∃ evs : List Event, (∀ ev ∈ evs, ∃ ch', ev = .step s.threads.length ch') ∧ (Event.recv c m :: evs).foldl Sys.step s =
      { s with
        sh := (alone c ch s.sh (handle E c m)).2.1
        hist := s.hist ++ (alone c ch s.sh (handle E c m)).2.2.map (fun ev => (s.inbox.length, ev))
        inbox := s.inbox ++ [(c, m)]
        done := s.done ++ [⟨s.inbox.length, c, m, s.sh, (alone c ch s.sh (handle E c m)).2.1, (alone c ch s.sh (handle E c m)).2.2,
          (alone c ch s.sh (handle E c m)).1, deliver m.id (alone c ch s.sh (handle E c m)).1⟩] } := by
  obtain ⟨evs, he, hr⟩ := alone_steps (handle E c m) ch (s.step (.recv c m)) s.threads.length
    ⟨s.inbox.length, c, m, s.sh, [], handle E c m⟩ (by simp [Sys.step]) rfl
  refine ⟨evs, he, ?_⟩
  simp only [List.foldl_cons]
  rw [hr]
  simp [Sys.step, List.eraseIdx_append_of_length_le]

/-! ### States that differ in one flag -/

theorem SameBut.refl (c : Nat) (s : Shared E) : SameBut c s s := ⟨rfl, rfl, rfl, rfl, fun _ _ => rfl⟩

theorem SameBut.trans {c : Nat} {s t u : Shared E} (h : SameBut c s t) (h' : SameBut c t u) : SameBut c s u :=
  ⟨h.1.trans h'.1, h.2.trans h'.2, h.3.trans h'.3, h.4.trans h'.4, fun d hd => (h.5 d hd).trans (h'.5 d hd)⟩

theorem SameBut.exec {c d : Nat} (hd : d ≠ c) {s t : Shared E} (h : SameBut c s t) (ch : Choice) (a : Act) :
    (Lair.exec d ch s a).1 = (Lair.exec d ch t a).1 ∧ (Lair.exec d ch s a).2.2 = (Lair.exec d ch t a).2.2 ∧
      SameBut c (Lair.exec d ch s a).2.1 (Lair.exec d ch t a).2.1 := by
  obtain ⟨ss, s1, s2, s3, su⟩ := s
  obtain ⟨ts, t1, t2, t3, tu⟩ := t
  obtain ⟨h1, h2, h3, h4, h5⟩ := h
  simp only at h1 h2 h3 h4 h5
  subst h1 h2 h3 h4
  cases a with
  | loadUnlocked => exact ⟨h5 d hd, rfl, ⟨rfl, rfl, rfl, rfl, h5⟩⟩
  | setUnlocked =>
    refine ⟨rfl, rfl, ⟨rfl, rfl, rfl, rfl, ?_⟩⟩
    intro x hx
    simp only [Lair.exec]
    split
    · rfl
    · exact h5 x hx
  | storeTag x => simp only [Lair.exec]; cases ch.fault <;> exact ⟨rfl, rfl, ⟨rfl, rfl, rfl, rfl, h5⟩⟩
  | storeEd x => simp only [Lair.exec]; cases ch.fault <;> exact ⟨rfl, rfl, ⟨rfl, rfl, rfl, rfl, h5⟩⟩
  | storeX x => simp only [Lair.exec]; cases ch.fault <;> exact ⟨rfl, rfl, ⟨rfl, rfl, rfl, rfl, h5⟩⟩
  | write x => simp only [Lair.exec]; cases ch.fault <;> exact ⟨rfl, rfl, ⟨rfl, rfl, rfl, rfl, h5⟩⟩
  | list => simp only [Lair.exec]; cases ch.fault <;> exact ⟨rfl, rfl, ⟨rfl, rfl, rfl, rfl, h5⟩⟩
  | alloc => simp only [Lair.exec]; cases ch.fault <;> exact ⟨rfl, rfl, ⟨rfl, rfl, rfl, rfl, h5⟩⟩
  | cacheTag x => exact ⟨rfl, rfl, ⟨rfl, rfl, rfl, rfl, h5⟩⟩
  | cacheEd x => exact ⟨rfl, rfl, ⟨rfl, rfl, rfl, rfl, h5⟩⟩
  | cacheX x => exact ⟨rfl, rfl, ⟨rfl, rfl, rfl, rfl, h5⟩⟩
  | register f => exact ⟨rfl, rfl, ⟨rfl, rfl, rfl, rfl, h5⟩⟩
  | random n => exact ⟨rfl, rfl, ⟨rfl, rfl, rfl, rfl, h5⟩⟩
  | genCert => exact ⟨rfl, rfl, ⟨rfl, rfl, rfl, rfl, h5⟩⟩
  | fallback k x => exact ⟨rfl, rfl, ⟨rfl, rfl, rfl, rfl, h5⟩⟩

/-! ### Programs that do not look at flags -/

/-- Neither reads nor sets a flag. Proof device: nothing in the code corresponds. -/
def Act.flagFree : Act → Bool
  | .loadUnlocked => false
  | .setUnlocked => false
  | _ => true

/-- Proof device: nothing in the code corresponds. -/
def Prog.flagFree {α : Type} : Prog α → Prop
  | .ret _ => True
  | .fail _ => True
  | .step a k => a.flagFree = true ∧ ∀ o, (k o).flagFree

theorem Prog.flagFree_bind {α β : Type} {p : Prog α} {f : α → Prog β} (hp : p.flagFree) (hf : ∀ a, (f a).flagFree) :
    (p.bind f).flagFree := by
  induction p with
  | ret a => exact hf a
  | fail e => trivial
  | step a k ih => exact ⟨hp.1, fun o => ih o (hp.2 o)⟩

theorem Prog.flagFree_ofRes {α : Type} (r : Res α) : (Prog.ofRes r).flagFree := by cases r <;> trivial

theorem Prog.flagFree_ofOpt {α : Type} (e : String) (r : Option α) : (Prog.ofOpt e r).flagFree := by cases r <;> trivial

theorem flagFree_alloc : alloc.flagFree := ⟨rfl, fun r => Prog.flagFree_ofRes r⟩

theorem flagFree_act (a : Act) (h : a.flagFree = true) : (Prog.act a).flagFree := ⟨h, fun _ => trivial⟩

theorem flagFree_insertSeed (seed : B 32) (t : String) (x : Bool) : (insertSeed E seed t x).flagFree :=
  Prog.flagFree_bind flagFree_alloc fun _ => Prog.flagFree_bind (flagFree_act _ rfl) fun _ =>
    ⟨rfl, fun r => Prog.flagFree_bind (Prog.flagFree_ofRes r) fun _ => trivial⟩

theorem flagFree_insertDeep (seed : B 32) (t : String) (ops mem : UInt32) (pass : B 64) (x : Bool) :
    (insertDeep E seed t ops mem pass x).flagFree :=
  Prog.flagFree_bind flagFree_alloc fun _ => Prog.flagFree_bind (flagFree_act _ rfl) fun _ =>
    Prog.flagFree_bind (Prog.flagFree_ofOpt _ _) fun _ => Prog.flagFree_bind (flagFree_act _ rfl) fun _ =>
      ⟨rfl, fun r => Prog.flagFree_bind (Prog.flagFree_ofRes r) fun _ => trivial⟩

theorem flagFree_newCert (t : String) : (newCert E t).flagFree :=
  Prog.flagFree_bind flagFree_alloc fun _ => Prog.flagFree_bind (flagFree_act _ rfl) fun _ =>
    Prog.flagFree_bind (flagFree_act _ rfl) fun _ =>
      ⟨rfl, fun r => Prog.flagFree_bind (Prog.flagFree_ofRes r) fun _ => trivial⟩

/-- The methods of the store handle never look at flags. -/
theorem flagFree_local (x : LocalCall) : (x.prog E).flagFree := by
  cases x with
  | insertSeed s t e => exact Prog.flagFree_bind (flagFree_insertSeed _ _ _) fun _ => trivial
  | newSeed t e =>
    exact Prog.flagFree_bind (Prog.flagFree_bind flagFree_alloc fun _ => ⟨rfl, fun _ => flagFree_insertSeed _ _ _⟩) fun _ => trivial
  | insertDeep s t o m p e => exact Prog.flagFree_bind (flagFree_insertDeep _ _ _ _ _ _) fun _ => trivial
  | newDeep t o m p e =>
    exact Prog.flagFree_bind (Prog.flagFree_bind flagFree_alloc fun _ => ⟨rfl, fun _ => flagFree_insertDeep _ _ _ _ _ _⟩)
      fun _ => trivial
  | newCert t => exact Prog.flagFree_bind (flagFree_newCert _) fun _ => trivial
  | list => exact ⟨rfl, fun r => Prog.flagFree_bind (Prog.flagFree_ofRes r) fun _ => trivial⟩
  | byTag t => exact ⟨rfl, fun r => Prog.flagFree_bind (Prog.flagFree_ofRes r) fun _ => trivial⟩
  | byEd t => exact ⟨rfl, fun r => Prog.flagFree_bind (Prog.flagFree_ofRes r) fun _ => trivial⟩
  | byX t => exact ⟨rfl, fun r => Prog.flagFree_bind (Prog.flagFree_ofRes r) fun _ => trivial⟩

theorem exec_flagFree {a : Act} (ha : a.flagFree = true) (c d : Nat) (ch : Choice) {e : Nat} {s t : Shared E} (h : SameBut e s t) :
    (exec c ch s a).1 = (exec d ch t a).1 ∧ SameBut e (exec c ch s a).2.1 (exec d ch t a).2.1 := by
  obtain ⟨ss, s1, s2, s3, su⟩ := s
  obtain ⟨ts, t1, t2, t3, tu⟩ := t
  obtain ⟨h1, h2, h3, h4, h5⟩ := h
  simp only at h1 h2 h3 h4 h5
  subst h1 h2 h3 h4
  cases a with
  | loadUnlocked => cases ha
  | setUnlocked => cases ha
  | storeTag x => simp only [Lair.exec]; cases ch.fault <;> exact ⟨rfl, ⟨rfl, rfl, rfl, rfl, h5⟩⟩
  | storeEd x => simp only [Lair.exec]; cases ch.fault <;> exact ⟨rfl, ⟨rfl, rfl, rfl, rfl, h5⟩⟩
  | storeX x => simp only [Lair.exec]; cases ch.fault <;> exact ⟨rfl, ⟨rfl, rfl, rfl, rfl, h5⟩⟩
  | write x => simp only [Lair.exec]; cases ch.fault <;> exact ⟨rfl, ⟨rfl, rfl, rfl, rfl, h5⟩⟩
  | list => simp only [Lair.exec]; cases ch.fault <;> exact ⟨rfl, ⟨rfl, rfl, rfl, rfl, h5⟩⟩
  | alloc => simp only [Lair.exec]; cases ch.fault <;> exact ⟨rfl, ⟨rfl, rfl, rfl, rfl, h5⟩⟩
  | cacheTag x => exact ⟨rfl, ⟨rfl, rfl, rfl, rfl, h5⟩⟩
  | cacheEd x => exact ⟨rfl, ⟨rfl, rfl, rfl, rfl, h5⟩⟩
  | cacheX x => exact ⟨rfl, ⟨rfl, rfl, rfl, rfl, h5⟩⟩
  | register f => exact ⟨rfl, ⟨rfl, rfl, rfl, rfl, h5⟩⟩
  | random n => exact ⟨rfl, ⟨rfl, rfl, rfl, rfl, h5⟩⟩
  | genCert => exact ⟨rfl, ⟨rfl, rfl, rfl, rfl, h5⟩⟩
  | fallback k x => exact ⟨rfl, ⟨rfl, rfl, rfl, rfl, h5⟩⟩

/-- Such a program does the same for a connection as for the store handle. -/
theorem alone_eq {α β : Type} (p : Prog α) (hp : p.flagFree) (f : α → β) : ∀ (c : Nat) (ch : Nat → Choice) (e : Nat) (s t : Shared E),
    SameBut e s t → (alone c ch t (p.bind fun a => .ret (f a))).1 = (Cli.runAlone ch s p).1.map f ∧
      SameBut e (Cli.runAlone ch s p).2 (alone c ch t (p.bind fun a => .ret (f a))).2.1 := by
  induction p with
  | ret a => intro c ch e s t h; exact ⟨rfl, h⟩
  | fail x => intro c ch e s t h; exact ⟨rfl, h⟩
  | step a k ih =>
    intro c ch e s t h
    obtain ⟨h1, h2⟩ := exec_flagFree hp.1 0 c (ch 0) h
    have := ih (exec 0 (ch 0) s a).1 (hp.2 _) c (fun n => ch (n + 1)) e _ _ h2
    rw [h1] at this
    simp only [Cli.runAlone, Prog.bind, alone]
    rw [h1]
    exact this

/-! ### A call and the request that asks for the same -/

theorem Prog.bind_assoc {α β γ : Type} (p : Prog α) (f : α → Prog β) (g : β → Prog γ) :
    (p.bind f).bind g = p.bind fun a => (f a).bind g := by
  induction p with
  | ret a => rfl
  | fail e => rfl
  | step a k ih => simp only [Prog.bind]; congr 1; funext o; exact ih o

theorem alone_checkUnlocked {α : Type} (c : Nat) (ch : Nat → Choice) (s : Shared E) (hu : s.unlocked c = true) (p : Unit → Prog α) :
    alone c ch s (checkUnlocked.bind p) = alone c (fun n => ch (n + 1)) s (p ()) := by
  have : alone c ch s (checkUnlocked.bind p) =
      alone c (fun n => ch (n + 1)) s (Prog.bind (if s.unlocked c then .ret () else .fail "KeystoreLocked") p) := rfl
  rw [this, hu]; rfl

/-- A choice of the random generator that gives this seed. Proof device: nothing in the code corresponds. -/
def Choice.giving (seed : B 32) : Choice :=
  ⟨fun n => if h : n = 32 then h ▸ seed else B.fill n 0, 0, .error "", none⟩

theorem giving_rnd (seed : B 32) : (Choice.giving seed).rnd 32 = seed := rfl

/-- The choices for a request: the flag check, the seed, then those of the call.
    Proof device: nothing in the code corresponds. -/
def withSeed (seed : B 32) (ch : Nat → Choice) : Nat → Choice
  | 0 => .giving seed
  | 1 => .giving seed
  | n + 2 => ch n

theorem alone_newSeed (c : Nat) (seed : B 32) (ch : Nat → Choice) (s : Shared E) (hu : s.unlocked c = true) (t : String) (x : Bool) :
    alone c (withSeed seed ch) s (handleReq E c (.newSeed t none x)) =
      alone c ch s ((insertSeed E seed t x).bind fun i => .ret (Resp.newSeed t i)) := by
  show alone c (withSeed seed ch) s (checkUnlocked.bind fun _ => (Prog.act (.random 32)).bind fun seed =>
    (insertSeed E seed t x).bind fun i => .ret (Resp.newSeed t i)) = _
  rw [alone_checkUnlocked _ _ _ hu]
  rfl

theorem alone_newDeep (c : Nat) (seed : B 32) (ch : Nat → Choice) (s : Shared E) (hu : s.unlocked c = true) (t : String)
    (ops mem : UInt32) (pass : B 64) (hdr : B 24) (x : Bool) :
    alone c (withSeed seed ch) s (handleReq E c (.newSeed t (some ⟨ops, mem, SecretSized.encrypt E.C E.L (E.decKey c) hdr pass⟩) x)) =
      alone c ch s ((insertDeep E seed t ops mem pass x).bind fun i => .ret (Resp.newSeed t i)) := by
  show alone c (withSeed seed ch) s (checkUnlocked.bind fun _ =>
    (Prog.ofOpt "decrypt error" (decPass E c (SecretSized.encrypt E.C E.L (E.decKey c) hdr pass))).bind fun pass =>
    (Prog.act (.random 32)).bind fun seed => (insertDeep E seed t ops mem pass x).bind fun i => .ret (Resp.newSeed t i)) = _
  rw [alone_checkUnlocked _ _ _ hu]
  simp only [decPass, SecretSized.decrypt_encrypt, Prog.ofOpt, Prog.bind]
  rfl

/-- First choice fails. Proof device: nothing in the code corresponds. -/
def failing (e : String) : Nat → Choice := fun _ => ⟨fun n => B.fill n 0, 0, .error "", some e⟩

/-- Every call that can be asked for gives what the request gives, for some choices of the environment. -/
theorem call_as_request (c : Nat) (x : LocalCall) (r : Req) (hx : x.asReq E c = some r) (s t : Shared E) (h : SameBut c s t)
    (hu : t.unlocked c = true) (ch : Nat → Choice) : ∃ ch',
      (alone c ch' t (handleReq E c r)).1 = (Cli.runAlone ch s (x.prog E)).1.map x.asResp ∧
      SameBut c (Cli.runAlone ch s (x.prog E)).2 (alone c ch' t (handleReq E c r)).2.1 := by
  cases x with
  | insertSeed seed tag e =>
    cases hx
    refine ⟨withSeed seed ch, ?_⟩
    rw [alone_newSeed c seed ch t hu]
    have := alone_eq ((LocalCall.insertSeed seed tag e).prog E) (flagFree_local _) (LocalCall.insertSeed seed tag e).asResp c ch c s t h
    simp only [LocalCall.prog, Prog.bind_assoc] at this
    exact this
  | insertDeep seed tag ops mem pass e =>
    cases hx
    refine ⟨withSeed seed ch, ?_⟩
    rw [alone_newDeep c seed ch t hu]
    have := alone_eq ((LocalCall.insertDeep seed tag ops mem pass e).prog E) (flagFree_local _)
      (LocalCall.insertDeep seed tag ops mem pass e).asResp c ch c s t h
    simp only [LocalCall.prog, Prog.bind_assoc] at this
    exact this
  | newSeed tag e =>
    cases hx
    cases hf : (ch 0).fault with
    | some er =>
      refine ⟨withSeed (B.fill 32 0) (failing er), ?_⟩
      rw [alone_newSeed c _ _ t hu]
      have hl : Cli.runAlone ch s ((LocalCall.newSeed tag e).prog E) = (.error er, s) := by
        show Cli.runAlone _ _ (((Prog.ofRes (exec 0 (ch 0) s .alloc).1).bind _).bind _) = _
        have : exec 0 (ch 0) s .alloc = (.error er, s, [.fault]) := by simp only [exec, hf]
        rw [this]; simp [Prog.ofRes, Prog.bind, Cli.runAlone]
      rw [hl]
      exact ⟨rfl, h⟩
    | none =>
      refine ⟨withSeed ((ch 1).rnd 32) (fun n => ch (n + 2)), ?_⟩
      rw [alone_newSeed c _ _ t hu]
      have hl : Cli.runAlone ch s ((LocalCall.newSeed tag e).prog E) =
          Cli.runAlone (fun n => ch (n + 2)) s ((LocalCall.insertSeed ((ch 1).rnd 32) tag e).prog E) := by
        show Cli.runAlone _ (exec 0 (ch 0) s .alloc).2.1 (((Prog.ofRes (exec 0 (ch 0) s .alloc).1).bind _).bind _) = _
        have : exec 0 (ch 0) s .alloc = (.ok (), s, []) := by simp only [exec, hf]
        rw [this]; rfl
      rw [hl]
      have := alone_eq ((LocalCall.insertSeed ((ch 1).rnd 32) tag e).prog E) (flagFree_local _) (LocalCall.newSeed tag e).asResp c
        (fun n => ch (n + 2)) c s t h
      simp only [LocalCall.prog, Prog.bind_assoc] at this
      exact this
  | newDeep tag ops mem pass e =>
    cases hx
    cases hf : (ch 0).fault with
    | some er =>
      refine ⟨withSeed (B.fill 32 0) (failing er), ?_⟩
      rw [alone_newDeep c _ _ t hu]
      have hl : Cli.runAlone ch s ((LocalCall.newDeep tag ops mem pass e).prog E) = (.error er, s) := by
        show Cli.runAlone _ _ (((Prog.ofRes (exec 0 (ch 0) s .alloc).1).bind _).bind _) = _
        have : exec 0 (ch 0) s .alloc = (.error er, s, [.fault]) := by simp only [exec, hf]
        rw [this]; simp [Prog.ofRes, Prog.bind, Cli.runAlone]
      rw [hl]
      exact ⟨rfl, h⟩
    | none =>
      refine ⟨withSeed ((ch 1).rnd 32) (fun n => ch (n + 2)), ?_⟩
      rw [alone_newDeep c _ _ t hu]
      have hl : Cli.runAlone ch s ((LocalCall.newDeep tag ops mem pass e).prog E) =
          Cli.runAlone (fun n => ch (n + 2)) s ((LocalCall.insertDeep ((ch 1).rnd 32) tag ops mem pass e).prog E) := by
        show Cli.runAlone _ (exec 0 (ch 0) s .alloc).2.1 (((Prog.ofRes (exec 0 (ch 0) s .alloc).1).bind _).bind _) = _
        have : exec 0 (ch 0) s .alloc = (.ok (), s, []) := by simp only [exec, hf]
        rw [this]; rfl
      rw [hl]
      have := alone_eq ((LocalCall.insertDeep ((ch 1).rnd 32) tag ops mem pass e).prog E) (flagFree_local _)
        (LocalCall.newDeep tag ops mem pass e).asResp c (fun n => ch (n + 2)) c s t h
      simp only [LocalCall.prog, Prog.bind_assoc] at this
      exact this
  | newCert tag =>
    cases hx
    refine ⟨fun n => match n with | 0 => ch 0 | n + 1 => ch n, ?_⟩
    have hr : ∀ ch' : Nat → Choice, alone c ch' t (handleReq E c (.newCert tag)) =
        alone c (fun n => ch' (n + 1)) t ((newCert E tag).bind fun i => .ret (.newCert tag i)) :=
      fun ch' => alone_checkUnlocked c ch' t hu _
    rw [hr]
    have := alone_eq ((LocalCall.newCert tag).prog E) (flagFree_local _) (LocalCall.newCert tag).asResp c ch c s t h
    simp only [LocalCall.prog, Prog.bind_assoc] at this
    exact this
  | list =>
    cases hx
    refine ⟨fun n => match n with | 0 => ch 0 | n + 1 => ch n, ?_⟩
    have hr : ∀ ch' : Nat → Choice, alone c ch' t (handleReq E c .listEntries) =
        alone c (fun n => ch' (n + 1)) t (.step .list fun (r : Res (List EntryInfo)) => (Prog.ofRes r).bind fun l => .ret (.listEntries l)) :=
      fun ch' => alone_checkUnlocked c ch' t hu _
    rw [hr]
    have := alone_eq (LocalCall.list.prog E) (flagFree_local _) LocalCall.list.asResp c ch c s t h
    simp only [LocalCall.prog, Prog.bind, Prog.bind_assoc] at this
    exact this
  | byTag t => cases hx
  | byEd t => cases hx
  | byX t => cases hx

/-- Lookups change nothing. -/
theorem lookup_same (c : Nat) (x : LocalCall) (hx : x.asReq E c = none) (s : Shared E) (ch : Nat → Choice) :
    (Cli.runAlone ch s (x.prog E)).2 = s := by
  have key : ∀ (r : Res Entry) (ch' : Nat → Choice), (Cli.runAlone ch' s ((Prog.ofRes r).bind fun e => .ret (LocalOut.entry e))).2 = s := by
    intro r ch'; cases r <;> rfl
  cases x with
  | byTag t =>
    have : (exec 0 (ch 0) s (.storeTag t)).2.1 = s := by simp only [exec]; split <;> rfl
    show (Cli.runAlone _ (exec 0 (ch 0) s (.storeTag t)).2.1 _).2 = s
    rw [this]; exact key _ _
  | byEd t =>
    have : (exec 0 (ch 0) s (.storeEd t)).2.1 = s := by simp only [exec]; split <;> rfl
    show (Cli.runAlone _ (exec 0 (ch 0) s (.storeEd t)).2.1 _).2 = s
    rw [this]; exact key _ _
  | byX t =>
    have : (exec 0 (ch 0) s (.storeX t)).2.1 = s := by simp only [exec]; split <;> rfl
    show (Cli.runAlone _ (exec 0 (ch 0) s (.storeX t)).2.1 _).2 = s
    rw [this]; exact key _ _
  | _ => cases hx

/-- A right passphrase unlocks the connection it is sent on. -/
theorem alone_unlock (c : Nat) (p : SecretSized 81) (hp : unlockCheck E c p = .ok ()) (s : Shared E) :
    alone c (fun _ => .giving (B.fill 32 0)) s (handleReq E c (.unlock p)) =
      (.ok .unlock, { s with unlocked := fun d => if d = c then true else s.unlocked d }, [.unlocked]) := by
  show alone c _ s (alloc.bind fun _ => (Prog.ofRes (unlockCheck E c p)).bind fun _ => (Prog.act .setUnlocked).bind fun _ => .ret Resp.unlock) = _
  rw [hp]; rfl

/-! ### Lists, member by member -/

section Pairs
variable {α β : Type} {R : α → β → Prop}

theorem Pairs.length : ∀ {l : List α} {m : List β}, Pairs R l m → l.length = m.length
  | [], [], _ => rfl
  | _ :: _, _ :: _, h => congrArg (· + 1) h.2.length
  | [], _ :: _, h => h.elim
  | _ :: _, [], h => h.elim

theorem Pairs.append : ∀ {l : List α} {m : List β} {l' : List α} {m' : List β}, Pairs R l m → Pairs R l' m' → Pairs R (l ++ l') (m ++ m')
  | [], [], _, _, _, h' => h'
  | _ :: _, _ :: _, _, _, h, h' => ⟨h.1, h.2.append h'⟩
  | [], _ :: _, _, _, h, _ => h.elim
  | _ :: _, [], _, _, h, _ => h.elim

theorem Pairs.get : ∀ {l : List α} {m : List β}, Pairs R l m → ∀ i : Nat, (l[i]? = none ∧ m[i]? = none) ∨
    ∃ a b, l[i]? = some a ∧ m[i]? = some b ∧ R a b
  | [], [], _, i => Or.inl ⟨by simp, by simp⟩
  | a :: as, b :: bs, h, 0 => Or.inr ⟨a, b, rfl, rfl, h.1⟩
  | _ :: as, _ :: bs, h, i + 1 => by simpa using h.2.get i
  | [], _ :: _, h, _ => h.elim
  | _ :: _, [], h, _ => h.elim

theorem Pairs.set : ∀ {l : List α} {m : List β}, Pairs R l m → ∀ (i : Nat) (a : α) (b : β), R a b → Pairs R (l.set i a) (m.set i b)
  | [], [], _, _, _, _, _ => trivial
  | _ :: _, _ :: _, h, 0, _, _, r => ⟨r, h.2⟩
  | _ :: _, _ :: _, h, i + 1, a, b, r => ⟨h.1, h.2.set i a b r⟩
  | [], _ :: _, h, _, _, _, _ => h.elim
  | _ :: _, [], h, _, _, _, _ => h.elim

theorem Pairs.eraseIdx : ∀ {l : List α} {m : List β}, Pairs R l m → ∀ i : Nat, Pairs R (l.eraseIdx i) (m.eraseIdx i)
  | [], [], _, _ => trivial
  | _ :: _, _ :: _, h, 0 => h.2
  | _ :: _, _ :: _, h, i + 1 => ⟨h.1, h.2.eraseIdx i⟩
  | [], _ :: _, h, _ => h.elim
  | _ :: _, [], h, _ => h.elim

theorem Pairs.mem : ∀ {l : List α} {m : List β}, Pairs R l m → ∀ a ∈ l, ∃ b ∈ m, R a b
  | [], [], _, _, ha => by cases ha
  | a :: as, b :: bs, h, x, hx => by
    rcases List.mem_cons.1 hx with rfl | hx
    · exact ⟨b, by simp, h.1⟩
    · obtain ⟨y, hy, hr⟩ := h.2.mem x hx
      exact ⟨y, List.mem_cons_of_mem _ hy, hr⟩
  | [], _ :: _, h, _, _ => h.elim
  | _ :: _, [], h, _, _ => h.elim

end Pairs

/-! ### Simulation -/

theorem seen_client (c : Nat) (d : Done E) (h : d.conn ≠ c) : d.seen c = some (d.conn, d.msg, d.outcome) := by
  unfold Done.seen
  split
  · rw [if_neg h]
  · rfl

theorem beside_finish {c : Nat} {l : LSys E} {s : Sys E} (h : Beside c l s) (i : Nat) (t u : Thread E) (ht : SameThread c t u)
    (o : Res Resp) : Beside c ⟨l.sys.finish i t o, l.log ++ ((l.sys.finish i t o).done.drop l.sys.done.length).map Done.view⟩
      (s.finish i u o) := by
  obtain ⟨h1, h2, h3, h4⟩ := h
  have hu : u.conn ≠ c := ht.conn ▸ ht.other
  refine ⟨h1, h2.eraseIdx i, ?_, ?_⟩
  · simp only [Sys.finish, List.filter_append]
    refine h3.append ?_
    rw [List.filter_cons_of_pos (by simpa using hu)]
    exact ⟨⟨ht.conn, ht.other, ht.msg, ht.log, rfl, by rw [ht.msg], ht.start, h1⟩, trivial⟩
  · simp only [Sys.finish, List.filterMap_append, h4, List.drop_left, List.map_cons, List.map_nil]
    congr 1
    rw [List.filterMap_cons_some (seen_client c _ hu)]
    simp [Done.view, LDone.seen, ht.conn, ht.msg]

theorem beside_srv {c : Nat} {l : LSys E} {s : Sys E} (h : Beside c l s) (ev : Event) (hc : ∀ d m, ev = .recv d m → d ≠ c) :
    Beside c (l.step (.srv ev)) (s.step ev) := by
  cases ev with
  | recv d m =>
    obtain ⟨h1, h2, h3, h4⟩ := h
    refine ⟨h1, ?_, h3, ?_⟩
    · exact h2.append ⟨⟨rfl, hc d m rfl, rfl, rfl, rfl, h1⟩, trivial⟩
    · simpa [LSys.step, Sys.step] using h4
  | restart =>
    obtain ⟨h1, h2, h3, h4⟩ := h
    refine ⟨⟨h1.store, rfl, rfl, rfl, fun _ _ => rfl⟩, trivial, h3, ?_⟩
    simpa [LSys.step, Sys.step] using h4
  | step i ch =>
    rcases h.threads.get i with ⟨hl, hs⟩ | ⟨t, u, hl, hs, ht⟩
    · show Beside c ⟨_, _⟩ _
      rw [step_none _ _ _ hl, step_none _ _ _ hs]
      simpa using h
    · have hpu := ht.prog
      cases hp : t.prog with
      | ret r =>
        show Beside c ⟨_, _⟩ _
        rw [step_ret _ _ _ t r hl hp, step_ret _ _ _ u r hs (hpu ▸ hp)]
        exact beside_finish h i t u ht _
      | fail e =>
        show Beside c ⟨_, _⟩ _
        rw [step_fail _ _ _ t e hl hp, step_fail _ _ _ u e hs (hpu ▸ hp)]
        exact beside_finish h i t u ht _
      | step a k =>
        show Beside c ⟨_, _⟩ _
        rw [step_act _ _ _ t a k hl hp, step_act _ _ _ u a k hs (hpu ▸ hp)]
        obtain ⟨e1, e2, e3⟩ := SameBut.exec (d := t.conn) ht.other h.sh ch a
        have hco := ht.conn
        refine ⟨?_, ?_, h.done, ?_⟩
        · simp only [Sys.perform]; rw [← hco]; exact e3
        · refine h.threads.set i _ _ ⟨ht.conn, ht.other, ht.msg, ?_, ?_, ht.start⟩
          · simp only; rw [← hco, ← e2, ht.log]
          · simp only; rw [← hco, ← e1]
        · simpa [Sys.perform] using h.log

theorem beside_call {c : Nat} {p : SecretSized 81} (hp : unlockCheck E c p = .ok ()) {l : LSys E} {s : Sys E} (h : Beside c l s)
    (x : LocalCall) (ch : Nat → Choice) :
    ∃ evs, AsRequests E c p x evs ∧ Beside c (l.step (.call x ch)) (evs.foldl Sys.step s) := by
  cases hx : x.asReq E c with
  | none =>
    refine ⟨[], .lookup hx, ?_⟩
    obtain ⟨h1, h2, h3, h4⟩ := h
    refine ⟨?_, h2, h3, ?_⟩
    · show SameBut c (Cli.runAlone ch l.sys.sh (x.prog E)).2 s.sh
      rw [lookup_same c x hx]; exact h1
    · simp [LSys.step, LDone.seen, hx, h4]
  | some r =>
    obtain ⟨a, ha, ea⟩ := alone_request c (.req "unlock" (.unlock p)) (fun _ => .giving (B.fill 32 0)) s
    have hun := alone_unlock c p hp s.sh
    change alone c (fun _ => .giving (B.fill 32 0)) s.sh (handle E c (.req "unlock" (.unlock p))) = _ at hun
    rw [hun] at ea
    generalize hs' : (Event.recv c (.req "unlock" (.unlock p)) :: a).foldl Sys.step s = s' at ea
    have hsb : SameBut c l.sys.sh s'.sh := by
      rw [ea]
      obtain ⟨h1, h2, h3, h4, h5⟩ := h.sh
      exact ⟨h1, h2, h3, h4, fun d hd => by simp only [if_neg hd]; exact h5 d hd⟩
    obtain ⟨ch', hr1, hr2⟩ := call_as_request c x r hx l.sys.sh s'.sh hsb (by rw [ea]; simp) ch
    obtain ⟨b, hb, eb⟩ := alone_request c (.req "call" r) ch' s'
    refine ⟨_, .request r hx a b (fun ev hev => ⟨_, ha ev hev⟩) (fun ev hev => ⟨_, hb ev hev⟩), ?_⟩
    rw [List.foldl_append, hs', eb]
    refine ⟨hr2, ?_, ?_, ?_⟩
    · show Pairs _ l.sys.threads s'.threads
      rw [ea]; exact h.threads
    · show Pairs _ l.sys.done _
      simp only [ea]
      simpa using h.done
    · have hl : (l.step (.call x ch)).log = l.log ++ [.call x (Cli.runAlone ch l.sys.sh (x.prog E)).1] := rfl
      have hd := congrArg Sys.done ea
      simp only at hd
      rw [hl, List.filterMap_append, h.log]
      simp only [hd, List.filterMap_append]
      have hnu : ∀ q, r ≠ .unlock q := by
        intro q hq; subst hq
        cases x <;> simp [LocalCall.asReq] at hx
      have h1 : Done.seen c (⟨s.inbox.length, c, .req "unlock" (.unlock p), s.sh,
          { s.sh with unlocked := fun d => if d = c then true else s.sh.unlocked d }, [.unlocked], .ok .unlock,
          deliver (Msg.req "unlock" (.unlock p)).id (.ok .unlock)⟩ : Done E) = none := by simp [Done.seen]
      rw [List.filterMap_cons_none h1]
      have h2 : ∀ d : Done E, d.conn = c → d.msg = .req "call" r → d.seen c = some (d.conn, d.msg, d.outcome) := by
        intro d _ hm
        unfold Done.seen
        split
        · rename_i i q hq
          rw [hm] at hq
          cases hq
          exact absurd rfl (hnu q)
        · rfl
      rw [List.filterMap_cons_some (h2 _ rfl rfl)]
      simp only [List.filterMap_nil, List.append_nil]
      congr 1
      have : alone c ch' s'.sh (handle E c (.req "call" r)) = alone c ch' s'.sh (handleReq E c r) := rfl
      rw [this, hr1]
      simp [LDone.seen, hx]

theorem beside_run {c : Nat} {p : SecretSized 81} (hp : unlockCheck E c p = .ok ()) (evs : List LEvent) :
    ∀ (l : LSys E) (s : Sys E), Beside c l s → (∀ d m, LEvent.srv (.recv d m) ∈ evs → d ≠ c) →
    ∃ blocks : List (List Event), blocks.length = evs.length ∧
      (∀ (n : Nat) (ev : Event), evs[n]? = some (LEvent.srv ev) → blocks[n]? = some [ev]) ∧
      (∀ (n : Nat) (x : LocalCall) (ch : Nat → Choice), evs[n]? = some (LEvent.call x ch) → ∃ b, blocks[n]? = some b ∧ AsRequests E c p x b) ∧
      ∀ n, Beside c ((evs.take n).foldl LSys.step l) ((blocks.take n).flatten.foldl Sys.step s) := by
  induction evs with
  | nil => intro l s h _; exact ⟨[], rfl, by simp, by simp, by simpa using h⟩
  | cons ev evs ih =>
    intro l s h hc
    have key : ∃ b, (∀ e, ev = .srv e → b = [e]) ∧ (∀ x ch, ev = .call x ch → AsRequests E c p x b) ∧ Beside c (l.step ev) (b.foldl Sys.step s) := by
      cases ev with
      | srv e =>
        refine ⟨[e], by rintro _ ⟨⟩; rfl, by rintro _ _ ⟨⟩, ?_⟩
        exact beside_srv h e (fun d m he => hc d m (by rw [he]; simp))
      | call x ch =>
        obtain ⟨b, hb, hb'⟩ := beside_call hp h x ch
        exact ⟨b, by rintro _ ⟨⟩, by rintro _ _ ⟨⟩; exact hb, hb'⟩
    obtain ⟨b, k1, k2, k3⟩ := key
    obtain ⟨bs, i1, i2, i3, i4⟩ := ih _ _ k3 (fun d m hm => hc d m (List.mem_cons_of_mem _ hm))
    refine ⟨b :: bs, by simp [i1], ?_, ?_, ?_⟩
    · intro n e hn
      cases n with
      | zero => simp at hn; simp [k1 e hn]
      | succ n => simpa using i2 n e (by simpa using hn)
    · intro n x ch hn
      cases n with
      | zero => simp at hn; exact ⟨b, rfl, k2 x ch hn⟩
      | succ n => simpa using i3 n x ch (by simpa using hn)
    · intro n
      cases n with
      | zero => simpa using h
      | succ n => simpa using i4 n

end Lair
