import Verif.System

/- More facts about runs, used by the property theorems. -/
namespace Lair

variable {E : Env}

/-! ### Finished requests -/

theorem done_inv {st : E.S.σ} (hst : GoodStore E st) {evs : List Event} {d : Done E}
    (hd : d ∈ (Sys.run E st evs).done) : Inv d.start ∧ Inv d.stop ∧ Ext d.start d.stop :=
  let h := (sysInv_run hst evs).done d hd
  ⟨h.1, h.2.1, h.2.2.1⟩

theorem done_spec {st : E.S.σ} (hst : GoodStore E st) {evs : List Event} {d : Done E}
    (hd : d ∈ (Sys.run E st evs).done) : HSpec d.conn d.start d.stop d.log d.outcome d.msg :=
  ((sysInv_run hst evs).done d hd).2.2.2.1

theorem done_wire {st : E.S.σ} (hst : GoodStore E st) {evs : List Event} {d : Done E}
    (hd : d ∈ (Sys.run E st evs).done) : d.wire = deliver d.msg.id d.outcome :=
  ((sysInv_run hst evs).done d hd).2.2.2.2.1

theorem done_tbl {st : E.S.σ} (hst : GoodStore E st) {evs : List Event} {d : Done E}
    (hd : d ∈ (Sys.run E st evs).done) : ∃ more, (Sys.run E st evs).sh.tbl = d.stop.tbl ++ more :=
  ((sysInv_run hst evs).done d hd).2.2.2.2.2

/-! ### Unlocking -/

/-- A flag is set only by a right passphrase received on that connection.
    Proof device: nothing in the code corresponds. -/
def UnlInv (s : Sys E) : Prop :=
  ∀ c, s.sh.unlocked c = true → ∃ i p, (c, Msg.req i (.unlock p)) ∈ s.inbox ∧ unlockCheck E c p = .ok ()

theorem exec_unlocked (c : Nat) (ch : Choice) (s : Shared E) (a : Act) (d : Nat)
    (h : (exec c ch s a).2.1.unlocked d = true) : s.unlocked d = true ∨ (a = .setUnlocked ∧ d = c) := by
  cases a with
  | setUnlocked =>
    simp only [exec] at h
    split at h
    · rename_i hd; exact Or.inr ⟨rfl, hd⟩
    · exact Or.inl h
  | write e =>
    simp only [exec] at h
    split at h <;> exact Or.inl h
  | storeTag t => simp only [exec] at h; split at h <;> exact Or.inl h
  | storeEd t => simp only [exec] at h; split at h <;> exact Or.inl h
  | storeX t => simp only [exec] at h; split at h <;> exact Or.inl h
  | list => simp only [exec] at h; split at h <;> exact Or.inl h
  | alloc => simp only [exec] at h; split at h <;> exact Or.inl h
  | _ => exact Or.inl h

/-- The action a request in flight is about to do is allowed. -/
theorem thread_act {st : E.S.σ} {s : Sys E} (h : SysInv st s) {t : Thread E} (ht : t ∈ s.threads) {a : Act}
    {k : a.Out → Prog Resp} (hp : t.prog = .step a k) : ActOk t.conn t.msg s.sh a := by
  obtain ⟨_, _, hsat⟩ := h.threads t ht
  rw [hp] at hsat
  exact (hsat s.sh (Ext.refl _) h.inv).1

theorem unlInv_step {st : E.S.σ} {s : Sys E} (h : SysInv st s) (hi : IdInv s) (hu : UnlInv s) (ev : Event) :
    UnlInv (s.step ev) := by
  cases ev with
  | recv c m =>
    intro d hd
    obtain ⟨i, p, h1, h2⟩ := hu d hd
    exact ⟨i, p, List.mem_append_left _ h1, h2⟩
  | restart => intro d hd; cases hd
  | step i ch =>
    cases hti : s.threads[i]? with
    | none => rw [step_none s i ch hti]; exact hu
    | some t =>
      have htm : t ∈ s.threads := List.mem_of_getElem? hti
      cases hp : t.prog with
      | ret r => rw [step_ret s i ch t r hti hp]; exact hu
      | fail e => rw [step_fail s i ch t e hti hp]; exact hu
      | step a k =>
        rw [step_act s i ch t a k hti hp]
        intro d hd
        rcases exec_unlocked t.conn ch s.sh a d hd with h1 | ⟨rfl, rfl⟩
        · exact hu d h1
        · obtain ⟨j, p, hm, hc⟩ := thread_act h htm hp
          refine ⟨j, p, ?_, hc⟩
          rw [← hm]
          exact List.mem_of_getElem? (hi.threads t htm).1

theorem unlInv_run {st : E.S.σ} (hst : GoodStore E st) (evs : List Event) : UnlInv (Sys.run E st evs) := by
  have : ∀ (evs : List Event) (s : Sys E), SysInv st s → IdInv s → UnlInv s → UnlInv (evs.foldl Sys.step s) := by
    intro evs
    induction evs with
    | nil => exact fun s _ _ h => h
    | cons ev evs ih => exact fun s h hi hu => ih _ (sysInv_step h ev) (idInv_step hi ev) (unlInv_step h hi hu ev)
  exact this evs _ (sysInv_init hst) (idInv_init st) (by intro c hc; cases hc)

/-- The inbox only grows. -/
theorem inbox_step (s : Sys E) (ev : Event) : ∃ more, (s.step ev).inbox = s.inbox ++ more := by
  cases ev with
  | recv c m => exact ⟨_, rfl⟩
  | restart => exact ⟨[], by simp [Sys.step]⟩
  | step i ch =>
    refine ⟨[], ?_⟩
    simp only [Sys.step]
    split
    · simp
    · split <;> simp [Sys.finish, Sys.perform]

theorem inbox_foldl (evs : List Event) (s : Sys E) : ∃ more, (evs.foldl Sys.step s).inbox = s.inbox ++ more := by
  induction evs generalizing s with
  | nil => exact ⟨[], by simp⟩
  | cons ev evs ih =>
    obtain ⟨a, ha⟩ := inbox_step s ev
    obtain ⟨b, hb⟩ := ih (s.step ev)
    exact ⟨a ++ b, by simp only [List.foldl_cons]; rw [hb, ha, List.append_assoc]⟩

/-- The messages received in a list of events. Specification: nothing in the code corresponds. -/
def received (evs : List Event) : List (Nat × Msg) := evs.filterMap (fun ev => match ev with
  | .recv c m => some (c, m)
  | _ => none)

/-- The inbox is exactly what was received. -/
theorem inbox_run (st : E.S.σ) (evs : List Event) : (Sys.run E st evs).inbox = received evs := by
  have : ∀ s : Sys E, (evs.foldl Sys.step s).inbox = s.inbox ++ received evs := by
    induction evs with
    | nil => intro s; simp [received]
    | cons ev evs ih =>
      intro s
      rw [List.foldl_cons, ih]
      cases ev with
      | recv c m => simp [Sys.step, received]
      | restart => simp [Sys.step, received]
      | step i ch =>
        have : (s.step (.step i ch)).inbox = s.inbox := by
          simp only [Sys.step]
          split
          · rfl
          · split <;> rfl
        rw [this]; simp [received]
  have := this (Sys.init E st)
  simpa [Sys.run, Sys.init] using this

/-- Unlocked connections stay unlocked until a restart. -/
theorem unlocked_step {st : E.S.σ} {s : Sys E} (h : SysInv st s) (ev : Event) (hr : ev ≠ .restart) (c : Nat)
    (hc : s.sh.unlocked c = true) : (s.step ev).sh.unlocked c = true := by
  cases ev with
  | recv c m => exact hc
  | restart => exact absurd rfl hr
  | step i ch =>
    cases hti : s.threads[i]? with
    | none => rw [step_none s i ch hti]; exact hc
    | some t =>
      cases hp : t.prog with
      | ret r => rw [step_ret s i ch t r hti hp]; exact hc
      | fail e => rw [step_fail s i ch t e hti hp]; exact hc
      | step a k =>
        rw [step_act s i ch t a k hti hp]
        exact (exec_ext t.conn ch s.sh h.inv a).unlocked c hc

/-! ### Requests received after a point -/

/-- Requests in flight or finished that were received after the first `n` messages started from a table extending `T`,
    with connection `c` unlocked if `u`. Proof device: nothing in the code corresponds. -/
def After (n : Nat) (T : List Entry) (c : Nat) (u : Bool) (s : Sys E) : Prop :=
  n ≤ s.inbox.length ∧ (∃ more, s.sh.tbl = T ++ more) ∧ (u = true → s.sh.unlocked c = true) ∧
  (∀ t ∈ s.threads, n ≤ t.id → (∃ more, t.start.tbl = T ++ more) ∧ (u = true → t.start.unlocked c = true)) ∧
  (∀ d ∈ s.done, n ≤ d.id → (∃ more, d.start.tbl = T ++ more) ∧ (u = true → d.start.unlocked c = true))

theorem after_step {st : E.S.σ} {s : Sys E} (h : SysInv st s) {n : Nat} {T : List Entry} {c : Nat} {u : Bool}
    (ha : After n T c u s) (ev : Event) (hr : u = true → ev ≠ .restart) : After n T c u (s.step ev) := by
  obtain ⟨hn, ⟨more, hm⟩, hu, ht, hd⟩ := ha
  have htbl : ∃ more, (s.step ev).sh.tbl = T ++ more := by
    obtain ⟨m2, hm2⟩ := tbl_step h ev
    exact ⟨more ++ m2, by rw [hm2, hm, List.append_assoc]⟩
  have hin : n ≤ (s.step ev).inbox.length := by
    obtain ⟨m2, hm2⟩ := inbox_step s ev
    rw [hm2]; simp; omega
  have hun : u = true → (s.step ev).sh.unlocked c = true := fun hh => unlocked_step h ev (hr hh) c (hu hh)
  refine ⟨hin, htbl, hun, ?_, ?_⟩
  · cases ev with
    | recv c' m =>
      intro t htm hid
      rcases List.mem_append.1 htm with htm | htm
      · exact ht t htm hid
      · simp at htm; subst htm
        exact ⟨⟨more, hm⟩, hu⟩
    | restart => intro t htm; simp [Sys.step] at htm
    | step i ch =>
      cases hti : s.threads[i]? with
      | none => rw [step_none s i ch hti]; exact ht
      | some t =>
        have htm : t ∈ s.threads := List.mem_of_getElem? hti
        cases hp : t.prog with
        | ret r => rw [step_ret s i ch t r hti hp]; exact fun t' ht' => ht t' (List.mem_of_mem_eraseIdx ht')
        | fail e => rw [step_fail s i ch t e hti hp]; exact fun t' ht' => ht t' (List.mem_of_mem_eraseIdx ht')
        | step a k =>
          rw [step_act s i ch t a k hti hp]
          intro t' ht' hid
          rcases List.mem_or_eq_of_mem_set ht' with ht' | rfl
          · exact ht t' ht' hid
          · exact ht t htm hid
  · cases ev with
    | recv c' m => exact hd
    | restart => exact hd
    | step i ch =>
      cases hti : s.threads[i]? with
      | none => rw [step_none s i ch hti]; exact hd
      | some t =>
        have htm : t ∈ s.threads := List.mem_of_getElem? hti
        have hfin : ∀ o, ∀ d ∈ (s.finish i t o).done, n ≤ d.id →
            (∃ more, d.start.tbl = T ++ more) ∧ (u = true → d.start.unlocked c = true) := by
          intro o d hdm hid
          rcases List.mem_append.1 hdm with hdm | hdm
          · exact hd d hdm hid
          · simp at hdm; subst hdm
            exact ht t htm hid
        cases hp : t.prog with
        | ret r => rw [step_ret s i ch t r hti hp]; exact hfin _
        | fail e => rw [step_fail s i ch t e hti hp]; exact hfin _
        | step a k => rw [step_act s i ch t a k hti hp]; exact hd

theorem after_foldl {st : E.S.σ} {n : Nat} {T : List Entry} {c : Nat} {u : Bool} (evs : List Event) :
    ∀ s : Sys E, SysInv st s → After n T c u s → (u = true → Event.restart ∉ evs) →
      After n T c u (evs.foldl Sys.step s) := by
  induction evs with
  | nil => exact fun s _ h _ => h
  | cons ev evs ih =>
    intro s h ha hr
    refine ih _ (sysInv_step h ev) (after_step h ha ev ?_) ?_
    · exact fun hu he => hr hu (by rw [he]; simp)
    · exact fun hu hm => hr hu (List.mem_cons_of_mem _ hm)

/-- A state is its own past. -/
theorem after_self (s : Sys E) (hi : IdInv s) (c : Nat) (u : Bool) (hu : u = true → s.sh.unlocked c = true) :
    After s.inbox.length s.sh.tbl c u s := by
  refine ⟨Nat.le_refl _, ⟨[], by simp⟩, hu, ?_, ?_⟩
  · intro t ht hid
    have := (List.getElem?_eq_some_iff.1 (hi.threads t ht).1).1
    omega
  · intro t ht hid
    have := (List.getElem?_eq_some_iff.1 (hi.done t ht).1).1
    omega

/-- A request received after `evs₁` starts from all the entries present after `evs₁`. -/
theorem later_tbl {st : E.S.σ} (hst : GoodStore E st) (evs₁ evs₂ : List Event) {d : Done E}
    (hd : d ∈ (Sys.run E st (evs₁ ++ evs₂)).done) (hid : (Sys.run E st evs₁).inbox.length ≤ d.id) :
    ∃ more, d.start.tbl = (Sys.run E st evs₁).sh.tbl ++ more := by
  rw [run_append] at hd
  have := after_foldl evs₂ _ (sysInv_run hst evs₁) (after_self _ (idInv_run st evs₁) 0 false (by simp)) (by simp)
  exact (this.2.2.2.2 d hd hid).1

/-- ... and on a connection unlocked then, unless the server restarted. -/
theorem later_unlocked {st : E.S.σ} (hst : GoodStore E st) (evs₁ evs₂ : List Event) {d : Done E}
    (hd : d ∈ (Sys.run E st (evs₁ ++ evs₂)).done) (hid : (Sys.run E st evs₁).inbox.length ≤ d.id)
    (hu : (Sys.run E st evs₁).sh.unlocked d.conn = true) (hr : Event.restart ∉ evs₂) : d.start.unlocked d.conn = true := by
  rw [run_append] at hd
  have := after_foldl evs₂ _ (sysInv_run hst evs₁) (after_self _ (idInv_run st evs₁) d.conn true (fun _ => hu))
    (fun _ => hr)
  exact (this.2.2.2.2 d hd hid).2 rfl

/-- Finished requests stay finished. -/
theorem done_step (s : Sys E) (ev : Event) : ∃ more, (s.step ev).done = s.done ++ more := by
  cases ev with
  | recv c m => exact ⟨[], by simp [Sys.step]⟩
  | restart => exact ⟨[], by simp [Sys.step]⟩
  | step i ch =>
    simp only [Sys.step]
    split
    · exact ⟨[], by simp⟩
    · split
      · exact ⟨_, rfl⟩
      · exact ⟨_, rfl⟩
      · exact ⟨[], by simp [Sys.perform]⟩

/-! ### Bounded work -/

/-- The program does at most `n` actions, whatever they return. Proof device: nothing in the code corresponds. -/
inductive Prog.Within {α : Type} : Nat → Prog α → Prop
  | ret {n : Nat} {a : α} : Within n (.ret a)
  | fail {n : Nat} {e : String} : Within n (.fail e)
  | step {n : Nat} {a : Act} {k : a.Out → Prog α} : (∀ o, Within n (k o)) → Within (n + 1) (.step a k)

theorem Prog.Within.mono {α : Type} {p : Prog α} {n m : Nat} (h : p.Within n) (hnm : n ≤ m) : p.Within m := by
  induction h generalizing m with
  | ret => exact .ret
  | fail => exact .fail
  | step _ ih =>
    cases m with
    | zero => omega
    | succ m => exact .step fun o => ih o (by omega)

theorem Prog.Within.next {α : Type} {n : Nat} {a : Act} {k : a.Out → Prog α} (h : (Prog.step a k).Within n) :
    ∃ n', n = n' + 1 ∧ ∀ o, (k o).Within n' := by
  cases h with
  | step h => exact ⟨_, rfl, h⟩

theorem Prog.Within.bind {α β : Type} {p : Prog α} {f : α → Prog β} {n m : Nat} (h : p.Within n)
    (hf : ∀ a, (f a).Within m) : (p.bind f).Within (n + m) := by
  induction h with
  | ret => exact (hf _).mono (by omega)
  | fail => exact .fail
  | @step n a k _ ih =>
    have : n + 1 + m = (n + m) + 1 := by omega
    rw [this]
    exact .step ih

theorem Prog.Within.attempt {α : Type} {p : Prog α} {n : Nat} (h : p.Within n) : p.attempt.Within n := by
  induction h with
  | ret => exact .ret
  | fail => exact .ret
  | step _ ih => exact .step ih

theorem Prog.Within.ofRes {α : Type} {r : Res α} {n : Nat} : (Prog.ofRes r).Within n := by
  cases r <;> first | exact .ret | exact .fail
theorem Prog.Within.ofOpt {α : Type} {r : Option α} {e : String} {n : Nat} : (Prog.ofOpt e r).Within n := by
  cases r <;> first | exact .ret | exact .fail
theorem Prog.Within.act {a : Act} {n : Nat} : (Prog.act a).Within (n + 1) := .step fun _ => .ret

section
open Prog

theorem within_check : checkUnlocked.Within 1 := by
  have : ∀ u : Bool, (if u = true then Prog.ret () else Prog.fail "KeystoreLocked").Within 0 := by
    intro u; cases u <;> first | exact .ret | exact .fail
  exact .step this

theorem within_alloc : alloc.Within 1 := .step fun _ => .ofRes

theorem within_gen (e : Entry) : (genAndRegister E e).Within 2 :=
  .bind (n := 1) (m := 1) within_alloc fun _ => .bind (n := 0) (m := 1) .ofRes fun _ =>
    .bind (n := 1) (m := 0) .act fun _ => .ret

theorem within_byTag (t : String) : (fullByTag E t).Within 4 := by
  refine .step fun o => ?_
  cases o with
  | some f => exact .ret
  | none => exact .step fun r => (Within.bind (n := 0) (m := 2) .ofRes within_gen)

theorem within_byEd (t : B 32) : (fullByEd E t).Within 4 := by
  refine .step fun o => ?_
  cases o with
  | some f => exact .ret
  | none => exact .step fun r => (Within.bind (n := 0) (m := 2) .ofRes within_gen)

theorem within_byX (t : B 32) : (fullByX E t).Within 4 := by
  refine .step fun o => ?_
  cases o with
  | some f => exact .ret
  | none => exact .step fun r => (Within.bind (n := 0) (m := 2) .ofRes within_gen)

theorem within_insertSeed (s : B 32) (t : String) (x : Bool) : (insertSeed E s t x).Within 3 :=
  .bind (n := 1) (m := 2) within_alloc fun _ => .bind (n := 1) (m := 1) .act fun _ =>
    .step fun _ => .bind (n := 0) (m := 0) .ofRes fun _ => .ret

theorem within_insertDeep (s : B 32) (t : String) (o m : UInt32) (p : B 64) (x : Bool) :
    (insertDeep E s t o m p x).Within 4 :=
  .bind (n := 1) (m := 3) within_alloc fun _ => .bind (n := 1) (m := 2) .act fun _ =>
    .bind (n := 0) (m := 2) .ofOpt fun _ => .bind (n := 1) (m := 1) .act fun _ =>
    .step fun _ => .bind (n := 0) (m := 0) .ofRes fun _ => .ret

theorem within_insert (c : Nat) (s : B 32) (t : String) (d : Option DeepPass) (x : Bool) :
    (insertMaybeDeep E c s t d x).Within 4 := by
  cases d with
  | none => exact (within_insertSeed s t x).mono (by omega)
  | some d => exact .bind (n := 0) (m := 4) .ofOpt fun _ => within_insertDeep ..

/-- Every handler finishes after at most 16 actions. -/
theorem within_handle (c : Nat) (m : Msg) : (handle E c m).Within 16 := by
  cases m with
  | res i r => exact .fail
  | req i r =>
    cases r with
    | hello => exact .ret
    | unlock p =>
      exact (Within.bind (n := 1) (m := 1) within_alloc fun _ => .bind (n := 0) (m := 1) .ofRes fun _ =>
        .bind (n := 1) (m := 0) .act fun _ => .ret).mono (by omega)
    | getEntry t =>
      exact (Within.bind (n := 1) (m := 4) within_check fun _ => .bind (n := 4) (m := 0) (within_byTag t) fun _ =>
        .ret).mono (by omega)
    | listEntries =>
      exact (Within.bind (n := 1) (m := 1) within_check fun _ => .step fun _ => .bind (n := 0) (m := 0) .ofRes fun _ =>
        .ret).mono (by omega)
    | newSeed t d x =>
      refine (Within.bind (n := 1) (m := 6) within_check fun _ => ?_).mono (by omega)
      cases d with
      | some d =>
        exact .bind (n := 0) (m := 6) .ofOpt fun _ => .bind (n := 1) (m := 5) .act fun _ =>
          .bind (n := 4) (m := 1) (within_insertDeep ..) fun _ => .ret
      | none =>
        exact .bind (n := 1) (m := 5) .act fun _ => .bind (n := 3) (m := 2) (within_insertSeed ..) fun _ => .ret
    | exportSeed t s r d =>
      refine (Within.bind (n := 1) (m := 10) within_check fun _ => .bind (n := 4) (m := 6) (within_byTag t) fun sf =>
        .bind (n := 4) (m := 2) (within_byX s) fun ef => .bind (n := 1) (m := 1) .act fun nonce => ?_).mono (by omega)
      cases ef.xSk with
      | none => exact .fail
      | some xSk =>
        simp only
        cases sf.seed with
        | none => exact .fail
        | some seed =>
          simp only
          split
          · exact .fail
          · exact .bind (n := 1) (m := 0) within_alloc fun _ => .bind (n := 0) (m := 0) .ofOpt fun _ => .ret
    | importSeed s r d n ci t x =>
      refine (Within.bind (n := 1) (m := 10) within_check fun _ => .bind (n := 1) (m := 9) within_check fun _ =>
        .bind (n := 4) (m := 5) (within_byX r) fun f => ?_).mono (by omega)
      split
      · exact .fail
      · exact .bind (n := 1) (m := 4) within_alloc fun _ => .bind (n := 0) (m := 4) .ofOpt fun _ =>
          .bind (n := 0) (m := 4) .ofOpt fun _ => .bind (n := 0) (m := 4) .ofOpt fun _ =>
          .bind (n := 4) (m := 0) (within_insert ..) fun _ => .ret
    | deriveSeed s sd dst dd path =>
      exact (Within.bind (n := 1) (m := 6) within_check fun _ => .step fun _ => .bind (n := 0) (m := 5) .ofRes fun _ =>
        .bind (n := 1) (m := 4) within_alloc fun _ => .bind (n := 0) (m := 4) .ofRes fun _ =>
        .bind (n := 4) (m := 0) (within_insert ..) fun _ => .ret).mono (by omega)
    | sign k d msg =>
      refine (Within.bind (n := 1) (m := 6) within_check fun _ => .bind (n := 4) (m := 2) (within_byEd k).attempt
        fun r => ?_).mono (by omega)
      cases r with
      | ok f => exact .bind (n := 1) (m := 1) within_alloc fun _ => .bind (n := 0) (m := 1) .ofRes fun _ => .ret
      | error e =>
        simp only
        split
        · exact .step fun _ => Within.bind (n := 0) (m := 1) .ofRes fun _ => .ret
        · exact .fail
    | boxEnc s r d msg =>
      refine (Within.bind (n := 1) (m := 6) within_check fun _ => .bind (n := 4) (m := 2) (within_byX s)
        fun f => .bind (n := 1) (m := 1) .act fun _ => ?_).mono (by omega)
      cases f.xSk with
      | none => exact .fail
      | some xSk => exact .bind (n := 1) (m := 0) within_alloc fun _ => .bind (n := 0) (m := 0) .ofOpt fun _ => .ret
    | boxDec s r d n ci =>
      refine (Within.bind (n := 1) (m := 6) within_check fun _ => .bind (n := 4) (m := 2) (within_byX r)
        fun f => ?_).mono (by omega)
      split
      · exact .fail
      · cases f.xSk with
        | none => exact .fail
        | some xSk => exact .bind (n := 1) (m := 1) within_alloc fun _ => .bind (n := 0) (m := 1) .ofOpt fun _ => .ret
    | boxEncEd s r d msg =>
      refine (Within.bind (n := 1) (m := 6) within_check fun _ => .bind (n := 4) (m := 2) (within_byEd s)
        fun f => .bind (n := 1) (m := 1) .act fun _ => ?_).mono (by omega)
      cases f.edSk with
      | none => exact .fail
      | some xSk =>
        exact .bind (n := 0) (m := 1) .ofOpt fun _ => .bind (n := 1) (m := 0) within_alloc fun _ =>
          .bind (n := 0) (m := 0) .ofOpt fun _ => .ret
    | boxDecEd s r d n ci =>
      refine (Within.bind (n := 1) (m := 6) within_check fun _ => .bind (n := 4) (m := 2) (within_byEd r)
        fun f => ?_).mono (by omega)
      split
      · exact .fail
      · cases f.edSk with
        | none => exact .fail
        | some xSk =>
          exact .bind (n := 0) (m := 2) .ofOpt fun _ => .bind (n := 1) (m := 1) within_alloc fun _ =>
            .bind (n := 0) (m := 1) .ofOpt fun _ => .ret
    | newCert t =>
      exact (Within.bind (n := 1) (m := 4) within_check fun _ => .bind (n := 4) (m := 0)
        (.bind (n := 1) (m := 3) within_alloc fun _ => .bind (n := 1) (m := 2) .act fun _ =>
          .bind (n := 1) (m := 1) .act fun _ => .step fun _ => .bind (n := 0) (m := 0) .ofRes fun _ => .ret)
        fun _ => .ret).mono (by omega)
    | getCertKey t =>
      refine (Within.bind (n := 1) (m := 6) within_check fun _ => .bind (n := 4) (m := 2) (within_byTag t)
        fun f => ?_).mono (by omega)
      split
      · exact .bind (n := 1) (m := 1) within_alloc fun _ => .bind (n := 0) (m := 1) .ofOpt fun _ =>
          .bind (n := 1) (m := 0) .act fun _ => .ret
      · exact .fail
    | sboxEnc t d msg =>
      refine (Within.bind (n := 1) (m := 6) within_check fun _ => .bind (n := 4) (m := 2) (within_byTag t)
        fun f => .bind (n := 1) (m := 1) .act fun _ => ?_).mono (by omega)
      cases f.seed with
      | none => exact .fail
      | some seed => exact .bind (n := 1) (m := 0) within_alloc fun _ => .ret
    | sboxDec t d n ci =>
      refine (Within.bind (n := 1) (m := 6) within_check fun _ => .bind (n := 4) (m := 2) (within_byTag t)
        fun f => ?_).mono (by omega)
      split
      · exact .fail
      · cases f.seed with
        | none => exact .fail
        | some xSk => exact .bind (n := 1) (m := 1) within_alloc fun _ => .bind (n := 0) (m := 1) .ofOpt fun _ => .ret

end

/-- The request an event makes progress on. Proof device: nothing in the code corresponds. -/
def Sys.stepped (s : Sys E) : Event → Option Nat
  | .step i _ => (s.threads[i]?).map Thread.id
  | _ => none

/-- How many of the events are steps of request `k`. Specification: nothing in the code corresponds. -/
def Sys.steps (k : Nat) (s : Sys E) : List Event → Nat
  | [] => 0
  | ev :: evs => (if s.stepped ev = some k then 1 else 0) + Sys.steps k (s.step ev) evs

/-- Requests in flight with number `k` have at most `n` actions left.
    Proof device: nothing in the code corresponds. -/
def LeftInv (k n : Nat) (s : Sys E) : Prop := ∀ t ∈ s.threads, t.id = k → t.prog.Within n

theorem left_step {s : Sys E} (hi : IdInv s) {k n : Nat} (hk : k < s.inbox.length) (h : LeftInv k n s) (ev : Event) :
    LeftInv k n (s.step ev) ∧
      (s.stepped ev = some k → (∀ t ∈ (s.step ev).threads, t.id ≠ k) ∨ ∃ n', n = n' + 1 ∧ LeftInv k n' (s.step ev)) := by
  cases ev with
  | recv c m =>
    refine ⟨?_, by simp [Sys.stepped]⟩
    intro t ht hid
    rcases List.mem_append.1 ht with ht | ht
    · exact h t ht hid
    · simp at ht; subst ht
      exact absurd hid (by simp; omega)
  | restart => exact ⟨by intro t ht; simp [Sys.step] at ht, by simp [Sys.stepped]⟩
  | step i ch =>
    cases hti : s.threads[i]? with
    | none => rw [step_none s i ch hti]; exact ⟨h, by simp [Sys.stepped, hti]⟩
    | some t =>
      have htm : t ∈ s.threads := List.mem_of_getElem? hti
      have hnd : (s.threads.map Thread.id).Nodup := by
        have := h
        have hnd : (s.threads.map Thread.id ++ s.done.map Done.id ++ s.dropped).Nodup :=
          hi.perm.nodup_iff.2 List.nodup_range
        rw [List.append_assoc] at hnd
        exact (List.nodup_append.1 hnd).1
      have hfin : ∀ o, LeftInv k n (s.finish i t o) ∧ (s.stepped (.step i ch) = some k →
          (∀ t ∈ (s.finish i t o).threads, t.id ≠ k)) := by
        intro o
        refine ⟨fun t' ht' => h t' (List.mem_of_mem_eraseIdx ht'), ?_⟩
        intro hs
        simp [Sys.stepped, hti] at hs
        intro t' ht' hid
        have hp := (perm_eraseIdx s.threads i t hti).map Thread.id
        have := hp.nodup_iff.1 hnd
        simp only [List.map_cons, List.nodup_cons] at this
        exact this.1 (by rw [hs, ← hid]; exact List.mem_map.2 ⟨t', ht', rfl⟩)
      cases hp : t.prog with
      | ret r => rw [step_ret s i ch t r hti hp]; exact ⟨(hfin (.ok r)).1, fun hs => Or.inl ((hfin (.ok r)).2 hs)⟩
      | fail e => rw [step_fail s i ch t e hti hp]; exact ⟨(hfin (.error e)).1, fun hs => Or.inl ((hfin (.error e)).2 hs)⟩
      | step a kk =>
        rw [step_act s i ch t a kk hti hp]
        have hlen : i < s.threads.length := (List.getElem?_eq_some_iff.1 hti).1
        refine ⟨?_, ?_⟩
        · intro t' ht' hid
          rcases List.mem_or_eq_of_mem_set ht' with ht' | rfl
          · exact h t' ht' hid
          · have := h t htm hid
            rw [hp] at this
            obtain ⟨n', rfl, hw⟩ := this.next
            exact (hw _).mono (by omega)
        · intro hs
          simp [Sys.stepped, hti] at hs
          right
          have := h t htm hs
          rw [hp] at this
          obtain ⟨n', rfl, hw⟩ := this.next
          · refine ⟨n', rfl, ?_⟩
            intro t' ht' hid
            obtain ⟨j, hj⟩ := List.mem_iff_getElem?.1 ht'
            simp only [Sys.perform] at hj
            rw [List.getElem?_set] at hj
            split at hj
            · cases hj; exact hw _
            · rename_i hij
              exfalso
              apply hij
              obtain ⟨hi1, hi2⟩ := List.getElem?_eq_some_iff.1 hti
              obtain ⟨hj1, hj2⟩ := List.getElem?_eq_some_iff.1 hj
              have heq : t.id = t'.id := by rw [hs, hid]
              rcases Nat.lt_trichotomy i j with h' | h' | h'
              · have := List.pairwise_iff_getElem.1 hnd i j (by simpa using hi1) (by simpa using hj1) h'
                simp [hi2, hj2, heq] at this
              · exact h'
              · have := List.pairwise_iff_getElem.1 hnd j i (by simpa using hj1) (by simpa using hi1) h'
                simp [hi2, hj2, heq] at this

theorem gone_step {s : Sys E} {k : Nat} (hk : k < s.inbox.length) (h : ∀ t ∈ s.threads, t.id ≠ k) (ev : Event) :
    ∀ t ∈ (s.step ev).threads, t.id ≠ k := by
  cases ev with
  | recv c m =>
    intro t ht
    rcases List.mem_append.1 ht with ht | ht
    · exact h t ht
    · simp at ht; subst ht
      simp; omega
  | restart => intro t ht; simp [Sys.step] at ht
  | step i ch =>
    cases hti : s.threads[i]? with
    | none => rw [step_none s i ch hti]; exact h
    | some t =>
      have htm : t ∈ s.threads := List.mem_of_getElem? hti
      cases hp : t.prog with
      | ret r => rw [step_ret s i ch t r hti hp]; exact fun t' ht' => h t' (List.mem_of_mem_eraseIdx ht')
      | fail e => rw [step_fail s i ch t e hti hp]; exact fun t' ht' => h t' (List.mem_of_mem_eraseIdx ht')
      | step a kk =>
        rw [step_act s i ch t a kk hti hp]
        intro t' ht'
        rcases List.mem_or_eq_of_mem_set ht' with ht' | rfl
        · exact h t' ht'
        · exact h t htm

/-- After more of its own steps than it has actions left, a request is no longer in flight. -/
theorem gone_after {k : Nat} (evs : List Event) : ∀ (s : Sys E) (n : Nat), IdInv s → k < s.inbox.length →
    ((∀ t ∈ s.threads, t.id ≠ k) ∨ (LeftInv k n s ∧ n < s.steps k evs)) →
    ∀ t ∈ (evs.foldl Sys.step s).threads, t.id ≠ k := by
  induction evs with
  | nil =>
    intro s n hi hk h
    rcases h with h | ⟨_, h⟩
    · exact h
    · simp [Sys.steps] at h
  | cons ev evs ih =>
    intro s n hi hk h
    have hk' : k < (s.step ev).inbox.length := by
      obtain ⟨m, hm⟩ := inbox_step s ev
      rw [hm]; simp; omega
    rcases h with h | ⟨h, hn⟩
    · exact ih _ n (idInv_step hi ev) hk' (Or.inl (gone_step hk h ev))
    · have hl := left_step hi hk h ev
      simp only [Sys.steps] at hn
      by_cases hs : s.stepped ev = some k
      · rcases hl.2 hs with hg | ⟨n', rfl, hl'⟩
        · exact ih _ n (idInv_step hi ev) hk' (Or.inl hg)
        · simp [hs] at hn
          exact ih _ n' (idInv_step hi ev) hk' (Or.inr ⟨hl', by omega⟩)
      · simp [hs] at hn
        exact ih _ n (idInv_step hi ev) hk' (Or.inr ⟨hl.1, hn⟩)

theorem steps_gone {k : Nat} (evs : List Event) : ∀ (s : Sys E), k < s.inbox.length → (∀ t ∈ s.threads, t.id ≠ k) →
    s.steps k evs = 0 := by
  induction evs with
  | nil => intros; rfl
  | cons ev evs ih =>
    intro s hk h
    have hk' : k < (s.step ev).inbox.length := by
      obtain ⟨m, hm⟩ := inbox_step s ev
      rw [hm]; simp; omega
    simp only [Sys.steps, ih _ hk' (gone_step hk h ev), Nat.add_zero]
    rw [if_neg]
    intro hs
    cases ev with
    | recv c m => cases hs
    | restart => cases hs
    | step i ch =>
      simp only [Sys.stepped, Option.map_eq_some_iff] at hs
      obtain ⟨t, ht, hid⟩ := hs
      exact h t (List.mem_of_getElem? ht) hid

/-- A request with at most `n` actions left takes at most `n + 1` steps. -/
theorem steps_le {k : Nat} (evs : List Event) : ∀ (s : Sys E) (n : Nat), IdInv s → k < s.inbox.length →
    LeftInv k n s → s.steps k evs ≤ n + 1 := by
  induction evs with
  | nil => intro s n _ _ _; simp [Sys.steps]
  | cons ev evs ih =>
    intro s n hi hk h
    have hk' : k < (s.step ev).inbox.length := by
      obtain ⟨m, hm⟩ := inbox_step s ev
      rw [hm]; simp; omega
    have hl := left_step hi hk h ev
    simp only [Sys.steps]
    by_cases hs : s.stepped ev = some k
    · rcases hl.2 hs with hg | ⟨n', rfl, hl'⟩
      · rw [steps_gone evs _ hk' hg]; simp [hs]
      · have := ih _ n' (idInv_step hi ev) hk' hl'
        simp [hs]; omega
    · have := ih _ n (idInv_step hi ev) hk' hl.1
      simp [hs]; omega

theorem within_run (st : E.S.σ) (evs : List Event) : ∀ t ∈ (Sys.run E st evs).threads, t.prog.Within 16 := by
  have : ∀ (evs : List Event) (s : Sys E), (∀ t ∈ s.threads, t.prog.Within 16) →
      ∀ t ∈ (evs.foldl Sys.step s).threads, t.prog.Within 16 := by
    intro evs
    induction evs with
    | nil => exact fun s h => h
    | cons ev evs ih =>
      intro s h
      refine ih _ ?_
      cases ev with
      | recv c m =>
        intro t ht
        rcases List.mem_append.1 ht with ht | ht
        · exact h t ht
        · simp at ht; subst ht; exact within_handle c m
      | restart => intro t ht; simp [Sys.step] at ht
      | step i ch =>
        cases hti : s.threads[i]? with
        | none => rw [step_none s i ch hti]; exact h
        | some t =>
          have htm : t ∈ s.threads := List.mem_of_getElem? hti
          cases hp : t.prog with
          | ret r => rw [step_ret s i ch t r hti hp]; exact fun t' ht' => h t' (List.mem_of_mem_eraseIdx ht')
          | fail e => rw [step_fail s i ch t e hti hp]; exact fun t' ht' => h t' (List.mem_of_mem_eraseIdx ht')
          | step a kk =>
            rw [step_act s i ch t a kk hti hp]
            intro t' ht'
            rcases List.mem_or_eq_of_mem_set ht' with ht' | rfl
            · exact h t' ht'
            · have := h t htm
              rw [hp] at this
              obtain ⟨n', hn, hw⟩ := this.next
              exact (hw _).mono (by omega)
  exact this evs _ (by simp [Sys.init])

/-- Running one request alone finishes it. -/
theorem finish_alone (n : Nat) : ∀ (s : Sys E) (i : Nat) (t : Thread E), s.threads[i]? = some t → t.prog.Within n →
    ∀ (chs : Nat → Choice) (k : Nat), ∃ j ≤ n + 1,
      ∃ d ∈ (((List.range j).map (fun x => Event.step i (chs (k + x)))).foldl Sys.step s).done,
        d.id = t.id ∧ d.conn = t.conn ∧ d.msg = t.msg := by
  induction n with
  | zero =>
    intro s i t ht hw chs k
    refine ⟨1, by omega, ?_⟩
    simp only [List.range_one, List.map_cons, List.map_nil, List.foldl_cons, List.foldl_nil]
    cases hp : t.prog with
    | ret r => rw [step_ret s i _ t r ht hp]; exact ⟨_, List.mem_append_right _ (by simp; rfl), rfl, rfl, rfl⟩
    | fail r => rw [step_fail s i _ t r ht hp]; exact ⟨_, List.mem_append_right _ (by simp; rfl), rfl, rfl, rfl⟩
    | step a kk => rw [hp] at hw; obtain ⟨n', hn, _⟩ := hw.next; omega
  | succ n ih =>
    intro s i t ht hw chs k
    cases hp : t.prog with
    | ret r =>
      refine ⟨1, by omega, ?_⟩
      simp only [List.range_one, List.map_cons, List.map_nil, List.foldl_cons, List.foldl_nil]
      rw [step_ret s i _ t r ht hp]; exact ⟨_, List.mem_append_right _ (by simp; rfl), rfl, rfl, rfl⟩
    | fail r =>
      refine ⟨1, by omega, ?_⟩
      simp only [List.range_one, List.map_cons, List.map_nil, List.foldl_cons, List.foldl_nil]
      rw [step_fail s i _ t r ht hp]; exact ⟨_, List.mem_append_right _ (by simp; rfl), rfl, rfl, rfl⟩
    | step a kk =>
      rw [hp] at hw
      obtain ⟨n', hn, hw'⟩ := hw.next
      have hn' : n' = n := by omega
      subst hn'
      have hlen : i < s.threads.length := (List.getElem?_eq_some_iff.1 ht).1
      have hstep := step_act s i (chs k) t a kk ht hp
      obtain ⟨j, hj, d, hd, h⟩ := ih (s.step (.step i (chs k))) i
        { t with
          log := t.log ++ (exec t.conn (chs k) s.sh a).2.2
          prog := kk (exec t.conn (chs k) s.sh a).1 }
        (by rw [hstep]; simp [Sys.perform, hlen]) (hw' _) chs (k + 1)
      refine ⟨j + 1, by omega, d, ?_, h⟩
      rw [List.range_succ_eq_map]
      simp only [List.map_cons, List.map_map, List.foldl_cons, Nat.add_zero]
      have hf : (fun x => Event.step i (chs (k + x))) ∘ Nat.succ = fun x => Event.step i (chs (k + 1 + x)) := by
        funext x; simp only [Function.comp]; rw [show k + x.succ = k + 1 + x from by omega]
      rw [hf]
      exact hd

end Lair
