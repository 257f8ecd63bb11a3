import Verif.Props.Vocab
import Verif.SystemLemmas
import Verif.Sizes
import Verif.Examples

/-
Properties of sessions: C01 (locked connections), C02 (unlock), C03 (replies), C04 (non-requests).
-/
namespace Lair

variable {E : Env} {st : E.S.σ}

/-! ### helper facts -/

theorem rightPassphrase_iff (c : Nat) (p : SecretSized 81) : unlockCheck E c p = .ok () ↔ RightPassphrase E c p := by
  unfold unlockCheck RightPassphrase decPass
  constructor
  · intro h
    split at h
    · cases h
    · rename_i pass hp
      split at h
      · cases h
      · rename_i pre hpre
        split at h
        · cases h
        · rename_i s hs
          split at h
          · cases h
          · rename_i hk
            exact ⟨pass, pre, s, hp, hpre, hs, by simpa using Eq.symm (by simpa using hk)⟩
  · rintro ⟨pass, pre, s, h1, h2, h3, h4⟩
    simp [h1, h2, h3, h4]

theorem mem_deliver {id : String} {o : Res Resp} {r : Resp} (h : r ∈ deliver id o) : o = .ok r ∨ r.IsError := by
  cases o with
  | ok r' =>
    simp only [deliver] at h
    split at h
    · simp at h; exact Or.inl (by rw [h])
    · unfold deliverErr at h
      split at h
      · simp at h; exact Or.inr ⟨_, h⟩
      · cases h
  | error e =>
    simp only [deliver, deliverErr] at h
    split at h
    · simp at h; exact Or.inr ⟨_, h⟩
    · cases h

theorem deliver_length (id : String) (o : Res Resp) : (deliver id o).length ≤ 1 := by
  cases o <;> simp only [deliver, deliverErr] <;> (repeat' split) <;> simp

/-- Shape of a request's specification when it is an ordinary request. -/
theorem hspec_ordinary {c : Nat} {s₀ s₁ : Shared E} {l : List Ev} {o : Res Resp} {i : String} {r : Req}
    (h : HSpec c s₀ s₁ l o (.req i r)) (hr : NeedsUnlock r) :
    (l = [] ∧ o = .error "KeystoreLocked" ∧ s₀.unlocked c = false) ∨
    (s₁.unlocked c = true ∧ (Faulted l o ∨ ReqSpec c s₀ s₁ l o r)) := by
  cases r with
  | hello => exact absurd rfl hr.1
  | unlock p => exact absurd rfl (hr.2 p)
  | _ => exact h

theorem log_eq {evs : List Event} {d : Done E} (hd : d ∈ (Sys.run E st evs).done) :
    d.log = (Sys.run E st evs).effects d.id := ((idInv_run st evs).done d hd).2

/-! ### C01 -/

/-- C01. A request answered while no `Unlock` has succeeded on its connection is answered with an error only, and has no
    effect whatsoever - whatever happens on other connections meanwhile. -/
theorem C01_locked_request_refused (hst : GoodStore E st) (evs : List Event) (d : Done E)
    (hd : d ∈ (Sys.run E st evs).done) (hlocked : d.stop.unlocked d.conn = false) (i : String) (r : Req)
    (hm : d.msg = .req i r) (hr : NeedsUnlock r) :
    d.outcome = .error "KeystoreLocked" ∧ (∀ x ∈ d.wire, x.IsError) ∧ (Sys.run E st evs).effects d.id = [] := by
  have h := done_spec hst hd
  rw [hm] at h
  rcases hspec_ordinary h hr with ⟨h1, h2, _⟩ | ⟨h1, _⟩
  · refine ⟨h2, ?_, by rw [← log_eq hd, h1]⟩
    intro x hx
    rw [done_wire hst hd, h2] at hx
    rcases mem_deliver hx with h | h
    · cases h
    · exact h
  · rw [hlocked] at h1; cases h1

/-- C01. In particular a client that never presents the right passphrase on a connection gets nothing but errors there
    (apart from the answers to `Hello`) and changes nothing. -/
theorem C01_without_passphrase_nothing (hst : GoodStore E st) (evs : List Event) (c : Nat)
    (hno : ∀ i p, (c, Msg.req i (.unlock p)) ∈ (Sys.run E st evs).inbox → ¬ RightPassphrase E c p)
    (d : Done E) (hd : d ∈ (Sys.run E st evs).done) (hc : d.conn = c) (hh : ∀ i, d.msg ≠ .req i .hello) :
    (∀ x ∈ d.wire, x.IsError) ∧ ∀ ev ∈ (Sys.run E st evs).effects d.id, ev = .fault := by
  have hw := done_wire hst hd
  have hs := done_spec hst hd
  have hbox := ((idInv_run st evs).done d hd).1
  have herr : ∀ e, d.outcome = .error e → ∀ x ∈ d.wire, x.IsError := by
    intro e ho x hx
    rw [hw, ho] at hx
    rcases mem_deliver hx with h | h
    · cases h
    · exact h
  cases hm : d.msg with
  | res i r =>
    rw [hm] at hs
    exact ⟨herr _ hs.2, by rw [← log_eq hd, hs.1]; simp⟩
  | req i r =>
    by_cases hr : NeedsUnlock r
    · have hl : d.stop.unlocked d.conn = false := by
        cases hf : d.stop.unlocked d.conn with
        | false => rfl
        | true =>
          exfalso
          rw [hm] at hs
          -- the flag was set when the request finished: look at the moment it finished
          have hfl : ∀ (evs : List Event) (s : Sys E), SysInv st s → IdInv s → UnlInv s →
              (∀ d ∈ s.done, d.stop.unlocked d.conn = true →
                ∃ i p, (d.conn, Msg.req i (.unlock p)) ∈ s.inbox ∧ unlockCheck E d.conn p = .ok ()) →
              ∀ d ∈ (evs.foldl Sys.step s).done, d.stop.unlocked d.conn = true →
                ∃ i p, (d.conn, Msg.req i (.unlock p)) ∈ (evs.foldl Sys.step s).inbox ∧
                  unlockCheck E d.conn p = .ok () := by
            intro evs
            induction evs with
            | nil => exact fun s _ _ _ h => h
            | cons ev evs ih =>
              intro s h hi hu hall
              refine ih _ (sysInv_step h ev) (idInv_step hi ev) (unlInv_step h hi hu ev) ?_
              obtain ⟨more, hmore⟩ := inbox_step s ev
              have lift : ∀ c, (∃ i p, (c, Msg.req i (.unlock p)) ∈ s.inbox ∧ unlockCheck E c p = .ok ()) →
                  ∃ i p, (c, Msg.req i (.unlock p)) ∈ (s.step ev).inbox ∧ unlockCheck E c p = .ok () := by
                rintro c ⟨i, p, h1, h2⟩
                exact ⟨i, p, by rw [hmore]; exact List.mem_append_left _ h1, h2⟩
              intro d hd hf
              cases ev with
              | recv c m => exact lift _ (hall d hd hf)
              | restart => exact lift _ (hall d hd hf)
              | step i ch =>
                cases hti : s.threads[i]? with
                | none => rw [step_none s i ch hti] at hd ⊢; exact hall d hd hf
                | some t =>
                  cases hp : t.prog with
                  | ret r =>
                    rw [step_ret s i ch t r hti hp] at hd
                    rcases List.mem_append.1 hd with hd | hd
                    · exact lift _ (hall d hd hf)
                    · simp at hd; subst hd; exact lift _ (hu _ hf)
                  | fail r =>
                    rw [step_fail s i ch t r hti hp] at hd
                    rcases List.mem_append.1 hd with hd | hd
                    · exact lift _ (hall d hd hf)
                    · simp at hd; subst hd; exact lift _ (hu _ hf)
                  | step a k =>
                    rw [step_act s i ch t a k hti hp] at hd
                    exact lift _ (hall d hd hf)
          obtain ⟨i', p, h1, h2⟩ := hfl evs _ (sysInv_init hst) (idInv_init st) (by intro c hc; cases hc)
            (by simp [Sys.init]) d hd hf
          rw [hc] at h1 h2
          exact hno i' p h1 ((rightPassphrase_iff c p).1 h2)
      have := C01_locked_request_refused hst evs d hd hl i r hm hr
      exact ⟨this.2.1, by rw [this.2.2]; simp⟩
    · cases r with
      | hello => exact absurd hm (hh i)
      | unlock p =>
        rw [hm] at hs hbox
        rcases hs with ⟨_, _, h3, _⟩ | ⟨⟨h1, e, h2⟩, _⟩ | ⟨h1, e, h2⟩
        · exact absurd ((rightPassphrase_iff _ _).1 h3)
            (by rw [hc]; exact hno i p (by rw [← hc]; exact List.mem_of_getElem? hbox))
        · exact ⟨herr e h2, by rw [← log_eq hd, h1]; simp⟩
        · exact ⟨herr e h2, by rw [← log_eq hd, h1]; simp⟩
      | _ => exact absurd ⟨by simp, by simp⟩ hr

/-- C01. At every moment of every run: a step of a request on a locked connection changes neither the entries nor any
    cached secret, and does not consult the fallback signer. -/
theorem C01_locked_step_changes_nothing (hst : GoodStore E st) (evs : List Event) (i : Nat) (ch : Choice) (t : Thread E)
    (ht : (Sys.run E st evs).threads[i]? = some t) (hlocked : (Sys.run E st evs).sh.unlocked t.conn = false) :
    let s := Sys.run E st evs
    let s' := Sys.run E st (evs ++ [.step i ch])
    s'.sh.store = s.sh.store ∧ s'.sh.cTag = s.sh.cTag ∧ s'.sh.cEd = s.sh.cEd ∧ s'.sh.cX = s.sh.cX ∧
      ∀ k ev, (k, ev) ∈ s'.hist → (k, ev) ∈ s.hist ∨ ev = .fault ∨ ev = .unlocked := by
  intro s s'
  have hs' : s' = s.step (.step i ch) := by simp [s', s, run_append]
  have hinv := sysInv_run hst evs
  rw [hs']
  cases hp : t.prog with
  | ret r => rw [step_ret s i ch t r ht hp]; exact ⟨rfl, rfl, rfl, rfl, fun k ev h => Or.inl h⟩
  | fail e => rw [step_fail s i ch t e ht hp]; exact ⟨rfl, rfl, rfl, rfl, fun k ev h => Or.inl h⟩
  | step a k =>
    have hok := thread_act hinv (List.mem_of_getElem? ht) hp
    rw [step_act s i ch t a k ht hp]
    simp only [Sys.perform]
    cases a with
    | loadUnlocked => exact ⟨rfl, rfl, rfl, rfl, fun k ev h => Or.inl (by simpa [exec] using h)⟩
    | setUnlocked =>
      refine ⟨rfl, rfl, rfl, rfl, fun k ev h => ?_⟩
      simp [exec] at h
      rcases h with h | h
      · exact Or.inl h
      · exact Or.inr (Or.inr h.2)
    | random n => exact ⟨rfl, rfl, rfl, rfl, fun k ev h => Or.inl (by simpa [exec] using h)⟩
    | genCert => exact ⟨rfl, rfl, rfl, rfl, fun k ev h => Or.inl (by simpa [exec] using h)⟩
    | alloc =>
      cases hf : ch.fault with
      | none =>
        simp only [exec, hf]
        exact ⟨trivial, trivial, trivial, trivial, fun k ev h => Or.inl (by simpa using h)⟩
      | some e =>
        simp only [exec, hf]
        refine ⟨trivial, trivial, trivial, trivial, fun k ev h => ?_⟩
        simp at h
        rcases h with h | h
        · exact Or.inl h
        · exact Or.inr (Or.inl h.2)
    | register f => rw [hok.1] at hlocked; cases hlocked
    | write e => rw [hok.1] at hlocked; cases hlocked
    | fallback pk data => rw [hok.1] at hlocked; cases hlocked
    | cacheTag x => have h : _ = true := hok; rw [h] at hlocked; cases hlocked
    | cacheEd x => have h : _ = true := hok; rw [h] at hlocked; cases hlocked
    | cacheX x => have h : _ = true := hok; rw [h] at hlocked; cases hlocked
    | storeTag x => have h : _ = true := hok; rw [h] at hlocked; cases hlocked
    | storeEd x => have h : _ = true := hok; rw [h] at hlocked; cases hlocked
    | storeX x => have h : _ = true := hok; rw [h] at hlocked; cases hlocked
    | list => have h : _ = true := hok; rw [h] at hlocked; cases hlocked

/-! ### C02 -/

/-- C02. Barring failures of the environment, `Unlock` succeeds exactly for the right passphrase. -/
theorem C02_unlock_iff_right_passphrase (hst : GoodStore E st) (evs : List Event) (d : Done E)
    (hd : d ∈ (Sys.run E st evs).done) (i : String) (p : SecretSized 81) (hm : d.msg = .req i (.unlock p))
    (hf : Ev.fault ∉ (Sys.run E st evs).effects d.id) :
    (d.outcome = .ok .unlock ↔ RightPassphrase E d.conn p) ∧ (d.outcome ≠ .ok .unlock → ∃ e, d.outcome = .error e) := by
  have hs := done_spec hst hd
  rw [hm] at hs
  rw [← rightPassphrase_iff]
  rcases hs with ⟨h1, h2, h3, h4⟩ | ⟨⟨h1, e, h2⟩, h3⟩ | ⟨h1, e, h2⟩
  · exact ⟨⟨fun _ => h3, fun _ => h2⟩, fun h => absurd h2 h⟩
  · refine ⟨⟨fun h => ?_, fun h => absurd h h3⟩, fun _ => ⟨e, h2⟩⟩
    rw [h2] at h; cases h
  · rw [← log_eq hd, h1] at hf; simp at hf

/-- C02. Even with failures of the environment: a success reply is sent only for the right passphrase, and the reply
    reaches the wire whenever the request itself fits a frame. -/
theorem C02_unlock_reply (hst : GoodStore E st) (evs : List Event) (d : Done E)
    (hd : d ∈ (Sys.run E st evs).done) (i : String) (p : SecretSized 81) (hm : d.msg = .req i (.unlock p)) :
    (Resp.unlock ∈ d.wire → RightPassphrase E d.conn p ∧ d.stop.unlocked d.conn = true) ∧
    (sendable d.msg = true → RightPassphrase E d.conn p → Ev.fault ∉ (Sys.run E st evs).effects d.id →
      d.wire = [.unlock] ∧ d.stop.unlocked d.conn = true) := by
  have hs := done_spec hst hd
  have hw := done_wire hst hd
  rw [hm] at hs
  constructor
  · intro hx
    rw [hw] at hx
    rcases mem_deliver hx with ho | ⟨e, he⟩
    · rcases hs with ⟨h1, h2, h3, h4⟩ | ⟨⟨h1, e, h2⟩, h3⟩ | ⟨h1, e, h2⟩
      · exact ⟨(rightPassphrase_iff _ _).1 h3, h4⟩
      · rw [h2] at ho; cases ho
      · rw [h2] at ho; cases ho
    · cases he
  · intro hsend hp hf
    rcases hs with ⟨h1, h2, h3, h4⟩ | ⟨⟨h1, e, h2⟩, h3⟩ | ⟨h1, e, h2⟩
    · refine ⟨?_, h4⟩
      have hfit : sendable (.res i .unlock) = true := by
        rw [hm] at hsend
        simp only [sendable, decide_eq_true_eq] at hsend ⊢
        have a := Codec.len_resUnlock i
        have b := Codec.len_reqUnlock i p
        omega
      rw [hw, h2, hm]
      simp [deliver, Msg.id, hfit]
    · exact absurd ((rightPassphrase_iff _ _).2 hp) h3
    · rw [← log_eq hd, h1] at hf; simp at hf

/-- C02. A connection becomes unlocked only by a request that arrived on it, was an `Unlock` and carried the right
    passphrase: nothing on another connection unlocks it. -/
theorem C02_unlock_is_per_connection (hst : GoodStore E st) (evs : List Event) (ev : Event) (c : Nat)
    (h0 : (Sys.run E st evs).sh.unlocked c = false) (h1 : (Sys.run E st (evs ++ [ev])).sh.unlocked c = true) :
    ∃ i ch t j p, ev = .step i ch ∧ (Sys.run E st evs).threads[i]? = some t ∧ t.conn = c ∧
      t.msg = .req j (.unlock p) ∧ RightPassphrase E c p := by
  have hs : Sys.run E st (evs ++ [ev]) = (Sys.run E st evs).step ev := by simp [run_append]
  rw [hs] at h1
  cases ev with
  | recv c' m => simp [Sys.step] at h1; rw [h0] at h1; cases h1
  | restart => simp [Sys.step] at h1
  | step i ch =>
    cases hti : (Sys.run E st evs).threads[i]? with
    | none => rw [step_none _ i ch hti, h0] at h1; cases h1
    | some t =>
      cases hp : t.prog with
      | ret r => rw [step_ret _ i ch t r hti hp] at h1; simp [Sys.finish, h0] at h1
      | fail r => rw [step_fail _ i ch t r hti hp] at h1; simp [Sys.finish, h0] at h1
      | step a k =>
        rw [step_act _ i ch t a k hti hp] at h1
        rcases exec_unlocked t.conn ch _ a c h1 with h | ⟨rfl, rfl⟩
        · rw [h0] at h; cases h
        · obtain ⟨j, p, h2, h3⟩ := thread_act (sysInv_run hst evs) (List.mem_of_getElem? hti) hp
          exact ⟨i, ch, t, j, p, rfl, hti, rfl, h2, (rightPassphrase_iff _ _).1 h3⟩

/-- C02. Once unlocked, a connection stays unlocked for the life of the server. -/
theorem C02_unlock_is_permanent (hst : GoodStore E st) (evs₁ evs₂ : List Event) (c : Nat)
    (h : (Sys.run E st evs₁).sh.unlocked c = true) (hr : Event.restart ∉ evs₂) :
    (Sys.run E st (evs₁ ++ evs₂)).sh.unlocked c = true := by
  rw [run_append]
  exact (after_foldl evs₂ _ (sysInv_run hst evs₁) (after_self _ (idInv_run st evs₁) c true (fun _ => h))
    (fun _ => hr)).2.2.1 rfl

/-- C02. A failed `Unlock`, and every other request, leaves all flags alone; a restarted server starts with all
    connections locked. -/
theorem C02_only_successful_unlock_unlocks (hst : GoodStore E st) (evs : List Event) (d : Done E)
    (hd : d ∈ (Sys.run E st evs).done) :
    Ev.unlocked ∈ (Sys.run E st evs).effects d.id ↔ d.outcome = .ok .unlock := by
  have hs := done_spec hst hd
  rw [← log_eq hd]
  cases hm : d.msg with
  | res i r => rw [hm] at hs; obtain ⟨h1, h2⟩ := hs; simp [h1, h2]
  | req i r =>
    rw [hm] at hs
    have hcreate : ∀ {seed t dp x mk sr}, CreateSpec d.conn d.start d.stop d.log d.outcome seed t dp x mk sr →
        (∀ y, mk y ≠ .unlock) → (Ev.unlocked ∈ d.log ↔ d.outcome = .ok .unlock) := by
      intro seed t dp x mk sr h hmk
      rcases h with ⟨e, _, h1, h2, _⟩ | ⟨⟨h1, e, h2⟩, _⟩
      · simp [h1, h2, hmk]
      · simp [h1, h2]
    have hfault : Faulted d.log d.outcome → (Ev.unlocked ∈ d.log ↔ d.outcome = .ok .unlock) := by
      rintro ⟨h1, e, h2⟩; simp [h1, h2]
    have href : Refused d.log d.outcome → (Ev.unlocked ∈ d.log ↔ d.outcome = .ok .unlock) := by
      rintro ⟨h1, e, h2⟩; simp [h1, h2]
    have hlock : ∀ {s : Bool}, (d.log = [] ∧ d.outcome = .error "KeystoreLocked" ∧ s = false) →
        (Ev.unlocked ∈ d.log ↔ d.outcome = .ok .unlock) := by
      rintro s ⟨h1, h2, _⟩; simp [h1, h2]
    have hofopt : ∀ {α : Type} {e : String} {o : Option α} {f : α → Resp}, (∀ a, f a ≠ .unlock) →
        (Res.ofOption e o).map f ≠ .ok .unlock := by
      intro α e o f hf h
      cases o with
      | none => simp [Res.ofOption, Except.map] at h
      | some a => simp [Res.ofOption, Except.map] at h; exact hf _ h
    have hmap : ∀ {α : Type} {o : Res α} {f : α → Resp}, (∀ a, f a ≠ .unlock) → o.map f ≠ .ok .unlock := by
      intro α o f hf h
      cases o with
      | error e => simp [Except.map] at h
      | ok a => simp [Except.map] at h; exact hf _ h
    have hfin : d.log = [] → d.outcome ≠ .ok .unlock → (Ev.unlocked ∈ d.log ↔ d.outcome = .ok .unlock) := by
      intro h1 h2; simp [h1, h2]
    cases r with
    | hello => obtain ⟨h1, h2⟩ := hs; simp [h1, h2]
    | unlock p =>
      rcases hs with ⟨h1, h2, _⟩ | ⟨h, _⟩ | h
      · simp [h1, h2]
      · exact href h
      · exact hfault h
    | getEntry t =>
      rcases hs with h | ⟨_, h | h⟩
      · exact hlock h
      · exact hfault h
      · rcases h with ⟨h, _⟩ | ⟨h1, e, _, _, h2⟩
        · exact href h
        · simp [h1, h2]
    | listEntries =>
      rcases hs with h | ⟨_, h | ⟨h1, _, _, _, _, _, _, h2⟩⟩
      · exact hlock h
      · exact hfault h
      · simp [h1, h2]
    | newSeed t dp x =>
      rcases hs with h | ⟨_, h | ⟨h, _⟩ | ⟨seed, h⟩⟩
      · exact hlock h
      · exact hfault h
      · exact href h
      · exact hcreate h (by simp)
    | exportSeed t a b dp =>
      rcases hs with h | ⟨_, h | ⟨h, _⟩ | ⟨h1, sf, ef, n, _, _, _, _, h2⟩⟩
      · exact hlock h
      · exact hfault h
      · exact href h
      · refine hfin h1 ?_
        rw [h2]
        unfold exportOut
        split
        · split
          · simp
          · split <;> simp
        · simp
    | importSeed a b dp n ci t x =>
      rcases hs with h | ⟨_, h | ⟨h, _⟩ | ⟨f, _, _, ⟨h, _⟩ | ⟨xSk, seed, _, _, _, h⟩⟩⟩
      · exact hlock h
      · exact hfault h
      · exact href h
      · exact href h
      · exact hcreate h (by simp)
    | deriveSeed a sd b dd path =>
      rcases hs with h | ⟨_, h | ⟨h, _⟩ | ⟨e, _, _, ⟨h, _⟩ | ⟨seed, info, _, h, _⟩⟩⟩
      · exact hlock h
      · exact hfault h
      · exact href h
      · exact href h
      · exact hcreate h (by simp)
    | sign pk dp data =>
      rcases hs with h | ⟨_, h | ⟨h1, f, _, _, h2⟩ | ⟨_, h, _⟩ | ⟨_, a, h1, h2, _⟩ | ⟨_, a, h1, h2⟩⟩
      · exact hlock h
      · exact hfault h
      · exact hfin h1 (by rw [h2]; exact hmap (by simp))
      · exact href h
      · have : d.outcome ≠ .ok .unlock := by rw [h2]; exact hmap (by simp)
        simp [h1, this]
      · have : d.outcome ≠ .ok .unlock := by rw [h2]; exact hmap (by simp)
        simp [h1, this]
    | boxEnc a b dp data =>
      rcases hs with h | ⟨_, h | ⟨h, _⟩ | ⟨h1, f, n, _, _, h2⟩⟩
      · exact hlock h
      · exact hfault h
      · exact href h
      · refine hfin h1 ?_
        rw [h2]; split
        · simp
        · exact hofopt (by simp)
    | boxDec a b dp n ci =>
      rcases hs with h | ⟨_, h | ⟨h, _⟩ | ⟨h1, f, _, _, h2⟩⟩
      · exact hlock h
      · exact hfault h
      · exact href h
      · refine hfin h1 ?_
        rw [h2]; split
        · simp
        · split
          · simp
          · exact hofopt (by simp)
    | boxEncEd a b dp data =>
      rcases hs with h | ⟨_, h | ⟨h, _⟩ | ⟨h1, f, n, _, _, h2⟩⟩
      · exact hlock h
      · exact hfault h
      · exact href h
      · refine hfin h1 ?_
        rw [h2]; split
        · simp
        · split
          · simp
          · exact hofopt (by simp)
    | boxDecEd a b dp n ci =>
      rcases hs with h | ⟨_, h | ⟨h, _⟩ | ⟨h1, f, _, _, h2⟩⟩
      · exact hlock h
      · exact hfault h
      · exact href h
      · refine hfin h1 ?_
        rw [h2]; split
        · simp
        · split
          · simp
          · split
            · simp
            · exact hofopt (by simp)
    | newCert t =>
      rcases hs with h | ⟨_, h | ⟨n, hdr, ⟨h1, h2, _⟩ | ⟨h, _⟩⟩⟩
      · exact hlock h
      · exact hfault h
      · simp [h1, h2]
      · exact href h
    | getCertKey t =>
      rcases hs with h | ⟨_, h | ⟨h, _⟩ | ⟨h1, e, _, _, h2⟩⟩
      · exact hlock h
      · exact hfault h
      · exact href h
      · refine hfin h1 ?_
        split at h2
        · obtain ⟨k, hdr, _, h2⟩ := h2; simp [h2]
        · simp [h2]
    | sboxEnc t dp data =>
      rcases hs with h | ⟨_, h | ⟨h, _⟩ | ⟨h1, f, n, _, _, h2⟩⟩
      · exact hlock h
      · exact hfault h
      · exact href h
      · refine hfin h1 ?_
        rw [h2]; split <;> simp
    | sboxDec t dp n ci =>
      rcases hs with h | ⟨_, h | ⟨h, _⟩ | ⟨h1, f, _, _, h2⟩⟩
      · exact hlock h
      · exact hfault h
      · exact href h
      · refine hfin h1 ?_
        rw [h2]; split
        · simp
        · split
          · simp
          · exact hofopt (by simp)

/-! ### C03 -/

/-- A successful outcome is of the kind that belongs to the request. -/
theorem hspec_answers {c : Nat} {s₀ s₁ : Shared E} {l : List Ev} {o : Res Resp} {i : String} {r : Req}
    (h : HSpec c s₀ s₁ l o (.req i r)) (x : Resp) (ho : o = .ok x) : Answers r x := by
  have hcreate : ∀ {seed t dp ex mk sr}, CreateSpec c s₀ s₁ l o seed t dp ex mk sr → ∃ y, x = mk y := by
    intro seed t dp ex mk sr h
    rcases h with ⟨e, _, h1, h2, _⟩ | ⟨⟨h1, e, h2⟩, _⟩
    · rw [h2] at ho; cases ho; exact ⟨_, rfl⟩
    · rw [h2] at ho; cases ho
  have hfault : ¬ Faulted l o := by rintro ⟨h1, e, h2⟩; rw [h2] at ho; cases ho
  have href : ¬ Refused l o := by rintro ⟨h1, e, h2⟩; rw [h2] at ho; cases ho
  have hlock : ∀ {s : Bool}, ¬ (l = [] ∧ o = .error "KeystoreLocked" ∧ s = false) := by
    rintro s ⟨_, h2, _⟩; rw [h2] at ho; cases ho
  have hmap : ∀ {α : Type} {o' : Res α} {f : α → Resp}, o = o'.map f → ∃ y, x = f y := by
    intro α o' f h
    rw [h] at ho
    cases o' with
    | error e => simp [Except.map] at ho
    | ok a => simp [Except.map] at ho; exact ⟨a, ho.symm⟩
  cases r with
  | hello => obtain ⟨_, h2⟩ := h; rw [h2] at ho; cases ho; trivial
  | unlock p =>
    rcases h with ⟨h1, h2, _⟩ | ⟨h, _⟩ | h
    · rw [h2] at ho; cases ho; trivial
    · exact absurd h href
    · exact absurd h hfault
  | getEntry t =>
    rcases h with h | ⟨_, h | ⟨h, _⟩ | ⟨h1, e, _, _, h2⟩⟩
    · exact absurd h hlock
    · exact absurd h hfault
    · exact absurd h href
    · rw [h2] at ho; cases ho; trivial
  | listEntries =>
    rcases h with h | ⟨_, h | ⟨h1, _, _, _, _, _, _, h2⟩⟩
    · exact absurd h hlock
    · exact absurd h hfault
    · rw [h2] at ho; cases ho; trivial
  | newSeed t dp ex =>
    rcases h with h | ⟨_, h | ⟨h, _⟩ | ⟨seed, h⟩⟩
    · exact absurd h hlock
    · exact absurd h hfault
    · exact absurd h href
    · obtain ⟨y, rfl⟩ := hcreate h; trivial
  | exportSeed t a b dp =>
    rcases h with h | ⟨_, h | ⟨h, _⟩ | ⟨h1, sf, ef, n, _, _, _, _, h2⟩⟩
    · exact absurd h hlock
    · exact absurd h hfault
    · exact absurd h href
    · rw [h2] at ho
      unfold exportOut at ho
      split at ho
      · split at ho
        · cases ho
        · split at ho
          · cases ho; trivial
          · cases ho
      · cases ho
  | importSeed a b dp n ci t ex =>
    rcases h with h | ⟨_, h | ⟨h, _⟩ | ⟨f, _, _, ⟨h, _⟩ | ⟨xSk, seed, _, _, _, h⟩⟩⟩
    · exact absurd h hlock
    · exact absurd h hfault
    · exact absurd h href
    · exact absurd h href
    · obtain ⟨y, rfl⟩ := hcreate h; trivial
  | deriveSeed a sd b dd path =>
    rcases h with h | ⟨_, h | ⟨h, _⟩ | ⟨e, _, _, ⟨h, _⟩ | ⟨seed, info, _, h, _⟩⟩⟩
    · exact absurd h hlock
    · exact absurd h hfault
    · exact absurd h href
    · exact absurd h href
    · obtain ⟨y, rfl⟩ := hcreate h; trivial
  | sign pk dp data =>
    rcases h with h | ⟨_, h | ⟨h1, f, _, _, h2⟩ | ⟨_, h, _⟩ | ⟨_, a, h1, h2, _⟩ | ⟨_, a, h1, h2⟩⟩
    · exact absurd h hlock
    · exact absurd h hfault
    · obtain ⟨y, rfl⟩ := hmap h2; trivial
    · exact absurd h href
    · obtain ⟨y, rfl⟩ := hmap h2; trivial
    · obtain ⟨y, rfl⟩ := hmap h2; trivial
  | boxEnc a b dp data =>
    rcases h with h | ⟨_, h | ⟨h, _⟩ | ⟨h1, f, n, _, _, h2⟩⟩
    · exact absurd h hlock
    · exact absurd h hfault
    · exact absurd h href
    · split at h2
      · rw [h2] at ho; cases ho
      · obtain ⟨y, rfl⟩ := hmap h2; trivial
  | boxDec a b dp n ci =>
    rcases h with h | ⟨_, h | ⟨h, _⟩ | ⟨h1, f, _, _, h2⟩⟩
    · exact absurd h hlock
    · exact absurd h hfault
    · exact absurd h href
    · split at h2
      · rw [h2] at ho; cases ho
      · split at h2
        · rw [h2] at ho; cases ho
        · obtain ⟨y, rfl⟩ := hmap h2; trivial
  | boxEncEd a b dp data =>
    rcases h with h | ⟨_, h | ⟨h, _⟩ | ⟨h1, f, n, _, _, h2⟩⟩
    · exact absurd h hlock
    · exact absurd h hfault
    · exact absurd h href
    · split at h2
      · rw [h2] at ho; cases ho
      · split at h2
        · rw [h2] at ho; cases ho
        · obtain ⟨y, rfl⟩ := hmap h2; trivial
  | boxDecEd a b dp n ci =>
    rcases h with h | ⟨_, h | ⟨h, _⟩ | ⟨h1, f, _, _, h2⟩⟩
    · exact absurd h hlock
    · exact absurd h hfault
    · exact absurd h href
    · split at h2
      · rw [h2] at ho; cases ho
      · split at h2
        · rw [h2] at ho; cases ho
        · split at h2
          · rw [h2] at ho; cases ho
          · obtain ⟨y, rfl⟩ := hmap h2; trivial
  | newCert t =>
    rcases h with h | ⟨_, h | ⟨n, hdr, ⟨h1, h2, _⟩ | ⟨h, _⟩⟩⟩
    · exact absurd h hlock
    · exact absurd h hfault
    · rw [h2] at ho; cases ho; trivial
    · exact absurd h href
  | getCertKey t =>
    rcases h with h | ⟨_, h | ⟨h, _⟩ | ⟨h1, e, _, _, h2⟩⟩
    · exact absurd h hlock
    · exact absurd h hfault
    · exact absurd h href
    · split at h2
      · obtain ⟨k, hdr, _, h2⟩ := h2; rw [h2] at ho; cases ho; trivial
      · rw [h2] at ho; cases ho
  | sboxEnc t dp data =>
    rcases h with h | ⟨_, h | ⟨h, _⟩ | ⟨h1, f, n, _, _, h2⟩⟩
    · exact absurd h hlock
    · exact absurd h hfault
    · exact absurd h href
    · split at h2
      · rw [h2] at ho; cases ho
      · rw [h2] at ho; cases ho; trivial
  | sboxDec t dp n ci =>
    rcases h with h | ⟨_, h | ⟨h, _⟩ | ⟨h1, f, _, _, h2⟩⟩
    · exact absurd h hlock
    · exact absurd h hfault
    · exact absurd h href
    · split at h2
      · rw [h2] at ho; cases ho
      · split at h2
        · rw [h2] at ho; cases ho
        · obtain ⟨y, rfl⟩ := hmap h2; trivial

/-- C03. Everything the server ever sends answers a message it received: it goes to the connection that message came
    from, carries its id, and is the response kind paired with that request, or an error. -/
theorem C03_replies_match_requests (hst : GoodStore E st) (evs : List Event) (k c : Nat) (m' : Msg)
    (h : (k, c, m') ∈ (Sys.run E st evs).sent) :
    ∃ m r, (Sys.run E st evs).inbox[k]? = some (c, m) ∧ m' = .res m.id r ∧
      (r.IsError ∨ ∃ i q, m = .req i q ∧ Answers q r) := by
  obtain ⟨d, hd, hm⟩ := List.mem_flatMap.1 h
  obtain ⟨r, hr, he⟩ := List.mem_map.1 hm
  cases he
  have hbox := ((idInv_run st evs).done d hd).1
  refine ⟨d.msg, r, hbox, rfl, ?_⟩
  rw [done_wire hst hd] at hr
  rcases mem_deliver hr with ho | he
  · right
    have hs := done_spec hst hd
    cases hmsg : d.msg with
    | res i x => rw [hmsg] at hs; rw [hs.2] at ho; cases ho
    | req i q => rw [hmsg] at hs; exact ⟨i, q, rfl, hspec_answers hs r ho⟩
  · exact Or.inl he

/-- C03. No message is answered twice. -/
theorem C03_at_most_one_reply (hst : GoodStore E st) (evs : List Event) :
    ((Sys.run E st evs).sent.map Prod.fst).Nodup := by
  have hi := idInv_run (E := E) st evs
  have hnd : ((Sys.run E st evs).threads.map Thread.id ++ (Sys.run E st evs).done.map Done.id ++
      (Sys.run E st evs).dropped).Nodup := hi.perm.nodup_iff.2 List.nodup_range
  have hdn : ((Sys.run E st evs).done.map Done.id).Nodup := (List.nodup_append.1 (List.nodup_append.1 hnd).1).2.1
  -- restrict to records whose wire is what `deliver` gives
  have key : ∀ l : List (Done E), (∀ d ∈ l, d.wire.length ≤ 1) → (l.map Done.id).Nodup →
      ((l.flatMap (fun d => d.wire.map (fun r => (d.id, d.conn, Msg.res d.msg.id r)))).map Prod.fst).Nodup := by
    intro l
    induction l with
    | nil => simp
    | cons a as ih =>
      intro hl hn
      simp only [List.map_cons, List.nodup_cons] at hn
      simp only [List.flatMap_cons, List.map_append]
      rw [List.nodup_append]
      refine ⟨?_, ih (fun d hd => hl d (by simp [hd])) hn.2, ?_⟩
      · have h := hl a (by simp)
        match hfa : a.wire with
        | [] => simp
        | [b] => simp
        | b :: b' :: bs => rw [hfa] at h; simp at h
      · intro x hx y hy hxy
        obtain ⟨px, hpx, rfl⟩ := List.mem_map.1 hx
        obtain ⟨r, _, rfl⟩ := List.mem_map.1 hpx
        obtain ⟨py, hpy, rfl⟩ := List.mem_map.1 hy
        obtain ⟨d, hd, hpy⟩ := List.mem_flatMap.1 hpy
        obtain ⟨r', _, rfl⟩ := List.mem_map.1 hpy
        simp only at hxy
        exact hn.1 (by rw [hxy]; exact List.mem_map.2 ⟨d, hd, rfl⟩)
  refine key _ ?_ hdn
  intro d hd
  rw [done_wire hst hd]
  exact deliver_length _ _

/-- C03 (partial). A finished request has been answered by exactly one message, provided the error texts the server
    may have to send for it fit a frame. Missing from the full statement: without that proviso it is false, see
    `C03_reply_can_be_missing`. -/
theorem C03_exactly_one_reply_partial (hst : GoodStore E st) (evs : List Event) (d : Done E)
    (hd : d ∈ (Sys.run E st evs).done)
    (h1 : ∀ e, d.outcome = .error e → sendable (.res d.msg.id (.error e)) = true)
    (h2 : ∀ r, d.outcome = .ok r → sendable (.res d.msg.id r) = true ∨
      sendable (.res d.msg.id (.error "FrameOverflow")) = true) : d.wire.length = 1 := by
  rw [done_wire hst hd]
  cases ho : d.outcome with
  | ok r =>
    simp only [deliver]
    rcases h2 r ho with h | h
    · simp [h]
    · by_cases hx : sendable (.res d.msg.id r) = true
      · simp [hx]
      · simp [hx, deliverErr, h]
  | error e => simp [deliver, deliverErr, h1 e ho]

/-- C03. Every received message is always in exactly one of three situations: in flight, finished, or abandoned because
    the server went down. -/
theorem C03_no_request_lost (evs : List Event) :
    let s := Sys.run E st evs
    (s.threads.map Thread.id ++ s.done.map Done.id ++ s.dropped).Perm (List.range s.inbox.length) :=
  (idInv_run (E := E) st evs).perm

/-- C03. A request takes at most 17 steps of its own, whatever others do in between. -/
theorem C03_bounded_work (evs₁ evs₂ : List Event) (c : Nat) (m : Msg) :
    Sys.steps (Sys.run E st evs₁).inbox.length (Sys.run E st (evs₁ ++ [.recv c m])) evs₂ ≤ 17 := by
  have hi₁ := idInv_run (E := E) st (evs₁ ++ [.recv c m])
  have hs₁ : Sys.run E st (evs₁ ++ [.recv c m]) = (Sys.run E st evs₁).step (.recv c m) := by simp [run_append]
  have hlen : (Sys.run E st evs₁).inbox.length < (Sys.run E st (evs₁ ++ [.recv c m])).inbox.length := by
    rw [hs₁]; simp [Sys.step]
  refine steps_le evs₂ _ 16 hi₁ hlen ?_
  intro t ht hid
  rw [hs₁] at ht
  rcases List.mem_append.1 ht with ht | ht
  · exfalso
    have := (List.getElem?_eq_some_iff.1 ((idInv_run (E := E) st evs₁).threads t ht).1).1
    omega
  · simp at ht; subst ht; exact within_handle c m

/-- C03. Nothing a request waits for can block it: from every reachable state, stepping a request in flight at most 17
    times finishes it, whatever the environment chooses. -/
theorem C03_request_can_finish (evs : List Event) (i : Nat) (t : Thread E)
    (ht : (Sys.run E st evs).threads[i]? = some t) (chs : Nat → Choice) :
    ∃ j ≤ 17, ∃ d ∈ (Sys.run E st (evs ++ (List.range j).map (fun n => .step i (chs n)))).done,
      d.id = t.id ∧ d.conn = t.conn ∧ d.msg = t.msg := by
  have hw : t.prog.Within 16 := within_run (E := E) st evs t (List.mem_of_getElem? ht)
  obtain ⟨j, hj, d, hd, h⟩ := finish_alone 16 (Sys.run E st evs) i t ht hw chs 0
  refine ⟨j, hj, d, ?_, h⟩
  rw [run_append]
  simpa using hd

/-- C03, the negative part. Replies can be missing: a `Hello` whose id has between 8145 and 8151 bytes fits a frame, but
    neither its response nor the error message for that fits, so it is never answered (the failure is only logged). -/
theorem C03_reply_can_be_missing (n : Nat) (h1 : 8145 ≤ n) (h2 : n ≤ 8151) :
    sendable (.req (Codec.letters n) .hello) = true ∧
    ∃ d : Done E, (Sys.run E st [.recv 0 (.req (Codec.letters n) .hello), .step 0 (Ex.calm 0)]).done = [d] ∧
      d.msg = .req (Codec.letters n) .hello ∧ d.wire = [] := by
  have hl : (Mp.encStr (Codec.letters n)).length = n + 3 := by
    rw [Codec.encStr_len, Codec.utf8_letters]
    simp only [Codec.strHdr]
    rw [if_neg (by omega), if_neg (by omega), if_pos (by omega)]
    omega
  have hfo : (Mp.encStr "FrameOverflow").length = 14 := by decide +kernel
  refine ⟨?_, _, rfl, rfl, ?_⟩
  · simp only [sendable, decide_eq_true_eq, Codec.len_hello, hl]; omega
  · have a := Codec.len_resHello (Codec.letters n) E.name E.version E.idPk
    have b := Codec.len_error (Codec.letters n) "FrameOverflow"
    have c1 : sendable (.res (Codec.letters n) (.hello E.name E.version E.idPk)) = false := by
      simp only [sendable, decide_eq_false_iff_not]; omega
    have c2 : sendable (.res (Codec.letters n) (.error "FrameOverflow")) = false := by
      simp only [sendable, decide_eq_false_iff_not]; omega
    simp [deliver, deliverErr, Msg.id, c1, c2]

/-! ### C04 -/

/-- C04. A message that is not a request has no effect, and its handler's outcome is an error; only an error with its id
    is ever sent for it - whether or not the connection is unlocked. -/
theorem C04_non_requests_refused (hst : GoodStore E st) (evs : List Event) (d : Done E)
    (hd : d ∈ (Sys.run E st evs).done) (i : String) (r : Resp) (hm : d.msg = .res i r) :
    (∃ e, d.outcome = .error e) ∧ (Sys.run E st evs).effects d.id = [] ∧ (∀ x ∈ d.wire, x.IsError) ∧
      d.wire.length ≤ 1 := by
  have hs := done_spec hst hd
  have hw := done_wire hst hd
  rw [hm] at hs
  refine ⟨⟨_, hs.2⟩, by rw [← log_eq hd, hs.1], ?_, by rw [hw]; exact deliver_length _ _⟩
  intro x hx
  rw [hw, hs.2] at hx
  rcases mem_deliver hx with h | h
  · cases h
  · exact h

/-- C04. Receiving it, and every step of handling it, leaves the shared state (store, caches, lock flags) as it is. -/
theorem C04_non_requests_change_nothing (evs : List Event) (k : Nat) (ch : Choice) (t : Thread E)
    (i : String) (r : Resp) (ht : (Sys.run E st evs).threads[k]? = some t) (hm : t.msg = .res i r) :
    (Sys.run E st (evs ++ [.step k ch])).sh = (Sys.run E st evs).sh := by
  have hs : Sys.run E st (evs ++ [.step k ch]) = (Sys.run E st evs).step (.step k ch) := by simp [run_append]
  rw [hs]
  -- the program of such a thread is a failure
  have key : ∀ (evs : List Event) (s : Sys E), (∀ t ∈ s.threads, ∀ i r, t.msg = .res i r → ∃ e, t.prog = .fail e) →
      ∀ t ∈ (evs.foldl Sys.step s).threads, ∀ i r, t.msg = .res i r → ∃ e, t.prog = .fail e := by
    intro evs
    induction evs with
    | nil => exact fun s h => h
    | cons ev evs ih =>
      intro s h
      refine ih _ ?_
      cases ev with
      | recv c m =>
        intro t ht
        rcases List.mem_append.1 ht with ht | ht
        · exact h t ht
        · simp at ht; subst ht
          intro i r hm
          simp at hm; subst hm
          exact ⟨_, rfl⟩
      | restart => intro t ht; simp [Sys.step] at ht
      | step j ch =>
        cases hti : s.threads[j]? with
        | none => rw [step_none s j ch hti]; exact h
        | some t =>
          have htm : t ∈ s.threads := List.mem_of_getElem? hti
          cases hp : t.prog with
          | ret r => rw [step_ret s j ch t r hti hp]; exact fun t' ht' => h t' (List.mem_of_mem_eraseIdx ht')
          | fail e => rw [step_fail s j ch t e hti hp]; exact fun t' ht' => h t' (List.mem_of_mem_eraseIdx ht')
          | step a kk =>
            rw [step_act s j ch t a kk hti hp]
            intro t' ht'
            rcases List.mem_or_eq_of_mem_set ht' with ht' | rfl
            · exact h t' ht'
            · intro i r hm
              obtain ⟨e, he⟩ := h t htm i r hm
              rw [hp] at he; cases he
  obtain ⟨e, he⟩ := key evs (Sys.init E st) (by simp [Sys.init]) t (List.mem_of_getElem? ht) i r hm
  rw [step_fail _ k ch t e ht he]
  rfl

/-- C04 (partial). The error is delivered when it fits a frame. Missing: the error text quotes the whole message, so for
    long messages it does not fit and nothing is sent, see `C04_refusal_can_be_silent`. -/
theorem C04_refusal_is_sent_partial (hst : GoodStore E st) (evs : List Event) (d : Done E)
    (hd : d ∈ (Sys.run E st evs).done) (i : String) (r : Resp) (hm : d.msg = .res i r)
    (hfit : sendable (.res i (.error ("invalid request: " ++ E.debugFmt (.res i r)))) = true) :
    d.wire = [.error ("invalid request: " ++ E.debugFmt (.res i r))] := by
  have hs := done_spec hst hd
  rw [hm] at hs
  rw [done_wire hst hd, hs.2, hm]
  simp [deliver, deliverErr, Msg.id, hfit]

/-- C04, the negative part: if the rendering of the message is longer than a frame, there is no reply at all. -/
theorem C04_refusal_can_be_silent (i : String) (r : Resp)
    (hlong : 8200 ≤ (Mp.utf8 (E.debugFmt (.res i r))).length) :
    ∃ d : Done E, (Sys.run E st [.recv 0 (.res i r), .step 0 (Ex.calm 0)]).done = [d] ∧ d.wire = [] := by
  refine ⟨_, rfl, ?_⟩
  have b := Codec.len_error i ("invalid request: " ++ E.debugFmt (.res i r))
  have h2 := Codec.encStr_len ("invalid request: " ++ E.debugFmt (.res i r))
  have h3 : (Mp.utf8 (E.debugFmt (.res i r))).length ≤ (Mp.utf8 ("invalid request: " ++ E.debugFmt (.res i r))).length := by
    simp [Mp.utf8]
  have c2 : sendable (.res i (.error ("invalid request: " ++ E.debugFmt (.res i r)))) = false := by
    simp only [sendable, decide_eq_false_iff_not]; omega
  simp [deliver, deliverErr, Msg.id, c2]

/-! ### Concrete cases -/

section Examples
open Ex

/-- C01: a locked connection is refused although another one is unlocked; its request was in flight during the unlock
    of the other one. -/
example : outcomes true 2 ([.recv 1 (.req "x" (.newSeed "bob" none true))] ++
      [.recv 0 (.req "u" (.unlock (sent 0 pass)))] ++ List.replicate 5 (.step 1 (calm 0)) ++
      List.replicate 24 (.step 0 (calm 0)) ++ serve 0 (.req "y" (.newSeed "bob" none true)) 3) =
    [.ok .unlock, .error "KeystoreLocked", .ok (.newSeed "bob" ⟨B.fill 32 3, B.fill 32 3, true⟩)] := by decide +kernel

/-- The premise of `C01_locked_request_refused` and of `C01_locked_step_changes_nothing` occurs. -/
example : (Sys.run (env true 2) MemStore.empty (unlock 0 ++ serve 1 (.req "x" .listEntries) 0)).done.map
      (fun d => (d.conn, d.stop.unlocked d.conn, d.stop.unlocked 0)) = [(0, true, true), (1, false, true)] := by
  decide +kernel

/-- C02: wrong passphrase, right passphrase, passphrase encrypted for another connection. -/
example : outcomes true 2 (serve 0 (.req "u" (.unlock (sent 0 (B.fill 64 8)))) 0 ++ unlock 0 ++
      serve 1 (.req "u" (.unlock (sent 0 pass))) 0) =
    [.error "decrypt error", .ok .unlock, .error "decrypt error"] := by decide +kernel

example : RightPassphrase (env true 2) 0 (sent 0 pass) :=
  (rightPassphrase_iff _ _).1 (by decide +kernel)

example : ¬ RightPassphrase (env true 2) 0 (sent 0 (B.fill 64 8)) := by
  rw [← rightPassphrase_iff]; decide +kernel

example : sendable (.req "u" (.unlock (sent 0 pass))) = true := by decide +kernel

/-- C03: all kinds of replies carry the id and connection of their request. -/
example : (Sys.run (env true 2) MemStore.empty (unlock 0 ++ serve 3 (.req "h" .hello) 0 ++
      serve 0 (.req "x" .listEntries) 0 ++ serve 0 (.res "r" .unlock) 0)).sent =
    [(0, 0, .res "u" .unlock), (1, 3, .res "h" (.hello "lair" "0.6" idSeed)), (2, 0, .res "x" (.listEntries [])),
      (3, 0, .res "r" (.error "invalid request: message"))] := by decide +kernel

/-- C03: a request of several steps, interleaved with another one; both finish. -/
example : (Sys.run (env true 2) MemStore.empty (unlock 0 ++ [.recv 0 (.req "x" (.newSeed "a" none true)),
      .recv 0 (.req "y" (.newSeed "a" none true))] ++ (List.replicate 24 [.step 0 (calm 1), .step 1 (calm 2)]).flatten)).done.map
        (fun d => (d.id, d.outcome)) =
    [(0, .ok .unlock), (1, .ok (.newSeed "a" ⟨B.fill 32 1, B.fill 32 1, true⟩)), (2, .error "tag already registered")] := by
  decide +kernel

/-- Hypotheses of the partial theorems hold of ordinary messages. -/
example : sendable (.res "abc" (.error "FrameOverflow")) = true ∧ sendable (.res "abc" (.error "tag not found")) = true ∧
    sendable (.res "r" (.error ("invalid request: " ++ (env true 2).debugFmt (.res "r" .unlock)))) = true := by
  decide +kernel

/-- The premise of `C04_refusal_can_be_silent` occurs: a long message with a faithful rendering. -/
example : 8200 ≤ (Mp.utf8 (Codec.letters 8200)).length := by rw [Codec.utf8_letters]; omega

end Examples

end Lair
