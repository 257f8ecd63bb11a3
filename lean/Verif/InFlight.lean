import Verif.FineWorld

/- Requests in flight on a connection: what is where (used for C86). -/
namespace Lair

variable {S : SStream} {E : Env}

/-! ### One direction -/

/-- How one event can change the phase of a call. Proof device: nothing in the code corresponds. -/
inductive SMove (e : SEv) (k : Nat) (m : Option Msg) : SPhase → SPhase → Prop where
  | same {ph} : SMove e k m ph ph
  | taken : SMove e k m .waiting .taken
  | panicked : SMove e k m .waiting .panicked
  | push {m' b} : m = some m' → e = .push k → SMove e k m .taken (.writing b)
  | failed {ph er} : SMove e k m ph (.done (.error er))
  | shut : m = none → SMove e k m .taken (.done (.ok ()))
  | write {r r'} : SMove e k m (.writing r) (.writing r')
  | wrote {r} : SMove e k m (.writing r) (.done (.ok ()))
  | drop {ph b} : e = .drop k → SMove e k m ph (.dropped b)

theorem SndSt.step_move (s : SndSt S) (e : SEv) {k : Nat} {m : Option Msg} {ph : SPhase} (h : s.calls[k]? = some ⟨m, ph⟩) :
    ∃ ph', (s.step e).calls[k]? = some ⟨m, ph'⟩ ∧ SMove e k m ph ph' := by
  have hset : ∀ (t : SndSt S) (j : Nat) (p : SPhase), t.calls = s.calls → (j = k → SMove e k m ph p) →
      ∃ ph', (t.set j p).calls[k]? = some ⟨m, ph'⟩ ∧ SMove e k m ph ph' := by
    intro t j p ht hp
    rw [← ht] at h
    refine ⟨_, t.set_call j p h, ?_⟩
    split
    · exact hp ‹_›
    · exact .same
  have hrel : ∀ (t : SndSt S) (j : Nat) (r : Res Unit), t.calls = s.calls → (j = k → SMove e k m ph (.done r)) →
      ∃ ph', (t.release j r).calls[k]? = some ⟨m, ph'⟩ ∧ SMove e k m ph ph' :=
    fun t j r ht hp => hset t j (.done r) ht hp
  have same : ∃ ph', s.calls[k]? = some ⟨m, ph'⟩ ∧ SMove e k m ph ph' := ⟨ph, h, .same⟩
  have at_ : ∀ {j : Nat} {c : SCall}, s.calls[j]? = some c → j = k → c.msg = m ∧ c.phase = ph := by
    intro j c hj hjk
    subst hjk
    rw [h] at hj; cases hj; exact ⟨rfl, rfl⟩
  cases e with
  | call x =>
    refine ⟨ph, ?_, .same⟩
    show (s.calls ++ [_])[k]? = _
    rw [List.getElem?_append_left (List.getElem?_eq_some_iff.mp h).1]; exact h
  | acquire j =>
    simp only [SndSt.step]
    split
    · rename_i hj
      split
      · exact same
      · split
        · refine hset s j .taken rfl (fun hjk => ?_)
          obtain ⟨-, h2⟩ := at_ hj hjk
          rw [← h2]; exact .taken
        · refine hset s j .panicked rfl (fun hjk => ?_)
          obtain ⟨-, h2⟩ := at_ hj hjk
          rw [← h2]; exact .panicked
    · exact same
  | push j =>
    simp only [SndSt.step]
    split
    · rename_i m' hj
      split
      · exact hrel _ j _ rfl (fun _ => .failed)
      · split
        · exact hrel _ j _ rfl (fun _ => .failed)
        · refine hset _ j _ rfl (fun hjk => ?_)
          obtain ⟨h1, h2⟩ := at_ hj hjk
          rw [← h2]; subst hjk; exact .push h1.symm rfl
    · rename_i hj
      refine hrel _ j _ rfl (fun hjk => ?_)
      obtain ⟨h1, h2⟩ := at_ hj hjk
      rw [← h2]; exact .shut h1.symm
    · exact same
  | write j n =>
    simp only [SndSt.step]
    split
    · rename_i r hj
      split
      · refine hrel _ j _ rfl (fun hjk => ?_)
        obtain ⟨h1, h2⟩ := at_ hj hjk
        rw [← h2]; exact .wrote
      · refine hset _ j _ rfl (fun hjk => ?_)
        obtain ⟨h1, h2⟩ := at_ hj hjk
        rw [← h2]; exact .write
    · exact same
  | ioErr j =>
    simp only [SndSt.step]
    split
    · exact hrel _ j _ rfl (fun _ => .failed)
    · exact hrel _ j _ rfl (fun _ => .failed)
    · exact same
  | drop j =>
    simp only [SndSt.step]
    split
    · exact hset _ j _ rfl (fun hjk => by subst hjk; exact .drop rfl)
    · exact hset s j (.dropped true) rfl (fun hjk => by subst hjk; exact .drop rfl)
    · exact hset s j (.dropped true) rfl (fun hjk => by subst hjk; exact .drop rfl)
    · exact same

/-- What has been written, or is being written, was encrypted. Proof device: nothing in the code corresponds. -/
def Pushed (l : Link S) : Prop := ∀ (j : Nat) (m : Msg) (ph : SPhase), l.snd.calls[j]? = some ⟨some m, ph⟩ →
  (ph = .done (.ok ()) ∨ ∃ r, ph = .writing r) → (j, m) ∈ l.pushed

theorem Pushed.init (s : S.St) : Pushed (Link.init s) := by
  intro j m ph h; simp [Link.init, SndSt.init] at h

theorem Pushed.send {l : Link S} (h : Pushed l) (e : SEv) : Pushed (l.send e) := by
  intro j m ph hj hp
  show (j, m) ∈ l.pushed ++ l.snd.pushing e
  rcases l.snd.call_of_step e hj with ⟨ph0, h0⟩ | ⟨rfl, rfl⟩
  · obtain ⟨ph', h1, hm⟩ := l.snd.step_move e h0
    have : ph' = ph := by
      have hj' : (l.snd.step e).calls[j]? = some ⟨some m, ph⟩ := hj
      rw [h1] at hj'; cases hj'; rfl
    subst this
    cases hm with
    | same => exact List.mem_append_left _ (h j m _ h0 hp)
    | taken => rcases hp with hp | ⟨r, hp⟩ <;> cases hp
    | panicked => rcases hp with hp | ⟨r, hp⟩ <;> cases hp
    | push hm he =>
      cases hm
      subst he
      refine List.mem_append_right _ ?_
      simp [SndSt.pushing, h0]
    | failed => rcases hp with hp | ⟨r, hp⟩ <;> cases hp
    | shut hm => cases hm
    | write => exact List.mem_append_left _ (h j m _ h0 (Or.inr ⟨_, rfl⟩))
    | wrote => exact List.mem_append_left _ (h j m _ h0 (Or.inr ⟨_, rfl⟩))
    | drop => rcases hp with hp | ⟨r, hp⟩ <;> cases hp
  · have hj' : (l.snd.calls ++ [⟨some m, .waiting⟩])[l.snd.calls.length]? = some ⟨some m, ph⟩ := hj
    rw [List.getElem?_append_right (Nat.le_refl _)] at hj'
    simp at hj'
    subst hj'
    rcases hp with hp | ⟨r, hp⟩ <;> cases hp

/-- A call nobody gives up is not given up. -/
theorem SndSt.step_kept (s : SndSt S) (e : SEv) {k : Nat} {m : Option Msg} {ph : SPhase} (h : s.calls[k]? = some ⟨m, ph⟩)
    (he : e ≠ .drop k) (hp : ∀ b, ph ≠ .dropped b) : ∃ ph', (s.step e).calls[k]? = some ⟨m, ph'⟩ ∧ ∀ b, ph' ≠ .dropped b := by
  obtain ⟨ph', h1, hm⟩ := s.step_move e h
  refine ⟨ph', h1, ?_⟩
  intro b hb
  subst hb
  cases hm with
  | same => exact hp b rfl
  | drop h => exact he h

/-! ### The client's table -/

/-- A request that runs on after an event ran before it, and what has become of its slot. -/
theorem Change.back {s : CliSt} {e : CEv} {k : Nat} {q q' : CReq} (h : Change s e k q q') (ha : q'.active) (he : e ≠ .connEnd)
    (hs : e ≠ .start q.id) (hid : ∀ j q2, j ≠ k → s.reqs[j]? = some q2 → q2.id ≠ q.id) :
    q.active ∧ q'.id = q.id ∧ (q'.slot = q.slot ∨ ∃ m, e = .arrive m ∧ q'.slot = .full m) := by
  cases h with
  | same => exact ⟨ha, rfl, Or.inl rfl⟩
  | dropped _ hc =>
    rcases hc with hc | hc | ⟨j, q2, h1, h2, h3⟩
    · exact absurd hc he
    · exact absurd hc hs
    · exact absurd h3 (hid j q2 h1 h2)
  | sent hp _ => exact ⟨Or.inl hp, rfl, Or.inl rfl⟩
  | got m he' _ _ => exact ⟨ha, rfl, Or.inr ⟨m, he', rfl⟩⟩
  | ended p sl _ h1 h2 _ _ _ _ _ _ _ => rcases ha with ha | ha <;> simp_all

theorem Change.active {s : CliSt} {e : CEv} {k : Nat} {q q' : CReq} (h : Change s e k q q') (ha : q'.active) : q.active := by
  cases h with
  | same => exact ha
  | dropped _ _ => exact ha
  | sent hp _ => exact Or.inl hp
  | got m _ _ _ => exact ha
  | ended p sl _ h1 h2 _ _ _ _ _ _ _ => rcases ha with ha | ha <;> simp_all

theorem cancel_inactive (s : CliSt) (k : Nat) {q : CReq} (h : (s.step (.cancel k)).reqs[k]? = some q) : ¬ q.active := by
  have hfin : ∀ id, (s.finish k id .cancelled).reqs[k]? = some q → ¬ q.active := by
    intro id h
    rw [finish_reqs] at h
    cases hk : s.reqs[k]? with
    | none => rw [hk] at h; simp at h
    | some q0 =>
      rw [hk] at h
      simp only [Option.map_some, Option.some.injEq, if_true] at h
      subst h
      intro ha
      split at ha
      · rcases ha with ha | ha <;> simp at ha
      · rcases ha with ha | ha <;> simp at ha
  simp only [CliSt.step] at h
  split at h
  · exact hfin _ h
  · exact hfin _ h
  · rename_i h1 h2
    intro ha
    obtain ⟨id, ph, sl⟩ := q
    rcases ha with ha | ha
    · cases ha; exact h1 _ _ h
    · cases ha; exact h2 _ _ h

/-! ### The server -/

theorem threads_after (s : Sys E) (i : Nat) (ch : Choice) : ∀ t ∈ s.threads,
    (∃ t' ∈ (s.step (.step i ch)).threads, t'.conn = t.conn ∧ t'.msg = t.msg) ∨
    ∃ d ∈ (s.step (.step i ch)).done, d.conn = t.conn ∧ d.msg = t.msg := by
  intro t ht
  obtain ⟨j, hj⟩ := List.mem_iff_getElem?.mp ht
  have hfin : ∀ (u : Thread E) (o : Res Resp), s.threads[i]? = some u →
      (∃ t' ∈ (s.finish i u o).threads, t'.conn = t.conn ∧ t'.msg = t.msg) ∨ ∃ d ∈ (s.finish i u o).done, d.conn = t.conn ∧ d.msg = t.msg := by
    intro u o hu
    by_cases hji : j = i
    · subst hji
      rw [hj] at hu; cases hu
      exact Or.inr ⟨_, List.mem_append_right _ (List.mem_singleton_self _), rfl, rfl⟩
    · exact Or.inl ⟨t, List.mem_eraseIdx_iff_getElem?.mpr ⟨j, hji, hj⟩, rfl, rfl⟩
  simp only [Sys.step]
  split
  · exact Or.inl ⟨t, ht, rfl, rfl⟩
  · rename_i u hu
    split
    · exact hfin u _ hu
    · exact hfin u _ hu
    · left
      by_cases hji : j = i
      · subst hji
        rw [hj] at hu; cases hu
        exact ⟨_, List.mem_set (List.getElem?_eq_some_iff.mp hj).1 _, rfl, rfl⟩
      · refine ⟨t, List.mem_iff_getElem?.mpr ⟨j, ?_⟩, rfl, rfl⟩
        simp only [Sys.perform]; rw [List.getElem?_set_ne (fun h => hji h.symm)]; exact hj

theorem done_after (s : Sys E) (i : Nat) (ch : Choice) : ∀ d ∈ (s.step (.step i ch)).done, d ∈ s.done ∨
    ∃ t o, s.threads[i]? = some t ∧ outcomeOf t.prog = some o ∧ d.conn = t.conn ∧ d.msg = t.msg ∧ d.outcome = o := by
  intro d hd
  simp only [Sys.step] at hd
  split at hd
  · exact Or.inl hd
  · rename_i t ht
    split at hd
    · rename_i r hp
      rcases List.mem_append.mp hd with hd | hd
      · exact Or.inl hd
      · cases List.mem_singleton.mp hd
        exact Or.inr ⟨t, .ok r, ht, by rw [hp]; rfl, rfl, rfl, rfl⟩
    · rename_i r hp
      rcases List.mem_append.mp hd with hd | hd
      · exact Or.inl hd
      · cases List.mem_singleton.mp hd
        exact Or.inr ⟨t, .error r, ht, by rw [hp]; rfl, rfl, rfl, rfl⟩
    · exact Or.inl hd

theorem done_born (s : Sys E) (i : Nat) (ch : Choice) {t : Thread E} {o : Res Resp} (ht : s.threads[i]? = some t) (ho : outcomeOf t.prog = some o) :
    ∃ d ∈ (s.step (.step i ch)).done, d.conn = t.conn ∧ d.msg = t.msg ∧ d.outcome = o := by
  simp only [Sys.step, ht]
  cases hp : t.prog with
  | ret r =>
    rw [hp] at ho; cases ho
    exact ⟨_, List.mem_append_right _ (List.mem_singleton_self _), rfl, rfl, rfl⟩
  | fail r =>
    rw [hp] at ho; cases ho
    exact ⟨_, List.mem_append_right _ (List.mem_singleton_self _), rfl, rfl, rfl⟩
  | step a k => rw [hp] at ho; cases ho

/-! ### What is where -/

/-- Where a request in flight, or its answer, is: with the sending half of the client; with the server, in a handler or handled;
    with the sending half of the server; in the client's table. Proof device: nothing in the code corresponds. -/
structure InFlight (sys : Sys E) (c : Nat) (x : Conn S) : Prop where
  upP : Pushed x.up
  downP : Pushed x.down
  sent : ∀ (k : Nat) (a : Asked), x.asked[k]? = some a → ∃ ph, x.up.snd.calls[a.call]? = some ⟨some (.req a.id a.req), ph⟩ ∧
    ((x.asked.map Asked.id).Nodup → ∀ q, x.cli.reqs[k]? = some q → q.active → ∀ b, ph ≠ .dropped b)
  slot : x.cli.ended = false → (x.asked.map Asked.id).Nodup → ∀ (k : Nat) (q : CReq), x.cli.reqs[k]? = some q → q.active →
    q.slot ≠ .dropped ∧ (q.slot = .empty → ∀ m ∈ x.down.got, m.id ≠ q.id)
  taken : x.gone = false → ∀ m ∈ x.up.got, (∃ t ∈ sys.threads, t.conn = c ∧ t.msg = m) ∨ ∃ d ∈ sys.done, d.conn = c ∧ d.msg = m
  answered : ∀ d ∈ sys.done, d.conn = c → ∃ (j : Nat) (ph : SPhase),
    x.down.snd.calls[j]? = some ⟨some (.res d.msg.id (.ofOutcome d.outcome)), ph⟩ ∧ ∀ b, ph ≠ .dropped b
  exact_ : x.down.snd.Clean → ∀ (j : Nat) (m : Msg) (ph : SPhase), x.down.snd.calls[j]? = some ⟨some m, ph⟩ →
    ∃ d ∈ sys.done, d.conn = c ∧ m = .res d.msg.id (.ofOutcome d.outcome)

theorem InFlight.init {sys : Sys E} {c : Nat} (u d : S.St) (h : ∀ d ∈ sys.done, d.conn ≠ c) : InFlight sys c (Conn.init u d) where
  upP := .init u
  downP := .init d
  sent := by intro k a h; simp [Conn.init] at h
  slot := by intro _ _ k q h; simp [Conn.init, CliSt.init] at h
  taken := by intro _ m h; simp [Conn.init, Link.init] at h
  answered := fun d hd hc => absurd hc (h d hd)
  exact_ := by intro _ j m ph h; simp [Conn.init, Link.init, SndSt.init] at h

/-- The server does something that does not finish a request of this connection. -/
theorem InFlight.server {sys sys' : Sys E} {c : Nat} {x : Conn S} (h : InFlight sys c x) (h1 : ∀ d ∈ sys.done, d ∈ sys'.done)
    (h2 : ∀ d ∈ sys'.done, d.conn = c → d ∈ sys.done)
    (h3 : ∀ t ∈ sys.threads, (∃ t' ∈ sys'.threads, t'.conn = t.conn ∧ t'.msg = t.msg) ∨ ∃ d ∈ sys'.done, d.conn = t.conn ∧ d.msg = t.msg) :
    InFlight sys' c x where
  upP := h.upP
  downP := h.downP
  sent := h.sent
  slot := h.slot
  taken := by
    intro hg m hm
    rcases h.taken hg m hm with ⟨t, ht, hc, hm'⟩ | ⟨d, hd, hc, hm'⟩
    · rcases h3 t ht with ⟨t', ht', g1, g2⟩ | ⟨d, hd, g1, g2⟩
      · exact Or.inl ⟨t', ht', g1.trans hc, g2.trans hm'⟩
      · exact Or.inr ⟨d, hd, g1.trans hc, g2.trans hm'⟩
    · exact Or.inr ⟨d, h1 d hd, hc, hm'⟩
  answered := fun d hd hc => h.answered d (h2 d hd hc) hc
  exact_ := fun hcl j m ph hj => by
    obtain ⟨d, hd, g⟩ := h.exact_ hcl j m ph hj
    exact ⟨d, h1 d hd, g⟩

/-- The two ends and the table stay, apart from ... -/
theorem InFlight.upSend {sys : Sys E} {c : Nat} {x : Conn S} (h : InFlight sys c x) (e : SEv) (he : ∀ k, e ≠ .drop k) :
    InFlight sys c { x with up := x.up.send e } where
  upP := h.upP.send e
  downP := h.downP
  sent := by
    intro k a ha
    obtain ⟨ph, h1, h2⟩ := h.sent k a ha
    by_cases hd : ∃ b, ph = .dropped b
    · obtain ⟨ph', h3, -⟩ := x.up.snd.step_move e h1
      refine ⟨ph', h3, ?_⟩
      intro hn q hq hqa
      obtain ⟨b, hb⟩ := hd
      exact absurd hb (h2 hn q hq hqa b)
    · obtain ⟨ph', h3, h4⟩ := x.up.snd.step_kept e h1 (he _) (fun b hb => hd ⟨b, hb⟩)
      exact ⟨ph', h3, fun _ _ _ _ => h4⟩
  slot := h.slot
  taken := h.taken
  answered := h.answered
  exact_ := h.exact_

theorem InFlight.downSend {sys : Sys E} {c : Nat} {x : Conn S} (h : InFlight sys c x) (e : SEv) (he : ∀ k, e ≠ .drop k)
    (hc : ∀ m, e = .call (some m) → x.down.snd.Clean → ∃ d ∈ sys.done, d.conn = c ∧ m = .res d.msg.id (.ofOutcome d.outcome)) :
    InFlight sys c { x with down := x.down.send e } where
  upP := h.upP
  downP := h.downP.send e
  sent := h.sent
  slot := h.slot
  taken := h.taken
  answered := by
    intro d hd hdc
    obtain ⟨j, ph, h1, h2⟩ := h.answered d hd hdc
    obtain ⟨ph', h3, h4⟩ := x.down.snd.step_kept e h1 (he _) h2
    exact ⟨j, ph', h3, h4⟩
  exact_ := by
    intro hcl j m ph hj
    have hcl' : x.down.snd.Clean := SndSt.Clean.before (e := e) hcl
    rcases x.down.snd.call_of_step e hj with ⟨ph0, h0⟩ | ⟨rfl, -⟩
    · exact h.exact_ hcl' j m ph0 h0
    · exact hc m rfl hcl'

/-- Other fields. -/
theorem InFlight.same {sys : Sys E} {c : Nat} {x x' : Conn S} (h : InFlight sys c x) (h1 : x'.up.snd = x.up.snd) (h1' : x'.up.pushed = x.up.pushed)
    (h1'' : x'.up.got = x.up.got) (h2 : x'.down.snd = x.down.snd) (h2' : x'.down.pushed = x.down.pushed) (h2'' : x'.down.got = x.down.got)
    (h3 : x'.asked = x.asked) (h4 : x'.cli = x.cli) (h5 : x'.gone = x.gone) : InFlight sys c x' where
  upP := by intro j m ph hj hp; rw [h1] at hj; rw [h1']; exact h.upP j m ph hj hp
  downP := by intro j m ph hj hp; rw [h2] at hj; rw [h2']; exact h.downP j m ph hj hp
  sent := by rw [h1, h3, h4]; exact h.sent
  slot := by rw [h2'', h3, h4]; exact h.slot
  taken := by rw [h5, h1'']; exact h.taken
  answered := by rw [h2]; exact h.answered
  exact_ := by rw [h2]; exact h.exact_

theorem ids_of {c : Nat} {sys : Sys E} {x : Conn S} (hi : ConnInv c sys x) : x.cli.reqs.map CReq.id = x.asked.map Asked.id := by
  rw [hi.cli, run_ids, hi.starts]; rfl

theorem cinv_of {c : Nat} {sys : Sys E} {x : Conn S} (hi : ConnInv c sys x) : CInv x.cli := by
  rw [hi.cli]; exact CInv.init.run _

theorem ids_distinct {x : Conn S} (hids : x.cli.reqs.map CReq.id = x.asked.map Asked.id) (hn : (x.asked.map Asked.id).Nodup) {k : Nat} {q : CReq}
    (hk : x.cli.reqs[k]? = some q) : ∀ j q2, j ≠ k → x.cli.reqs[j]? = some q2 → q2.id ≠ q.id := by
  intro j q2 hjk hj heq
  rw [← hids] at hn
  obtain ⟨h1, h1'⟩ := List.getElem?_eq_some_iff.mp hk
  obtain ⟨h2, h2'⟩ := List.getElem?_eq_some_iff.mp hj
  have hp := List.pairwise_iff_getElem.mp hn
  rcases Nat.lt_trichotomy j k with hlt | he | hgt
  · have := hp j k (by simpa using h2) (by simpa using h1) hlt
    simp [h1', h2', heq] at this
  · exact hjk he
  · have := hp k j (by simpa using h1) (by simpa using h2) hgt
    simp [h1', h2', heq] at this

/-- A request that exists after an event that is not a new request existed before. -/
theorem req_before {s : CliSt} (hi : CInv s) {e : CEv} (hs : ∀ id, e ≠ .start id) {k : Nat} {q' : CReq} (hk : (s.step e).reqs[k]? = some q') :
    ∃ q, s.reqs[k]? = some q ∧ Change s e k q q' := by
  have hlen : (s.step e).reqs.length = s.reqs.length := by
    have := congrArg List.length (step_ids s e)
    have hst : starts [e] = [] := by
      cases e with
      | start id => exact absurd rfl (hs id)
      | _ => rfl
    rw [hst] at this
    simpa using this
  have hlt : k < s.reqs.length := by rw [← hlen]; exact (List.getElem?_eq_some_iff.mp hk).1
  obtain ⟨q2, h1, h2⟩ := step_change hi e (List.getElem?_eq_getElem hlt)
  rw [hk] at h1; cases h1
  exact ⟨_, List.getElem?_eq_getElem hlt, h2⟩

/-- Something happens in the client's table that is neither a new request nor the arrival of a message nor the end. -/
theorem InFlight.cliStep {sys : Sys E} {c : Nat} {x : Conn S} (h : InFlight sys c x) (hi : ConnInv c sys x) (e : CEv) (h1 : ∀ id, e ≠ .start id)
    (h2 : ∀ m, e ≠ .arrive m) (h3 : e ≠ .connEnd) : InFlight sys c (x.cliStep e) where
  upP := h.upP
  downP := h.downP
  sent := by
    intro k a ha
    obtain ⟨ph, g1, g2⟩ := h.sent k a ha
    refine ⟨ph, g1, ?_⟩
    intro hn q' hq' hqa
    obtain ⟨q, hq, hch⟩ := req_before (cinv_of hi) h1 hq'
    exact g2 hn q hq (hch.active hqa)
  slot := by
    intro he hn k q' hq' hqa
    have he' : x.cli.ended = false := by
      have : (x.cli.step e).ended = false := he
      rwa [cli_ended _ _ h3] at this
    obtain ⟨q, hq, hch⟩ := req_before (cinv_of hi) h1 hq'
    obtain ⟨ha', hid, hsl⟩ := hch.back hqa h3 (h1 _) (ids_distinct (ids_of hi) hn hq)
    rcases hsl with hsl | ⟨m, hm, -⟩
    · rw [hsl, hid]; exact h.slot he' hn k q hq ha'
    · exact absurd hm (h2 m)
  taken := h.taken
  answered := h.answered
  exact_ := h.exact_

theorem InFlight.ask {sys : Sys E} {c : Nat} {x : Conn S} (h : InFlight sys c x) (hi : ConnInv c sys x) (id : String) (q : Req)
    (hg : ∀ m ∈ x.down.got, ∃ a ∈ x.asked, a.id = m.id) : InFlight sys c (x.step (.ask id q)) where
  upP := h.upP.send _
  downP := h.downP
  sent := by
    intro k a ha
    have ha' : (x.asked ++ [⟨id, q, x.up.snd.calls.length⟩])[k]? = some a := ha
    show ∃ ph, (x.up.snd.step (.call (some (.req id q)))).calls[a.call]? = _ ∧ _
    rw [List.getElem?_append] at ha'
    split at ha'
    · rename_i hlt
      obtain ⟨ph, g1, g2⟩ := h.sent k a ha'
      have hlt' : k < x.cli.reqs.length := by
        have := congrArg List.length (ids_of hi); simp at this; omega
      refine ⟨ph, ?_, ?_⟩
      · show (x.up.snd.calls ++ [_])[a.call]? = _
        rw [List.getElem?_append_left (List.getElem?_eq_some_iff.mp g1).1]; exact g1
      · intro hn q' hq' hqa
        have hn' : (x.asked.map Asked.id).Nodup := by
          have : ((x.asked ++ [Asked.mk id q x.up.snd.calls.length]).map Asked.id).Nodup := hn
          rw [List.map_append] at this
          exact (List.nodup_append.mp this).1
        obtain ⟨q2, e1, e2⟩ := step_change (cinv_of hi) (.start id) (List.getElem?_eq_getElem hlt')
        have : q' = q2 := by
          have hq'' : (x.cli.step (.start id)).reqs[k]? = some q' := hq'
          rw [e1] at hq''; cases hq''; rfl
        subst this
        exact g2 hn' _ (List.getElem?_eq_getElem hlt') (e2.active hqa)
    · cases hk : k - x.asked.length with
      | zero =>
        rw [hk] at ha'
        simp at ha'
        subst ha'
        refine ⟨.waiting, ?_, by intros; simp⟩
        show (x.up.snd.calls ++ [_])[_]? = _
        rw [List.getElem?_append_right (Nat.le_refl _)]
        simp
      | succ n => rw [hk] at ha'; simp at ha'
  slot := by
    intro he hn k q' hq' hqa
    have hn1 : ((x.asked ++ [Asked.mk id q x.up.snd.calls.length]).map Asked.id).Nodup := hn
    rw [List.map_append] at hn1
    obtain ⟨hn', -, hdis⟩ := List.nodup_append.mp hn1
    have he' : x.cli.ended = false := by
      have : (x.cli.step (.start id)).ended = false := he
      rwa [cli_ended _ _ (by simp)] at this
    have hq'' : (x.cli.step (.start id)).reqs[k]? = some q' := hq'
    by_cases hlt : k < x.cli.reqs.length
    · obtain ⟨q2, e1, e2⟩ := step_change (cinv_of hi) (.start id) (List.getElem?_eq_getElem hlt)
      have : q' = q2 := by rw [e1] at hq''; cases hq''; rfl
      subst this
      have hmem : x.cli.reqs[k].id ∈ x.asked.map Asked.id := by
        rw [← ids_of hi]; exact List.mem_map_of_mem (List.getElem_mem hlt)
      obtain ⟨b1, b2, b3⟩ := e2.back hqa (by simp) (by
        intro hh
        cases hh
        exact hdis _ hmem _ (by simp) rfl) (ids_distinct (ids_of hi) hn' (List.getElem?_eq_getElem hlt))
      rcases b3 with b3 | ⟨m, b3, -⟩
      · rw [b3, b2]; exact h.slot he' hn' k _ (List.getElem?_eq_getElem hlt) b1
      · cases b3
    · have hr : ((x.cli.remove id).reqs ++ [⟨id, .sending, .empty⟩])[k]? = some q' := hq''
      rw [List.getElem?_append_right (by rw [remove_length]; omega), remove_length] at hr
      cases hk : k - x.cli.reqs.length with
      | succ n => rw [hk] at hr; simp at hr
      | zero =>
        rw [hk] at hr
        simp at hr
        subst hr
        refine ⟨by simp, fun _ m hm hid => ?_⟩
        obtain ⟨a, ha, haid⟩ := hg m hm
        exact hdis a.id (List.mem_map_of_mem ha) id (by simp) (haid.trans hid)
  taken := h.taken
  answered := h.answered
  exact_ := h.exact_

theorem InFlight.cancel {sys : Sys E} {c : Nat} {x : Conn S} (h : InFlight sys c x) (hi : ConnInv c sys x) (k : Nat) {a : Asked} (ha : x.asked[k]? = some a) :
    InFlight sys c { x.cliStep (.cancel k) with up := x.up.send (.drop a.call) } := by
  have h' := h.cliStep hi (.cancel k) (by simp) (by simp) (by simp)
  refine ⟨h.upP.send _, h.downP, ?_, h'.slot, h'.taken, h'.answered, h'.exact_⟩
  intro k2 a2 ha2
  obtain ⟨ph, g1, g2⟩ := h'.sent k2 a2 ha2
  obtain ⟨ph', g3, gm⟩ := x.up.snd.step_move (.drop a.call) g1
  refine ⟨ph', g3, ?_⟩
  intro hn q hq hqa b hb
  subst hb
  cases gm with
  | same => exact g2 hn q hq hqa b rfl
  | drop he =>
    have hcall : a.call = a2.call := by injection he
    have hn' : (x.asked.map Asked.id).Nodup := hn
    have ha2' : x.asked[k2]? = some a2 := ha2
    obtain ⟨ph2, g4, -⟩ := h.sent k a ha
    have g1' : x.up.snd.calls[a2.call]? = some ⟨some (.req a2.id a2.req), ph⟩ := g1
    rw [hcall, g1'] at g4
    have hid : a2.id = a.id := by
      injection g4 with g4; injection g4 with g4 _; injection g4 with g4; injection g4
    have : k2 = k := by
      obtain ⟨p1, p1'⟩ := List.getElem?_eq_some_iff.mp ha
      obtain ⟨p2, p2'⟩ := List.getElem?_eq_some_iff.mp ha2'
      have hp := List.pairwise_iff_getElem.mp hn'
      rcases Nat.lt_trichotomy k2 k with hlt | he | hgt
      · have := hp k2 k (by simpa using p2) (by simpa using p1) hlt
        simp [p1', p2', hid] at this
      · exact he
      · have := hp k k2 (by simpa using p1) (by simpa using p2) hgt
        simp [p1', p2', hid] at this
    subst this
    exact cancel_inactive x.cli k2 hq hqa

theorem InFlight.poll {sys : Sys E} {c : Nat} {x : Conn S} (h : InFlight sys c x) (hi : ConnInv c sys x) : InFlight sys c (x.step .poll) := by
  have hother : ∀ p : Polled Msg, x.down.rcv.poll.1 = p → p.toList = [] → InFlight sys c { x with down := x.down.poll } := by
    intro p hp hl
    refine h.same rfl rfl rfl rfl rfl ?_ rfl rfl rfl
    show x.down.got ++ x.down.rcv.poll.1.toList = _
    rw [hp, hl, List.append_nil]
  simp only [Conn.step]
  split
  · rename_i m hp
    refine ⟨h.upP, h.downP, ?_, ?_, h.taken, h.answered, h.exact_⟩
    · intro k a ha
      obtain ⟨ph, g1, g2⟩ := h.sent k a ha
      refine ⟨ph, g1, ?_⟩
      intro hn q' hq' hqa
      obtain ⟨q, hq, hch⟩ := req_before (cinv_of hi) (e := .arrive m) (by simp) hq'
      exact g2 hn q hq (hch.active hqa)
    · intro he hn k q' hq' hqa
      have he' : x.cli.ended = false := by
        have : (x.cli.step (.arrive m)).ended = false := he
        rwa [cli_ended _ _ (by simp)] at this
      obtain ⟨q, hq, hch⟩ := req_before (cinv_of hi) (e := .arrive m) (by simp) hq'
      obtain ⟨b1, b2, b3⟩ := hch.back hqa (by simp) (by simp) (ids_distinct (ids_of hi) hn hq)
      obtain ⟨s1, s2⟩ := h.slot he' hn k q hq b1
      rcases b3 with b3 | ⟨m', -, b3⟩
      · refine ⟨by rw [b3]; exact s1, ?_⟩
        rw [b2]
        intro hem m2 hm2 hid
        have hm2' : m2 ∈ x.down.got ++ x.down.rcv.poll.1.toList := hm2
        rw [hp] at hm2'
        have hem' : q.slot = .empty := by rw [← b3]; exact hem
        rcases List.mem_append.mp hm2' with hm2' | hm2'
        · exact s2 hem' m2 hm2' hid
        · have : m2 = m := by simpa [Polled.toList] using hm2'
          subst this
          -- then it would have been delivered
          have hpen := (cinv_of hi).wait k q hq b1 hem'
          have hq2 : (x.cli.step (.arrive m2)).reqs[k]? = some q' := hq'
          simp only [CliSt.step, he', Bool.false_eq_true, if_false, hid, hpen] at hq2
          rw [List.getElem?_modify, hq] at hq2
          simp at hq2
          rw [← hq2] at hem
          exact CReq.deliver_slot q m2 hem
      · refine ⟨by rw [b3]; simp, by rw [b3]; simp⟩
  · rename_i hp
    refine ⟨h.upP, h.downP, ?_, ?_, h.taken, h.answered, h.exact_⟩
    · intro k a ha
      obtain ⟨ph, g1, g2⟩ := h.sent k a ha
      refine ⟨ph, g1, ?_⟩
      intro hn q' hq' hqa
      obtain ⟨q, hq, hch⟩ := req_before (cinv_of hi) (e := .connEnd) (by simp) hq'
      exact g2 hn q hq (hch.active hqa)
    · intro he; cases he
  · rename_i h1 h2
    cases hp : x.down.rcv.poll.1 with
    | item m => exact absurd hp (h1 m)
    | finished => exact absurd hp h2
    | pending => exact hother _ hp rfl
    | err e => exact hother _ hp rfl
    | panicked => exact hother _ hp rfl

theorem InFlight.step {sys : Sys E} {c : Nat} {x : Conn S} (h : InFlight sys c x) (hi : ConnInv c sys x) (e : NEv)
    (hg : ∀ id q, e = .ask id q → ∀ m ∈ x.down.got, ∃ a ∈ x.asked, a.id = m.id) : InFlight sys c (x.step e) := by
  have hnd : ∀ {e : SEv}, e.internal = true → ∀ k, e ≠ .drop k := by
    intro e he k hk; subst hk; cases he
  have hnc : ∀ {e : SEv}, e.internal = true → ∀ m, e ≠ .call m := fun he => internal_not_call he
  cases e with
  | ask id q => exact h.ask hi id q (hg id q rfl)
  | asked k =>
    simp only [Conn.step]
    split
    · split
      · exact h.cliStep hi _ (by simp) (by simp) (by simp)
      · exact h
    · exact h
  | wake k => exact h.cliStep hi _ (by simp) (by simp) (by simp)
  | timeout k => exact h.cliStep hi _ (by simp) (by simp) (by simp)
  | cancel k =>
    simp only [Conn.step]
    split
    · rename_i a ha; exact h.cancel hi k ha
    · exact h
  | shutdown => exact h.upSend _ (by simp)
  | upSend e =>
    simp only [Conn.step]
    split
    · rename_i he; exact h.upSend e (hnd he)
    · exact h
  | upArrive b => exact h.same rfl rfl rfl rfl rfl rfl rfl rfl rfl
  | upClose => exact h.same rfl rfl rfl rfl rfl rfl rfl rfl rfl
  | downSend e =>
    simp only [Conn.step]
    split
    · rename_i he
      simp only [Bool.and_eq_true] at he
      exact h.downSend e (hnd he.1) (fun m hm => absurd hm (hnc he.1 _))
    · exact h
  | downRetry k =>
    simp only [Conn.step]
    split
    · exact h
    · split
      · split
        · rename_i id v er hk
          refine (h.downSend (.call (some (.res id (.error er)))) (by simp) ?_).same rfl rfl rfl rfl rfl rfl rfl rfl rfl
          intro m _ hcl
          exact absurd (show SPhase.bad (.done (.error er)) from trivial) (hcl.2 _ _ hk)
        · exact h
      · exact h
  | downShutdown =>
    simp only [Conn.step]
    split
    · exact h
    · exact h.downSend _ (by simp) (by simp)
  | downArrive b => exact h.same rfl rfl rfl rfl rfl rfl rfl rfl rfl
  | downClose => exact h.same rfl rfl rfl rfl rfl rfl rfl rfl rfl
  | poll => exact h.poll hi

/-- The server finishes a request of this connection. -/
theorem InFlight.reply {sys sys' : Sys E} {c : Nat} {x : Conn S} (h : InFlight sys c x) {id : String} {o : Res Resp} {m : Msg} (hm : m.id = id)
    (h1 : ∀ d ∈ sys.done, d ∈ sys'.done) (h2 : ∀ d ∈ sys'.done, d ∈ sys.done ∨ d.msg = m ∧ d.outcome = o)
    (h2' : ∃ d ∈ sys'.done, d.conn = c ∧ d.msg = m ∧ d.outcome = o)
    (h3 : ∀ t ∈ sys.threads, (∃ t' ∈ sys'.threads, t'.conn = t.conn ∧ t'.msg = t.msg) ∨ ∃ d ∈ sys'.done, d.conn = t.conn ∧ d.msg = t.msg) :
    InFlight sys' c (x.reply id o) := by
  have hrep : (x.reply id o).down = x.down.send (.call (some (.res id (.ofOutcome o)))) ∧ (x.reply id o).up = x.up ∧
      (x.reply id o).asked = x.asked ∧ (x.reply id o).cli = x.cli ∧ (x.reply id o).gone = x.gone := by cases o <;> exact ⟨rfl, rfl, rfl, rfl, rfl⟩
  obtain ⟨r1, r2, r3, r4, r5⟩ := hrep
  refine ⟨?_, ?_, ?_, ?_, ?_, ?_, ?_⟩
  · rw [r2]; exact h.upP
  · rw [r1]; exact h.downP.send _
  · rw [r2, r3, r4]; exact h.sent
  · rw [r1, r3, r4]; exact h.slot
  · rw [r5, r2]
    intro hg m hm
    rcases h.taken hg m hm with ⟨t, ht, hc, hm'⟩ | ⟨d, hd, hc, hm'⟩
    · rcases h3 t ht with ⟨t', ht', g1, g2⟩ | ⟨d, hd, g1, g2⟩
      · exact Or.inl ⟨t', ht', g1.trans hc, g2.trans hm'⟩
      · exact Or.inr ⟨d, hd, g1.trans hc, g2.trans hm'⟩
    · exact Or.inr ⟨d, h1 d hd, hc, hm'⟩
  · rw [r1]
    intro d hd hdc
    rcases h2 d hd with hd | ⟨g1, g2⟩
    · obtain ⟨j, ph, g1, g2⟩ := h.answered d hd hdc
      obtain ⟨ph', g3, g4⟩ := x.down.snd.step_kept (.call (some (.res id (.ofOutcome o)))) g1 (by simp) g2
      exact ⟨j, ph', g3, g4⟩
    · refine ⟨x.down.snd.calls.length, .waiting, ?_, by simp⟩
      show (x.down.snd.calls ++ [_])[_]? = _
      rw [List.getElem?_append_right (Nat.le_refl _), g1, g2, hm]
      simp
  · rw [r1]
    intro hcl j m' ph hj
    have hcl' : x.down.snd.Clean := SndSt.Clean.before hcl
    rcases x.down.snd.call_of_step _ hj with ⟨ph0, h0⟩ | ⟨he, -⟩
    · obtain ⟨d, hd, g⟩ := h.exact_ hcl' j m' ph0 h0
      exact ⟨d, h1 d hd, g⟩
    · cases he
      obtain ⟨d, hd, hdc, hdm, hdo⟩ := h2'
      exact ⟨d, hd, hdc, by rw [hdm, hdo, hm]⟩

/-- One event in the world. -/
theorem inFlight_step {st : E.S.σ} {w : World E S} (hw : WorldInv st w) {c : Nat} {x : Conn S} (hx : w.conns[c]? = some x) (h : InFlight w.sys c x)
    (ev : WEv S) (hg : ∀ id q, ev = .net c (.ask id q) → ∀ m ∈ x.down.got, ∃ a ∈ x.asked, a.id = m.id) :
    ∃ x', (w.step ev).conns[c]? = some x' ∧ InFlight (w.step ev).sys c x' := by
  have hlt := (List.getElem?_eq_some_iff.mp hx).1
  cases ev with
  | connect u d => exact ⟨x, by simp only [World.step]; rw [List.getElem?_append_left hlt]; exact hx, h⟩
  | restart =>
    refine ⟨{ x with gone := true }, ?_, ?_⟩
    · show (w.conns.map _)[c]? = _
      rw [List.getElem?_map, hx]; rfl
    · exact ⟨h.upP, h.downP, h.sent, h.slot, (fun hg => by cases hg), h.answered, h.exact_⟩
  | net d e =>
    simp only [World.step]
    rw [List.getElem?_modify, hx]
    by_cases hdc : d = c
    · subst hdc
      exact ⟨x.step e, by simp, h.step (hw.conns d x hx) e (fun id q he => hg id q (by rw [he]))⟩
    · exact ⟨x, by simp [hdc], h⟩
  | serve d =>
    simp only [World.step]
    split
    · exact ⟨x, hx, h⟩
    · rename_i y hy
      split
      · exact ⟨x, hx, h⟩
      · have hmod : ∃ x', (w.conns.modify d (fun x => { x with up := x.up.poll }))[c]? = some x' ∧
            ((d = c ∧ x' = { x with up := x.up.poll }) ∨ (d ≠ c ∧ x' = x)) := by
          rw [List.getElem?_modify, hx]
          by_cases hdc : d = c
          · exact ⟨_, by simp [hdc], Or.inl ⟨hdc, rfl⟩⟩
          · exact ⟨_, by simp [hdc], Or.inr ⟨hdc, rfl⟩⟩
        obtain ⟨x', hx', hcase⟩ := hmod
        split
        · rename_i m hp
          refine ⟨x', hx', ?_⟩
          have hs := h.server (sys' := w.sys.step (.recv d m)) (fun d hd => hd) (fun d hd _ => hd)
            (fun t ht => Or.inl ⟨t, List.mem_append_left _ ht, rfl, rfl⟩)
          rcases hcase with ⟨rfl, rfl⟩ | ⟨-, rfl⟩
          · rw [hx] at hy; cases hy
            refine ⟨h.upP, h.downP, h.sent, h.slot, ?_, h.answered, h.exact_⟩
            intro hgo m' hm'
            have hm'' : m' ∈ x.up.got ++ x.up.rcv.poll.1.toList := hm'
            rw [hp] at hm''
            rcases List.mem_append.mp hm'' with hm'' | hm''
            · exact hs.taken hgo m' hm''
            · have : m' = m := by simpa [Polled.toList] using hm''
              subst this
              exact Or.inl ⟨_, List.mem_append_right _ (List.mem_singleton_self _), rfl, rfl⟩
          · exact hs
        · rename_i hp
          refine ⟨x', hx', ?_⟩
          rcases hcase with ⟨rfl, rfl⟩ | ⟨-, rfl⟩
          · rw [hx] at hy; cases hy
            refine h.same rfl rfl ?_ rfl rfl rfl rfl rfl rfl
            show x.up.got ++ x.up.rcv.poll.1.toList = _
            cases hpp : x.up.rcv.poll.1 with
            | item m => exact absurd hpp (hp m)
            | _ => simp [Polled.toList]
          · exact h
  | act i ch =>
    have h1 := done_step_mono w.sys (.step i ch)
    have h3 := threads_after w.sys i ch
    have h2 := done_after w.sys i ch
    simp only [World.step]
    split
    · rename_i ht
      exact ⟨x, hx, h.server h1 (fun d hd _ => (h2 d hd).elim id (fun ⟨t, o, ht', _⟩ => by rw [ht] at ht'; cases ht')) h3⟩
    · rename_i t ht
      split
      · rename_i o ho
        show ∃ x', (w.conns.modify t.conn (fun x => x.reply t.msg.id o))[c]? = some x' ∧ InFlight (w.sys.step (.step i ch)) c x'
        rw [List.getElem?_modify, hx]
        by_cases htc : t.conn = c
        · refine ⟨x.reply t.msg.id o, by simp [htc], h.reply (m := t.msg) rfl h1 ?_ ?_ h3⟩
          · intro d hd
            rcases h2 d hd with hd | ⟨t', o', ht', ho', -, g1, g2⟩
            · exact Or.inl hd
            · rw [ht] at ht'; cases ht'
              rw [ho] at ho'; cases ho'
              exact Or.inr ⟨g1, g2⟩
          · obtain ⟨d, hd, g1, g2, g3⟩ := done_born w.sys i ch ht ho
            exact ⟨d, hd, g1.trans htc, g2, g3⟩
        · refine ⟨x, by simp [htc], h.server h1 ?_ h3⟩
          intro d hd hdc
          rcases h2 d hd with hd | ⟨t', o', ht', ho', g0, g1, g2⟩
          · exact hd
          · rw [ht] at ht'; cases ht'
            exact absurd (g0.symm.trans hdc) htc
      · rename_i ho
        refine ⟨x, hx, h.server h1 ?_ h3⟩
        intro d hd _
        rcases h2 d hd with hd | ⟨t', o', ht', ho', -⟩
        · exact hd
        · rw [ht] at ht'; cases ht'
          rw [ho] at ho'; cases ho'

end Lair
