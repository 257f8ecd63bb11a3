import Verif.MWorld
import Verif.MultiLinProof
import Verif.Props.EndToEnd

/-
Invariant of `MWorld`: every connection is what `ConnInv` says with respect to its own process.
-/
namespace Lair

variable {S : SStream} {E : Env} {st : E.S.σ}

/-- Proof device: nothing in the code corresponds. -/
structure MWorldInv (st : E.S.σ) (w : MWorld E S) : Prop where
  run : w.multi = Multi.run E st w.mevs
  ids : ∀ (j : Nat) (l : LSys E), w.multi.procs[j]? = some l → IdInv l.sys
  conns : ∀ (c j : Nat) (x : Conn S), w.conns[c]? = some (j, x) → ∃ l, w.multi.procs[j]? = some l ∧ ConnInv c l.sys x
  known : ∀ (j : Nat) (l : LSys E), w.multi.procs[j]? = some l → ∀ p ∈ l.sys.inbox, ∃ x, w.conns[p.1]? = some (j, x)

theorem mworldInv_init (st : E.S.σ) : MWorldInv st (MWorld.init E S st) :=
  ⟨rfl, by simp [MWorld.init], by simp [MWorld.init], by simp [MWorld.init]⟩

theorem ConnInv.ofSame {c : Nat} {s s' : Sys E} {x : Conn S} (h : ConnInv c s x) (hd : s'.done = s.done) (hi : s'.inbox = s.inbox) : ConnInv c s' x :=
  h.sys (by rw [hd]; exact fun _ h => h) (by rw [hi])

theorem onStore_done (l : LSys E) (s : E.S.σ) : (l.onStore s).sys.done = l.sys.done := rfl
theorem onStore_inbox (l : LSys E) (s : E.S.σ) : (l.onStore s).sys.inbox = l.sys.inbox := rfl

/-- What an event that is no receipt does to the invariant, the connections staying as they are. -/
theorem MWorldInv.multi {w : MWorld E S} (h : MWorldInv st w) (e : MEvent) (he : ∀ j c m, e ≠ .at j (.srv (.recv c m))) :
    MWorldInv st (w.multiStep e) := by
  have hin : ∀ (l : LSys E) (ev : LEvent) (j : Nat), e = .at j ev → (l.step ev).sys.inbox = l.sys.inbox := by
    intro l ev j hj
    cases ev with
    | call x ch => rfl
    | srv ev =>
      refine wInbox_step _ _ ?_
      rintro c m rfl
      exact he j c m hj
  refine ⟨?_, ?_, ?_, ?_⟩
  · show w.multi.step e = Multi.run E st (w.mevs ++ [e])
    rw [mrun_snoc, ← h.run]
  · intro j l hl
    rcases procs_step w.multi e j l hl with ⟨q, st', h1, rfl⟩ | ⟨-, -, rfl⟩ | ⟨q, ev, -, h1, rfl⟩
    · exact idInv_onStore (h.ids j q h1) st'
    · exact idInv_run w.multi.store []
    · exact idInv_lstep (h.ids j q h1) ev
  · intro c j x hx
    obtain ⟨l, hl, hc⟩ := h.conns c j x hx
    obtain ⟨p, hp, ⟨st', rfl⟩ | ⟨ev, rfl, rfl⟩⟩ := procs_forward w.multi e j l hl
    · exact ⟨_, hp, hc.ofSame rfl rfl⟩
    · refine ⟨_, hp, hc.sys ?_ (by rw [hin l ev j rfl])⟩
      exact fun d hd => (proc_later_step l ev).done.subset hd
  · intro j l hl p hp
    rcases procs_step w.multi e j l hl with ⟨q, st', h1, rfl⟩ | ⟨-, -, rfl⟩ | ⟨q, ev, he', h1, rfl⟩
    · exact h.known j q h1 p hp
    · cases hp
    · rw [hin q ev j he'] at hp
      exact h.known j q h1 p hp

theorem mw_modify_get {α : Type} {l : List α} {i c : Nat} {f : α → α} {y : α} (h : (l.modify i f)[c]? = some y) :
    ∃ x, l[c]? = some x ∧ y = if i = c then f x else x := by
  rw [List.getElem?_modify] at h
  cases hx : l[c]? with
  | none => rw [hx] at h; simp at h
  | some x =>
    rw [hx] at h
    simp only [Option.map_eq_map, Option.map_some, Option.some.injEq] at h
    exact ⟨x, rfl, h.symm⟩

theorem mw_modify_get_of {α : Type} {l : List α} {i c : Nat} {f : α → α} {x : α} (h : l[c]? = some x) :
    (l.modify i f)[c]? = some (if i = c then f x else x) := by
  rw [List.getElem?_modify, h]
  rfl

/-- Changing one connection in a way that keeps its invariant. -/
theorem MWorldInv.modify {w : MWorld E S} (h : MWorldInv st w) (i : Nat) (f : Conn S → Conn S)
    (hf : ∀ (l : LSys E) (j : Nat) (x : Conn S), w.conns[i]? = some (j, x) → w.multi.procs[j]? = some l → ConnInv i l.sys x → ConnInv i l.sys (f x)) :
    MWorldInv st { w with conns := w.conns.modify i (fun p => (p.1, f p.2)) } := by
  refine ⟨h.run, h.ids, ?_, ?_⟩
  · intro c j x hx
    obtain ⟨⟨j', y⟩, hy, he⟩ := mw_modify_get (l := w.conns) (f := fun p : Nat × Conn S => (p.1, f p.2)) hx
    split at he
    · rename_i hic
      subst hic
      cases he
      obtain ⟨l, h1, h2⟩ := h.conns _ _ _ hy
      exact ⟨l, h1, hf l _ y hy h1 h2⟩
    · cases he
      exact h.conns _ _ _ hy
  · intro j l hl p hp
    obtain ⟨x, hx⟩ := h.known j l hl p hp
    have := mw_modify_get_of (i := i) (f := fun p : Nat × Conn S => (p.1, f p.2)) hx
    refine ⟨if i = p.1 then f x else x, ?_⟩
    show (w.conns.modify i _)[p.1]? = _
    rw [this]
    split <;> rfl

theorem finished_done {s : Sys E} {i : Nat} {ch : Choice} {t : Thread E} {o : Res Resp} (ht : s.threads[i]? = some t) (ho : outcomeOf t.prog = some o) :
    (⟨t.id, t.conn, t.msg, t.start, s.sh, t.log, o, deliver t.msg.id o⟩ : Done E) ∈ (s.step (.step i ch)).done := by
  cases hp : t.prog with
  | ret r =>
    rw [hp] at ho; simp [outcomeOf] at ho; subst ho
    rw [step_ret s i ch t r ht hp]
    exact List.mem_append_right _ (by simp)
  | fail r =>
    rw [hp] at ho; simp [outcomeOf] at ho; subst ho
    rw [step_fail s i ch t r ht hp]
    exact List.mem_append_right _ (by simp)
  | step a k => rw [hp] at ho; simp [outcomeOf] at ho

theorem ConnInv.reply {c : Nat} {sys : Sys E} {x : Conn S} (h : ConnInv c sys x) {d : Done E} (hd : d ∈ sys.done) (hc : d.conn = c) :
    ConnInv c sys (x.reply d.msg.id d.outcome) := by
  cases ho : d.outcome with
  | ok r =>
    have := h.downSend (.call (some (.res d.msg.id r))) (by
      intro m hm
      simp at hm; subst hm
      exact ⟨_, hd, hc, r, rfl, Or.inl ho⟩)
    exact ⟨this.cli, this.starts, this.arr, this.up, this.down, this.ups, this.downs, this.inbox⟩
  | error er =>
    exact h.downSend (.call (some (.res d.msg.id (.error er)))) (by
      intro m hm
      simp at hm; subst hm
      exact ⟨_, hd, hc, .error er, rfl, Or.inr ⟨er, rfl⟩⟩)

theorem at_procs {m : Multi E} {j : Nat} {l : LSys E} (hl : m.procs[j]? = some l) (ev : LEvent) :
    (m.step (.at j ev)).procs[j]? = some (l.step ev) := by
  obtain ⟨hlt, hj⟩ := List.getElem?_eq_some_iff.1 hl
  have : (l.step ev).onStore (l.step ev).sys.sh.store = l.step ev := rfl
  simp [Multi.step, hlt, hj, this]

theorem MWorldInv.step {w : MWorld E S} (h : MWorldInv st w) (e : MWEv S) : MWorldInv st (w.step e) := by
  cases e with
  | start => exact h.multi _ (by simp)
  | connect j u d =>
    simp only [MWorld.step]
    split
    · rename_i hj
      refine ⟨h.run, h.ids, ?_, ?_⟩
      · intro c j' x hx
        have hx : (w.conns ++ [(j, Conn.init u d)])[c]? = some (j', x) := hx
        rw [List.getElem?_append] at hx
        split at hx
        · exact h.conns c j' x hx
        · rename_i hlt
          cases hcd : c - w.conns.length with
          | succ n => rw [hcd] at hx; simp at hx
          | zero =>
            rw [hcd] at hx
            simp only [List.getElem?_cons_zero, Option.some.injEq, Prod.mk.injEq] at hx
            obtain ⟨rfl, rfl⟩ := hx
            refine ⟨_, List.getElem?_eq_getElem hj, rfl, rfl, by simp [Conn.init], .init u, .init d, by simp [Conn.init, Link.init, SndSt.init],
              by simp [Conn.init, Link.init, SndSt.init], ?_⟩
            have : (w.multi.procs[j]).sys.inbox.filter (fun p => p.1 = c) = [] := by
              rw [List.filter_eq_nil_iff]
              intro p hp
              obtain ⟨y, hy⟩ := h.known j _ (List.getElem?_eq_getElem hj) p hp
              have := (List.getElem?_eq_some_iff.1 hy).1
              simp; omega
            rw [this]; rfl
      · intro j' l hl p hp
        obtain ⟨y, hy⟩ := h.known j' l hl p hp
        refine ⟨y, ?_⟩
        show (w.conns ++ [_])[p.1]? = _
        rw [List.getElem?_append_left (List.getElem?_eq_some_iff.1 hy).1]; exact hy
    · exact h
  | net c e => exact h.modify c (fun x => x.step e) (fun l j x _ _ hc => hc.step e)
  | serve c =>
    simp only [MWorld.step]
    split
    · exact h
    · rename_i j x hx
      split
      · exact h
      · split
        · rename_i m hm
          obtain ⟨l, hl, hci⟩ := h.conns c j x hx
          have hst : ∀ k q, (w.multi.step (.at j (.srv (.recv c m)))).procs[k]? = some q →
              (k = j ∧ q = l.step (.srv (.recv c m))) ∨ (k ≠ j ∧ ∃ q' st', w.multi.procs[k]? = some q' ∧ q = q'.onStore st') := by
            intro k q hq
            by_cases hkj : k = j
            · subst hkj
              rw [at_procs hl] at hq
              cases hq
              exact Or.inl ⟨rfl, rfl⟩
            · right
              refine ⟨hkj, ?_⟩
              rcases procs_step w.multi _ k q hq with ⟨q', st', h1, rfl⟩ | ⟨h0, -, -⟩ | ⟨q', ev, h0, -, -⟩
              · exact ⟨q', st', h1, rfl⟩
              · cases h0
              · injection h0 with h0; exact absurd h0.symm hkj
          refine ⟨?_, ?_, ?_, ?_⟩
          · show w.multi.step (.at j (.srv (.recv c m))) = Multi.run E st (w.mevs ++ [.at j (.srv (.recv c m))])
            rw [mrun_snoc, ← h.run]
          · intro k q hq
            rcases hst k q hq with ⟨rfl, rfl⟩ | ⟨-, q', st', h1, rfl⟩
            · exact idInv_lstep (h.ids _ l hl) _
            · exact idInv_onStore (h.ids k q' h1) st'
          · intro c' k y hy
            obtain ⟨⟨j', z⟩, hz, he⟩ := mw_modify_get (l := w.conns) (f := fun p : Nat × Conn S => (p.1, { p.2 with up := p.2.up.poll })) hy
            split at he
            · rename_i hcc
              subst hcc
              rw [hx] at hz
              cases hz
              cases he
              refine ⟨_, at_procs hl _, hci.cli, hci.starts, hci.arr, hci.up.poll, hci.down, hci.ups, hci.downs, ?_⟩
              show ((l.sys.inbox ++ [(c, m)]).filter _).map _ = x.up.got ++ x.up.rcv.poll.1.toList
              rw [hm, ← hci.inbox]
              simp [Polled.toList]
            · rename_i hcc
              cases he
              obtain ⟨q, hq, hcq⟩ := h.conns c' k y hz
              obtain ⟨p, hp, ⟨st', rfl⟩ | ⟨ev, h0, rfl⟩⟩ := procs_forward w.multi (.at j (.srv (.recv c m))) k q hq
              · exact ⟨_, hp, hcq.ofSame rfl rfl⟩
              · cases h0
                refine ⟨_, hp, hcq.sys (fun d hd => hd) ?_⟩
                show ((q.sys.inbox ++ [(c, m)]).filter _).map _ = _
                simp [hcc]
          · intro k q hq p hp
            have hk : ∀ (k' c' : Nat) (z : Conn S), w.conns[c']? = some (k', z) →
                ∃ z', (w.conns.modify c (fun p : Nat × Conn S => (p.1, { p.2 with up := p.2.up.poll })))[c']? = some (k', z') := by
              intro k' c' z hz
              refine ⟨if c = c' then { z with up := z.up.poll } else z, ?_⟩
              rw [mw_modify_get_of hz]
              split <;> rfl
            rcases hst k q hq with ⟨rfl, rfl⟩ | ⟨-, q', st', h1, rfl⟩
            · have hp : p ∈ l.sys.inbox ++ [(c, m)] := hp
              rcases List.mem_append.mp hp with hp | hp
              · obtain ⟨z, hz⟩ := h.known _ l hl p hp
                exact hk _ _ z hz
              · simp at hp; subst hp; exact hk _ _ x hx
            · obtain ⟨z, hz⟩ := h.known k q' h1 p hp
              exact hk _ _ z hz
        · rename_i hm
          have hnil : x.up.rcv.poll.1.toList = [] := by
            cases hp : x.up.rcv.poll.1 with
            | item a => exact absurd hp (hm a)
            | _ => rfl
          refine h.modify c (fun x => { x with up := x.up.poll }) ?_
          intro l j' y hy _ hci
          rw [hx] at hy; cases hy
          refine ⟨hci.cli, hci.starts, hci.arr, hci.up.poll, hci.down, hci.ups, hci.downs, ?_⟩
          show _ = x.up.got ++ x.up.rcv.poll.1.toList
          rw [hnil, List.append_nil]; exact hci.inbox
  | act j i ch =>
    have base := h.multi (.at j (.srv (.step i ch))) (by simp)
    simp only [MWorld.step]
    split
    · exact base
    · rename_i t ht
      split
      · rename_i o ho
        obtain ⟨l, hl, hti⟩ := Option.bind_eq_some_iff.mp ht
        refine base.modify t.conn (fun x => x.reply t.msg.id o) ?_
        intro l' j' x hx hl' hc
        obtain ⟨y, hy⟩ := h.known j l hl _ (List.mem_of_getElem? ((h.ids j l hl).threads t (List.mem_of_getElem? hti)).1)
        simp only at hy
        have hx : w.conns[t.conn]? = some (j', x) := hx
        rw [hy] at hx
        cases hx
        have hl' : (w.multi.step (.at j (.srv (.step i ch)))).procs[j]? = some l' := hl'
        rw [at_procs hl] at hl'
        cases hl'
        exact hc.reply (finished_done (s := l.sys) (ch := ch) hti ho) rfl
      · exact base
  | restart j =>
    have base := h.multi (.at j (.srv .restart)) (by simp)
    refine ⟨base.run, base.ids, ?_, ?_⟩
    · intro c k x hx
      have hx : (w.conns.map _)[c]? = some (k, x) := hx
      rw [List.getElem?_map] at hx
      cases hc : w.conns[c]? with
      | none => rw [hc] at hx; simp at hx
      | some y =>
        obtain ⟨k', y⟩ := y
        rw [hc] at hx
        simp only [Option.map_some, Option.some.injEq] at hx
        obtain ⟨q, hq, hy⟩ := base.conns c k' y hc
        split at hx
        · cases hx
          exact ⟨q, hq, hy.cli, hy.starts, hy.arr, hy.up, hy.down, hy.ups, hy.downs, hy.inbox⟩
        · cases hx
          exact ⟨q, hq, hy⟩
    · intro k l hl p hp
      obtain ⟨y, hy⟩ := base.known k l hl p hp
      have hy : w.conns[p.1]? = some (k, y) := hy
      refine ⟨if k = j then { y with gone := true } else y, ?_⟩
      show (w.conns.map _)[p.1]? = _
      rw [List.getElem?_map, hy]
      simp only [Option.map_some]
      split <;> rfl
  | call j x ch => exact h.multi _ (by simp)

theorem mworldInv_foldl (evs : List (MWEv S)) {w : MWorld E S} (h : MWorldInv st w) : MWorldInv st (evs.foldl MWorld.step w) := by
  induction evs generalizing w with
  | nil => exact h
  | cons e es ih => exact ih (h.step e)

theorem mworldInv_run (st : E.S.σ) (evs : List (MWEv S)) : MWorldInv st (MWorld.run E S st evs) := mworldInv_foldl evs (mworldInv_init st)

end Lair
