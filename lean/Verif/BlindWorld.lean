import Verif.Blind
import Verif.World

/-
Non-interference for clients without the passphrase, with everything between client and server: the simulations of
`Verif.Blind` lifted to the world of `Verif.World` (connections, sealed frames, the network). Nothing here models further
code.
-/
namespace Lair

variable {S : SStream} {E E' : Env}

/-! ### SPECIFICATION -/

/-- No message that has reached the server on connection `c` is an unlock request with the right passphrase - whatever
    client, network or attacker has sent it. Specification: nothing in the code corresponds. -/
def World.NeverRight (w : World E S) (c : Nat) : Prop :=
  ∀ x, w.conns[c]? = some x → ∀ i p, Msg.req i (.unlock p) ∈ x.up.got → ¬ RightPassphrase E c p

/-- In this history nothing ever happens on connection `c`: its client does nothing, the network brings nothing, the server
    reads nothing. Specification: nothing in the code corresponds. -/
def QuietOn (c : Nat) (evs : List (WEv S)) : Prop := ∀ ev ∈ evs, (∀ e, ev ≠ .net c e) ∧ ev ≠ .serve c

/-! ### What a step leaves as it is -/

/-- Induction on a list from its end. -/
@[elab_as_elim] theorem snocInd {α : Type} {P : List α → Prop} (nil : P []) (snoc : ∀ l a, P l → P (l ++ [a]))
    (l : List α) : P l := by
  rw [← l.reverse_reverse]
  induction l.reverse with
  | nil => exact nil
  | cons a r ih => rw [List.reverse_cons]; exact snoc _ _ ih

theorem modify_other {α : Type} (l : List α) (f : α → α) {d k : Nat} (h : d ≠ k) : (l.modify d f)[k]? = l[k]? := by
  rw [List.getElem?_modify]
  simp [h]

theorem poll_got (l : Link S) : ∃ t, l.poll.got = l.got ++ t := ⟨_, rfl⟩

/-- Events on a connection do not change what the server has received on it. -/
theorem conn_step_got (x : Conn S) (e : NEv) : (x.step e).up.got = x.up.got := by
  cases e with
  | ask id q => rfl
  | asked k =>
    simp only [Conn.step]
    split
    · split <;> rfl
    · rfl
  | wake k => rfl
  | timeout k => rfl
  | cancel k =>
    simp only [Conn.step]
    split <;> rfl
  | shutdown => rfl
  | upSend e => simp only [Conn.step]; split <;> rfl
  | upArrive c => rfl
  | upClose => rfl
  | downSend e => simp only [Conn.step]; split <;> rfl
  | downRetry k =>
    simp only [Conn.step]
    split
    · rfl
    · split
      · split <;> rfl
      · rfl
  | downShutdown => simp only [Conn.step]; split <;> rfl
  | downArrive c => rfl
  | downClose => rfl
  | poll => simp only [Conn.step]; split <;> rfl

theorem reply_got (x : Conn S) (id : String) (o : Res Resp) : (x.reply id o).up.got = x.up.got := by
  cases o <;> rfl

/-- What has been received stays received. -/
theorem world_step_got (w : World E S) (ev : WEv S) (c : Nat) (x : Conn S) (hx : w.conns[c]? = some x) :
    ∃ y t, (w.step ev).conns[c]? = some y ∧ y.up.got = x.up.got ++ t := by
  have hc : c < w.conns.length := (List.getElem?_eq_some_iff.1 hx).1
  cases ev with
  | connect u d =>
    refine ⟨x, [], ?_, by simp⟩
    simp only [World.step]
    rw [List.getElem?_append_left hc]; exact hx
  | net d e =>
    simp only [World.step, List.getElem?_modify]
    by_cases hd : d = c
    · refine ⟨x.step e, [], by simp [hd, hx], by rw [conn_step_got]; simp⟩
    · exact ⟨x, [], by simp [hd, hx], by simp⟩
  | serve d =>
    simp only [World.step]
    cases hd : w.conns[d]? with
    | none => exact ⟨x, [], hx, by simp⟩
    | some z =>
      simp only
      split
      · exact ⟨x, [], hx, by simp⟩
      · have key : ∃ y t, (w.conns.modify d (fun x => { x with up := x.up.poll }))[c]? = some y ∧ y.up.got = x.up.got ++ t := by
          rw [List.getElem?_modify]
          by_cases hdc : d = c
          · exact ⟨{ x with up := x.up.poll }, _, by simp [hdc, hx], rfl⟩
          · exact ⟨x, [], by simp [hdc, hx], by simp⟩
        split
        · exact key
        · exact key
  | act i ch =>
    simp only [World.step]
    split
    · exact ⟨x, [], hx, by simp⟩
    · split
      · rename_i t _ _ o _
        simp only [List.getElem?_modify]
        by_cases hd : t.conn = c
        · exact ⟨x.reply t.msg.id o, [], by simp [hd, hx], by rw [reply_got]; simp⟩
        · exact ⟨x, [], by simp [hd, hx], by simp⟩
      · exact ⟨x, [], hx, by simp⟩
  | restart => exact ⟨{ x with gone := true }, [], by simp [World.step, hx], by simp⟩

theorem World.NeverRight.before {w : World E S} {ev : WEv S} {c : Nat} (h : (w.step ev).NeverRight c) : w.NeverRight c := by
  intro x hx i p hm
  obtain ⟨y, t, hy, hg⟩ := world_step_got w ev c x hx
  exact h y hy i p (by rw [hg]; exact List.mem_append_left _ hm)

/-- A message that reaches the server is among what it has received. -/
theorem served_got {w : World E S} {c : Nat} {x : Conn S} {m : Msg} (hx : w.conns[c]? = some x) (hg : x.gone = false)
    (hm : x.up.rcv.poll.1 = .item m) (h : (w.step (.serve c)).NeverRight c) : NotRight E c (.recv c m) := by
  intro i p he
  cases he
  refine h { x with up := x.up.poll } ?_ i p ?_
  · simp [World.step, World.sysStep, hx, hg, hm]
  · simp [Link.poll, hm, Polled.toList]

/-! ### The simulations, event by event -/

/-- A step of a request beside which the client of `c` is missing: it is a request of that client, or the other run has the
    same request and makes the same step. -/
theorem others_act {c : Nat} {s s' : Sys E} (h : RestSim c s s') (i : Nat) (ch : Choice) :
    ((∀ t, s.threads[i]? = some t → t.conn = c) ∧ RestSim c (s.step (.step i ch)) s') ∨
    ∃ t t' i', s.threads[i]? = some t ∧ t.conn ≠ c ∧ s'.threads[i']? = some t' ∧ SameReq t t' ∧
      RestSim c (s.step (.step i ch)) (s'.step (.step i' ch)) := by
  cases hti : s.threads[i]? with
  | none => exact .inl ⟨by simp, by rw [step_none s i ch hti]; exact h⟩
  | some t =>
    obtain ⟨a, b, hl, hi⟩ := split_at hti
    subst hi
    by_cases hc : t.conn = c
    · refine .inl ⟨fun u hu => by cases hu; exact hc, ?_⟩
      have hth := h.threads
      rw [hl, List.filter_append, List.filter_cons_of_neg (by simp [hc]), ← List.filter_append] at hth
      have hidle := h.idle t (List.mem_of_getElem? hti) hc
      have hfin : ∀ o, RestSim c (s.finish a.length t o) s' := by
        intro o
        refine ⟨?_, fun t' ht' => h.idle t' (List.mem_of_mem_eraseIdx ht'), h.flag, h.sh, h.deeds⟩
        simp only [Sys.finish]; rw [hl, erase_mid]; exact hth
      have hperf : ∀ (x : Act) (k : x.Out → Prog Resp), (exec t.conn ch s.sh x).2.1 = s.sh →
          (exec t.conn ch s.sh x).2.2.filter (fun ev => ev ≠ .fault) = [] → Idle (k (exec t.conn ch s.sh x).1) →
          RestSim c (s.perform a.length t ch x k) s' := by
        intro x k g1 g2 g3
        refine ⟨?_, ?_, ?_, ?_, ?_⟩
        · simp only [Sys.perform]
          rw [hl, set_mid, List.filter_append, List.filter_cons_of_neg (by simp [hc]), ← List.filter_append]
          exact hth
        · intro t' ht' hc'
          rcases List.mem_or_eq_of_mem_set ht' with ht' | rfl
          · exact h.idle t' ht' hc'
          · exact g3
        · simp only [Sys.perform, g1]; exact h.flag
        · simp only [Sys.perform, g1]; exact h.sh
        · rw [h.deeds]
          simp only [Sys.deeds, Sys.perform]
          rw [deeds_append, g2, List.append_nil]
      obtain ⟨p', hb⟩ := hidle
      generalize hp : t.prog = p at hb
      cases hb with
      | ret r => rw [step_ret s _ ch t r hti hp]; exact hfin _
      | fail e => rw [step_fail s _ ch t e hti hp]; exact hfin _
      | load k k' hk =>
        rw [step_act s _ ch t _ k hti hp]
        refine hperf .loadUnlocked k rfl rfl ⟨k' false, ?_⟩
        simp only [exec]
        rw [hc, h.flag]
        exact hk
      | alloc k k' hk =>
        rw [step_act s _ ch t _ k hti hp]
        refine hperf .alloc k (exec_alloc_sh _ _ _) ?_ ⟨_, hk _⟩
        cases hfa : ch.fault <;> simp [exec, hfa]
    · have hth := h.threads
      rw [hl, List.filter_append, List.filter_cons_of_pos (by simp [hc])] at hth
      obtain ⟨a', t', b', hl', h1, h2, h3⟩ := hth.split
      have hti' : s'.threads[a'.length]? = some t' := by rw [hl']; exact get_mid _ _ _
      have hfin : ∀ o, RestSim c (s.finish a.length t o) (s'.finish a'.length t' o) := by
        intro o
        refine ⟨?_, fun t' ht' => h.idle t' (List.mem_of_mem_eraseIdx ht'), h.flag, h.sh, h.deeds⟩
        simp only [Sys.finish]
        rw [hl, hl', erase_mid, erase_mid, List.filter_append]
        exact h1.append h3
      refine .inr ⟨t, t', a'.length, rfl, hc, hti', h2, ?_⟩
      cases hp : t.prog with
      | ret r =>
        rw [step_ret s _ ch t r hti hp, step_ret s' _ ch t' r hti' (by rw [← h2.prog]; exact hp)]; exact hfin _
      | fail e =>
        rw [step_fail s _ ch t e hti hp, step_fail s' _ ch t' e hti' (by rw [← h2.prog]; exact hp)]; exact hfin _
      | step x k =>
        rw [step_act s _ ch t x k hti hp, step_act s' _ ch t' x k hti' (by rw [← h2.prog]; exact hp)]
        refine ⟨?_, ?_, ?_, ?_, ?_⟩
        · simp only [Sys.perform]
          rw [hl, hl', set_mid, set_mid, List.filter_append, List.filter_cons_of_pos (by simp [hc])]
          refine h1.append (.cons ⟨h2.conn, h2.msg, ?_⟩ h3)
          simp only
          rw [h.sh, h2.conn]
        · intro u hu hcu
          rcases List.mem_or_eq_of_mem_set hu with hu | rfl
          · exact h.idle u hu hcu
          · exact absurd hcu hc
        · rw [← h.flag]; exact flag_other c t.conn ch s.sh x hc
        · simp only [Sys.perform]; rw [h.sh, h2.conn]
        · have hd := h.deeds
          simp only [Sys.deeds, Sys.perform] at hd ⊢
          rw [deeds_append, deeds_append, hd, h.sh, h2.conn]

theorem others_recv_c {c : Nat} {s s' : Sys E} (h : RestSim c s s') (m : Msg) (hno : NotRight E c (.recv c m)) :
    RestSim c (s.step (.recv c m)) s' := by
  refine ⟨?_, ?_, h.flag, h.sh, h.deeds⟩
  · simp only [Sys.step, List.filter_append]
    simpa using h.threads
  · intro t ht hc
    rcases List.mem_append.1 ht with ht | ht
    · exact h.idle t ht hc
    · simp at ht; subst ht
      exact ⟨_, bsim_handle (SameFront.refl E c) m (fun i p hm => hno i p (by rw [hm]))⟩

theorem others_recv_d {c : Nat} {s s' : Sys E} (h : RestSim c s s') (d : Nat) (hd : d ≠ c) (m : Msg) :
    RestSim c (s.step (.recv d m)) (s'.step (.recv d m)) := by
  refine ⟨?_, ?_, h.flag, h.sh, h.deeds⟩
  · simp only [Sys.step, List.filter_append]
    refine h.threads.append ?_
    simp [hd]
    exact .cons ⟨rfl, rfl, rfl⟩ .nil
  · intro t ht hc
    rcases List.mem_append.1 ht with ht | ht
    · exact h.idle t ht hc
    · simp at ht; subst ht
      exact absurd hc hd

theorem others_restart {c : Nat} {s s' : Sys E} (h : RestSim c s s') : RestSim c (s.step .restart) (s'.step .restart) := by
  refine ⟨?_, ?_, rfl, ?_, h.deeds⟩
  · simp [Sys.step]; exact .nil
  · simp [Sys.step]
  · simp [Sys.step, h.sh]

theorem bsim_outcome {p p' : Prog Resp} (h : BSim p p') : outcomeOf p = outcomeOf p' := by cases h <;> rfl

/-- A step of a request beside the client of `c` on another keystore: it is somebody else's, or there is the twin of the
    request, with the same outcome. -/
theorem alone_act {c : Nat} {st' : E'.S.σ} {s : Sys E} {s' : Sys E'} (h : SoloSim c st' s s') (i : Nat) (ch : Choice) :
    ((∀ t, s.threads[i]? = some t → t.conn ≠ c) ∧ SoloSim c st' (s.step (.step i ch)) s') ∨
    ∃ t t' i', s.threads[i]? = some t ∧ s'.threads[i']? = some t' ∧ Twin c t t' ∧
      SoloSim c st' (s.step (.step i ch)) (s'.step (.step i' ch)) := by
  cases hti : s.threads[i]? with
  | none => exact .inl ⟨by simp, by rw [step_none s i ch hti]; exact h⟩
  | some t =>
    obtain ⟨a, b, hl, hi⟩ := split_at hti
    subst hi
    by_cases hc : t.conn = c
    · have hth := h.threads
      rw [hl, List.filter_append, List.filter_cons_of_pos (by simp [hc])] at hth
      obtain ⟨a', t', b', hl', h1, h2, h3⟩ := hth.split
      have hti' : s'.threads[a'.length]? = some t' := by rw [hl']; exact get_mid _ _ _
      have hfin : ∀ o : Res Resp, SoloSim c st' (s.finish a.length t o) (s'.finish a'.length t' o) := by
        intro o
        refine ⟨?_, h.flag, h.flag', h.store⟩
        simp only [Sys.finish]
        rw [hl, hl', erase_mid, erase_mid, List.filter_append]
        exact h1.append h3
      refine .inr ⟨t, t', a'.length, rfl, hti', h2, ?_⟩
      have hb := h2.prog
      have hperf : ∀ (x : Act) (k k' : x.Out → Prog Resp), (exec t.conn ch s.sh x).2.1.unlocked c = false →
          (exec t'.conn ch s'.sh x).2.1.unlocked c = false → (exec t'.conn ch s'.sh x).2.1.store = s'.sh.store →
          BSim (k (exec t.conn ch s.sh x).1) (k' (exec t'.conn ch s'.sh x).1) →
          SoloSim c st' (s.perform a.length t ch x k) (s'.perform a'.length t' ch x k') := by
        intro x k k' g1 g2 g3 g4
        refine ⟨?_, g1, g2, by rw [← h.store]; exact g3⟩
        simp only [Sys.perform]
        rw [hl, hl', set_mid, set_mid, List.filter_append, List.filter_cons_of_pos (by simp [hc])]
        exact h1.append (.cons ⟨hc, h2.conn', h2.msg, g4⟩ h3)
      generalize hp : t.prog = p at hb
      generalize hp' : t'.prog = p' at hb
      cases hb with
      | ret r => rw [step_ret s _ ch t r hti hp, step_ret s' _ ch t' r hti' hp']; exact hfin _
      | fail e => rw [step_fail s _ ch t e hti hp, step_fail s' _ ch t' e hti' hp']; exact hfin _
      | load k k' hk =>
        rw [step_act s _ ch t _ k hti hp, step_act s' _ ch t' _ k' hti' hp']
        refine hperf _ _ _ h.flag h.flag' rfl ?_
        simp only [exec]
        rw [hc, h2.conn', h.flag, h.flag']
        exact hk
      | alloc k k' hk =>
        rw [step_act s _ ch t _ k hti hp, step_act s' _ ch t' _ k' hti' hp']
        refine hperf .alloc k k' ?_ ?_ ?_ ?_
        · rw [exec_alloc_sh]; exact h.flag
        · rw [exec_alloc_sh]; exact h.flag'
        · rw [exec_alloc_sh]
        · rw [exec_alloc_out t.conn t'.conn ch s.sh s'.sh]; exact hk _
    · refine .inl ⟨fun u hu => by cases hu; exact hc, ?_⟩
      have hth := h.threads
      rw [hl, List.filter_append, List.filter_cons_of_neg (by simp [hc]), ← List.filter_append] at hth
      cases hp : t.prog with
      | ret r =>
        rw [step_ret s _ ch t r hti hp]
        refine ⟨?_, h.flag, h.flag', h.store⟩
        simp only [Sys.finish]; rw [hl, erase_mid]; exact hth
      | fail e =>
        rw [step_fail s _ ch t e hti hp]
        refine ⟨?_, h.flag, h.flag', h.store⟩
        simp only [Sys.finish]; rw [hl, erase_mid]; exact hth
      | step x k =>
        rw [step_act s _ ch t x k hti hp]
        refine ⟨?_, by rw [← h.flag]; exact flag_other c t.conn ch s.sh x hc, h.flag', h.store⟩
        simp only [Sys.perform]; rw [hl, set_mid, List.filter_append, List.filter_cons_of_neg (by simp [hc]), ← List.filter_append]
        exact hth

theorem alone_recv_c {c : Nat} {st' : E'.S.σ} {s : Sys E} {s' : Sys E'} (hf : SameFront E E' c) (h : SoloSim c st' s s')
    (m : Msg) (hno : NotRight E c (.recv c m)) : SoloSim c st' (s.step (.recv c m)) (s'.step (.recv c m)) := by
  refine ⟨?_, h.flag, h.flag', h.store⟩
  simp only [Sys.step, List.filter_append]
  refine h.threads.append ?_
  simp
  exact .cons ⟨rfl, rfl, rfl, bsim_handle hf m (fun i p hm => hno i p (by rw [hm]))⟩ .nil

theorem alone_recv_d {c : Nat} {st' : E'.S.σ} {s : Sys E} {s' : Sys E'} (h : SoloSim c st' s s') (d : Nat) (hd : d ≠ c)
    (m : Msg) : SoloSim c st' (s.step (.recv d m)) s' := by
  refine ⟨?_, h.flag, h.flag', h.store⟩
  simp only [Sys.step, List.filter_append]
  simpa [hd] using h.threads

theorem alone_restart {c : Nat} {st' : E'.S.σ} {s : Sys E} {s' : Sys E'} (h : SoloSim c st' s s') :
    SoloSim c st' (s.step .restart) (s'.step .restart) := by
  refine ⟨?_, rfl, rfl, h.store⟩
  simp [Sys.step]
  exact .nil

/-! ### Everyone else without the client of `c` -/

/-- Simulation relation (ghost): the same but for connection `c`. -/
structure WorldRest (c : Nat) (w w' : World E S) : Prop where
  sys : RestSim c w.sys w'.sys
  len : w'.conns.length = w.conns.length
  same : ∀ d, d ≠ c → w'.conns[d]? = w.conns[d]?

/-- No new kinds of events: what happens on a connection in `evs'` happens on it in `evs`.
    Proof device: nothing in the code corresponds. -/
def Within (evs' evs : List (WEv S)) : Prop :=
  ∀ d, (∀ e, WEv.net d e ∈ evs' → WEv.net d e ∈ evs) ∧ (WEv.serve d ∈ evs' → WEv.serve d ∈ evs)

theorem worldRest_step {c : Nat} {w w' : World E S} (h : WorldRest c w w') (ev : WEv S) (hno : (w.step ev).NeverRight c) :
    ∃ evs', QuietOn c evs' ∧ Within evs' [ev] ∧ WorldRest c (w.step ev) (evs'.foldl World.step w') := by
  have skip : WorldRest c (w.step ev) w' →
      ∃ evs', QuietOn c evs' ∧ Within evs' [ev] ∧ WorldRest c (w.step ev) (evs'.foldl World.step w') :=
    fun h1 => ⟨[], by intro e he; simp at he, by intro d; simp, h1⟩
  have one : ∀ ev' : WEv S, (∀ e, ev' ≠ .net c e) → ev' ≠ .serve c → Within [ev'] [ev] → WorldRest c (w.step ev) (w'.step ev') →
      ∃ evs', QuietOn c evs' ∧ Within evs' [ev] ∧ WorldRest c (w.step ev) (evs'.foldl World.step w') := by
    intro ev' h0 h1 h2 h3
    exact ⟨[ev'], by intro e he; simp at he; subst he; exact ⟨h0, h1⟩, h2, h3⟩
  have wself : Within [ev] [ev] := fun d => ⟨fun _ h => h, fun h => h⟩
  cases ev with
  | connect u d =>
    refine one (.connect u d) (fun _ he => by cases he) (fun he => by cases he) wself ⟨h.sys, by simp [World.step, h.len], ?_⟩
    intro x hx
    simp only [World.step]
    by_cases hl : x < w.conns.length
    · rw [List.getElem?_append_left (by rw [h.len]; exact hl), List.getElem?_append_left hl]; exact h.same x hx
    · rw [List.getElem?_append_right (by rw [h.len]; omega), List.getElem?_append_right (by omega), h.len]
  | net d e =>
    by_cases hd : d = c
    · refine skip ⟨h.sys, by simp [World.step, h.len], ?_⟩
      intro x hx
      simp only [World.step]
      rw [modify_other _ _ (by rw [hd]; exact Ne.symm hx)]
      exact h.same x hx
    · refine one (.net d e) (fun _ he => by cases he; exact hd rfl) (fun he => by cases he) wself
        ⟨h.sys, by simp [World.step, h.len], ?_⟩
      intro x hx
      simp only [World.step, List.getElem?_modify]
      rw [h.same x hx]
  | serve d =>
    by_cases hd : d = c
    · subst hd
      refine skip ?_
      have hst : ∀ w1 : World E S, w1 = w.step (.serve d) → w1.NeverRight d → WorldRest d w1 w' := by
        intro w1 hw1 hn
        simp only [World.step] at hw1
        cases hx : w.conns[d]? with
        | none => rw [hx] at hw1; subst hw1; exact h
        | some x =>
          rw [hx] at hw1
          simp only at hw1
          split at hw1
          · subst hw1; exact h
          · rename_i hg
            have hsame : ∀ k, k ≠ d → w'.conns[k]? = (w.conns.modify d (fun x => { x with up := x.up.poll }))[k]? := by
              intro k hk
              rw [modify_other _ _ (Ne.symm hk)]
              exact h.same k hk
            cases hp : x.up.rcv.poll.1 with
            | item m =>
              rw [hp] at hw1
              simp only at hw1
              rw [hw1]
              refine ⟨others_recv_c h.sys m (served_got hx (by simpa using hg) hp hno), ?_, hsame⟩
              simp [World.sysStep, h.len]
            | _ =>
              rw [hp] at hw1
              simp only at hw1
              rw [hw1]
              exact ⟨h.sys, by simp [h.len], hsame⟩
      exact hst _ rfl hno
    · refine one (.serve d) (fun _ he => by cases he) (fun he => by cases he; exact hd rfl) wself ?_
      simp only [World.step]
      rw [h.same d hd]
      cases hx : w.conns[d]? with
      | none => exact h
      | some x =>
        simp only
        split
        · exact h
        · have hsame : ∀ k, k ≠ c → (w'.conns.modify d (fun x => { x with up := x.up.poll }))[k]? =
              (w.conns.modify d (fun x => { x with up := x.up.poll }))[k]? := by
            intro k hk
            rw [List.getElem?_modify, List.getElem?_modify, h.same k hk]
          cases hp : x.up.rcv.poll.1 with
          | item m => exact ⟨others_recv_d h.sys d hd m, by simp [World.sysStep, h.len], hsame⟩
          | _ => exact ⟨h.sys, by simp [h.len], hsame⟩
  | act i ch =>
    rcases others_act h.sys i ch with ⟨hc, hs⟩ | ⟨t, t', i', ht, hc, ht', hr, hs⟩
    · refine skip ?_
      simp only [World.step]
      cases ht : w.sys.threads[i]? with
      | none => exact ⟨hs, h.len, h.same⟩
      | some t =>
        simp only
        split
        · refine ⟨hs, by simp [h.len], ?_⟩
          intro k hk
          rw [modify_other _ _ (by rw [hc t ht]; exact Ne.symm hk)]
          exact h.same k hk
        · exact ⟨hs, h.len, h.same⟩
    · refine one (.act i' ch) (fun _ he => by cases he) (fun he => by cases he) (by intro d; simp) ?_
      simp only [World.step, ht, ht', hr.prog]
      split
      · rename_i o _
        refine ⟨hs, by simp [h.len], ?_⟩
        intro k hk
        simp only [List.getElem?_modify]
        rw [h.same k hk, hr.conn, hr.msg]
      · exact ⟨hs, h.len, h.same⟩
  | restart =>
    refine one .restart (fun _ he => by cases he) (fun he => by cases he) wself
      ⟨others_restart h.sys, by simp [World.step, World.sysStep, h.len], ?_⟩
    intro k hk
    simp only [World.step, List.getElem?_map]
    rw [h.same k hk]

theorem worldRest_run {c : Nat} (st : E.S.σ) (evs : List (WEv S)) (hno : (World.run E S st evs).NeverRight c) :
    ∃ evs', QuietOn c evs' ∧ Within evs' evs ∧ WorldRest c (World.run E S st evs) (World.run E S st evs') := by
  induction evs using snocInd with
  | nil => exact ⟨[], by intro e he; simp at he, fun d => by simp, ⟨⟨.nil, by simp [World.run, World.init, Sys.init], rfl, rfl, rfl⟩, rfl, fun _ _ => rfl⟩⟩
  | snoc evs ev ih =>
    have hr : World.run E S st (evs ++ [ev]) = (World.run E S st evs).step ev := by simp [World.run]
    rw [hr] at hno ⊢
    obtain ⟨e1, a1, a2, a3⟩ := ih hno.before
    obtain ⟨e2, b1, b2, b3⟩ := worldRest_step a3 ev hno
    refine ⟨e1 ++ e2, ?_, ?_, ?_⟩
    · intro e he
      rcases List.mem_append.1 he with he | he
      · exact a1 e he
      · exact b1 e he
    · intro d
      constructor
      · intro e he
        rcases List.mem_append.1 he with he | he
        · exact List.mem_append_left _ ((a2 d).1 e he)
        · exact List.mem_append_right _ ((b2 d).1 e he)
      · intro he
        rcases List.mem_append.1 he with he | he
        · exact List.mem_append_left _ ((a2 d).2 he)
        · exact List.mem_append_right _ ((b2 d).2 he)
    · rw [show World.run E S st (e1 ++ e2) = e2.foldl World.step (World.run E S st e1) by simp [World.run]]
      exact b3

/-! ### The client of `c` alone on another keystore -/

/-- Simulation relation (ghost): the same connection `c`. -/
structure WorldSolo (c : Nat) (st' : E'.S.σ) (w : World E S) (w' : World E' S) : Prop where
  sys : SoloSim c st' w.sys w'.sys
  len : w'.conns.length = w.conns.length
  same : w'.conns[c]? = w.conns[c]?

/-- Only on connection `c` does anything happen. Specification: nothing in the code corresponds. -/
def OnlyOn (c : Nat) (evs : List (WEv S)) : Prop := ∀ d, d ≠ c → QuietOn d evs

theorem worldSolo_step {c : Nat} {st' : E'.S.σ} {w : World E S} {w' : World E' S} (hf : SameFront E E' c)
    (h : WorldSolo c st' w w') (ev : WEv S) (hno : (w.step ev).NeverRight c) :
    ∃ evs', OnlyOn c evs' ∧ WorldSolo c st' (w.step ev) (evs'.foldl World.step w') := by
  have skip : WorldSolo c st' (w.step ev) w' →
      ∃ evs', OnlyOn c evs' ∧ WorldSolo c st' (w.step ev) (evs'.foldl World.step w') :=
    fun h1 => ⟨[], by intro d _ e he; simp at he, h1⟩
  have one : ∀ ev' : WEv S, (∀ d, d ≠ c → (∀ e, ev' ≠ .net d e) ∧ ev' ≠ .serve d) → WorldSolo c st' (w.step ev) (w'.step ev') →
      ∃ evs', OnlyOn c evs' ∧ WorldSolo c st' (w.step ev) (evs'.foldl World.step w') := by
    intro ev' h0 h1
    exact ⟨[ev'], by intro d hd e he; simp at he; subst he; exact h0 d hd, h1⟩
  cases ev with
  | connect u d =>
    refine one (.connect u d) (fun _ _ => ⟨(fun _ he => by cases he), (fun he => by cases he)⟩)
      ⟨h.sys, by simp [World.step, h.len], ?_⟩
    simp only [World.step]
    by_cases hl : c < w.conns.length
    · rw [List.getElem?_append_left (by rw [h.len]; exact hl), List.getElem?_append_left hl]; exact h.same
    · rw [List.getElem?_append_right (by rw [h.len]; omega), List.getElem?_append_right (by omega), h.len]
  | net d e =>
    by_cases hd : d = c
    · refine one (.net d e) (fun x hx => ⟨(fun _ he => by cases he; exact hx hd), (fun he => by cases he)⟩)
        ⟨h.sys, by simp [World.step, h.len], ?_⟩
      simp only [World.step, List.getElem?_modify]
      rw [h.same]
    · refine skip ⟨h.sys, by simp [World.step, h.len], ?_⟩
      simp only [World.step]
      rw [modify_other _ _ hd]
      exact h.same
  | serve d =>
    by_cases hd : d = c
    · subst hd
      refine one (.serve d) (fun x hx => ⟨(fun _ he => by cases he), (fun he => by cases he; exact hx rfl)⟩) ?_
      simp only [World.step]
      rw [h.same]
      cases hx : w.conns[d]? with
      | none => exact h
      | some x =>
        simp only
        split
        · exact h
        · rename_i hg
          have hsame : (w'.conns.modify d (fun x => { x with up := x.up.poll }))[d]? =
              (w.conns.modify d (fun x => { x with up := x.up.poll }))[d]? := by
            rw [List.getElem?_modify, List.getElem?_modify, h.same]
          cases hp : x.up.rcv.poll.1 with
          | item m =>
            exact ⟨alone_recv_c hf h.sys m (served_got hx (by simpa using hg) hp hno), by simp [World.sysStep, h.len], hsame⟩
          | _ => exact ⟨h.sys, by simp [h.len], hsame⟩
    · refine skip ?_
      simp only [World.step]
      cases hx : w.conns[d]? with
      | none => exact h
      | some x =>
        simp only
        split
        · exact h
        · have hsame : w'.conns[c]? = (w.conns.modify d (fun x => { x with up := x.up.poll }))[c]? := by
            rw [modify_other _ _ hd]
            exact h.same
          cases hp : x.up.rcv.poll.1 with
          | item m => exact ⟨alone_recv_d h.sys d hd m, by simp [World.sysStep, h.len], hsame⟩
          | _ => exact ⟨h.sys, by simp [h.len], hsame⟩
  | act i ch =>
    rcases alone_act h.sys i ch with ⟨hc, hs⟩ | ⟨t, t', i', ht, ht', hr, hs⟩
    · refine skip ?_
      simp only [World.step]
      cases ht : w.sys.threads[i]? with
      | none => exact ⟨hs, h.len, h.same⟩
      | some t =>
        simp only
        split
        · refine ⟨hs, by simp [h.len], ?_⟩
          rw [modify_other _ _ (hc t ht)]
          exact h.same
        · exact ⟨hs, h.len, h.same⟩
    · refine one (.act i' ch) (fun _ _ => ⟨(fun _ he => by cases he), (fun he => by cases he)⟩) ?_
      simp only [World.step, ht, ht', bsim_outcome hr.prog]
      split
      · refine ⟨hs, by simp [h.len], ?_⟩
        simp only [List.getElem?_modify]
        rw [h.same, hr.conn, hr.conn', hr.msg]
      · exact ⟨hs, h.len, h.same⟩
  | restart =>
    refine one .restart (fun _ _ => ⟨(fun _ he => by cases he), (fun he => by cases he)⟩)
      ⟨alone_restart h.sys, by simp [World.step, World.sysStep, h.len], ?_⟩
    simp only [World.step, List.getElem?_map]
    rw [h.same]

theorem worldSolo_run {c : Nat} (hf : SameFront E E' c) (st : E.S.σ) (st' : E'.S.σ) (evs : List (WEv S))
    (hno : (World.run E S st evs).NeverRight c) :
    ∃ evs', OnlyOn c evs' ∧ WorldSolo c st' (World.run E S st evs) (World.run E' S st' evs') := by
  induction evs using snocInd with
  | nil => exact ⟨[], by intro d _ e he; simp at he, ⟨⟨.nil, rfl, rfl, rfl⟩, rfl, rfl⟩⟩
  | snoc evs ev ih =>
    have hr : World.run E S st (evs ++ [ev]) = (World.run E S st evs).step ev := by simp [World.run]
    rw [hr] at hno ⊢
    obtain ⟨e1, a1, a3⟩ := ih hno.before
    obtain ⟨e2, b1, b3⟩ := worldSolo_step hf a3 ev hno
    refine ⟨e1 ++ e2, ?_, ?_⟩
    · intro d hd e he
      rcases List.mem_append.1 he with he | he
      · exact a1 d hd e he
      · exact b1 d hd e he
    · rw [show World.run E' S st' (e1 ++ e2) = e2.foldl World.step (World.run E' S st' e1) by simp [World.run]]
      exact b3

end Lair
