import Verif.Props.World

/-
C56, continued: the end of the server process, and how often a request is answered.
-/
namespace Lair

variable {S : SStream} {E : Env} {st : E.S.σ}

/-! ### After the server process has ended -/

theorem run_more (evs more : List (WEv S)) : World.run E S st (evs ++ more) = more.foldl World.step (World.run E S st evs) := by
  simp [World.run]

theorem conn_gone_step (x : Conn S) (e : NEv) (h : x.gone = true) : (x.step e).gone = true := by
  cases e <;> simp only [Conn.step, Conn.cliStep] <;> repeat' split
  all_goals exact h

theorem gone_reply (x : Conn S) (id : String) (o : Res Resp) (h : x.gone = true) : (x.reply id o).gone = true := by
  cases o <;> exact h

theorem modify_gone {l : List (Conn S)} {i : Nat} {f : Conn S → Conn S} (hf : ∀ x : Conn S, x.gone = true → (f x).gone = true) {c : Nat} {x : Conn S}
    (h : l[c]? = some x) (hg : x.gone = true) : ∃ y, (l.modify i f)[c]? = some y ∧ y.gone = true := by
  rw [List.getElem?_modify, h]
  refine ⟨_, rfl, ?_⟩
  split
  · exact hf x hg
  · exact hg

/-- What the server has received on connection `c`. -/
def World.handled (w : World E S) (c : Nat) : List Msg := (w.sys.inbox.filter (fun p => p.1 = c)).map Prod.snd

theorem gone_world (w : World E S) (e : WEv S) {c : Nat} {x : Conn S} (h : w.conns[c]? = some x) (hg : x.gone = true) :
    (∃ y, (w.step e).conns[c]? = some y ∧ y.gone = true) ∧ (w.step e).handled c = w.handled c := by
  cases e with
  | connect u d =>
    refine ⟨⟨x, ?_, hg⟩, rfl⟩
    show (w.conns ++ [_])[c]? = _
    rw [List.getElem?_append_left (List.getElem?_eq_some_iff.mp h).1]; exact h
  | net i e => exact ⟨modify_gone (fun x hx => conn_gone_step x e hx) h hg, rfl⟩
  | serve i =>
    simp only [World.step]
    split
    · exact ⟨⟨x, h, hg⟩, rfl⟩
    · rename_i z hz
      split
      · exact ⟨⟨x, h, hg⟩, rfl⟩
      · rename_i hzg
        have hne : i ≠ c := by rintro rfl; rw [h] at hz; cases hz; exact hzg hg
        have := modify_gone (l := w.conns) (i := i) (f := fun x => { x with up := x.up.poll }) (fun x hx => hx) h hg
        split
        · refine ⟨this, ?_⟩
          simp [World.handled, World.sysStep, Sys.step, List.filter_append, hne]
        · exact ⟨this, rfl⟩
  | act i ch =>
    have hin : (w.sys.step (.step i ch)).inbox = w.sys.inbox := wInbox_step _ _ (by simp)
    simp only [World.step]
    split
    · exact ⟨⟨x, h, hg⟩, by simp only [World.handled, World.sysStep, hin]⟩
    · split
      · exact ⟨modify_gone (fun x hx => gone_reply x _ _ hx) h hg, by simp only [World.handled, World.sysStep, hin]⟩
      · exact ⟨⟨x, h, hg⟩, by simp only [World.handled, World.sysStep, hin]⟩
  | restart =>
    refine ⟨⟨{ x with gone := true }, ?_, rfl⟩, rfl⟩
    show (w.conns.map _)[c]? = _
    rw [List.getElem?_map, h]; rfl

theorem gone_run (more : List (WEv S)) (w : World E S) {c : Nat} {x : Conn S} (h : w.conns[c]? = some x) (hg : x.gone = true) :
    (more.foldl World.step w).handled c = w.handled c := by
  induction more generalizing w x with
  | nil => rfl
  | cons e es ih =>
    obtain ⟨⟨y, h1, h2⟩, h3⟩ := gone_world w e h hg
    exact (ih _ h1 h2).trans h3

/-- C56. Once the server process has ended, nothing more is ever handled for its connections, whatever arrives. -/
theorem C56_nothing_handled_after_restart (evs more : List (WEv S)) (c : Nat) (hc : c < (World.run E S st evs).conns.length) :
    (World.run E S st (evs ++ .restart :: more)).handled c = (World.run E S st evs).handled c := by
  obtain ⟨x, hx⟩ : ∃ x, (World.run E S st evs).conns[c]? = some x := ⟨_, List.getElem?_eq_getElem hc⟩
  rw [run_more]
  refine (gone_run more ((World.run E S st evs).step .restart) (x := { x with gone := true }) ?_ rfl).trans rfl
  show ((World.run E S st evs).conns.map _)[c]? = _
  rw [List.getElem?_map, hx]; rfl

/-- C56. So a request made on such a connection after that never succeeds: a client has to connect again. -/
theorem C56_no_success_after_restart (L : S.Lawful) (evs more : List (WEv S)) (c k : Nat) (v : Resp)
    (hc : c < (World.run E S st evs).conns.length) (hk : (World.run E S st evs).request c k = none)
    (hu : (World.run E S st evs).Unforged c) (hu' : (World.run E S st (evs ++ .restart :: more)).Unforged c)
    (hf : (World.run E S st (evs ++ .restart :: more)).FreshIds c) :
    (World.run E S st (evs ++ .restart :: more)).result c k ≠ some (.ok v) := by
  intro hr
  have hnew : ∃ id q, (World.run E S st (evs ++ .restart :: more)).request c k = some (id, q) := by
    unfold World.result at hr
    cases hx : (World.run E S st (evs ++ .restart :: more)).conns[c]? with
    | none => rw [hx] at hr; cases hr
    | some x =>
      rw [hx] at hr
      simp only at hr
      split at hr
      · rename_i a _ _ _ ha _
        exact ⟨a.id, a.req, request_of hx ha⟩
      · cases hr
  obtain ⟨id, q, hq⟩ := hnew
  obtain ⟨-, d, hd, h1, h2, -⟩ := C56_result_is_own L _ c k id q v hu' hf hq hr
  have hbox : (World.run E S st (evs ++ .restart :: more)).sys.inbox[d.id]? = some (c, .req id q) := by
    have hsys := C56_server_run (E := E) (S := S) (st := st) (evs ++ .restart :: more)
    rw [hsys] at hd ⊢
    have := ((idInv_run st _).done d hd).1
    rw [h1, h2] at this
    exact this
  have hmem : .req id q ∈ (World.run E S st (evs ++ .restart :: more)).handled c :=
    List.mem_map.mpr ⟨(c, .req id q), List.mem_filter.mpr ⟨List.mem_of_getElem? hbox, by simp⟩, rfl⟩
  rw [C56_nothing_handled_after_restart evs more c hc] at hmem
  obtain ⟨⟨c', m'⟩, hm, he⟩ := List.mem_map.mp hmem
  simp only [List.mem_filter, decide_eq_true_eq] at hm
  obtain ⟨hm, rfl⟩ := hm
  simp only at he
  subst he
  obtain ⟨j, hj⟩ := List.mem_iff_getElem?.mp hm
  obtain ⟨k', id', q', hq', he⟩ := C56_only_what_was_asked L evs c' j _ hu hj
  cases he
  -- the old request with this id is still there, at another place
  obtain ⟨x, a, hx, ha, ha1, ha2⟩ := request_some hq'
  rw [run_more] at hq hf
  obtain ⟨y, hy, hg⟩ := grows_run (.restart :: more) _ hx
  obtain ⟨y', b, hy', hb, hb1, -⟩ := request_some hq
  rw [hy] at hy'; cases hy'
  have ha' : y.asked[k']? = some a := by
    obtain ⟨t, ht⟩ := hg.asked
    rw [← ht, List.getElem?_append_left (List.getElem?_eq_some_iff.mp ha).1]; exact ha
  have hnd := hf y hy
  have hkk : k' = k := by
    have h3 : (y.asked.map Asked.id)[k']? = some id := by rw [List.getElem?_map, ha']; simp [ha1]
    have h4 : (y.asked.map Asked.id)[k]? = some id := by rw [List.getElem?_map, hb]; simp [hb1]
    exact (List.getElem?_inj (List.getElem?_eq_some_iff.mp h3).1 hnd).mp (h3.trans h4.symm)
  subst hkk
  rw [hq'] at hk
  cases hk

/-! ### How often a request is answered -/

theorem SndSt.done_stays (s : SndSt S) (e : SEv) {k : Nat} {m : Option Msg} {r : Res Unit} (h : s.calls[k]? = some ⟨m, .done r⟩) :
    (s.step e).calls[k]? = some ⟨m, .done r⟩ := by
  have hset : ∀ (t : SndSt S) (j : Nat) (p : SPhase), t.calls = s.calls → j ≠ k → (t.set j p).calls[k]? = some ⟨m, .done r⟩ := by
    intro t j p ht hp
    rw [← ht] at h
    rw [t.set_call j p h, if_neg hp]
  have hrel : ∀ (t : SndSt S) (j : Nat) (x : Res Unit), t.calls = s.calls → j ≠ k → (t.release j x).calls[k]? = some ⟨m, .done r⟩ :=
    fun t j x ht hj => hset t j (.done x) ht hj
  have hne : ∀ {j : Nat} {q : SCall}, s.calls[j]? = some q → (∀ x, q.phase ≠ .done x) → j ≠ k := by
    rintro j q hq hp rfl
    rw [h] at hq; cases hq
    exact hp r rfl
  cases e with
  | call x =>
    show (s.calls ++ [_])[k]? = _
    rw [List.getElem?_append_left (List.getElem?_eq_some_iff.mp h).1]; exact h
  | acquire j =>
    simp only [SndSt.step]
    split
    · rename_i hj
      have := hne hj (by simp)
      split
      · exact h
      · split
        · exact hset s j .taken rfl this
        · exact hset s j .panicked rfl this
    · exact h
  | push j =>
    simp only [SndSt.step]
    split
    · rename_i hj
      have := hne hj (by simp)
      split
      · exact hrel _ j _ rfl this
      · split
        · exact hrel _ j _ rfl this
        · exact hset _ j _ rfl this
    · rename_i hj
      exact hrel _ j _ rfl (hne hj (by simp))
    · exact h
  | write j n =>
    simp only [SndSt.step]
    split
    · rename_i hj
      have := hne hj (by simp)
      split
      · exact hrel _ j _ rfl this
      · exact hset _ j _ rfl this
    · exact h
  | ioErr j =>
    simp only [SndSt.step]
    split
    · rename_i hj
      exact hrel _ j _ rfl (hne hj (by simp))
    · rename_i hj
      exact hrel _ j _ rfl (hne hj (by simp))
    · exact h
  | drop j =>
    simp only [SndSt.step]
    split
    · rename_i hj
      exact hset _ j _ rfl (hne hj (by simp))
    · rename_i hj
      exact hset _ j _ rfl (hne hj (by simp))
    · rename_i hj
      exact hset _ j _ rfl (hne hj (by simp))
    · exact h

/-- Call `k` may still put an answer under `id` on the wire, or has done so, or may still be followed by another call that does. -/
def answering (calls : List SCall) (retry : List Nat) (id : String) (k : Nat) : Bool :=
  match calls[k]? with
  | some ⟨some m, .done (.error _)⟩ => m.id = id && k ∈ retry
  | some ⟨some m, _⟩ => m.id = id
  | _ => false

def answerings (calls : List SCall) (retry : List Nat) (id : String) : Nat := (List.range calls.length).countP (answering calls retry id)

theorem answerings_append (calls : List SCall) (retry : List Nat) (q : SCall) (id : String) (r : List Nat)
    (hr : ∀ k, k < calls.length → (k ∈ r ↔ k ∈ retry)) :
    answerings (calls ++ [q]) r id = answerings calls retry id + (if answering (calls ++ [q]) r id calls.length then 1 else 0) := by
  unfold answerings
  rw [List.length_append, List.length_singleton, List.range_succ, List.countP_append]
  congr 1
  · apply List.countP_congr
    intro k hk
    have hk := List.mem_range.mp hk
    unfold answering
    rw [List.getElem?_append_left hk]
    simp only [hr k hk]
  · simp [List.countP_cons]

/-- Invariant: as many answers to an id as requests with that id have finished. -/
structure AnsInv (sys : Sys E) (c : Nat) (x : Conn S) : Prop where
  count : ∀ id, answerings x.down.snd.calls x.retry id ≤ sys.done.countP (fun d => decide (d.conn = c ∧ d.msg.id = id))
  nodup : x.retry.Nodup
  lt : ∀ k ∈ x.retry, k < x.down.snd.calls.length

theorem AnsInv.same {sys sys' : Sys E} {c : Nat} {x y : Conn S} (h : AnsInv sys c x) (h1 : y.down.snd = x.down.snd) (h2 : y.retry = x.retry)
    (hd : sys.done <+: sys'.done) : AnsInv sys' c y := by
  refine ⟨?_, by rw [h2]; exact h.nodup, by rw [h1, h2]; exact h.lt⟩
  intro id
  rw [h1, h2]
  refine Nat.le_trans (h.count id) ?_
  obtain ⟨t, ht⟩ := hd
  rw [← ht, List.countP_append]
  omega

theorem AnsInv.send {sys : Sys E} {c : Nat} {x : Conn S} (h : AnsInv sys c x) (e : SEv) (he : ∀ m, e ≠ .call m) :
    AnsInv sys c { x with down := x.down.send e } := by
  have hl := x.down.snd.step_length e he
  refine ⟨?_, h.nodup, by simpa only [Link.send, hl] using h.lt⟩
  intro id
  refine Nat.le_trans ?_ (h.count id)
  simp only [Link.send, answerings, hl]
  apply List.countP_mono_left
  intro k hk hk'
  have hk := List.mem_range.mp hk
  obtain ⟨m, ph, hq⟩ : ∃ m ph, x.down.snd.calls[k]? = some ⟨m, ph⟩ := ⟨_, _, List.getElem?_eq_getElem hk⟩
  obtain ⟨ph', hq', -⟩ := x.down.snd.step_call e hq
  unfold answering at hk' ⊢
  rw [hq'] at hk'
  rw [hq]
  cases m with
  | none => simp at hk'
  | some m =>
    by_cases hb : ∃ x, ph = .done (.error x)
    · obtain ⟨e', rfl⟩ := hb
      have := x.down.snd.done_stays e hq
      rw [hq'] at this
      cases this
      exact hk'
    · have h1 : m.id = id := by
        split at hk'
        · rename_i heq; cases heq; simp at hk'; exact hk'.1
        · rename_i heq; cases heq; simpa using hk'
        · cases hk'
      split
      · rename_i heq; cases heq; exact absurd ⟨_, rfl⟩ hb
      · rename_i heq; cases heq; simp [h1]
      · rename_i h2 h3; exact absurd rfl (h3 m ph)

theorem AnsInv.step {sys : Sys E} {c : Nat} {x : Conn S} (h : AnsInv sys c x) (e : NEv) : AnsInv sys c (x.step e) := by
  have hp : sys.done <+: sys.done := List.prefix_rfl
  cases e with
  | ask id q => exact h.same rfl rfl hp
  | asked k => simp only [Conn.step]; repeat' split
               all_goals exact h.same rfl rfl hp
  | wake k => exact h.same rfl rfl hp
  | timeout k => exact h.same rfl rfl hp
  | cancel k => simp only [Conn.step]; split <;> exact h.same rfl rfl hp
  | shutdown => exact h.same rfl rfl hp
  | upSend e => simp only [Conn.step]; split <;> exact h.same rfl rfl hp
  | upArrive b => exact h.same rfl rfl hp
  | upClose => exact h.same rfl rfl hp
  | downSend e =>
    simp only [Conn.step]
    split
    · rename_i he
      simp only [Bool.and_eq_true] at he
      exact h.send e (internal_not_call he.1)
    · exact h
  | downArrive b => exact h.same rfl rfl hp
  | downClose => exact h.same rfl rfl hp
  | poll => simp only [Conn.step]; split <;> exact h.same rfl rfl hp
  | downShutdown =>
    simp only [Conn.step]
    split
    · exact h
    · refine ⟨?_, h.nodup, ?_⟩
      · intro id
        refine Nat.le_trans (Nat.le_of_eq ?_) (h.count id)
        show answerings (x.down.snd.calls ++ [(⟨none, .waiting⟩ : SCall)]) x.retry id = _
        rw [answerings_append x.down.snd.calls x.retry _ id x.retry (fun _ _ => Iff.rfl)]
        simp [answering]
      · intro k hk
        have := h.lt k hk
        simp [Link.send, SndSt.step]; omega
  | downRetry k =>
    simp only [Conn.step]
    split
    · exact h
    · split
      · rename_i hk
        split
        · rename_i i v e hcall
          refine ⟨?_, h.nodup.erase k, ?_⟩
          · intro id
            refine Nat.le_trans (Nat.le_of_eq ?_) (h.count id)
            show answerings (x.down.snd.calls ++ [(⟨some (.res i (.error e)), .waiting⟩ : SCall)]) (x.retry.erase k) id = _
            rw [answerings_append x.down.snd.calls (x.retry.erase k) _ id (x.retry.erase k) (fun _ _ => Iff.rfl)]
            have hnew : answering (x.down.snd.calls ++ [(⟨some (.res i (.error e)), .waiting⟩ : SCall)]) (x.retry.erase k) id x.down.snd.calls.length = decide (i = id) := by
              simp [answering, Msg.id]; congr
            rw [hnew]
            -- the weight of call `k` moves to the new call
            have hlt := h.lt k hk
            unfold answerings
            have hmem : k ∈ List.range x.down.snd.calls.length := List.mem_range.mpr hlt
            have hnd : (List.range x.down.snd.calls.length).Nodup := List.nodup_range
            have hsplit : ∀ p : Nat → Bool, (List.range x.down.snd.calls.length).countP p =
                (if p k then 1 else 0) + ((List.range x.down.snd.calls.length).erase k).countP p := by
              intro p
              rw [(List.perm_cons_erase hmem).countP_eq, List.countP_cons]
              omega
            rw [hsplit, hsplit (answering x.down.snd.calls x.retry id)]
            have hrest : ((List.range x.down.snd.calls.length).erase k).countP (answering x.down.snd.calls (x.retry.erase k) id) =
                ((List.range x.down.snd.calls.length).erase k).countP (answering x.down.snd.calls x.retry id) := by
              apply List.countP_congr
              intro j hj
              have hjk : j ≠ k := ((hnd.mem_erase_iff).mp hj).1
              have : (j ∈ x.retry.erase k) ↔ j ∈ x.retry := List.mem_erase_of_ne hjk
              unfold answering
              simp only [this]
            rw [hrest]
            have hkn : k ∉ x.retry.erase k := fun hx => ((h.nodup.mem_erase_iff).mp hx).1 rfl
            have e1 : answering x.down.snd.calls (x.retry.erase k) id k = false := by
              unfold answering; rw [hcall]; simp [hkn]
            have e2 : answering x.down.snd.calls x.retry id k = decide (i = id) := by
              unfold answering; rw [hcall]; simp [hk, Msg.id]; congr
            rw [e1, e2]
            simp only [Bool.false_eq_true, if_false]
            omega
          · intro j hj
            have := h.lt j (List.mem_of_mem_erase hj)
            simp [Link.send, SndSt.step]; omega
        · exact h
      · exact h

theorem AnsInv.reply {sys sys' : Sys E} {c : Nat} {x : Conn S} (h : AnsInv sys c x) (d : Done E) (hd : sys'.done = sys.done ++ [d])
    (hc : d.conn = c) (o : Res Resp) : AnsInv sys' c (x.reply d.msg.id o) := by
  have key : ∀ (v : Resp) (r : List Nat), (∀ k, k < x.down.snd.calls.length → (k ∈ r ↔ k ∈ x.retry)) → ∀ id,
      answerings (x.down.snd.calls ++ [(⟨some (.res d.msg.id v), .waiting⟩ : SCall)]) r id ≤
        sys'.done.countP (fun d => decide (d.conn = c ∧ d.msg.id = id)) := by
    intro v r hr id
    rw [answerings_append _ x.retry _ id r hr, hd, List.countP_append]
    have h1 := h.count id
    have h2 : answering (x.down.snd.calls ++ [(⟨some (.res d.msg.id v), .waiting⟩ : SCall)]) r id x.down.snd.calls.length = decide (d.msg.id = id) := by
      simp [answering, Msg.id]; congr
    rw [h2]
    simp only [List.countP_cons, List.countP_nil, hc, true_and]
    omega
  cases o with
  | ok v =>
    refine ⟨fun id => key v _ ?_ id, ?_, ?_⟩
    · intro k hk
      show k ∈ x.retry ++ [x.down.snd.calls.length] ↔ _
      simp; omega
    · show (x.retry ++ [x.down.snd.calls.length]).Nodup
      rw [List.nodup_append]
      refine ⟨h.nodup, by simp, ?_⟩
      intro a ha b hb
      have := h.lt a ha
      simp at hb
      omega
    · intro k hk
      have hk : k ∈ x.retry ++ [x.down.snd.calls.length] := hk
      show k < (x.down.snd.calls ++ [_]).length
      simp only [List.mem_append, List.mem_singleton, List.length_append, List.length_singleton] at hk ⊢
      rcases hk with hk | hk
      · have := h.lt k hk; omega
      · omega
  | error e =>
    refine ⟨fun id => key (.error e) _ (fun _ _ => Iff.rfl) id, h.nodup, ?_⟩
    intro k hk
    have := h.lt k hk
    show k < (x.down.snd.calls ++ [_]).length
    simp; omega

theorem ansInv_world (w : World E S) (e : WEv S) (h : ∀ (c : Nat) (x : Conn S), w.conns[c]? = some x → AnsInv w.sys c x) :
    ∀ (c : Nat) (x : Conn S), (w.step e).conns[c]? = some x → AnsInv (w.step e).sys c x := by
  intro c x hx
  have hp : w.sys.done <+: w.sys.done := List.prefix_rfl
  cases e with
  | connect u d =>
    have hx : (w.conns ++ [Conn.init u d])[c]? = some x := hx
    show AnsInv w.sys c x
    rw [List.getElem?_append] at hx
    split at hx
    · exact h c x hx
    · cases hcd : c - w.conns.length with
      | succ n => rw [hcd] at hx; simp at hx
      | zero =>
        rw [hcd] at hx; simp at hx; subst hx
        exact ⟨fun id => Nat.zero_le _, List.nodup_nil, by simp [Conn.init]⟩
  | net i e =>
    have hx : (w.conns.modify i (fun x => x.step e))[c]? = some x := hx
    show AnsInv w.sys c x
    rw [List.getElem?_modify] at hx
    cases hc : w.conns[c]? with
    | none => rw [hc] at hx; simp at hx
    | some y =>
      rw [hc] at hx
      simp only [Option.map_eq_map, Option.map_some, Option.some.injEq] at hx
      subst hx
      have := h c y hc
      split
      · exact this.step e
      · exact this
  | serve i =>
    simp only [World.step] at hx ⊢
    split at hx
    · exact h c x hx
    · split at hx
      · rename_i hg
        rw [if_pos hg]
        exact h c x hx
      · rename_i z hz hg
        rw [if_neg hg]
        have hx' : (w.conns.modify i (fun x => { x with up := x.up.poll }))[c]? = some x := by
          split at hx <;> exact hx
        have hdone : ∀ m, (w.sys.step (.recv i m)).done = w.sys.done := fun m => rfl
        rw [List.getElem?_modify] at hx'
        cases hc : w.conns[c]? with
        | none => rw [hc] at hx'; simp at hx'
        | some y =>
          rw [hc] at hx'
          simp only [Option.map_eq_map, Option.map_some, Option.some.injEq] at hx'
          have hy := h c y hc
          have : AnsInv w.sys c x := by
            rw [← hx']
            split
            · exact hy.same rfl rfl hp
            · exact hy
          split
          · exact this.same rfl rfl List.prefix_rfl
          · exact this
  | act i ch =>
    simp only [World.step] at hx ⊢
    cases ht : w.sys.threads[i]? with
    | none =>
      rw [ht] at hx
      simp only [World.sysStep, step_none _ _ ch ht] at hx ⊢
      exact h c x hx
    | some t =>
      rw [ht] at hx
      simp only at hx ⊢
      have hrep : ∀ o, (w.sys.step (.step i ch)) = w.sys.finish i t o → 
          (w.conns.modify t.conn (fun x => x.reply t.msg.id o))[c]? = some x → AnsInv (w.sys.step (.step i ch)) c x := by
        intro o hs hx
        rw [List.getElem?_modify] at hx
        cases hc : w.conns[c]? with
        | none => rw [hc] at hx; simp at hx
        | some y =>
          rw [hc] at hx
          simp only [Option.map_eq_map, Option.map_some, Option.some.injEq] at hx
          have hy := h c y hc
          subst hx
          rw [hs]
          split
          · rename_i hcc
            exact hy.reply ⟨t.id, t.conn, t.msg, t.start, w.sys.sh, t.log, o, Lair.deliver t.msg.id o⟩ rfl hcc o
          · exact hy.same rfl rfl (List.prefix_append _ _)
      cases hp' : t.prog with
      | ret r =>
        simp only [hp', outcomeOf] at hx ⊢
        exact hrep _ (step_ret _ _ ch _ _ ht hp') hx
      | fail e =>
        simp only [hp', outcomeOf] at hx ⊢
        exact hrep _ (step_fail _ _ ch _ _ ht hp') hx
      | step a k =>
        simp only [hp', outcomeOf] at hx ⊢
        refine (h c x hx).same rfl rfl ?_
        simp only [World.sysStep, step_act _ _ ch _ _ _ ht hp', Sys.perform]
        exact List.prefix_rfl
  | restart =>
    have hx : (w.conns.map (fun x => { x with gone := true }))[c]? = some x := hx
    rw [List.getElem?_map] at hx
    cases hc : w.conns[c]? with
    | none => rw [hc] at hx; simp at hx
    | some y =>
      rw [hc] at hx
      simp only [Option.map_some, Option.some.injEq] at hx
      subst hx
      exact (h c y hc).same rfl rfl List.prefix_rfl

theorem ansInv_run (evs : List (WEv S)) : ∀ (c : Nat) (x : Conn S), (World.run E S st evs).conns[c]? = some x → AnsInv (World.run E S st evs).sys c x := by
  have : ∀ (w : World E S), (∀ (c : Nat) (x : Conn S), w.conns[c]? = some x → AnsInv w.sys c x) →
      ∀ (c : Nat) (x : Conn S), (evs.foldl World.step w).conns[c]? = some x → AnsInv (evs.foldl World.step w).sys c x := by
    induction evs with
    | nil => exact fun w h => h
    | cons e es ih => exact fun w h => ih _ (ansInv_world w e h)
  exact this _ (by simp [World.init])

/-- How many messages with this id the server has sent completely on connection `c`. -/
def World.answers (w : World E S) (c : Nat) (id : String) : Nat :=
  match w.conns[c]? with
  | none => 0
  | some x => x.down.snd.calls.countP (fun q => decide (q.msg.map Msg.id = some id ∧ q.phase = .done (.ok ())))

theorem answers_le_answerings (calls : List SCall) (retry : List Nat) (id : String) :
    calls.countP (fun q => decide (q.msg.map Msg.id = some id ∧ q.phase = .done (.ok ()))) ≤ answerings calls retry id := by
  have : calls = (List.range calls.length).map (fun k => calls[k]?.getD ⟨none, .waiting⟩) := by
    apply List.ext_getElem?
    intro k
    rw [List.getElem?_map]
    by_cases hk : k < calls.length
    · simp [hk]
    · simp [hk]
  conv => lhs; rw [this]
  rw [List.countP_map]
  unfold answerings
  apply List.countP_mono_left
  intro k hk hp
  have hk := List.mem_range.mp hk
  simp only [Function.comp, List.getElem?_eq_getElem hk, Option.getD_some, decide_eq_true_eq] at hp
  unfold answering
  rw [List.getElem?_eq_getElem hk]
  rcases hq : calls[k] with ⟨m, ph⟩
  rw [hq] at hp
  obtain ⟨h1, rfl⟩ := hp
  cases m with
  | none => simp at h1
  | some m => simp at h1; simp [h1]

/-- C56. The server sends at most one complete answer to each request of a client - also when a first try to send it has failed and
    the error is sent instead. -/
theorem C56_at_most_one_answer (L : S.Lawful) (evs : List (WEv S)) (c : Nat) (id : String)
    (hu : (World.run E S st evs).Unforged c) (hf : (World.run E S st evs).FreshIds c) :
    (World.run E S st evs).answers c id ≤ 1 := by
  unfold World.answers
  split
  · omega
  · rename_i x hx
    refine Nat.le_trans (answers_le_answerings _ x.retry id) (Nat.le_trans ((ansInv_run evs c x hx).count id) ?_)
    have honce := C56_handled_at_most_once (E := E) (st := st) L evs c
    have hids : IdInv (World.run E S st evs).sys := by rw [C56_server_run]; exact idInv_run st _
    generalize (World.run E S st evs).sys = sys at *
    have hnd : (sys.done.map Done.id).Nodup := by
      have := hids.perm.nodup_iff.mpr List.nodup_range
      rw [List.append_assoc, List.nodup_append] at this
      exact (List.nodup_append.mp this.2.1).1
    have hdone := hids.done
    generalize sys.done = l at hnd hdone
    induction l with
    | nil => simp
    | cons d ds ih =>
      simp only [List.map_cons, List.nodup_cons] at hnd
      rw [List.countP_cons]
      by_cases hd : d.conn = c ∧ d.msg.id = id
      · have hz : ds.countP (fun d => decide (d.conn = c ∧ d.msg.id = id)) = 0 := by
          rw [List.countP_eq_zero]
          intro d' hd' h'
          simp only [decide_eq_true_eq] at h'
          have h1 := (hdone d (List.mem_cons_self ..)).1
          have h2 := (hdone d' (List.mem_cons_of_mem _ hd')).1
          rw [hd.1] at h1
          rw [h'.1] at h2
          have := honce d.id d'.id d.msg d'.msg hu hf h1 h2 (hd.2.trans h'.2.symm)
          exact hnd.1 (this ▸ List.mem_map.mpr ⟨d', hd', rfl⟩)
        rw [hz]
        split <;> omega
      · have := ih hnd.2 (fun d' hd' => hdone d' (List.mem_cons_of_mem _ hd'))
        simp only [hd, decide_false, Bool.false_eq_true, if_false]
        omega

/-! ### Concrete cases -/

namespace WEx

-- The run of `Props/World`: one complete answer, and none more after a restart.
set_option maxRecDepth 100000 in
example : (run e3).answers 0 "h" = 1 ∧ (run (e3 ++ [.restart, .net 0 (.ask "i" .hello)])).request 0 1 = some ("i", .hello) ∧
    (run e3).request 0 1 = none ∧ (run e3).handled 0 = [.req "h" .hello] := by decide +kernel

-- The hypotheses of `C56_no_success_after_restart` are met by it.
set_option maxRecDepth 100000 in
example : (run (e3 ++ [.restart, .net 0 (.ask "i" .hello)])).Unforged 0 ∧ (run (e3 ++ [.restart, .net 0 (.ask "i" .hello)])).FreshIds 0 := by
  refine ⟨unforgedW_spec (by decide +kernel), ?_⟩
  intro x hx
  have : ∀ y ∈ (run (e3 ++ [.restart, .net 0 (.ask "i" .hello)])).conns, (y.asked.map Asked.id).Nodup := by decide +kernel
  exact this x (List.mem_of_getElem? hx)

end WEx

end Lair
