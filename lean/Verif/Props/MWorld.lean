import Verif.MWorldRun
import Verif.Props.MultiLin

/-
C74: the clients of all servers on one store file, and the callers of their store handles, see one keystore.
-/
namespace Lair

variable {S : SStream} {E : Env} {st : E.S.σ}

/-- Whose operation the one that began with the `q`-th thing that happened to the processes is. -/
def Whose (E : Env) (S : SStream) (st : E.S.σ) (evs : List (MWEv S)) (q : Nat) : Who → Prop
  | .request c k => ∃ j n i r, RecvAt E st (MWorld.run E S st evs).mevs q j n c (.req i r) ∧ (MWorld.run E S st evs).request c k = some (i, r)
  | .handle p => mpos E S st evs p = q ∧ ∃ j x ch, evs[p]? = some (.call j x ch)

theorem whose_call {evs : List (MWEv S)} {q p : Nat} (h : Whose E S st evs q (.handle p)) :
    ∃ j x ch, (MWorld.run E S st evs).mevs[q]? = some (.at j (.call x ch)) := by
  obtain ⟨rfl, j, x, ch, h⟩ := h
  exact ⟨j, x, ch, (mcall_forward h).1⟩

theorem whose_recv {evs : List (MWEv S)} {q c k : Nat} (h : Whose E S st evs q (.request c k)) :
    ∃ j m, (MWorld.run E S st evs).mevs[q]? = some (.at j (.srv (.recv c m))) := by
  obtain ⟨j, n, i, r, h, -⟩ := h
  exact ⟨j, _, h.1⟩

theorem mpos_call_inj {evs : List (MWEv S)} {p p' : Nat} {j j' : Nat} {x x' : LocalCall} {ch ch' : Nat → Choice}
    (h : evs[p]? = some (.call j x ch)) (h' : evs[p']? = some (.call j' x' ch')) (he : mpos E S st evs p = mpos E S st evs p') : p = p' := by
  have a := (mcall_forward (E := E) (st := st) h).2
  have b := (mcall_forward (E := E) (st := st) h').2
  rcases Nat.lt_trichotomy p p' with hlt | heq | hgt
  · have := mpos_mono (E := E) (st := st) evs (show p + 1 ≤ p' from hlt); omega
  · exact heq
  · have := mpos_mono (E := E) (st := st) evs (show p' + 1 ≤ p from hgt); omega

/-- Where a message was received. -/
theorem mrecv_inbox {evs : List MEvent} {p j k c : Nat} {m : Msg} (h : RecvAt E st evs p j k c m) :
    ∃ l, (Multi.run E st evs).procs[j]? = some l ∧ l.sys.inbox[k]? = some (c, m) := by
  have hp : p < evs.length := (List.getElem?_eq_some_iff.1 h.1).1
  obtain ⟨l, hl, -⟩ := h.2
  obtain ⟨l', hl', -⟩ := proc_later (show p ≤ evs.length by omega) hl
  refine ⟨l', by simpa using hl', recvAt_inbox h hp (by simpa using hl')⟩

/-- C74. Several servers on one store file, each with any number of clients on encrypted connections on which nobody forges and with
    its store handle in use: requests overlap in any way, within a server and across servers, messages are split, delayed, cut off or
    dropped, requests time out or are abandoned, servers are started, stopped and restarted at any point. Then ONE sequential history
    of calls to one keystore explains everything the clients and the callers of the handles have seen (`ExplainsAll` in
    `Verif/MWorld.lean`). Assumed, as in C60: `okLim` and `room` say which limits and items are possible; no deep-locked entry is
    opened by two of the passphrases (`H`) and limits (`Λ`) in use. -/
theorem C74_all_clients_see_one_keystore {ks₀ : Keystore} {okLim : UInt32 → UInt32 → Bool} {room : Item → Bool} {H : List (B 64)}
    {Λ : List (UInt32 × UInt32)} (L : S.Lawful) (hk : HasPassphrase E) (hst : GoodStore E st) (evs : List (MWEv S))
    (hnf : MNeverForged E S st evs) (hfr : ∀ c, (MWorld.run E S st evs).FreshIds c)
    (hlim : ∀ p salt ops mem, (E.C.argon2id p salt ops mem).isSome = okLim ops mem)
    (hroom : ∀ i e, Repr E i e → E.S.fits e = room i)
    (hks : Stands E ks₀ (E.S.tbl st)) (hkn : Known H Λ ks₀)
    (hcalls : ∀ c k id q call, (MWorld.run E S st evs).request c k = some (id, q) → q.call? E c = some call → call.within H Λ)
    (hhandles : ∀ j x ch call, MWEv.call j x ch ∈ evs → x.asCall = some call → call.within H Λ)
    (hsep : Separated E H Λ (MWorld.run E S st evs).multi.entries) :
    ∃ ops, ExplainsAll E S st evs okLim room ks₀ ops := by
  have huf : ∀ c, (MWorld.run E S st evs).Unforged c := by
    intro c
    have := hnf evs.length c
    rwa [List.take_length] at this
  have hw := mworldInv_run (S := S) st evs
  have hm := mw_multi (E := E) (S := S) (st := st) evs
  -- what was received was asked
  have only : ∀ {q j n c : Nat} {m : Msg}, RecvAt E st (MWorld.run E S st evs).mevs q j n c m →
      ∃ k id r, (MWorld.run E S st evs).request c k = some (id, r) ∧ m = .req id r := by
    intro q j n c m h
    obtain ⟨l, hl, hb⟩ := mrecv_inbox h
    rw [← hm] at hl
    exact mw_only hw L (huf c) hl hb
  have one : ∀ {q q' j j' n n' c : Nat} {m m' : Msg}, RecvAt E st (MWorld.run E S st evs).mevs q j n c m →
      RecvAt E st (MWorld.run E S st evs).mevs q' j' n' c m' → m.id = m'.id → q = q' := by
    intro q q' j j' n n' c m m' h h' hid
    obtain ⟨l, hl, hb⟩ := mrecv_inbox h
    obtain ⟨l', hl', hb'⟩ := mrecv_inbox h'
    rw [← hm] at hl hl'
    obtain ⟨rfl, rfl⟩ := mw_once hw L (huf c) (hfr c) hl hl' hb hb' hid
    exact recvAt_unique h h'
  rw [hm] at hsep
  obtain ⟨ops, hops⟩ := C72_linearizable (okLim := okLim) (room := room) hk hst (MWorld.run E S st evs).mevs hlim hroom hks hkn (by
    intro j c i r call hmem hc
    obtain ⟨q, hq⟩ := List.mem_iff_getElem?.mp hmem
    have hlt := (List.getElem?_eq_some_iff.1 hq).1
    by_cases hj : j < (Multi.run E st ((MWorld.run E S st evs).mevs.take q)).procs.length
    · obtain ⟨k, id, r', h1, h2⟩ := only (n := ((Multi.run E st ((MWorld.run E S st evs).mevs.take q)).procs[j]).sys.inbox.length)
        ⟨hq, _, List.getElem?_eq_getElem hj, rfl⟩
      cases h2
      exact hcalls c k _ _ call h1 hc
    · -- a receipt is always by a process that is there
      exfalso
      exact hj (mserve_there evs hq)) (by
    intro j x ch call hmem hc
    obtain ⟨q, hq⟩ := List.mem_iff_getElem?.mp hmem
    obtain ⟨p, hp, -⟩ := mcall_back hq
    exact hhandles j x ch call (List.mem_of_getElem? hp) hc) hsep
  -- who made an operation
  have hwho : ∀ op : Op, ∃ o : WOp, op ∈ ops → (o.call = op.call ∧ o.luck = op.luck ∧ o.ans = op.ans ∧ Whose E S st evs op.id o.who) := by
    intro op
    by_cases hop : op ∈ ops
    · rcases hops.real op hop with ⟨j, n, c, i, r, l, h1, -⟩ | ⟨x, ch, r, ⟨j, l, h1, -⟩, -⟩
      · obtain ⟨k, id, r', h2, h3⟩ := only h1
        cases h3
        exact ⟨⟨.request c k, op.call, op.luck, op.ans⟩, fun _ => ⟨rfl, rfl, rfl, j, n, i, r, h1, h2⟩⟩
      · obtain ⟨p, hp, he⟩ := mcall_back h1
        exact ⟨⟨.handle p, op.call, op.luck, op.ans⟩, fun _ => ⟨rfl, rfl, rfl, he, j, x, ch, hp⟩⟩
    · exact ⟨⟨.handle 0, op.call, op.luck, op.ans⟩, fun h => absurd h hop⟩
  let F : {op // op ∈ ops} → WOp := fun op => Classical.choose (hwho op.1)
  have hF : ∀ op : {op // op ∈ ops}, (F op).call = op.1.call ∧ (F op).luck = op.1.luck ∧ (F op).ans = op.1.ans ∧
      Whose E S st evs op.1.id (F op).who := fun op => Classical.choose_spec (hwho op.1) op.2
  have hcongr := after_congr (C := E.C) (okLim := okLim) (room := room) (fun op : {op // op ∈ ops} => op.1) (fun op => (F op).op)
    (fun op => by obtain ⟨h1, h2, h3, -⟩ := hF op; exact ⟨h1.symm, h2.symm, h3.symm⟩) ops.attach ks₀
  have hmap : ops.attach.map (fun op : {op // op ∈ ops} => op.1) = ops := List.attach_map_subtype_val ops
  have hmap' : ops.attach.map (fun op => (F op).op) = (ops.attach.map F).map WOp.op := by rw [List.map_map]; rfl
  rw [hmap, hmap'] at hcongr
  have hW : ∀ op : {op // op ∈ ops}, Whose E S st evs op.1.id (F op).who := fun op => (hF op).2.2.2
  -- the same operation only if it is the same caller's
  have hsame : ∀ {q q' : Nat} {u : Who}, Whose E S st evs q u → Whose E S st evs q' u → q = q' := by
    intro q q' u h h'
    cases u with
    | handle p => exact h.1.symm.trans h'.1
    | request c k =>
      obtain ⟨j, n, i, r, a1, a2⟩ := h
      obtain ⟨j', n', i', r', b1, b2⟩ := h'
      rw [a2] at b2
      cases b2
      exact one a1 b1 rfl
  have hfun : ∀ {q : Nat} {u u' : Who}, Whose E S st evs q u → Whose E S st evs q u' → u = u' := by
    intro q u u' h h'
    cases u with
    | handle p =>
      cases u' with
      | handle p' =>
        obtain ⟨h1, j, x, ch, h2⟩ := h
        obtain ⟨h1', j', x', ch', h2'⟩ := h'
        rw [mpos_call_inj h2 h2' (h1.trans h1'.symm)]
      | request c k =>
        obtain ⟨j, x, ch, h1⟩ := whose_call h
        obtain ⟨j', m, h2⟩ := whose_recv h'
        rw [h1] at h2; cases h2
    | request c k =>
      cases u' with
      | handle p' =>
        obtain ⟨j, x, ch, h1⟩ := whose_call h'
        obtain ⟨j', m, h2⟩ := whose_recv h
        rw [h1] at h2; cases h2
      | request c' k' =>
        obtain ⟨j, n, i, r, a1, a2⟩ := h
        obtain ⟨j', n', i', r', b1, b2⟩ := h'
        obtain ⟨-, -, rfl, he⟩ := recvAt_fun a1 b1
        cases he
        rw [mrequest_unique (hfr c) a2 b2]
  -- a request that succeeded has been finished by a server
  have hfin : ∀ (n c k : Nat) (id : String) (q : Req) (v : Resp), (MWorld.run E S st evs).request c k = some (id, q) →
      (MWorld.run E S st (evs.take n)).result c k = some (.ok v) →
      ∃ p d, DoneOf E st ((MWorld.run E S st evs).mevs.take (mpos E S st evs n)) p d ∧ Whose E S st evs p (.request c k) ∧
        d.conn = c ∧ d.msg = .req id q ∧ d.outcome = .ok v := by
    intro n c k id q v hq hr
    have hq' : (MWorld.run E S st (evs.take n)).request c k = some (id, q) := by
      obtain ⟨j, x, a, rid, m, sl, h1, h2, -⟩ := mresult_some hr
      have := mrequest_of h1 h2
      rw [this, ← mrequest_prefix evs n this]; exact hq
    obtain ⟨j, l, hl, d, hd, hdc, hdm, hdo⟩ := mw_own (mworldInv_run st (evs.take n)) L (hnf n c) (mfreshIds_prefix evs n (hfr c)) hq' hr
    rw [mw_multi_take] at hl
    obtain ⟨p, q', h1, h1', h2, -⟩ := (pinv_run hk hst (MWorld.run E S st evs).mevs _ j l hl).fin d hd
    refine ⟨p, d, ⟨j, d.conn, d.msg, l, recvAt_of_lt h2 (by omega), by simpa using hl, hd⟩, ?_, hdc, hdm, hdo⟩
    exact ⟨j, d.id, id, q, by rw [← hdc, ← hdm]; exact h2, hq⟩
  refine ⟨ops.attach.map F, ⟨hcongr.2.mp hops.correct, ?_, ?_, ?_, ?_, ?_, ?_, ?_, ?_⟩⟩
  · rw [← hcongr.1, hm]; exact hops.final
  · have hnd : ops.attach.Pairwise (fun a b => a.1.id ≠ b.1.id) := by
      have := hops.once
      rw [← hmap, List.map_map] at this
      exact List.pairwise_map.mp this
    rw [List.map_map]
    refine List.pairwise_map.mpr (hnd.imp ?_)
    intro a b hab heq
    simp only [Function.comp] at heq
    have hb := hW b
    rw [← heq] at hb
    exact hab (hsame (hW a) hb)
  · have ho : ops.attach.Pairwise (fun a b => ¬ MBefore E st (MWorld.run E S st evs).mevs b.1.id a.1.id) := by
      have := hops.order
      rw [← hmap] at this
      exact List.pairwise_map.mp this
    refine List.pairwise_map.mpr (ho.imp ?_)
    intro a b hab ⟨n, hover, hnot⟩
    apply hab
    -- the operation of `a` had not begun
    have hle : mpos E S st evs n ≤ a.1.id := by
      have ha := hW a
      cases hu : (F a).who with
      | handle p =>
        rw [hu] at ha hnot
        rw [← ha.1]
        exact mpos_mono evs hnot
      | request c k =>
        rw [hu] at ha hnot
        obtain ⟨j, m, i, r, a1, a2⟩ := ha
        apply Nat.le_of_not_lt
        intro hlt
        have a1' := recvAt_of_lt a1 hlt
        obtain ⟨l, hl, hb⟩ := mrecv_inbox a1'
        rw [← mw_multi_take] at hl
        obtain ⟨k', id, q, h1, h2⟩ := mw_only (mworldInv_run st (evs.take n)) L (hnf n c) hl hb
        cases h2
        have := mrequest_unique (hfr c) (mrequest_prefix evs n h1) a2
        subst this
        simp only [Who.notYet] at hnot
        rw [hnot] at h1; cases h1
    -- and that of `b` was over
    have hb := hW b
    cases hu : (F b).who with
    | handle p =>
      rw [hu] at hb hover
      right
      obtain ⟨h1, j, x, ch, h2⟩ := hb
      have hpn : p < n := hover
      have hf := mcall_forward (E := E) (st := st) h2
      have hlt : mpos E S st evs p < a.1.id := by
        have := mpos_mono (E := E) (st := st) evs (show p + 1 ≤ n from hpn)
        omega
      rcases hops.real b.1 b.2 with ⟨j', n', c', i', r', l', g1, -⟩ | ⟨x', ch', r', g1, -⟩
      · rw [← h1] at g1
        rw [g1.1] at hf
        cases hf.1
      · exact ⟨x', ch', r', callAt_take g1 (by omega)⟩
    | request c k =>
      rw [hu] at hb hover
      left
      obtain ⟨v, hr⟩ := hover
      obtain ⟨j, m, i, r, b1, b2⟩ := id hb
      obtain ⟨p, d, hd, hp, -⟩ := hfin n c k i r v b2 hr
      rw [hsame hb hp]
      exact ⟨d, doneOf_later hd hle⟩
  · intro c k id q call v hq hcall hf hr
    obtain ⟨p, d, hd, hp, hdc, hdm, hdo⟩ := hfin evs.length c k id q v hq (by rw [List.take_length]; exact hr)
    have hlen : (MWorld.run E S st evs).mevs.take (mpos E S st evs evs.length) = (MWorld.run E S st evs).mevs := by
      rw [mevs_take, List.take_length]
    rw [hlen] at hd
    have hcount : Counted d := by
      refine ⟨⟨id, q, call, hdm, by rw [hdc]; exact hcall⟩, ?_, Or.inr (by rw [hdo]; intro h; cases h)⟩
      obtain ⟨j, c', m', l, -, hl, hdl⟩ := hd
      obtain ⟨s₀, s₁, hsp, -⟩ := mdone_full hk hst _ j l hl d hdl
      rw [hdm, hdo] at hsp
      exact success_no_fault hsp (by rw [hdc]; exact hcall) hf
    obtain ⟨op, hop, hid⟩ := hops.requests p d hd hcount
    refine ⟨F ⟨op, hop⟩, List.mem_map.mpr ⟨⟨op, hop⟩, List.mem_attach .., rfl⟩, ?_⟩
    have := hW ⟨op, hop⟩
    simp only at this
    rw [hid] at this
    exact hfun this hp
  · intro p x ch r hat hcall hfine
    obtain ⟨j, l, h1, h2, h3⟩ := hat
    have hf := mcall_forward (E := E) (st := st) h1
    obtain ⟨op, hop, hid⟩ := hops.calls (mpos E S st evs p) x ch r ⟨j, l, hf.1, by rw [← mw_multi_take]; exact h2, h3⟩ hcall hfine
    refine ⟨F ⟨op, hop⟩, List.mem_map.mpr ⟨⟨op, hop⟩, List.mem_attach .., rfl⟩, ?_⟩
    have := hW ⟨op, hop⟩
    exact hfun this ⟨hid.symm, j, x, ch, h1⟩
  · intro o ho c k hwho
    obtain ⟨op, -, rfl⟩ := List.mem_map.mp ho
    have hu := hW op
    rw [hwho] at hu
    obtain ⟨j, n, i, r, a1, a2⟩ := id hu
    rcases hops.real op.1 op.2 with ⟨j', n', c', i', r', l', g1, g2, -, -, g5, -⟩ | ⟨x', ch', r', ⟨j', l', g1, -⟩, -⟩
    · obtain ⟨-, -, rfl, he⟩ := recvAt_fun a1 g1
      cases he
      refine ⟨i, r, a2, by rw [(hF op).1]; exact g2, ?_⟩
      intro v hr
      obtain ⟨p, d, hd, hp, hdc, hdm, hdo⟩ := hfin evs.length c k i r v a2 (by rw [List.take_length]; exact hr)
      have hlen : (MWorld.run E S st evs).mevs.take (mpos E S st evs evs.length) = (MWorld.run E S st evs).mevs := by
        rw [mevs_take, List.take_length]
      rw [hlen, hsame hp hu] at hd
      rw [(hF op).2.2.1, g5 d hd, hdo]
    · rw [a1.1] at g1; cases g1
  · intro o ho p hwho
    obtain ⟨op, -, rfl⟩ := List.mem_map.mp ho
    have hu := hW op
    rw [hwho] at hu
    rcases hops.real op.1 op.2 with ⟨j', n', c', i', r', l', g1, -⟩ | ⟨x, ch, r, ⟨j, l, g1, g2, g3⟩, g4, g5, g6⟩
    · obtain ⟨j, x, ch, h1⟩ := whose_call hu
      rw [g1.1] at h1; cases h1
    · obtain ⟨h1, j', x', ch', h2⟩ := hu
      have hf := (mcall_forward (E := E) (st := st) h2).1
      rw [h1, g1] at hf
      cases hf
      refine ⟨x, ch, r, ⟨j, l, h2, by rw [mw_multi_take, h1]; exact g2, g3⟩, ?_, ?_, ?_⟩
      · rw [(hF op).1]; exact g4
      · rw [(hF op).2.1]; exact g5
      · rw [(hF op).2.2.1]; exact g6
  · intro o ho
    obtain ⟨op, -, rfl⟩ := List.mem_map.mp ho
    rw [(hF op).2.1]
    rcases hops.real op.1 op.2 with ⟨j, n, c, i, r, l, g1, g2, ⟨j', k', c', m', q, e1, e2, e3⟩, ⟨g4, g5⟩, -⟩ | ⟨x, ch, r, -, -, ⟨g1, g2, -⟩, -⟩
    · refine ⟨g4, fun hfb => ?_⟩
      cases hl : op.1.luck.fallback with
      | none => rfl
      | some sig =>
        obtain ⟨pk, pw, data, -, h⟩ := g5 sig hl
        rw [e3] at h
        simp only [histOf, List.mem_map, List.mem_filter] at h
        obtain ⟨p, ⟨h1, h2⟩, h3⟩ := h
        have : p = (k', Ev.fell pk data (.ok sig)) := Prod.ext (by simpa using h2) h3
        rw [this] at h1
        exact absurd h1 (mno_fallback hk hst _ hfb _ j' q (Nat.le_refl _) (by simpa using e2) _ _ _ _)
    · exact ⟨g1, fun _ => g2⟩

end Lair
