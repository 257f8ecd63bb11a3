import Verif.WorldLemmas
import Verif.Props.Connection
import Verif.Props.Keys
import Verif.Props.Entries

/-
C56, C57: the composed system — clients, encrypted connections, network, server, store — end to end. A run is
`World.run E S st evs`: any list of events (see `World.lean`).
-/
namespace Lair

variable {S : SStream} {E : Env} {st : E.S.σ}

theorem request_some {w : World E S} {c k : Nat} {id : String} {q : Req} (h : w.request c k = some (id, q)) :
    ∃ x a, w.conns[c]? = some x ∧ x.asked[k]? = some a ∧ a.id = id ∧ a.req = q := by
  unfold World.request at h
  cases hx : w.conns[c]? with
  | none => rw [hx] at h; simp at h
  | some x =>
    rw [hx] at h
    simp only [Option.bind_some, Option.map_eq_some_iff] at h
    obtain ⟨a, h1, h2⟩ := h
    cases h2
    exact ⟨x, a, rfl, h1, rfl, rfl⟩

theorem request_of {w : World E S} {c k : Nat} {x : Conn S} {a : Asked} (h : w.conns[c]? = some x) (ha : x.asked[k]? = some a) :
    w.request c k = some (a.id, a.req) := by
  simp [World.request, h, ha]

/-- What the server has received on a connection. -/
theorem inbox_got {c : Nat} {sys : Sys E} {x : Conn S} (hi : ConnInv c sys x) {j : Nat} {m : Msg} (h : sys.inbox[j]? = some (c, m)) :
    m ∈ x.up.got := by
  rw [← hi.inbox]
  exact List.mem_map.mpr ⟨(c, m), List.mem_filter.mpr ⟨List.mem_of_getElem? h, by simp⟩, rfl⟩

/-- C56. The server handles on a connection only requests its client made, unchanged. -/
theorem C56_only_what_was_asked (L : S.Lawful) (evs : List (WEv S)) (c j : Nat) (m : Msg)
    (hu : (World.run E S st evs).Unforged c) (h : (World.run E S st evs).sys.inbox[j]? = some (c, m)) :
    ∃ k id q, (World.run E S st evs).request c k = some (id, q) ∧ m = .req id q := by
  have hw := worldInv_run (S := S) st evs
  generalize World.run E S st evs = w at *
  have hlt := hw.known _ (List.mem_of_getElem? h)
  obtain ⟨x, hx⟩ : ∃ x, w.conns[c]? = some x := ⟨_, List.getElem?_eq_getElem hlt⟩
  have hc := hw.conns c x hx
  have hm := mem_of_prefix_takeWhile (hc.up.prefix L (hu x hx).1) (inbox_got hc h)
  obtain ⟨p, hp, rfl⟩ := List.mem_map.mp hm
  obtain ⟨ph, h1, -⟩ := hc.up.mem p hp
  obtain ⟨a, ha, -, h2⟩ := hc.ups _ _ _ h1
  obtain ⟨k, hk⟩ := List.mem_iff_getElem?.mp ha
  exact ⟨k, a.id, a.req, request_of hx hk, h2⟩

theorem nodup_map_inj {α β : Type} {f : α → β} {l : List α} (h : (l.map f).Nodup) {a b : α} (ha : a ∈ l) (hb : b ∈ l) (hf : f a = f b) :
    a = b := by
  induction l with
  | nil => cases ha
  | cons y ys ih =>
    simp only [List.map_cons, List.nodup_cons] at h
    rcases List.mem_cons.mp ha with rfl | ha
    · rcases List.mem_cons.mp hb with rfl | hb
      · rfl
      · exact absurd (List.mem_map.mpr ⟨b, hb, hf.symm⟩) h.1
    · rcases List.mem_cons.mp hb with hb | hb
      · rw [← hb] at h
        exact absurd (List.mem_map.mpr ⟨a, ha, hf⟩) h.1
      · exact ih h.2 ha hb

/-- The ids of the messages encrypted by a client differ. -/
theorem pushed_ids {c : Nat} {sys : Sys E} {x : Conn S} (hi : ConnInv c sys x) (hn : (x.asked.map Asked.id).Nodup) :
    ((x.up.pushed.map Prod.snd).map Msg.id).Nodup := by
  have key : ∀ p ∈ x.up.pushed, ∃ a ∈ x.asked, a.call = p.1 ∧ p.2 = .req a.id a.req := by
    intro p hp
    obtain ⟨ph, h1, -⟩ := hi.up.mem p hp
    exact hi.ups _ _ _ h1
  have hnd := hi.up.nodup
  generalize x.up.pushed = l at key hnd
  induction l with
  | nil => simp
  | cons p ps ih =>
    simp only [List.map_cons, List.nodup_cons] at hnd ⊢
    refine ⟨?_, ih (fun p' hp' => key p' (List.mem_cons_of_mem _ hp')) hnd.2⟩
    intro hmem
    obtain ⟨m, hm, hid⟩ := List.mem_map.mp hmem
    obtain ⟨p', hp', rfl⟩ := List.mem_map.mp hm
    obtain ⟨a, ha, h1, h2⟩ := key p (List.mem_cons_self ..)
    obtain ⟨a', ha', h1', h2'⟩ := key p' (List.mem_cons_of_mem _ hp')
    rw [h2, h2'] at hid
    have := nodup_map_inj hn ha' ha hid
    subst this
    exact hnd.1 (List.mem_map.mpr ⟨p', hp', by rw [← h1', ← h1]⟩)

theorem filter_index {α : Type} (l : List (Nat × α)) (c : Nat) (f : α → String) (hn : (((l.filter (fun p => p.1 = c)).map Prod.snd).map f).Nodup)
    {j j' : Nat} {a b : α} (h1 : l[j]? = some (c, a)) (h2 : l[j']? = some (c, b)) (hf : f a = f b) : j = j' := by
  induction l generalizing j j' with
  | nil => simp at h1
  | cons y ys ih =>
    have hmem : ∀ {i : Nat} {z : α}, ys[i]? = some (c, z) → z ∈ (ys.filter (fun p => p.1 = c)).map Prod.snd := by
      intro i z hz
      exact List.mem_map.mpr ⟨(c, z), List.mem_filter.mpr ⟨List.mem_of_getElem? hz, by simp⟩, rfl⟩
    have htail : (((ys.filter (fun p => p.1 = c)).map Prod.snd).map f).Nodup := by
      rw [List.filter_cons] at hn
      split at hn
      · simp only [List.map_cons, List.nodup_cons] at hn; exact hn.2
      · exact hn
    cases j with
    | zero =>
      simp at h1; subst h1
      cases j' with
      | zero => rfl
      | succ j' =>
        simp at h2
        simp only [List.filter_cons, decide_true, if_true, List.map_cons, List.nodup_cons] at hn
        exact absurd (List.mem_map.mpr ⟨b, hmem h2, hf.symm⟩) hn.1
    | succ j =>
      simp at h1
      cases j' with
      | zero =>
        simp at h2; subst h2
        simp only [List.filter_cons, decide_true, if_true, List.map_cons, List.nodup_cons] at hn
        exact absurd (List.mem_map.mpr ⟨a, hmem h1, hf⟩) hn.1
      | succ j' =>
        simp at h2
        rw [ih htail h1 h2]

/-- C56. The server handles each request of a client at most once, whatever the network repeats: two messages handled on
    one connection never have the same message id. -/
theorem C56_handled_at_most_once (L : S.Lawful) (evs : List (WEv S)) (c j j' : Nat) (m m' : Msg)
    (hu : (World.run E S st evs).Unforged c) (hf : (World.run E S st evs).FreshIds c)
    (h : (World.run E S st evs).sys.inbox[j]? = some (c, m)) (h' : (World.run E S st evs).sys.inbox[j']? = some (c, m'))
    (hid : m.id = m'.id) : j = j' := by
  have hw := worldInv_run (S := S) st evs
  generalize World.run E S st evs = w at *
  have hlt := hw.known _ (List.mem_of_getElem? h)
  obtain ⟨x, hx⟩ : ∃ x, w.conns[c]? = some x := ⟨_, List.getElem?_eq_getElem hlt⟩
  have hc := hw.conns c x hx
  refine filter_index w.sys.inbox c Msg.id ?_ h h' hid
  rw [hc.inbox]
  have hp : x.up.got <+: x.up.pushed.map Prod.snd := (hc.up.prefix L (hu x hx).1).trans (List.takeWhile_prefix _)
  obtain ⟨t, ht⟩ := hp
  have := pushed_ids hc (hf x hx)
  rw [← ht, List.map_append, List.nodup_append] at this
  exact this.1

/-- What a completed request got from the network. -/
theorem result_ok {w : World E S} {c k : Nat} {id : String} {q : Req} {v : Resp} (hq : w.request c k = some (id, q))
    (hr : w.result c k = some (.ok v)) (hw : WorldInv st w) :
    ∃ x, w.conns[c]? = some x ∧ .res id v ∈ x.down.got ∧ Answers q v := by
  obtain ⟨x, a, hx, ha, rfl, rfl⟩ := request_some hq
  have hc := hw.conns c x hx
  unfold World.result at hr
  rw [hx] at hr
  simp only [ha] at hr
  cases hk : x.cli.reqs[k]? with
  | none => rw [hk] at hr; simp at hr
  | some rq =>
    obtain ⟨rid, ph, sl⟩ := rq
    rw [hk] at hr
    cases ph with
    | done r =>
      simp only [Option.some.injEq] at hr
      obtain ⟨h1, id', rfl⟩ := (C30_typed_result _ _ _).mp hr
      obtain ⟨pos, hpos, -⟩ := C29_response_is_own x.cevs
      rw [hc.cli] at hk
      obtain ⟨g1, g2, g3, -⟩ := hpos k _ _ hk rfl
      rw [hc.starts, List.getElem?_map, ha] at g2
      simp at g2
      simp only [Msg.id] at g1
      refine ⟨x, hx, ?_, h1⟩
      have := hc.arr _ (List.mem_of_getElem? g3)
      rw [g2, ← g1]; exact this
    | _ => simp at hr

/-- C56. If a request of a client succeeds with `v`, the server has finished handling exactly this request (same id, same
    content, same connection) and `v` is what its handler returned. -/
theorem C56_result_is_own (L : S.Lawful) (evs : List (WEv S)) (c k : Nat) (id : String) (q : Req) (v : Resp)
    (hu : (World.run E S st evs).Unforged c) (hf : (World.run E S st evs).FreshIds c)
    (hq : (World.run E S st evs).request c k = some (id, q)) (hr : (World.run E S st evs).result c k = some (.ok v)) :
    Answers q v ∧ ∃ d ∈ (World.run E S st evs).sys.done, d.conn = c ∧ d.msg = .req id q ∧ d.outcome = .ok v := by
  have hw := worldInv_run (S := S) st evs
  have hids : IdInv (World.run E S st evs).sys := by rw [hw.sys]; exact idInv_run st _
  have only := C56_only_what_was_asked (E := E) (st := st) L evs c
  generalize World.run E S st evs = w at *
  obtain ⟨x, hx, hgot, hans⟩ := result_ok hq hr hw
  refine ⟨hans, ?_⟩
  have hc := hw.conns c x hx
  have hm := mem_of_prefix_takeWhile (hc.down.prefix L (hu x hx).2) hgot
  obtain ⟨p, hp, hp2⟩ := List.mem_map.mp hm
  obtain ⟨ph, h1, -⟩ := hc.down.mem p hp
  rw [hp2] at h1
  obtain ⟨d, hd, hdc, r, hr', ho⟩ := hc.downs _ _ _ h1
  cases hr'
  have hout : d.outcome = .ok v := by
    rcases ho with ho | ⟨e, rfl⟩
    · exact ho
    · cases q <;> simp [Answers] at hans
  refine ⟨d, hd, hdc, ?_, hout⟩
  have hbox := (hids.done d hd).1
  rw [hdc] at hbox
  obtain ⟨k', id', q', hq', hmsg⟩ := only d.id d.msg hu hbox
  obtain ⟨x1, a, hx1, ha, rfl, rfl⟩ := request_some hq'
  rw [hx] at hx1; cases hx1
  obtain ⟨x2, a2, hx2, ha2, hi2, rfl⟩ := request_some hq
  rw [hx] at hx2; cases hx2
  rw [hmsg] at hi2
  have := nodup_map_inj (hf x hx) (List.mem_of_getElem? ha) (List.mem_of_getElem? ha2) hi2.symm
  subst this
  rw [hmsg]; rfl

/-- The server inside a run of the world is a run of the server: every theorem about `Sys.run` applies. -/
theorem C56_server_run (evs : List (WEv S)) : (World.run E S st evs).sys = Sys.run E st (World.run E S st evs).sevs :=
  (worldInv_run st evs).sys

/-- C56, signing from end to end: a signature a client gets (when no external signer is configured) verifies under the key it asked
    for, on the data it gave; for a deep-locked seed, unless its stored cipher opens to two different seeds (C13). -/
theorem C56_signature_verifies (L : S.Lawful) (hst : GoodStore E st) (evs : List (WEv S)) (c k : Nat) (id : String) (pk : B 32)
    (deep : Option (SecretSized 81)) (data : Bytes) (sig : B 64)
    (hu : (World.run E S st evs).Unforged c) (hf : (World.run E S st evs).FreshIds c)
    (hq : (World.run E S st evs).request c k = some (id, .sign pk deep data))
    (hr : (World.run E S st evs).result c k = some (.ok (.sign sig))) (hfb : E.hasFallback = false)
    (hC : ∀ t info salt ops mem (enc : SecretSized 49), Entry.deep t info salt ops mem enc ∈ (World.run E S st evs).sys.entries →
      info.ed = pk → ¬ E.C.OpensTwice enc.hdr enc.cipher.val) :
    E.C.verify pk data sig = true := by
  obtain ⟨-, d, hd, -, hm, ho⟩ := C56_result_is_own L evs c k id _ _ hu hf hq hr
  rw [C56_server_run] at hd hC
  refine C13_signature_verifies hst _ d hd id pk deep data hm sig ho ?_ hC
  intro a b y hy
  refine C15_no_fallback_configured hst (World.run E S st evs).sevs hfb d.id a b y ?_
  simp only [Sys.effects, histOf, List.mem_map, List.mem_filter] at hy
  obtain ⟨p, ⟨h1, h2⟩, h3⟩ := hy
  have : p = (d.id, Ev.fell a b y) := Prod.ext (by simpa using h2) h3
  rw [← this]; exact h1

/-- C56, creation from end to end: when a client is told that its seed or certificate was created, exactly one entry with
    that tag and that public information was added by this request, and it is there from then on, in every later state. -/
theorem C56_created_entry_stays (L : S.Lawful) (hst : GoodStore E st) (evs : List (WEv S)) (c k : Nat) (id t : String) (q : Req) (v : Resp)
    (hu : (World.run E S st evs).Unforged c) (hf : (World.run E S st evs).FreshIds c)
    (hq : (World.run E S st evs).request c k = some (id, q)) (hcr : Creates q t)
    (hr : (World.run E S st evs).result c k = some (.ok v)) :
    ∃ e, e.tag = t ∧ Reports v e ∧
      (∃ j, (World.run E S st evs).sys.inbox[j]? = some (c, .req id q) ∧ (World.run E S st evs).sys.added j = [e]) ∧
      ∀ more, e ∈ (World.run E S st (evs ++ more)).sys.entries := by
  obtain ⟨-, d, hd, hdc, hm, ho⟩ := C56_result_is_own L evs c k id _ _ hu hf hq hr
  have hbox := by
    have hids : IdInv (World.run E S st evs).sys := by rw [C56_server_run]; exact idInv_run st _
    exact (hids.done d hd).1
  rw [C56_server_run] at hd
  obtain ⟨e, h1, h2, h3, h4, -⟩ := C07_success_adds_exactly_one hst _ d hd id t q hm hcr v ho
  refine ⟨e, h2, h3, ⟨d.id, by rw [hbox, hdc, hm], by rw [C56_server_run]; exact h1⟩, ?_⟩
  intro more
  have hgrow : ∀ (more : List (WEv S)) (w : World E S), WorldInv st w → e ∈ w.sys.entries → e ∈ (more.foldl World.step w).sys.entries := by
    intro more
    induction more with
    | nil => intro w _ h; exact h
    | cons ev es ih =>
      intro w hw h
      refine ih _ (hw.step ev) ?_
      have hs' := (hw.step ev).sys
      have key : ∀ ev', e ∈ (w.sys.step ev').entries := by
        intro ev'
        obtain ⟨m, hm⟩ := tbl_step (s := w.sys) (st := st) (by rw [hw.sys]; exact sysInv_run hst w.sevs) ev'
        show e ∈ (w.sys.step ev').sh.tbl
        rw [hm]; exact List.mem_append_left _ h
      cases ev with
      | connect u d => exact h
      | net c e => exact h
      | restart => exact key .restart
      | serve c =>
        simp only [World.step]
        split
        · exact h
        · split
          · exact h
          · split
            · exact key (.recv c _)
            · exact h
      | act i ch =>
        simp only [World.step]
        split
        · exact key (.step i ch)
        · split
          · exact key (.step i ch)
          · exact key (.step i ch)
  have : World.run E S st (evs ++ more) = more.foldl World.step (World.run E S st evs) := by simp [World.run]
  rw [this]
  exact hgrow more _ (worldInv_run st evs) (by rw [C56_server_run]; exact h4)

/-! ### C57: one message too large -/

theorem takeWhile_append_of_exists {α : Type} {p : α → Bool} {a : List α} (b : List α) (h : ∃ x ∈ a, p x = false) :
    (a ++ b).takeWhile p = a.takeWhile p := by
  induction a with
  | nil => obtain ⟨x, hx, -⟩ := h; cases hx
  | cons y ys ih =>
    simp only [List.cons_append, List.takeWhile_cons]
    cases hy : p y with
    | false => rfl
    | true =>
      simp only [if_true]
      congr 1
      refine ih ?_
      obtain ⟨x, hx, hp⟩ := h
      rcases List.mem_cons.mp hx with rfl | hx
      · rw [hy] at hp; cases hp
      · exact ⟨x, hx, hp⟩

/-- What stays when a connection goes on. -/
structure Grows (x y : Conn S) : Prop where
  asked : x.asked <+: y.asked
  up : x.up.pushed <+: y.up.pushed
  down : x.down.pushed <+: y.down.pushed
  snd : ∃ es : List SEv, y.down.snd = es.foldl SndSt.step x.down.snd := by
    first | exact ⟨[], rfl⟩ | exact ⟨[_], rfl⟩ | exact ⟨[.call _], rfl⟩
  cevs : x.cevs <+: y.cevs := by first | exact List.prefix_rfl | exact List.prefix_append _ _

theorem Grows.refl (x : Conn S) : Grows x x := (Grows.mk List.prefix_rfl List.prefix_rfl List.prefix_rfl)
theorem Grows.trans {x y z : Conn S} (h : Grows x y) (h' : Grows y z) : Grows x z :=
  ⟨h.asked.trans h'.asked, h.up.trans h'.up, h.down.trans h'.down, by
    obtain ⟨a, ha⟩ := h.snd
    obtain ⟨b, hb⟩ := h'.snd
    exact ⟨a ++ b, by rw [hb, ha, List.foldl_append]⟩, h.cevs.trans h'.cevs⟩

theorem grows_send (l : Link S) (e : SEv) : l.pushed <+: (l.send e).pushed := List.prefix_append _ _

theorem grows_step (x : Conn S) (e : NEv) : Grows x (x.step e) := by
  cases e with
  | ask id q => exact Grows.mk (List.prefix_append _ _) (grows_send _ _) List.prefix_rfl
  | asked k =>
    simp only [Conn.step]
    split
    · split
      · exact Grows.mk List.prefix_rfl List.prefix_rfl List.prefix_rfl
      · exact Grows.mk List.prefix_rfl List.prefix_rfl List.prefix_rfl
    · exact Grows.mk List.prefix_rfl List.prefix_rfl List.prefix_rfl
  | wake k => exact Grows.mk List.prefix_rfl List.prefix_rfl List.prefix_rfl
  | timeout k => exact Grows.mk List.prefix_rfl List.prefix_rfl List.prefix_rfl
  | cancel k =>
    simp only [Conn.step]
    split
    · exact Grows.mk List.prefix_rfl (grows_send _ _) List.prefix_rfl
    · exact Grows.mk List.prefix_rfl List.prefix_rfl List.prefix_rfl
  | shutdown => exact Grows.mk List.prefix_rfl (grows_send _ _) List.prefix_rfl
  | upSend e =>
    simp only [Conn.step]
    split
    · exact Grows.mk List.prefix_rfl (grows_send _ _) List.prefix_rfl
    · exact Grows.mk List.prefix_rfl List.prefix_rfl List.prefix_rfl
  | upArrive b => exact Grows.mk List.prefix_rfl List.prefix_rfl List.prefix_rfl
  | upClose => exact Grows.mk List.prefix_rfl List.prefix_rfl List.prefix_rfl
  | downSend e =>
    simp only [Conn.step]
    split
    · exact Grows.mk List.prefix_rfl List.prefix_rfl (grows_send _ _)
    · exact Grows.mk List.prefix_rfl List.prefix_rfl List.prefix_rfl
  | downRetry k =>
    simp only [Conn.step]
    split
    · exact Grows.mk List.prefix_rfl List.prefix_rfl List.prefix_rfl
    · split
      · split
        · exact Grows.mk List.prefix_rfl List.prefix_rfl (grows_send _ _)
        · exact Grows.mk List.prefix_rfl List.prefix_rfl List.prefix_rfl
      · exact Grows.mk List.prefix_rfl List.prefix_rfl List.prefix_rfl
  | downShutdown =>
    simp only [Conn.step]
    split
    · exact Grows.mk List.prefix_rfl List.prefix_rfl List.prefix_rfl
    · exact Grows.mk List.prefix_rfl List.prefix_rfl (grows_send _ _)
  | downArrive b => exact Grows.mk List.prefix_rfl List.prefix_rfl List.prefix_rfl
  | downClose => exact Grows.mk List.prefix_rfl List.prefix_rfl List.prefix_rfl
  | poll => simp only [Conn.step]; split <;> exact Grows.mk List.prefix_rfl List.prefix_rfl List.prefix_rfl

theorem grows_reply (x : Conn S) (id : String) (o : Res Resp) : Grows x (x.reply id o) := by
  cases o with
  | ok r => exact Grows.mk List.prefix_rfl List.prefix_rfl (grows_send _ _)
  | error e => exact Grows.mk List.prefix_rfl List.prefix_rfl (grows_send _ _)

theorem grows_modify (l : List (Conn S)) (i : Nat) (f : Conn S → Conn S) (hf : ∀ x, Grows x (f x)) {c : Nat} {x : Conn S}
    (h : l[c]? = some x) : ∃ y, (l.modify i f)[c]? = some y ∧ Grows x y := by
  rw [List.getElem?_modify, h]
  refine ⟨_, rfl, ?_⟩
  split
  · exact hf x
  · exact Grows.refl x

theorem grows_world (w : World E S) (e : WEv S) {c : Nat} {x : Conn S} (h : w.conns[c]? = some x) :
    ∃ y, (w.step e).conns[c]? = some y ∧ Grows x y := by
  cases e with
  | connect u d =>
    refine ⟨x, ?_, Grows.refl x⟩
    show (w.conns ++ [_])[c]? = _
    rw [List.getElem?_append_left (List.getElem?_eq_some_iff.mp h).1]; exact h
  | net i e => exact grows_modify w.conns i _ (fun x => grows_step x e) h
  | serve i =>
    simp only [World.step]
    split
    · exact ⟨x, h, Grows.refl x⟩
    · split
      · exact ⟨x, h, Grows.refl x⟩
      · have := grows_modify w.conns i (fun x => { x with up := x.up.poll }) (fun x => (Grows.mk List.prefix_rfl List.prefix_rfl List.prefix_rfl)) h
        split
        · exact this
        · exact this
  | act i ch =>
    simp only [World.step]
    split
    · exact ⟨x, h, Grows.refl x⟩
    · split
      · exact grows_modify w.conns _ _ (fun x => grows_reply x _ _) h
      · exact ⟨x, h, Grows.refl x⟩
  | restart =>
    refine ⟨{ x with gone := true }, ?_, (Grows.mk List.prefix_rfl List.prefix_rfl List.prefix_rfl)⟩
    show (w.conns.map _)[c]? = _
    rw [List.getElem?_map, h]; rfl

theorem grows_run (more : List (WEv S)) (w : World E S) {c : Nat} {x : Conn S} (h : w.conns[c]? = some x) :
    ∃ y, (more.foldl World.step w).conns[c]? = some y ∧ Grows x y := by
  induction more generalizing w x with
  | nil => exact ⟨x, h, Grows.refl x⟩
  | cons e es ih =>
    obtain ⟨y, h1, h2⟩ := grows_world w e h
    obtain ⟨z, h3, h4⟩ := ih _ h1
    exact ⟨z, h3, h2.trans h4⟩

/-- C56. Only a request that was made has a result, and a result is final: nothing that happens later - other requests, anything on the
    network, a restart of the server - changes what the caller was given. -/
theorem C56_result_final (evs : List (WEv S)) (c k : Nat) (r : Res Resp) (h : (World.run E S st evs).result c k = some r) :
    (∃ q, (World.run E S st evs).request c k = some q) ∧
    ∀ more, (World.run E S st (evs ++ more)).result c k = some r := by
  have hi := worldInv_run (S := S) st evs
  cases hx : (World.run E S st evs).conns[c]? with
  | none => simp [World.result, hx] at h
  | some x =>
    have hc := hi.conns c x hx
    cases ha : x.asked[k]? with
    | none => simp [World.result, hx, ha] at h
    | some a =>
      refine ⟨⟨_, request_of hx ha⟩, fun more => ?_⟩
      cases hk : x.cli.reqs[k]? with
      | none => simp [World.result, hx, ha, hk] at h
      | some q =>
        obtain ⟨qi, ph, sl⟩ := q
        cases ph with
        | done v =>
          simp only [World.result, hx, ha, hk, Option.some.injEq] at h
          obtain ⟨y, hy, hg⟩ := grows_run more _ hx
          have hrun : World.run E S st (evs ++ more) = more.foldl World.step (World.run E S st evs) := by simp [World.run]
          have hcy := (worldInv_run (S := S) st (evs ++ more)).conns c y (by rw [hrun]; exact hy)
          obtain ⟨as, has⟩ := hg.asked
          obtain ⟨cs, hcs⟩ := hg.cevs
          have hay : y.asked[k]? = some a := by
            rw [← has, List.getElem?_append_left (List.getElem?_eq_some_iff.mp ha).1]; exact ha
          rw [hc.cli] at hk
          obtain ⟨q', h1, h2, -⟩ := C29_result_final hk (by simp) cs
          rw [hcs, ← hcy.cli] at h1
          obtain ⟨i', p', s'⟩ := q'
          simp only at h2
          subst h2
          rw [hrun]
          simp only [World.result, hy, hay, h1, h]
        | _ => simp [World.result, hx, ha, hk] at h

/-- C56. When the server has shut its side of a connection down, nothing more is sent to that client, whatever happens. -/
theorem C56_nothing_after_shutdown (evs more : List (WEv S)) (c : Nat) (x : Conn S) (hx : (World.run E S st evs).conns[c]? = some x)
    (hlive : x.gone = false) (hfree : x.down.snd.permit = none ∧ x.down.snd.sender = true) (hw : ∀ q ∈ x.down.snd.calls, ∀ r, q.phase ≠ .writing r) :
    let k := x.down.snd.calls.length
    ∃ y, (World.run E S st (evs ++ [.net c .downShutdown, .net c (.downSend (.acquire k)), .net c (.downSend (.push k))] ++ more)).conns[c]? = some y ∧
      y.down.snd.wire = x.down.snd.wire := by
  intro k
  have key : ∀ (es : List SEv) (s : SndSt S), s.closed = true → (∀ q ∈ s.calls, ∀ r, q.phase ≠ .writing r) →
      (es.foldl SndSt.step s).wire = s.wire := by
    intro es
    induction es with
    | nil => intros; rfl
    | cons e es ih =>
      intro s h1 h2
      have hset : ∀ (t : SndSt S) (j : Nat) (p : SPhase), t.calls = s.calls → (∀ r, p ≠ .writing r) →
          ∀ q ∈ (t.set j p).calls, ∀ r, q.phase ≠ .writing r := by
        intro t j p ht hp q hq r
        simp only [SndSt.set, ht] at hq
        obtain ⟨i, hi⟩ := List.getElem?_of_mem hq
        rw [List.getElem?_modify] at hi
        cases hc : s.calls[i]? with
        | none => rw [hc] at hi; cases hi
        | some q' =>
          rw [hc] at hi
          simp only [Option.map_eq_map, Option.map_some, Option.some.injEq] at hi
          split at hi
          · subst hi; exact hp r
          · subst hi; exact h2 _ (List.mem_of_getElem? hc) r
      have : (s.step e).closed = true ∧ (s.step e).wire = s.wire ∧ ∀ q ∈ (s.step e).calls, ∀ r, q.phase ≠ .writing r := by
        cases e with
        | call m =>
          refine ⟨h1, rfl, ?_⟩
          intro q hq r
          simp only [SndSt.step, List.mem_append, List.mem_singleton] at hq
          rcases hq with hq | rfl
          · exact h2 q hq r
          · simp
        | acquire j =>
          simp only [SndSt.step]
          split
          · split
            · exact ⟨h1, rfl, h2⟩
            · split
              · exact ⟨h1, rfl, hset s j .taken rfl (by simp)⟩
              · exact ⟨h1, rfl, hset s j .panicked rfl (by simp)⟩
          · exact ⟨h1, rfl, h2⟩
        | push j =>
          simp only [SndSt.step]
          split
          · split
            · exact ⟨h1, rfl, hset { s with enc := _ } j (.done _) rfl (by simp)⟩
            · rw [if_pos h1]
              exact ⟨h1, rfl, hset { s with enc := _ } j (.done _) rfl (by simp)⟩
          · exact ⟨rfl, rfl, hset { s with closed := true } j (.done _) rfl (by simp)⟩
          · exact ⟨h1, rfl, h2⟩
        | write j n =>
          simp only [SndSt.step]
          split
          · rename_i m rest hj; exact absurd rfl (h2 _ (List.mem_of_getElem? hj) rest)
          · exact ⟨h1, rfl, h2⟩
        | ioErr j =>
          simp only [SndSt.step]
          split
          · rename_i m rest hj; exact absurd rfl (h2 _ (List.mem_of_getElem? hj) rest)
          · exact ⟨h1, rfl, hset s j (.done _) rfl (by simp)⟩
          · exact ⟨h1, rfl, h2⟩
        | drop j =>
          simp only [SndSt.step]
          split
          · exact ⟨h1, rfl, hset s j (.dropped false) rfl (by simp)⟩
          · exact ⟨h1, rfl, hset s j (.dropped true) rfl (by simp)⟩
          · rename_i m rest hj; exact absurd rfl (h2 _ (List.mem_of_getElem? hj) rest)
          · exact ⟨h1, rfl, h2⟩
      show (es.foldl SndSt.step (s.step e)).wire = _
      rw [ih _ this.1 this.2.2, this.2.1]
  -- after the three events
  let x' : Conn S := { x with down := ((x.down.send (.call none)).send (.acquire k)).send (.push k) }
  have h3 : (World.run E S st (evs ++ [.net c .downShutdown, .net c (.downSend (.acquire k)), .net c (.downSend (.push k))])).conns[c]? = some x' := by
    have : World.run E S st (evs ++ [.net c .downShutdown, .net c (.downSend (.acquire k)), .net c (.downSend (.push k))]) =
        (((World.run E S st evs).step (.net c .downShutdown)).step (.net c (.downSend (.acquire k)))).step (.net c (.downSend (.push k))) := by
      simp [World.run]
    rw [this]
    have one : ∀ (w : World E S) (e : NEv) (z : Conn S), w.conns[c]? = some z → (w.step (.net c e)).conns[c]? = some (z.step e) := by
      intro w e z hz
      simp [World.step, hz]
    have a1 := one _ .downShutdown _ hx
    have b1 : x.step .downShutdown = { x with down := x.down.send (.call none) } := by simp [Conn.step, hlive]
    rw [b1] at a1
    have a2 := one _ (.downSend (.acquire k)) _ a1
    have b2 : ({ x with down := x.down.send (.call none) } : Conn S).step (.downSend (.acquire k)) =
        { x with down := (x.down.send (.call none)).send (.acquire k) } := by simp [Conn.step, hlive, SEv.internal]
    rw [b2] at a2
    have a3 := one _ (.downSend (.push k)) _ a2
    have b3 : ({ x with down := (x.down.send (.call none)).send (.acquire k) } : Conn S).step (.downSend (.push k)) = x' := by
      simp [Conn.step, hlive, SEv.internal, x']
    rw [b3] at a3
    exact a3
  obtain ⟨hp, hs⟩ := hfree
  have hx' : x'.down.snd.wire = x.down.snd.wire ∧ x'.down.snd.closed = true ∧ ∀ q ∈ x'.down.snd.calls, ∀ r, q.phase ≠ .writing r := by
    have e2 : ∀ (a : SCall) (f : SCall → SCall), (x.down.snd.calls ++ [a]).modify k f = x.down.snd.calls ++ [f a] := by
      intro a f
      have : ∀ l : List SCall, (l ++ [a]).modify l.length f = l ++ [f a] := by
        intro l
        induction l with
        | nil => rfl
        | cons b l ih => simp [ih]
      exact this _
    have e1 : ∀ a : SCall, (x.down.snd.calls ++ [a])[k]? = some a := by simp [k]
    simp only [x', Link.send, SndSt.step, e1, hp, hs, if_true, SndSt.set, e2, SndSt.release]
    refine ⟨trivial, trivial, ?_⟩
    intro q hq r
    simp only [List.mem_append, List.mem_singleton] at hq
    rcases hq with hq | rfl
    · exact hw q hq r
    · simp
  obtain ⟨y, hy, hg⟩ := grows_run more _ h3
  obtain ⟨es, hes⟩ := hg.snd
  refine ⟨y, ?_, ?_⟩
  · rw [← hy]; simp [World.run]
  · rw [hes, key es _ hx'.2.1 hx'.2.2, hx'.1]

/-- On connection `c`, in the direction to the server / to the client, a message was encrypted that is too large for a
    frame. -/
def World.SentTooLarge (w : World E S) (c : Nat) : Prop :=
  ∃ x, w.conns[c]? = some x ∧ ((∃ p ∈ x.up.pushed, 8192 < (Codec.encodeMsg p.2).length + 17) ∨
    ∃ p ∈ x.down.pushed, 8192 < (Codec.encodeMsg p.2).length + 17)

theorem not_fits {m : Msg} (h : 8192 < (Codec.encodeMsg m).length + 17) : Fits m = false := by
  simp only [Fits, decide_eq_false_iff_not]; omega

/-- C57, negation, for every run: once a client has made a request that is too large, or has asked for something whose
    response is too large, no request it makes later on this connection ever succeeds. -/
theorem C57_connection_useless_after_large_message (L : S.Lawful) (evs more : List (WEv S)) (c k : Nat) (v : Resp)
    (hbig : (World.run E S st evs).SentTooLarge c)
    (hk : (World.run E S st evs).request c k = none)
    (hu : (World.run E S st evs).Unforged c) (hu' : (World.run E S st (evs ++ more)).Unforged c)
    (hf : (World.run E S st (evs ++ more)).FreshIds c) :
    (World.run E S st (evs ++ more)).result c k ≠ some (.ok v) := by
  intro hr
  obtain ⟨x, hx, hbig⟩ := hbig
  have hw := worldInv_run (S := S) st evs
  have hw' := worldInv_run (S := S) st (evs ++ more)
  have only := C56_only_what_was_asked (E := E) (st := st) L evs c
  have own := C56_result_is_own (E := E) (st := st) L (evs ++ more) c k
  have hids : IdInv (World.run E S st evs).sys := by rw [hw.sys]; exact idInv_run st _
  have hids' : IdInv (World.run E S st (evs ++ more)).sys := by rw [hw'.sys]; exact idInv_run st _
  obtain ⟨y, hy, hg⟩ : ∃ y, (World.run E S st (evs ++ more)).conns[c]? = some y ∧ Grows x y := by
    have : World.run E S st (evs ++ more) = more.foldl World.step (World.run E S st evs) := by simp [World.run]
    rw [this]; exact grows_run more _ hx
  generalize World.run E S st (evs ++ more) = w' at *
  generalize World.run E S st evs = w at *
  have hc := hw.conns c x hx
  have hc' := hw'.conns c y hy
  -- the request
  obtain ⟨id, q, hq⟩ : ∃ id q, w'.request c k = some (id, q) := by
    unfold World.result at hr
    rw [hy] at hr
    cases ha : y.asked[k]? with
    | none => simp [ha] at hr
    | some a => exact ⟨_, _, request_of hy ha⟩
  obtain ⟨y', b, hy', hb, hbid, hbreq⟩ := request_some hq
  rw [hy] at hy'; cases hy'
  -- a request known before is not the later one
  have notold : ∀ a ∈ x.asked, a.id ≠ id := by
    intro a ha hid
    obtain ⟨i, hi⟩ := List.mem_iff_getElem?.mp ha
    have ha' : a ∈ y.asked := hg.asked.subset ha
    have := nodup_map_inj (hf y hy) ha' (List.mem_of_getElem? hb) (by rw [hid, hbid])
    subst this
    have hik : i = k := by
      have hiy : y.asked[i]? = some a := by
        obtain ⟨t, ht⟩ := hg.asked
        rw [← ht, List.getElem?_append_left (List.getElem?_eq_some_iff.mp hi).1]; exact hi
      have hn := hf y hy
      have h1 := List.getElem?_eq_some_iff.mp hiy
      have h2 := List.getElem?_eq_some_iff.mp hb
      obtain ⟨h1, h1'⟩ := h1
      obtain ⟨h2, h2'⟩ := h2
      rcases Nat.lt_trichotomy i k with hlt | heq | hgt
      · have := List.pairwise_iff_getElem.mp hn i k (by simpa using h1) (by simpa using h2) hlt
        simp [h1', h2'] at this
      · exact heq
      · have := List.pairwise_iff_getElem.mp hn k i (by simpa using h2) (by simpa using h1) hgt
        simp [h1', h2'] at this
    subst hik
    rw [request_of hx hi] at hk; cases hk
  obtain ⟨x', hx', hgot, -⟩ := result_ok hq hr hw'
  rw [hy] at hx'; cases hx'
  obtain ⟨hans, d, hd, hdc, hdm, hdo⟩ := own id q v hu' hf hq hr
  have cut : ∀ {l l' : Link S}, l.pushed <+: l'.pushed → (∃ p ∈ l.pushed, 8192 < (Codec.encodeMsg p.2).length + 17) →
      ∀ m, m ∈ (l'.pushed.map Prod.snd).takeWhile Fits → m ∈ l.pushed.map Prod.snd := by
    intro l l' ⟨t, ht⟩ ⟨p, hp, hl⟩ m hm
    rw [← ht, List.map_append, takeWhile_append_of_exists _ ⟨p.2, List.mem_map.mpr ⟨p, hp, rfl⟩, not_fits hl⟩] at hm
    exact (List.takeWhile_prefix _).subset hm
  rcases hbig with hbig | hbig
  · -- to the server: the request itself never arrives
    have hbox := (hids'.done d hd).1
    rw [hdc] at hbox
    have h1 := (hc'.up.prefix L (hu' y hy).1).subset (inbox_got hc' hbox)
    obtain ⟨p, hp, hp2⟩ := List.mem_map.mp (cut hg.up hbig _ h1)
    obtain ⟨ph, h2, -⟩ := hc.up.mem p hp
    rw [hp2, hdm] at h2
    obtain ⟨a, ha, -, h3⟩ := hc.ups _ _ _ h2
    cases h3
    exact notold a ha rfl
  · -- to the client: the response never arrives
    have h1 := (hc'.down.prefix L (hu' y hy).2).subset hgot
    obtain ⟨p, hp, hp2⟩ := List.mem_map.mp (cut hg.down hbig _ h1)
    obtain ⟨ph, h2, -⟩ := hc.down.mem p hp
    rw [hp2] at h2
    obtain ⟨d0, hd0, hdc0, r, hr0, -⟩ := hc.downs _ _ _ h2
    cases hr0
    have hbox := (hids.done d0 hd0).1
    rw [hdc0] at hbox
    obtain ⟨k', id', q', hq', hmsg⟩ := only d0.id d0.msg hu hbox
    obtain ⟨x1, a, hx1, ha, rfl, rfl⟩ := request_some hq'
    rw [hx] at hx1; cases hx1
    exact notold a (List.mem_of_getElem? ha) (by rw [hmsg]; rfl)

/-- C57, the case is reachable: the first request on any connection, if too large, is refused to its caller, and the
    connection is then in the state of `C57_connection_useless_after_large_message`. -/
theorem C57_large_request_refused (L : S.Lawful) (u d : S.St) (id : String) (q : Req)
    (hbig : 8192 < (Codec.encodeMsg (.req id q)).length + 17) :
    let w := World.run E S st [.connect u d, .net 0 (.ask id q), .net 0 (.upSend (.acquire 0)), .net 0 (.upSend (.push 0)), .net 0 (.asked 0)]
    w.SentTooLarge 0 ∧ w.request 0 1 = none ∧ w.result 0 0 = some (.error "FrameOverflow") := by
  intro w
  have hfb : frameBytes (S.push u (Codec.encodeMsg (.req id q))).1 = .error "FrameOverflow" := by
    have hm : maxFrame = 8192 := rfl
    unfold frameBytes; rw [if_pos (by rw [L.push_len]; omega)]
  have hw : w.conns[0]? = some (((((Conn.init u d).step (.ask id q)).step (.upSend (.acquire 0))).step (.upSend (.push 0))).step (.asked 0)) := by
    rfl
  have h2 : (((Conn.init u d).step (.ask id q)).step (.upSend (.acquire 0))).step (.upSend (.push 0)) =
      (⟨⟨[(id, 0)], [⟨id, .sending, .empty⟩], false⟩, [⟨id, q, 0⟩], [.start id],
        ⟨u, ⟨(S.push u (Codec.encodeMsg (.req id q))).2, [], false, true, none, [⟨some (.req id q), .done (.error "FrameOverflow")⟩]⟩,
          .init u, [(0, .req id q)], [], []⟩, .init d, [], false⟩ : Conn S) := by
    simp [Conn.step, Conn.init, Conn.cliStep, CliSt.step, CliSt.init, CliSt.remove, Link.init, Link.send, SndSt.step, SndSt.init,
      SndSt.pushing, SEv.internal, AMap.get, AMap.insert, AMap.erase, SndSt.set, hfb, SndSt.release]
  rw [h2] at hw
  have h3 : ∀ x : Conn S, (x.step (.asked 0)).up = x.up ∧ (x.step (.asked 0)).asked = x.asked := by
    intro x
    simp only [Conn.step]
    split
    · split
      · exact ⟨rfl, rfl⟩
      · exact ⟨rfl, rfl⟩
    · exact ⟨rfl, rfl⟩
  refine ⟨⟨_, hw, Or.inl ⟨(0, .req id q), ?_, hbig⟩⟩, ?_, ?_⟩
  · rw [(h3 _).1]; simp
  · simp only [World.request, hw, Option.bind_some, (h3 _).2]; rfl
  · have h4 : ∀ y, y = (⟨⟨[(id, 0)], [⟨id, .sending, .empty⟩], false⟩, [⟨id, q, 0⟩], [.start id],
        ⟨u, ⟨(S.push u (Codec.encodeMsg (.req id q))).2, [], false, true, none, [⟨some (.req id q), .done (.error "FrameOverflow")⟩]⟩,
          .init u, [(0, .req id q)], [], []⟩, .init d, [], false⟩ : Conn S) →
        (y.step (.asked 0)).asked = [⟨id, q, 0⟩] ∧
        ∃ sl, (y.step (.asked 0)).cli.reqs = [⟨id, .done (.error "FrameOverflow"), sl⟩] := by
      rintro y rfl
      refine ⟨rfl, ?_⟩
      simp [Conn.step, Conn.cliStep, CliSt.step, CliSt.finish, CliSt.remove, AMap.get, AMap.erase, dropSender, CReq.drop]
    obtain ⟨h5, sl, h6⟩ := h4 _ rfl
    simp only [World.result, hw, h5, h6]
    rfl

/-! ### Concrete cases -/

section Examples

/-- Decide `Unforged` on given bytes. -/
def unforgedB (S : SStream) (s : S.St) (ds : List Bytes) (bytes : Bytes) : Bool :=
  (List.range (ds.length + 1)).all fun i =>
    (List.range (bytes.length + 1)).all fun a => (List.range (bytes.length + 1)).all fun n =>
      let c := (bytes.drop a).take n
      (S.pull (S.after s (ds.take i)) c).isNone || (match ds[i]? with
        | some d => c == (S.push (S.after s (ds.take i)) d).1
        | none => false)

theorem unforged_of_bool {S : SStream} {s : S.St} {ds : List Bytes} {bytes : Bytes} (h : unforgedB S s ds bytes = true) :
    Unforged S s ds bytes := by
  intro pre post hs c hc hp
  have h1 := List.all_eq_true.mp h pre.length (by simp [hs]; omega)
  have h2 := infix_all hc (f := fun c => (S.pull (S.after s (ds.take pre.length)) c).isNone || (match ds[pre.length]? with
        | some d => c == (S.push (S.after s (ds.take pre.length)) d).1
        | none => false)) h1
  have ht : ds.take pre.length = pre := by rw [hs]; simp
  rw [ht] at h2
  cases post with
  | nil =>
    have : ds[pre.length]? = none := by rw [hs]; simp
    rw [this] at h2
    cases hx : S.pull (S.after s pre) c with
    | none => rw [hx] at hp; cases hp
    | some y => rw [hx] at h2; simp at h2
  | cons d rest =>
    have : ds[pre.length]? = some d := by rw [hs]; simp
    rw [this] at h2
    refine ⟨d, rest, rfl, ?_⟩
    cases hx : S.pull (S.after s pre) c with
    | none => rw [hx] at hp; cases hp
    | some y => rw [hx] at h2; simpa using h2

namespace WEx

abbrev run := World.run (Ex.env false 4) Toy.stream MemStore.empty

def wire (up : Bool) (w : World (Ex.env false 4) Toy.stream) : Bytes :=
  match w.conns[0]? with
  | some x => if up then x.up.snd.wire else x.down.snd.wire
  | none => []

/-- A client connects and sends a hello request; the server receives it in two pieces, handles it and answers; the client
    receives the answer. -/
def e1 : List (WEv Toy.stream) := [.connect ([1], 0) ([2], 0), .net 0 (.ask "h" .hello), .net 0 (.upSend (.acquire 0)),
  .net 0 (.upSend (.push 0)), .net 0 (.upSend (.write 0 9999)), .net 0 (.asked 0)]
def e2 : List (WEv Toy.stream) := e1 ++ [.net 0 (.upArrive ((wire true (run e1)).take 5)), .serve 0,
  .net 0 (.upArrive ((wire true (run e1)).drop 5)), .serve 0] ++ List.replicate 24 (.act 0 (Ex.calm 0)) ++
  [.net 0 (.downSend (.acquire 0)), .net 0 (.downSend (.push 0)), .net 0 (.downSend (.write 0 9999))]
def e3 : List (WEv Toy.stream) := e2 ++ [.net 0 (.downArrive (wire false (run e2))), .net 0 .poll, .net 0 (.wake 0)]

set_option maxRecDepth 100000 in
example : (run e3).request 0 0 = some ("h", .hello) ∧ (run e3).result 0 0 = some (.ok (.hello "lair" "0.6" Ex.idSeed)) := by
  decide +kernel

def unforgedW (w : World (Ex.env false 4) Toy.stream) (c : Nat) : Bool := match w.conns[c]? with
  | none => true
  | some x => unforgedB Toy.stream x.up.start (x.up.pushed.map (fun p => Codec.encodeMsg p.2)) (arrived x.up.net) &&
    unforgedB Toy.stream x.down.start (x.down.pushed.map (fun p => Codec.encodeMsg p.2)) (arrived x.down.net)

theorem unforgedW_spec {w : World (Ex.env false 4) Toy.stream} {c : Nat} (h : unforgedW w c = true) : w.Unforged c := by
  intro x hx
  simp only [unforgedW, hx, Bool.and_eq_true] at h
  exact ⟨unforged_of_bool h.1, unforged_of_bool h.2⟩

set_option maxRecDepth 100000 in
example : (run e3).Unforged 0 ∧ (run e3).FreshIds 0 := by
  refine ⟨unforgedW_spec (by decide +kernel), ?_⟩
  intro x hx
  have : ∀ y ∈ (run e3).conns, (y.asked.map Asked.id).Nodup := by decide +kernel
  exact this x (List.mem_of_getElem? hx)

-- `C56_nothing_after_shutdown`: the connection lives and no send is in progress.
set_option maxRecDepth 100000 in
example : (run e3).conns.map (fun x => (x.gone, x.down.snd.permit, x.down.snd.sender, x.down.snd.calls.map (·.phase), decide (x.down.snd.wire = []))) =
    [(false, none, true, [.done (.ok ())], false)] := by decide +kernel

/-- There are requests that are too large. -/
example : 8192 < (Codec.encodeMsg (.req (Codec.letters 9000) .hello)).length + 17 := by
  rw [Codec.len_hello, Codec.encStr_len, Codec.utf8_letters]; decide

end WEx

end Examples

end Lair
