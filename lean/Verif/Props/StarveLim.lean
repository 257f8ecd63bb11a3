import Verif.Props.Starve
import Verif.Props.Backpressure

/-
C91: no request starves, even though the server handles only a limited number of requests of a connection at the same time: C89 with the limit of C88.
-/
namespace Lair

variable {S : SStream} {E : Env} {st : E.S.σ}

/-! ### A message that is there stays there -/

/-- A message can be taken: then all its bytes have arrived. -/
theorem Link.Good.item (L : S.Lawful) {l : Link S} (h : l.Good) {i : Msg} (hi : l.rcv.poll.1 = .item i) :
    ∃ P A, l.pushed = P ++ A ∧ P.length = l.got.length + 1 ∧ (S.wire l.start (P.map (fun p => Codec.encodeMsg p.2))).length ≤ (arrived l.net).length := by
  obtain ⟨ha, hc, todo, t, hf, -, hw, hbytes, hall, -⟩ := h.todo L
  have hsent := (h.snt.wire h.fine.clean).1
  have hms : ∀ Q : List (Nat × Msg), Q.map (fun p => Codec.encodeMsg p.2) = (Q.map Prod.snd).map Codec.encodeMsg := by intro Q; simp [Function.comp_def]
  have e1 : (l.snd.wire ++ l.snd.rest).length = (S.wire l.start (l.got.map Codec.encodeMsg)).length + (S.wire l.rcv.cr.dec (todo.map Codec.encodeMsg)).length := by
    rw [hsent, hms, hall, List.map_append, wire_append, List.length_append, wire_len L (S.after l.start (l.got.map Codec.encodeMsg)) l.rcv.cr.dec]
  have e2 := congrArg List.length hbytes
  rw [hw] at e1
  simp only [List.length_append] at e1 e2
  rcases l.rcv.poll_alive ha with ⟨g, -⟩ | ⟨⟨e, g⟩, -⟩ | ⟨g, -⟩ | ⟨c, fr', d, dec', m, hp, -, -, -⟩
  · rw [hi] at g; cases g
  · rw [hi] at g; cases g
  · rw [hi] at g; cases g
  obtain ⟨hdead, hlen, -, hfl⟩ := poll_item hp
  cases todo with
  | nil =>
    exfalso
    have : l.rcv.unread.length = 0 := by
      simp only [List.map_nil, SStream.wire, List.length_nil] at e2; omega
    simp only [MsgRecv.unread, hfl, List.length_append, frame, le16_length] at this
    omega
  | cons m td =>
    have hfm := hf m (List.mem_cons_self ..)
    simp only [Fits, decide_eq_true_eq] at hfm
    have hle : (frame (S.push l.rcv.cr.dec (Codec.encodeMsg m)).1).length ≤ l.rcv.unread.length := by
      refine Classical.byContradiction fun hno => ?_
      have hpre : l.rcv.cr.fr.chunks.flatten <+: frame (S.push l.rcv.cr.dec (Codec.encodeMsg m)).1 := by
        refine List.prefix_of_prefix_length_le (l₃ := l.rcv.unread ++ t ++ l.snd.rest) ⟨t ++ l.snd.rest, by rw [List.append_assoc]; rfl⟩ ?_ (by
          have h0 : l.rcv.cr.fr.chunks.flatten.length = l.rcv.unread.length := rfl
          omega)
        rw [hbytes]
        exact ⟨_, rfl⟩
      have hm : maxFrame = 8192 := rfl
      have := poll_partial (r := l.rcv.cr.fr) hdead (by rw [L.push_len]; omega) hpre (by
        have h0 : l.rcv.cr.fr.chunks.flatten.length = l.rcv.unread.length := rfl
        omega)
      rw [hc, hp] at this
      simp at this
    refine ⟨l.pushed.take (l.got.length + 1), l.pushed.drop (l.got.length + 1), (List.take_append_drop ..).symm, ?_, ?_⟩
    · have := congrArg List.length hall
      simp at this
      rw [List.length_take]; omega
    · rw [hms, List.map_take, hall, List.take_append, List.take_of_length_le (by omega)]
      rw [show l.got.length + 1 - l.got.length = 1 by omega]
      simp only [List.take_succ_cons, List.take_zero]
      rw [List.map_append, wire_append, List.length_append, wire_len L (S.after l.start (l.got.map Codec.encodeMsg)) l.rcv.cr.dec]
      simp only [List.map_cons, List.map_nil, SStream.wire, List.append_nil] at e1 e2 ⊢
      simp only [List.length_append] at e1 e2
      omega

/-- As long as nothing is taken, it stays there. -/
theorem item_stays (L : S.Lawful) {l : Nat → Link S} (hg : ∀ n, (l n).Good) (hs : ∀ n, LStep (l n) (l (n + 1))) {n d : Nat} {i : Msg}
    (hi : (l n).rcv.poll.1 = .item i) (hgot : (l (n + d)).got = (l n).got) : ∃ i', (l (n + d)).rcv.poll.1 = .item i' := by
  obtain ⟨P, A, h1, h2, h3⟩ := (hg n).item L hi
  have hgr : (l (n + d)).start = (l n).start ∧ (∃ a, (l (n + d)).pushed = (l n).pushed ++ a) ∧ (arrived (l n).net).length ≤ (arrived (l (n + d)).net).length := by
    clear hgot
    induction d with
    | zero => exact ⟨rfl, ⟨[], (List.append_nil _).symm⟩, Nat.le_refl _⟩
    | succ d ih =>
      obtain ⟨a1, ⟨p, a2⟩, a3⟩ := ih
      obtain ⟨b1, ⟨p', b2⟩, -, -, b5⟩ := (hs (n + d)).grows
      exact ⟨b1.trans a1, ⟨p ++ p', by rw [← Nat.add_assoc, b2, a2, List.append_assoc]⟩, Nat.le_trans a3 b5⟩
  obtain ⟨g1, ⟨a, g2⟩, g3⟩ := hgr
  exact (hg (n + d)).there L (P := P) (A := A ++ a) (by rw [g2, h1, List.append_assoc]) (by rw [g1]; omega) (by rw [hgot]; omega)

/-! ### What happens while the server takes nothing -/

/-- No new request comes into the server. -/
theorem no_new {w : World E S} {c : Nat} {x : Conn S} (hx : w.conns[c]? = some x) {ev : WEv S} (hb : ¬ w.Breaks c ev)
    (hm : ¬ w.MovesPart c .takeUp ev) {t : Thread E} (ht : t ∈ (w.step ev).sys.threads) (htc : t.conn = c) :
    ∃ t' ∈ w.sys.threads, t'.id = t.id ∧ t'.conn = c := by
  cases ev with
  | connect u d => exact ⟨t, ht, rfl, htc⟩
  | restart => exact absurd trivial hb
  | net d e => exact ⟨t, ht, rfl, htc⟩
  | serve d =>
    simp only [World.step] at ht
    split at ht
    · exact ⟨t, ht, rfl, htc⟩
    · rename_i y hy
      split at ht
      · exact ⟨t, ht, rfl, htc⟩
      · split at ht
        · rename_i m hp
          rcases List.mem_append.mp ht with h | h
          · exact ⟨t, h, rfl, htc⟩
          · simp only [List.mem_singleton] at h
            subst h
            exact absurd ⟨⟨htc, y, m, by rw [← htc]; exact hy, hp⟩, trivial⟩ hm
        · exact ⟨t, ht, rfl, htc⟩
  | act i ch =>
    have hs : (w.step (.act i ch)).sys = w.sys.step (.step i ch) := by
      simp only [World.step]
      split
      · rfl
      · split <;> rfl
    rw [hs] at ht
    cases hi : w.sys.threads[i]? with
    | none => rw [step_none _ i ch hi] at ht; exact ⟨t, ht, rfl, htc⟩
    | some u =>
      cases hp : u.prog with
      | ret r => rw [step_ret _ i ch u r hi hp] at ht; exact ⟨t, List.mem_of_mem_eraseIdx ht, rfl, htc⟩
      | fail er => rw [step_fail _ i ch u er hi hp] at ht; exact ⟨t, List.mem_of_mem_eraseIdx ht, rfl, htc⟩
      | step a k =>
        rw [step_act _ i ch u a k hi hp] at ht
        rcases List.mem_or_eq_of_mem_set ht with h | h
        · exact ⟨t, h, rfl, htc⟩
        · subst h
          exact ⟨u, List.mem_of_getElem? hi, rfl, htc⟩

/-- The sending half makes no new call on its own. -/
theorem internal_len (s : SndSt S) {e : SEv} (h : e.internal = true) : (s.step e).calls.length = s.calls.length := by
  cases e with
  | call m => cases h
  | _ =>
    simp only [SndSt.step]
    repeat' split
    all_goals simp [SndSt.set, SndSt.release]

/-- Nothing more comes out of the client's messages, and no answer is given to the sending half unless a handler ends. -/
theorem kept {w : World E S} {c : Nat} {x x' : Conn S} (hx : w.conns[c]? = some x) (hf : x.Fine) {ev : WEv S} (hb : ¬ w.Breaks c ev)
    (hx' : (w.step ev).conns[c]? = some x') :
    (¬ w.MovesPart c .takeUp ev → x'.up.got = x.up.got) ∧
    ((∀ t ∈ w.sys.threads, t.conn ≠ c) → x'.down.snd.calls.length = x.down.snd.calls.length) := by
  have hlt := (List.getElem?_eq_some_iff.mp hx).1
  have same : w.conns[c]? = some x' → x'.up.got = x.up.got ∧ x'.down.snd.calls.length = x.down.snd.calls.length := by
    intro h; rw [hx] at h; cases h; exact ⟨rfl, rfl⟩
  have hmod : ∀ {d : Nat} {f : Conn S → Conn S}, (w.conns.modify d f)[c]? = some x' → x' = x ∨ d = c ∧ x' = f x := by
    intro d f hy
    rw [List.getElem?_modify, hx] at hy
    by_cases hdc : d = c
    · right; simp [hdc] at hy; exact ⟨hdc, hy.symm⟩
    · left; simp [hdc] at hy; exact hy.symm
  cases ev with
  | connect u d =>
    simp only [World.step] at hx'
    rw [List.getElem?_append_left hlt] at hx'
    exact ⟨fun _ => (same hx').1, fun _ => (same hx').2⟩
  | restart => exact absurd trivial hb
  | net d e =>
    rcases hmod hx' with rfl | ⟨rfl, rfl⟩
    · exact ⟨fun _ => rfl, fun _ => rfl⟩
    · obtain ⟨b1, b2, b3, b4, b5, b6⟩ := World.Breaks.net hb
      have key : (x.step e).up.got = x.up.got ∧ (x.step e).down.snd.calls.length = x.down.snd.calls.length := by
        cases e with
        | downSend e =>
          simp only [Conn.step]
          split
          · rename_i he
            simp only [Bool.and_eq_true] at he
            refine ⟨rfl, ?_⟩
            exact internal_len x.down.snd he.1
          · exact ⟨rfl, rfl⟩
        | downRetry k =>
          simp only [Conn.step]
          split
          · exact ⟨rfl, rfl⟩
          · split
            · split
              · rename_i id r e hk
                rcases hf.down.sends k _ hk with g | ⟨m, -, -, g | g | ⟨r, g⟩ | g⟩ <;> cases g
              · exact ⟨rfl, rfl⟩
            · exact ⟨rfl, rfl⟩
        | downShutdown => exact absurd rfl b2
        | _ =>
          simp only [Conn.step]
          repeat' split
          all_goals refine ⟨?_, ?_⟩
          all_goals first | rfl | trivial
      exact ⟨fun _ => key.1, fun _ => key.2⟩
  | serve d =>
    simp only [World.step] at hx'
    split at hx'
    · exact ⟨fun _ => (same hx').1, fun _ => (same hx').2⟩
    · rename_i y hy
      split at hx'
      · exact ⟨fun _ => (same hx').1, fun _ => (same hx').2⟩
      · split at hx'
        · rename_i m hp
          rcases hmod hx' with rfl | ⟨rfl, rfl⟩
          · exact ⟨fun _ => rfl, fun _ => rfl⟩
          · rw [hx] at hy; cases hy
            exact ⟨fun hm => absurd ⟨⟨rfl, x, m, hx, hp⟩, trivial⟩ hm, fun _ => rfl⟩
        · rename_i hp
          rcases hmod hx' with rfl | ⟨rfl, rfl⟩
          · exact ⟨fun _ => rfl, fun _ => rfl⟩
          · rw [hx] at hy; cases hy
            refine ⟨fun _ => ?_, fun _ => rfl⟩
            show x.up.got ++ x.up.rcv.poll.1.toList = _
            cases h : x.up.rcv.poll.1 with
            | item m => exact absurd h (hp m)
            | _ => simp [Polled.toList]
  | act i ch =>
    simp only [World.step] at hx'
    split at hx'
    · exact ⟨fun _ => (same hx').1, fun _ => (same hx').2⟩
    · rename_i t ht
      split at hx'
      · rename_i o _
        rcases hmod hx' with rfl | ⟨rfl, rfl⟩
        · exact ⟨fun _ => rfl, fun _ => rfl⟩
        · refine ⟨fun _ => ?_, fun hn => absurd rfl (hn t (List.mem_of_getElem? ht))⟩
          cases o <;> rfl
      · exact ⟨fun _ => (same hx').1, fun _ => (same hx').2⟩

/-! ### The server makes room -/

/-- The connection at all times. Proof device: nothing in the code corresponds. -/
structure ConnRun (st : E.S.σ) (c : Nat) (u v : S.St) (W : Nat → World E S) (σ : Nat → WEv S) (X : Nat → Conn S) : Prop where
  start : X 0 = Conn.init u v
  conn : ∀ n, (W n).conns[c]? = some (X n) ∧ (X n).Fine ∧ InFlight (W n).sys c (X n)
  good : ∀ n, (X n).up.Good ∧ (X n).down.Good
  world : ∀ n, W (n + 1) = (W n).step (σ n)
  inv : ∀ n, WorldInv st (W n)
  next : ∀ n, ((W n).step (σ n)).conns[c]? = some (X (n + 1))
  links : ∀ n, LStep (X n).up (X (n + 1)).up ∧ DStep (X n).down (X (n + 1)).down
  ev : ∀ n e, σ n = .net c e → X (n + 1) = (X n).step e

theorem conn_run (L : S.Lawful) (evs : List (WEv S)) (u v : S.St) (σ : Nat → WEv S) :
    let c := (World.run E S st evs).conns.length
    let W := World.after E S st (evs ++ [.connect u v]) σ
    (∀ n, ¬ (W n).Breaks c (σ n)) →
    (∀ n, (W n).InTurn c (σ n)) →
    ∃ X, ConnRun st c u v W σ X := by
  intro c W hb hturn
  have hx0 : (World.run E S st (evs ++ [.connect u v])).conns[c]? = some (Conn.init u v) := by
    rw [run_ext evs]; simp [World.step, c]
  obtain ⟨x0, hx0', hf0, hi0⟩ := unbroken_start (E := E) (S := S) (st := st) L evs [] u v (by intro a e b hab; simp at hab)
  have hx0'' : (World.run E S st (evs ++ [.connect u v])).conns[c]? = some x0 := hx0'
  rw [hx0] at hx0''; cases hx0''
  have hall := after_fine (σ := σ) L hx0 hf0 hi0 hb
  let X : Nat → Conn S := fun n => ((W n).conns[c]?).getD (Conn.init u v)
  have hX : ∀ n, (W n).conns[c]? = some (X n) ∧ (X n).Fine ∧ InFlight (W n).sys c (X n) := by
    intro n
    obtain ⟨x', h1, h2, h3⟩ := hall n
    have h1' : (W n).conns[c]? = some x' := h1
    have : X n = x' := by simp only [X, h1', Option.getD_some]
    rw [this]; exact ⟨h1, h2, h3⟩
  have hgood : ∀ n, (X n).up.Good ∧ (X n).down.Good := fun n => fine_good L (hX n).1 (hX n).2.1
  have hWs : ∀ n, W (n + 1) = (W n).step (σ n) := by
    intro n
    show World.after E S st _ σ (n + 1) = _
    rw [after_succ]
    exact run_ext _ _
  have hinv : ∀ n, WorldInv st (W n) := fun n => worldInv_run st _
  have hX1 : ∀ n, ((W n).step (σ n)).conns[c]? = some (X (n + 1)) := fun n => by rw [← hWs]; exact (hX (n + 1)).1
  have hlinks : ∀ n, LStep (X n).up (X (n + 1)).up ∧ DStep (X n).down (X (n + 1)).down :=
    fun n => links_step (hX n).1 (hX n).2.1 (hb n) (hturn n) (hX1 n)
  have hXe : ∀ n e, σ n = .net c e → X (n + 1) = (X n).step e := by
    intro n e he
    have h := hX1 n
    rw [he] at h
    simp only [World.step] at h
    rw [List.getElem?_modify, (hX n).1] at h
    simp at h; exact h.symm
  have hX0 : X 0 = Conn.init u v := by
    have h := (hX 0).1
    have : W 0 = World.run E S st (evs ++ [.connect u v]) := by simp [W, World.after]
    rw [this, hx0] at h
    exact (Option.some.inj h).symm
  exact ⟨X, hX0, hX, hgood, hWs, hinv, hX1, hlinks, hXe⟩

/-- While the server takes nothing, all it has in hand comes to its end. -/
theorem makes_room (L : S.Lawful) {c : Nat} {u v : S.St} {W : Nat → World E S} {σ : Nat → WEv S} {X : Nat → Conn S} (R : ConnRun st c u v W σ X)
    (hb : ∀ n, ¬ (W n).Breaks c (σ n)) (hturn : ∀ n, (W n).InTurn c (σ n))
    (hfair : ∀ p n, p ≠ .takeUp ∧ p ≠ .wireUp ∧ p ≠ .sendUp → (∃ e, (W n).MovesPart c p e) → ∃ m, n ≤ m ∧ (W m).MovesPart c p (σ m))
    {n : Nat} (hnot : ∀ m, n ≤ m → ¬ (W m).MovesPart c .takeUp (σ m)) : ∃ T, n ≤ T ∧ (W T).inHand c = 0 := by
  obtain ⟨hX0, hX, hgood, hWs, hinv, hX1, hlinks, hXe⟩ := R
  have down : Trace (fun n => (X n).down) v := by
    refine ⟨by rw [hX0]; rfl, fun n => (hgood n).2, fun n => (hX n).2.2.downP, fun n => (hlinks n).2.1, ?_, ?_, ?_⟩
    · rintro n ⟨e, he⟩
      obtain ⟨m, hm, ⟨hmv, hp⟩⟩ := hfair .sendDown n (by simp) ⟨.net c (.downSend e), ⟨rfl, X n, (hX n).1, he⟩, trivial⟩
      have ht := hturn m
      have hs := hXe m
      generalize σ m = ev at *
      cases ev with
      | net d e' =>
        cases e' with
        | downSend e' =>
          obtain ⟨rfl, y, hy, hmv⟩ := hmv
          have := (hX m).1; rw [hy] at this; cases this
          refine ⟨m, hm, e', hmv, ht rfl _ hy, ?_⟩
          show (X (m + 1)).down = _
          rw [hs _ rfl]
          simp only [Conn.step, SEv.progress_internal (Moves.progress hmv), (hX m).2.1.here, Bool.not_false, Bool.and_true, if_true]
        | _ => exact hp.elim
      | _ => exact hp.elim
    · rintro n ⟨b, hb1, hb2⟩
      obtain ⟨m, hm, ⟨hmv, hp⟩⟩ := hfair .wireDown n (by simp) ⟨.net c (.downArrive b), ⟨rfl, X n, (hX n).1, hb1, hb2⟩, trivial⟩
      have hs := hXe m
      generalize σ m = ev at *
      cases ev with
      | net d e' =>
        cases e' with
        | downArrive b' =>
          obtain ⟨rfl, y, hy, hmv⟩ := hmv
          refine ⟨m, hm, b', hmv.1, ?_⟩
          show (X (m + 1)).down = _
          rw [hs _ rfl]; rfl
        | _ => exact hp.elim
      | _ => exact hp.elim
    · rintro n ⟨i, hi⟩
      obtain ⟨m, hm, ⟨hmv, hp⟩⟩ := hfair .takeDown n (by simp) ⟨.net c .poll, ⟨rfl, X n, (hX n).1, i, hi⟩, trivial⟩
      have hs := hXe m
      generalize σ m = ev at *
      cases ev with
      | net d e' =>
        cases e' with
        | poll =>
          obtain ⟨rfl, y, hy, i', hmv⟩ := hmv
          have h2 := (hX m).1; rw [hy] at h2; cases h2
          refine ⟨m, hm, ⟨i', hmv⟩, ?_⟩
          show (X (m + 1)).down = _
          rw [hs _ rfl]
          simp only [Conn.step, hmv]
        | _ => exact hp.elim
      | _ => exact hp.elim
  have hkept := fun m => kept (hX m).1 (hX m).2.1 (hb m) (hX1 m)
  -- the handlers end
  have hids : ∀ m, IdInv (W m).sys := fun m => by rw [(hinv m).sys]; exact idInv_run st _
  have hback : ∀ d m, n ≤ m → ∀ t ∈ (W (m + d)).sys.threads, t.conn = c → ∃ t' ∈ (W m).sys.threads, t'.id = t.id ∧ t'.conn = c := by
    intro d
    induction d with
    | zero => intro m _ t ht htc; exact ⟨t, ht, rfl, htc⟩
    | succ d ih =>
      intro m hm t ht htc
      rw [← Nat.add_assoc, hWs] at ht
      obtain ⟨t1, h1, h2, h3⟩ := no_new (hX (m + d)).1 (hb _) (hnot _ (by omega)) ht htc
      obtain ⟨t2, g1, g2, g3⟩ := ih m hm t1 h1 h3
      exact ⟨t2, g1, g2.trans h2, g3⟩
  have hgone : ∀ N m h, n ≤ m → LeftInv h N (W m).sys → h < (W m).sys.inbox.length →
      ∃ T, n ≤ T ∧ ∀ t ∈ (W T).sys.threads, t.conn = c → t.id ≠ h := by
    intro N
    induction N using Nat.strongRecOn with
    | ind N ih =>
      intro m h hm hl hin
      by_cases hex : ∃ t ∈ (W m).sys.threads, t.conn = c ∧ t.id = h
      · obtain ⟨t, ht, htc, htid⟩ := hex
        obtain ⟨i0, hi0⟩ := List.mem_iff_getElem?.mp ht
        obtain ⟨p, hp, hmv, hpart⟩ := hfair (.handler h) m (by simp)
          ⟨.act i0 ⟨fun n => B.fill n 0, 0, .error "", none⟩, ⟨t, hi0, htc⟩, t, hi0, htid⟩
        have hbet : ∀ i, LeftInv h N (W (m + i)).sys ∧ h < (W (m + i)).sys.inbox.length := by
          intro i
          induction i with
          | zero => exact ⟨hl, hin⟩
          | succ i ihi =>
            rw [← Nat.add_assoc, hWs]
            rcases sys_step (hb (m + i)) with ⟨g, -⟩ | ⟨e, he, g, -⟩
            · rw [g]; exact ihi
            · rw [g]; exact ⟨(left_step (hids _) ihi.2 ihi.1 e).1, Nat.lt_of_lt_of_le ihi.2 (inbox_kept _ _)⟩
        obtain ⟨hlp, hinp⟩ := hbet (p - m)
        obtain ⟨-, hinp1⟩ := hbet (p + 1 - m)
        rw [show m + (p - m) = p by omega] at hlp hinp
        rw [show m + (p + 1 - m) = p + 1 by omega] at hinp1
        have hbp := hb p
        have hw1 := hWs p
        generalize σ p = ev at *
        cases ev with
        | act i ch =>
          obtain ⟨t3, ht3, ht3id⟩ := hpart
          rcases sys_step hbp with g | ⟨e, he, g, hact⟩
          · exact absurd rfl (g.2 i ch)
          · have he' := hact i ch rfl
            subst he'
            rcases (left_step (hids p) hinp hlp (.step i ch)).2 (by simp [Sys.stepped, ht3, ht3id]) with q | ⟨N', q1, q2⟩
            · exact ⟨p + 1, by omega, fun t ht _ => q t (by rw [hw1, g] at ht; exact ht)⟩
            · exact ih N' (by omega) (p + 1) h (by omega) (by rw [hw1, g]; exact q2) hinp1
        | _ => exact hpart.elim
      · exact ⟨m, hm, fun t ht htc hid => hex ⟨t, ht, htc, hid⟩⟩
  have hempty : ∀ l : List Nat, ∃ T, n ≤ T ∧ ∀ m, T ≤ m → ∀ t ∈ (W m).sys.threads, t.conn = c → t.id ∉ l := by
    intro l
    induction l with
    | nil => exact ⟨n, Nat.le_refl _, fun m _ t _ _ => by simp⟩
    | cons h l ih =>
      obtain ⟨T, hT, hl⟩ := ih
      obtain ⟨T2, hT2, h2⟩ : ∃ T, n ≤ T ∧ ∀ t ∈ (W T).sys.threads, t.conn = c → t.id ≠ h := by
        by_cases hin : h < (W n).sys.inbox.length
        · refine hgone 16 n h (Nat.le_refl _) (fun t' ht' _ => ?_) hin
          have := within_run (E := E) st (W n).sevs
          rw [← (hinv n).sys] at this
          exact this t' ht'
        · refine ⟨n, Nat.le_refl _, fun t ht _ hid => hin ?_⟩
          rw [← hid]
          exact (List.getElem?_eq_some_iff.mp ((hids n).threads t ht).1).1
      refine ⟨T + T2, by omega, fun m hm t ht htc hmem => ?_⟩
      rcases List.mem_cons.mp hmem with hid | hmem
      · obtain ⟨t', g1, g2, g3⟩ := hback (m - T2) T2 hT2 t (by rw [show T2 + (m - T2) = m by omega]; exact ht) htc
        exact h2 t' g1 g3 (g2.trans hid)
      · exact hl m (by omega) t ht htc hmem
  obtain ⟨T1, hT1, hnone⟩ : ∃ T, n ≤ T ∧ ∀ m, T ≤ m → ∀ t ∈ (W m).sys.threads, t.conn ≠ c := by
    obtain ⟨T, hT, h⟩ := hempty ((W n).sys.threads.map Thread.id)
    refine ⟨T, hT, fun m hm t ht htc => ?_⟩
    obtain ⟨t', g1, g2, -⟩ := hback (m - n) n (Nat.le_refl _) t (by rw [show n + (m - n) = m by omega]; exact ht) htc
    exact h m hm t ht htc (by rw [← g2]; exact List.mem_map_of_mem g1)
  -- the answers are written
  have hlen : ∀ d, (X (T1 + d)).down.snd.calls.length = (X T1).down.snd.calls.length := by
    intro d
    induction d with
    | zero => rfl
    | succ d ih => rw [← ih]; exact (hkept (T1 + d)).2 (hnone _ (by omega))
  have hover : ∀ i, i ≤ (X T1).down.snd.calls.length → ∃ T, T1 ≤ T ∧ ∀ (j : Nat) (s : SCall), j < i → (X T).down.snd.calls[j]? = some s → s.phase.over := by
    intro i
    induction i with
    | zero => intro _; exact ⟨T1, Nat.le_refl _, fun j s hj => absurd hj (by omega)⟩
    | succ i ih =>
      intro hi
      obtain ⟨T, hT, h⟩ := ih (by omega)
      have hlT := hlen (T - T1)
      rw [show T1 + (T - T1) = T by omega] at hlT
      have hiT : i < (X T).down.snd.calls.length := by omega
      obtain ⟨T2, ph2, hT2, g1, g2⟩ := down.ends L i T (X T).down.snd.calls[i].msg (X T).down.snd.calls[i].phase (List.getElem?_eq_getElem hiT)
      refine ⟨T2, by omega, fun j s hj hs => ?_⟩
      by_cases hji : j = i
      · subst hji
        have g1' : (X T2).down.snd.calls[j]? = _ := g1
        rw [g1'] at hs; cases hs; exact g2
      · have hjT : j < (X T).down.snd.calls.length := by omega
        have h0 : (X T).down.snd.calls[j]? = some ⟨(X T).down.snd.calls[j].msg, (X T).down.snd.calls[j].phase⟩ := List.getElem?_eq_getElem hjT
        have ho := h j _ (by omega) h0
        obtain ⟨ph3, k1, -, k3⟩ := down.later L (n := T) h0 (T2 - T)
        rw [show T + (T2 - T) = T2 by omega] at k1
        have k1' : (X T2).down.snd.calls[j]? = _ := k1
        rw [k1'] at hs
        cases hs
        have := k3 ho
        simp only [this]
        exact ho
  obtain ⟨T2, hT2, hall2⟩ := hover _ (Nat.le_refl _)
  -- there is room, and the message is still there
  have hroom : (W T2).inHand c = 0 := by
    have hl2 := hlen (T2 - T1)
    rw [show T1 + (T2 - T1) = T2 by omega] at hl2
    have e1 : (W T2).sys.threads.countP (fun t => decide (t.conn = c)) = 0 := by
      rw [List.countP_eq_zero]
      intro t ht
      simpa using hnone T2 hT2 t ht
    have e2 : (X T2).down.snd.calls.countP SCall.unfinished = 0 := by
      rw [List.countP_eq_zero]
      intro s hs
      obtain ⟨j, hj⟩ := List.mem_iff_getElem?.mp hs
      have := hall2 j s (by have := (List.getElem?_eq_some_iff.mp hj).1; omega) hj
      obtain ⟨mo, ph⟩ := s
      cases ph <;> first | exact this.elim | simp [SCall.unfinished]
    simp only [World.inHand, (hX T2).1, e1, e2]
  exact ⟨T2, by omega, hroom⟩

/-- The server's receive loop goes on. -/
theorem take_goes (L : S.Lawful) {lim : Nat} (hlim : 0 < lim) {c : Nat} {u v : S.St} {W : Nat → World E S} {σ : Nat → WEv S} {X : Nat → Conn S}
    (R : ConnRun st c u v W σ X) (hb : ∀ n, ¬ (W n).Breaks c (σ n)) (hturn : ∀ n, (W n).InTurn c (σ n))
    (hfair : ∀ p n, p ≠ .takeUp ∧ p ≠ .wireUp ∧ p ≠ .sendUp → (∃ e, (W n).MovesPart c p e) → ∃ m, n ≤ m ∧ (W m).MovesPart c p (σ m))
    (htake : ∀ n, (W n).inHand c < lim → (∃ e, (W n).MovesPart c .takeUp e) → ∃ m, n ≤ m ∧ (W m).MovesPart c .takeUp (σ m))
    (n : Nat) (hcan : ∃ e, (W n).MovesPart c .takeUp e) : ∃ m, n ≤ m ∧ (W m).MovesPart c .takeUp (σ m) := by
  refine Classical.byContradiction fun hno => ?_
  have hnot : ∀ m, n ≤ m → ¬ (W m).MovesPart c .takeUp (σ m) := fun m hm h => hno ⟨m, hm, h⟩
  obtain ⟨T2, hT2, hroom⟩ := makes_room L R hb hturn hfair hnot
  obtain ⟨hX0, hX, hgood, hWs, hinv, hX1, hlinks, hXe⟩ := R
  have hkept := fun m => kept (hX m).1 (hX m).2.1 (hb m) (hX1 m)
  have hgot : ∀ d, (X (n + d)).up.got = (X n).up.got := by
    intro d
    induction d with
    | zero => rfl
    | succ d ih => rw [← ih]; exact (hkept (n + d)).1 (hnot _ (by omega))
  obtain ⟨ev, ⟨hmv, hpart⟩⟩ := hcan
  obtain ⟨i, hi⟩ : ∃ i, (X n).up.rcv.poll.1 = .item i := by
    cases ev with
    | serve d =>
      obtain ⟨rfl, y, i, hy, hi⟩ := hmv
      have := (hX n).1; rw [hy] at this; cases this
      exact ⟨i, hi⟩
    | _ => exact hpart.elim
  obtain ⟨i', hi'⟩ := item_stays (l := fun m => (X m).up) L (fun m => (hgood m).1) (fun m => (hlinks m).1) (n := n) (d := T2 - n) hi (hgot _)
  simp only [show n + (T2 - n) = T2 by omega] at hi'
  obtain ⟨m, hm, h⟩ := htake T2 (by omega) ⟨.serve c, ⟨rfl, X T2, i', (hX T2).1, hi'⟩, trivial⟩
  exact hnot m (by omega) h

/-! ### No request starves behind the limit -/

/-- C91. As C89, with the server's limit (`lim`, in the code 4096): the server takes a message only while it has fewer than `lim` of this connection in
    hand. So nothing is asked of the server's receive loop while the limit is reached; it only has to go on, some time later, when it can go on and
    there is room. All requests are answered all the same: nobody starves behind the limit. -/
theorem C91_no_request_starves_behind_the_limit (L : S.Lawful) (hst : GoodStore E st) (lim : Nat) (hlim : 0 < lim) (evs : List (WEv S)) (u v : S.St)
    (σ : Nat → WEv S) :
    let c := (World.run E S st evs).conns.length
    let W := World.after E S st (evs ++ [.connect u v]) σ
    (∀ n, ¬ (W n).Breaks c (σ n)) →
    (∀ n, (W n).FreshIds c) →
    (∀ n, (W n).InTurn c (σ n)) →
    (∀ p n, (p = .takeUp → (W n).inHand c < lim) → (∃ e, (W n).MovesPart c p e) → ∃ m, n ≤ m ∧ (W m).MovesPart c p (σ m)) →
    ∀ n k id q, (W n).request c k = some (id, q) → (∀ m, σ m ≠ .net c (.cancel k) ∧ σ m ≠ .net c (.timeout k)) →
      ∃ T, ∀ m, T ≤ m → ∃ d ∈ (W m).sys.done, d.conn = c ∧ d.msg = .req id q ∧ (W m).result c k = some d.outcome := by
  intro c W hb hfresh hturn hfair0
  refine C89_no_request_starves L hst evs u v σ hb hfresh hturn ?_
  intro p n hcan
  by_cases hp : p = .takeUp
  · subst hp
    obtain ⟨X, R⟩ := conn_run (st := st) L evs u v σ hb hturn
    exact take_goes L hlim R hb hturn (fun p n hp => hfair0 p n (fun h => absurd h hp.1)) (fun n h => hfair0 .takeUp n (fun _ => h)) n hcan
  · exact hfair0 p n (fun h => absurd h hp) hcan

end Lair
