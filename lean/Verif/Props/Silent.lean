import Verif.Props.Flow
import Verif.Props.Session
import Verif.Fallback
import Verif.Examples

/-
C79: an external signer that has fallen silent holds up nobody else. Violated on the connection that asks it: the server waits for
the signer without a time limit (lair_server.rs:360-378: `send.send(..).await`, `r.await`), and every request that waits keeps one of
the 4096 places its connection has (priv_srv.rs:191). When all are taken the connection is dead, for all requests.

Flow.lean models the places; a request the signer keeps is one for which the event `handled` never happens.
-/
namespace Lair

variable {g : FlowCfg}

/-- The signer is silent about the requests in `H` all the time. -/
def Silent (H : Nat → Bool) (evs : List FlowEv) : Prop := ∀ i, H i = true → FlowEv.handled i ∉ evs

/-- Nothing more will happen unless the signer speaks. -/
def Flow.QuietBut (g : FlowCfg) (H : Nat → Bool) (f : Flow) : Prop :=
  ∀ e : FlowEv, e.own = true → (∀ i, H i = true → e ≠ .handled i) → f.step g e = f

/-! ### Lemmas -/

theorem silent_cons {H : Nat → Bool} {e : FlowEv} {evs : List FlowEv} (h : Silent H (e :: evs)) :
    (∀ i, H i = true → e ≠ .handled i) ∧ Silent H evs :=
  ⟨fun i hi he => h i hi (by simp [he]), fun i hi hm => h i hi (by simp [hm])⟩

/-- The requests kept by the signer. -/
def Flow.held (H : Nat → Bool) (f : Flow) : List Nat := f.running.filter H

theorem writeByte_H {H : Nat → Bool} {out : List FFrame} {pipe : List FByte} (h1 : ∀ x ∈ out, H x.id = false) (h2 : ∀ b ∈ pipe, H b.id = false) :
    (∀ x ∈ (writeByte out pipe).1, H x.id = false) ∧ ∀ b ∈ (writeByte out pipe).2, H b.id = false := by
  unfold writeByte
  split
  · exact ⟨by simp, h2⟩
  · rename_i i rest
    refine ⟨fun x hx => h1 x (by simp [hx]), fun b hb => ?_⟩
    rcases List.mem_append.1 hb with h | h
    · exact h2 b h
    · rw [List.mem_singleton.1 h]; exact h1 ⟨i, 0⟩ (by simp)
  · rename_i i n rest
    refine ⟨fun x hx => ?_, fun b hb => ?_⟩
    · rcases List.mem_cons.1 hx with h | h
      · rw [h]; exact h1 ⟨i, n + 1⟩ (by simp)
      · exact h1 x (by simp [h])
    · rcases List.mem_append.1 hb with h | h
      · exact h2 b h
      · rw [List.mem_singleton.1 h]; exact h1 ⟨i, n + 1⟩ (by simp)

/-- No response to a kept request. -/
structure NoReply (H : Nat → Bool) (f : Flow) : Prop where
  out : ∀ x ∈ f.srvOut, H x.id = false
  down : ∀ b ∈ f.down, H b.id = false
  ans : ∀ i ∈ f.answered, H i = false

theorem noReply_step {H : Nat → Bool} {f : Flow} (h : NoReply H f) (e : FlowEv) (he : ∀ i, H i = true → e ≠ .handled i) :
    NoReply H (f.step g e) := by
  obtain ⟨h1, h2, h3⟩ := h
  cases e with
  | ask id len => exact ⟨h1, h2, h3⟩
  | cliWrite => simp only [Flow.step]; split <;> exact ⟨h1, h2, h3⟩
  | srvRead =>
    simp only [Flow.step]
    split
    · cases f.up <;> exact ⟨h1, h2, h3⟩
    · exact ⟨h1, h2, h3⟩
  | handled id =>
    simp only [Flow.step]
    split
    · refine ⟨fun x hx => ?_, h2, h3⟩
      rcases List.mem_append.1 hx with hx | hx
      · exact h1 x hx
      · rw [List.mem_singleton.1 hx]
        cases hh : H id with
        | false => rfl
        | true => exact absurd rfl (he id hh)
    · exact ⟨h1, h2, h3⟩
  | srvWrite =>
    simp only [Flow.step]
    split
    · exact ⟨(writeByte_H h1 h2).1, (writeByte_H h1 h2).2, h3⟩
    · exact ⟨h1, h2, h3⟩
  | cliRead =>
    simp only [Flow.step]
    cases hd : f.down with
    | nil => exact ⟨h1, by rw [hd]; simp, h3⟩
    | cons b rest =>
      refine ⟨h1, fun x hx => h2 x (by rw [hd]; simp [hx]), ?_⟩
      intro i hi
      by_cases hb : b.last = true
      · simp only [hb, if_true] at hi
        rcases List.mem_append.1 hi with hi | hi
        · exact h3 i hi
        · rw [List.mem_singleton.1 hi]; exact h2 b (by rw [hd]; simp)
      · simp only [hb] at hi; exact h3 i hi

theorem noReply_run {H : Nat → Bool} (evs : List FlowEv) : ∀ {f : Flow}, NoReply H f → Silent H evs → NoReply H (f.run g evs) := by
  induction evs with
  | nil => intro f h _; exact h
  | cons e evs ih => intro f h hs; exact ih (noReply_step h e (silent_cons hs).1) (silent_cons hs).2

/-- The places kept by the signer stay kept. -/
theorem held_step {H : Nat → Bool} (f : Flow) (e : FlowEv) (he : ∀ i, H i = true → e ≠ .handled i) :
    (f.held H).length ≤ ((f.step g e).held H).length := by
  unfold Flow.held
  cases e with
  | ask id len => exact Nat.le_refl _
  | cliWrite => simp only [Flow.step]; split <;> exact Nat.le_refl _
  | srvRead =>
    simp only [Flow.step]
    split
    · cases f.up with
      | nil => exact Nat.le_refl _
      | cons b rest =>
        show (f.running.filter H).length ≤ ((if b.last then f.running ++ [b.id] else f.running).filter H).length
        split
        · rw [List.filter_append, List.length_append]; omega
        · exact Nat.le_refl _
    · exact Nat.le_refl _
  | handled id =>
    simp only [Flow.step]
    split
    · show (f.running.filter H).length ≤ ((f.running.erase id).filter H).length
      have hid : H id = false := by
        cases hh : H id with
        | false => rfl
        | true => exact absurd rfl (he id hh)
      have : (f.running.erase id).filter H = f.running.filter H := by
        rw [← List.erase_filter]
        exact List.erase_of_not_mem (by simp [hid])
      rw [this]; exact Nat.le_refl _
    · exact Nat.le_refl _
  | srvWrite => simp only [Flow.step]; split <;> exact Nat.le_refl _
  | cliRead => simp only [Flow.step]; cases f.down <;> exact Nat.le_refl _

theorem held_run {H : Nat → Bool} (evs : List FlowEv) : ∀ {f : Flow}, Silent H evs → (f.held H).length ≤ ((f.run g evs).held H).length := by
  induction evs with
  | nil => intro f _; exact Nat.le_refl _
  | cons e evs ih => intro f hs; exact Nat.le_trans (held_step f e (silent_cons hs).1) (ih (silent_cons hs).2)

/-- The requests that have reached the server. -/
def Flow.reached (f : Flow) : List Nat := f.running ++ f.srvOut.map (·.id) ++ (f.down.filter (·.last)).map (·.id) ++ f.answered

/-- When the signer has all places, no request reaches the server any more. -/
theorem full_step {H : Nat → Bool} (f : Flow) (hf : g.limit ≤ (f.held H).length) (e : FlowEv) (i : Nat) :
    (f.step g e).reached.count i = f.reached.count i := by
  have hrun : (f.held H).length ≤ f.running.length := List.length_filter_le _ _
  cases e with
  | ask id len => rfl
  | cliWrite => simp only [Flow.step]; split <;> rfl
  | srvRead => simp only [Flow.step]; rw [if_neg (by omega)]
  | handled id =>
    simp only [Flow.step]
    split
    · rename_i hm
      have := List.count_erase (l := f.running) (a := i) (b := id)
      have hpos : id = i → 1 ≤ f.running.count i := by
        intro h; subst h; exact List.count_pos_iff.mpr hm
      simp only [Flow.reached, List.count_append, List.map_append, List.map_cons, List.map_nil, List.count_cons, List.count_nil,
        beq_iff_eq] at this ⊢
      by_cases h : id = i
      · have h' := hpos h
        simp only [h, if_true] at this ⊢
        omega
      · simp only [h, if_false] at this ⊢
        omega
    · rfl
  | srvWrite =>
    simp only [Flow.step]
    split
    · have := writeByte_ids f.srvOut f.down i
      simp only [Flow.reached, List.count_append] at this ⊢
      omega
    · rfl
  | cliRead =>
    simp only [Flow.step]
    cases hd : f.down with
    | nil => rfl
    | cons b rest =>
      cases hb : b.last <;> simp [Flow.reached, hd, hb, List.count_append, List.count_cons]
      omega

theorem full_run {H : Nat → Bool} (evs : List FlowEv) (i : Nat) : ∀ {f : Flow}, g.limit ≤ (f.held H).length → Silent H evs →
    (f.run g evs).reached.count i = f.reached.count i := by
  induction evs with
  | nil => intro f _ _; rfl
  | cons e evs ih =>
    intro f hf hs
    show ((f.step g e).run g evs).reached.count i = _
    rw [ih (Nat.le_trans hf (held_step f e (silent_cons hs).1)) (silent_cons hs).2, full_step f hf]

theorem reached_le_all (f : Flow) (i : Nat) : f.reached.count i ≤ f.all.count i := by
  simp only [Flow.reached, Flow.all, List.count_append]; omega

/-! ### C79 -/

/-- C79, what holds of it. While the signer is silent about fewer requests of a connection than the connection has places, it holds up only these:
    when nothing more happens without it, all other requests made on the connection have been answered, each one exactly once. -/
theorem C79_others_are_answered_partial (hu : 0 < g.upCap) (hd : 0 < g.downCap) (H : Nat → Bool) (evs : List FlowEv) (hs : Silent H evs)
    (hfew : ((FlowEv.asks evs).filter H).length < g.limit) (hq : (Flow.init.run g evs).QuietBut g H) :
    (Flow.init.run g evs).answered.Perm ((FlowEv.asks evs).filter (fun i => !H i)) := by
  have hcount := fun i => flow_run_count (g := g) evs i .init
  have hno : NoReply H (Flow.init.run g evs) := noReply_run (g := g) evs ⟨by simp [Flow.init], by simp [Flow.init], by simp [Flow.init]⟩ hs
  generalize hf : Flow.init.run g evs = f at *
  have write_changes : ∀ (out : List FFrame) (pipe : List FByte), (writeByte out pipe).2 = pipe → out = [] := by
    intro out pipe h
    unfold writeByte at h
    split at h
    · rfl
    · exact absurd (congrArg List.length h) (by simp)
    · exact absurd (congrArg List.length h) (by simp)
  have hdown : f.down = [] := by
    have := hq .cliRead rfl (by intros; simp)
    simp only [Flow.step] at this
    cases hc : f.down with
    | nil => rfl
    | cons b rest =>
      rw [hc] at this
      have := congrArg (fun x : Flow => x.down.length) this
      simp [hc] at this
  have hsrv : f.srvOut = [] := by
    have := hq .srvWrite rfl (by intros; simp)
    simp only [Flow.step, hdown, List.length_nil, hd, if_true] at this
    exact write_changes f.srvOut [] ((congrArg Flow.down this).trans hdown)
  have hrun : ∀ i ∈ f.running, H i = true := by
    intro i hi
    cases hh : H i with
    | true => rfl
    | false =>
      have := hq (.handled i) rfl (by intro j hj he; cases he; rw [hh] at hj; cases hj)
      simp only [Flow.step, hi, if_true] at this
      have := congrArg (fun x : Flow => x.srvOut.length) this
      simp at this
  have hle : f.running.length ≤ ((FlowEv.asks evs).filter H).length := by
    have h1 : f.running = f.running.filter H := by
      symm; rw [List.filter_eq_self]; exact hrun
    have hperm : f.all.Perm (FlowEv.asks evs) := by
      rw [List.perm_iff_count]; intro i; rw [hcount i]; simp [Flow.all, Flow.init]
    rw [h1, ← (hperm.filter H).length_eq]
    simp only [Flow.all, List.filter_append, List.length_append]
    omega
  have hup : f.up = [] := by
    have := hq .srvRead rfl (by intros; simp)
    simp only [Flow.step, hsrv, List.length_nil, Nat.add_zero] at this
    rw [if_pos (by omega)] at this
    cases hc : f.up with
    | nil => rfl
    | cons b rest =>
      rw [hc] at this
      have := congrArg (fun x : Flow => x.up.length) this
      simp [hc] at this
  have hcli : f.cliOut = [] := by
    have := hq .cliWrite rfl (by intros; simp)
    simp only [Flow.step, hup, List.length_nil, hu, if_true] at this
    exact write_changes f.cliOut [] ((congrArg Flow.up this).trans hup)
  rw [List.perm_iff_count]
  intro i
  have hc := hcount i
  simp only [Flow.all, hcli, hup, hsrv, hdown, Flow.init] at hc
  simp only [List.map_nil, List.filter_nil, List.nil_append, List.append_nil, List.count_append, List.count_nil, Nat.zero_add] at hc
  cases hh : H i with
  | true =>
    rw [List.count_eq_zero.2 (fun hm => by rw [hno.ans i hm] at hh; cases hh), List.count_eq_zero.2 (by simp [hh])]
  | false =>
    have h0 : f.running.count i = 0 := List.count_eq_zero.2 (fun hm => by rw [hrun i hm] at hh; cases hh)
    rw [List.count_filter (by simp [hh])]
    omega

/-- C79 is violated. When the signer is silent about as many requests of a connection as the connection has places, the connection is dead: no
    request made from then on is answered, whatever it is, however long one waits, until the signer speaks. -/
theorem C79_full_connection_is_dead (H : Nat → Bool) (evs more : List FlowEv) (hfull : g.limit ≤ ((Flow.init.run g evs).held H).length)
    (hs : Silent H more) (i : Nat) (hi : i ∉ FlowEv.asks evs) : i ∉ (Flow.init.run g (evs ++ more)).answered := by
  intro hm
  have h1 : (Flow.init.run g (evs ++ more)).reached.count i = (Flow.init.run g evs).reached.count i := by
    unfold Flow.run; rw [List.foldl_append]
    exact full_run more i hfull hs
  have h2 := reached_le_all (Flow.init.run g evs) i
  rw [flow_run_count, List.count_eq_zero.2 hi] at h2
  have h3 : 0 < (Flow.init.run g (evs ++ more)).reached.count i :=
    List.count_pos_iff.2 (by unfold Flow.reached; simp [hm])
  have h4 : Flow.init.all.count i = 0 := by simp [Flow.all, Flow.init]
  omega

/-- A client makes the requests `0 .. n-1`, one after the other, each of one byte; each arrives at the server. -/
def oneByOne (n : Nat) : List FlowEv := (List.range n).flatMap (fun i => [.ask i 0, .cliWrite, .srvRead])

theorem oneByOne_run (hu : 0 < g.upCap) (n : Nat) (hn : n ≤ g.limit) : Flow.init.run g (oneByOne n) = ⟨[], [], List.range n, [], [], []⟩ := by
  induction n with
  | zero => rfl
  | succ n ih =>
    have h := ih (by omega)
    simp only [oneByOne, List.range_succ, List.flatMap_append, List.flatMap_cons, List.flatMap_nil, List.append_nil, Flow.run,
      List.foldl_append] at h ⊢
    rw [h]
    simp only [List.foldl_cons, List.foldl_nil, Flow.step, List.nil_append, List.length_nil, hu, if_true, writeByte, List.length_range]
    rw [if_pos (by omega)]

theorem asks_append (a b : List FlowEv) : FlowEv.asks (a ++ b) = FlowEv.asks a ++ FlowEv.asks b := by
  induction a with
  | nil => rfl
  | cons e a ih => rw [List.cons_append, asks_cons, ih, asks_cons e a, List.append_assoc]

theorem asks_oneByOne (n : Nat) : FlowEv.asks (oneByOne n) = List.range n := by
  induction n with
  | zero => rfl
  | succ n ih =>
    simp only [oneByOne, List.range_succ, List.flatMap_append, asks_append] at ih ⊢
    rw [ih]; rfl

/-- C79 is violated in every configuration. A client that asks for signatures with keys the keystore does not have, while the signer is silent, one
    request after the other (each of its calls returns after 30 seconds, C64), has killed its connection after 4096 of them: a hello
    it sends then is never answered, nor is anything else. -/
theorem C79_signer_kills_the_connection (hu : 0 < g.upCap) (hl : g.limit = serverPlaces) (more : List FlowEv)
    (hs : Silent (fun i => decide (i < 4096)) more) (i : Nat) (hi : 4096 ≤ i) :
    i ∉ (Flow.init.run g (oneByOne 4096 ++ more)).answered := by
  have hl : g.limit = 4096 := hl
  refine C79_full_connection_is_dead (fun i => decide (i < 4096)) _ more ?_ hs i ?_
  · rw [oneByOne_run hu _ (by omega), hl]
    have : (List.range 4096).filter (fun i => decide (i < 4096)) = List.range 4096 := by
      rw [List.filter_eq_self]; intro a ha; simpa using List.mem_range.1 ha
    simp only [Flow.held]
    rw [this, List.length_range]
    exact Nat.le_refl _
  · rw [asks_oneByOne]; intro h; have := List.mem_range.1 h; omega

/-- C79. One request fewer, and everything else still works: the signer has all places but one, and every other request made before
    or after is answered. -/
theorem C79_one_place_is_enough_partial (hu : 0 < g.upCap) (hd : 0 < g.downCap) (n : Nat) (hn : n < g.limit) (more : List FlowEv)
    (hs : Silent (fun i => decide (i < n)) more) (hn' : ∀ i ∈ FlowEv.asks more, n ≤ i)
    (hq : (Flow.init.run g (oneByOne n ++ more)).QuietBut g (fun i => decide (i < n))) :
    (Flow.init.run g (oneByOne n ++ more)).answered.Perm (FlowEv.asks more) := by
  have hsil : Silent (fun i => decide (i < n)) (oneByOne n ++ more) := by
    intro i hi hm
    rcases List.mem_append.1 hm with h | h
    · simp [oneByOne] at h
    · exact hs i hi h
  have hmore1 : (FlowEv.asks more).filter (fun i => decide (i < n)) = [] := by
    rw [List.filter_eq_nil_iff]; intro i hi; have := hn' i hi; simp; omega
  have hmore2 : (FlowEv.asks more).filter (fun i => !decide (i < n)) = FlowEv.asks more := by
    rw [List.filter_eq_self]; intro i hi; have := hn' i hi; simp; omega
  have h1 : (List.range n).filter (fun i => decide (i < n)) = List.range n := by rw [List.filter_eq_self]; simp
  have h2 : (List.range n).filter (fun i => !decide (i < n)) = [] := by rw [List.filter_eq_nil_iff]; simp
  have h := C79_others_are_answered_partial hu hd (fun i => decide (i < n)) (oneByOne n ++ more) hsil
    (by rw [asks_append, asks_oneByOne, List.filter_append, hmore1, h1]; simpa using hn) hq
  rw [asks_append, asks_oneByOne, List.filter_append, hmore2, h2, List.nil_append] at h
  exact h

/-! ### Why requests wait, and who does not -/

/-- What happens while the signer runs and reads its input but says nothing. -/
def FbEv.quiet : FbEv → Bool
  | .submit _ _ _ => true
  | .take => true
  | .written => true
  | _ => false

/-- The ids of the requests submitted. -/
def FbEv.ids : List FbEv → List String
  | [] => []
  | .submit id _ _ :: evs => id :: ids evs
  | _ :: evs => ids evs

/-- Nobody has been answered. -/
structure Unanswered (s : FbSt) : Prop where
  w : s.wOpen = true
  r : s.running = true
  none : ∀ q ∈ s.reqs, q.answers = []
  ids : (s.reqs.map FbReq.msgId).Nodup
  queue : s.queue.Nodup ∧ ∀ k ∈ s.queue, k < s.reqs.length
  pend : ∀ (id : String) (k : Nat), s.pending.get id = some k → ∃ q : FbReq, s.reqs[k]? = some q ∧ q.msgId = id ∧ k ∉ s.queue

theorem unanswered_step {s : FbSt} (h : Unanswered s) (e : FbEv) (he : e.quiet = true)
    (hid : ∀ id pk d, e = .submit id pk d → id ∉ s.reqs.map FbReq.msgId) : Unanswered (s.step e) := by
  obtain ⟨hw, hr, hn, hi, ⟨hq1, hq2⟩, hp⟩ := h
  cases e with
  | submit id pk d =>
    simp only [FbSt.step, hw, if_true]
    refine ⟨rfl, hr, ?_, ?_, ⟨?_, ?_⟩, ?_⟩
    · intro q hq
      rcases List.mem_append.1 hq with hq | hq
      · exact hn q hq
      · rw [List.mem_singleton.1 hq]
    · simp only [List.map_append, List.map_cons, List.map_nil]
      refine List.nodup_append.2 ⟨hi, by simp, ?_⟩
      intro a ha b hb
      rw [List.mem_singleton.1 hb]
      intro hab
      exact hid id pk d rfl (hab ▸ ha)
    · refine List.nodup_append.2 ⟨hq1, by simp, ?_⟩
      intro a ha b hb
      rw [List.mem_singleton.1 hb]
      exact Nat.ne_of_lt (hq2 a ha)
    · intro k hk
      rw [List.length_append]
      rcases List.mem_append.1 hk with hk | hk
      · exact Nat.lt_add_right _ (hq2 k hk)
      · rw [List.mem_singleton.1 hk]; simp
    · intro id' k hk
      obtain ⟨q, g1, g2, g3⟩ := hp id' k hk
      have hlt : k < s.reqs.length := by
        rw [List.getElem?_eq_some_iff] at g1; exact g1.1
      refine ⟨q, by rw [List.getElem?_append_left hlt]; exact g1, g2, ?_⟩
      intro hm
      rcases List.mem_append.1 hm with hm | hm
      · exact g3 hm
      · rw [List.mem_singleton.1 hm] at hlt; exact Nat.lt_irrefl _ hlt
  | take =>
    simp only [FbSt.step]
    split
    · rename_i k rest _ hwr hqu
      split
      · exact ⟨hw, hr, hn, hi, ⟨hq1, hq2⟩, hp⟩
      · rename_i q hk
        have hget : s.pending.get q.msgId = Option.none := by
          cases hg : s.pending.get q.msgId with
          | none => rfl
          | some k₀ =>
            obtain ⟨q₀, g1, g2, g3⟩ := hp _ _ hg
            have hkk : k₀ = k := by
              rw [List.getElem?_eq_some_iff] at g1 hk
              obtain ⟨l1, e1⟩ := g1
              obtain ⟨l2, e2⟩ := hk
              refine (List.getElem_inj (h₀ := by simpa using l1) (h₁ := by simpa using l2) hi).1 ?_
              simp [e1, e2, g2]
            rw [hqu, hkk] at g3
            exact absurd (List.mem_cons_self) g3
        simp only [hr, if_true, hget]
        rw [hqu] at hq1 hq2
        refine ⟨hw, rfl, hn, hi, ⟨(List.nodup_cons.1 hq1).2, fun j hj => hq2 j (by simp [hj])⟩, ?_⟩
        intro id j hj
        rw [AMap.get_insert] at hj
        split at hj
        · rename_i hid'
          cases hj
          exact ⟨q, hk, hid'.symm, (List.nodup_cons.1 hq1).1⟩
        · obtain ⟨q', g1, g2, g3⟩ := hp id j hj
          refine ⟨q', g1, g2, fun hm => g3 ?_⟩
          rw [hqu]; simp [hm]
    · exact ⟨hw, hr, hn, hi, ⟨hq1, hq2⟩, hp⟩
  | written =>
    simp only [FbSt.step]
    split
    · exact ⟨hw, hr, hn, hi, ⟨hq1, hq2⟩, hp⟩
    · split <;> exact ⟨hw, hr, hn, hi, ⟨hq1, hq2⟩, hp⟩
  | writeErr => cases he
  | idle => cases he
  | line l => cases he
  | eof => cases he
  | drain => cases he

theorem reqs_ids_step (s : FbSt) (e : FbEv) (hw : s.wOpen = true) (hr : Unanswered s) (he : e.quiet = true)
    (hid : ∀ id pk d, e = .submit id pk d → id ∉ s.reqs.map FbReq.msgId) :
    (s.step e).reqs.map FbReq.msgId = s.reqs.map FbReq.msgId ++ FbEv.ids [e] := by
  cases e with
  | submit id pk d => simp [FbSt.step, hw, FbEv.ids]
  | take =>
    have := unanswered_step hr .take rfl (by intro _ _ _ h; cases h)
    simp only [FbSt.step, FbEv.ids, List.append_nil]
    split
    · split
      · rfl
      · simp only [hr.r, if_true]
        split
        · rfl
        · simp only [FbSt.answer, fbAnswer]
          apply List.ext_getElem?
          intro i
          simp only [List.getElem?_map, List.getElem?_modify]
          cases s.reqs[i]? with
          | none => rfl
          | some q => simp only [Option.map_some]; split <;> rfl
    · rfl
  | written =>
    simp only [FbSt.step, FbEv.ids, List.append_nil]
    split
    · rfl
    · split <;> rfl
  | writeErr => cases he
  | idle => cases he
  | line l => cases he
  | eof => cases he
  | drain => cases he

theorem ids_cons (e : FbEv) (evs : List FbEv) : FbEv.ids (e :: evs) = FbEv.ids [e] ++ FbEv.ids evs := by
  cases e <;> simp [FbEv.ids]

theorem unanswered_run (evs : List FbEv) : ∀ {s : FbSt}, Unanswered s → (∀ e ∈ evs, e.quiet = true) →
    (s.reqs.map FbReq.msgId ++ FbEv.ids evs).Nodup → Unanswered (evs.foldl FbSt.step s) := by
  induction evs with
  | nil => intro s h _ _; exact h
  | cons e evs ih =>
    intro s h hq hn
    rw [ids_cons, ← List.append_assoc] at hn
    have hid : ∀ id pk d, e = .submit id pk d → id ∉ s.reqs.map FbReq.msgId := by
      intro id pk d he hm
      subst he
      have := (List.nodup_append.1 (List.nodup_append.1 hn).1).2.2 id hm id (by simp [FbEv.ids])
      exact this rfl
    refine ih (unanswered_step h e (hq e (by simp)) hid) (fun x hx => hq x (by simp [hx])) ?_
    rw [reqs_ids_step s e h.w h (hq e (by simp)) hid]
    exact hn

/-- C79, where the waiting comes from: as long as the signer runs and says nothing, no request given to it is answered. There is no time limit in the
    server. (The ids of the requests differ; clients make random ones.) -/
theorem C79_silent_signer_answers_nobody (evs : List FbEv) (hq : ∀ e ∈ evs, e.quiet = true) (hn : (FbEv.ids evs).Nodup) :
    ∀ q ∈ (evs.foldl FbSt.step FbSt.init).reqs, q.answers = [] :=
  (unanswered_run evs ⟨rfl, rfl, by simp [FbSt.init], by simp [FbSt.init], by simp [FbSt.init], by simp [FbSt.init, AMap.get]⟩ hq
    (by simpa [FbSt.init] using hn)).none

/-- C79. The other requests do not wait for those the signer keeps, nor for any others: a message that arrives, on whatever connection and whatever is
    going on, is handled to its end in at most 17 steps of its own, with nobody else doing anything. -/
theorem C79_others_need_nobody {E : Env} {st : E.S.σ} (evs : List Event) (c : Nat) (m : Msg) (chs : Nat → Choice) :
    ∃ j ≤ 17, ∃ d ∈ (Sys.run E st (evs ++ [.recv c m] ++
      (List.range j).map (fun n => .step (Sys.run E st evs).threads.length (chs n)))).done,
      d.id = (Sys.run E st evs).inbox.length ∧ d.conn = c ∧ d.msg = m := by
  have ht : (Sys.run E st (evs ++ [.recv c m])).threads[(Sys.run E st evs).threads.length]? =
      some ⟨(Sys.run E st evs).inbox.length, c, m, (Sys.run E st evs).sh, [], handle E c m⟩ := by
    unfold Sys.run
    rw [List.foldl_append]
    simp [Sys.step]
  exact C03_request_can_finish (st := st) (evs ++ [.recv c m]) _ _ ht chs

/-! ### Concrete cases -/

section Examples

/-- Two places; requests 0 and 1 are kept, request 2 (a hello, say) comes after both. -/
def tinyPlaces : FlowCfg := ⟨8, 8, 2, fun _ => 0⟩

/-- With both places taken request 2 is not answered; with one of them it is. -/
example : Flow.init.run tinyPlaces (oneByOne 2 ++ [.ask 2 0, .cliWrite, .srvRead, .handled 2, .srvWrite, .cliRead]) =
    ⟨[], [⟨2, true⟩], [0, 1], [], [], []⟩ := by decide +kernel

example : Flow.init.run tinyPlaces (oneByOne 1 ++ [.ask 2 0, .cliWrite, .srvRead, .handled 2, .srvWrite, .cliRead]) =
    ⟨[], [], [0], [], [], [2]⟩ := by decide +kernel

/-- That is a state in which nothing more happens without the signer. -/
example : Flow.QuietBut tinyPlaces (fun i => decide (i < 1)) ⟨[], [], [0], [], [], [2]⟩ := by
  intro e he hh
  cases e with
  | ask => cases he
  | handled i =>
    have : i ≠ 0 := by intro h; subst h; exact hh 0 (by decide) rfl
    simp [Flow.step, this]
  | _ => rfl

/-- `C79_full_connection_is_dead`: a full connection. -/
example : tinyPlaces.limit ≤ ((Flow.init.run tinyPlaces (oneByOne 2)).held (fun i => decide (i < 2))).length := by decide +kernel

/-- Three requests have gone to the signer, two have been written to it. -/
example : ([FbEv.submit "a" (B.fill 32 1) [1], .take, .submit "b" (B.fill 32 1) [2], .written, .take, .written,
      .submit "c" (B.fill 32 2) [3]].foldl FbSt.step FbSt.init).reqs.map FbReq.answers = [[], [], []] := by decide +kernel

end Examples

end Lair
