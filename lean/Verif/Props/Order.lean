import Verif.Props.StarveEx

/-
C90: in order. When the callers of a sending half get its permit in turn, the server takes the requests of a connection in the order in which they were
made, and the client takes the answers in the order in which the handlers finished.
-/
namespace Lair

variable {S : SStream} {E : Env} {st : E.S.σ}

/-! ### Specification -/

/-- SPECIFICATION: the messages the server has taken from connection `c`, in order. -/
def World.taken (w : World E S) (c : Nat) : List Msg := (w.sys.inbox.filter fun p => p.1 = c).map Prod.snd

/-- SPECIFICATION: the messages for the requests made on this connection, in the order in which they were made. -/
def Conn.requests (x : Conn S) : List Msg := x.asked.map fun a => .req a.id a.req

/-- SPECIFICATION: the answers to the requests of connection `c`, in the order in which their handlers finished. -/
def World.replies (w : World E S) (c : Nat) : List Msg :=
  (w.sys.done.filter fun d => d.conn = c).map fun d => .res d.msg.id (.ofOutcome d.outcome)

/-! ### One direction -/

/-- The messages are encrypted in the order of the calls. Proof device: nothing in the code corresponds. -/
structure Queue (l : Link S) : Prop where
  sorted : (l.pushed.map Prod.fst).Pairwise (· < ·)
  before : ∀ p ∈ l.pushed, ∀ (i : Nat) (c : SCall), l.snd.calls[i]? = some c → c.phase.early → p.1 < i
  front : l.snd.Front

theorem Queue.init (s : S.St) : Queue (Link.init s) :=
  ⟨by simp [Link.init], by simp [Link.init], by intro i hp; cases hp⟩

theorem early_back (s : SndSt S) (e : SEv) {i : Nat} {mo : Option Msg} {ph : SPhase} (h : (s.step e).calls[i]? = some ⟨mo, ph⟩) (he : ph.early) :
    (∃ ph0, s.calls[i]? = some ⟨mo, ph0⟩ ∧ ph0.early) ∨ i = s.calls.length ∧ e = .call mo := by
  rcases s.call_of_step e h with ⟨ph0, h0⟩ | ⟨h1, h2⟩
  · obtain ⟨ph', h1, hm⟩ := s.step_move e h0
    rw [h] at h1; cases h1
    refine Or.inl ⟨ph0, h0, ?_⟩
    cases hm with
    | same => exact he
    | taken => trivial
    | _ => exact he.elim
  · exact Or.inr ⟨h2, h1⟩

theorem Queue.send {l : Link S} (h : Queue l) (hl : LinkInv l) (hi : SndInv l.snd) (e : SEv) (ht : l.snd.InTurn e) : Queue (l.send e) := by
  have hlen : ∀ p ∈ l.pushed, p.1 < l.snd.calls.length := by
    intro p hp
    obtain ⟨ph, h1, -⟩ := hl.mem p hp
    exact (List.getElem?_eq_some_iff.mp h1).1
  refine ⟨?_, ?_, Front.step h.front hi e ht⟩
  · show ((l.pushed ++ l.snd.pushing e).map Prod.fst).Pairwise _
    rcases pushing_spec l.snd e with hp | ⟨k, m, rfl, hk, hp⟩
    · rw [hp, List.append_nil]; exact h.sorted
    · rw [hp, List.map_append, List.pairwise_append]
      refine ⟨h.sorted, by simp, ?_⟩
      intro a ha b hb
      simp only [List.map_cons, List.map_nil, List.mem_singleton] at hb
      obtain ⟨p, hp1, rfl⟩ := List.mem_map.mp ha
      rw [hb]
      exact h.before p hp1 k _ hk trivial
  · intro p hp i c hc hce
    obtain ⟨mo, ph⟩ := c
    have hp' : p ∈ l.pushed ++ l.snd.pushing e := hp
    rcases List.mem_append.mp hp' with hp | hp
    · rcases early_back l.snd e hc hce with ⟨ph0, h0, h1⟩ | ⟨h1, -⟩
      · exact h.before p hp i _ h0 h1
      · rw [h1]; exact hlen p hp
    · rcases pushing_spec l.snd e with hq | ⟨k, m, rfl, hk, hq⟩
      · rw [hq] at hp; cases hp
      · rw [hq] at hp; simp at hp; subst hp
        have hperm := hi.perm k _ hk trivial
        rcases early_back l.snd _ hc hce with ⟨ph0, h0, h1⟩ | ⟨-, h1⟩
        · by_cases hik : i = k
          · subst hik
            obtain ⟨ph1, g1, g2⟩ := push_not_early l.snd hk
            have g1' : ((l.snd.step (.push i)).calls[i]?) = _ := g1
            have hc' : ((l.snd.step (.push i)).calls[i]?) = _ := hc
            rw [hc'] at g1'; cases g1'
            exact absurd hce g2
          · cases ph0 with
            | waiting =>
              by_cases hlt : i < k
              · exact absurd rfl (h.front k hperm i _ hlt h0)
              · show k < i; omega
            | taken =>
              have := hi.perm i _ h0 trivial
              rw [hperm] at this; cases this
              exact absurd rfl hik
            | _ => exact h1.elim
        · cases h1

theorem Queue.step {l l' : Link S} (h : Queue l) (hg : l.Good) (hs : LStep l l') : Queue l' := by
  cases hs with
  | same => exact h
  | prog he ht => exact h.send hg.hist hg.snt.inv _ ht
  | call => exact h.send hg.hist hg.snt.inv _ trivial
  | drop _ => exact h.send hg.hist hg.snt.inv _ trivial
  | arrive => exact ⟨h.sorted, h.before, h.front⟩
  | poll => exact ⟨h.sorted, h.before, h.front⟩

theorem sublist_of_sorted {α : Type} : ∀ (l2 l1 : List (Nat × α)), (l1.map Prod.fst).Pairwise (· < ·) → (l2.map Prod.fst).Pairwise (· < ·) →
    (∀ p ∈ l1, p ∈ l2) → l1.Sublist l2 := by
  intro l2
  induction l2 with
  | nil =>
    intro l1 _ _ h
    cases l1 with
    | nil => exact .slnil
    | cons a l => exact absurd (h a (List.mem_cons_self ..)) (by simp)
  | cons b l2 ih =>
    intro l1 h1 h2 h
    rw [List.map_cons, List.pairwise_cons] at h2
    cases l1 with
    | nil => exact List.nil_sublist _
    | cons a l =>
      rw [List.map_cons, List.pairwise_cons] at h1
      by_cases hab : a = b
      · subst hab
        refine (ih l h1.2 h2.2 fun p hp => ?_).cons_cons a
        rcases List.mem_cons.mp (h p (List.mem_cons_of_mem _ hp)) with rfl | hp'
        · exact absurd (h1.1 _ (List.mem_map.mpr ⟨p, hp, rfl⟩)) (Nat.lt_irrefl _)
        · exact hp'
      · have ha : a ∈ l2 := by
          rcases List.mem_cons.mp (h a (List.mem_cons_self ..)) with h' | h'
          · exact absurd h' hab
          · exact h'
        refine (ih (a :: l) (by rw [List.map_cons, List.pairwise_cons]; exact h1) h2.2 fun p hp => ?_).cons b
        rcases List.mem_cons.mp (h p hp) with rfl | hp'
        · rcases List.mem_cons.mp hp with rfl | hp2
          · exact absurd rfl hab
          · have g1 := h1.1 _ (List.mem_map.mpr ⟨p, hp2, rfl⟩)
            have g2 := h2.1 _ (List.mem_map.mpr ⟨a, ha, rfl⟩)
            omega
        · exact hp'

/-- What is at increasing places of a list is a sublist of it. -/
theorem sublist_of_places {α : Type} (l : List α) (ps : List (Nat × α)) (h1 : (ps.map Prod.fst).Pairwise (· < ·)) (h2 : ∀ p ∈ ps, l[p.1]? = some p.2) :
    (ps.map Prod.snd).Sublist l := by
  have hz : ((List.range l.length).zip l).map Prod.snd = l := List.map_snd_zip (by simp)
  have hf : ((List.range l.length).zip l).map Prod.fst = List.range l.length := List.map_fst_zip (by simp)
  have := sublist_of_sorted ((List.range l.length).zip l) ps h1 (by rw [hf]; exact List.pairwise_lt_range) (fun p hp => by
    have := h2 p hp
    refine List.mem_iff_getElem?.mpr ⟨p.1, ?_⟩
    rw [List.getElem?_zip_eq_some]
    exact ⟨List.getElem?_range (List.getElem?_eq_some_iff.mp this).1, this⟩)
  have := this.map Prod.snd
  rwa [hz] at this

/-- What comes out is in the order of the calls. -/
theorem Queue.got (L : S.Lawful) {l : Link S} (h : Queue l) (hg : l.Good) {ms : List Msg} (hc : l.snd.calls.map SCall.msg = ms.map some) :
    l.got.Sublist ms := by
  obtain ⟨-, -, todo, _, -, -, -, -, hall, -⟩ := hg.todo L
  have h1 : (l.pushed.map Prod.snd).Sublist ms := by
    refine sublist_of_places ms l.pushed h.sorted fun p hp => ?_
    obtain ⟨ph, g1, -⟩ := hg.hist.mem p hp
    have := congrArg (fun q => q[p.1]?) hc
    simp only [List.getElem?_map, g1, Option.map_some] at this
    cases hm : ms[p.1]? with
    | none => rw [hm] at this; cases this
    | some m => rw [hm] at this; simp at this; rw [this]
  rw [hall] at h1
  exact (List.sublist_append_left _ _).trans h1

/-! ### The calls that were made -/

/-- The message of a new call. Proof device: nothing in the code corresponds. -/
def SEv.newCall : SEv → List (Option Msg)
  | .call m => [m]
  | _ => []

theorem calls_msgs (s : SndSt S) (e : SEv) : (s.step e).calls.map SCall.msg = s.calls.map SCall.msg ++ e.newCall := by
  refine List.ext_getElem? fun i => ?_
  cases hi : s.calls[i]? with
  | some c =>
    obtain ⟨mo, ph⟩ := c
    obtain ⟨ph', h1, -⟩ := s.step_move e hi
    rw [List.getElem?_append_left (by simp; exact (List.getElem?_eq_some_iff.mp hi).1)]
    simp [h1, hi]
  | none =>
    have hlen : s.calls.length ≤ i := List.getElem?_eq_none_iff.mp hi
    rw [List.getElem?_append_right (by simpa using hlen)]
    cases hn : (s.step e).calls[i]? with
    | none =>
      cases e with
      | call m =>
        have : s.calls.length + 1 ≤ i := by
          have := List.getElem?_eq_none_iff.mp hn
          simpa [SndSt.step] using this
        rw [List.getElem?_map, hn]
        rw [List.getElem?_eq_none (by simp [SEv.newCall]; omega)]; rfl
      | _ => simp [hn, SEv.newCall]
    | some c =>
      obtain ⟨mo, ph⟩ := c
      rcases s.call_of_step e hn with ⟨ph0, h0⟩ | ⟨rfl, rfl⟩
      · rw [hi] at h0; cases h0
      · simp [hn, SEv.newCall]

/-- The calls of the two sending halves are the requests and the answers. Proof device: nothing in the code corresponds. -/
structure Calls (w : World E S) (c : Nat) (x : Conn S) : Prop where
  up : x.up.snd.calls.map SCall.msg = x.requests.map some
  down : x.down.snd.calls.map SCall.msg = (w.replies c).map some

theorem internal_newCall {e : SEv} (h : e.internal = true) : e.newCall = [] := by cases e <;> first | rfl | cases h

/-- One event on the connection. -/
theorem Conn.calls_step {w : World E S} {c : Nat} {x : Conn S} (hf : x.Fine) (e : NEv) (hb : ¬ w.Breaks c (.net c e)) :
    (x.step e).up.snd.calls.map SCall.msg = x.up.snd.calls.map SCall.msg ++ ((x.step e).requests.drop x.requests.length).map some ∧
    (x.step e).requests = x.requests ++ (x.step e).requests.drop x.requests.length ∧
    (x.step e).down.snd.calls.map SCall.msg = x.down.snd.calls.map SCall.msg := by
  obtain ⟨b1, b2, b3, b4, b5, b6⟩ := World.Breaks.net hb
  have triv : ∀ y : Conn S, y.requests = x.requests → y.up.snd.calls.map SCall.msg = x.up.snd.calls.map SCall.msg →
      y.down.snd.calls.map SCall.msg = x.down.snd.calls.map SCall.msg →
      y.up.snd.calls.map SCall.msg = x.up.snd.calls.map SCall.msg ++ (y.requests.drop x.requests.length).map some ∧
      y.requests = x.requests ++ y.requests.drop x.requests.length ∧ y.down.snd.calls.map SCall.msg = x.down.snd.calls.map SCall.msg := by
    intro y h1 h2 h3
    rw [h1, List.drop_length]
    exact ⟨by rw [h2]; simp, by simp, h3⟩
  cases e with
  | ask id q =>
    have hr : (x.step (.ask id q)).requests = x.requests ++ [.req id q] := by simp [Conn.step, Conn.requests]
    rw [hr, List.drop_left]
    refine ⟨?_, rfl, rfl⟩
    show ((x.up.snd.step (.call (some (.req id q)))).calls.map SCall.msg) = _
    rw [calls_msgs]; rfl
  | asked k =>
    simp only [Conn.step]
    split
    · split
      · exact triv _ rfl rfl rfl
      · exact triv _ rfl rfl rfl
    · exact triv _ rfl rfl rfl
  | wake k => exact triv _ rfl rfl rfl
  | timeout k => exact triv _ rfl rfl rfl
  | cancel k =>
    simp only [Conn.step]
    split
    · refine triv _ rfl ?_ rfl
      rename_i a _
      show ((x.up.snd.step (.drop a.call)).calls.map SCall.msg) = _
      rw [calls_msgs]; simp [SEv.newCall]
    · exact triv _ rfl rfl rfl
  | shutdown => exact absurd rfl b1
  | upSend e =>
    simp only [Conn.step]
    split
    · rename_i he
      refine triv _ rfl ?_ rfl
      show ((x.up.snd.step e).calls.map SCall.msg) = _
      rw [calls_msgs, internal_newCall he, List.append_nil]
    · exact triv _ rfl rfl rfl
  | upArrive b => exact triv _ rfl rfl rfl
  | upClose => exact absurd rfl b3
  | downSend e =>
    simp only [Conn.step]
    split
    · rename_i he
      simp only [Bool.and_eq_true] at he
      refine triv _ rfl rfl ?_
      show ((x.down.snd.step e).calls.map SCall.msg) = _
      rw [calls_msgs, internal_newCall he.1, List.append_nil]
    · exact triv _ rfl rfl rfl
  | downRetry k =>
    simp only [Conn.step]
    split
    · exact triv _ rfl rfl rfl
    · split
      · split
        · rename_i hk
          rcases hf.down.sends k _ hk with h | ⟨m, -, -, h⟩
          · cases h
          · rcases h with h | h | ⟨r, h⟩ | h <;> cases h
        · exact triv _ rfl rfl rfl
      · exact triv _ rfl rfl rfl
  | downShutdown => exact absurd rfl b2
  | downArrive b => exact triv _ rfl rfl rfl
  | downClose => exact absurd rfl b4
  | poll =>
    simp only [Conn.step]
    split
    · exact triv _ rfl rfl rfl
    · exact triv _ rfl rfl rfl
    · exact triv _ rfl rfl rfl

theorem reply_down (x : Conn S) (id : String) (o : Res Resp) :
    (x.reply id o).down.snd.calls.map SCall.msg = x.down.snd.calls.map SCall.msg ++ [some (.res id (.ofOutcome o))] ∧
    (x.reply id o).up = x.up ∧ (x.reply id o).requests = x.requests := by
  cases o with
  | ok r => exact ⟨calls_msgs _ _, rfl, rfl⟩
  | error e => exact ⟨calls_msgs _ _, rfl, rfl⟩

theorem done_exact (s : Sys E) (i : Nat) (ch : Choice) :
    (s.threads[i]? = none ∧ (s.step (.step i ch)).done = s.done) ∨
    (∃ t, s.threads[i]? = some t ∧ outcomeOf t.prog = none ∧ (s.step (.step i ch)).done = s.done) ∨
    ∃ t o d, s.threads[i]? = some t ∧ outcomeOf t.prog = some o ∧ (s.step (.step i ch)).done = s.done ++ [d] ∧ d.conn = t.conn ∧ d.msg = t.msg ∧ d.outcome = o := by
  cases hi : s.threads[i]? with
  | none => exact Or.inl ⟨rfl, by rw [step_none s i ch hi]⟩
  | some t =>
    cases hp : t.prog with
    | ret r => exact Or.inr (Or.inr ⟨t, .ok r, _, rfl, by rw [hp]; rfl, by rw [step_ret s i ch t r hi hp]; rfl, rfl, rfl, rfl⟩)
    | fail er => exact Or.inr (Or.inr ⟨t, .error er, _, rfl, by rw [hp]; rfl, by rw [step_fail s i ch t er hi hp]; rfl, rfl, rfl, rfl⟩)
    | step a k => exact Or.inr (Or.inl ⟨t, rfl, by rw [hp]; rfl, by rw [step_act s i ch t a k hi hp]; rfl⟩)

theorem Calls.step {w : World E S} {c : Nat} {x x' : Conn S} (hx : w.conns[c]? = some x) (hf : x.Fine) (h : Calls w c x) {ev : WEv S} (hb : ¬ w.Breaks c ev)
    (hx' : (w.step ev).conns[c]? = some x') : Calls (w.step ev) c x' := by
  have hlt := (List.getElem?_eq_some_iff.mp hx).1
  have hmod : ∀ {d : Nat} {f : Conn S → Conn S}, (w.conns.modify d f)[c]? = some x' → (d ≠ c ∧ x' = x) ∨ d = c ∧ x' = f x := by
    intro d f hy
    rw [List.getElem?_modify, hx] at hy
    by_cases hdc : d = c
    · right; simp [hdc] at hy; exact ⟨hdc, hy.symm⟩
    · left; simp [hdc] at hy; exact ⟨hdc, hy.symm⟩
  have keep : ∀ (w' : World E S) (y : Conn S), w'.sys.done = w.sys.done → y.up.snd = x.up.snd → y.asked = x.asked → y.down.snd = x.down.snd → Calls w' c y := by
    intro w' y h1 h2 h3 h4
    refine ⟨?_, ?_⟩
    · rw [h2]; show _ = (y.asked.map _).map some; rw [h3]; exact h.up
    · rw [h4]; simp only [World.replies, h1]; exact h.down
  cases ev with
  | connect u d =>
    simp only [World.step] at hx'
    rw [List.getElem?_append_left hlt, hx] at hx'
    cases hx'
    exact keep _ _ rfl rfl rfl rfl
  | restart => exact absurd trivial hb
  | net d e =>
    rcases hmod hx' with ⟨-, rfl⟩ | ⟨rfl, rfl⟩
    · exact keep _ _ rfl rfl rfl rfl
    · obtain ⟨g1, g2, g3⟩ := Conn.calls_step (w := w) hf e hb
      refine ⟨?_, ?_⟩
      · rw [g1, g2, h.up, List.map_append, List.drop_left]
      · rw [g3]; exact h.down
  | serve d =>
    simp only [World.step] at hx' ⊢
    split at hx'
    · rw [hx] at hx'; cases hx'
      exact h
    · split at hx'
      · rename_i hg
        rw [if_pos hg]
        rw [hx] at hx'; cases hx'
        exact h
      · rename_i hg
        rw [if_neg hg]
        split at hx'
        · rcases hmod hx' with ⟨-, rfl⟩ | ⟨rfl, rfl⟩
          · exact keep _ _ rfl rfl rfl rfl
          · exact keep _ _ rfl rfl rfl rfl
        · rcases hmod hx' with ⟨-, rfl⟩ | ⟨rfl, rfl⟩
          · exact keep _ _ rfl rfl rfl rfl
          · exact keep _ _ rfl rfl rfl rfl
  | act i ch =>
    have hsys : (w.step (.act i ch)).sys = w.sys.step (.step i ch) := by
      simp only [World.step]
      split
      · rfl
      · split <;> rfl
    simp only [World.step] at hx'
    rcases done_exact w.sys i ch with ⟨ht, hd⟩ | ⟨t, ht, ho, hd⟩ | ⟨t, o, d, ht, ho, hd, hdc, hdm, hdo⟩
    · simp only [ht] at hx'
      have hx2 : w.conns[c]? = some x' := hx'
      rw [hx] at hx2; cases hx2
      exact keep _ _ (by rw [hsys, hd]) rfl rfl rfl
    · simp only [ht, ho] at hx'
      have hx2 : w.conns[c]? = some x' := hx'
      rw [hx] at hx2; cases hx2
      exact keep _ _ (by rw [hsys, hd]) rfl rfl rfl
    · simp only [ht, ho] at hx'
      have hx2 : (w.conns.modify t.conn (fun x => x.reply t.msg.id o))[c]? = some x' := hx'
      rcases hmod hx2 with ⟨hne, rfl⟩ | ⟨heq, rfl⟩
      · refine ⟨h.up, ?_⟩
        rw [h.down]
        simp only [World.replies, hsys, hd, List.filter_append]
        rw [show [d].filter (fun d => d.conn = c) = [] by simp [hdc, hne]]
        simp
      · obtain ⟨g1, g2, g3⟩ := reply_down x t.msg.id o
        refine ⟨by rw [g2, g3]; exact h.up, ?_⟩
        rw [g1, h.down]
        simp only [World.replies, hsys, hd, List.filter_append]
        rw [show [d].filter (fun d => d.conn = c) = [d] by simp [hdc, heq]]
        simp [hdm, hdo]

/-! ### In order -/

/-- The permits of connection `c` go to the callers in turn, all the time. SPECIFICATION. -/
def InTurnAlways (E : Env) (S : SStream) (st : E.S.σ) (c : Nat) (evs more : List (WEv S)) : Prop :=
  ∀ a e b, more = a ++ e :: b → (World.run E S st (evs ++ a)).InTurn c e

theorem order_inv (L : S.Lawful) (evs : List (WEv S)) (u v : S.St) (more : List (WEv S))
    (hb : Unbroken E S st (World.run E S st evs).conns.length (evs ++ [.connect u v]) more)
    (ht : InTurnAlways E S st (World.run E S st evs).conns.length (evs ++ [.connect u v]) more) :
    ∃ x, (World.run E S st (evs ++ .connect u v :: more)).conns[(World.run E S st evs).conns.length]? = some x ∧ x.Fine ∧
      Queue x.up ∧ Queue x.down ∧ Calls (World.run E S st (evs ++ .connect u v :: more)) (World.run E S st evs).conns.length x := by
  generalize hc : (World.run E S st evs).conns.length = c at *
  induction hn : more.length generalizing more with
  | zero =>
    have : more = [] := List.length_eq_zero_iff.mp hn
    subst this
    have hr : World.run E S st (evs ++ [.connect u v]) = (World.run E S st evs).step (.connect u v) := by simp [World.run]
    refine ⟨Conn.init u v, by rw [hr, ← hc]; simp [World.step], ⟨rfl, .init u, .init v⟩, .init u, .init v, ⟨rfl, ?_⟩⟩
    have hd : (World.run E S st (evs ++ [.connect u v])).replies c = [] := by
      have hw := worldInv_run (E := E) (S := S) st evs
      have hids : IdInv (World.run E S st evs).sys := by rw [hw.sys]; exact idInv_run st _
      simp only [World.replies, List.map_eq_nil_iff, List.filter_eq_nil_iff, decide_eq_true_eq]
      intro d hd hdc
      rw [hr] at hd
      have hd' : d ∈ (World.run E S st evs).sys.done := hd
      have := hw.known _ (List.mem_of_getElem? (hids.done d hd').1)
      rw [hdc, hc] at this
      exact Nat.lt_irrefl _ this
    rw [hd]; rfl
  | succ n ih =>
    obtain ⟨front, e, rfl⟩ : ∃ front e, more = front ++ [e] := ⟨more.dropLast, more.getLast (by intro h; rw [h] at hn; cases hn), (List.dropLast_concat_getLast _).symm⟩
    have hb1 : Unbroken E S st c (evs ++ [.connect u v]) front := fun a e' b hab => hb a e' (b ++ [e]) (by rw [hab]; simp)
    have ht1 : InTurnAlways E S st c (evs ++ [.connect u v]) front := fun a e' b hab => ht a e' (b ++ [e]) (by rw [hab]; simp)
    obtain ⟨x, hx, hf, hq1, hq2, hcalls⟩ := ih front hb1 ht1 (by simpa using hn)
    have hassoc : ∀ l, evs ++ [.connect u v] ++ l = evs ++ .connect u v :: l := by intro l; simp
    have hbe := hb front e [] rfl
    have hte := ht front e [] rfl
    rw [hassoc] at hbe hte
    have hr : World.run E S st (evs ++ .connect u v :: (front ++ [e])) = (World.run E S st (evs ++ .connect u v :: front)).step e := by
      simp [World.run]
    obtain ⟨x', hx', hf', -⟩ := unbroken_start (E := E) (S := S) (st := st) L evs (front ++ [e]) u v (by rw [hc]; exact hb)
    rw [hc] at hx'
    have hx'' := hx'
    rw [hr] at hx''
    obtain ⟨gu, gd⟩ := fine_good L hx hf
    obtain ⟨l1, l2⟩ := links_step hx hf hbe hte hx''
    exact ⟨x', hx', hf', hq1.step gu l1, hq2.step gd l2.1, by rw [hr]; exact hcalls.step hx hf hbe hx''⟩

/-- C90. A client connects; whatever happens then without breaking the connection, as long as the callers of its two sending halves get the permits in
    turn: what the server has taken from the connection are requests made on it, in the order in which they were made, each at most once; what the
    client has taken are answers to its requests, in the order in which the handlers finished, each at most once. -/
theorem C90_in_order (L : S.Lawful) (evs more : List (WEv S)) (u v : S.St) :
    let c := (World.run E S st evs).conns.length
    let W := World.run E S st (evs ++ .connect u v :: more)
    Unbroken E S st c (evs ++ [.connect u v]) more →
    InTurnAlways E S st c (evs ++ [.connect u v]) more →
    ∃ x, W.conns[c]? = some x ∧ (W.taken c).Sublist x.requests ∧ x.down.got.Sublist (W.replies c) := by
  intro c W hb ht
  obtain ⟨x, hx, hf, hq1, hq2, hc⟩ := order_inv L evs u v more hb ht
  obtain ⟨gu, gd⟩ := fine_good L hx hf
  refine ⟨x, hx, ?_, hq2.got L gd hc.down⟩
  have hi := ((worldInv_run (E := E) (S := S) st (evs ++ .connect u v :: more)).conns c x hx).inbox
  show List.Sublist ((W.sys.inbox.filter fun p => p.1 = c).map Prod.snd) _
  rw [hi]
  exact hq1.got L gu hc.up

namespace WEx

theorem turns_unbroken : Unbroken (Ex.env false 4) Toy.stream MemStore.empty 0 ([] ++ [.connect ([1], 0) ([2], 0)]) turns ∧
    InTurnAlways (Ex.env false 4) Toy.stream MemStore.empty 0 ([] ++ [.connect ([1], 0) ([2], 0)]) turns := by
  have key : ∀ a e b, turns = a ++ e :: b → ¬ (run ([] ++ [.connect ([1], 0) ([2], 0)] ++ a)).Breaks 0 e ∧
      (run ([] ++ [.connect ([1], 0) ([2], 0)] ++ a)).InTurn 0 e := by
    intro a e b hab
    have hlen : a.length < turns.length := by rw [hab]; simp
    obtain ⟨h1, h2, -, -⟩ := nice_spec turns turns_nice.1 a.length hlen
    have ha : turns.take a.length = a := by rw [hab]; simp
    have he : turns[a.length] = e := by
      have : turns[a.length]? = some e := by rw [hab]; simp
      rw [List.getElem?_eq_getElem hlen] at this
      exact Option.some.inj this
    rw [ha, he] at h1 h2
    have hrun : run ([] ++ [.connect ([1], 0) ([2], 0)] ++ a) = a.foldl World.step atStart := run_ext _ _
    rw [hrun]
    exact ⟨h1, h2⟩
  exact ⟨fun a e b hab => (key a e b hab).1, fun a e b hab => (key a e b hab).2⟩

/-- The hypotheses of `C90_in_order` hold of the schedule of C89. -/
example : ∃ x, (run ([] ++ .connect ([1], 0) ([2], 0) :: turns)).conns[0]? = some x ∧
    ((run ([] ++ .connect ([1], 0) ([2], 0) :: turns)).taken 0).Sublist x.requests ∧
    x.down.got.Sublist ((run ([] ++ .connect ([1], 0) ([2], 0) :: turns)).replies 0) :=
  C90_in_order (S := Toy.stream) (E := Ex.env false 4) Toy.stream_lawful [] turns ([1], 0) ([2], 0) turns_unbroken.1 turns_unbroken.2

-- there the server takes "a", "b", "d" of the requests "a", "b", "c", "d"; the handlers finish, and the client takes the answers, in the order "b", "a", "d"
set_option maxRecDepth 100000 in
example : ((run (.connect ([1], 0) ([2], 0) :: turns)).taken 0).map Msg.id = ["a", "b", "d"] ∧
    ((run (.connect ([1], 0) ([2], 0) :: turns)).replies 0).map Msg.id = ["b", "a", "d"] ∧
    ((run (.connect ([1], 0) ([2], 0) :: turns)).conns[0]?.map fun x => x.down.got.map Msg.id) = some ["b", "a", "d"] := by decide +kernel

/-- Two requests; the second gets the permit first. -/
def unturned0 : List (WEv Toy.stream) := [.net 0 (.ask "a" .hello), .net 0 (.ask "b" .hello), .net 0 (.upSend (.acquire 1)), .net 0 (.upSend (.push 1)),
  .net 0 (.upSend (.write 1 9999)), .net 0 (.upSend (.acquire 0)), .net 0 (.upSend (.push 0)), .net 0 (.upSend (.write 0 9999))]
def unturned : List (WEv Toy.stream) := unturned0 ++ [.net 0 (.upArrive (onWay true (unturned0.foldl World.step atStart))), .serve 0, .serve 0]

-- C90 needs the turns: in this history, in which nothing breaks the connection, the server takes "b" before "a"
set_option maxRecDepth 100000 in
example : ((run (.connect ([1], 0) ([2], 0) :: unturned)).taken 0).map Msg.id = ["b", "a"] ∧
    ((run (.connect ([1], 0) ([2], 0) :: unturned)).conns[0]?.map fun x => x.requests.map Msg.id) = some ["a", "b"] ∧
    calmly 0 atStart unturned = true := by decide +kernel

end WEx

end Lair
