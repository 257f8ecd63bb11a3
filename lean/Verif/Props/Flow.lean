import Verif.Flow
import Verif.Props.Connection

/-
C63: a connection never gets stuck. However small the buffers between client and server are and however many requests are
made at once, the two sides never wait for each other: whatever order things happen in, after finitely many steps every
request has been answered.

C64: a request always returns. Not so if the server stops reading: then sending blocks, and there is no time-out for that.
-/
namespace Lair

variable {g : FlowCfg}

/-- The steps the two programs take by themselves; `ask` is the user's. -/
def FlowEv.own : FlowEv → Bool
  | .ask _ _ => false
  | _ => true

/-- Neither side has anything left to do. -/
def Flow.Quiet (g : FlowCfg) (f : Flow) : Prop := ∀ e : FlowEv, e.own = true → f.step g e = f

/-- The steps `evs` of the two programs, none of them idle. -/
def Flow.Busy (g : FlowCfg) : Flow → List FlowEv → Prop
  | _, [] => True
  | f, e :: evs => e.own = true ∧ f.step g e ≠ f ∧ Busy g (f.step g e) evs

/-- The requests made in a history. -/
def FlowEv.asks : List FlowEv → List Nat
  | [] => []
  | .ask id _ :: evs => id :: asks evs
  | _ :: evs => asks evs

/-! ### Every request is answered -/

/-- Where the requests are. -/
def Flow.all (f : Flow) : List Nat :=
  f.cliOut.map (·.id) ++ (f.up.filter (·.last)).map (·.id) ++ f.running ++ f.srvOut.map (·.id) ++
    (f.down.filter (·.last)).map (·.id) ++ f.answered

theorem writeByte_ids (out : List FFrame) (pipe : List FByte) (i : Nat) :
    ((writeByte out pipe).1.map (·.id) ++ ((writeByte out pipe).2.filter (·.last)).map (·.id)).count i =
      (out.map (·.id) ++ (pipe.filter (·.last)).map (·.id)).count i := by
  unfold writeByte
  split
  · rfl
  · rename_i j rest
    simp [List.filter_append, List.count_append, List.count_cons]; omega
  · simp [List.filter_append, List.count_append, List.count_cons]

theorem flow_step_count (f : Flow) (e : FlowEv) (i : Nat) :
    (f.step g e).all.count i = f.all.count i + (FlowEv.asks [e]).count i := by
  cases e with
  | ask id len =>
    simp [Flow.step, Flow.all, FlowEv.asks, List.count_append, List.count_cons]; omega
  | cliWrite =>
    simp only [Flow.step, FlowEv.asks]
    split
    · have := writeByte_ids f.cliOut f.up i
      simp only [Flow.all, List.count_append, List.count_nil] at this ⊢
      omega
    · simp
  | srvRead =>
    simp only [Flow.step, FlowEv.asks]
    split
    · cases hu : f.up with
      | nil => simp
      | cons b rest =>
        cases hb : b.last <;> simp [Flow.all, hu, hb, List.count_append, List.count_cons]
        omega
    · simp
  | handled id =>
    simp only [Flow.step, FlowEv.asks]
    split
    · rename_i hm
      have := List.count_erase (l := f.running) (a := i) (b := id)
      have hpos : id = i → 1 ≤ f.running.count i := by
        intro h; subst h; exact List.count_pos_iff.mpr hm
      simp only [Flow.all, List.count_append, List.map_append, List.map_cons, List.map_nil, List.count_cons, List.count_nil,
        beq_iff_eq] at this ⊢
      by_cases h : id = i
      · have h' := hpos h
        simp only [h, if_true] at this ⊢
        omega
      · simp only [h, if_false] at this ⊢
        omega
    · simp
  | srvWrite =>
    simp only [Flow.step, FlowEv.asks]
    split
    · have := writeByte_ids f.srvOut f.down i
      simp only [Flow.all, List.count_append, List.count_nil] at this ⊢
      omega
    · simp
  | cliRead =>
    simp only [Flow.step, FlowEv.asks]
    cases hd : f.down with
    | nil => simp
    | cons b rest =>
      cases hb : b.last <;> simp [Flow.all, hd, hb, List.count_append, List.count_cons]
      omega

theorem asks_cons (e : FlowEv) (evs : List FlowEv) : FlowEv.asks (e :: evs) = FlowEv.asks [e] ++ FlowEv.asks evs := by
  cases e <;> simp [FlowEv.asks]

theorem flow_run_count (evs : List FlowEv) (i : Nat) : ∀ f : Flow,
    (f.run g evs).all.count i = f.all.count i + (FlowEv.asks evs).count i := by
  induction evs with
  | nil => intro f; simp [Flow.run, FlowEv.asks]
  | cons e evs ih =>
    intro f
    have := ih (f.step g e)
    rw [flow_step_count] at this
    rw [asks_cons, List.count_append]
    show ((f.step g e).run g evs).all.count i = _
    omega

/-- When nothing is left to do, nothing is anywhere on the way. -/
theorem flow_quiet (hu : 0 < g.upCap) (hd : 0 < g.downCap) (hl : 0 < g.limit) (f : Flow) (hq : f.Quiet g) :
    f.cliOut = [] ∧ f.up = [] ∧ f.running = [] ∧ f.srvOut = [] ∧ f.down = [] := by
  have write_changes : ∀ (out : List FFrame) (pipe : List FByte), (writeByte out pipe).2 = pipe → out = [] := by
    intro out pipe h
    unfold writeByte at h
    split at h
    · rfl
    · exact absurd (congrArg List.length h) (by simp)
    · exact absurd (congrArg List.length h) (by simp)
  have hdown : f.down = [] := by
    have := hq .cliRead rfl
    simp only [Flow.step] at this
    cases hc : f.down with
    | nil => rfl
    | cons b rest =>
      rw [hc] at this
      have := congrArg (fun x : Flow => x.down.length) this
      simp [hc] at this
  have hsrv : f.srvOut = [] := by
    have := hq .srvWrite rfl
    simp only [Flow.step, hdown, List.length_nil, hd, if_true] at this
    exact write_changes f.srvOut [] ((congrArg Flow.down this).trans hdown)
  have hrun : f.running = [] := by
    cases hr : f.running with
    | nil => rfl
    | cons i rest =>
      have := hq (.handled i) rfl
      simp only [Flow.step, hr, List.mem_cons, true_or, if_true] at this
      have := congrArg (fun x : Flow => x.srvOut.length) this
      simp at this
  have hup : f.up = [] := by
    have := hq .srvRead rfl
    simp only [Flow.step, hrun, hsrv, List.length_nil, Nat.add_zero, hl, if_true] at this
    cases hc : f.up with
    | nil => rfl
    | cons b rest =>
      rw [hc] at this
      have := congrArg (fun x : Flow => x.up.length) this
      simp [hc] at this
  have hcli : f.cliOut = [] := by
    have := hq .cliWrite rfl
    simp only [Flow.step, hup, List.length_nil, hu, if_true] at this
    exact write_changes f.cliOut [] ((congrArg Flow.up this).trans hup)
  exact ⟨hcli, hup, hrun, hsrv, hdown⟩

/-- C63. Buffers of any size (but not of size 0), any limit on the requests in work (but not 0), requests and responses of
    any lengths, in any number: whenever the two programs have come to rest, every request has been answered, each one
    exactly once. So they never wait for each other. -/
theorem C63_at_rest_everything_is_answered (hu : 0 < g.upCap) (hd : 0 < g.downCap) (hl : 0 < g.limit) (evs : List FlowEv)
    (hq : (Flow.init.run g evs).Quiet g) : (Flow.init.run g evs).answered.Perm (FlowEv.asks evs) := by
  obtain ⟨h1, h2, h3, h4, h5⟩ := flow_quiet hu hd hl _ hq
  rw [List.perm_iff_count]
  intro i
  have := flow_run_count (g := g) evs i .init
  simp only [Flow.all, h1, h2, h3, h4, h5] at this
  simpa [Flow.init] using this

/-! ### They come to rest -/

/-- Steps still to be made on account of what is where. -/
def Flow.todo (g : FlowCfg) (f : Flow) : Nat :=
  (f.cliOut.map (fun x => 2 * (x.left + 1) + (2 * (g.respLeft x.id + 1) + 1))).sum +
  (f.up.map (fun b => 1 + if b.last then 2 * (g.respLeft b.id + 1) + 1 else 0)).sum +
  (f.running.map (fun i => 2 * (g.respLeft i + 1) + 1)).sum +
  (f.srvOut.map (fun x => 2 * (x.left + 1))).sum + f.down.length

theorem sum_erase_lt {l : List Nat} {i : Nat} (h : i ∈ l) (w : Nat → Nat) :
    ((l.erase i).map w).sum + w i = (l.map w).sum := by
  induction l with
  | nil => simp at h
  | cons x l ih =>
    by_cases hx : x = i
    · subst hx; simp; omega
    · have hm : i ∈ l := by simpa [Ne.symm hx] using h
      have hb : (x == i) = false := by simpa using hx
      simp [hb]
      have := ih hm
      omega

theorem todo_step (f : Flow) (e : FlowEv) (he : e.own = true) (hne : f.step g e ≠ f) :
    (f.step g e).todo g < f.todo g := by
  cases e with
  | ask id len => simp [FlowEv.own] at he
  | cliWrite =>
    simp only [Flow.step] at hne ⊢
    split
    · rename_i hcap
      rw [if_pos hcap] at hne
      cases hc : f.cliOut with
      | nil => rw [hc] at hne; exact absurd (by cases f; simp_all [writeByte]) hne
      | cons x rest =>
        obtain ⟨i, n⟩ := x
        cases n <;> simp [Flow.todo, hc, writeByte] <;> omega
    · rename_i hcap; rw [if_neg hcap] at hne; exact absurd rfl hne
  | srvRead =>
    simp only [Flow.step] at hne ⊢
    split
    · rename_i hcap
      rw [if_pos hcap] at hne
      cases hc : f.up with
      | nil => rw [hc] at hne; exact absurd rfl hne
      | cons b rest => cases hb : b.last <;> simp [Flow.todo, hc, hb] <;> omega
    · rename_i hcap; rw [if_neg hcap] at hne; exact absurd rfl hne
  | handled i =>
    simp only [Flow.step] at hne ⊢
    split
    · rename_i hm
      have := sum_erase_lt hm (fun i => 2 * (g.respLeft i + 1) + 1)
      simp [Flow.todo]
      omega
    · rename_i hm; rw [if_neg hm] at hne; exact absurd rfl hne
  | srvWrite =>
    simp only [Flow.step] at hne ⊢
    split
    · rename_i hcap
      rw [if_pos hcap] at hne
      cases hc : f.srvOut with
      | nil => rw [hc] at hne; exact absurd (by cases f; simp_all [writeByte]) hne
      | cons x rest =>
        obtain ⟨i, n⟩ := x
        cases n <;> simp [Flow.todo, hc, writeByte] <;> omega
    · rename_i hcap; rw [if_neg hcap] at hne; exact absurd rfl hne
  | cliRead =>
    simp only [Flow.step] at hne ⊢
    cases hc : f.down with
    | nil => rw [hc] at hne; exact absurd rfl hne
    | cons b rest => simp [Flow.todo, hc]

/-- C63. From any state the two programs come to rest: every sequence of their steps ends after at most as many steps as
    there are bytes still to be written and read, and requests to be worked on. -/
theorem C63_comes_to_rest (f : Flow) (evs : List FlowEv) (hb : f.Busy g evs) : evs.length ≤ f.todo g := by
  induction evs generalizing f with
  | nil => simp
  | cons e evs ih =>
    obtain ⟨h1, h2, h3⟩ := hb
    have := ih _ h3
    have := todo_step f e h1 h2
    simp; omega

/-! ### Bounds -/

/-- C63. Whatever the client does, at most 4096 (`limit`) of its requests are in work at the same time, and what is under way
    in either direction never exceeds the buffers. -/
theorem C63_bounded (evs : List FlowEv) :
    (Flow.init.run g evs).running.length + (Flow.init.run g evs).srvOut.length ≤ g.limit ∧
    (Flow.init.run g evs).up.length ≤ g.upCap ∧ (Flow.init.run g evs).down.length ≤ g.downCap := by
  have hw : ∀ (out : List FFrame) (pipe : List FByte), (writeByte out pipe).1.length ≤ out.length ∧
      (writeByte out pipe).2.length ≤ pipe.length + 1 := by
    intro out pipe; unfold writeByte; split <;> simp
  have main : ∀ (evs : List FlowEv) (f : Flow),
      (f.running.length + f.srvOut.length ≤ g.limit ∧ f.up.length ≤ g.upCap ∧ f.down.length ≤ g.downCap) →
      ((f.run g evs).running.length + (f.run g evs).srvOut.length ≤ g.limit ∧ (f.run g evs).up.length ≤ g.upCap ∧
        (f.run g evs).down.length ≤ g.downCap) := by
    intro evs
    induction evs with
    | nil => intro f h; exact h
    | cons e evs ih =>
      intro f h
      refine ih _ ?_
      obtain ⟨h1, h2, h3⟩ := h
      cases e with
      | ask id len => exact ⟨h1, h2, h3⟩
      | cliWrite =>
        simp only [Flow.step]
        split
        · have := hw f.cliOut f.up; exact ⟨h1, by simp only; omega, h3⟩
        · exact ⟨h1, h2, h3⟩
      | srvRead =>
        simp only [Flow.step]
        split
        · cases hc : f.up with
          | nil => exact ⟨h1, h2, h3⟩
          | cons b rest =>
            rw [hc] at h2
            simp at h2
            refine ⟨?_, by simp only; omega, h3⟩
            show (if b.last = true then f.running ++ [b.id] else f.running).length + f.srvOut.length ≤ g.limit
            split
            · simp; omega
            · omega
        · exact ⟨h1, h2, h3⟩
      | handled i =>
        simp only [Flow.step]
        split
        · rename_i hm
          refine ⟨?_, h2, h3⟩
          have := List.length_erase_of_mem hm
          have := List.length_pos_of_mem hm
          simp; omega
        · exact ⟨h1, h2, h3⟩
      | srvWrite =>
        simp only [Flow.step]
        split
        · have := hw f.srvOut f.down; exact ⟨by simp only; omega, h2, by simp only; omega⟩
        · exact ⟨h1, h2, h3⟩
      | cliRead =>
        simp only [Flow.step]
        cases hc : f.down with
        | nil => exact ⟨h1, h2, h3⟩
        | cons b rest => rw [hc] at h3; simp at h3; exact ⟨h1, h2, by simp only; omega⟩
  exact main evs .init ⟨by simp [Flow.init], by simp [Flow.init], by simp [Flow.init]⟩

/-! ### The handshake -/

/-- Bytes a side still has to write / to read. -/
def IoScript.writes (s : IoScript) : Nat := (s.map (fun x => if x.1 = .wr then x.2 else 0)).sum
def IoScript.reads (s : IoScript) : Nat := (s.map (fun x => if x.1 = .rd then x.2 else 0)).sum

/-- Where a side can be. -/
def CliAt (s : IoScript) : Prop :=
  (∃ a, 1 ≤ a ∧ a ≤ 112 ∧ s = [(.wr, a), (.rd, 80), (.wr, 24), (.rd, 24)]) ∨
  (∃ a, 1 ≤ a ∧ a ≤ 80 ∧ s = [(.rd, a), (.wr, 24), (.rd, 24)]) ∨
  (∃ a, 1 ≤ a ∧ a ≤ 24 ∧ s = [(.wr, a), (.rd, 24)]) ∨ (∃ a, 1 ≤ a ∧ a ≤ 24 ∧ s = [(.rd, a)]) ∨ s = []

def SrvAt (s : IoScript) : Prop :=
  (∃ a, 1 ≤ a ∧ a ≤ 112 ∧ s = [(.rd, a), (.wr, 80), (.wr, 24), (.rd, 24)]) ∨
  (∃ a, 1 ≤ a ∧ a ≤ 80 ∧ s = [(.wr, a), (.wr, 24), (.rd, 24)]) ∨
  (∃ a, 1 ≤ a ∧ a ≤ 24 ∧ s = [(.wr, a), (.rd, 24)]) ∨ (∃ a, 1 ≤ a ∧ a ≤ 24 ∧ s = [(.rd, a)]) ∨ s = []

def ShakeInv (x : Shake) : Prop :=
  CliAt x.cli ∧ SrvAt x.srv ∧ x.up + x.cli.writes = x.srv.reads ∧ x.down + x.srv.writes = x.cli.reads

theorem CliAt.next {s : IoScript} (h : CliAt s) : CliAt s.next := by
  rcases h with ⟨a, h1, h2, rfl⟩ | ⟨a, h1, h2, rfl⟩ | ⟨a, h1, h2, rfl⟩ | ⟨a, h1, h2, rfl⟩ | rfl
  · match a, h1 with
    | 1, _ => exact .inr (.inl ⟨80, by omega, by omega, rfl⟩)
    | n + 2, _ => exact .inl ⟨n + 1, by omega, by omega, rfl⟩
  · match a, h1 with
    | 1, _ => exact .inr (.inr (.inl ⟨24, by omega, by omega, rfl⟩))
    | n + 2, _ => exact .inr (.inl ⟨n + 1, by omega, by omega, rfl⟩)
  · match a, h1 with
    | 1, _ => exact .inr (.inr (.inr (.inl ⟨24, by omega, by omega, rfl⟩)))
    | n + 2, _ => exact .inr (.inr (.inl ⟨n + 1, by omega, by omega, rfl⟩))
  · match a, h1 with
    | 1, _ => exact .inr (.inr (.inr (.inr rfl)))
    | n + 2, _ => exact .inr (.inr (.inr (.inl ⟨n + 1, by omega, by omega, rfl⟩)))
  · exact .inr (.inr (.inr (.inr rfl)))

theorem SrvAt.next {s : IoScript} (h : SrvAt s) : SrvAt s.next := by
  rcases h with ⟨a, h1, h2, rfl⟩ | ⟨a, h1, h2, rfl⟩ | ⟨a, h1, h2, rfl⟩ | ⟨a, h1, h2, rfl⟩ | rfl
  · match a, h1 with
    | 1, _ => exact .inr (.inl ⟨80, by omega, by omega, rfl⟩)
    | n + 2, _ => exact .inl ⟨n + 1, by omega, by omega, rfl⟩
  · match a, h1 with
    | 1, _ => exact .inr (.inr (.inl ⟨24, by omega, by omega, rfl⟩))
    | n + 2, _ => exact .inr (.inl ⟨n + 1, by omega, by omega, rfl⟩)
  · match a, h1 with
    | 1, _ => exact .inr (.inr (.inr (.inl ⟨24, by omega, by omega, rfl⟩)))
    | n + 2, _ => exact .inr (.inr (.inl ⟨n + 1, by omega, by omega, rfl⟩))
  · match a, h1 with
    | 1, _ => exact .inr (.inr (.inr (.inr rfl)))
    | n + 2, _ => exact .inr (.inr (.inr (.inl ⟨n + 1, by omega, by omega, rfl⟩)))
  · exact .inr (.inr (.inr (.inr rfl)))

/-- All amounts at least one. -/
theorem next_wr (n : Nat) (s : IoScript) (h : 1 ≤ n) :
    IoScript.writes (IoScript.next ((.wr, n) :: s)) + 1 = IoScript.writes ((.wr, n) :: s) ∧
    IoScript.reads (IoScript.next ((.wr, n) :: s)) = IoScript.reads ((.wr, n) :: s) := by
  match n, h with
  | 1, _ => simp [IoScript.next, IoScript.writes, IoScript.reads]; omega
  | n + 2, _ => simp [IoScript.next, IoScript.writes, IoScript.reads]; omega

theorem next_rd (n : Nat) (s : IoScript) (h : 1 ≤ n) :
    IoScript.reads (IoScript.next ((.rd, n) :: s)) + 1 = IoScript.reads ((.rd, n) :: s) ∧
    IoScript.writes (IoScript.next ((.rd, n) :: s)) = IoScript.writes ((.rd, n) :: s) := by
  match n, h with
  | 1, _ => simp [IoScript.next, IoScript.writes, IoScript.reads]; omega
  | n + 2, _ => simp [IoScript.next, IoScript.writes, IoScript.reads]; omega

theorem CliAt.pos {o : IoOp} {n : Nat} {s : IoScript} (h : CliAt ((o, n) :: s)) : 1 ≤ n := by
  rcases h with ⟨a, h1, h2, h⟩ | ⟨a, h1, h2, h⟩ | ⟨a, h1, h2, h⟩ | ⟨a, h1, h2, h⟩ | h <;> simp at h <;> omega

theorem SrvAt.pos {o : IoOp} {n : Nat} {s : IoScript} (h : SrvAt ((o, n) :: s)) : 1 ≤ n := by
  rcases h with ⟨a, h1, h2, h⟩ | ⟨a, h1, h2, h⟩ | ⟨a, h1, h2, h⟩ | ⟨a, h1, h2, h⟩ | h <;> simp at h <;> omega

theorem shakeInv_step (cap : Nat) (x : Shake) (h : ShakeInv x) (b : Bool) : ShakeInv (x.step cap b) := by
  obtain ⟨hc, hs, hu, hd⟩ := h
  cases b with
  | true =>
    simp only [Shake.step]
    split
    · rename_i n s he
      split
      · have hp := (he ▸ hc : CliAt ((.wr, n) :: s)).pos
        have := next_wr n s hp
        rw [he] at hu hd hc
        exact ⟨by simp only [he]; exact hc.next, hs, by simp only [he]; omega, by simp only [he]; omega⟩
      · exact ⟨hc, hs, hu, hd⟩
    · rename_i n s he
      split
      · have hp := (he ▸ hc : CliAt ((.rd, n) :: s)).pos
        have := next_rd n s hp
        rw [he] at hu hd hc
        exact ⟨by simp only [he]; exact hc.next, hs, by simp only [he]; omega, by simp only [he]; omega⟩
      · exact ⟨hc, hs, hu, hd⟩
    · exact ⟨hc, hs, hu, hd⟩
  | false =>
    simp only [Shake.step]
    split
    · rename_i n s he
      split
      · have hp := (he ▸ hs : SrvAt ((.wr, n) :: s)).pos
        have := next_wr n s hp
        rw [he] at hu hd hs
        exact ⟨hc, by simp only [he]; exact hs.next, by simp only [he]; omega, by simp only [he]; omega⟩
      · exact ⟨hc, hs, hu, hd⟩
    · rename_i n s he
      split
      · have hp := (he ▸ hs : SrvAt ((.rd, n) :: s)).pos
        have := next_rd n s hp
        rw [he] at hu hd hs
        exact ⟨hc, by simp only [he]; exact hs.next, by simp only [he]; omega, by simp only [he]; omega⟩
      · exact ⟨hc, hs, hu, hd⟩
    · exact ⟨hc, hs, hu, hd⟩

theorem shakeInv_run (cap : Nat) (sched : List Bool) : ∀ x, ShakeInv x → ShakeInv (x.run cap sched) := by
  induction sched with
  | nil => intro x h; exact h
  | cons b sched ih => intro x h; exact ih _ (shakeInv_step cap x h b)

theorem shakeInv_init : ShakeInv .init := by
  refine ⟨.inl ⟨112, by omega, by omega, rfl⟩, .inl ⟨112, by omega, by omega, rfl⟩, ?_, ?_⟩ <;>
    simp [Shake.init, cliScript, srvScript, IoScript.writes, IoScript.reads]

/-- C63. Setting up a connection over buffers of at least 24 bytes (4096 for an in-process keystore): in whatever order the
    two sides run, when both have to wait, both are through - neither waits for the other. -/
theorem C63_handshake_completes (cap : Nat) (hcap : 24 ≤ cap) (sched : List Bool)
    (hq : ∀ b, (Shake.init.run cap sched).step cap b = Shake.init.run cap sched) :
    (Shake.init.run cap sched).cli = [] ∧ (Shake.init.run cap sched).srv = [] := by
  have h := shakeInv_run cap sched _ shakeInv_init
  generalize Shake.init.run cap sched = x at h hq
  obtain ⟨hc, hs, hu, hd⟩ := h
  have ht := hq true
  have hf := hq false
  obtain ⟨cli, srv, up, down⟩ := x
  simp only at hc hs hu hd
  rcases hc with ⟨a, h1, h2, rfl⟩ | ⟨a, h1, h2, rfl⟩ | ⟨a, h1, h2, rfl⟩ | ⟨a, h1, h2, rfl⟩ | rfl <;>
  rcases hs with ⟨c, h3, h4, rfl⟩ | ⟨c, h3, h4, rfl⟩ | ⟨c, h3, h4, rfl⟩ | ⟨c, h3, h4, rfl⟩ | rfl <;>
  simp [IoScript.writes, IoScript.reads] at hu hd <;>
  simp only [Shake.step] at ht hf <;>
  first
  | exact ⟨rfl, rfl⟩
  | (exfalso; omega)
  | (exfalso
     (repeat' split at ht) <;> (repeat' split at hf) <;> (try simp at ht hf) <;> omega)

/-- C63. And they come to that point: at most 480 steps. -/
theorem C63_handshake_terminates (cap : Nat) (sched : List Bool)
    (hb : ∀ n, n < sched.length → Shake.init.run cap (sched.take (n + 1)) ≠ Shake.init.run cap (sched.take n)) :
    sched.length ≤ 480 := by
  have hdec : ∀ (x : Shake) b, ShakeInv x → x.step cap b ≠ x →
      (x.step cap b).cli.writes + (x.step cap b).cli.reads + (x.step cap b).srv.writes + (x.step cap b).srv.reads + 1 ≤
        x.cli.writes + x.cli.reads + x.srv.writes + x.srv.reads := by
    intro x b hi hne
    obtain ⟨hc, hs, _, _⟩ := hi
    cases b with
    | true =>
      simp only [Shake.step] at hne ⊢
      split at hne
      · rename_i n s he
        split at hne
        · rename_i hlt
          have := next_wr n s (he ▸ hc : CliAt ((.wr, n) :: s)).pos
          simp only [he, hlt, if_true]; omega
        · exact absurd rfl hne
      · rename_i n s he
        split at hne
        · rename_i hlt
          have := next_rd n s (he ▸ hc : CliAt ((.rd, n) :: s)).pos
          simp only [he, hlt, if_true]; omega
        · exact absurd rfl hne
      · exact absurd rfl hne
    | false =>
      simp only [Shake.step] at hne ⊢
      split at hne
      · rename_i n s he
        split at hne
        · rename_i hlt
          have := next_wr n s (he ▸ hs : SrvAt ((.wr, n) :: s)).pos
          simp only [he, hlt, if_true]; omega
        · exact absurd rfl hne
      · rename_i n s he
        split at hne
        · rename_i hlt
          have := next_rd n s (he ▸ hs : SrvAt ((.rd, n) :: s)).pos
          simp only [he, hlt, if_true]; omega
        · exact absurd rfl hne
      · exact absurd rfl hne
  have main : ∀ n, n ≤ sched.length →
      (Shake.init.run cap (sched.take n)).cli.writes + (Shake.init.run cap (sched.take n)).cli.reads +
      (Shake.init.run cap (sched.take n)).srv.writes + (Shake.init.run cap (sched.take n)).srv.reads + n ≤ 480 := by
    intro n
    induction n with
    | zero => intro _; simp [Shake.run, Shake.init, cliScript, srvScript, IoScript.writes, IoScript.reads]
    | succ n ih =>
      intro hn
      have h1 := ih (by omega)
      have h2 : Shake.init.run cap (sched.take (n + 1)) = (Shake.init.run cap (sched.take n)).step cap sched[n] := by
        rw [List.take_succ_eq_append_getElem (by omega)]
        simp only [Shake.run, List.foldl_append, List.foldl_cons, List.foldl_nil]
      have h3 := hb n (by omega)
      rw [h2] at h3 ⊢
      have := hdec _ _ (shakeInv_run cap _ _ shakeInv_init) h3
      omega
  have := main sched.length (Nat.le_refl _)
  omega

/-! ### C64 -/

/-- Bytes of the requests made in a history. -/
def FlowEv.askBytes : List FlowEv → Nat
  | [] => 0
  | .ask _ len :: evs => len + 1 + askBytes evs
  | _ :: evs => askBytes evs

/-- C64 is violated. If the server does not read (its process is stopped, say), then as soon as the requests made amount to
    more bytes than the buffer holds, some request is never sent, however long one waits. -/
theorem C64_send_waits_for_ever (evs : List FlowEv) (hr : FlowEv.srvRead ∉ evs)
    (hbig : g.upCap < FlowEv.askBytes evs) : (Flow.init.run g evs).cliOut ≠ [] := by
  have hcons : ∀ (evs : List FlowEv) (f : Flow), FlowEv.srvRead ∉ evs →
      ((f.run g evs).cliOut.map (fun x => x.left + 1)).sum + (f.run g evs).up.length =
        (f.cliOut.map (fun x => x.left + 1)).sum + f.up.length + FlowEv.askBytes evs := by
    intro evs
    induction evs with
    | nil => intro f _; simp [Flow.run, FlowEv.askBytes]
    | cons e evs ih =>
      intro f hn
      have := ih (f.step g e) (fun h => hn (List.mem_cons_of_mem _ h))
      show (((f.step g e).run g evs).cliOut.map _).sum + ((f.step g e).run g evs).up.length = _
      rw [this]
      cases e with
      | ask id len => simp [Flow.step, FlowEv.askBytes]; omega
      | srvRead => exact absurd List.mem_cons_self hn
      | cliWrite =>
        simp only [Flow.step, FlowEv.askBytes]
        split
        · cases hc : f.cliOut with
          | nil => simp [writeByte]
          | cons x rest =>
            obtain ⟨i, n⟩ := x
            cases n <;> simp [writeByte] <;> omega
        · rfl
      | handled i => simp only [Flow.step, FlowEv.askBytes]; split <;> rfl
      | srvWrite => simp only [Flow.step, FlowEv.askBytes]; split <;> rfl
      | cliRead => simp only [Flow.step, FlowEv.askBytes]; split <;> rfl
  intro h
  have h1 := hcons evs .init hr
  have h2 := (C63_bounded (g := g) evs).2.1
  rw [h] at h1
  simp [Flow.init] at h1
  simp [Flow.init] at h2
  omega

theorem sending_step {s : CliSt} {k : Nat} {q : CReq} (h : s.reqs[k]? = some q) (hp : q.phase = .sending) (e : CEv)
    (h1 : ∀ r, e ≠ .sent k r) (h2 : e ≠ .cancel k) : ∃ q', (s.step e).reqs[k]? = some q' ∧ q'.phase = .sending := by
  have hlt := (List.getElem?_eq_some_iff.mp h).1
  have hfin : ∀ j id p, j ≠ k → ∃ q', (s.finish j id p).reqs[k]? = some q' ∧ q'.phase = .sending := by
    intro j id p hj
    rw [finish_reqs, h]
    refine ⟨_, rfl, ?_⟩
    simp only [hj, if_false]
    split
    · rw [CReq.drop_phase]; exact hp
    · exact hp
  cases e with
  | start id =>
    simp only [CliSt.step]
    rw [List.getElem?_append_left (by rw [remove_length]; exact hlt), remove_reqs, h]
    refine ⟨_, rfl, ?_⟩
    split
    · rw [CReq.drop_phase]; exact hp
    · exact hp
  | sent j r =>
    have hj : j ≠ k := by intro hj; subst hj; exact h1 r rfl
    simp only [CliSt.step]
    split
    · split
      · refine ⟨q, ?_, hp⟩
        simp only [List.getElem?_modify, hj, h]; rfl
      · exact hfin _ _ _ hj
    · exact ⟨q, h, hp⟩
  | arrive m =>
    simp only [CliSt.step]
    split
    · exact ⟨q, h, hp⟩
    · split
      · exact ⟨q, h, hp⟩
      · rename_i j _
        by_cases hj : j = k
        · subst hj
          exact ⟨q.deliver m, by simp only [List.getElem?_modify, h]; simp, by rw [CReq.deliver_phase]; exact hp⟩
        · exact ⟨q, by simp only [List.getElem?_modify, hj, h]; rfl, hp⟩
  | wake j =>
    by_cases hj : j = k
    · subst hj
      obtain ⟨id, ph, sl⟩ := q
      simp only at hp; subst hp
      simp only [CliSt.step, h]
      exact ⟨_, rfl, rfl⟩
    · simp only [CliSt.step]
      split
      · exact hfin _ _ _ hj
      · exact hfin _ _ _ hj
      · exact ⟨q, h, hp⟩
  | timeout j =>
    by_cases hj : j = k
    · subst hj
      obtain ⟨id, ph, sl⟩ := q
      simp only at hp; subst hp
      simp only [CliSt.step, h]
      exact ⟨_, rfl, rfl⟩
    · simp only [CliSt.step]
      split
      · exact hfin _ _ _ hj
      · exact hfin _ _ _ hj
      · exact hfin _ _ _ hj
      · exact ⟨q, h, hp⟩
  | cancel j =>
    have hj : j ≠ k := by intro hj; subst hj; exact h2 rfl
    simp only [CliSt.step]
    split
    · exact hfin _ _ _ hj
    · exact hfin _ _ _ hj
    · exact ⟨q, h, hp⟩
  | connEnd =>
    simp only [CliSt.step]
    rw [getElem?_dropAll, h]
    refine ⟨_, rfl, ?_⟩
    split
    · rw [CReq.drop_phase]; exact hp
    · exact hp

/-- C64 is violated. A request that has not been sent returns neither when its 30 seconds are over, nor when the connection
    ends, nor for any other reason, until the send completes or the caller gives up. -/
theorem C64_no_timeout_while_sending (s : CliSt) (k : Nat) (q : CReq) (h : s.reqs[k]? = some q) (hp : q.phase = .sending)
    (evs : List CEv) (h1 : ∀ r, CEv.sent k r ∉ evs) (h2 : CEv.cancel k ∉ evs) :
    ∃ q', (s.run evs).reqs[k]? = some q' ∧ q'.phase = .sending := by
  induction evs generalizing s q with
  | nil => exact ⟨q, h, hp⟩
  | cons e evs ih =>
    obtain ⟨q', h', hp'⟩ := sending_step h hp e (fun r he => h1 r (he ▸ List.mem_cons_self))
      (fun he => h2 (he ▸ List.mem_cons_self))
    exact ih _ q' h' hp' (fun r hm => h1 r (List.mem_cons_of_mem _ hm)) (fun hm => h2 (List.mem_cons_of_mem _ hm))

/-- C64, what holds of it. Once it has been sent a request returns: after its 30 seconds it does so whether or not anything
    has come back, and in an error if its send fails. -/
theorem C64_returns_once_sent_partial {evs : List CEv} {k : Nat} {q : CReq} (h : (CliSt.init.run evs).reqs[k]? = some q)
    (hp : q.phase = .sending) (r : Res Unit) :
    ∃ q' x, (CliSt.init.run (evs ++ [.sent k r] ++ [.timeout k])).reqs[k]? = some q' ∧ q'.phase = .done x ∧
      (∀ e, r = .error e → x = .error e) := by
  obtain ⟨id, ph, sl⟩ := q
  simp only at hp; subst hp
  cases r with
  | ok u =>
    have h1 : (CliSt.init.run (evs ++ [.sent k (.ok u)])).reqs[k]? = some ⟨id, .waiting, sl⟩ := by
      rw [CliSt.run_append]
      show ((CliSt.init.run evs).step (.sent k (.ok u))).reqs[k]? = _
      simp only [CliSt.step, h, List.getElem?_modify]
      rfl
    obtain ⟨q', x, h2, h3, _⟩ := C29_timeout h1 rfl
    exact ⟨q', x, h2, h3, by simp⟩
  | error e =>
    have h1 : ∃ q', (CliSt.init.run (evs ++ [.sent k (.error e)])).reqs[k]? = some q' ∧ q'.phase = .done (.error e) := by
      rw [CliSt.run_append]
      show ∃ q', ((CliSt.init.run evs).step (.sent k (.error e))).reqs[k]? = some q' ∧ _
      simp only [CliSt.step, h]
      rw [finish_reqs, h]
      refine ⟨_, rfl, ?_⟩
      simp only [if_true]
      split
      · rw [CReq.drop_phase]
      · rfl
    obtain ⟨⟨id', ph', sl'⟩, h2, h3⟩ := h1
    simp only at h3; subst h3
    refine ⟨⟨id', .done (.error e), sl'⟩, .error e, ?_, rfl, fun e' he => by cases he; rfl⟩
    rw [CliSt.run_append]
    show ((CliSt.init.run (evs ++ [.sent k (.error e)])).step (.timeout k)).reqs[k]? = _
    simp only [CliSt.step, h2]

/-! ### Examples -/

/-- Buffers of one byte, one request in work at a time, responses of three bytes. -/
def tinyFlow : FlowCfg := ⟨1, 1, 1, fun _ => 2⟩

/-- Three requests of two bytes. -/
def tinyRun : List FlowEv :=
  [.ask 7 1, .ask 8 1, .ask 9 1] ++
    (List.replicate 3 ([.cliWrite, .srvRead, .cliWrite, .srvRead, .handled 7, .handled 8, .handled 9] ++
      [.srvWrite, .cliRead, .srvWrite, .cliRead, .srvWrite, .cliRead])).flatten

-- The hypotheses of `C63_at_rest_everything_is_answered`.
example : (Flow.init.run tinyFlow tinyRun).Quiet tinyFlow := by
  have : Flow.init.run tinyFlow tinyRun = ⟨[], [], [], [], [], [7, 8, 9]⟩ := by decide +kernel
  rw [this]
  intro e he
  cases e <;> simp_all [FlowEv.own, Flow.step, writeByte]

/-- In the middle of it the second request is stuck behind the first. -/
example : Flow.init.run tinyFlow (tinyRun.take 8) = ⟨[⟨8, 1⟩, ⟨9, 1⟩], [], [], [⟨7, 2⟩], [], []⟩ := by decide +kernel

/-- The hypothesis of `C63_comes_to_rest`. -/
example : (⟨[], [], [7], [], [], []⟩ : Flow).Busy tinyFlow [.handled 7, .srvWrite, .cliRead] :=
  ⟨rfl, by decide, rfl, by decide, rfl, by decide, trivial⟩

/-- The hypotheses of `C63_handshake_completes`, for a buffer of 24 bytes: client first, as far as possible. -/
def shakeSched : List Bool :=
  (List.replicate 40 (List.replicate 24 true ++ List.replicate 24 false)).flatten

example : ∀ b, (Shake.init.run 24 shakeSched).step 24 b = Shake.init.run 24 shakeSched := by decide +kernel

/-- Why 24 bytes: with 23 both sides can be stuck writing their header. -/
example : let x := Shake.init.run 23 shakeSched
    (∀ b, x.step 23 b = x) ∧ x.cli = [(.wr, 1), (.rd, 24)] ∧ x.srv = [(.wr, 1), (.rd, 24)] := by decide +kernel

/-- The hypothesis of `C63_handshake_terminates`. -/
example : ∀ n, n < [true, true, false].length →
    Shake.init.run 24 ([true, true, false].take (n + 1)) ≠ Shake.init.run 24 ([true, true, false].take n) := by decide +kernel

/-- The hypotheses of `C64_send_waits_for_ever`: two requests of two bytes each, a buffer of one byte. -/
example : FlowEv.srvRead ∉ [FlowEv.ask 1 1, .cliWrite, .ask 2 1, .cliWrite] ∧
    tinyFlow.upCap < FlowEv.askBytes [FlowEv.ask 1 1, .cliWrite, .ask 2 1, .cliWrite] := by decide

/-- The hypotheses of `C64_no_timeout_while_sending`: time passes, and even the connection ends. -/
example : (CliSt.init.run [.start "a"]).reqs[0]? = some ⟨"a", .sending, .empty⟩ ∧
    (∀ r, CEv.sent 0 r ∉ [CEv.timeout 0, .connEnd, .wake 0]) ∧ CEv.cancel 0 ∉ [CEv.timeout 0, .connEnd, .wake 0] := by
  refine ⟨by decide, ?_, by decide⟩
  intro r; simp

end Lair
