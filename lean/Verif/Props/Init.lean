import Verif.Cli

/-
C48: `init` never overwrites a configuration, in every interleaving of any number of `init`s.
-/
namespace Lair.Init

/-- This process has created the file and is writing or has finished. -/
def Phase.owns : Phase → Bool
  | .writing _ => true
  | .done => true
  | _ => false

structure Inv (s : St) : Prop where
  writing : ∀ (i : Nat) (p : Proc) (w : Nat), s.procs[i]? = some p → p.phase = .writing w → w ≤ p.cfg.length ∧ s.file = some (p.cfg.take w)
  done : ∀ (i : Nat) (p : Proc), s.procs[i]? = some p → p.phase = .done → s.file = some p.cfg
  one : ∀ (i j : Nat) (p q : Proc), s.procs[i]? = some p → s.procs[j]? = some q → p.phase.owns = true → q.phase.owns = true → i = j

theorem Inv.init (f : Option Bytes) : Inv ⟨f, []⟩ := ⟨by simp, by simp, by simp⟩

theorem getElem_setPhase {s : St} {k i : Nat} {p q : Proc} {ph : Phase} (hk : s.procs[k]? = some p)
    (h : (s.setPhase k p ph).procs[i]? = some q) : (i = k ∧ q = { p with phase := ph }) ∨ (i ≠ k ∧ s.procs[i]? = some q) := by
  have hlt := (List.getElem?_eq_some_iff.1 hk).1
  by_cases e : i = k
  · subst e
    simp only [St.setPhase, List.getElem?_set_self hlt] at h
    exact Or.inl ⟨rfl, (Option.some.inj h).symm⟩
  · simp only [St.setPhase, List.getElem?_set_ne (Ne.symm e)] at h
    exact Or.inr ⟨e, h⟩

/-- A process leaves without the file. -/
theorem Inv.leave {s : St} (h : Inv s) {k : Nat} {p : Proc} {ph : Phase} (hk : s.procs[k]? = some p) (hp : ph.owns = false) :
    Inv (s.setPhase k p ph) := by
  refine ⟨?_, ?_, ?_⟩
  · intro i q w hi hw
    rcases getElem_setPhase hk hi with ⟨_, rfl⟩ | ⟨_, hi⟩
    · simp only at hw; subst hw; simp [Phase.owns] at hp
    · exact h.writing i q w hi hw
  · intro i q hi hw
    rcases getElem_setPhase hk hi with ⟨_, rfl⟩ | ⟨_, hi⟩
    · simp only at hw; subst hw; simp [Phase.owns] at hp
    · exact h.done i q hi hw
  · intro i j a b hi hj ha hb
    rcases getElem_setPhase hk hi with ⟨_, rfl⟩ | ⟨_, hi⟩
    · simp only at ha; rw [hp] at ha; cases ha
    · rcases getElem_setPhase hk hj with ⟨_, rfl⟩ | ⟨_, hj⟩
      · simp only at hb; rw [hp] at hb; cases hb
      · exact h.one i j a b hi hj ha hb

/-- The owner goes on. -/
theorem Inv.go {s t : St} (_h : Inv s) {k : Nat} {p : Proc} {ph : Phase} (hk : s.procs[k]? = some p) (ht : t.procs = s.procs)
    (hown : ∀ (i : Nat) (q : Proc), s.procs[i]? = some q → q.phase.owns = true → i = k)
    (hw : ∀ w, ph = .writing w → w ≤ p.cfg.length ∧ t.file = some (p.cfg.take w)) (hd : ph = .done → t.file = some p.cfg) :
    Inv (t.setPhase k p ph) := by
  have hk' : t.procs[k]? = some p := by rw [ht]; exact hk
  refine ⟨?_, ?_, ?_⟩
  · intro i q w hi hq
    rcases getElem_setPhase hk' hi with ⟨_, rfl⟩ | ⟨hne, hi⟩
    · exact hw w hq
    · rw [ht] at hi
      exact absurd (hown i q hi (by rw [hq]; rfl)) hne
  · intro i q hi hq
    rcases getElem_setPhase hk' hi with ⟨_, rfl⟩ | ⟨hne, hi⟩
    · exact hd hq
    · rw [ht] at hi
      exact absurd (hown i q hi (by rw [hq]; rfl)) hne
  · intro i j a b hi hj ha hb
    have key : ∀ (i : Nat) (a : Proc), (t.setPhase k p ph).procs[i]? = some a → a.phase.owns = true → i = k := by
      intro i a hi ha
      rcases getElem_setPhase hk' hi with ⟨e, _⟩ | ⟨_, hi⟩
      · exact e
      · rw [ht] at hi; exact hown i a hi ha
    rw [key i a hi ha, key j b hj hb]

theorem writeAt_take (cfg : Bytes) (w n : Nat) :
    writeAt (cfg.take w) w ((cfg.drop w).take n) = cfg.take (w + ((cfg.drop w).take n).length) := by
  unfold writeAt
  have h1 : (cfg.take w).take w = cfg.take w := by rw [List.take_take, Nat.min_self]
  have h2 : (cfg.take w).drop (w + ((cfg.drop w).take n).length) = [] := by
    apply List.drop_eq_nil_of_le
    simp only [List.length_take]
    omega
  rw [h1, h2, List.append_nil, List.take_add]
  congr 1
  rw [List.length_take, List.take_eq_take_iff]
  omega

theorem Inv.step {s : St} (h : Inv s) (ev : Ev) : Inv (s.step ev) := by
  cases ev with
  | launch cfg =>
    have key : ∀ (i : Nat) (q : Proc), (s.procs ++ [⟨cfg, .start⟩])[i]? = some q → q.phase ≠ .start → s.procs[i]? = some q := by
      intro i q hi hq
      rw [List.getElem?_append] at hi
      split at hi
      · exact hi
      · have : q ∈ [⟨cfg, Phase.start⟩] := List.mem_of_getElem? hi
        simp only [List.mem_singleton] at this
        subst this
        exact absurd rfl hq
    refine ⟨?_, ?_, ?_⟩
    · intro i p w hi hw
      exact h.writing i p w (key i p hi (by rw [hw]; simp)) hw
    · intro i p hi hw
      exact h.done i p (key i p hi (by rw [hw]; simp)) hw
    · intro i j p q hi hj hp hq
      exact h.one i j p q (key i p hi (by intro e; rw [e] at hp; cases hp)) (key j q hj (by intro e; rw [e] at hq; cases hq)) hp hq
  | check k =>
    simp only [St.step]
    split
    · rename_i cfg hk
      exact h.leave hk (by split <;> rfl)
    · exact h
  | create k =>
    simp only [St.step]
    split
    · rename_i cfg hk
      split
      · exact h.leave hk rfl
      · rename_i hf
        refine h.go (t := { s with file := some [] }) hk rfl ?_ ?_ (by intro e; cases e)
        · intro i q hi ho
          cases hq : q.phase with
          | writing w => rw [(h.writing i q w hi hq).2] at hf; cases hf
          | done => rw [h.done i q hi hq] at hf; cases hf
          | start => rw [hq] at ho; cases ho
          | generating => rw [hq] at ho; cases ho
          | failed => rw [hq] at ho; cases ho
          | crashed => rw [hq] at ho; cases ho
        · intro w e; cases e; exact ⟨Nat.zero_le _, by simp⟩
    · exact h
  | write k n =>
    simp only [St.step]
    split
    · rename_i cfg w hk
      have hw := h.writing k _ w hk rfl
      refine h.go (t := { s with file := s.file.map (fun f => writeAt f w ((cfg.drop w).take n)) }) hk rfl
        (fun i q hi ho => h.one i k q _ hi hk ho rfl) ?_ (by intro e; cases e)
      intro w' e
      cases e
      refine ⟨?_, ?_⟩
      · simp only [List.length_take, List.length_drop]
        have := hw.1
        simp only at this
        omega
      · simp only [hw.2, Option.map_some]
        rw [writeAt_take]
    · exact h
  | finish k =>
    simp only [St.step]
    split
    · rename_i cfg w hk
      have hw := h.writing k _ w hk rfl
      split
      · rename_i e
        refine h.go (t := s) hk rfl (fun i q hi ho => h.one i k q _ hi hk ho rfl) (by intro w e; cases e) ?_
        intro _
        rw [hw.2, e]
        simp
      · exact h
    · exact h
  | ioError k =>
    simp only [St.step]
    split
    · rename_i cfg hk; exact h.leave hk rfl
    · rename_i cfg w hk; exact h.leave hk rfl
    · exact h
  | crash k =>
    simp only [St.step]
    split
    · rename_i cfg hk; exact h.leave hk rfl
    · rename_i cfg hk; exact h.leave hk rfl
    · rename_i cfg w hk; exact h.leave hk rfl
    · exact h

theorem Inv.run {s : St} (h : Inv s) (evs : List Ev) : Inv (s.run evs) := by
  induction evs generalizing s with
  | nil => exact h
  | cons e es ih => exact ih (h.step e)

theorem run_append (s : St) (a b : List Ev) : s.run (a ++ b) = (s.run a).run b := by simp [St.run, List.foldl_append]

/-- The file exists and nobody is writing it. -/
structure Quiet (s : St) (c : Bytes) : Prop where
  file : s.file = some c
  idle : ∀ (i : Nat) (p : Proc), s.procs[i]? = some p → ∀ w, p.phase ≠ .writing w

theorem Quiet.set {s : St} {c : Bytes} (h : Quiet s c) {k : Nat} {p : Proc} {ph : Phase} (hk : s.procs[k]? = some p)
    (hp : ∀ w, ph ≠ .writing w) : Quiet (s.setPhase k p ph) c := by
  refine ⟨h.file, ?_⟩
  intro i q hi w
  rcases getElem_setPhase hk hi with ⟨_, rfl⟩ | ⟨_, hi⟩
  · exact hp w
  · exact h.idle i q hi w

/-- Then nothing happens to the file, and no process that has not succeeded yet succeeds. -/
theorem Quiet.step {s : St} {c : Bytes} (h : Quiet s c) (ev : Ev) :
    Quiet (s.step ev) c ∧ ∀ (i : Nat) (p : Proc), (s.step ev).procs[i]? = some p → p.phase = .done → s.procs[i]? = some p := by
  have done : ∀ {k : Nat} {p : Proc} {ph : Phase}, s.procs[k]? = some p → ph ≠ .done → (∀ w, ph ≠ .writing w) →
      Quiet (s.setPhase k p ph) c ∧ ∀ (i : Nat) (q : Proc), (s.setPhase k p ph).procs[i]? = some q → q.phase = .done → s.procs[i]? = some q := by
    intro k p ph hk h1 h2
    refine ⟨h.set hk h2, ?_⟩
    intro i q hi hq
    rcases getElem_setPhase hk hi with ⟨_, rfl⟩ | ⟨_, hi⟩
    · exact absurd hq h1
    · exact hi
  have same : Quiet s c ∧ ∀ (i : Nat) (q : Proc), s.procs[i]? = some q → q.phase = .done → s.procs[i]? = some q := ⟨h, fun _ _ h _ => h⟩
  cases ev with
  | launch cfg =>
    have key : ∀ (i : Nat) (q : Proc), (s.procs ++ [⟨cfg, .start⟩])[i]? = some q → q.phase ≠ .start → s.procs[i]? = some q := by
      intro i q hi hq
      rw [List.getElem?_append] at hi
      split at hi
      · exact hi
      · have : q ∈ [⟨cfg, Phase.start⟩] := List.mem_of_getElem? hi
        simp only [List.mem_singleton] at this
        subst this
        exact absurd rfl hq
    refine ⟨⟨h.file, ?_⟩, ?_⟩
    · intro i p hi w hw
      exact h.idle i p (key i p hi (by rw [hw]; simp)) w hw
    · intro i p hi hw
      exact key i p hi (by rw [hw]; simp)
  | check k =>
    simp only [St.step]
    split
    · rename_i cfg hk
      rw [h.file]
      exact done hk (by simp) (by simp)
    · exact same
  | create k =>
    simp only [St.step]
    split
    · rename_i cfg hk
      rw [h.file]
      exact done hk (by simp) (by simp)
    · exact same
  | write k n =>
    simp only [St.step]
    split
    · rename_i cfg w hk; exact absurd rfl (h.idle k _ hk w)
    · exact same
  | finish k =>
    simp only [St.step]
    split
    · rename_i cfg w hk; exact absurd rfl (h.idle k _ hk w)
    · exact same
  | ioError k =>
    simp only [St.step]
    split
    · rename_i cfg hk; exact done hk (by simp) (by simp)
    · rename_i cfg w hk; exact done hk (by simp) (by simp)
    · exact same
  | crash k =>
    simp only [St.step]
    split
    · rename_i cfg hk; exact done hk (by simp) (by simp)
    · rename_i cfg hk; exact done hk (by simp) (by simp)
    · rename_i cfg w hk; exact done hk (by simp) (by simp)
    · exact same

theorem Quiet.run {s : St} {c : Bytes} (h : Quiet s c) (evs : List Ev) :
    Quiet (s.run evs) c ∧ ∀ (i : Nat) (p : Proc), (s.run evs).procs[i]? = some p → p.phase = .done → s.procs[i]? = some p := by
  induction evs generalizing s with
  | nil => exact ⟨h, fun _ _ h _ => h⟩
  | cons e es ih =>
    obtain ⟨h1, h2⟩ := h.step e
    obtain ⟨h3, h4⟩ := ih h1
    exact ⟨h3, fun i p hi hp => h2 i p (h4 i p hi hp) hp⟩

/-! ### C48 -/

/-- C48. Where a configuration exists, no `init` succeeds and the file keeps its content, whatever `init`s run and crash. -/
theorem C48_existing_kept (content : Bytes) (evs : List Ev) :
    let s := St.run ⟨some content, []⟩ evs
    s.file = some content ∧ ∀ p ∈ s.procs, p.phase ≠ .done := by
  obtain ⟨h1, h2⟩ := Quiet.run (s := ⟨some content, []⟩) (c := content) ⟨rfl, by simp⟩ evs
  refine ⟨h1.file, ?_⟩
  intro p hp hd
  obtain ⟨i, hi⟩ := List.mem_iff_getElem?.1 hp
  have := h2 i p hi hd
  simp at this

/-- C48. When an `init` reports success, the file holds its configuration completely, and keeps it whatever happens later. -/
theorem C48_success_is_lasting (file : Option Bytes) (evs later : List Ev) (k : Nat) (cfg : Bytes)
    (hk : (St.run ⟨file, []⟩ evs).procs[k]? = some ⟨cfg, .done⟩) : (St.run ⟨file, []⟩ (evs ++ later)).file = some cfg := by
  rw [run_append]
  have hi := (Inv.init file).run evs
  generalize St.run ⟨file, []⟩ evs = s at hk hi
  have hq : Quiet s cfg := by
    refine ⟨hi.done k _ hk rfl, ?_⟩
    intro i p hp w hw
    have := hi.one i k p _ hp hk (by rw [hw]; rfl) rfl
    subst this
    rw [hk] at hp
    cases hp
    cases hw
  exact (hq.run later).1.file

/-- C48. At most one of any number of racing `init`s succeeds. -/
theorem C48_at_most_one_succeeds (file : Option Bytes) (evs : List Ev) (i j : Nat) (p q : Proc)
    (hi : (St.run ⟨file, []⟩ evs).procs[i]? = some p) (hj : (St.run ⟨file, []⟩ evs).procs[j]? = some q)
    (hp : p.phase = .done) (hq : q.phase = .done) : i = j :=
  ((Inv.init file).run evs).one i j p q hi hj (by rw [hp]; rfl) (by rw [hq]; rfl)

/-- C48. An `init` that runs alone where no configuration exists succeeds and writes its configuration. -/
theorem C48_alone_succeeds (cfg : Bytes) :
    St.run ⟨none, []⟩ [.launch cfg, .check 0, .create 0, .write 0 cfg.length, .finish 0] = ⟨some cfg, [⟨cfg, .done⟩]⟩ := by
  simp [St.run, St.step, St.setPhase, writeAt]

/-- An `init` that is killed while writing leaves a truncated configuration behind; from then on every `init` is refused, so the
    truncated file stays until somebody removes it. -/
theorem C48_crash_leaves_truncated_file (cfg : Bytes) (n : Nat) (later : List Ev) :
    let s := St.run ⟨none, []⟩ ([.launch cfg, .check 0, .create 0, .write 0 n, .crash 0] ++ later)
    s.file = some (cfg.take n) ∧ ∀ p ∈ s.procs, p.phase ≠ .done := by
  have h0 : St.run ⟨none, []⟩ [.launch cfg, .check 0, .create 0, .write 0 n, .crash 0] = ⟨some (cfg.take n), [⟨cfg, .crashed⟩]⟩ := by
    simp [St.run, St.step, St.setPhase, writeAt]
  rw [run_append, h0]
  obtain ⟨h1, h2⟩ := Quiet.run (s := ⟨some (cfg.take n), [⟨cfg, .crashed⟩]⟩) (c := cfg.take n) ⟨rfl, by
    intro i p hi w hw
    have := List.mem_of_getElem? hi
    simp only [List.mem_singleton] at this
    subst this; cases hw⟩ later
  refine ⟨h1.file, ?_⟩
  intro p hp hd
  obtain ⟨i, hi⟩ := List.mem_iff_getElem?.1 hp
  have := List.mem_of_getElem? (h2 i p hi hd)
  simp only [List.mem_singleton] at this
  subst this; cases hd

/-- Two `init`s pass the first check together; one succeeds. -/
example : (St.run ⟨none, []⟩ [.launch [1, 2, 3], .launch [4, 5], .check 0, .check 1, .create 1, .create 0, .write 1 1, .launch [6],
    .check 2, .write 1 5, .finish 1]) = ⟨some [4, 5], [⟨[1, 2, 3], .failed⟩, ⟨[4, 5], .done⟩, ⟨[6], .failed⟩]⟩ := by decide +kernel

end Lair.Init
