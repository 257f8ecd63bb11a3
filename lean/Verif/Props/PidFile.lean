import Verif.PidFile

/-
C42: at most one keystore server per pid file. `St.run s evs` is any interleaving of starting servers, system calls, failures of
system calls, ends of processes and starts of other processes.
-/
namespace Lair.Pid

theorem phase_set (s : St) (p : Nat) (pr : Proc) (x : Nat × Phase) (q : Nat) :
    (s.setPhase p pr x).phase q = if q = p then some x.2 else s.phase q := by
  unfold St.phase St.setPhase
  simp only
  split <;> simp

theorem retry_phase (n : Nat) (e : String) : (retry n e).2 = .open ∨ (retry n e).2 = .failed e := by
  unfold retry; split <;> simp

/-- Server `p` runs under the recognised name, the pid file names it, and no other starting server is beyond the point of no
    return, or has succeeded. -/
structure Settled (s : St) (p i : Nat) : Prop where
  alive : ∃ pr, s.procs p = some pr ∧ pr.name = pkgName
  dir : s.dir = some i
  content : s.inodes[i]? = some (.pid p)
  others : ∀ q ph, s.phase q = some ph →
    ph = .open ∨ ph = .read i ∨ ph = .check p ∨ ph = .create ∨ (∃ e, ph = .failed e) ∨ (ph = .done ∧ q = p)

theorem Settled.set {s : St} {p i : Nat} (h : Settled s p i) {q : Nat} {pr : Proc} (hq : s.procs q = some pr) {x : Nat × Phase}
    (hx : x.2 = .open ∨ x.2 = .read i ∨ x.2 = .check p ∨ x.2 = .create ∨ (∃ e, x.2 = .failed e) ∨ (x.2 = .done ∧ q = p)) :
    Settled (s.setPhase q pr x) p i := by
  refine ⟨?_, h.dir, h.content, ?_⟩
  · obtain ⟨pr', h1, h2⟩ := h.alive
    by_cases e : p = q
    · subst e
      rw [hq] at h1; cases h1
      exact ⟨{ pr with lair := some x }, by simp [St.setPhase], h2⟩
    · exact ⟨pr', by simp [St.setPhase, e, h1], h2⟩
  · intro q' ph hph
    rw [phase_set] at hph
    split at hph
    · rename_i e; subst e; cases hph; exact hx
    · exact h.others q' ph hph

theorem Settled.setRetry {s : St} {p i : Nat} (h : Settled s p i) {q : Nat} {pr : Proc} (hq : s.procs q = some pr) (n : Nat) (e : String) :
    Settled (s.setPhase q pr (retry n e)) p i := by
  apply h.set hq
  rcases retry_phase n e with h | h
  · exact Or.inl h
  · exact Or.inr (Or.inr (Or.inr (Or.inr (Or.inl ⟨e, h⟩))))

theorem Settled.step {s : St} {p i : Nat} (h : Settled s p i) (ev : Ev) (hne : ev ≠ .exit p) : Settled (s.step ev) p i := by
  cases ev with
  | launch q name =>
    simp only [St.step]
    split
    · exact h
    · rename_i hq
      obtain ⟨pr', h1, h2⟩ := h.alive
      have hpq : p ≠ q := by rintro rfl; rw [hq] at h1; cases h1
      refine ⟨⟨pr', by simp [hpq, h1], h2⟩, h.dir, h.content, ?_⟩
      intro q' ph hph
      unfold St.phase at hph
      simp only at hph
      split at hph
      · simp at hph; exact Or.inl hph.symm
      · exact h.others q' ph hph
  | other q name =>
    simp only [St.step]
    split
    · exact h
    · rename_i hq
      obtain ⟨pr', h1, h2⟩ := h.alive
      have hpq : p ≠ q := by rintro rfl; rw [hq] at h1; cases h1
      refine ⟨⟨pr', by simp [hpq, h1], h2⟩, h.dir, h.content, ?_⟩
      intro q' ph hph
      unfold St.phase at hph
      simp only at hph
      split at hph
      · simp at hph
      · exact h.others q' ph hph
  | exit q =>
    have hpq : p ≠ q := by rintro rfl; exact hne rfl
    obtain ⟨pr', h1, h2⟩ := h.alive
    refine ⟨⟨pr', by simp [St.step, hpq, h1], h2⟩, h.dir, h.content, ?_⟩
    intro q' ph hph
    unfold St.phase at hph
    simp only [St.step] at hph
    split at hph
    · simp at hph
    · exact h.others q' ph hph
  | step q fault =>
    simp only [St.step]
    split
    · rename_i pr hq
      split
      · rename_i n ph hl
        have hph : s.phase q = some ph := by simp [St.phase, hq, hl]
        rcases h.others q ph hph with rfl | rfl | rfl | rfl | ⟨e, rfl⟩ | ⟨rfl, -⟩
        · simp only [St.call]
          split
          · exact h.setRetry hq _ _
          · simp only [h.dir]; exact h.set hq (Or.inr (Or.inl rfl))
        · simp only [St.call]
          split
          · exact h.setRetry hq _ _
          · simp only [h.content]; exact h.set hq (Or.inr (Or.inr (Or.inl rfl)))
        · obtain ⟨pr', h1, h2⟩ := h.alive
          simp only [St.call, h1, h2, if_true]
          exact h.setRetry hq _ _
        · simp only [St.call]
          split
          · exact h.setRetry hq _ _
          · simp only [h.dir]; exact h.setRetry hq _ _
        · exact h
        · exact h
      · exact h
    · exact h

theorem Settled.run {s : St} {p i : Nat} (h : Settled s p i) (evs : List Ev) (hne : Ev.exit p ∉ evs) : Settled (s.run evs) p i := by
  induction evs generalizing s with
  | nil => exact h
  | cons e es ih =>
    simp only [List.mem_cons, not_or] at hne
    exact ih (h.step e (Ne.symm hne.1)) hne.2

/-- C42 (for an executable named like the package). Once server `p` has the pid file and nobody else is in the middle of starting, no
    other server's start succeeds while `p` lives, and the pid file keeps naming `p`: for all interleavings of any number of
    starts, ends of other processes and failing system calls. -/
theorem C42_running_server_is_respected_partial (s : St) (p : Nat) (n : Nat) (hp : s.procs p = some ⟨pkgName, some (n, .done)⟩)
    (hf : s.file = some (.pid p)) (hq : ∀ q ph, q ≠ p → s.phase q = some ph → ph = .open ∨ ∃ e, ph = .failed e)
    (evs : List Ev) (hlive : Ev.exit p ∉ evs) :
    (s.run evs).file = some (.pid p) ∧ (∀ q, q ≠ p → (s.run evs).phase q ≠ some .done) ∧ (s.run evs).phase p = some .done := by
  unfold St.file at hf
  cases hd : s.dir with
  | none => rw [hd] at hf; cases hf
  | some i =>
    rw [hd] at hf
    have hi : Settled s p i := by
      refine ⟨⟨_, hp, rfl⟩, hd, by simpa using hf, ?_⟩
      intro q ph hph
      by_cases e : q = p
      · subst e
        simp [St.phase, hp] at hph
        subst hph
        exact Or.inr (Or.inr (Or.inr (Or.inr (Or.inr ⟨rfl, rfl⟩))))
      · rcases hq q ph e hph with h | h
        · exact Or.inl h
        · exact Or.inr (Or.inr (Or.inr (Or.inr (Or.inl h))))
    have hr := hi.run evs hlive
    have hdone : ∀ (evs : List Ev), Ev.exit p ∉ evs → ∀ s, s.procs p = some ⟨pkgName, some (n, .done)⟩ →
        (St.run s evs).procs p = some ⟨pkgName, some (n, .done)⟩ := by
      intro evs
      induction evs with
      | nil => intro _ s h; exact h
      | cons e es ih =>
        intro hne s h
        simp only [List.mem_cons, not_or] at hne
        apply ih hne.2
        cases e with
        | launch q name =>
          simp only [St.step]
          split
          · exact h
          · rename_i hq'
            have : p ≠ q := by rintro rfl; rw [h] at hq'; cases hq'
            simp [this, h]
        | other q name =>
          simp only [St.step]
          split
          · exact h
          · rename_i hq'
            have : p ≠ q := by rintro rfl; rw [h] at hq'; cases hq'
            simp [this, h]
        | exit q =>
          have : p ≠ q := by rintro rfl; exact hne.1 rfl
          simp [St.step, this, h]
        | step q f =>
          by_cases e : q = p
          · subst e
            simp only [St.step, h, St.call]
          · have key : ∀ (t : St) (pr : Proc) (x : Nat × Phase), t.procs = s.procs → (t.setPhase q pr x).procs p = some ⟨pkgName, some (n, .done)⟩ := by
              intro t pr x ht
              simp [St.setPhase, Ne.symm e, ht, h]
            simp only [St.step]
            split
            · rename_i pr hpr
              split
              · rename_i m ph hl
                cases ph <;> simp only [St.call] <;> (repeat' split) <;> first | exact h | exact key _ _ _ rfl
              · exact h
            · exact h
    refine ⟨by simp [St.file, hr.dir, hr.content], ?_, ?_⟩
    · intro q hqp hdn
      rcases hr.others q _ hdn with h | h | h | h | ⟨e, h⟩ | ⟨-, h⟩
      · cases h
      · cases h
      · cases h
      · cases h
      · cases h
      · exact hqp h
    · simp [St.phase, hdone evs hlive s hp]

/-! Starts that race for a pid file that does not exist yet. -/

/-- Nobody has created the file. -/
structure NoFile (s : St) : Prop where
  dir : s.dir = none
  phases : ∀ q ph, s.phase q = some ph → ph = .open ∨ ph = .create ∨ ∃ e, ph = .failed e

/-- The file was created and is empty; at most one server is about to write it. -/
structure EmptyFile (s : St) (i : Nat) : Prop where
  dir : s.dir = some i
  content : s.inodes[i]? = some .empty
  phases : ∀ q ph, s.phase q = some ph → ph = .open ∨ ph = .read i ∨ ph = .create ∨ (∃ e, ph = .failed e) ∨ ph = .write i
  unique : ∀ q q', s.phase q = some (.write i) → s.phase q' = some (.write i) → q = q'

/-- All servers run under the recognised name. -/
def Named (s : St) : Prop := ∀ q pr, s.procs q = some pr → pr.lair ≠ none → pr.name = pkgName

theorem Named.set {s : St} (h : Named s) {t : St} (ht : t.procs = s.procs) {q : Nat} {pr : Proc} (hq : s.procs q = some pr)
    (hl : pr.lair ≠ none) (x : Nat × Phase) : Named (t.setPhase q pr x) := by
  intro q' pr' h1 h2
  simp only [St.setPhase, ht] at h1
  split at h1
  · cases h1; exact h q pr hq hl
  · exact h q' pr' h1 h2

theorem Named.step {s : St} (h : Named s) (ev : Ev) (hev : ∀ p n, ev = .launch p n → n = pkgName) : Named (s.step ev) := by
  cases ev with
  | launch p n =>
    simp only [St.step]
    split
    · exact h
    · intro q' pr' h1 h2
      simp only at h1
      split at h1
      · cases h1; exact hev p n rfl
      · exact h q' pr' h1 h2
  | other p n =>
    simp only [St.step]
    split
    · exact h
    · intro q' pr' h1 h2
      simp only at h1
      split at h1
      · cases h1; exact absurd rfl h2
      · exact h q' pr' h1 h2
  | exit p =>
    intro q' pr' h1 h2
    simp only [St.step] at h1
    split at h1
    · cases h1
    · exact h q' pr' h1 h2
  | step p f =>
    simp only [St.step]
    split
    · rename_i pr hp
      split
      · rename_i m ph hl
        have hne : pr.lair ≠ none := by rw [hl]; simp
        cases ph <;> simp only [St.call] <;> (repeat' split) <;> first | exact h | exact h.set rfl hp hne _
      · exact h
    · exact h

/-- The three situations a race from a missing pid file can be in. -/
def Racing (s : St) : Prop := NoFile s ∨ (∃ i, EmptyFile s i) ∨ ∃ p i, Settled s p i ∧ s.phase p = some .done

theorem phase_launch {s : St} {p : Nat} {pr : Proc} (_ : s.procs p = none) (q : Nat) :
    ({ s with procs := fun q => if q = p then some pr else s.procs q } : St).phase q =
      if q = p then pr.lair.map Prod.snd else s.phase q := by
  unfold St.phase; simp only; split <;> simp

theorem phase_exit {s : St} {p : Nat} (q : Nat) : (s.step (.exit p)).phase q = if q = p then none else s.phase q := by
  unfold St.phase St.step; simp only; split <;> simp

theorem phase_none {s : St} {p : Nat} (hp : s.procs p = none) : s.phase p = none := by simp [St.phase, hp]

theorem NoFile.set {s : St} (h : NoFile s) {q : Nat} {pr : Proc} {x : Nat × Phase}
    (hx : x.2 = .open ∨ x.2 = .create ∨ ∃ e, x.2 = .failed e) : NoFile (s.setPhase q pr x) := by
  refine ⟨h.dir, ?_⟩
  intro q' ph hph
  rw [phase_set] at hph
  split at hph
  · cases hph; exact hx
  · exact h.phases q' ph hph

theorem NoFile.setRetry {s : St} (h : NoFile s) {q : Nat} {pr : Proc} (n : Nat) (e : String) : NoFile (s.setPhase q pr (retry n e)) := by
  apply h.set
  rcases retry_phase n e with h | h
  · exact Or.inl h
  · exact Or.inr (Or.inr ⟨e, h⟩)

theorem EmptyFile.set {s : St} {i : Nat} (h : EmptyFile s i) {q : Nat} {pr : Proc} {x : Nat × Phase}
    (hx : x.2 = .open ∨ x.2 = .read i ∨ x.2 = .create ∨ ∃ e, x.2 = .failed e) : EmptyFile (s.setPhase q pr x) i := by
  have hw : x.2 ≠ .write i := by rcases hx with h | h | h | ⟨e, h⟩ <;> rw [h] <;> simp
  refine ⟨h.dir, h.content, ?_, ?_⟩
  · intro q' ph hph
    rw [phase_set] at hph
    split at hph
    · cases hph
      rcases hx with h | h | h | h
      · exact Or.inl h
      · exact Or.inr (Or.inl h)
      · exact Or.inr (Or.inr (Or.inl h))
      · exact Or.inr (Or.inr (Or.inr (Or.inl h)))
    · exact h.phases q' ph hph
  · intro a b ha hb
    rw [phase_set] at ha hb
    split at ha
    · exact absurd (Option.some.inj ha) hw
    · split at hb
      · exact absurd (Option.some.inj hb) hw
      · exact h.unique a b ha hb

theorem EmptyFile.setRetry {s : St} {i : Nat} (h : EmptyFile s i) {q : Nat} {pr : Proc} (n : Nat) (e : String) :
    EmptyFile (s.setPhase q pr (retry n e)) i := by
  apply h.set
  rcases retry_phase n e with h | h
  · exact Or.inl h
  · exact Or.inr (Or.inr (Or.inr ⟨e, h⟩))

theorem Racing.step {s : St} (h : Racing s) (hn : Named s) (ev : Ev) (hx : ∀ p, ev = .exit p → s.phase p ≠ some .done) :
    Racing (s.step ev) := by
  rcases h with h | ⟨i, h⟩ | ⟨p, i, h, hd⟩
  · -- no file
    cases ev with
    | launch p n =>
      simp only [St.step]
      split
      · exact Or.inl h
      · rename_i hp
        refine Or.inl ⟨h.dir, ?_⟩
        intro q ph hph
        rw [phase_launch hp] at hph
        split at hph
        · cases hph; exact Or.inl rfl
        · exact h.phases q ph hph
    | other p n =>
      simp only [St.step]
      split
      · exact Or.inl h
      · rename_i hp
        refine Or.inl ⟨h.dir, ?_⟩
        intro q ph hph
        rw [phase_launch hp] at hph
        split at hph
        · cases hph
        · exact h.phases q ph hph
    | exit p =>
      refine Or.inl ⟨h.dir, ?_⟩
      intro q ph hph
      rw [phase_exit] at hph
      split at hph
      · cases hph
      · exact h.phases q ph hph
    | step p f =>
      simp only [St.step]
      split
      · rename_i pr hp
        split
        · rename_i m ph hl
          have hph : s.phase p = some ph := by simp [St.phase, hp, hl]
          rcases h.phases p ph hph with rfl | rfl | ⟨e, rfl⟩
          · simp only [St.call]
            split
            · exact Or.inl (h.setRetry _ _)
            · simp only [h.dir]; exact Or.inl (h.set (Or.inr (Or.inl rfl)))
          · simp only [St.call]
            split
            · exact Or.inl (h.setRetry _ _)
            · simp only [h.dir]
              refine Or.inr (Or.inl ⟨s.inodes.length, rfl, by simp [St.setPhase], ?_, ?_⟩)
              · intro q ph' hph'
                rw [phase_set] at hph'
                split at hph'
                · cases hph'; exact Or.inr (Or.inr (Or.inr (Or.inr rfl)))
                · rcases h.phases q ph' hph' with h | h | h
                  · exact Or.inl h
                  · exact Or.inr (Or.inr (Or.inl h))
                  · exact Or.inr (Or.inr (Or.inr (Or.inl h)))
              · have hnone : ∀ a, s.phase a ≠ some (.write s.inodes.length) := by
                  intro a ha
                  rcases h.phases a _ ha with h | h | ⟨e, h⟩ <;> cases h
                intro a b ha hb
                rw [phase_set] at ha hb
                split at ha
                · split at hb
                  · rename_i h1 h2; rw [h1, h2]
                  · exact absurd hb (hnone b)
                · exact absurd ha (hnone a)
          · exact Or.inl h
        · exact Or.inl h
      · exact Or.inl h
  · -- empty file
    cases ev with
    | launch p n =>
      simp only [St.step]
      split
      · exact Or.inr (Or.inl ⟨i, h⟩)
      · rename_i hp
        refine Or.inr (Or.inl ⟨i, h.dir, h.content, ?_, ?_⟩)
        · intro q ph hph
          rw [phase_launch hp] at hph
          split at hph
          · cases hph; exact Or.inl rfl
          · exact h.phases q ph hph
        · intro a b ha hb
          rw [phase_launch hp] at ha hb
          split at ha
          · cases ha
          · split at hb
            · cases hb
            · exact h.unique a b ha hb
    | other p n =>
      simp only [St.step]
      split
      · exact Or.inr (Or.inl ⟨i, h⟩)
      · rename_i hp
        refine Or.inr (Or.inl ⟨i, h.dir, h.content, ?_, ?_⟩)
        · intro q ph hph
          rw [phase_launch hp] at hph
          split at hph
          · cases hph
          · exact h.phases q ph hph
        · intro a b ha hb
          rw [phase_launch hp] at ha hb
          split at ha
          · cases ha
          · split at hb
            · cases hb
            · exact h.unique a b ha hb
    | exit p =>
      refine Or.inr (Or.inl ⟨i, h.dir, h.content, ?_, ?_⟩)
      · intro q ph hph
        rw [phase_exit] at hph
        split at hph
        · cases hph
        · exact h.phases q ph hph
      · intro a b ha hb
        rw [phase_exit] at ha hb
        split at ha
        · cases ha
        · split at hb
          · cases hb
          · exact h.unique a b ha hb
    | step p f =>
      simp only [St.step]
      split
      · rename_i pr hp
        split
        · rename_i m ph hl
          have hph : s.phase p = some ph := by simp [St.phase, hp, hl]
          rcases h.phases p ph hph with rfl | rfl | rfl | ⟨e, rfl⟩ | rfl
          · simp only [St.call]
            split
            · exact Or.inr (Or.inl ⟨i, h.setRetry _ _⟩)
            · simp only [h.dir]; exact Or.inr (Or.inl ⟨i, h.set (Or.inr (Or.inl rfl))⟩)
          · simp only [St.call]
            split
            · exact Or.inr (Or.inl ⟨i, h.setRetry _ _⟩)
            · simp only [h.content]; exact Or.inr (Or.inl ⟨i, h.setRetry _ _⟩)
          · simp only [St.call]
            split
            · exact Or.inr (Or.inl ⟨i, h.setRetry _ _⟩)
            · simp only [h.dir]; exact Or.inr (Or.inl ⟨i, h.setRetry _ _⟩)
          · exact Or.inr (Or.inl ⟨i, h⟩)
          · simp only [St.call]
            split
            · exact Or.inr (Or.inl ⟨i, h.setRetry _ _⟩)
            · have hil := (List.getElem?_eq_some_iff.1 h.content).1
              refine Or.inr (Or.inr ⟨p, i, ⟨?_, h.dir, ?_, ?_⟩, by rw [phase_set]; simp⟩)
              · exact ⟨{ pr with lair := some (m, .done) }, by simp [St.setPhase], hn p pr hp (by rw [hl]; simp)⟩
              · show (s.inodes.set i (.pid p))[i]? = _
                rw [List.getElem?_set]; simp [hil]
              · intro q ph' hph'
                rw [phase_set] at hph'
                split at hph'
                · rename_i e; cases hph'; exact Or.inr (Or.inr (Or.inr (Or.inr (Or.inr ⟨rfl, e⟩))))
                · rename_i e
                  have hq : s.phase q = some ph' := hph'
                  rcases h.phases q ph' hq with h1 | h1 | h1 | h1 | h1
                  · exact Or.inl h1
                  · exact Or.inr (Or.inl h1)
                  · exact Or.inr (Or.inr (Or.inr (Or.inl h1)))
                  · exact Or.inr (Or.inr (Or.inr (Or.inr (Or.inl h1))))
                  · subst h1; exact absurd (h.unique q p hq hph) e
        · exact Or.inr (Or.inl ⟨i, h⟩)
      · exact Or.inr (Or.inl ⟨i, h⟩)
  · -- settled
    have hne : ev ≠ .exit p := fun e => hx p e hd
    refine Or.inr (Or.inr ⟨p, i, h.step ev hne, ?_⟩)
    have hkeep : ∀ (t : St) (q : Nat) (pr : Proc) (x : Nat × Phase), t.procs = s.procs → q ≠ p → (t.setPhase q pr x).phase p = some .done := by
      intro t q pr x ht hq
      rw [phase_set, if_neg (Ne.symm hq)]
      unfold St.phase; rw [ht]; exact hd
    cases ev with
    | launch q n =>
      simp only [St.step]
      split
      · exact hd
      · rename_i hq
        rw [phase_launch hq, if_neg (by rintro rfl; rw [phase_none hq] at hd; cases hd)]; exact hd
    | other q n =>
      simp only [St.step]
      split
      · exact hd
      · rename_i hq
        rw [phase_launch hq, if_neg (by rintro rfl; rw [phase_none hq] at hd; cases hd)]; exact hd
    | exit q =>
      rw [phase_exit, if_neg (by rintro rfl; exact hne rfl)]; exact hd
    | step q f =>
      simp only [St.step]
      split
      · rename_i pr hq
        split
        · rename_i m ph hl
          by_cases e : q = p
          · subst e
            have : ph = .done := by
              simp [St.phase, hq, hl] at hd; exact hd
            subst this; exact hd
          · cases ph <;> simp only [St.call] <;> (repeat' split) <;> first | exact hd | exact hkeep _ _ _ _ rfl e
        · exact hd
      · exact hd

/-- C42 (for an executable named like the package). If there is no pid file at first, then however many servers start at once and
    however their system calls interleave or fail, and whichever of them die on the way, at most one succeeds - as long as no
    server that succeeded ends. -/
theorem C42_first_start_is_exclusive_partial (s : St) (h0 : s.dir = none) (hp : ∀ q, s.phase q = none) (evs : List Ev)
    (hname : ∀ p n, Ev.launch p n ∈ evs → n = pkgName)
    (hlive : ∀ pre p post, evs = pre ++ .exit p :: post → (s.run pre).phase p ≠ some .done) (q q' : Nat)
    (hq : (s.run evs).phase q = some .done) (hq' : (s.run evs).phase q' = some .done) :
    q = q' ∧ (s.run evs).file = some (.pid q) := by
  have key : ∀ (evs : List Ev) (s : St), Racing s → Named s → (∀ p n, Ev.launch p n ∈ evs → n = pkgName) →
      (∀ pre p post, evs = pre ++ .exit p :: post → (s.run pre).phase p ≠ some .done) → Racing (s.run evs) := by
    intro evs
    induction evs with
    | nil => intro s h _ _ _; exact h
    | cons e es ih =>
      intro s h hn h1 h2
      apply ih (s.step e) (h.step hn e ?_) (hn.step e ?_) ?_ ?_
      · rintro p rfl; exact h2 [] p es rfl
      · rintro p n rfl; exact h1 p n (by simp)
      · intro p n hm; exact h1 p n (by simp [hm])
      · intro pre p post he
        exact h2 (e :: pre) p post (by rw [he]; rfl)
  have hr := key evs s (Or.inl ⟨h0, fun q ph h => by rw [hp q] at h; cases h⟩)
    (fun q pr h1 h2 => by
      have := hp q
      simp only [St.phase, h1, Option.bind_some, Option.map_eq_none_iff] at this
      exact absurd this h2) hname hlive
  have hdone : ∀ a, (s.run evs).phase a = some .done → ∃ p i, Settled (s.run evs) p i ∧ a = p := by
    intro a ha
    rcases hr with h | ⟨i, h⟩ | ⟨p, i, h, -⟩
    · rcases h.phases a _ ha with h | h | ⟨e, h⟩ <;> cases h
    · rcases h.phases a _ ha with h | h | h | ⟨e, h⟩ | h <;> cases h
    · rcases h.others a _ ha with h' | h' | h' | h' | ⟨e, h'⟩ | ⟨-, h'⟩
      · cases h'
      · cases h'
      · cases h'
      · cases h'
      · cases h'
      · exact ⟨p, i, h, h'⟩
  obtain ⟨p, i, h1, rfl⟩ := hdone q hq
  obtain ⟨p', i', h2, rfl⟩ := hdone q' hq'
  have hii : i = i' := by have a := h1.dir; have b := h2.dir; rw [a] at b; exact Option.some.inj b
  subst hii
  have hc := h1.content
  rw [h2.content] at hc
  cases hc
  exact ⟨rfl, by simp [St.file, h1.dir, h1.content]⟩

/-- C42. A server that starts while no other is starting replaces a missing or stale pid file: stale means that the process it
    names is not alive or is not called like the package. -/
theorem C42_stale_file_replaced (s : St) (p : Nat) (name : String) (hp : s.procs p = none)
    (hf : s.file = none ∧ s.dir = none ∨
      ∃ q, s.file = some (.pid q) ∧ q ≠ p ∧ ∀ pr, s.procs q = some pr → pr.name ≠ pkgName) :
    let s' := s.run (.launch p name :: List.replicate 6 (.step p false))
    s'.phase p = some .done ∧ s'.file = some (.pid p) := by
  rcases hf with ⟨-, hd⟩ | ⟨q, hf, hqp, hq⟩
  · simp [List.replicate, St.run, St.step, hp, St.call, hd, St.setPhase, St.phase, St.file]
  · unfold St.file at hf
    cases hd : s.dir with
    | none => rw [hd] at hf; cases hf
    | some i =>
      have hc : s.inodes[i]? = some (.pid q) := by rw [hd] at hf; exact hf
      cases hs : s.procs q with
      | none => simp [List.replicate, St.run, St.step, hp, St.call, hd, St.setPhase, St.phase, St.file, hc, hqp, hs]
      | some pr =>
        have := hq pr hs
        simp [List.replicate, St.run, St.step, hp, St.call, hd, St.setPhase, St.phase, St.file, hc, hqp, hs, this]

/-- No process, no file. -/
def St.fresh : St := ⟨fun _ => none, none, []⟩

/-- C42 does not hold. The name compared is not the name of the executable: a second server starts while the first one runs. -/
theorem C42_shipped_executable_not_recognised (p q : Nat) (h : q ≠ p) (s : St) (hp : s.procs p = none) (hd : s.dir = none)
    (hq : s.procs q = none) :
    let s' := s.run ((.launch p binName :: List.replicate 6 (.step p false)) ++ (.launch q binName :: List.replicate 6 (.step q false)))
    s'.phase p = some .done ∧ s'.phase q = some .done := by
  simp [List.replicate, St.run, St.step, hp, hq, St.call, hd, St.setPhase, St.phase, h, Ne.symm h, binName, pkgName]

/-- C42 does not hold, whatever the executable is called: two servers that find the same stale file both succeed. -/
theorem C42_race_on_stale_file (s : St) (i r p q : Nat) (name : String) (hpq : p ≠ q) (hp : s.procs p = none) (hq : s.procs q = none)
    (hr : s.procs r = none) (hrp : r ≠ p) (hrq : r ≠ q) (hd : s.dir = some i) (hc : s.inodes[i]? = some (.pid r)) :
    let s' := s.run [.launch p name, .launch q name, .step p false, .step p false, .step p false, .step q false, .step q false,
      .step q false, .step p false, .step p false, .step p false, .step q false, .step q false, .step q false]
    s'.phase p = some .done ∧ s'.phase q = some .done := by
  simp [St.run, St.step, hp, hq, hr, St.call, hd, hc, St.setPhase, St.phase, hpq, Ne.symm hpq, hrp, hrq]

/-- C42 does not hold: a server that dies between creating and writing the pid file leaves an empty one, and then no later start
    succeeds, however many times it is tried, until somebody removes the file. -/
theorem C42_crash_blocks_later_starts (s : St) (i : Nat) (h : EmptyFile s i) (hw : ∀ q, s.phase q ≠ some (.write i)) (evs : List Ev) :
    (s.run evs).file = some .empty ∧ ∀ q, (s.run evs).phase q ≠ some .done := by
  have key : ∀ (evs : List Ev) (s : St), EmptyFile s i → (∀ q, s.phase q ≠ some (.write i)) →
      EmptyFile (s.run evs) i := by
    intro evs
    induction evs with
    | nil => intro s h _; exact h
    | cons e es ih =>
      intro s h hw
      have hph : ∀ q ph, s.phase q = some ph → ph = .open ∨ ph = .read i ∨ ph = .create ∨ ∃ e, ph = .failed e := by
        intro q ph hq
        rcases h.phases q ph hq with h1 | h1 | h1 | h1 | h1
        · exact Or.inl h1
        · exact Or.inr (Or.inl h1)
        · exact Or.inr (Or.inr (Or.inl h1))
        · exact Or.inr (Or.inr (Or.inr h1))
        · subst h1; exact absurd hq (hw q)
      have build : ∀ t : St, t.dir = s.dir → t.inodes = s.inodes →
          (∀ q ph, t.phase q = some ph → ph = .open ∨ ph = .read i ∨ ph = .create ∨ ∃ e, ph = .failed e) →
          EmptyFile (t.run es) i := by
        intro t h1 h2 h3
        have hno : ∀ q, t.phase q ≠ some (.write i) := by
          intro q hq; rcases h3 q _ hq with h | h | h | ⟨e, h⟩ <;> cases h
        refine ih t ⟨h1.trans h.dir, by rw [h2]; exact h.content, ?_, fun a b ha => absurd ha (hno a)⟩ hno
        intro q ph hq
        rcases h3 q ph hq with h | h | h | h
        · exact Or.inl h
        · exact Or.inr (Or.inl h)
        · exact Or.inr (Or.inr (Or.inl h))
        · exact Or.inr (Or.inr (Or.inr (Or.inl h)))
      have setp : ∀ (p : Nat) (pr : Proc) (x : Nat × Phase), (x.2 = .open ∨ x.2 = .read i ∨ x.2 = .create ∨ ∃ e, x.2 = .failed e) →
          EmptyFile ((s.setPhase p pr x).run es) i := by
        intro p pr x hx
        refine build _ (by rfl) (by rfl) ?_
        intro q ph hq
        rw [phase_set] at hq
        split at hq
        · cases hq; exact hx
        · exact hph q ph hq
      have setr : ∀ (p : Nat) (pr : Proc) n er, EmptyFile ((s.setPhase p pr (retry n er)).run es) i := by
        intro p pr n er
        apply setp
        rcases retry_phase n er with h | h
        · exact Or.inl h
        · exact Or.inr (Or.inr (Or.inr ⟨er, h⟩))
      show EmptyFile ((s.step e).run es) i
      cases e with
      | launch p n =>
        simp only [St.step]
        split
        · exact ih s h hw
        · rename_i hp
          refine build _ (by rfl) (by rfl) ?_
          intro q ph hq
          rw [phase_launch hp] at hq
          split at hq
          · cases hq; exact Or.inl rfl
          · exact hph q ph hq
      | other p n =>
        simp only [St.step]
        split
        · exact ih s h hw
        · rename_i hp
          refine build _ (by rfl) (by rfl) ?_
          intro q ph hq
          rw [phase_launch hp] at hq
          split at hq
          · cases hq
          · exact hph q ph hq
      | exit p =>
        refine build _ (by rfl) (by rfl) ?_
        intro q ph hq
        rw [phase_exit] at hq
        split at hq
        · cases hq
        · exact hph q ph hq
      | step p f =>
        simp only [St.step]
        split
        · rename_i pr hp
          split
          · rename_i m ph hl
            rcases hph p ph (by simp [St.phase, hp, hl]) with rfl | rfl | rfl | ⟨e, rfl⟩
            · simp only [St.call]
              split
              · exact setr _ _ _ _
              · simp only [h.dir]; exact setp _ _ _ (Or.inr (Or.inl rfl))
            · simp only [St.call]
              split
              · exact setr _ _ _ _
              · simp only [h.content]; exact setr _ _ _ _
            · simp only [St.call]
              split
              · exact setr _ _ _ _
              · simp only [h.dir]; exact setr _ _ _ _
            · exact ih s h hw
          · exact ih s h hw
        · exact ih s h hw
  have hr := key evs s h hw
  refine ⟨by simp [St.file, hr.dir, hr.content], ?_⟩
  intro q hq
  rcases hr.phases q _ hq with h | h | h | ⟨e, h⟩ | h <;> cases h

/-- The crash of the theorem above is reachable: a first start that dies right after creating the file. -/
theorem C42_crash_reachable : let s := St.fresh.run [.launch 1 pkgName, .step 1 false, .step 1 false, .exit 1]
    EmptyFile s 0 ∧ ∀ q, s.phase q ≠ some (.write 0) := by
  have hph : ∀ q, (St.fresh.run [.launch 1 pkgName, .step 1 false, .step 1 false, .exit 1]).phase q = none := by
    intro q
    by_cases h : q = 1 <;> simp [St.fresh, St.run, St.step, St.call, St.setPhase, St.phase, h]
  refine ⟨⟨rfl, rfl, ?_, ?_⟩, ?_⟩
  · intro q ph h; rw [hph q] at h; cases h
  · intro a b h; rw [hph a] at h; cases h
  · intro q h; rw [hph q] at h; cases h

/-- C42 does not hold, for an executable named like the package: a stale file that happens to name the process that is starting (the
    same process number again, as in a restarted container) makes it refuse itself. -/
theorem C42_own_number_refused (s : St) (i p : Nat) (hp : s.procs p = none) (hd : s.dir = some i) (hc : s.inodes[i]? = some (.pid p)) :
    (s.run (.launch p pkgName :: List.replicate 9 (.step p false))).phase p = some (.failed "ProcessAlreadyExists") := by
  simp [List.replicate, St.run, St.step, hp, St.call, hd, hc, St.setPhase, St.phase, retry]

/-- The hypotheses of `C42_running_server_is_respected_partial` are met: after a lone first start - and a second start is refused. -/
example : let s := St.fresh.run (.launch 7 pkgName :: List.replicate 6 (.step 7 false));
    s.procs 7 = some ⟨pkgName, some (0, .done)⟩ ∧ s.file = some (.pid 7) ∧
    (s.run (.launch 8 pkgName :: List.replicate 9 (.step 8 false))).phase 8 = some (.failed "ProcessAlreadyExists") := by
  decide +kernel

example : ∀ q ph, q ≠ 7 → (St.fresh.run (.launch 7 pkgName :: List.replicate 6 (.step 7 false))).phase q = some ph → ph = .open ∨ ∃ e, ph = .failed e := by
  intro q ph hq h
  simp [St.fresh, List.replicate, St.run, St.step, St.call, St.setPhase, St.phase, hq] at h

/-- The hypotheses of `C42_first_start_is_exclusive_partial` are met by two racing starts, one of which succeeds. -/
example : let evs : List Ev := [.launch 1 pkgName, .launch 2 pkgName, .step 1 false, .step 2 false, .step 2 false, .step 1 false, .step 2 false,
      .step 1 false, .step 1 false, .step 1 false];
    (St.fresh.run evs).phase 2 = some .done ∧ (St.fresh.run evs).phase 1 = some .open := by
  decide +kernel

end Lair.Pid
