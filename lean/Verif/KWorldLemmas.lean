import Verif.KWorld
import Verif.Props.Life
import Verif.MWorldRun

/- The life of a keystore as a world of servers on one file: event by event (`KWorld.asMs`). -/
namespace Lair

section
variable {S : SStream} {E : Env} {st : E.S.σ}

theorem modify_length {α : Type} (l : List α) (f : α → α) : l.modify l.length f = l := by
  apply List.ext_getElem?
  intro i
  rw [List.getElem?_modify]
  cases h : l[i]? with
  | none => simp
  | some x =>
    have := (List.getElem?_eq_some_iff.mp h).1
    have h2 : l.length ≠ i := by omega
    simp [h2]

theorem m_idle (m : MWorld E S) (n : Nat) (hn : n = m.conns.length) (e : NEv) : m.step (.net n e) = m := by
  subst hn
  simp only [MWorld.step, modify_length]

theorem life_at {cfg : Config} {key : B 32} {fs0 : Migr.Fs E.S.σ} {s : Life E} {mevs : List MEvent} (h : LifeInv key st fs0 s mevs)
    {j : Nat} {l : LSys E} (hl : s.procs[j]? = some l) (ev : LEvent) : LifeInv key st fs0 (s.step cfg (.at j ev)) (mevs ++ [.at j ev]) := by
  simp only [Life.step, hl]
  have hl' : (Multi.run E st mevs).procs[j]? = some l := by rw [← h.procs]; exact hl
  have hmain : s.fs.main = some (.enc key (some (Multi.run E st mevs).store)) := by
    rcases h.file with h1 | ⟨rfl, _⟩
    · exact h1
    · simp [Multi.run] at hl'
  refine ⟨?_, h.opening, Or.inl ?_⟩
  · rw [mrun_snoc]; simp only [Multi.step, hl', h.procs]
  · rw [mrun_snoc]; simp only [Multi.step, hl', hmain]

/-- Files and processes, seen as servers on one file. Proof device: nothing in the code corresponds. -/
structure KInv (key : B 32) (st : E.S.σ) (fs0 : Migr.Fs E.S.σ) (w : KWorld E S) (m : MWorld E S) : Prop where
  life : LifeInv key st fs0 w.life m.mevs
  conns : w.conns = m.conns
  world : MWorldInv st m

theorem KInv.procs {key : B 32} {fs0 : Migr.Fs E.S.σ} {w : KWorld E S} {m : MWorld E S} (h : KInv key st fs0 w m) : w.life.procs = m.multi.procs := by
  rw [h.life.procs, h.world.run]

theorem KInv.up {key : B 32} {fs0 : Migr.Fs E.S.σ} {w : KWorld E S} {m : MWorld E S} (_ : KInv key st fs0 w m) {j : Nat} (hj : w.isUp j = true) :
    ∃ l, w.life.procs[j]? = some l := by
  simp only [KWorld.isUp, Bool.and_eq_true, decide_eq_true_eq] at hj
  exact ⟨_, List.getElem?_eq_getElem hj.1⟩

/-- A start, or a step of opening. -/
theorem KInv.boot {key : B 32} {fs0 : Migr.Fs E.S.σ} {w : KWorld E S} {m : MWorld E S} (h : KInv key st fs0 w m) {life' : Life E}
    (hl : LifeInv key st fs0 life' m.mevs ∨ LifeInv key st fs0 life' (m.mevs ++ [.start])) :
    KInv key st fs0 { w with life := life' } (m.step (if life'.procs.length = w.life.procs.length then .net w.conns.length .shutdown else .start)) := by
  rcases hl with hl | hl
  · rw [if_pos (by rw [hl.procs, h.life.procs]), m_idle _ _ (by rw [h.conns])]
    exact ⟨hl, h.conns, h.world⟩
  · rw [if_neg (by rw [hl.procs, h.life.procs, mrun_snoc]; simp [Multi.step])]
    exact ⟨hl, h.conns, h.world.step _⟩

theorem KInv.step {cfg : Config} {key : B 32} {fs0 : Migr.Fs E.S.σ} {w : KWorld E S} {m : MWorld E S} (h : KInv key st fs0 w m)
    {keys : SrvKeys} (hone : OneSecret E.C cfg keys) (hkey : (storeKeys E.C keys.contextKey).dbk = key) (ev : KEv S)
    (hcut : fs0.isPlain → ∀ pass n, ev ≠ .start pass true (some n)) : KInv key st fs0 (w.step cfg ev) (m.step (w.asM cfg ev)) := by
  have idle : ∀ (b : Bool) (w' : KWorld E S) (e : MWEv S), (b = true → KInv key st fs0 w' (m.step e)) →
      KInv key st fs0 (if b then w' else w) (m.step (if b then e else .net w.conns.length .shutdown)) := by
    intro b w' e h1
    cases b with
    | true => exact h1 rfl
    | false =>
      simp only [Bool.false_eq_true, if_false]
      rw [m_idle _ _ (by rw [h.conns])]
      exact h
  have hw := fun e => h.world.step e
  cases ev with
  | start pass migrate cut =>
    refine h.boot (life' := w.life.step cfg (.start pass migrate cut)) ?_
    simp only [Life.step]
    cases hu : cfg.unlock E.C pass with
    | none => exact Or.inl h.life
    | some k =>
      cases hone pass k hu
      have hc : w.life.fs.isPlain → migrate = true → cut = none := by
        rintro ⟨x, hx⟩ rfl
        have : fs0.isPlain := by
          rcases h.life.file with h1 | ⟨_, ⟨_, h1 | h1⟩ | ⟨_, h1⟩⟩
          · rw [h1] at hx; cases hx
          · rw [h1] at hx; cases hx
          · rw [h1] at hx; cases hx
          · exact h1
        cases cut with
        | none => rfl
        | some n => exact absurd rfl (hcut this pass n)
      rcases open_cases h.life hkey migrate cut hc with ⟨h1, _⟩ | ⟨_, h1, _⟩
      · exact Or.inl h1
      · exact Or.inr h1
  | «begin» pass =>
    simp only [KWorld.asM]
    rw [m_idle _ _ (by rw [h.conns])]
    refine ⟨?_, h.conns, h.world⟩
    obtain ⟨more, h1⟩ := life_step h.life hone hkey (.begin pass) (by simp)
    simp only [KWorld.step, KWorld.lifeStep, Life.step] at h1 ⊢
    cases hu : cfg.unlock E.C pass with
    | none => exact h.life
    | some k =>
      rw [hu] at h1
      exact ⟨h.life.procs, h1.opening, h.life.file⟩
  | advance i =>
    refine h.boot (life' := w.life.step cfg (.advance i)) ?_
    simp only [Life.step]
    cases hi : w.life.opening[i]? with
    | none => exact Or.inl h.life
    | some k =>
      obtain rfl := h.life.opening k (List.mem_of_getElem? hi)
      rcases advance_cases h.life i with h1 | ⟨h1, -⟩ | ⟨h1, -⟩
      · exact Or.inl h1.1
      · exact Or.inl h1
      · exact Or.inr h1
  | ends j =>
    refine idle _ _ _ fun hj => ?_
    obtain ⟨l, hl⟩ := h.up hj
    exact ⟨life_at (cfg := cfg) h.life hl _, by simp only [MWorld.step, MWorld.multiStep, h.conns], hw _⟩
  | connect j u d =>
    refine idle _ _ _ fun hj => ?_
    obtain ⟨l, hl⟩ := h.up hj
    have hlt : j < m.multi.procs.length := by rw [← h.procs]; exact (List.getElem?_eq_some_iff.mp hl).1
    refine ⟨?_, ?_, hw _⟩ <;> simp only [MWorld.step, if_pos hlt]
    · exact h.life
    · rw [h.conns]
  | net c e => exact ⟨h.life, by simp only [KWorld.step, KWorld.asM, MWorld.step, h.conns], hw _⟩
  | serve c =>
    have hm := hw (.serve c)
    simp only [KWorld.asM] at hm ⊢
    refine ⟨?_, ?_, hm⟩
    · simp only [KWorld.step, MWorld.step, h.conns]
      cases hc : m.conns[c]? with
      | none => exact h.life
      | some p =>
        obtain ⟨j, x⟩ := p
        obtain ⟨l, hl, -⟩ := h.world.conns c j x hc
        simp only
        split
        · exact h.life
        · cases x.up.rcv.poll.1 with
          | item m' => exact life_at (cfg := cfg) h.life (by rw [h.procs]; exact hl) _
          | _ => exact h.life
    · simp only [KWorld.step, MWorld.step, h.conns]
      cases hc : m.conns[c]? with
      | none => exact h.conns
      | some p =>
        obtain ⟨j, x⟩ := p
        simp only
        split
        · exact h.conns
        · cases x.up.rcv.poll.1 <;> rfl
  | act j i ch =>
    refine idle _ _ _ fun hj => ?_
    obtain ⟨l, hl⟩ := h.up hj
    have hpr := h.procs
    refine ⟨?_, ?_, hw _⟩
    · have h1 := life_at (cfg := cfg) h.life hl (.srv (.step i ch))
      simp only [MWorld.step, ← hpr]
      cases w.life.procs[j]?.bind (fun l => l.sys.threads[i]?) with
      | none => exact h1
      | some t =>
        simp only
        cases outcomeOf t.prog with
        | none => exact h1
        | some o => exact h1
    · simp only [MWorld.step, ← hpr]
      cases w.life.procs[j]?.bind (fun l => l.sys.threads[i]?) with
      | none => exact h.conns
      | some t =>
        simp only
        cases outcomeOf t.prog with
        | none => exact h.conns
        | some o => simp only [h.conns]
  | call j x ch =>
    refine idle _ _ _ fun hj => ?_
    obtain ⟨l, hl⟩ := h.up hj
    exact ⟨life_at (cfg := cfg) h.life hl _, h.conns, hw _⟩

/-- Some start with migration is cut off. Specification: nothing in the code corresponds. -/
def CutOff (evs : List (KEv S)) : Prop := ∃ pass n, KEv.start pass true (some n) ∈ evs

theorem kinv_foldl {cfg : Config} {key : B 32} {fs0 : Migr.Fs E.S.σ} {keys : SrvKeys} (hone : OneSecret E.C cfg keys)
    (hkey : (storeKeys E.C keys.contextKey).dbk = key) (evs : List (KEv S)) : ∀ {w : KWorld E S} {m : MWorld E S}, KInv key st fs0 w m →
    (fs0.isPlain → ¬ CutOff evs) → KInv key st fs0 (evs.foldl (KWorld.step cfg) w) ((w.asMs cfg evs).foldl MWorld.step m) := by
  induction evs with
  | nil => intro w m h _; exact h
  | cons ev evs ih =>
    intro w m h hcut
    exact ih (h.step hone hkey ev (fun hp pass n he => hcut hp ⟨pass, n, by rw [he]; simp⟩))
      (fun hp ⟨pass, n, he⟩ => hcut hp ⟨pass, n, List.mem_cons_of_mem _ he⟩)

theorem asMs_take (cfg : Config) (evs : List (KEv S)) : ∀ (w : KWorld E S) (n : Nat), (w.asMs cfg evs).take n = w.asMs cfg (evs.take n) := by
  induction evs with
  | nil => intro w n; simp [KWorld.asMs]
  | cons e es ih =>
    intro w n
    cases n with
    | zero => simp [KWorld.asMs]
    | succ n => simp only [KWorld.asMs, List.take_succ_cons, ih]

theorem asMs_get (cfg : Config) (evs : List (KEv S)) : ∀ (w : KWorld E S) (n : Nat), (w.asMs cfg evs)[n]? =
    evs[n]?.map (fun e => KWorld.asM cfg ((evs.take n).foldl (KWorld.step cfg) w) e) := by
  induction evs with
  | nil => intro w n; simp [KWorld.asMs]
  | cons e es ih =>
    intro w n
    cases n with
    | zero => simp [KWorld.asMs]
    | succ n => simp only [KWorld.asMs, List.getElem?_cons_succ, ih, List.take_succ_cons, List.foldl_cons]

end
end Lair
