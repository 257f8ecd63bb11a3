import Verif.MigrRace

/- Proof devices for Props/MigrRace.lean. -/
namespace Lair.MigrRace

variable {α : Type}

theorem goto_procs (s : St α) (p : Nat) (ph : Phase) (k : Nat) :
    (s.goto p ph).procs[k]? = if k = p then (s.procs[k]?).map (fun q => { q with phase := ph }) else s.procs[k]? := by
  simp only [St.goto, List.getElem?_modify]
  by_cases h : p = k
  · subst h; simp
  · have h' : ¬ k = p := fun e => h e.symm
    simp [h, h']

@[simp] theorem goto_files (s : St α) (p : Nat) (ph : Phase) : (s.goto p ph).files = s.files := rfl
@[simp] theorem goto_main (s : St α) (p : Nat) (ph : Phase) : (s.goto p ph).main = s.main := rfl
@[simp] theorem goto_tmp (s : St α) (p : Nat) (ph : Phase) : (s.goto p ph).tmp = s.tmp := rfl
@[simp] theorem goto_acked (s : St α) (p : Nat) (ph : Phase) : (s.goto p ph).acked = s.acked := rfl
@[simp] theorem goto_file (s : St α) (p : Nat) (ph : Phase) (i : Nat) : (s.goto p ph).file i = s.file i := rfl

theorem run_append (s : St α) (a b : List (Evt α)) : s.run (a ++ b) = (s.run a).run b := by
  simp [St.run, List.foldl_append]

theorem file_set (s : St α) (i k : Nat) (d : Db α) (hi : i < s.files.length) :
    ({ s with files := s.files.set i d } : St α).file k = if k = i then d else s.file k := by
  simp only [St.file, List.getElem?_set]
  by_cases h : i = k
  · subst h; simp [hi]
  · have h' : ¬ k = i := fun e => h e.symm
    simp [h, h']

theorem file_append (s : St α) (k : Nat) (d : Db α) (hk : k < s.files.length) :
    (s.files ++ [d])[k]? = s.files[k]? := List.getElem?_append_left hk

/-- A process that is not about to migrate. Specification: nothing in the code corresponds. -/
def Phase.calm : Phase → Bool
  | .fresh => true
  | .renamed => true
  | .opened _ => true
  | .up _ => true
  | .over => true
  | _ => false

/-- The migration is over: the store file is encrypted, and nobody is about to migrate.
    Specification: nothing in the code corresponds. -/
structure Done (P : α → Prop) (rows : List α) (s : St α) : Prop where
  ex : ∃ i l, s.main = some i ∧ i < s.files.length ∧ s.file i = .enc l ∧ rows <+: l ∧ ∀ a ∈ l, P a
  calm : ∀ (p : Nat) (q : Proc), s.procs[p]? = some q → q.phase.calm = true

theorem Done.goto {P : α → Prop} {rows : List α} {s : St α} (h : Done P rows s) (p : Nat) {ph : Phase} (hp : ph.calm = true) :
    Done P rows (s.goto p ph) := by
  refine ⟨h.ex, fun k q hq => ?_⟩
  rw [goto_procs] at hq
  split at hq
  · cases hk : s.procs[k]? with
    | none => simp [hk] at hq
    | some r => simp [hk] at hq; subst hq; exact hp
  · exact h.calm k q hq

theorem Done.setFile {P : α → Prop} {rows : List α} {s : St α} (h : Done P rows s) (i : Nat) (d : Db α)
    (hd : ∀ l, s.file i = .enc l → ∃ m, d = .enc (l ++ m) ∧ ∀ a ∈ m, P a) : Done P rows { s with files := s.files.set i d } := by
  obtain ⟨k, l, h1, h2, h3, h4, h5⟩ := h.ex
  refine ⟨?_, h.calm⟩
  by_cases hi : i < s.files.length
  · by_cases hk : k = i
    · subst hk
      obtain ⟨m, hm, hp⟩ := hd l h3
      exact ⟨k, l ++ m, h1, by simpa using h2, by rw [file_set s k k d hi]; simp [hm], h4.trans (List.prefix_append _ _),
        fun a ha => by rcases List.mem_append.1 ha with ha | ha; exact h5 a ha; exact hp a ha⟩
    · exact ⟨k, l, h1, by simpa using h2, by rw [file_set s i k d hi]; simp [hk, h3], h4, h5⟩
  · rw [List.set_eq_of_length_le (by omega)]
    exact ⟨k, l, h1, h2, h3, h4, h5⟩

theorem Done.connect {P : α → Prop} {rows : List α} {s : St α} (h : Done P rows s) (p : Nat) (ph : Phase) : Done P rows (s.connect p ph) := by
  obtain ⟨i, l, h1, h2, h3, h4, h5⟩ := h.ex
  simp only [St.connect, St.openMain, h1, h3]
  exact h.goto p rfl

theorem Done.next {P : α → Prop} {rows : List α} {s : St α} (h : Done P rows s) (ev : Evt α) (hev : ∀ p a, ev = .insert p a → P a) :
    Done P rows (s.next ev) := by
  cases ev with
  | launch allow =>
    refine ⟨h.ex, fun k q hq => ?_⟩
    simp only [St.next] at hq
    rw [List.getElem?_append] at hq
    split at hq
    · exact h.calm k q hq
    · have : q = ⟨allow, .fresh⟩ := by
        have := List.mem_of_getElem? hq; simpa using this
      subst this; rfl
  | stop p => exact h.goto p rfl
  | step p =>
    simp only [St.next]
    split
    · rename_i q hq
      have hc := h.calm p q hq
      rcases q with ⟨al, ph⟩
      cases ph <;> simp only [Phase.calm, Bool.false_eq_true] at hc <;> simp only [St.advance]
      · exact h.connect p _
      · exact h.connect p _
      · rename_i i
        split
        · rename_i hb
          exact (h.setFile i (.enc []) (fun l hl => by rw [hb] at hl; cases hl)).goto p rfl
        · exact h.goto p rfl
        · exact h.goto p rfl
      · exact h
      · exact h
    · exact h
  | insert p a =>
    simp only [St.next]
    split
    · rename_i i hq
      split
      · rename_i l hl
        have := h.setFile i (.enc (l ++ [a])) (fun l' hl' => by
          rw [hl] at hl'; cases hl'
          exact ⟨[a], rfl, fun b hb => by simp at hb; subst hb; exact hev p b rfl⟩)
        exact ⟨this.ex, this.calm⟩
      · exact h
    · exact h

theorem Done.run {P : α → Prop} {rows : List α} : ∀ (evs : List (Evt α)) {s : St α}, Done P rows s → (∀ p a, Evt.insert p a ∈ evs → P a) →
    Done P rows (s.run evs)
  | [], _, h, _ => h
  | ev :: evs, s, h, hev => by
    simp only [St.run, List.foldl_cons]
    exact Done.run evs (h.next ev (fun p a e => hev p a (by simp [e]))) (fun p a hm => hev p a (by simp [hm]))

theorem Done.stored {P : α → Prop} {rows : List α} {s : St α} (h : Done P rows s) : rows <+: s.stored ∧ ∀ a ∈ s.stored, P a := by
  obtain ⟨i, l, h1, _, h3, h4, h5⟩ := h.ex
  simp only [St.stored, h1, h3]
  exact ⟨h4, h5⟩

end Lair.MigrRace

namespace Lair.MigrRace

variable {α : Type}

/-- At most one process is at it. Proof device: nothing in the code corresponds. -/
def AtMostOne (s : St α) : Prop :=
  ∀ (p p' : Nat) (q q' : Proc), s.procs[p]? = some q → s.procs[p']? = some q' → q.migrating = true → q'.migrating = true → p = p'

/-- Before the export: where a process may be. Proof device: nothing in the code corresponds. -/
def earlyAt (tmp : Option Nat) (q : Proc) : Prop :=
  q.phase = .fresh ∨ q.phase = .over ∨ (q.allow = true ∧
    (q.phase = .toMigrate ∨ q.phase = .vacuumed 0 ∨ q.phase = .locked 0 ∨ ∃ j, q.phase = .attached 0 j ∧ tmp = some j))

/-- The four stages of a migration by one process at a time. Proof device: nothing in the code corresponds. -/
inductive Stage (rows : List α) (s : St α) : Prop where
  | before (h1 : s.main = some 0) (h2 : s.files[0]? = some (.plain rows))
      (h3 : ∀ j, s.tmp = some j → s.files[j]? = some .blank)
      (h4 : ∀ (p : Nat) (q : Proc), s.procs[p]? = some q → earlyAt s.tmp q)
  | exported (j : Nat) (l : List α) (h1 : s.main = some 0) (h2 : s.files[0]? = some (.plain rows)) (h3 : s.tmp = some j)
      (h4 : s.files[j]? = some (.enc l)) (h5 : rows <+: l)
      (h6 : ∀ (p : Nat) (q : Proc), s.procs[p]? = some q → q.phase = .fresh ∧ q.allow = false ∨ q.phase = .over ∨ (q.phase = .exported ∧ q.allow = true))
      (h7 : ∃ (p : Nat) (q : Proc), s.procs[p]? = some q ∧ q.phase = .exported)
  | removed (j : Nat) (l : List α) (h3 : s.tmp = some j)
      (h4 : s.files[j]? = some (.enc l)) (h5 : rows <+: l) (h0 : ∀ i, s.main = some i → ∃ d, s.files[i]? = some d ∧ ∀ r, d ≠ .plain r)
      (h6 : ∀ (p : Nat) (q : Proc), s.procs[p]? = some q → (q.phase.calm = true ∧ q.migrating = false) ∨ (q.phase = .removed ∧ q.allow = true))
      (h7 : ∃ (p : Nat) (q : Proc), s.procs[p]? = some q ∧ q.phase = .removed)
  | over (h : Done (fun _ => True) rows s)


theorem openMain_procs (s : St α) : s.openMain.1.procs = s.procs := by unfold St.openMain; split <;> rfl
theorem openTmp_procs (s : St α) : s.openTmp.1.procs = s.procs := by unfold St.openTmp; split <;> rfl

theorem goto_procs_congr {s s' : St α} (h : s.procs = s'.procs) (p : Nat) (ph : Phase) : (s.goto p ph).procs = (s'.goto p ph).procs := by
  simp [St.goto, h]

theorem connect_procs (s : St α) (p : Nat) (ph : Phase) : ∃ ph', (s.connect p ph).procs = (s.goto p ph').procs := by
  unfold St.connect
  simp only
  split
  · exact ⟨ph, goto_procs_congr (openMain_procs s) p ph⟩
  · exact ⟨_, goto_procs_congr (openMain_procs s) p _⟩

theorem advance_procs (s : St α) (p : Nat) (q : Proc) :
    (s.advance p q).procs = s.procs ∨ ((∃ ph, (s.advance p q).procs = (s.goto p ph).procs) ∧ q.phase ≠ .over ∧ ∀ i, q.phase ≠ .up i) := by
  rcases q with ⟨al, ph⟩
  cases ph <;> simp only [St.advance]
  case fresh => exact Or.inr ⟨connect_procs s p _, by simp, by simp⟩
  case toMigrate =>
    refine Or.inr ⟨?_, by simp, by simp⟩
    split <;> exact ⟨_, goto_procs_congr (openMain_procs s) p _⟩
  case vacuumed i =>
    split
    · exact Or.inr ⟨⟨_, rfl⟩, by simp, by simp⟩
    · split
      · exact Or.inl rfl
      · exact Or.inr ⟨⟨_, rfl⟩, by simp, by simp⟩
  case locked i =>
    refine Or.inr ⟨?_, by simp, by simp⟩
    split <;> exact ⟨_, goto_procs_congr (openTmp_procs s) p _⟩
  case attached i j => refine Or.inr ⟨?_, by simp, by simp⟩; split <;> exact ⟨_, rfl⟩
  case exported => refine Or.inr ⟨?_, by simp, by simp⟩; split <;> exact ⟨_, rfl⟩
  case removed => refine Or.inr ⟨?_, by simp, by simp⟩; split <;> exact ⟨_, rfl⟩
  case renamed => exact Or.inr ⟨connect_procs s p _, by simp, by simp⟩
  case opened i => refine Or.inr ⟨?_, by simp, by simp⟩; split <;> exact ⟨_, rfl⟩
  case up => simp
  case over => simp

theorem getElem?_launch {l : List Proc} {x q : Proc} {k : Nat} (h : (l ++ [x])[k]? = some q) : l[k]? = some q ∨ (k = l.length ∧ q = x) := by
  rw [List.getElem?_append] at h
  split at h
  · exact Or.inl h
  · rename_i hk
    have hm := List.mem_of_getElem? h
    have : k - l.length < [x].length := by
      rcases Nat.lt_or_ge (k - l.length) [x].length with h' | h'
      · exact h'
      · rw [List.getElem?_eq_none h'] at h; cases h
    simp at this hm
    exact Or.inr ⟨by omega, hm⟩

theorem AtMostOne.next {s : St α} (h : AtMostOne s) (ev : Evt α) (hev : ev = .launch true → ∀ q ∈ s.procs, q.migrating = false) : AtMostOne (s.next ev) := by
  -- a migrating process afterwards was migrating before
  have back : ∀ p ph q0, s.procs[p]? = some q0 → q0.phase ≠ .over → (∀ i, q0.phase ≠ .up i) →
      ∀ (k : Nat) (q : Proc), (s.goto p ph).procs[k]? = some q → q.migrating = true → ∃ q', s.procs[k]? = some q' ∧ q'.migrating = true := by
    intro p ph q0 h0 hno hnu k q hk hm
    rw [goto_procs] at hk
    split at hk
    · rename_i e; subst e
      rw [h0] at hk
      simp at hk
      subst hk
      refine ⟨q0, h0, ?_⟩
      simp only [Proc.migrating, Bool.and_eq_true] at hm ⊢
      refine ⟨hm.1, ?_⟩
      rcases q0 with ⟨al, ph0⟩
      cases ph0 <;> simp_all
    · exact ⟨q, hk, hm⟩
  cases ev with
  | launch allow =>
    intro p p' q q' hp hp' hm hm'
    simp only [St.next] at hp hp'
    rcases getElem?_launch hp with h1 | ⟨h1, h1'⟩ <;> rcases getElem?_launch hp' with h2 | ⟨h2, h2'⟩
    · exact h p p' q q' h1 h2 hm hm'
    · subst h2'
      cases allow with
      | false => simp [Proc.migrating] at hm'
      | true => rw [hev rfl q (List.mem_of_getElem? h1)] at hm; cases hm
    · subst h1'
      cases allow with
      | false => simp [Proc.migrating] at hm
      | true => rw [hev rfl q' (List.mem_of_getElem? h2)] at hm'; cases hm'
    · omega
  | stop p =>
    intro k k' q q' hk hk' hm hm'
    simp only [St.next] at hk hk'
    rw [goto_procs] at hk hk'
    have sub : ∀ (k : Nat) (q : Proc), (if k = p then (s.procs[k]?).map (fun q => { q with phase := .over }) else s.procs[k]?) = some q → q.migrating = true →
        s.procs[k]? = some q := by
      intro k q hk hm
      split at hk
      · cases hq : s.procs[k]? with
        | none => rw [hq] at hk; cases hk
        | some r => rw [hq] at hk; simp at hk; subst hk; simp [Proc.migrating] at hm
      · exact hk
    exact h k k' q q' (sub k q hk hm) (sub k' q' hk' hm') hm hm'
  | step p =>
    simp only [St.next]
    split
    · rename_i q0 h0
      intro k k' q q' hk hk' hm hm'
      rcases advance_procs s p q0 with he | ⟨⟨ph, he⟩, hno, hnu⟩
      · rw [he] at hk hk'; exact h k k' q q' hk hk' hm hm'
      · rw [he] at hk hk'
        obtain ⟨r, hr, hrm⟩ := back p ph q0 h0 hno hnu k q hk hm
        obtain ⟨r', hr', hrm'⟩ := back p ph q0 h0 hno hnu k' q' hk' hm'
        exact h k k' r r' hr hr' hrm hrm'
    · exact h
  | insert p a =>
    have : (s.next (.insert p a)).procs = s.procs := by
      simp only [St.next]
      split
      · split <;> rfl
      · rfl
    intro k k' q q' hk hk' hm hm'
    rw [this] at hk hk'
    exact h k k' q q' hk hk' hm hm'


/-- Pointwise reasoning about the processes after one of them has moved. -/
theorem goto_all {s : St α} {p : Nat} {ph : Phase} {R : Nat → Proc → Prop}
    (hp : ∀ q, s.procs[p]? = some q → R p { q with phase := ph }) (ho : ∀ (k : Nat) (q : Proc), k ≠ p → s.procs[k]? = some q → R k q) :
    ∀ (k : Nat) (q : Proc), (s.goto p ph).procs[k]? = some q → R k q := by
  intro k q hk
  rw [goto_procs] at hk
  split at hk
  · rename_i e; subst e
    cases hq : s.procs[k]? with
    | none => rw [hq] at hk; cases hk
    | some r => rw [hq] at hk; simp at hk; subst hk; exact hp r hq
  · rename_i e; exact ho k q e hk

theorem goto_other {s : St α} {p k : Nat} {q : Proc} (ph : Phase) (h : s.procs[k]? = some q) (hne : k ≠ p) : (s.goto p ph).procs[k]? = some q := by
  rw [goto_procs, if_neg hne]; exact h

theorem goto_self {s : St α} {p : Nat} {q : Proc} (ph : Phase) (h : s.procs[p]? = some q) :
    (s.goto p ph).procs[p]? = some { q with phase := ph } := by
  rw [goto_procs, if_pos rfl, h]; rfl

theorem file_of {s : St α} {i : Nat} {d : Db α} (h : s.files[i]? = some d) : s.file i = d := by simp [St.file, h]

theorem lt_of_get {l : List (Db α)} {i : Nat} {d : Db α} (h : l[i]? = some d) : i < l.length := by
  rcases Nat.lt_or_ge i l.length with h' | h'
  · exact h'
  · rw [List.getElem?_eq_none h'] at h; cases h

theorem early_alone {s : St α} (hu : AtMostOne s) {p : Nat} {q : Proc} (hq : s.procs[p]? = some q) (hm : q.migrating = true)
    {k : Nat} {r : Proc} (hk : s.procs[k]? = some r) (hne : k ≠ p) : r.migrating = false := by
  cases h : r.migrating with
  | false => rfl
  | true => exact absurd (hu k p r q hk hq h hm) hne

theorem Stage.next {rows : List α} {s : St α} (h : Stage rows s) (hu : AtMostOne s) (ev : Evt α) (hev : Orderly s ev) : Stage rows (s.next ev) := by
  cases h with
  | over h => exact .over (h.next ev (fun _ _ _ => trivial))
  | before h1 h2 h3 h4 =>
    have f0 : s.file 0 = .plain rows := file_of h2
    cases ev with
    | launch allow =>
      refine .before h1 h2 h3 (fun k q hk => ?_)
      rcases getElem?_launch hk with hk | ⟨_, hk⟩
      · exact h4 k q hk
      · subst hk; exact Or.inl rfl
    | stop p =>
      refine .before h1 h2 h3 (goto_all (R := fun _ q => earlyAt s.tmp q) (fun q _ => Or.inr (Or.inl rfl)) (fun k q _ hk => h4 k q hk))
    | insert p a =>
      have : s.next (.insert p a) = s := by
        simp only [St.next]
        split
        · rename_i al i hq
          have := h4 p _ hq
          simp [earlyAt] at this
        · rfl
      rw [this]; exact .before h1 h2 h3 h4
    | step p =>
      simp only [St.next]
      split
      · rename_i q hq
        have hq4 := h4 p q hq
        have move : ∀ ph, earlyAt s.tmp { q with phase := ph } → Stage rows (s.goto p ph) := fun ph he =>
          .before h1 h2 h3 (goto_all (R := fun _ q => earlyAt s.tmp q) (fun q' hq' => by rw [hq] at hq'; cases hq'; exact he)
            (fun k q _ hk => h4 k q hk))
        rcases q with ⟨al, ph⟩
        simp only [earlyAt] at hq4
        rcases hq4 with e | e | ⟨hal, e | e | e | ⟨j, e, hj⟩⟩
        · subst e
          simp only [St.advance, St.connect, St.openMain, h1, f0]
          cases al with
          | true => exact move .toMigrate (Or.inr (Or.inr ⟨rfl, Or.inl rfl⟩))
          | false => exact move .over (Or.inr (Or.inl rfl))
        · subst e
          exact .before h1 h2 h3 h4
        · subst e
          simp only [St.advance, St.openMain, h1, f0]
          exact move (.vacuumed 0) (Or.inr (Or.inr ⟨hal, Or.inr (Or.inl rfl)⟩))
        · subst e
          simp only [St.advance, f0]
          split
          · exact .before h1 h2 h3 h4
          · exact move (.locked 0) (Or.inr (Or.inr ⟨hal, Or.inr (Or.inr (Or.inl rfl))⟩))
        · subst e
          simp only [St.advance, St.openTmp]
          cases ht : s.tmp with
          | some j =>
            simp only
            rw [file_of (h3 j ht)]
            exact move (.attached 0 j) (Or.inr (Or.inr ⟨hal, Or.inr (Or.inr (Or.inr ⟨j, rfl, ht⟩))⟩))
          | none =>
            simp only
            have hb : ({ s with files := s.files ++ [.blank], tmp := some s.files.length } : St α).file s.files.length = .blank := by
              simp [St.file]
            rw [hb]
            refine .before h1 (by simpa using (file_append s 0 .blank (lt_of_get h2)).trans h2) (fun j hj => ?_)
              (goto_all (s := { s with files := s.files ++ [.blank], tmp := some s.files.length })
                (R := fun _ q => earlyAt (some s.files.length) q) (fun q' hq' => ?_) (fun k r hne hk => ?_))
            · simp at hj; subst hj; simp
            · simp only at hq'; rw [hq] at hq'; cases hq'
              exact Or.inr (Or.inr ⟨hal, Or.inr (Or.inr (Or.inr ⟨_, rfl, rfl⟩))⟩)
            · have := h4 k r hk
              rw [ht] at this
              simp only [earlyAt] at this ⊢
              rcases this with e | e | ⟨h', e | e | e | ⟨j, _, hj⟩⟩
              · exact Or.inl e
              · exact Or.inr (Or.inl e)
              · exact Or.inr (Or.inr ⟨h', Or.inl e⟩)
              · exact Or.inr (Or.inr ⟨h', Or.inr (Or.inl e)⟩)
              · exact Or.inr (Or.inr ⟨h', Or.inr (Or.inr (Or.inl e))⟩)
              · cases hj
        · subst e
          have fj := h3 j hj
          simp only [St.advance, f0, file_of fj]
          have hj0 : 0 ≠ j := by intro e; subst e; rw [h2] at fj; cases fj
          have hm : (Proc.mk al (.attached 0 j)).migrating = true := by simp [Proc.migrating, hal]
          refine .exported j rows h1 ?_ hj ?_ (List.prefix_refl _) ?_ ⟨p, _, goto_self (s := { s with files := s.files.set j (.enc rows) }) _ hq, rfl⟩
          · simpa [List.getElem?_set, hj0.symm] using h2
          · simp [List.getElem?_set, lt_of_get fj]
          · refine goto_all (s := { s with files := s.files.set j (.enc rows) })
              (R := fun _ q => q.phase = .fresh ∧ q.allow = false ∨ q.phase = .over ∨ (q.phase = .exported ∧ q.allow = true)) (fun q' hq' => ?_) (fun k r hne hk => ?_)
            · simp only at hq'; rw [hq] at hq'; cases hq'; exact Or.inr (Or.inr ⟨rfl, hal⟩)
            · have hno := early_alone hu hq hm hk hne
              have := h4 k r hk
              rcases r with ⟨al', ph'⟩
              simp only [earlyAt] at this
              rcases this with e | e | ⟨h', e⟩
              · subst e; simp [Proc.migrating] at hno; exact Or.inl ⟨rfl, hno⟩
              · exact Or.inr (Or.inl e)
              · rcases e with e | e | e | ⟨j', e, _⟩ <;> subst e <;> simp [Proc.migrating, h'] at hno
      · exact .before h1 h2 h3 h4
  | exported j l h1 h2 h3 h4 h5 h6 h7 =>
    have f0 : s.file 0 = .plain rows := file_of h2
    obtain ⟨pe, qe, hqe, he⟩ := h7
    have hme : qe.migrating = true := by
      rcases h6 pe qe hqe with ⟨e, _⟩ | e | ⟨_, e⟩
      · rw [he] at e; cases e
      · rw [he] at e; cases e
      · simp [Proc.migrating, he, e]
    cases ev with
    | launch allow =>
      refine .exported j l h1 h2 h3 h4 h5 (fun k q hk => ?_) ⟨pe, qe, by
        simp only [St.next]; rw [List.getElem?_append_left]; exact hqe
        exact (List.getElem?_eq_some_iff.1 hqe).1, he⟩
      rcases getElem?_launch hk with hk | ⟨_, hk⟩
      · exact h6 k q hk
      · subst hk
        cases allow with
        | false => exact Or.inl ⟨rfl, rfl⟩
        | true => rw [hev qe (List.mem_of_getElem? hqe)] at hme; cases hme
    | stop p =>
      have hne : pe ≠ p := by
        intro e; subst e
        rw [hev qe hqe] at hme; cases hme
      exact .exported j l h1 h2 h3 h4 h5 (goto_all (R := fun _ q => q.phase = .fresh ∧ q.allow = false ∨ q.phase = .over ∨ (q.phase = .exported ∧ q.allow = true))
        (fun q _ => Or.inr (Or.inl rfl)) (fun k q _ hk => h6 k q hk)) ⟨pe, qe, goto_other _ hqe hne, he⟩
    | insert p a =>
      have : s.next (.insert p a) = s := by
        simp only [St.next]
        split
        · rename_i al i hq
          have := h6 p _ hq
          simp at this
        · rfl
      rw [this]; exact .exported j l h1 h2 h3 h4 h5 h6 ⟨pe, qe, hqe, he⟩
    | step p =>
      simp only [St.next]
      split
      · rename_i q hq
        rcases q with ⟨al, ph⟩
        rcases h6 p _ hq with ⟨e, hal⟩ | e | ⟨e, hal⟩
        · simp only at e hal; subst e; subst hal
          have hne : pe ≠ p := by intro e; subst e; rw [hq] at hqe; cases hqe; cases he
          simp only [St.advance, St.connect, St.openMain, h1, f0]
          exact .exported j l h1 h2 h3 h4 h5 (goto_all (R := fun _ q => q.phase = .fresh ∧ q.allow = false ∨ q.phase = .over ∨ (q.phase = .exported ∧ q.allow = true))
            (fun q _ => Or.inr (Or.inl rfl)) (fun k q _ hk => h6 k q hk)) ⟨pe, qe, goto_other _ hqe hne, he⟩
        · simp only at e; subst e
          exact .exported j l h1 h2 h3 h4 h5 h6 ⟨pe, qe, hqe, he⟩
        · simp only at e hal; subst e
          have hm : (Proc.mk al .exported).migrating = true := by simp [Proc.migrating, hal]
          simp only [St.advance, h1]
          refine .removed j l h3 h4 h5 (by simp) ?_ ⟨p, _, goto_self (s := { s with main := none }) _ hq, rfl⟩
          refine goto_all (s := { s with main := none })
            (R := fun _ q => (q.phase.calm = true ∧ q.migrating = false) ∨ (q.phase = .removed ∧ q.allow = true)) (fun q' hq' => ?_) (fun k r hne hk => ?_)
          · simp only at hq'; rw [hq] at hq'; cases hq'; exact Or.inr ⟨rfl, hal⟩
          · have hno := early_alone hu hq hm hk hne
            rcases r with ⟨al', ph'⟩
            rcases h6 k _ hk with ⟨e, _⟩ | e | ⟨e, h'⟩
            · simp only at e; subst e; exact Or.inl ⟨rfl, hno⟩
            · simp only at e; subst e; exact Or.inl ⟨rfl, hno⟩
            · simp only at e h'; subst e; simp [Proc.migrating, h'] at hno
      · exact .exported j l h1 h2 h3 h4 h5 h6 ⟨pe, qe, hqe, he⟩
  | removed j l h3 h4 h5 h0 h6 h7 =>
    obtain ⟨pe, qe, hqe, he⟩ := h7
    have hme : qe.migrating = true := by
      rcases h6 pe qe hqe with ⟨e, _⟩ | ⟨_, e⟩
      · rw [he] at e; cases e
      · simp [Proc.migrating, he, e]
    let R : Nat → Proc → Prop := fun _ q => (q.phase.calm = true ∧ q.migrating = false) ∨ (q.phase = .removed ∧ q.allow = true)
    cases ev with
    | launch allow =>
      refine .removed j l h3 h4 h5 h0 (fun k q hk => ?_) ⟨pe, qe, by
        simp only [St.next]; rw [List.getElem?_append_left]; exact hqe
        exact (List.getElem?_eq_some_iff.1 hqe).1, he⟩
      rcases getElem?_launch hk with hk | ⟨_, hk⟩
      · exact h6 k q hk
      · subst hk
        cases allow with
        | false => exact Or.inl ⟨rfl, rfl⟩
        | true => rw [hev qe (List.mem_of_getElem? hqe)] at hme; cases hme
    | stop p =>
      have hne : pe ≠ p := by
        intro e; subst e
        rw [hev qe hqe] at hme; cases hme
      exact .removed j l h3 h4 h5 h0 (goto_all (R := R)
        (fun q _ => Or.inl ⟨rfl, by simp [Proc.migrating]⟩) (fun k q _ hk => h6 k q hk)) ⟨pe, qe, goto_other _ hqe hne, he⟩
    | insert p a =>
      simp only [St.next]
      split
      · rename_i al i hq
        split
        · rename_i rs hf
          by_cases hi : i < s.files.length
          · have key : ∀ k d, s.files[k]? = some d → (s.files.set i (.enc (rs ++ [a])))[k]? = some (if k = i then .enc (rs ++ [a]) else d) := by
              intro k d hk
              by_cases e : k = i
              · subst e; simp [hi]
              · have e' : ¬ i = k := fun h => e h.symm
                simp [e, e', hk]
            have hij : i = j → rs = l := by
              intro e; subst e
              rw [file_of h4] at hf; cases hf; rfl
            refine .removed j (if j = i then rs ++ [a] else l) h3 ?_ ?_ ?_ h6 ⟨pe, qe, hqe, he⟩
            · simp only; rw [key j _ h4]; split <;> rfl
            · split
              · rename_i e; rw [hij e.symm]; exact h5.trans (List.prefix_append _ _)
              · exact h5
            · intro k hk
              obtain ⟨d, hd, hd'⟩ := h0 k hk
              refine ⟨_, key k d hd, ?_⟩
              split
              · intro r; simp
              · exact hd'
          · rw [List.set_eq_of_length_le (by omega)]
            exact .removed j l h3 h4 h5 h0 h6 ⟨pe, qe, hqe, he⟩
        · exact .removed j l h3 h4 h5 h0 h6 ⟨pe, qe, hqe, he⟩
      · exact .removed j l h3 h4 h5 h0 h6 ⟨pe, qe, hqe, he⟩
    | step p =>
      simp only [St.next]
      split
      · rename_i q hq
        rcases q with ⟨al, ph⟩
        rcases h6 p _ hq with ⟨hc, hm⟩ | ⟨e, hal⟩
        · have hne : pe ≠ p := by
            intro e; subst e; rw [hq] at hqe; cases hqe; rw [hme] at hm; cases hm
          have alf : (∀ i, ph ≠ .up i) → ph ≠ .over → al = false := by
            intro h1 h2
            cases ph <;> simp_all [Proc.migrating]
          have move : ∀ ph', ph'.calm = true → (al = false ∨ ph' = .over ∨ ∃ i, ph' = .up i) → Stage rows (s.goto p ph') := fun ph' hc' hal' =>
            .removed j l h3 h4 h5 h0 (goto_all (R := R) (fun q' hq' => by
                rw [hq] at hq'; cases hq'
                refine Or.inl ⟨hc', ?_⟩
                rcases hal' with e | e | ⟨i, e⟩ <;> simp [Proc.migrating, e])
              (fun k q _ hk => h6 k q hk)) ⟨pe, qe, goto_other _ hqe hne, he⟩
          have conn : ∀ ph', al = false → ph'.calm = true → Stage rows (s.connect p ph') := by
            intro ph' hal hc'
            unfold St.connect St.openMain
            cases hmn : s.main with
            | some i =>
              simp only
              split
              · exact move ph' hc' (Or.inl hal)
              · exact move (.opened i) rfl (Or.inl hal)
            | none =>
              simp only
              have hb : ({ s with files := s.files ++ [.blank], main := some s.files.length } : St α).file s.files.length = .blank := by
                simp [St.file]
              rw [hb]
              refine .removed j l h3 ?_ h5 ?_ (goto_all (s := { s with files := s.files ++ [.blank], main := some s.files.length }) (R := R)
                (fun q' hq' => ?_) (fun k r _ hk => h6 k r hk)) ⟨pe, qe, goto_other (s := { s with files := s.files ++ [.blank], main := some s.files.length }) _ hqe hne, he⟩
              · simpa using (file_append s j .blank (lt_of_get h4)).trans h4
              · intro i hi
                simp at hi; subst hi
                exact ⟨.blank, by simp, by simp⟩
              · simp only at hq'; rw [hq] at hq'; cases hq'
                exact Or.inl ⟨rfl, by simp [Proc.migrating, hal]⟩
          cases ph <;> simp only [Phase.calm, Bool.false_eq_true] at hc <;> simp only [St.advance]
          case fresh =>
            have := alf (by simp) (by simp)
            subst this
            exact conn .over rfl rfl
          case renamed =>
            have := alf (by simp) (by simp)
            exact conn .over this rfl
          case opened i =>
            split
            · rename_i hf
              by_cases hi : i < s.files.length
              · have hij : j ≠ i := by
                  intro e; subst e
                  rw [file_of h4] at hf; cases hf
                refine .removed j l h3 ?_ h5 ?_ (goto_all (s := { s with files := s.files.set i (.enc []) }) (R := R)
                  (fun q' hq' => ?_) (fun k r _ hk => h6 k r hk)) ⟨pe, qe, goto_other (s := { s with files := s.files.set i (.enc []) }) _ hqe hne, he⟩
                · simpa [List.getElem?_set, hij.symm] using h4
                · intro k hk
                  obtain ⟨d, hd, hd'⟩ := h0 k hk
                  by_cases e : k = i
                  · subst e; exact ⟨.enc [], by simp [hi], by simp⟩
                  · have e' : ¬ i = k := fun h => e h.symm
                    exact ⟨d, by simpa [List.getElem?_set, e'] using hd, hd'⟩
                · simp only at hq'; rw [hq] at hq'; cases hq'
                  exact Or.inl ⟨rfl, by simp [Proc.migrating]⟩
              · rw [List.set_eq_of_length_le (by omega)]
                exact move (.up i) rfl (Or.inr (Or.inr ⟨i, rfl⟩))
            · exact move (.up i) rfl (Or.inr (Or.inr ⟨i, rfl⟩))
            · exact move .over rfl (Or.inr (Or.inl rfl))
          case up i => exact .removed j l h3 h4 h5 h0 h6 ⟨pe, qe, hqe, he⟩
          case over => exact .removed j l h3 h4 h5 h0 h6 ⟨pe, qe, hqe, he⟩
        · simp only at e hal; subst e
          have hm : (Proc.mk al .removed).migrating = true := by simp [Proc.migrating, hal]
          simp only [St.advance, h3]
          refine .over ⟨⟨j, l, rfl, lt_of_get h4, file_of h4, h5, fun _ _ => trivial⟩, ?_⟩
          refine goto_all (s := { s with main := some j, tmp := none }) (R := fun _ q => q.phase.calm = true) (fun q' hq' => rfl) (fun k r hne hk => ?_)
          have hno := early_alone hu hq hm hk hne
          rcases h6 k r hk with ⟨e, _⟩ | ⟨e, h'⟩
          · exact e
          · simp [Proc.migrating, e, h'] at hno
      · exact .removed j l h3 h4 h5 h0 h6 ⟨pe, qe, hqe, he⟩


/-- Where processes may be while the old store file is in place. Proof device: nothing in the code corresponds. -/
def oldAt (s : St α) (q : Proc) : Prop :=
  q.phase = .fresh ∨ q.phase = .over ∨ (q.allow = true ∧
    (q.phase = .toMigrate ∨ q.phase = .vacuumed 0 ∨ q.phase = .locked 0 ∨ (∃ j, q.phase = .attached 0 j ∧ s.tmp = some j) ∨
      (q.phase = .exported ∧ ∃ j l, s.tmp = some j ∧ s.files[j]? = some (.enc l))))

/-- The stages when processes may stop anywhere. Proof device: nothing in the code corresponds. -/
inductive Kept (rows : List α) (s : St α) : Prop where
  | old (h1 : s.main = some 0) (h2 : s.files[0]? = some (.plain rows))
      (h3 : ∀ j, s.tmp = some j → s.files[j]? = some .blank ∨ ∃ l, s.files[j]? = some (.enc l) ∧ rows <+: l)
      (h4 : ∀ (p : Nat) (q : Proc), s.procs[p]? = some q → oldAt s q)
  | gap (j : Nat) (l : List α) (h3 : s.tmp = some j)
      (h4 : s.files[j]? = some (.enc l)) (h5 : rows <+: l) (h0 : ∀ i, s.main = some i → ∃ d, s.files[i]? = some d ∧ ∀ r, d ≠ .plain r)
      (h6 : ∀ (p : Nat) (q : Proc), s.procs[p]? = some q → q.phase.calm = true ∨ (q.phase = .removed ∧ q.allow = true))
  | new (h : Done (fun _ => True) rows s)

theorem Kept.next {rows : List α} {s : St α} (h : Kept rows s) (hu : AtMostOne s) (ev : Evt α) : Kept rows (s.next ev) := by
  cases h with
  | new h => exact .new (h.next ev (fun _ _ _ => trivial))
  | old h1 h2 h3 h4 =>
    have f0 : s.file 0 = .plain rows := file_of h2
    cases ev with
    | launch allow =>
      refine .old h1 h2 h3 (fun k q hk => ?_)
      rcases getElem?_launch hk with hk | ⟨_, hk⟩
      · exact h4 k q hk
      · subst hk; exact Or.inl rfl
    | stop p =>
      exact .old h1 h2 h3 (goto_all (R := fun _ q => oldAt s q) (fun q _ => Or.inr (Or.inl rfl)) (fun k q _ hk => h4 k q hk))
    | insert p a =>
      have : s.next (.insert p a) = s := by
        simp only [St.next]
        split
        · rename_i al i hq
          have := h4 p _ hq
          simp [oldAt] at this
        · rfl
      rw [this]; exact .old h1 h2 h3 h4
    | step p =>
      simp only [St.next]
      split
      · rename_i q hq
        have hq4 := h4 p q hq
        have move : ∀ ph, oldAt s { q with phase := ph } → Kept rows (s.goto p ph) := fun ph he =>
          .old h1 h2 h3 (goto_all (R := fun _ q => oldAt s q) (fun q' hq' => by rw [hq] at hq'; cases hq'; exact he)
            (fun k q _ hk => h4 k q hk))
        rcases q with ⟨al, ph⟩
        simp only [oldAt] at hq4
        rcases hq4 with e | e | ⟨hal, e | e | e | ⟨j, e, hj⟩ | ⟨e, j, l, hj, hl⟩⟩
        · subst e
          simp only [St.advance, St.connect, St.openMain, h1, f0]
          cases al with
          | true => exact move .toMigrate (Or.inr (Or.inr ⟨rfl, Or.inl rfl⟩))
          | false => exact move .over (Or.inr (Or.inl rfl))
        · subst e
          exact .old h1 h2 h3 h4
        · subst e
          simp only [St.advance, St.openMain, h1, f0]
          exact move (.vacuumed 0) (Or.inr (Or.inr ⟨hal, Or.inr (Or.inl rfl)⟩))
        · subst e
          simp only [St.advance, f0]
          split
          · exact .old h1 h2 h3 h4
          · exact move (.locked 0) (Or.inr (Or.inr ⟨hal, Or.inr (Or.inr (Or.inl rfl))⟩))
        · subst e
          simp only [St.advance, St.openTmp]
          cases ht : s.tmp with
          | some j =>
            simp only
            have go := move (.attached 0 j) (Or.inr (Or.inr ⟨hal, Or.inr (Or.inr (Or.inr (Or.inl ⟨j, rfl, ht⟩)))⟩))
            rcases h3 j ht with hb | ⟨l, hb, _⟩ <;> rw [file_of hb] <;> exact go
          | none =>
            simp only
            have hb : ({ s with files := s.files ++ [.blank], tmp := some s.files.length } : St α).file s.files.length = .blank := by
              simp [St.file]
            rw [hb]
            refine .old h1 (by simpa using (file_append s 0 .blank (lt_of_get h2)).trans h2) (fun j hj => ?_)
              (goto_all (s := { s with files := s.files ++ [.blank], tmp := some s.files.length })
                (R := fun _ q => oldAt (({ s with files := s.files ++ [.blank], tmp := some s.files.length } : St α).goto p (.attached 0 s.files.length)) q)
                (fun q' hq' => ?_) (fun k r hne hk => ?_))
            · simp at hj; subst hj; exact Or.inl (by simp)
            · simp only at hq'; rw [hq] at hq'; cases hq'
              exact Or.inr (Or.inr ⟨hal, Or.inr (Or.inr (Or.inr (Or.inl ⟨_, rfl, rfl⟩)))⟩)
            · have := h4 k r hk
              simp only [oldAt, ht] at this ⊢
              rcases this with e | e | ⟨h', e | e | e | ⟨j, _, hj⟩ | ⟨_, _, _, hj, _⟩⟩
              · exact Or.inl e
              · exact Or.inr (Or.inl e)
              · exact Or.inr (Or.inr ⟨h', Or.inl e⟩)
              · exact Or.inr (Or.inr ⟨h', Or.inr (Or.inl e)⟩)
              · exact Or.inr (Or.inr ⟨h', Or.inr (Or.inr (Or.inl e))⟩)
              · cases hj
              · cases hj
        · subst e
          rcases h3 j hj with fj | ⟨l, fj, hl⟩
          · simp only [St.advance, f0, file_of fj]
            have hj0 : 0 ≠ j := by intro e; subst e; rw [h2] at fj; cases fj
            have hm : (Proc.mk al (.attached 0 j)).migrating = true := by simp [Proc.migrating, hal]
            have hs : (s.files.set j (.enc rows))[j]? = some (.enc rows) := by simp [lt_of_get fj]
            refine .old h1 (by simpa [List.getElem?_set, hj0.symm] using h2) (fun k hk => ?_)
              (goto_all (s := { s with files := s.files.set j (.enc rows) })
                (R := fun _ q => oldAt (({ s with files := s.files.set j (.enc rows) } : St α).goto p .exported) q) (fun q' hq' => ?_) (fun k r hne hk => ?_))
            · simp only [goto_tmp] at hk
              rw [hj] at hk; cases hk
              exact Or.inr ⟨rows, hs, List.prefix_refl _⟩
            · simp only at hq'; rw [hq] at hq'; cases hq'
              exact Or.inr (Or.inr ⟨hal, Or.inr (Or.inr (Or.inr (Or.inr ⟨rfl, j, rows, hj, hs⟩)))⟩)
            · have hno := early_alone hu hq hm hk hne
              have := h4 k r hk
              rcases r with ⟨al', ph'⟩
              simp only [oldAt] at this
              rcases this with e | e | ⟨h', e⟩
              · exact Or.inl e
              · exact Or.inr (Or.inl e)
              · rcases e with e | e | e | ⟨j', e, _⟩ | ⟨e, _⟩ <;> subst e <;> simp [Proc.migrating, h'] at hno
          · simp only [St.advance, f0, file_of fj]
            exact move .over (Or.inr (Or.inl rfl))
        · subst e
          have hm : (Proc.mk al .exported).migrating = true := by simp [Proc.migrating, hal]
          simp only [St.advance, h1]
          have hl' : rows <+: l := by
            rcases h3 j hj with e | ⟨l', e, h'⟩
            · rw [hl] at e; cases e
            · rw [hl] at e; cases e; exact h'
          refine .gap j l hj hl hl' (by simp) ?_
          refine goto_all (s := { s with main := none })
            (R := fun _ q => q.phase.calm = true ∨ (q.phase = .removed ∧ q.allow = true)) (fun q' hq' => ?_) (fun k r hne hk => ?_)
          · simp only at hq'; rw [hq] at hq'; cases hq'; exact Or.inr ⟨rfl, hal⟩
          · have hno := early_alone hu hq hm hk hne
            have := h4 k r hk
            rcases r with ⟨al', ph'⟩
            simp only [oldAt] at this
            rcases this with e | e | ⟨h', e⟩
            · subst e; exact Or.inl rfl
            · subst e; exact Or.inl rfl
            · rcases e with e | e | e | ⟨j', e, _⟩ | ⟨e, _⟩ <;> subst e <;> simp [Proc.migrating, h'] at hno
      · exact .old h1 h2 h3 h4
  | gap j l h3 h4 h5 h0 h6 =>
    let R : Nat → Proc → Prop := fun _ q => q.phase.calm = true ∨ (q.phase = .removed ∧ q.allow = true)
    cases ev with
    | launch allow =>
      refine .gap j l h3 h4 h5 h0 (fun k q hk => ?_)
      rcases getElem?_launch hk with hk | ⟨_, hk⟩
      · exact h6 k q hk
      · subst hk; exact Or.inl rfl
    | stop p => exact .gap j l h3 h4 h5 h0 (goto_all (R := R) (fun q _ => Or.inl rfl) (fun k q _ hk => h6 k q hk))
    | insert p a =>
      simp only [St.next]
      split
      · rename_i al i hq
        split
        · rename_i rs hf
          by_cases hi : i < s.files.length
          · have key : ∀ k d, s.files[k]? = some d → (s.files.set i (.enc (rs ++ [a])))[k]? = some (if k = i then .enc (rs ++ [a]) else d) := by
              intro k d hk
              by_cases e : k = i
              · subst e; simp [hi]
              · have e' : ¬ i = k := fun h => e h.symm
                simp [e, e', hk]
            have hij : i = j → rs = l := by
              intro e; subst e
              rw [file_of h4] at hf; cases hf; rfl
            refine .gap j (if j = i then rs ++ [a] else l) h3 ?_ ?_ ?_ h6
            · simp only; rw [key j _ h4]; split <;> rfl
            · split
              · rename_i e; rw [hij e.symm]; exact h5.trans (List.prefix_append _ _)
              · exact h5
            · intro k hk
              obtain ⟨d, hd, hd'⟩ := h0 k hk
              refine ⟨_, key k d hd, ?_⟩
              split
              · intro r; simp
              · exact hd'
          · rw [List.set_eq_of_length_le (by omega)]
            exact .gap j l h3 h4 h5 h0 h6
        · exact .gap j l h3 h4 h5 h0 h6
      · exact .gap j l h3 h4 h5 h0 h6
    | step p =>
      simp only [St.next]
      split
      · rename_i q hq
        rcases q with ⟨al, ph⟩
        rcases h6 p _ hq with hc | ⟨e, hal⟩
        · have move : ∀ ph', ph'.calm = true → Kept rows (s.goto p ph') := fun ph' hc' =>
            .gap j l h3 h4 h5 h0 (goto_all (R := R) (fun q' _ => Or.inl hc') (fun k q _ hk => h6 k q hk))
          have conn : ∀ ph', Kept rows (s.connect p ph') := by
            intro ph'
            unfold St.connect St.openMain
            cases hmn : s.main with
            | some i =>
              simp only
              obtain ⟨d, hd, hd'⟩ := h0 i hmn
              rw [file_of hd]
              cases d with
              | plain r => exact absurd rfl (hd' r)
              | blank => exact move (.opened i) rfl
              | enc r => exact move (.opened i) rfl
            | none =>
              simp only
              have hb : ({ s with files := s.files ++ [.blank], main := some s.files.length } : St α).file s.files.length = .blank := by
                simp [St.file]
              rw [hb]
              refine .gap j l h3 ?_ h5 ?_ (goto_all (s := { s with files := s.files ++ [.blank], main := some s.files.length }) (R := R)
                (fun q' hq' => Or.inl rfl) (fun k r _ hk => h6 k r hk))
              · simpa using (file_append s j .blank (lt_of_get h4)).trans h4
              · intro i hi
                simp at hi; subst hi
                exact ⟨.blank, by simp, by simp⟩
          cases ph <;> simp only [Phase.calm, Bool.false_eq_true] at hc <;> simp only [St.advance]
          case fresh => exact conn _
          case renamed => exact conn _
          case opened i =>
            split
            · rename_i hf
              by_cases hi : i < s.files.length
              · have hij : j ≠ i := by
                  intro e; subst e
                  rw [file_of h4] at hf; cases hf
                refine .gap j l h3 ?_ h5 ?_ (goto_all (s := { s with files := s.files.set i (.enc []) }) (R := R)
                  (fun q' hq' => Or.inl rfl) (fun k r _ hk => h6 k r hk))
                · simpa [List.getElem?_set, hij.symm] using h4
                · intro k hk
                  obtain ⟨d, hd, hd'⟩ := h0 k hk
                  by_cases e : k = i
                  · subst e; exact ⟨.enc [], by simp [hi], by simp⟩
                  · have e' : ¬ i = k := fun h => e h.symm
                    exact ⟨d, by simpa [List.getElem?_set, e'] using hd, hd'⟩
              · rw [List.set_eq_of_length_le (by omega)]
                exact move (.up i) rfl
            · exact move (.up i) rfl
            · exact move .over rfl
          case up i => exact .gap j l h3 h4 h5 h0 h6
          case over => exact .gap j l h3 h4 h5 h0 h6
        · simp only at e hal; subst e
          have hm : (Proc.mk al .removed).migrating = true := by simp [Proc.migrating, hal]
          simp only [St.advance, h3]
          refine .new ⟨⟨j, l, rfl, lt_of_get h4, file_of h4, h5, fun _ _ => trivial⟩, ?_⟩
          refine goto_all (s := { s with main := some j, tmp := none }) (R := fun _ q => q.phase.calm = true) (fun q' hq' => rfl) (fun k r hne hk => ?_)
          have hno := early_alone hu hq hm hk hne
          rcases h6 k r hk with e | ⟨e, h'⟩
          · exact e
          · simp [Proc.migrating, e, h'] at hno
      · exact .gap j l h3 h4 h5 h0 h6

end Lair.MigrRace
