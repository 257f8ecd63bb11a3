import Verif.KeystorePoints
import Verif.SystemLemmas

/-
Towards linearizability: every request that adds an entry - finished, in flight or abandoned by a restart - does so as the
specification says, at the place of its entry in the table.
-/
namespace Lair

variable {E : Env}

/-! ### Completing a request in flight -/

/-- Whatever a request still has to do, there is a way in which it can end without interference. -/
theorem Sat.complete {α : Type} {c : Nat} {m : Msg} {Q : Shared E → List Ev → Res α → Prop} (p : Prog α) (s : Shared E)
    (l : List Ev) (h : Sat c m Q p s l) (hi : Inv s) :
    ∃ s₁ l' o, Inv s₁ ∧ Ext s s₁ ∧ s₁.tbl = s.tbl ++ writesOf (l'.map (fun ev => (0, ev))) ∧ Q s₁ (l ++ l') o := by
  induction p generalizing s l with
  | ret a => exact ⟨s, [], .ok a, hi, Ext.refl _, by simp [writesOf], by simpa using h s (Ext.refl _) hi⟩
  | fail e => exact ⟨s, [], .error e, hi, Ext.refl _, by simp [writesOf], by simpa using h s (Ext.refl _) hi⟩
  | step a k ih =>
    obtain ⟨hok, hk⟩ := h s (Ext.refl _) hi
    let ch : Choice := ⟨fun n => zero n, 0, .error "", none⟩
    have hx := exec_ext c ch s hi a
    have hi' := exec_inv c m ch s hi a hok
    obtain ⟨s₁, l', o, h1, h2, h3, h4⟩ := ih _ _ _ (hk ch) hi'
    refine ⟨s₁, (exec c ch s a).2.2 ++ l', o, h1, hx.trans h2, ?_, by simpa using h4⟩
    rw [h3, exec_tbl c ch s hi a 0]
    simp [writesOf]

/-! ### Who added what -/

/-- Request `k` added entry `e`: it is a request received on `c`, and there is a run of its handler, from `s₀` to `s₁`, with
    the effects it had and ending within the table of `s`; if it has finished, it is that run.
    Specification: nothing in the code corresponds. -/
def WriterInfo (s : Sys E) (k : Nat) : Prop :=
  ∃ c m s₀ s₁ o, s.inbox[k]? = some (c, m) ∧ Ext s₀ s₁ ∧ HSpec c s₀ s₁ (histOf s.hist k) o m ∧
    (∃ more, s.sh.tbl = s₁.tbl ++ more) ∧
    ∀ d ∈ s.done, d.id = k → d.conn = c ∧ d.start = s₀ ∧ d.stop = s₁ ∧ d.outcome = o ∧ d.msg = m

theorem create_single {c : Nat} {s₀ s₁ : Shared E} {l : List Ev} {o : Res Resp} {seed : B 32} {tag : String} {deep : Option DeepPass}
    {x : Bool} {mk : SeedInfo → Resp} {src : List Entry} (h : CreateSpec c s₀ s₁ l o seed tag deep x mk src) {e : Entry}
    (he : Ev.wrote e ∈ l) : l = [.wrote e] := by
  rcases h with ⟨e', _, rfl, _⟩ | ⟨⟨rfl, _⟩, _⟩
  · simp at he; rw [he]
  · cases he

theorem reqSpec_single {c : Nat} {s₀ s₁ : Shared E} {l : List Ev} {o : Res Resp} {r : Req} (h : ReqSpec c s₀ s₁ l o r) {e : Entry}
    (he : Ev.wrote e ∈ l) : l = [.wrote e] := by
  have nil : l = [] → l = [.wrote e] := by rintro rfl; cases he
  cases r with
  | hello => exact h.elim
  | unlock p => exact h.elim
  | getEntry t => rcases h with ⟨⟨h, _⟩, _⟩ | ⟨h, _⟩ <;> exact nil h
  | listEntries => exact nil h.1
  | newSeed t d x =>
    rcases h with ⟨⟨h, _⟩, _⟩ | ⟨seed, h⟩
    · exact nil h
    · exact create_single h he
  | deriveSeed s sd d dd p =>
    rcases h with ⟨⟨h, _⟩, _⟩ | ⟨e', _, _, ⟨⟨h, _⟩, _⟩ | ⟨seed, info, _, h, _⟩⟩
    · exact nil h
    · exact nil h
    · exact create_single h he
  | exportSeed t s r d => rcases h with ⟨⟨h, _⟩, _⟩ | ⟨h, _⟩ <;> exact nil h
  | importSeed s r d n ci t x =>
    rcases h with ⟨⟨h, _⟩, _⟩ | ⟨f, _, _, ⟨⟨h, _⟩, _⟩ | ⟨xSk, seed, _, _, _, h⟩⟩
    · exact nil h
    · exact nil h
    · exact create_single h he
  | sign k p m =>
    rcases h with ⟨h, _⟩ | ⟨_, ⟨h, _⟩, _⟩ | ⟨_, ans, h, _⟩ | ⟨_, ans, h, _⟩
    · exact nil h
    · exact nil h
    · rw [h] at he; simp at he
    · rw [h] at he; simp at he
  | boxEnc s r d m => rcases h with ⟨⟨h, _⟩, _⟩ | ⟨h, _⟩ <;> exact nil h
  | boxDec s r d n ci => rcases h with ⟨⟨h, _⟩, _⟩ | ⟨h, _⟩ <;> exact nil h
  | boxEncEd s r d m => rcases h with ⟨⟨h, _⟩, _⟩ | ⟨h, _⟩ <;> exact nil h
  | boxDecEd s r d n ci => rcases h with ⟨⟨h, _⟩, _⟩ | ⟨h, _⟩ <;> exact nil h
  | newCert t =>
    obtain ⟨n, hdr, ⟨h, _⟩ | ⟨⟨h, _⟩, _⟩⟩ := h
    · rw [h] at he ⊢; simp at he; rw [he]
    · exact nil h
  | getCertKey t => rcases h with ⟨⟨h, _⟩, _⟩ | ⟨h, _⟩ <;> exact nil h
  | sboxEnc t d m => rcases h with ⟨⟨h, _⟩, _⟩ | ⟨h, _⟩ <;> exact nil h
  | sboxDec t d n ci => rcases h with ⟨⟨h, _⟩, _⟩ | ⟨h, _⟩ <;> exact nil h

theorem hspec_wrote {c : Nat} {s₀ s₁ : Shared E} {l : List Ev} {o : Res Resp} {i : String} {r : Req} (h : HSpec c s₀ s₁ l o (.req i r))
    {e : Entry} (he : Ev.wrote e ∈ l) : l = [.wrote e] := by
  have nil : l = [] → l = [.wrote e] := by rintro rfl; cases he
  have main : (l = [] ∧ o = .error "KeystoreLocked" ∧ s₀.unlocked c = false) ∨
      (s₁.unlocked c = true ∧ (Faulted l o ∨ ReqSpec c s₀ s₁ l o r)) → l = [.wrote e] := by
    rintro (⟨h, _⟩ | ⟨_, ⟨h, _⟩ | h⟩)
    · exact nil h
    · rw [h] at he; simp at he
    · exact reqSpec_single h he
  cases r with
  | hello => exact nil h.1
  | unlock p =>
    rcases h with ⟨h, _⟩ | ⟨⟨h, _⟩, _⟩ | ⟨h, _⟩
    · rw [h] at he; simp at he
    · exact nil h
    · rw [h] at he; simp at he
  | _ => exact main h

/-- A request adds at most one entry, and then that is all it does. -/
theorem hspec_single {c : Nat} {s₀ s₁ : Shared E} {l : List Ev} {o : Res Resp} {m : Msg} (h : HSpec c s₀ s₁ l o m) {e : Entry}
    (he : Ev.wrote e ∈ l) : l = [.wrote e] := by
  cases m with
  | res i r => obtain ⟨rfl, _⟩ := h; cases he
  | req i r => exact hspec_wrote h he

/-- Every abandoned request that added something has a run. Specification: nothing in the code corresponds. -/
def DropInv (s : Sys E) : Prop := ∀ k ∈ s.dropped, ∀ e, Ev.wrote e ∈ histOf s.hist k → WriterInfo s k

theorem mem_histOf {h : List (Nat × Ev)} {k : Nat} {ev : Ev} : ev ∈ histOf h k ↔ (k, ev) ∈ h := by
  simp only [histOf, List.mem_map, List.mem_filter, decide_eq_true_eq]
  constructor
  · rintro ⟨⟨a, b⟩, ⟨h1, rfl⟩, rfl⟩; exact h1
  · intro h1; exact ⟨(k, ev), ⟨h1, rfl⟩, rfl⟩

/-- The run of a request in flight that added something. -/
theorem thread_writer {st : E.S.σ} {s : Sys E} (h : SysInv st s) (hi : IdInv s) {t : Thread E} (ht : t ∈ s.threads) {e : Entry}
    (he : Ev.wrote e ∈ t.log) : ∃ s₁ o, Ext t.start s₁ ∧ HSpec t.conn t.start s₁ (histOf s.hist t.id) o t.msg ∧
      s₁.tbl = s.sh.tbl := by
  obtain ⟨_, hx, hsat⟩ := h.threads t ht
  obtain ⟨s₁, l', o, h1, h2, h3, h4⟩ := Sat.complete _ _ _ hsat h.inv
  have hs := hspec_single h4 (List.mem_append_left _ he)
  have hl' : l' = [] := by
    cases hlog : t.log with
    | nil => rw [hlog] at he; cases he
    | cons x xs =>
      rw [hlog] at hs
      simp at hs
      exact hs.2.2
  subst hl'
  refine ⟨s₁, o, hx.trans h2, ?_, by simpa [writesOf] using h3⟩
  rw [← (hi.threads t ht).2]; simpa using h4

theorem hist_step (s : Sys E) (ev : Event) : ∃ more, (s.step ev).hist = s.hist ++ more ∧
    ∀ p ∈ more, ∃ t ∈ s.threads, p.1 = t.id := by
  cases ev with
  | recv c m => exact ⟨[], by simp [Sys.step], by simp⟩
  | restart => exact ⟨[], by simp [Sys.step], by simp⟩
  | step i ch =>
    cases hti : s.threads[i]? with
    | none => rw [step_none s i ch hti]; exact ⟨[], by simp, by simp⟩
    | some t =>
      have htm : t ∈ s.threads := List.mem_of_getElem? hti
      cases hp : t.prog with
      | ret r => rw [step_ret s i ch t r hti hp]; exact ⟨[], by simp [Sys.finish], by simp⟩
      | fail e => rw [step_fail s i ch t e hti hp]; exact ⟨[], by simp [Sys.finish], by simp⟩
      | step a k =>
        rw [step_act s i ch t a k hti hp]
        refine ⟨_, rfl, ?_⟩
        intro p hp
        simp only [List.mem_map] at hp
        obtain ⟨ev, _, rfl⟩ := hp
        exact ⟨t, htm, rfl⟩

theorem done_new (s : Sys E) (ev : Event) : ∀ d ∈ (s.step ev).done, d ∈ s.done ∨ ∃ t ∈ s.threads, d.id = t.id := by
  intro d hd
  cases ev with
  | recv c m => exact Or.inl hd
  | restart => exact Or.inl hd
  | step i ch =>
    cases hti : s.threads[i]? with
    | none => rw [step_none s i ch hti] at hd; exact Or.inl hd
    | some t =>
      have htm : t ∈ s.threads := List.mem_of_getElem? hti
      have hfin : ∀ o, d ∈ (s.finish i t o).done → d ∈ s.done ∨ ∃ t ∈ s.threads, d.id = t.id := by
        intro o hd
        rcases List.mem_append.1 hd with hd | hd
        · exact Or.inl hd
        · simp at hd; subst hd; exact Or.inr ⟨t, htm, rfl⟩
      cases hp : t.prog with
      | ret r => rw [step_ret s i ch t r hti hp] at hd; exact hfin _ hd
      | fail e => rw [step_fail s i ch t e hti hp] at hd; exact hfin _ hd
      | step a k => rw [step_act s i ch t a k hti hp] at hd; exact Or.inl hd

theorem histOf_not {h : List (Nat × Ev)} {k : Nat} (hn : ∀ p ∈ h, p.1 ≠ k) : histOf h k = [] := by
  rw [histOf, List.map_eq_nil_iff, List.filter_eq_nil_iff]
  intro p hp; simpa using hn p hp

/-- A request that is not in flight keeps its run. -/
theorem writerInfo_step {st : E.S.σ} {s : Sys E} (h : SysInv st s) {k : Nat} (hk : ∀ t ∈ s.threads, t.id ≠ k)
    (hw : WriterInfo s k) (ev : Event) : WriterInfo (s.step ev) k := by
  obtain ⟨c, m, s₀, s₁, o, h1, h2, h3, ⟨more, h4⟩, h5⟩ := hw
  obtain ⟨mi, hmi⟩ := inbox_step s ev
  obtain ⟨mh, hmh, hmn⟩ := hist_step s ev
  obtain ⟨mt, hmt⟩ := tbl_step h ev
  refine ⟨c, m, s₀, s₁, o, ?_, h2, ?_, ⟨more ++ mt, ?_⟩, ?_⟩
  · rw [hmi, List.getElem?_append_left (List.getElem?_eq_some_iff.1 h1).1]; exact h1
  · rw [hmh, histOf_append, histOf_not (h := mh) (k := k), List.append_nil]
    · exact h3
    · intro p hp heq
      obtain ⟨t, ht, htid⟩ := hmn p hp
      exact hk t ht (htid.symm.trans heq)
  · rw [hmt, h4, List.append_assoc]
  · intro d hd hid
    rcases done_new s ev d hd with hd | ⟨t, ht, htid⟩
    · exact h5 d hd hid
    · exact absurd (htid.symm.trans hid) (hk t ht)

theorem IdInv.thread_not_dropped {s : Sys E} (hi : IdInv s) {k : Nat} (hk : k ∈ s.dropped) : ∀ t ∈ s.threads, t.id ≠ k := by
  intro t ht heq
  have hnd := hi.perm.nodup_iff.2 List.nodup_range
  rw [List.append_assoc, List.nodup_append] at hnd
  exact hnd.2.2 t.id (List.mem_map.2 ⟨t, ht, rfl⟩) k (List.mem_append_right _ hk) heq

theorem IdInv.done_not_thread {s : Sys E} (hi : IdInv s) {d : Done E} (hd : d ∈ s.done) : ∀ t ∈ s.threads, t.id ≠ d.id := by
  intro t ht heq
  have hnd := hi.perm.nodup_iff.2 List.nodup_range
  rw [List.append_assoc, List.nodup_append] at hnd
  exact hnd.2.2 t.id (List.mem_map.2 ⟨t, ht, rfl⟩) d.id (List.mem_append_left _ (List.mem_map.2 ⟨d, hd, rfl⟩)) heq

theorem IdInv.done_ids {s : Sys E} (hi : IdInv s) : (s.done.map Done.id).Nodup := by
  have hnd := hi.perm.nodup_iff.2 List.nodup_range
  rw [List.append_assoc, List.nodup_append] at hnd
  exact (List.nodup_append.1 hnd.2.1).1

theorem nodup_map_inj {α β : Type} {f : α → β} {l : List α} (h : (l.map f).Nodup) {a b : α} (ha : a ∈ l) (hb : b ∈ l)
    (hab : f a = f b) : a = b := by
  induction l with
  | nil => cases ha
  | cons x xs ih =>
    rw [List.map_cons, List.nodup_cons] at h
    rcases List.mem_cons.1 ha with rfl | ha <;> rcases List.mem_cons.1 hb with rfl | hb
    · rfl
    · exact absurd (List.mem_map.2 ⟨b, hb, hab.symm⟩) h.1
    · exact absurd (List.mem_map.2 ⟨a, by assumption, hab⟩) h.1
    · exact ih h.2 ha hb

theorem done_writer {st : E.S.σ} {s : Sys E} (h : SysInv st s) (hi : IdInv s) {d : Done E} (hd : d ∈ s.done) : WriterInfo s d.id := by
  obtain ⟨_, _, hx, hs, _, ht⟩ := h.done d hd
  refine ⟨d.conn, d.msg, d.start, d.stop, d.outcome, (hi.done d hd).1, hx, ?_, ht, ?_⟩
  · rw [← (hi.done d hd).2]; exact hs
  · intro d' hd' hid
    have := nodup_map_inj hi.done_ids hd' hd hid
    subst this; exact ⟨rfl, rfl, rfl, rfl, rfl⟩

theorem dropInv_step {st : E.S.σ} {s : Sys E} (h : SysInv st s) (hi : IdInv s) (hd : DropInv s) (ev : Event) : DropInv (s.step ev) := by
  have hold : ∀ k ∈ s.dropped, ∀ e, Ev.wrote e ∈ histOf (s.step ev).hist k → WriterInfo (s.step ev) k := by
    intro k hk e he
    have hnt := hi.thread_not_dropped hk
    obtain ⟨mh, hmh, hmn⟩ := hist_step s ev
    rw [hmh, histOf_append, histOf_not (h := mh) (k := k), List.append_nil] at he
    · exact writerInfo_step h hnt (hd k hk e he) ev
    · intro p hp heq
      obtain ⟨t, ht, htid⟩ := hmn p hp
      exact hnt t ht (htid.symm.trans heq)
  intro k hk e he
  cases ev with
  | recv c m => exact hold k hk e he
  | step i ch =>
    refine hold k ?_ e he
    simp only [Sys.step] at hk
    split at hk
    · exact hk
    · split at hk <;> exact hk
  | restart =>
    rcases List.mem_append.1 hk with hk | hk
    · exact hold k hk e he
    · obtain ⟨t, ht, rfl⟩ := List.mem_map.1 hk
      have he' : Ev.wrote e ∈ t.log := by rw [(hi.threads t ht).2]; exact he
      obtain ⟨s₁, o, h1, h2, h3⟩ := thread_writer h hi ht he'
      refine ⟨t.conn, t.msg, t.start, s₁, o, (hi.threads t ht).1, h1, h2, ⟨[], by rw [List.append_nil]; exact h3.symm⟩, ?_⟩
      intro d hd hid
      exact absurd hid.symm (hi.done_not_thread hd t ht)

theorem dropInv_run {st : E.S.σ} (hst : GoodStore E st) (evs : List Event) : DropInv (Sys.run E st evs) := by
  have : ∀ (evs : List Event) (s : Sys E), SysInv st s → IdInv s → DropInv s → DropInv (evs.foldl Sys.step s) := by
    intro evs
    induction evs with
    | nil => exact fun s _ _ h => h
    | cons ev evs ih => exact fun s h hi hu => ih _ (sysInv_step h ev) (idInv_step hi ev) (dropInv_step h hi hu ev)
  exact this evs _ (sysInv_init hst) (idInv_init st) (by intro k hk; cases hk)

/-- Every request that added something has a run. -/
theorem writer_run {st : E.S.σ} (hst : GoodStore E st) (evs : List Event) {k : Nat} {e : Entry}
    (he : (k, Ev.wrote e) ∈ (Sys.run E st evs).hist) : WriterInfo (Sys.run E st evs) k := by
  have h := sysInv_run hst evs
  have hi := idInv_run st evs
  have hlt := hi.hist _ he
  have hm : k ∈ (Sys.run E st evs).threads.map Thread.id ++ (Sys.run E st evs).done.map Done.id ++ (Sys.run E st evs).dropped :=
    hi.perm.mem_iff.2 (List.mem_range.2 hlt)
  rcases List.mem_append.1 hm with hm | hm
  · rcases List.mem_append.1 hm with hm | hm
    · obtain ⟨t, ht, rfl⟩ := List.mem_map.1 hm
      have he' : Ev.wrote e ∈ t.log := by rw [(hi.threads t ht).2]; exact mem_histOf.2 he
      obtain ⟨s₁, o, h1, h2, h3⟩ := thread_writer h hi ht he'
      refine ⟨t.conn, t.msg, t.start, s₁, o, (hi.threads t ht).1, h1, h2, ⟨[], by simpa using h3.symm⟩, ?_⟩
      intro d hd hid
      exact absurd hid.symm (hi.done_not_thread hd t ht)
    · obtain ⟨d, hd, rfl⟩ := List.mem_map.1 hm
      exact done_writer h hi hd
  · exact dropInv_run hst evs k hm e (mem_histOf.2 he)

end Lair
