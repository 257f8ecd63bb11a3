import Verif.FallbackGensLemmas
import Verif.Props.Fallback

/-
C66: the signature fallback over the life of the server, with any number of sub-processes one after the other.

A history is any list of events: calls of `sign_by_pub_key` and their steps, callers that go away, steps of the write and read
loops of every sub-process (old ones included), lines printed by every process, processes ending. `answers c` is everything
the caller of the `c`-th call was told, in order.
-/
namespace Lair

theorem ginv (evs : List GEv) : GInv (FbAll.init.run evs) := GInv.init.run_ok evs

theorem told_given {s : FbAll} {g k : Nat} {y : FbGen} {r : FbReq} (h1 : s.gens[g]? = some y) (h2 : y.st.reqs[k]? = some r) :
    s.told (.given g k) = r.answers := by simp [FbAll.told, h1, h2]

theorem answers_given {s : FbAll} {c g k : Nat} {x : FbCall} {y : FbGen} {r : FbReq} (hc : s.calls[c]? = some x)
    (hp : x.phase = .given g k) (h1 : s.gens[g]? = some y) (h2 : y.st.reqs[k]? = some r) : s.answers c = r.answers := by
  simp [FbAll.answers, hc, hp, told_given h1 h2]

/-- **C66** At no time do two fallback processes run. -/
theorem C66_one_process (evs : List GEv) (g g' : Nat) (x x' : FbGen) (h : (FbAll.init.run evs).gens[g]? = some x)
    (h' : (FbAll.init.run evs).gens[g']? = some x') (hr : x.proc = .running) (hr' : x'.proc = .running) : g = g' := by
  have h1 := (ginv evs).run g x h hr
  rw [(ginv evs).run g' x' h' hr'] at h1
  exact (Option.some.inj h1).symm

/-- **C66** When the read loop or the write loop of a process is over, that process no longer runs. -/
theorem C66_no_process_without_loops (evs : List GEv) (g : Nat) (x : FbGen) (h : (FbAll.init.run evs).gens[g]? = some x)
    (hl : x.rLeft = true ∨ x.wLeft = true) : x.proc ≠ .running := by
  intro hr
  obtain ⟨y, h1, h2, h3⟩ := (ginv evs).cur g ((ginv evs).run g x h hr)
  rw [h] at h1; cases h1
  rcases hl with hl | hl
  · rw [h2] at hl; cases hl
  · rw [h3] at hl; cases hl

/-- **C66** Once the write loop or the read loop of a process has ended - its output is closed, or a request cannot be written to it - and
    looks at what is shared, that process is given up: it no longer runs. So no later call is handed to a process nobody reads from or
    writes to; with `C66_recovers`, the next call gets a new process. -/
theorem C66_broken_process_given_up (evs : List GEv) (g : Nat) (x : FbGen) (h : (FbAll.init.run evs).gens[g]? = some x) (e : GEv)
    (he : (x.st.wOpen = false ∧ e = .wLeave g) ∨ (x.st.rOpen = false ∧ e = .rLeave g)) :
    ∃ x', (FbAll.init.run (evs ++ [e])).gens[g]? = some x' ∧ x'.proc ≠ .running := by
  suffices ∃ x', (FbAll.init.run (evs ++ [e])).gens[g]? = some x' ∧ (x'.rLeft = true ∨ x'.wLeft = true) by
    obtain ⟨x', h1, h2⟩ := this
    exact ⟨x', h1, C66_no_process_without_loops _ g x' h1 h2⟩
  have hrun : FbAll.init.run (evs ++ [e]) = (FbAll.init.run evs).step e := by simp [FbAll.run, List.foldl_append]
  rw [hrun]
  generalize FbAll.init.run evs = s at h
  have hl : ∃ y, (s.leave g).gens[g]? = some y := by
    unfold FbAll.leave
    split
    · exact ⟨x.kill, by simp [h]⟩
    · exact ⟨x, h⟩
  obtain ⟨y, hy⟩ := hl
  rcases he with ⟨ho, rfl⟩ | ⟨ho, rfl⟩
  · simp only [FbAll.step, h]
    by_cases hw : x.wLeft = false
    · rw [if_pos ⟨ho, hw⟩]
      exact ⟨{ y with wLeft := true }, by simp [hy], Or.inr rfl⟩
    · rw [if_neg (fun hh => hw hh.2)]
      exact ⟨x, h, Or.inr (by simpa using hw)⟩
  · simp only [FbAll.step, h]
    by_cases hw : x.rLeft = false
    · rw [if_pos ⟨ho, hw⟩]
      exact ⟨{ y with rLeft := true }, by simp [hy], Or.inl rfl⟩
    · rw [if_neg (fun hh => hw hh.2)]
      exact ⟨x, h, Or.inl (by simpa using hw)⟩

-- the process takes no more input: the write of the request fails, the write loop ends, the process is killed although it still runs
example : let evs : List GEv := [.call "a" ⟨List.replicate 32 0, by decide⟩ [], .get 0 false none, .send 0, .gen 0 .take, .gen 0 .writeErr]
    (FbAll.init.run evs).gens.map (fun x => (x.st.wOpen, x.st.rOpen, x.proc)) = [(false, true, .running)] ∧
    (FbAll.init.run (evs ++ [.wLeave 0])).gens.map (fun x => x.proc) = [.killed] := by decide

/-- **C66** Nothing that happens to another sub-process - its loops ending late, its process ending, what it prints - touches the
    process that runs: it is not given up, its queue and loops are as before. -/
theorem C66_others_harmless (evs : List GEv) (g : Nat) (x : FbGen) (hx : (FbAll.init.run evs).gens[g]? = some x) (hr : x.proc = .running)
    (g' : Nat) (hne : g' ≠ g) (e : GEv) (he : (∃ e', e = .gen g' e') ∨ e = .rLeave g' ∨ e = .wLeave g' ∨ e = .exit g') :
    ((FbAll.init.run evs).run [e]).gens[g]? = some x ∧ ((FbAll.init.run evs).run [e]).cur = some g := by
  have hcur := (ginv evs).run g x hx hr
  generalize FbAll.init.run evs = s at *
  have hm : ∀ f : FbGen → FbGen, (s.gens.modify g' f)[g]? = some x := by intro f; rw [modify_get, hx]; simp [hne]
  have hlv : s.leave g' = s := by
    unfold FbAll.leave
    rw [if_neg (by rw [hcur]; intro h; exact hne (Option.some.inj h).symm)]
  show (s.step e).gens[g]? = some x ∧ (s.step e).cur = some g
  rcases he with ⟨e', rfl⟩ | rfl | rfl | rfl
  · simp only [FbAll.step]
    split
    · exact ⟨hx, hcur⟩
    · split
      · exact ⟨hm _, hcur⟩
      · exact ⟨hx, hcur⟩
    · exact ⟨hm _, hcur⟩
    · exact ⟨hm _, hcur⟩
  · simp only [FbAll.step, hlv]
    split
    · split
      · exact ⟨hm _, hcur⟩
      · exact ⟨hx, hcur⟩
    · exact ⟨hx, hcur⟩
  · simp only [FbAll.step, hlv]
    split
    · split
      · exact ⟨hm _, hcur⟩
      · exact ⟨hx, hcur⟩
    · exact ⟨hx, hcur⟩
  · exact ⟨hm _, hcur⟩

/-- **C66** No caller is answered twice. -/
theorem C66_at_most_one_answer (evs : List GEv) (c : Nat) : ((FbAll.init.run evs).answers c).length ≤ 1 := by
  cases hc : (FbAll.init.run evs).calls[c]? with
  | none => simp [FbAll.answers, hc]
  | some x =>
    cases hp : x.phase with
    | asked => simp [FbAll.answers, hc, hp, FbAll.told]
    | has g => simp [FbAll.answers, hc, hp, FbAll.told]
    | failed e => simp [FbAll.answers, hc, hp, FbAll.told]
    | given g k =>
      obtain ⟨y, r, h1, h2, -⟩ := (ginv evs).given c x g k hc hp
      rw [answers_given hc hp h1 h2]
      have hf := (ginv evs).fine g y h1
      rw [hf.1] at h2
      exact C32_at_most_one_answer y.evs k r h2

/-- **C66** The `c`-th call is for what it was made for. -/
theorem C66_calls_recorded (evs : List GEv) :
    (FbAll.init.run evs).calls.map (fun x => (x.msgId, x.pk, x.data)) = made evs := by
  have := run_calls evs FbAll.init
  rw [show FbAll.init.calls.map FbCall.triple = [] from rfl, List.nil_append] at this
  exact this

/-- **C66** Whatever a process is sent, as its `k`-th line, is the id, key and data of a call that went to that process, and to no other, as
    its `k`-th request; the lines of a process, and of different processes, are of different calls. -/
theorem C66_process_sees_calls (evs : List GEv) (g : Nat) (x : FbGen) (hx : (FbAll.init.run evs).gens[g]? = some x) (k : Nat)
    (t : String × B 32 × Bytes) (ht : x.st.stdin[k]? = some t) :
    ∃ (c : Nat) (q : FbCall), (FbAll.init.run evs).calls[c]? = some q ∧ q.phase = .given g k ∧ t = (q.msgId, q.pk, q.data) ∧
      (made evs)[c]? = some t := by
  have hf := (ginv evs).fine g x hx
  have hst := FStd.init.run x.evs FFlags.init
  rw [← hf.1] at hst
  obtain ⟨n, hn, hs, -⟩ := hst
  rw [hs, List.getElem?_take] at ht
  split at ht
  · rw [List.getElem?_map, Option.map_eq_some_iff] at ht
    obtain ⟨r, hr, hrt⟩ := ht
    obtain ⟨c, q, h1, h2⟩ := GSur.init.run evs g x k hx (List.getElem?_eq_some_iff.mp hr).1
    obtain ⟨y, r', h3, h4, h5⟩ := (ginv evs).given c q g k h1 h2
    rw [hx] at h3; cases h3
    rw [hr] at h4; cases h4
    refine ⟨c, q, h1, h2, hrt.symm.trans h5, ?_⟩
    rw [← C66_calls_recorded, List.getElem?_map, h1]
    simp only [Option.map_some, Option.some.injEq]
    exact (hrt.symm.trans h5).symm
  · cases ht

/-- **C66** Every answer a caller gets is one of the fallback's own error texts, or the reason why no process could be started for
    this call, or was reported by the very process this call's request had been handed to, in a line carrying this call's message id
    printed after that. What an earlier (or later) process prints never answers it. -/
theorem C66_answer_origin (evs : List GEv) (c : Nat) (a : Res (B 64)) (ha : a ∈ (FbAll.init.run evs).answers c) :
    (∃ x ∈ fbInternal, a = .error x) ∨ (∃ pf e, .get c pf (some e) ∈ evs ∧ a = .error e) ∨
      ∃ pre g l post k q, evs = pre ++ .gen g (.line l) :: post ∧ (FbAll.init.run pre).calls[c]? = some q ∧ q.phase = .given g k ∧
        l.Says q.msgId a := by
  revert ha
  rw [show evs = evs.reverse.reverse by simp]
  induction evs.reverse with
  | nil => intro ha; simp [FbAll.run, FbAll.init, FbAll.answers] at ha
  | cons e es ih =>
    intro ha
    rw [List.reverse_cons] at ha ⊢
    generalize es.reverse = pre at ha ih
    rw [FbAll.run_append] at ha
    change a ∈ ((FbAll.init.run pre).step e).answers c at ha
    have hi := ginv pre
    have old : a ∈ (FbAll.init.run pre).answers c → (∃ x ∈ fbInternal, a = .error x) ∨
        (∃ pf er, .get c pf (some er) ∈ pre ++ [e] ∧ a = .error er) ∨
        ∃ pre' g l post k q, pre ++ [e] = pre' ++ .gen g (.line l) :: post ∧ (FbAll.init.run pre').calls[c]? = some q ∧
          q.phase = .given g k ∧ l.Says q.msgId a := by
      intro h
      rcases ih h with h | ⟨pf, er, h1, h2⟩ | ⟨pre', g, l, post, k, q, h1, h2⟩
      · exact Or.inl h
      · exact Or.inr (Or.inl ⟨pf, er, List.mem_append_left _ h1, h2⟩)
      · exact Or.inr (Or.inr ⟨pre', g, l, post ++ [e], k, q, by rw [h1]; simp, h2⟩)
    have hi' := hi.step e
    cases hc : (FbAll.init.run pre).calls[c]? with
    | none =>
      -- a call made in this very step has no answer
      exfalso
      have hlen := List.getElem?_eq_none_iff.mp hc
      cases hc' : ((FbAll.init.run pre).step e).calls[c]? with
      | none => simp [FbAll.answers, hc'] at ha
      | some x' =>
        have h1 := (List.getElem?_eq_some_iff.mp hc').1
        have h2 := calls_len (FbAll.init.run pre) e
        cases e with
        | call id pk data =>
          have : c = (FbAll.init.run pre).calls.length := by simp [made] at h2; omega
          subst this
          simp only [FbAll.step] at hc'
          simp at hc'
          simp [FbAll.answers, FbAll.step, FbAll.told] at ha
        | _ => simp [made] at h2; omega
    | some x =>
      obtain ⟨x', h1, ⟨t1, t2, t3, -⟩, h2⟩ := call_step _ e c x hc
      have hax : a ∈ ((FbAll.init.run pre).step e).told x'.phase := by simpa [FbAll.answers, h1] using ha
      rcases h2 with h2 | ⟨pf, f, rfl, h3, ⟨g, h4⟩ | ⟨er, rfl, h4⟩⟩ | ⟨g, y, rfl, h3, h4, h5⟩
      · cases hp : x.phase with
        | asked => rw [h2, hp] at hax; simp [FbAll.told] at hax
        | has g => rw [h2, hp] at hax; simp [FbAll.told] at hax
        | failed er =>
          refine old ?_
          rw [h2, hp] at hax
          simp [FbAll.told] at hax
          simp [FbAll.answers, hc, hp, FbAll.told, hax]
        | given g k =>
          obtain ⟨y, r, g1, g2, g3⟩ := hi.given c x g k hc hp
          obtain ⟨y', g4, g5⟩ := gen_step _ e g y g1
          have hfin : FInv y.st := by rw [(hi.fine g y g1).1]; exact FInv.init.run _
          rcases g5 with g5 | ⟨e', g5, g6⟩
          · refine old ?_
            rw [h2, hp, told_given g4 (by rw [g5]; exact g2)] at hax
            rw [answers_given hc hp g1 g2]; exact hax
          · obtain ⟨r', k1, k2, k3, k4, k5⟩ := step_next hfin e' g2
            rw [← g5] at k1
            rw [h2, hp, told_given g4 k1] at hax
            rcases k5 with k5 | ⟨a', k5, k6⟩
            · refine old ?_
              rw [answers_given hc hp g1 g2, ← k5]; exact hax
            · rw [k5] at hax
              rcases List.mem_append.mp hax with hax | hax
              · refine old ?_
                rw [answers_given hc hp g1 g2]; exact hax
              · simp at hax; subst hax
                rcases k6 with k6 | ⟨l, k6, k7⟩
                · exact Or.inl k6
                · subst k6
                  rcases g6 with rfl | ⟨_, _, -, -, -, -, g6⟩
                  · refine Or.inr (Or.inr ⟨pre, g, l, [], k, x, rfl, hc, hp, ?_⟩)
                    have : r.msgId = x.msgId := congrArg Prod.fst g3
                    rw [← this]; exact k7
                  · cases g6
      · rw [h4] at hax; simp [FbAll.told] at hax
      · rw [h4] at hax
        simp [FbAll.told] at hax
        exact Or.inr (Or.inl ⟨pf, er, by simp, hax⟩)
      · -- handed over in this very step: only refused at once, if the write loop has ended
        obtain ⟨y', r', g1, g2, g3⟩ := hi'.given c x' _ _ h1 h5
        obtain ⟨y'', g4, g5⟩ := gen_step _ (.send c) g y h4
        rw [g1] at g4; cases g4
        rw [h5, told_given g1 g2] at hax
        rcases g5 with g5 | ⟨e', g5, g6 | ⟨_, q, -, -, -, -, rfl⟩⟩
        · rw [g5] at g2
          have := (List.getElem?_eq_some_iff.mp g2).1
          omega
        · cases g6
        · rw [g5] at g2
          simp only [FbSt.step] at g2
          split at g2
          · simp at g2; subst g2; cases hax
          · simp at g2; subst g2; simp at hax; subst hax
            exact Or.inl ⟨_, by simp [fbInternal], rfl⟩

/-- **C66** If no process can be started, the caller is told why. -/
theorem C66_spawn_failure_reported (evs : List GEv) (id : String) (pk : B 32) (data : Bytes) (e : String)
    (hno : ∀ (g : Nat) (x : FbGen), (FbAll.init.run evs).gens[g]? = some x → x.proc ≠ .running) (pf : Bool) :
    ((FbAll.init.run evs).run [.call id pk data, .get (FbAll.init.run evs).calls.length pf (some e)]).answers
      (FbAll.init.run evs).calls.length = [.error e] := by
  generalize FbAll.init.run evs = s at hno
  have hu : FbAll.usable { s with calls := s.calls ++ [⟨id, pk, data, .asked, false⟩] } pf = none := by
    unfold FbAll.usable
    split
    · rfl
    · split
      · rfl
      · rename_i x hx
        rw [if_neg (fun h => hno _ x hx h.1)]
  simp only [FbAll.run, List.foldl_cons, List.foldl_nil, FbAll.step]
  rw [List.getElem?_append_right (Nat.le_refl _)]
  simp only [Nat.sub_self, List.getElem?_cons_zero, hu]
  simp [FbAll.answers, setPhase_get, FbAll.told]

/-- **C66** After any history, when no process runs (it crashed, was given up, or none was ever started), the next call gets a
    fresh process; that process is sent exactly this request, and the signature it prints for it is the caller's answer. -/
theorem C66_recovers (evs : List GEv) (id : String) (pk : B 32) (data : Bytes) (sig : B 64) (pf : Bool)
    (hno : ∀ (g : Nat) (x : FbGen), (FbAll.init.run evs).gens[g]? = some x → x.proc ≠ .running) :
    let s := FbAll.init.run evs
    let g := s.gens.length
    let s' := s.run [.call id pk data, .get s.calls.length pf none, .send s.calls.length, .gen g .take, .gen g .written]
    (s'.gens[g]?.map (fun x => (x.proc, x.st.stdin)) = some (.running, [(id, pk, data)])) ∧
    (s'.run [.gen g (.line (.reply id (some (some sig.val)) none))]).answers s.calls.length = [.ok sig] := by
  generalize FbAll.init.run evs = s at hno
  have hu : FbAll.usable { s with calls := s.calls ++ [⟨id, pk, data, .asked, false⟩] } pf = none := by
    unfold FbAll.usable
    split
    · rfl
    · split
      · rfl
      · rename_i x hx
        rw [if_neg (fun h => hno _ x hx h.1)]
  -- the calls and sub-processes after each step
  have h1 : s.step (.call id pk data) = { s with calls := s.calls ++ [⟨id, pk, data, .asked, false⟩] } := rfl
  generalize hs1 : ({ s with calls := s.calls ++ [⟨id, pk, data, .asked, false⟩] } : FbAll) = s1 at h1 hu
  have hc1 : s1.calls[s.calls.length]? = some ⟨id, pk, data, .asked, false⟩ := by rw [← hs1]; simp
  have hg1 : s1.gens.length = s.gens.length := by rw [← hs1]
  obtain ⟨s2, hs2⟩ : ∃ s2, s2 = s1.step (.get s.calls.length pf none) := ⟨_, rfl⟩
  have hc2 : s2.calls[s.calls.length]? = some ⟨id, pk, data, .has s.gens.length, false⟩ := by
    rw [hs2]
    simp only [FbAll.step, hc1, hu]
    rw [setPhase_get]
    simp [dropCur_calls, hc1, hg1]
  have hg2 : s2.gens[s.gens.length]? = some .fresh := by
    rw [hs2]
    simp only [FbAll.step, hc1, hu]
    show (s1.dropCur.gens ++ [FbGen.fresh])[s.gens.length]? = _
    rw [List.getElem?_append_right (by rw [dropCur_len, hg1]; exact Nat.le_refl _), dropCur_len, hg1]
    simp
  obtain ⟨s3, hs3⟩ : ∃ s3, s3 = s2.step (.send s.calls.length) := ⟨_, rfl⟩
  have hc3 : s3.calls[s.calls.length]? = some ⟨id, pk, data, .given s.gens.length 0, false⟩ := by
    rw [hs3]
    simp only [FbAll.step, hc2, hg2]
    rw [setPhase_get]
    simp [hc2, FbGen.fresh, FbSt.init]
  have hg3 : s3.gens[s.gens.length]? = some (FbGen.fresh.step (.submit id pk data)) := by
    rw [hs3]
    simp only [FbAll.step, hc2, hg2]
    show (s2.gens.modify _ _)[_]? = _
    rw [modify_get, hg2]; simp
  have hg : ∀ (t : FbAll) (y : FbGen) (e : FbEv), (e = .take ∨ e = .written ∨ ∃ l, e = .line l) → t.gens[s.gens.length]? = some y →
      (t.step (.gen s.gens.length e)).gens[s.gens.length]? = some (y.step e) ∧ (t.step (.gen s.gens.length e)).calls = t.calls := by
    rintro t y e (rfl | rfl | ⟨l, rfl⟩) hy <;>
    · refine ⟨?_, rfl⟩
      show (t.gens.modify _ _)[_]? = _
      rw [modify_get, hy]; simp
  obtain ⟨g4, c4⟩ := hg s3 _ .take (Or.inl rfl) hg3
  obtain ⟨g5, c5⟩ := hg _ _ .written (Or.inr (Or.inl rfl)) g4
  obtain ⟨g6, c6⟩ := hg _ _ (.line (.reply id (some (some sig.val)) none)) (Or.inr (Or.inr ⟨_, rfl⟩)) g5
  have hrun : s.run [.call id pk data, .get s.calls.length pf none, .send s.calls.length, .gen s.gens.length .take, .gen s.gens.length .written]
      = (s3.step (.gen s.gens.length .take)).step (.gen s.gens.length .written) := by
    rw [hs3, hs2, ← h1]; rfl
  dsimp only
  rw [hrun]
  constructor
  · rw [g5]
    simp [FbGen.step, FbGen.fresh, FbSt.step, FbSt.init, AMap.get]
  · have hc6 : (((s3.step (.gen s.gens.length .take)).step (.gen s.gens.length .written)).run
        [.gen s.gens.length (.line (.reply id (some (some sig.val)) none))]).calls[s.calls.length]? =
        some ⟨id, pk, data, .given s.gens.length 0, false⟩ := by
      show (FbAll.calls (FbAll.step _ _))[_]? = _
      rw [c5, c4]; exact hc3
    have hr6 : ((((FbGen.fresh.step (.submit id pk data)).step .take).step .written).step
        (.line (.reply id (some (some sig.val)) none))).st.reqs = [⟨id, pk, data, [.ok sig]⟩] := by
      simp [FbGen.step, FbGen.fresh, FbSt.step, FbSt.init, AMap.get, AMap.insert, AMap.erase, FbSt.answer, fbAnswer, List.modify]
    exact answers_given hc6 rfl g6 (r := ⟨id, pk, data, [.ok sig]⟩) (by rw [hr6]; rfl)

/-- **C66** While a process runs, calls use it: no other is started. -/
theorem C66_reuses (evs : List GEv) (g : Nat) (x : FbGen) (hx : (FbAll.init.run evs).gens[g]? = some x) (hr : x.proc = .running)
    (c : Nat) (q : FbCall) (hc : (FbAll.init.run evs).calls[c]? = some q) (hp : q.phase = .asked) (hd : q.dropped = false)
    (fail : Option String) :
    ((FbAll.init.run evs).run [.get c false fail, .send c]).calls[c]? = some { q with phase := .given g x.st.reqs.length } ∧
    ((FbAll.init.run evs).run [.get c false fail, .send c]).gens.length = (FbAll.init.run evs).gens.length := by
  have hcur := (ginv evs).run g x hx hr
  generalize FbAll.init.run evs = s at *
  obtain ⟨id, pk, data, ph, dr⟩ := q
  simp only at hp hd
  subst hp hd
  have hu : s.usable false = some g := by simp [FbAll.usable, hcur, hx, hr]
  have h1 : s.step (.get c false fail) = s.setPhase c (.has g) := by simp [FbAll.step, hc, hu]
  have h2 : (s.setPhase c (.has g)).calls[c]? = some ⟨id, pk, data, .has g, false⟩ := by rw [setPhase_get, hc]; simp
  have h3 : (s.setPhase c (.has g)).gens[g]? = some x := hx
  show ((s.step (.get c false fail)).step (.send c)).calls[c]? = _ ∧ ((s.step (.get c false fail)).step (.send c)).gens.length = _
  rw [h1]
  simp only [FbAll.step, h2, h3]
  refine ⟨?_, ?_⟩
  · rw [setPhase_get]; simp [h2]
  · show (s.gens.modify g _).length = _
    simp

/-- **C66** After any history, a call that has got a process (or has already handed its request to it) is answered, exactly once, if
    that process ends: once its read loop has ended, the write in progress is over and the write loop has looked at its queue once
    more. -/
theorem C66_answered_after_process_end (evs : List GEv) (c : Nat) (q : FbCall) (hc : (FbAll.init.run evs).calls[c]? = some q) (g : Nat)
    (hq : (q.phase = .has g ∧ q.dropped = false) ∨ ∃ k, q.phase = .given g k) (w : FbEv) (hw : w = .written ∨ w = .writeErr) :
    (((FbAll.init.run evs).run [.send c, .gen g .eof, .rLeave g, .gen g .drain, .gen g w, .gen g .take]).answers c).length = 1 := by
  -- after `send` the request is handed over
  have h1 : ∃ q' k, ((FbAll.init.run evs).step (.send c)).calls[c]? = some q' ∧ q'.phase = .given g k := by
    rcases hq with ⟨h1, h2⟩ | ⟨k, h1⟩
    · obtain ⟨id, pk, data, ph, dr⟩ := q
      simp only at h1 h2
      subst h1 h2
      obtain ⟨x, hx⟩ : ∃ x, (FbAll.init.run evs).gens[g]? = some x :=
        ⟨_, List.getElem?_eq_getElem ((ginv evs).has c _ g hc rfl)⟩
      simp only [FbAll.step, hc, hx]
      rw [setPhase_get]
      simp [hc]
    · obtain ⟨q', h2, -, h3 | ⟨_, _, h3, -⟩ | ⟨_, _, -, h3, -⟩⟩ := call_step _ (.send c) c q hc
      · exact ⟨q', k, h2, h3.trans h1⟩
      · cases h3
      · rw [h1] at h3; cases h3
  obtain ⟨q', k, hc1, hp1⟩ := h1
  have hi1 : GInv ((FbAll.init.run evs).step (.send c)) := (ginv evs).step _
  show (FbAll.answers (((((((FbAll.init.run evs).step (.send c)).step (.gen g .eof)).step (.rLeave g)).step (.gen g .drain)).step (.gen g w)).step (.gen g .take)) c).length = 1
  generalize (FbAll.init.run evs).step (.send c) = s1 at hc1 hi1
  obtain ⟨y1, r1, hy1, -, -⟩ := hi1.given c q' g k hc1 hp1
  have hcalls : ∀ (t : FbAll) (e : GEv), (∃ e', e = .gen g e') ∨ e = .rLeave g → t.calls[c]? = some q' → (t.step e).calls[c]? = some q' := by
    intro t e he ht
    obtain ⟨q'', h2, -⟩ := call_step t e c q' ht
    have : (t.step e).calls = t.calls := by
      have lv : (t.leave g).calls = t.calls := by unfold FbAll.leave; split <;> rfl
      rcases he with ⟨e', rfl⟩ | rfl
      · simp only [FbAll.step]; (repeat' split) <;> rfl
      · simp only [FbAll.step]; (repeat' split) <;> first | rfl | exact lv
    rw [this]; exact ht
  have hplain : ∀ (t : FbAll) (y : FbGen) (e : FbEv), (e = .eof ∨ e = .take ∨ e = .written ∨ e = .writeErr) → t.gens[g]? = some y →
      (t.step (.gen g e)).gens[g]? = some (y.step e) := by
    rintro t y e (rfl | rfl | rfl | rfl) hy <;>
    · show (t.gens.modify _ _)[_]? = _
      rw [modify_get, hy]; simp
  have g2 := hplain s1 y1 .eof (Or.inl rfl) hy1
  have c2 := hcalls s1 (.gen g .eof) (Or.inl ⟨_, rfl⟩) hc1
  have i2 := hi1.step (.gen g .eof)
  generalize s1.step (.gen g .eof) = s2 at g2 c2 i2
  have hro : (y1.step .eof).st.rOpen = false := by
    show (y1.st.step .eof).rOpen = false
    simp only [FbSt.step]; split
    · rfl
    · rename_i h; simpa using h
  -- the read loop leaves (or has already left)
  have g3 : ∃ y3, (s2.step (.rLeave g)).gens[g]? = some y3 ∧ y3.st = (y1.step .eof).st ∧ y3.rLeft = true ∧ y3.evs = (y1.step .eof).evs := by
    simp only [FbAll.step, g2, hro]
    cases hl : (y1.step .eof).rLeft with
    | true =>
      rw [if_neg (by rintro ⟨-, h⟩; cases h)]
      exact ⟨_, g2, rfl, hl, rfl⟩
    | false =>
      rw [if_pos ⟨trivial, rfl⟩]
      have : ∃ y, (s2.leave g).gens[g]? = some y ∧ y.st = (y1.step .eof).st ∧ y.evs = (y1.step .eof).evs := by
        unfold FbAll.leave
        split
        · show ∃ y, (s2.gens.modify g FbGen.kill)[g]? = some y ∧ _
          rw [modify_get, g2]
          simp [FbGen.kill]
        · exact ⟨_, g2, rfl, rfl⟩
      obtain ⟨y, k1, k2, k3⟩ := this
      rw [modify_get, k1]
      refine ⟨_, rfl, ?_⟩
      simp [k2, k3]
  obtain ⟨y3, g3, e3, l3, v3⟩ := g3
  have c3 := hcalls s2 (.rLeave g) (Or.inr rfl) c2
  generalize s2.step (.rLeave g) = s3 at g3 c3
  have g4 : (s3.step (.gen g .drain)).gens[g]? = some (y3.step .drain) := by
    show (s3.gens.modify _ _)[_]? = _
    rw [modify_get, g3]; simp [l3]
  have c4 := hcalls s3 (.gen g .drain) (Or.inl ⟨_, rfl⟩) c3
  have g5 := hplain _ _ w (by rcases hw with rfl | rfl <;> simp) g4
  have c5 := hcalls _ (.gen g w) (Or.inl ⟨_, rfl⟩) c4
  have g6 := hplain _ _ .take (by simp) g5
  have c6 := hcalls _ (.gen g .take) (Or.inl ⟨_, rfl⟩) c5
  have hst : (((y3.step .drain).step w).step .take).st = FbSt.init.run (y1.evs ++ [.eof, .drain, w, .take]) := by
    rw [FbSt.run_append, ← (hi1.fine g y1 hy1).1]
    show ((y3.st.step .drain).step w).step .take = _
    rw [e3]; rfl
  have hlen : k < ((((y3.step .drain).step w).step .take).st.reqs).length := by
    have hi0 := hi1
    obtain ⟨yy, r, h1, h2, -⟩ := hi1.given c q' g k hc1 hp1
    rw [hy1] at h1; cases h1
    have hl : ∀ (t : FbSt) (e : FbEv), t.reqs.length ≤ (t.step e).reqs.length := fun t e => by rw [fbStep_len]; omega
    show k < (((y3.st.step .drain).step w).step .take).reqs.length
    have := hl ((y3.st.step .drain).step w) .take
    have := hl (y3.st.step .drain) w
    have := hl y3.st .drain
    have : y1.st.reqs.length ≤ y3.st.reqs.length := by rw [e3]; exact hl y1.st .eof
    have := (List.getElem?_eq_some_iff.mp h2).1
    omega
  obtain ⟨r, hr⟩ : ∃ r, (((y3.step .drain).step w).step .take).st.reqs[k]? = some r := ⟨_, List.getElem?_eq_getElem hlen⟩
  rw [answers_given c6 hp1 g6 hr]
  rw [hst] at hr
  exact C32_answered_after_process_end y1.evs w hw k r hr

/-- **C66** After any history, if the requests handed to process `g` all carry different message ids, then when it prints a signature (or
    an error) under the id of a call it was sent and that is not answered yet - and its lines are still being read -, exactly that
    caller gets exactly that; no other call, of this or another process, is affected. -/
theorem C66_delivered (evs : List GEv) (g : Nat) (y : FbGen) (hy : (FbAll.init.run evs).gens[g]? = some y)
    (hd : ∀ (c c' : Nat) (x x' : FbCall) (k k' : Nat), (FbAll.init.run evs).calls[c]? = some x → (FbAll.init.run evs).calls[c']? = some x' →
      x.phase = .given g k → x'.phase = .given g k' → x.msgId = x'.msgId → c = c')
    (c : Nat) (x : FbCall) (k : Nat) (hc : (FbAll.init.run evs).calls[c]? = some x) (hp : x.phase = .given g k)
    (hsent : (x.msgId, x.pk, x.data) ∈ y.st.stdin) (hun : (FbAll.init.run evs).answers c = []) (hro : y.st.rOpen = true)
    (sig : Option (Option Bytes)) (err : Option String) (a : Res (B 64)) (ha : FbLine.Says (.reply x.msgId sig err) x.msgId a) :
    ((FbAll.init.run evs).run [.gen g (.line (.reply x.msgId sig err))]).answers c = [a] ∧
    ∀ c', c' ≠ c → ((FbAll.init.run evs).run [.gen g (.line (.reply x.msgId sig err))]).answers c' = (FbAll.init.run evs).answers c' := by
  have hi := ginv evs
  have hsur := GSur.init.run evs
  generalize FbAll.init.run evs = s at *
  obtain ⟨y', r, h1, h2, h3⟩ := hi.given c x g k hc hp
  rw [hy] at h1; cases h1
  have hf := (hi.fine g y hy).1
  rw [answers_given hc hp hy h2] at hun
  obtain ⟨e1, e2, e3⟩ : r.msgId = x.msgId ∧ r.pk = x.pk ∧ r.data = x.data := by
    simp only [FbReq.triple, Prod.mk.injEq] at h3; exact h3
  have hrec : y.st.reqs.map (fun r => (r.msgId, r.pk, r.data)) = submits y.evs := by rw [hf]; exact C32_requests_recorded y.evs
  -- different message ids within the process
  have hnd : ((submits y.evs).map (·.1)).Nodup := by
    rw [← hrec, List.map_map]
    refine List.pairwise_iff_getElem.mpr ?_
    intro i j hi0 hj hij heq
    have hj' : j < y.st.reqs.length := by simpa using hj
    have heq := (List.getElem?_eq_getElem hi0).trans ((congrArg some heq).trans (List.getElem?_eq_getElem hj).symm)
    obtain ⟨ci, xi, a1, a2⟩ := hsur g y i hy (by omega)
    obtain ⟨cj, xj, b1, b2⟩ := hsur g y j hy hj'
    obtain ⟨yi, ri, a3, a4, a5⟩ := hi.given ci xi g i a1 a2
    obtain ⟨yj, rj, b3, b4, b5⟩ := hi.given cj xj g j b1 b2
    rw [hy] at a3 b3; cases a3; cases b3
    simp only [List.getElem?_map, a4, b4, Option.map_some, Function.comp, Option.some.injEq] at heq
    have : ci = cj := hd ci cj xi xj i j a1 b1 a2 b2 (by
      have u1 : ri.msgId = xi.msgId := congrArg Prod.fst a5
      have u2 : rj.msgId = xj.msgId := congrArg Prod.fst b5
      rw [← u1, ← u2]; exact heq)
    subst this
    rw [a1] at b1; cases b1
    rw [a2] at b2; cases b2
    omega
  have hdel := C32_delivered y.evs hnd k r (by rw [← hf]; exact h2) (by rw [← hf, e1, e2, e3]; exact hsent) hun (by rw [← hf]; exact hro) sig err a
    (by rw [e1]; exact ha)
  rw [FbSt.run_append, ← hf, e1] at hdel
  change (y.st.step (.line (.reply x.msgId sig err))).reqs[k]? = _ ∧ ∀ j, j ≠ k → (y.st.step (.line (.reply x.msgId sig err))).reqs[j]? = _ at hdel
  obtain ⟨d1, d2⟩ := hdel
  show (s.step (.gen g (.line (.reply x.msgId sig err)))).answers c = [a] ∧ ∀ c', c' ≠ c → (s.step (.gen g (.line (.reply x.msgId sig err)))).answers c' = _
  have hg' : (s.step (.gen g (.line (.reply x.msgId sig err)))).gens = s.gens.modify g (fun x' => x'.step (.line (.reply x.msgId sig err))) := rfl
  have hcs : (s.step (.gen g (.line (.reply x.msgId sig err)))).calls = s.calls := rfl
  have hgy : (s.step (.gen g (.line (.reply x.msgId sig err)))).gens[g]? = some (y.step (.line (.reply x.msgId sig err))) := by
    rw [hg', modify_get, hy]; simp
  constructor
  · exact answers_given (by rw [hcs]; exact hc) hp hgy d1
  · intro c' hne
    simp only [FbAll.answers, hcs]
    cases hc' : s.calls[c']? with
    | none => rfl
    | some x' =>
      simp only
      cases hp' : x'.phase with
      | asked => rfl
      | has g' => rfl
      | failed e => rfl
      | given g' k' =>
        by_cases hgg : g' = g
        · subst hgg
          have hkk : k' ≠ k := by rintro rfl; exact hne (hi.inj c' c x' x g' k' hc' hc hp' hp)
          simp only [FbAll.told, hgy, hy]
          rw [show (y.step (.line (.reply x.msgId sig err))).st.reqs[k']? = y.st.reqs[k']? from d2 k' hkk]
        · have : (s.step (.gen g (.line (.reply x.msgId sig err)))).gens[g']? = s.gens[g']? := by
            rw [hg', modify_get]
            have : ¬ g = g' := fun h => hgg h.symm
            cases s.gens[g']? <;> simp [this]
          simp only [FbAll.told, this]

/-- C66. As long as a call is waiting for its answer (and its caller for the call), its sub-process's queue stays open: the
    write loop cannot come to an end for want of callers. -/
theorem C66_waited_for (evs : List GEv) (c g k : Nat) (q : FbCall) (hc : (FbAll.init.run evs).calls[c]? = some q)
    (hp : q.phase = .has g ∨ q.phase = .given g k) (hd : q.dropped = false) (ha : (FbAll.init.run evs).answers c = []) :
    FbAll.init.run (evs ++ [.gen g .idle]) = FbAll.init.run evs := by
  have h : (FbAll.init.run evs).unreferenced g = false := by
    have hm := List.mem_of_getElem? hc
    simp only [FbAll.unreferenced, Bool.and_eq_false_iff, List.all_eq_false]
    refine Or.inr ⟨q, hm, ?_⟩
    simp only [FbAll.answers, hc] at ha
    rcases hp with hp | hp
    · simp [FbAll.holds, hp, hd]
    · rw [hp] at ha
      simp [FbAll.holds, hp, hd, ha]
  simp only [FbAll.run, List.foldl_append, List.foldl_cons, List.foldl_nil]
  simp only [FbAll.run] at h
  simp only [FbAll.step, h]
  rfl

/-- C66. A sub-process that has been given up and that no call waits for any more is let go: its write loop, when it has nothing left to write,
    ends, and with it the program's input. -/
theorem C66_let_go (evs : List GEv) (g : Nat) (y : FbGen) (hy : (FbAll.init.run evs).gens[g]? = some y) (hcur : (FbAll.init.run evs).cur ≠ some g)
    (hcalls : ∀ (c : Nat) (q : FbCall), (FbAll.init.run evs).calls[c]? = some q → q.dropped = false →
      q.phase ≠ .has g ∧ ∀ k, q.phase = .given g k → (FbAll.init.run evs).answers c ≠ [])
    (hq : y.st.writing = none ∧ y.st.queue = []) :
    ∃ y', (FbAll.init.run (evs ++ [.gen g .idle])).gens[g]? = some y' ∧ y'.st.wOpen = false := by
  have h : (FbAll.init.run evs).unreferenced g = true := by
    simp only [FbAll.unreferenced, Bool.and_eq_true, List.all_eq_true, bne_iff_ne, ne_eq, Bool.not_eq_true']
    refine ⟨hcur, fun q hm => ?_⟩
    obtain ⟨c, hc⟩ := List.getElem?_of_mem hm
    cases hd : q.dropped with
    | true => simp [FbAll.holds, hd]
    | false =>
      obtain ⟨h1, h2⟩ := hcalls c q hc hd
      simp only [FbAll.answers, hc] at h2
      simp only [FbAll.holds, hd, Bool.not_false, Bool.true_and]
      cases hp : q.phase with
      | has g' => rw [hp] at h1; simp only [beq_eq_false_iff_ne, ne_eq]; rintro rfl; exact h1 rfl
      | given g' k =>
        by_cases hg : g' = g
        · subst hg
          have := h2 k hp
          rw [hp] at this
          cases ha : (FbAll.init.run evs).told (.given g' k) with
          | nil => exact absurd ha this
          | cons a b => simp
        · simp [hg]
      | _ => rfl
  simp only [FbAll.run, List.foldl_append, List.foldl_cons, List.foldl_nil]
  simp only [FbAll.run] at h hy
  simp only [FbAll.step, h, if_true, List.getElem?_modify, hy]
  refine ⟨_, rfl, ?_⟩
  simp only [if_true, FbGen.step, FbSt.step, hq.1, hq.2]
  cases hw : y.st.wOpen <;> simp [FbSt.wExit, hw]

/-! ### A life of the fallback

The first call starts process 0, which signs it; process 0 is sent a second call and crashes; the second caller is told; a third call - still while
the loops of process 0 are ending - starts process 1, which signs it. A late line of process 0 changes nothing. -/

def fbStory : List GEv :=
  [.call "a" (B.fill 32 1) [1], .get 0 false none, .send 0, .gen 0 .take, .gen 0 .written, .gen 0 (.line (.reply "a" (some (some (B.fill 64 7).val)) none)),
   .call "b" (B.fill 32 2) [2], .get 1 false none, .send 1, .gen 0 .take, .gen 0 .written,
   .exit 0,
   .call "c" (B.fill 32 3) [3], .get 2 false none, .send 2]

def fbStoryEnd : List GEv :=
  [.gen 0 (.line (.reply "c" (some (some (B.fill 64 9).val)) none)), .gen 0 .eof, .rLeave 0, .gen 0 .drain,
   .gen 1 .take, .gen 1 .written, .gen 1 (.line (.reply "c" (some (some (B.fill 64 8).val)) none))]

set_option maxRecDepth 100000 in
example : (List.range 3).map (FbAll.init.run (fbStory ++ fbStoryEnd)).answers
    = [[.ok (B.fill 64 7)], [.error "fallback executable closed"], [.ok (B.fill 64 8)]] := by decide +kernel

-- Process 0 has ended, process 1 runs and is the only one; the first two requests went to 0, the third to 1.
set_option maxRecDepth 100000 in
example : (FbAll.init.run fbStory).gens.map (·.proc) = [.exited, .running] ∧
    (FbAll.init.run fbStory).calls.map (·.phase) = [.given 0 0, .given 0 1, .given 1 0] ∧
    (FbAll.init.run (fbStory ++ fbStoryEnd)).gens.map (fun x => (x.rLeft, x.st.stdin))
      = [(true, [("a", B.fill 32 1, [1]), ("b", B.fill 32 2, [2])]), (false, [("c", B.fill 32 3, [3])])] := by decide +kernel

-- `C66_recovers`: after process 0 has ended nothing runs.
set_option maxRecDepth 100000 in
example : (FbAll.init.run (fbStory.take 12)).gens.map (·.proc) = [.exited] := by decide +kernel

-- `C66_spawn_failure_reported`: the program is gone.
set_option maxRecDepth 100000 in
example : (FbAll.init.run (fbStory.take 12 ++ [.call "d" (B.fill 32 1) [], .get 2 true (some "no such file")])).answers 2
    = [.error "no such file"] := by decide +kernel

-- `C66_reuses`, `C66_delivered`, `C66_answered_after_process_end`, `C66_waited_for`: the second call, with process 0 running, and handed over.
set_option maxRecDepth 100000 in
example : (FbAll.init.run (fbStory.take 7)).gens.map (·.proc) = [.running] ∧ (FbAll.init.run (fbStory.take 7)).calls[1]? = some ⟨"b", B.fill 32 2, [2], .asked, false⟩ ∧
    (FbAll.init.run (fbStory.take 11)).calls[1]? = some ⟨"b", B.fill 32 2, [2], .given 0 1, false⟩ ∧
    (FbAll.init.run (fbStory.take 11)).answers 1 = [] ∧
    ((FbAll.init.run (fbStory.take 11)).gens[0]?.map (fun y => (y.st.rOpen, y.st.stdin))) =
      some (true, [("a", B.fill 32 1, [1]), ("b", B.fill 32 2, [2])]) := by decide +kernel

-- `C66_let_go`: process 0 has been replaced and nobody waits for it.
set_option maxRecDepth 100000 in
example : let s := FbAll.init.run (fbStory ++ fbStoryEnd);
    s.cur = some 1 ∧ s.calls.map (·.phase) = [.given 0 0, .given 0 1, .given 1 0] ∧ (List.range 3).map (fun c => (s.answers c).length) = [1, 1, 1] ∧
    s.gens.map (fun y => (y.st.wOpen, y.st.writing, y.st.queue)) = [(true, none, []), (true, none, [])] ∧
    (s.run [.gen 0 .idle]).gens.map (fun y => y.st.wOpen) = [false, true] := by decide +kernel

end Lair
