import Verif.FallbackLemmas

/-
C32: every sign request given to the fallback command is answered exactly once.

A history is any list of events of one sub-process: callers handing requests over, steps of the write and read loops,
lines printed by the process and its end. `FbReq.answers` records everything the caller of the k-th request was told.
-/
namespace Lair

/-- **C32** In every history no caller is answered twice. -/
theorem C32_at_most_one_answer (evs : List FbEv) (k : Nat) (r : FbReq) (hk : (FbSt.init.run evs).reqs[k]? = some r) :
    r.answers.length ≤ 1 :=
  (FInv.init.run evs).one k r hk

/-- **C32** If, after any history, the process ends, then once the read loop has ended, the write in progress is over (`written` or
    `writeErr`) and the write loop looks at its queue once more, every request handed over so far has exactly one answer. -/
theorem C32_answered_after_process_end (evs : List FbEv) (w : FbEv) (hw : w = .written ∨ w = .writeErr) (k : Nat) (r : FbReq)
    (hk : (FbSt.init.run (evs ++ [.eof, .drain, w, .take])).reqs[k]? = some r) : r.answers.length = 1 := by
  rw [FbSt.run_append] at hk
  have hi : FInv ((FbSt.init.run evs).run [.eof, .drain, w, .take]) := (FInv.init.run evs).run _
  exact answered_of_empty hi (fb_after_end evs w hw).1 (fb_after_end evs w hw).2 hk

/-- **C32** Once both loops have ended, in whatever way, every request - also one handed over later - has exactly one
    answer. -/
theorem C32_answered_when_ended (evs : List FbEv) (hw : (FbSt.init.run evs).wOpen = false)
    (hr : (FbSt.init.run evs).running = false) (k : Nat) (r : FbReq) (hk : (FbSt.init.run evs).reqs[k]? = some r) :
    r.answers.length = 1 :=
  answered_of_empty (FInv.init.run evs) ((FFlags.init.run evs).w hw).1 ((FFlags.init.run evs).d hr) hk

/-- **C32** The k-th caller's record is of the k-th request handed over. -/
theorem C32_requests_recorded (evs : List FbEv) :
    (FbSt.init.run evs).reqs.map (fun r => (r.msgId, r.pk, r.data)) = submits evs := by
  have := run_triples evs FInv.init
  rw [show FbSt.init.reqs.map FbReq.triple = [] from rfl, List.nil_append] at this
  exact this

/-- **C32** What the process is sent is a prefix of the requests handed over, in order and unchanged. -/
theorem C32_process_sees_requests (evs : List FbEv) : (FbSt.init.run evs).stdin <+: submits evs := by
  obtain ⟨n, -, hs, -⟩ := FStd.init.run evs FFlags.init
  rw [hs, run_triples evs FInv.init]
  exact List.take_prefix _ _

/-- **C32** Every answer is either one of the fallback's own error texts, or was reported by the process, in a line carrying
    the request's message id that was printed after the request was handed over. -/
theorem C32_answer_origin (evs : List FbEv) (k : Nat) (r : FbReq) (a : Res (B 64))
    (hk : (FbSt.init.run evs).reqs[k]? = some r) (ha : a ∈ r.answers) :
    (∃ x ∈ fbInternal, a = .error x) ∨
      ∃ pre l post, evs = pre ++ .line l :: post ∧ k < (submits pre).length ∧ l.Says r.msgId a := by
  revert k r a
  rw [show evs = evs.reverse.reverse by simp]
  induction evs.reverse with
  | nil => intro k r a hk; simp [FbSt.run, FbSt.init] at hk
  | cons e es ih =>
    intro k r a hk ha
    rw [List.reverse_cons] at hk ⊢
    have hi := FInv.init.run es.reverse
    have hlen : (FbSt.init.run es.reverse).reqs.length = (submits es.reverse).length := by
      have := congrArg List.length (C32_requests_recorded es.reverse)
      simpa using this
    rw [FbSt.run_append] at hk
    have hk' : ((FbSt.init.run es.reverse).step e).reqs[k]? = some r := hk
    by_cases hlt : k < (FbSt.init.run es.reverse).reqs.length
    · obtain ⟨r0, hr0⟩ : ∃ r0, (FbSt.init.run es.reverse).reqs[k]? = some r0 := ⟨_, List.getElem?_eq_getElem hlt⟩
      obtain ⟨r', h1, h2, h3, h4, h5⟩ := step_next hi e hr0
      rw [hk'] at h1; cases h1
      have old : a ∈ r0.answers → (∃ x ∈ fbInternal, a = .error x) ∨
          ∃ pre l post, es.reverse ++ [e] = pre ++ .line l :: post ∧ k < (submits pre).length ∧ l.Says r.msgId a := by
        intro h
        rcases ih k r0 a hr0 h with h | ⟨pre, l, post, g1, g2, g3⟩
        · exact Or.inl h
        · exact Or.inr ⟨pre, l, post ++ [e], by rw [g1]; simp, g2, by rw [h2]; exact g3⟩
      rcases h5 with h5 | ⟨a', h5, h6⟩
      · rw [h5] at ha; exact old ha
      · rw [h5] at ha
        rcases List.mem_append.mp ha with ha | ha
        · exact old ha
        · simp at ha; subst ha
          rcases h6 with h6 | ⟨l, h6, h7⟩
          · exact Or.inl h6
          · subst h6; exact Or.inr ⟨es.reverse, l, [], rfl, by omega, by rw [h2]; exact h7⟩
    · -- handed over in this very step: only refused at once, if the write loop has ended
      have hl := fbStep_len (FbSt.init.run es.reverse) e
      obtain ⟨hlk, -⟩ := List.getElem?_eq_some_iff.mp hk'
      cases e with
      | submit id pk data =>
        have hkk : k = (FbSt.init.run es.reverse).reqs.length := by simp [submits] at hl; omega
        subst hkk
        simp only [FbSt.step] at hk'
        split at hk'
        · simp at hk'; subst hk'; cases ha
        · simp at hk'; subst hk'; simp at ha; subst ha
          exact Or.inl ⟨_, by simp [fbInternal], rfl⟩
      | _ => simp [submits] at hl; omega

/-- **C32** If all requests carry different message ids, then when the process prints a signature (or an error) under the
    message id of a request it was sent and that is not answered yet - and its lines are still being read -, exactly that caller gets exactly that signature (or
    error); nobody else is affected. -/
theorem C32_delivered (evs : List FbEv) (hd : ((submits evs).map (·.1)).Nodup) (k : Nat) (r : FbReq)
    (hk : (FbSt.init.run evs).reqs[k]? = some r) (hsent : (r.msgId, r.pk, r.data) ∈ (FbSt.init.run evs).stdin)
    (hun : r.answers = []) (hro : (FbSt.init.run evs).rOpen = true) (sig : Option (Option Bytes)) (err : Option String) (a : Res (B 64))
    (ha : FbLine.Says (.reply r.msgId sig err) r.msgId a) :
    (FbSt.init.run (evs ++ [.line (.reply r.msgId sig err)])).reqs[k]? = some { r with answers := [a] } ∧
    ∀ j, j ≠ k → (FbSt.init.run (evs ++ [.line (.reply r.msgId sig err)])).reqs[j]? = (FbSt.init.run evs).reqs[j]? := by
  rw [FbSt.run_append]
  have hi := FInv.init.run evs
  have hf := FFlags.init.run evs
  have hst := FStd.init.run evs FFlags.init
  have htr := C32_requests_recorded evs
  rw [← htr] at hd
  rw [show ∀ e, (FbSt.init.run evs).run [e] = (FbSt.init.run evs).step e from fun _ => rfl]
  generalize FbSt.init.run evs = s at hi hf hst hk hsent hd hro
  have hg : s.pending.get r.msgId = some k := by
    rcases hi.un k r hk hun with hq | hq
    · exfalso
      obtain ⟨n, hn, hs, hw⟩ := hst
      have ho : s.wOpen = true := by
        cases hc : s.wOpen with
        | true => rfl
        | false => rw [(hf.w hc).1] at hq; cases hq
      have hkn : n ≤ k := by
        rcases hw ho with ⟨-, h2⟩ | ⟨-, -, h2⟩ <;>
        · rw [h2, List.mem_range'] at hq
          obtain ⟨i, -, h⟩ := hq; omega
      rw [hs] at hsent
      obtain ⟨i, hilt, hie⟩ := List.mem_iff_getElem?.mp hsent |>.imp (fun i h => (show i < n ∧ (s.reqs.map FbReq.triple)[i]? = some (r.msgId, r.pk, r.data) by
        rw [List.getElem?_take] at h; split at h <;> simp_all))
      have e1 : (s.reqs.map (fun r => (r.msgId, r.pk, r.data)) |>.map (·.1))[i]? = some r.msgId := by
        rw [List.getElem?_map]; rw [show s.reqs.map (fun r => (r.msgId, r.pk, r.data)) = s.reqs.map FbReq.triple from rfl, hie]; rfl
      have e2 : (s.reqs.map (fun r => (r.msgId, r.pk, r.data)) |>.map (·.1))[k]? = some r.msgId := by
        rw [List.getElem?_map, List.getElem?_map, hk]; rfl
      have hilen : i < (s.reqs.map (fun r => (r.msgId, r.pk, r.data)) |>.map (·.1)).length :=
        (List.getElem?_eq_some_iff.mp e1).1
      have := (List.getElem?_inj hilen hd).mp (e1.trans e2.symm)
      omega
    · exact hq
  have hstep : (s.step (.line (.reply r.msgId sig err))).reqs = fbAnswer a s.reqs k := by
    simp only [FbSt.step, hro, if_true, hg]
    cases a with
    | ok sg =>
      simp only [FbLine.Says, FbLine.reply.injEq, true_and] at ha
      obtain ⟨rfl, rfl⟩ := ha
      simp [FbSt.answer]
    | error e =>
      simp only [FbLine.Says] at ha
      obtain ⟨sg, ha⟩ := ha
      simp only [FbLine.reply.injEq, true_and] at ha
      obtain ⟨rfl, rfl⟩ := ha
      simp [FbSt.answer]
  rw [hstep]
  refine ⟨?_, ?_⟩
  · rw [fbAnswer_get, hk]; simp [FbReq.got, hun]
  · intro j hj
    rw [fbAnswer_get]
    have : ¬ k = j := fun h => hj h.symm
    simp [this]

/-- Two callers with different message ids, both sent to the process, replies in the other order: the hypotheses hold and
    each gets its own signature. -/
example :
    let pre : List FbEv := [.submit "a" (B.fill 32 1) [1], .take, .submit "b" (B.fill 32 2) [2], .written, .take, .written];
    let s := FbSt.init.run pre;
    ((submits pre).map (·.1)).Nodup ∧ s.stdin = [("a", B.fill 32 1, [1]), ("b", B.fill 32 2, [2])] ∧
    (s.run [.line (.reply "b" (some (some (B.fill 64 8).val)) none), .line (.reply "a" (some (some (B.fill 64 7).val)) none)]).reqs.map (·.answers)
      = [[.ok (B.fill 64 7)], [.ok (B.fill 64 8)]] := by decide +kernel

/-- The process ends with one request sent and one queued: both are answered. -/
example :
    let evs : List FbEv := [.submit "a" (B.fill 32 1) [1], .take, .submit "b" (B.fill 32 2) [2]];
    (FbSt.init.run (evs ++ [.eof, .drain, .writeErr, .take])).reqs.map (·.answers)
      = [[.error "fallback executable closed"], [.error "no fallback cmd task"]] := by decide +kernel

/-- Both loops ended: a request handed over later is refused at once. -/
example :
    let s := FbSt.init.run [.eof, .drain, .idle, .submit "a" (B.fill 32 1) [1]];
    s.wOpen = false ∧ s.running = false ∧ s.reqs.map (·.answers) = [[.error "no fallback cmd task"]] := by decide +kernel

/-- **C32** (violation) Message ids are chosen by the clients. If two requests with the same message id are in flight - of
    different clients, for different keys and data - the first caller is answered with an error, and the signature the
    process made for the first request is given to the second caller. -/
theorem C32_same_id_confused (id : String) (pk₁ pk₂ : B 32) (d₁ d₂ : Bytes) (sig : B 64) :
    (FbSt.init.run [.submit id pk₁ d₁, .take, .written, .submit id pk₂ d₂, .take, .written,
        -- the process signs `d₁` with `pk₁`, and replies
        .line (.reply id (some (some sig.val)) none)]).reqs
      = [⟨id, pk₁, d₁, [.error "no fallback cmd task"]⟩, ⟨id, pk₂, d₂, [.ok sig]⟩] := by
  simp [FbSt.run, FbSt.step, FbSt.init, AMap.get, AMap.insert, AMap.erase, FbSt.answer, fbAnswer, List.modify]

end Lair
