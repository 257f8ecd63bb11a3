import Verif.Props.Listing

/-
C07, exactly: which finished requests are answered with an error although they have added an entry.
C51, exactly: which keystores can be listed.
-/
namespace Lair

variable {E : Env} {st : E.S.σ}

/-- C07, exactly. A client is told of an error although its request has added an entry in exactly one case: the request was
    a creation and succeeded, its success reply is too long for a frame, and the error put in its place is not. -/
theorem C07_error_although_added_iff (hst : GoodStore E st) (evs : List Event) (d : Done E)
    (hd : d ∈ (Sys.run E st evs).done) :
    ((∃ x, d.wire = [.error x]) ∧ (Sys.run E st evs).added d.id ≠ []) ↔
    ∃ i r t resp, d.msg = .req i r ∧ Creates r t ∧ d.outcome = .ok resp ∧
      8192 < (Codec.encodeMsg (.res i resp)).length + 17 ∧
      (Codec.encodeMsg (.res i (.error "FrameOverflow"))).length + 17 ≤ 8192 := by
  constructor
  · rintro ⟨⟨x, hx⟩, hne⟩
    rcases hspec_effect (done_spec hst hd) with ⟨i, r, t, e, resp, h1, h2, h3, h4, -⟩ | ⟨h', -⟩
    · refine ⟨i, r, t, resp, h1, h2, h4, ?_⟩
      by_cases hf : sendable (.res i resp) = true
      · refine absurd (C07_error_reply_adds_nothing_partial hst evs d hd x hx ?_) hne
        intro q hq; rw [h4] at hq; cases hq; rw [h1]; exact hf
      · have hx' : deliver i (.ok resp) = [.error x] := by rw [← hx, done_wire hst hd, h4, h1]; rfl
        simp only [deliver, if_neg hf, deliverErr] at hx'
        have hf' : ¬ (Codec.encodeMsg (.res i resp)).length + 17 ≤ 8192 := by
          simpa only [sendable, decide_eq_true_eq] using hf
        refine ⟨by omega, ?_⟩
        by_cases hs : sendable (.res i (.error "FrameOverflow")) = true
        · simpa only [sendable, decide_eq_true_eq] using hs
        · rw [if_neg hs] at hx'; cases hx'
    · exact absurd (by rw [added_eq hd]; exact filterMap_none h') hne
  · rintro ⟨i, r, t, resp, h1, h2, h4, h5, h6⟩
    refine ⟨⟨"FrameOverflow", ?_⟩, ?_⟩
    · have f1 : ¬ sendable (.res i resp) = true := by
        simp only [sendable, decide_eq_true_eq]; omega
      have f2 : sendable (.res i (.error "FrameOverflow")) = true := by
        simpa only [sendable, decide_eq_true_eq] using h6
      have : deliver i (.ok resp) = [.error "FrameOverflow"] := by
        simp only [deliver, if_neg f1, deliverErr, if_pos f2]
      rw [done_wire hst hd, h4, h1]
      exact this
    · obtain ⟨e, h, -⟩ := C07_success_adds_exactly_one hst evs d hd i t r h1 h2 resp h4
      rw [h]; simp

-- The case happens: the run of `C07_error_reply_although_added`, a request within the frame limit.
example : ∃ (E : Env) (st : E.S.σ) (_ : GoodStore E st) (evs : List Event), ∃ d ∈ (Sys.run E st evs).done, sendable d.msg = true ∧
    ∃ i r t resp, d.msg = .req i r ∧ Creates r t ∧ d.outcome = .ok resp ∧
      8192 < (Codec.encodeMsg (.res i resp)).length + 17 ∧
      (Codec.encodeMsg (.res i (.error "FrameOverflow"))).length + 17 ≤ 8192 := by
  obtain ⟨E, st, hst, evs, d, hd, t, hm, hs, hw, e, he, hadd, het⟩ := C07_error_reply_although_added
  refine ⟨E, st, hst, evs, d, hd, hs, (C07_error_although_added_iff hst evs d hd).1 ⟨⟨_, hw⟩, ?_⟩⟩
  rw [hadd]; simp

/-- C51, exactly. A listing asked for on an unlocked connection, with no store failure and nothing added meanwhile, is sent if
    and only if the entries' sizes, the bytes of the request's id and 1 byte (3 from 16 entries on) make up at most 8138. -/
theorem C51_listed_iff (hst : GoodStore E st) (evs : List Event) (d : Done E) (hd : d ∈ (Sys.run E st evs).done)
    (i : String) (hm : d.msg = .req i .listEntries) (hserved : Served (Sys.run E st evs) d)
    (hsame : E.S.tbl d.stop.store = E.S.tbl d.start.store) :
    (∃ infos, d.wire = [.listEntries infos]) ↔
    Props.listingSize (E.S.tbl d.start.store) + (Mp.encStr i).length + (if (E.S.tbl d.start.store).length < 16 then 1 else 3) ≤ 8138 := by
  have hs := done_spec hst hd
  rw [hm] at hs
  have hlog := (idInv_run st evs).done d hd
  rcases hs with ⟨_, _, h⟩ | ⟨_, ⟨h, x, _⟩ | ⟨_, s, l, h1, h2, h3, h4, h5⟩⟩
  · rw [hserved.1] at h; cases h
  · exact absurd (show Ev.fault ∈ histOf (Sys.run E st evs).hist d.id by rw [← hlog.2, h]; exact List.mem_singleton.2 rfl) hserved.2
  · -- nothing was added: the table read is the one at the start
    have ht : s.tbl = E.S.tbl d.start.store := by
      obtain ⟨a, ha⟩ := h1.tbl
      obtain ⟨b, hb⟩ := h2.tbl
      have hl := congrArg List.length hb
      have hl' : d.stop.tbl.length = d.start.tbl.length := congrArg List.length hsame
      rw [ha] at hl
      simp only [List.length_append] at hl
      have : a = [] := List.length_eq_zero_iff.1 (by omega)
      rw [ha, this, List.append_nil]; rfl
    have hsz : (Codec.encodeMsg (.res i (.listEntries l))).length = 37 + (Mp.encStr i).length + (Mp.encArrHdr l.length).length +
        Props.listingSize (E.S.tbl d.start.store) := by
      rw [Codec.len_resList, Codec.listed_sum h4, ht]; rfl
    have hlen : l.length = (E.S.tbl d.start.store).length := by
      have := h4.length_eq; simpa [ht] using this
    have hmin : 96 * (E.S.tbl d.start.store).length ≤ Props.listingSize (E.S.tbl d.start.store) := by
      generalize E.S.tbl d.start.store = t
      induction t with
      | nil => simp [Props.listingSize]
      | cons e t ih =>
        have := Codec.listedSize_min e
        simp only [Props.listingSize, List.map_cons, List.sum_cons, List.length_cons] at ih ⊢
        omega
    have hiff : sendable (.res i (.listEntries l)) = true ↔
        Props.listingSize (E.S.tbl d.start.store) + (Mp.encStr i).length + (if (E.S.tbl d.start.store).length < 16 then 1 else 3) ≤ 8138 := by
      simp only [sendable, decide_eq_true_eq, hsz, hlen, Mp.encArrHdr]
      generalize (E.S.tbl d.start.store).length = n at hmin ⊢
      split
      · simp; omega
      · split
        · simp [Mp.be_length]; omega
        · simp [Mp.be_length]; omega
    rw [← hiff, done_wire hst hd, h5, hm]
    show (∃ infos, deliver i (.ok (.listEntries l)) = [.listEntries infos]) ↔ _
    simp only [deliver]
    by_cases hf : sendable (.res i (.listEntries l)) = true
    · simp [hf]
    · rw [if_neg hf]
      refine ⟨?_, fun h => absurd h hf⟩
      rintro ⟨infos, h⟩
      unfold deliverErr at h
      split at h <;> simp at h

-- One seed: 1 byte for the number, 2 for the id, 143 + 2 for the entry.
set_option maxRecDepth 100000 in
example : ((Sys.run (Ex.env false 2) MemStore.empty (Ex.unlock 0 ++ Ex.serve 0 (.req "n" (.newSeed "a" none false)) 5 ++
    Ex.serve 0 (.req "l" .listEntries) 0)).done.map (fun d => (d.msg, d.start.unlocked d.conn,
      decide (Ex.mem.tbl d.stop.store = Ex.mem.tbl d.start.store), Props.listingSize (Ex.mem.tbl d.start.store), (Mp.encStr "l").length))).getLast? =
    some (.req "l" .listEntries, true, true, 145, 2) := by decide +kernel

end Lair
