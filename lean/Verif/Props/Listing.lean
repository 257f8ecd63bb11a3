import Verif.ListSizes
import Verif.Props.Entries

/-
C51: can the entries be listed? A response must fit one frame of 8192 bytes; entries are never removed; so a keystore with enough
entries can never again be listed.
-/
namespace Lair.Props
open Lair Codec

variable {E : Env} {st : E.S.σ}

/-- Number of bytes the entries take in a listing. -/
def listingSize (l : List Entry) : Nat := (l.map listedSize).sum

private theorem size_mono {s s' : Shared E} (h : Ext s s') : listingSize s.tbl ≤ listingSize s'.tbl := by
  obtain ⟨more, hm⟩ := h.tbl
  rw [hm]; simp [listingSize]

/-- C51, the negative part: once the entries take more than 8136 bytes in a listing, no `ListEntries` request that arrives later, on any
    connection, after any further history including restarts, is ever answered with a listing: it gets an error or nothing. -/
theorem C51_large_keystore_never_listed (hst : GoodStore E st) (evs₁ evs₂ : List Event)
    (hbig : 8136 < listingSize (Sys.run E st evs₁).entries)
    (d : Done E) (hd : d ∈ (Sys.run E st (evs₁ ++ evs₂)).done) (hlater : (Sys.run E st evs₁).inbox.length ≤ d.id)
    (i : String) (hm : d.msg = .req i .listEntries) : ∀ r ∈ d.wire, r.IsError := by
  intro r hr
  rw [done_wire hst hd] at hr
  have herr : ∀ id x, r ∈ deliverErr id x → r.IsError := by
    intro id x h
    unfold deliverErr at h
    split at h
    · simp at h; exact ⟨x, h⟩
    · cases h
  cases ho : d.outcome with
  | error x => rw [ho] at hr; exact herr _ _ hr
  | ok resp =>
    rw [ho] at hr
    have hs := done_spec hst hd
    rw [hm] at hs
    rcases hs with ⟨_, h, _⟩ | ⟨_, ⟨_, x, h⟩ | ⟨_, s, l, h1, h2, h3, h4, h5⟩⟩
    · rw [ho] at h; cases h
    · rw [ho] at h; cases h
    · rw [ho] at h5; cases h5
      obtain ⟨m2, hm2⟩ := later_tbl hst evs₁ evs₂ hd hlater
      have hsz : 8136 < listingSize s.tbl := by
        refine Nat.lt_of_lt_of_le ?_ (size_mono h1)
        rw [hm2]
        have : listingSize (Sys.run E st evs₁).entries ≤ listingSize ((Sys.run E st evs₁).sh.tbl ++ m2) := by
          simp only [listingSize, List.map_append, List.sum_append, Sys.entries]
          exact Nat.le_add_right ..
        omega
      have hno : sendable (.res d.msg.id (.listEntries l)) = false := by
        simp only [sendable, decide_eq_false_iff_not, len_resList, listed_sum h4]
        have hid := Mp.encStr_pos d.msg.id
        have hh := encArrHdr_len l.length
        have h3 : 8136 < (s.tbl.map listedSize).sum := hsz
        omega
      unfold deliver at hr
      simp only [hno] at hr
      exact herr _ _ hr

/-- C51, the negative part in numbers of entries: 85 entries of any kind are too many, 57 suffice if they are seeds (deep-locked or not). -/
theorem C51_too_many_entries (l : List Entry)
    (h : 85 ≤ l.length ∨ (57 ≤ l.length ∧ ∀ e ∈ l, e.IsSeed ∨ e.IsDeep)) : 8136 < listingSize l := by
  have gen : ∀ (n : Nat) (l : List Entry), (∀ e ∈ l, n ≤ listedSize e) → n * l.length ≤ listingSize l := by
    intro n l
    induction l with
    | nil => intro _; simp [listingSize]
    | cons e l ih =>
      intro hl
      have h1 := hl e (List.mem_cons_self ..)
      have h2 := ih (fun e he => hl e (List.mem_cons_of_mem _ he))
      simp only [listingSize, List.map_cons, List.sum_cons, List.length_cons, Nat.mul_add, Nat.mul_one] at *
      omega
  rcases h with h | ⟨h, hs⟩
  · have := gen 96 l (fun e _ => listedSize_min e)
    omega
  · have := gen 144 l (by
      intro e he
      cases e with
      | seed t i s => have := Mp.encStr_pos t; simp only [listedSize]; omega
      | deep t i a b c s => have := Mp.encStr_pos t; simp only [listedSize]; omega
      | cert t i p => rcases hs _ he with h | h <;> exact h.elim)
    omega

/-- C51 (partial). While the entries take at most 8133 bytes together with the encoded message id, a served `ListEntries` request is answered with
    the listing. Missing: larger keystores, for which it is false (`C51_large_keystore_never_listed`). -/
theorem C51_list_answered_partial (hst : GoodStore E st) (evs : List Event) (d : Done E) (hd : d ∈ (Sys.run E st evs).done)
    (i : String) (hm : d.msg = .req i .listEntries) (hserved : Served (Sys.run E st evs) d)
    (hfit : listingSize (E.S.tbl d.stop.store) + (Mp.encStr i).length ≤ 8133) :
    ∃ infos, d.wire = [.listEntries infos] ∧ (∀ e ∈ E.S.tbl d.start.store, e.info ∈ infos) ∧
      ∀ x ∈ infos, ∃ e ∈ E.S.tbl d.stop.store, e.info = x := by
  have hs := done_spec hst hd
  rw [hm] at hs
  have hlog := (idInv_run st evs).done d hd
  rcases hs with ⟨_, _, h⟩ | ⟨_, ⟨h, x, _⟩ | ⟨_, s, l, h1, h2, h3, h4, h5⟩⟩
  · rw [hserved.1] at h; cases h
  · exact absurd (show Ev.fault ∈ histOf (Sys.run E st evs).hist d.id by rw [← hlog.2, h]; exact List.mem_singleton.2 rfl) hserved.2
  · refine ⟨l, ?_, fun e he => h4.mem_iff.2 (List.mem_map.2 ⟨e, h1.mem he, rfl⟩), fun x hx => ?_⟩
    · rw [done_wire hst hd, h5]
      have hsz := size_mono h2
      have hfit' : listingSize d.stop.tbl + (Mp.encStr i).length ≤ 8133 := hfit
      have hok : sendable (.res d.msg.id (.listEntries l)) = true := by
        rw [hm]
        simp only [sendable, decide_eq_true_eq, Msg.id, len_resList, listed_sum h4]
        have h9 : (s.tbl.map listedSize).sum ≤ listingSize d.stop.tbl := hsz
        have := encArrHdr_len l.length
        omega
      unfold deliver
      simp only [hok, if_true]
    · obtain ⟨e, he, rfl⟩ := List.mem_map.1 (h4.mem_iff.1 hx)
      exact ⟨e, h2.mem he, rfl⟩

/-! ### Examples -/

section
open Ex

/-- A keystore of 60 seeds (tags of 1 byte and more), all made by requests of one client. -/
def manySeeds : List Event :=
  unlock 0 ++ (List.range 60).flatMap (fun k => serve 0 (.req "n" (.newSeed ("t" ++ toString k) none false)) (UInt8.ofNat (k + 1)))

set_option maxRecDepth 100000 in
/-- The hypothesis of the negative theorem is met by that run. -/
example : 8136 < listingSize (Sys.run (env false 2) MemStore.empty manySeeds).entries := by decide +kernel

set_option maxRecDepth 100000 in
/-- A `ListEntries` request after it gets the error. -/
example : (Sys.run (env false 2) MemStore.empty (manySeeds ++ serve 0 (.req "l" .listEntries) 0)).sent.getLast? =
    some (61, 0, .res "l" (.error "FrameOverflow")) := by decide +kernel

/-- With few entries the listing is sent. -/
example : ((Sys.run (env false 2) MemStore.empty (unlock 0 ++ serve 0 (.req "n" (.newSeed "a" none false)) 5 ++
    serve 0 (.req "l" .listEntries) 0)).done.map (fun d => (d.wire, decide (listingSize (mem.tbl d.stop.store) + (Mp.encStr "l").length ≤ 8133)))).getLast? =
    some ([.listEntries [.seed "a" ⟨B.fill 32 5, B.fill 32 5, false⟩]], true) := by decide +kernel

end

end Lair.Props
