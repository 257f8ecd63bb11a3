import Verif.SecretStream

/-
Concurrent use of one sending half: `PrivSend::{send, shutdown}` (crates/lair_keystore_api/src/sodium_secretstream/
inner.rs:48-108) with the semaphore of one permit and the `take` / put-back of the crypt sender, over
`PrivCryptSend::send` (crypt.rs:31-59) and `PrivFramedSend::send` (framed.rs:18-38).

Every await point is a separate event, so any interleaving of any number of callers is a list of events. The bytes of a
frame are written in any number of pieces (`write_all`). The length prefix and body are one byte string here (two
consecutive `write_all` calls of the same holder).
-/
namespace Lair

/-- Progress of one call. Code: inner.rs:52-109. -/
inductive SPhase where
  /-- waiting for the permit -/
  | waiting
  /-- has the permit and the sender -/
  | taken
  /-- has encrypted; this much of the frame is still to be written -/
  | writing (rest : Bytes)
  | done (r : Res Unit)
  /-- the caller dropped the future; `true`: while it had the sender -/
  | dropped (midSend : Bool)
  /-- `send.take().unwrap()` on `None` (inner.rs:66, 96) -/
  | panicked
deriving DecidableEq

/-- One call of `send` (with its message) or of `shutdown` (`none`). Code: inner.rs:52-109. -/
structure SCall where
  msg : Option Msg
  phase : SPhase
deriving DecidableEq

/-- `PrivSendInner` (inner.rs:4-16) with the stream below it and all calls ever made. -/
structure SndSt (S : SStream) where
  enc : S.St
  wire : Bytes
  /-- the write half was shut down -/
  closed : Bool
  /-- `send.is_some()` -/
  sender : Bool
  /-- the call that has the permit of `limit` -/
  permit : Option Nat
  calls : List SCall

variable {S : SStream}

/-- A sender that has sent nothing (inner.rs:31-45). -/
def SndSt.init (s : S.St) : SndSt S := ⟨s, [], false, true, none, []⟩

/-- What one of the calls of `send` does next (inner.rs:48-108, crypt.rs:31-59, framed.rs:18-38). -/
inductive SEv where
  /-- `send(msg)` / `shutdown()` is called and its future polled for the first time -/
  | call (m : Option Msg)
  /-- `limit.acquire_owned().await` completes for call `k`, which goes on to take the sender -/
  | acquire (k : Nat)
  /-- call `k` encrypts and starts writing, or shuts down -/
  | push (k : Nat)
  /-- the raw stream accepts `n` more bytes of call `k` -/
  | write (k n : Nat)
  /-- the raw stream fails under call `k` -/
  | ioErr (k : Nat)
  /-- the caller drops the future of call `k` -/
  | drop (k : Nat)
deriving DecidableEq

/-- Call `k` is now in phase `p`. Code: inner.rs:52-109. -/
def SndSt.set (s : SndSt S) (k : Nat) (p : SPhase) : SndSt S :=
  { s with calls := s.calls.modify k (fun c => { c with phase := p }) }

/-- inner.rs:71-75, 101-104: the sender is put back, the permit dropped, the result returned. -/
def SndSt.release (s : SndSt S) (k : Nat) (r : Res Unit) : SndSt S :=
  { s.set k (.done r) with sender := true, permit := none }

/-- One event. Code: inner.rs:52-109. -/
def SndSt.step (s : SndSt S) : SEv → SndSt S
  | .call m => { s with calls := s.calls ++ [⟨m, .waiting⟩] }
  | .acquire k =>
    match s.calls[k]? with
    | some ⟨_, .waiting⟩ =>
      match s.permit with
      | some _ => s
      | none =>
        if s.sender then { s.set k .taken with sender := false, permit := some k }
        else s.set k .panicked
    | _ => s
  | .push k =>
    match s.calls[k]? with
    | some ⟨some m, .taken⟩ =>
      let (cipher, enc') := S.push s.enc (Codec.encodeMsg m)
      match frameBytes cipher with
      | .error e => { s with enc := enc' }.release k (.error e)
      | .ok b =>
        if s.closed then { s with enc := enc' }.release k (.error "BrokenPipe")
        else { s with enc := enc' }.set k (.writing b)
    | some ⟨none, .taken⟩ => { s with closed := true }.release k (.ok ())
    | _ => s
  | .write k n =>
    match s.calls[k]? with
    | some ⟨_, .writing rest⟩ =>
      let s' := { s with wire := s.wire ++ rest.take n }
      if rest.length ≤ n then s'.release k (.ok ()) else s'.set k (.writing (rest.drop n))
    | _ => s
  | .ioErr k =>
    match s.calls[k]? with
    | some ⟨_, .writing _⟩ => s.release k (.error "io error")
    | some ⟨none, .taken⟩ => s.release k (.error "io error")
    | _ => s
  | .drop k =>
    match s.calls[k]? with
    | some ⟨_, .waiting⟩ => s.set k (.dropped false)
    -- the local `send` is dropped with the future, the permit is returned
    | some ⟨_, .taken⟩ => { s.set k (.dropped true) with permit := none }
    | some ⟨_, .writing _⟩ => { s.set k (.dropped true) with permit := none }
    | _ => s

/-- All events in turn. Ghost: nothing in the code corresponds. -/
def SndSt.run (s : SndSt S) (evs : List SEv) : SndSt S := evs.foldl SndSt.step s

theorem SndSt.run_append (s : SndSt S) (a b : List SEv) : s.run (a ++ b) = (s.run a).run b := by simp [SndSt.run]

/-! ### Invariants -/

/-- The call holds the sender (it has taken it out of the shared state, inner.rs:65-73). -/
def SPhase.holding : SPhase → Prop
  | .taken => True
  | .writing _ => True
  | _ => False

theorem SndSt.set_get (s : SndSt S) (k : Nat) (p : SPhase) (j : Nat) :
    (s.set k p).calls[j]? = s.calls[j]?.map (fun c => if k = j then { c with phase := p } else c) := by
  simp only [SndSt.set, List.getElem?_modify]; rfl

theorem SndSt.release_get (s : SndSt S) (k : Nat) (r : Res Unit) (j : Nat) :
    (s.release k r).calls[j]? = s.calls[j]?.map (fun c => if k = j then { c with phase := .done r } else c) :=
  s.set_get k (.done r) j

/-- Who has the permit, the sender. Proof device: nothing in the code corresponds. -/
structure SndInv (s : SndSt S) : Prop where
  perm : ∀ (k : Nat) (c : SCall), s.calls[k]? = some c → c.phase.holding → s.permit = some k
  held : ∀ k, s.permit = some k → ∃ c, s.calls[k]? = some c ∧ c.phase.holding
  snd : s.sender = true → s.permit = none ∧ ∀ (k : Nat) (c : SCall), s.calls[k]? = some c → c.phase ≠ .dropped true
  lost : s.sender = false → s.permit = none → ∃ (k : Nat) (c : SCall), s.calls[k]? = some c ∧ c.phase = .dropped true
  excl : s.permit ≠ none → s.sender = false ∧ ∀ (k : Nat) (c : SCall), s.calls[k]? = some c → c.phase ≠ .dropped true
  pan : ∀ (k : Nat) (c : SCall), s.calls[k]? = some c → c.phase = .panicked →
    ∃ (j : Nat) (d : SCall), s.calls[j]? = some d ∧ d.phase = .dropped true

theorem SndInv.init (s : S.St) : SndInv (SndSt.init s) := by
  constructor <;> simp [SndSt.init]

/-- Changing only phases of call `k`, which has the permit, to "finished, sender put back". -/
theorem SndInv.release {s s' : SndSt S} (hi : SndInv s) {k : Nat} {c : SCall} (hk : s.calls[k]? = some c) (hh : c.phase.holding)
    (r : Res Unit) (h1 : ∀ j, s'.calls[j]? = s.calls[j]?.map (fun c => if k = j then { c with phase := .done r } else c))
    (h2 : s'.permit = none) (h3 : s'.sender = true) : SndInv s' := by
  have hp := hi.perm _ _ hk hh
  have hx := hi.excl (by rw [hp]; simp)
  have hold : ∀ (j : Nat) (d : SCall), s'.calls[j]? = some d → (j = k ∧ d.phase = .done r) ∨ (j ≠ k ∧ s.calls[j]? = some d) := by
    intro j d hj
    rw [h1] at hj
    cases hc : s.calls[j]? with
    | none => rw [hc] at hj; simp at hj
    | some d0 =>
      rw [hc] at hj
      simp only [Option.map_some, Option.some.injEq] at hj
      by_cases hjk : k = j
      · simp only [hjk, if_true] at hj; exact Or.inl ⟨hjk.symm, by rw [← hj]⟩
      · simp only [hjk, if_false] at hj; exact Or.inr ⟨fun h => hjk h.symm, by rw [hj]⟩
  refine ⟨?_, ?_, ?_, ?_, ?_, ?_⟩
  · intro j d hj hd
    exfalso
    rcases hold j d hj with ⟨-, h⟩ | ⟨hne, h⟩
    · rw [h] at hd; exact hd
    · have := hi.perm _ _ h hd
      rw [hp] at this; exact hne (Option.some.inj this).symm
  · intro j h; rw [h2] at h; cases h
  · intro _
    refine ⟨h2, ?_⟩
    intro j d hj
    rcases hold j d hj with ⟨-, h⟩ | ⟨hne, h⟩
    · rw [h]; simp
    · exact hx.2 _ _ h
  · intro h; rw [h3] at h; cases h
  · intro h; exact absurd h2 h
  · intro j d hj hd
    exfalso
    rcases hold j d hj with ⟨-, h⟩ | ⟨hne, h⟩
    · rw [h] at hd; cases hd
    · obtain ⟨i, e, h5, h6⟩ := hi.pan _ _ h hd
      exact hx.2 _ _ h5 h6

/-- The holder goes on holding. -/
theorem SndInv.keep {s s' : SndSt S} (hi : SndInv s) {k : Nat} {c : SCall} (hk : s.calls[k]? = some c) (hh : c.phase.holding)
    {p : SPhase} (hp : p.holding)
    (h1 : ∀ j, s'.calls[j]? = s.calls[j]?.map (fun c => if k = j then { c with phase := p } else c))
    (h2 : s'.permit = s.permit) (h3 : s'.sender = s.sender) : SndInv s' := by
  have hpm := hi.perm _ _ hk hh
  have hx := hi.excl (by rw [hpm]; simp)
  have hold : ∀ (j : Nat) (d : SCall), s'.calls[j]? = some d → (j = k ∧ d.phase = p) ∨ (j ≠ k ∧ s.calls[j]? = some d) := by
    intro j d hj
    rw [h1] at hj
    cases hc : s.calls[j]? with
    | none => rw [hc] at hj; simp at hj
    | some d0 =>
      rw [hc] at hj
      simp only [Option.map_some, Option.some.injEq] at hj
      by_cases hjk : k = j
      · simp only [hjk, if_true] at hj; exact Or.inl ⟨hjk.symm, by rw [← hj]⟩
      · simp only [hjk, if_false] at hj; exact Or.inr ⟨fun h => hjk h.symm, by rw [hj]⟩
  refine ⟨?_, ?_, ?_, ?_, ?_, ?_⟩
  · intro j d hj hd
    rw [h2]
    rcases hold j d hj with ⟨h, -⟩ | ⟨hne, h⟩
    · rw [h]; exact hpm
    · exact hi.perm _ _ h hd
  · intro j hj
    rw [h2, hpm] at hj; cases hj
    exact ⟨{ c with phase := p }, by rw [h1, hk]; simp, hp⟩
  · intro h; rw [h3, hx.1] at h; cases h
  · intro _ h; rw [h2, hpm] at h; cases h
  · intro _
    refine ⟨h3.trans hx.1, ?_⟩
    intro j d hj
    rcases hold j d hj with ⟨-, h⟩ | ⟨hne, h⟩
    · rw [h]; intro he; rw [he] at hp; exact hp
    · exact hx.2 _ _ h
  · intro j d hj hd
    exfalso
    rcases hold j d hj with ⟨-, h⟩ | ⟨hne, h⟩
    · rw [h] at hd; rw [hd] at hp; exact hp
    · obtain ⟨i, e, h5, h6⟩ := hi.pan _ _ h hd
      exact hx.2 _ _ h5 h6

/-- The holder's future is dropped. -/
theorem SndInv.drop {s s' : SndSt S} (hi : SndInv s) {k : Nat} {c : SCall} (hk : s.calls[k]? = some c) (hh : c.phase.holding)
    (h1 : ∀ j, s'.calls[j]? = s.calls[j]?.map (fun c => if k = j then { c with phase := .dropped true } else c))
    (h2 : s'.permit = none) (h3 : s'.sender = s.sender) : SndInv s' := by
  have hpm := hi.perm _ _ hk hh
  have hx := hi.excl (by rw [hpm]; simp)
  have hkk : s'.calls[k]? = some { c with phase := .dropped true } := by rw [h1, hk]; simp
  have hold : ∀ (j : Nat) (d : SCall), s'.calls[j]? = some d → (j = k ∧ d.phase = .dropped true) ∨ (j ≠ k ∧ s.calls[j]? = some d) := by
    intro j d hj
    rw [h1] at hj
    cases hc : s.calls[j]? with
    | none => rw [hc] at hj; simp at hj
    | some d0 =>
      rw [hc] at hj
      simp only [Option.map_some, Option.some.injEq] at hj
      by_cases hjk : k = j
      · simp only [hjk, if_true] at hj; exact Or.inl ⟨hjk.symm, by rw [← hj]⟩
      · simp only [hjk, if_false] at hj; exact Or.inr ⟨fun h => hjk h.symm, by rw [hj]⟩
  refine ⟨?_, ?_, ?_, ?_, ?_, ?_⟩
  · intro j d hj hd
    exfalso
    rcases hold j d hj with ⟨-, h⟩ | ⟨hne, h⟩
    · rw [h] at hd; exact hd
    · have := hi.perm _ _ h hd
      rw [hpm] at this; exact hne (Option.some.inj this).symm
  · intro j h; rw [h2] at h; cases h
  · intro h; rw [h3, hx.1] at h; cases h
  · intro _ _; exact ⟨k, _, hkk, rfl⟩
  · intro h; exact absurd h2 h
  · intro _ _ _ _; exact ⟨k, _, hkk, rfl⟩

theorem SndInv.step {s : SndSt S} (hi : SndInv s) (e : SEv) : SndInv (s.step e) := by
  cases e with
  | call m =>
    have hold : ∀ (j : Nat) (d : SCall), (s.calls ++ [⟨m, .waiting⟩])[j]? = some d → d.phase = .waiting ∨ s.calls[j]? = some d := by
      intro j d hj
      rw [List.getElem?_append] at hj
      split at hj
      · exact Or.inr hj
      · left
        cases hx : j - s.calls.length with
        | zero => rw [hx] at hj; simp at hj; rw [← hj]
        | succ n => rw [hx] at hj; simp at hj
    have hnew : ∀ (j : Nat) (d : SCall), s.calls[j]? = some d → (s.calls ++ [⟨m, .waiting⟩])[j]? = some d := by
      intro j d hj
      rw [List.getElem?_append_left (List.getElem?_eq_some_iff.mp hj).1]; exact hj
    simp only [SndSt.step]
    refine ⟨?_, ?_, ?_, ?_, ?_, ?_⟩
    · intro j d hj hd
      rcases hold j d hj with h | h
      · rw [h] at hd; exact hd.elim
      · exact hi.perm _ _ h hd
    · intro j hj
      obtain ⟨c, h1, h2⟩ := hi.held j hj
      exact ⟨c, hnew _ _ h1, h2⟩
    · intro h
      obtain ⟨h1, h2⟩ := hi.snd h
      refine ⟨h1, ?_⟩
      intro j d hj
      rcases hold j d hj with h | h
      · rw [h]; simp
      · exact h2 _ _ h
    · intro h h'
      obtain ⟨j, d, h1, h2⟩ := hi.lost h h'
      exact ⟨j, d, hnew _ _ h1, h2⟩
    · intro h
      obtain ⟨h1, h2⟩ := hi.excl h
      refine ⟨h1, ?_⟩
      intro j d hj
      rcases hold j d hj with h | h
      · rw [h]; simp
      · exact h2 _ _ h
    · intro j d hj hd
      rcases hold j d hj with h | h
      · rw [h] at hd; cases hd
      · obtain ⟨i, f, h1, h2⟩ := hi.pan _ _ h hd
        exact ⟨i, f, hnew _ _ h1, h2⟩
  | acquire k =>
    simp only [SndSt.step]
    split
    · rename_i m hk
      split
      · exact hi
      · rename_i hpn
        have hold : ∀ (p : SPhase) (j : Nat) (d : SCall), (s.set k p).calls[j]? = some d →
            (j = k ∧ d.phase = p) ∨ (j ≠ k ∧ s.calls[j]? = some d) := by
          intro p j d hj
          rw [SndSt.set_get] at hj
          cases hc : s.calls[j]? with
          | none => rw [hc] at hj; simp at hj
          | some d0 =>
            rw [hc] at hj
            simp only [Option.map_some, Option.some.injEq] at hj
            by_cases hjk : k = j
            · simp only [hjk, if_true] at hj; exact Or.inl ⟨hjk.symm, by rw [← hj]⟩
            · simp only [hjk, if_false] at hj; exact Or.inr ⟨fun h => hjk h.symm, by rw [hj]⟩
        split
        · rename_i hs
          obtain ⟨-, hnd⟩ := hi.snd hs
          refine ⟨?_, ?_, ?_, ?_, ?_, ?_⟩
          · intro j d hj hd
            rcases hold _ j d hj with ⟨h, -⟩ | ⟨hne, h⟩
            · rw [h]
            · have := hi.perm _ _ h hd; rw [hpn] at this; cases this
          · intro j hj
            simp at hj; subst hj
            exact ⟨⟨m, .taken⟩, by show (s.set k .taken).calls[k]? = _; rw [SndSt.set_get, hk]; simp, trivial⟩
          · intro h; cases h
          · intro _ h; cases h
          · intro _
            refine ⟨rfl, ?_⟩
            intro j d hj
            rcases hold _ j d hj with ⟨-, h⟩ | ⟨hne, h⟩
            · rw [h]; simp
            · exact hnd _ _ h
          · intro j d hj hd
            exfalso
            rcases hold _ j d hj with ⟨-, h⟩ | ⟨hne, h⟩
            · rw [h] at hd; cases hd
            · obtain ⟨i, f, h1, h2⟩ := hi.pan _ _ h hd
              exact hnd _ _ h1 h2
        · rename_i hs
          have hs : s.sender = false := by simpa using hs
          obtain ⟨i, f, h1, h2⟩ := hi.lost hs hpn
          have hik : i ≠ k := by rintro rfl; rw [hk] at h1; cases h1; cases h2
          have hf : (s.set k .panicked).calls[i]? = some f := by rw [SndSt.set_get, h1]; simp [Ne.symm hik]
          refine ⟨?_, ?_, ?_, ?_, ?_, ?_⟩
          · intro j d hj hd
            rcases hold _ j d hj with ⟨-, h⟩ | ⟨hne, h⟩
            · rw [h] at hd; exact hd.elim
            · exact hi.perm _ _ h hd
          · intro j hj; change s.permit = _ at hj; rw [hpn] at hj; cases hj
          · intro h; change s.sender = _ at h; rw [hs] at h; cases h
          · intro _ _; exact ⟨i, f, hf, h2⟩
          · intro h; exact absurd hpn h
          · intro _ _ _ _; exact ⟨i, f, hf, h2⟩
    · exact hi
  | push k =>
    simp only [SndSt.step]
    split
    · rename_i m hk
      split
      · exact hi.release hk trivial _ (SndSt.release_get _ k _) rfl rfl
      · split
        · exact hi.release hk trivial _ (SndSt.release_get _ k _) rfl rfl
        · rename_i b _ _
          exact hi.keep hk trivial (p := .writing b) trivial (SndSt.set_get _ k _) rfl rfl
    · rename_i hk
      exact hi.release hk trivial _ (SndSt.release_get _ k _) rfl rfl
    · exact hi
  | write k n =>
    simp only [SndSt.step]
    split
    · rename_i m rest hk
      split
      · exact hi.release hk trivial _ (SndSt.release_get _ k _) rfl rfl
      · exact hi.keep hk trivial (p := .writing (rest.drop n)) trivial (SndSt.set_get _ k _) rfl rfl
    · exact hi
  | ioErr k =>
    simp only [SndSt.step]
    split
    · rename_i hk; exact hi.release hk trivial _ (SndSt.release_get _ k _) rfl rfl
    · rename_i hk; exact hi.release hk trivial _ (SndSt.release_get _ k _) rfl rfl
    · exact hi
  | drop k =>
    simp only [SndSt.step]
    split
    · rename_i m hk
      have hold : ∀ (j : Nat) (d : SCall), (s.set k (.dropped false)).calls[j]? = some d →
          (j = k ∧ d.phase = .dropped false) ∨ (j ≠ k ∧ s.calls[j]? = some d) := by
        intro j d hj
        rw [SndSt.set_get] at hj
        cases hc : s.calls[j]? with
        | none => rw [hc] at hj; simp at hj
        | some d0 =>
          rw [hc] at hj
          simp only [Option.map_some, Option.some.injEq] at hj
          by_cases hjk : k = j
          · simp only [hjk, if_true] at hj; exact Or.inl ⟨hjk.symm, by rw [← hj]⟩
          · simp only [hjk, if_false] at hj; exact Or.inr ⟨fun h => hjk h.symm, by rw [hj]⟩
      have hnew : ∀ (j : Nat) (d : SCall), s.calls[j]? = some d → d.phase ≠ .waiting → (s.set k (.dropped false)).calls[j]? = some d := by
        intro j d hj hd
        have : ¬ k = j := by rintro rfl; rw [hk] at hj; cases hj; exact hd rfl
        rw [SndSt.set_get, hj]; simp [this]
      refine ⟨?_, ?_, ?_, ?_, ?_, ?_⟩
      · intro j d hj hd
        rcases hold j d hj with ⟨-, h⟩ | ⟨hne, h⟩
        · rw [h] at hd; exact hd.elim
        · exact hi.perm _ _ h hd
      · intro j hj
        obtain ⟨c, h1, h2⟩ := hi.held j hj
        exact ⟨c, hnew _ _ h1 (by intro h; rw [h] at h2; exact h2), h2⟩
      · intro h
        obtain ⟨h1, h2⟩ := hi.snd h
        refine ⟨h1, ?_⟩
        intro j d hj
        rcases hold j d hj with ⟨-, h⟩ | ⟨hne, h⟩
        · rw [h]; simp
        · exact h2 _ _ h
      · intro h h'
        obtain ⟨j, d, h1, h2⟩ := hi.lost h h'
        exact ⟨j, d, hnew _ _ h1 (by rw [h2]; simp), h2⟩
      · intro h
        obtain ⟨h1, h2⟩ := hi.excl h
        refine ⟨h1, ?_⟩
        intro j d hj
        rcases hold j d hj with ⟨-, h⟩ | ⟨hne, h⟩
        · rw [h]; simp
        · exact h2 _ _ h
      · intro j d hj hd
        rcases hold j d hj with ⟨-, h⟩ | ⟨hne, h⟩
        · rw [h] at hd; cases hd
        · obtain ⟨i, f, h1, h2⟩ := hi.pan _ _ h hd
          exact ⟨i, f, hnew _ _ h1 (by rw [h2]; simp), h2⟩
    · rename_i hk; exact hi.drop hk trivial (SndSt.set_get _ k _) rfl rfl
    · rename_i hk; exact hi.drop hk trivial (SndSt.set_get _ k _) rfl rfl
    · exact hi

theorem SndInv.run (evs : List SEv) {s : SndSt S} (hi : SndInv s) : SndInv (s.run evs) := by
  induction evs generalizing s with
  | nil => exact hi
  | cons e es ih => exact ih (hi.step e)

end Lair
