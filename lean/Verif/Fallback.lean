import Verif.AMap
import Verif.Basic

/-
The signature fallback: crates/lair_keystore_api/src/lair_server.rs:102-378.

One sub-process (one spawn by `check_get_sub_process_sender`), its request queue (the mpsc channel), write loop and read
loop. A later spawn is a fresh copy of this state. Any interleaving of callers, both loops and the process is a list of
events.

Simplifications: the JSON text is in `Json.lean` - here a line given to the process is the triple of its fields, a line it prints is
the parsed record (`malformed` if it does not parse); the standard base64 of the signature field is already decoded
(`none` if it does not decode). The queue is unbounded (the real one makes callers wait at 4096).
-/
namespace Lair

/-- A line printed by the process (lair_server.rs:280-296). -/
inductive FbLine where
  | malformed
  /-- `{ msgId, signature?, error? }` -/
  | reply (msgId : String) (signature : Option (Option Bytes)) (error : Option String)
deriving DecidableEq

/-- One call of `sign_by_pub_key` and everything its caller was answered through the oneshot channel, in order (a dropped
    channel answers "no fallback cmd task", :369-376). Code: lair_server.rs:198-377. -/
structure FbReq where
  msgId : String
  pk : B 32
  data : Bytes
  answers : List (Res (B 64))
deriving DecidableEq

/-- The fallback signer's driver (lair_server.rs:102-378): calls and their answers, what is queued, written and pending. -/
structure FbSt where
  reqs : List FbReq
  /-- the mpsc channel -/
  queue : List Nat
  /-- `Pending` (:193-201) -/
  running : Bool
  pending : AMap String Nat
  /-- the request the write loop is writing -/
  writing : Option Nat
  /-- the write loop has not ended / the read loop has not left its `while` -/
  wOpen : Bool
  rOpen : Bool
  /-- what the process has been sent: msgId, pubKey, dataToSign -/
  stdin : List (String × B 32 × Bytes)
deriving DecidableEq

/-- Nothing called yet. Code: lair_server.rs:198-377. -/
def FbSt.init : FbSt := ⟨[], [], true, [], none, true, true, []⟩

/-- What can happen to it: calls, its reader and writer loops, the end of the child, time-outs (lair_server.rs:102-378). -/
inductive FbEv where
  /-- `sign_by_pub_key` hands over a request -/
  | submit (msgId : String) (pk : B 32) (data : Bytes)
  /-- the write loop takes the next request (:214-226) -/
  | take
  /-- `write_all` completes (:242) -/
  | written
  /-- `write_all` fails -/
  | writeErr
  /-- all senders are gone and the queue is empty: `recv` returns `None` -/
  | idle
  /-- the process prints a line -/
  | line (l : FbLine)
  /-- the process closes its output (or reading fails) -/
  | eof
  /-- the read loop, having left its `while`, comes to its end (:349-354) -/
  | drain
deriving DecidableEq

/-- `respond.send(a)`, or dropping the channel. Code: lair_server.rs:198-377. -/
def fbAnswer (a : Res (B 64)) (rs : List FbReq) (k : Nat) : List FbReq :=
  rs.modify k (fun q => { q with answers := q.answers ++ [a] })

/-- Call number `k` gets the answer `a` (`respond.send(..)`, lair_server.rs:299-331). -/
def FbSt.answer (s : FbSt) (k : Nat) (a : Res (B 64)) : FbSt := { s with reqs := fbAnswer a s.reqs k }

/-- The write loop ends: the receiver is dropped with all queued requests (:256-270). Code: lair_server.rs:198-377. -/
def FbSt.wExit (s : FbSt) : FbSt :=
  { s with reqs := s.queue.foldl (fbAnswer (.error "no fallback cmd task")) s.reqs, queue := [], writing := none, wOpen := false }

/-- The read loop leaves its `while` (:276): no more lines are read. Code: lair_server.rs:198-377. -/
def FbSt.rBreak (s : FbSt) : FbSt := { s with rOpen := false }

/-- The end of the read loop: `running = false`, everything pending is refused (:349-354).
    Code: lair_server.rs:198-377. -/
def FbSt.rExit (s : FbSt) : FbSt :=
  { s with reqs := s.pending.values.foldl (fbAnswer (.error "fallback executable closed")) s.reqs, pending := [],
           running := false, rOpen := false }

/-- One event (lair_server.rs:102-378). -/
def FbSt.step (s : FbSt) : FbEv → FbSt
  | .submit id pk data =>
    if s.wOpen then { s with reqs := s.reqs ++ [⟨id, pk, data, []⟩], queue := s.queue ++ [s.reqs.length] }
    else { s with reqs := s.reqs ++ [⟨id, pk, data, [.error "no fallback cmd task"]⟩] }
  | .take =>
    match s.wOpen, s.writing, s.queue with
    | true, none, k :: rest =>
      match s.reqs[k]? with
      | none => s
      | some q =>
        let s := { s with queue := rest }
        if s.running then
          -- `insert` drops the sender of a request with the same id
          let s := match s.pending.get q.msgId with
            | none => s
            | some k₀ => s.answer k₀ (.error "no fallback cmd task")
          { s with pending := s.pending.insert q.msgId k, writing := some k }
        else (s.answer k (.error "signature fallback process closed")).wExit
    | _, _, _ => s
  | .written =>
    match s.writing with
    | none => s
    | some k =>
      match s.reqs[k]? with
      | none => s
      | some q => { s with writing := none, stdin := s.stdin ++ [(q.msgId, q.pk, q.data)] }
  | .writeErr =>
    match s.writing with
    | none => s
    | some k =>
      match s.reqs[k]? with
      | none => s
      | some q =>
        match s.pending.get q.msgId with
        | none => s.wExit
        | some k' => ({ s with pending := s.pending.erase q.msgId }.answer k' (.error "signature_fallback write error")).wExit
  | .idle =>
    match s.wOpen, s.writing, s.queue with
    | true, none, [] => s.wExit
    | _, _, _ => s
  | .line l =>
    if s.rOpen then
      match l with
      | .malformed => s.rBreak
      | .reply id sig err =>
        match s.pending.get id with
        | none => s
        | some k =>
          let s := { s with pending := s.pending.erase id }
          match err, sig with
          | some e, _ => s.answer k (.error e)
          | none, some none => (s.answer k (.error "signature_fallback read error")).rBreak
          | none, some (some b) =>
            match B.ofBytes? 64 b with
            | none => (s.answer k (.error "signature_fallback read error: invalid signature size")).rBreak
            | some sig => s.answer k (.ok sig)
          -- neither field: the sender is dropped (:306-332)
          | none, none => s.answer k (.error "no fallback cmd task")
    else s
  | .eof => if s.rOpen then s.rBreak else s
  | .drain => if !s.rOpen && s.running then s.rExit else s

/-- All events in turn. Ghost: nothing in the code corresponds. -/
def FbSt.run (s : FbSt) (evs : List FbEv) : FbSt := evs.foldl FbSt.step s

theorem FbSt.run_append (s : FbSt) (a b : List FbEv) : s.run (a ++ b) = (s.run a).run b := by simp [FbSt.run]

/-! ### Lemmas -/

/-- The call gets the answer `a`; ghost: all answers are kept, a oneshot channel would only take the first. -/
def FbReq.got (a : Res (B 64)) (q : FbReq) : FbReq := { q with answers := q.answers ++ [a] }

theorem fbAnswer_get (a : Res (B 64)) (rs : List FbReq) (k j : Nat) :
    (fbAnswer a rs k)[j]? = rs[j]?.map (fun q => if k = j then q.got a else q) := by
  unfold fbAnswer; rw [List.getElem?_modify]; rfl

theorem fbAnswer_all (a : Res (B 64)) (ks : List Nat) (hn : ks.Nodup) (rs : List FbReq) (j : Nat) :
    (ks.foldl (fbAnswer a) rs)[j]? = rs[j]?.map (fun q => if j ∈ ks then q.got a else q) := by
  induction ks generalizing rs with
  | nil => simp
  | cons k ks ih =>
    obtain ⟨hk, hn'⟩ := List.nodup_cons.mp hn
    rw [List.foldl_cons, ih hn', fbAnswer_get, Option.map_map]
    congr 1
    funext q
    by_cases h1 : k = j
    · subst h1; simp [Function.comp, hk]
    · have : ¬ j = k := fun h => h1 h.symm
      simp [Function.comp, h1, this]

theorem fbAnswer_len (a : Res (B 64)) (rs : List FbReq) (k : Nat) : (fbAnswer a rs k).length = rs.length := by
  simp [fbAnswer]

theorem fbAnswer_all_len (a : Res (B 64)) (ks : List Nat) (rs : List FbReq) : (ks.foldl (fbAnswer a) rs).length = rs.length := by
  induction ks generalizing rs with
  | nil => rfl
  | cons k ks ih => rw [List.foldl_cons, ih, fbAnswer_len]

end Lair
