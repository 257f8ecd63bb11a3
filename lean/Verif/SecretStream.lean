import Verif.Frame
import Verif.CodecLemmas
import Verif.Crypto

/-
The encrypted, typed message channel: crates/lair_keystore_api/src/sodium_secretstream/crypt.rs and inner.rs on top of
the framing. One direction of a connection; the concurrency of senders is in `Verif.Sender`.
-/
namespace Lair

/-- libsodium's `secretstream_xchacha20poly1305` as used in crypt.rs: both ends hold a state (key and nonce/counter)
    which every `push_message` / successful `pull` advances. -/
structure SStream where
  St : Type
  /-- `SecretStreamEncrypt::new` (which generates the header) / `SecretStreamDecrypt::new` -/
  init : B 32 → B 24 → St
  /-- `push_message(data, no ad)` -/
  push : St → Bytes → Bytes × St
  /-- `pull(cipher, no ad)`; `none` = authentication failure -/
  pull : St → Bytes → Option (Bytes × St)

/-- Functional laws (no security assumption). `ABYTES = 17`.
    An assumption about libsodium and the attacker; no .rs file of lair. -/
structure SStream.Lawful (S : SStream) : Prop where
  pull_push : ∀ s m, S.pull s (S.push s m).1 = some (m, (S.push s m).2)
  push_len : ∀ s m, (S.push s m).1.length = m.length + 17
  pull_len : ∀ s c m s', S.pull s c = some (m, s') → c.length = m.length + 17

variable {S : SStream}

/-- `PrivCryptSend` (crypt.rs:16-28) with everything written so far. -/
structure CryptSend (S : SStream) where
  enc : S.St
  wire : Bytes

/-- `PrivCryptSend::send` (crypt.rs:31-59): the stream state advances *before* the frame layer checks the length. -/
def CryptSend.send (x : CryptSend S) (data : Bytes) : Res Unit × CryptSend S :=
  let (cipher, enc') := S.push x.enc data
  match frameBytes cipher with
  | .error e => (.error e, { x with enc := enc' })
  | .ok b => (.ok (), { enc := enc', wire := x.wire ++ b })

/-- `PrivSend::send` (inner.rs:52-78) without contention: encode, then send. -/
def CryptSend.sendMsg (x : CryptSend S) (m : Msg) : Res Unit × CryptSend S := x.send (Codec.encodeMsg m)

/-- Several sends in a row. Code: crypt.rs:31-60, repeatedly. -/
def CryptSend.sendAll (x : CryptSend S) : List Msg → List (Res Unit) × CryptSend S
  | [] => ([], x)
  | m :: ms =>
    let (r, x') := x.sendMsg m
    let (rs, x'') := x'.sendAll ms
    (r :: rs, x'')

/-- `PrivCryptRecv` (crypt.rs:69-93). -/
structure CryptRecv (S : SStream) where
  fr : FrameRecv
  dec : S.St
  dead : Bool

/-- The closure of the `try_unfold` (crypt.rs:75-90). `cipher.len() - sss::ABYTES` underflows for a frame of fewer than
    17 bytes: a panic with overflow checks, and a panic in the allocation of the huge buffer without. -/
def CryptRecv.poll (r : CryptRecv S) : Polled Bytes × CryptRecv S :=
  if r.dead then (.finished, r)
  else
    match r.fr.poll with
    | (.pending, fr') => (.pending, { r with fr := fr' })
    | (.finished, fr') => (.finished, { r with fr := fr', dead := true })
    | (.err e, fr') => (.err e, { r with fr := fr', dead := true })
    | (.panicked, fr') => (.panicked, { r with fr := fr', dead := true })
    | (.item cipher, fr') =>
      if cipher.length < 17 then (.panicked, { r with fr := fr', dead := true })
      else
        match S.pull r.dec cipher with
        | none => (.err "decrypt error", { r with fr := fr', dead := true })
        | some (msg, dec') => (.item msg, { r with fr := fr', dec := dec' })

/-- `PrivRecv<LairApiEnum>` (inner.rs:110-150). -/
structure MsgRecv (S : SStream) where
  cr : CryptRecv S
  dead : Bool

/-- The closure of the `try_unfold` (inner.rs:119-128): `rmp_serde::from_read`. -/
def MsgRecv.poll (r : MsgRecv S) : Polled Msg × MsgRecv S :=
  if r.dead then (.finished, r)
  else
    match r.cr.poll with
    | (.pending, cr') => (.pending, { r with cr := cr' })
    | (.finished, cr') => (.finished, { r with cr := cr', dead := true })
    | (.err e, cr') => (.err e, { r with cr := cr', dead := true })
    | (.panicked, cr') => (.panicked, { r with cr := cr', dead := true })
    | (.item msg, cr') =>
      match Codec.decodeMsg msg with
      | none => (.err "decode error", { r with cr := cr', dead := true })
      | some m => (.item m, { r with cr := cr' })

/-- The decryption layer as a receiver on its own (crypt.rs:67-104). -/
def CryptRecv.ops (S : SStream) : RecvOps (CryptRecv S) Bytes where
  feed := fun r c => { r with fr := FrameRecv.ops.feed r.fr c }
  close := fun r => { r with fr := FrameRecv.ops.close r.fr }
  poll := CryptRecv.poll

/-- The receiver of one direction, all layers. Code: framed.rs:93-104, crypt.rs:95-106, inner.rs:135-147. -/
def MsgRecv.ops (S : SStream) : RecvOps (MsgRecv S) Msg where
  feed := fun r c => { r with cr := { r.cr with fr := FrameRecv.ops.feed r.cr.fr c } }
  close := fun r => { r with cr := { r.cr with fr := FrameRecv.ops.close r.cr.fr } }
  poll := MsgRecv.poll

/-- The ends of a fresh channel whose handshake agreed on the stream state `s`. Code: crypt.rs:4-29. -/
def CryptSend.init (s : S.St) : CryptSend S := ⟨s, []⟩
/-- A receiver that has received nothing (inner.rs:118-130). -/
def MsgRecv.init (s : S.St) : MsgRecv S := ⟨⟨FrameRecv.init, s, false⟩, false⟩

/-! ### Specification vocabulary -/

/-- The stream state after the messages `ds`. Specification: nothing in the code corresponds. -/
def SStream.after (S : SStream) (s : S.St) : List Bytes → S.St
  | [] => s
  | d :: ds => S.after (S.push s d).2 ds

/-- The frames an undisturbed sender puts on the wire for the messages `ds`.
    Specification: nothing in the code corresponds. -/
def SStream.wire (S : SStream) (s : S.St) : List Bytes → Bytes
  | [] => []
  | d :: ds => frame (S.push s d).1 ++ S.wire (S.push s d).2 ds

/-- The adversary on the wire has not forged: at each point of the sender's sequence of messages `ds`, among all parts of
    the bytes that reach the receiver only the sender's own cipher for that point is acceptable. (It may drop, reorder,
    replay, cut and paste.) A hypothesis about the bytes, not a law.
    An assumption about libsodium and the attacker; no .rs file of lair. -/
def Unforged (S : SStream) (s : S.St) (ds : List Bytes) (bytes : Bytes) : Prop :=
  ∀ pre post, ds = pre ++ post → ∀ c, c <:+: bytes → (S.pull (S.after s pre) c).isSome →
    ∃ d rest, post = d :: rest ∧ c = (S.push (S.after s pre) d).1

/-! ### A concrete stream -/

namespace Toy

/-- The 17 byte authenticator of the toy stream: counter, length of the message, key.
    For examples only: nothing in the code corresponds. -/
def streamTag (s : Bytes × Nat) (n : Nat) : B 17 := pad 17 (UInt8.ofNat s.2 :: le16 n ++ s.1)

/-- A lawful (insecure) stream: the state is a key and a counter.
    For examples only: nothing in the code corresponds. -/
def stream : SStream where
  St := Bytes × Nat
  init := fun k h => (k.val ++ h.val, 0)
  push := fun s m => (lock (streamTag s m.length).val m, (s.1, s.2 + 1))
  pull := fun s c => if c.length < 17 then none
    else (unlock (streamTag s (c.length - 17)).val c).map (fun m => (m, (s.1, s.2 + 1)))

theorem stream_lawful : stream.Lawful where
  pull_push := by
    intro s m
    have : (lock (streamTag s m.length).val m).length = m.length + 17 := by
      simp [lock, (streamTag s m.length).len]; omega
    simp only [stream, this, Nat.add_sub_cancel, unlock_lock]
    rw [if_neg (by omega)]; rfl
  push_len := by intro s m; simp [stream, lock, (streamTag s m.length).len]; omega
  pull_len := by
    intro s c m s' h
    simp only [stream] at h
    split at h
    · simp at h
    · simp only [Option.map_eq_some_iff] at h
      obtain ⟨a, h1, h2⟩ := h
      cases h2
      have := unlock_len h1
      simpa [(streamTag s _).len] using this

end Toy

/-! ### Lemmas -/

theorem after_append (s : S.St) (a b : List Bytes) : S.after s (a ++ b) = S.after (S.after s a) b := by
  induction a generalizing s with
  | nil => rfl
  | cons d ds ih => simp [SStream.after, ih]

theorem wire_append (s : S.St) (a b : List Bytes) : S.wire s (a ++ b) = S.wire s a ++ S.wire (S.after s a) b := by
  induction a generalizing s with
  | nil => rfl
  | cons d ds ih => simp [SStream.wire, SStream.after, ih]

/-- All layers alive. Specification: nothing in the code corresponds. -/
def MsgRecv.alive (r : MsgRecv S) : Prop := r.dead = false ∧ r.cr.dead = false ∧ r.cr.fr.dead = false

/-- Unread bytes. Specification: nothing in the code corresponds. -/
def MsgRecv.unread (r : MsgRecv S) : Bytes := r.cr.fr.chunks.flatten

/-- One poll, by what the framing layer gives. -/
theorem MsgRecv.poll_alive {r : MsgRecv S} (ha : r.alive) :
    (r.poll.1 = .pending ∧ r.poll.2 = r ∧ r.cr.fr.closed = false) ∨
    ((∃ e, r.poll.1 = .err e) ∧ r.poll.2.dead = true ∧ r.poll.2.cr.fr.closed = r.cr.fr.closed) ∨
    (r.poll.1 = .panicked ∧ r.poll.2.dead = true ∧ r.poll.2.cr.fr.closed = r.cr.fr.closed ∧
      ∃ c fr', r.cr.fr.poll = (.item c, fr') ∧ c.length < 17) ∨
    (∃ c fr' d dec' m, r.cr.fr.poll = (.item c, fr') ∧ S.pull r.cr.dec c = some (d, dec') ∧ Codec.decodeMsg d = some m ∧
      r.poll = (.item m, ⟨⟨fr', dec', false⟩, false⟩)) := by
  obtain ⟨⟨fr, dec, d1⟩, d2⟩ := r
  obtain ⟨h2, h1, h0⟩ := ha
  simp only at h2 h1 h0
  subst h2 h1
  simp only [MsgRecv.poll, CryptRecv.poll, Bool.false_eq_true, if_false]
  have hfc : fr.poll.2.closed = fr.closed := by
    unfold FrameRecv.poll
    split
    · rfl
    · split
      · split <;> rfl
      · split
        · rfl
        · split
          · split <;> rfl
          · rfl
  have hfp : ∀ fr', fr.poll = (.pending, fr') → fr' = fr ∧ fr.closed = false := by
    intro fr' h
    unfold FrameRecv.poll at h
    rw [h0] at h
    simp only [Bool.false_eq_true, if_false] at h
    split at h
    · split at h
      · simp at h
      · rename_i hc; simp at h; exact ⟨h.symm, by simpa using hc⟩
    · split at h
      · simp at h
      · split at h
        · split at h
          · simp at h
          · rename_i hc; simp at h; exact ⟨h.symm, by simpa using hc⟩
        · simp at h
  have hfin : ∀ fr', fr.poll ≠ (.finished, fr') ∧ fr.poll ≠ (.panicked, fr') := by
    intro fr'
    unfold FrameRecv.poll
    rw [h0]
    simp only [Bool.false_eq_true, if_false]
    split
    · split <;> simp
    · split
      · simp
      · split
        · split <;> simp
        · simp
  cases hp : fr.poll with
  | mk p fr' =>
    rw [hp] at hfc
    cases p with
    | pending => obtain ⟨rfl, hc⟩ := hfp _ hp; exact Or.inl ⟨rfl, rfl, hc⟩
    | err e => exact Or.inr (Or.inl ⟨⟨e, rfl⟩, rfl, hfc⟩)
    | panicked => exact absurd hp (hfin _).2
    | finished => exact absurd hp (hfin _).1
    | item c =>
      dsimp only
      by_cases hlt : c.length < 17
      · rw [if_pos hlt]
        exact Or.inr (Or.inr (Or.inl ⟨rfl, rfl, hfc, c, fr', rfl, hlt⟩))
      · rw [if_neg hlt]
        cases hpl : S.pull dec c with
        | none => exact Or.inr (Or.inl ⟨⟨_, rfl⟩, rfl, hfc⟩)
        | some x =>
          obtain ⟨d', dec'⟩ := x
          simp only
          cases hm : Codec.decodeMsg d' with
          | none => exact Or.inr (Or.inl ⟨⟨_, rfl⟩, rfl, hfc⟩)
          | some m => exact Or.inr (Or.inr (Or.inr ⟨c, fr', d', dec', m, rfl, hpl, hm, rfl⟩))

theorem MsgRecv.poll_dead {r : MsgRecv S} (h : r.dead = true) : r.poll = (.finished, r) := by
  simp [MsgRecv.poll, h]

/-- Once dead, only `finished`. -/
theorem MsgRecv.run_dead {r : MsgRecv S} (h : r.dead = true) (evs : List RecvEv) :
    (∀ p ∈ ((MsgRecv.ops S).run r evs).1, p = .finished) ∧ ((MsgRecv.ops S).run r evs).2.dead = true := by
  induction evs generalizing r with
  | nil => exact ⟨by simp [RecvOps.run], h⟩
  | cons e es ih =>
    cases e with
    | arrive c => exact ih (r := (MsgRecv.ops S).feed r c) h
    | close => exact ih (r := (MsgRecv.ops S).close r) h
    | poll =>
      simp only [RecvOps.run, MsgRecv.ops, MsgRecv.poll_dead h]
      have := ih h
      simp only [MsgRecv.ops] at this
      refine ⟨?_, this.2⟩
      intro p hp
      rcases List.mem_cons.mp hp with rfl | hp
      · rfl
      · exact this.1 p hp

theorem items_nil_of_finished {α : Type} {ps : List (Polled α)} (h : ∀ p ∈ ps, p = .finished) : items ps = [] := by
  induction ps with
  | nil => rfl
  | cons p ps ih =>
    rw [h p (by simp)]
    simp only [items, List.filterMap_cons]
    exact ih (fun q hq => h q (by simp [hq]))

theorem recv_append {ρ α : Type} (O : RecvOps ρ α) (r : ρ) (a b : List RecvEv) :
    O.run r (a ++ b) = ((O.run r a).1 ++ (O.run (O.run r a).2 b).1, (O.run (O.run r a).2 b).2) := by
  induction a generalizing r with
  | nil => rfl
  | cons e es ih =>
    cases e with
    | arrive c => exact ih _
    | close => exact ih _
    | poll => simp only [List.cons_append, RecvOps.run, ih]

theorem arrived_append (a b : List RecvEv) : arrived (a ++ b) = arrived a ++ arrived b := by
  induction a with
  | nil => rfl
  | cons e es ih => cases e <;> simp [arrived, ih]

@[simp] theorem items_cons_item {α : Type} (a : α) (ps : List (Polled α)) : items (.item a :: ps) = a :: items ps := rfl
@[simp] theorem items_cons_pending {α : Type} (ps : List (Polled α)) : items (.pending :: ps) = items ps := rfl
@[simp] theorem items_cons_err {α : Type} (e : String) (ps : List (Polled α)) : items (.err e :: ps) = items ps := rfl
@[simp] theorem items_cons_panicked {α : Type} (ps : List (Polled α)) : items (.panicked :: ps) = items ps := rfl
@[simp] theorem items_cons_finished {α : Type} (ps : List (Polled α)) : items (.finished :: ps) = items ps := rfl
theorem items_append {α : Type} (a b : List (Polled α)) : items (a ++ b) = items a ++ items b := by
  simp [items]

/-- A delivered frame, when its cipher is the sender's next one: the sender's message is delivered. -/
theorem MsgRecv.deliver (L : S.Lawful) {r : MsgRecv S} (ha : r.alive) {m : Msg} {fr' : FrameRecv}
    (hp : r.cr.fr.poll = (.item (S.push r.cr.dec (Codec.encodeMsg m)).1, fr')) :
    r.poll = (.item m, ⟨⟨fr', (S.push r.cr.dec (Codec.encodeMsg m)).2, false⟩, false⟩) := by
  obtain ⟨h2, h1, h0⟩ := ha
  have hl := (poll_item hp).2.1
  have hm : maxFrame = 8192 := rfl
  rw [L.push_len] at hl
  have hd : Codec.decodeMsg (Codec.encodeMsg m) = some m := by
    simpa using Codec.decodeMsg_encode m [] (by omega)
  simp only [MsgRecv.poll, h2, CryptRecv.poll, h1, hp, Bool.false_eq_true, if_false, L.pull_push, L.push_len]
  rw [if_neg (by omega)]
  simp only [hd]

end Lair
