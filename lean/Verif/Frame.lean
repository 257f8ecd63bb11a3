import Verif.Basic

/-
Framing of the byte stream between client and server
(crates/lair_keystore_api/src/sodium_secretstream/framed.rs) and the `try_unfold` streams built on it.
-/
namespace Lair

/-- `MAX_FRAME` (sodium_secretstream.rs:16). -/
def maxFrame : Nat := 1024 * 8

/-- `(d.len() as u16).to_le_bytes()` (framed.rs:30). -/
def le16 (n : Nat) : Bytes := [UInt8.ofNat (n % 256), UInt8.ofNat (n / 256)]

/-- `u16::from_le_bytes(ltag) as usize` (framed.rs:60). Called with two bytes only. -/
def fromLe16 : Bytes → Nat
  | [a, b] => a.toNat + 256 * b.toNat
  | _ => 0

/-- `PrivFramedSend::send` (framed.rs:18-38): the bytes it writes, or the refusal (nothing written). -/
def frameBytes (d : Bytes) : Res Bytes :=
  if d.length > maxFrame then .error "FrameOverflow" else .ok (le16 d.length ++ d)

/-- `AsyncReadExt::read_exact` for `n` bytes on a source whose data arrived in pieces (each `read` returns at most what
    is left of the next piece). `none`: not enough data has arrived. tokio, as used at framed.rs:53-90. -/
def readExact : Nat → List Bytes → Option (Bytes × List Bytes)
  | n, [] => if n = 0 then some ([], []) else none
  | n, c :: cs =>
    if n ≤ c.length then some (c.take n, c.drop n :: cs)
    else (readExact (n - c.length) cs).map (fun p => (c ++ p.1, p.2))

/-- The result of polling a stream of `LairResult<T>`: `Poll::Pending`, `Some(Ok(_))`, `Some(Err(_))`, `None`; and
    a panic of the polling task as an explicit value. Code: framed.rs:93-104, crypt.rs:95-106, inner.rs:135-147. -/
inductive Polled (α : Type) where
  | pending
  | item (a : α)
  | err (e : String)
  | panicked
  | finished
deriving DecidableEq

/-- `PrivFramedRecv` (framed.rs:48-102): the raw reader inside a `try_unfold`, which is gone (`dead`) after an error. -/
structure FrameRecv where
  /-- arrived and not yet read, in the pieces in which it arrived -/
  chunks : List Bytes
  /-- the peer closed its side: reading past the arrived data gives `UnexpectedEof` -/
  closed : Bool
  dead : Bool
deriving DecidableEq

/-- A fresh reader. Code: framed.rs:49-104. -/
def FrameRecv.init : FrameRecv := ⟨[], false, false⟩

/-- The closure of the `try_unfold` (framed.rs:54-88): length tag, bound check, body. (While data is missing, the Rust
    future keeps the part it has read; the model keeps it in `chunks` and reads it again: nobody else reads.) -/
def FrameRecv.poll (r : FrameRecv) : Polled Bytes × FrameRecv :=
  if r.dead then (.finished, r)
  else
    match readExact 2 r.chunks with
    | none => if r.closed then (.err "UnexpectedEof", { r with dead := true }) else (.pending, r)
    | some (ltag, rest) =>
      if fromLe16 ltag > maxFrame then (.err "FrameOverflow", { r with dead := true })
      else
        match readExact (fromLe16 ltag) rest with
        | none => if r.closed then (.err "UnexpectedEof", { r with dead := true }) else (.pending, r)
        | some (msg, rest') => (.item msg, { r with chunks := rest' })

/-- What can happen to a receiver: bytes arrive (the network splits them as it likes), the peer closes, the owner
    polls. Specification: nothing in the code corresponds. -/
inductive RecvEv where
  | arrive (c : Bytes)
  | close
  | poll
deriving DecidableEq

/-- The bytes that arrived in a history. Specification: nothing in the code corresponds. -/
def arrived : List RecvEv → Bytes
  | [] => []
  | .arrive c :: es => c ++ arrived es
  | _ :: es => arrived es

/-- A receiver of any layer: how data reaches it, and how it is polled.
    Specification: nothing in the code corresponds. -/
structure RecvOps (ρ α : Type) where
  feed : ρ → Bytes → ρ
  close : ρ → ρ
  poll : ρ → Polled α × ρ

/-- Run a history; collects the results of the polls. Specification: nothing in the code corresponds. -/
def RecvOps.run {ρ α : Type} (O : RecvOps ρ α) (r : ρ) : List RecvEv → List (Polled α) × ρ
  | [] => ([], r)
  | .arrive c :: es => O.run (O.feed r c) es
  | .close :: es => O.run (O.close r) es
  | .poll :: es =>
    let (p, r') := O.poll r
    let (ps, r'') := O.run r' es
    (p :: ps, r'')

/-- The items among poll results. Specification: nothing in the code corresponds. -/
def items {α : Type} (ps : List (Polled α)) : List α := ps.filterMap (fun p => match p with | .item a => some a | _ => none)

/-- The framing layer as a receiver. Data arriving after the reader was dropped is lost. Code: framed.rs:49-104. -/
def FrameRecv.ops : RecvOps FrameRecv Bytes where
  feed := fun r c => { r with chunks := r.chunks ++ [c] }
  close := fun r => { r with closed := true }
  poll := FrameRecv.poll

/-! ### Lemmas -/

theorem le16_length (n : Nat) : (le16 n).length = 2 := rfl

theorem fromLe16_le16 (n : Nat) (h : n < 65536) : fromLe16 (le16 n) = n := by
  simp only [le16, fromLe16]
  rw [UInt8.toNat_ofNat_of_lt' (by show n % 256 < 256; omega), UInt8.toNat_ofNat_of_lt' (by show n / 256 < 256; omega)]
  omega

theorem readExact_some {n : Nat} {cs : List Bytes} (h : n ≤ cs.flatten.length) :
    ∃ rest, readExact n cs = some (cs.flatten.take n, rest) ∧ rest.flatten = cs.flatten.drop n := by
  induction cs generalizing n with
  | nil => simp at h; subst h; exact ⟨[], by simp [readExact], by simp⟩
  | cons c cs ih =>
    simp only [List.flatten_cons, List.length_append] at h
    unfold readExact
    by_cases hc : n ≤ c.length
    · refine ⟨c.drop n :: cs, ?_, ?_⟩
      · rw [if_pos hc]; simp [List.take_append_of_le_length hc]
      · simp [List.drop_append_of_le_length hc]
    · obtain ⟨rest, h1, h2⟩ := ih (n := n - c.length) (by omega)
      refine ⟨rest, ?_, ?_⟩
      · rw [if_neg hc, h1]
        simp only [Option.map_some, List.flatten_cons]
        rw [List.take_append, List.take_of_length_le (by omega : c.length ≤ n)]
      · rw [h2]; simp only [List.flatten_cons]; rw [List.drop_append, List.drop_of_length_le (l := c) (by omega)]; rfl

theorem readExact_none {n : Nat} {cs : List Bytes} (h : cs.flatten.length < n) : readExact n cs = none := by
  induction cs generalizing n with
  | nil => simp at h; simp [readExact]; omega
  | cons c cs ih =>
    simp only [List.flatten_cons, List.length_append] at h
    unfold readExact
    rw [if_neg (by omega), ih (by omega)]; rfl

/-- Reading depends on the bytes only, not on the pieces. -/
theorem readExact_eq (n : Nat) (cs : List Bytes) :
    (cs.flatten.length < n ∧ readExact n cs = none) ∨
    ∃ rest, readExact n cs = some (cs.flatten.take n, rest) ∧ rest.flatten = cs.flatten.drop n ∧ n ≤ cs.flatten.length := by
  by_cases h : n ≤ cs.flatten.length
  · obtain ⟨r, h1, h2⟩ := readExact_some h; exact Or.inr ⟨r, h1, h2, h⟩
  · exact Or.inl ⟨by omega, readExact_none (by omega)⟩

/-- SPECIFICATION of one frame on the wire: little-endian length, then the data. -/
def frame (d : Bytes) : Bytes := le16 d.length ++ d

theorem frameBytes_ok {d : Bytes} (h : d.length ≤ maxFrame) : frameBytes d = .ok (frame d) := by
  unfold frameBytes frame; rw [if_neg (by omega)]

/-- If a whole frame has arrived, it is delivered. -/
theorem poll_frame {r : FrameRecv} {d rest : Bytes} (hd : r.dead = false) (hl : d.length ≤ maxFrame)
    (h : r.chunks.flatten = frame d ++ rest) :
    ∃ cs, r.poll = (.item d, { r with chunks := cs }) ∧ cs.flatten = rest := by
  have hlen : r.chunks.flatten.length = 2 + d.length + rest.length := by rw [h]; simp [frame, le16_length]; omega
  obtain ⟨r1, h1, h2⟩ := readExact_some (n := 2) (cs := r.chunks) (by omega)
  have ht : r.chunks.flatten.take 2 = le16 d.length := by
    rw [h, frame, List.append_assoc, List.take_append_of_le_length (by simp [le16_length])]
    rw [List.take_of_length_le (by simp [le16_length])]
  have hr : r1.flatten = d ++ rest := by
    rw [h2, h, frame, List.append_assoc, List.drop_append_of_le_length (by simp [le16_length])]
    simp [le16]
  have hm : maxFrame = 8192 := rfl
  have hn : fromLe16 (le16 d.length) = d.length := fromLe16_le16 _ (by omega)
  obtain ⟨r2, h3, h4⟩ := readExact_some (n := d.length) (cs := r1) (by rw [hr]; simp)
  refine ⟨r2, ?_, by rw [h4, hr]; simp⟩
  unfold FrameRecv.poll
  rw [hd, h1, ht]
  simp only [Bool.false_eq_true, if_false, hn]
  rw [if_neg (by omega), h3, hr]
  simp

/-- If the arrived bytes are a proper part of one frame, the poll waits (or fails if the peer closed). -/
theorem poll_partial {r : FrameRecv} {d : Bytes} (hd : r.dead = false) (hl : d.length ≤ maxFrame)
    (h : r.chunks.flatten <+: frame d) (hlt : r.chunks.flatten.length < (frame d).length) :
    r.poll = if r.closed then (.err "UnexpectedEof", { r with dead := true }) else (.pending, r) := by
  unfold FrameRecv.poll
  rw [hd]
  simp only [Bool.false_eq_true, if_false]
  rcases readExact_eq 2 r.chunks with ⟨_, h1⟩ | ⟨r1, h1, h2, h3⟩
  · rw [h1]
  · rw [h1]
    have ht : r.chunks.flatten.take 2 = le16 d.length := by
      obtain ⟨t, ht⟩ := h
      have : (r.chunks.flatten ++ t).take 2 = le16 d.length := by
        rw [ht, frame, List.take_append_of_le_length (by simp [le16_length])]
        rw [List.take_of_length_le (by simp [le16_length])]
      rwa [List.take_append_of_le_length h3] at this
    have hm : maxFrame = 8192 := rfl
    have hn : fromLe16 (le16 d.length) = d.length := fromLe16_le16 _ (by omega)
    simp only [ht, hn]
    rw [if_neg (by omega), readExact_none]
    rw [h2, List.length_drop]
    have hf : (frame d).length = 2 + d.length := by simp only [frame, List.length_append, le16_length]
    omega

/-- A length tag above the limit is refused as soon as it has arrived. -/
theorem poll_oversize {r : FrameRecv} {a b : UInt8} {rest : Bytes} (hd : r.dead = false)
    (h : r.chunks.flatten = a :: b :: rest) (hn : a.toNat + 256 * b.toNat > maxFrame) :
    r.poll = (.err "FrameOverflow", { r with dead := true }) := by
  obtain ⟨r1, h1, -⟩ := readExact_some (n := 2) (cs := r.chunks) (by rw [h]; simp)
  unfold FrameRecv.poll
  rw [hd, h1, h]
  simp only [Bool.false_eq_true, if_false, List.take_succ_cons, List.take_zero]
  have : fromLe16 [a, b] > maxFrame := by simpa [fromLe16] using hn
  simp only [this, if_true]

/-- An item delivered by the framing layer: its frame was at the front of the unread bytes. -/
theorem poll_item {r r' : FrameRecv} {d : Bytes} (h : r.poll = (.item d, r')) :
    r.dead = false ∧ d.length ≤ maxFrame ∧ r' = { r with chunks := r'.chunks } ∧
      r.chunks.flatten = frame d ++ r'.chunks.flatten := by
  unfold FrameRecv.poll at h
  split at h
  · simp at h
  · rename_i hd
    rcases readExact_eq 2 r.chunks with ⟨_, h1⟩ | ⟨r1, h1, h2, h3⟩
    · rw [h1] at h; simp only at h; split at h <;> simp at h
    · rw [h1] at h
      simp only at h
      split at h
      · simp at h
      · rename_i hm
        rcases readExact_eq (fromLe16 (r.chunks.flatten.take 2)) r1 with ⟨_, h4⟩ | ⟨r2, h4, h5, h6⟩
        · rw [h4] at h; simp only at h; split at h <;> simp at h
        · rw [h4] at h
          simp only [Prod.mk.injEq, Polled.item.injEq] at h
          obtain ⟨hd', rfl⟩ := h
          have hl : d.length = fromLe16 (r.chunks.flatten.take 2) := by rw [← hd', List.length_take]; omega
          refine ⟨by simpa using hd, by omega, rfl, ?_⟩
          have e2 : r.chunks.flatten = r.chunks.flatten.take 2 ++ r1.flatten := by rw [h2]; simp
          have e3 : r1.flatten = d ++ r2.flatten := by rw [h5, ← hd']; simp
          have e4 : r.chunks.flatten.take 2 = le16 d.length := by
            rw [hl]
            have : ∃ a b, r.chunks.flatten.take 2 = [a, b] := by
              have hlen : (r.chunks.flatten.take 2).length = 2 := by rw [List.length_take]; omega
              match hx : r.chunks.flatten.take 2, hlen with
              | [a, b], _ => exact ⟨a, b, rfl⟩
            obtain ⟨a, b, hab⟩ := this
            rw [hab]
            have ha := a.toNat_lt
            have hb := b.toNat_lt
            simp only [fromLe16, le16]
            congr 1
            · apply UInt8.toNat_inj.mp
              rw [UInt8.toNat_ofNat_of_lt' (by show _ % 256 < 256; omega)]; omega
            · congr 1
              apply UInt8.toNat_inj.mp
              rw [UInt8.toNat_ofNat_of_lt' (by show _ / 256 < 256; omega)]; omega
          rw [e2, e3, e4, frame, List.append_assoc]

end Lair
