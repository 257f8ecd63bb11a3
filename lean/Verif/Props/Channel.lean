import Verif.SecretStream
import Verif.Sizes

/-
Properties of the message channel between client and server: C26 (framing), C27 (integrity and order), C28 (no panic).
A history `evs` says in which pieces bytes arrive, when the peer closes and when the receiver is polled; `items` are the
values the polls delivered.
-/
namespace Lair

variable {S : SStream}

/-! ### C26: framing -/

theorem prefix_cases {f a b c : Bytes} (h : a ++ b = f ++ c) :
    (∃ x, a = f ++ x ∧ x ++ b = c) ∨ (a <+: f ∧ a.length < f.length) := by
  rcases List.append_eq_append_iff.mp h with ⟨x, h1, h2⟩ | ⟨x, h1, h2⟩
  · by_cases hx : x = []
    · subst hx
      left; exact ⟨[], by simp at h1 ⊢; exact h1.symm, by simpa using h2⟩
    · right
      refine ⟨⟨x, h1.symm⟩, ?_⟩
      rw [h1, List.length_append]
      have := List.length_pos_iff.mpr hx
      omega
  · exact Or.inl ⟨x, h1, h2.symm⟩

theorem frames_run (fs : List Bytes) (rest : Bytes) (r : FrameRecv) (evs : List RecvEv) (hd : r.dead = false)
    (hl : ∀ f ∈ fs, f.length ≤ maxFrame) (h : r.chunks.flatten ++ arrived evs ++ rest = fs.flatMap frame) :
    ∃ done todo, fs = done ++ todo ∧ items (FrameRecv.ops.run r evs).1 = done ∧
      ((r.closed = false ∧ RecvEv.close ∉ evs) → (FrameRecv.ops.run r evs).2.dead = false ∧
        (FrameRecv.ops.run r evs).2.closed = false ∧
        (FrameRecv.ops.run r evs).2.chunks.flatten ++ rest = todo.flatMap frame ∧
        ∀ p ∈ (FrameRecv.ops.run r evs).1, p = .pending ∨ ∃ d, p = .item d) := by
  induction evs generalizing r fs with
  | nil => exact ⟨[], fs, rfl, rfl, fun hc => ⟨hd, hc.1, by simpa [arrived, RecvOps.run] using h, by simp [RecvOps.run]⟩⟩
  | cons e es ih =>
    cases e with
    | arrive c =>
      obtain ⟨a, b, h1, h2, h3⟩ := ih fs (FrameRecv.ops.feed r c) hd hl (by
        simpa [arrived, FrameRecv.ops, List.append_assoc] using h)
      exact ⟨a, b, h1, h2, fun hc => h3 ⟨hc.1, by simpa using hc.2⟩⟩
    | close =>
      obtain ⟨a, b, h1, h2, h3⟩ := ih fs (FrameRecv.ops.close r) hd hl (by simpa [arrived, FrameRecv.ops] using h)
      exact ⟨a, b, h1, h2, fun hc => absurd hc.2 (by simp)⟩
    | poll =>
      simp only [arrived] at h
      -- a poll that cannot deliver
      have stuck : ∀ d : Bytes, d.length ≤ maxFrame → r.chunks.flatten <+: frame d →
          r.chunks.flatten.length < (frame d).length →
          ∃ done todo, fs = done ++ todo ∧ items (FrameRecv.ops.run r (.poll :: es)).1 = done ∧
            ((r.closed = false ∧ RecvEv.close ∉ RecvEv.poll :: es) →
              (FrameRecv.ops.run r (.poll :: es)).2.dead = false ∧
              (FrameRecv.ops.run r (.poll :: es)).2.closed = false ∧
              (FrameRecv.ops.run r (.poll :: es)).2.chunks.flatten ++ rest = todo.flatMap frame ∧
              ∀ p ∈ (FrameRecv.ops.run r (.poll :: es)).1, p = .pending ∨ ∃ d, p = .item d) := by
        intro d h1 h2 h3
        have hp := poll_partial hd h1 h2 h3
        cases hc : r.closed with
        | false =>
          rw [hc] at hp
          simp only [Bool.false_eq_true, if_false] at hp
          obtain ⟨a, b, g1, g2, g3⟩ := ih fs r hd hl h
          refine ⟨a, b, g1, ?_, ?_⟩
          · simp only [RecvOps.run, FrameRecv.ops, hp, items_cons_pending]; exact g2
          · intro hh
            obtain ⟨k1, k2, k3, k4⟩ := g3 ⟨hc, by simpa using hh.2⟩
            simp only [RecvOps.run, FrameRecv.ops, hp]
            refine ⟨k1, k2, k3, ?_⟩
            intro p hpm
            rcases List.mem_cons.mp hpm with rfl | hpm
            · exact Or.inl rfl
            · exact k4 p hpm
        | true =>
          rw [hc] at hp
          simp only [if_true] at hp
          have hdead : ∀ (es : List RecvEv) (r : FrameRecv), r.dead = true → ∀ p ∈ (FrameRecv.ops.run r es).1, p = .finished := by
            intro es
            induction es with
            | nil => intro r _ p hp; simp [RecvOps.run] at hp
            | cons e es ih =>
              intro r hr
              cases e with
              | arrive c => exact ih _ hr
              | close => exact ih _ hr
              | poll =>
                intro p hp
                have : FrameRecv.ops.poll r = (.finished, r) := by simp [FrameRecv.ops, FrameRecv.poll, hr]
                simp only [RecvOps.run, this] at hp
                rcases List.mem_cons.mp hp with rfl | hp
                · rfl
                · exact ih r hr p hp
          refine ⟨[], fs, rfl, ?_, fun hh => by simp at hh⟩
          simp only [RecvOps.run, FrameRecv.ops, hp, items_cons_err]
          exact items_nil_of_finished (hdead es _ rfl)
      cases fs with
      | nil =>
        refine stuck [] (by simp) ?_ ?_
        · simp at h; rw [List.flatten_eq_nil_iff.mpr h.1]; exact List.nil_prefix
        · simp at h; rw [List.flatten_eq_nil_iff.mpr h.1]; simp [frame, le16]
      | cons f fs' =>
        simp only [List.flatMap_cons, List.append_assoc] at h
        rcases prefix_cases h with ⟨x, h1, h2⟩ | ⟨h1, h2⟩
        · obtain ⟨cs, hp, hcs⟩ := poll_frame hd (hl f (by simp)) h1
          obtain ⟨a, b, g1, g2, g3⟩ := ih fs' { r with chunks := cs } hd (fun g hg => hl g (by simp [hg])) (by
            simp only; rw [hcs, List.append_assoc]; exact h2)
          refine ⟨f :: a, b, by rw [g1]; rfl, ?_, ?_⟩
          · simp only [RecvOps.run, FrameRecv.ops, hp, items_cons_item]; exact congrArg _ g2
          · intro hh
            obtain ⟨k1, k2, k3, k4⟩ := g3 ⟨hh.1, by simpa using hh.2⟩
            simp only [RecvOps.run, FrameRecv.ops, hp]
            refine ⟨k1, k2, k3, ?_⟩
            intro p hpm
            rcases List.mem_cons.mp hpm with rfl | hpm
            · exact Or.inr ⟨f, rfl⟩
            · exact k4 p hpm
        · exact stuck f (hl f (by simp)) h1 h2

theorem frames_drain (fs : List Bytes) (r : FrameRecv) (hd : r.dead = false) (hl : ∀ f ∈ fs, f.length ≤ maxFrame)
    (h : r.chunks.flatten = fs.flatMap frame) (k : Nat) (hk : fs.length ≤ k) :
    items (FrameRecv.ops.run r (List.replicate k .poll)).1 = fs := by
  induction fs generalizing r k with
  | nil =>
    obtain ⟨a, b, h1, h2, -⟩ := frames_run [] [] r (List.replicate k .poll) hd (by simp) (by
      have : arrived (List.replicate k RecvEv.poll) = [] := by
        induction k with
        | zero => rfl
        | succ k ih => simp only [List.replicate_succ, arrived]; exact ih (by simp)
      rw [h, this]; rfl)
    rw [h2]; simpa using (List.append_eq_nil_iff.mp h1.symm).1
  | cons f fs ih =>
    cases k with
    | zero => simp at hk
    | succ k =>
      obtain ⟨cs, hp, hcs⟩ := poll_frame hd (hl f (by simp)) (rest := fs.flatMap frame) (by rw [h]; rfl)
      simp only [List.replicate_succ, RecvOps.run, FrameRecv.ops, hp, items_cons_item]
      congr 1
      exact ih { r with chunks := cs } hd (fun g hg => hl g (by simp [hg])) hcs k (by simpa using hk)

/-- C26. However the bytes of a sequence of frames (each at most 8192 bytes) are split into pieces and whenever the
    receiver is polled, the delivered frames are always the first frames of the sequence, in order and unchanged; no
    error occurs while the peer stays connected; and once all bytes have arrived, polling delivers all of them. -/
theorem C26_framing_lossless (fs : List Bytes) (hl : ∀ f ∈ fs, f.length ≤ 8192) (evs : List RecvEv)
    (harr : arrived evs <+: fs.flatMap frame) :
    items (FrameRecv.ops.run .init evs).1 <+: fs ∧
    (RecvEv.close ∉ evs → ∀ p ∈ (FrameRecv.ops.run .init evs).1, p = .pending ∨ ∃ d, p = .item d) ∧
    (RecvEv.close ∉ evs → arrived evs = fs.flatMap frame → ∀ k, fs.length ≤ k →
      items (FrameRecv.ops.run .init (evs ++ List.replicate k .poll)).1 = fs) := by
  obtain ⟨rest, hrest⟩ := harr
  obtain ⟨a, b, h1, h2, h3⟩ := frames_run fs rest .init evs rfl hl (by simpa [FrameRecv.init] using hrest)
  refine ⟨?_, ?_, ?_⟩
  · rw [h2, h1]; exact List.prefix_append _ _
  · intro hc; exact (h3 ⟨rfl, hc⟩).2.2.2
  · intro hc harr k hk
    obtain ⟨k1, k2, k3, -⟩ := h3 ⟨rfl, hc⟩
    have hr : rest = [] := by
      have : (arrived evs ++ rest).length = (arrived evs).length := by rw [hrest, harr]
      simpa using this
    rw [recv_append, items_append, h2]
    rw [frames_drain b _ k1 (fun f hf => hl f (by rw [h1]; simp [hf])) (by simpa [hr] using k3) k (by
      rw [h1] at hk; simp at hk; omega)]
    exact h1.symm

/-- C26. A frame of at most 8192 bytes is written as its length (two bytes, little endian) and its content; a longer
    one is refused and nothing is written. -/
theorem C26_send (d : Bytes) :
    (d.length ≤ 8192 → frameBytes d = .ok (frame d)) ∧ (8192 < d.length → frameBytes d = .error "FrameOverflow") :=
  ⟨fun h => frameBytes_ok h, fun h => by unfold frameBytes; exact if_pos h⟩

/-- C26. A length above 8192 is refused as soon as its two bytes have arrived, in whatever pieces, and whether or not any
    of its content has; afterwards the stream is over. -/
theorem C26_oversize_refused_on_receipt (cs : List Bytes) (closed : Bool) (a b : UInt8) (rest : Bytes)
    (h : cs.flatten = a :: b :: rest) (hn : 8192 < a.toNat + 256 * b.toNat) :
    (FrameRecv.poll ⟨cs, closed, false⟩).1 = .err "FrameOverflow" ∧
    ∀ evs, ∀ p ∈ (FrameRecv.ops.run (FrameRecv.poll ⟨cs, closed, false⟩).2 evs).1, p = .finished := by
  have hp := poll_oversize (r := ⟨cs, closed, false⟩) rfl h hn
  rw [hp]
  refine ⟨rfl, ?_⟩
  intro evs
  have : ∀ (r : FrameRecv), r.dead = true → ∀ p ∈ (FrameRecv.ops.run r evs).1, p = .finished := by
    induction evs with
    | nil => intro r _ p hp; simp [RecvOps.run] at hp
    | cons e es ih =>
      intro r hr
      cases e with
      | arrive c => exact ih _ hr
      | close => exact ih _ hr
      | poll =>
        intro p hp
        have hf : FrameRecv.ops.poll r = (.finished, r) := by simp [FrameRecv.ops, FrameRecv.poll, hr]
        simp only [RecvOps.run, hf] at hp
        rcases List.mem_cons.mp hp with rfl | hp
        · rfl
        · exact ih r hr p hp
  exact this _ rfl

/-! ### C27: encrypted messages -/

/-- What a run of sends of messages that all fit puts on the wire. -/
theorem sendAll_wire (L : S.Lawful) (ms : List Msg) (x : CryptSend S)
    (h : ∀ m ∈ ms, (Codec.encodeMsg m).length + 17 ≤ 8192) :
    (x.sendAll ms).1 = ms.map (fun _ => .ok ()) ∧
    (x.sendAll ms).2.wire = x.wire ++ S.wire x.enc (ms.map Codec.encodeMsg) := by
  induction ms generalizing x with
  | nil => simp [CryptSend.sendAll, SStream.wire]
  | cons m ms ih =>
    have hm : frameBytes (S.push x.enc (Codec.encodeMsg m)).1 = .ok (frame (S.push x.enc (Codec.encodeMsg m)).1) :=
      frameBytes_ok (by rw [L.push_len]; exact h m (by simp))
    have := ih ⟨(S.push x.enc (Codec.encodeMsg m)).2, x.wire ++ frame (S.push x.enc (Codec.encodeMsg m)).1⟩
      (fun m' hm' => h m' (by simp [hm']))
    simp only [CryptSend.sendAll, CryptSend.sendMsg, CryptSend.send, hm, List.map_cons, SStream.wire]
    refine ⟨by rw [this.1], by rw [this.2, List.append_assoc]⟩

/-- Receiving the frames of messages that all fit. -/
theorem msgs_run (L : S.Lawful) (ms : List Msg) (rest : Bytes) (r : MsgRecv S) (evs : List RecvEv) (ha : r.alive)
    (hf : ∀ m ∈ ms, (Codec.encodeMsg m).length + 17 ≤ 8192) (hc : r.cr.fr.closed = false) (hne : RecvEv.close ∉ evs)
    (h : r.unread ++ arrived evs ++ rest = S.wire r.cr.dec (ms.map Codec.encodeMsg)) :
    ∃ done todo, ms = done ++ todo ∧ items ((MsgRecv.ops S).run r evs).1 = done ∧
      ((MsgRecv.ops S).run r evs).2.alive ∧ ((MsgRecv.ops S).run r evs).2.cr.fr.closed = false ∧
      ((MsgRecv.ops S).run r evs).2.unread ++ rest =
        S.wire ((MsgRecv.ops S).run r evs).2.cr.dec (todo.map Codec.encodeMsg) ∧
      (∀ p ∈ ((MsgRecv.ops S).run r evs).1, p = .pending ∨ ∃ m, p = .item m) := by
  induction evs generalizing r ms with
  | nil => exact ⟨[], ms, rfl, rfl, ha, hc, by simpa [arrived, RecvOps.run] using h, by simp [RecvOps.run]⟩
  | cons e es ih =>
    cases e with
    | arrive c =>
      exact ih ms ((MsgRecv.ops S).feed r c) ha hf hc (by simpa using hne) (by
        simpa [arrived, MsgRecv.ops, FrameRecv.ops, MsgRecv.unread, List.append_assoc] using h)
    | close => exact absurd hne (by simp)
    | poll =>
      simp only [arrived] at h
      have hm : maxFrame = 8192 := rfl
      have stuck : ∀ d : Bytes, d.length ≤ maxFrame → r.unread <+: frame d → r.unread.length < (frame d).length →
          r.poll = (.pending, r) := by
        intro d h1 h2 h3
        have hp := poll_partial ha.2.2 h1 h2 h3
        rw [hc] at hp
        simp only [Bool.false_eq_true, if_false] at hp
        rcases MsgRecv.poll_alive ha with ⟨g1, g2, -⟩ | ⟨⟨e, g⟩, -⟩ | ⟨-, -, -, c, fr', g, -⟩ | ⟨c, fr', d', dec', m, g, -⟩
        · exact Prod.ext g1 g2
        · exfalso
          simp only [MsgRecv.poll, ha.1, CryptRecv.poll, ha.2.1, hp, Bool.false_eq_true, if_false] at g
          cases g
        · rw [hp] at g; simp at g
        · rw [hp] at g; simp at g
      have go : r.poll = (.pending, r) → ∃ done todo, ms = done ++ todo ∧
          items ((MsgRecv.ops S).run r (.poll :: es)).1 = done ∧
          ((MsgRecv.ops S).run r (.poll :: es)).2.alive ∧ ((MsgRecv.ops S).run r (.poll :: es)).2.cr.fr.closed = false ∧
          ((MsgRecv.ops S).run r (.poll :: es)).2.unread ++ rest =
            S.wire ((MsgRecv.ops S).run r (.poll :: es)).2.cr.dec (todo.map Codec.encodeMsg) ∧
          (∀ p ∈ ((MsgRecv.ops S).run r (.poll :: es)).1, p = .pending ∨ ∃ m, p = .item m) := by
        intro hp
        obtain ⟨a, b, g1, g2, g3, g4, g5, g6⟩ := ih ms r ha hf hc (by simpa using hne) h
        have hp' : (MsgRecv.ops S).poll r = (.pending, r) := hp
        simp only [RecvOps.run, hp', items_cons_pending]
        refine ⟨a, b, g1, g2, g3, g4, g5, ?_⟩
        intro p hpm
        rcases List.mem_cons.mp hpm with rfl | hpm
        · exact Or.inl rfl
        · exact g6 p hpm
      cases ms with
      | nil =>
        have hu : r.unread = [] := by simp [SStream.wire] at h; exact h.1
        exact go (stuck [] (by simp) (by rw [hu]; exact List.nil_prefix) (by rw [hu]; simp [frame, le16]))
      | cons m ms' =>
        have hfm := hf m (by simp)
        simp only [List.map_cons, SStream.wire, List.append_assoc] at h
        rcases prefix_cases h with ⟨x, h1, h2⟩ | ⟨h1, h2⟩
        · obtain ⟨cs, hp, hcs⟩ := poll_frame (r := r.cr.fr) ha.2.2 (by rw [L.push_len]; omega) h1
          have hd := MsgRecv.deliver L ha hp
          obtain ⟨a, b, g1, g2, g3, g4, g5, g6⟩ := ih ms'
            ⟨⟨{ r.cr.fr with chunks := cs }, (S.push r.cr.dec (Codec.encodeMsg m)).2, false⟩, false⟩
            ⟨rfl, rfl, ha.2.2⟩ (fun m' hm' => hf m' (by simp [hm'])) hc (by simpa using hne) (by
              simp only [MsgRecv.unread]; rw [hcs, List.append_assoc]; exact h2)
          have hp' : (MsgRecv.ops S).poll r = (.item m,
            ⟨⟨{ r.cr.fr with chunks := cs }, (S.push r.cr.dec (Codec.encodeMsg m)).2, false⟩, false⟩) := hd
          simp only [RecvOps.run, hp', items_cons_item]
          refine ⟨m :: a, b, by rw [g1]; rfl, by rw [g2], g3, g4, g5, ?_⟩
          intro p hpm
          rcases List.mem_cons.mp hpm with rfl | hpm
          · exact Or.inr ⟨m, rfl⟩
          · exact g6 p hpm
        · exact go (stuck _ (by rw [L.push_len]; omega) h1 h2)

theorem arrived_polls (k : Nat) : arrived (List.replicate k RecvEv.poll) = [] := by
  induction k with
  | zero => rfl
  | succ k ih => simp only [List.replicate_succ, arrived]; exact ih

theorem msgs_drain (L : S.Lawful) (ms : List Msg) (r : MsgRecv S) (ha : r.alive)
    (hf : ∀ m ∈ ms, (Codec.encodeMsg m).length + 17 ≤ 8192) (hc : r.cr.fr.closed = false)
    (h : r.unread = S.wire r.cr.dec (ms.map Codec.encodeMsg)) (k : Nat) (hk : ms.length ≤ k) :
    items ((MsgRecv.ops S).run r (List.replicate k .poll)).1 = ms := by
  induction ms generalizing r k with
  | nil =>
    obtain ⟨a, b, h1, h2, -⟩ := msgs_run L [] [] r (List.replicate k .poll) ha (by simp) hc (by simp) (by
      rw [h, arrived_polls]; rfl)
    rw [h2]; simpa using (List.append_eq_nil_iff.mp h1.symm).1
  | cons m ms ih =>
    cases k with
    | zero => simp at hk
    | succ k =>
      have hm : maxFrame = 8192 := rfl
      have hfm := hf m (by simp)
      simp only [List.map_cons, SStream.wire] at h
      obtain ⟨cs, hp, hcs⟩ := poll_frame (r := r.cr.fr) ha.2.2 (by rw [L.push_len]; omega) h
      have hd : (MsgRecv.ops S).poll r = _ := MsgRecv.deliver L ha hp
      simp only [List.replicate_succ, RecvOps.run, hd, items_cons_item]
      congr 1
      exact ih ⟨⟨{ r.cr.fr with chunks := cs }, (S.push r.cr.dec (Codec.encodeMsg m)).2, false⟩, false⟩
        ⟨rfl, rfl, ha.2.2⟩ (fun m' hm' => hf m' (by simp [hm'])) hc hcs k (by simpa using hk)

/-- C27 (part: messages that fit a frame). All sends succeed, and whatever the splitting of the bytes and the timing of
    the polls, the receiver gets exactly the sent messages, in order. Missing for the full claim: an oversize message in
    between, see `C27_oversize_message_breaks_channel`. -/
theorem C27_messages_delivered_partial (L : S.Lawful) (s : S.St) (ms : List Msg)
    (hf : ∀ m ∈ ms, (Codec.encodeMsg m).length + 17 ≤ 8192) (evs : List RecvEv) (hne : RecvEv.close ∉ evs) :
    ((CryptSend.init s).sendAll ms).1 = ms.map (fun _ => .ok ()) ∧
    (arrived evs <+: ((CryptSend.init s).sendAll ms).2.wire →
      items ((MsgRecv.ops S).run (.init s) evs).1 <+: ms ∧
      ∀ p ∈ ((MsgRecv.ops S).run (.init s) evs).1, p = .pending ∨ ∃ m, p = .item m) ∧
    (arrived evs = ((CryptSend.init s).sendAll ms).2.wire → ∀ k, ms.length ≤ k →
      items ((MsgRecv.ops S).run (.init s) (evs ++ List.replicate k .poll)).1 = ms) := by
  obtain ⟨w1, w2⟩ := sendAll_wire L ms (CryptSend.init s) hf
  have w3 : ((CryptSend.init s).sendAll ms).2.wire = S.wire s (ms.map Codec.encodeMsg) := by rw [w2]; rfl
  refine ⟨w1, ?_, ?_⟩
  · rintro ⟨rest, hr⟩
    obtain ⟨a, b, h1, h2, -, -, -, h6⟩ := msgs_run L ms rest (.init s) evs ⟨rfl, rfl, rfl⟩ hf rfl hne (by
      show arrived evs ++ rest = S.wire s _
      rw [← w3, ← hr])
    exact ⟨by rw [h2, h1]; exact List.prefix_append _ _, h6⟩
  · intro harr k hk
    obtain ⟨a, b, h1, h2, h3, h4, h5, -⟩ := msgs_run L ms [] (.init s) evs ⟨rfl, rfl, rfl⟩ hf rfl hne (by
      show arrived evs ++ [] = S.wire s _
      rw [← w3, ← harr]; simp)
    rw [recv_append, items_append, h2, msgs_drain L b _ h3 (fun m hm => hf m (by rw [h1]; simp [hm])) h4 (by simpa using h5) k (by
      rw [h1] at hk; simp at hk; omega)]
    exact h1.symm

theorem adv_run (L : S.Lawful) (s : S.St) (dn td : List Msg) (bytes : Bytes)
    (hu : Unforged S s ((dn ++ td).map Codec.encodeMsg) bytes) (r : MsgRecv S) (evs : List RecvEv) (ha : r.alive)
    (hdec : r.cr.dec = S.after s (dn.map Codec.encodeMsg)) (hb : r.unread ++ arrived evs <:+ bytes) :
    items ((MsgRecv.ops S).run r evs).1 <+: td := by
  induction evs generalizing r dn td with
  | nil => exact List.nil_prefix
  | cons e es ih =>
    cases e with
    | arrive c =>
      exact ih dn td hu ((MsgRecv.ops S).feed r c) ha hdec (by
        simpa [arrived, MsgRecv.ops, FrameRecv.ops, MsgRecv.unread, List.append_assoc] using hb)
    | close => exact ih dn td hu ((MsgRecv.ops S).close r) ha hdec hb
    | poll =>
      simp only [arrived] at hb
      rcases MsgRecv.poll_alive ha with ⟨g1, g2, -⟩ | ⟨⟨e, g⟩, hd, -⟩ | ⟨g, hd, -⟩ | ⟨c, fr', d, dec', m, g, g2, g3, g4⟩
      · have hp : (MsgRecv.ops S).poll r = (.pending, r) := Prod.ext g1 g2
        simp only [RecvOps.run, hp, items_cons_pending]
        exact ih dn td hu r ha hdec hb
      · have hp : (MsgRecv.ops S).poll r = (.err e, r.poll.2) := Prod.ext g rfl
        simp only [RecvOps.run, hp, items_cons_err]
        rw [items_nil_of_finished (MsgRecv.run_dead hd es).1]; exact List.nil_prefix
      · have hp : (MsgRecv.ops S).poll r = (.panicked, r.poll.2) := Prod.ext g rfl
        simp only [RecvOps.run, hp, items_cons_panicked]
        rw [items_nil_of_finished (MsgRecv.run_dead hd es).1]; exact List.nil_prefix
      · obtain ⟨-, hlen, hfr, hsplit⟩ := poll_item g
        have hin : c <:+: bytes := by
          refine List.IsInfix.trans ?_ hb.isInfix
          refine ⟨le16 c.length, fr'.chunks.flatten ++ arrived es, ?_⟩
          simp [MsgRecv.unread, hsplit, frame, List.append_assoc]
        have hu' := hu (dn.map Codec.encodeMsg) (td.map Codec.encodeMsg) (by simp) c hin (by
          rw [← hdec, g2]; rfl)
        obtain ⟨d', rest', hpost, hc⟩ := hu'
        cases td with
        | nil => simp at hpost
        | cons m' td' =>
          simp only [List.map_cons, List.cons.injEq] at hpost
          obtain ⟨rfl, rfl⟩ := hpost
          rw [← hdec] at hc
          rw [hc] at g
          have hdl := MsgRecv.deliver L ha g
          have hp : (MsgRecv.ops S).poll r = _ := hdl
          simp only [RecvOps.run, hp, items_cons_item]
          have := ih (dn ++ [m']) td' (by simpa using hu)
            ⟨⟨fr', (S.push r.cr.dec (Codec.encodeMsg m')).2, false⟩, false⟩ ⟨rfl, rfl, by rw [hfr]; exact ha.2.2⟩ (by
              simp only [List.map_append, List.map_cons, List.map_nil, after_append, SStream.after, hdec]) (by
              refine List.IsSuffix.trans ?_ hb
              refine ⟨frame c, ?_⟩
              simp [MsgRecv.unread, hsplit, List.append_assoc])
          obtain ⟨t, ht⟩ := this
          exact ⟨t, by simp [ht]⟩

/-- C27. Whatever an adversary on the wire does (drop, repeat, reorder, cut, insert bytes) short of forging a cipher, the
    messages received are a prefix of the messages sent, in order and each once. -/
theorem C27_received_is_prefix_of_sent (L : S.Lawful) (s : S.St) (ms : List Msg) (evs : List RecvEv)
    (hu : Unforged S s (ms.map Codec.encodeMsg) (arrived evs)) :
    items ((MsgRecv.ops S).run (.init s) evs).1 <+: ms := by
  refine adv_run L s [] ms (arrived evs) (by simpa using hu) (.init s) evs ⟨rfl, rfl, rfl⟩ rfl ?_
  simp [MsgRecv.init, MsgRecv.unread, FrameRecv.init]

/-- C27. After an error (or the end) nothing more is ever delivered. -/
theorem C27_nothing_after_error (r : MsgRecv S) (ha : r.alive) (hbad : ∀ m, r.poll.1 ≠ .item m) (hnp : r.poll.1 ≠ .pending)
    (evs : List RecvEv) : ∀ p ∈ ((MsgRecv.ops S).run r.poll.2 evs).1, p = .finished := by
  rcases MsgRecv.poll_alive ha with ⟨g1, -⟩ | ⟨-, hd, -⟩ | ⟨g, hd, -⟩ | ⟨c, fr', d, dec', m, -, -, -, g4⟩
  · exact absurd g1 hnp
  · exact (MsgRecv.run_dead hd evs).1
  · exact (MsgRecv.run_dead hd evs).1
  · exact absurd (by rw [g4]) (hbad m)

/-- C27. If, after the genuine frames of `ms`, any other frame arrives than the sender's next one (or any frame at all, if
    the sender sent no more), then exactly `ms` is delivered, the next poll fails, and the stream is over. -/
theorem C27_wrong_frame_ends_stream (L : S.Lawful) (s : S.St) (ms : List Msg)
    (hf : ∀ m ∈ ms, (Codec.encodeMsg m).length + 17 ≤ 8192) (evs : List RecvEv) (hne : RecvEv.close ∉ evs)
    (x : Bytes) (hx : x.length ≤ 8192) (hbad : S.pull (S.after s (ms.map Codec.encodeMsg)) x = none)
    (rest : Bytes) (harr : arrived evs = S.wire s (ms.map Codec.encodeMsg) ++ (frame x ++ rest)) (k : Nat) :
    ∃ ps₁ p ps₂, ((MsgRecv.ops S).run (.init s) (evs ++ List.replicate (ms.length + 1) .poll)).1 = ps₁ ++ p :: ps₂ ∧
      items ps₁ = ms ∧ (p = .panicked ∨ ∃ e, p = .err e) ∧ (∀ q ∈ ps₂, q = .finished) ∧
      ∀ q ∈ ((MsgRecv.ops S).run ((MsgRecv.ops S).run (.init s) (evs ++ List.replicate (ms.length + 1) .poll)).2
        (List.replicate k .poll)).1, q = .finished := by
  suffices h : ∀ (evs : List RecvEv) (ms : List Msg) (n : Nat) (r : MsgRecv S), r.alive → r.cr.fr.closed = false →
      (∀ m ∈ ms, (Codec.encodeMsg m).length + 17 ≤ 8192) → RecvEv.close ∉ evs → ms.length + 1 ≤ n →
      S.pull (S.after r.cr.dec (ms.map Codec.encodeMsg)) x = none →
      r.unread ++ arrived evs = S.wire r.cr.dec (ms.map Codec.encodeMsg) ++ (frame x ++ rest) →
      ∃ ps₁ p ps₂, ((MsgRecv.ops S).run r (evs ++ List.replicate n .poll)).1 = ps₁ ++ p :: ps₂ ∧
        items ps₁ = ms ∧ (p = .panicked ∨ ∃ e, p = .err e) ∧ (∀ q ∈ ps₂, q = .finished) ∧
        ((MsgRecv.ops S).run r (evs ++ List.replicate n .poll)).2.dead = true by
    obtain ⟨a, p, b, h1, h2, h3, h4, h5⟩ := h evs ms (ms.length + 1) (.init s) ⟨rfl, rfl, rfl⟩ rfl hf hne (by omega) hbad (by
      simpa [MsgRecv.init, MsgRecv.unread, FrameRecv.init] using harr)
    exact ⟨a, p, b, h1, h2, h3, h4, (MsgRecv.run_dead h5 _).1⟩
  clear hf hne harr hbad evs ms
  have hmf : maxFrame = 8192 := rfl
  -- what one poll does
  have step : ∀ (ms : List Msg) (r : MsgRecv S) (fut : Bytes), r.alive → r.cr.fr.closed = false →
      (∀ m ∈ ms, (Codec.encodeMsg m).length + 17 ≤ 8192) →
      S.pull (S.after r.cr.dec (ms.map Codec.encodeMsg)) x = none →
      r.unread ++ fut = S.wire r.cr.dec (ms.map Codec.encodeMsg) ++ (frame x ++ rest) →
      (fut ≠ [] ∧ r.poll = (.pending, r)) ∨
      (ms = [] ∧ (r.poll.1 = .panicked ∨ ∃ e, r.poll.1 = .err e) ∧ r.poll.2.dead = true) ∨
      (∃ m ms' cs, ms = m :: ms' ∧ r.poll = (.item m,
        ⟨⟨{ r.cr.fr with chunks := cs }, (S.push r.cr.dec (Codec.encodeMsg m)).2, false⟩, false⟩) ∧
        cs.flatten ++ fut = S.wire (S.push r.cr.dec (Codec.encodeMsg m)).2 (ms'.map Codec.encodeMsg) ++ (frame x ++ rest)) := by
    intro ms r fut ha hc hf hbad h
    have stuck : ∀ d : Bytes, d.length ≤ maxFrame → r.unread <+: frame d → r.unread.length < (frame d).length →
        r.poll = (.pending, r) := by
      intro d h1 h2 h3
      have hp := poll_partial ha.2.2 h1 h2 h3
      rw [hc] at hp
      simp only [Bool.false_eq_true, if_false] at hp
      obtain ⟨⟨fr, dec, d1⟩, d2⟩ := r
      obtain ⟨a1, a2, a3⟩ := ha
      simp only at a1 a2 hp
      subst a1 a2
      simp only [MsgRecv.poll, CryptRecv.poll, hp, Bool.false_eq_true, if_false]
    cases ms with
    | nil =>
      simp only [List.map_nil, SStream.wire, List.nil_append] at h
      rcases prefix_cases h with ⟨y, h1, h2⟩ | ⟨h1, h2⟩
      · obtain ⟨cs, hp, hcs⟩ := poll_frame (r := r.cr.fr) ha.2.2 (by omega) h1
        right; left
        refine ⟨rfl, ?_⟩
        simp only [List.map_nil, SStream.after] at hbad
        by_cases hlt : x.length < 17
        · simp [MsgRecv.poll, ha.1, CryptRecv.poll, ha.2.1, hp, hlt]
        · simp [MsgRecv.poll, ha.1, CryptRecv.poll, ha.2.1, hp, hlt, hbad]
      · left
        refine ⟨?_, stuck x (by omega) h1 h2⟩
        rintro rfl
        have : r.unread.length = (frame x ++ rest).length := by rw [← h]; simp
        simp at this; omega
    | cons m ms' =>
      have hfm := hf m (by simp)
      simp only [List.map_cons, SStream.wire, List.append_assoc] at h
      rcases prefix_cases h with ⟨y, h1, h2⟩ | ⟨h1, h2⟩
      · obtain ⟨cs, hp, hcs⟩ := poll_frame (r := r.cr.fr) ha.2.2 (by rw [L.push_len]; omega) h1
        have hd := MsgRecv.deliver L ha hp
        right; right
        exact ⟨m, ms', cs, rfl, hd, by rw [hcs]; exact h2⟩
      · left
        refine ⟨?_, stuck _ (by rw [L.push_len]; omega) h1 h2⟩
        rintro rfl
        have := congrArg List.length h
        simp at this; omega
  have fin : ∀ (r : MsgRecv S) (es : List RecvEv) (p : Polled Msg) (r' : MsgRecv S), r.poll = (p, r') → r'.dead = true →
      (p = .panicked ∨ ∃ e, p = .err e) →
      ∃ ps₁ p ps₂, ((MsgRecv.ops S).run r (.poll :: es)).1 = ps₁ ++ p :: ps₂ ∧
        items ps₁ = [] ∧ (p = .panicked ∨ ∃ e, p = .err e) ∧ (∀ q ∈ ps₂, q = .finished) ∧
        ((MsgRecv.ops S).run r (.poll :: es)).2.dead = true := by
    intro r es p r' hp hd hpp
    have hp' : (MsgRecv.ops S).poll r = (p, r') := hp
    have := MsgRecv.run_dead hd es
    refine ⟨[], p, ((MsgRecv.ops S).run r' es).1, ?_, rfl, hpp, this.1, ?_⟩
    · simp only [RecvOps.run, hp', List.nil_append]
    · simp only [RecvOps.run, hp']; exact this.2
  intro evs
  induction evs with
  | nil =>
    intro ms n
    induction n generalizing ms with
    | zero => intro r _ _ _ _ hk; omega
    | succ n ih =>
      intro r ha hc hf hne hk hbad h
      simp only [arrived] at h
      rcases step ms r [] ha hc hf hbad h with ⟨g, -⟩ | ⟨rfl, g1, g2⟩ | ⟨m, ms', cs, rfl, g1, g2⟩
      · exact absurd rfl g
      · exact fin r _ _ _ rfl g2 g1
      · obtain ⟨a, p, b, k1, k2, k3, k4, k5⟩ := ih ms'
          ⟨⟨{ r.cr.fr with chunks := cs }, (S.push r.cr.dec (Codec.encodeMsg m)).2, false⟩, false⟩ ⟨rfl, rfl, ha.2.2⟩ hc
          (fun m' hm' => hf m' (by simp [hm'])) (by simp) (by simp at hk; omega) (by simpa [SStream.after] using hbad) g2
        have hp' : (MsgRecv.ops S).poll r = _ := g1
        simp only [List.nil_append, List.replicate_succ, RecvOps.run, hp'] at k1 k5 ⊢
        exact ⟨.item m :: a, p, b, by rw [k1]; rfl, by rw [items_cons_item, k2], k3, k4, k5⟩
  | cons e es ih =>
    intro ms n r ha hc hf hne hk hbad h
    cases e with
    | arrive c =>
      exact ih ms n ((MsgRecv.ops S).feed r c) ha hc hf (by simpa using hne) hk hbad (by
        simpa [arrived, MsgRecv.ops, FrameRecv.ops, MsgRecv.unread, List.append_assoc] using h)
    | close => exact absurd hne (by simp)
    | poll =>
      simp only [arrived] at h
      rcases step ms r (arrived es) ha hc hf hbad h with ⟨-, g⟩ | ⟨rfl, g1, g2⟩ | ⟨m, ms', cs, rfl, g1, g2⟩
      · obtain ⟨a, p, b, k1, k2, k3, k4, k5⟩ := ih ms n r ha hc hf (by simpa using hne) hk hbad h
        have hp' : (MsgRecv.ops S).poll r = _ := g
        simp only [List.cons_append, RecvOps.run, hp'] at k1 k5 ⊢
        exact ⟨.pending :: a, p, b, by rw [k1]; rfl, by rw [items_cons_pending, k2], k3, k4, k5⟩
      · exact fin r _ _ _ rfl g2 g1
      · obtain ⟨a, p, b, k1, k2, k3, k4, k5⟩ := ih ms' n
          ⟨⟨{ r.cr.fr with chunks := cs }, (S.push r.cr.dec (Codec.encodeMsg m)).2, false⟩, false⟩ ⟨rfl, rfl, ha.2.2⟩ hc
          (fun m' hm' => hf m' (by simp [hm'])) (by simpa using hne) (by simp at hk; omega)
          (by simpa [SStream.after] using hbad) g2
        have hp' : (MsgRecv.ops S).poll r = _ := g1
        simp only [List.cons_append, RecvOps.run, hp'] at k1 k5 ⊢
        exact ⟨.item m :: a, p, b, by rw [k1]; rfl, by rw [items_cons_item, k2], k3, k4, k5⟩

/-- C27, negation of the last part. A message too long for a frame is refused with an error at the sender, but the stream
    state has already moved: the next message is sent successfully and can never be read. (Hypothesis `hsep`: the stream
    does what its counter is for, a cipher made in the next state is not accepted in this one.) -/
theorem C27_oversize_message_breaks_channel (L : S.Lawful) (s : S.St) (big m : Msg)
    (hbig : 8192 < (Codec.encodeMsg big).length + 17) (hm : (Codec.encodeMsg m).length + 17 ≤ 8192)
    (hsep : S.pull s (S.push (S.push s (Codec.encodeMsg big)).2 (Codec.encodeMsg m)).1 = none) :
    ((CryptSend.init s).sendAll [big, m]).1 = [.error "FrameOverflow", .ok ()] ∧
    ∀ evs, RecvEv.close ∉ evs → arrived evs = ((CryptSend.init s).sendAll [big, m]).2.wire →
      ∃ ps₁ p ps₂, ((MsgRecv.ops S).run (.init s) (evs ++ [.poll])).1 = ps₁ ++ p :: ps₂ ∧ items ps₁ = [] ∧
        (p = .panicked ∨ ∃ e, p = .err e) ∧ (∀ q ∈ ps₂, q = .finished) ∧
        ∀ k, ∀ q ∈ ((MsgRecv.ops S).run ((MsgRecv.ops S).run (.init s) (evs ++ [.poll])).2 (List.replicate k .poll)).1,
          q = .finished := by
  have hmf : maxFrame = 8192 := rfl
  have h1 : frameBytes (S.push s (Codec.encodeMsg big)).1 = .error "FrameOverflow" := by
    unfold frameBytes; rw [if_pos (by rw [L.push_len]; omega)]
  have h2 : ∀ t, frameBytes (S.push t (Codec.encodeMsg m)).1 = .ok (frame (S.push t (Codec.encodeMsg m)).1) :=
    fun t => frameBytes_ok (by rw [L.push_len]; omega)
  have hs : (CryptSend.init s).sendAll [big, m] = ([.error "FrameOverflow", .ok ()],
      ⟨(S.push (S.push s (Codec.encodeMsg big)).2 (Codec.encodeMsg m)).2,
        frame (S.push (S.push s (Codec.encodeMsg big)).2 (Codec.encodeMsg m)).1⟩) := by
    simp only [CryptSend.sendAll, CryptSend.sendMsg, CryptSend.send, CryptSend.init, h1, h2]
    rfl
  rw [hs]
  refine ⟨rfl, fun evs hne harr => ?_⟩
  have key := fun k => C27_wrong_frame_ends_stream L s [] (by simp) evs hne _ (by rw [L.push_len]; omega) hsep [] (by
    simpa [SStream.wire] using harr) k
  obtain ⟨a, p, b, k1, k2, k3, k4, -⟩ := key 0
  refine ⟨a, p, b, k1, k2, k3, k4, fun k => ?_⟩
  obtain ⟨_, _, _, -, -, -, -, k5⟩ := key k
  exact k5

theorem CryptRecv.run_dead {r : CryptRecv S} (hd : r.dead = true) (evs : List RecvEv) :
    ∀ p ∈ ((CryptRecv.ops S).run r evs).1, p = .finished := by
  induction evs generalizing r with
  | nil => simp [RecvOps.run]
  | cons e es ih =>
    cases e with
    | arrive c => exact ih (r := (CryptRecv.ops S).feed r c) hd
    | close => exact ih (r := (CryptRecv.ops S).close r) hd
    | poll =>
      have hp : (CryptRecv.ops S).poll r = (.finished, r) := by simp [CryptRecv.ops, CryptRecv.poll, hd]
      simp only [RecvOps.run, hp, List.mem_cons, forall_eq_or_imp, true_and]
      exact ih hd

/-- C27. The decryption layer too is silent for good once a poll of it has given anything but an item: a wrong cipher is never
    skipped, not even by a user of this layer alone. -/
theorem C27_decryption_stops_at_first_failure (r : CryptRecv S) (hbad : ∀ d, r.poll.1 ≠ .item d) (hnp : r.poll.1 ≠ .pending)
    (evs : List RecvEv) : ∀ p ∈ ((CryptRecv.ops S).run r.poll.2 evs).1, p = .finished := by
  apply CryptRecv.run_dead
  revert hbad hnp
  unfold CryptRecv.poll
  split
  · intros; assumption
  · split
    · intro _ h; exact absurd rfl h
    · intros; rfl
    · intros; rfl
    · intros; rfl
    · split
      · intros; rfl
      · split
        · intros; rfl
        · intro h; exact absurd rfl (h _)

/-- Specification: decoding what the decryption layer delivers, until the first thing that is not a message. -/
def decodedPolls : List (Polled Bytes) → List (Polled Msg)
  | [] => []
  | .pending :: ps => .pending :: decodedPolls ps
  | .finished :: ps => .finished :: ps.map fun _ => .finished
  | .err e :: ps => .err e :: ps.map fun _ => .finished
  | .panicked :: ps => .panicked :: ps.map fun _ => .finished
  | .item d :: ps =>
    match Codec.decodeMsg d with
    | some m => .item m :: decodedPolls ps
    | none => .err "decode error" :: ps.map fun _ => .finished

theorem RecvOps.run_map_finished {S : SStream} {r : MsgRecv S} (hd : r.dead = true) (evs : List RecvEv) (r' : CryptRecv S) :
    ((MsgRecv.ops S).run r evs).1 = ((CryptRecv.ops S).run r' evs).1.map fun _ => .finished := by
  induction evs generalizing r r' with
  | nil => rfl
  | cons e es ih =>
    cases e with
    | arrive c => exact ih (r := (MsgRecv.ops S).feed r c) hd ((CryptRecv.ops S).feed r' c)
    | close => exact ih (r := (MsgRecv.ops S).close r) hd ((CryptRecv.ops S).close r')
    | poll =>
      have hp : (MsgRecv.ops S).poll r = (.finished, r) := MsgRecv.poll_dead hd
      simp only [RecvOps.run, hp, List.map_cons]
      exact congrArg _ (ih hd _)

/-- C27. The receiver of messages is the decryption layer with a decoder on top: under any arrivals, closings and polls, each of
    its polls gives what the decryption layer alone would give for the same events, decoded, up to the first thing that
    is not a message; nothing is dropped, added or reordered between the layers. -/
theorem C27_message_layer_only_decodes (cr : CryptRecv S) (evs : List RecvEv) :
    ((MsgRecv.ops S).run ⟨cr, false⟩ evs).1 = decodedPolls ((CryptRecv.ops S).run cr evs).1 := by
  induction evs generalizing cr with
  | nil => rfl
  | cons e es ih =>
    cases e with
    | arrive c => exact ih ((CryptRecv.ops S).feed cr c)
    | close => exact ih ((CryptRecv.ops S).close cr)
    | poll =>
      have hc : (CryptRecv.ops S).poll cr = cr.poll := rfl
      have hm : (MsgRecv.ops S).poll ⟨cr, false⟩ = MsgRecv.poll ⟨cr, false⟩ := rfl
      simp only [RecvOps.run, hc, hm, MsgRecv.poll, Bool.false_eq_true, if_false]
      rcases hp : cr.poll with ⟨p, cr'⟩
      cases p with
      | pending => simp only [decodedPolls]; exact congrArg _ (ih cr')
      | finished => simp only [decodedPolls]; exact congrArg _ (RecvOps.run_map_finished rfl es cr')
      | err x => simp only [decodedPolls]; exact congrArg _ (RecvOps.run_map_finished rfl es cr')
      | panicked => simp only [decodedPolls]; exact congrArg _ (RecvOps.run_map_finished rfl es cr')
      | item d =>
        simp only [decodedPolls]
        cases Codec.decodeMsg d with
        | none => exact congrArg _ (RecvOps.run_map_finished rfl es cr')
        | some m => exact congrArg _ (ih cr')

theorem FrameRecv.poll_closed {r : FrameRecv} (h : r.closed = true) : r.poll.1 ≠ .pending ∧ r.poll.2.closed = true := by
  unfold FrameRecv.poll
  split
  · exact ⟨nofun, h⟩
  · split
    · exact ⟨nofun, h⟩
    · split
      · exact ⟨nofun, h⟩
      · split
        · exact ⟨nofun, h⟩
        · exact ⟨nofun, h⟩

theorem CryptRecv.poll_closed {r : CryptRecv S} (h : r.fr.closed = true) : r.poll.1 ≠ .pending ∧ r.poll.2.fr.closed = true := by
  have hf := FrameRecv.poll_closed h
  unfold CryptRecv.poll
  split
  · exact ⟨nofun, h⟩
  · split <;> (rename_i he; rw [he] at hf)
    · exact absurd rfl hf.1
    · exact ⟨nofun, hf.2⟩
    · exact ⟨nofun, hf.2⟩
    · exact ⟨nofun, hf.2⟩
    · split
      · exact ⟨nofun, hf.2⟩
      · split
        · exact ⟨nofun, hf.2⟩
        · exact ⟨nofun, hf.2⟩

theorem MsgRecv.poll_closed {r : MsgRecv S} (h : r.cr.fr.closed = true) : r.poll.1 ≠ .pending ∧ r.poll.2.cr.fr.closed = true := by
  have hf := CryptRecv.poll_closed h
  unfold MsgRecv.poll
  split
  · exact ⟨nofun, h⟩
  · split <;> (rename_i he; rw [he] at hf)
    · exact absurd rfl hf.1
    · exact ⟨nofun, hf.2⟩
    · exact ⟨nofun, hf.2⟩
    · exact ⟨nofun, hf.2⟩
    · split
      · exact ⟨nofun, hf.2⟩
      · exact ⟨nofun, hf.2⟩

/-- C27. The end of the connection is noticed: once the peer has closed, no poll waits any longer - each gives a message that arrived
    completely, an error or the end -, and the first that finds no complete message gives an error. -/
theorem C27_close_noticed (r : MsgRecv S) (evs : List RecvEv) : ∀ p ∈ ((MsgRecv.ops S).run r (.close :: evs)).1, p ≠ .pending := by
  have key : ∀ (evs : List RecvEv) (r : MsgRecv S), r.cr.fr.closed = true → ∀ p ∈ ((MsgRecv.ops S).run r evs).1, p ≠ .pending := by
    intro evs
    induction evs with
    | nil => intro r _; simp [RecvOps.run]
    | cons e es ih =>
      intro r h
      cases e with
      | arrive c => exact ih ((MsgRecv.ops S).feed r c) h
      | close => exact ih ((MsgRecv.ops S).close r) rfl
      | poll =>
        have hp := MsgRecv.poll_closed h
        simp only [RecvOps.run, List.mem_cons, forall_eq_or_imp]
        exact ⟨hp.1, ih _ hp.2⟩
  exact key evs _ rfl

/-- C27. The same of the receiver below the messages, which the handshake uses. -/
theorem C27_close_noticed_handshake (r : CryptRecv S) (evs : List RecvEv) :
    ∀ p ∈ ((CryptRecv.ops S).run r (.close :: evs)).1, p ≠ .pending := by
  have key : ∀ (evs : List RecvEv) (r : CryptRecv S), r.fr.closed = true → ∀ p ∈ ((CryptRecv.ops S).run r evs).1, p ≠ .pending := by
    intro evs
    induction evs with
    | nil => intro r _; simp [RecvOps.run]
    | cons e es ih =>
      intro r h
      cases e with
      | arrive c => exact ih ((CryptRecv.ops S).feed r c) h
      | close => exact ih ((CryptRecv.ops S).close r) rfl
      | poll =>
        have hp := CryptRecv.poll_closed h
        simp only [RecvOps.run, List.mem_cons, forall_eq_or_imp]
        exact ⟨hp.1, ih _ hp.2⟩
  exact key evs _ rfl

-- The peer closes in the middle of a frame.
example : ((CryptRecv.ops Toy.stream).run ⟨.init, ([1, 2, 3], 0), false⟩ [.arrive [5, 0, 1], .close, .poll, .poll]).1 =
    [.err "UnexpectedEof", .finished] := by decide +kernel

/-- C27. If the peer closes before any complete frame has arrived, the next poll fails with `UnexpectedEof`. -/
theorem C27_close_is_an_error (s : S.St) (cs : List Bytes) (h : readExact 2 cs = none ∨
      ∃ t rest, readExact 2 cs = some (t, rest) ∧ fromLe16 t ≤ maxFrame ∧ readExact (fromLe16 t) rest = none) :
    ((MsgRecv.ops S).run (.init s) (cs.map .arrive ++ [.close, .poll])).1 = [.err "UnexpectedEof"] := by
  have key : ∀ (ds : List Bytes) (r : MsgRecv S), ((MsgRecv.ops S).run r (ds.map .arrive ++ [.close, .poll])).1 =
      [(MsgRecv.poll { r with cr := { r.cr with fr := { r.cr.fr with chunks := r.cr.fr.chunks ++ ds, closed := true } } }).1] := by
    intro ds
    induction ds with
    | nil => intro r; simp [RecvOps.run, MsgRecv.ops, FrameRecv.ops]
    | cons d ds ih =>
      intro r
      simp only [List.map_cons, List.cons_append, RecvOps.run]
      rw [ih]
      simp [MsgRecv.ops, FrameRecv.ops]
  rw [key]
  rcases h with h | ⟨t, rest, h1, h2, h3⟩
  · simp [MsgRecv.init, FrameRecv.init, MsgRecv.poll, CryptRecv.poll, FrameRecv.poll, h]
  · have : ¬ maxFrame < fromLe16 t := by omega
    simp [MsgRecv.init, FrameRecv.init, MsgRecv.poll, CryptRecv.poll, FrameRecv.poll, h1, h3, this]

-- A frame cut off after its length.
example : ((MsgRecv.ops Toy.stream).run (.init ([1, 2, 3], 0)) ([[5], [0, 1, 2]].map .arrive ++ [.close, .poll])).1 = [.err "UnexpectedEof"] :=
  C27_close_is_an_error _ _ (Or.inr ⟨[5, 0], [[1, 2]], by decide +kernel, by decide +kernel, by decide +kernel⟩)

/-! ### C28: no panic -/

/-- C28 (part). Receiving panics only because of a frame of fewer than 17 bytes. -/
theorem C28_only_short_frames_panic_partial (s : S.St) (evs : List RecvEv)
    (h : .panicked ∈ ((MsgRecv.ops S).run (.init s) evs).1) : ∃ c, c.length < 17 ∧ frame c <:+: arrived evs := by
  suffices H : ∀ (evs : List RecvEv) (r : MsgRecv S), (r.dead = true ∨ r.alive) →
      .panicked ∈ ((MsgRecv.ops S).run r evs).1 → ∃ c, c.length < 17 ∧ frame c <:+: r.unread ++ arrived evs by
    simpa [MsgRecv.init, MsgRecv.unread, FrameRecv.init] using H evs (.init s) (Or.inr ⟨rfl, rfl, rfl⟩) h
  intro evs
  induction evs with
  | nil => intro r _ h; simp [RecvOps.run] at h
  | cons e es ih =>
    intro r hr h
    cases e with
    | arrive c =>
      have := ih ((MsgRecv.ops S).feed r c) hr h
      simpa [arrived, MsgRecv.ops, FrameRecv.ops, MsgRecv.unread, List.append_assoc] using this
    | close => exact ih ((MsgRecv.ops S).close r) hr h
    | poll =>
      rcases hr with hd | ha
      · have := (MsgRecv.run_dead hd (.poll :: es)).1 _ h; simp at this
      · rcases MsgRecv.poll_alive ha with ⟨g1, g2, -⟩ | ⟨⟨e, g⟩, hd, -⟩ | ⟨g, hd, -, c, fr', gp, hlt⟩ |
          ⟨c, fr', d, dec', m, g, g2, g3, g4⟩
        · have hp : (MsgRecv.ops S).poll r = (.pending, r) := Prod.ext g1 g2
          simp only [RecvOps.run, hp, List.mem_cons, reduceCtorEq, false_or] at h
          exact ih r (Or.inr ha) h
        · have hp : (MsgRecv.ops S).poll r = (.err e, r.poll.2) := Prod.ext g rfl
          simp only [RecvOps.run, hp, List.mem_cons, reduceCtorEq, false_or] at h
          have := (MsgRecv.run_dead hd es).1 _ h; simp at this
        · refine ⟨c, hlt, ?_⟩
          obtain ⟨-, -, -, hsplit⟩ := poll_item gp
          exact ⟨[], fr'.chunks.flatten ++ arrived es, by simp [MsgRecv.unread, hsplit, arrived]⟩
        · obtain ⟨-, -, hfr, hsplit⟩ := poll_item g
          have hp : (MsgRecv.ops S).poll r = _ := g4
          simp only [RecvOps.run, hp, List.mem_cons, reduceCtorEq, false_or] at h
          obtain ⟨x, hx, hin⟩ := ih _ (Or.inr ⟨rfl, rfl, by rw [hfr]; exact ha.2.2⟩) h
          refine ⟨x, hx, hin.trans ?_⟩
          exact ⟨frame c, [], by simp [MsgRecv.unread, hsplit, arrived]⟩

/-- C28, negation. Every frame of fewer than 17 bytes does make the receiving task panic, whatever the keys. -/
theorem C28_short_frame_panics (s : S.St) (c : Bytes) (hc : c.length < 17) :
    ((MsgRecv.ops S).run (.init s) [.arrive (frame c), .poll]).1 = [.panicked] := by
  obtain ⟨cs, hp, -⟩ := poll_frame (r := ⟨[frame c], false, false⟩) (d := c) (rest := []) rfl (by
    have hm : maxFrame = 8192 := rfl
    omega) (by simp)
  have : ∀ r : MsgRecv S, r = ⟨⟨⟨[frame c], false, false⟩, s, false⟩, false⟩ → r.poll.1 = .panicked := by
    rintro r rfl
    simp [MsgRecv.poll, CryptRecv.poll, hp, hc]
  simp only [RecvOps.run, MsgRecv.ops]
  exact congrArg (fun p => [p]) (this _ rfl)

/-! ### Concrete cases -/

section Examples

/-- Three frames arriving in odd pieces. -/
example : items (FrameRecv.ops.run .init [.arrive [3], .poll, .arrive [0, 7, 8], .poll, .arrive [9, 0], .poll, .poll,
    .arrive [0, 1, 0, 5], .poll, .poll]).1 = [[7, 8, 9], [], [5]] ∧
  arrived [.arrive [3], .poll, .arrive [0, 7, 8], .poll, .arrive [9, 0], .poll, .poll,
    .arrive [0, 1, 0, 5], .poll, .poll] = [[7, 8, 9], [], [5]].flatMap frame := by decide +kernel

example : (FrameRecv.poll ⟨[[1], [0x20]], false, false⟩).1 = .err "FrameOverflow" := by decide +kernel

/-- Sending and receiving two messages over the toy stream, in two pieces. -/
example : let s : Toy.stream.St := ([1, 2, 3], 0)
  let ms : List Msg := [.req "a" .hello, .req "b" (.getEntry "t")]
  let w := ((CryptSend.init s).sendAll ms).2.wire
  items ((MsgRecv.ops Toy.stream).run (.init s) [.arrive (w.take 30), .poll, .poll, .arrive (w.drop 30), .poll, .poll]).1 = ms := by
  decide +kernel

/-- Replaying the first frame ends the stream after the first message. -/
example : let s : Toy.stream.St := ([1, 2, 3], 0)
  let w := ((CryptSend.init s).sendAll [.req "a" .hello]).2.wire
  ((MsgRecv.ops Toy.stream).run (.init s) [.arrive (w ++ w), .poll, .poll, .poll]).1 =
    [.item (.req "a" .hello), .err "decrypt error", .finished] := by
  decide +kernel

theorem infix_all {c b : Bytes} (h : c <:+: b) {f : Bytes → Bool}
    (hf : ((List.range (b.length + 1)).all (fun i => (List.range (b.length + 1)).all (fun n => f ((b.drop i).take n)))) = true) :
    f c = true := by
  obtain ⟨x, y, h⟩ := h
  have hl := congrArg List.length h
  simp at hl
  have h1 := List.all_eq_true.mp (List.all_eq_true.mp hf x.length (by simp; omega)) c.length (by simp; omega)
  rw [← h] at h1
  simpa using h1

/-- `Unforged` holds for the replay of a frame. -/
example : let s : Toy.stream.St := ([1, 2, 3], 0)
  let w := ((CryptSend.init s).sendAll [.req "a" .hello]).2.wire
  Unforged Toy.stream s [Codec.encodeMsg (.req "a" .hello)] (w ++ w) := by
  intro s w pre post hsplit c hc hok
  have h0 := infix_all hc (f := fun c => !(Toy.stream.pull s c).isSome ||
      c == (Toy.stream.push s (Codec.encodeMsg (.req "a" .hello))).1) (by decide +kernel)
  have h1 := infix_all hc (f := fun c => !(Toy.stream.pull (([1, 2, 3], 1) : Toy.stream.St) c).isSome) (by decide +kernel)
  match pre, hsplit with
  | [], hsplit =>
    refine ⟨_, _, hsplit.symm, ?_⟩
    simp only [SStream.after] at hok
    simpa [hok, SStream.after] using h0
  | [d], hsplit =>
    have hok' : (Toy.stream.pull (([1, 2, 3], 1) : Toy.stream.St) c).isSome := hok
    simp [hok'] at h1
  | _ :: _ :: _, hsplit => simp at hsplit

/-- The hypotheses of the broken channel: an oversize message exists, and the toy stream separates its states. -/
example : let s : Toy.stream.St := ([1, 2, 3], 0)
  let big : Msg := .req (Codec.letters 9000) .hello
  let m : Msg := .req "a" .hello
  8192 < (Codec.encodeMsg big).length + 17 ∧ (Codec.encodeMsg m).length + 17 ≤ 8192 ∧
    Toy.stream.pull s (Toy.stream.push (Toy.stream.push s (Codec.encodeMsg big)).2 (Codec.encodeMsg m)).1 = none := by
  refine ⟨?_, by decide +kernel, ?_⟩
  · show 8192 < (Codec.encodeMsg (.req (Codec.letters 9000) .hello)).length + 17
    rw [Codec.len_hello, Codec.encStr_len, Codec.utf8_letters]; decide
  · have : (Toy.stream.push (([1, 2, 3], 0) : Toy.stream.St) (Codec.encodeMsg (.req (Codec.letters 9000) .hello))).2 = ([1, 2, 3], 1) := rfl
    rw [this]
    decide +kernel

end Examples

end Lair
