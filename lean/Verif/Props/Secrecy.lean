import Verif.Oblivious

/-
C49: a seed the server generated, and which is not exportable or is locked with a passphrase the adversary does not have, is never
revealed: whatever clients do, however requests interleave, whatever fails and whenever the server crashes, everything
ever sent by the server is the same as in a world where the seed is a different one.
-/
namespace Lair.Props
open Lair

variable {E : Env}

/-- What the invariant of the two worlds says after `n` steps. -/
theorem secrecy_worlds (hS : E.S.Oblivious) (hC : E.C.SealsHide) {st : E.S.σ} (hst : GoodStore E st) (Known : B 64 → Prop)
    (adv : Strategy) (gen gen' : Nat → B 32)
    (hgen : ∀ n k c id tag deep x, (play E st gen adv n).1.inbox[k]? = some (c, .req id (.newSeed tag deep x)) →
      Protected E Known c deep x (gen k) (gen' k))
    (huse : ∀ n c m, (c, m) ∈ (play E st gen adv n).1.inbox → UsesOnly E Known c m) (n : Nat) :
    SysSim Known (play E st gen adv n).1 (play E st gen' adv n).1 ∧ IdInv (play E st gen adv n).1 ∧
      (play E st gen adv n).2 = (play E st gen' adv n).2 := by
  induction n with
  | zero => exact ⟨SysSim.init st hst.ok, idInv_init st, rfl⟩
  | succ n ih =>
    obtain ⟨h1, h2, h3⟩ := ih
    have hs : SysSim Known ((play E st gen adv n).1.step (inWorld gen (play E st gen adv n).1 (adv (play E st gen adv n).2)))
        ((play E st gen' adv n).1.step (inWorld gen' (play E st gen' adv n).1 (adv (play E st gen' adv n).2))) := by
      rw [← h3]
      refine sysSim_step hS hC h1 gen gen' _ ?_ ?_
      · intro t ht id tag deep x hm
        have := (h2.threads t ht).1
        rw [hm] at this
        exact hgen n t.id t.conn id tag deep x this
      · intro c m hev
        refine huse (n + 1) c m ?_
        show (c, m) ∈ ((play E st gen adv n).1.step (inWorld gen (play E st gen adv n).1 (adv (play E st gen adv n).2))).inbox
        rw [hev]
        exact List.mem_append.2 (Or.inr (List.mem_singleton.2 rfl))
    refine ⟨hs, idInv_step h2 _, ?_⟩
    show _ ++ [_] = _ ++ [_]
    rw [hs.transcript, h3]

/-- C49. Take any server (any primitives whose sealing hides, any store that does not look into sealed data, any good initial
    content) and any adversary, controlling every client, the schedule, all failures, salts, nonces and crashes. Let the server
    draw the seeds `gen` or the seeds `gen'`, where for every `NewSeed` request received the two seeds may differ only if the seed
    is protected: not exportable, or deep-locked with a passphrase none of the opening requests uses. Then everything the
    server ever sends is the same, step by step. -/
theorem C49_transcripts_equal (hS : E.S.Oblivious) (hC : E.C.SealsHide) {st : E.S.σ} (hst : GoodStore E st) (Known : B 64 → Prop)
    (adv : Strategy) (gen gen' : Nat → B 32)
    (hgen : ∀ n k c id tag deep x, (play E st gen adv n).1.inbox[k]? = some (c, .req id (.newSeed tag deep x)) →
      Protected E Known c deep x (gen k) (gen' k))
    (huse : ∀ n c m, (c, m) ∈ (play E st gen adv n).1.inbox → UsesOnly E Known c m) (n : Nat) :
    (play E st gen adv n).2 = (play E st gen' adv n).2 :=
  (secrecy_worlds hS hC hst Known adv gen gen' hgen huse n).2.2

/-- C49, as guessing: no way of computing a seed from everything observed gives the right seed in both worlds. -/
theorem C49_no_guess (hS : E.S.Oblivious) (hC : E.C.SealsHide) {st : E.S.σ} (hst : GoodStore E st) (Known : B 64 → Prop)
    (adv : Strategy) (gen gen' : Nat → B 32)
    (hgen : ∀ n k c id tag deep x, (play E st gen adv n).1.inbox[k]? = some (c, .req id (.newSeed tag deep x)) →
      Protected E Known c deep x (gen k) (gen' k))
    (huse : ∀ n c m, (c, m) ∈ (play E st gen adv n).1.inbox → UsesOnly E Known c m)
    (guess : List Transcript → B 32) (n k : Nat) (hk : gen k ≠ gen' k) :
    ¬ (guess (play E st gen adv n).2 = gen k ∧ guess (play E st gen' adv n).2 = gen' k) := by
  rintro ⟨h1, h2⟩
  rw [C49_transcripts_equal hS hC hst Known adv gen gen' hgen huse n, h2] at h1
  exact hk h1.symm

/-- C49: both stores of lair meet the requirement on stores. -/
theorem C49_both_stores : Ex.mem.Oblivious ∧ sqlModel.Oblivious := ⟨mem_oblivious, sql_oblivious⟩

/-- Every message received was sent by the adversary. -/
theorem play_inbox {st : E.S.σ} {gen : Nat → B 32} {adv : Strategy} (n : Nat) (c : Nat) (m : Msg)
    (h : (c, m) ∈ (play E st gen adv n).1.inbox) : ∃ h, adv h = .recv c m := by
  induction n generalizing c m with
  | zero => cases h
  | succ n ih =>
    have hd : (c, m) ∈ ((play E st gen adv n).1.step (inWorld gen (play E st gen adv n).1 (adv (play E st gen adv n).2))).inbox := h
    cases hev : adv (play E st gen adv n).2 with
    | recv c' m' =>
      rw [hev] at hd
      rcases List.mem_append.1 hd with hd | hd
      · exact ih c m hd
      · cases List.mem_singleton.1 hd; exact ⟨_, hev⟩
    | restart => rw [hev] at hd; exact ih c m hd
    | step i ch =>
      rw [hev] at hd
      refine ih c m ?_
      simp only [inWorld, Sys.step] at hd
      split at hd
      · exact hd
      · split at hd <;> exact hd

/-- C49, no deep-locked requests: when no request ever opens a deep-locked seed and no seed is made exportable, alike seeds are
    never told apart. (The hypotheses are about what clients send only.) -/
theorem C49_plain_clients (hS : E.S.Oblivious) (hC : E.C.SealsHide) {st : E.S.σ} (hst : GoodStore E st)
    (adv : Strategy) (gen gen' : Nat → B 32) (hall : ∀ k, Alike E.C (gen k) (gen' k))
    (hadv : ∀ h c id r, adv h = .recv c (.req id r) → OpensWith r = none ∧ ∀ tag deep, r ≠ .newSeed tag deep true) (n : Nat) :
    (play E st gen adv n).2 = (play E st gen' adv n).2 := by
  have hin := play_inbox (E := E) (st := st) (gen := gen) (adv := adv)
  refine C49_transcripts_equal hS hC hst (fun _ => True) adv gen gen' ?_ ?_ n
  · intro n k c id tag deep x h
    obtain ⟨o, ho⟩ := hin n _ _ (List.mem_of_getElem? h)
    obtain ⟨_, h2⟩ := hadv o c id _ ho
    refine Or.inr (Or.inl ⟨?_, hall k⟩)
    cases x with
    | false => rfl
    | true => exact absurd rfl (h2 tag deep)
  · intro n c m h id r p pass hm hop hdec
    trivial

/-! ### The hypotheses are met -/

namespace SecrecyEx

/-- Forget the last byte. -/
def mask (s : B 32) : B 32 := ⟨s.val.take 31 ++ [0], by simp [s.len]⟩

/-- Primitives in which the last byte of a seed is used for nothing. -/
def crypto : Crypto := { Toy.crypto with
  edPk := mask
  edSk := fun s => ⟨(mask s).val ++ (mask s).val, by simp [(mask s).len]⟩
  xPk := mask
  xSk := mask }

theorem lawful : crypto.Lawful := { Toy.lawful with
  verify_sign := by intro s m; simp [crypto, Toy.crypto]
  xpair := by intro s; simp [crypto, Toy.crypto]
  edpair := by intro s; exact ⟨mask s, rfl, (Toy.pad_self_append (mask s)).symm⟩ }

theorem hides : crypto.SealsHide := by
  intro k k' h m m' _
  show (Toy.unlock _ (Toy.lock _ _) = none ∧ Toy.unlock _ (Toy.lock _ _) = none) ∨
    (Toy.unlock _ (Toy.lock _ _) = some m ∧ Toy.unlock _ (Toy.lock _ _) = some m')
  have e : ∀ (a b : B 17) (m : Bytes), Toy.unlock a.val (Toy.lock b.val m) = if a = b then some m else none := by
    intro a b m
    unfold Toy.unlock Toy.lock
    have hl : (b.val ++ m).take a.val.length = b.val := by rw [a.len]; exact List.take_left' b.len
    have hr : (b.val ++ m).drop a.val.length = m := by rw [a.len]; exact List.drop_left' b.len
    rw [hl, hr]
    by_cases h : a = b
    · rw [if_pos (by rw [h]), if_pos h]
    · rw [if_neg (fun hh => h (B.ext hh.symm)), if_neg h]
  rw [e, e]
  by_cases h : Toy.pad 17 k'.val = Toy.pad 17 k.val
  · right; simp [h]
  · left; simp [h]

/-- Seeds that differ in the last byte only. -/
theorem alike {s s' : B 32} (h : mask s = mask s') : Alike crypto s s' := by
  have base : ∀ s s' : B 32, mask s = mask s' → SameOps crypto s s' := by
    intro s s' h
    have h31 : s.val.take 31 = s'.val.take 31 := by
      have := congrArg B.val h
      exact List.append_cancel_right this
    have h16 : Toy.pad 16 s.val = Toy.pad 16 s'.val := by
      apply B.ext
      have : ∀ b : B 32, (Toy.pad 16 b.val).val = (b.val.take 31).take 16 := by
        intro b; simp [Toy.pad, b.len, List.take_take, List.take_append_of_le_length]
      rw [this, this, h31]
    refine ⟨h, h, ?_, ?_, ?_, ?_, ?_, ?_, ?_⟩ <;> intros <;> simp only [crypto, Toy.crypto, h, h16]
  intro path
  cases path with
  | nil => exact base s s' h
  | cons i rest =>
    have : crypto.kdf s i.toNat "SeedBndl" = crypto.kdf s' i.toNat "SeedBndl" := by
      have h31 : s.val.take 31 = s'.val.take 31 := List.append_cancel_right (congrArg B.val h)
      have h30 : ∀ b : B 32, (crypto.kdf b i.toNat "SeedBndl").val =
          UInt8.ofNat i.toNat :: UInt8.ofNat ("SeedBndl".length) :: (b.val.take 31).take 30 := by
        intro b; simp [crypto, Toy.crypto, Toy.pad, b.len, List.take_take, List.take_append_of_le_length]
      apply B.ext; rw [h30, h30, h31]
    simp only [List.foldl_cons, this]
    exact ⟨rfl, rfl, fun _ => rfl, fun _ _ _ => rfl, fun _ _ _ => rfl, fun _ _ _ => rfl, fun _ _ _ => rfl, fun _ _ => rfl, fun _ _ => rfl⟩

/-- The example environment with these primitives. -/
def env : Env := { Ex.env false 2 with
  C := crypto
  L := lawful
  idPk := mask Ex.idSeed }

/-- Two generators: the seeds end in different bytes. -/
def gen (x : UInt8) (_k : Nat) : B 32 := ⟨List.replicate 31 8 ++ [x], by simp⟩

/-- A client that makes a seed, signs with it, derives from it, encrypts with it and tries to export it, the server crashing in
    between; then nothing. -/
def script : List Event :=
  Ex.unlock 0 ++ Ex.serve 0 (.req "a" (.newSeed "a" none false)) 1 ++ [.restart] ++ Ex.unlock 0 ++
  Ex.serve 0 (.req "b" (.sign (mask (B.fill 32 8)) none [1, 2])) 1 ++
  Ex.serve 0 (.req "c" (.deriveSeed "a" none "b" none [3, 4])) 1 ++
  Ex.serve 0 (.req "d" (.sboxEnc "a" none [7])) 1

/-- The client as a strategy. -/
def adv : Strategy := fun h => script.getD h.length .restart

theorem alikes : ∀ k, Alike env.C (gen 1 k) (gen 2 k) := fun _ => alike (B.ext rfl)

theorem adv_plain : ∀ h c id r, adv h = .recv c (.req id r) → OpensWith r = none ∧ ∀ tag deep, r ≠ .newSeed tag deep true := by
  intro h c id r hr
  have hall : ∀ ev ∈ script, (match ev with
      | .recv _ (.req _ (.newSeed _ _ x)) => x = false
      | .recv _ (.req _ r) => OpensWith r = none
      | _ => True) := by
    intro ev hev
    have key : script.all (fun ev => match ev with
      | .recv _ (.req _ (.newSeed _ _ x)) => !x
      | .recv _ (.req _ r) => (OpensWith r).isNone
      | _ => true) = true := by decide +kernel
    have := List.all_eq_true.1 key ev hev
    revert this
    cases ev with
    | recv c m =>
      cases m with
      | req id r => cases r <;> simp
      | _ => simp
    | _ => simp
  unfold adv at hr
  rw [List.getD_eq_getElem?_getD] at hr
  cases hg : script[h.length]? with
  | none => rw [hg] at hr; cases hr
  | some ev =>
    rw [hg] at hr
    simp only [Option.getD_some] at hr
    subst hr
    have := hall _ (List.mem_of_getElem? hg)
    cases r <;> simp_all [OpensWith]

/-- The transcripts agree although the seeds differ. -/
example (n : Nat) : (play env MemStore.empty (gen 1) adv n).2 = (play env MemStore.empty (gen 2) adv n).2 :=
  C49_plain_clients (E := env) mem_oblivious hides (goodStore_empty env) adv (gen 1) (gen 2) alikes adv_plain n

example : gen 1 0 ≠ gen 2 0 := by decide

/-- The run is not empty: the server answered every request (unlock, new seed, unlock, signature, derived seed, cipher). -/
example : ((play env MemStore.empty (gen 1) adv 152).1.transcript.map (fun p => (p.1, match p.2.2 with
    | .res _ (.error _) => false
    | _ => true))) = [(0, true), (1, true), (2, true), (3, true), (4, true), (5, true)] := by decide +kernel

/-! A deep-locked exportable seed, its passphrase unknown to those who open deep-locked seeds. -/

/-- The passphrase of the owner, and a client that creates the seed and tries to sign with another passphrase. -/
def secret : B 64 := B.fill 64 100
def script2 : List Event :=
  Ex.unlock 0 ++ Ex.serve 0 (.req "a" (.newSeed "a" (some ⟨2, 3, Ex.sent 0 secret⟩) true)) 1 ++
  Ex.serve 0 (.req "b" (.sign (mask (B.fill 32 8)) (some (Ex.sent 0 (B.fill 64 99))) [1, 2])) 1
def adv2 : Strategy := fun h => script2.getD h.length .restart

/-- Everything but the owner's passphrase. -/
def known : B 64 → Prop := fun p => p.val.take 8 ≠ secret.val.take 8

theorem hidden : HiddenPass env.C known secret := by
  intro p hp salt ops mem key ops' mem' key' h1 h2 hdr m
  simp only [env, crypto, Toy.crypto] at h1 h2
  split at h1
  · cases h1
  · split at h2
    · cases h2
    · cases h1; cases h2
      show Toy.unlock _ (Toy.lock _ m) = none
      have l8 : ∀ q : B 64, (q.val.take 8).length = 8 := by intro q; simp [q.len]
      have key : ∀ (q : Bytes) (r r' : Bytes), q.length = 8 → ((Toy.pad 17 ((Toy.pad 32 (q ++ r ++ r')).val)).val.take 8) = q := by
        intro q r r' hq
        simp [Toy.pad, List.take_take, List.take_append, hq]
        exact List.take_of_length_le (by omega)
      unfold Toy.unlock Toy.lock
      rw [if_neg]
      intro hc
      rw [(Toy.pad 17 _).len, List.take_left' (Toy.pad 17 _).len] at hc
      have := congrArg (List.take 8) hc
      rw [key _ _ _ (l8 _), key _ _ _ (l8 _)] at this
      exact hp this.symm

theorem adv2_sends {h : List Transcript} {c : Nat} {m : Msg} (hr : adv2 h = .recv c m) :
    (c = 0 ∧ ∃ p, m = .req "u" (.unlock p)) ∨ (c = 0 ∧ m = .req "a" (.newSeed "a" (some ⟨2, 3, Ex.sent 0 secret⟩) true)) ∨
    (c = 0 ∧ m = .req "b" (.sign (mask (B.fill 32 8)) (some (Ex.sent 0 (B.fill 64 99))) [1, 2])) := by
  unfold adv2 at hr
  rw [List.getD_eq_getElem?_getD] at hr
  cases hg : script2[h.length]? with
  | none => rw [hg] at hr; cases hr
  | some ev =>
    rw [hg] at hr
    simp only [Option.getD_some] at hr
    subst hr
    have := List.mem_of_getElem? hg
    simp [script2, Ex.unlock, Ex.serve] at this
    rcases this with ⟨rfl, rfl⟩ | ⟨rfl, rfl⟩ | ⟨rfl, rfl⟩
    · exact .inl ⟨rfl, _, rfl⟩
    · exact .inr (.inl ⟨rfl, rfl⟩)
    · exact .inr (.inr ⟨rfl, rfl⟩)

theorem sent_opens (p : B 64) : (Ex.sent 0 p).decrypt (m := 64) env.C (env.decKey 0) = some p := by
  have h : (Ex.sent 0 p).decrypt (m := 64) Toy.crypto (B.fill 32 1) = some p := SecretSized.decrypt_encrypt ..
  exact h

/-- The transcripts agree although the (exportable, deep-locked) seeds differ. -/
example (n : Nat) : (play env MemStore.empty (gen 1) adv2 n).2 = (play env MemStore.empty (gen 2) adv2 n).2 := by
  refine C49_transcripts_equal (E := env) mem_oblivious hides (goodStore_empty env) known adv2 (gen 1) (gen 2) ?_ ?_ n
  · intro n k c id tag deep x h
    obtain ⟨o, ho⟩ := play_inbox n _ _ (List.mem_of_getElem? h)
    rcases adv2_sends ho with ⟨_, p, h2⟩ | ⟨rfl, h2⟩ | ⟨_, h2⟩
    · cases h2
    · cases h2
      refine .inr (.inr ⟨_, rfl, B.ext rfl, B.ext rfl, ?_⟩)
      intro pass hp
      rw [show (DeepPass.pass ⟨2, 3, Ex.sent 0 secret⟩ : SecretSized 81) = Ex.sent 0 secret from rfl, sent_opens] at hp
      cases hp
      exact hidden
    · cases h2
  · intro n c m h id r p pass hm hop hdec
    obtain ⟨o, ho⟩ := play_inbox n _ _ h
    rcases adv2_sends ho with ⟨_, q, h2⟩ | ⟨rfl, h2⟩ | ⟨rfl, h2⟩
    · rw [h2] at hm; cases hm; cases hop
    · rw [h2] at hm; cases hm; cases hop
    · rw [h2] at hm; cases hm; cases hop
      rw [sent_opens] at hdec
      cases hdec
      exact (by decide : (B.fill 64 99).val.take 8 ≠ secret.val.take 8)

/-- The seed was made, the wrong passphrase refused. -/
example : ((play env MemStore.empty (gen 1) adv2 76).1.transcript.map (fun p => (p.1, match p.2.2 with
    | .res _ (.error _) => false
    | _ => true))) = [(0, true), (1, true), (2, false)] := by decide +kernel

/-! The restrictions are needed: an exportable ordinary seed is told apart (the transcripts differ). -/

def script3 : List Event :=
  Ex.unlock 0 ++ Ex.serve 0 (.req "a" (.newSeed "a" none true)) 1 ++
  Ex.serve 0 (.req "b" (.exportSeed "a" (mask (B.fill 32 8)) (mask (B.fill 32 8)) none)) 1
def adv3 : Strategy := fun h => script3.getD h.length .restart

example : (play env MemStore.empty (gen 1) adv3 76).1.transcript ≠ (play env MemStore.empty (gen 2) adv3 76).1.transcript := by
  decide +kernel

end SecrecyEx
end Lair.Props
