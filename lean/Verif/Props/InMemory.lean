import Verif.SystemLemmas
import Verif.Props.Vocab
import Verif.Examples

/-
C76: seeds kept unsealed in memory. Between requests the server keeps secrets only in its three caches (priv_srv.rs:25-28), at
most as many as these hold, only of ordinary seeds in the store, never of deep-locked seeds or certificates, and none
at all before a client has unlocked the server.
-/
namespace Lair.Props
open Lair

variable {E : Env} {st : E.S.σ}

/-- Everything the server keeps between requests besides the store: the elements of its caches. -/
def kept (s : Sys E) : List Full := s.sh.cTag.map Prod.snd ++ s.sh.cEd.map Prod.snd ++ s.sh.cX.map Prod.snd

/-- No secret in it. -/
def NoSecret (f : Full) : Prop := f.seed = none ∧ f.edSk = none ∧ f.xSk = none

theorem kept_fullIn {s : Sys E} (h : Inv s.sh) {f : Full} (hf : f ∈ kept s) : FullIn s.sh f := by
  simp only [kept, List.mem_append, List.mem_map] at hf
  rcases hf with (⟨p, hp, rfl⟩ | ⟨p, hp, rfl⟩) | ⟨p, hp, rfl⟩
  · exact (h.cTag p hp).1
  · exact (h.cEd p hp).1
  · exact (h.cX p hp).1

/-- C76. Whatever clients do and whatever happens: the caches hold no more than three times their capacity (3 · 128 in the code). -/
theorem C76_bounded (hst : GoodStore E st) (evs : List Event) : (kept (Sys.run E st evs)).length ≤ 3 * E.cap := by
  have h := (sysInv_run hst evs).inv
  have h1 := h.lTag; have h2 := h.lEd; have h3 := h.lX
  simp only [kept, List.length_append, List.length_map]
  omega

/-- C76. What is kept is of entries in the store, and a secret is kept only of an ordinary seed: it is that very seed, which
    is sealed in the store under the store key, with its own signing and encryption keys. -/
theorem C76_secrets_kept (hst : GoodStore E st) (evs : List Event) (f : Full) (hf : f ∈ kept (Sys.run E st evs)) :
    f.entry ∈ (Sys.run E st evs).entries ∧
    (NoSecret f ∨ ∃ (tag : String) (info : SeedInfo) (c : SecretSized 49) (seed : B 32), f.entry = .seed tag info c ∧
      c.decrypt (m := 32) E.C E.bidi = some seed ∧ f.seed = some seed ∧ f.edSk = some (E.C.edSk seed) ∧ f.xSk = some (E.C.xSk seed)) := by
  obtain ⟨h1, h2⟩ := kept_fullIn (sysInv_run hst evs).inv hf
  refine ⟨h1, ?_⟩
  cases he : f.entry with
  | seed t i c =>
    rw [he] at h2
    simp only [fullOf] at h2
    cases hd : c.decrypt (m := 32) E.C E.bidi with
    | none => rw [hd] at h2; cases h2
    | some s =>
      rw [hd] at h2
      simp only at h2
      split at h2
      · cases h2
      · split at h2
        · cases h2
        · refine .inr ⟨t, i, c, s, rfl, hd, ?_⟩
          injection h2 with h2
          rw [← h2]
          exact ⟨rfl, rfl, rfl⟩
  | deep t i s o m c =>
    rw [he] at h2
    simp only [fullOf] at h2
    injection h2 with h2
    rw [← h2]
    exact .inl ⟨rfl, rfl, rfl⟩
  | cert t i p =>
    rw [he] at h2
    simp only [fullOf] at h2
    injection h2 with h2
    rw [← h2]
    exact .inl ⟨rfl, rfl, rfl⟩

/-- C76. A deep-locked seed is never kept unsealed, whoever used it with its passphrase, nor is the key of a certificate. -/
theorem C76_deep_never_kept (hst : GoodStore E st) (evs : List Event) (f : Full) (hf : f ∈ kept (Sys.run E st evs))
    (hd : ∀ tag info c, f.entry ≠ .seed tag info c) : NoSecret f := by
  rcases (C76_secrets_kept hst evs f hf).2 with h | ⟨t, i, c, _, h, _⟩
  · exact h
  · exact absurd h (hd t i c)

/-! ### Nothing before the first unlocking -/

/-- Something kept means that some connection is unlocked. -/
def KeptInv (s : Sys E) : Prop := ∀ f ∈ kept s, ∃ c, s.sh.unlocked c = true

theorem Lru.get_mem {κ ν : Type} [DecidableEq κ] {c : Lru κ ν} {k : κ} {p : κ × ν} (h : p ∈ (Lru.get c k).2) : p ∈ c := by
  unfold Lru.get at h
  split at h
  · rename_i q hq
    rcases List.mem_cons.1 h with rfl | h
    · exact List.mem_of_find?_eq_some hq
    · exact Lru.mem_remove h
  · exact h

/-- An element of a cache after an action was there before, or the connection that acts is unlocked. -/
theorem exec_kept {c : Nat} {m : Msg} {ch : Choice} {s : Shared E} {a : Act} (ha : ActOk c m s a) :
    ∀ f ∈ (exec c ch s a).2.1.cTag.map Prod.snd ++ (exec c ch s a).2.1.cEd.map Prod.snd ++ (exec c ch s a).2.1.cX.map Prod.snd,
      f ∈ s.cTag.map Prod.snd ++ s.cEd.map Prod.snd ++ s.cX.map Prod.snd ∨ s.unlocked c = true := by
  intro f hf
  cases a with
  | register g => exact .inr ha.1
  | cacheTag t => exact .inr ha
  | cacheEd t => exact .inr ha
  | cacheX t => exact .inr ha
  | write e => exact .inr ha.1
  | storeTag t => exact .inr ha
  | storeEd t => exact .inr ha
  | storeX t => exact .inr ha
  | list => exact .inr ha
  | alloc =>
    left
    simp only [exec] at hf
    split at hf <;> exact hf
  | _ => exact .inl hf

theorem keptInv_step {s : Sys E} (h : SysInv st s) (hk : KeptInv s) (ev : Event) : KeptInv (s.step ev) := by
  cases ev with
  | recv c m => exact hk
  | restart => intro f hf; cases hf
  | step i ch =>
    cases hti : s.threads[i]? with
    | none => rw [step_none s i ch hti]; exact hk
    | some t =>
      cases hp : t.prog with
      | ret r => rw [step_ret s i ch t r hti hp]; exact hk
      | fail e => rw [step_fail s i ch t e hti hp]; exact hk
      | step a k =>
        rw [step_act s i ch t a k hti hp]
        intro f hf
        have ha := thread_act h (List.mem_of_getElem? hti) hp
        have he := exec_ext t.conn ch s.sh h.inv a
        rcases exec_kept ha f hf with h1 | h1
        · obtain ⟨c, hc⟩ := hk f h1
          exact ⟨c, he.unlocked c hc⟩
        · exact ⟨t.conn, he.unlocked _ h1⟩

/-- C76. Anything is kept only while some connection is unlocked: before any client has given the passphrase (since the last start
    of the server) no secret is in memory, whatever is sent. -/
theorem C76_nothing_while_locked (hst : GoodStore E st) (evs : List Event)
    (hl : ∀ c, (Sys.run E st evs).sh.unlocked c = false) : kept (Sys.run E st evs) = [] := by
  have h : ∀ (evs : List Event) (s : Sys E), SysInv st s → KeptInv s → KeptInv (evs.foldl Sys.step s) := by
    intro evs
    induction evs with
    | nil => intro s _ hk; exact hk
    | cons ev evs ih => intro s h hk; exact ih _ (sysInv_step h ev) (keptInv_step h hk ev)
  have hk := h evs _ (sysInv_init hst) (fun f hf => by cases hf)
  refine List.eq_nil_iff_forall_not_mem.2 fun f hf => ?_
  obtain ⟨c, hc⟩ := hk f hf
  have := hl c
  rw [show (Sys.run E st evs).sh.unlocked c = true from hc] at this
  cases this

/-! ### The hypotheses are met -/

/-- A deep-locked and an ordinary seed are made and signed with: both are kept, one with its secrets, one without. -/
def memoryRun : List Event :=
  Ex.unlock 0 ++ Ex.serve 0 (.req "a" (.newSeed "a" none false)) 1 ++
  Ex.serve 0 (.req "b" (.newSeed "b" (some ⟨2, 3, Ex.sent 0 (B.fill 64 99)⟩) true)) 2 ++
  Ex.serve 0 (.req "c" (.getEntry "a")) 1 ++ Ex.serve 0 (.req "d" (.getEntry "b")) 1

set_option maxRecDepth 100000 in
example : ((kept (Sys.run (Ex.env false 2) MemStore.empty memoryRun)).map fun f => (f.entry.tag, f.seed.isSome)) =
    [("b", false), ("a", true), ("a", true), ("a", true)] := by decide +kernel

/-- Nothing is kept after a restart. -/
example : kept (Sys.run (Ex.env false 2) MemStore.empty (memoryRun ++ [.restart])) = [] := by
  refine C76_nothing_while_locked (goodStore_empty _) _ ?_
  intro c
  simp only [Sys.run, List.foldl_append, List.foldl_cons, List.foldl_nil, Sys.step]

end Lair.Props
