import Verif.Labels
import Verif.Examples

/-
C50: keys for different purposes are derived with different labels, and so differ.
-/
namespace Lair.Props
open Lair

/-- C50: everywhere the model (and the code) derives a key, it is the key of the purpose: sealing and opening the configuration, checking
    the passphrase of `Unlock`, the store, the connections on both sides, derived seeds in the server and in seed bundles. -/
theorem C50_labels_used (C : Crypto) (L : C.Lawful) :
    (∀ root canon pass limits r cfg, Config.new C L root canon pass limits r = some cfg →
      ∃ pre, C.argon2id (C.blake2b64 pass).val cfg.salt cfg.ops cfg.mem = some pre ∧
        cfg.contextKey = SecretSized.encrypt C L (Purpose.configContext.key C pre) r.hdrKey r.contextKey ∧
        cfg.idSeed = SecretSized.encrypt C L (Purpose.configIdentity.key C pre) r.hdrSeed r.idSeed) ∧
    (∀ cfg pass keys, Config.unlock C cfg pass = some keys →
      ∃ pre seed, C.argon2id (C.blake2b64 pass).val cfg.salt cfg.ops cfg.mem = some pre ∧
        cfg.contextKey.decrypt (m := 32) C (Purpose.configContext.key C pre) = some keys.contextKey ∧
        cfg.idSeed.decrypt (m := 32) C (Purpose.configIdentity.key C pre) = some seed ∧ keys.idPk = C.xPk seed) ∧
    (∀ k, storeKeys C k = ⟨Purpose.storeContext.key C k, Purpose.storeDatabase.key C k⟩) ∧
    (∀ (S : SStream) (s : Session S), clientEncKey C s = Purpose.toServer.key C s.tx ∧ clientDecKey C s = Purpose.toClient.key C s.rx ∧
      serverEncKey C s = Purpose.toClient.key C s.tx ∧ serverDecKey C s = Purpose.toServer.key C s.rx) ∧
    (∀ seed path i, derivePath C seed (path ++ [i]) = (Purpose.child i).key C (derivePath C seed path)) ∧
    (∀ (u : Bundle.Unlocked) i, (u.derive C i).seed = (Purpose.child i).key C u.seed) := by
  refine ⟨?_, ?_, fun _ => rfl, fun _ _ => ⟨rfl, rfl, rfl, rfl⟩, ?_, fun _ _ => rfl⟩
  · intro root canon pass limits r cfg h
    unfold Config.new at h
    split at h
    · cases h
    · rename_i pre hp; cases h; exact ⟨pre, hp, rfl, rfl⟩
  · intro cfg pass keys h
    unfold Config.unlock at h
    split at h
    · cases h
    · rename_i pre hp
      split at h
      · cases h
      · rename_i ctx hc
        split at h
        · cases h
        · rename_i seed hs; cases h; exact ⟨pre, seed, hp, hc, hs, rfl⟩
  · intro seed path i
    simp [derivePath, Purpose.key, Purpose.label]

/-- C50: labels of purposes with the same parent are different; the only label used twice belongs to different parents; texts are the
    8 bytes libsodium takes, numbers fit 64 bits. -/
theorem C50_labels_distinct (p q : Purpose) (hl : p.label = q.label) :
    (p.parent = q.parent → p = q) ∧ (p ≠ q → p.label = (42, "CtxSecKy")) ∧
    (Mp.utf8 p.label.2).length = 8 ∧ p.label.1 < 2 ^ 64 := by
  refine ⟨?_, ?_, ?_, ?_⟩
  · intro hp
    cases p <;> cases q <;> simp_all [Purpose.label, Purpose.parent]
    exact UInt32.toNat_inj.1 hl
  · intro hne
    cases p <;> cases q <;> simp_all [Purpose.label]
    rename_i a b
    exact hne (UInt32.toNat_inj.1 hl)
  · cases p <;> (simp only [Purpose.label]; decide)
  · cases p <;> simp [Purpose.label]
    rename_i i
    have := i.toNat_lt; omega

/-- C50: with a derivation function that separates the labels, keys for different purposes from one parent differ. -/
theorem C50_keys_distinct (C : Crypto) (parent : B 32) (h : C.LabelsSeparate parent) (p q : Purpose) (hp : p.parent = q.parent)
    (hne : p ≠ q) : p.key C parent ≠ q.key C parent :=
  fun he => hne ((C50_labels_distinct p q (h p q he)).1 hp)

/-- C50, seen by who starts a server: exchanging the two sealed values of a configuration (they have the same size and are made from
    one passphrase) is detected; the passphrase does not open the result. -/
theorem C50_swapped_config_refused (C : Crypto) (L : C.Lawful) (root canon pass : Bytes) (limits : PwHashLimits)
    (r : ConfigRand) (cfg : Config) (h : Config.new C L root canon pass limits r = some cfg)
    (hs : ∀ pre, C.argon2id (C.blake2b64 pass).val cfg.salt cfg.ops cfg.mem = some pre →
      C.LabelsSeparate pre ∧ C.SealsApart pre .configIdentity .configContext) :
    (Config.unlock C cfg pass).isSome ∧ Config.unlock C cfg.swapped pass = none := by
  obtain ⟨pre, hp, h1, h2⟩ := (C50_labels_used C L).1 root canon pass limits r cfg h
  have hne := C50_keys_distinct C pre (hs pre hp).1 .configIdentity .configContext rfl (by decide)
  have hd : ∀ (hdr : B 24) (m : B 32), (SecretSized.encrypt C L (Purpose.configIdentity.key C pre) hdr m : SecretSized 49).decrypt (m := 32) C
      (Purpose.configContext.key C pre) = none := by
    intro hdr m
    simp [SecretSized.decrypt, SecretSized.encrypt, (hs pre hp).2 hne hdr m.val]
  have hk : ∀ (k : B 32) (hdr : B 24) (m : B 32), (SecretSized.encrypt C L k hdr m : SecretSized 49).decrypt (m := 32) C k = some m :=
    fun k hdr m => SecretSized.decrypt_encrypt ..
  constructor
  · unfold Config.unlock
    simp only [hp, h1, h2]
    have e1 : C.kdf pre 42 "CtxSecKy" = Purpose.configContext.key C pre := rfl
    have e2 : C.kdf pre 142 "IdnSecKy" = Purpose.configIdentity.key C pre := rfl
    rw [e1, e2, hk, hk]; rfl
  · unfold Config.unlock
    have e : C.argon2id (C.blake2b64 pass).val cfg.swapped.salt cfg.swapped.ops cfg.swapped.mem = some pre := hp
    simp only [e]
    have e1 : C.kdf pre 42 "CtxSecKy" = Purpose.configContext.key C pre := rfl
    have e3 : cfg.swapped.contextKey = cfg.idSeed := rfl
    rw [e3, h2, e1, hd]

/-- C50, seen by a client: a secret the client sealed for the server is not accepted when it comes back (and the other way round), even
    if both directions had the same session key. -/
theorem C50_no_reflection (C : Crypto) (L : C.Lawful) {S : SStream} (s : Session S) (hrx : s.rx = s.tx)
    (hs : C.LabelsSeparate s.tx) (ha : C.SealsApart s.tx .toServer .toClient) (hb : C.SealsApart s.tx .toClient .toServer) (hdr : B 24) (pass : B 64) :
    (SecretSized.encrypt C L (clientEncKey C s) hdr pass : SecretSized 81).decrypt (m := 64) C (clientDecKey C s) = none ∧
    (SecretSized.encrypt C L (serverEncKey C s) hdr pass : SecretSized 81).decrypt (m := 64) C (serverDecKey C s) = none := by
  have h1 := C50_keys_distinct C s.tx hs .toServer .toClient rfl (by decide)
  constructor
  · have e1 : clientEncKey C s = Purpose.toServer.key C s.tx := rfl
    have e2 : clientDecKey C s = Purpose.toClient.key C s.tx := by rw [← hrx]; rfl
    simp [SecretSized.decrypt, SecretSized.encrypt, e1, e2, ha h1 hdr pass.val]
  · have e1 : serverEncKey C s = Purpose.toClient.key C s.tx := rfl
    have e2 : serverDecKey C s = Purpose.toServer.key C s.tx := by rw [← hrx]; rfl
    simp [SecretSized.decrypt, SecretSized.encrypt, e1, e2, hb (fun h => h1 h.symm) hdr pass.val]

/-- C50, seen by who can watch the statements sent to SQLite: the key in them is not the key that seals the seeds. -/
theorem C50_database_key_is_not_seed_key (C : Crypto) (dbKey : B 32) (hs : C.LabelsSeparate dbKey) :
    (storeKeys C dbKey).dbk ≠ (storeKeys C dbKey).ctx :=
  C50_keys_distinct C dbKey hs .storeDatabase .storeContext rfl (by decide)

/-- The derivations made along a path. -/
def steps (C : Crypto) (seed : B 32) : List UInt32 → List (B 32 × UInt32)
  | [] => []
  | i :: path => (seed, i) :: steps C (C.kdf seed i.toNat "SeedBndl") path

/-- C50, derived seeds: when none of the derivations performed along the two paths collide, different paths of the same length give
    different seeds. -/
theorem C50_paths_distinct (C : Crypto) (seed : B 32) (path path' : List UInt32) (hl : path.length = path'.length) (hne : path ≠ path')
    (hc : ∀ a ∈ steps C seed path, ∀ b ∈ steps C seed path', C.kdf a.1 a.2.toNat "SeedBndl" = C.kdf b.1 b.2.toNat "SeedBndl" → a = b) :
    derivePath C seed path ≠ derivePath C seed path' := by
  suffices h : ∀ (path path' : List UInt32) (seed seed' : B 32), path.length = path'.length →
      (∀ a ∈ steps C seed path, ∀ b ∈ steps C seed' path', C.kdf a.1 a.2.toNat "SeedBndl" = C.kdf b.1 b.2.toNat "SeedBndl" → a = b) →
      derivePath C seed path = derivePath C seed' path' → seed = seed' ∧ path = path' by
    intro he
    exact hne (h path path' seed seed hl hc he).2
  intro path
  induction path with
  | nil =>
    intro path' seed seed' hl hc he
    cases path' with
    | nil => exact ⟨he, rfl⟩
    | cons _ _ => cases hl
  | cons i path ih =>
    intro path' seed seed' hl hc he
    cases path' with
    | nil => cases hl
    | cons j path' =>
      obtain ⟨h1, h2⟩ := ih path' (C.kdf seed i.toNat "SeedBndl") (C.kdf seed' j.toNat "SeedBndl") (by simpa using hl)
        (fun a ha b hb => hc a (List.mem_cons_of_mem _ ha) b (List.mem_cons_of_mem _ hb)) he
      have := hc (seed, i) (List.mem_cons_self ..) (seed', j) (List.mem_cons_self ..) h1
      cases this
      exact ⟨rfl, by rw [h2]⟩

/-! ### The hypotheses are met -/

namespace LabelsEx

/-- A number as four bytes. -/
def le32 (n : Nat) : Bytes := [UInt8.ofNat n, UInt8.ofNat (n / 256), UInt8.ofNat (n / 65536), UInt8.ofNat (n / 16777216)]

theorem le32_inj {a b : Nat} (ha : a < 2 ^ 32) (hb : b < 2 ^ 32) (h : le32 a = le32 b) : a = b := by
  simp only [le32, List.cons.injEq, and_true] at h
  obtain ⟨h1, h2, h3, h4⟩ := h
  have e1 := congrArg UInt8.toNat h1
  have e2 := congrArg UInt8.toNat h2
  have e3 := congrArg UInt8.toNat h3
  have e4 := congrArg UInt8.toNat h4
  simp at e1 e2 e3 e4
  omega

/-- The derived key begins with its label. -/
def crypto : Crypto := { Toy.crypto with
  kdf := fun k i ctx => Toy.pad 32 (le32 i ++ (Mp.utf8 ctx).take 8 ++ k.val)
  ssEnc := fun k _ m => Toy.lock (Toy.pad 17 k.val).val m }

theorem lawful : crypto.Lawful := { Toy.lawful with }

theorem separate (k : B 32) : crypto.LabelsSeparate k := by
  intro p q h
  have lp : ∀ p : Purpose, (Mp.utf8 p.label.2).length = 8 := fun p => (C50_labels_distinct p p rfl).2.2.1
  have lb : ∀ p : Purpose, p.label.1 < 2 ^ 32 := by
    intro p
    cases p <;> simp [Purpose.label]
    rename_i i; have := i.toNat_lt; omega
  have hv : ∀ p : Purpose, (p.key crypto k).val.take 12 = le32 p.label.1 ++ Mp.utf8 p.label.2 := by
    intro p
    have h8 := lp p
    simp [Purpose.key, crypto, Toy.pad, List.take_take, List.take_append, le32, h8]
    exact List.take_of_length_le (by omega)
  have e : le32 p.label.1 ++ Mp.utf8 p.label.2 = le32 q.label.1 ++ Mp.utf8 q.label.2 := by rw [← hv p, ← hv q, h]
  have := List.append_inj e rfl
  have hs : p.label.2 = q.label.2 := by
    have h2 := this.2
    clear this e h
    cases p <;> cases q <;> first | rfl | (exact absurd h2 (by simp only [Purpose.label]; decide))
  exact Prod.ext (le32_inj (lb p) (lb q) this.1) hs

theorem apart (k : B 32) (p q : Purpose) (hl : p.label ≠ q.label) : crypto.SealsApart k p q := by
  intro _ h m
  show Toy.unlock _ (Toy.lock _ m) = none
  have lb : ∀ p : Purpose, p.label.1 < 2 ^ 32 := by
    intro p
    cases p <;> simp [Purpose.label]
    rename_i i; have := i.toNat_lt; omega
  have lp : ∀ p : Purpose, (Mp.utf8 p.label.2).length = 8 := fun p => (C50_labels_distinct p p rfl).2.2.1
  have hv : ∀ p : Purpose, (Toy.pad 17 (p.key crypto k).val).val.take 12 = (p.key crypto k).val.take 12 := by
    intro p
    simp [Toy.pad, List.take_take, List.take_append, (p.key crypto k).len]
  unfold Toy.unlock Toy.lock
  rw [if_neg]
  intro hc
  rw [(Toy.pad 17 _).len, List.take_left' (Toy.pad 17 _).len] at hc
  have h12 := congrArg (List.take 12) hc
  rw [hv, hv] at h12
  refine hl ?_
  have key : ∀ p : Purpose, (p.key crypto k).val.take 12 = le32 p.label.1 ++ Mp.utf8 p.label.2 := by
    intro p
    have h8 := lp p
    simp [Purpose.key, crypto, Toy.pad, List.take_take, List.take_append, le32, h8]
    exact List.take_of_length_le (by omega)
  rw [key, key] at h12
  have h3 := List.append_inj h12 rfl
  have hs : p.label.2 = q.label.2 := by
    have h2 := h3.2
    clear h3 h12 hc hl
    cases p <;> cases q <;> first | rfl | (exact absurd h2 (by simp only [Purpose.label]; decide))
  exact Prod.ext (le32_inj (lb p) (lb q) h3.1) hs

/-- A configuration is made and unlocked; exchanged, it is not. -/
def exRand : ConfigRand := ⟨B.fill 16 1, B.fill 16 2, B.fill 32 3, B.fill 32 4, B.fill 24 5, B.fill 24 6⟩

example : ∃ cfg, Config.new crypto lawful [0x2f] [0x2f] [1, 2, 3] .minimum exRand = some cfg ∧
    (Config.unlock crypto cfg [1, 2, 3]).isSome ∧ Config.unlock crypto cfg.swapped [1, 2, 3] = none := by
  have hs : (Config.new crypto lawful [0x2f] [0x2f] [1, 2, 3] .minimum exRand).isSome = true := rfl
  obtain ⟨cfg, hc⟩ := Option.isSome_iff_exists.1 hs
  exact ⟨cfg, hc, C50_swapped_config_refused crypto lawful _ _ _ _ _ _ hc fun pre _ => ⟨separate pre, apart pre _ _ (by decide)⟩⟩

example (S : SStream) (s : Session S) (h : s.rx = s.tx) (pass : B 64) :
    (SecretSized.encrypt crypto lawful (clientEncKey crypto s) (B.fill 24 1) pass : SecretSized 81).decrypt (m := 64) crypto (clientDecKey crypto s) = none :=
  (C50_no_reflection crypto lawful s h (separate _) (apart _ _ _ (by decide)) (apart _ _ _ (by decide)) _ pass).1

/-- Paths `[1, 2]` and `[2, 1]`. -/
example : derivePath crypto (B.fill 32 1) [1, 2] ≠ derivePath crypto (B.fill 32 1) [2, 1] :=
  C50_paths_distinct crypto _ _ _ rfl (by decide) (by decide +kernel)

end LabelsEx
end Lair.Props
