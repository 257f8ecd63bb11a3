import Verif.Life
import Verif.Props.Multi
import Verif.Props.Migration
import Verif.Props.Config
import Verif.Props.Keys

/-
C70: a keystore survives its servers.
-/
namespace Lair

/-! ### Specification -/

/-- All that a configuration can be opened to. -/
def OneSecret (C : Crypto) (cfg : Config) (keys : SrvKeys) : Prop := ∀ pass k, cfg.unlock C pass = some k → k = keys

/-- SPECIFICATION: what may be on the disk in the beginning: no store file, one written by earlier servers with this configuration, or an
    unencrypted one of an older version; with contents `st`. -/
inductive FirstFiles {E : Env} (key : B 32) : Migr.Fs E.S.σ → E.S.σ → Prop where
  | nothing (tmp) : FirstFiles key ⟨none, tmp⟩ E.S.I.empty
  | encrypted (st tmp) : GoodStore E st → FirstFiles key ⟨some (.enc key (some st)), tmp⟩ st
  | plain (st) : GoodStore E st → FirstFiles key ⟨some (.plain st), none⟩ st

/-- A migration is cut off. -/
def CutMigration (evs : List LifeEv) : Prop := ∃ pass n, LifeEv.start pass true (some n) ∈ evs

/-- The store file is not encrypted. -/
def Migr.Fs.isPlain {ρ : Type} (fs : Migr.Fs ρ) : Prop := ∃ st, fs.main = some (.plain st)

/-! ### helper facts -/

section
variable {E : Env}

/-- The state of the disk and the servers, as servers on one store. -/
structure LifeInv (key : B 32) (st : E.S.σ) (fs0 : Migr.Fs E.S.σ) (s : Life E) (mevs : List MEvent) : Prop where
  procs : s.procs = (Multi.run E st mevs).procs
  opening : ∀ k ∈ s.opening, k = key
  file : s.fs.main = some (.enc key (some (Multi.run E st mevs).store)) ∨
    (mevs = [] ∧ ((st = E.S.I.empty ∧ (s.fs.main = none ∨ s.fs.main = some (.enc key none))) ∨ (s.fs = ⟨some (.plain st), none⟩ ∧ fs0.isPlain)))

/-- Starting on such files: what happens to them, and what the server finds. -/
theorem open_cases {key : B 32} {st : E.S.σ} {fs0 : Migr.Fs E.S.σ} {s : Life E} {mevs : List MEvent} (h : LifeInv key st fs0 s mevs)
    {keys : SrvKeys} (hkey : (storeKeys E.C keys.contextKey).dbk = key) (migrate : Bool) (cut : Option Nat)
    (hcut : s.fs.isPlain → migrate = true → cut = none) :
    (LifeInv key st fs0 (s.open keys migrate cut) mevs ∧ (cut = none → s.fs.isPlain ∧ migrate = false)) ∨
    (cut = none ∧ LifeInv key st fs0 (s.open keys migrate cut) (mevs ++ [.start]) ∧
      (s.open keys migrate cut).procs = s.procs ++ [⟨.init E (Multi.run E st mevs).store, []⟩]) := by
  obtain ⟨⟨main, tmp⟩, procs, opening⟩ := s
  obtain ⟨hp, ho, hf⟩ := h
  simp only at hp hf
  -- a start that succeeds
  have started : ∀ tmp', LifeInv key st fs0 ⟨⟨some (.enc key (some (Multi.run E st mevs).store)), tmp'⟩,
      procs ++ [⟨.init E (Multi.run E st mevs).store, []⟩], opening⟩ (mevs ++ [.start]) := by
    intro tmp'
    refine ⟨?_, ho, Or.inl ?_⟩
    · rw [mrun_snoc]; simp only [Multi.step, hp]
    · rw [mrun_snoc]; rfl
  rcases hf with hf | ⟨rfl, ⟨rfl, hf | hf⟩ | ⟨hf, hpl⟩⟩
  · subst hf
    cases cut with
    | some n =>
      left
      have : Migr.after E.S.I.empty migrate key ⟨some (.enc key (some (Multi.run E st mevs).store)), tmp⟩ n =
          ⟨some (.enc key (some (Multi.run E st mevs).store)), tmp⟩ := (Migr.C43_encrypted_store_opens _ _ _ _ _ _).2
      simp only [Life.open, hkey, this]
      exact ⟨⟨hp, ho, Or.inl rfl⟩, by simp⟩
    | none =>
      right
      have e1 : (Migr.start E.S.I.empty migrate key ⟨some (.enc key (some (Multi.run E st mevs).store)), tmp⟩) =
          ([], some (Multi.run E st mevs).store) := by simp [Migr.start, Migr.openDb]
      simp only [Life.open, hkey, e1]
      exact ⟨trivial, started tmp, trivial⟩
  · subst hf
    cases cut with
    | some n =>
      left
      refine ⟨?_, by simp⟩
      simp only [Life.open, hkey]
      have hs : (Migr.start E.S.I.empty migrate key ⟨none, tmp⟩).1 =
          [⟨some (.enc key none), tmp⟩, ⟨some (.enc key (some E.S.I.empty)), tmp⟩] := by simp [Migr.start, Migr.openDb]
      simp only [Migr.after, hs]
      match n with
      | 0 => exact ⟨hp, ho, Or.inr ⟨rfl, Or.inl ⟨rfl, Or.inl (by simp [Migr.lastOr])⟩⟩⟩
      | 1 => exact ⟨hp, ho, Or.inr ⟨rfl, Or.inl ⟨rfl, Or.inr (by simp [Migr.lastOr])⟩⟩⟩
      | m + 2 => exact ⟨hp, ho, Or.inl (by simp [Migr.lastOr, Multi.run])⟩
    | none =>
      right
      have e1 : (Migr.start E.S.I.empty migrate key ⟨none, tmp⟩) =
          ([⟨some (.enc key none), tmp⟩, ⟨some (.enc key (some E.S.I.empty)), tmp⟩], some E.S.I.empty) := by simp [Migr.start, Migr.openDb]
      simp only [Life.open, hkey, e1]
      exact ⟨trivial, started tmp, rfl⟩
  · subst hf
    cases cut with
    | some n =>
      left
      refine ⟨?_, by simp⟩
      simp only [Life.open, hkey]
      have hs : (Migr.start E.S.I.empty migrate key ⟨some (.enc key none), tmp⟩).1 =
          [⟨some (.enc key (some E.S.I.empty)), tmp⟩] := by simp [Migr.start, Migr.openDb]
      simp only [Migr.after, hs]
      match n with
      | 0 => exact ⟨hp, ho, Or.inr ⟨rfl, Or.inl ⟨rfl, Or.inr (by simp [Migr.lastOr])⟩⟩⟩
      | m + 1 => exact ⟨hp, ho, Or.inl (by simp [Migr.lastOr, Multi.run])⟩
    | none =>
      right
      have e1 : (Migr.start E.S.I.empty migrate key ⟨some (.enc key none), tmp⟩) =
          ([⟨some (.enc key (some E.S.I.empty)), tmp⟩], some E.S.I.empty) := by simp [Migr.start, Migr.openDb]
      simp only [Life.open, hkey, e1]
      exact ⟨trivial, started tmp, rfl⟩
  · cases hf
    cases migrate with
    | false =>
      left
      have e2 := Migr.C43_plain_refused_unless_asked E.S.I.empty key st none
      cases cut with
      | some n =>
        simp only [Life.open, hkey, (e2 n).2]
        exact ⟨⟨hp, ho, Or.inr ⟨rfl, Or.inr ⟨rfl, hpl⟩⟩⟩, by simp⟩
      | none =>
        have e1 : (Migr.start E.S.I.empty false key ⟨some (.plain st), none⟩) = ([], none) := by simp [Migr.start, Migr.openDb]
        simp only [Life.open, hkey, e1]
        exact ⟨⟨hp, ho, Or.inr ⟨rfl, Or.inr ⟨rfl, hpl⟩⟩⟩, fun _ => ⟨⟨st, rfl⟩, trivial⟩⟩
    | true =>
      cases hcut ⟨st, rfl⟩ rfl
      right
      obtain ⟨e1, e2⟩ := Migr.C43_migration_keeps_entries E.S.I.empty key st
      simp only [Life.open, hkey, e1, e2]
      exact ⟨trivial, started none, rfl⟩

/-- The next step of opening on such files: the file changes, or the start is given up because the file is plain, or there is a new server. -/
theorem advance_cases {key : B 32} {st : E.S.σ} {fs0 : Migr.Fs E.S.σ} {s : Life E} {mevs : List MEvent} (h : LifeInv key st fs0 s mevs) (i : Nat) :
    (LifeInv key st fs0 (s.advance i key) mevs ∧ (s.advance i key).opening = s.opening ∧ (s.advance i key).procs = s.procs ∧
      ((s.fs.main = none ∧ (s.advance i key).fs.main = some (.enc key none)) ∨
       (s.fs.main = some (.enc key none) ∧ (s.advance i key).fs.main = some (.enc key (some E.S.I.empty))))) ∨
    (LifeInv key st fs0 (s.advance i key) mevs ∧ s.fs.isPlain) ∨
    (LifeInv key st fs0 (s.advance i key) (mevs ++ [.start]) ∧
      (s.advance i key).procs = s.procs ++ [⟨.init E (Multi.run E st mevs).store, []⟩]) := by
  have hx : ∀ k ∈ s.opening.eraseIdx i, k = key := fun k hk => h.opening k (List.mem_of_mem_eraseIdx hk)
  obtain ⟨⟨main, tmp⟩, procs, opening⟩ := s
  obtain ⟨hp, ho, hf⟩ := h
  simp only at hp hf ho hx
  rcases hf with hf | ⟨rfl, ⟨rfl, hf | hf⟩ | ⟨hf, hpl⟩⟩
  · subst hf
    right; right
    simp only [Life.advance, if_true]
    refine ⟨⟨?_, hx, Or.inl ?_⟩, trivial⟩
    · rw [mrun_snoc]; simp only [Multi.step, hp]
    · rw [mrun_snoc]; rfl
  · subst hf
    left
    exact ⟨⟨hp, ho, Or.inr ⟨rfl, Or.inl ⟨rfl, Or.inr rfl⟩⟩⟩, rfl, rfl, Or.inl ⟨rfl, rfl⟩⟩
  · subst hf
    left
    simp only [Life.advance, if_true]
    exact ⟨⟨hp, ho, Or.inl rfl⟩, trivial, trivial, Or.inr ⟨trivial, trivial⟩⟩
  · cases hf
    right; left
    exact ⟨⟨hp, hx, Or.inr ⟨rfl, Or.inr ⟨rfl, hpl⟩⟩⟩, ⟨st, rfl⟩⟩

theorem advance_procs {s : Life E} {i : Nat} {key : B 32} (h : s.fs.main = none ∨ s.fs.main = some (.enc key none)) :
    (s.advance i key).procs = s.procs := by
  rcases h with h | h <;> simp [Life.advance, h]

theorem life_step {cfg : Config} {key : B 32} {st : E.S.σ} {fs0 : Migr.Fs E.S.σ} {s : Life E} {mevs : List MEvent} (h : LifeInv key st fs0 s mevs)
    {keys : SrvKeys} (hone : OneSecret E.C cfg keys) (hkey : (storeKeys E.C keys.contextKey).dbk = key) (ev : LifeEv)
    (hcut : fs0.isPlain → ∀ pass n, ev ≠ .start pass true (some n)) : ∃ more, LifeInv key st fs0 (s.step cfg ev) (mevs ++ more) := by
  cases ev with
  | start pass migrate cut =>
    simp only [Life.step]
    cases hu : cfg.unlock E.C pass with
    | none => exact ⟨[], by simpa using h⟩
    | some k =>
      cases hone pass k hu
      have hc : s.fs.isPlain → migrate = true → cut = none := by
        rintro ⟨x, hx⟩ rfl
        have : fs0.isPlain := by
          rcases h.file with h1 | ⟨_, ⟨_, h1 | h1⟩ | ⟨_, h1⟩⟩
          · rw [h1] at hx; cases hx
          · rw [h1] at hx; cases hx
          · rw [h1] at hx; cases hx
          · exact h1
        cases cut with
        | none => rfl
        | some n => exact absurd rfl (hcut this pass n)
      rcases open_cases h hkey migrate cut hc with ⟨h1, _⟩ | ⟨_, h1, _⟩
      · exact ⟨[], by simpa using h1⟩
      · exact ⟨[.start], h1⟩
  | «begin» pass =>
    refine ⟨[], ?_⟩
    simp only [Life.step, List.append_nil]
    cases hu : cfg.unlock E.C pass with
    | none => exact h
    | some k =>
      cases hone pass k hu
      refine ⟨h.procs, ?_, h.file⟩
      intro k hk
      rcases List.mem_append.mp hk with hk | hk
      · exact h.opening k hk
      · simp only [List.mem_singleton] at hk; rw [hk, hkey]
  | advance i =>
    simp only [Life.step]
    cases hi : s.opening[i]? with
    | none => exact ⟨[], by simpa using h⟩
    | some k =>
      obtain rfl := h.opening k (List.mem_of_getElem? hi)
      rcases advance_cases h i with h1 | ⟨h1, -⟩ | ⟨h1, -⟩
      · exact ⟨[], by simpa using h1.1⟩
      · exact ⟨[], by simpa using h1⟩
      · exact ⟨[.start], h1⟩
  | «at» j ev =>
    simp only [Life.step]
    cases hl : s.procs[j]? with
    | none => exact ⟨[], by simpa using h⟩
    | some l =>
      refine ⟨[.at j ev], ?_⟩
      have hl' : (Multi.run E st mevs).procs[j]? = some l := by rw [← h.procs]; exact hl
      have hmain : s.fs.main = some (.enc key (some (Multi.run E st mevs).store)) := by
        rcases h.file with h1 | ⟨rfl, _⟩
        · exact h1
        · simp [Multi.run] at hl'
      refine ⟨?_, h.opening, Or.inl ?_⟩
      · rw [mrun_snoc]; simp only [Multi.step, hl', h.procs]
      · rw [mrun_snoc]; simp only [Multi.step, hl', hmain]

theorem lifeRun_append (cfg : Config) (fs : Migr.Fs E.S.σ) (a b : List LifeEv) :
    Life.run E cfg fs (a ++ b) = b.foldl (Life.step cfg) (Life.run E cfg fs a) := by simp [Life.run, List.foldl_append]

theorem life_foldl {cfg : Config} {key : B 32} {st : E.S.σ} {fs0 : Migr.Fs E.S.σ} {keys : SrvKeys} (hone : OneSecret E.C cfg keys)
    (hkey : (storeKeys E.C keys.contextKey).dbk = key) (evs : List LifeEv) : ∀ {s : Life E} {mevs : List MEvent}, LifeInv key st fs0 s mevs →
    (fs0.isPlain → ¬ CutMigration evs) → ∃ more, LifeInv key st fs0 (evs.foldl (Life.step cfg) s) (mevs ++ more) := by
  induction evs with
  | nil => intro s mevs h _; exact ⟨[], by simpa using h⟩
  | cons ev evs ih =>
    intro s mevs h hcut
    obtain ⟨m1, h1⟩ := life_step h hone hkey ev (fun hp pass n he => hcut hp ⟨pass, n, by rw [he]; simp⟩)
    obtain ⟨m2, h2⟩ := ih h1 (fun hp ⟨pass, n, he⟩ => hcut hp ⟨pass, n, List.mem_cons_of_mem _ he⟩)
    exact ⟨m1 ++ m2, by simpa using h2⟩

theorem life_init {key : B 32} {st : E.S.σ} {fs : Migr.Fs E.S.σ} (h : FirstFiles key fs st) : LifeInv key st fs ⟨fs, [], []⟩ [] := by
  cases h with
  | nothing tmp => exact ⟨rfl, by simp, Or.inr ⟨rfl, Or.inl ⟨rfl, Or.inl rfl⟩⟩⟩
  | encrypted _ _ hg => exact ⟨rfl, by simp, Or.inl rfl⟩
  | plain _ hg => exact ⟨rfl, by simp, Or.inr ⟨rfl, Or.inr ⟨rfl, ⟨_, rfl⟩⟩⟩⟩

theorem FirstFiles.good {key : B 32} {st : E.S.σ} {fs : Migr.Fs E.S.σ} (h : FirstFiles key fs st) : GoodStore E st := by
  cases h with
  | nothing tmp => exact goodStore_empty E
  | encrypted _ _ hg => exact hg
  | plain _ hg => exact hg

theorem LifeInv.entries {key : B 32} {st : E.S.σ} {fs0 : Migr.Fs E.S.σ} {s : Life E} {mevs : List MEvent} (h : LifeInv key st fs0 s mevs) :
    s.entries = (Multi.run E st mevs).entries := by
  unfold Life.entries
  rcases h.file with h1 | ⟨rfl, ⟨rfl, h1 | h1⟩ | ⟨h1, _⟩⟩
  · rw [h1]; rfl
  · rw [h1]; exact E.S.R.empty_tbl.symm
  · rw [h1]; exact E.S.R.empty_tbl.symm
  · rw [h1]; rfl

/-- Two moments. -/
theorem life_two {cfg : Config} {st : E.S.σ} {fs : Migr.Fs E.S.σ} {keys : SrvKeys} (hone : OneSecret E.C cfg keys)
    (h : FirstFiles (storeKeys E.C keys.contextKey).dbk fs st) (evs₁ evs₂ : List LifeEv) (hcut : fs.isPlain → ¬ CutMigration (evs₁ ++ evs₂)) :
    ∃ a b, LifeInv (storeKeys E.C keys.contextKey).dbk st fs (Life.run E cfg fs evs₁) a ∧
      LifeInv (storeKeys E.C keys.contextKey).dbk st fs (Life.run E cfg fs (evs₁ ++ evs₂)) (a ++ b) := by
  obtain ⟨a, ha⟩ := life_foldl (cfg := cfg) (fs0 := fs) hone rfl evs₁ (life_init h)
    (fun hp ⟨p, n, hm⟩ => hcut hp ⟨p, n, List.mem_append_left _ hm⟩)
  obtain ⟨b, hb⟩ := life_foldl hone rfl evs₂ ha (fun hp ⟨p, n, hm⟩ => hcut hp ⟨p, n, List.mem_append_right _ hm⟩)
  simp only [List.nil_append] at ha
  refine ⟨a, b, ha, ?_⟩
  rw [lifeRun_append]
  exact hb

/-- The passphrase of the keystore unlocks connections, too. -/
theorem config_hasPassphrase (C : Crypto) (L : C.Lawful) (cfg : Config) (pass : Bytes) (keys : SrvKeys) (h : cfg.unlock C pass = some keys)
    (S : StoreModel) (name version : String) (encKey decKey : Nat → B 32) (certGen : Nat → CertGen) (debugFmt : Msg → String) :
    HasPassphrase (cfg.sqlEnv C L keys S name version encKey decKey certGen debugFmt) := by
  unfold Config.unlock at h
  split at h
  · cases h
  · rename_i pre hpre
    split at h
    · cases h
    · rename_i ctx hctx
      split at h
      · cases h
      · rename_i seed hseed
        cases h
        refine ⟨0, SecretSized.encrypt C L (decKey 0) (B.fill 24 0) (C.blake2b64 pass), ?_⟩
        have hd : decPass (cfg.sqlEnv C L ⟨ctx, C.xPk seed, C.xSk seed⟩ S name version encKey decKey certGen debugFmt) 0
            (SecretSized.encrypt C L (decKey 0) (B.fill 24 0) (C.blake2b64 pass)) = some (C.blake2b64 pass) := SecretSized.decrypt_encrypt ..
        simp only [unlockCheck, hd]
        show (match C.argon2id (C.blake2b64 pass).val cfg.salt cfg.ops cfg.mem with
          | none => _
          | some pre => _) = _
        rw [hpre]
        show (match cfg.idSeed.decrypt (m := 32) C (C.kdf pre 142 "IdnSecKy") with
          | none => _
          | some idSeed => if C.xPk seed ≠ C.xPk idSeed then _ else _) = _
        rw [hseed]
        simp

end

/-! ### C70 -/

section
variable {C : Crypto} (L : C.Lawful) {cfg : Config} {pass : Bytes} {keys : SrvKeys} {S : StoreModel} {name version : String}
  {encKey decKey : Nat → B 32} {certGen : Nat → CertGen} {debugFmt : Msg → String}

/-- C70. A passphrase the configuration does not accept opens nothing, creates nothing and changes nothing, whatever is on the disk and
    whichever servers are running. -/
theorem C70_wrong_passphrase_changes_nothing {E : Env} (s : Life E) (p : Bytes) (migrate : Bool) (cut : Option Nat)
    (h : cfg.unlock E.C p = none) : s.step cfg (.start p migrate cut) = s ∧ s.step cfg (.begin p) = s := by
  simp [Life.step, h]

/-- C70. A start without migration comes to an end, whatever is on the disk and whoever else is starting or serving: after at most three
    steps the process is no longer opening the store, the other starts and servers are as before, and
    * if there was no file, or one that only has to be finished, encrypted with this key, it serves the empty store it has made;
    * if there was a store with this key, it serves what is in there, and nothing is written;
    * if the file is not encrypted, or with another key, it gives up and nothing is written. -/
theorem C70_start_ends {E : Env} (s : Life E) (i : Nat) (key : B 32) (hi : s.opening[i]? = some key) :
    ∃ n, n ≤ 3 ∧
      let s' := (List.replicate n (LifeEv.advance i)).foldl (Life.step cfg) s
      s'.opening = s.opening.eraseIdx i ∧ s'.fs.tmp = s.fs.tmp ∧
      match s.fs.main with
      | none => s'.fs.main = some (.enc key (some E.S.I.empty)) ∧ s'.procs = s.procs ++ [⟨.init E E.S.I.empty, []⟩]
      | some (.plain st) => s'.fs.main = some (.plain st) ∧ s'.procs = s.procs
      | some (.enc k rows) =>
        if k = key then
          s'.fs.main = some (.enc key (some (rows.getD E.S.I.empty))) ∧ s'.procs = s.procs ++ [⟨.init E (rows.getD E.S.I.empty), []⟩]
        else s'.fs.main = some (.enc k rows) ∧ s'.procs = s.procs := by
  obtain ⟨⟨main, tmp⟩, procs, opening⟩ := s
  simp only at hi
  rcases main with _ | ⟨st⟩ | ⟨k, rows⟩
  · exact ⟨3, by omega, by simp [List.replicate, Life.step, hi, Life.advance]⟩
  · exact ⟨1, by omega, by simp [List.replicate, Life.step, hi, Life.advance]⟩
  · by_cases hk : k = key
    · subst hk
      cases rows with
      | none => exact ⟨2, by omega, by simp [List.replicate, Life.step, hi, Life.advance]⟩
      | some st => exact ⟨1, by omega, by simp [List.replicate, Life.step, hi, Life.advance]⟩
    · exact ⟨1, by omega, by simp [List.replicate, Life.step, hi, Life.advance, hk]⟩

/-- C70. A generated configuration opens to the secrets it was made with only, or the one-message cipher, the hash, the password hash or
    the key derivation has failed (two inputs with one result, or two keys for one cipher). -/
theorem C70_one_secret {root canon : Bytes} {limits : PwHashLimits} {r : ConfigRand}
    (h : Config.new C L root canon pass limits r = some cfg) :
    OneSecret C cfg ⟨r.contextKey, C.xPk r.idSeed, C.xSk r.idSeed⟩ ∨
    (∃ a b, a ≠ b ∧ C.blake2b64 a = C.blake2b64 b) ∨
    (∃ a b pre, a ≠ b ∧ C.argon2id a r.salt limits.ops limits.mem = some pre ∧ C.argon2id b r.salt limits.ops limits.mem = some pre) ∨
    (∃ a b, a ≠ b ∧ C.kdf a 142 "IdnSecKy" = C.kdf b 142 "IdnSecKy") ∨
    (∃ k k' hdr m m', k ≠ k' ∧ C.ssDec k hdr (C.ssEnc k hdr m) = some m ∧ C.ssDec k' hdr (C.ssEnc k hdr m) = some m') := by
  by_cases hall : ∀ p k, cfg.unlock C p = some k → p = pass
  · left
    intro p k hk
    have := hall p k hk
    subst this
    rw [C40_generated_config_opens L h] at hk
    exact (Option.some.inj hk).symm
  · right
    have : ∃ p k, cfg.unlock C p = some k ∧ p ≠ pass := by
      apply Classical.byContradiction
      intro hn
      exact hall fun p k hk => Classical.byContradiction fun hne => hn ⟨p, k, hk, hne⟩
    obtain ⟨p, k, hk, hne⟩ := this
    exact C40_other_passphrase L h hk hne

/-- C15. A server started from a configuration as it was generated - nobody has edited a signer into it - asks no external signer, whatever
    clients request and whatever fails. -/
theorem C15_generated_config_no_signer {root canon : Bytes} {limits : PwHashLimits} {r : ConfigRand}
    (h : Config.new C L root canon pass limits r = some cfg) :
    let E := cfg.sqlEnv C L keys S name version encKey decKey certGen debugFmt
    ∀ st, GoodStore E st → ∀ evs k pk data ans, (k, Ev.fell pk data ans) ∉ (Sys.run E st evs).hist := by
  intro E st hst evs k pk data ans
  refine C15_no_fallback_configured hst evs ?_ k pk data ans
  show cfg.hasFallback = false
  unfold Config.new at h
  split at h
  · cases h
  · cases h; rfl

/-- C12. A started server keeps at most 128 decrypted entries per kind of lookup, however many there are and are asked for. -/
theorem C12_server_caches_bounded :
    let E := cfg.sqlEnv C L keys S name version encKey decKey certGen debugFmt
    ∀ st, GoodStore E st → ∀ evs, (Sys.run E st evs).sh.cTag.length ≤ 128 ∧ (Sys.run E st evs).sh.cEd.length ≤ 128 ∧
      (Sys.run E st evs).sh.cX.length ≤ 128 :=
  fun _ hst evs => C12_caches_bounded hst evs

/-- C70. Whatever happens - starts with any passphrases, cut off at any point, any number of servers at work and crashing - the servers
    are servers on one store, in the sense of C69, and what is in the store file is what they have in common. -/
theorem C70_servers_on_one_store
    (hone : OneSecret C cfg keys) :
    let E := cfg.sqlEnv C L keys S name version encKey decKey certGen debugFmt
    ∀ (fs : Migr.Fs E.S.σ) (st : E.S.σ), FirstFiles (E := E) (storeKeys C keys.contextKey).dbk fs st →
    ∀ evs, (fs.isPlain → ¬ CutMigration evs) → ∃ mevs : List MEvent,
      (Life.run E cfg fs evs).procs = (Multi.run E st mevs).procs ∧ (Life.run E cfg fs evs).entries = (Multi.run E st mevs).entries := by
  intro E fs st hf evs hcut
  obtain ⟨a, b, _, h⟩ := life_two (E := E) hone hf [] evs (by simpa using hcut)
  exact ⟨[] ++ (a ++ b), by simpa using h.procs, by simpa using h.entries⟩

/-- C70. Entries stay in the store file for ever, and no two have the same tag or key. -/
theorem C70_entries_permanent (hpass : cfg.unlock C pass = some keys) (hone : OneSecret C cfg keys) :
    let E := cfg.sqlEnv C L keys S name version encKey decKey certGen debugFmt
    ∀ (fs : Migr.Fs E.S.σ) (st : E.S.σ), FirstFiles (E := E) (storeKeys C keys.contextKey).dbk fs st →
    ∀ evs₁ evs₂, (fs.isPlain → ¬ CutMigration (evs₁ ++ evs₂)) →
      (Life.run E cfg fs evs₁).entries <+: (Life.run E cfg fs (evs₁ ++ evs₂)).entries ∧
      ((Life.run E cfg fs evs₁).entries.map Entry.tag).Nodup ∧
      ((Life.run E cfg fs evs₁).entries.filterMap Entry.edKey).Nodup ∧
      ((Life.run E cfg fs evs₁).entries.filterMap Entry.xKey).Nodup := by
  intro E fs st hf evs₁ evs₂ hcut
  obtain ⟨a, b, h1, h2⟩ := life_two (E := E) hone hf evs₁ evs₂ hcut
  rw [h1.entries, h2.entries]
  exact C69_entries_permanent (config_hasPassphrase C L cfg pass keys hpass S ..) hf.good a b

/-- C70. At any time a start with the right passphrase succeeds, and the new server has exactly the entries in the store file. (An
    unencrypted file has to be allowed to be migrated. Not part of this: the pid file and the socket, C42, C62.) -/
theorem C70_right_passphrase_starts (hpass : cfg.unlock C pass = some keys) (hone : OneSecret C cfg keys) :
    let E := cfg.sqlEnv C L keys S name version encKey decKey certGen debugFmt
    ∀ (fs : Migr.Fs E.S.σ) (st : E.S.σ), FirstFiles (E := E) (storeKeys C keys.contextKey).dbk fs st →
    ∀ evs, (fs.isPlain → ¬ CutMigration evs) → ∀ migrate : Bool, ((Life.run E cfg fs evs).fs.isPlain → migrate = true) →
      ∃ p : LSys E, (Life.run E cfg fs (evs ++ [.start pass migrate none])).procs = (Life.run E cfg fs evs).procs ++ [p] ∧
        p.sys.entries = (Life.run E cfg fs evs).entries ∧
        (Life.run E cfg fs (evs ++ [.start pass migrate none])).entries = (Life.run E cfg fs evs).entries := by
  intro E fs st hf evs hcut migrate hm
  obtain ⟨a, b, _, h⟩ := life_two (E := E) hone hf [] evs (by simpa using hcut)
  simp only [List.nil_append] at h
  have hs : Life.run E cfg fs (evs ++ [.start pass migrate none]) = (Life.run E cfg fs evs).open keys migrate none := by
    rw [lifeRun_append]
    show (match cfg.unlock C pass with
      | none => _
      | some k => _) = _
    rw [hpass]
  rcases open_cases h rfl migrate none (fun _ _ => rfl) with ⟨_, h2⟩ | ⟨_, h1, h2⟩
  · obtain ⟨h3, h4⟩ := h2 rfl
    rw [hm h3] at h4; cases h4
  · refine ⟨_, by rw [hs, h2], ?_, ?_⟩
    · rw [h.entries]; rfl
    · rw [hs, h1.entries, h.entries, mrun_snoc]; rfl

/-- C70. Starts that happen at the same time do not disturb each other: a process that is opening the store file, however far it and
    the others have come and whichever of them have crashed, needs at most three more steps; then it serves exactly the entries in the file. -/
theorem C70_concurrent_starts_complete (hone : OneSecret C cfg keys) :
    let E := cfg.sqlEnv C L keys S name version encKey decKey certGen debugFmt
    ∀ (fs : Migr.Fs E.S.σ) (st : E.S.σ), FirstFiles (E := E) (storeKeys C keys.contextKey).dbk fs st →
    ∀ evs, (fs.isPlain → ¬ CutMigration evs) → ∀ i : Nat, i < (Life.run E cfg fs evs).opening.length → ¬ (Life.run E cfg fs evs).fs.isPlain →
      ∃ n, n ≤ 3 ∧ ∃ p : LSys E, (Life.run E cfg fs (evs ++ List.replicate n (.advance i))).procs = (Life.run E cfg fs evs).procs ++ [p] ∧
        p.sys.entries = (Life.run E cfg fs evs).entries ∧
        (Life.run E cfg fs (evs ++ List.replicate n (.advance i))).entries = (Life.run E cfg fs evs).entries := by
  intro E fs st hf evs hcut i hi hpl
  obtain ⟨a, b, _, h⟩ := life_two (E := E) hone hf [] evs (by simpa using hcut)
  simp only [List.nil_append] at h
  simp only [lifeRun_append]
  generalize Life.run E cfg fs evs = s at *
  -- one more step
  have step : ∀ t : Life E, t.opening = s.opening → t.step cfg (.advance i) = t.advance i (storeKeys C keys.contextKey).dbk := by
    intro t ht
    have hg : t.opening[i]? = some s.opening[i] := by rw [ht]; exact List.getElem?_eq_getElem hi
    have hk : s.opening[i] = (storeKeys C keys.contextKey).dbk := h.opening _ (List.getElem_mem hi)
    simp only [Life.step, hg, hk]
  -- the last step
  have last : ∀ (t : Life E) k, LifeInv (storeKeys C keys.contextKey).dbk st fs t (a ++ b) → t.opening = s.opening → t.procs = s.procs →
      (∃ x, t.fs.main = some (.enc (storeKeys C keys.contextKey).dbk (some x))) → k ≤ 2 →
      (List.replicate k (LifeEv.advance i)).foldl (Life.step cfg) s = t →
      ∃ n, n ≤ 3 ∧ ∃ p : LSys E, ((List.replicate n (LifeEv.advance i)).foldl (Life.step cfg) s).procs = s.procs ++ [p] ∧
        p.sys.entries = s.entries ∧ ((List.replicate n (LifeEv.advance i)).foldl (Life.step cfg) s).entries = s.entries := by
    intro t k ht h1 h2 ⟨x, hx⟩ hk hs
    refine ⟨k + 1, by omega, ⟨.init E (Multi.run E st (a ++ b)).store, []⟩, ?_⟩
    rw [List.replicate_succ', List.foldl_append, hs]
    show (t.step cfg (.advance i)).procs = _ ∧ _ ∧ (t.step cfg (.advance i)).entries = _
    rw [step t h1]
    rcases advance_cases ht i with ⟨_, _, _, h5⟩ | ⟨_, y, h5⟩ | ⟨h3, h4⟩
    · rcases h5 with ⟨h5, _⟩ | ⟨h5, _⟩ <;> rw [hx] at h5 <;> cases h5
    · rw [hx] at h5; cases h5
    · exact ⟨by rw [h4, h2], by rw [h.entries]; rfl, by rw [h3.entries, h.entries, mrun_snoc]; rfl⟩
  rcases advance_cases h i with ⟨g1, g2, g3, ⟨m0, m1⟩ | ⟨m0, m1⟩⟩ | ⟨_, g⟩ | ⟨g1, g2⟩
  · have e1 : (List.replicate 1 (LifeEv.advance i)).foldl (Life.step cfg) s = s.advance i (storeKeys C keys.contextKey).dbk := step s rfl
    rcases advance_cases g1 i with ⟨k1, k2, k3, ⟨n0, n1⟩ | ⟨n0, n1⟩⟩ | ⟨_, y, k⟩ | ⟨k1, k2⟩
    · rw [m1] at n0; cases n0
    · refine last _ 2 k1 (k2.trans g2) (k3.trans g3) ⟨_, n1⟩ (Nat.le_refl _) ?_
      rw [List.replicate_succ', List.foldl_append, e1]
      exact step _ g2
    · rw [m1] at k; cases k
    · exact absurd (k2.symm.trans (advance_procs (.inr m1))) (by simp)
  · exact last _ 1 g1 g2 g3 ⟨_, m1⟩ (by omega) (step s rfl)
  · exact absurd g hpl
  · refine last s 0 h rfl rfl ?_ (by omega) rfl
    rcases h.file with hf | ⟨_, ⟨_, hf | hf⟩ | ⟨hf, _⟩⟩
    · exact ⟨_, hf⟩
    · exact absurd (g2.symm.trans (advance_procs (.inl hf))) (by simp)
    · exact absurd (g2.symm.trans (advance_procs (.inr hf))) (by simp)
    · exact absurd ⟨_, by rw [hf]⟩ hpl

/-- C70. What a server has acknowledged is kept: a creation answered with success at any server is in the store file, with the
    information reported, at any later time, whatever starts, failures and crashes there were; and every get-entry request for it that
    arrives at a server started later is answered with that information, unless the environment makes it fail or it is locked. -/
theorem C70_acknowledged_is_kept (hpass : cfg.unlock C pass = some keys) (hone : OneSecret C cfg keys) :
    let E := cfg.sqlEnv C L keys S name version encKey decKey certGen debugFmt
    ∀ (fs : Migr.Fs E.S.σ) (st : E.S.σ), FirstFiles (E := E) (storeKeys C keys.contextKey).dbk fs st →
    ∀ evs₁ evs₂, (fs.isPlain → ¬ CutMigration (evs₁ ++ evs₂)) →
      ∀ (j : Nat) (l : LSys E), (Life.run E cfg fs evs₁).procs[j]? = some l → ∀ (d : Done E), d ∈ l.sys.done →
      ∀ (i t : String) (r : Req) (resp : Resp), d.msg = .req i r → Creates r t → d.outcome = .ok resp →
      ∃ e, e.tag = t ∧ Reports resp e ∧ e ∈ (Life.run E cfg fs (evs₁ ++ evs₂)).entries ∧
        ∀ (k : Nat) (p : LSys E), (Life.run E cfg fs evs₁).procs.length ≤ k → (Life.run E cfg fs (evs₁ ++ evs₂)).procs[k]? = some p →
          ∀ g : Done E, g ∈ p.sys.done → ∀ i', g.msg = .req i' (.getEntry t) → Ev.fault ∉ g.log → g.outcome ≠ .error "KeystoreLocked" →
            g.outcome = .ok (.getEntry e.info) := by
  intro E fs st hf evs₁ evs₂ hcut j l hl d hd i t r resp hm hc ho
  have hk := config_hasPassphrase C L cfg pass keys hpass S name version encKey decKey certGen debugFmt
  obtain ⟨a, b, h1, h2⟩ := life_two (E := E) hone hf evs₁ evs₂ hcut
  rw [h1.procs] at hl
  obtain ⟨e, he, ht, hr, _⟩ := C69_success_means_stored hk hf.good a j l hl d hd i t r hm hc resp ho
  refine ⟨e, ht, hr, ?_, ?_⟩
  · rw [h2.entries]
    exact (C69_entries_permanent hk hf.good a b).1.subset he
  · intro k p hk' hp g hg i' hgm hgf hgl
    rw [h2.procs] at hp
    refine C69_seen_everywhere hk hf.good a b e he k p hp g hg ?_ i' (by rw [ht]; exact hgm) hgf hgl
    have : (Multi.run E st a).procs[k]? = none := List.getElem?_eq_none (by rw [← h1.procs]; exact hk')
    unfold Multi.received
    rw [this]
    exact Nat.zero_le _

end

/-! ### Examples: the hypotheses are met -/

namespace LifeEx
open Ex

/-- A configuration made with passphrase `[1, 2]`. -/
def cfg : Config := (Config.new Toy.crypto Toy.lawful (Mp.utf8 "/r") (Mp.utf8 "/r") [1, 2] .interactive exRand).get (by decide +kernel)

def keys : SrvKeys := ⟨exRand.contextKey, exRand.idSeed, exRand.idSeed⟩

def E : Env := cfg.sqlEnv Toy.crypto Toy.lawful keys mem "lair" "0.6" (env false 1).encKey (env false 1).decKey (env false 1).certGen (fun _ => "m")

/-- With a cipher that commits to its key, a configuration opens to one secret only. -/
theorem oneSecret_of_committing {C : Crypto} (hC : C.Committing) {cfg : Config} {pass : Bytes} {keys : SrvKeys}
    (h : cfg.unlock C pass = some keys) : OneSecret C cfg keys := by
  have dec : ∀ (k k' : B 32) (s : SecretSized 49) (x y : B 32), s.decrypt (m := 32) C k = some x → s.decrypt (m := 32) C k' = some y → x = y := by
    intro k k' s x y hx hy
    unfold SecretSized.decrypt at hx hy
    cases h1 : C.ssDec k s.hdr s.cipher.val with
    | none => simp [h1] at hx
    | some a =>
      cases h2 : C.ssDec k' s.hdr s.cipher.val with
      | none => simp [h2] at hy
      | some b =>
        have hab := hC _ _ _ _ _ _ h1 h2
        subst hab
        simp only [h1] at hx
        simp only [h2] at hy
        rw [hx] at hy
        exact Option.some.inj hy
  intro p k hk
  unfold Config.unlock at h hk
  split at h
  · cases h
  · split at h
    · cases h
    · rename_i c1 hc1
      split at h
      · cases h
      · rename_i s1 hs1
        cases h
        split at hk
        · cases hk
        · split at hk
          · cases hk
          · rename_i c2 hc2
            split at hk
            · cases hk
            · rename_i s2 hs2
              cases hk
              rw [dec _ _ _ _ _ hc1 hc2, dec _ _ _ _ _ hs1 hs2]

theorem opens : cfg.unlock Toy.crypto [1, 2] = some keys := by decide +kernel

/-- The hypothesis of `C15_generated_config_no_signer`, `C70_one_secret`. -/
example : Config.new Toy.crypto Toy.lawful (Mp.utf8 "/r") (Mp.utf8 "/r") [1, 2] .interactive exRand = some cfg := by
  unfold cfg; simp

example : OneSecret Toy.crypto cfg keys := oneSecret_of_committing Toy.committing opens
example : cfg.unlock Toy.crypto [1, 3] = none := by decide +kernel

/-- A wrong passphrase; a start cut off after the file was made; a start with a client that creates "alice"; a second server; a crash;
    a wrong passphrase again; a third server, asked for "alice". -/
def servers (evs : List Event) (j : Nat) : List LifeEv := evs.map fun ev => .at j (.srv ev)

def pass64 : SecretSized 81 := SecretSized.encrypt Toy.crypto Toy.lawful (E.decKey 0) (B.fill 24 0) (Toy.crypto.blake2b64 [1, 2])

def login : List Event := serve 0 (.req "u" (.unlock pass64)) 0

def story : List LifeEv := [.start [1, 3] true none, .start [1, 2] false (some 1), .start [1, 2] false none] ++
  servers (login ++ serve 0 (.req "a" (.newSeed "alice" none true)) 7) 0 ++ [.start [1, 2] true none, .at 0 (.srv .restart), .start [1, 3] false none,
  .start [1, 2] false none] ++ servers (login ++ serve 0 (.req "b" (.getEntry "alice")) 0) 2

set_option maxRecDepth 100000 in
example : (Life.run E cfg ⟨none, none⟩ story).entries.map Entry.tag = ["alice"] ∧
    (Life.run E cfg ⟨none, none⟩ story).procs.map (fun l => l.sys.done.map fun d => d.outcome.isOk) = [[true, true], [], [true, true]] := by
  decide +kernel

example : FirstFiles (E := E) (storeKeys Toy.crypto keys.contextKey).dbk ⟨none, none⟩ MemStore.empty := .nothing none
example : ¬ (⟨none, none⟩ : Migr.Fs E.S.σ).isPlain := by rintro ⟨st, h⟩; cases h

-- two processes start at the same time on no file, a third crashes between creating the file and its tables; both serve one store
set_option maxRecDepth 100000 in
example :
    let evs : List LifeEv := [.begin [1, 2], .begin [1, 2], .begin [1, 3], .begin [1, 2], .advance 2, .advance 0, .advance 1]
    (Life.run E cfg ⟨none, none⟩ evs).opening.length = 2 ∧ (Life.run E cfg ⟨none, none⟩ evs).procs.length = 1 ∧
    (Life.run E cfg ⟨none, none⟩ (evs ++ [.advance 0])).procs.length = 2 := by
  decide +kernel

-- an unencrypted store is migrated
set_option maxRecDepth 100000 in
example : (Life.run E cfg ⟨some (.plain MemStore.empty), none⟩ [.start [1, 2] false none, .start [1, 2] true none]).procs.length = 1 := by
  decide +kernel
example : FirstFiles (E := E) (storeKeys Toy.crypto keys.contextKey).dbk ⟨some (.plain MemStore.empty), none⟩ MemStore.empty :=
  .plain _ (goodStore_empty E)
example : ¬ CutMigration [.start [1, 2] false none, .start [1, 2] true none] := by
  rintro ⟨p, n, h⟩; simp at h

end LifeEx
end Lair
