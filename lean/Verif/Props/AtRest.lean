import Verif.Props.Secrecy
import Verif.Props.Multi

/-
C75: secrets at rest are only sealed. Whatever is requested and however it goes, the secret part of every entry the server
puts into the store is a sealed box: a seed under the store key, a deep-locked seed under the key of a passphrase, a
certificate's private key under the store key. Nothing else in the store depends on the secret, beyond its public keys.
-/
namespace Lair.Props
open Lair

variable {E : Env} {st : E.S.σ}

/-- An entry whose secret is sealed: a seed under the store key, a deep-locked seed under the key made from a passphrase with the
    salt and limits in the entry, the private key of a certificate under the store key. The rest of the entry is public: the tag,
    the public keys of that seed and the export flag, or the certificate, its digest and server name. -/
def SealedEntry (E : Env) : Entry → Prop
  | .seed _ info sealedSeed => ∃ (hdr : B 24) (seed : B 32), sealedSeed = SecretSized.encrypt E.C E.L E.bidi hdr seed ∧
      info.ed = E.C.edPk seed ∧ info.x = E.C.xPk seed
  | .deep _ info salt ops mem sealedSeed => ∃ (hdr : B 24) (pass : B 64) (key seed : B 32),
      E.C.argon2id pass.val salt ops mem = some key ∧ sealedSeed = SecretSized.encrypt E.C E.L key hdr seed ∧
      info.ed = E.C.edPk seed ∧ info.x = E.C.xPk seed
  | .cert _ info sealedKey => ∃ (hdr : B 24) (n : Nat), sealedKey = SecretData.encrypt E.C E.bidi hdr (E.certGen n).priv ∧
      info = ⟨(E.certGen n).sni, E.C.blake2b32 (E.certGen n).cert, (E.certGen n).cert⟩

theorem sealedEntry_of_made {e : Entry} (h : Made E e) : SealedEntry E e := by
  cases e with
  | seed t i c => exact h
  | deep t i s o m c => exact h
  | cert t i p => obtain ⟨hdr, n, h1, h2⟩ := h; exact ⟨hdr, n, h2, h1⟩

theorem exec_wrote {c : Nat} {ch : Choice} {s : Shared E} {a : Act} {e : Entry} (h : Ev.wrote e ∈ (exec c ch s a).2.2) :
    a = .write e := by
  cases a with
  | write e' =>
    simp only [exec] at h
    split at h
    · simp at h
    · split at h <;> simp_all
  | storeTag t => simp only [exec] at h; split at h <;> simp at h
  | storeEd t => simp only [exec] at h; split at h <;> simp at h
  | storeX t => simp only [exec] at h; split at h <;> simp at h
  | list => simp only [exec] at h; split at h <;> simp at h
  | alloc => simp only [exec] at h; split at h <;> simp at h
  | _ => simp [exec] at h

theorem made_step {s : Sys E} (h : SysInv st s) (hm : ∀ e ∈ writesOf s.hist, Made E e) (ev : Event) :
    ∀ e ∈ writesOf (s.step ev).hist, Made E e := by
  cases ev with
  | recv c m => exact hm
  | restart => exact hm
  | step i ch =>
    cases hti : s.threads[i]? with
    | none => rw [step_none s i ch hti]; exact hm
    | some t =>
      cases hp : t.prog with
      | ret r => rw [step_ret s i ch t r hti hp]; exact hm
      | fail e => rw [step_fail s i ch t e hti hp]; exact hm
      | step a k =>
        rw [step_act s i ch t a k hti hp]
        intro e he
        simp only [Sys.perform, writesOf, List.filterMap_append, List.mem_append] at he
        rcases he with he | he
        · exact hm e he
        · obtain ⟨p, hp1, hp2⟩ := List.mem_filterMap.1 he
          obtain ⟨ev, hev, rfl⟩ := List.mem_map.1 hp1
          have hw : ev = .wrote e := by revert hp2; cases ev <;> simp
          subst hw
          have ha := exec_wrote hev
          subst ha
          exact (thread_act h (List.mem_of_getElem? hti) hp : s.sh.unlocked t.conn = true ∧ Made E e).2

theorem made_run (hst : GoodStore E st) (evs : List Event) : ∀ e ∈ writesOf (Sys.run E st evs).hist, Made E e := by
  suffices h : ∀ (evs : List Event) (s : Sys E), SysInv st s → (∀ e ∈ writesOf s.hist, Made E e) →
      ∀ e ∈ writesOf (evs.foldl Sys.step s).hist, Made E e from
    h evs _ (sysInv_init hst) (by simp [Sys.init, writesOf])
  intro evs
  induction evs with
  | nil => intro s _ hm; exact hm
  | cons ev evs ih => intro s h hm; exact ih _ (sysInv_step h ev) (made_step h hm ev)

/-- C75. After any requests from any clients, under any interleaving, failures and crashes: the store holds what it held at the
    start, followed by entries whose secret is sealed. -/
theorem C75_entries_sealed (hst : GoodStore E st) (evs : List Event) :
    ∃ added, (Sys.run E st evs).entries = E.S.tbl st ++ added ∧ ∀ e ∈ added, SealedEntry E e :=
  ⟨_, (sysInv_run hst evs).tbl, fun e he => sealedEntry_of_made (made_run hst evs e he)⟩

/-- C75, with the calls of the program that runs the server in its own process (through the store handle) among the requests. -/
theorem C75_entries_sealed_in_process (hk : HasPassphrase E) (hst : GoodStore E st) (evs : List LEvent) :
    ∃ added, E.S.tbl (LSys.run E st evs).sys.sh.store = E.S.tbl st ++ added ∧ ∀ e ∈ added, SealedEntry E e := by
  obtain ⟨c, a, h⟩ := lrun_one (st := st) hk evs
  obtain ⟨added, h1, h2⟩ := C75_entries_sealed hst a
  refine ⟨added, ?_, h2⟩
  rw [← h1]
  rw [h.sh.store]; rfl

/-! ### Nothing else depends on the secret -/

/-- Entries that agree in everything but a sealed seed, which in both was sealed under the same key with the same header. -/
def SameButSealed (E : Env) : Entry → Entry → Prop
  | .seed tag info c, .seed tag' info' c' => tag = tag' ∧ info = info' ∧
      (c = c' ∨ ∃ (hdr : B 24) (s s' : B 32), c = SecretSized.encrypt E.C E.L E.bidi hdr s ∧ c' = SecretSized.encrypt E.C E.L E.bidi hdr s')
  | .deep tag info salt ops mem c, .deep tag' info' salt' ops' mem' c' =>
      tag = tag' ∧ info = info' ∧ salt = salt' ∧ ops = ops' ∧ mem = mem' ∧
      (c = c' ∨ ∃ (pass : B 64) (key : B 32) (hdr : B 24) (s s' : B 32), E.C.argon2id pass.val salt ops mem = some key ∧
        c = SecretSized.encrypt E.C E.L key hdr s ∧ c' = SecretSized.encrypt E.C E.L key hdr s')
  | .cert tag info c, .cert tag' info' c' => tag = tag' ∧ info = info' ∧ c = c'
  | _, _ => False

theorem sameButSealed_of_sim {Known : B 64 → Prop} {e e' : Entry} (h : EntrySim E Known e e') : SameButSealed E e e' := by
  cases e <;> cases e' <;> first | exact h.elim | skip
  · refine ⟨h.1, h.2.1, ?_⟩
    rcases h.2.2.2 with h | ⟨key, hdr, s, s', rfl, h1, h2⟩
    · exact .inl h
    · exact .inr ⟨hdr, s, s', h1, h2⟩
  · refine ⟨h.1, h.2.1, h.2.2.1, h.2.2.2.1, h.2.2.2.2.1, ?_⟩
    rcases h.2.2.2.2.2.2 with h | ⟨key, hdr, s, s', ⟨p, hp⟩, h1, h2⟩
    · exact .inl h
    · exact .inr ⟨p, key, hdr, s, s', hp, h1, h2⟩
  · exact h

/-- C75. In the two worlds of C49, where the server draws different protected seeds and all else is the same, the store holds after
    any number of steps the same entries in the same order, but for the sealed seeds in them, and those are sealed under the same
    key with the same header: whoever reads the store learns of a protected seed what the sealed boxes tell him. -/
theorem C75_store_depends_through_seals (hS : E.S.Oblivious) (hC : E.C.SealsHide) (hst : GoodStore E st) (Known : B 64 → Prop)
    (adv : Strategy) (gen gen' : Nat → B 32)
    (hgen : ∀ n k c id tag deep x, (play E st gen adv n).1.inbox[k]? = some (c, .req id (.newSeed tag deep x)) →
      Protected E Known c deep x (gen k) (gen' k))
    (huse : ∀ n c m, (c, m) ∈ (play E st gen adv n).1.inbox → UsesOnly E Known c m) (n : Nat) :
    (play E st gen adv n).1.entries.length = (play E st gen' adv n).1.entries.length ∧
    ∀ (i : Nat) (e e' : Entry), (play E st gen adv n).1.entries[i]? = some e → (play E st gen' adv n).1.entries[i]? = some e' →
      SameButSealed E e e' := by
  have h := (secrecy_worlds hS hC hst Known adv gen gen' hgen huse n).1.sh.tbl
  refine ⟨h.length, fun i e e' h1 h2 => ?_⟩
  rcases h.get i with ⟨g, _⟩ | ⟨a, b, g1, g2, hr⟩
  · exact absurd (g.symm.trans h1) (by simp)
  · cases g1.symm.trans h1; cases g2.symm.trans h2
    exact sameButSealed_of_sim hr

/-- Corresponding rows of the database hold corresponding entries. -/
theorem rows_sim {R : Entry → Entry → Prop} : (rows rows' : List SqlRow) → (∀ r ∈ rows, ∃ e, SqlStore.RowOf r e) →
    (∀ r ∈ rows', ∃ e, SqlStore.RowOf r e) →
    All2 R (rows.filterMap (fun r => Codec.decodeEntry r.data)) (rows'.filterMap (fun r => Codec.decodeEntry r.data)) →
    All2 (fun r r' => ∃ e e', SqlStore.RowOf r e ∧ SqlStore.RowOf r' e' ∧ R e e') rows rows'
  | [], [], _, _, _ => .nil
  | [], r' :: rs', _, h', h => by
    obtain ⟨e, he⟩ := h' r' (List.mem_cons_self ..)
    simp [he.1] at h; cases h
  | r :: rs, [], h, _, h2 => by
    obtain ⟨e, he⟩ := h r (List.mem_cons_self ..)
    simp [he.1] at h2; cases h2
  | r :: rs, r' :: rs', h, h', h2 => by
    obtain ⟨e, he⟩ := h r (List.mem_cons_self ..)
    obtain ⟨e', he'⟩ := h' r' (List.mem_cons_self ..)
    simp only [List.filterMap_cons, he.1, he'.1] at h2
    cases h2 with
    | cons h3 h4 =>
      exact .cons ⟨e, e', he, he', h3⟩ (rows_sim rs rs' (fun r hr => h r (List.mem_cons_of_mem _ hr))
        (fun r hr => h' r (List.mem_cons_of_mem _ hr)) h4)

/-- C75, for the rows of the SQLite database: the indexed columns (tag, signature key, encryption key) of the two worlds agree row by
    row, and the entries in the data column agree but for sealed seeds. -/
theorem C75_sqlite_rows (E : Env) (st : SqlStore) (hC : E.C.SealsHide) (hst : GoodStore { E with S := sqlModel } st)
    (Known : B 64 → Prop) (adv : Strategy) (gen gen' : Nat → B 32)
    (hgen : ∀ n k c id tag deep x,
      (play { E with S := sqlModel } st gen adv n).1.inbox[k]? = some (c, .req id (.newSeed tag deep x)) →
      Protected { E with S := sqlModel } Known c deep x (gen k) (gen' k))
    (huse : ∀ n c m, (c, m) ∈ (play { E with S := sqlModel } st gen adv n).1.inbox → UsesOnly { E with S := sqlModel } Known c m)
    (n : Nat) (db db' : SqlStore) (hdb : (play { E with S := sqlModel } st gen adv n).1.sh.store = db)
    (hdb' : (play { E with S := sqlModel } st gen' adv n).1.sh.store = db') :
    db.rows.length = db'.rows.length ∧
    ∀ (i : Nat) (r r' : SqlRow), db.rows[i]? = some r → db'.rows[i]? = some r' →
      r.tag = r'.tag ∧ r.ed = r'.ed ∧ r.x = r'.x ∧
      ∃ e e', Codec.decodeEntry r.data = some e ∧ Codec.decodeEntry r'.data = some e' ∧ SameButSealed E e e' := by
  have h := (secrecy_worlds (E := { E with S := sqlModel }) sql_oblivious hC hst Known adv gen gen' hgen huse n).1.sh
  have ht : All2 (EntrySim { E with S := sqlModel } Known) (SqlStore.tbl db) (SqlStore.tbl db') := by
    rw [← hdb, ← hdb']; exact h.tbl
  have h1 : SqlStore.Ok db := by rw [← hdb]; exact h.ok
  have h2 : SqlStore.Ok db' := by rw [← hdb']; exact h.ok'
  have hr := rows_sim _ _ h1.rows h2.rows ht
  refine ⟨hr.length, fun i r r' g1 g2 => ?_⟩
  rcases hr.get i with ⟨g, _⟩ | ⟨a, b, k1, k2, e, e', ⟨a1, a2, a3, a4⟩, ⟨b1, b2, b3, b4⟩, hee⟩
  · exact absurd (g.symm.trans g1) (by simp)
  · cases k1.symm.trans g1; cases k2.symm.trans g2
    have hp := hee.pub
    refine ⟨by rw [a2, b2, hp.tag], by rw [a3, b3, hp.edKey], by rw [a4, b4, hp.xKey], e, e', a1, b1, ?_⟩
    exact sameButSealed_of_sim hee

/-! ### The hypotheses are met -/

open SecrecyEx in
/-- Two worlds: the stores of both hold two entries. -/
example (n : Nat) : (play env MemStore.empty (gen 1) adv n).1.entries.length = (play env MemStore.empty (gen 2) adv n).1.entries.length := by
  have hin := play_inbox (E := env) (st := MemStore.empty) (gen := gen 1) (adv := adv)
  refine (C75_store_depends_through_seals (E := env) mem_oblivious hides (goodStore_empty env) (fun _ => True) adv (gen 1) (gen 2) ?_ ?_ n).1
  · intro n k c id tag deep x h
    obtain ⟨o, ho⟩ := hin n _ _ (List.mem_of_getElem? h)
    obtain ⟨_, h2⟩ := adv_plain o c id _ ho
    refine Or.inr (Or.inl ⟨?_, alikes k⟩)
    cases x with
    | false => rfl
    | true => exact absurd rfl (h2 tag deep)
  · intro n c m h id r p pass hm hop hdec
    trivial

open SecrecyEx in
-- The entries are there, and the sealed seeds in them differ.
set_option maxRecDepth 100000 in
example : ((play env MemStore.empty (gen 1) adv 152).1.entries.map Entry.tag = ["a", "b"]) ∧
    (play env MemStore.empty (gen 1) adv 152).1.entries ≠ (play env MemStore.empty (gen 2) adv 152).1.entries := by decide +kernel

end Lair.Props
