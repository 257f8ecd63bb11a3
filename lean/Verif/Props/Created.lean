import Verif.Props.Keystore
import Verif.Props.Entries
import Verif.Props.Keys

/- C59: a successful creation adds exactly what was asked for, locked the way it was asked for. -/
namespace Lair

variable {E : Env} {st : E.S.σ}

/-- SPECIFICATION: the item to create for a tag, a seed, an optional lock and an exportability flag (`none` if the passphrase of
    the lock is not readable on connection `c`). -/
def wanted (E : Env) (c : Nat) (tag : String) (seed : B 32) (lock : Option DeepPass) (exportable : Bool) : Option Item :=
  match lock with
  | none => some (.seed tag seed exportable)
  | some d => (decPass E c d.pass).map (fun pw => .locked tag seed exportable pw d.ops d.mem)

/-- Request `d` added exactly one entry, it stands for `item`, and it is there at the end. -/
def AddedItem (E : Env) (st : E.S.σ) (evs : List Event) (d : Done E) (item : Item) : Prop :=
  ∃ e, (Sys.run E st evs).added d.id = [e] ∧ e ∈ (Sys.run E st evs).entries ∧ Repr E item e

theorem wanted_repr {c : Nat} {tag : String} {seed : B 32} {lock : Option DeepPass} {x : Bool} {e : Entry}
    (h : IsNew E c seed tag lock x e) : ∃ item, wanted E c tag seed lock x = some item ∧ Repr E item e := by
  rcases isNew_repr h with ⟨rfl, hr⟩ | ⟨d, pw, rfl, hp, _, hr⟩
  · exact ⟨_, rfl, hr⟩
  · exact ⟨_, by simp [wanted, hp], hr⟩

theorem created {d : Done E} (hst : GoodStore E st) {evs : List Event} (hd : d ∈ (Sys.run E st evs).done) {e : Entry}
    (hl : d.log = [.wrote e]) (he : e ∈ d.stop.tbl) : (Sys.run E st evs).added d.id = [e] ∧ e ∈ (Sys.run E st evs).entries := by
  obtain ⟨more, hm⟩ := done_tbl hst hd
  refine ⟨by rw [added_eq hd, hl]; rfl, ?_⟩
  show e ∈ (Sys.run E st evs).sh.tbl
  rw [hm]; exact List.mem_append_left _ he

/-- The part of a request's specification that follows the lock check, if it succeeded. -/
theorem okSpec {c : Nat} {s₀ s₁ : Shared E} {l : List Ev} {o : Res Resp} {resp : Resp} (ho : o = .ok resp) {P : Prop}
    (h : (l = [] ∧ o = .error "KeystoreLocked" ∧ s₀.unlocked c = false) ∨ (s₁.unlocked c = true ∧ (Faulted l o ∨ P))) : P := by
  rcases h with ⟨_, h, _⟩ | ⟨_, ⟨_, x, h⟩ | h⟩
  · rw [ho] at h; cases h
  · rw [ho] at h; cases h
  · exact h

theorem notRefused {l : List Ev} {o : Res Resp} {resp : Resp} (ho : o = .ok resp) (h : Refused l o) : False := by
  obtain ⟨_, x, h⟩ := h; rw [ho] at h; cases h

/-- C59. A new seed is created under its tag, exportable or not as asked, and deep-locked exactly if asked, with the passphrase
    and limits of the request; the response reports its public keys. -/
theorem C59_new_seed_as_asked (hst : GoodStore E st) (evs : List Event) (d : Done E) (hd : d ∈ (Sys.run E st evs).done)
    (i t : String) (lock : Option DeepPass) (x : Bool) (hm : d.msg = .req i (.newSeed t lock x)) (resp : Resp)
    (ho : d.outcome = .ok resp) :
    ∃ seed item, wanted E d.conn t seed lock x = some item ∧ AddedItem E st evs d item ∧
      resp = .newSeed t ⟨E.C.edPk seed, E.C.xPk seed, x⟩ := by
  have h := done_spec hst hd
  rw [hm] at h
  rcases okSpec ho h with ⟨h, _⟩ | ⟨seed, ⟨e, hn, hl, hr, he, _⟩ | ⟨h, _⟩⟩
  · exact (notRefused ho h).elim
  · obtain ⟨item, h1, h2⟩ := wanted_repr hn
    obtain ⟨h3, h4⟩ := created hst hd hl he
    rw [ho] at hr
    exact ⟨seed, item, h1, ⟨e, h3, h4, h2⟩, by cases hr; rfl⟩
  · exact (notRefused ho h).elim

/-- C59. An imported seed is the one in the box, opened with the recipient's key, which is that of an entry that is not deep-locked. -/
theorem C59_import_as_asked (hst : GoodStore E st) (evs : List Event) (d : Done E) (hd : d ∈ (Sys.run E st evs).done)
    (i : String) (sender recipient : B 32) (lock : Option DeepPass) (nonce : B 24) (cipher : Bytes) (t : String) (x : Bool)
    (hm : d.msg = .req i (.importSeed sender recipient lock nonce cipher t x)) (resp : Resp) (ho : d.outcome = .ok resp) :
    ∃ seed item me tme xme, ∃ e ∈ (Sys.run E st evs).entries, Repr E (.seed tme me xme) e ∧ E.C.xPk me = recipient ∧
      E.C.boxOpen nonce cipher sender (E.C.xSk me) = some seed.val ∧
      wanted E d.conn t seed lock x = some item ∧ AddedItem E st evs d item ∧
      resp = .importSeed t ⟨E.C.edPk seed, E.C.xPk seed, x⟩ := by
  have h := done_spec hst hd
  rw [hm] at h
  rcases okSpec ho h with ⟨h, _⟩ | ⟨f, hf, hk, ⟨h, _⟩ | ⟨xSk, seed, hx, _, hb, hc⟩⟩
  · exact (notRefused ho h).elim
  · exact (notRefused ho h).elim
  · obtain ⟨he, hfull⟩ := hf
    have hentry : f.entry ∈ (Sys.run E st evs).entries := by
      obtain ⟨more, hmore⟩ := done_tbl hst hd
      show f.entry ∈ (Sys.run E st evs).sh.tbl
      rw [hmore]; exact List.mem_append_left _ he
    obtain ⟨it, hit⟩ : ∃ it, Repr E it f.entry := by
      obtain ⟨ks, hks⟩ := stands_exists (fun e (he : e ∈ [f.entry]) => by
        rw [List.mem_singleton] at he; subst he
        exact (done_inv hst hd).2.1.wf _ he)
      cases ks with
      | nil => exact hks.elim
      | cons a ks => exact ⟨a, hks.1⟩
    have hfu := hit.full hfull
    rcases hc with ⟨e, hn, hl, hr, he', _⟩ | ⟨h, _⟩
    · obtain ⟨item, h1, h2⟩ := wanted_repr hn
      obtain ⟨h3, h4⟩ := created hst hd hl he'
      rw [ho] at hr
      cases it with
      | seed tme me xme =>
        refine ⟨seed, item, me, tme, xme, f.entry, hentry, hit, ?_, ?_, h1, ⟨e, h3, h4, h2⟩, by cases hr; rfl⟩
        · have := hit.x; rw [hk] at this; simpa [Item.xKey] using this
        · have : f.xSk = some (E.C.xSk me) := hfu.2.2.1
          rw [hx] at this; cases this; exact hb
      | locked tme me xme pw ops mem =>
        have : f.xSk = none := hfu.2.2.1
        rw [hx] at this; cases this
      | cert tme sni crt priv =>
        have := hit.x; rw [hk] at this; simp [Item.xKey] at this
    · exact (notRefused ho h).elim

/-- C59. A new certificate is stored under its tag with the generated certificate and private key, and the response reports
    its name, its digest and the certificate. -/
theorem C59_new_cert_as_asked (hst : GoodStore E st) (evs : List Event) (d : Done E) (hd : d ∈ (Sys.run E st evs).done)
    (i t : String) (hm : d.msg = .req i (.newCert t)) (resp : Resp) (ho : d.outcome = .ok resp) :
    ∃ n sni priv cert, E.certGen n = ⟨sni, priv, cert⟩ ∧ AddedItem E st evs d (.cert t sni cert priv) ∧
      resp = .newCert t ⟨sni, E.C.blake2b32 cert, cert⟩ := by
  have h := done_spec hst hd
  rw [hm] at h
  rcases okSpec ho h with ⟨n, hdr, ⟨hl, hr, he, _⟩ | ⟨h, _⟩⟩
  · obtain ⟨h3, h4⟩ := created hst hd hl he
    rw [ho] at hr
    exact ⟨n, (E.certGen n).sni, (E.certGen n).priv, (E.certGen n).cert, rfl, ⟨_, h3, h4, .cert _ _ _ _ _ (SecretData.decrypt_encrypt E.C E.L _ _ _)⟩, by cases hr; rfl⟩
  · exact (notRefused ho h).elim

/-- C59. A derived seed is the descendant of the source's seed along the path, exportable exactly if the source is, and
    deep-locked exactly if asked. The source is an entry that is not deep-locked, used without passphrase, or one that the
    passphrase and limits given with it open. -/
theorem C59_derived_as_asked (hst : GoodStore E st) (evs : List Event) (d : Done E) (hd : d ∈ (Sys.run E st evs).done)
    (i src dst : String) (srcLock dstLock : Option DeepPass) (path : List UInt32)
    (hm : d.msg = .req i (.deriveSeed src srcLock dst dstLock path)) (resp : Resp) (ho : d.outcome = .ok resp) :
    ∃ s info item, ∃ e ∈ (Sys.run E st evs).entries, e.tag = src ∧
      ((srcLock = none ∧ e.info = .seed src info ∧ HoldsSeed E e s) ∨
        (∃ p, srcLock = some p ∧ e.info = .deep src info ∧ OpensDeep E d.conn p.pass p.ops p.mem e s)) ∧
      wanted E d.conn dst (Keystore.descendant E.C s path) dstLock info.exportable = some item ∧ AddedItem E st evs d item ∧
      resp = .deriveSeed ⟨E.C.edPk (Keystore.descendant E.C s path), E.C.xPk (Keystore.descendant E.C s path), info.exportable⟩ := by
  have h := done_spec hst hd
  rw [hm] at h
  rcases okSpec ho h with ⟨h, _⟩ | ⟨e, he, ht, ⟨h, _⟩ | ⟨s, info, hs, hc, _⟩⟩
  · exact (notRefused ho h).elim
  · exact (notRefused ho h).elim
  · have hentry : e ∈ (Sys.run E st evs).entries := by
      obtain ⟨more, hmore⟩ := done_tbl hst hd
      show e ∈ (Sys.run E st evs).sh.tbl
      rw [hmore]; exact List.mem_append_left _ he
    have hsrc : (srcLock = none ∧ e.info = .seed src info ∧ HoldsSeed E e s) ∨
        (∃ p, srcLock = some p ∧ e.info = .deep src info ∧ OpensDeep E d.conn p.pass p.ops p.mem e s) := by
      have hinfo : (∃ t enc, e = .seed t info enc) ∨ (∃ t salt o m enc, e = .deep t info salt o m enc) := by
        cases e with
        | seed t i enc =>
          cases srcLock with
          | some p => simp [deriveSource] at hs
          | none =>
            simp only [deriveSource] at hs
            split at hs
            · cases hs; exact Or.inl ⟨t, enc, rfl⟩
            · cases hs
        | deep t i salt o m enc =>
          cases srcLock with
          | none => simp [deriveSource] at hs
          | some p =>
            simp only [deriveSource] at hs
            split at hs
            · cases hs
            · split at hs
              · cases hs; exact Or.inr ⟨t, salt, o, m, enc, rfl⟩
              · cases hs
        | cert t i p => cases srcLock <;> simp [deriveSource] at hs
      rcases deriveSource_ok hs with ⟨h1, h2⟩ | ⟨p, h1, h2⟩
      · refine Or.inl ⟨h1, ?_, h2⟩
        rcases hinfo with ⟨t, enc, rfl⟩ | ⟨t, salt, o, m, enc, rfl⟩
        · cases ht; rfl
        · exact h2.elim
      · refine Or.inr ⟨p, h1, ?_, h2⟩
        rcases hinfo with ⟨t, enc, rfl⟩ | ⟨t, salt, o, m, enc, rfl⟩
        · exact h2.elim
        · cases ht; rfl
    rw [← derivePath_eq] at hc
    rcases hc with ⟨e', hn, hl, hr, he', _⟩ | ⟨h, _⟩
    · obtain ⟨item, h1, h2⟩ := wanted_repr hn
      obtain ⟨h3, h4⟩ := created hst hd hl he'
      rw [ho] at hr
      exact ⟨s, info, item, e, hentry, ht, hsrc, h1, ⟨e', h3, h4, h2⟩, by cases hr; rfl⟩
    · exact (notRefused ho h).elim

/-! ### Concrete cases -/

section Examples
open Ex

/-- The premises occur: in the run `busy` request 3 created a deep-locked seed and request 7 a certificate ... -/
example : (Sys.run (env true 2) MemStore.empty busy).entries.map Entry.info =
    [.deep "a" ⟨B.fill 32 2, B.fill 32 2, false⟩, .cert "b" ⟨"sni", Toy.crypto.blake2b32 [7, 3, 4], [7, 3, 4]⟩,
      .seed "c" ⟨B.fill 32 9, B.fill 32 9, true⟩] := by decide +kernel

/-- ... and here a seed is derived from a deep-locked one with the right passphrase and limits, and imported under another tag. -/
example : (outcomes true 2 (unlock 0 ++ serve 0 (.req "a" (.newSeed "a" (some (lockWith 0 deepPw)) true)) 2 ++
      serve 0 (.req "b" (.deriveSeed "a" (some (lockWith 0 deepPw)) "b" none [1])) 3 ++
      serve 0 (.req "c" (.newSeed "c" none true)) 5 ++ serve 0 (.req "d" (.exportSeed "b" (B.fill 32 5) (B.fill 32 5) none)) 6)).map short =
    ["unlocked", "new seed", "other", "new seed", "other"] := by decide +kernel

end Examples

end Lair
