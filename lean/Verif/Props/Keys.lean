import Verif.Props.Entries

/-
Properties of key usage: C13 (signatures), C14 (deep locking), C15 (fallback signer), C16 (export), C17 (import),
C18 (derivation), C20 (derivation from deep-locked seeds), C21 / C22 (boxes), C23 (certificates), C24 (created keys).
-/
namespace Lair

variable {E : Env} {st : E.S.σ}

/-! ### helper facts -/

/-- A full entry either is an ordinary seed with exactly its keys, or has no secrets. -/
theorem full_cases {s : Shared E} {f : Full} (hf : FullIn s f) :
    (∃ t i enc seed, f.entry = .seed t i enc ∧ f.seed = some seed ∧ f.edSk = some (E.C.edSk seed) ∧
      f.xSk = some (E.C.xSk seed) ∧ f.exportable = i.exportable ∧ E.C.edPk seed = i.ed ∧ E.C.xPk seed = i.x ∧
      enc.decrypt (m := 32) E.C E.bidi = some seed) ∨
    (f.seed = none ∧ f.edSk = none ∧ f.xSk = none ∧ f.exportable = false ∧ ¬ f.entry.IsSeed) := by
  obtain ⟨_, h⟩ := hf
  by_cases hn : ∃ t i enc, f.entry = .seed t i enc
  · obtain ⟨t, i, enc, he⟩ := hn
    rw [he] at h
    obtain ⟨seed, h1, h2, h3, h4⟩ := fullOf_seed h
    exact Or.inl ⟨t, i, enc, seed, he, by rw [h4], by rw [h4], by rw [h4], by rw [h4], h2, h3, h1⟩
  · have hne : ∀ t i enc, f.entry ≠ .seed t i enc := fun t i enc he => hn ⟨t, i, enc, he⟩
    have := fullOf_other h hne
    right
    refine ⟨by rw [this], by rw [this], by rw [this], by rw [this], ?_⟩
    intro hs
    cases he : f.entry with
    | seed t i enc => exact hne _ _ _ he
    | deep => rw [he] at hs; exact hs
    | cert => rw [he] at hs; exact hs

/-- An ordinary seed of the table, as looked up. -/
theorem full_of_seed {s : Shared E} (hi : Inv s) {f : Full} (hf : FullIn s f) {e : Entry} (he : e ∈ s.tbl)
    (hc : Clash f.entry e) {seed : B 32} (hs : HoldsSeed E e seed) :
    f.entry = e ∧ f.seed = some seed ∧ f.edSk = some (E.C.edSk seed) ∧ f.xSk = some (E.C.xSk seed) := by
  have : f.entry = e := hi.distinct.eq_of_clash hf.1 he hc
  refine ⟨this, ?_⟩
  rcases full_cases hf with ⟨t, i, enc, sd, h1, h2, h3, h4, _, _, _, h5⟩ | ⟨_, _, _, _, h⟩
  · rw [← this, h1] at hs
    have : sd = seed := by
      have hs' : enc.decrypt (m := 32) E.C E.bidi = some seed := hs
      rw [h5] at hs'; exact Option.some.inj hs'
    rw [this] at h2 h3 h4
    exact ⟨h2, h3, h4⟩
  · rw [this] at h
    cases e with
    | seed => exact absurd trivial h
    | deep => exact absurd hs (by simp [HoldsSeed])
    | cert => exact absurd hs (by simp [HoldsSeed])

/-- A served ordinary request did what its specification says. -/
theorem served_spec {evs : List Event} (hst : GoodStore E st) {d : Done E} (hd : d ∈ (Sys.run E st evs).done)
    (hs : Served (Sys.run E st evs) d) {i : String} {r : Req} (hm : d.msg = .req i r) (hr : NeedsUnlock r) :
    ReqSpec d.conn d.start d.stop d.log d.outcome r := by
  have h := done_spec hst hd
  rw [hm] at h
  rcases hspec_ordinary h hr with ⟨_, _, h3⟩ | ⟨_, h | h⟩
  · rw [hs.1] at h3; cases h3
  · have := hs.2; rw [← log_eq hd, h.1] at this; simp at this
  · exact h

/-- A successful ordinary request did what its specification says. -/
theorem success_spec {evs : List Event} (hst : GoodStore E st) {d : Done E} (hd : d ∈ (Sys.run E st evs).done)
    {i : String} {r : Req} (hm : d.msg = .req i r) (hr : NeedsUnlock r) {x : Resp} (ho : d.outcome = .ok x) :
    ReqSpec d.conn d.start d.stop d.log d.outcome r := by
  have h := done_spec hst hd
  rw [hm] at h
  rcases hspec_ordinary h hr with ⟨_, h2, _⟩ | ⟨_, ⟨_, y, h⟩ | h⟩
  · rw [ho] at h2; cases h2
  · rw [ho] at h; cases h
  · exact h

theorem not_refused {l : List Ev} {o : Res Resp} {x : Resp} (ho : o = .ok x) : ¬ Refused l o := by
  rintro ⟨_, y, h⟩; rw [ho] at h; cases h

/-- Entries present when a request finished are present in the end. -/
theorem stop_entries {evs : List Event} (hst : GoodStore E st) {d : Done E} (hd : d ∈ (Sys.run E st evs).done) {e : Entry}
    (he : e ∈ d.stop.tbl) : e ∈ (Sys.run E st evs).entries := by
  obtain ⟨more, hmore⟩ := done_tbl hst hd
  show e ∈ (Sys.run E st evs).sh.tbl
  rw [hmore]; exact List.mem_append_left _ he

/-- Entries present before a request arrived are present when it starts and when it finishes. -/
theorem start_entries {evs₁ evs₂ : List Event} (hst : GoodStore E st) {d : Done E}
    (hd : d ∈ (Sys.run E st (evs₁ ++ evs₂)).done) (hid : (Sys.run E st evs₁).inbox.length ≤ d.id) {e : Entry}
    (he : e ∈ (Sys.run E st evs₁).entries) : e ∈ d.start.tbl ∧ e ∈ d.stop.tbl := by
  obtain ⟨more, hmore⟩ := later_tbl hst evs₁ evs₂ hd hid
  have : e ∈ d.start.tbl := by rw [hmore]; exact List.mem_append_left _ he
  exact ⟨this, (done_inv hst hd).2.2.mem this⟩

/-- A deep entry opened by a passphrase through the code's functions is opened in the sense of the specification. -/
theorem opens_of_key {c : Nat} {pass : SecretSized 81} {ops mem : UInt32} {t : String} {i : SeedInfo} {salt : B 16}
    {o' m' : UInt32} {enc : SecretSized 49} {key seed : B 32} (h : deepKey E c pass ops mem salt = .ok key)
    (hd : enc.decrypt (m := 32) E.C key = some seed) : OpensDeep E c pass ops mem (.deep t i salt o' m' enc) seed := by
  unfold deepKey decPass at h
  split at h
  · cases h
  · rename_i p hp
    exact ⟨p, key, hp, Res.ofOption_eq_ok.1 h, hd⟩

theorem key_of_opens {c : Nat} {pass : SecretSized 81} {ops mem : UInt32} {t : String} {i : SeedInfo} {salt : B 16}
    {o' m' : UInt32} {enc : SecretSized 49} {seed : B 32} (h : OpensDeep E c pass ops mem (.deep t i salt o' m' enc) seed) :
    ∃ key, deepKey E c pass ops mem salt = .ok key ∧ enc.decrypt (m := 32) E.C key = some seed := by
  obtain ⟨p, key, h1, h2, h3⟩ := h
  exact ⟨key, by simp [deepKey, decPass, h1, h2], h3⟩

/-- What a successful derivation source is. -/
theorem deriveSource_ok {c : Nat} {e : Entry} {sd : Option DeepPass} {seed : B 32} {info : SeedInfo}
    (h : deriveSource E c e sd = .ok (seed, info)) :
    (sd = none ∧ HoldsSeed E e seed) ∨ (∃ d, sd = some d ∧ OpensDeep E c d.pass d.ops d.mem e seed) := by
  unfold deriveSource at h
  split at h
  · split at h
    · rename_i hs; cases h; exact Or.inl ⟨rfl, hs⟩
    · cases h
  · split at h
    · cases h
    · rename_i key hk
      split at h
      · rename_i hs; cases h; exact Or.inr ⟨_, rfl, opens_of_key hk hs⟩
      · cases h
  · cases h
  · cases h
  · cases h

/-- A deep-locked seed opens to the seed its public keys come from, or not at all, unless its cipher opens to two plaintexts. -/
theorem opens_unique {c : Nat} {pass : SecretSized 81} {ops mem : UInt32} {e : Entry} {seed : B 32}
    (hC : ∀ t i salt o m (enc : SecretSized 49), e = .deep t i salt o m enc → ¬ E.C.OpensTwice enc.hdr enc.cipher.val)
    (hwf : WF E e) (h : OpensDeep E c pass ops mem e seed) :
    e.edKey = some (E.C.edPk seed) ∧ e.xKey = some (E.C.xPk seed) := by
  cases e with
  | seed => exact absurd h (by simp [OpensDeep])
  | cert => exact absurd h (by simp [OpensDeep])
  | deep t i salt o m enc =>
    obtain ⟨p, key, s, _, h2, h3, h4⟩ := hwf
    obtain ⟨p', key', _, _, h5⟩ := h
    have : s = seed := by
      unfold SecretSized.decrypt at h2 h5
      split at h2
      · rename_i b hb
        split at h5
        · rename_i b' hb'
          rw [B.ofBytes?_eq_some] at h2 h5
          refine B.ext (by rw [← h2, ← h5]; exact Classical.byContradiction fun hne => hC _ _ _ _ _ _ rfl ⟨_, _, _, _, hb, hb', hne⟩)
        · cases h5
      · cases h2
    subst this
    exact ⟨by simp [Entry.edKey, h3], by simp [Entry.xKey, h4]⟩

theorem wf_keys {e : Entry} (hwf : WF E e) {seed : B 32} (h : HoldsSeed E e seed) :
    e.edKey = some (E.C.edPk seed) ∧ e.xKey = some (E.C.xPk seed) := by
  cases e with
  | deep => exact absurd h (by simp [HoldsSeed])
  | cert => exact absurd h (by simp [HoldsSeed])
  | seed t i enc =>
    obtain ⟨s, h1, h2, h3⟩ := hwf
    have h' : enc.decrypt (m := 32) E.C E.bidi = some seed := h
    rw [h1] at h'; cases h'
    exact ⟨by simp [Entry.edKey, h2], by simp [Entry.xKey, h3]⟩

/-! ### C13 -/

/-- C13, with the facts it rests on: the signature is by the secret key of a seed the keystore holds for that public key,
    opened by the passphrase in the request if it is deep-locked. -/
theorem sign_cases (hst : GoodStore E st) {evs : List Event} {d : Done E} (hd : d ∈ (Sys.run E st evs).done) {i : String}
    {pk : B 32} {deep : Option (SecretSized 81)} {data : Bytes} (hm : d.msg = .req i (.sign pk deep data)) {sig : B 64}
    (ho : d.outcome = .ok (.sign sig)) (hfb : ∀ a b x, Ev.fell a b x ∉ (Sys.run E st evs).effects d.id) :
    ∃ e ∈ (Sys.run E st evs).entries, e.edKey = some pk ∧ ∃ seed, sig = E.C.sign (E.C.edSk seed) data ∧
      (HoldsSeed E e seed ∨ ∃ pass ops mem, deep = some pass ∧ e.limits? = some (ops, mem) ∧
        OpensDeep E d.conn pass ops mem e seed) := by
  have hs := success_spec hst hd hm ⟨by simp, by simp⟩ ho
  rcases hs with ⟨_, f, hf, hk, h2⟩ | ⟨_, h, _⟩ | ⟨_, a, h1, _⟩ | ⟨_, a, h1, _⟩
  · refine ⟨f.entry, stop_entries hst hd hf.1, hk, ?_⟩
    rw [ho] at h2
    cases hsk : signKey E d.conn f deep with
    | error x => rw [hsk] at h2; simp [Except.map] at h2
    | ok sk =>
      rw [hsk] at h2
      simp only [Except.map, Except.ok.injEq, Resp.sign.injEq] at h2
      unfold signKey at hsk
      split at hsk
      · rename_i sk' h1 h3
        cases hsk
        rcases full_cases hf with ⟨t, i', enc, seed, a1, a2, a3, a4, a5, a6, a7, a8⟩ | ⟨_, a3, _⟩
        · rw [a3] at h3; cases h3
          exact ⟨seed, h2, Or.inl (by rw [a1]; exact a8)⟩
        · rw [a3] at h3; cases h3
      · rename_i t' i' salt ops mem enc pass h1
        split at hsk
        · cases hsk
        · rename_i key hkey
          split at hsk
          · rename_i s hs
            cases hsk
            refine ⟨s, h2, Or.inr ⟨pass, ops, mem, rfl, ?_, ?_⟩⟩
            · rw [h1]; rfl
            · rw [h1]; exact opens_of_key hkey hs
          · cases hsk
      · cases hsk
  · exact absurd h (not_refused ho)
  · exact absurd (by rw [← log_eq hd, h1]; simp) (hfb pk data a)
  · exact absurd (by rw [← log_eq hd, h1]; simp) (hfb pk data a)

/-- C13. A signature returned for a public key, when the external signer was not consulted, verifies for that public key
    and exactly the submitted data. For deep-locked seeds this needs that the stored cipher of that very seed does not open to
    two different seeds under two keys: the code does not check that the seed a passphrase opens is the one with the
    requested public key. (For ordinary seeds the hypothesis says nothing.) -/
theorem C13_signature_verifies (hst : GoodStore E st) (evs : List Event) (d : Done E)
    (hd : d ∈ (Sys.run E st evs).done) (i : String) (pk : B 32) (deep : Option (SecretSized 81)) (data : Bytes)
    (hm : d.msg = .req i (.sign pk deep data)) (sig : B 64) (ho : d.outcome = .ok (.sign sig))
    (hfb : ∀ a b x, Ev.fell a b x ∉ (Sys.run E st evs).effects d.id)
    (hC : ∀ t info salt ops mem (enc : SecretSized 49), Entry.deep t info salt ops mem enc ∈ (Sys.run E st evs).entries → info.ed = pk →
      ¬ E.C.OpensTwice enc.hdr enc.cipher.val) :
    E.C.verify pk data sig = true := by
  obtain ⟨e, he, hk, seed, rfl, h⟩ := sign_cases hst hd hm ho hfb
  have hi := (sysInv_run hst evs).inv
  have hwf := hi.wf e he
  rcases h with h | ⟨pass, ops, mem, _, _, h⟩
  · have := (wf_keys hwf h).1
    rw [hk] at this; cases this
    exact E.L.verify_sign _ _
  · have hcm : ∀ t i salt o m (enc : SecretSized 49), e = .deep t i salt o m enc → ¬ E.C.OpensTwice enc.hdr enc.cipher.val := by
      rintro t i salt o m enc rfl
      exact hC _ _ _ _ _ _ he (by simpa [Entry.edKey] using hk)
    have := (opens_unique hcm hwf h).1
    rw [hk] at this; cases this
    exact E.L.verify_sign _ _

/-- C13. The signer used is a function of the key held: it does not depend on caches, connections or other requests. Two
    successful signatures (no external signer) of the same data for the same ordinary key are equal. -/
theorem C13_signatures_deterministic (hst : GoodStore E st) (evs : List Event) (d₁ d₂ : Done E)
    (h₁ : d₁ ∈ (Sys.run E st evs).done) (h₂ : d₂ ∈ (Sys.run E st evs).done) (i₁ i₂ : String) (pk : B 32)
    (p₁ p₂ : Option (SecretSized 81)) (data : Bytes) (hm₁ : d₁.msg = .req i₁ (.sign pk p₁ data))
    (hm₂ : d₂.msg = .req i₂ (.sign pk p₂ data)) (s₁ s₂ : B 64) (ho₁ : d₁.outcome = .ok (.sign s₁))
    (ho₂ : d₂.outcome = .ok (.sign s₂)) (hf₁ : ∀ a b x, Ev.fell a b x ∉ (Sys.run E st evs).effects d₁.id)
    (hf₂ : ∀ a b x, Ev.fell a b x ∉ (Sys.run E st evs).effects d₂.id)
    (hord : ∃ e ∈ (Sys.run E st evs).entries, e.edKey = some pk ∧ e.IsSeed) : s₁ = s₂ := by
  obtain ⟨e, he, hk, hs⟩ := hord
  have hd := (sysInv_run hst evs).inv.distinct
  have key : ∀ (d : Done E) (i : String) (p : Option (SecretSized 81)) (s : B 64), d ∈ (Sys.run E st evs).done →
      d.msg = .req i (.sign pk p data) → d.outcome = .ok (.sign s) →
      (∀ a b x, Ev.fell a b x ∉ (Sys.run E st evs).effects d.id) →
      ∃ seed, HoldsSeed E e seed ∧ s = E.C.sign (E.C.edSk seed) data := by
    intro d i p s hdd hm ho hf
    obtain ⟨e', he', hk', seed, hsig, h⟩ := sign_cases hst hdd hm ho hf
    have : e' = e := hd.eq_of_clash he' he (Or.inr (Or.inl ⟨pk, hk', hk⟩))
    subst this
    rcases h with h | ⟨pass, ops, mem, _, _, h⟩
    · exact ⟨seed, h, hsig⟩
    · cases e' with
      | seed => exact absurd h (by simp [OpensDeep])
      | deep => exact absurd hs (by simp [Entry.IsSeed])
      | cert => exact absurd hs (by simp [Entry.IsSeed])
  obtain ⟨a, ha, rfl⟩ := key d₁ i₁ p₁ s₁ h₁ hm₁ ho₁ hf₁
  obtain ⟨b, hb, rfl⟩ := key d₂ i₂ p₂ s₂ h₂ hm₂ ho₂ hf₂
  cases e with
  | seed t i enc =>
    have ha' : enc.decrypt (m := 32) E.C E.bidi = some a := ha
    have hb' : enc.decrypt (m := 32) E.C E.bidi = some b := hb
    rw [ha'] at hb'; cases hb'; rfl
  | deep => exact absurd hs (by simp [Entry.IsSeed])
  | cert => exact absurd hs (by simp [Entry.IsSeed])

/-! ### C14 -/

/-- C14. Signing with a deep-locked seed without consulting the external signer needs, in the request, a passphrase that
    opens it under the entry's own salt and limits. -/
theorem C14_deep_sign_needs_passphrase (hst : GoodStore E st) (evs : List Event) (d : Done E)
    (hd : d ∈ (Sys.run E st evs).done) (i : String) (pk : B 32) (deep : Option (SecretSized 81)) (data : Bytes)
    (hm : d.msg = .req i (.sign pk deep data)) (sig : B 64) (ho : d.outcome = .ok (.sign sig))
    (hfb : ∀ a b x, Ev.fell a b x ∉ (Sys.run E st evs).effects d.id)
    (e : Entry) (he : e ∈ (Sys.run E st evs).entries) (hk : e.edKey = some pk) (hdeep : e.IsDeep) :
    ∃ pass ops mem seed, deep = some pass ∧ e.limits? = some (ops, mem) ∧ OpensDeep E d.conn pass ops mem e seed ∧
      sig = E.C.sign (E.C.edSk seed) data := by
  obtain ⟨e', he', hk', seed, hsig, h⟩ := sign_cases hst hd hm ho hfb
  have : e' = e := (sysInv_run hst evs).inv.distinct.eq_of_clash he' he (Or.inr (Or.inl ⟨pk, hk', hk⟩))
  subst this
  rcases h with h | ⟨pass, ops, mem, h1, h2, h3⟩
  · cases e' with
    | deep => exact absurd h (by simp [HoldsSeed])
    | seed => exact absurd hdeep (by simp [Entry.IsDeep])
    | cert => exact absurd hdeep (by simp [Entry.IsDeep])
  · exact ⟨pass, ops, mem, seed, h1, h2, h3, hsig⟩

/-- C14. Deriving from a deep-locked seed needs, in the request, a passphrase that opens it (under the entry's salt and
    the limits in the request). -/
theorem C14_deep_derive_needs_passphrase (hst : GoodStore E st) (evs : List Event) (d : Done E)
    (hd : d ∈ (Sys.run E st evs).done) (i src dst : String) (sd dd : Option DeepPass) (path : List UInt32)
    (hm : d.msg = .req i (.deriveSeed src sd dst dd path)) (resp : Resp) (ho : d.outcome = .ok resp)
    (e : Entry) (he : e ∈ (Sys.run E st evs).entries) (ht : e.tag = src) (hdeep : e.IsDeep) :
    ∃ p seed, sd = some p ∧ OpensDeep E d.conn p.pass p.ops p.mem e seed := by
  have hs := success_spec hst hd hm ⟨by simp, by simp⟩ ho
  rcases hs with ⟨h, _⟩ | ⟨e', he', ht', ⟨h, _⟩ | ⟨seed, info, hsrc, _, _⟩⟩
  · exact absurd h (not_refused ho)
  · exact absurd h (not_refused ho)
  · have : e' = e := (sysInv_run hst evs).inv.distinct.eq_of_clash (stop_entries hst hd he') he (Or.inl (by rw [ht', ht]))
    subst this
    rcases deriveSource_ok hsrc with ⟨_, h⟩ | ⟨p, h1, h2⟩
    · cases e' with
      | deep => exact absurd h (by simp [HoldsSeed])
      | seed => exact absurd hdeep (by simp [Entry.IsDeep])
      | cert => exact absurd hdeep (by simp [Entry.IsDeep])
    · exact ⟨p, seed, h1, h2⟩

/-- C14. All other operations with a deep-locked seed (boxes, secret boxes, export of it or by it, import with it) fail
    and have no effect, whatever they carry. -/
theorem C14_deep_seed_refused_elsewhere (hst : GoodStore E st) (evs : List Event) (d : Done E)
    (hd : d ∈ (Sys.run E st evs).done) (i : String) (r : Req) (hm : d.msg = .req i r)
    (e : Entry) (he : e ∈ (Sys.run E st evs).entries) (hdeep : e.IsDeep) (hu : UsesSecretOf r e) :
    (∃ x, d.outcome = .error x) ∧ (Sys.run E st evs).added d.id = [] := by
  have herr : ∃ x, d.outcome = .error x := by
    cases ho : d.outcome with
    | error x => exact ⟨x, rfl⟩
    | ok resp =>
      exfalso
      have hdist := (sysInv_run hst evs).inv.distinct
      -- a full entry clashing with `e` is that of `e` and has no secrets
      have hfull : ∀ f, FullIn d.stop f → Clash f.entry e → f.seed = none ∧ f.edSk = none ∧ f.xSk = none := by
        intro f hf hc
        have hfe : f.entry = e := hdist.eq_of_clash (stop_entries hst hd hf.1) he hc
        rcases full_cases hf with ⟨t, i, enc, s, h, _⟩ | ⟨h1, h2, h3, _⟩
        · rw [← hfe, h] at hdeep; exact absurd hdeep (by simp [Entry.IsDeep])
        · exact ⟨h1, h2, h3⟩
      have hr : NeedsUnlock r := by cases r <;> simp_all [UsesSecretOf, NeedsUnlock]
      have hs := success_spec hst hd hm hr ho
      cases r with
      | exportSeed t a b dp =>
        rcases hs with ⟨h, _⟩ | ⟨_, sf, ef, n, h1, h2, h3, h4, h5⟩
        · exact not_refused ho h
        · rw [ho] at h5
          unfold exportOut at h5
          rcases hu with hu | hu
          · have := (hfull sf h1 (Or.inl (by rw [h2, hu]))).1
            rw [this] at h5; split at h5 <;> simp_all
          · have := (hfull ef h3 (Or.inr (Or.inr ⟨a, h4, hu⟩))).2.2
            rw [this] at h5; simp at h5
      | importSeed a b dp n ci t x =>
        rcases hs with ⟨h, _⟩ | ⟨f, h1, h2, ⟨h, _⟩ | ⟨xSk, seed, h3, _⟩⟩
        · exact not_refused ho h
        · exact not_refused ho h
        · rw [(hfull f h1 (Or.inr (Or.inr ⟨b, h2, hu⟩))).2.2] at h3; cases h3
      | boxEnc a b dp data =>
        rcases hs with ⟨h, _⟩ | ⟨_, f, n, h1, h2, h3⟩
        · exact not_refused ho h
        · rw [(hfull f h1 (Or.inr (Or.inr ⟨a, h2, hu⟩))).2.2, ho] at h3; simp at h3
      | boxDec a b dp n ci =>
        rcases hs with ⟨h, _⟩ | ⟨_, f, h1, h2, h3⟩
        · exact not_refused ho h
        · rw [(hfull f h1 (Or.inr (Or.inr ⟨b, h2, hu⟩))).2.2, ho] at h3; split at h3 <;> simp at h3
      | boxEncEd a b dp data =>
        rcases hs with ⟨h, _⟩ | ⟨_, f, n, h1, h2, h3⟩
        · exact not_refused ho h
        · rw [(hfull f h1 (Or.inr (Or.inl ⟨a, h2, hu⟩))).2.1, ho] at h3; simp at h3
      | boxDecEd a b dp n ci =>
        rcases hs with ⟨h, _⟩ | ⟨_, f, h1, h2, h3⟩
        · exact not_refused ho h
        · rw [(hfull f h1 (Or.inr (Or.inl ⟨b, h2, hu⟩))).2.1, ho] at h3; split at h3 <;> simp at h3
      | sboxEnc t dp data =>
        rcases hs with ⟨h, _⟩ | ⟨_, f, n, h1, h2, h3⟩
        · exact not_refused ho h
        · rw [(hfull f h1 (Or.inl (by rw [h2, hu]))).1, ho] at h3; simp at h3
      | sboxDec t dp n ci =>
        rcases hs with ⟨h, _⟩ | ⟨_, f, h1, h2, h3⟩
        · exact not_refused ho h
        · rw [(hfull f h1 (Or.inl (by rw [h2, hu]))).1, ho] at h3; split at h3 <;> simp at h3
      | _ => exact hu
  exact ⟨herr, C07_failure_adds_nothing hst evs d hd (Or.inl herr)⟩

/-- C14. Nothing in memory helps: no cache ever holds a secret of a deep-locked seed. -/
theorem C14_deep_secrets_never_cached (hst : GoodStore E st) (evs : List Event) (f : Full)
    (hf : (∃ t, (t, f) ∈ (Sys.run E st evs).sh.cTag) ∨ (∃ k, (k, f) ∈ (Sys.run E st evs).sh.cEd) ∨
      (∃ k, (k, f) ∈ (Sys.run E st evs).sh.cX)) (hd : f.entry.IsDeep) :
    f.seed = none ∧ f.edSk = none ∧ f.xSk = none := by
  have hi := (sysInv_run hst evs).inv
  have : FullIn (Sys.run E st evs).sh f := by
    rcases hf with ⟨t, h⟩ | ⟨t, h⟩ | ⟨t, h⟩
    · exact (hi.cTag _ h).1
    · exact (hi.cEd _ h).1
    · exact (hi.cX _ h).1
  rcases full_cases this with ⟨t, i, enc, s, h, _⟩ | ⟨h1, h2, h3, _⟩
  · rw [h] at hd; exact absurd hd (by simp [Entry.IsDeep])
  · exact ⟨h1, h2, h3⟩

/-! ### C15 -/

/-- C15. The external signer is consulted only by sign requests, with the key and data of the request, at most once, and
    only if one is configured. -/
theorem C15_fallback_only_for_sign_requests (hst : GoodStore E st) (evs : List Event) (d : Done E)
    (hd : d ∈ (Sys.run E st evs).done) (pk : B 32) (data : Bytes) (ans : Res (B 64))
    (hf : Ev.fell pk data ans ∈ (Sys.run E st evs).effects d.id) :
    E.hasFallback = true ∧ (∃ i deep, d.msg = .req i (.sign pk deep data)) ∧ d.outcome = ans.map Resp.sign ∧
      ((Sys.run E st evs).effects d.id).filter (fun ev => match ev with
        | .fell .. => true
        | _ => false) = [.fell pk data ans] := by
  have hs := done_spec hst hd
  rw [← log_eq hd] at hf ⊢
  cases hm : d.msg with
  | res i r => rw [hm] at hs; rw [hs.1] at hf; simp at hf
  | req i r =>
    rw [hm] at hs
    have hno : ∀ e, d.log = [.wrote e] → False := by intro e h; rw [h] at hf; simp at hf
    have hnil : d.log = [] → False := by intro h; rw [h] at hf; simp at hf
    have hflt : d.log = [.fault] → False := by intro h; rw [h] at hf; simp at hf
    have hcr : ∀ {seed t dp x mk sr}, CreateSpec d.conn d.start d.stop d.log d.outcome seed t dp x mk sr → False := by
      intro seed t dp x mk sr h
      rcases h with ⟨e, _, h, _⟩ | ⟨⟨h, _⟩, _⟩
      · exact hno e h
      · exact hnil h
    cases r with
    | hello => exact (hnil hs.1).elim
    | unlock p =>
      rcases hs with ⟨h, _⟩ | ⟨⟨h, _⟩, _⟩ | ⟨h, _⟩
      · rw [h] at hf; simp at hf
      · exact (hnil h).elim
      · exact (hflt h).elim
    | sign pk' dp data' =>
      rcases hs with ⟨h, _⟩ | ⟨_, ⟨h, _⟩ | ⟨h, _⟩ | ⟨_, ⟨h, _⟩, _⟩ | ⟨hfb, a, h1, h2, _⟩ | ⟨hfb, a, h1, h2⟩⟩
      · exact (hnil h).elim
      · exact (hflt h).elim
      · exact (hnil h).elim
      · exact (hnil h).elim
      · rw [h1] at hf ⊢
        simp at hf
        obtain ⟨rfl, rfl, rfl⟩ := hf
        exact ⟨hfb, ⟨i, dp, rfl⟩, h2, by simp⟩
      · rw [h1] at hf ⊢
        simp at hf
        obtain ⟨rfl, rfl, rfl⟩ := hf
        exact ⟨hfb, ⟨i, dp, rfl⟩, h2, by simp⟩
    | newSeed t dp x =>
      rcases hs with ⟨h, _⟩ | ⟨_, ⟨h, _⟩ | ⟨⟨h, _⟩, _⟩ | ⟨seed, h⟩⟩
      · exact (hnil h).elim
      · exact (hflt h).elim
      · exact (hnil h).elim
      · exact (hcr h).elim
    | importSeed a b dp n ci t x =>
      rcases hs with ⟨h, _⟩ | ⟨_, ⟨h, _⟩ | ⟨⟨h, _⟩, _⟩ | ⟨f, _, _, ⟨⟨h, _⟩, _⟩ | ⟨xSk, seed, _, _, _, h⟩⟩⟩
      · exact (hnil h).elim
      · exact (hflt h).elim
      · exact (hnil h).elim
      · exact (hnil h).elim
      · exact (hcr h).elim
    | deriveSeed a sd b dd path =>
      rcases hs with ⟨h, _⟩ | ⟨_, ⟨h, _⟩ | ⟨⟨h, _⟩, _⟩ | ⟨e, _, _, ⟨⟨h, _⟩, _⟩ | ⟨seed, info, _, h, _⟩⟩⟩
      · exact (hnil h).elim
      · exact (hflt h).elim
      · exact (hnil h).elim
      · exact (hnil h).elim
      · exact (hcr h).elim
    | newCert t =>
      rcases hs with ⟨h, _⟩ | ⟨_, ⟨h, _⟩ | ⟨n, hdr, ⟨h, _⟩ | ⟨⟨h, _⟩, _⟩⟩⟩
      · exact (hnil h).elim
      · exact (hflt h).elim
      · exact (hno _ h).elim
      · exact (hnil h).elim
    | listEntries =>
      rcases hs with ⟨h, _⟩ | ⟨_, ⟨h, _⟩ | ⟨h, _⟩⟩
      · exact (hnil h).elim
      · exact (hflt h).elim
      · exact (hnil h).elim
    | _ =>
      rcases hs with ⟨h, _⟩ | ⟨_, ⟨h, _⟩ | ⟨⟨h, _⟩, _⟩ | ⟨h, _⟩⟩
      · exact (hnil h).elim
      · exact (hflt h).elim
      · exact (hnil h).elim
      · exact (hnil h).elim

/-- C15 (partial). A sign request for a key the keystore held when the request arrived is never forwarded to the external
    signer - provided no store or memory failure hit it. Missing: exactly those failures, see
    `C15_failure_forwards_held_key`. -/
theorem C15_held_key_never_forwarded_partial (hst : GoodStore E st) (evs : List Event) (d : Done E)
    (hd : d ∈ (Sys.run E st evs).done) (i : String) (pk : B 32) (deep : Option (SecretSized 81)) (data : Bytes)
    (hm : d.msg = .req i (.sign pk deep data)) (hf : Ev.fault ∉ (Sys.run E st evs).effects d.id)
    (e : Entry) (he : e ∈ E.S.tbl d.start.store) (hk : e.edKey = some pk) :
    (Sys.run E st evs).effects d.id = [] := by
  have hs := done_spec hst hd
  rw [hm] at hs
  rw [← log_eq hd] at hf ⊢
  rcases hs with ⟨h, _⟩ | ⟨_, ⟨h, _⟩ | ⟨h, _⟩ | ⟨_, ⟨h, _⟩, _⟩ | ⟨_, a, h1, h2, h3⟩ | ⟨_, a, h1, h2⟩⟩
  · exact h
  · rw [h] at hf; simp at hf
  · exact h
  · exact h
  · exact absurd hk (h3 e he)
  · rw [h1] at hf; simp at hf

/-- C15. A sign request for a key the keystore does not hold (at any time until it is answered) is forwarded to the
    external signer if one is configured, and its answer is the outcome; otherwise the outcome is an error. -/
theorem C15_unheld_key_forwarded (hst : GoodStore E st) (evs : List Event) (d : Done E)
    (hd : d ∈ (Sys.run E st evs).done) (i : String) (pk : B 32) (deep : Option (SecretSized 81)) (data : Bytes)
    (hm : d.msg = .req i (.sign pk deep data)) (hs : Served (Sys.run E st evs) d)
    (hno : ∀ e ∈ E.S.tbl d.stop.store, e.edKey ≠ some pk) :
    (E.hasFallback = true → ∃ ans, (Sys.run E st evs).effects d.id = [.fell pk data ans] ∧ d.outcome = ans.map Resp.sign) ∧
    (E.hasFallback = false → (∃ x, d.outcome = .error x) ∧ (Sys.run E st evs).effects d.id = []) := by
  have h := served_spec hst hd hs hm ⟨by simp, by simp⟩
  have hf := hs.2
  rw [← log_eq hd] at hf ⊢
  rcases h with ⟨_, f, h1, h2, _⟩ | ⟨hb, ⟨h1, h2⟩, _⟩ | ⟨hb, a, h1, h2, _⟩ | ⟨_, a, h1, _⟩
  · exact absurd h2 (hno f.entry h1.1)
  · exact ⟨fun h => (Bool.false_ne_true (hb.symm.trans h)).elim, fun _ => ⟨h2, h1⟩⟩
  · exact ⟨fun _ => ⟨a, h1, h2⟩, fun h => (Bool.false_ne_true (h.symm.trans hb)).elim⟩
  · rw [h1] at hf; simp at hf

/-- C15. Without a configured external signer none is consulted. -/
theorem C15_no_fallback_configured (hst : GoodStore E st) (evs : List Event) (hb : E.hasFallback = false) (k : Nat)
    (pk : B 32) (data : Bytes) (ans : Res (B 64)) : (k, Ev.fell pk data ans) ∉ (Sys.run E st evs).hist := by
  -- even for requests still in flight or abandoned
  have : ∀ (evs : List Event) (s : Sys E), SysInv st s → (∀ k pk data ans, (k, Ev.fell pk data ans) ∉ s.hist) →
      ∀ k pk data ans, (k, Ev.fell pk data ans) ∉ (evs.foldl Sys.step s).hist := by
    intro evs
    induction evs with
    | nil => exact fun s _ h => h
    | cons ev evs ih =>
      intro s hi h
      refine ih _ (sysInv_step hi ev) ?_
      cases ev with
      | recv c m => exact h
      | restart => exact h
      | step i ch =>
        cases hti : s.threads[i]? with
        | none => rw [step_none s i ch hti]; exact h
        | some t =>
          cases hp : t.prog with
          | ret r => rw [step_ret s i ch t r hti hp]; exact h
          | fail r => rw [step_fail s i ch t r hti hp]; exact h
          | step a kk =>
            rw [step_act s i ch t a kk hti hp]
            have hok := thread_act hi (List.mem_of_getElem? hti) hp
            intro k pk data ans hmem
            rcases List.mem_append.1 hmem with hmem | hmem
            · exact h k pk data ans hmem
            · obtain ⟨ev, hev, heq⟩ := List.mem_map.1 hmem
              have hev' : Ev.fell pk data ans ∈ (exec t.conn ch s.sh a).2.2 := by
                have := (Prod.mk.inj heq).2; rw [← this]; exact hev
              cases a with
              | fallback p x => rw [hok.2] at hb; cases hb
              | write e =>
                simp only [exec] at hev'
                split at hev'
                · simp at hev'
                · split at hev' <;> simp at hev'
              | storeTag t => simp only [exec] at hev'; split at hev' <;> simp at hev'
              | storeEd t => simp only [exec] at hev'; split at hev' <;> simp at hev'
              | storeX t => simp only [exec] at hev'; split at hev' <;> simp at hev'
              | list => simp only [exec] at hev'; split at hev' <;> simp at hev'
              | alloc => simp only [exec] at hev'; split at hev' <;> simp at hev'
              | _ => simp [exec] at hev'
  exact this evs _ (sysInv_init hst) (by simp [Sys.init]) k pk data ans

/-- C15, the negative part: when reading the store fails (disk error, no memory), a sign request for a key the keystore
    holds IS forwarded, and the external signer's answer is returned as the signature. -/
theorem C15_failure_forwards_held_key :
    ∃ (E : Env) (st : E.S.σ) (_ : GoodStore E st) (evs : List Event), ∃ d ∈ (Sys.run E st evs).done,
      ∃ i pk data ans, d.msg = .req i (.sign pk none data) ∧ (∃ e ∈ E.S.tbl d.start.store, e.edKey = some pk) ∧
        Ev.fell pk data ans ∈ (Sys.run E st evs).effects d.id ∧ ∃ sig, d.wire = [.sign sig] ∧
        E.C.verify pk data sig = false := by
  let evs := Ex.unlock 0 ++ Ex.serve 0 (.req "a" (.newSeed "alice" none true)) 11 ++
    (.recv 0 (.req "s" (.sign (B.fill 32 11) none [1])) :: List.replicate 12 (.step 0 Ex.faulty))
  have hrun : (((Sys.run (Ex.env true 2) MemStore.empty evs).done[2]?).map (fun d =>
      (d.msg, (Ex.mem.tbl d.start.store).map Entry.edKey, (Sys.run (Ex.env true 2) MemStore.empty evs).effects d.id, d.wire))) =
    some (.req "s" (.sign (B.fill 32 11) none [1]), [some (B.fill 32 11)],
      [.fault, .fell (B.fill 32 11) [1] (.ok (B.fill 64 0xFA))], [.sign (B.fill 64 0xFA)]) := by decide +kernel
  cases hd : (Sys.run (Ex.env true 2) MemStore.empty evs).done[2]? with
  | none => rw [hd] at hrun; simp at hrun
  | some d =>
    rw [hd] at hrun
    simp only [Option.map_some, Option.some.injEq, Prod.mk.injEq] at hrun
    obtain ⟨h1, h2, h3, h4⟩ := hrun
    refine ⟨Ex.env true 2, MemStore.empty, goodStore_empty _, evs, d, List.mem_of_getElem? hd, "s", B.fill 32 11, [1],
      .ok (B.fill 64 0xFA), h1, ?_, ?_, _, h4, by decide +kernel⟩
    · have : some (B.fill 32 11) ∈ (Ex.mem.tbl d.start.store).map Entry.edKey := by rw [h2]; simp
      obtain ⟨e, he, hk⟩ := List.mem_map.1 this
      exact ⟨e, he, hk⟩
    · rw [h3]; simp

/-! ### C16 -/

/-- C16. A successful export is of an ordinary seed that was created as exportable, and what is returned is that seed
    boxed from the named sender key (which the keystore holds) to the named recipient. -/
theorem C16_only_exportable_exported (hst : GoodStore E st) (evs : List Event) (d : Done E)
    (hd : d ∈ (Sys.run E st evs).done) (i t : String) (sender recipient : B 32) (dp : Option (SecretSized 81))
    (hm : d.msg = .req i (.exportSeed t sender recipient dp)) (resp : Resp) (ho : d.outcome = .ok resp) :
    ∃ e ∈ (Sys.run E st evs).entries, ∃ e' ∈ (Sys.run E st evs).entries, ∃ seed seed' nonce cipher,
      e.tag = t ∧ HoldsSeed E e seed ∧ e.exportable? = some true ∧
      e'.xKey = some sender ∧ HoldsSeed E e' seed' ∧ E.C.xPk seed' = sender ∧
      resp = .exportSeed nonce cipher ∧ E.C.box nonce seed.val recipient (E.C.xSk seed') = some cipher := by
  have hs := success_spec hst hd hm ⟨by simp, by simp⟩ ho
  rcases hs with ⟨h, _⟩ | ⟨_, sf, ef, n, h1, h2, h3, h4, h5⟩
  · exact absurd h (not_refused ho)
  · rw [ho] at h5
    unfold exportOut at h5
    rcases full_cases h1 with ⟨t1, i1, enc1, s1, a1, a2, a3, a4, a5, a6, a7, a8⟩ | ⟨a2, _⟩
    · rcases full_cases h3 with ⟨t2, i2, enc2, s2, b1, b2, b3, b4, b5, b6, b7, b8⟩ | ⟨_, _, b4, _⟩
      · rw [b4, a2] at h5
        simp only at h5
        split at h5
        · cases h5
        · rename_i hx
          split at h5
          · rename_i ci hci
            cases h5
            refine ⟨sf.entry, stop_entries hst hd h1.1, ef.entry, stop_entries hst hd h3.1, s1, s2, n, ci, h2, ?_, ?_, h4, ?_, ?_, rfl, hci⟩
            · rw [a1]; exact a8
            · rw [a1]; simp only [Entry.exportable?]; rw [← a5]; simpa using hx
            · rw [b1]; exact b8
            · rw [b1] at h4; simp [Entry.xKey] at h4; rw [b7, h4]
          · cases h5
      · rw [b4] at h5; simp at h5
    · rw [a2] at h5; split at h5 <;> simp_all

/-- C16. A seed not created as exportable is never exported, whoever asks, however often, deep-locked or not. -/
theorem C16_non_exportable_refused (hst : GoodStore E st) (evs : List Event) (d : Done E)
    (hd : d ∈ (Sys.run E st evs).done) (i t : String) (sender recipient : B 32) (dp : Option (SecretSized 81))
    (hm : d.msg = .req i (.exportSeed t sender recipient dp)) (e : Entry) (he : e ∈ (Sys.run E st evs).entries)
    (ht : e.tag = t) (hx : e.exportable? ≠ some true ∨ ¬ e.IsSeed) : ∃ x, d.outcome = .error x := by
  cases ho : d.outcome with
  | error x => exact ⟨x, rfl⟩
  | ok resp =>
    exfalso
    obtain ⟨e1, h1, _, _, s, _, _, _, h2, h3, h4, _⟩ :=
      C16_only_exportable_exported hst evs d hd i t sender recipient dp hm resp ho
    have : e1 = e := (sysInv_run hst evs).inv.distinct.eq_of_clash h1 he (Or.inl (by rw [h2, ht]))
    subst this
    rcases hx with hx | hx
    · exact hx h4
    · cases e1 with
      | seed => exact hx trivial
      | deep => exact absurd h3 (by simp [HoldsSeed])
      | cert => exact absurd h3 (by simp [HoldsSeed])

/-! ### Creation under known conditions -/

/-- If adding a seed was refused although nothing else occupies its tag and keys, the store had no room or the
    passphrase for deep-locking it could not be used. -/
theorem create_succeeds {evs : List Event} (hst : GoodStore E st) {d : Done E} (hd : d ∈ (Sys.run E st evs).done)
    {seed : B 32} {tag : String} {x : Bool} {mk : SeedInfo → Resp} {sr : List Entry}
    {deep : Option DeepPass} (h : CreateSpec d.conn d.start d.stop d.log d.outcome seed tag deep x mk sr) (hlk : Lockable E d.conn deep)
    (hfree : (Sys.run E st evs).FreeFor d.id tag (E.C.edPk seed) (E.C.xPk seed))
    (hroom : ∀ e : Entry, e.tag = tag → E.S.fits e = true) : d.outcome = .ok (mk (infoOf E seed x)) := by
  rcases h with ⟨e, _, _, h, _⟩ | ⟨⟨h1, _⟩, h2⟩
  · exact h
  · exfalso
    rcases h2 with ⟨p, h, hp⟩ | ⟨p, pass, salt, h, hp, ha⟩ | ⟨e, he, hw⟩
    · obtain ⟨pass, h3, _⟩ := hlk p h
      simp only [decPass] at hp
      rw [hp] at h3; cases h3
    · obtain ⟨pass', h3, h4⟩ := hlk p h
      simp only [decPass] at hp
      rw [hp] at h3; cases h3
      exact h4 _ ha
    · have hkeys : e.tag = tag ∧ e.edKey = some (E.C.edPk seed) ∧ e.xKey = some (E.C.xPk seed) := by
        cases deep with
        | none => obtain ⟨hdr, rfl⟩ := he; exact ⟨rfl, rfl, rfl⟩
        | some p => obtain ⟨_, _, _, _, _, _, rfl⟩ := he; exact ⟨rfl, rfl, rfl⟩
      rcases hw with hw | ⟨e', he', hc⟩
      · rw [hroom e hkeys.1] at hw; cases hw
      · have := hfree e' (stop_entries hst hd he') (by
          rcases hc with h | ⟨k, h, h'⟩ | ⟨k, h, h'⟩
          · exact Or.inl (h.trans hkeys.1)
          · rw [hkeys.2.1] at h'; exact Or.inr (Or.inl (h.trans h'.symm))
          · rw [hkeys.2.2] at h'; exact Or.inr (Or.inr (h.trans h'.symm)))
        rw [added_eq hd, h1] at this
        simp at this

/-! ### C17 -/

/-- C17. Export from one keystore, import into another (or the same): if the importing keystore holds the recipient key
    as an ordinary seed and nothing else there occupies the tag or the keys, the import succeeds, and the imported entry
    has exactly the public keys of the exported one and the exportable flag the importer chose; it is deep-locked if and only
    if the importer asked for that. -/
theorem C17_export_import (E₁ E₂ : Env) (hC : E₂.C = E₁.C) (st₁ : E₁.S.σ) (st₂ : E₂.S.σ) (h₁ : GoodStore E₁ st₁)
    (h₂ : GoodStore E₂ st₂) (evs₁ evs₂ : List Event)
    -- the export
    (d₁ : Done E₁) (hd₁ : d₁ ∈ (Sys.run E₁ st₁ evs₁).done) (i₁ t₁ : String) (sender recipient : B 32)
    (dp : Option (SecretSized 81)) (hm₁ : d₁.msg = .req i₁ (.exportSeed t₁ sender recipient dp)) (nonce : B 24)
    (cipher : Bytes) (ho₁ : d₁.outcome = .ok (.exportSeed nonce cipher))
    -- the import of what was exported
    (d₂ : Done E₂) (hd₂ : d₂ ∈ (Sys.run E₂ st₂ evs₂).done) (i₂ t₂ : String) (x : Bool) (deep : Option DeepPass)
    (hm₂ : d₂.msg = .req i₂ (.importSeed sender recipient deep nonce cipher t₂ x)) (hlk : Lockable E₂ d₂.conn deep) (hs₂ : Served (Sys.run E₂ st₂ evs₂) d₂)
    (r : Entry) (hr : r ∈ E₂.S.tbl d₂.start.store) (hrk : r.xKey = some recipient) (hrs : r.IsSeed)
    (e : Entry) (he : e ∈ (Sys.run E₁ st₁ evs₁).entries) (het : e.tag = t₁) (ed xk : B 32) (hed : e.edKey = some ed)
    (hxk : e.xKey = some xk)
    (hfree : (Sys.run E₂ st₂ evs₂).FreeFor d₂.id t₂ ed xk) (hroom : ∀ e' : Entry, e'.tag = t₂ → E₂.S.fits e' = true) :
    d₂.outcome = .ok (.importSeed t₂ ⟨ed, xk, x⟩) ∧
      ∃ e₂ ∈ (Sys.run E₂ st₂ evs₂).entries, e₂.info = if deep = none then .seed t₂ ⟨ed, xk, x⟩ else .deep t₂ ⟨ed, xk, x⟩ := by
  -- what was exported
  obtain ⟨e1, he1, e2, he2, seed, seed', n, ci, ht, hh, _, hk2, hh2, hpk2, hres, hbox⟩ :=
    C16_only_exportable_exported h₁ evs₁ d₁ hd₁ i₁ t₁ sender recipient dp hm₁ _ ho₁
  cases hres
  have hinv1 := (sysInv_run h₁ evs₁).inv
  have : e1 = e := hinv1.distinct.eq_of_clash he1 he (Or.inl (by rw [ht, het]))
  subst this
  obtain ⟨hk, hx⟩ := wf_keys (hinv1.wf _ he1) hh
  rw [hk] at hed; rw [hx] at hxk
  cases hed; cases hxk
  -- the recipient key in the second keystore
  have hinv2 := done_inv h₂ hd₂
  obtain ⟨rseed, hrseed⟩ : ∃ rseed, HoldsSeed E₂ r rseed := by
    cases r with
    | seed t i enc => obtain ⟨s, h, _⟩ := hinv2.1.wf _ hr; exact ⟨s, h⟩
    | deep => exact absurd hrs (by simp [Entry.IsSeed])
    | cert => exact absurd hrs (by simp [Entry.IsSeed])
  have hrpk := (wf_keys (hinv2.1.wf _ hr) hrseed).2
  rw [hrk] at hrpk
  have hrecip : recipient = E₂.C.xPk rseed := Option.some.inj hrpk
  have hopen : E₂.C.boxOpen nonce cipher sender (E₂.C.xSk rseed) = some seed.val := by
    rw [hC] at hrecip ⊢
    obtain ⟨c, h1, h2⟩ := E₁.L.box_open nonce seed.val sender (E₁.C.xSk seed') recipient (E₁.C.xSk rseed)
      (by rw [← hpk2]; exact E₁.L.xpair _) (by rw [hrecip]; exact E₁.L.xpair _)
    rw [hbox] at h1; cases h1; exact h2
  have hlen : cipher.length = 48 := by rw [E₁.L.box_len _ _ _ _ _ hbox, seed.len]
  have hsp := served_spec h₂ hd₂ hs₂ hm₂ ⟨by simp, by simp⟩
  obtain ⟨sr, hcr⟩ : ∃ sr, CreateSpec d₂.conn d₂.start d₂.stop d₂.log d₂.outcome seed t₂ deep x (.importSeed t₂) sr := by
    rcases hsp with ⟨_, h⟩ | ⟨f, hf, hfk, h⟩
    · exact absurd hrk (h r hr)
    · have hfx := (full_of_seed hinv2.2.1 hf (hinv2.2.2.mem hr) (Or.inr (Or.inr ⟨recipient, hfk, hrk⟩)) hrseed).2.2.2
      rcases h with ⟨_, h | h | ⟨xSk, h, h'⟩⟩ | ⟨xSk, sd, h, _, h', hcr⟩
      · exact absurd hlen h
      · rw [hfx] at h; cases h
      · rw [hfx] at h; cases h; exact absurd hopen (h' seed)
      · rw [hfx] at h; cases h
        rw [hopen] at h'
        have : sd = seed := B.ext (Option.some.inj h').symm
        rw [this] at hcr; exact ⟨_, hcr⟩
  have hout := create_succeeds h₂ hd₂ hcr hlk (by rw [hC]; exact hfree) hroom
  have hinfo : infoOf E₂ seed x = ⟨E₁.C.edPk seed, E₁.C.xPk seed, x⟩ := by simp [infoOf, hC]
  rw [hinfo] at hout
  refine ⟨hout, ?_⟩
  rcases hcr with ⟨e3, h3, _, _, h4, _⟩ | ⟨h, _⟩
  · refine ⟨e3, stop_entries h₂ hd₂ h4, ?_⟩
    cases deep with
    | none => obtain ⟨hdr, rfl⟩ := h3; simp only [Entry.info, hinfo, if_true]
    | some p => obtain ⟨_, _, _, _, _, _, rfl⟩ := h3; simp [Entry.info, hinfo]
  · exact absurd h (not_refused hout)

/-- C17. A cipher that is not 48 bytes, or does not open for the named keys, is refused without effect. -/
theorem C17_bad_cipher_refused (hst : GoodStore E st) (evs : List Event) (d : Done E)
    (hd : d ∈ (Sys.run E st evs).done) (i t : String) (sender recipient : B 32) (dp : Option DeepPass) (nonce : B 24)
    (cipher : Bytes) (x : Bool) (hm : d.msg = .req i (.importSeed sender recipient dp nonce cipher t x))
    (hbad : cipher.length ≠ 48 ∨ ∀ seed : B 32, ∀ e ∈ (Sys.run E st evs).entries, ∀ s, HoldsSeed E e s →
      e.xKey = some recipient → E.C.boxOpen nonce cipher sender (E.C.xSk s) ≠ some seed.val) :
    (∃ y, d.outcome = .error y) ∧ (Sys.run E st evs).added d.id = [] := by
  have herr : ∃ y, d.outcome = .error y := by
    cases ho : d.outcome with
    | error y => exact ⟨y, rfl⟩
    | ok resp =>
      exfalso
      rcases success_spec hst hd hm ⟨by simp, by simp⟩ ho with ⟨h, _⟩ | ⟨f, hf, hfk, ⟨h, _⟩ | ⟨xSk, sd, h1, h2, h3, _⟩⟩
      · exact not_refused ho h
      · exact not_refused ho h
      · rcases hbad with hb | hb
        · exact hb h2
        · rcases full_cases hf with ⟨t1, i1, enc1, s1, a1, a2, a3, a4, a5, a6, a7, a8⟩ | ⟨_, _, a4, _⟩
          · rw [a4] at h1; cases h1
            exact hb sd f.entry (stop_entries hst hd hf.1) s1 (by rw [a1]; exact a8) hfk h3
          · rw [a4] at h1; cases h1
  exact ⟨herr, C07_failure_adds_nothing hst evs d hd (Or.inl herr)⟩

/-! ### C18 -/

/-- SPECIFICATION of derivation: one key derivation step per path element, each from the result of the one before. -/
inductive DerivedBy (C : Crypto) : B 32 → List UInt32 → B 32 → Prop
  | nil (s : B 32) : DerivedBy C s [] s
  | cons (s : B 32) (i : UInt32) (p : List UInt32) (r : B 32) :
      DerivedBy C (C.kdf s i.toNat "SeedBndl") p r → DerivedBy C s (i :: p) r

theorem derivedBy_iff (C : Crypto) (s : B 32) (p : List UInt32) (r : B 32) : DerivedBy C s p r ↔ r = derivePath C s p := by
  constructor
  · intro h
    induction h with
    | nil s => rfl
    | cons s i p r _ ih => rw [ih]; rfl
  · rintro rfl
    induction p generalizing s with
    | nil => exact .nil s
    | cons i p ih => exact .cons s i p _ (ih _)

/-- The seed of the source of a successful derivation and what was added. -/
theorem derive_done (hst : GoodStore E st) {evs : List Event} {d : Done E} (hd : d ∈ (Sys.run E st evs).done)
    {i src dst : String} {sd dd : Option DeepPass} {path : List UInt32}
    (hm : d.msg = .req i (.deriveSeed src sd dst dd path)) {resp : Resp} (ho : d.outcome = .ok resp) :
    ∃ e ∈ (Sys.run E st evs).entries, ∃ e' ∈ (Sys.run E st evs).entries, ∃ seed info, e.tag = src ∧
      deriveSource E d.conn e sd = .ok (seed, info) ∧ IsNew E d.conn (derivePath E.C seed path) dst dd info.exportable e' ∧
      resp = .deriveSeed (infoOf E (derivePath E.C seed path) info.exportable) ∧ ¬ Clash e e' := by
  rcases success_spec hst hd hm ⟨by simp, by simp⟩ ho with ⟨h, _⟩ | ⟨e, he, ht, ⟨h, _⟩ | ⟨seed, info, hsrc, h, hn⟩⟩
  · exact absurd h (not_refused ho)
  · exact absurd h (not_refused ho)
  · rcases h with ⟨e', hnew, h1, h2, h3, _⟩ | ⟨h, _⟩
    · rw [ho] at h2; cases h2
      exact ⟨e, stop_entries hst hd he, e', stop_entries hst hd h3, seed, info, ht, hsrc, hnew, rfl,
        hn e' (by rw [h1]; simp)⟩
    · exact absurd h (not_refused ho)

/-- C18. What a successful derivation reports are the public keys of the seed derived, one step per path element, from
    the source's seed; and that seed is what the new entry holds (ordinary or, with the request's passphrase,
    deep-locked). -/
theorem C18_derivation_follows_path (hst : GoodStore E st) (evs : List Event) (d : Done E)
    (hd : d ∈ (Sys.run E st evs).done) (i src dst : String) (sd dd : Option DeepPass) (path : List UInt32)
    (hm : d.msg = .req i (.deriveSeed src sd dst dd path)) (resp : Resp) (ho : d.outcome = .ok resp) :
    ∃ e ∈ (Sys.run E st evs).entries, ∃ e' ∈ (Sys.run E st evs).entries, ∃ seed seed' x,
      e.tag = src ∧ e'.tag = dst ∧
      ((sd = none ∧ HoldsSeed E e seed) ∨ (∃ p, sd = some p ∧ OpensDeep E d.conn p.pass p.ops p.mem e seed)) ∧
      DerivedBy E.C seed path seed' ∧ resp = .deriveSeed ⟨E.C.edPk seed', E.C.xPk seed', x⟩ ∧
      ((dd = none ∧ HoldsSeed E e' seed') ∨ (∃ p, dd = some p ∧ OpensDeep E d.conn p.pass p.ops p.mem e' seed')) := by
  obtain ⟨e, he, e', he', seed, info, ht, hsrc, hnew, hresp, _⟩ := derive_done hst hd hm ho
  refine ⟨e, he, e', he', seed, _, info.exportable, ht, ?_, deriveSource_ok hsrc, (derivedBy_iff _ _ _ _).2 rfl, hresp, ?_⟩
  · cases dd with
    | none => obtain ⟨_, rfl⟩ := hnew; rfl
    | some p => obtain ⟨_, _, _, _, _, _, rfl⟩ := hnew; rfl
  · cases dd with
    | none => obtain ⟨hdr, rfl⟩ := hnew; exact Or.inl ⟨rfl, SecretSized.decrypt_encrypt E.C E.L _ _ _⟩
    | some p =>
      obtain ⟨pass, salt, key, hdr, h1, h2, rfl⟩ := hnew
      exact Or.inr ⟨p, rfl, pass, key, h1, h2, SecretSized.decrypt_encrypt E.C E.L _ _ _⟩

theorem derivedBy_append {C : Crypto} {s m r : B 32} {p q : List UInt32} (h₁ : DerivedBy C s p m) (h₂ : DerivedBy C m q r) :
    DerivedBy C s (p ++ q) r := by
  induction h₁ with
  | nil s => exact h₂
  | cons s i p m _ ih => exact .cons s i _ _ (ih h₂)

theorem derivedBy_unique {C : Crypto} {s a b : B 32} {p : List UInt32} (h₁ : DerivedBy C s p a) (h₂ : DerivedBy C s p b) :
    a = b := by rw [(derivedBy_iff _ _ _ _).1 h₁, (derivedBy_iff _ _ _ _).1 h₂]

/-- C18. Deriving along `p` and from the result along `q` (in one run), and deriving along `p ++ q` in one request (in
    another run on the same initial entries), give seeds with the same public keys - whichever of the seeds are deep-locked, with
    whatever passphrases and on whatever connections, unless the stored cipher of the source or of the seed in the middle opens to
    two different seeds under two keys. -/
theorem C18_derivation_composes (hst : GoodStore E st) (evs evs' : List Event) (src a b c : String) (p q : List UInt32)
    (l₁ m₁ l₂ m₂ l₃ m₃ : Option DeepPass) (s : Entry) (hs : s ∈ E.S.tbl st) (hsrc : s.tag = src)
    (hC : ∀ t info salt ops mem (enc : SecretSized 49), Entry.deep t info salt ops mem enc ∈ (Sys.run E st evs).entries → t = src ∨ t = a →
      ¬ E.C.OpensTwice enc.hdr enc.cipher.val)
    (d₁ : Done E) (h₁ : d₁ ∈ (Sys.run E st evs).done) (i₁ : String)
    (hm₁ : d₁.msg = .req i₁ (.deriveSeed src l₁ a m₁ p)) (x₁ : SeedInfo) (ho₁ : d₁.outcome = .ok (.deriveSeed x₁))
    (d₂ : Done E) (h₂ : d₂ ∈ (Sys.run E st evs).done) (i₂ : String)
    (hm₂ : d₂.msg = .req i₂ (.deriveSeed a l₂ b m₂ q)) (x₂ : SeedInfo) (ho₂ : d₂.outcome = .ok (.deriveSeed x₂))
    (d₃ : Done E) (h₃ : d₃ ∈ (Sys.run E st evs').done) (i₃ : String)
    (hm₃ : d₃.msg = .req i₃ (.deriveSeed src l₃ c m₃ (p ++ q))) (x₃ : SeedInfo)
    (ho₃ : d₃.outcome = .ok (.deriveSeed x₃)) : x₂ = x₃ := by
  have hin : s ∈ (Sys.run E st evs).entries := by
    show s ∈ (Sys.run E st evs).sh.tbl
    rw [(sysInv_run hst evs).tbl]; exact List.mem_append_left _ hs
  have hin' : s ∈ (Sys.run E st evs').entries := by
    show s ∈ (Sys.run E st evs').sh.tbl
    rw [(sysInv_run hst evs').tbl]; exact List.mem_append_left _ hs
  have hdist := (sysInv_run hst evs).inv.distinct
  have hdist' := (sysInv_run hst evs').inv.distinct
  have uniq : ∀ {e : Entry} {u v : B 32} {A A' : Prop} {l l' : Option DeepPass} {c c' : Nat}, e ∈ (Sys.run E st evs).entries →
      e.tag = src ∨ e.tag = a → (A ∧ HoldsSeed E e u) ∨ (∃ p, l = some p ∧ OpensDeep E c p.pass p.ops p.mem e u) →
      (A' ∧ HoldsSeed E e v) ∨ (∃ p, l' = some p ∧ OpensDeep E c' p.pass p.ops p.mem e v) → u = v := by
    intro e u v A A' l l' c c' he ht hu hv
    cases e with
    | seed t i enc =>
      rcases hu with ⟨_, hu⟩ | ⟨_, _, hu⟩
      · rcases hv with ⟨_, hv⟩ | ⟨_, _, hv⟩
        · have hu' : enc.decrypt (m := 32) E.C E.bidi = some u := hu
          have hv' : enc.decrypt (m := 32) E.C E.bidi = some v := hv
          rw [hu'] at hv'; exact Option.some.inj hv'
        · exact hv.elim
      · exact hu.elim
    | deep t i salt o m enc =>
      rcases hu with ⟨_, hu⟩ | ⟨_, _, _, k, _, _, hu⟩
      · exact hu.elim
      · rcases hv with ⟨_, hv⟩ | ⟨_, _, _, k', _, _, hv⟩
        · exact hv.elim
        · unfold SecretSized.decrypt at hu hv
          split at hu
          · rename_i b hb
            split at hv
            · rename_i b' hb'
              rw [B.ofBytes?_eq_some] at hu hv
              exact B.ext (by rw [← hu, ← hv]; exact Classical.byContradiction fun hne => hC _ _ _ _ _ _ he ht ⟨_, _, _, _, hb, hb', hne⟩)
            · cases hv
          · cases hu
    | cert =>
      rcases hu with ⟨_, hu⟩ | ⟨_, _, hu⟩ <;> exact hu.elim
  obtain ⟨e1, m1, e1', m1', s1, s1', f1, t1, t1', g1, k1, r1, j1⟩ := C18_derivation_follows_path hst evs d₁ h₁ _ _ _ _ _ _ hm₁ _ ho₁
  obtain ⟨e2, m2, e2', m2', s2, s2', f2, t2, t2', g2, k2, r2, j2⟩ := C18_derivation_follows_path hst evs d₂ h₂ _ _ _ _ _ _ hm₂ _ ho₂
  obtain ⟨e3, m3, e3', m3', s3, s3', f3, t3, t3', g3, k3, r3, j3⟩ := C18_derivation_follows_path hst evs' d₃ h₃ _ _ _ _ _ _ hm₃ _ ho₃
  have q1 : e1 = s := hdist.eq_of_clash m1 hin (Or.inl (by rw [t1, hsrc]))
  have q3 : e3 = s := hdist'.eq_of_clash m3 hin' (Or.inl (by rw [t3, hsrc]))
  have q2 : e2 = e1' := hdist.eq_of_clash m2 m1' (Or.inl (by rw [t2, t1']))
  have hseed : s2' = s3' := by
    have a1 : s2 = s1' := uniq m2 (.inr t2) g2 (q2 ▸ j1)
    have a2 : s1 = s3 := uniq m1 (.inl t1) g1 (by rw [q1, ← q3]; exact g3)
    have := derivedBy_append k1 (by rw [← a1]; exact k2)
    rw [a2] at this
    exact derivedBy_unique this k3
  -- the flags: inherited along the way
  obtain ⟨y1, u1, v1, z1, n1, o1, l1, o1', w, w'⟩ := C19_derived_exportable_iff_source hst evs d₁ h₁ _ _ _ _ _ _ hm₁ _ ho₁
  obtain ⟨y2, u2, v2, z2, n2, o2, l2, o2', ww, ww'⟩ := C19_derived_exportable_iff_source hst evs d₂ h₂ _ _ _ _ _ _ hm₂ _ ho₂
  obtain ⟨y3, u3, v3, z3, n3, o3, l3, o3', www, www'⟩ := C19_derived_exportable_iff_source hst evs' d₃ h₃ _ _ _ _ _ _ hm₃ _ ho₃
  have added_mem : ∀ {k : Nat} {e : Entry}, (Sys.run E st evs).added k = [e] → e ∈ (Sys.run E st evs).entries := by
    intro k e h
    show e ∈ (Sys.run E st evs).sh.tbl
    rw [(sysInv_run hst evs).tbl]
    refine List.mem_append_right _ ?_
    have : e ∈ (Sys.run E st evs).added k := by rw [h]; simp
    obtain ⟨ev, hev, heq⟩ := List.mem_filterMap.1 this
    have := mem_effects hev
    refine List.mem_filterMap.2 ⟨_, this, ?_⟩
    exact heq
  have p1 : u1 = s := hdist.eq_of_clash n1 hin (Or.inl (by rw [o1, hsrc]))
  have p3 : u3 = s := hdist'.eq_of_clash n3 hin' (Or.inl (by rw [o3, hsrc]))
  have p2 : u2 = v1 := hdist.eq_of_clash n2 (added_mem l1) (Or.inl (by rw [o2, o1']))
  cases z1; cases z2; cases z3
  have hx : x₂.exportable = x₃.exportable := by
    rw [p2, w'] at ww; rw [p1] at w; rw [p3, w] at www
    have a := Option.some.inj ww; have b := Option.some.inj www
    rw [← a, b]
  cases r2; cases r3
  simp only at hx
  rw [hseed, hx]

/-- C18. Deriving along the empty path never succeeds (its keys already exist), unless the stored cipher of the deep-locked source opens
    to two different seeds under two keys. -/
theorem C18_empty_path_refused (hst : GoodStore E st) (evs : List Event) (d : Done E)
    (hd : d ∈ (Sys.run E st evs).done) (i src dst : String) (sd dd : Option DeepPass)
    (hm : d.msg = .req i (.deriveSeed src sd dst dd []))
    (hC : ∀ info salt ops mem (enc : SecretSized 49), Entry.deep src info salt ops mem enc ∈ (Sys.run E st evs).entries →
      ¬ E.C.OpensTwice enc.hdr enc.cipher.val) : (∃ x, d.outcome = .error x) ∧ (Sys.run E st evs).added d.id = [] := by
  have herr : ∃ x, d.outcome = .error x := by
    cases ho : d.outcome with
    | error x => exact ⟨x, rfl⟩
    | ok resp =>
      exfalso
      obtain ⟨e, he, e', he', seed, info, ht, hsrc, hnew, hresp, hn⟩ := derive_done hst hd hm ho
      have hwf := (sysInv_run hst evs).inv.wf e he
      have hk : e.edKey = some (E.C.edPk seed) := by
        rcases deriveSource_ok hsrc with ⟨_, h⟩ | ⟨p, hp, h⟩
        · exact (wf_keys hwf h).1
        · refine (opens_unique ?_ hwf h).1
          rintro t i salt o m enc rfl
          cases ht
          exact hC _ _ _ _ _ he
      apply hn
      refine Or.inr (Or.inl ⟨_, hk, ?_⟩)
      cases dd with
      | none => obtain ⟨_, rfl⟩ := hnew; rfl
      | some p => obtain ⟨_, _, _, _, _, _, rfl⟩ := hnew; rfl
  exact ⟨herr, C07_failure_adds_nothing hst evs d hd (Or.inl herr)⟩

end Lair
