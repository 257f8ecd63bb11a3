import Verif.Props.Keys

/-
Properties of using keys: C20 (derivation from deep-locked seeds), C21 (crypto_box), C22 (secret_box), C23 (certificate
keys), C24 (created keys).
-/
namespace Lair

variable {E : Env} {st : E.S.σ}

/-- An ordinary seed of a good table holds some seed. -/
theorem holds_exists {e : Entry} (hwf : WF E e) (hs : e.IsSeed) : ∃ seed, HoldsSeed E e seed := by
  cases e with
  | seed t i enc => obtain ⟨s, h, _⟩ := hwf; exact ⟨s, h⟩
  | deep => exact absurd hs (by simp [Entry.IsSeed])
  | cert => exact absurd hs (by simp [Entry.IsSeed])

/-! ### C20 -/

/-- C20 (partial). Deriving from a deep-locked seed with a passphrase that opens it succeeds - provided the request
    repeats the limits stored with the seed, nothing else occupies the new tag or the derived keys, and there is room.
    Missing: the code uses the limits in the request instead of the stored ones, see
    `C20_other_limits_fail`. -/
theorem C20_derive_from_deep_partial (hst : GoodStore E st) (evs : List Event) (d : Done E)
    (hd : d ∈ (Sys.run E st evs).done) (i src dst : String) (p : DeepPass) (deep : Option DeepPass)
    (path : List UInt32) (hm : d.msg = .req i (.deriveSeed src (some p) dst deep path)) (hlk : Lockable E d.conn deep)
    (hs : Served (Sys.run E st evs) d)
    (e : Entry) (he : e ∈ E.S.tbl d.start.store) (ht : e.tag = src) (seed seed' : B 32)
    (hlim : e.limits? = some (p.ops, p.mem)) (hopen : OpensDeep E d.conn p.pass p.ops p.mem e seed)
    (hder : DerivedBy E.C seed path seed')
    (hfree : (Sys.run E st evs).FreeFor d.id dst (E.C.edPk seed') (E.C.xPk seed'))
    (hroom : ∀ e' : Entry, e'.tag = dst → E.S.fits e' = true) :
    ∃ x, d.outcome = .ok (.deriveSeed ⟨E.C.edPk seed', E.C.xPk seed', x⟩) := by
  have hsp := served_spec hst hd hs hm ⟨by simp, by simp⟩
  obtain ⟨_, hi, hx⟩ := done_inv hst hd
  have hsrc : ∃ info, deriveSource E d.conn e (some p) = .ok (seed, info) := by
    cases e with
    | seed => exact absurd hopen (by simp [OpensDeep])
    | cert => exact absurd hopen (by simp [OpensDeep])
    | deep t inf salt o m enc =>
      obtain ⟨key, h1, h2⟩ := key_of_opens hopen
      exact ⟨inf, by simp [deriveSource, h1, h2]⟩
  obtain ⟨info, hsrc⟩ := hsrc
  rcases hsp with ⟨_, h⟩ | ⟨e', he', ht', h⟩
  · exact absurd ht (h e he)
  · have hee : e' = e := hi.distinct.eq_of_clash he' (hx.mem he) (Or.inl (by rw [ht', ht]))
    subst hee
    rcases h with ⟨_, x, h⟩ | ⟨s, inf, h, hcr, _⟩
    · rw [hsrc] at h; cases h
    · rw [hsrc] at h; cases h
      have : seed' = derivePath E.C seed path := (derivedBy_iff _ _ _ _).1 hder
      rw [← this] at hcr
      exact ⟨_, create_succeeds hst hd hcr hlk hfree hroom⟩

/-- C20. In general the derivation succeeds or fails according to the limits in the REQUEST: if, with those limits, the
    passphrase does not open the seed, the request fails - even if the passphrase is the right one under the limits
    stored with the seed. -/
theorem C20_request_limits_decide (hst : GoodStore E st) (evs : List Event) (d : Done E)
    (hd : d ∈ (Sys.run E st evs).done) (i src dst : String) (p : DeepPass) (dd : Option DeepPass) (path : List UInt32)
    (hm : d.msg = .req i (.deriveSeed src (some p) dst dd path))
    (e : Entry) (he : e ∈ (Sys.run E st evs).entries) (ht : e.tag = src) (hdeep : e.IsDeep)
    (hbad : ∀ seed, ¬ OpensDeep E d.conn p.pass p.ops p.mem e seed) : ∃ x, d.outcome = .error x := by
  cases ho : d.outcome with
  | error x => exact ⟨x, rfl⟩
  | ok resp =>
    obtain ⟨p', seed, h1, h2⟩ := C14_deep_derive_needs_passphrase hst evs d hd i src dst _ dd path hm resp ho e he ht hdeep
    cases h1
    exact absurd h2 (hbad seed)

/-- C20, the negative part: a deep-locked seed created with limits 2, 2 cannot be derived from with its own passphrase
    when the request says 1, 1, although signing with the same passphrase (which uses the stored limits) works. -/
theorem C20_other_limits_fail :
    ∃ (E : Env) (st : E.S.σ) (_ : GoodStore E st) (evs : List Event) (pass : SecretSized 81),
      let s := Sys.run E st evs
      s.done.map (fun d => (d.msg.id, d.outcome.isOk)) = [("u", true), ("n", true), ("s", true), ("d1", false), ("d2", true)] ∧
      s.inbox.map (fun p => p.2) = [.req "u" (.unlock pass), .req "n" (.newSeed "deep" (some ⟨2, 2, pass⟩) false),
        .req "s" (.sign (B.fill 32 11) (some pass) [1, 2]),
        .req "d1" (.deriveSeed "deep" (some ⟨1, 1, pass⟩) "x" none [1]),
        .req "d2" (.deriveSeed "deep" (some ⟨2, 2, pass⟩) "x" none [1])] ∧
      ∀ d ∈ s.done, Ev.fault ∉ s.effects d.id := by
  refine ⟨Ex.env false 2, MemStore.empty, goodStore_empty _, Ex.unlock 0 ++
    Ex.serve 0 (.req "n" (.newSeed "deep" (some ⟨2, 2, Ex.sent 0 Ex.pass⟩) false)) 11 ++
    Ex.serve 0 (.req "s" (.sign (B.fill 32 11) (some (Ex.sent 0 Ex.pass)) [1, 2])) 0 ++
    Ex.serve 0 (.req "d1" (.deriveSeed "deep" (some ⟨1, 1, Ex.sent 0 Ex.pass⟩) "x" none [1])) 0 ++
    Ex.serve 0 (.req "d2" (.deriveSeed "deep" (some ⟨2, 2, Ex.sent 0 Ex.pass⟩) "x" none [1])) 0,
    Ex.sent 0 Ex.pass, ?_, ?_, ?_⟩
  · decide +kernel
  · decide +kernel
  · decide +kernel

/-! ### C21 -/

/-- C21. What a keystore encrypts from one of its keys to a recipient, a keystore holding the recipient's key as an
    ordinary seed decrypts to the same data. (One keystore or two.) -/
theorem C21_box_round_trip (E₁ E₂ : Env) (hC : E₂.C = E₁.C) (st₁ : E₁.S.σ) (st₂ : E₂.S.σ) (h₁ : GoodStore E₁ st₁)
    (h₂ : GoodStore E₂ st₂) (evs₁ evs₂ : List Event) (sender recipient : B 32) (data : Bytes)
    (d₁ : Done E₁) (hd₁ : d₁ ∈ (Sys.run E₁ st₁ evs₁).done) (i₁ : String) (p₁ : Option (SecretSized 81))
    (hm₁ : d₁.msg = .req i₁ (.boxEnc sender recipient p₁ data)) (nonce : B 24) (cipher : Bytes)
    (ho₁ : d₁.outcome = .ok (.boxEnc nonce cipher))
    (d₂ : Done E₂) (hd₂ : d₂ ∈ (Sys.run E₂ st₂ evs₂).done) (i₂ : String) (p₂ : Option (SecretSized 81))
    (hm₂ : d₂.msg = .req i₂ (.boxDec sender recipient p₂ nonce cipher)) (hs₂ : Served (Sys.run E₂ st₂ evs₂) d₂)
    (r : Entry) (hr : r ∈ E₂.S.tbl d₂.start.store) (hrk : r.xKey = some recipient) (hrs : r.IsSeed) :
    d₂.outcome = .ok (.boxDec data) := by
  have hinv2 := done_inv h₂ hd₂
  obtain ⟨rs, hrs'⟩ := holds_exists (hinv2.1.wf r hr) hrs
  have hrpk := (wf_keys (hinv2.1.wf r hr) hrs').2
  rw [hrk] at hrpk
  have hrecip : recipient = E₂.C.xPk rs := Option.some.inj hrpk
  rcases success_spec h₁ hd₁ hm₁ ⟨by simp, by simp⟩ ho₁ with ⟨h, _⟩ | ⟨_, f, n, hf, hfk, ho⟩
  · exact absurd h (not_refused ho₁)
  · rw [ho₁] at ho
    rcases full_cases hf with ⟨t, i, enc, s, a1, a2, a3, a4, a5, a6, a7, a8⟩ | ⟨_, _, a4, _⟩
    · rw [a4] at ho
      simp only at ho
      cases hb : E₁.C.box n data recipient (E₁.C.xSk s) with
      | none => rw [hb] at ho; simp [Except.map] at ho
      | some c =>
        rw [hb] at ho
        simp only [Res.ofOption_some, Except.map, Except.ok.injEq, Resp.boxEnc.injEq] at ho
        obtain ⟨rfl, rfl⟩ := ho
        have hspk : E₁.C.xPk s = sender := by
          rw [a1] at hfk; simp [Entry.xKey] at hfk; rw [a7, hfk]
        have hopen : E₂.C.boxOpen nonce cipher sender (E₂.C.xSk rs) = some data := by
          rw [hC] at hrecip ⊢
          obtain ⟨c, h1, h2⟩ := E₁.L.box_open nonce data sender (E₁.C.xSk s) recipient (E₁.C.xSk rs)
            (by rw [← hspk]; exact E₁.L.xpair _) (by rw [hrecip]; exact E₁.L.xpair _)
          rw [hb] at h1; cases h1; exact h2
        rcases served_spec h₂ hd₂ hs₂ hm₂ ⟨by simp, by simp⟩ with ⟨_, h⟩ | ⟨_, g, hg, hgk, ho2⟩
        · exact absurd hrk (h r hr)
        · have hgx := (full_of_seed hinv2.2.1 hg (hinv2.2.2.mem hr) (Or.inr (Or.inr ⟨recipient, hgk, hrk⟩)) hrs').2.2.2
          rw [ho2, hgx]
          have hl := E₁.L.box_len _ _ _ _ _ hb
          have : ¬ cipher.length < 16 := by omega
          simp [this, hopen, Except.map]
    · rw [a4] at ho; simp at ho

/-- C21. The same for the variant that names the parties by their signing keys. -/
theorem C21_box_by_sign_key_round_trip (E₁ E₂ : Env) (hC : E₂.C = E₁.C) (st₁ : E₁.S.σ) (st₂ : E₂.S.σ)
    (h₁ : GoodStore E₁ st₁) (h₂ : GoodStore E₂ st₂) (evs₁ evs₂ : List Event) (sender recipient : B 32) (data : Bytes)
    (d₁ : Done E₁) (hd₁ : d₁ ∈ (Sys.run E₁ st₁ evs₁).done) (i₁ : String) (p₁ : Option (SecretSized 81))
    (hm₁ : d₁.msg = .req i₁ (.boxEncEd sender recipient p₁ data)) (nonce : B 24) (cipher : Bytes)
    (ho₁ : d₁.outcome = .ok (.boxEncEd nonce cipher))
    (d₂ : Done E₂) (hd₂ : d₂ ∈ (Sys.run E₂ st₂ evs₂).done) (i₂ : String) (p₂ : Option (SecretSized 81))
    (hm₂ : d₂.msg = .req i₂ (.boxDecEd sender recipient p₂ nonce cipher)) (hs₂ : Served (Sys.run E₂ st₂ evs₂) d₂)
    (r : Entry) (hr : r ∈ E₂.S.tbl d₂.start.store) (hrk : r.edKey = some recipient) (hrs : r.IsSeed) :
    d₂.outcome = .ok (.boxDecEd data) := by
  have hinv2 := done_inv h₂ hd₂
  obtain ⟨rs, hrs'⟩ := holds_exists (hinv2.1.wf r hr) hrs
  have hrpk := (wf_keys (hinv2.1.wf r hr) hrs').1
  rw [hrk] at hrpk
  have hrecip : recipient = E₂.C.edPk rs := Option.some.inj hrpk
  rw [hC] at hrecip
  rcases success_spec h₁ hd₁ hm₁ ⟨by simp, by simp⟩ ho₁ with ⟨h, _⟩ | ⟨_, f, n, hf, hfk, ho⟩
  · exact absurd h (not_refused ho₁)
  · rw [ho₁] at ho
    rcases full_cases hf with ⟨t, i, enc, s, a1, a2, a3, a4, a5, a6, a7, a8⟩ | ⟨_, a3, _⟩
    · rw [a3] at ho
      have hspk : E₁.C.edPk s = sender := by
        rw [a1] at hfk; simp [Entry.edKey] at hfk; rw [a6, hfk]
      obtain ⟨xs, hxs, hps⟩ := E₁.L.edpair s
      obtain ⟨xr, hxr, hpr⟩ := E₁.L.edpair rs
      rw [hspk] at hxs
      rw [← hrecip] at hxr
      rw [hxr] at ho
      simp only at ho
      obtain ⟨c, hb, hopen⟩ := E₁.L.box_open n data xs (E₁.C.edSkToX (E₁.C.edSk s)) xr (E₁.C.edSkToX (E₁.C.edSk rs)) hps hpr
      rw [hb] at ho
      simp only [Res.ofOption_some, Except.map, Except.ok.injEq, Resp.boxEncEd.injEq] at ho
      obtain ⟨rfl, rfl⟩ := ho
      rcases served_spec h₂ hd₂ hs₂ hm₂ ⟨by simp, by simp⟩ with ⟨_, h⟩ | ⟨_, g, hg, hgk, ho2⟩
      · exact absurd hrk (h r hr)
      · have hgx := (full_of_seed hinv2.2.1 hg (hinv2.2.2.mem hr) (Or.inr (Or.inl ⟨recipient, hgk, hrk⟩)) hrs').2.2.1
        rw [ho2, hgx]
        have hl := E₁.L.box_len _ _ _ _ _ hb
        have : ¬ cipher.length < 16 := by omega
        simp [this, hC, hxs, hopen, Except.map]
    · rw [a3] at ho; simp at ho

/-- C21. Encrypting succeeds for a sender key held as an ordinary seed and a recipient that is anyone's encryption key;
    likewise with signing keys. -/
theorem C21_box_succeeds (hst : GoodStore E st) (evs : List Event) (d : Done E) (hd : d ∈ (Sys.run E st evs).done)
    (hs : Served (Sys.run E st evs) d) (i : String) (sender : B 32) (p : Option (SecretSized 81)) (data : Bytes)
    (e : Entry) (he : e ∈ E.S.tbl d.start.store) (hes : e.IsSeed) (any : B 32) :
    (e.xKey = some sender → d.msg = .req i (.boxEnc sender (E.C.xPk any) p data) →
      ∃ n c, d.outcome = .ok (.boxEnc n c)) ∧
    (e.edKey = some sender → d.msg = .req i (.boxEncEd sender (E.C.edPk any) p data) →
      ∃ n c, d.outcome = .ok (.boxEncEd n c)) := by
  have hinv := done_inv hst hd
  obtain ⟨s, hh⟩ := holds_exists (hinv.1.wf e he) hes
  constructor
  · intro hk hm
    rcases served_spec hst hd hs hm ⟨by simp, by simp⟩ with ⟨_, h⟩ | ⟨_, f, n, hf, hfk, ho⟩
    · exact absurd hk (h e he)
    · have hfx := (full_of_seed hinv.2.1 hf (hinv.2.2.mem he) (Or.inr (Or.inr ⟨sender, hfk, hk⟩)) hh).2.2.2
      obtain ⟨c, hb, _⟩ := E.L.box_open n data (E.C.xPk s) (E.C.xSk s) (E.C.xPk any) (E.C.xSk any) (E.L.xpair _) (E.L.xpair _)
      rw [hfx] at ho
      exact ⟨n, c, by simp [ho, hb, Except.map]⟩
  · intro hk hm
    rcases served_spec hst hd hs hm ⟨by simp, by simp⟩ with ⟨_, h⟩ | ⟨_, f, n, hf, hfk, ho⟩
    · exact absurd hk (h e he)
    · have hfx := (full_of_seed hinv.2.1 hf (hinv.2.2.mem he) (Or.inr (Or.inl ⟨sender, hfk, hk⟩)) hh).2.2.1
      obtain ⟨xs, hxs, hps⟩ := E.L.edpair s
      obtain ⟨xr, hxr, hpr⟩ := E.L.edpair any
      obtain ⟨c, hb, _⟩ := E.L.box_open n data xs (E.C.edSkToX (E.C.edSk s)) xr (E.C.edSkToX (E.C.edSk any)) hps hpr
      rw [hfx] at ho
      exact ⟨n, c, by simp [ho, hxr, hb, Except.map]⟩

/-- C21, C22. A cipher shorter than the authenticator is refused with an error by all three opening requests. -/
theorem C21_short_cipher_refused (hst : GoodStore E st) (evs : List Event) (d : Done E) (hd : d ∈ (Sys.run E st evs).done)
    (i : String) (n : B 24) (cipher : Bytes) (hlen : cipher.length < 16)
    (hm : (∃ s r p, d.msg = .req i (.boxDec s r p n cipher)) ∨ (∃ s r p, d.msg = .req i (.boxDecEd s r p n cipher)) ∨
      (∃ t p, d.msg = .req i (.sboxDec t p n cipher))) : ∃ x, d.outcome = .error x := by
  cases ho : d.outcome with
  | error x => exact ⟨x, rfl⟩
  | ok resp =>
    exfalso
    rcases hm with ⟨s, r, p, hm⟩ | ⟨s, r, p, hm⟩ | ⟨t, p, hm⟩
    · rcases success_spec hst hd hm ⟨by simp, by simp⟩ ho with ⟨h, _⟩ | ⟨_, f, _, _, h⟩
      · exact not_refused ho h
      · rw [ho] at h; simp [hlen] at h
    · rcases success_spec hst hd hm ⟨by simp, by simp⟩ ho with ⟨h, _⟩ | ⟨_, f, _, _, h⟩
      · exact not_refused ho h
      · rw [ho] at h; simp [hlen] at h
    · rcases success_spec hst hd hm ⟨by simp, by simp⟩ ho with ⟨h, _⟩ | ⟨_, f, _, _, h⟩
      · exact not_refused ho h
      · rw [ho] at h; simp [hlen] at h

/-! ### C22 -/

/-- C22. A cipher shorter than the authenticator is refused with an error. -/
theorem C22_short_cipher_refused (hst : GoodStore E st) (evs : List Event) (d : Done E) (hd : d ∈ (Sys.run E st evs).done)
    (i t : String) (p : Option (SecretSized 81)) (n : B 24) (cipher : Bytes) (hlen : cipher.length < 16)
    (hm : d.msg = .req i (.sboxDec t p n cipher)) : ∃ x, d.outcome = .error x :=
  C21_short_cipher_refused hst evs d hd i n cipher hlen (Or.inr (Or.inr ⟨t, p, hm⟩))

/-- C22. A message encrypted under a tag and later decrypted under the same tag is returned unchanged: on any
    connection, after any other requests, evictions and restarts. -/
theorem C22_secret_box_round_trip (hst : GoodStore E st) (evs₁ evs₂ : List Event) (t : String) (data : Bytes)
    (d₁ : Done E) (hd₁ : d₁ ∈ (Sys.run E st evs₁).done) (i₁ : String) (p₁ : Option (SecretSized 81))
    (hm₁ : d₁.msg = .req i₁ (.sboxEnc t p₁ data)) (nonce : B 24) (cipher : Bytes)
    (ho₁ : d₁.outcome = .ok (.sboxEnc nonce cipher))
    (d₂ : Done E) (hd₂ : d₂ ∈ (Sys.run E st (evs₁ ++ evs₂)).done) (hlater : (Sys.run E st evs₁).inbox.length ≤ d₂.id)
    (i₂ : String) (p₂ : Option (SecretSized 81)) (hm₂ : d₂.msg = .req i₂ (.sboxDec t p₂ nonce cipher))
    (hs₂ : Served (Sys.run E st (evs₁ ++ evs₂)) d₂) : d₂.outcome = .ok (.sboxDec data) := by
  rcases success_spec hst hd₁ hm₁ ⟨by simp, by simp⟩ ho₁ with ⟨h, _⟩ | ⟨_, f, n, hf, hft, ho⟩
  · exact absurd h (not_refused ho₁)
  · rw [ho₁] at ho
    rcases full_cases hf with ⟨t', i, enc, s, a1, a2, a3, a4, a5, a6, a7, a8⟩ | ⟨a2, _⟩
    · rw [a2] at ho
      simp only [Except.ok.injEq, Resp.sboxEnc.injEq] at ho
      obtain ⟨rfl, rfl⟩ := ho
      obtain ⟨hst2, hsp2⟩ := start_entries hst hd₂ hlater (stop_entries hst hd₁ hf.1)
      have hinv2 := done_inv hst hd₂
      rcases served_spec hst hd₂ hs₂ hm₂ ⟨by simp, by simp⟩ with ⟨_, h⟩ | ⟨_, g, hg, hgt, ho2⟩
      · exact absurd hft (h _ hst2)
      · have hgs := (full_of_seed hinv2.2.1 hg hsp2 (Or.inl (by rw [hgt, hft])) (seed := s) (by rw [a1]; exact a8)).2.1
        rw [ho2, hgs]
        have hl := E.L.secretBox_len nonce data s
        have : ¬ (E.C.secretBox nonce data s).length < 16 := by omega
        simp [this, E.L.secretBox_open, Except.map]
    · rw [a2] at ho; simp at ho

/-- C22. Encrypting succeeds under the tag of every ordinary seed. -/
theorem C22_secret_box_succeeds (hst : GoodStore E st) (evs : List Event) (d : Done E) (hd : d ∈ (Sys.run E st evs).done)
    (hs : Served (Sys.run E st evs) d) (i t : String) (p : Option (SecretSized 81)) (data : Bytes)
    (hm : d.msg = .req i (.sboxEnc t p data)) (e : Entry) (he : e ∈ E.S.tbl d.start.store) (ht : e.tag = t)
    (hes : e.IsSeed) : ∃ n c, d.outcome = .ok (.sboxEnc n c) ∧ c.length = data.length + 16 := by
  have hinv := done_inv hst hd
  obtain ⟨s, hh⟩ := holds_exists (hinv.1.wf e he) hes
  rcases served_spec hst hd hs hm ⟨by simp, by simp⟩ with ⟨_, h⟩ | ⟨_, f, n, hf, hft, ho⟩
  · exact absurd ht (h e he)
  · have hfx := (full_of_seed hinv.2.1 hf (hinv.2.2.mem he) (Or.inl (by rw [hft, ht])) hh).2.1
    rw [hfx] at ho
    exact ⟨n, _, ho, E.L.secretBox_len n data s⟩

/-! ### C23 -/

/-- C23. A certificate's private key is returned only for the tag of a certificate, and what is returned opens, with the
    session key of the connection that asked, to the private key generated together with the stored certificate. -/
theorem C23_cert_key (hst : GoodStore E st) (evs : List Event) (d : Done E) (hd : d ∈ (Sys.run E st evs).done)
    (i t : String) (hm : d.msg = .req i (.getCertKey t)) (resp : Resp) (ho : d.outcome = .ok resp) :
    ∃ e ∈ (Sys.run E st evs).entries, ∃ info n sealed, e.tag = t ∧ e.info = .cert t info ∧
      info = ⟨(E.certGen n).sni, E.C.blake2b32 (E.certGen n).cert, (E.certGen n).cert⟩ ∧
      resp = .getCertKey sealed ∧ sealed.decrypt E.C (E.encKey d.conn) = some (E.certGen n).priv := by
  rcases success_spec hst hd hm ⟨by simp, by simp⟩ ho with ⟨h, _⟩ | ⟨_, e, he, ht, h⟩
  · exact absurd h (not_refused ho)
  · have hwf := (done_inv hst hd).2.1.wf e he
    cases e with
    | seed => simp only at h; rw [ho] at h; cases h
    | deep => simp only at h; rw [ho] at h; cases h
    | cert t' info priv =>
      obtain ⟨n, hinfo, hpriv⟩ := hwf
      obtain ⟨key, hdr, hk, hres⟩ := h
      rw [hpriv] at hk; cases hk
      rw [ho] at hres; cases hres
      have ht' : t' = t := ht
      subst ht'
      exact ⟨_, stop_entries hst hd he, info, n, _, rfl, rfl, hinfo, rfl, SecretData.decrypt_encrypt _ E.L _ _ _⟩

/-- C23. After a certificate was created, a request for its private key (on any unlocked connection, barring failures)
    succeeds and opens to the key belonging to the certificate that creation reported. -/
theorem C23_cert_key_available (hst : GoodStore E st) (evs₁ evs₂ : List Event) (d₁ : Done E)
    (hd₁ : d₁ ∈ (Sys.run E st evs₁).done) (i₁ t : String) (hm₁ : d₁.msg = .req i₁ (.newCert t)) (info : CertInfo)
    (ho₁ : d₁.outcome = .ok (.newCert t info))
    (d₂ : Done E) (hd₂ : d₂ ∈ (Sys.run E st (evs₁ ++ evs₂)).done) (hlater : (Sys.run E st evs₁).inbox.length ≤ d₂.id)
    (i₂ : String) (hm₂ : d₂.msg = .req i₂ (.getCertKey t)) (hs₂ : Served (Sys.run E st (evs₁ ++ evs₂)) d₂) :
    ∃ sealed n, d₂.outcome = .ok (.getCertKey sealed) ∧ sealed.decrypt E.C (E.encKey d₂.conn) = some (E.certGen n).priv ∧
      info.cert = (E.certGen n).cert ∧ info.sni = (E.certGen n).sni := by
  obtain ⟨e, hadd, htag, hrep, hent, _⟩ := C07_success_adds_exactly_one hst evs₁ d₁ hd₁ i₁ t _ hm₁ rfl _ ho₁
  obtain ⟨h1, h2⟩ := start_entries hst hd₂ hlater hent
  have hrep' : e.info = .cert t info := hrep
  cases e with
  | seed => simp [Entry.info] at hrep'
  | deep => simp [Entry.info] at hrep'
  | cert t' info' priv =>
    simp only [Entry.info, EntryInfo.cert.injEq] at hrep'
    obtain ⟨rfl, rfl⟩ := hrep'
    have hinv := done_inv hst hd₂
    obtain ⟨n, hinfo, hpriv⟩ := hinv.2.1.wf _ h2
    rcases served_spec hst hd₂ hs₂ hm₂ ⟨by simp, by simp⟩ with ⟨_, h⟩ | ⟨_, e', he', ht', h⟩
    · exact absurd rfl (h _ h1)
    · have : e' = .cert t' info' priv := hinv.2.1.distinct.eq_of_clash he' h2 (Or.inl ht')
      subst this
      obtain ⟨key, hdr, hk, hres⟩ := h
      rw [hpriv] at hk; cases hk
      exact ⟨_, n, hres, SecretData.decrypt_encrypt _ E.L _ _ _, by rw [hinfo], by rw [hinfo]⟩

/-! ### C24 -/

/-- C24. After a creation of an ordinary seed was answered with success, a sign request for the reported signing key
    (on any unlocked connection, after any other requests and restarts, barring failures) succeeds with a signature that
    verifies under that key. -/
theorem C24_reported_key_signs (hst : GoodStore E st) (evs₁ evs₂ : List Event) (d₁ : Done E)
    (hd₁ : d₁ ∈ (Sys.run E st evs₁).done) (i₁ t : String) (r : Req) (hm₁ : d₁.msg = .req i₁ r) (hc : Creates r t)
    (resp : Resp) (ho₁ : d₁.outcome = .ok resp) (info : SeedInfo)
    (hrep : resp = .newSeed t info ∨ resp = .importSeed t info ∨ resp = .deriveSeed info)
    (e : Entry) (hadd : (Sys.run E st evs₁).added d₁.id = [e]) (hord : e.IsSeed)
    (d₂ : Done E) (hd₂ : d₂ ∈ (Sys.run E st (evs₁ ++ evs₂)).done) (hlater : (Sys.run E st evs₁).inbox.length ≤ d₂.id)
    (i₂ : String) (p : Option (SecretSized 81)) (data : Bytes) (hm₂ : d₂.msg = .req i₂ (.sign info.ed p data))
    (hs₂ : Served (Sys.run E st (evs₁ ++ evs₂)) d₂) :
    ∃ sig, d₂.outcome = .ok (.sign sig) ∧ E.C.verify info.ed data sig = true := by
  obtain ⟨e', hadd', htag, hrp, hent, _⟩ := C07_success_adds_exactly_one hst evs₁ d₁ hd₁ i₁ t _ hm₁ hc _ ho₁
  rw [hadd] at hadd'
  cases hadd'
  have hk : e.edKey = some info.ed := by
    have : e.info = .seed e.tag info ∨ e.info = .deep e.tag info := by
      rcases hrep with rfl | rfl | rfl
      · rw [htag]; exact hrp
      · rw [htag]; exact hrp
      · exact hrp
    cases e with
    | seed _ i _ => rcases this with h | h <;> simp [Entry.info] at h; rw [← h.2]; rfl
    | deep _ i _ _ _ _ => rcases this with h | h <;> simp [Entry.info] at h; rw [← h.2]; rfl
    | cert => rcases this with h | h <;> simp [Entry.info] at h
  obtain ⟨h1, h2⟩ := start_entries hst hd₂ hlater hent
  have hinv := done_inv hst hd₂
  obtain ⟨s, hh⟩ := holds_exists (hinv.2.1.wf _ h2) hord
  have hpk := (wf_keys (hinv.2.1.wf _ h2) hh).1
  rw [hk] at hpk
  have hpk' : info.ed = E.C.edPk s := Option.some.inj hpk
  rcases served_spec hst hd₂ hs₂ hm₂ ⟨by simp, by simp⟩ with ⟨_, f, hf, hfk, ho⟩ | ⟨_, _, h⟩ | ⟨_, a, _, _, h⟩ | ⟨_, a, h, _⟩
  · obtain ⟨hfe, _, hsk, _⟩ := full_of_seed hinv.2.1 hf h2 (Or.inr (Or.inl ⟨info.ed, hfk, hk⟩)) hh
    refine ⟨E.C.sign (E.C.edSk s) data, ?_, by rw [hpk']; exact E.L.verify_sign _ _⟩
    cases e with
    | seed t' i' enc =>
      rw [ho]
      simp [signKey, hfe, hsk, Except.map]
    | deep => exact absurd hord (by simp [Entry.IsSeed])
    | cert => exact absurd hord (by simp [Entry.IsSeed])
  · exact absurd hk (h e h1)
  · exact absurd hk (h e h1)
  · have := hs₂.2; rw [← log_eq hd₂, h] at this; simp at this

/-- C17. Signatures with the imported seed verify under the original key: after the import of an exported seed as an ordinary seed, the
    importing keystore answers a sign request for the key of the exported entry - on any unlocked connection, after any other
    requests and restarts, barring failures - with a signature that verifies under it. -/
theorem C17_imported_key_signs (E₁ E₂ : Env) (hC : E₂.C = E₁.C) (st₁ : E₁.S.σ) (st₂ : E₂.S.σ) (h₁ : GoodStore E₁ st₁)
    (h₂ : GoodStore E₂ st₂) (evs₁ evs₂ evs₃ : List Event)
    -- the export
    (d₁ : Done E₁) (hd₁ : d₁ ∈ (Sys.run E₁ st₁ evs₁).done) (i₁ t₁ : String) (sender recipient : B 32)
    (dp : Option (SecretSized 81)) (hm₁ : d₁.msg = .req i₁ (.exportSeed t₁ sender recipient dp)) (nonce : B 24)
    (cipher : Bytes) (ho₁ : d₁.outcome = .ok (.exportSeed nonce cipher))
    -- the import of what was exported
    (d₂ : Done E₂) (hd₂ : d₂ ∈ (Sys.run E₂ st₂ evs₂).done) (i₂ t₂ : String) (x : Bool)
    (hm₂ : d₂.msg = .req i₂ (.importSeed sender recipient none nonce cipher t₂ x)) (hs₂ : Served (Sys.run E₂ st₂ evs₂) d₂)
    (r : Entry) (hr : r ∈ E₂.S.tbl d₂.start.store) (hrk : r.xKey = some recipient) (hrs : r.IsSeed)
    (e : Entry) (he : e ∈ (Sys.run E₁ st₁ evs₁).entries) (het : e.tag = t₁) (ed xk : B 32) (hed : e.edKey = some ed)
    (hxk : e.xKey = some xk)
    (hfree : (Sys.run E₂ st₂ evs₂).FreeFor d₂.id t₂ ed xk) (hroom : ∀ e' : Entry, e'.tag = t₂ → E₂.S.fits e' = true)
    -- a later sign request
    (d₃ : Done E₂) (hd₃ : d₃ ∈ (Sys.run E₂ st₂ (evs₂ ++ evs₃)).done) (hlater : (Sys.run E₂ st₂ evs₂).inbox.length ≤ d₃.id)
    (i₃ : String) (p : Option (SecretSized 81)) (data : Bytes) (hm₃ : d₃.msg = .req i₃ (.sign ed p data))
    (hs₃ : Served (Sys.run E₂ st₂ (evs₂ ++ evs₃)) d₃) :
    ∃ sig, d₃.outcome = .ok (.sign sig) ∧ E₁.C.verify ed data sig = true := by
  obtain ⟨hout, e₂, he₂, hinfo⟩ := C17_export_import E₁ E₂ hC st₁ st₂ h₁ h₂ evs₁ evs₂ d₁ hd₁ i₁ t₁ sender recipient dp hm₁ nonce cipher ho₁
    d₂ hd₂ i₂ t₂ x none hm₂ (by simp [Lockable]) hs₂ r hr hrk hrs e he het ed xk hed hxk hfree hroom
  simp only [if_true] at hinfo
  obtain ⟨e', hadd, htag, -, hent, -⟩ := C07_success_adds_exactly_one h₂ evs₂ d₂ hd₂ i₂ t₂ _ hm₂ (by constructor) _ hout
  have htag₂ : e₂.tag = t₂ := by
    cases e₂ <;> simp [Entry.info] at hinfo
    exact hinfo.1
  have : e' = e₂ := (sysInv_run h₂ evs₂).inv.distinct.eq_of_clash hent he₂ (Or.inl (by rw [htag, htag₂]))
  subst this
  have hord : e'.IsSeed := by
    cases e' <;> simp [Entry.info] at hinfo
    simp [Entry.IsSeed]
  have := C24_reported_key_signs h₂ evs₂ evs₃ d₂ hd₂ i₂ t₂ _ hm₂ (by constructor) _ hout ⟨ed, xk, x⟩ (Or.inr (Or.inl rfl)) e' hadd hord
    d₃ hd₃ hlater i₃ p data hm₃ hs₃
  rw [hC] at this
  exact this

/-- C24. ... and getting the entry reports the same information. -/
theorem C24_reported_info_is_got (hst : GoodStore E st) (evs₁ evs₂ : List Event) (d₁ : Done E)
    (hd₁ : d₁ ∈ (Sys.run E st evs₁).done) (i₁ t : String) (r : Req) (hm₁ : d₁.msg = .req i₁ r) (hc : Creates r t)
    (resp : Resp) (ho₁ : d₁.outcome = .ok resp)
    (d₂ : Done E) (hd₂ : d₂ ∈ (Sys.run E st (evs₁ ++ evs₂)).done) (hlater : (Sys.run E st evs₁).inbox.length ≤ d₂.id)
    (i₂ : String) (hm₂ : d₂.msg = .req i₂ (.getEntry t)) (hs₂ : Served (Sys.run E st (evs₁ ++ evs₂)) d₂) :
    ∃ e, d₂.outcome = .ok (.getEntry e.info) ∧ e.tag = t ∧ Reports resp e := by
  obtain ⟨e, hadd, htag, hrp, hent, _⟩ := C07_success_adds_exactly_one hst evs₁ d₁ hd₁ i₁ t _ hm₁ hc _ ho₁
  refine ⟨e, ?_, htag, hrp⟩
  obtain ⟨h1, h2⟩ := start_entries hst hd₂ hlater hent
  rcases served_spec hst hd₂ hs₂ hm₂ ⟨by simp, by simp⟩ with ⟨_, h⟩ | ⟨_, e', he', ht', ho⟩
  · exact absurd htag (h e h1)
  · have : e' = e := (done_inv hst hd₂).2.1.distinct.eq_of_clash he' h2 (Or.inl (by rw [ht', htag]))
    rw [ho, this]

/-! ### Concrete cases

One run in which the hypotheses of C13 - C24 are met: keys are created (ordinary, exportable, deep-locked, a
certificate), used, exported and imported. -/

section Examples
open Ex

/-- Seeds `11` (exportable), `12` (not exportable), `13` (deep-locked), and a certificate. -/
def setup : List Event := unlock 0 ++ serve 0 (.req "a" (.newSeed "alice" none true)) 11 ++
  serve 0 (.req "b" (.newSeed "bob" none false)) 12 ++
  serve 0 (.req "c" (.newSeed "carol" (some ⟨1, 1, sent 0 pass⟩) true)) 13 ++ serve 0 (.req "t" (.newCert "tls")) 7

example : (outcomes true 2 setup).map Res.isOk = [true, true, true, true, true] := by decide +kernel

/-- C13, C24: signing with an ordinary and (with its passphrase) with a deep-locked seed; without the passphrase, or with
    a wrong one, the latter fails (C14). -/
example : (outcomes true 2 (setup ++ serve 0 (.req "1" (.sign (B.fill 32 11) none [1, 2])) 0 ++
    serve 0 (.req "2" (.sign (B.fill 32 13) (some (sent 0 pass)) [1, 2])) 0 ++
    serve 0 (.req "3" (.sign (B.fill 32 13) none [1, 2])) 0 ++
    serve 0 (.req "4" (.sign (B.fill 32 13) (some (sent 0 (B.fill 64 8))) [1, 2])) 0)).drop 5 =
  [.ok (.sign (B.fill 64 11)), .ok (.sign (B.fill 64 13)),
    .error "The entry for this key is not a seed which can produce a signature", .error "decrypt error"] := by decide +kernel

/-- C13: no call of the external signer is among the effects of these; the keys are of ordinary / deep-locked entries. -/
example : let s := Sys.run (env true 2) MemStore.empty (setup ++ serve 0 (.req "1" (.sign (B.fill 32 11) none [1, 2])) 0)
  s.done.map (fun d => s.effects d.id == []) = [false, false, false, false, false, true] ∧
  s.entries.map Entry.edKey = [some (B.fill 32 11), some (B.fill 32 12), some (B.fill 32 13), none] := by decide +kernel

/-- No cipher of the example cryptography opens to two plaintexts (hypotheses of C13, C18, C37, C47, C56). -/
example (h : B 24) (c : Bytes) : ¬ Toy.crypto.OpensTwice h c := fun ⟨_, _, _, _, h1, h2, hne⟩ => hne (Toy.committing _ _ _ _ _ _ h1 h2)
example (k k' : B 32) (h : B 24) (p m : Bytes) (hd : Toy.crypto.ssDec k' h (Toy.crypto.ssEnc k h p) = some m) : m = p :=
  Toy.committing _ _ _ _ _ _ hd (Toy.lawful.ss_dec k h p)

/-- C14: a deep-locked seed cannot be used for boxes, secret boxes or export. -/
example : ((outcomes true 2 (setup ++ serve 0 (.req "1" (.boxEnc (B.fill 32 13) (B.fill 32 12) none [5])) 0 ++
    serve 0 (.req "2" (.sboxEnc "carol" none [5])) 0 ++
    serve 0 (.req "3" (.exportSeed "carol" (B.fill 32 11) (B.fill 32 12) none)) 0)).drop 5).map Res.isOk = [false, false, false] := by
  decide +kernel

/-- C15: an unknown key goes to the external signer, if there is one. -/
example : (outcomes true 2 (setup ++ serve 0 (.req "1" (.sign (B.fill 32 99) none [1, 2])) 0)).drop 5 =
    [.ok (.sign (B.fill 64 0xFA))] ∧
  ((outcomes false 2 (setup ++ serve 0 (.req "1" (.sign (B.fill 32 99) none [1, 2])) 0)).drop 5).map Res.isOk = [false] := by
  decide +kernel

/-- C16, C17: `alice` is exported from her own key to the key of `bob` and imported, under a new name, into a keystore
    holding only `bob`, which then signs with her key. -/
example : (outcomes true 2 (setup ++ serve 0 (.req "1" (.exportSeed "alice" (B.fill 32 11) (B.fill 32 12) none)) 3 ++
    serve 0 (.req "2" (.exportSeed "bob" (B.fill 32 11) (B.fill 32 12) none)) 3)).drop 5 =
  [.ok (.exportSeed (B.fill 24 3) ((B.fill 16 23).val ++ (B.fill 32 11).val)), .error "seed is not exportable"] ∧
  outcomes true 2 (unlock 1 ++ serve 1 (.req "b" (.newSeed "bob" none false)) 12 ++
    serve 1 (.req "i" (.importSeed (B.fill 32 11) (B.fill 32 12) none (B.fill 24 3) ((B.fill 16 23).val ++ (B.fill 32 11).val)
      "alice2" false)) 0 ++ serve 1 (.req "s" (.sign (B.fill 32 11) none [1, 2])) 0) =
  [.ok .unlock, .ok (.newSeed "bob" ⟨B.fill 32 12, B.fill 32 12, false⟩),
    .ok (.importSeed "alice2" ⟨B.fill 32 11, B.fill 32 11, false⟩),
    .ok (.sign (Toy.crypto.sign (Toy.crypto.edSk (B.fill 32 11)) [1, 2]))] := by decide +kernel

/-- C18: two derivations in a row, and one derivation along the joined path in another run; the empty path. -/
example : ((outcomes true 2 (setup ++ serve 0 (.req "1" (.deriveSeed "alice" none "a1" none [1])) 0 ++
    serve 0 (.req "2" (.deriveSeed "a1" none "a12" none [2, 3])) 0)).drop 6 =
  (outcomes true 2 (setup ++ serve 0 (.req "3" (.deriveSeed "alice" none "b" none [1, 2, 3])) 0)).drop 5) ∧
  ((outcomes true 2 (setup ++ serve 0 (.req "3" (.deriveSeed "alice" none "b" none [])) 0)).drop 5).map Res.isOk = [false] := by
  decide +kernel

/-- C18: the same with deep-locked seeds: from the deep-locked `carol` to the deep-locked `c1` to `c12`, and from `carol` in one go. -/
example : ((outcomes true 2 (setup ++ serve 0 (.req "1" (.deriveSeed "carol" (some ⟨1, 1, sent 0 pass⟩) "c1" (some ⟨2, 1, sent 0 pass⟩) [1])) 0 ++
    serve 0 (.req "2" (.deriveSeed "c1" (some ⟨2, 1, sent 0 pass⟩) "c12" none [2, 3])) 0)).drop 6 =
  (outcomes true 2 (setup ++ serve 0 (.req "3" (.deriveSeed "carol" (some ⟨1, 1, sent 0 pass⟩) "b" (some ⟨1, 3, sent 0 pass⟩) [1, 2, 3])) 0)).drop 5) ∧
  ((outcomes true 2 (setup ++ serve 0 (.req "3" (.deriveSeed "carol" (some ⟨1, 1, sent 0 pass⟩) "b" none [1, 2, 3])) 0)).drop 5).map Res.isOk = [true] := by
  decide +kernel

/-- C20: the hypotheses of the partial theorem. -/
example : ((outcomes true 2 (setup ++ serve 0 (.req "1" (.deriveSeed "carol" (some ⟨1, 1, sent 0 pass⟩) "c1" none [1])) 0)).drop 5).map
    Res.isOk = [true] := by decide +kernel

/-- C21, C22: boxes and secret boxes, back and forth. -/
example : (outcomes true 2 (setup ++ serve 0 (.req "1" (.boxEnc (B.fill 32 11) (B.fill 32 12) none [5, 6])) 0 ++
    serve 0 (.req "2" (.boxDec (B.fill 32 11) (B.fill 32 12) none (B.fill 24 0) ((B.fill 16 23).val ++ [5, 6]))) 0 ++
    serve 0 (.req "3" (.boxEncEd (B.fill 32 11) (B.fill 32 12) none [5, 6])) 0 ++
    serve 0 (.req "4" (.boxDecEd (B.fill 32 11) (B.fill 32 12) none (B.fill 24 0) ((B.fill 16 23).val ++ [5, 6]))) 0 ++
    serve 0 (.req "5" (.sboxEnc "bob" none [5, 6])) 0 ++
    serve 0 (.req "6" (.sboxDec "bob" none (B.fill 24 0) ((B.fill 16 12).val ++ [5, 6]))) 0 ++
    serve 0 (.req "7" (.sboxDec "bob" none (B.fill 24 0) [1, 2])) 0)).drop 5 =
  [.ok (.boxEnc (B.fill 24 0) ((B.fill 16 23).val ++ [5, 6])), .ok (.boxDec [5, 6]),
    .ok (.boxEncEd (B.fill 24 0) ((B.fill 16 23).val ++ [5, 6])), .ok (.boxDecEd [5, 6]),
    .ok (.sboxEnc (B.fill 24 0) ((B.fill 16 12).val ++ [5, 6])), .ok (.sboxDec [5, 6]),
    .error "InvalidCipherLength"] := by decide +kernel

/-- C23: the private key of the certificate is returned to the connection that asked (and not for a seed's tag). -/
example : (outcomes true 2 (setup ++ serve 0 (.req "1" (.getCertKey "tls")) 0 ++ serve 0 (.req "2" (.getCertKey "bob")) 0)).drop 5 =
  [.ok (.getCertKey (SecretData.encrypt Toy.crypto ((env true 2).encKey 0) (B.fill 24 0) ((env true 2).certGen 7).priv)),
    .error "invalid entry type"] := by decide +kernel

/-- `FreeFor` and `Served` of a fresh creation hold. -/
example : let s := Sys.run (env true 2) MemStore.empty setup
  s.FreeFor 1 "alice" (B.fill 32 11) (B.fill 32 11) ∧
  s.done.map (fun d => (d.start.unlocked d.conn, decide (Ev.fault ∈ s.effects d.id))) =
    [(false, false), (true, false), (true, false), (true, false), (true, false)] := by
  refine ⟨?_, by decide +kernel⟩
  unfold Sys.FreeFor
  decide +kernel

end Examples

end Lair
