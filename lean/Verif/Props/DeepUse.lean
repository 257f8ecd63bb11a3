import Verif.Props.Created
import Verif.Props.Usage

/-
C24 for deep-locked seeds: what is created with a passphrase can be used with it, on every connection, for ever.
-/
namespace Lair

variable {E : Env} {st : E.S.σ}

/-- The request asks for a deep-locked seed under tag `t`, locked with `p`. -/
def CreatesLocked (r : Req) (t : String) (p : DeepPass) : Prop :=
  (∃ x, r = .newSeed t (some p) x) ∨ (∃ s rc n c x, r = .importSeed s rc (some p) n c t x) ∨
  (∃ src sd path, r = .deriveSeed src sd t (some p) path)

/-- What such a request has created. -/
theorem locked_created (hst : GoodStore E st) (evs : List Event) (d : Done E) (hd : d ∈ (Sys.run E st evs).done) (i t : String) (r : Req)
    (p : DeepPass) (hm : d.msg = .req i r) (hr : CreatesLocked r t p) (resp : Resp) (ho : d.outcome = .ok resp) :
    ∃ seed x pass salt key enc, p.pass.decrypt (m := 64) E.C (E.decKey d.conn) = some pass ∧
      E.C.argon2id pass.val salt p.ops p.mem = some key ∧ enc.decrypt (m := 32) E.C key = some seed ∧
      (resp = .newSeed t ⟨E.C.edPk seed, E.C.xPk seed, x⟩ ∨ resp = .importSeed t ⟨E.C.edPk seed, E.C.xPk seed, x⟩ ∨
        resp = .deriveSeed ⟨E.C.edPk seed, E.C.xPk seed, x⟩) ∧
      Entry.deep t ⟨E.C.edPk seed, E.C.xPk seed, x⟩ salt p.ops p.mem enc ∈ (Sys.run E st evs).entries := by
  have fin : ∀ seed x item, wanted E d.conn t seed (some p) x = some item → AddedItem E st evs d item →
      ∃ pass salt key enc, p.pass.decrypt (m := 64) E.C (E.decKey d.conn) = some pass ∧
      E.C.argon2id pass.val salt p.ops p.mem = some key ∧ enc.decrypt (m := 32) E.C key = some seed ∧
      Entry.deep t ⟨E.C.edPk seed, E.C.xPk seed, x⟩ salt p.ops p.mem enc ∈ (Sys.run E st evs).entries := by
    intro seed x item hw ⟨e, _, he, hrep⟩
    simp only [wanted, decPass, Option.map_eq_some_iff] at hw
    obtain ⟨pass, hp, rfl⟩ := hw
    cases hrep with
    | locked _ _ _ _ _ _ salt key enc ha hdec => exact ⟨pass, salt, key, enc, hp, ha, hdec, he⟩
  rcases hr with ⟨x, rfl⟩ | ⟨s, rc, n, c, x, rfl⟩ | ⟨src, sd, path, rfl⟩
  · obtain ⟨seed, item, hw, ha, hres⟩ := C59_new_seed_as_asked hst evs d hd i t _ x hm resp ho
    obtain ⟨pass, salt, key, enc, h1, h2, h3, h4⟩ := fin _ _ _ hw ha
    exact ⟨seed, x, pass, salt, key, enc, h1, h2, h3, Or.inl hres, h4⟩
  · obtain ⟨seed, item, _, _, _, _, _, _, _, _, hw, ha, hres⟩ := C59_import_as_asked hst evs d hd i s rc _ n c t x hm resp ho
    obtain ⟨pass, salt, key, enc, h1, h2, h3, h4⟩ := fin _ _ _ hw ha
    exact ⟨seed, x, pass, salt, key, enc, h1, h2, h3, Or.inr (Or.inl hres), h4⟩
  · obtain ⟨s, info, item, _, _, _, _, hw, ha, hres⟩ := C59_derived_as_asked hst evs d hd i src t sd _ path hm resp ho
    obtain ⟨pass, salt, key, enc, h1, h2, h3, h4⟩ := fin _ _ _ hw ha
    exact ⟨_, info.exportable, pass, salt, key, enc, h1, h2, h3, Or.inr (Or.inr hres), h4⟩

/-- C24. After a deep-locked seed was created (new, imported or derived) with a passphrase, a sign request for the reported signing key with
    the same passphrase - sent on any unlocked connection, after any other requests and restarts, barring failures - succeeds with a
    signature that verifies under that key; the limits need not be repeated. -/
theorem C24_deep_locked_key_signs (hst : GoodStore E st) (evs₁ evs₂ : List Event) (d₁ : Done E)
    (hd₁ : d₁ ∈ (Sys.run E st evs₁).done) (i₁ t : String) (r : Req) (p : DeepPass) (hm₁ : d₁.msg = .req i₁ r) (hr : CreatesLocked r t p)
    (resp : Resp) (ho₁ : d₁.outcome = .ok resp) (info : SeedInfo)
    (hrep : resp = .newSeed t info ∨ resp = .importSeed t info ∨ resp = .deriveSeed info)
    (d₂ : Done E) (hd₂ : d₂ ∈ (Sys.run E st (evs₁ ++ evs₂)).done) (hlater : (Sys.run E st evs₁).inbox.length ≤ d₂.id)
    (i₂ : String) (p₂ : SecretSized 81) (data : Bytes) (hm₂ : d₂.msg = .req i₂ (.sign info.ed (some p₂) data))
    (hsame : p₂.decrypt (m := 64) E.C (E.decKey d₂.conn) = p.pass.decrypt (m := 64) E.C (E.decKey d₁.conn))
    (hs₂ : Served (Sys.run E st (evs₁ ++ evs₂)) d₂) :
    ∃ sig, d₂.outcome = .ok (.sign sig) ∧ E.C.verify info.ed data sig = true := by
  obtain ⟨seed, x, pass, salt, key, enc, h1, h2, h3, hres, hent⟩ := locked_created hst evs₁ d₁ hd₁ i₁ t r p hm₁ hr resp ho₁
  have hinfo : info = ⟨E.C.edPk seed, E.C.xPk seed, x⟩ := by
    rcases hrep with rfl | rfl | rfl <;> rcases hres with h | h | h <;> cases h <;> rfl
  subst hinfo
  obtain ⟨hA, hB⟩ := start_entries hst hd₂ hlater hent
  have hinv := done_inv hst hd₂
  rcases served_spec hst hd₂ hs₂ hm₂ ⟨by simp, by simp⟩ with ⟨_, f, hf, hfk, ho⟩ | ⟨_, _, h⟩ | ⟨_, a, _, _, h⟩ | ⟨_, a, h, _⟩
  · have hfe : f.entry = .deep t ⟨E.C.edPk seed, E.C.xPk seed, x⟩ salt p.ops p.mem enc :=
      hinv.2.1.distinct.eq_of_clash hf.1 hB (Or.inr (Or.inl ⟨_, hfk, rfl⟩))
    refine ⟨E.C.sign (E.C.edSk seed) data, ?_, E.L.verify_sign _ _⟩
    rw [ho]
    simp [signKey, hfe, deepKey, decPass, hsame, h1, h2, Res.ofOption, h3, Except.map]
  · exact absurd rfl (h _ hA)
  · exact absurd rfl (h _ hA)
  · have := hs₂.2; rw [← log_eq hd₂, h] at this; simp at this

/-- C24. ... and a derivation from it with the same passphrase and the same limits succeeds, too, when nothing else has the new tag or the
    derived keys and there is room. (That the limits have to be repeated is C20.) -/
theorem C24_deep_locked_key_derives (hst : GoodStore E st) (evs₁ evs₂ : List Event) (d₁ : Done E)
    (hd₁ : d₁ ∈ (Sys.run E st evs₁).done) (i₁ t : String) (r : Req) (p : DeepPass) (hm₁ : d₁.msg = .req i₁ r) (hr : CreatesLocked r t p)
    (resp : Resp) (ho₁ : d₁.outcome = .ok resp) (info : SeedInfo)
    (hrep : resp = .newSeed t info ∨ resp = .importSeed t info ∨ resp = .deriveSeed info)
    (d₂ : Done E) (hd₂ : d₂ ∈ (Sys.run E st (evs₁ ++ evs₂)).done) (hlater : (Sys.run E st evs₁).inbox.length ≤ d₂.id)
    (i₂ dst : String) (p₂ : DeepPass) (deep : Option DeepPass) (path : List UInt32)
    (hm₂ : d₂.msg = .req i₂ (.deriveSeed t (some p₂) dst deep path)) (hlk : Lockable E d₂.conn deep)
    (hsame : p₂.pass.decrypt (m := 64) E.C (E.decKey d₂.conn) = p.pass.decrypt (m := 64) E.C (E.decKey d₁.conn))
    (hlim : p₂.ops = p.ops ∧ p₂.mem = p.mem) (hs₂ : Served (Sys.run E st (evs₁ ++ evs₂)) d₂)
    (hfree : ∀ seed seed', info.ed = E.C.edPk seed → DerivedBy E.C seed path seed' →
      (Sys.run E st (evs₁ ++ evs₂)).FreeFor d₂.id dst (E.C.edPk seed') (E.C.xPk seed'))
    (hroom : ∀ e' : Entry, e'.tag = dst → E.S.fits e' = true) :
    ∃ info', d₂.outcome = .ok (.deriveSeed info') := by
  obtain ⟨seed, x, pass, salt, key, enc, h1, h2, h3, hres, hent⟩ := locked_created hst evs₁ d₁ hd₁ i₁ t r p hm₁ hr resp ho₁
  obtain ⟨hA, hB⟩ := start_entries hst hd₂ hlater hent
  have hder : DerivedBy E.C seed path (derivePath E.C seed path) := (derivedBy_iff _ _ _ _).2 rfl
  have hinfo : info.ed = E.C.edPk seed := by
    rcases hrep with rfl | rfl | rfl <;> rcases hres with h | h | h <;> cases h <;> rfl
  have hf := hfree seed _ hinfo hder
  obtain ⟨y, hy⟩ := C20_derive_from_deep_partial hst (evs₁ ++ evs₂) d₂ hd₂ i₂ t dst p₂ deep path hm₂ hlk hs₂ _ hA rfl seed
    (derivePath E.C seed path) (by simp [Entry.limits?, hlim.1, hlim.2])
    (opens_of_key (key := key) (by simp [deepKey, decPass, hsame, h1, hlim.1, hlim.2, h2, Res.ofOption]) h3) hder hf hroom
  exact ⟨_, hy⟩

-- a deep-locked seed is created on connection 0, and used on connection 1 after another request and a restart
set_option maxRecDepth 100000 in
example : (Sys.run (Ex.env false 2) MemStore.empty (Ex.unlock 0 ++
    Ex.serve 0 (.req "n" (.newSeed "deep" (some ⟨2, 2, Ex.sent 0 Ex.pass⟩) false)) 11 ++ [.restart] ++ Ex.unlock 1 ++
    Ex.serve 1 (.req "s" (.sign (B.fill 32 11) (some (Ex.sent 1 Ex.pass)) [1, 2])) 0 ++
    Ex.serve 1 (.req "d" (.deriveSeed "deep" (some ⟨2, 2, Ex.sent 1 Ex.pass⟩) "x" none [1])) 0)).done.map
      (fun d => (d.msg.id, d.outcome.isOk, d.start.unlocked d.conn)) =
    [("u", true, false), ("n", true, true), ("u", true, false), ("s", true, true), ("d", true, true)] ∧
    (Ex.sent 1 Ex.pass).decrypt (m := 64) (Ex.env false 2).C ((Ex.env false 2).decKey 1) =
      (Ex.sent 0 Ex.pass).decrypt (m := 64) (Ex.env false 2).C ((Ex.env false 2).decKey 0) := by decide +kernel

end Lair
