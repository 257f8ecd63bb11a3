import Verif.Logic

/-
What each handler does, for any interference by other handlers between its start state `s₀` and its end state `s₁`:
its log of effects and its outcome. Proved of the handler programs in `Verif.HandlerProofs`; the properties in
`Verif.Props` are consequences and do not mention these definitions.
-/
namespace Lair

section
variable (E : Env)

/-- Only injected failures were logged: no write, no fallback call, no unlock.
    Specification: nothing in the code corresponds. -/
def Quiet (l : List Ev) : Prop := ∀ ev ∈ l, ev = .fault

/-- The outcome of an injected failure. Specification: nothing in the code corresponds. -/
def Faulted (l : List Ev) (o : Res Resp) : Prop := l = [.fault] ∧ ∃ x, o = .error x

/-- An error without any effect. Specification: nothing in the code corresponds. -/
def Refused (l : List Ev) (o : Res Resp) : Prop := l = [] ∧ ∃ x, o = .error x

/-- The public information of a seed. Specification: nothing in the code corresponds. -/
def infoOf (seed : B 32) (exportable : Bool) : SeedInfo := ⟨E.C.edPk seed, E.C.xPk seed, exportable⟩

/-- `e` is an entry holding `seed` under `tag`, deep-locked as asked.
    Specification: nothing in the code corresponds. -/
def IsNew (c : Nat) (seed : B 32) (tag : String) (deep : Option DeepPass) (exportable : Bool) (e : Entry) : Prop :=
  match deep with
  | none => ∃ hdr, e = .seed tag (infoOf E seed exportable) (SecretSized.encrypt E.C E.L E.bidi hdr seed)
  | some d => ∃ pass salt key hdr, decPass E c d.pass = some pass ∧ E.C.argon2id pass.val salt d.ops d.mem = some key ∧
      e = .deep tag (infoOf E seed exportable) salt d.ops d.mem (SecretSized.encrypt E.C E.L key hdr seed)

variable {E} (c : Nat) (s₀ s₁ : Shared E) (l : List Ev) (o : Res Resp)

/-- The reasons for which adding a seed can be refused. Specification: nothing in the code corresponds. -/
def CannotCreate (s : Shared E) (seed : B 32) (tag : String) (deep : Option DeepPass) (exportable : Bool) : Prop :=
  (∃ d, deep = some d ∧ decPass E c d.pass = none) ∨
  (∃ d pass salt, deep = some d ∧ decPass E c d.pass = some pass ∧ E.C.argon2id pass.val salt d.ops d.mem = none) ∨
  (∃ e, IsNew E c seed tag deep exportable e ∧ (E.S.fits e = false ∨ ∃ e' ∈ s.tbl, Clash e' e))

/-- The entry `e` fitted, and it was added after the entries `src`. Specification: nothing in the code corresponds. -/
def Placed (s : Shared E) (src : List Entry) (e : Entry) : Prop :=
  E.S.fits e = true ∧ ∃ pre more, s.tbl = pre ++ e :: more ∧ ∀ a ∈ src, a ∈ pre

/-- Adding a seed, having read the entries `src` before. Specification: nothing in the code corresponds. -/
def CreateSpec (seed : B 32) (tag : String) (deep : Option DeepPass) (exportable : Bool) (mk : SeedInfo → Resp) (src : List Entry) : Prop :=
  (∃ e, IsNew E c seed tag deep exportable e ∧ l = [.wrote e] ∧ o = .ok (mk (infoOf E seed exportable)) ∧ e ∈ s₁.tbl ∧
    (∀ e' ∈ s₀.tbl, ¬ Clash e' e) ∧ Placed s₁ src e) ∨
  (Refused l o ∧ CannotCreate c s₁ seed tag deep exportable)

/-- Outcome of the export, given the two full entries and the nonce.
    Specification: nothing in the code corresponds. -/
def exportOut (sf ef : Full) (recipient : B 32) (nonce : B 24) : Res Resp :=
  match ef.xSk, sf.seed with
  | some xSk, some seed =>
    if sf.exportable = false then .error "seed is not exportable"
    else match E.C.box nonce seed.val recipient xSk with
      | some ci => .ok (.exportSeed nonce ci)
      | none => .error "crypto_box error"
  | _, _ => .error "deep_seed crypto_box not yet implemented"

/-- What request `r` of connection `c` does once the lock check has passed (injected failures aside).
    Specification: nothing in the code corresponds. -/
def ReqSpec : Req → Prop
  | .hello => False
  | .unlock _ => False
  | .getEntry t =>
    (Refused l o ∧ ∀ e ∈ s₀.tbl, e.tag ≠ t) ∨
    (l = [] ∧ ∃ e ∈ s₁.tbl, e.tag = t ∧ o = .ok (.getEntry e.info))
  | .listEntries => l = [] ∧ ∃ s infos, Ext s₀ s ∧ Ext s s₁ ∧ Inv s ∧ infos.Perm (s.tbl.map Entry.info) ∧
      o = .ok (.listEntries infos)
  | .newSeed t d x => (Refused l o ∧ ∃ dp, d = some dp ∧ decPass E c dp.pass = none) ∨
      ∃ seed, CreateSpec c s₀ s₁ l o seed t d x (.newSeed t) []
  | .deriveSeed src sd dst dd path =>
    (Refused l o ∧ ∀ e ∈ s₀.tbl, e.tag ≠ src) ∨
    ∃ e ∈ s₁.tbl, e.tag = src ∧ ((Refused l o ∧ ∃ x, deriveSource E c e sd = .error x) ∨
      ∃ seed info, deriveSource E c e sd = .ok (seed, info) ∧
        CreateSpec c s₀ s₁ l o (derivePath E.C seed path) dst dd info.exportable .deriveSeed [e] ∧
        ∀ e', Ev.wrote e' ∈ l → ¬ Clash e e')
  | .exportSeed t sender recipient _ =>
    (Refused l o ∧ ((∀ e ∈ s₀.tbl, e.tag ≠ t) ∨ ∀ e ∈ s₀.tbl, e.xKey ≠ some sender)) ∨
    (l = [] ∧ ∃ sf ef nonce, FullIn s₁ sf ∧ sf.entry.tag = t ∧ FullIn s₁ ef ∧ ef.entry.xKey = some sender ∧
      o = exportOut (E := E) sf ef recipient nonce)
  | .importSeed sender recipient d nonce cipher t x =>
    (Refused l o ∧ ∀ e ∈ s₀.tbl, e.xKey ≠ some recipient) ∨
    ∃ f, FullIn s₁ f ∧ f.entry.xKey = some recipient ∧
      ((Refused l o ∧ (cipher.length ≠ 48 ∨ f.xSk = none ∨
          ∃ xSk, f.xSk = some xSk ∧ ∀ seed : B 32, E.C.boxOpen nonce cipher sender xSk ≠ some seed.val)) ∨
        ∃ xSk, ∃ seed : B 32, f.xSk = some xSk ∧ cipher.length = 48 ∧
          E.C.boxOpen nonce cipher sender xSk = some seed.val ∧ CreateSpec c s₀ s₁ l o seed t d x (.importSeed t) [f.entry])
  | .sign pk deep data =>
    (l = [] ∧ ∃ f, FullIn s₁ f ∧ f.entry.edKey = some pk ∧ o = (signKey E c f deep).map (fun sk => .sign (E.C.sign sk data))) ∨
    (E.hasFallback = false ∧ Refused l o ∧ ∀ e ∈ s₀.tbl, e.edKey ≠ some pk) ∨
    (E.hasFallback = true ∧ ∃ ans, l = [.fell pk data ans] ∧ o = ans.map Resp.sign ∧ ∀ e ∈ s₀.tbl, e.edKey ≠ some pk) ∨
    (E.hasFallback = true ∧ ∃ ans, l = [.fault, .fell pk data ans] ∧ o = ans.map Resp.sign)
  | .boxEnc sender recipient _ data =>
    (Refused l o ∧ ∀ e ∈ s₀.tbl, e.xKey ≠ some sender) ∨
    (l = [] ∧ ∃ f nonce, FullIn s₁ f ∧ f.entry.xKey = some sender ∧
      o = match f.xSk with
        | none => .error "deep_seed crypto_box not yet implemented"
        | some xSk => (Res.ofOption "crypto_box error" (E.C.box nonce data recipient xSk)).map (.boxEnc nonce))
  | .boxDec sender recipient _ nonce cipher =>
    (Refused l o ∧ ∀ e ∈ s₀.tbl, e.xKey ≠ some recipient) ∨
    (l = [] ∧ ∃ f, FullIn s₁ f ∧ f.entry.xKey = some recipient ∧
      o = if cipher.length < 16 then .error "InvalidCipherLength" else match f.xSk with
        | none => .error "deep_seed crypto_box not yet implemented"
        | some xSk => (Res.ofOption "crypto_box error" (E.C.boxOpen nonce cipher sender xSk)).map .boxDec)
  | .boxEncEd sender recipient _ data =>
    (Refused l o ∧ ∀ e ∈ s₀.tbl, e.edKey ≠ some sender) ∨
    (l = [] ∧ ∃ f nonce, FullIn s₁ f ∧ f.entry.edKey = some sender ∧
      o = match f.edSk with
        | none => .error "deep_seed crypto_box not yet implemented"
        | some sk => match E.C.edPkToX recipient with
          | none => .error "ed25519_pk_to_curve25519 error"
          | some pk => (Res.ofOption "crypto_box error" (E.C.box nonce data pk (E.C.edSkToX sk))).map (.boxEncEd nonce))
  | .boxDecEd sender recipient _ nonce cipher =>
    (Refused l o ∧ ∀ e ∈ s₀.tbl, e.edKey ≠ some recipient) ∨
    (l = [] ∧ ∃ f, FullIn s₁ f ∧ f.entry.edKey = some recipient ∧
      o = if cipher.length < 16 then .error "InvalidCipherLength" else match f.edSk with
        | none => .error "deep_seed crypto_box not yet implemented"
        | some sk => match E.C.edPkToX sender with
          | none => .error "ed25519_pk_to_curve25519 error"
          | some pk => (Res.ofOption "crypto_box error" (E.C.boxOpen nonce cipher pk (E.C.edSkToX sk))).map .boxDecEd)
  | .newCert t =>
    ∃ n hdr, let g := E.certGen n
      let info : CertInfo := ⟨g.sni, E.C.blake2b32 g.cert, g.cert⟩
      let e : Entry := .cert t info (SecretData.encrypt E.C E.bidi hdr g.priv)
      (l = [.wrote e] ∧ o = .ok (.newCert t info) ∧ e ∈ s₁.tbl ∧ (∀ e' ∈ s₀.tbl, ¬ Clash e' e) ∧ Placed s₁ [] e) ∨
      (Refused l o ∧ (E.S.fits e = false ∨ ∃ e' ∈ s₁.tbl, Clash e' e))
  | .getCertKey t =>
    (Refused l o ∧ ∀ e ∈ s₀.tbl, e.tag ≠ t) ∨
    (l = [] ∧ ∃ e ∈ s₁.tbl, e.tag = t ∧
      match e with
      | .cert _ _ priv => ∃ key hdr, priv.decrypt E.C E.bidi = some key ∧
          o = .ok (.getCertKey (SecretData.encrypt E.C (E.encKey c) hdr key))
      | _ => o = .error "invalid entry type")
  | .sboxEnc t _ data =>
    (Refused l o ∧ ∀ e ∈ s₀.tbl, e.tag ≠ t) ∨
    (l = [] ∧ ∃ f nonce, FullIn s₁ f ∧ f.entry.tag = t ∧
      o = match f.seed with
        | none => .error "deep_seed secretbox not yet implemented"
        | some seed => .ok (.sboxEnc nonce (E.C.secretBox nonce data seed)))
  | .sboxDec t _ nonce cipher =>
    (Refused l o ∧ ∀ e ∈ s₀.tbl, e.tag ≠ t) ∨
    (l = [] ∧ ∃ f, FullIn s₁ f ∧ f.entry.tag = t ∧
      o = if cipher.length < 16 then .error "InvalidCipherLength" else match f.seed with
        | none => .error "deep_seed secretbox not yet implemented"
        | some seed => (Res.ofOption "secretbox error" (E.C.secretBoxOpen nonce cipher seed)).map .sboxDec)

/-- What the server does with message `m`. Specification: nothing in the code corresponds. -/
def HSpec (m : Msg) : Prop :=
  match m with
  | .res i r => l = [] ∧ o = .error ("invalid request: " ++ E.debugFmt (.res i r))
  | .req _ .hello => l = [] ∧ o = .ok (.hello E.name E.version E.idPk)
  | .req _ (.unlock p) =>
    (l = [.unlocked] ∧ o = .ok .unlock ∧ unlockCheck E c p = .ok () ∧ s₁.unlocked c = true) ∨
    (Refused l o ∧ unlockCheck E c p ≠ .ok ()) ∨ Faulted l o
  | .req _ r =>
    (l = [] ∧ o = .error "KeystoreLocked" ∧ s₀.unlocked c = false) ∨
    (s₁.unlocked c = true ∧ (Faulted l o ∨ ReqSpec c s₀ s₁ l o r))

end
end Lair
