import Verif.Props.Dial
import Verif.Props.Connection
import Verif.Examples

/-
Concrete cases for C78: the hypotheses of the theorems of Props/Dial.lean hold of a run in which a stranger sends garbage, a client
connects, has its session before the server has, sends its passphrase at once, and is let in.
-/
namespace Lair.Dial.DEx
open Lair.Dial

deriving instance DecidableEq for ClientRand, ServerRand

def ident : Ident := ⟨Toy.kx, B.fill 32 9, B.fill 32 9⟩
def cr : ClientRand := ⟨B.fill 32 1, B.fill 32 1, B.fill 32 2, B.fill 32 3, B.fill 24 4⟩
def sr : ServerRand := ⟨B.fill 32 5, B.fill 32 6, B.fill 24 7⟩

/-- The example environment with the keys of this handshake, for the passphrase `[1, 2, 3]`. -/
def env : Env := { Ex.env false 4 with
  idSeedEnc := SecretSized.encrypt Toy.crypto Toy.lawful (Toy.crypto.kdf ((Toy.crypto.argon2id (Toy.crypto.blake2b64 [1, 2, 3]).val
    (B.fill 16 9) 1 1).getD (B.fill 32 0)) 142 "IdnSecKy") (B.fill 24 1) Ex.idSeed
  encKey := fun c => match serverAccept Toy.stream Toy.kx ident.pk ident.sk sr (clientInit Toy.kx ident.pk cr ++ cr.header.val) with
    | .ok (_, s) => serverEncKey Toy.crypto s
    | .error _ => B.fill 32 (UInt8.ofNat c)
  decKey := fun c => match serverAccept Toy.stream Toy.kx ident.pk ident.sk sr (clientInit Toy.kx ident.pk cr ++ cr.header.val) with
    | .ok (_, s) => serverDecKey Toy.crypto s
    | .error _ => B.fill 32 (UInt8.ofNat c) }

abbrev run := HWorld.run ident env Toy.stream MemStore.empty

def wire (up : Bool) (w : HWorld env Toy.stream) : Bytes :=
  match w.conns[0]?.bind HConn.x with
  | some x => if up then x.up.snd.wire else x.down.snd.wire
  | none => []

/-- The request with the passphrase, under the key the client has. -/
def ask (w : HWorld env Toy.stream) : Req :=
  match w.conns[0]?.bind HConn.cli with
  | some s => .unlock (encryptPassphrase Toy.crypto Toy.lawful (clientEncKey Toy.crypto s) (B.fill 24 3) [1, 2, 3])
  | none => .hello

/-- A stranger's garbage, and the client's part of the handshake in pieces; at the end the client has its session, the server not yet. -/
def e0 : List HEv := [.stranger sr, .dial cr sr, .strangerSends 0 (List.replicate 136 0), .net 0 (.upArrive ((clientInit Toy.kx ident.pk cr).take 50)),
  .net 0 (.upArrive ((clientInit Toy.kx ident.pk cr).drop 50)), .net 0 (.downArrive ((serverWrites ident sr (clientInit Toy.kx ident.pk cr)).take 80)),
  .net 0 (.downArrive ((serverWrites ident sr (clientInit Toy.kx ident.pk cr)).drop 80))]
def e1 : List HEv := e0 ++ [.net 0 (.ask "u" (ask (run e0))), .net 0 (.upSend (.acquire 0)),
  .net 0 (.upSend (.push 0)), .net 0 (.upSend (.write 0 9999)), .net 0 (.asked 0), .net 0 (.upArrive cr.header.val)]

/-- The bytes the client has then written after its handshake. -/
def upWire : Bytes :=
  [197, 0, 0, 180, 0, 1, 5, 5, 5, 5, 5, 5, 5, 5, 5, 5, 5, 5, 5, 131, 164, 116, 121, 112, 101, 169, 114, 101, 113, 85, 110, 108, 111, 99,
   107, 165, 109, 115, 103, 73, 100, 161, 117, 170, 112, 97, 115, 115, 112, 104, 114, 97, 115, 101, 146, 217, 32, 65, 119, 77, 68, 65,
   119, 77, 68, 65, 119, 77, 68, 65, 119, 77, 68, 65, 119, 77, 68, 65, 119, 77, 68, 65, 119, 77, 68, 65, 119, 77, 68, 217, 108, 106, 103,
   103, 66, 66, 81, 85, 70, 66, 81, 85, 70, 66, 81, 85, 70, 66, 81, 85, 70, 66, 81, 85, 68, 65, 81, 73, 68, 65, 65, 65, 65, 65, 65, 65,
   65, 65, 65, 65, 65, 65, 65, 65, 65, 65, 65, 65, 65, 65, 65, 65, 65, 65, 65, 65, 65, 65, 65, 65, 65, 65, 65, 65, 65, 65, 65, 65, 65,
   65, 65, 65, 65, 65, 65, 65, 65, 65, 65, 65, 65, 65, 65, 65, 65, 65, 65, 65, 65, 65, 65, 65, 65, 65, 65, 65, 65, 65, 65, 65, 65, 65,
   65, 65, 65, 65, 65, 65, 65]

def e2 : List HEv := e1 ++ [.net 0 (.upArrive (upWire.take 5)), .serve 0,
  .net 0 (.upArrive (upWire.drop 5)), .serve 0] ++ List.replicate 24 (.act 0 (Ex.calm 0)) ++
  [.net 0 (.downSend (.acquire 0)), .net 0 (.downSend (.push 0)), .net 0 (.downSend (.write 0 9999))]

/-- The bytes the server has then written after its handshake. -/
def downWire : Bytes :=
  [41, 0, 0, 24, 0, 2, 5, 5, 5, 5, 5, 5, 5, 5, 5, 5, 5, 5, 5, 130, 164, 116, 121, 112, 101, 169, 114, 101, 115, 85, 110, 108, 111, 99,
   107, 165, 109, 115, 103, 73, 100, 161, 117]

def e3 : List HEv := e2 ++ [.net 0 (.downArrive downWire), .net 0 .poll, .net 0 (.wake 0)]

set_option maxRecDepth 100000 in
example : wire true (run e1) = upWire ∧ wire false (run e2) = downWire := by decide +kernel

-- The client has its session first; in the end it is let in. The stranger gets no connection.
set_option maxRecDepth 100000 in
example : (run e0).conns.map (fun h => (h.cli.isSome, h.srv.isSome, h.sin.length, h.cin.length)) = [(true, false, 112, 104)] ∧
    (run e1).conns.map (fun h => (h.cli.isSome, h.srv.isSome, h.sin.length, h.cin.length)) = [(true, true, 136, 104)] ∧
    (run e3).strangers.map Stranger.over = [true] ∧ (run e3).result 0 0 = some (.ok .unlock) := by decide +kernel

-- `C78_unlocks_with_the_passphrase`: the server's entry for this request.
set_option maxRecDepth 100000 in
example : (run e3).sys.done.map (fun d => (d.conn, decide (d.msg = .req "u" (ask (run e0))), d.outcome,
    decide (Ev.fault ∈ (run e3).sys.effects d.id))) = [(0, true, .ok .unlock, false)] := by decide +kernel

def untB (h : HWorld env Toy.stream) : Bool := h.conns.all (fun c => match c.cr with
  | none => true
  | some cr => (c.sin.isPrefixOf (clientWrites ident cr c.cin)) && (c.cin.isPrefixOf (serverWrites ident c.sr c.sin)))

theorem untB_spec {h : HWorld env Toy.stream} (hb : untB h = true) : h.Untampered ident := by
  intro c hc cr hcr
  have := List.all_eq_true.mp hb c hc
  simp only [hcr, Bool.and_eq_true, List.isPrefixOf_iff_prefix] at this
  exact this

def allB : HWorld env Toy.stream → List HEv → Bool
  | h, [] => untB h
  | h, e :: es => untB h && allB (h.step ident e) es

theorem allB_spec (es : List HEv) : ∀ (h : HWorld env Toy.stream), allB h es = true →
    ∀ n, ((es.take n).foldl (HWorld.step ident) h).Untampered ident := by
  induction es with
  | nil => intro h hb n; simpa using untB_spec hb
  | cons e es ih =>
    intro h hb n
    simp only [allB, Bool.and_eq_true] at hb
    cases n with
    | zero => exact untB_spec hb.1
    | succ n => exact ih _ hb.2 n

-- The hypotheses: handshakes unaltered, key pairs, the keys of the environment.
set_option maxRecDepth 100000 in
theorem untampered : NeverTampered ident env Toy.stream MemStore.empty e3 :=
  allB_spec e3 (HWorld.init env Toy.stream MemStore.empty) (by decide +kernel)

theorem mem_dial {es : List HEv} {a : ClientRand} {b : ServerRand} (h : HEv.dial a b ∈ es)
    (hb : es.all (fun e => match e with | .dial x _ => decide (x.cboxPk = cr.cboxPk ∧ x.cboxSk = cr.cboxSk) | _ => true) = true) :
    a.cboxPk = cr.cboxPk ∧ a.cboxSk = cr.cboxSk := by
  have := List.all_eq_true.mp hb _ h
  simpa using this

theorem proper : ProperClients Toy.crypto e3 := by
  intro a b h
  obtain ⟨h1, h2⟩ := mem_dial h (by decide +kernel)
  rw [h1, h2]; rfl

set_option maxRecDepth 100000 in
theorem keyed : Keyed ident env (run e3) := by
  intro c hc cr' hcon hcr out s hacc
  have hall : ∀ h ∈ (run e3).conns, h.cr = some cr ∧ h.sr = sr := by decide +kernel
  obtain ⟨h1, h2⟩ := hall hc (List.mem_of_getElem? hcon)
  rw [hcr] at h1
  cases h1
  rw [h2] at hacc
  simp only [env]
  rw [show serverAccept Toy.stream Toy.kx ident.pk ident.sk sr (clientInit Toy.kx ident.pk cr ++ cr.header.val) = .ok (out, s) from hacc]
  exact ⟨rfl, rfl⟩

example : Toy.crypto.IsXPair ident.pk ident.sk := rfl

def unforgedH (w : HWorld env Toy.stream) (c : Nat) : Bool := match w.conns[c]?.bind HConn.x with
  | none => true
  | some x => unforgedB Toy.stream x.up.start (x.up.pushed.map (fun p => Codec.encodeMsg p.2)) (arrived x.up.net) &&
    unforgedB Toy.stream x.down.start (x.down.pushed.map (fun p => Codec.encodeMsg p.2)) (arrived x.down.net)

theorem unforgedH_spec {w : HWorld env Toy.stream} {c : Nat} (h : unforgedH w c = true) : w.Unforged c := by
  intro x hx
  simp only [unforgedH, hx, Bool.and_eq_true] at h
  exact ⟨unforged_of_bool h.1, unforged_of_bool h.2⟩

/-- The same with a hello request. -/
def f1 : List HEv := e0 ++ [.net 0 (.ask "h" .hello), .net 0 (.upSend (.acquire 0)),
  .net 0 (.upSend (.push 0)), .net 0 (.upSend (.write 0 9999)), .net 0 (.asked 0), .net 0 (.upArrive cr.header.val)]
def f2 : List HEv := f1 ++ [.net 0 (.upArrive (wire true (run f1))), .serve 0]

set_option maxRecDepth 100000 in
theorem unforged : (run f2).Unforged 0 := unforgedH_spec (w := run f2) (c := 0) (by decide +kernel)

set_option maxRecDepth 100000 in
theorem fresh_all : ∀ y ∈ (run f2).conns, ∀ x ∈ y.x, (x.asked.map Asked.id).Nodup := by decide +kernel

example : (run f2).FreshIds 0 := by
  intro x hx
  obtain ⟨y, hy, hx⟩ := Option.bind_eq_some_iff.1 hx
  exact fresh_all y (List.mem_of_getElem? hy) x hx

set_option maxRecDepth 100000 in
example : (run f2).sys.threads.map (fun t => (t.conn, t.msg)) = [(0, .req "h" .hello)] := by decide +kernel

-- `C78_next_client_gets_in`: pieces of a handshake.
example : Pieces ident cr sr [(clientInit Toy.kx ident.pk cr).take 50, [], (clientInit Toy.kx ident.pk cr).drop 50]
    [(serverWrites ident sr (clientInit Toy.kx ident.pk cr)).take 80] [] ((serverWrites ident sr (clientInit Toy.kx ident.pk cr)).drop 80)
    cr.header.val :=
  ⟨by decide +kernel, by decide +kernel, by decide +kernel, by decide +kernel⟩

-- The passphrase does open the configuration.
example : Opens env [1, 2, 3] :=
  ⟨(Toy.crypto.argon2id (Toy.crypto.blake2b64 [1, 2, 3]).val (B.fill 16 9) 1 1).getD (B.fill 32 0), Ex.idSeed, by decide +kernel⟩

end Lair.Dial.DEx
