import Verif.Basic

/-
Password-hash limits: crates/hc_seed_bundle/src/seed_cipher/pw_hash_limits.rs.

`with_exec` is modelled by programs of one thread: reading the limits, opening a scope, panicking and catching a panic. The
observable effect is the list of limits read.
-/
namespace Lair

/-- pw_hash_limits.rs:13-26 -/
inductive PwHashLimits where
  | minimum
  | interactive
  | moderate
  | sensitive
deriving DecidableEq

/-- `as_mem_limit` (:55-62), with libsodium's constants. Code: the pw_hash_limits.rs of hc_seed_bundle. -/
def PwHashLimits.mem : PwHashLimits → UInt32
  | .minimum => 8192
  | .interactive => 67108864
  | .moderate => 268435456
  | .sensitive => 1073741824

/-- `as_ops_limit` (:65-72), with libsodium's constants. Code: the pw_hash_limits.rs of hc_seed_bundle. -/
def PwHashLimits.ops : PwHashLimits → UInt32
  | .minimum => 1
  | .interactive => 2
  | .moderate => 3
  | .sensitive => 4

/-- What a thread does with the limits. Code: the pw_hash_limits.rs of hc_seed_bundle. -/
inductive LProg where
  | done
  /-- an operation that uses `PwHashLimits::current()` (:35-37), then the rest -/
  | use (rest : LProg)
  /-- `limits.with_exec(|| body)`, then the rest -/
  | scope (l : PwHashLimits) (body rest : LProg)
  /-- a panic -/
  | panic
  /-- `catch_unwind(body)` (or a task boundary), then the rest -/
  | catch (body rest : LProg)

/-- The state after running: the thread-local limits, the limits used so far, and whether it is unwinding.
    Code: the pw_hash_limits.rs of hc_seed_bundle. -/
structure LOut where
  tls : PwHashLimits
  used : List PwHashLimits
  panicked : Bool
deriving DecidableEq

/-- pw_hash_limits.rs:35-52: set, run, set to Moderate (not reached when unwinding). -/
def LProg.exec : LProg → PwHashLimits → LOut
  | .done, c => ⟨c, [], false⟩
  | .use rest, c =>
    let o := rest.exec c
    { o with used := c :: o.used }
  | .scope l body rest, _ =>
    let b := body.exec l
    if b.panicked then b
    else
      let o := rest.exec .moderate
      { o with used := b.used ++ o.used }
  | .panic, c => ⟨c, [], true⟩
  | .catch body rest, c =>
    let b := body.exec c
    let o := rest.exec b.tls
    { o with used := b.used ++ o.used }

/-- A thread starts with Moderate (:28-30). Specification: nothing in the code corresponds. -/
def LProg.run (p : LProg) : LOut := p.exec .moderate

/-! Specification: scopes nest. -/

/-- The limits used if a scope's limits apply exactly inside it, and those in force before apply again after it; `true` if it
    ends in a panic. Specification: nothing in the code corresponds. -/
def LProg.spec (c : PwHashLimits) : LProg → List PwHashLimits × Bool
  | .done => ([], false)
  | .use rest => (c :: (rest.spec c).1, (rest.spec c).2)
  | .scope l body rest =>
    if (body.spec l).2 then ((body.spec l).1, true)
    else ((body.spec l).1 ++ (rest.spec c).1, (rest.spec c).2)
  | .panic => ([], true)
  | .catch body rest => ((body.spec c).1 ++ (rest.spec c).1, (rest.spec c).2)

/-- Scopes are opened only outside other scopes, nothing panics inside a scope.
    Specification: nothing in the code corresponds. -/
def LProg.plain : LProg → Bool
  | .done => true
  | .use rest => rest.plain
  | .scope _ _ _ => false
  | .panic => false
  | .catch body rest => body.plain && rest.plain

/-- No nested scopes: no `with_exec` inside a closure (pw_hash_limits.rs:1-72). -/
def LProg.flat : LProg → Bool
  | .done => true
  | .use rest => rest.flat
  | .scope _ body rest => body.plain && rest.flat
  | .panic => true
  | .catch body rest => body.flat && rest.flat

end Lair
