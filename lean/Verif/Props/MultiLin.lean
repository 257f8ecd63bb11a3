import Verif.MultiLinProof
import Verif.Props.Keystore

/-
C72: all servers on one store file together behave like one sequential keystore.
-/
namespace Lair

section
variable {E : Env} {st : E.S.σ} {okLim : UInt32 → UInt32 → Bool} {room : Item → Bool} {H : List (B 64)} {Λ : List (UInt32 × UInt32)}
  {ks₀ : Keystore}

/-- C72. Any number of server processes on one store file, with any number of clients each, direct use of their store handles, starts
    and restarts: whatever happens is explained by ONE sequential history of calls to the keystore of `Verif.KeystoreSpec`, in which the
    order of operations that did not overlap is kept, also across processes (`MExplains` in `Verif/MultiLin.lean`). Assumptions as for
    C60: whether argon2id works depends on the limits only; whether an entry fits depends on what it stands for; and no deep-locked
    seed in the file can be opened with two different pairs of the passphrases `H` and limits `Λ` that occur. -/
theorem C72_linearizable (hk : HasPassphrase E) (hst : GoodStore E st) (evs : List MEvent)
    (hlim : ∀ p salt ops mem, (E.C.argon2id p salt ops mem).isSome = okLim ops mem)
    (hroom : ∀ i e, Repr E i e → E.S.fits e = room i)
    (hks : Stands E ks₀ (E.S.tbl st)) (hkn : Known H Λ ks₀)
    (hcalls : ∀ j c i r call, MEvent.at j (.srv (.recv c (.req i r))) ∈ evs → r.call? E c = some call → call.within H Λ)
    (hhandles : ∀ j x ch call, MEvent.at j (.call x ch) ∈ evs → x.asCall = some call → call.within H Λ)
    (hsep : Separated E H Λ (Multi.run E st evs).entries) :
    ∃ ops, MExplains E st evs okLim room ks₀ ops :=
  mexplained hk hst (by rw [mtb_end]; exact ⟨hlim, hroom, hsep, (mstore_good hk hst evs).distinct⟩) ⟨hcalls, hhandles⟩ hks hkn

/-- C72. With the SQLite store there is room for items whose encoding has up to a billion bytes. -/
theorem C72_linearizable_sqlite (hE : E.S = sqlModel) (hk : HasPassphrase E) (hst : GoodStore E st) (evs : List MEvent)
    (hlim : ∀ p salt ops mem, (E.C.argon2id p salt ops mem).isSome = okLim ops mem)
    (hks : Stands E ks₀ (E.S.tbl st)) (hkn : Known H Λ ks₀)
    (hcalls : ∀ j c i r call, MEvent.at j (.srv (.recv c (.req i r))) ∈ evs → r.call? E c = some call → call.within H Λ)
    (hhandles : ∀ j x ch call, MEvent.at j (.call x ch) ∈ evs → x.asCall = some call → call.within H Λ)
    (hsep : Separated E H Λ (Multi.run E st evs).entries) :
    ∃ ops, MExplains E st evs okLim (sqlRoom E.C) ks₀ ops :=
  C72_linearizable hk hst evs hlim (fun i e h => sql_room (by rw [hE]; rfl) i e h) hks hkn hcalls hhandles hsep

end

/-! ### A concrete case -/

namespace MultiLinEx
open Ex MultiEx

/-- The calls of a run: those the requests make, and those of the handles. -/
def callsIn (E : Env) (evs : List MEvent) : List Call := evs.filterMap fun ev => match ev with
  | .at _ (.srv (.recv c (.req _ r))) => r.call? E c
  | .at _ (.call x _) => x.asCall
  | _ => none

theorem callsIn_within {E : Env} {evs : List MEvent} {H : List (B 64)} {Λ : List (UInt32 × UInt32)}
    (h : (callsIn E evs).all (callWithin H Λ) = true) :
    (∀ j c i r call, MEvent.at j (.srv (.recv c (.req i r))) ∈ evs → r.call? E c = some call → call.within H Λ) ∧
    (∀ j x ch call, MEvent.at j (.call x ch) ∈ evs → x.asCall = some call → call.within H Λ) := by
  constructor
  · intro j c i r call hm hc
    exact callWithin_iff (List.all_eq_true.1 h call (List.mem_filterMap.2 ⟨_, hm, hc⟩))
  · intro j x ch call hm hc
    exact callWithin_iff (List.all_eq_true.1 h call (List.mem_filterMap.2 ⟨_, hm, hc⟩))

/-- Two servers. Clients of both create "a" at the same time, one of them with a deep lock; while a client of the first lists the
    entries, the handle of the second makes "b"; a client of the second signs with the key of the deep-locked seed, with the wrong and
    the right passphrase; the first is stopped in the middle of a creation and restarted; the handle of the second lists everything and
    tries to make "c" again, and a third server is started and asked for "b". -/
def run : List MEvent :=
  [.start, .start] ++ on 0 (unlock 0) ++ on 1 (unlock 1) ++
  on 0 [.recv 0 (.req "x" (.newSeed "a" none true))] ++ on 1 [.recv 1 (.req "y" (.newSeed "a" (some (lockWith 1 deepPw)) false))] ++
  on 1 (List.replicate 3 (.step 0 (calm 2))) ++
  (List.replicate 24 (on 1 [.step 0 (calm 2)] ++ on 0 [.step 0 (calm 1)])).flatten ++
  on 0 [.recv 0 (.req "l" .listEntries)] ++ [.at 1 (.call (.newCert "b") fun _ => calm 4)] ++ on 0 (List.replicate 5 (.step 0 (calm 1))) ++
  on 1 (serve 1 (.req "s" (.sign (B.fill 32 2) (some (sent 1 otherPw)) [1])) 4) ++
  on 1 (serve 1 (.req "t" (.sign (B.fill 32 2) (some (sent 1 deepPw)) [1])) 4) ++
  on 0 [.recv 0 (.req "w" (.newSeed "c" none true))] ++ on 0 (List.replicate 5 (.step 0 (calm 9))) ++ on 0 [.restart] ++
  [.at 1 (.call .list fun _ => calm 1), .at 1 (.call (.insertSeed (B.fill 32 11) "c" false) fun _ => calm 6), .start] ++
  on 2 (unlock 0) ++ on 2 (serve 0 (.req "k" (.getCertKey "b")) 5)

def finalM : Multi (env true 2) := Multi.run (env true 2) MemStore.empty run

-- What happened: each server's finished requests; the entries.
set_option maxRecDepth 100000 in
example : finalM.procs.map (fun l => l.sys.done.map fun d => (d.id, short d.outcome)) =
      [[(0, "unlocked"), (1, "tag already registered"), (2, "listed 2")],
       [(0, "unlocked"), (1, "new seed"), (2, "decrypt error"), (3, "signed")], [(0, "unlocked"), (1, "cert key")]] ∧
    finalM.entries.map Entry.tag = ["a", "b", "c"] := by
  decide +kernel

-- And what the handle of the second server returned.
set_option maxRecDepth 100000 in
example : finalM.procs.map (fun l => l.log.filterMap fun d => match d with
      | .call _ r => some (match r with
        | .ok (.list l) => l.length
        | .ok _ => 100
        | .error _ => 200)
      | _ => none) = [[], [100, 3, 200], []] := by
  decide +kernel

set_option maxRecDepth 100000 in
theorem run_calls : (callsIn (env true 2) run).all (callWithin [deepPw, otherPw] [(2, 3)]) = true := by decide +kernel

set_option maxRecDepth 100000 in
theorem run_separated : separatedB (env true 2) [deepPw, otherPw] [(2, 3)] finalM.entries = true := by decide +kernel

/-- C72: the hypotheses hold of this run, which is therefore explained. -/
example : ∃ ops, MExplains (env true 2) MemStore.empty run toyLim (fun _ => true) [] ops :=
  C72_linearizable ⟨0, sent 0 pass, by decide +kernel⟩ (goodStore_empty (env true 2)) run toy_lim (fun _ _ _ => rfl)
    (H := [deepPw, otherPw]) (Λ := [(2, 3)]) trivial (by intro t s x pw ops mem h; cases h)
    (callsIn_within run_calls).1 (callsIn_within run_calls).2 (separated_of run_separated)

end MultiLinEx
end Lair
