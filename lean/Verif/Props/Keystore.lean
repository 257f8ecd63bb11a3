import Verif.KeystoreLinProof
import Verif.KeystoreRoom
import Verif.Examples

/- C60: the server, with any number of connections and requests at once, crashes and restarts, is a keystore used by one
   call at a time. Specification: `Verif.KeystoreSpec` (what the calls do) and `Verif.Linearizable` (what is explained). -/
namespace Lair

variable {E : Env} {st : E.S.σ} {ks₀ : Keystore} {okLim : UInt32 → UInt32 → Bool} {room : Item → Bool} {H : List (B 64)}
  {Λ : List (UInt32 × UInt32)}

/-- C60. Every store a server may be started on stands for a keystore. -/
theorem C60_store_is_a_keystore (hst : GoodStore E st) : ∃ ks, Stands E ks (E.S.tbl st) := stands_exists hst.wf

/-- C60. ... and for only one, provided no deep-locked entry is opened by two of the passphrases and limits in use. -/
theorem C60_keystore_unique {ks ks' : Keystore} {T : List Entry} (h : Stands E ks T) (h' : Stands E ks' T)
    (hk : Known H Λ ks) (hk' : Known H Λ ks') (hsep : Separated E H Λ T) : ks = ks' := by
  induction T generalizing ks ks' with
  | nil =>
    cases ks with
    | cons => exact h.elim
    | nil =>
      cases ks' with
      | cons => exact h'.elim
      | nil => rfl
  | cons e T ih =>
    cases ks with
    | nil => exact h.elim
    | cons i ks =>
      cases ks' with
      | nil => exact h'.elim
      | cons i' ks' =>
        obtain ⟨h1, h2⟩ := h
        obtain ⟨h1', h2'⟩ := h'
        have hr := ih h2 h2' (fun t s x pw ops mem hm => hk t s x pw ops mem (List.mem_cons_of_mem _ hm))
          (fun t s x pw ops mem hm => hk' t s x pw ops mem (List.mem_cons_of_mem _ hm))
          (fun e he => hsep e (List.mem_cons_of_mem _ he))
        have hi : i = i' := by
          cases h1 with
          | seed t s x enc hd =>
            generalize hinfo : (⟨E.C.edPk s, E.C.xPk s, x⟩ : SeedInfo) = info at h1'
            cases h1' with
            | seed _ s' x' _ hd' =>
              rw [hd] at hd'
              cases hd'
              cases hinfo; rfl
          | locked t s x pw ops mem salt key enc hk1 hd =>
            generalize hinfo : (⟨E.C.edPk s, E.C.xPk s, x⟩ : SeedInfo) = info at h1' hsep
            cases h1' with
            | locked _ s' x' pw' _ _ _ key' _ hk1' hd' =>
              obtain ⟨a1, a2⟩ := hk t s x pw ops mem (List.mem_cons_self ..)
              obtain ⟨b1, b2⟩ := hk' t s' x' pw' ops mem (List.mem_cons_self ..)
              have := hsep _ (List.mem_cons_self ..) pw a1 pw' b1 (ops, mem) a2 (ops, mem) b2 ⟨key, s, hk1, hd⟩ ⟨key', s', hk1', hd'⟩
              obtain ⟨rfl, _⟩ := this
              rw [hk1] at hk1'
              cases hk1'
              rw [hd] at hd'
              cases hd'
              cases hinfo; rfl
          | cert t sni crt key priv hd =>
            generalize hinfo : (⟨sni, E.C.blake2b32 crt, crt⟩ : CertInfo) = info at h1'
            cases h1' with
            | cert _ sni' crt' key' _ hd' =>
              rw [hd] at hd'
              cases hd'
              injection hinfo with a b c
              subst a; subst c; rfl
        rw [hi, hr]

/-- C60. Linearizability. Start a server on any store it may be started on; let any messages arrive on any connections, any
    number of requests run at once in any interleaving, anything the environment may do happen, and the process be
    stopped and restarted at any points. Then there is a sequential history of calls to the keystore that explains everything:
    every request that was answered, and met no storage or memory failure, and was not turned away because its connection
    was locked, occurs in it exactly once, with the answer the specification gives; requests that did not overlap occur in the order in which they were made;
    requests cut off by a stop either occur or had no effect; and at the end the store stands for the resulting keystore. Assumed:
    `okLim` says with which limits passphrases can be hashed and `room` which items the store can hold; and no deep-locked
    entry is opened by two of the passphrases (`H`) and limits (`Λ`) in use. -/
theorem C60_linearizable (hst : GoodStore E st) (evs : List Event)
    (hlim : ∀ p salt ops mem, (E.C.argon2id p salt ops mem).isSome = okLim ops mem)
    (hroom : ∀ i e, Repr E i e → E.S.fits e = room i)
    (hks : Stands E ks₀ (E.S.tbl st)) (hkn : Known H Λ ks₀)
    (hcalls : ∀ c i r call, (c, Msg.req i r) ∈ received evs → r.call? E c = some call → call.within H Λ)
    (hsep : Separated E H Λ (Sys.run E st evs).sh.tbl) :
    ∃ ops, Explains E st evs okLim room ks₀ ops :=
  explained hst ⟨hlim, hroom, hsep, (sysInv_run hst evs).inv.distinct⟩ hcalls hks hkn

/-- C60. With the store in memory there is room for everything. -/
theorem C60_linearizable_memory (hst : GoodStore E st) (evs : List Event) (hE : E.S = Ex.mem)
    (hlim : ∀ p salt ops mem, (E.C.argon2id p salt ops mem).isSome = okLim ops mem)
    (hks : Stands E ks₀ (E.S.tbl st)) (hkn : Known H Λ ks₀)
    (hcalls : ∀ c i r call, (c, Msg.req i r) ∈ received evs → r.call? E c = some call → call.within H Λ)
    (hsep : Separated E H Λ (Sys.run E st evs).sh.tbl) :
    ∃ ops, Explains E st evs okLim (fun _ => true) ks₀ ops :=
  C60_linearizable hst evs hlim (fun i e _ => by rw [hE]; rfl) hks hkn hcalls hsep

/-- C60. With the SQLite store there is room for items whose encoding has up to a billion bytes. -/
theorem C60_linearizable_sqlite (hst : GoodStore E st) (evs : List Event) (hE : E.S = sqlModel)
    (hlim : ∀ p salt ops mem, (E.C.argon2id p salt ops mem).isSome = okLim ops mem)
    (hks : Stands E ks₀ (E.S.tbl st)) (hkn : Known H Λ ks₀)
    (hcalls : ∀ c i r call, (c, Msg.req i r) ∈ received evs → r.call? E c = some call → call.within H Λ)
    (hsep : Separated E H Λ (Sys.run E st evs).sh.tbl) :
    ∃ ops, Explains E st evs okLim (sqlRoom E.C) ks₀ ops :=
  C60_linearizable hst evs hlim (fun i e h => sql_room (by rw [hE]; rfl) i e h) hks hkn hcalls hsep

/-! ### Concrete cases -/

section Examples
open Ex

/-- Decision procedure for `Opens` and `Separated`. -/
def opensB (E : Env) (e : Entry) (pw : B 64) (ops mem : UInt32) : Bool :=
  match e with
  | .deep _ _ salt _ _ enc => match E.C.argon2id pw.val salt ops mem with
    | some key => (enc.decrypt (m := 32) E.C key).isSome
    | none => false
  | _ => false

theorem opensB_iff (e : Entry) (pw : B 64) (ops mem : UInt32) : Opens E e pw ops mem ↔ opensB E e pw ops mem = true := by
  cases e with
  | deep t i salt o m enc =>
    simp only [Opens, opensB]
    constructor
    · rintro ⟨key, s, h1, h2⟩
      rw [h1]; simp [h2]
    · intro h
      cases h1 : E.C.argon2id pw.val salt ops mem with
      | none => rw [h1] at h; cases h
      | some key =>
        rw [h1] at h
        simp only [Option.isSome_iff_exists] at h
        obtain ⟨s, hs⟩ := h
        exact ⟨key, s, rfl, hs⟩
  | seed t i s => simp [Opens, opensB]
  | cert t i p => simp [Opens, opensB]

def separatedB (E : Env) (H : List (B 64)) (Λ : List (UInt32 × UInt32)) (T : List Entry) : Bool :=
  T.all fun e => H.all fun p => H.all fun p' => Λ.all fun l => Λ.all fun l' =>
    !(opensB E e p l.1 l.2 && opensB E e p' l'.1 l'.2) || (p = p' && l = l')

theorem separated_of (h : separatedB E H Λ T = true) : Separated E H Λ T := by
  intro e he p hp p' hp' l hl l' hl' h1 h2
  simp only [separatedB, List.all_eq_true] at h
  have := h e he p hp p' hp' l hl l' hl'
  rw [(opensB_iff e p l.1 l.2).1 h1, (opensB_iff e p' l'.1 l'.2).1 h2] at this
  simpa using this

/-- A passphrase for deep locks. -/
def deepPw : B 64 := B.fill 64 33
def otherPw : B 64 := B.fill 64 34

/-- A deep lock as sent by the client of connection `c`. -/
def lockWith (c : Nat) (p : B 64) : DeepPass := ⟨2, 3, sent c p⟩

/-- Two clients: both create "a" at the same time, one of them with a deep lock; then one signs with the
    key of the deep-locked seed with the wrong and the right passphrase, a listing overlaps a creation, the process is stopped in the middle of
    another creation and restarted. -/
def busy : List Event :=
  unlock 0 ++ unlock 1 ++
  [.recv 0 (.req "x" (.newSeed "a" none true)), .recv 1 (.req "y" (.newSeed "a" (some (lockWith 1 deepPw)) false))] ++
  List.replicate 3 (.step 1 (calm 2)) ++ (List.replicate 24 [.step 1 (calm 2), .step 0 (calm 1)]).flatten ++
  serve 1 (.req "s" (.sign (B.fill 32 2) (some (sent 1 otherPw)) [1])) 4 ++
  serve 1 (.req "t" (.sign (B.fill 32 2) (some (sent 1 deepPw)) [1])) 4 ++
  [.recv 0 (.req "l" .listEntries), .recv 1 (.req "z" (.newCert "b"))] ++
  List.replicate 10 (.step 1 (calm 7)) ++ List.replicate 10 (.step 0 (calm 7)) ++
  [.recv 0 (.req "w" (.newSeed "c" none true))] ++ List.replicate 5 (.step 0 (calm 9)) ++ [.restart] ++
  unlock 0 ++ serve 0 (.req "k" (.getCertKey "b")) 5

/-- What happened to each request, in the order of completion. -/
def short : Res Resp → String
  | .ok (.listEntries l) => "listed " ++ String.ofList (Nat.toDigits 10 l.length)
  | .ok (.newSeed ..) => "new seed"
  | .ok (.newCert ..) => "new cert"
  | .ok (.sign ..) => "signed"
  | .ok (.getCertKey ..) => "cert key"
  | .ok .unlock => "unlocked"
  | .ok _ => "other"
  | .error e => e

-- The run is as described: request 3 overtakes request 2, the listing 6 ends after 7 began and sees its certificate, and
-- request 8 was cut off after it had written.
set_option maxRecDepth 100000 in
example : (Sys.run (env true 2) MemStore.empty busy).done.map (fun d => (d.id, short d.outcome)) =
      [(0, "unlocked"), (1, "unlocked"), (3, "new seed"), (2, "tag already registered"), (4, "decrypt error"), (5, "signed"),
        (7, "new cert"), (6, "listed 2"), (9, "unlocked"), (10, "cert key")] ∧
    (Sys.run (env true 2) MemStore.empty busy).dropped = [8] ∧
    (Sys.run (env true 2) MemStore.empty busy).sh.tbl.map Entry.tag = ["a", "b", "c"] := by
  decide +kernel

/-- With which limits the toy primitive hashes. -/
def toyLim (ops mem : UInt32) : Bool := !(decide (ops = 0) || decide (mem = 0))

theorem toy_lim (p : Bytes) (salt : B 16) (ops mem : UInt32) : (Toy.crypto.argon2id p salt ops mem).isSome = toyLim ops mem := by
  simp only [Toy.crypto, toyLim]
  by_cases h1 : ops = 0 <;> by_cases h2 : mem = 0 <;> simp [h1, h2]

/-- The requests of a list, as the calls they make. -/
def callsOf (E : Env) (l : List (Nat × Msg)) : List Call := l.filterMap (fun p => match p.2 with
  | .req _ r => r.call? E p.1
  | _ => none)

def pwWithin (H : List (B 64)) (p : Pw) : Bool := match p with
  | some h => H.contains h
  | none => true
def lockWithin (H : List (B 64)) (Λ : List (UInt32 × UInt32)) : Option Lock → Bool
  | some l => pwWithin H l.pw && Λ.contains (l.ops, l.mem)
  | none => true
/-- Decision procedure for `Call.within`. -/
def callWithin (H : List (B 64)) (Λ : List (UInt32 × UInt32)) : Call → Bool
  | .newSeed _ l _ => lockWithin H Λ l
  | .importSeed _ _ l _ _ _ _ => lockWithin H Λ l
  | .deriveSeed _ l _ l' _ => lockWithin H Λ l && lockWithin H Λ l'
  | .sign _ p _ => match p with
    | some q => pwWithin H q
    | none => true
  | _ => true

theorem pwWithin_iff {p : Pw} (h : pwWithin H p = true) : ∀ x, p = some x → x ∈ H := by
  rintro x rfl; simpa [pwWithin] using h
theorem lockWithin_iff {l : Option Lock} (h : lockWithin H Λ l = true) : ∀ k, l = some k → k.within H Λ := by
  rintro k rfl
  simp only [lockWithin, Bool.and_eq_true] at h
  exact ⟨pwWithin_iff h.1, by simpa using h.2⟩
theorem callWithin_iff {c : Call} (h : callWithin H Λ c = true) : c.within H Λ := by
  cases c with
  | newSeed t l x => exact lockWithin_iff h
  | importSeed s r l n ci t x => exact lockWithin_iff h
  | deriveSeed s l d l' p =>
    simp only [callWithin, Bool.and_eq_true] at h
    exact ⟨lockWithin_iff h.1, lockWithin_iff h.2⟩
  | sign k p m =>
    rintro x rfl
    simpa [callWithin, pwWithin] using h
  | _ => trivial

theorem calls_within {evs : List Event} (h : (callsOf E (received evs)).all (callWithin H Λ) = true) :
    ∀ c i r call, (c, Msg.req i r) ∈ received evs → r.call? E c = some call → call.within H Λ := by
  intro c i r call hm hc
  refine callWithin_iff (List.all_eq_true.1 h call ?_)
  exact List.mem_filterMap.2 ⟨(c, .req i r), hm, hc⟩

set_option maxRecDepth 100000 in
theorem busy_calls : (callsOf (env true 2) (received busy)).all (callWithin [deepPw, otherPw] [(2, 3)]) = true := by decide +kernel

set_option maxRecDepth 100000 in
theorem busy_separated : separatedB (env true 2) [deepPw, otherPw] [(2, 3)] (Sys.run (env true 2) MemStore.empty busy).sh.tbl = true := by
  decide +kernel

/-- C60: the hypotheses hold of this run, which is therefore explained. -/
example : ∃ ops, Explains (env true 2) MemStore.empty busy toyLim (fun _ => true) [] ops :=
  C60_linearizable_memory (goodStore_empty (env true 2)) busy rfl toy_lim (H := [deepPw, otherPw]) (Λ := [(2, 3)])
    trivial (by intro t s x pw ops mem h; cases h) (calls_within busy_calls) (separated_of busy_separated)

end Examples
end Lair
