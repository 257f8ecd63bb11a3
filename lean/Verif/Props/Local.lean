import Verif.LocalLemmas
import Verif.Props.Cli
import Verif.Props.Entries

/-
C68: the process that runs a server can use the store handle beside the clients.
-/
namespace Lair
open Cli

variable {E : Env} {st : E.S.σ}

/-! ### Specification -/

/-- SPECIFICATION: an entry that a call of the handle may add. -/
def LocalCall.Makes (E : Env) : LocalCall → Entry → Prop
  | .insertSeed seed t x, e => ∃ enc : SecretSized 49, e = .seed t ⟨E.C.edPk seed, E.C.xPk seed, x⟩ enc ∧ enc.decrypt (m := 32) E.C E.bidi = some seed
  | .newSeed t x, e => ∃ (seed : B 32) (enc : SecretSized 49), e = .seed t ⟨E.C.edPk seed, E.C.xPk seed, x⟩ enc ∧
      enc.decrypt (m := 32) E.C E.bidi = some seed
  | .insertDeep seed t ops mem pass x, e => ∃ (salt : B 16) (key : B 32) (enc : SecretSized 49),
      e = .deep t ⟨E.C.edPk seed, E.C.xPk seed, x⟩ salt ops mem enc ∧ E.C.argon2id pass.val salt ops mem = some key ∧
      enc.decrypt (m := 32) E.C key = some seed
  | .newDeep t ops mem pass x, e => ∃ (seed : B 32) (salt : B 16) (key : B 32) (enc : SecretSized 49),
      e = .deep t ⟨E.C.edPk seed, E.C.xPk seed, x⟩ salt ops mem enc ∧ E.C.argon2id pass.val salt ops mem = some key ∧
      enc.decrypt (m := 32) E.C key = some seed
  | .newCert t, e => ∃ (n : Nat) (enc : SecretData), e = .cert t ⟨(E.certGen n).sni, E.C.blake2b32 (E.certGen n).cert, (E.certGen n).cert⟩ enc ∧
      enc.decrypt E.C E.bidi = some (E.certGen n).priv
  | _, _ => False

/-- SPECIFICATION: the result tells the public information of the entry. -/
def LocalOut.tells : LocalOut → Entry → Prop
  | .seed i, .seed _ j _ => i = j
  | .seed i, .deep _ j _ _ _ _ => i = j
  | .cert i, .cert _ j _ => i = j
  | _, _ => False

/-- The calls that add an entry. -/
def LocalCall.adds : LocalCall → Bool
  | .insertSeed .. => true
  | .newSeed .. => true
  | .insertDeep .. => true
  | .newDeep .. => true
  | .newCert .. => true
  | _ => false

/-- What a call gives in state `l`. -/
def LSys.result (l : LSys E) (x : LocalCall) (ch : Nat → Choice) : Res LocalOut := (runAlone ch l.sys.sh (x.prog E)).1

/-- Somebody knows the passphrase of the keystore: there is a connection and a message that unlocks it. -/
def HasPassphrase (E : Env) : Prop := ∃ c p, unlockCheck E c p = .ok ()

/-! ### helper facts -/

theorem HasPassphrase.on (h : HasPassphrase E) (c : Nat) : ∃ p, unlockCheck E c p = .ok () := by
  obtain ⟨d, p, hp⟩ := h
  cases hd : decPass E d p with
  | none => simp [unlockCheck, hd] at hp
  | some pass =>
    refine ⟨SecretSized.encrypt E.C E.L (E.decKey c) (B.fill 24 0) pass, ?_⟩
    have : decPass E c (SecretSized.encrypt E.C E.L (E.decKey c) (B.fill 24 0) pass) = some pass := SecretSized.decrypt_encrypt ..
    simp only [unlockCheck, hd] at hp
    simp only [unlockCheck, this]
    exact hp

/-- A connection no event uses, with any number that is large enough. -/
theorem spare_from (evs : List LEvent) (N : Nat) : ∃ c, N ≤ c ∧ ∀ d m, LEvent.srv (.recv d m) ∈ evs → d ≠ c := by
  have : ∃ n, ∀ d m, LEvent.srv (.recv d m) ∈ evs → d < n := by
    induction evs with
    | nil => exact ⟨0, by simp⟩
    | cons ev evs ih =>
      obtain ⟨n, hn⟩ := ih
      have old : ∀ k, n ≤ k → ∀ d m, LEvent.srv (.recv d m) ∈ evs → d < k := fun k hk d m h => Nat.lt_of_lt_of_le (hn d m h) hk
      cases ev with
      | call x ch => exact ⟨n, fun d m h => by rcases List.mem_cons.1 h with h | h; · cases h
                                               · exact hn d m h⟩
      | srv e =>
        cases e with
        | recv c' m' =>
          refine ⟨n + c' + 1, fun d m h => ?_⟩
          rcases List.mem_cons.1 h with h | h
          · cases h; omega
          · exact old _ (by omega) d m h
        | step i ch => exact ⟨n, fun d m h => by rcases List.mem_cons.1 h with h | h; · cases h
                                                 · exact hn d m h⟩
        | restart => exact ⟨n, fun d m h => by rcases List.mem_cons.1 h with h | h; · cases h
                                               · exact hn d m h⟩
  obtain ⟨n, hn⟩ := this
  exact ⟨N + n, by omega, fun d m h => by have := hn d m h; omega⟩

/-- A connection no event uses. -/
theorem spare (evs : List LEvent) : ∃ c, ∀ d m, LEvent.srv (.recv d m) ∈ evs → d ≠ c := by
  obtain ⟨c, _, h⟩ := spare_from evs 0
  exact ⟨c, h⟩

theorem beside_init (c : Nat) : Beside c (⟨.init E st, []⟩ : LSys E) (.init E st) :=
  ⟨.refl c _, trivial, trivial, rfl⟩

/-- Every run beside the handle has its run of a server with one more client. -/
theorem lrun_beside (hk : HasPassphrase E) (evs₁ evs₂ : List LEvent) : ∃ c a b,
    Beside c (LSys.run E st evs₁) (Sys.run E st a) ∧ Beside c (LSys.run E st (evs₁ ++ evs₂)) (Sys.run E st (a ++ b)) := by
  obtain ⟨c, hc⟩ := spare (evs₁ ++ evs₂)
  obtain ⟨p, hp⟩ := hk.on c
  obtain ⟨bs, hl, _, _, hb⟩ := beside_run hp (evs₁ ++ evs₂) _ _ (beside_init (E := E) (st := st) c) hc
  refine ⟨c, (bs.take evs₁.length).flatten, (bs.drop evs₁.length).flatten, ?_, ?_⟩
  · have := hb evs₁.length
    rwa [List.take_left] at this
  · have := hb (evs₁ ++ evs₂).length
    rw [List.take_length, ← hl, List.take_length] at this
    rw [← List.flatten_append, List.take_append_drop]
    exact this

theorem lrun_one (hk : HasPassphrase E) (evs : List LEvent) : ∃ c a, Beside c (LSys.run E st evs) (Sys.run E st a) := by
  obtain ⟨c, a, _, h, _⟩ := lrun_beside (st := st) hk evs []
  exact ⟨c, a, h⟩

theorem lrun_inv (hk : HasPassphrase E) (hst : GoodStore E st) (evs : List LEvent) :
    E.S.ok (LSys.run E st evs).sys.sh.store ∧ Distinct (LSys.run E st evs).sys.entries := by
  obtain ⟨c, a, h⟩ := lrun_one (st := st) hk evs
  have i := (sysInv_run hst a).inv
  refine ⟨by rw [h.sh.store]; exact i.ok, ?_⟩
  show Distinct (E.S.tbl (LSys.run E st evs).sys.sh.store)
  rw [h.sh.store]; exact i.distinct

theorem runAlone_bind_ret {α β : Type} (p : Prog α) (f : α → β) : ∀ (ch : Nat → Choice) (s : Shared E),
    runAlone ch s (p.bind fun a => .ret (f a)) = ((runAlone ch s p).1.map f, (runAlone ch s p).2) := by
  induction p with
  | ret a => intro ch s; rfl
  | fail e => intro ch s; rfl
  | step a k ih => intro ch s; exact ih _ _ _

/-- A refusal that changes nothing, or one new entry. -/
def OneNew {α : Type} (s : Shared E) (P : Entry → Prop) (T : α → Entry → Prop) (r : Res α × Shared E) : Prop :=
  ((∃ x, r.1 = .error x) ∧ r.2 = s) ∨ ∃ o e, r.1 = .ok o ∧ E.S.tbl r.2.store = E.S.tbl s.store ++ [e] ∧ P e ∧ T o e

theorem oneNew_map {α β : Type} {s : Shared E} {P : Entry → Prop} {T : α → Entry → Prop} {r : Res α × Shared E} (h : OneNew s P T r)
    (f : α → β) (T' : β → Entry → Prop) (hT : ∀ o e, T o e → T' (f o) e) : OneNew s P T' (r.1.map f, r.2) := by
  rcases h with ⟨⟨x, h1⟩, h2⟩ | ⟨o, e, h1, h2, h3, h4⟩
  · exact Or.inl ⟨⟨x, by rw [h1]; rfl⟩, h2⟩
  · exact Or.inr ⟨f o, e, by rw [h1]; rfl, h2, h3, hT o e h4⟩

theorem oneNew_mono {α : Type} {s : Shared E} {P Q : Entry → Prop} {T : α → Entry → Prop} {r : Res α × Shared E} (h : OneNew s P T r)
    (hPQ : ∀ e, P e → Q e) : OneNew s Q T r := by
  rcases h with h | ⟨o, e, h1, h2, h3, h4⟩
  · exact Or.inl h
  · exact Or.inr ⟨o, e, h1, h2, hPQ e h3, h4⟩

/-- The last action of a creation. -/
def finishWith {α : Type} (e : Entry) (a : α) : Prog α := .step (.write e) fun (r : Res Unit) => (Prog.ofRes r).bind fun _ => .ret a

theorem runAlone_finishWith {α : Type} (ch : Nat → Choice) (s : Shared E) (hs : E.S.ok s.store) (e : Entry) (a : α)
    {P : Entry → Prop} {T : α → Entry → Prop} (hP : P e) (hT : T a e) : OneNew s P T (runAlone ch s (finishWith e a)) := by
  have hr : ∀ x : Res Unit × Shared E × List Ev, exec 0 (ch 0) s (.write e) = x →
      runAlone ch s (finishWith e a) = runAlone (fun n => ch (n + 1)) x.2.1 ((Prog.ofRes x.1).bind fun _ => .ret a) := by
    rintro x rfl; rfl
  rcases alone_write (ch 0) s hs e with ⟨⟨x, h1⟩, h2⟩ | ⟨h1, h2⟩
  · left
    rw [hr (.error x, s, (exec 0 (ch 0) s (.write e)).2.2) (Prod.ext h1 (Prod.ext h2 rfl))]
    exact ⟨⟨x, rfl⟩, rfl⟩
  · right
    rw [hr (.ok (), (exec 0 (ch 0) s (.write e)).2.1, (exec 0 (ch 0) s (.write e)).2.2) (Prod.ext h1 rfl)]
    exact ⟨a, e, rfl, h2, hP, hT⟩

theorem oneNew_seed (ch : Nat → Choice) (s : Shared E) (hs : E.S.ok s.store) (seed : B 32) (t : String) (x : Bool) :
    OneNew s ((LocalCall.insertSeed seed t x).Makes E) (fun i e => LocalOut.tells (.seed i) e) (runAlone ch s (insertSeed E seed t x)) := by
  rw [runAlone_insertSeed_eq]
  split
  · exact Or.inl ⟨⟨_, rfl⟩, rfl⟩
  · exact runAlone_finishWith _ s hs _ _ ⟨_, rfl, SecretSized.decrypt_encrypt ..⟩ rfl

theorem oneNew_deep (ch : Nat → Choice) (s : Shared E) (hs : E.S.ok s.store) (seed : B 32) (t : String) (ops mem : UInt32) (pass : B 64) (x : Bool) :
    OneNew s ((LocalCall.insertDeep seed t ops mem pass x).Makes E) (fun i e => LocalOut.tells (.seed i) e)
      (runAlone ch s (insertDeep E seed t ops mem pass x)) := by
  rw [runAlone_insertDeep_eq]
  split
  · exact Or.inl ⟨⟨_, rfl⟩, rfl⟩
  · split
    · exact Or.inl ⟨⟨_, rfl⟩, rfl⟩
    · rename_i key hk
      exact runAlone_finishWith _ s hs _ _ ⟨_, key, _, rfl, hk, SecretSized.decrypt_encrypt ..⟩ rfl

theorem oneNew_cert (ch : Nat → Choice) (s : Shared E) (hs : E.S.ok s.store) (t : String) :
    OneNew s ((LocalCall.newCert t).Makes E) (fun i e => LocalOut.tells (.cert i) e) (runAlone ch s (newCert E t)) := by
  have hr : ∀ x : Res Unit × Shared E × List Ev, exec 0 (ch 0) s .alloc = x →
      runAlone ch s (newCert E t) = runAlone (fun n => ch (n + 1)) x.2.1 ((Prog.ofRes x.1).bind fun _ =>
        .step .genCert fun (g : CertGen) => .step (.random 24) fun (hdr : B 24) =>
          finishWith (.cert t ⟨g.sni, E.C.blake2b32 g.cert, g.cert⟩ (SecretData.encrypt E.C E.bidi hdr g.priv))
            ⟨g.sni, E.C.blake2b32 g.cert, g.cert⟩) := by
    rintro x rfl; rfl
  cases hf : (ch 0).fault with
  | some x => rw [hr _ (exec_alloc_fault hf)]; exact Or.inl ⟨⟨_, rfl⟩, rfl⟩
  | none =>
    rw [hr _ (exec_alloc_ok hf)]
    exact runAlone_finishWith (fun n => ch (n + 3)) s hs _ _ ⟨_, _, rfl, SecretData.decrypt_encrypt _ E.L ..⟩ rfl

/-- A random seed first. -/
theorem runAlone_fresh {α : Type} (ch : Nat → Choice) (s : Shared E) (f : B 32 → Prog α) :
    (∃ x, runAlone ch s (alloc.bind fun _ => .step (.random 32) f) = (.error x, s)) ∨
    runAlone ch s (alloc.bind fun _ => .step (.random 32) f) = runAlone (fun n => ch (n + 2)) s (f ((ch 1).rnd 32)) := by
  have hr : ∀ x : Res Unit × Shared E × List Ev, exec 0 (ch 0) s .alloc = x →
      runAlone ch s (alloc.bind fun _ => .step (.random 32) f) =
        runAlone (fun n => ch (n + 1)) x.2.1 ((Prog.ofRes x.1).bind fun _ => .step (.random 32) f) := by
    rintro x rfl; rfl
  cases hf : (ch 0).fault with
  | some x => left; exact ⟨x, by rw [hr _ (exec_alloc_fault hf)]; rfl⟩
  | none => right; rw [hr _ (exec_alloc_ok hf)]; rfl

theorem oneNew_call (x : LocalCall) (hx : x.adds = true) (ch : Nat → Choice) (s : Shared E) (hs : E.S.ok s.store) :
    OneNew s (x.Makes E) LocalOut.tells (runAlone ch s (x.prog E)) := by
  cases x with
  | insertSeed seed t x =>
    simp only [LocalCall.prog, runAlone_bind_ret]
    exact oneNew_map (oneNew_seed ch s hs seed t x) _ _ fun _ _ h => h
  | newSeed t x =>
    simp only [LocalCall.prog, runAlone_bind_ret]
    rcases runAlone_fresh ch s (fun seed => insertSeed E seed t x) with ⟨er, h⟩ | h
    · rw [h]; exact Or.inl ⟨⟨_, rfl⟩, rfl⟩
    · rw [h]
      exact oneNew_mono (oneNew_map (oneNew_seed _ s hs _ t x) _ _ fun _ _ h => h) fun e h => ⟨_, h⟩
  | insertDeep seed t ops mem pass x =>
    simp only [LocalCall.prog, runAlone_bind_ret]
    exact oneNew_map (oneNew_deep ch s hs seed t ops mem pass x) _ _ fun _ _ h => h
  | newDeep t ops mem pass x =>
    simp only [LocalCall.prog, runAlone_bind_ret]
    rcases runAlone_fresh ch s (fun seed => insertDeep E seed t ops mem pass x) with ⟨er, h⟩ | h
    · rw [h]; exact Or.inl ⟨⟨_, rfl⟩, rfl⟩
    · rw [h]
      exact oneNew_mono (oneNew_map (oneNew_deep _ s hs _ t ops mem pass x) _ _ fun _ _ h => h) fun e h => ⟨_, h⟩
  | newCert t =>
    simp only [LocalCall.prog, runAlone_bind_ret]
    exact oneNew_map (oneNew_cert ch s hs t) _ _ fun _ _ h => h
  | list => cases hx
  | byTag t => cases hx
  | byEd t => cases hx
  | byX t => cases hx

/-! ### C68 -/

/-- C68. A process that uses the store handle while it serves clients behaves as a server that only serves clients, one of which sends
    the requests that ask for what the calls do. More precisely: take any run, and a connection `c` that no client uses, on which the
    passphrase in `p` would be right. Then there is a run of the server alone, made of a block of events per event of the given run: an
    event of a client stays as it is, a call becomes an unlock request and one request of connection `c`, handled with nothing in
    between (a lookup becomes nothing). After every prefix of the two runs: the store and the caches are the same and so are the flags of
    all other connections, the requests of clients in flight are the same and have the same left to do, every client has got the same
    answers in the same states, and all that has come to an end did so in the same order with the same outcomes, the calls included. -/
theorem C68_one_more_client (c : Nat) (p : SecretSized 81) (hp : unlockCheck E c p = .ok ()) (evs : List LEvent)
    (hc : ∀ d m, LEvent.srv (.recv d m) ∈ evs → d ≠ c) :
    ∃ blocks : List (List Event), blocks.length = evs.length ∧
      (∀ (n : Nat) (ev : Event), evs[n]? = some (.srv ev) → blocks[n]? = some [ev]) ∧
      (∀ (n : Nat) (x : LocalCall) (ch : Nat → Choice), evs[n]? = some (.call x ch) → ∃ b, blocks[n]? = some b ∧ AsRequests E c p x b) ∧
      ∀ n, Beside c (LSys.run E st (evs.take n)) (Sys.run E st (blocks.take n).flatten) :=
  beside_run hp evs _ _ (beside_init c) hc

/-- C68. Such a connection always exists if the keystore has a passphrase. -/
theorem C68_spare_connection (hk : HasPassphrase E) (evs : List LEvent) :
    ∃ c p, unlockCheck E c p = .ok () ∧ ∀ d m, LEvent.srv (.recv d m) ∈ evs → d ≠ c := by
  obtain ⟨c, hc⟩ := spare evs
  obtain ⟨p, hp⟩ := hk.on c
  exact ⟨c, p, hp, hc⟩

/-- C68. A call that adds an entry is refused and changes nothing, or adds exactly one entry: what it was asked to add. Nothing else
    changes: no cache, no flag, no request in flight. -/
theorem C68_creation (hk : HasPassphrase E) (hst : GoodStore E st) (evs : List LEvent) (x : LocalCall) (hx : x.adds = true)
    (ch : Nat → Choice) :
    let l := LSys.run E st evs
    let l' := LSys.run E st (evs ++ [.call x ch])
    l'.log = l.log ++ [.call x (l.result x ch)] ∧ l'.sys.threads = l.sys.threads ∧ l'.sys.done = l.sys.done ∧
    ((∃ er, l.result x ch = .error er ∧ l'.sys = l.sys) ∨
      ∃ o e, l.result x ch = .ok o ∧ l'.sys.entries = l.sys.entries ++ [e] ∧ x.Makes E e ∧ o.tells e ∧ e.tag = x.tag ∧
        ∀ e' ∈ l.sys.entries, ¬ Clash e' e) := by
  intro l l'
  have hl' : l' = l.step (.call x ch) := by simp [l', l, LSys.run, List.foldl_append]
  have hi := lrun_inv hk hst evs
  have hi' := lrun_inv hk hst (evs ++ [.call x ch])
  refine ⟨by rw [hl']; rfl, by rw [hl']; rfl, by rw [hl']; rfl, ?_⟩
  rcases oneNew_call x hx ch l.sys.sh hi.1 with ⟨⟨er, h1⟩, h2⟩ | ⟨o, e, h1, h2, h3, h4⟩
  · left
    refine ⟨er, h1, ?_⟩
    rw [hl']
    show { l.sys with sh := (runAlone ch l.sys.sh (x.prog E)).2 } = l.sys
    rw [h2]
  · right
    have hen : l'.sys.entries = l.sys.entries ++ [e] := by rw [hl']; exact h2
    refine ⟨o, e, h1, hen, h3, h4, ?_, ?_⟩
    · cases x with
      | insertSeed => obtain ⟨_, rfl, _⟩ := h3; rfl
      | newSeed => obtain ⟨_, _, rfl, _⟩ := h3; rfl
      | insertDeep => obtain ⟨_, _, _, rfl, _⟩ := h3; rfl
      | newDeep => obtain ⟨_, _, _, _, rfl, _⟩ := h3; rfl
      | newCert => obtain ⟨_, _, rfl, _⟩ := h3; rfl
      | list => cases hx
      | byTag => cases hx
      | byEd => cases hx
      | byX => cases hx
    · intro e' he'
      have hd : Distinct l'.sys.entries := hi'.2
      rw [hen] at hd
      exact (List.pairwise_append.1 hd).2.2 e' he' e (by simp)

/-- C68. A lookup with the handle changes nothing, finds exactly the entry with that tag or key, and never misses it for another reason
    than a failing disk; the listing is complete. -/
theorem C68_lookup (hk : HasPassphrase E) (hst : GoodStore E st) (evs : List LEvent) (ch : Nat → Choice) :
    let l := LSys.run E st evs
    (∀ x : LocalCall, x.adds = false → (LSys.run E st (evs ++ [.call x ch])).sys = l.sys) ∧
    (∀ t o, l.result (.byTag t) ch = .ok o → ∃ e ∈ l.sys.entries, o = .entry e ∧ e.tag = t) ∧
    (∀ k o, l.result (.byEd k) ch = .ok o → ∃ e ∈ l.sys.entries, o = .entry e ∧ e.edKey = some k) ∧
    (∀ k o, l.result (.byX k) ch = .ok o → ∃ e ∈ l.sys.entries, o = .entry e ∧ e.xKey = some k) ∧
    (∀ o, l.result .list ch = .ok o → ∃ i, o = .list i ∧ i.Perm (l.sys.entries.map Entry.info)) ∧
    ((ch 0).fault = none →
      (∃ i, l.result .list ch = .ok (.list i)) ∧
      ∀ e ∈ l.sys.entries, l.result (.byTag e.tag) ch = .ok (.entry e) ∧ (∀ k, e.edKey = some k → l.result (.byEd k) ch = .ok (.entry e)) ∧
        ∀ k, e.xKey = some k → l.result (.byX k) ch = .ok (.entry e)) := by
  intro l
  have hok := (lrun_inv hk hst evs).1
  have rT : ∀ t, l.result (.byTag t) ch = (match (ch 0).fault with
      | some x => (.error x : Res Entry)
      | none => E.S.I.byTag l.sys.sh.store t).map .entry := by
    intro t
    simp only [LSys.result, LocalCall.prog, runAlone, exec]
    cases (ch 0).fault with
    | some x => rfl
    | none => simp only; cases E.S.I.byTag l.sys.sh.store t <;> rfl
  have rE : ∀ t, l.result (.byEd t) ch = (match (ch 0).fault with
      | some x => (.error x : Res Entry)
      | none => E.S.I.byEd l.sys.sh.store t).map .entry := by
    intro t
    simp only [LSys.result, LocalCall.prog, runAlone, exec]
    cases (ch 0).fault with
    | some x => rfl
    | none => simp only; cases E.S.I.byEd l.sys.sh.store t <;> rfl
  have rX : ∀ t, l.result (.byX t) ch = (match (ch 0).fault with
      | some x => (.error x : Res Entry)
      | none => E.S.I.byX l.sys.sh.store t).map .entry := by
    intro t
    simp only [LSys.result, LocalCall.prog, runAlone, exec]
    cases (ch 0).fault with
    | some x => rfl
    | none => simp only; cases E.S.I.byX l.sys.sh.store t <;> rfl
  have rL : l.result .list ch = (match (ch 0).fault with
      | some x => (.error x : Res (List EntryInfo))
      | none => E.S.I.list l.sys.sh.store).map .list := by
    simp only [LSys.result, LocalCall.prog, runAlone, exec]
    cases (ch 0).fault with
    | some x => rfl
    | none => simp only; cases E.S.I.list l.sys.sh.store <;> rfl
  obtain ⟨i, hi, hperm⟩ := E.S.R.list_perm _ hok
  have map_ok : ∀ {α β : Type} (f : α → β) (r : Res α) (o : β), r.map f = .ok o → ∃ a, r = .ok a ∧ o = f a := by
    intro α β f r o h
    cases r with
    | error e => cases h
    | ok a => cases h; exact ⟨a, rfl, rfl⟩
  refine ⟨?_, ?_, ?_, ?_, ?_, ?_⟩
  · intro x hx
    have : LSys.run E st (evs ++ [.call x ch]) = l.step (.call x ch) := by simp [l, LSys.run, List.foldl_append]
    rw [this]
    show { l.sys with sh := (runAlone ch l.sys.sh (x.prog E)).2 } = l.sys
    have h2 : (runAlone ch l.sys.sh (x.prog E)).2 = l.sys.sh := by
      cases x with
      | list =>
        simp only [LocalCall.prog, runAlone, exec]
        cases (ch 0).fault with
        | some y => rfl
        | none => simp only; cases E.S.I.list l.sys.sh.store <;> rfl
      | byTag t => exact lookup_same 0 _ rfl _ _
      | byEd t => exact lookup_same 0 _ rfl _ _
      | byX t => exact lookup_same 0 _ rfl _ _
      | _ => cases hx
    rw [h2]
  · intro t o h
    rw [rT] at h
    obtain ⟨e, h1, rfl⟩ := map_ok _ _ _ h
    cases hf : (ch 0).fault with
    | some x => simp [hf] at h1
    | none =>
      simp only [hf] at h1
      obtain ⟨h2, h3⟩ := (E.S.R.byTag_iff _ _ _ hok).1 h1
      exact ⟨e, h2, rfl, h3⟩
  · intro t o h
    rw [rE] at h
    obtain ⟨e, h1, rfl⟩ := map_ok _ _ _ h
    cases hf : (ch 0).fault with
    | some x => simp [hf] at h1
    | none =>
      simp only [hf] at h1
      obtain ⟨h2, h3⟩ := (E.S.R.byEd_iff _ _ _ hok).1 h1
      exact ⟨e, h2, rfl, h3⟩
  · intro t o h
    rw [rX] at h
    obtain ⟨e, h1, rfl⟩ := map_ok _ _ _ h
    cases hf : (ch 0).fault with
    | some x => simp [hf] at h1
    | none =>
      simp only [hf] at h1
      obtain ⟨h2, h3⟩ := (E.S.R.byX_iff _ _ _ hok).1 h1
      exact ⟨e, h2, rfl, h3⟩
  · intro o h
    rw [rL] at h
    obtain ⟨j, h1, rfl⟩ := map_ok _ _ _ h
    cases hf : (ch 0).fault with
    | some x => simp [hf] at h1
    | none =>
      simp only [hf] at h1
      have : i = j := by
        have := hi.symm.trans h1
        cases this; rfl
      exact ⟨j, rfl, this ▸ hperm⟩
  · intro hf
    refine ⟨⟨i, ?_⟩, fun e he => ⟨?_, fun k hk' => ?_, fun k hk' => ?_⟩⟩
    · rw [rL, hf]; simp only; rw [hi]; rfl
    · rw [rT, hf]; simp only; rw [(E.S.R.byTag_iff _ _ _ hok).2 ⟨he, rfl⟩]; rfl
    · rw [rE, hf]; simp only; rw [(E.S.R.byEd_iff _ _ _ hok).2 ⟨he, hk'⟩]; rfl
    · rw [rX, hf]; simp only; rw [(E.S.R.byX_iff _ _ _ hok).2 ⟨he, hk'⟩]; rfl

/-- C68. Entries stay for ever, whoever added them and whoever goes on, restarts included; no two have the same tag or key. -/
theorem C68_entries_permanent (hk : HasPassphrase E) (hst : GoodStore E st) (evs₁ evs₂ : List LEvent) :
    (LSys.run E st evs₁).sys.entries <+: (LSys.run E st (evs₁ ++ evs₂)).sys.entries ∧
    ((LSys.run E st evs₁).sys.entries.map Entry.tag).Nodup ∧
    ((LSys.run E st evs₁).sys.entries.filterMap Entry.edKey).Nodup ∧
    ((LSys.run E st evs₁).sys.entries.filterMap Entry.xKey).Nodup := by
  obtain ⟨c, a, b, h1, h2⟩ := lrun_beside (st := st) hk evs₁ evs₂
  have e1 : (LSys.run E st evs₁).sys.entries = (Sys.run E st a).entries := congrArg E.S.tbl h1.sh.store
  have e2 : (LSys.run E st (evs₁ ++ evs₂)).sys.entries = (Sys.run E st (a ++ b)).entries := congrArg E.S.tbl h2.sh.store
  rw [e1, e2]
  exact ⟨C05_entries_only_appended hst a b, C06_tags_and_keys_unique hst a⟩

/-- C68. Clients see what the handle added at once: a get-entry request that arrives when an entry is in the store is answered with its
    public information, whoever added it, unless the environment makes it fail or its connection is locked. -/
theorem C68_clients_see_entries (hk : HasPassphrase E) (hst : GoodStore E st) (evs : List LEvent) (d : Done E)
    (hd : d ∈ (LSys.run E st evs).sys.done) (e : Entry) (he : e ∈ E.S.tbl d.start.store) (i : String)
    (hm : d.msg = .req i (.getEntry e.tag)) (hf : Ev.fault ∉ d.log) (hlock : d.outcome ≠ .error "KeystoreLocked") :
    d.outcome = .ok (.getEntry e.info) := by
  obtain ⟨c, a, h⟩ := lrun_one (st := st) hk evs
  obtain ⟨d', hd', hs⟩ := h.done.mem d hd
  have hd'' : d' ∈ (Sys.run E st a).done := (List.mem_filter.1 hd').1
  have hsp := done_spec hst hd''
  obtain ⟨_, hi, hx⟩ := done_inv hst hd''
  have hstart : e ∈ d'.start.tbl := by
    show e ∈ E.S.tbl d'.start.store
    rw [← hs.start.store]; exact he
  rw [← hs.msg, hm] at hsp
  rw [← hs.log, ← hs.outcome] at hsp
  rcases hsp with ⟨_, h, _⟩ | ⟨_, ⟨h, _⟩ | ⟨_, h⟩ | ⟨_, e', he', ht, ho⟩⟩
  · exact absurd h hlock
  · rw [h] at hf; simp at hf
  · exact absurd rfl (h e hstart)
  · have : e' = e := hi.distinct.eq_of_clash he' (hx.mem hstart) (Or.inl ht)
    rw [ho, this]

/-- Clients on connections other than `c` have got the same answers. -/
theorem same_answers {c : Nat} {x : LSys E} {y : Sys E} (h : Beside c x y) {d : Nat} (hdc : d ≠ c) :
    (x.sys.done.filter fun x => x.conn = d).map (fun x => (x.msg, x.outcome, x.wire)) =
    (y.done.filter fun x => x.conn = d).map (fun x => (x.msg, x.outcome, x.wire)) := by
  have key : ∀ (l : List (Done E)) (m : List (Done E)), Pairs (SameDone c) l (m.filter fun x => x.conn ≠ c) →
      (l.filter fun x => x.conn = d).map (fun x => (x.msg, x.outcome, x.wire)) =
      (m.filter fun x => x.conn = d).map (fun x => (x.msg, x.outcome, x.wire)) := by
    intro l m hp
    have hf : (m.filter fun x => x.conn = d) = ((m.filter fun x => x.conn ≠ c).filter fun x => x.conn = d) := by
      rw [List.filter_filter]
      apply List.filter_congr
      intro x _
      by_cases hx : x.conn = d
      · simp [hx, hdc]
      · simp [hx]
    rw [hf]
    generalize (m.filter fun x => x.conn ≠ c) = m' at hp
    induction l generalizing m' with
    | nil => cases m' with
      | nil => rfl
      | cons y ys => exact hp.elim
    | cons x xs ih => cases m' with
      | nil => exact hp.elim
      | cons y ys =>
        have hxy := hp.1
        have := ih ys hp.2
        by_cases hx : x.conn = d
        · rw [List.filter_cons_of_pos (by simpa using hx), List.filter_cons_of_pos (by simpa [← hxy.conn] using hx)]
          simp only [List.map_cons, this, hxy.msg, hxy.outcome, hxy.wire]
        · rw [List.filter_cons_of_neg (by simpa using hx), List.filter_cons_of_neg (by simpa [← hxy.conn] using hx)]
          exact this
  exact key _ _ h.done

/-- C68. No client can tell: for every run beside the handle there is a run of the server alone in which every client has got the same
    answers to the same messages, in the same order. -/
theorem C68_clients_cannot_tell (hk : HasPassphrase E) (evs : List LEvent) :
    ∃ a : List Event, ∀ d, (∃ m, LEvent.srv (.recv d m) ∈ evs) →
      ((LSys.run E st evs).sys.done.filter fun x => x.conn = d).map (fun x => (x.msg, x.outcome, x.wire)) =
      ((Sys.run E st a).done.filter fun x => x.conn = d).map (fun x => (x.msg, x.outcome, x.wire)) := by
  obtain ⟨c, hc⟩ := spare evs
  obtain ⟨p, hp⟩ := hk.on c
  obtain ⟨bs, hl, _, _, hb⟩ := beside_run hp evs _ _ (beside_init (E := E) (st := st) c) hc
  have h := hb evs.length
  rw [List.take_length] at h
  exact ⟨(bs.take evs.length).flatten, fun d ⟨m, hm⟩ => same_answers h (hc d m hm)⟩

/-- C68. Inserting a seed works: if nothing fails, no entry has this tag or one of its keys, and the store has room, the entry is added. -/
theorem C68_insert_works (hk : HasPassphrase E) (hst : GoodStore E st) (evs : List LEvent) (seed : B 32) (t : String) (x : Bool)
    (ch : Nat → Choice) (hf : ∀ n, (ch n).fault = none) (hroom : ∀ e, (LocalCall.insertSeed seed t x).Makes E e → E.S.fits e = true)
    (hfree : ∀ e ∈ (LSys.run E st evs).sys.entries, e.tag ≠ t ∧ e.edKey ≠ some (E.C.edPk seed) ∧ e.xKey ≠ some (E.C.xPk seed)) :
    (LSys.run E st evs).result (.insertSeed seed t x) ch = .ok (.seed ⟨E.C.edPk seed, E.C.xPk seed, x⟩) := by
  have hok := (lrun_inv hk hst evs).1
  simp only [LSys.result, LocalCall.prog, runAlone_bind_ret, runAlone_insertSeed_eq, hf 0]
  generalize he : Entry.seed t ⟨E.C.edPk seed, E.C.xPk seed, x⟩ (SecretSized.encrypt E.C E.L E.bidi ((ch 1).rnd 24) seed) = e
  have hfit := hroom e ⟨_, he.symm, SecretSized.decrypt_encrypt ..⟩
  have hnc : ∀ e' ∈ E.S.tbl (LSys.run E st evs).sys.sh.store, ¬ Clash e' e := by
    intro e' he' hcl
    obtain ⟨f1, f2, f3⟩ := hfree e' he'
    subst he
    rcases hcl with h | ⟨k, h, h'⟩ | ⟨k, h, h'⟩
    · exact f1 h
    · cases h'; exact f2 h
    · cases h'; exact f3 h
  obtain ⟨w1, _, _⟩ := E.S.R.write_new _ e hok hfit hnc
  have hr : ∀ y : Res Unit × Shared E × List Ev, exec 0 (ch 2) (LSys.run E st evs).sys.sh (.write e) = y →
      (runAlone (fun n => ch (n + 2)) (LSys.run E st evs).sys.sh (writeRet e ⟨E.C.edPk seed, E.C.xPk seed, x⟩)).1 =
        (runAlone (fun n => ch (n + 3)) y.2.1 ((Prog.ofRes y.1).bind fun _ => .ret (⟨E.C.edPk seed, E.C.xPk seed, x⟩ : SeedInfo))).1 := by
    rintro y rfl; rfl
  rw [hr _ rfl]
  have : (exec 0 (ch 2) (LSys.run E st evs).sys.sh (.write e)).1 = .ok () := by
    rw [← w1]; simp only [exec, hf 2]; rfl
  generalize exec 0 (ch 2) (LSys.run E st evs).sys.sh (.write e) = y at this
  obtain ⟨y1, y2⟩ := y
  simp only at this
  subst this
  rfl

/-! ### Examples: the hypotheses are met -/

namespace LocalEx
open Ex

/-- A client unlocks, asks for a tag that does not exist; the handle inserts a seed under that tag, also a deep-locked one and a
    certificate; the client asks again; a second insertion under the same tag is refused; the process restarts; the handle lists. -/
def story : List LEvent :=
  (unlock 0).map .srv ++ (serve 0 (.req "a" (.getEntry "alice")) 0).map .srv ++
  [.call (.insertSeed (B.fill 32 11) "alice" true) (fun _ => calm 1), .call (.newDeep "deep" 1 1 (B.fill 64 3) false) (fun _ => calm 12),
   .call (.newCert "cert") (fun _ => calm 2)] ++
  (serve 0 (.req "b" (.getEntry "alice")) 0).map .srv ++
  [.call (.newSeed "alice" true) (fun _ => calm 9), .srv .restart, .call .list (fun _ => calm 0), .call (.byTag "cert") (fun _ => faulty)]

def after : LSys (env false 2) := LSys.run (env false 2) MemStore.empty story

/-- The results of all calls. -/
def calls (l : LSys (env false 2)) : List Bool := l.log.filterMap fun d => match d with
  | .call _ r => some r.isOk
  | _ => none

set_option maxRecDepth 100000 in
example : calls after = [true, true, true, false, true, false] ∧ after.sys.entries.map Entry.tag = ["alice", "deep", "cert"] := by
  decide +kernel

set_option maxRecDepth 100000 in
example : after.sys.done.map Done.outcome =
    [.ok .unlock, .error "tag not found", .ok (.getEntry (.seed "alice" ⟨B.fill 32 11, B.fill 32 11, true⟩))] := by decide +kernel

example : HasPassphrase (env false 2) := ⟨0, sent 0 pass, by decide +kernel⟩
example : ∀ d m, LEvent.srv (.recv d m) ∈ story → d ≠ 1 := by
  intro d m h
  simp [story, unlock, serve] at h
  rcases h with h | h | h <;> omega
example : unlockCheck (env false 2) 1 (sent 1 pass) = .ok () := by decide +kernel
example : ∀ e, (LocalCall.insertSeed (B.fill 32 77) "new" true).Makes (env false 2) e → (env false 2).S.fits e = true := fun _ _ => rfl

end LocalEx
end Lair
