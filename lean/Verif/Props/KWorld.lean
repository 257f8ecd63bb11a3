import Verif.KWorldLemmas
import Verif.Props.MWorldCor
import Verif.DialLemmas

/-
C81: over its whole life - servers started with right and wrong passphrases, cut off while starting, at work beside one another, crashing
and started again - clients see one keystore. (KWorld.lean; specification: `ExplainsLife` there.)
-/
namespace Lair

/-- What C81 assumes of a life `evs` of the keystore with configuration `cfg`, which begins with the files `fs`, with contents `st`: -/
structure LifeAssumed (E : Env) (S : SStream) (cfg : Config) (keys : SrvKeys) (fs : Migr.Fs E.S.σ) (st : E.S.σ) (evs : List (KEv S))
    (okLim : UInt32 → UInt32 → Bool) (room : Item → Bool) (ks₀ : Keystore) (H : List (B 64)) (Λ : List (UInt32 × UInt32)) : Prop where
  /-- the stream cipher works -/
  lawful : S.Lawful
  /-- all passphrases that open the configuration open it to the same secrets (C70_one_secret) -/
  secret : OneSecret E.C cfg keys
  /-- there is no store file at first, or one of this configuration, or an unencrypted one -/
  files : FirstFiles (storeKeys E.C keys.contextKey).dbk fs st
  /-- which is not being migrated by a process that is cut off (C43) -/
  cut : fs.isPlain → ¬ CutOff evs
  /-- nobody forges on a connection (C25, C55), and the message ids on it differ -/
  unforged : KNeverForged E S cfg fs evs
  ids : ∀ c, (KWorld.run E S cfg fs evs).FreshIds c
  /-- which password hashing limits and items are possible -/
  limits : ∀ p salt ops mem, (E.C.argon2id p salt ops mem).isSome = okLim ops mem
  space : ∀ i e, Repr E i e → E.S.fits e = room i
  /-- the keystore at first -/
  first : Stands E ks₀ (E.S.tbl st)
  /-- `H` and `Λ` are the passphrases of deep-locked seeds and the limits in use, and none of them opens another's entry -/
  known : Known H Λ ks₀
  calls : ∀ c k id q call, (KWorld.run E S cfg fs evs).request c k = some (id, q) → q.call? E c = some call → call.within H Λ
  handles : ∀ j x ch call, KEv.call j x ch ∈ evs → x.asCall = some call → call.within H Λ
  separated : Separated E H Λ (KWorld.run E S cfg fs evs).entries

section
variable {S : SStream} {E : Env} {st : E.S.σ} {cfg : Config} {keys : SrvKeys} {fs : Migr.Fs E.S.σ} {evs : List (KEv S)}
  {okLim : UInt32 → UInt32 → Bool} {room : Item → Bool} {ks₀ : Keystore} {H : List (B 64)} {Λ : List (UInt32 × UInt32)}

/-- The events of a life, for the servers on the file. -/
def kAsM (E : Env) (S : SStream) (cfg : Config) (fs : Migr.Fs E.S.σ) (evs : List (KEv S)) : List (MWEv S) := (KWorld.init E S fs).asMs cfg evs

theorem kinv_take (hone : OneSecret E.C cfg keys) (hf : FirstFiles (storeKeys E.C keys.contextKey).dbk fs st) (hcut : fs.isPlain → ¬ CutOff evs) (n : Nat) :
    KInv (storeKeys E.C keys.contextKey).dbk st fs (KWorld.run E S cfg fs (evs.take n)) (MWorld.run E S st ((kAsM E S cfg fs evs).take n)) := by
  unfold kAsM
  rw [asMs_take]
  exact kinv_foldl hone rfl _ ⟨life_init hf, rfl, mworldInv_init st⟩
    (fun hp ⟨pass, k, hm⟩ => hcut hp ⟨pass, k, List.mem_of_mem_take hm⟩)

theorem kinv_run (hone : OneSecret E.C cfg keys) (hf : FirstFiles (storeKeys E.C keys.contextKey).dbk fs st) (hcut : fs.isPlain → ¬ CutOff evs) :
    KInv (storeKeys E.C keys.contextKey).dbk st fs (KWorld.run E S cfg fs evs) (MWorld.run E S st (kAsM E S cfg fs evs)) := by
  have h := kinv_take (S := S) hone hf hcut (evs.length + (kAsM E S cfg fs evs).length)
  rwa [List.take_of_length_le (by omega), List.take_of_length_le (by omega)] at h

section inv
variable {key : B 32} {w : KWorld E S} {m : MWorld E S}

theorem KInv.request (h : KInv key st fs w m) (c k : Nat) : w.request c k = m.request c k := by simp only [KWorld.request, MWorld.request, h.conns]
theorem KInv.result (h : KInv key st fs w m) (c k : Nat) : w.result c k = m.result c k := by unfold KWorld.result MWorld.result; rw [h.conns]; rfl
theorem KInv.freshIds (h : KInv key st fs w m) (c : Nat) : w.FreshIds c ↔ m.FreshIds c := by simp only [KWorld.FreshIds, MWorld.FreshIds, h.conns]
theorem KInv.unforged (h : KInv key st fs w m) (c : Nat) : w.Unforged c ↔ m.Unforged c := by simp only [KWorld.Unforged, MWorld.Unforged, h.conns]
theorem KInv.entries (h : KInv key st fs w m) : w.entries = m.multi.entries := by
  rw [h.world.run]; exact h.life.entries

end inv

/-- A call of the handle of a server at work, here and there. -/
theorem asMs_call {p j : Nat} {x : LocalCall} {ch : Nat → Choice} : (kAsM E S cfg fs evs)[p]? = some (.call j x ch) ↔
    evs[p]? = some (.call j x ch) ∧ (KWorld.run E S cfg fs (evs.take p)).isUp j = true := by
  unfold kAsM
  rw [asMs_get]
  show Option.map (fun e => KWorld.asM cfg (KWorld.run E S cfg fs (evs.take p)) e) evs[p]? = _ ↔ _
  cases evs[p]? with
  | none => simp
  | some e =>
    simp only [Option.map_some, Option.some.injEq]
    cases e <;> simp only [KWorld.asM] <;> (try split) <;> simp_all
    all_goals (rintro rfl _ _; assumption)

theorem kHandle (hone : OneSecret E.C cfg keys) (hf : FirstFiles (storeKeys E.C keys.contextKey).dbk fs st) (hcut : fs.isPlain → ¬ CutOff evs)
    {p : Nat} {x : LocalCall} {ch : Nat → Choice} {r : Res LocalOut} :
    HandleIn E S cfg fs evs p x ch r ↔ HandleAt E S st (kAsM E S cfg fs evs) p x ch r := by
  have h := (kinv_take (S := S) hone hf hcut p).procs
  unfold HandleIn HandleAt
  simp only [asMs_call, ← h, and_assoc]

theorem kExplains (hk : HasPassphrase E) (h : LifeAssumed E S cfg keys fs st evs okLim room ks₀ H Λ) :
    ∃ ops, ExplainsAll E S st (kAsM E S cfg fs evs) okLim room ks₀ ops := by
  have hi := kinv_run h.secret h.files h.cut
  have ht := kinv_take (S := S) h.secret h.files h.cut
  refine C74_all_clients_see_one_keystore h.lawful hk h.files.good _ ?_ ?_ h.limits h.space h.first h.known ?_ ?_ ?_
  · intro n c
    exact ((ht n).unforged c).mp (h.unforged n c)
  · intro c
    exact (hi.freshIds c).mp (h.ids c)
  · intro c k id q call hq
    rw [← hi.request] at hq
    exact h.calls c k id q call hq
  · intro j x ch call hm
    obtain ⟨p, hp⟩ := List.getElem?_of_mem hm
    exact h.handles j x ch call (List.mem_of_getElem? (asMs_call.mp hp).1)
  · rw [← hi.entries]; exact h.separated

theorem kOver (h : LifeAssumed E S cfg keys fs st evs okLim room ks₀ H Λ) (n : Nat) (w : Who) :
    (w.overIn E S cfg fs evs n ↔ w.over E S st (kAsM E S cfg fs evs) n) ∧ (w.notYetIn E S cfg fs evs n ↔ w.notYet E S st (kAsM E S cfg fs evs) n) := by
  have ht := kinv_take (S := S) h.secret h.files h.cut n
  cases w with
  | request c k => simp only [Who.overIn, Who.over, Who.notYetIn, Who.notYet, ht.result, ht.request, and_self]
  | handle p => exact ⟨Iff.rfl, Iff.rfl⟩

theorem kExplainsLife (h : LifeAssumed E S cfg keys fs st evs okLim room ks₀ H Λ) {ops : List WOp}
    (x : ExplainsAll E S st (kAsM E S cfg fs evs) okLim room ks₀ ops) : ExplainsLife E S cfg fs evs okLim room ks₀ ops := by
  have hi := kinv_run h.secret h.files h.cut
  refine ⟨x.correct, ?_, x.once, ?_, ?_, ?_, ?_, ?_, x.luck⟩
  · rw [hi.entries]; exact x.final
  · refine x.order.imp ?_
    rintro a b hab ⟨n, h1, h2⟩
    exact hab ⟨n, (kOver h n _).1.mp h1, (kOver h n _).2.mp h2⟩
  · intro c k id q call v
    rw [hi.request, hi.result]
    exact x.requests c k id q call v
  · intro p y ch r hh
    exact x.handles p y ch r ((kHandle h.secret h.files h.cut).mp hh)
  · intro o ho c k
    rw [hi.request, hi.result]
    exact x.realRequest o ho c k
  · intro o ho p hp
    obtain ⟨y, ch, r, h1, h2⟩ := x.realHandle o ho p hp
    exact ⟨y, ch, r, (kHandle h.secret h.files h.cut).mpr h1, h2⟩

end

theorem life_at_length {E : Env} {cfg : Config} (s : Life E) (j : Nat) (ev : LEvent) : (s.step cfg (.at j ev)).procs.length = s.procs.length := by
  simp only [Life.step]
  cases s.procs[j]? with
  | none => rfl
  | some l => simp

theorem life_length {E : Env} {cfg : Config} (s : Life E) (ev : LifeEv) : s.procs.length ≤ (s.step cfg ev).procs.length := by
  cases ev with
  | start pass migrate cut =>
    simp only [Life.step]
    cases cfg.unlock E.C pass with
    | none => exact Nat.le_refl _
    | some keys =>
      simp only [Life.open]
      split
      · exact Nat.le_refl _
      · split
        · exact Nat.le_refl _
        · simp
  | «begin» pass =>
    simp only [Life.step]
    cases cfg.unlock E.C pass <;> exact Nat.le_refl _
  | advance i =>
    simp only [Life.step]
    cases s.opening[i]? with
    | none => exact Nat.le_refl _
    | some key =>
      simp only [Life.advance]
      split
      · exact Nat.le_refl _
      · split
        · split <;> simp
        · exact Nat.le_refl _
      · exact Nat.le_refl _
  | «at» j ev => rw [life_at_length]; exact Nat.le_refl _

/-- Only processes that were there have ended. -/
theorem dead_lt {E : Env} {S : SStream} {cfg : Config} {fs : Migr.Fs E.S.σ} (evs : List (KEv S)) :
    ∀ i ∈ (KWorld.run E S cfg fs evs).dead, i < (KWorld.run E S cfg fs evs).life.procs.length := by
  have step : ∀ (w : KWorld E S) (e : KEv S), (∀ i ∈ w.dead, i < w.life.procs.length) → ∀ i ∈ (w.step cfg e).dead, i < (w.step cfg e).life.procs.length := by
    intro w e h
    have more : ∀ (ev : LifeEv), ∀ i ∈ w.dead, i < (w.life.step cfg ev).procs.length := fun ev i hi => Nat.lt_of_lt_of_le (h i hi) (life_length _ _)
    cases e with
    | start pass migrate cut => exact more _
    | «begin» pass => exact more _
    | advance i => exact more _
    | ends j =>
      simp only [KWorld.step]
      split
      · rename_i hj
        intro i hi
        rcases List.mem_cons.mp hi with rfl | hi
        · show i < (w.life.step cfg _).procs.length
          rw [life_at_length]
          simp only [KWorld.isUp, Bool.and_eq_true, decide_eq_true_eq] at hj
          exact hj.1
        · exact more _ i hi
      · exact h
    | connect j u d =>
      simp only [KWorld.step]
      split <;> exact h
    | net c e => exact h
    | serve c =>
      simp only [KWorld.step]
      split
      · exact h
      · split
        · exact h
        · split
          · exact more _
          · exact h
    | act j i ch =>
      simp only [KWorld.step]
      split
      · split
        · exact more _
        · split <;> exact more _
      · exact h
    | call j x ch =>
      simp only [KWorld.step]
      split
      · exact more _
      · exact h
  unfold KWorld.run
  have : ∀ (evs : List (KEv S)) (w : KWorld E S), (∀ i ∈ w.dead, i < w.life.procs.length) →
      ∀ i ∈ (evs.foldl (KWorld.step cfg) w).dead, i < (evs.foldl (KWorld.step cfg) w).life.procs.length := by
    intro evs
    induction evs with
    | nil => intro w h; exact h
    | cons e es ih => intro w h; exact ih _ (step w e h)
  exact this evs _ (by simp [KWorld.init])

/-- A connection of a server that has ended: nothing more is put on the wire. -/
def NoMoreSent (j : Nat) (b : Bytes) (p : Nat × Conn S) : Prop := p.1 = j ∧ p.2.gone = true ∧ p.2.down.snd.wire = b

theorem noMoreSent_step {S : SStream} {j : Nat} {b : Bytes} {k : Nat} {x : Conn S} (h : NoMoreSent j b (k, x)) (e : NEv) : NoMoreSent j b (k, x.step e) := by
  obtain ⟨h1, h2, h3⟩ := h
  simp only at h1 h2 h3
  refine ⟨h1, (Dial.step_start x e).2.2.trans h2, ?_⟩
  simp only
  rw [← h3]
  cases e with
  | downSend e => simp [Conn.step, h2]
  | downRetry k => simp [Conn.step, h2]
  | downShutdown => simp [Conn.step, h2]
  | poll =>
    simp only [Conn.step]
    split <;> rfl
  | asked k =>
    simp only [Conn.step]
    repeat' split
    all_goals rfl
  | cancel k =>
    simp only [Conn.step]
    split <;> rfl
  | upSend e =>
    simp only [Conn.step]
    split <;> rfl
  | _ => rfl

theorem noMoreSent_reply {S : SStream} {j : Nat} {b : Bytes} {k : Nat} {x : Conn S} (h : NoMoreSent j b (k, x)) (id : String) (r : Res Resp) :
    NoMoreSent j b (k, x.reply id r) := by
  obtain ⟨h1, h2, h3⟩ := h
  cases r <;> exact ⟨h1, h2, h3⟩

theorem noMoreSent_world {E : Env} {S : SStream} {cfg : Config} {j c : Nat} {b : Bytes} (evs : List (KEv S)) : ∀ (w : KWorld E S), j ∈ w.dead →
    (∃ p, w.conns[c]? = some p ∧ NoMoreSent j b p) →
    j ∈ (evs.foldl (KWorld.step cfg) w).dead ∧ ∃ p, (evs.foldl (KWorld.step cfg) w).conns[c]? = some p ∧ NoMoreSent j b p := by
  have modify : ∀ (w : KWorld E S) (i : Nat) (f : Conn S → Conn S), (∀ k x, NoMoreSent j b (k, x) → NoMoreSent j b (k, f x)) →
      (∃ p, w.conns[c]? = some p ∧ NoMoreSent j b p) → ∃ p, (w.conns.modify i (fun p => (p.1, f p.2)))[c]? = some p ∧ NoMoreSent j b p := by
    rintro w i f hf ⟨⟨k, x⟩, hp, hs⟩
    refine ⟨_, mw_modify_get_of hp, ?_⟩
    split
    · exact hf k x hs
    · exact hs
  induction evs with
  | nil => intro w h1 h2; exact ⟨h1, h2⟩
  | cons e es ih =>
    intro w h1 h2
    refine ih _ ?_ ?_
    · cases e <;> simp only [KWorld.step] <;> repeat' split
      all_goals first | exact h1 | exact List.mem_cons_of_mem _ h1
    · cases e with
      | start pass migrate cut => exact h2
      | «begin» pass => exact h2
      | advance i => exact h2
      | ends i =>
        simp only [KWorld.step]
        split
        · obtain ⟨⟨k, x⟩, hp, hs⟩ := h2
          refine ⟨if k = i then (k, { x with gone := true }) else (k, x), ?_, ?_⟩
          · show (w.conns.map _)[c]? = _
            rw [List.getElem?_map, hp]; rfl
          · split
            · exact ⟨hs.1, rfl, hs.2.2⟩
            · exact hs
        · exact h2
      | connect i u d =>
        simp only [KWorld.step]
        split
        · obtain ⟨p, hp, hs⟩ := h2
          exact ⟨p, by show (w.conns ++ _)[c]? = _; rw [List.getElem?_append_left (List.getElem?_eq_some_iff.mp hp).1]; exact hp, hs⟩
        · exact h2
      | net i e => exact modify w i _ (fun k x hs => noMoreSent_step hs e) h2
      | serve i =>
        simp only [KWorld.step]
        split
        · exact h2
        · split
          · exact h2
          · have := modify w i (fun x => { x with up := x.up.poll }) (fun k x hs => hs) h2
            split <;> exact this
      | act i t ch =>
        simp only [KWorld.step]
        split
        · split
          · exact h2
          · split
            · exact modify w _ _ (fun k x hs => noMoreSent_reply hs _ _) h2
            · exact h2
        · exact h2
      | call i x ch =>
        simp only [KWorld.step]
        split <;> exact h2

theorem kafter_append {C : Crypto} {okLim : UInt32 → UInt32 → Bool} {room : Item → Bool} (a b : List Op) (ks : Keystore) :
    Keystore.after C okLim room ks (a ++ b) = Keystore.after C okLim room (Keystore.after C okLim room ks a) b := by
  induction a generalizing ks with
  | nil => rfl
  | cons o a ih => exact ih _

section C81
variable {C : Crypto} {L : C.Lawful} {cfg : Config} {pass : Bytes} {keys : SrvKeys} {M : StoreModel} {name version : String}
  {encKey decKey : Nat → B 32} {certGen : Nat → CertGen} {debugFmt : Msg → String} {S : SStream} {okLim : UInt32 → UInt32 → Bool}
  {room : Item → Bool} {ks₀ : Keystore} {H : List (B 64)} {Λ : List (UInt32 × UInt32)}

/-- C81. Over the whole life of a keystore its clients see one keystore. Servers are started from its configuration with any passphrases,
    are cut off at any point of their start, work beside one another, crash at any moment and are started again; any number of clients
    connect to them and use them, with requests overlapping, messages split, delayed, cut off, requests timing out; and the programs
    around them use their store handles. Then ONE sequential history of calls to one keystore explains everything that all of them
    have ever seen, and it ends with what is in the store file. -/
theorem C81_one_keystore_for_life (hpass : cfg.unlock C pass = some keys) :
    let E := cfg.sqlEnv C L keys M name version encKey decKey certGen debugFmt
    ∀ (fs : Migr.Fs E.S.σ) (st : E.S.σ) (evs : List (KEv S)), LifeAssumed E S cfg keys fs st evs okLim room ks₀ H Λ →
      ∃ ops, ExplainsLife E S cfg fs evs okLim room ks₀ ops := by
  intro E fs st evs h
  obtain ⟨ops, x⟩ := kExplains (config_hasPassphrase C L cfg pass keys hpass M ..) h
  exact ⟨ops, kExplainsLife h x⟩

/-- C81. What a client has been told to have been made is found for the rest of the keystore's life: once the request that made a seed
    has succeeded, any client of any server - also one started long after the first has crashed - that asks for the entry with this tag,
    and gets an answer, gets this seed's public information. -/
theorem C81_made_once_found_for_life (hpass : cfg.unlock C pass = some keys) :
    let E := cfg.sqlEnv C L keys M name version encKey decKey certGen debugFmt
    ∀ (fs : Migr.Fs E.S.σ) (st : E.S.σ) (evs : List (KEv S)), LifeAssumed E S cfg keys fs st evs okLim room ks₀ H Λ →
    ∀ (n c k c' k' : Nat) (id id' t t' : String) (d : Option DeepPass) (x : Bool) (i : SeedInfo) (e : EntryInfo),
      (KWorld.run E S cfg fs evs).request c k = some (id, .newSeed t d x) →
      (KWorld.run E S cfg fs (evs.take n)).result c k = some (.ok (.newSeed t' i)) →
      (KWorld.run E S cfg fs (evs.take n)).request c' k' = none →
      (KWorld.run E S cfg fs evs).request c' k' = some (id', .getEntry t) →
      (KWorld.run E S cfg fs evs).result c' k' = some (.ok (.getEntry e)) →
      e = if d.isSome then .deep t i else .seed t i := by
  intro E fs st evs h n c k c' k' id id' t t' d x i e h1 h2 h3 h4 h5
  obtain ⟨ops, y⟩ := kExplains (config_hasPassphrase C L cfg pass keys hpass M ..) h
  have hi := kinv_run h.secret h.files h.cut
  have ht := kinv_take (S := S) h.secret h.files h.cut n
  rw [hi.request] at h1 h4
  rw [hi.result] at h5
  rw [ht.result] at h2
  rw [ht.request] at h3
  exact C74_made_here_found_there y h1 h2 h3 h4 h5

/-- C81. And it is in the store file, whatever has happened to the server that made it. -/
theorem C81_made_once_in_file (hpass : cfg.unlock C pass = some keys) :
    let E := cfg.sqlEnv C L keys M name version encKey decKey certGen debugFmt
    ∀ (fs : Migr.Fs E.S.σ) (st : E.S.σ) (evs : List (KEv S)), LifeAssumed E S cfg keys fs st evs okLim room ks₀ H Λ →
    ∀ (c k : Nat) (id t t' : String) (d : Option DeepPass) (x : Bool) (i : SeedInfo),
      (KWorld.run E S cfg fs evs).request c k = some (id, .newSeed t d x) →
      (KWorld.run E S cfg fs evs).result c k = some (.ok (.newSeed t' i)) →
      ∃ e ∈ (KWorld.run E S cfg fs evs).entries, e.tag = t ∧ e.info = if d.isSome then .deep t i else .seed t i := by
  intro E fs st evs h c k id t t' d x i h1 h2
  obtain ⟨ops, y⟩ := kExplains (config_hasPassphrase C L cfg pass keys hpass M ..) h
  have z := kExplainsLife h y
  obtain ⟨o, ho, hw⟩ := z.requests c k id _ _ _ h1 rfl (fun _ _ _ _ => by simp) h2
  obtain ⟨id', q, g1, g2, g3⟩ := z.realRequest o ho c k hw
  rw [h1] at g1
  cases g1
  have hcall : o.call = .newSeed t (d.map (lockOf E c)) x := (Option.some.inj g2).symm
  obtain ⟨A, B, hs⟩ := List.append_of_mem ho
  have hc := z.correct
  have hfin := z.final
  rw [hs, List.map_append, List.map_cons] at hc hfin
  rw [correct_append] at hc
  obtain ⟨it, b1, b2⟩ := made_byTag (okLim := okLim) (room := room) (r := o.luck) (ks := Keystore.after E.C okLim room ks₀ (A.map WOp.op)) (by
    have := hc.2.1 _ (g3 _ h2)
    rw [show o.op.call = _ from hcall] at this
    exact this)
  rw [kafter_append] at hfin
  simp only [Keystore.after, show o.op.call = _ from hcall] at hfin
  have b3 := byTag_grows (kafter_grows (C := E.C) (okLim := okLim) (room := room) (B.map WOp.op) _) b1
  obtain ⟨e, he, hr⟩ := hfin.left (i := it) (List.mem_of_find?_eq_some b3)
  have hinfo : e.info = it.info E.C := by cases hr <;> rfl
  refine ⟨e, he, ?_, by rw [hinfo, b2]; simp⟩
  have htag := List.find?_some b1
  simp only [decide_eq_true_eq] at htag
  cases hr <;> exact htag

/-- C81. Only a request that was made has a result, and a result is final, whatever happens to the server it came from. -/
theorem C81_result_final {E : Env} {fs : Migr.Fs E.S.σ} {st : E.S.σ} {evs : List (KEv S)} (hone : OneSecret E.C cfg keys)
    (hf : FirstFiles (storeKeys E.C keys.contextKey).dbk fs st) (hcut : fs.isPlain → ¬ CutOff evs) (c k n : Nat) (r : Res Resp)
    (h : (KWorld.run E S cfg fs (evs.take n)).result c k = some r) :
    (∃ q, (KWorld.run E S cfg fs (evs.take n)).request c k = some q) ∧ (KWorld.run E S cfg fs evs).result c k = some r := by
  have hi := kinv_run (S := S) hone hf hcut
  have ht := kinv_take (S := S) hone hf hcut n
  rw [ht.result] at h
  rw [ht.request, hi.result]
  exact C74_result_final _ c k n r h

/-- C81. A server that has ended is out of the game: it never works again - nobody connects to it, its requests go on no more, its handle
    does nothing -, and on its connections nothing is sent to the clients any more. -/
theorem C81_ended_is_over {E : Env} (w : KWorld E S) (j : Nat) (hj : w.isUp j = true) (more : List (KEv S)) :
    let w' := more.foldl (KWorld.step cfg) (w.step cfg (.ends j))
    w'.isUp j = false ∧
    (∀ u d, w'.step cfg (.connect j u d) = w') ∧ (∀ i ch, w'.step cfg (.act j i ch) = w') ∧ (∀ x ch, w'.step cfg (.call j x ch) = w') ∧
    ∀ c x, w.conns[c]? = some (j, x) → ∃ y, w'.conns[c]? = some (j, y) ∧ y.gone = true ∧ y.down.snd.wire = x.down.snd.wire ∧ w'.step cfg (.serve c) = w' := by
  intro w'
  have hdead : j ∈ w'.dead := by
    have h0 : j ∈ (w.step cfg (.ends j)).dead := by simp [KWorld.step, hj]
    have grow : ∀ (evs : List (KEv S)) (v : KWorld E S), j ∈ v.dead → j ∈ (evs.foldl (KWorld.step cfg) v).dead := by
      intro evs
      induction evs with
      | nil => intro v h; exact h
      | cons e es ih =>
        intro v h
        refine ih _ ?_
        cases e <;> simp only [KWorld.step] <;> repeat' split
        all_goals first | exact h | exact List.mem_cons_of_mem _ h
    exact grow more _ h0
  have hup : w'.isUp j = false := by simp [KWorld.isUp, hdead]
  refine ⟨hup, ?_, ?_, ?_, ?_⟩
  · intro u d; simp [KWorld.step, hup]
  · intro i ch; simp [KWorld.step, hup]
  · intro x ch; simp [KWorld.step, hup]
  · intro c x hx
    have h0 : ∃ p, (w.step cfg (.ends j)).conns[c]? = some p ∧ NoMoreSent j x.down.snd.wire p := by
      refine ⟨(j, { x with gone := true }), ?_, rfl, rfl, rfl⟩
      simp only [KWorld.step, hj, if_true, List.getElem?_map, hx, Option.map_some]
    obtain ⟨-, ⟨k, y⟩, hy, h1, h2, h3⟩ := noMoreSent_world (cfg := cfg) more (w.step cfg (.ends j)) (by simp [KWorld.step, hj]) h0
    simp only at h1 h2 h3
    subst h1
    refine ⟨y, hy, h2, h3, ?_⟩
    have hy' : w'.conns[c]? = some (k, y) := hy
    simp only [KWorld.step, hy', h2, if_true]

/-- C81. A wrong passphrase is noticed by nobody: a start with it changes neither the files nor any server, connection or client. -/
theorem C81_wrong_passphrase_unnoticed {E : Env} (w : KWorld E S) (p : Bytes) (migrate : Bool) (cut : Option Nat)
    (hp : cfg.unlock E.C p = none) : w.step cfg (.start p migrate cut) = w ∧ w.step cfg (.begin p) = w := by
  constructor <;> simp [KWorld.step, KWorld.lifeStep, Life.step, hp]

/-- C81. There can always be a server again: at any time, whatever servers have crashed or are still at work, a start with the right
    passphrase gives a server that is at work, to which clients can connect, with exactly the entries in the file; nothing changes for the
    clients of the others. (An unencrypted file has to be allowed to be migrated.) -/
theorem C81_always_a_server_again (hpass : cfg.unlock C pass = some keys) (hone : OneSecret C cfg keys) :
    let E := cfg.sqlEnv C L keys M name version encKey decKey certGen debugFmt
    ∀ (fs : Migr.Fs E.S.σ) (st : E.S.σ), FirstFiles (E := E) (storeKeys C keys.contextKey).dbk fs st →
    ∀ (evs : List (KEv S)), (fs.isPlain → ¬ CutOff evs) → ∀ migrate : Bool, ((KWorld.run E S cfg fs evs).life.fs.isPlain → migrate = true) →
      let w := KWorld.run E S cfg fs evs
      let w' := w.step cfg (.start pass migrate none)
      let j := w.life.procs.length
      (∃ l, w'.life.procs[j]? = some l ∧ l.sys.entries = w.entries) ∧ w'.isUp j = true ∧
      (∀ i, w'.isUp i = true ↔ w.isUp i = true ∨ i = j) ∧ (∀ i, i < j → w'.life.procs[i]? = w.life.procs[i]?) ∧
      w'.entries = w.entries ∧ w'.conns = w.conns ∧
      ∀ u d, (w'.step cfg (.connect j u d)).conns[w.conns.length]? = some (j, .init u d) := by
  intro E fs st hf evs hcut migrate hm w w' j
  have hi := kinv_run (S := S) (E := E) hone hf hcut
  have hs : w' = { w with life := w.life.open keys migrate none } := by
    show w.lifeStep cfg _ = _
    simp only [KWorld.lifeStep, Life.step]
    rw [show cfg.unlock E.C pass = some keys from hpass]
  have hd : ∀ i ∈ w.dead, i < j := dead_lt evs
  rcases open_cases hi.life rfl migrate none (fun _ _ => rfl) with ⟨_, h2⟩ | ⟨_, h1, h2⟩
  · obtain ⟨h3, h4⟩ := h2 rfl
    rw [hm h3] at h4; cases h4
  · have hp' : w'.life.procs = w.life.procs ++ [⟨.init E (Multi.run E st (MWorld.run E S st (kAsM E S cfg fs evs)).mevs).store, []⟩] := by rw [hs]; exact h2
    have hdead : w'.dead = w.dead := by rw [hs]
    have hconns : w'.conns = w.conns := by rw [hs]
    have hnd : j ∉ w.dead := fun hm => absurd (hd j hm) (Nat.lt_irrefl _)
    have hup : ∀ i, w'.isUp i = true ↔ w.isUp i = true ∨ i = j := by
      intro i
      simp only [KWorld.isUp, hdead, hp', Bool.and_eq_true, decide_eq_true_eq, List.length_append, List.length_singleton, Bool.not_eq_true',
        List.contains_eq_mem, decide_eq_false_iff_not]
      constructor
      · rintro ⟨a, b⟩
        by_cases hij : i = j
        · exact Or.inr hij
        · exact Or.inl ⟨by have : i ≠ w.life.procs.length := hij
                           omega, b⟩
      · rintro (⟨a, b⟩ | rfl)
        · exact ⟨by omega, b⟩
        · exact ⟨Nat.lt_succ_self _, hnd⟩
    have hupj : w'.isUp j = true := (hup j).mpr (Or.inr rfl)
    refine ⟨⟨_, (by rw [hp']; exact List.getElem?_concat_length), ?_⟩, hupj, hup, ?_, ?_, hconns, ?_⟩
    · show E.S.tbl _ = w.life.entries
      rw [hi.life.entries]; rfl
    · intro i hij
      rw [hp', List.getElem?_append_left hij]
    · show w'.life.entries = w.life.entries
      have : w'.life = w.life.open keys migrate none := by rw [hs]
      rw [this, h1.entries, hi.life.entries, mrun_snoc]; rfl
    · intro u d
      show (if w'.isUp j then { w' with conns := w'.conns ++ [(j, .init u d)] } else w').conns[w.conns.length]? = _
      rw [if_pos hupj]
      show (w'.conns ++ [(j, .init u d)])[w.conns.length]? = _
      rw [hconns]
      simp

/-- C81. A tag is given once in the life of a keystore: of several requests to make a seed with the same tag, at whatever servers and
    however long after one another, at most one succeeds. -/
theorem C81_tag_given_once_for_life (hpass : cfg.unlock C pass = some keys) :
    let E := cfg.sqlEnv C L keys M name version encKey decKey certGen debugFmt
    ∀ (fs : Migr.Fs E.S.σ) (st : E.S.σ) (evs : List (KEv S)), LifeAssumed E S cfg keys fs st evs okLim room ks₀ H Λ →
    ∀ (c k c' k' : Nat) (id id' t : String) (d d' : Option DeepPass) (x x' : Bool) (v v' : Resp),
      (KWorld.run E S cfg fs evs).request c k = some (id, .newSeed t d x) → (KWorld.run E S cfg fs evs).result c k = some (.ok v) →
      (KWorld.run E S cfg fs evs).request c' k' = some (id', .newSeed t d' x') → (KWorld.run E S cfg fs evs).result c' k' = some (.ok v') →
      c = c' ∧ k = k' := by
  intro E fs st evs h c k c' k' id id' t d d' x x' v v' h1 h2 h3 h4
  obtain ⟨ops, y⟩ := kExplains (config_hasPassphrase C L cfg pass keys hpass M ..) h
  have hi := kinv_run h.secret h.files h.cut
  rw [hi.request] at h1 h3
  rw [hi.result] at h2 h4
  exact C74_tag_given_once y h1 h2 h3 h4

end C81
end Lair
