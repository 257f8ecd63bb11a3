import Verif.Server
import Verif.StoreLemmas

/-
Invariant, rely relation and proof rules for handler programs running among arbitrary other handlers.
-/
namespace Lair

section
variable {E : Env}

/-- The accepted entries of the current store. Specification: nothing in the code corresponds. -/
def Shared.tbl (s : Shared E) : List Entry := E.S.tbl s.store

/-- An entry whose secret parts match its public parts. Proof device: nothing in the code corresponds. -/
def WF (E : Env) : Entry → Prop
  | .seed _ info enc => ∃ s : B 32, enc.decrypt (m := 32) E.C E.bidi = some s ∧ info.ed = E.C.edPk s ∧ info.x = E.C.xPk s
  | .deep _ info salt ops mem enc => ∃ (p : B 64) (key s : B 32), E.C.argon2id p.val salt ops mem = some key ∧
      enc.decrypt (m := 32) E.C key = some s ∧ info.ed = E.C.edPk s ∧ info.x = E.C.xPk s
  | .cert _ info priv => ∃ n, info = ⟨(E.certGen n).sni, E.C.blake2b32 (E.certGen n).cert, (E.certGen n).cert⟩ ∧
      priv.decrypt E.C E.bidi = some (E.certGen n).priv

/-- An entry as the server makes them: its secret part is the encryption of the seed or key that goes with its public part.
    Proof device: nothing in the code corresponds. -/
def Made (E : Env) : Entry → Prop
  | .seed _ info enc => ∃ (hdr : B 24) (s : B 32), enc = SecretSized.encrypt E.C E.L E.bidi hdr s ∧ info.ed = E.C.edPk s ∧ info.x = E.C.xPk s
  | .deep _ info salt ops mem enc => ∃ (hdr : B 24) (p : B 64) (key s : B 32), E.C.argon2id p.val salt ops mem = some key ∧
      enc = SecretSized.encrypt E.C E.L key hdr s ∧ info.ed = E.C.edPk s ∧ info.x = E.C.xPk s
  | .cert _ info priv => ∃ (hdr : B 24) (n : Nat), info = ⟨(E.certGen n).sni, E.C.blake2b32 (E.certGen n).cert, (E.certGen n).cert⟩ ∧
      priv = SecretData.encrypt E.C E.bidi hdr (E.certGen n).priv

/-- A cached full entry is that of a stored entry. Proof device: nothing in the code corresponds. -/
def FullIn (s : Shared E) (f : Full) : Prop := f.entry ∈ s.tbl ∧ fullOf E.C E.bidi f.entry = .ok f

/-- The invariant of the shared state. Proof device: nothing in the code corresponds. -/
structure Inv (s : Shared E) : Prop where
  ok : E.S.ok s.store
  distinct : Distinct s.tbl
  wf : ∀ e ∈ s.tbl, WF E e
  cTag : ∀ p ∈ s.cTag, FullIn s p.2 ∧ p.2.entry.tag = p.1
  cEd : ∀ p ∈ s.cEd, FullIn s p.2 ∧ p.2.entry.edKey = some p.1
  cX : ∀ p ∈ s.cX, FullIn s p.2 ∧ p.2.entry.xKey = some p.1
  lTag : s.cTag.length ≤ E.cap
  lEd : s.cEd.length ≤ E.cap
  lX : s.cX.length ≤ E.cap

/-- Later states: entries are only appended, connections only get unlocked.
    Proof device: nothing in the code corresponds. -/
structure Ext (s s' : Shared E) : Prop where
  tbl : ∃ more, s'.tbl = s.tbl ++ more
  unlocked : ∀ c, s.unlocked c = true → s'.unlocked c = true

theorem Ext.refl (s : Shared E) : Ext s s := ⟨⟨[], by simp⟩, fun _ h => h⟩

theorem Ext.trans {s t u : Shared E} (h : Ext s t) (h' : Ext t u) : Ext s u := by
  obtain ⟨⟨m, hm⟩, hu⟩ := h
  obtain ⟨⟨m', hm'⟩, hu'⟩ := h'
  exact ⟨⟨m ++ m', by rw [hm', hm, List.append_assoc]⟩, fun c hc => hu' c (hu c hc)⟩

theorem Ext.mem {s t : Shared E} (h : Ext s t) {e : Entry} (he : e ∈ s.tbl) : e ∈ t.tbl := by
  obtain ⟨⟨m, hm⟩, _⟩ := h
  rw [hm]; exact List.mem_append_left _ he

theorem Ext.full {s t : Shared E} (h : Ext s t) {f : Full} (hf : FullIn s f) : FullIn t f := ⟨h.mem hf.1, hf.2⟩

theorem Ext.locked {s t : Shared E} (h : Ext s t) {c : Nat} (hc : t.unlocked c = false) : s.unlocked c = false := by
  cases hs : s.unlocked c with
  | false => rfl
  | true => rw [h.unlocked c hs] at hc; cases hc

/-- What a handler for message `m` on connection `c` may do in state `s`.
    Proof device: nothing in the code corresponds. -/
def ActOk (c : Nat) (m : Msg) (s : Shared E) : Act → Prop
  | .loadUnlocked => True
  | .setUnlocked => ∃ i p, m = .req i (.unlock p) ∧ unlockCheck E c p = .ok ()
  | .register f => s.unlocked c = true ∧ FullIn s f
  | .write e => s.unlocked c = true ∧ Made E e
  | .random _ => True
  | .genCert => True
  | .alloc => True
  | .fallback _ _ => s.unlocked c = true ∧ E.hasFallback = true
  | _ => s.unlocked c = true

theorem Made.wf {e : Entry} (h : Made E e) : WF E e := by
  cases e with
  | seed t i enc =>
    obtain ⟨hdr, s, rfl, h1, h2⟩ := h
    exact ⟨s, by simp, h1, h2⟩
  | deep t i sa o m enc =>
    obtain ⟨hdr, p, key, s, hk, rfl, h1, h2⟩ := h
    exact ⟨p, key, s, hk, by simp, h1, h2⟩
  | cert t i p =>
    obtain ⟨hdr, n, h1, rfl⟩ := h
    exact ⟨n, h1, SecretData.decrypt_encrypt _ E.L _ _ _⟩

/-- Reading the stored form of an entry always succeeds for well-formed entries. -/
theorem fullOf_ok {e : Entry} (h : WF E e) : ∃ f, fullOf E.C E.bidi e = .ok f ∧ f.entry = e := by
  cases e with
  | seed t i enc =>
    obtain ⟨s, h1, h2, h3⟩ := h
    exact ⟨_, by simp [fullOf, h1, h2, h3]; rfl, rfl⟩
  | deep t i sa o m enc => exact ⟨_, rfl, rfl⟩
  | cert t i p => exact ⟨_, rfl, rfl⟩

theorem fullOf_entry {e : Entry} {f : Full} (h : fullOf E.C E.bidi e = .ok f) : f.entry = e := by
  cases e with
  | seed t i enc =>
    simp only [fullOf] at h
    split at h
    · cases h
    · split at h
      · cases h
      · split at h
        · cases h
        · cases h; rfl
  | deep t i sa o m enc => simp only [fullOf] at h; cases h; rfl
  | cert t i p => simp only [fullOf] at h; cases h; rfl

/-- The full entry of a seed holds exactly the keys of its decrypted seed. -/
theorem fullOf_seed {t : String} {i : SeedInfo} {enc : SecretSized 49} {f : Full}
    (h : fullOf E.C E.bidi (.seed t i enc) = .ok f) :
    ∃ s : B 32, enc.decrypt (m := 32) E.C E.bidi = some s ∧ E.C.edPk s = i.ed ∧ E.C.xPk s = i.x ∧
      f = ⟨.seed t i enc, i.exportable, some s, some (E.C.edSk s), some (E.C.xSk s)⟩ := by
  simp only [fullOf] at h
  split at h
  · cases h
  · rename_i s hs
    split at h
    · cases h
    · split at h
      · cases h
      · rename_i h1 h2
        cases h
        exact ⟨s, hs, by simpa using h1, by simpa using h2, rfl⟩

theorem fullOf_other {e : Entry} {f : Full} (h : fullOf E.C E.bidi e = .ok f) (hn : ∀ t i enc, e ≠ .seed t i enc) :
    f = ⟨e, false, none, none, none⟩ := by
  cases e with
  | seed t i enc => exact absurd rfl (hn t i enc)
  | deep t i sa o m enc => simp only [fullOf] at h; cases h; rfl
  | cert t i p => simp only [fullOf] at h; cases h; rfl

/-! ### Effect of actions -/

theorem exec_ext (c : Nat) (ch : Choice) (s : Shared E) (hi : Inv s) (a : Act) : Ext s (exec c ch s a).2.1 := by
  cases a with
  | setUnlocked =>
    refine ⟨⟨[], by simp [exec, Shared.tbl]⟩, ?_⟩
    intro d hd
    simp only [exec]
    split
    · rfl
    · exact hd
  | write e =>
    simp only [exec]
    split
    · exact Ext.refl s
    · by_cases hc : E.S.fits e = false ∨ ∃ e' ∈ s.tbl, Clash e' e
      · have := (E.S.R.write_clash s.store e hi.ok hc).2
        refine ⟨⟨[], ?_⟩, fun _ h => h⟩
        simp only [Shared.tbl, List.append_nil]; rw [this]
      · have := E.S.R.write_new s.store e hi.ok (by
          cases hf : E.S.fits e with
          | true => rfl
          | false => exact absurd (Or.inl hf) hc) (fun e' he' hcl => hc (Or.inr ⟨e', he', hcl⟩))
        exact ⟨⟨[e], this.2.2⟩, fun _ h => h⟩
  | storeTag t => simp only [exec]; split <;> exact Ext.refl s
  | storeEd t => simp only [exec]; split <;> exact Ext.refl s
  | storeX t => simp only [exec]; split <;> exact Ext.refl s
  | list => simp only [exec]; split <;> exact Ext.refl s
  | alloc => simp only [exec]; split <;> exact Ext.refl s
  | _ => exact ⟨⟨[], by simp [exec, Shared.tbl]⟩, fun _ h => h⟩

/-- A write either appends the entry (no clash) or is refused. -/
theorem exec_write (c : Nat) (ch : Choice) (s : Shared E) (hi : Inv s) (e : Entry) (hf : ch.fault = none) :
    ((exec c ch s (.write e)).1 = Except.ok () ∧ (exec c ch s (.write e)).2.2 = [.wrote e] ∧
      (exec c ch s (.write e)).2.1.tbl = s.tbl ++ [e] ∧ E.S.fits e = true ∧ ∀ e' ∈ s.tbl, ¬ Clash e' e) ∨
    (∃ er, (exec c ch s (.write e)).1 = Except.error er ∧ (exec c ch s (.write e)).2.2 = [] ∧
      (exec c ch s (.write e)).2.1 = s ∧ (E.S.fits e = false ∨ ∃ e' ∈ s.tbl, Clash e' e)) := by
  by_cases hc : E.S.fits e = false ∨ ∃ e' ∈ s.tbl, Clash e' e
  · right
    obtain ⟨⟨m, h1⟩, h2⟩ := E.S.R.write_clash s.store e hi.ok hc
    refine ⟨m, ?_, ?_, ?_, hc⟩
    · simp only [exec, hf]; exact h1
    · simp only [exec, hf, h1]
    · simp only [exec, hf, h2]
  · left
    have hfit : E.S.fits e = true := by
      cases hf : E.S.fits e with
      | true => rfl
      | false => exact absurd (Or.inl hf) hc
    have hn : ∀ e' ∈ s.tbl, ¬ Clash e' e := fun e' he' hcl => hc (Or.inr ⟨e', he', hcl⟩)
    obtain ⟨h1, _, h3⟩ := E.S.R.write_new s.store e hi.ok hfit hn
    refine ⟨?_, ?_, ?_, hfit, hn⟩
    · simp only [exec, hf]; exact h1
    · simp only [exec, hf, h1]
    · simp only [exec, hf, Shared.tbl]; exact h3

/-- Every allowed action preserves the invariant. -/
theorem exec_inv (c : Nat) (m : Msg) (ch : Choice) (s : Shared E) (hi : Inv s) (a : Act) (ha : ActOk c m s a) :
    Inv (exec c ch s a).2.1 := by
  cases a with
  | setUnlocked => exact ⟨hi.ok, hi.distinct, hi.wf, hi.cTag, hi.cEd, hi.cX, hi.lTag, hi.lEd, hi.lX⟩
  | cacheTag t =>
    exact ⟨hi.ok, hi.distinct, hi.wf, fun p hp => hi.cTag p (Lru.mem_get hp), hi.cEd, hi.cX,
      Nat.le_trans (Lru.get_length _ _) hi.lTag, hi.lEd, hi.lX⟩
  | cacheEd t =>
    exact ⟨hi.ok, hi.distinct, hi.wf, hi.cTag, fun p hp => hi.cEd p (Lru.mem_get hp), hi.cX,
      hi.lTag, Nat.le_trans (Lru.get_length _ _) hi.lEd, hi.lX⟩
  | cacheX t =>
    exact ⟨hi.ok, hi.distinct, hi.wf, hi.cTag, hi.cEd, fun p hp => hi.cX p (Lru.mem_get hp),
      hi.lTag, hi.lEd, Nat.le_trans (Lru.get_length _ _) hi.lX⟩
  | register f =>
    obtain ⟨_, hf⟩ := ha
    refine ⟨hi.ok, hi.distinct, hi.wf, ?_, ?_, ?_, Lru.put_length _ _ _ _, ?_, ?_⟩
    · intro p hp
      rcases Lru.mem_put hp with rfl | hp
      · exact ⟨hf, rfl⟩
      · exact hi.cTag p hp
    · intro p hp
      simp only [exec] at hp
      split at hp
      · rename_i heq
        rcases Lru.mem_put hp with rfl | hp
        · exact ⟨hf, by simp [heq, Entry.edKey]⟩
        · exact hi.cEd p hp
      · exact hi.cEd p hp
    · intro p hp
      simp only [exec] at hp
      split at hp
      · rename_i heq
        rcases Lru.mem_put hp with rfl | hp
        · exact ⟨hf, by simp [heq, Entry.xKey]⟩
        · exact hi.cX p hp
      · exact hi.cX p hp
    · simp only [exec]; split
      · exact Lru.put_length _ _ _ _
      · exact hi.lEd
    · simp only [exec]; split
      · exact Lru.put_length _ _ _ _
      · exact hi.lX
  | write e =>
    obtain ⟨_, hwf⟩ := ha
    cases hfault : ch.fault with
    | some er => simp only [exec, hfault]; exact hi
    | none =>
      rcases exec_write c ch s hi e hfault with ⟨_, _, ht, hfit, hn⟩ | ⟨er, _, _, hs, _⟩
      · have hx := exec_ext c ch s hi (.write e)
        have hlift : ∀ f, FullIn s f → FullIn (exec c ch s (.write e)).2.1 f := fun f h => hx.full h
        have hc1 : (exec c ch s (.write e)).2.1.cTag = s.cTag := by simp only [exec, hfault]
        have hc2 : (exec c ch s (.write e)).2.1.cEd = s.cEd := by simp only [exec, hfault]
        have hc3 : (exec c ch s (.write e)).2.1.cX = s.cX := by simp only [exec, hfault]
        refine ⟨?_, ?_, ?_, ?_, ?_, ?_, by rw [hc1]; exact hi.lTag, by rw [hc2]; exact hi.lEd, by rw [hc3]; exact hi.lX⟩
        · simp only [exec, hfault]
          exact (E.S.R.write_new s.store e hi.ok hfit hn).2.1
        · rw [ht]; exact hi.distinct.append_one hn
        · intro e' he'
          rw [ht] at he'
          rcases List.mem_append.1 he' with h | h
          · exact hi.wf e' h
          · simp at h; subst h; exact hwf.wf
        · rw [hc1]; exact fun p hp => ⟨hlift _ (hi.cTag p hp).1, (hi.cTag p hp).2⟩
        · rw [hc2]; exact fun p hp => ⟨hlift _ (hi.cEd p hp).1, (hi.cEd p hp).2⟩
        · rw [hc3]; exact fun p hp => ⟨hlift _ (hi.cX p hp).1, (hi.cX p hp).2⟩
      · rw [hs]; exact hi
  | storeTag t => simp only [exec]; split <;> exact hi
  | storeEd t => simp only [exec]; split <;> exact hi
  | storeX t => simp only [exec]; split <;> exact hi
  | list => simp only [exec]; split <;> exact hi
  | alloc => simp only [exec]; split <;> exact hi
  | _ => exact hi

/-! ### Programs among other programs -/

variable {α β : Type}

/-- `Sat c m Q p s l`: run from state `s` (log so far `l`) as a handler of connection `c` for message `m`, with other
    handlers extending the state arbitrarily before each of its actions, program `p` only does allowed actions and ends
    in a state and log satisfying `Q`. Proof device: nothing in the code corresponds. -/
def Sat (c : Nat) (m : Msg) (Q : Shared E → List Ev → Res α → Prop) : Prog α → Shared E → List Ev → Prop
  | .ret a, s, l => ∀ s', Ext s s' → Inv s' → Q s' l (.ok a)
  | .fail e, s, l => ∀ s', Ext s s' → Inv s' → Q s' l (.error e)
  | .step a k, s, l => ∀ s', Ext s s' → Inv s' → ActOk c m s' a ∧
      ∀ ch, Sat c m Q (k (exec c ch s' a).1) (exec c ch s' a).2.1 (l ++ (exec c ch s' a).2.2)

variable {c : Nat} {m : Msg} {Q : Shared E → List Ev → Res α → Prop} {s : Shared E} {l : List Ev}

theorem Sat.later {p : Prog α} {s' : Shared E} (h : Sat c m Q p s l) (he : Ext s s') : Sat c m Q p s' l := by
  cases p with
  | ret a => exact fun t ht hi => h t (he.trans ht) hi
  | fail e => exact fun t ht hi => h t (he.trans ht) hi
  | step a k => exact fun t ht hi => h t (he.trans ht) hi

theorem Sat.mono {Q' : Shared E → List Ev → Res α → Prop} {p : Prog α} (h : Sat c m Q p s l)
    (hq : ∀ s' l' r, Ext s s' → Inv s' → Q s' l' r → Q' s' l' r) : Sat c m Q' p s l := by
  induction p generalizing s l with
  | ret a => exact fun t ht hi => hq t l _ ht hi (h t ht hi)
  | fail e => exact fun t ht hi => hq t l _ ht hi (h t ht hi)
  | step a k ih =>
    intro t ht hi
    refine ⟨(h t ht hi).1, fun ch => ?_⟩
    exact ih _ ((h t ht hi).2 ch) (fun s' l' r he hi' hr => hq s' l' r (ht.trans ((exec_ext c ch t hi a).trans he)) hi' hr)

/-- The postcondition of the first part of a sequence. Proof device: nothing in the code corresponds. -/
def Cont (c : Nat) (m : Msg) (Q : Shared E → List Ev → Res β → Prop) (k : α → Prog β) (s : Shared E) (l : List Ev)
    (r : Res α) : Prop :=
  match r with
  | .ok a => Sat c m Q (k a) s l
  | .error e => Q s l (.error e)

/-- Sequencing. -/
theorem Sat.bind {p : Prog α} {k : α → Prog β} {Q : Shared E → List Ev → Res β → Prop} (hi : Inv s)
    (h : Sat c m (Cont c m Q k) p s l) : Sat c m Q (p.bind k) s l := by
  induction p generalizing s l with
  | ret a => exact h s (Ext.refl s) hi
  | fail e => exact fun t ht hi => h t ht hi
  | step a k' ih =>
    intro t ht hit
    have := h t ht hit
    exact ⟨this.1, fun ch => ih _ (exec_inv c m ch t hit a this.1) (this.2 ch)⟩

/-- Catching failure. -/
theorem Sat.attempt {p : Prog α} {Q : Shared E → List Ev → Res (Res α) → Prop}
    (h : Sat c m (fun s' l' r => Q s' l' (.ok r)) p s l) : Sat c m Q p.attempt s l := by
  induction p generalizing s l with
  | ret a => exact h
  | fail e => exact h
  | step a k ih => exact fun t ht hi => ⟨(h t ht hi).1, fun ch => ih _ ((h t ht hi).2 ch)⟩

/-! ### Rules for the building blocks -/

theorem Sat.check {k : Unit → Prog β} {Q : Shared E → List Ev → Res β → Prop}
    (hl : ∀ s', Ext s s' → Inv s' → s.unlocked c = false → Q s' l (.error "KeystoreLocked"))
    (h : ∀ s', Ext s s' → Inv s' → s'.unlocked c = true → Sat c m Q (k ()) s' l) :
    Sat c m Q (checkUnlocked.bind k) s l := by
  intro t ht hi
  refine ⟨trivial, fun ch => ?_⟩
  simp only [exec, List.append_nil]
  have key : ∀ u : Bool, t.unlocked c = u →
      Sat c m Q ((if u = true then Prog.ret () else Prog.fail "KeystoreLocked").bind k) t l := by
    intro u hu
    cases u with
    | true => exact h t ht hi hu
    | false => exact fun t' ht' hi' => hl t' (ht.trans ht') hi' (ht.locked hu)
  exact key _ rfl

theorem Sat.alloc {k : Unit → Prog β} {Q : Shared E → List Ev → Res β → Prop}
    (hf : ∀ s' e, Ext s s' → Inv s' → Q s' (l ++ [.fault]) (.error e))
    (h : ∀ s', Ext s s' → Inv s' → Sat c m Q (k ()) s' l) :
    Sat c m Q (Lair.alloc.bind k) s l := by
  intro t ht hi
  refine ⟨trivial, fun ch => ?_⟩
  cases hc : ch.fault with
  | some e => simp only [exec, hc, Prog.ofRes, Prog.bind]; exact fun t' ht' hi' => hf t' e (ht.trans ht') hi'
  | none => simp only [exec, hc, Prog.ofRes, Prog.bind, List.append_nil]; exact h t ht hi

theorem Sat.random {n : Nat} {k : B n → Prog β} {Q : Shared E → List Ev → Res β → Prop}
    (h : ∀ s', Ext s s' → Inv s' → ∀ x, Sat c m Q (k x) s' l) :
    Sat c m Q ((Prog.act (.random n)).bind k) s l := by
  intro t ht hi
  refine ⟨trivial, fun ch => ?_⟩
  simp only [exec, Prog.bind, List.append_nil]
  exact h t ht hi _

theorem Sat.genCert {k : CertGen → Prog β} {Q : Shared E → List Ev → Res β → Prop}
    (h : ∀ s', Ext s s' → Inv s' → ∀ n, Sat c m Q (k (E.certGen n)) s' l) :
    Sat c m Q ((Prog.act .genCert).bind k) s l := by
  intro t ht hi
  refine ⟨trivial, fun ch => ?_⟩
  simp only [exec, Prog.bind, List.append_nil]
  exact h t ht hi _

theorem Sat.setUnlocked {k : Unit → Prog β} {Q : Shared E → List Ev → Res β → Prop}
    (ha : ∃ i p, m = .req i (.unlock p) ∧ unlockCheck E c p = .ok ())
    (h : ∀ s', Ext s s' → Inv s' → s'.unlocked c = true → Sat c m Q (k ()) s' (l ++ [.unlocked])) :
    Sat c m Q ((Prog.act .setUnlocked).bind k) s l := by
  intro t ht hi
  refine ⟨ha, fun ch => ?_⟩
  exact h _ (ht.trans (exec_ext c ch t hi .setUnlocked)) (exec_inv c m ch t hi .setUnlocked ha) (by simp [exec])

theorem Sat.ofRes {r : Res α} {k : α → Prog β} {Q : Shared E → List Ev → Res β → Prop}
    (he : ∀ s' e, r = .error e → Ext s s' → Inv s' → Q s' l (.error e))
    (h : ∀ a, r = .ok a → Sat c m Q (k a) s l) : Sat c m Q ((Prog.ofRes r).bind k) s l := by
  cases r with
  | ok a => exact h a rfl
  | error e => exact fun t ht hi => he t e rfl ht hi

theorem Sat.ofOpt {r : Option α} {x : String} {k : α → Prog β} {Q : Shared E → List Ev → Res β → Prop}
    (he : ∀ s', r = none → Ext s s' → Inv s' → Q s' l (.error x))
    (h : ∀ a, r = some a → Sat c m Q (k a) s l) : Sat c m Q ((Prog.ofOpt x r).bind k) s l := by
  cases r with
  | some a => exact h a rfl
  | none => exact fun t ht hi => he t rfl ht hi

theorem Sat.ret {a : α} (h : ∀ s', Ext s s' → Inv s' → Q s' l (.ok a)) : Sat c m Q (.ret a) s l := h

theorem Sat.fail {e : String} (h : ∀ s', Ext s s' → Inv s' → Q s' l (.error e)) : Sat c m Q (.fail e) s l := h

/-- Generating the full entry of a stored entry and caching it. -/
theorem Sat.genAndRegister {e : Entry} {k : Full → Prog β} {Q : Shared E → List Ev → Res β → Prop} (hi : Inv s)
    (he : e ∈ s.tbl) (hu : s.unlocked c = true)
    (hf : ∀ s' x, Ext s s' → Inv s' → Q s' (l ++ [.fault]) (.error x))
    (h : ∀ s' f, Ext s s' → Inv s' → FullIn s' f → f.entry = e → Sat c m Q (k f) s' l) :
    Sat c m Q ((Lair.genAndRegister E e).bind k) s l := by
  apply Sat.bind hi
  apply Sat.alloc
  · intro s' x h1 h2; exact hf s' x h1 h2
  · intro s1 h1 hi1
    apply Sat.ofRes
    · intro s2 x hx h2 hi2
      obtain ⟨f, hfo, _⟩ := fullOf_ok (hi.wf e he)
      rw [hfo] at hx; cases hx
    · intro f hfo
      have hen := fullOf_entry hfo
      have hfull : FullIn s1 f := ⟨by rw [hen]; exact h1.mem he, by rw [hen]; exact hfo⟩
      intro t ht hit
      have hok : ActOk c m t (.register f) := ⟨(h1.trans ht).unlocked c hu, ht.full hfull⟩
      refine ⟨hok, fun ch => ?_⟩
      have hx := exec_ext c ch t hit (.register f)
      intro t' ht' hi'
      have hall : Ext s t' := h1.trans (ht.trans (hx.trans ht'))
      have := h t' f hall hi' ((ht.trans (hx.trans ht')).full hfull) hen
      simpa [exec, Cont] using this

section Lookups
variable {k : Full → Prog β} {Q : Shared E → List Ev → Res β → Prop}

/-- Cached lookup by tag. -/
theorem Sat.fullByTag {t : String} (hu : s.unlocked c = true)
    (hf : ∀ s' x, Ext s s' → Inv s' → Q s' (l ++ [.fault]) (.error x))
    (hn : ∀ s' x, Ext s s' → Inv s' → (∀ e ∈ s.tbl, e.tag ≠ t) → Q s' l (.error x))
    (h : ∀ s' f, Ext s s' → Inv s' → FullIn s' f → f.entry.tag = t → Sat c m Q (k f) s' l) :
    Sat c m Q ((Lair.fullByTag E t).bind k) s l := by
  intro s1 h1 hi1
  refine ⟨h1.unlocked c hu, fun ch => ?_⟩
  have hx := exec_ext c ch s1 hi1 (.cacheTag t)
  have hi2 := exec_inv c m ch s1 hi1 (.cacheTag t) (h1.unlocked c hu)
  have hl : (exec c ch s1 (.cacheTag t)).2.2 = [] := rfl
  rw [hl, List.append_nil]
  cases ho : (s1.cTag.get t).1 with
  | some f =>
    have hc := hi1.cTag _ (Lru.get_fst ho)
    have hfin : FullIn (exec c ch s1 (.cacheTag t)).2.1 f := hx.full hc.1
    have hr : (exec c ch s1 (.cacheTag t)).1 = some f := ho
    rw [hr]
    exact h _ f (h1.trans hx) hi2 hfin hc.2
  | none =>
    have hr : (exec c ch s1 (.cacheTag t)).1 = none := ho
    rw [hr]
    intro s3 h3 hi3
    have h03 := h1.trans (hx.trans h3)
    refine ⟨h03.unlocked c hu, fun ch => ?_⟩
    cases hfl : ch.fault with
    | some x => simp only [exec, hfl]; exact fun t' ht' hi' => hf t' x (h03.trans ht') hi'
    | none =>
      simp only [exec, hfl, List.append_nil]
      cases hg : E.S.I.byTag s3.store t with
      | error x =>
        refine fun t' ht' hi' => hn t' x (h03.trans ht') hi' ?_
        intro e he het
        have := (E.S.R.byTag_iff s3.store t e hi3.ok).2 ⟨h03.mem he, het⟩
        rw [hg] at this; cases this
      | ok e =>
        obtain ⟨hm, ht⟩ := (E.S.R.byTag_iff s3.store t e hi3.ok).1 hg
        refine Sat.genAndRegister hi3 hm (h03.unlocked c hu) ?_ ?_
        · exact fun s' x h' hi' => hf s' x (h03.trans h') hi'
        · exact fun s' f h' hi' hfi hen => h s' f (h03.trans h') hi' hfi (by rw [hen]; exact ht)

/-- Cached lookup by signing key. -/
theorem Sat.fullByEd {t : B 32} (hu : s.unlocked c = true)
    (hf : ∀ s' x, Ext s s' → Inv s' → Q s' (l ++ [.fault]) (.error x))
    (hn : ∀ s' x, Ext s s' → Inv s' → (∀ e ∈ s.tbl, e.edKey ≠ some t) → Q s' l (.error x))
    (h : ∀ s' f, Ext s s' → Inv s' → FullIn s' f → f.entry.edKey = some t → Sat c m Q (k f) s' l) :
    Sat c m Q ((Lair.fullByEd E t).bind k) s l := by
  intro s1 h1 hi1
  refine ⟨h1.unlocked c hu, fun ch => ?_⟩
  have hx := exec_ext c ch s1 hi1 (.cacheEd t)
  have hi2 := exec_inv c m ch s1 hi1 (.cacheEd t) (h1.unlocked c hu)
  have hl : (exec c ch s1 (.cacheEd t)).2.2 = [] := rfl
  rw [hl, List.append_nil]
  cases ho : (s1.cEd.get t).1 with
  | some f =>
    have hc := hi1.cEd _ (Lru.get_fst ho)
    have hfin : FullIn (exec c ch s1 (.cacheEd t)).2.1 f := hx.full hc.1
    have hr : (exec c ch s1 (.cacheEd t)).1 = some f := ho
    rw [hr]
    exact h _ f (h1.trans hx) hi2 hfin hc.2
  | none =>
    have hr : (exec c ch s1 (.cacheEd t)).1 = none := ho
    rw [hr]
    intro s3 h3 hi3
    have h03 := h1.trans (hx.trans h3)
    refine ⟨h03.unlocked c hu, fun ch => ?_⟩
    cases hfl : ch.fault with
    | some x => simp only [exec, hfl]; exact fun t' ht' hi' => hf t' x (h03.trans ht') hi'
    | none =>
      simp only [exec, hfl, List.append_nil]
      cases hg : E.S.I.byEd s3.store t with
      | error x =>
        refine fun t' ht' hi' => hn t' x (h03.trans ht') hi' ?_
        intro e he het
        have := (E.S.R.byEd_iff s3.store t e hi3.ok).2 ⟨h03.mem he, het⟩
        rw [hg] at this; cases this
      | ok e =>
        obtain ⟨hm, ht⟩ := (E.S.R.byEd_iff s3.store t e hi3.ok).1 hg
        refine Sat.genAndRegister hi3 hm (h03.unlocked c hu) ?_ ?_
        · exact fun s' x h' hi' => hf s' x (h03.trans h') hi'
        · exact fun s' f h' hi' hfi hen => h s' f (h03.trans h') hi' hfi (by rw [hen]; exact ht)

/-- Cached lookup by encryption key. -/
theorem Sat.fullByX {t : B 32} (hu : s.unlocked c = true)
    (hf : ∀ s' x, Ext s s' → Inv s' → Q s' (l ++ [.fault]) (.error x))
    (hn : ∀ s' x, Ext s s' → Inv s' → (∀ e ∈ s.tbl, e.xKey ≠ some t) → Q s' l (.error x))
    (h : ∀ s' f, Ext s s' → Inv s' → FullIn s' f → f.entry.xKey = some t → Sat c m Q (k f) s' l) :
    Sat c m Q ((Lair.fullByX E t).bind k) s l := by
  intro s1 h1 hi1
  refine ⟨h1.unlocked c hu, fun ch => ?_⟩
  have hx := exec_ext c ch s1 hi1 (.cacheX t)
  have hi2 := exec_inv c m ch s1 hi1 (.cacheX t) (h1.unlocked c hu)
  have hl : (exec c ch s1 (.cacheX t)).2.2 = [] := rfl
  rw [hl, List.append_nil]
  cases ho : (s1.cX.get t).1 with
  | some f =>
    have hc := hi1.cX _ (Lru.get_fst ho)
    have hfin : FullIn (exec c ch s1 (.cacheX t)).2.1 f := hx.full hc.1
    have hr : (exec c ch s1 (.cacheX t)).1 = some f := ho
    rw [hr]
    exact h _ f (h1.trans hx) hi2 hfin hc.2
  | none =>
    have hr : (exec c ch s1 (.cacheX t)).1 = none := ho
    rw [hr]
    intro s3 h3 hi3
    have h03 := h1.trans (hx.trans h3)
    refine ⟨h03.unlocked c hu, fun ch => ?_⟩
    cases hfl : ch.fault with
    | some x => simp only [exec, hfl]; exact fun t' ht' hi' => hf t' x (h03.trans ht') hi'
    | none =>
      simp only [exec, hfl, List.append_nil]
      cases hg : E.S.I.byX s3.store t with
      | error x =>
        refine fun t' ht' hi' => hn t' x (h03.trans ht') hi' ?_
        intro e he het
        have := (E.S.R.byX_iff s3.store t e hi3.ok).2 ⟨h03.mem he, het⟩
        rw [hg] at this; cases this
      | ok e =>
        obtain ⟨hm, ht⟩ := (E.S.R.byX_iff s3.store t e hi3.ok).1 hg
        refine Sat.genAndRegister hi3 hm (h03.unlocked c hu) ?_ ?_
        · exact fun s' x h' hi' => hf s' x (h03.trans h') hi'
        · exact fun s' f h' hi' hfi hen => h s' f (h03.trans h') hi' hfi (by rw [hen]; exact ht)

end Lookups

end
end Lair
