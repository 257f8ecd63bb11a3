import Verif.Props.Session
import Verif.SqlStore
import Verif.ListSizes
import Verif.Props.Entries
import Verif.MemStore

/-
C03, in terms of what a client controls: every request whose message id is not enormous is answered exactly once. The error texts
of the server are short (all the texts in priv_api.rs, priv_srv.rs, mem_store.rs and those of the SQLite store as modelled); a long
error text can come only from the operating system or from the external signer.
-/
namespace Lair

variable {E : Env} {st : E.S.σ}

/-- A text of at most a thousand bytes. -/
def ShortText (e : String) : Prop := (Mp.utf8 e).length ≤ 1000

instance (e : String) : Decidable (ShortText e) := inferInstanceAs (Decidable (_ ≤ _))

/-- If this is an error, its text is short. -/
def ShortError {α : Type} (r : Res α) : Prop := ∀ e, r = .error e → ShortText e

/-- The store reports errors in short texts. -/
structure ShortStore {σ : Type} (I : StoreImpl σ) : Prop where
  write : ∀ s e, ShortError (I.write s e).1
  byTag : ∀ s t, ShortError (I.byTag s t)
  byEd : ∀ s k, ShortError (I.byEd s k)
  byX : ∀ s k, ShortError (I.byX s k)
  list : ∀ s, ShortError (I.list s)

/-- The failures the environment injects in this event, and the answer of the external signer, have short texts. -/
def Event.ShortTexts : Event → Prop
  | .step _ ch => (∀ e, ch.fault = some e → ShortText e) ∧ ShortError ch.fb
  | _ => True

/-- Errors among the results of an action are short. -/
def Act.ShortOut : (a : Act) → a.Out → Prop
  | .storeTag _, r => ShortError (r : Res Entry)
  | .storeEd _, r => ShortError (r : Res Entry)
  | .storeX _, r => ShortError (r : Res Entry)
  | .write _, r => ShortError (r : Res Unit)
  | .list, r => ShortError (r : Res (List EntryInfo))
  | .alloc, r => ShortError (r : Res Unit)
  | .fallback _ _, r => ShortError (r : Res (B 64))
  | _, _ => True

/-- A program that fails with short texts if its actions do. -/
def Prog.Short {α : Type} : Prog α → Prop
  | .ret _ => True
  | .fail e => ShortText e
  | .step a k => ∀ o, a.ShortOut o → (k o).Short

namespace Prog
variable {α β : Type}

theorem short_bind' {p : Prog α} {f : α → Prog β} (hp : p.Short) (hf : ∀ a, (f a).Short) : (p.bind f).Short := by
  induction p with
  | ret a => exact hf a
  | fail e => exact hp
  | step a k ih => exact fun o ho => ih o (hp o ho)

theorem short_bind {p : Prog α} {f : α → Prog β} (hp : p.Short) (hf : ∀ a, (f a).Short) : (p >>= f).Short := short_bind' hp hf

theorem short_pure (a : α) : (pure a : Prog α).Short := trivial

/-- `attempt` turns failures into short values. -/
theorem short_attempt_bind {p : Prog α} {f : Res α → Prog β} (hp : p.Short) (hf : ∀ r, ShortError r → (f r).Short) :
    (p.attempt >>= f).Short := by
  induction p with
  | ret a => exact hf (.ok a) (by intro e h; cases h)
  | fail e => exact hf (.error e) (by intro e' h; cases h; exact hp)
  | step a k ih => exact fun o ho => ih o (hp o ho)

theorem short_act (a : Act) : (Prog.act a).Short := fun _ _ => trivial

theorem short_ofRes {r : Res α} (h : ShortError r) : (Prog.ofRes r).Short := by
  cases r with
  | ok a => trivial
  | error e => exact h e rfl

theorem short_ofOpt {e : String} (h : ShortText e) (o : Option α) : (Prog.ofOpt e o).Short := by
  cases o with
  | some a => trivial
  | none => exact h

end Prog

open Prog

theorem shortText_of {e : String} (h : decide ((Mp.utf8 e).length ≤ 1000) = true) : ShortText e := of_decide_eq_true h

theorem short_checkUnlocked : (checkUnlocked).Short := by
  intro o _
  cases (show Bool from o) with
  | true => trivial
  | false => exact shortText_of (by decide +kernel)

theorem short_alloc : (alloc).Short := fun _ ho => short_ofRes ho

theorem short_fullOf (e : Entry) : ShortError (fullOf E.C E.bidi e) := by
  intro x h
  unfold fullOf at h
  repeat' split at h
  all_goals first
    | (cases h; exact shortText_of (by decide +kernel))
    | cases h

theorem short_genAndRegister (e : Entry) : (genAndRegister E e).Short :=
  short_bind short_alloc fun _ => short_bind (short_ofRes (short_fullOf e)) fun _ => short_bind (short_act _) fun _ => trivial

theorem short_fullByTag (t : String) : (fullByTag E t).Short := by
  intro o _
  cases (show Option Full from o) with
  | some f => trivial
  | none => exact fun r hr => short_bind' (short_ofRes hr) fun _ => short_genAndRegister _

theorem short_fullByEd (k : B 32) : (fullByEd E k).Short := by
  intro o _
  cases (show Option Full from o) with
  | some f => trivial
  | none => exact fun r hr => short_bind' (short_ofRes hr) fun _ => short_genAndRegister _

theorem short_fullByX (k : B 32) : (fullByX E k).Short := by
  intro o _
  cases (show Option Full from o) with
  | some f => trivial
  | none => exact fun r hr => short_bind' (short_ofRes hr) fun _ => short_genAndRegister _

theorem short_insertSeed (s : B 32) (t : String) (x : Bool) : (insertSeed E s t x).Short :=
  short_bind short_alloc fun _ => short_bind (short_act _) fun _ => fun _ hr => short_bind (short_ofRes hr) fun _ => trivial

theorem short_insertDeep (s : B 32) (t : String) (o m : UInt32) (p : B 64) (x : Bool) : (insertDeep E s t o m p x).Short :=
  short_bind short_alloc fun _ => short_bind (short_act _) fun _ => short_bind (short_ofOpt (shortText_of (by decide +kernel)) _) fun _ =>
    short_bind (short_act _) fun _ => fun _ hr => short_bind (short_ofRes hr) fun _ => trivial

theorem short_insertMaybeDeep (c : Nat) (s : B 32) (t : String) (d : Option DeepPass) (x : Bool) :
    (insertMaybeDeep E c s t d x).Short := by
  cases d with
  | none => exact short_insertSeed _ _ _
  | some d => exact short_bind (short_ofOpt (shortText_of (by decide +kernel)) _) fun _ => short_insertDeep _ _ _ _ _ _

theorem short_newCert (t : String) : (newCert E t).Short :=
  short_bind short_alloc fun _ => short_bind (short_act _) fun _ => short_bind (short_act _) fun _ =>
    fun _ hr => short_bind (short_ofRes hr) fun _ => trivial

theorem short_unlockCheck (c : Nat) (p : SecretSized 81) : ShortError (unlockCheck E c p) := by
  intro x h
  unfold unlockCheck at h
  repeat' split at h
  all_goals first
    | (cases h; exact shortText_of (by decide +kernel))
    | cases h

theorem short_deepKey (c : Nat) (p : SecretSized 81) (o m : UInt32) (s : B 16) : ShortError (deepKey E c p o m s) := by
  intro x h
  unfold deepKey at h
  split at h
  · cases h; exact shortText_of (by decide +kernel)
  · unfold Res.ofOption at h
    split at h
    · cases h
    · cases h; exact shortText_of (by decide +kernel)

theorem short_deriveSource (c : Nat) (e : Entry) (d : Option DeepPass) : ShortError (deriveSource E c e d) := by
  intro x h
  unfold deriveSource at h
  split at h
  · split at h
    · cases h
    · cases h; exact shortText_of (by decide +kernel)
  · split at h
    · rename_i hk; cases h; exact short_deepKey _ _ _ _ _ _ hk
    · split at h
      · cases h
      · cases h; exact shortText_of (by decide +kernel)
  all_goals (cases h; exact shortText_of (by decide +kernel))

theorem short_signKey (c : Nat) (f : Full) (d : Option (SecretSized 81)) : ShortError (signKey E c f d) := by
  intro x h
  unfold signKey at h
  split at h
  · cases h
  · split at h
    · rename_i hk; cases h; exact short_deepKey _ _ _ _ _ _ hk
    · split at h
      · cases h
      · cases h; exact shortText_of (by decide +kernel)
  · cases h; exact shortText_of (by decide +kernel)

theorem short_handleReq (c : Nat) (r : Req) : (handleReq E c r).Short := by
  cases r with
  | hello => trivial
  | unlock p => exact short_bind short_alloc fun _ => short_bind (short_ofRes (short_unlockCheck _ _)) fun _ => short_bind (short_act _) fun _ => trivial
  | getEntry t => exact short_bind short_checkUnlocked fun _ => short_bind (short_fullByTag _) fun _ => trivial
  | listEntries => exact short_bind short_checkUnlocked fun _ => fun _ hr => short_bind (short_ofRes hr) fun _ => trivial
  | newSeed t d x =>
    refine short_bind short_checkUnlocked fun _ => ?_
    cases d with
    | none => exact short_bind (short_act _) fun _ => short_bind (short_insertSeed _ _ _) fun _ => trivial
    | some d => exact short_bind (short_ofOpt (shortText_of (by decide +kernel)) _) fun _ => short_bind (short_act _) fun _ =>
        short_bind (short_insertDeep _ _ _ _ _ _) fun _ => trivial
  | exportSeed t s r x =>
    refine short_bind short_checkUnlocked fun _ => short_bind (short_fullByTag _) fun _ => short_bind (short_fullByX _) fun _ =>
      short_bind (short_act _) fun _ => ?_
    split
    · exact shortText_of (by decide +kernel)
    · split
      · exact shortText_of (by decide +kernel)
      · split
        · exact shortText_of (by decide +kernel)
        · exact short_bind short_alloc fun _ => short_bind (short_ofOpt (shortText_of (by decide +kernel)) _) fun _ => trivial
  | importSeed s r d n ci t x =>
    refine short_bind short_checkUnlocked fun _ => short_bind short_checkUnlocked fun _ => short_bind (short_fullByX _) fun _ => ?_
    split
    · exact shortText_of (by decide +kernel)
    · exact short_bind short_alloc fun _ => short_bind (short_ofOpt (shortText_of (by decide +kernel)) _) fun _ =>
        short_bind (short_ofOpt (shortText_of (by decide +kernel)) _) fun _ => short_bind (short_ofOpt (shortText_of (by decide +kernel)) _) fun _ =>
        short_bind (short_insertMaybeDeep _ _ _ _ _) fun _ => trivial
  | deriveSeed s sd d dd p =>
    exact short_bind short_checkUnlocked fun _ => fun _ hr => short_bind (short_ofRes hr) fun _ => short_bind short_alloc fun _ =>
      short_bind (short_ofRes (short_deriveSource _ _ _)) fun _ => short_bind (short_insertMaybeDeep _ _ _ _ _) fun _ => trivial
  | sign k d m =>
    refine short_bind short_checkUnlocked fun _ => short_attempt_bind (short_fullByEd _) fun r hr => ?_
    split
    · exact short_bind short_alloc fun _ => short_bind (short_ofRes (short_signKey _ _ _)) fun _ => trivial
    · split
      · exact fun _ ho => short_bind (short_ofRes ho) fun _ => trivial
      · exact hr _ rfl
  | boxEnc s r x m =>
    refine short_bind short_checkUnlocked fun _ => short_bind (short_fullByX _) fun _ => short_bind (short_act _) fun _ => ?_
    split
    · exact shortText_of (by decide +kernel)
    · exact short_bind short_alloc fun _ => short_bind (short_ofOpt (shortText_of (by decide +kernel)) _) fun _ => trivial
  | boxDec s r x n ci =>
    refine short_bind short_checkUnlocked fun _ => short_bind (short_fullByX _) fun _ => ?_
    split
    · exact shortText_of (by decide +kernel)
    · split
      · exact shortText_of (by decide +kernel)
      · exact short_bind short_alloc fun _ => short_bind (short_ofOpt (shortText_of (by decide +kernel)) _) fun _ => trivial
  | boxEncEd s r x m =>
    refine short_bind short_checkUnlocked fun _ => short_bind (short_fullByEd _) fun _ => short_bind (short_act _) fun _ => ?_
    split
    · exact shortText_of (by decide +kernel)
    · exact short_bind (short_ofOpt (shortText_of (by decide +kernel)) _) fun _ => short_bind short_alloc fun _ =>
        short_bind (short_ofOpt (shortText_of (by decide +kernel)) _) fun _ => trivial
  | boxDecEd s r x n ci =>
    refine short_bind short_checkUnlocked fun _ => short_bind (short_fullByEd _) fun _ => ?_
    split
    · exact shortText_of (by decide +kernel)
    · split
      · exact shortText_of (by decide +kernel)
      · exact short_bind (short_ofOpt (shortText_of (by decide +kernel)) _) fun _ => short_bind short_alloc fun _ =>
          short_bind (short_ofOpt (shortText_of (by decide +kernel)) _) fun _ => trivial
  | newCert t => exact short_bind short_checkUnlocked fun _ => short_bind (short_newCert _) fun _ => trivial
  | getCertKey t =>
    refine short_bind short_checkUnlocked fun _ => short_bind (short_fullByTag _) fun _ => ?_
    split
    · exact short_bind short_alloc fun _ => short_bind (short_ofOpt (shortText_of (by decide +kernel)) _) fun _ =>
        short_bind (short_act _) fun _ => trivial
    · exact shortText_of (by decide +kernel)
  | sboxEnc t x m =>
    refine short_bind short_checkUnlocked fun _ => short_bind (short_fullByTag _) fun _ => short_bind (short_act _) fun _ => ?_
    split
    · exact shortText_of (by decide +kernel)
    · exact short_bind short_alloc fun _ => trivial
  | sboxDec t x n ci =>
    refine short_bind short_checkUnlocked fun _ => short_bind (short_fullByTag _) fun _ => ?_
    split
    · exact shortText_of (by decide +kernel)
    · split
      · exact shortText_of (by decide +kernel)
      · exact short_bind short_alloc fun _ => short_bind (short_ofOpt (shortText_of (by decide +kernel)) _) fun _ => trivial

theorem exec_short (hS : ShortStore E.S.I) (c : Nat) (ch : Choice) (h1 : ∀ e, ch.fault = some e → ShortText e) (h2 : ShortError ch.fb)
    (s : Shared E) (a : Act) : a.ShortOut (exec c ch s a).1 := by
  have hf : ∀ {α : Type} {x : String}, ch.fault = some x → ShortError (.error x : Res α) := by
    intro α x hx e he; cases he; exact h1 _ hx
  cases a with
  | storeTag t =>
    show ShortError (exec c ch s (.storeTag t)).1
    simp only [exec]; split
    · rename_i hx; exact hf hx
    · exact hS.byTag _ _
  | storeEd t =>
    show ShortError (exec c ch s (.storeEd t)).1
    simp only [exec]; split
    · rename_i hx; exact hf hx
    · exact hS.byEd _ _
  | storeX t =>
    show ShortError (exec c ch s (.storeX t)).1
    simp only [exec]; split
    · rename_i hx; exact hf hx
    · exact hS.byX _ _
  | write e =>
    show ShortError (exec c ch s (.write e)).1
    simp only [exec]; split
    · rename_i hx; exact hf hx
    · exact hS.write _ _
  | list =>
    show ShortError (exec c ch s .list).1
    simp only [exec]; split
    · rename_i hx; exact hf hx
    · exact hS.list _
  | alloc =>
    show ShortError (exec c ch s .alloc).1
    simp only [exec]; split
    · rename_i hx; exact hf hx
    · intro e h; cases h
  | fallback pk d => exact h2
  | _ => trivial

/-- Requests in flight fail with short texts, and finished ones did. -/
structure RepliesInv (s : Sys E) : Prop where
  threads : ∀ t ∈ s.threads, (∃ i r, t.msg = .req i r) → t.prog.Short
  done : ∀ d ∈ s.done, (∃ i r, d.msg = .req i r) → ShortError d.outcome

theorem repliesInv_step (hS : ShortStore E.S.I) {s : Sys E} (h : RepliesInv s) (ev : Event) (he : ev.ShortTexts) : RepliesInv (s.step ev) := by
  cases ev with
  | recv c m =>
    refine ⟨fun t ht hr => ?_, h.done⟩
    rcases List.mem_append.1 ht with ht | ht
    · exact h.threads t ht hr
    · simp at ht; subst ht
      obtain ⟨i, r, rfl⟩ := hr
      exact short_handleReq c r
  | restart => exact ⟨fun t ht => by simp [Sys.step] at ht, h.done⟩
  | step i ch =>
    cases hti : s.threads[i]? with
    | none => rw [step_none s i ch hti]; exact h
    | some t =>
      have htm : t ∈ s.threads := List.mem_of_getElem? hti
      have hfin : ∀ o, ((∃ i r, t.msg = .req i r) → ShortError o) → RepliesInv (s.finish i t o) := by
        intro o ho
        refine ⟨fun t' ht' => h.threads t' (List.mem_of_mem_eraseIdx ht'), fun d hd => ?_⟩
        rcases List.mem_append.1 hd with hd | hd
        · exact h.done d hd
        · simp at hd; subst hd; exact ho
      cases hp : t.prog with
      | ret r => rw [step_ret s i ch t r hti hp]; exact hfin _ fun _ e he => by cases he
      | fail e =>
        rw [step_fail s i ch t e hti hp]
        refine hfin _ fun hr e' he' => ?_
        cases he'
        have := h.threads t htm hr
        rw [hp] at this; exact this
      | step a k =>
        rw [step_act s i ch t a k hti hp]
        refine ⟨fun t' ht' hr => ?_, h.done⟩
        rcases List.mem_or_eq_of_mem_set ht' with ht' | rfl
        · exact h.threads t' ht' hr
        · have := h.threads t htm hr
          rw [hp] at this
          exact this _ (exec_short hS t.conn ch he.1 he.2 s.sh a)

theorem repliesInv_run (hS : ShortStore E.S.I) (evs : List Event) (he : ∀ ev ∈ evs, ev.ShortTexts) : RepliesInv (Sys.run E st evs) := by
  have h : ∀ (evs : List Event) (s : Sys E), (∀ ev ∈ evs, ev.ShortTexts) → RepliesInv s → RepliesInv (evs.foldl Sys.step s) := by
    intro evs
    induction evs with
    | nil => exact fun _ _ h => h
    | cons ev evs ih =>
      exact fun s he h => ih _ (fun e h' => he e (List.mem_cons_of_mem _ h')) (repliesInv_step hS h ev (he ev (List.mem_cons_self ..)))
  exact h evs _ he ⟨by simp [Sys.init], by simp [Sys.init]⟩

/-- C03. The in-memory store reports its errors in short texts. -/
theorem C03_memory_store_short_texts : ShortStore MemStore.impl where
  write s e := by
    intro m h
    simp only [MemStore.impl, MemStore.write] at h
    split at h
    · cases h; exact shortText_of (by decide +kernel)
    · split at h
      · cases h; exact shortText_of (by decide +kernel)
      · split at h
        · cases h; exact shortText_of (by decide +kernel)
        · cases h
  byTag s t := by
    intro m h
    simp only [MemStore.impl, MemStore.byTag, Res.ofOption] at h
    split at h <;> cases h
    exact shortText_of (by decide +kernel)
  byEd s t := by
    intro m h
    simp only [MemStore.impl, MemStore.byEd, Res.ofOption] at h
    split at h
    · cases h; exact shortText_of (by decide +kernel)
    · split at h <;> cases h
      exact shortText_of (by decide +kernel)
  byX s t := by
    intro m h
    simp only [MemStore.impl, MemStore.byX, Res.ofOption] at h
    split at h
    · cases h; exact shortText_of (by decide +kernel)
    · split at h <;> cases h
      exact shortText_of (by decide +kernel)
  list s := by
    intro m h
    cases h

theorem short_queryRow (s : SqlStore) (p : SqlRow → Bool) : ShortError (SqlStore.queryRow s p) := by
  intro m h
  simp only [SqlStore.queryRow, Res.ofOption] at h
  split at h
  · cases h; exact shortText_of (by decide +kernel)
  · split at h <;> cases h
    exact shortText_of (by decide +kernel)

theorem short_insertRow (s : SqlStore) (t : String) (ed x : Option Bytes) (data : Bytes) :
    ShortError (SqlStore.insertRow s t ed x data).1 := by
  intro m h
  simp only [SqlStore.insertRow] at h
  split at h
  · cases h; exact shortText_of (by decide +kernel)
  · split at h
    · cases h; exact shortText_of (by decide +kernel)
    · split at h
      · cases h; exact shortText_of (by decide +kernel)
      · split at h
        · cases h; exact shortText_of (by decide +kernel)
        · cases h

theorem short_decodeAll (l : List SqlRow) : ShortError (SqlStore.decodeAll l) := by
  induction l with
  | nil => intro m h; cases h
  | cons r rs ih =>
    intro m h
    simp only [SqlStore.decodeAll] at h
    split at h
    · cases h; exact shortText_of (by decide +kernel)
    · split at h
      · cases h
      · rename_i hm; cases h; exact ih _ hm

/-- C03. The SQLite store reports its errors in short texts. -/
theorem C03_sqlite_store_short_texts : ShortStore SqlStore.impl where
  write s e := by
    simp only [SqlStore.impl, SqlStore.write]
    split <;> exact short_insertRow _ _ _ _ _
  byTag s _ := short_queryRow s _
  byEd s _ := short_queryRow s _
  byX s _ := short_queryRow s _
  list s := short_decodeAll _

theorem short_sendable {i e : String} (hi : (Mp.utf8 i).length ≤ 7000) (he : ShortText e) :
    sendable (.res i (.error e)) = true := by
  unfold ShortText at he
  simp only [sendable, decide_eq_true_eq, Codec.len_error, Codec.encStr_len, Codec.strHdr]
  repeat' split
  all_goals omega

/-- C03. In terms of what a client controls: a request whose message id has at most 7000 bytes (the client's own ids have 21) is
    answered exactly once as soon as its handling ends, whatever else is going on, whatever the request says and however it fails,
    as long as failures of the operating system and of the external signer come with texts of at most a thousand bytes. Both
    stores meet `hS`. Without a bound on the id the claim is false (`C03_reply_can_be_missing`). -/
theorem C03_short_requests_answered_partial (hst : GoodStore E st) (hS : ShortStore E.S.I) (evs : List Event)
    (he : ∀ ev ∈ evs, ev.ShortTexts) (d : Done E) (hd : d ∈ (Sys.run E st evs).done) (i : String) (r : Req)
    (hm : d.msg = .req i r) (hi : (Mp.utf8 i).length ≤ 7000) : d.wire.length = 1 := by
  refine C03_exactly_one_reply_partial hst evs d hd (fun e ho => ?_) (fun r' _ => Or.inr ?_)
  · rw [hm]
    exact short_sendable hi ((repliesInv_run hS evs he).done d hd ⟨i, r, hm⟩ e ho)
  · rw [hm]
    exact short_sendable hi (shortText_of (by decide +kernel))

/-! ### C07, in the client's terms -/

section Sizes
open Codec Mp

theorem encStr_le (s : String) : (encStr s).length ≤ 5 + (utf8 s).length := by
  rw [encStr_len, strHdr]
  repeat' split
  all_goals omega

theorem fits_newSeed {i t : String} {info : SeedInfo} (h : (utf8 i).length + (utf8 t).length ≤ 5000) : sendable (.res i (.newSeed t info)) = true := by
  have h1 := encStr_le i; have h2 := encStr_le t
  have h3 : (if info.exportable then 12 else 0) ≤ 12 := by split <;> omega
  refine decide_eq_true ?_
  simp only [encodeMsg, sMsg, respFields]
  rw [enc_map_len _ (by simp)]
  simp only [List.map_cons, List.map_nil, List.sum_cons, List.sum_nil, sSeedInfo_len, enc,
    show (encStr "type").length = 5 from by decide +kernel, show (encStr "resNewSeed").length = 11 from by decide +kernel,
    show (encStr "msgId").length = 6 from by decide +kernel, show (encStr "tag").length = 4 from by decide +kernel,
    show (encStr "seedInfo").length = 9 from by decide +kernel]
  omega

theorem fits_importSeed {i t : String} {info : SeedInfo} (h : (utf8 i).length + (utf8 t).length ≤ 5000) : sendable (.res i (.importSeed t info)) = true := by
  have h1 := encStr_le i; have h2 := encStr_le t
  have h3 : (if info.exportable then 12 else 0) ≤ 12 := by split <;> omega
  refine decide_eq_true ?_
  simp only [encodeMsg, sMsg, respFields]
  rw [enc_map_len _ (by simp)]
  simp only [List.map_cons, List.map_nil, List.sum_cons, List.sum_nil, sSeedInfo_len, enc,
    show (encStr "type").length = 5 from by decide +kernel, show (encStr "resImportSeed").length = 14 from by decide +kernel,
    show (encStr "msgId").length = 6 from by decide +kernel, show (encStr "tag").length = 4 from by decide +kernel,
    show (encStr "seedInfo").length = 9 from by decide +kernel]
  omega

theorem fits_deriveSeed {i : String} {info : SeedInfo} (h : (utf8 i).length ≤ 5000) : sendable (.res i (.deriveSeed info)) = true := by
  have h1 := encStr_le i
  have h3 : (if info.exportable then 12 else 0) ≤ 12 := by split <;> omega
  refine decide_eq_true ?_
  simp only [encodeMsg, sMsg, respFields]
  rw [enc_map_len _ (by simp)]
  simp only [List.map_cons, List.map_nil, List.sum_cons, List.sum_nil, sSeedInfo_len, enc,
    show (encStr "type").length = 5 from by decide +kernel, show (encStr "resDeriveSeed").length = 14 from by decide +kernel,
    show (encStr "msgId").length = 6 from by decide +kernel,
    show (encStr "seedInfo").length = 9 from by decide +kernel]
  omega

theorem fits_newCert {i t : String} {info : CertInfo} (h : (utf8 i).length + (utf8 t).length ≤ 5000)
    (hc : (utf8 info.sni).length + 2 * info.cert.length ≤ 2500) : sendable (.res i (.newCert t info)) = true := by
  have h1 := encStr_le i; have h2 := encStr_le t; have h3 := encStr_le info.sni
  have h4 : (enc (sBin info.cert)).length ≤ 7 + 2 * info.cert.length := by
    have := encStr_le (Base64.toText info.cert)
    simp only [sBin, enc]
    refine Nat.le_trans this ?_
    simp only [Base64.toText, utf8_ofList_len _ (encode_size info.cert), encode_len]
    omega
  have h5 : (enc (sCertInfo info)).length = 62 + (encStr info.sni).length + (enc (sBin info.cert)).length := by
    unfold sCertInfo
    rw [enc_map_len _ (by simp)]
    simp only [List.map_cons, List.map_nil, List.sum_cons, List.sum_nil, sBin32_len, enc,
      show (encStr "sni").length = 4 from by decide +kernel, show (encStr "digest").length = 7 from by decide +kernel,
      show (encStr "cert").length = 5 from by decide +kernel]
    omega
  refine decide_eq_true ?_
  simp only [encodeMsg, sMsg, respFields]
  rw [enc_map_len _ (by simp)]
  simp only [List.map_cons, List.map_nil, List.sum_cons, List.sum_nil, h5, enc,
    show (encStr "type").length = 5 from by decide +kernel, show (encStr "resNewWkaTlsCert").length = 17 from by decide +kernel,
    show (encStr "msgId").length = 6 from by decide +kernel, show (encStr "tag").length = 4 from by decide +kernel,
    show (encStr "certInfo").length = 9 from by decide +kernel]
  omega

end Sizes

/-- C07. In terms of what a client controls: if the message id and the tag together have at most 5000 bytes and certificates
    come out no longer than about a kilobyte (`hgen`, those of the code have some 400 bytes), an error reply to a creating request means that nothing was added.
    Without a bound on the tag the claim is false (`C07_error_reply_although_added`). -/
theorem C07_short_requests_error_adds_nothing_partial (hst : GoodStore E st) (evs : List Event) (d : Done E)
    (hd : d ∈ (Sys.run E st evs).done) (i t : String) (r : Req) (hm : d.msg = .req i r) (hc : Creates r t)
    (hlen : (Mp.utf8 i).length + (Mp.utf8 t).length ≤ 5000)
    (hgen : ∀ n, (Mp.utf8 (E.certGen n).sni).length + 2 * (E.certGen n).cert.length ≤ 2500)
    (x : String) (hx : d.wire = [.error x]) : (Sys.run E st evs).added d.id = [] := by
  refine C07_error_reply_adds_nothing_partial hst evs d hd x hx fun resp ho => ?_
  obtain ⟨e, _, ht, hrep, hmem, _⟩ := C07_success_adds_exactly_one hst evs d hd i t r hm hc resp ho
  rw [hm]
  show sendable (.res i resp) = true
  cases resp with
  | newSeed t' info =>
    have : t' = t := by
      rcases hrep with h | h <;> cases e <;> simp only [Entry.info, reduceCtorEq] at h <;> cases h <;> exact ht
    exact fits_newSeed (this ▸ hlen)
  | importSeed t' info =>
    have : t' = t := by
      rcases hrep with h | h <;> cases e <;> simp only [Entry.info, reduceCtorEq] at h <;> cases h <;> exact ht
    exact fits_importSeed (this ▸ hlen)
  | deriveSeed info => exact fits_deriveSeed (by omega)
  | newCert t' info =>
    have hw := (sysInv_run hst evs).inv.wf e hmem
    cases e with
    | cert t₀ i₀ p =>
      have h : EntryInfo.cert t₀ i₀ = .cert t' info := hrep
      cases h
      obtain ⟨n, rfl, _⟩ := hw
      have ht : t' = t := ht
      exact fits_newCert (ht ▸ hlen) (hgen n)
    | seed t₀ i₀ p => cases (show EntryInfo.seed t₀ i₀ = .cert t' info from hrep)
    | deep t₀ i₀ _ _ _ _ => cases (show EntryInfo.deep t₀ i₀ = .cert t' info from hrep)
  | _ => cases hrep

section Examples
open Ex

/-- The certificates of the example are short enough. -/
example (n : Nat) : (Mp.utf8 ((env true 2).certGen n).sni).length + 2 * ((env true 2).certGen n).cert.length ≤ 2500 := by
  have : (Mp.utf8 "sni").length = 3 := by decide +kernel
  show (Mp.utf8 "sni").length + 2 * 3 ≤ 2500
  omega

/-- A run meeting the hypotheses: a failing disk, a refused request and a request that succeeds, each answered once. -/
def mixed : List Event := [.recv 1 (.req "x" .listEntries)] ++ List.replicate 4 (.step 0 (calm 0)) ++ unlock 0 ++
  [.recv 0 (.req "y" (.newSeed "a" none true))] ++ List.replicate 24 (.step 0 faulty) ++ serve 0 (.req "z" .listEntries) 0

example : (∀ ev ∈ mixed, ev.ShortTexts) ∧ ShortStore (env true 2).S.I ∧ (Mp.utf8 "y").length ≤ 7000 := by
  refine ⟨fun ev h => ?_, C03_memory_store_short_texts, by decide +kernel⟩
  cases ev with
  | step i ch =>
    have : ch = calm 0 ∨ ch = faulty := by
      simp only [mixed, unlock, serve, List.mem_append, List.mem_cons, List.mem_replicate, List.not_mem_nil, reduceCtorEq,
        Event.step.injEq, false_or, or_false] at h
      rcases h with ((((⟨_, _, rfl⟩ | ⟨_, _, rfl⟩) | ⟨_, _, rfl⟩) | ⟨_, _, rfl⟩)) <;> simp
    rcases this with rfl | rfl
    · exact ⟨(fun _ h => nomatch h), (fun _ h => nomatch h)⟩
    · exact ⟨(fun _ h => by cases h; exact shortText_of (by decide +kernel)), (fun _ h => nomatch h)⟩
  | _ => trivial

set_option maxRecDepth 100000 in
example : (Sys.run (env true 2) MemStore.empty mixed).done.map (fun d => (d.msg.id, d.wire)) =
    [("x", [.error "KeystoreLocked"]), ("u", [.unlock]), ("y", [.error "disk full"]), ("z", [.listEntries []])] := by
  decide +kernel

end Examples

end Lair
