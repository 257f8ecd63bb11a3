import Verif.SecrecySpec
import Verif.MemStore
import Verif.SqlStore

/- Relational proof for C49. -/
namespace Lair

namespace All2
variable {α β : Type} {R : α → β → Prop}

theorem append {as : List α} {bs : List β} {cs : List α} {ds : List β} (h : All2 R as bs) (h' : All2 R cs ds) :
    All2 R (as ++ cs) (bs ++ ds) := by
  induction h with
  | nil => exact h'
  | cons h1 _ ih => exact .cons h1 ih

theorem one {a : α} {b : β} (h : R a b) : All2 R [a] [b] := .cons h .nil

theorem mono {R' : α → β → Prop} (hm : ∀ a b, R a b → R' a b) {as : List α} {bs : List β} (h : All2 R as bs) : All2 R' as bs := by
  induction h with
  | nil => exact .nil
  | cons h1 _ ih => exact .cons (hm _ _ h1) ih

theorem refl {R : α → α → Prop} (hr : ∀ a, R a a) : (as : List α) → All2 R as as
  | [] => .nil
  | a :: as => .cons (hr a) (refl hr as)

theorem symm {R' : β → α → Prop} (hs : ∀ a b, R a b → R' b a) {as : List α} {bs : List β} (h : All2 R as bs) : All2 R' bs as := by
  induction h with
  | nil => exact .nil
  | cons h1 _ ih => exact .cons (hs _ _ h1) ih

theorem mem {as : List α} {bs : List β} (h : All2 R as bs) {a : α} (ha : a ∈ as) : ∃ b ∈ bs, R a b := by
  induction h with
  | nil => cases ha
  | cons h1 _ ih =>
    rcases List.mem_cons.1 ha with rfl | ha
    · exact ⟨_, List.mem_cons_self .., h1⟩
    · obtain ⟨b, hb, hr⟩ := ih ha; exact ⟨b, List.mem_cons_of_mem _ hb, hr⟩

theorem length {as : List α} {bs : List β} (h : All2 R as bs) : as.length = bs.length := by
  induction h with
  | nil => rfl
  | cons _ _ ih => simp [ih]

theorem get {as : List α} {bs : List β} (h : All2 R as bs) (i : Nat) :
    (as[i]? = none ∧ bs[i]? = none) ∨ ∃ a b, as[i]? = some a ∧ bs[i]? = some b ∧ R a b := by
  induction h generalizing i with
  | nil => left; simp
  | cons h1 _ ih =>
    cases i with
    | zero => right; exact ⟨_, _, rfl, rfl, h1⟩
    | succ i => simpa using ih i

theorem eraseIdx {as : List α} {bs : List β} (h : All2 R as bs) (i : Nat) : All2 R (as.eraseIdx i) (bs.eraseIdx i) := by
  induction h generalizing i with
  | nil => exact .nil
  | cons h1 h2 ih =>
    cases i with
    | zero => exact h2
    | succ i => exact .cons h1 (ih i)

theorem set {as : List α} {bs : List β} (h : All2 R as bs) (i : Nat) {a : α} {b : β} (hr : R a b) : All2 R (as.set i a) (bs.set i b) := by
  induction h generalizing i with
  | nil => exact .nil
  | cons h1 h2 ih =>
    cases i with
    | zero => exact .cons hr h2
    | succ i => exact .cons h1 (ih i)

theorem take {as : List α} {bs : List β} (h : All2 R as bs) (n : Nat) : All2 R (as.take n) (bs.take n) := by
  induction h generalizing n with
  | nil => simp; exact .nil
  | cons h1 h2 ih =>
    cases n with
    | zero => exact .nil
    | succ n => exact .cons h1 (ih n)

theorem filter {as : List α} {bs : List β} (h : All2 R as bs) {p : α → Bool} {q : β → Bool} (hp : ∀ a b, R a b → p a = q b) :
    All2 R (as.filter p) (bs.filter q) := by
  induction h with
  | nil => exact .nil
  | cons h1 _ ih =>
    rw [List.filter_cons, List.filter_cons, hp _ _ h1]
    split
    · exact .cons h1 ih
    · exact ih

theorem find {as : List α} {bs : List β} (h : All2 R as bs) {p : α → Bool} {q : β → Bool} (hp : ∀ a b, R a b → p a = q b) :
    (as.find? p = none ∧ bs.find? q = none) ∨ ∃ a b, as.find? p = some a ∧ bs.find? q = some b ∧ R a b := by
  induction h with
  | nil => left; exact ⟨rfl, rfl⟩
  | cons h1 _ ih =>
    rw [List.find?_cons, List.find?_cons, hp _ _ h1]
    split
    · right; exact ⟨_, _, rfl, rfl, h1⟩
    · exact ih

theorem map_eq {γ : Type} {f : α → γ} {g : β → γ} (hf : ∀ a b, R a b → f a = g b) {as : List α} {bs : List β} (h : All2 R as bs) :
    as.map f = bs.map g := by
  induction h with
  | nil => rfl
  | cons h1 _ ih => rw [List.map_cons, List.map_cons, hf _ _ h1, ih]

theorem flatMap_eq {γ : Type} {f : α → List γ} {g : β → List γ} (hf : ∀ a b, R a b → f a = g b) {as : List α} {bs : List β} (h : All2 R as bs) :
    as.flatMap f = bs.flatMap g := by
  induction h with
  | nil => rfl
  | cons h1 _ ih => rw [List.flatMap_cons, List.flatMap_cons, hf _ _ h1, ih]

theorem reverse {as : List α} {bs : List β} (h : All2 R as bs) : All2 R as.reverse bs.reverse := by
  induction h with
  | nil => exact .nil
  | cons h1 _ ih => rw [List.reverse_cons, List.reverse_cons]; exact ih.append (.one h1)

theorem any_eq {as : List α} {bs : List β} (h : All2 R as bs) {p : α → Bool} {q : β → Bool} (hp : ∀ a b, R a b → p a = q b) :
    as.any p = bs.any q := by
  induction h with
  | nil => rfl
  | cons h1 _ ih => rw [List.any_cons, List.any_cons, hp _ _ h1, ih]

end All2

/-- Both missing, or both there and related. Proof device: nothing in the code corresponds. -/
def OptRel {α : Type} (R : α → α → Prop) : Option α → Option α → Prop
  | none, none => True
  | some a, some b => R a b
  | _, _ => False

/-- The same error, or both successful and related. Proof device: nothing in the code corresponds. -/
def ResRel {α : Type} (R : α → α → Prop) : Res α → Res α → Prop
  | .error e, .error e' => e = e'
  | .ok a, .ok b => R a b
  | _, _ => False

theorem OptRel.refl {α : Type} {R : α → α → Prop} (hr : ∀ a, R a a) (o : Option α) : OptRel R o o := by
  cases o with
  | none => trivial
  | some a => exact hr a

theorem OptRel.cases {α : Type} {R : α → α → Prop} {o o' : Option α} (h : OptRel R o o') :
    (o = none ∧ o' = none) ∨ ∃ a b, o = some a ∧ o' = some b ∧ R a b := by
  cases o with
  | none => cases o' with
    | none => exact Or.inl ⟨rfl, rfl⟩
    | some b => exact absurd h (by simp [OptRel])
  | some a => cases o' with
    | none => exact absurd h (by simp [OptRel])
    | some b => exact Or.inr ⟨a, b, rfl, rfl, h⟩

theorem ResRel.cases {α : Type} {R : α → α → Prop} {o o' : Res α} (h : ResRel R o o') :
    (∃ e, o = .error e ∧ o' = .error e) ∨ ∃ a b, o = .ok a ∧ o' = .ok b ∧ R a b := by
  cases o with
  | error e => cases o' with
    | error e' => cases (show e = e' from h); exact Or.inl ⟨e, rfl, rfl⟩
    | ok b => exact absurd h (by simp [ResRel])
  | ok a => cases o' with
    | error e => exact absurd h (by simp [ResRel])
    | ok b => exact Or.inr ⟨a, b, rfl, rfl, h⟩

/-! ### Seeds -/

theorem SameOps.refl (C : Crypto) (s : B 32) : SameOps C s s := by constructor <;> intros <;> rfl

theorem Alike.refl (C : Crypto) (s : B 32) : Alike C s s := fun _ => SameOps.refl _ _

theorem Alike.ops {C : Crypto} {s s' : B 32} (h : Alike C s s') : SameOps C s s' := h []

theorem Alike.derive {C : Crypto} {s s' : B 32} (h : Alike C s s') (path : List UInt32) :
    Alike C (derivePath C s path) (derivePath C s' path) := by
  intro p
  have := h (path ++ p)
  rw [List.foldl_append, List.foldl_append] at this
  exact this

/-- Seeds of the two worlds for a stored seed with this exportable flag.
    Proof device: nothing in the code corresponds. -/
def SeedRel (C : Crypto) (x : Bool) (s s' : B 32) : Prop := s = s' ∨ (x = false ∧ Alike C s s')

theorem SeedRel.refl {C : Crypto} {x : Bool} (s : B 32) : SeedRel C x s s := Or.inl rfl

theorem SeedRel.alike {C : Crypto} {x : Bool} {s s' : B 32} (h : SeedRel C x s s') : Alike C s s' := by
  rcases h with rfl | h
  · exact Alike.refl _ _
  · exact h.2

theorem SeedRel.derive {C : Crypto} {x : Bool} {s s' : B 32} (h : SeedRel C x s s') (path : List UInt32) :
    SeedRel C x (derivePath C s path) (derivePath C s' path) := by
  rcases h with rfl | h
  · exact Or.inl rfl
  · exact Or.inr ⟨h.1, h.2.derive path⟩

section
variable (E : Env) (Known : B 64 → Prop)

/-- Ciphers of a deep-locked seed in the two worlds: every known passphrase gives related results.
    Proof device: nothing in the code corresponds. -/
def DeepSim (x : Bool) (salt : B 16) (c c' : SecretSized 49) : Prop :=
  ∀ p, Known p → ∀ ops mem key, E.C.argon2id p.val salt ops mem = some key →
    OptRel (SeedRel E.C x) (c.decrypt (m := 32) E.C key) (c'.decrypt (m := 32) E.C key)

/-- Sealed seeds of the two worlds: the same, or sealed under the same key (one that satisfies `K`) with the same header.
    Proof device: nothing in the code corresponds. -/
def SealAlike (K : B 32 → Prop) (c c' : SecretSized 49) : Prop :=
  c = c' ∨ ∃ (key : B 32) (hdr : B 24) (s s' : B 32), K key ∧ c = SecretSized.encrypt E.C E.L key hdr s ∧
    c' = SecretSized.encrypt E.C E.L key hdr s'

/-- Entries of the two worlds. Proof device: nothing in the code corresponds. -/
def EntrySim : Entry → Entry → Prop
  | .seed t i c, .seed t' i' c' => t = t' ∧ i = i' ∧
      OptRel (SeedRel E.C i.exportable) (c.decrypt (m := 32) E.C E.bidi) (c'.decrypt (m := 32) E.C E.bidi) ∧
      SealAlike E (· = E.bidi) c c'
  | .deep t i s o m c, .deep t' i' s' o' m' c' => t = t' ∧ i = i' ∧ s = s' ∧ o = o' ∧ m = m' ∧ DeepSim E Known i.exportable s c c' ∧
      SealAlike E (fun key => ∃ p : B 64, E.C.argon2id p.val s o m = some key) c c'
  | .cert t i p, .cert t' i' p' => t = t' ∧ i = i' ∧ p = p'
  | _, _ => False

/-- Unsealed entries of the two worlds. Proof device: nothing in the code corresponds. -/
def FullSim (f f' : Full) : Prop :=
  ∃ e e' x o o', EntrySim E Known e e' ∧ OptRel (SeedRel E.C x) o o' ∧ f = ⟨e, x, o, o.map E.C.edSk, o.map E.C.xSk⟩ ∧
    f' = ⟨e', x, o', o'.map E.C.edSk, o'.map E.C.xSk⟩

variable {E Known}

theorem EntrySim.refl (e : Entry) : EntrySim E Known e e := by
  cases e with
  | seed t i c => exact ⟨rfl, rfl, OptRel.refl SeedRel.refl _, Or.inl rfl⟩
  | deep t i s o m c => exact ⟨rfl, rfl, rfl, rfl, rfl, fun p _ ops mem key _ => OptRel.refl SeedRel.refl _, Or.inl rfl⟩
  | cert t i p => exact ⟨rfl, rfl, rfl⟩

theorem EntrySim.pub {e e' : Entry} (h : EntrySim E Known e e') : e.PubEq e' := by
  cases e <;> cases e' <;> first | exact h.elim | skip
  · exact ⟨h.1, h.2.1⟩
  · exact ⟨h.1, h.2.1, h.2.2.1, h.2.2.2.1, h.2.2.2.2.1⟩
  · exact h

end

theorem Entry.PubEq.tag {e e' : Entry} (h : e.PubEq e') : e.tag = e'.tag := by
  cases e <;> cases e' <;> first | exact h.elim | exact h.1

theorem Entry.PubEq.info {e e' : Entry} (h : e.PubEq e') : e.info = e'.info := by
  cases e <;> cases e' <;> first | exact h.elim | skip
  · obtain ⟨rfl, rfl⟩ := h; rfl
  · obtain ⟨rfl, rfl, _⟩ := h; rfl
  · obtain ⟨rfl, rfl, _⟩ := h; rfl

theorem Entry.PubEq.edKey {e e' : Entry} (h : e.PubEq e') : e.edKey = e'.edKey := by
  cases e <;> cases e' <;> first | exact h.elim | skip
  · obtain ⟨rfl, rfl⟩ := h; rfl
  · obtain ⟨rfl, rfl, _⟩ := h; rfl
  · rfl

theorem Entry.PubEq.xKey {e e' : Entry} (h : e.PubEq e') : e.xKey = e'.xKey := by
  cases e <;> cases e' <;> first | exact h.elim | skip
  · obtain ⟨rfl, rfl⟩ := h; rfl
  · obtain ⟨rfl, rfl, _⟩ := h; rfl
  · rfl

theorem Entry.PubEq.symm {e e' : Entry} (h : e.PubEq e') : e'.PubEq e := by
  cases e <;> cases e' <;> first | exact h.elim | skip
  · obtain ⟨rfl, rfl⟩ := h; exact ⟨rfl, rfl⟩
  · obtain ⟨rfl, rfl, rfl, rfl, rfl⟩ := h; exact ⟨rfl, rfl, rfl, rfl, rfl⟩
  · obtain ⟨rfl, rfl, rfl⟩ := h; exact ⟨rfl, rfl, rfl⟩

/-! ### Sealing related seeds -/

section
variable {E : Env} {Known : B 64 → Prop}

theorem decrypt_of {C : Crypto} {key : B 32} {s : SecretSized 49} {m : B 32} (h : C.ssDec key s.hdr s.cipher.val = some m.val) :
    s.decrypt (m := 32) C key = some m := by
  unfold SecretSized.decrypt
  rw [h]; exact B.ofBytes?_val m

theorem decrypt_none {C : Crypto} {key : B 32} {s : SecretSized 49} (h : C.ssDec key s.hdr s.cipher.val = none) :
    s.decrypt (m := 32) C key = none := by
  unfold SecretSized.decrypt
  rw [h]

theorem sim_seed {t : String} {x : Bool} {hdr : B 24} {s s' : B 32} (h : SeedRel E.C x s s') :
    EntrySim E Known (.seed t ⟨E.C.edPk s, E.C.xPk s, x⟩ (SecretSized.encrypt E.C E.L E.bidi hdr s))
      (.seed t ⟨E.C.edPk s', E.C.xPk s', x⟩ (SecretSized.encrypt E.C E.L E.bidi hdr s')) := by
  have ho := h.alike.ops
  refine ⟨rfl, by rw [ho.ed, ho.x], ?_, Or.inr ⟨_, hdr, s, s', rfl, rfl, rfl⟩⟩
  rw [SecretSized.decrypt_encrypt, SecretSized.decrypt_encrypt]
  exact h

theorem deepSim_rel (hide : E.C.SealsHide) {x : Bool} {salt : B 16} {key : B 32} {hdr : B 24} {s s' : B 32} (h : SeedRel E.C x s s') :
    DeepSim E Known x salt (SecretSized.encrypt E.C E.L key hdr s) (SecretSized.encrypt E.C E.L key hdr s') := by
  intro p _ ops mem k _
  rcases hide key k hdr s.val s'.val (by rw [s.len, s'.len]) with ⟨h1, h2⟩ | ⟨h1, h2⟩
  · rw [decrypt_none (s := SecretSized.encrypt E.C E.L key hdr s) h1, decrypt_none (s := SecretSized.encrypt E.C E.L key hdr s') h2]
    trivial
  · rw [decrypt_of (s := SecretSized.encrypt E.C E.L key hdr s) h1, decrypt_of (s := SecretSized.encrypt E.C E.L key hdr s') h2]
    exact h

theorem deepSim_hidden {x : Bool} {salt : B 16} {ops mem : UInt32} {pass : B 64} {key : B 32} {hdr : B 24} {s s' : B 32}
    (hk : E.C.argon2id pass.val salt ops mem = some key) (hp : HiddenPass E.C Known pass) :
    DeepSim E Known x salt (SecretSized.encrypt E.C E.L key hdr s) (SecretSized.encrypt E.C E.L key hdr s') := by
  intro p hkn ops' mem' k hk'
  rw [decrypt_none (s := SecretSized.encrypt E.C E.L key hdr s) (hp p hkn salt ops mem key ops' mem' k hk hk' hdr s.val),
    decrypt_none (s := SecretSized.encrypt E.C E.L key hdr s') (hp p hkn salt ops mem key ops' mem' k hk hk' hdr s'.val)]
  trivial

/-- Unsealing related entries gives related results. -/
theorem fullOf_sim {e e' : Entry} (h : EntrySim E Known e e') : ResRel (FullSim E Known) (fullOf E.C E.bidi e) (fullOf E.C E.bidi e') := by
  cases e <;> cases e' <;> first | exact h.elim | skip
  · rename_i t i c t' i' c'
    have h0 := h
    obtain ⟨rfl, rfl, ho, -⟩ := h
    simp only [fullOf]
    rcases ho.cases with ⟨h1, h2⟩ | ⟨s, s', h1, h2, hr⟩
    · rw [h1, h2]; exact rfl
    · rw [h1, h2]
      have hops := hr.alike.ops
      simp only [hops.ed, hops.x]
      split
      · exact rfl
      · split
        · exact rfl
        · exact ⟨_, _, _, some s, some s', h0, hr, rfl, rfl⟩
  · exact ⟨_, _, false, none, none, h, trivial, rfl, rfl⟩
  · exact ⟨_, _, false, none, none, h, trivial, rfl, rfl⟩

end

/-! ### Programs of the two worlds -/

section
variable (E : Env) (Known : B 64 → Prop) (G : B 32 → B 32 → Prop)

/-- Actions with the same outcome in both worlds. Specification: nothing in the code corresponds. -/
def Act.Plain : Act → Prop
  | .loadUnlocked => True
  | .setUnlocked => True
  | .list => True
  | .random n => n ≠ 32
  | .genCert => True
  | .alloc => True
  | .fallback _ _ => True
  | _ => False

/-- Programs of the two worlds that do the same things with related data. `G` relates the seeds they draw.
    Proof device: nothing in the code corresponds. -/
inductive PSim {α : Type} (Q : α → α → Prop) : Prog α → Prog α → Prop
  | ret {a a' : α} : Q a a' → PSim Q (.ret a) (.ret a')
  | fail (e : String) : PSim Q (.fail e) (.fail e)
  | plain {a : Act} (ha : a.Plain) {k k' : a.Out → Prog α} : (∀ o, PSim Q (k o) (k' o)) → PSim Q (.step a k) (.step a k')
  | cacheTag {t : String} {k k' : Option Full → Prog α} : (∀ o o', OptRel (FullSim E Known) o o' → PSim Q (k o) (k' o')) →
      PSim Q (.step (.cacheTag t) k) (.step (.cacheTag t) k')
  | cacheEd {t : B 32} {k k' : Option Full → Prog α} : (∀ o o', OptRel (FullSim E Known) o o' → PSim Q (k o) (k' o')) →
      PSim Q (.step (.cacheEd t) k) (.step (.cacheEd t) k')
  | cacheX {t : B 32} {k k' : Option Full → Prog α} : (∀ o o', OptRel (FullSim E Known) o o' → PSim Q (k o) (k' o')) →
      PSim Q (.step (.cacheX t) k) (.step (.cacheX t) k')
  | storeTag {t : String} {k k' : Res Entry → Prog α} : (∀ r r', ResRel (EntrySim E Known) r r' → PSim Q (k r) (k' r')) →
      PSim Q (.step (.storeTag t) k) (.step (.storeTag t) k')
  | storeEd {t : B 32} {k k' : Res Entry → Prog α} : (∀ r r', ResRel (EntrySim E Known) r r' → PSim Q (k r) (k' r')) →
      PSim Q (.step (.storeEd t) k) (.step (.storeEd t) k')
  | storeX {t : B 32} {k k' : Res Entry → Prog α} : (∀ r r', ResRel (EntrySim E Known) r r' → PSim Q (k r) (k' r')) →
      PSim Q (.step (.storeX t) k) (.step (.storeX t) k')
  | register {f f' : Full} (hf : FullSim E Known f f') {k k' : Unit → Prog α} : (∀ u, PSim Q (k u) (k' u)) →
      PSim Q (.step (.register f) k) (.step (.register f') k')
  | write {e e' : Entry} (he : EntrySim E Known e e') {k k' : Res Unit → Prog α} : (∀ r, PSim Q (k r) (k' r)) →
      PSim Q (.step (.write e) k) (.step (.write e') k')
  | draw {k k' : B 32 → Prog α} : (∀ s s', G s s' → PSim Q (k s) (k' s')) → PSim Q (.step (.random 32) k) (.step (.random 32) k')

variable {E Known G}

theorem PSim.bind {α β : Type} {Q : α → α → Prop} {Q' : β → β → Prop} {p p' : Prog α} (h : PSim E Known G Q p p') {f f' : α → Prog β}
    (hf : ∀ a a', Q a a' → PSim E Known G Q' (f a) (f' a')) : PSim E Known G Q' (p.bind f) (p'.bind f') := by
  induction h with
  | ret h => exact hf _ _ h
  | fail e => exact .fail e
  | plain ha _ ih => exact .plain ha ih
  | cacheTag _ ih => exact .cacheTag ih
  | cacheEd _ ih => exact .cacheEd ih
  | cacheX _ ih => exact .cacheX ih
  | storeTag _ ih => exact .storeTag ih
  | storeEd _ ih => exact .storeEd ih
  | storeX _ ih => exact .storeX ih
  | register hf' _ ih => exact .register hf' ih
  | write he _ ih => exact .write he ih
  | draw _ ih => exact .draw ih

theorem PSim.attempt {α : Type} {Q : α → α → Prop} {p p' : Prog α} (h : PSim E Known G Q p p') :
    PSim E Known G (ResRel Q) p.attempt p'.attempt := by
  induction h with
  | ret h => exact .ret h
  | fail e => exact .ret rfl
  | plain ha _ ih => exact .plain ha ih
  | cacheTag _ ih => exact .cacheTag ih
  | cacheEd _ ih => exact .cacheEd ih
  | cacheX _ ih => exact .cacheX ih
  | storeTag _ ih => exact .storeTag ih
  | storeEd _ ih => exact .storeEd ih
  | storeX _ ih => exact .storeX ih
  | register hf' _ ih => exact .register hf' ih
  | write he _ ih => exact .write he ih
  | draw _ ih => exact .draw ih

theorem PSim.ofRes {α : Type} {Q : α → α → Prop} {r r' : Res α} (h : ResRel Q r r') : PSim E Known G Q (Prog.ofRes r) (Prog.ofRes r') := by
  rcases h.cases with ⟨e, rfl, rfl⟩ | ⟨a, b, rfl, rfl, hq⟩
  · exact .fail e
  · exact .ret hq

theorem PSim.ofOpt {α : Type} {Q : α → α → Prop} {e : String} {r r' : Option α} (h : OptRel Q r r') :
    PSim E Known G Q (Prog.ofOpt e r) (Prog.ofOpt e r') := by
  rcases h.cases with ⟨rfl, rfl⟩ | ⟨a, b, rfl, rfl, hq⟩
  · exact .fail e
  · exact .ret hq

theorem psim_ofRes {α : Type} (r : Res α) : PSim E Known G Eq (Prog.ofRes r) (Prog.ofRes r) := by
  cases r with
  | ok a => exact .ret rfl
  | error e => exact .fail e

theorem psim_ofOpt {α : Type} (e : String) (r : Option α) : PSim E Known G Eq (Prog.ofOpt e r) (Prog.ofOpt e r) := by
  cases r with
  | some a => exact .ret rfl
  | none => exact .fail e

theorem psim_check : PSim E Known G Eq checkUnlocked checkUnlocked := by
  refine .plain (a := .loadUnlocked) trivial fun (u : Bool) => ?_
  cases u
  · exact .fail _
  · exact .ret rfl

theorem psim_alloc : PSim E Known G Eq alloc alloc := .plain (a := .alloc) trivial fun (r : Res Unit) => psim_ofRes r

theorem psim_act {a : Act} (ha : a.Plain) : PSim E Known G Eq (Prog.act a) (Prog.act a) := .plain ha fun _ => .ret rfl

theorem psim_gen {e e' : Entry} (h : EntrySim E Known e e') : PSim E Known G (FullSim E Known) (genAndRegister E e) (genAndRegister E e') := by
  refine psim_alloc.bind ?_
  rintro _ _ rfl
  refine (PSim.ofRes (fullOf_sim h)).bind ?_
  intro f f' hf
  exact .register hf fun _ => .ret hf

theorem psim_entry {r r' : Res Entry} (h : ResRel (EntrySim E Known) r r') :
    PSim E Known G (FullSim E Known) ((Prog.ofRes r).bind (genAndRegister E)) ((Prog.ofRes r').bind (genAndRegister E)) :=
  (PSim.ofRes h).bind fun _ _ h => psim_gen h

theorem psim_byTag (t : String) : PSim E Known G (FullSim E Known) (fullByTag E t) (fullByTag E t) := by
  refine .cacheTag fun o o' ho => ?_
  rcases ho.cases with ⟨rfl, rfl⟩ | ⟨f, f', rfl, rfl, hf⟩
  · exact .storeTag fun r r' hr => psim_entry hr
  · exact .ret hf

theorem psim_byEd (t : B 32) : PSim E Known G (FullSim E Known) (fullByEd E t) (fullByEd E t) := by
  refine .cacheEd fun o o' ho => ?_
  rcases ho.cases with ⟨rfl, rfl⟩ | ⟨f, f', rfl, rfl, hf⟩
  · exact .storeEd fun r r' hr => psim_entry hr
  · exact .ret hf

theorem psim_byX (t : B 32) : PSim E Known G (FullSim E Known) (fullByX E t) (fullByX E t) := by
  refine .cacheX fun o o' ho => ?_
  rcases ho.cases with ⟨rfl, rfl⟩ | ⟨f, f', rfl, rfl, hf⟩
  · exact .storeX fun r r' hr => psim_entry hr
  · exact .ret hf

theorem psim_insertSeed {s s' : B 32} {t : String} {x : Bool} (h : SeedRel E.C x s s') :
    PSim E Known G Eq (insertSeed E s t x) (insertSeed E s' t x) := by
  have ho := h.alike.ops
  refine psim_alloc.bind ?_
  rintro _ _ rfl
  refine (psim_act (a := .random 24) (by simp [Act.Plain])).bind ?_
  rintro hdr _ rfl
  refine .write (sim_seed h) fun r => (psim_ofRes r).bind ?_
  rintro _ _ rfl
  exact .ret (by rw [ho.ed, ho.x])

theorem psim_insertDeep {s s' : B 32} {t : String} {ops mem : UInt32} {pass : B 64} {x : Bool} (hed : E.C.edPk s = E.C.edPk s')
    (hx : E.C.xPk s = E.C.xPk s') (hc : ∀ salt key hdr, E.C.argon2id pass.val salt ops mem = some key →
      DeepSim E Known x salt (SecretSized.encrypt E.C E.L key hdr s) (SecretSized.encrypt E.C E.L key hdr s')) :
    PSim E Known G Eq (insertDeep E s t ops mem pass x) (insertDeep E s' t ops mem pass x) := by
  refine psim_alloc.bind ?_
  rintro _ _ rfl
  refine (psim_act (a := .random 16) (by simp [Act.Plain])).bind ?_
  rintro (salt : B 16) _ rfl
  cases hk : E.C.argon2id pass.val salt ops mem with
  | none => exact .fail _
  | some key =>
    refine (psim_act (a := .random 24) (by simp [Act.Plain])).bind ?_
    rintro (hdr : B 24) _ rfl
    have he : EntrySim E Known (.deep t ⟨E.C.edPk s, E.C.xPk s, x⟩ salt ops mem (SecretSized.encrypt E.C E.L key hdr s))
        (.deep t ⟨E.C.edPk s', E.C.xPk s', x⟩ salt ops mem (SecretSized.encrypt E.C E.L key hdr s')) :=
      ⟨rfl, by rw [hed, hx], rfl, rfl, rfl, hc salt key hdr hk, Or.inr ⟨key, hdr, s, s', ⟨pass, hk⟩, rfl, rfl⟩⟩
    refine .write he fun r => (psim_ofRes r).bind ?_
    rintro _ _ rfl
    exact .ret (by rw [hed, hx])

theorem psim_insertMaybeDeep (hide : E.C.SealsHide) (c : Nat) {s s' : B 32} {t : String} {d : Option DeepPass} {x : Bool} (h : SeedRel E.C x s s') :
    PSim E Known G Eq (insertMaybeDeep E c s t d x) (insertMaybeDeep E c s' t d x) := by
  cases d with
  | none => exact psim_insertSeed h
  | some d =>
    refine (psim_ofOpt _ _).bind ?_
    rintro pass _ rfl
    exact psim_insertDeep h.alike.ops.ed h.alike.ops.x fun salt key hdr _ => deepSim_rel hide h

theorem psim_deriveSource {c : Nat} {e e' : Entry} (h : EntrySim E Known e e') {deep : Option DeepPass}
    (hk : ∀ d pass, deep = some d → decPass E c d.pass = some pass → Known pass) :
    ResRel (fun (a b : B 32 × SeedInfo) => a.2 = b.2 ∧ SeedRel E.C a.2.exportable a.1 b.1) (deriveSource E c e deep) (deriveSource E c e' deep) := by
  cases e <;> cases e' <;> first | exact h.elim | skip
  · rename_i t i c1 t' i' c1'
    obtain ⟨rfl, rfl, ho, -⟩ := h
    cases deep with
    | some d => exact rfl
    | none =>
      simp only [deriveSource]
      rcases ho.cases with ⟨h1, h2⟩ | ⟨s, s', h1, h2, hr⟩
      · rw [h1, h2]; exact rfl
      · rw [h1, h2]; exact ⟨rfl, hr⟩
  · rename_i t i salt o m c1 t' i' salt' o' m' c1'
    obtain ⟨rfl, rfl, rfl, rfl, rfl, ho, -⟩ := h
    cases deep with
    | none => exact rfl
    | some d =>
      simp only [deriveSource, deepKey]
      cases hp : decPass E c d.pass with
      | none => exact rfl
      | some p =>
        simp only
        cases ha : E.C.argon2id p.val salt d.ops d.mem with
        | none => exact rfl
        | some key =>
          simp only [Res.ofOption]
          rcases (ho p (hk d p rfl hp) _ _ _ ha).cases with ⟨h1, h2⟩ | ⟨s, s', h1, h2, hr⟩
          · rw [h1, h2]; exact rfl
          · rw [h1, h2]; exact ⟨rfl, hr⟩
  · cases deep <;> exact rfl

theorem psim_signKey {c : Nat} {f f' : Full} (h : FullSim E Known f f') {deep : Option (SecretSized 81)}
    (hk : ∀ p pass, deep = some p → decPass E c p = some pass → Known pass) :
    ResRel (fun (a b : B 64) => ∀ m, E.C.sign a m = E.C.sign b m) (signKey E c f deep) (signKey E c f' deep) := by
  obtain ⟨e, e', x, o, o', he, ho, rfl, rfl⟩ := h
  cases e <;> cases e' <;> first | exact he.elim | skip
  · simp only [signKey]
    rcases ho.cases with ⟨rfl, rfl⟩ | ⟨s, s', rfl, rfl, hr⟩
    · exact rfl
    · exact hr.alike.ops.sign
  · rename_i t i salt ops mem c1 t' i' salt' ops' mem' c1'
    obtain ⟨rfl, rfl, rfl, rfl, rfl, hd⟩ := he
    cases deep with
    | none => simp only [signKey]; exact rfl
    | some q =>
      simp only [signKey, deepKey]
      cases hp : decPass E c q with
      | none => exact rfl
      | some p =>
        simp only
        cases ha : E.C.argon2id p.val salt ops mem with
        | none => exact rfl
        | some key =>
          simp only [Res.ofOption]
          rcases (hd.1 p (hk q p rfl hp) _ _ _ ha).cases with ⟨h1, h2⟩ | ⟨s, s', h1, h2, hr⟩
          · rw [h1, h2]; exact rfl
          · rw [h1, h2]; exact hr.alike.ops.sign
  · simp only [signKey]; exact rfl

/-- The seeds a request may draw in the two worlds. Proof device: nothing in the code corresponds. -/
def Drawn (E : Env) (Known : B 64 → Prop) (c : Nat) (m : Msg) (s s' : B 32) : Prop :=
  ∀ id tag deep x, m = .req id (.newSeed tag deep x) → Protected E Known c deep x s s'

theorem psim_newSeed (hide : E.C.SealsHide) (c : Nat) (tag : String) (deep : Option DeepPass) (x : Bool)
    (hG : ∀ s s', G s s' → Protected E Known c deep x s s') :
    PSim E Known G Eq (hNewSeed E c tag deep x) (hNewSeed E c tag deep x) := by
  refine psim_check.bind ?_
  rintro _ _ rfl
  cases deep with
  | none =>
    refine .draw fun s s' hg => ?_
    have hr : SeedRel E.C x s s' := by
      rcases hG s s' hg with h | h | ⟨d, hd, _⟩
      · exact Or.inl h
      · exact Or.inr h
      · cases hd
    refine (psim_insertSeed hr).bind ?_
    rintro info _ rfl
    exact .ret rfl
  | some d =>
    cases hp : decPass E c d.pass with
    | none =>
      show PSim E Known G Eq ((Prog.ofOpt "decrypt error" (decPass E c d.pass)).bind _) ((Prog.ofOpt "decrypt error" (decPass E c d.pass)).bind _)
      rw [hp]; exact .fail _
    | some pass =>
      show PSim E Known G Eq ((Prog.ofOpt "decrypt error" (decPass E c d.pass)).bind _) ((Prog.ofOpt "decrypt error" (decPass E c d.pass)).bind _)
      rw [hp]
      refine .draw fun s s' hg => ?_
      refine (PSim.bind (Q := Eq) (p := insertDeep E s tag d.ops d.mem pass x) (p' := insertDeep E s' tag d.ops d.mem pass x) ?_ ?_)
      · rcases hG s s' hg with rfl | ⟨hx, ha⟩ | ⟨d', hd, h1, h2, h3⟩
        · exact psim_insertDeep rfl rfl fun salt key hdr _ => deepSim_rel hide (SeedRel.refl _)
        · exact psim_insertDeep ha.ops.ed ha.ops.x fun salt key hdr _ => deepSim_rel hide (Or.inr ⟨hx, ha⟩)
        · cases hd
          exact psim_insertDeep h1 h2 fun salt key hdr hk => deepSim_hidden hk (h3 pass hp)
      · rintro info _ rfl
        exact .ret rfl

/-- Every handler does the same in both worlds. -/
theorem psim_handle (hide : E.C.SealsHide) (c : Nat) (m : Msg) (hu : UsesOnly E Known c m) :
    PSim E Known (Drawn E Known c m) Eq (handle E c m) (handle E c m) := by
  cases m with
  | res i r => exact .fail _
  | req i r =>
    cases r with
    | hello => exact .ret rfl
    | unlock p =>
      refine psim_alloc.bind ?_
      rintro _ _ rfl
      refine (psim_ofRes _).bind ?_
      rintro _ _ rfl
      refine (psim_act (a := .setUnlocked) trivial).bind ?_
      rintro _ _ rfl
      exact .ret rfl
    | getEntry t =>
      refine psim_check.bind ?_
      rintro _ _ rfl
      refine (psim_byTag t).bind ?_
      rintro f f' ⟨e, e', x, o, o', he, _, rfl, rfl⟩
      exact .ret (by show Resp.getEntry e.info = Resp.getEntry e'.info; rw [he.pub.info])
    | listEntries =>
      refine psim_check.bind ?_
      rintro _ _ rfl
      refine .plain (a := .list) trivial fun r => (psim_ofRes r).bind ?_
      rintro _ _ rfl
      exact .ret rfl
    | newSeed t d x =>
      exact psim_newSeed hide c t d x (fun s s' h => h i t d x rfl)
    | exportSeed t sd rc cs =>
      refine psim_check.bind ?_
      rintro _ _ rfl
      refine (psim_byTag t).bind ?_
      rintro f f' ⟨e, e', x, o, o', he, ho, rfl, rfl⟩
      refine (psim_byX sd).bind ?_
      rintro g g' ⟨e1, e1', x1, o1, o1', he1, ho1, rfl, rfl⟩
      refine (psim_act (a := .random 24) (by simp [Act.Plain])).bind ?_
      rintro (n : B 24) _ rfl
      rcases ho1.cases with ⟨rfl, rfl⟩ | ⟨s1, s1', rfl, rfl, hr1⟩
      · exact .fail _
      · rcases ho.cases with ⟨rfl, rfl⟩ | ⟨s, s', rfl, rfl, hr⟩
        · exact .fail _
        · cases x with
          | false => exact .fail _
          | true =>
            rcases hr with rfl | ⟨h, _⟩
            · refine psim_alloc.bind ?_
              rintro _ _ rfl
              refine PSim.bind (Q := Eq) (PSim.ofOpt ?_) ?_
              · rw [hr1.alike.ops.box]; exact OptRel.refl (fun _ => rfl) _
              · rintro _ _ rfl; exact .ret rfl
            · cases h
    | importSeed sd rc d n ci t x =>
      refine psim_check.bind ?_
      rintro _ _ rfl
      refine psim_check.bind ?_
      rintro _ _ rfl
      refine (psim_byX rc).bind ?_
      rintro f f' ⟨e, e', x', o, o', he, ho, rfl, rfl⟩
      simp only
      split
      · exact .fail _
      · refine psim_alloc.bind ?_
        rintro _ _ rfl
        rcases ho.cases with ⟨rfl, rfl⟩ | ⟨s, s', rfl, rfl, hr⟩
        · exact .fail _
        · refine PSim.bind (Q := Eq) (p := Prog.ofOpt "crypto_box error" (E.C.boxOpen n ci sd (E.C.xSk s)))
            (p' := Prog.ofOpt "crypto_box error" (E.C.boxOpen n ci sd (E.C.xSk s'))) (PSim.ofOpt ?_) ?_
          · rw [hr.alike.ops.boxOpen]; exact OptRel.refl (fun _ => rfl) _
          · rintro msg _ rfl
            refine (psim_ofOpt _ _).bind ?_
            rintro seed _ rfl
            refine (psim_insertMaybeDeep hide c (SeedRel.refl seed)).bind ?_
            rintro _ _ rfl
            exact .ret rfl
    | deriveSeed sr sd ds dd pa =>
      refine psim_check.bind ?_
      rintro _ _ rfl
      refine .storeTag fun r r' hr => (PSim.ofRes hr).bind ?_
      intro e e' he
      refine psim_alloc.bind ?_
      rintro _ _ rfl
      refine (PSim.ofRes (psim_deriveSource he (fun d pass hd hp => hu i _ d.pass pass rfl (by rw [hd]; rfl) hp))).bind ?_
      rintro ⟨s, info⟩ ⟨s', info'⟩ ⟨h1, h2⟩
      cases h1
      refine (psim_insertMaybeDeep hide c (h2.derive pa)).bind ?_
      rintro _ _ rfl
      exact .ret rfl
    | sign pk d data =>
      refine psim_check.bind ?_
      rintro _ _ rfl
      refine (psim_byEd pk).attempt.bind ?_
      intro r r' hr
      rcases hr.cases with ⟨e, rfl, rfl⟩ | ⟨f, f', rfl, rfl, hf⟩
      · simp only
        split
        · refine .plain (a := .fallback pk data) trivial fun s => (psim_ofRes s).bind ?_
          rintro _ _ rfl
          exact .ret rfl
        · exact .fail _
      · refine psim_alloc.bind ?_
        rintro _ _ rfl
        refine (PSim.ofRes (psim_signKey hf (fun p pass hd hp => hu i _ p pass rfl hd hp))).bind ?_
        intro a b hab
        exact .ret (by rw [hab])
    | boxEnc sd rc cs data =>
      refine psim_check.bind ?_
      rintro _ _ rfl
      refine (psim_byX sd).bind ?_
      rintro f f' ⟨e, e', x, o, o', he, ho, rfl, rfl⟩
      refine (psim_act (a := .random 24) (by simp [Act.Plain])).bind ?_
      rintro (n : B 24) _ rfl
      rcases ho.cases with ⟨rfl, rfl⟩ | ⟨s, s', rfl, rfl, hr⟩
      · exact .fail _
      · refine psim_alloc.bind ?_
        rintro _ _ rfl
        refine PSim.bind (Q := Eq) (PSim.ofOpt ?_) ?_
        · rw [hr.alike.ops.box]; exact OptRel.refl (fun _ => rfl) _
        · rintro _ _ rfl; exact .ret rfl
    | boxDec sd rc cs n ci =>
      refine psim_check.bind ?_
      rintro _ _ rfl
      refine (psim_byX rc).bind ?_
      rintro f f' ⟨e, e', x, o, o', he, ho, rfl, rfl⟩
      simp only
      split
      · exact .fail _
      · rcases ho.cases with ⟨rfl, rfl⟩ | ⟨s, s', rfl, rfl, hr⟩
        · exact .fail _
        · refine psim_alloc.bind ?_
          rintro _ _ rfl
          refine PSim.bind (Q := Eq) (PSim.ofOpt ?_) ?_
          · rw [hr.alike.ops.boxOpen]; exact OptRel.refl (fun _ => rfl) _
          · rintro _ _ rfl; exact .ret rfl
    | boxEncEd sd rc cs data =>
      refine psim_check.bind ?_
      rintro _ _ rfl
      refine (psim_byEd sd).bind ?_
      rintro f f' ⟨e, e', x, o, o', he, ho, rfl, rfl⟩
      refine (psim_act (a := .random 24) (by simp [Act.Plain])).bind ?_
      rintro (n : B 24) _ rfl
      rcases ho.cases with ⟨rfl, rfl⟩ | ⟨s, s', rfl, rfl, hr⟩
      · exact .fail _
      · refine (psim_ofOpt _ _).bind ?_
        rintro _ _ rfl
        refine psim_alloc.bind ?_
        rintro _ _ rfl
        refine PSim.bind (Q := Eq) (PSim.ofOpt ?_) ?_
        · rw [hr.alike.ops.boxEd]; exact OptRel.refl (fun _ => rfl) _
        · rintro _ _ rfl; exact .ret rfl
    | boxDecEd sd rc cs n ci =>
      refine psim_check.bind ?_
      rintro _ _ rfl
      refine (psim_byEd rc).bind ?_
      rintro f f' ⟨e, e', x, o, o', he, ho, rfl, rfl⟩
      simp only
      split
      · exact .fail _
      · rcases ho.cases with ⟨rfl, rfl⟩ | ⟨s, s', rfl, rfl, hr⟩
        · exact .fail _
        · refine (psim_ofOpt _ _).bind ?_
          rintro _ _ rfl
          refine psim_alloc.bind ?_
          rintro _ _ rfl
          refine PSim.bind (Q := Eq) (PSim.ofOpt ?_) ?_
          · rw [hr.alike.ops.boxOpenEd]; exact OptRel.refl (fun _ => rfl) _
          · rintro _ _ rfl; exact .ret rfl
    | newCert t =>
      refine psim_check.bind ?_
      rintro _ _ rfl
      refine PSim.bind (Q := Eq) ?_ ?_
      · refine psim_alloc.bind ?_
        rintro _ _ rfl
        refine (psim_act (a := .genCert) trivial).bind ?_
        rintro (g : CertGen) _ rfl
        refine (psim_act (a := .random 24) (by simp [Act.Plain])).bind ?_
        rintro (hdr : B 24) _ rfl
        refine .write (EntrySim.refl _) fun r => (psim_ofRes r).bind ?_
        rintro _ _ rfl
        exact .ret rfl
      · rintro _ _ rfl; exact .ret rfl
    | getCertKey t =>
      refine psim_check.bind ?_
      rintro _ _ rfl
      refine (psim_byTag t).bind ?_
      rintro f f' ⟨e, e', x, o, o', he, ho, rfl, rfl⟩
      cases e <;> cases e' <;> first | exact he.elim | skip
      · exact .fail _
      · exact .fail _
      · obtain ⟨rfl, rfl, rfl⟩ := he
        refine psim_alloc.bind ?_
        rintro _ _ rfl
        refine (psim_ofOpt _ _).bind ?_
        rintro _ _ rfl
        refine (psim_act (a := .random 24) (by simp [Act.Plain])).bind ?_
        rintro (hdr : B 24) _ rfl
        exact .ret rfl
    | sboxEnc t cs data =>
      refine psim_check.bind ?_
      rintro _ _ rfl
      refine (psim_byTag t).bind ?_
      rintro f f' ⟨e, e', x, o, o', he, ho, rfl, rfl⟩
      refine (psim_act (a := .random 24) (by simp [Act.Plain])).bind ?_
      rintro (n : B 24) _ rfl
      rcases ho.cases with ⟨rfl, rfl⟩ | ⟨s, s', rfl, rfl, hr⟩
      · exact .fail _
      · refine psim_alloc.bind ?_
        rintro _ _ rfl
        exact .ret (by rw [hr.alike.ops.sbox])
    | sboxDec t cs n ci =>
      refine psim_check.bind ?_
      rintro _ _ rfl
      refine (psim_byTag t).bind ?_
      rintro f f' ⟨e, e', x, o, o', he, ho, rfl, rfl⟩
      simp only
      split
      · exact .fail _
      · rcases ho.cases with ⟨rfl, rfl⟩ | ⟨s, s', rfl, rfl, hr⟩
        · exact .fail _
        · refine psim_alloc.bind ?_
          rintro _ _ rfl
          refine PSim.bind (Q := Eq) (PSim.ofOpt ?_) ?_
          · rw [hr.alike.ops.sboxOpen]; exact OptRel.refl (fun _ => rfl) _
          · rintro _ _ rfl; exact .ret rfl

end

/-! ### States of the two worlds -/

section
variable {E : Env} {Known : B 64 → Prop}

/-- Corresponding cache entries. Proof device: nothing in the code corresponds. -/
def CacheSim {κ : Type} (E : Env) (Known : B 64 → Prop) (a b : κ × Full) : Prop := a.1 = b.1 ∧ FullSim E Known a.2 b.2

/-- Corresponding shared states. Proof device: nothing in the code corresponds. -/
structure ShSim (Known : B 64 → Prop) (s s' : Shared E) : Prop where
  ok : E.S.ok s.store
  ok' : E.S.ok s'.store
  tbl : All2 (EntrySim E Known) (E.S.tbl s.store) (E.S.tbl s'.store)
  cTag : All2 (CacheSim E Known) s.cTag s'.cTag
  cEd : All2 (CacheSim E Known) s.cEd s'.cEd
  cX : All2 (CacheSim E Known) s.cX s'.cX
  unlocked : s.unlocked = s'.unlocked

theorem ShSim.pub {s s' : Shared E} (h : ShSim Known s s') : All2 Entry.PubEq (E.S.tbl s.store) (E.S.tbl s'.store) :=
  h.tbl.mono fun _ _ h => h.pub

theorem ShSim.pub' {s s' : Shared E} (h : ShSim Known s s') : All2 Entry.PubEq (E.S.tbl s'.store) (E.S.tbl s.store) :=
  h.pub.symm fun _ _ h => h.symm

theorem lru_get_sim {κ : Type} [DecidableEq κ] {c c' : Lru κ Full} (h : All2 (CacheSim E Known) c c') (k : κ) :
    OptRel (FullSim E Known) (c.get k).1 (c'.get k).1 ∧ All2 (CacheSim E Known) (c.get k).2 (c'.get k).2 := by
  have hp : ∀ (a b : κ × Full), CacheSim E Known a b → decide (a.1 = k) = decide (b.1 = k) := by intro a b h; rw [h.1]
  have hq : ∀ (a b : κ × Full), CacheSim E Known a b → decide (a.1 ≠ k) = decide (b.1 ≠ k) := by intro a b h; rw [h.1]
  unfold Lru.get
  rcases h.find hp with ⟨h1, h2⟩ | ⟨a, b, h1, h2, hr⟩
  · rw [h1, h2]; exact ⟨trivial, h⟩
  · rw [h1, h2]; exact ⟨hr.2, .cons hr (h.filter hq)⟩

theorem lru_put_sim {κ : Type} [DecidableEq κ] {c c' : Lru κ Full} (h : All2 (CacheSim E Known) c c') (n : Nat) (k : κ) {f f' : Full}
    (hf : FullSim E Known f f') : All2 (CacheSim E Known) (c.put n k f) (c'.put n k f') := by
  have hq : ∀ (a b : κ × Full), CacheSim E Known a b → decide (a.1 ≠ k) = decide (b.1 ≠ k) := by intro a b h; rw [h.1]
  exact (All2.cons ⟨rfl, hf⟩ (h.filter hq)).take n

/-- Lookups in related stores. -/
theorem lookup_sim {r r' : Res Entry} {t t' : List Entry} (h : All2 (EntrySim E Known) t t') {P : Entry → Prop}
    (hP : ∀ e e', e.PubEq e' → P e → P e') (h1 : ∀ e, r = .ok e ↔ e ∈ t ∧ P e) (h2 : ∀ e, r' = .ok e ↔ e ∈ t' ∧ P e)
    (he : ∀ x, r = .error x → r' = .error x) : ResRel (EntrySim E Known) r r' := by
  cases r with
  | error x => rw [he x rfl]; exact rfl
  | ok e =>
    obtain ⟨hm, hp⟩ := (h1 e).1 rfl
    obtain ⟨e', hm', hs⟩ := h.mem hm
    rw [(h2 e').2 ⟨hm', hP _ _ hs.pub hp⟩]
    exact hs

/-- The environment's choices in the two worlds. Proof device: nothing in the code corresponds. -/
structure ChSim (G : B 32 → B 32 → Prop) (ch ch' : Choice) : Prop where
  rnd : ∀ n, n ≠ 32 → ch.rnd n = ch'.rnd n
  draw : G (ch.rnd 32) (ch'.rnd 32)
  cert : ch.cert = ch'.cert
  fb : ch.fb = ch'.fb
  fault : ch.fault = ch'.fault

theorem write_sim (hS : E.S.Oblivious) {s s' : Shared E} (h : ShSim Known s s') {e e' : Entry} (he : EntrySim E Known e e') :
    (E.S.I.write s.store e).1 = (E.S.I.write s'.store e').1 ∧
    ShSim Known { s with store := (E.S.I.write s.store e).2 } { s' with store := (E.S.I.write s'.store e').2 } := by
  have heq := hS.write _ _ h.ok h.ok' h.pub e e' he.pub
  refine ⟨heq, ?_⟩
  have key : ∀ (st : E.S.σ) (hok : E.S.ok st) (e : Entry),
      ((E.S.I.write st e).1 = .ok () ∧ E.S.ok (E.S.I.write st e).2 ∧ E.S.tbl (E.S.I.write st e).2 = E.S.tbl st ++ [e]) ∨
      ((∃ m, (E.S.I.write st e).1 = .error m) ∧ (E.S.I.write st e).2 = st) := by
    intro st hok e
    by_cases hc : E.S.fits e = false ∨ ∃ e' ∈ E.S.tbl st, Clash e' e
    · exact Or.inr (E.S.R.write_clash st e hok hc)
    · simp only [not_or, not_exists, not_and, Bool.not_eq_false] at hc
      exact Or.inl (E.S.R.write_new st e hok hc.1 hc.2)
  rcases key s.store h.ok e with ⟨a1, a2, a3⟩ | ⟨⟨m, a1⟩, a2⟩ <;> rcases key s'.store h.ok' e' with ⟨b1, b2, b3⟩ | ⟨⟨m', b1⟩, b2⟩
  · exact ⟨a2, b2, by simp only; rw [a3, b3]; exact h.tbl.append (.one he), h.cTag, h.cEd, h.cX, h.unlocked⟩
  · rw [a1, b1] at heq; cases heq
  · rw [a1, b1] at heq; cases heq
  · simp only [a2, b2]; exact ⟨h.ok, h.ok', h.tbl, h.cTag, h.cEd, h.cX, h.unlocked⟩

/-- One step of related programs in related states. -/
theorem psim_step (hS : E.S.Oblivious) {G : B 32 → B 32 → Prop} {α : Type} {Q : α → α → Prop} {p p' : Prog α} (h : PSim E Known G Q p p') :
    (∃ r r', p = .ret r ∧ p' = .ret r' ∧ Q r r') ∨ (∃ e, p = .fail e ∧ p' = .fail e) ∨
    ∃ a k a' k', p = .step a k ∧ p' = .step a' k' ∧ ∀ (s s' : Shared E) (c : Nat) (ch ch' : Choice), ShSim Known s s' → ChSim G ch ch' →
      ShSim Known (exec c ch s a).2.1 (exec c ch' s' a').2.1 ∧ PSim E Known G Q (k (exec c ch s a).1) (k' (exec c ch' s' a').1) := by
  cases h with
  | ret h => exact Or.inl ⟨_, _, rfl, rfl, h⟩
  | fail e => exact Or.inr (Or.inl ⟨e, rfl, rfl⟩)
  | @plain a ha k k' hk =>
    refine Or.inr (Or.inr ⟨a, k, a, k', rfl, rfl, ?_⟩)
    intro s s' c ch ch' hs hc
    cases a with
    | loadUnlocked =>
      refine ⟨hs, ?_⟩
      have : (exec c ch s .loadUnlocked).1 = (exec c ch' s' .loadUnlocked).1 := congrFun hs.unlocked c
      rw [this]; exact hk _
    | setUnlocked =>
      refine ⟨⟨hs.ok, hs.ok', hs.tbl, hs.cTag, hs.cEd, hs.cX, ?_⟩, hk _⟩
      simp only [exec, hs.unlocked]
    | list =>
      have hl := hS.list _ _ hs.ok hs.ok' hs.pub
      cases hf : ch.fault with
      | some x =>
        have hf' : ch'.fault = some x := by rw [← hc.fault, hf]
        simp only [exec, hf, hf']
        exact ⟨hs, hk _⟩
      | none =>
        have hf' : ch'.fault = none := by rw [← hc.fault, hf]
        simp only [exec, hf, hf', hl]
        exact ⟨hs, hk _⟩
    | random n =>
      refine ⟨hs, ?_⟩
      have : (exec c ch s (.random n)).1 = (exec c ch' s' (.random n)).1 := hc.rnd n ha
      rw [this]; exact hk _
    | genCert =>
      refine ⟨hs, ?_⟩
      have : (exec c ch s .genCert).1 = (exec c ch' s' .genCert).1 := by simp only [exec, hc.cert]; rfl
      rw [this]; exact hk _
    | alloc =>
      cases hf : ch.fault with
      | some x =>
        have hf' : ch'.fault = some x := by rw [← hc.fault, hf]
        simp only [exec, hf, hf']
        exact ⟨hs, hk _⟩
      | none =>
        have hf' : ch'.fault = none := by rw [← hc.fault, hf]
        simp only [exec, hf, hf']
        exact ⟨hs, hk _⟩
    | fallback pk d =>
      refine ⟨hs, ?_⟩
      have : (exec c ch s (.fallback pk d)).1 = (exec c ch' s' (.fallback pk d)).1 := hc.fb
      rw [this]; exact hk _
    | _ => exact ha.elim
  | @cacheTag t k k' hk =>
    refine Or.inr (Or.inr ⟨.cacheTag t, k, .cacheTag t, k', rfl, rfl, fun s s' c ch ch' hs hc => ?_⟩)
    obtain ⟨h1, h2⟩ := lru_get_sim hs.cTag t
    exact ⟨⟨hs.ok, hs.ok', hs.tbl, h2, hs.cEd, hs.cX, hs.unlocked⟩, hk _ _ h1⟩
  | @cacheEd t k k' hk =>
    refine Or.inr (Or.inr ⟨.cacheEd t, k, .cacheEd t, k', rfl, rfl, fun s s' c ch ch' hs hc => ?_⟩)
    obtain ⟨h1, h2⟩ := lru_get_sim hs.cEd t
    exact ⟨⟨hs.ok, hs.ok', hs.tbl, hs.cTag, h2, hs.cX, hs.unlocked⟩, hk _ _ h1⟩
  | @cacheX t k k' hk =>
    refine Or.inr (Or.inr ⟨.cacheX t, k, .cacheX t, k', rfl, rfl, fun s s' c ch ch' hs hc => ?_⟩)
    obtain ⟨h1, h2⟩ := lru_get_sim hs.cX t
    exact ⟨⟨hs.ok, hs.ok', hs.tbl, hs.cTag, hs.cEd, h2, hs.unlocked⟩, hk _ _ h1⟩
  | @storeTag t k k' hk =>
    refine Or.inr (Or.inr ⟨.storeTag t, k, .storeTag t, k', rfl, rfl, fun s s' c ch ch' hs hc => ?_⟩)
    cases hf : ch.fault with
    | some x =>
      have hf' : ch'.fault = some x := by rw [← hc.fault, hf]
      simp only [exec, hf, hf']
      exact ⟨hs, hk _ _ rfl⟩
    | none =>
      have hf' : ch'.fault = none := by rw [← hc.fault, hf]
      simp only [exec, hf, hf']
      exact ⟨hs, hk _ _ (lookup_sim hs.tbl (P := fun e => e.tag = t) (fun e e' h h' => h.tag ▸ h')
        (fun e => E.S.R.byTag_iff _ t e hs.ok) (fun e => E.S.R.byTag_iff _ t e hs.ok') (hS.byTag _ _ hs.ok hs.ok' hs.pub t))⟩
  | @storeEd t k k' hk =>
    refine Or.inr (Or.inr ⟨.storeEd t, k, .storeEd t, k', rfl, rfl, fun s s' c ch ch' hs hc => ?_⟩)
    cases hf : ch.fault with
    | some x =>
      have hf' : ch'.fault = some x := by rw [← hc.fault, hf]
      simp only [exec, hf, hf']
      exact ⟨hs, hk _ _ rfl⟩
    | none =>
      have hf' : ch'.fault = none := by rw [← hc.fault, hf]
      simp only [exec, hf, hf']
      exact ⟨hs, hk _ _ (lookup_sim hs.tbl (P := fun e => e.edKey = some t) (fun e e' h h' => h.edKey ▸ h')
        (fun e => E.S.R.byEd_iff _ t e hs.ok) (fun e => E.S.R.byEd_iff _ t e hs.ok') (hS.byEd _ _ hs.ok hs.ok' hs.pub t))⟩
  | @storeX t k k' hk =>
    refine Or.inr (Or.inr ⟨.storeX t, k, .storeX t, k', rfl, rfl, fun s s' c ch ch' hs hc => ?_⟩)
    cases hf : ch.fault with
    | some x =>
      have hf' : ch'.fault = some x := by rw [← hc.fault, hf]
      simp only [exec, hf, hf']
      exact ⟨hs, hk _ _ rfl⟩
    | none =>
      have hf' : ch'.fault = none := by rw [← hc.fault, hf]
      simp only [exec, hf, hf']
      exact ⟨hs, hk _ _ (lookup_sim hs.tbl (P := fun e => e.xKey = some t) (fun e e' h h' => h.xKey ▸ h')
        (fun e => E.S.R.byX_iff _ t e hs.ok) (fun e => E.S.R.byX_iff _ t e hs.ok') (hS.byX _ _ hs.ok hs.ok' hs.pub t))⟩
  | @register f f' hf k k' hk =>
    refine Or.inr (Or.inr ⟨.register f, k, .register f', k', rfl, rfl, fun s s' c ch ch' hs hc => ?_⟩)
    refine ⟨?_, hk _⟩
    have hf0 := hf
    obtain ⟨e, e', x, o, o', he, _, rfl, rfl⟩ := hf
    have ht : e.tag = e'.tag := he.pub.tag
    cases e <;> cases e' <;> first | exact he.elim | skip
    · obtain ⟨rfl, rfl, _⟩ := he
      exact ⟨hs.ok, hs.ok', hs.tbl, lru_put_sim hs.cTag _ _ hf0, lru_put_sim hs.cEd _ _ hf0, lru_put_sim hs.cX _ _ hf0, hs.unlocked⟩
    · refine ⟨hs.ok, hs.ok', hs.tbl, ?_, hs.cEd, hs.cX, hs.unlocked⟩
      simp only [exec]
      rw [ht]; exact lru_put_sim hs.cTag _ _ hf0
    · refine ⟨hs.ok, hs.ok', hs.tbl, ?_, hs.cEd, hs.cX, hs.unlocked⟩
      simp only [exec]
      rw [ht]; exact lru_put_sim hs.cTag _ _ hf0
  | @write e e' he k k' hk =>
    refine Or.inr (Or.inr ⟨.write e, k, .write e', k', rfl, rfl, fun s s' c ch ch' hs hc => ?_⟩)
    cases hf : ch.fault with
    | some x =>
      have hf' : ch'.fault = some x := by rw [← hc.fault, hf]
      simp only [exec, hf, hf']
      exact ⟨hs, hk _⟩
    | none =>
      have hf' : ch'.fault = none := by rw [← hc.fault, hf]
      simp only [exec, hf, hf']
      obtain ⟨h1, h2⟩ := write_sim hS hs he
      refine ⟨h2, ?_⟩
      rw [h1]; exact hk _
  | @draw k k' hk =>
    refine Or.inr (Or.inr ⟨.random 32, k, .random 32, k', rfl, rfl, fun s s' c ch ch' hs hc => ?_⟩)
    exact ⟨hs, hk _ _ hc.draw⟩

/-! ### Systems of the two worlds -/

/-- Corresponding requests in flight. Proof device: nothing in the code corresponds. -/
structure ThSim (Known : B 64 → Prop) (t t' : Thread E) : Prop where
  id : t.id = t'.id
  conn : t.conn = t'.conn
  msg : t.msg = t'.msg
  prog : PSim E Known (Drawn E Known t.conn t.msg) Eq t.prog t'.prog

/-- Corresponding finished requests: the same answers. Proof device: nothing in the code corresponds. -/
structure DoneSim (d d' : Done E) : Prop where
  id : d.id = d'.id
  conn : d.conn = d'.conn
  msg : d.msg = d'.msg
  wire : d.wire = d'.wire

/-- Corresponding systems. Proof device: nothing in the code corresponds. -/
structure SysSim (Known : B 64 → Prop) (s s' : Sys E) : Prop where
  sh : ShSim Known s.sh s'.sh
  threads : All2 (ThSim Known) s.threads s'.threads
  done : All2 DoneSim s.done s'.done
  inbox : s.inbox = s'.inbox

theorem SysSim.transcript {s s' : Sys E} (h : SysSim Known s s') : s.transcript = s'.transcript := by
  refine h.done.flatMap_eq ?_
  rintro d d' hd
  rw [hd.id, hd.conn, hd.msg, hd.wire]

theorem SysSim.init (st : E.S.σ) (hok : E.S.ok st) : SysSim Known (Sys.init E st) (Sys.init E st) :=
  ⟨⟨hok, hok, All2.refl EntrySim.refl _, .nil, .nil, .nil, rfl⟩, .nil, .nil, rfl⟩

theorem finish_sim {s s' : Sys E} (h : SysSim Known s s') (i : Nat) {t t' : Thread E} (ht : ThSim Known t t') (o : Res Resp) :
    SysSim Known (s.finish i t o) (s'.finish i t' o) := by
  refine ⟨h.sh, h.threads.eraseIdx i, h.done.append (.one ⟨ht.id, ht.conn, ht.msg, ?_⟩), h.inbox⟩
  simp only [ht.msg]

theorem withSeed_sim (ch : Choice) {G : B 32 → B 32 → Prop} {a b : B 32} (h : G a b) : ChSim G (ch.withSeed a) (ch.withSeed b) := by
  refine ⟨?_, h, rfl, rfl, rfl⟩
  intro n hn
  simp [Choice.withSeed, hn]

/-- One event in the two worlds. -/
theorem sysSim_step (hS : E.S.Oblivious) (hide : E.C.SealsHide) {s s' : Sys E} (h : SysSim Known s s') (gen gen' : Nat → B 32)
    (ev : Event) (hg : ∀ t ∈ s.threads, Drawn E Known t.conn t.msg (gen t.id) (gen' t.id))
    (hu : ∀ c m, ev = .recv c m → UsesOnly E Known c m) :
    SysSim Known (s.step (inWorld gen s ev)) (s'.step (inWorld gen' s' ev)) := by
  cases ev with
  | recv c m =>
    refine ⟨h.sh, h.threads.append (.one ⟨?_, rfl, rfl, psim_handle hide c m (hu c m rfl)⟩), h.done, ?_⟩
    · simp only [h.inbox]
    · simp only [Sys.step, inWorld, h.inbox]
  | restart =>
    exact ⟨⟨h.sh.ok, h.sh.ok', h.sh.tbl, .nil, .nil, .nil, rfl⟩, .nil, h.done, h.inbox⟩
  | step i ch =>
    rcases h.threads.get i with ⟨h1, h2⟩ | ⟨t, t', h1, h2, ht⟩
    · simp only [inWorld]
      rw [step_none s i _ h1, step_none s' i _ h2]; exact h
    · have e1 : inWorld gen s (.step i ch) = .step i (ch.withSeed (gen t.id)) := by simp only [inWorld, h1]
      have e2 : inWorld gen' s' (.step i ch) = .step i (ch.withSeed (gen' t.id)) := by simp only [inWorld, h2, ht.id]
      rw [e1, e2]
      have hd := hg t (List.mem_of_getElem? h1)
      rcases psim_step hS ht.prog with ⟨r, _, p1, p2, rfl⟩ | ⟨e, p1, p2⟩ | ⟨a, k, a', k', p1, p2, hx⟩
      · rw [step_ret s i _ t r h1 p1, step_ret s' i _ t' r h2 p2]; exact finish_sim h i ht _
      · rw [step_fail s i _ t e h1 p1, step_fail s' i _ t' e h2 p2]; exact finish_sim h i ht _
      · rw [step_act s i _ t a k h1 p1, step_act s' i _ t' a' k' h2 p2]
        obtain ⟨x1, x2⟩ := hx s.sh s'.sh t.conn _ _ h.sh (withSeed_sim ch hd)
        unfold Sys.perform
        rw [← ht.conn]
        exact ⟨x1, h.threads.set i ⟨ht.id, rfl, ht.msg, x2⟩, h.done, h.inbox⟩

end
end Lair
