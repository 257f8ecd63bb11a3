import Verif.ClientApi
import Verif.HandlerProofs

/- Each request, at a suitable moment between its start and its end, does what `Verif.KeystoreSpec` says. -/
namespace Lair

section
variable {E : Env}

/-! ### Items and entries -/

theorem Repr.tag {i : Item} {e : Entry} (h : Repr E i e) : i.tag = e.tag := by cases h <;> rfl
theorem Repr.ed {i : Item} {e : Entry} (h : Repr E i e) : i.edKey E.C = e.edKey := by cases h <;> rfl
theorem Repr.x {i : Item} {e : Entry} (h : Repr E i e) : i.xKey E.C = e.xKey := by cases h <;> rfl
theorem Repr.info {i : Item} {e : Entry} (h : Repr E i e) : i.info E.C = e.info := by cases h <;> rfl

theorem Repr.conflicts {i j : Item} {e e' : Entry} (h : Repr E i e) (h' : Repr E j e') :
    i.conflicts E.C j = true ↔ Clash e e' := by
  simp only [Item.conflicts, Clash, h.tag, h'.tag, h.ed, h'.ed, h.x, h'.x, Bool.or_eq_true, Bool.and_eq_true, decide_eq_true_eq,
    or_assoc]
  have key : ∀ a b : Option (B 32), (a.isSome = true ∧ a = b ↔ ∃ k, a = some k ∧ b = some k) := by
    intro a b
    cases a with
    | none => simp
    | some v => simp; exact eq_comm
  rw [key, key]

theorem Stands.length {ks : Keystore} {T : List Entry} (h : Stands E ks T) : ks.length = T.length := by
  induction ks generalizing T with
  | nil => cases T with
    | nil => rfl
    | cons => exact absurd h (by simp [Stands])
  | cons i ks ih => cases T with
    | nil => exact absurd h (by simp [Stands])
    | cons e T => simp [ih h.2]

theorem Stands.append {ks ks' : Keystore} {T T' : List Entry} (h : Stands E ks T) (h' : Stands E ks' T') :
    Stands E (ks ++ ks') (T ++ T') := by
  induction ks generalizing T with
  | nil => cases T with
    | nil => exact h'
    | cons => exact absurd h (by simp [Stands])
  | cons i ks ih => cases T with
    | nil => exact absurd h (by simp [Stands])
    | cons e T => exact ⟨h.1, ih h.2⟩

theorem Stands.map_info {ks : Keystore} {T : List Entry} (h : Stands E ks T) : ks.map (Item.info E.C) = T.map Entry.info := by
  induction ks generalizing T with
  | nil => cases T with
    | nil => rfl
    | cons => exact absurd h (by simp [Stands])
  | cons i ks ih => cases T with
    | nil => exact absurd h (by simp [Stands])
    | cons e T => simp [ih h.2, h.1.info]

theorem Stands.left {ks : Keystore} {T : List Entry} (h : Stands E ks T) {i : Item} (hi : i ∈ ks) : ∃ e ∈ T, Repr E i e := by
  induction ks generalizing T with
  | nil => cases hi
  | cons j ks ih => cases T with
    | nil => exact absurd h (by simp [Stands])
    | cons e T =>
      rcases List.mem_cons.1 hi with rfl | hi
      · exact ⟨e, by simp, h.1⟩
      · obtain ⟨e', he', hr⟩ := ih h.2 hi
        exact ⟨e', by simp [he'], hr⟩

theorem Stands.right {ks : Keystore} {T : List Entry} (h : Stands E ks T) {e : Entry} (he : e ∈ T) : ∃ i ∈ ks, Repr E i e := by
  induction ks generalizing T with
  | nil => cases T with
    | nil => cases he
    | cons => exact absurd h (by simp [Stands])
  | cons j ks ih => cases T with
    | nil => cases he
    | cons e' T =>
      rcases List.mem_cons.1 he with rfl | he
      · exact ⟨j, by simp, h.1⟩
      · obtain ⟨i, hi, hr⟩ := ih h.2 he
        exact ⟨i, by simp [hi], hr⟩

/-- Searching on both sides. -/
theorem Stands.find {ks : Keystore} {T : List Entry} (h : Stands E ks T) {p : Item → Bool} {q : Entry → Bool}
    (hpq : ∀ i e, Repr E i e → p i = q e) :
    (ks.find? p = none ∧ T.find? q = none) ∨ ∃ i e, ks.find? p = some i ∧ T.find? q = some e ∧ Repr E i e := by
  induction ks generalizing T with
  | nil => cases T with
    | nil => exact Or.inl ⟨rfl, rfl⟩
    | cons => exact absurd h (by simp [Stands])
  | cons j ks ih => cases T with
    | nil => exact absurd h (by simp [Stands])
    | cons e T =>
      have hq := hpq j e h.1
      cases hp : p j with
      | true => rw [hp] at hq; exact Or.inr ⟨j, e, by simp [hp], by simp [← hq], h.1⟩
      | false =>
        rw [hp] at hq
        rcases ih h.2 with ⟨a, b⟩ | ⟨i, e', a, b, c⟩
        · exact Or.inl ⟨by simp [hp, a], by simp [← hq, b]⟩
        · exact Or.inr ⟨i, e', by simp [hp, a], by simp [← hq, b], c⟩

section
variable {ks : Keystore} {T : List Entry} (h : Stands E ks T)

include h in
theorem Stands.absent {p : Item → Bool} {q : Entry → Bool} (hpq : ∀ i e, Repr E i e → p i = q e)
    (hn : ∀ e ∈ T, q e = false) : ks.find? p = none := by
  rcases h.find hpq with ⟨a, _⟩ | ⟨i, e, _, b, _⟩
  · exact a
  · have := hn e (List.mem_of_find?_eq_some b)
    rw [List.find?_some b] at this; cases this

include h in
theorem Stands.present {p : Item → Bool} {q : Entry → Bool} (hpq : ∀ i e, Repr E i e → p i = q e) {e : Entry} (he : e ∈ T)
    (hq : q e = true) (hu : ∀ e' ∈ T, q e' = true → e' = e) : ∃ i, ks.find? p = some i ∧ Repr E i e := by
  rcases h.find hpq with ⟨_, b⟩ | ⟨i, e', a, b, c⟩
  · rw [List.find?_eq_none] at b
    exact absurd hq (b e he)
  · have := hu e' (List.mem_of_find?_eq_some b) (List.find?_some b)
    subst this
    exact ⟨i, a, c⟩

include h in
theorem Stands.tag_none {t : String} (hn : ∀ e ∈ T, e.tag ≠ t) : Keystore.byTag ks t = none :=
  h.absent (q := fun e => e.tag = t) (fun i e hr => by rw [hr.tag]) (fun e he => by simp [hn e he])

include h in
theorem Stands.ed_none {k : B 32} (hn : ∀ e ∈ T, e.edKey ≠ some k) : Keystore.byEd E.C ks k = none :=
  h.absent (q := fun e => e.edKey = some k) (fun i e hr => by rw [hr.ed]) (fun e he => by simp [hn e he])

include h in
theorem Stands.x_none {k : B 32} (hn : ∀ e ∈ T, e.xKey ≠ some k) : Keystore.byX E.C ks k = none :=
  h.absent (q := fun e => e.xKey = some k) (fun i e hr => by rw [hr.x]) (fun e he => by simp [hn e he])

include h in
theorem Stands.tag_some (hd : Distinct T) {e : Entry} (he : e ∈ T) {t : String} (ht : e.tag = t) :
    ∃ i, Keystore.byTag ks t = some i ∧ Repr E i e :=
  h.present (q := fun e => e.tag = t) (fun i e hr => by rw [hr.tag]) he (by simp [ht])
    (fun e' he' hq => hd.eq_of_clash he' he (Or.inl (by simp at hq; rw [hq, ht])))

include h in
theorem Stands.ed_some (hd : Distinct T) {e : Entry} (he : e ∈ T) {k : B 32} (hk : e.edKey = some k) :
    ∃ i, Keystore.byEd E.C ks k = some i ∧ Repr E i e :=
  h.present (q := fun e => e.edKey = some k) (fun i e hr => by rw [hr.ed]) he (by simp [hk])
    (fun e' he' hq => hd.eq_of_clash he' he (Or.inr (Or.inl ⟨k, by simpa using hq, hk⟩)))

include h in
theorem Stands.x_some (hd : Distinct T) {e : Entry} (he : e ∈ T) {k : B 32} (hk : e.xKey = some k) :
    ∃ i, Keystore.byX E.C ks k = some i ∧ Repr E i e :=
  h.present (q := fun e => e.xKey = some k) (fun i e hr => by rw [hr.x]) he (by simp [hk])
    (fun e' he' hq => hd.eq_of_clash he' he (Or.inr (Or.inr ⟨k, by simpa using hq, hk⟩)))

end

/-- Every well-formed table stands for some keystore. -/
theorem stands_exists {T : List Entry} (h : ∀ e ∈ T, WF E e) : ∃ ks, Stands E ks T := by
  induction T with
  | nil => exact ⟨[], trivial⟩
  | cons e T ih =>
    obtain ⟨ks, hks⟩ := ih (fun e he => h e (by simp [he]))
    have hw := h e (by simp)
    have : ∃ i, Repr E i e := by
      cases e with
      | seed t info enc =>
        obtain ⟨ed, x, ex⟩ := info
        obtain ⟨s, h1, h2, h3⟩ := hw
        simp only at h2 h3; subst h2; subst h3
        exact ⟨_, .seed t s ex enc h1⟩
      | deep t info salt ops mem enc =>
        obtain ⟨ed, x, ex⟩ := info
        obtain ⟨p, key, s, h1, h2, h3, h4⟩ := hw
        simp only at h3 h4; subst h3; subst h4
        exact ⟨_, .locked t s ex p ops mem salt key enc h1 h2⟩
      | cert t info priv =>
        obtain ⟨n, h1, h2⟩ := hw
        subst h1
        exact ⟨_, .cert t _ _ _ priv h2⟩
    obtain ⟨i, hi⟩ := this
    exact ⟨i :: ks, hi, hks⟩

/-- What a full entry holds of the item. -/
theorem Repr.full {i : Item} {f : Full} (h : Repr E i f.entry) (hf : fullOf E.C E.bidi f.entry = .ok f) :
    f.seed = Keystore.plain (some i) ∧ f.edSk = (Keystore.plain (some i)).map E.C.edSk ∧
    f.xSk = (Keystore.plain (some i)).map E.C.xSk ∧ (∀ t s x, i = .seed t s x → f.exportable = x) := by
  generalize hge : f.entry = e at h hf
  cases h with
  | seed t s x enc hs =>
    obtain ⟨s', h1, _, _, h4⟩ := fullOf_seed hf
    rw [hs] at h1; cases h1
    subst h4
    refine ⟨rfl, rfl, rfl, ?_⟩
    intro t' s'' x' hx; cases hx; rfl
  | locked t s x pw ops mem salt key enc h1 h2 =>
    have := fullOf_other hf (by simp)
    subst this
    exact ⟨rfl, rfl, rfl, by simp⟩
  | cert t sni crt key priv h1 =>
    have := fullOf_other hf (by simp)
    subst this
    exact ⟨rfl, rfl, rfl, by simp⟩

/-! ### The setting -/

/-- What is assumed of the primitives and the store to relate the server to the specification.
    Proof device: nothing in the code corresponds. -/
structure View (E : Env) (okLim : UInt32 → UInt32 → Bool) (room : Item → Bool) (H : List (B 64)) (Λ : List (UInt32 × UInt32))
    (T : List Entry) : Prop where
  lim : ∀ p salt ops mem, (E.C.argon2id p salt ops mem).isSome = okLim ops mem
  room : ∀ i e, Repr E i e → E.S.fits e = room i
  sep : Separated E H Λ T
  distinct : Distinct T

variable {okLim : UInt32 → UInt32 → Bool} {room : Item → Bool} {H : List (B 64)} {Λ : List (UInt32 × UInt32)} {T : List Entry}

/-- The item a creation adds. -/
theorem isNew_repr {c : Nat} {seed : B 32} {tag : String} {deep : Option DeepPass} {x : Bool} {e : Entry}
    (h : IsNew E c seed tag deep x e) :
    (deep = none ∧ Repr E (.seed tag seed x) e) ∨
    ∃ d pw, deep = some d ∧ decPass E c d.pass = some pw ∧ (E.C.argon2id pw.val (match e with
      | .deep _ _ salt _ _ _ => salt
      | _ => ⟨List.replicate 16 0, by simp⟩) d.ops d.mem).isSome = true ∧ Repr E (.locked tag seed x pw d.ops d.mem) e := by
  cases deep with
  | none =>
    obtain ⟨hdr, rfl⟩ := h
    exact Or.inl ⟨rfl, .seed _ _ _ _ (by simp)⟩
  | some d =>
    obtain ⟨pass, salt, key, hdr, h1, h2, rfl⟩ := h
    exact Or.inr ⟨d, pass, rfl, h1, by simp [h2], .locked _ _ _ _ _ _ _ _ _ h2 (by simp)⟩

theorem add_refused {ks : Keystore} {i : Item} {a : Ans} {e : Entry} {U : List Entry} (hv : View E okLim room H Λ T)
    (hs : Stands E ks U) (hr : Repr E i e) (h : E.S.fits e = false ∨ ∃ e' ∈ U, Clash e' e) :
    Keystore.add E.C room ks i a = (none, ks) := by
  unfold Keystore.add
  rw [if_pos]
  rw [Bool.or_eq_true]
  rcases h with h | ⟨e', he', hc⟩
  · right; rw [← hv.room i e hr, h]; rfl
  · left
    obtain ⟨j, hj, hjr⟩ := hs.right he'
    rw [List.any_eq_true]
    exact ⟨j, hj, (hjr.conflicts hr).2 hc⟩

theorem add_accepted {ks : Keystore} {i : Item} {a : Ans} {e : Entry} {U : List Entry} (hv : View E okLim room H Λ T)
    (hs : Stands E ks U) (hr : Repr E i e) (hf : E.S.fits e = true) (h : ∀ e' ∈ U, ¬ Clash e' e) :
    Keystore.add E.C room ks i a = (some a, ks ++ [i]) := by
  unfold Keystore.add
  rw [if_neg]
  rw [Bool.or_eq_true]
  rintro (h' | h')
  · rw [List.any_eq_true] at h'
    obtain ⟨j, hj, hc⟩ := h'
    obtain ⟨e', he', hjr⟩ := hs.left hj
    exact h e' he' ((hjr.conflicts hr).1 hc)
  · rw [← hv.room i e hr, hf] at h'; cases h'

theorem create_refused {ks : Keystore} {c : Nat} {s : Shared E} {seed : B 32} {tag : String} {deep : Option DeepPass} {x : Bool}
    (hv : View E okLim room H Λ T) (hs : Stands E ks s.tbl) (h : CannotCreate c s seed tag deep x) :
    Keystore.create E.C okLim room ks tag seed (deep.map (lockOf E c)) x = (none, ks) := by
  rcases h with ⟨d, rfl, hd⟩ | ⟨d, pass, salt, rfl, hd, ha⟩ | ⟨e, hn, hw⟩
  · simp [Keystore.create, lockOf, hd]
  · have := hv.lim pass.val salt d.ops d.mem
    rw [ha] at this
    simp [Keystore.create, lockOf, hd, ← this]
  · rcases isNew_repr hn with ⟨rfl, hr⟩ | ⟨d, pw, rfl, hp, ha, hr⟩
    · exact add_refused hv hs hr hw
    · rw [hv.lim] at ha
      simp only [Option.map_some, lockOf, hp, Keystore.create, ha, if_true]
      exact add_refused hv hs hr hw

/-- The item a creation request adds. Proof device: nothing in the code corresponds. -/
def newItem (E : Env) (c : Nat) (seed : B 32) (tag : String) (x : Bool) : Option DeepPass → Item
  | none => .seed tag seed x
  | some d => .locked tag seed x ((decPass E c d.pass).getD ⟨List.replicate 64 0, by simp⟩) d.ops d.mem

theorem newItem_repr {c : Nat} {seed : B 32} {tag : String} {deep : Option DeepPass} {x : Bool} {e : Entry}
    (hn : IsNew E c seed tag deep x e) : Repr E (newItem E c seed tag x deep) e := by
  rcases isNew_repr hn with ⟨rfl, hr⟩ | ⟨d, pw, rfl, hp, ha, hr⟩
  · exact hr
  · simpa [newItem, hp] using hr

theorem create_accepted {ks : Keystore} {c : Nat} {U : List Entry} {seed : B 32} {tag : String} {deep : Option DeepPass} {x : Bool}
    {e : Entry} (hv : View E okLim room H Λ T) (hs : Stands E ks U) (hn : IsNew E c seed tag deep x e)
    (hf : E.S.fits e = true) (h : ∀ e' ∈ U, ¬ Clash e' e) :
    Keystore.create E.C okLim room ks tag seed (deep.map (lockOf E c)) x =
      (some (.seedInfo (infoOf E seed x)), ks ++ [newItem E c seed tag x deep]) := by
  rcases isNew_repr hn with ⟨rfl, hr⟩ | ⟨d, pw, rfl, hp, ha, hr⟩
  · exact add_accepted hv hs hr hf h
  · rw [hv.lim] at ha
    simp only [Option.map_some, lockOf, hp, Keystore.create, ha, if_true, newItem, Option.getD_some]
    exact add_accepted hv hs hr hf h

theorem derivePath_eq (C : Crypto) (seed : B 32) (path : List UInt32) : Keystore.descendant C seed path = derivePath C seed path := by
  induction path generalizing seed with
  | nil => rfl
  | cons i path ih => simp only [Keystore.descendant, ih]; rfl

/-- A deep-locked entry opens exactly for its own passphrase and limits, among those known. -/
theorem opens_own (hv : View E okLim room H Λ T) {t : String} {info : SeedInfo} {salt : B 16} {ops mem : UInt32}
    {enc : SecretSized 49} (he : Entry.deep t info salt ops mem enc ∈ T) {pw : B 64} {key s : B 32}
    (ha : E.C.argon2id pw.val salt ops mem = some key) (hs : enc.decrypt (m := 32) E.C key = some s)
    (hpw : pw ∈ H) (hl : (ops, mem) ∈ Λ) {p : B 64} {o m : UInt32} (hp : p ∈ H) (ho : (o, m) ∈ Λ) {k s' : B 32}
    (ha' : E.C.argon2id p.val salt o m = some k) (hs' : enc.decrypt (m := 32) E.C k = some s') : p = pw ∧ o = ops ∧ m = mem := by
  obtain ⟨h1, h2⟩ := hv.sep _ he p hp pw hpw (o, m) ho (ops, mem) hl ⟨k, s', ha', hs'⟩ ⟨key, s, ha, hs⟩
  simp only [Prod.mk.injEq] at h2
  exact ⟨h1, h2.1, h2.2⟩

/-- The source of a derivation. -/
theorem source_eq (hv : View E okLim room H Λ T) {c : Nat} {i : Item} {e : Entry} (hr : Repr E i e) (he : e ∈ T)
    (hi : ∀ t s x pw ops mem, i = .locked t s x pw ops mem → pw ∈ H ∧ (ops, mem) ∈ Λ) {sd : Option DeepPass}
    (hsd : ∀ k, sd.map (lockOf E c) = some k → k.within H Λ) :
    (∀ s info, deriveSource E c e sd = .ok (s, info) → Keystore.source (sd.map (lockOf E c)) (some i) = some (s, info.exportable)) ∧
    (∀ x, deriveSource E c e sd = .error x → Keystore.source (sd.map (lockOf E c)) (some i) = none) := by
  cases hr with
  | seed t s x enc hs =>
    cases sd with
    | none => simp [deriveSource, hs, Keystore.source]
    | some d => simp [deriveSource, Keystore.source]
  | locked t s x pw ops mem salt key enc ha hs =>
    obtain ⟨hpw, hl⟩ := hi t s x pw ops mem rfl
    cases sd with
    | none => simp [deriveSource, Keystore.source]
    | some d =>
      obtain ⟨hd1, hd2⟩ := hsd _ rfl
      simp only [lockOf] at hd1 hd2
      simp only [deriveSource, Keystore.source, Option.map_some, Option.some.injEq, lockOf, Lock.mk.injEq]
      cases hp : decPass E c d.pass with
      | none => simp [deepKey, hp]
      | some p =>
        cases hk : E.C.argon2id p.val salt d.ops d.mem with
        | none =>
          have : ¬ (p = pw ∧ d.ops = ops ∧ d.mem = mem) := by
            rintro ⟨rfl, h1, h2⟩; rw [h1, h2, ha] at hk; cases hk
          simp [deepKey, hp, hk, Res.ofOption, this]
        | some k =>
          cases hs' : enc.decrypt (m := 32) E.C k with
          | none =>
            have : ¬ (p = pw ∧ d.ops = ops ∧ d.mem = mem) := by
              rintro ⟨rfl, h1, h2⟩; rw [h1, h2, ha] at hk; cases hk; rw [hs] at hs'; cases hs'
            simp [deepKey, hp, hk, Res.ofOption, hs', this]
          | some s' =>
            obtain ⟨h1, h2, h3⟩ := opens_own hv he ha hs hpw hl (hd1 p hp) hd2 hk hs'
            subst h1
            rw [h2, h3, ha] at hk; cases hk
            rw [hs] at hs'; cases hs'
            simp [deepKey, hp, h2, h3, ha, Res.ofOption, hs]
  | cert t sni crt key priv h1 => cases sd <;> simp [deriveSource, Keystore.source]

/-- Signing. -/
theorem sign_eq (hv : View E okLim room H Λ T) {c : Nat} {i : Item} {f : Full} (hr : Repr E i f.entry) (he : f.entry ∈ T)
    (hf : fullOf E.C E.bidi f.entry = .ok f)
    (hi : ∀ t s x pw ops mem, i = .locked t s x pw ops mem → pw ∈ H ∧ (ops, mem) ∈ Λ) {deep : Option (SecretSized 81)}
    (hd : ∀ h, deep.map (decPass E c) = some (some h) → h ∈ H) :
    (∀ sk, signKey E c f deep = .ok sk → ∃ s, sk = E.C.edSk s ∧ ((∃ t x, i = .seed t s x) ∨
      ∃ t x pw ops mem, i = .locked t s x pw ops mem ∧ deep.map (decPass E c) = some (some pw))) ∧
    (∀ x, signKey E c f deep = .error x → (∃ t sni crt pk, i = .cert t sni crt pk) ∨ ∃ t s x pw ops mem, i = .locked t s x pw ops mem ∧
      deep.map (decPass E c) ≠ some (some pw)) := by
  obtain ⟨_, hed, _, _⟩ := hr.full hf
  generalize hge : f.entry = e at hr he hf
  cases hr with
  | seed t s x enc hs =>
    have hsk : f.edSk = some (E.C.edSk s) := hed
    simp only [signKey, hge, hsk]
    refine ⟨fun sk h => ?_, fun x h => by cases h⟩
    cases h
    exact ⟨s, rfl, Or.inl ⟨t, x, rfl⟩⟩
  | cert t sni crt key priv h1 =>
    have hsk : f.edSk = none := hed
    simp only [signKey, hge, hsk]
    exact ⟨fun sk h => (by cases h), fun x h => Or.inl ⟨t, sni, crt, key, rfl⟩⟩
  | locked t s x pw ops mem salt key enc ha hs =>
    obtain ⟨hpw, hl⟩ := hi t s x pw ops mem rfl
    have hsk : f.edSk = none := hed
    cases deep with
    | none =>
      simp only [signKey, hge, hsk]
      exact ⟨fun sk h => (by cases h), fun y h => Or.inr ⟨t, s, x, pw, ops, mem, rfl, by simp⟩⟩
    | some d =>
      simp only [signKey, hge, hsk, Option.map_some, Option.some.injEq] at hd ⊢
      cases hp : decPass E c d with
      | none =>
        simp only [deepKey, hp]
        exact ⟨fun sk h => (by cases h), fun y h => Or.inr ⟨t, s, x, pw, ops, mem, rfl, by simp⟩⟩
      | some p =>
        have hpH := hd p hp
        cases hk : E.C.argon2id p.val salt ops mem with
        | none =>
          have hne : p ≠ pw := by rintro rfl; rw [ha] at hk; cases hk
          simp only [deepKey, hp, hk, Res.ofOption]
          exact ⟨fun sk h => (by cases h), fun y h => Or.inr ⟨t, s, x, pw, ops, mem, rfl, by simp [hne]⟩⟩
        | some k =>
          cases hs' : enc.decrypt (m := 32) E.C k with
          | none =>
            have hne : p ≠ pw := by rintro rfl; rw [ha] at hk; cases hk; rw [hs] at hs'; cases hs'
            simp only [deepKey, hp, hk, Res.ofOption, hs']
            exact ⟨fun sk h => (by cases h), fun y h => Or.inr ⟨t, s, x, pw, ops, mem, rfl, by simp [hne]⟩⟩
          | some s' =>
            obtain ⟨h1, _, _⟩ := opens_own hv he ha hs hpw hl hpH hl hk hs'
            subst h1
            rw [ha] at hk; cases hk
            rw [hs] at hs'; cases hs'
            simp only [deepKey, hp, ha, Res.ofOption, hs]
            exact ⟨fun sk h => (by cases h; exact ⟨s, rfl, Or.inr ⟨t, x, p, ops, mem, rfl, rfl⟩⟩), fun y h => (by cases h)⟩

end
end Lair
