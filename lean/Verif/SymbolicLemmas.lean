import Verif.Symbolic

/- The invariant of the symbolic model: which terms the attacker may come to know. -/
namespace Lair.Sym
open Term Atom

/-- Session keys between two honest ephemeral secrets, and keys derived from them: never known to the attacker.
    Proof device: nothing in the code corresponds. -/
def UnsafeKey : Term → Prop
  | .shared _ (.atom (.skx _)) (.atom (.ckx _)) => True
  | .kdf _ k => UnsafeKey k
  | _ => False

/-- Some connection using passphrase `p` completed its handshake with a peer that is not an honest server.
    Proof device: nothing in the code corresponds. -/
def Exposed (pw : Nat → Nat) (s : St) (p : Nat) : Prop :=
  ∃ i o, pw i = p ∧ (s.cli i).other? = some o ∧ ∀ j, o ≠ pub (atom (.skx j))

/-- Accepted connection `j` is the other end of the initiator of client connection `i`.
    Proof device: nothing in the code corresponds. -/
def Matches (target : Nat → Target) (s : St) (i j : Nat) : Prop :=
  ∃ e, s.sess[j]? = some e ∧ e.cbox = pub (atom (.cbox i)) ∧ e.kx = pub (atom (.ckx i)) ∧ target i = .honest e.srv

/-- May the public keys of client connection `i` be known? Proof device: nothing in the code corresponds. -/
def Open (target : Nat → Target) (s : St) (i : Nat) : Prop := ∀ n, target i = .honest n → s.leaked n

/-- What is said under keys the attacker cannot have. Proof device: nothing in the code corresponds. -/
def Legit (pw : Nat → Nat) (s : St) : Term → Term → Prop
  | .shared true (.atom (.skx j)) (.atom (.ckx i)), m =>
    s.cli i = .unlocked (pub (atom (.skx j))) ∧
      m = enc (kdf 142 (shared true (atom (.skx j)) (atom (.ckx i)))) (atom (.pass (pw i)))
  | .shared false (.atom (.skx j)) (.atom (.ckx i)), m =>
    ∃ e, s.sess[j]? = some e ∧ e.kx = pub (atom (.ckx i)) ∧ m = hello (pub (atom (.srv e.srv)))
  | .kdf 142 (.shared true (.atom (.skx j)) (.atom (.ckx i))), m =>
    s.cli i = .unlocked (pub (atom (.skx j))) ∧ m = atom (.pass (pw i))
  | _, _ => False

variable (target : Nat → Target) (pw : Nat → Nat)

/-- Terms the attacker may know. Proof device: nothing in the code corresponds. -/
def Safe (s : St) : Term → Prop
  | .atom (.srv n) => s.leaked n
  | .atom (.cbox _) => False
  | .atom (.ckx _) => False
  | .atom (.skx _) => False
  | .atom (.pass p) => Exposed pw s p
  | .atom (.adv _) => True
  | .pub (.atom (.cbox i)) => Open target s i
  | .pub (.atom (.ckx i)) => Open target s i
  | .pub _ => True
  | .pair a b => Safe s a ∧ Safe s b
  | .sealed m pk => (Safe s m ∧ Safe s pk) ∨
      (∃ n i, pk = pub (atom (.srv n)) ∧ target i = .honest n ∧ m = pair (pub (atom (.cbox i))) (pub (atom (.ckx i)))) ∨
      (∃ i j, pk = pub (atom (.cbox i)) ∧ m = pub (atom (.skx j)) ∧ Matches target s i j)
  | .shared d a b => ¬ UnsafeKey (.shared d a b)
  | .odd _ _ _ => True
  | .kdf _ k => Safe s k
  | .enc k m => (Safe s k ∧ Safe s m) ∨ (UnsafeKey k ∧ Legit pw s k m)
  | .hello t => Safe s t

variable {target pw}

theorem not_safe_of_unsafe {s : St} {k : Term} (h : UnsafeKey k) : ¬ Safe target pw s k := by
  induction k with
  | shared d a b => intro hs; exact hs h
  | kdf l k ih => intro hs; exact ih h hs
  | _ => exact h.elim

theorem safe_know {s : St} {W : Term → Prop} (hW : ∀ t, W t → Safe target pw s t) {t : Term} (h : Know W t) :
    Safe target pw s t := by
  induction h with
  | seen h => exact hW _ h
  | adv n => trivial
  | @pub t _ ih =>
    cases t with
    | atom a => cases a <;> first | exact ih.elim | trivial
    | _ => trivial
  | pair _ _ ha hb => exact ⟨ha, hb⟩
  | fst _ ih => exact ih.1
  | snd _ ih => exact ih.2
  | seal' _ _ hm hp => exact Or.inl ⟨hm, hp⟩
  | @open' m sk _ _ h1 h2 =>
    rcases h1 with h1 | ⟨n, i, hp, ht, hm⟩ | ⟨i, j, hp, hm, _⟩
    · exact h1.1
    · cases hp; subst hm
      have : Open target s i := by intro n' hn'; rw [ht] at hn'; cases hn'; exact h2
      exact ⟨this, this⟩
    · cases hp; exact h2.elim
  | @server d a b _ _ h1 _ =>
    intro hu
    cases a with
    | atom x => cases x <;> first | exact h1.elim | exact hu.elim
    | _ => exact hu.elim
  | @client d a b _ _ h1 _ =>
    intro hu
    cases a with
    | atom x =>
      cases x with
      | skx j =>
        cases b with
        | atom y => cases y <;> first | exact h1.elim | exact hu.elim
        | _ => exact hu.elim
      | _ => exact hu.elim
    | _ => exact hu.elim
  | odd d a b => trivial
  | kdf _ ih => exact ih
  | enc _ _ h1 h2 => exact Or.inl ⟨h1, h2⟩
  | dec _ _ h1 h2 =>
    rcases h1 with h1 | h1
    · exact h1.2
    · exact absurd h2 (not_safe_of_unsafe h1.1)
  | hello _ ih => exact ih
  | unhello _ ih => exact ih

/-! ### Growth -/

/-- `s'` is later than `s`. Proof device: nothing in the code corresponds. -/
structure Later (s s' : St) : Prop where
  leaked : ∀ n, s.leaked n → s'.leaked n
  other : ∀ i o, (s.cli i).other? = some o → (s'.cli i).other? = some o
  unlocked : ∀ i o, s.cli i = .unlocked o → s'.cli i = .unlocked o
  sess : ∀ (j : Nat) (e : SrvSess), s.sess[j]? = some e → s'.sess[j]? = some e
  opened : ∀ x, x ∈ s.opened → x ∈ s'.opened

theorem Later.refl (s : St) : Later s s := ⟨fun _ h => h, fun _ _ h => h, fun _ _ h => h, fun _ _ h => h, fun _ h => h⟩

theorem Later.trans {a b c : St} (h : Later a b) (h' : Later b c) : Later a c :=
  ⟨fun n x => h'.leaked n (h.leaked n x), fun i o x => h'.other i o (h.other i o x),
    fun i o x => h'.unlocked i o (h.unlocked i o x), fun j e x => h'.sess j e (h.sess j e x), fun x y => h'.opened x (h.opened x y)⟩

theorem later_step {s s' : St} (h : Step target pw s s') : Later s s' := by
  cases h with
  | start i hi =>
    refine ⟨fun _ h => h, ?_, ?_, fun _ _ h => h, fun _ h => h⟩
    · intro k o hk; simp only [setCli]; split
      · rename_i hki; subst hki; rw [hi] at hk; cases hk
      · exact hk
    · intro k o hk; simp only [setCli]; split
      · rename_i hki; subst hki; rw [hi] at hk; cases hk
      · exact hk
  | accept n msg cb kx hk ho =>
    refine ⟨fun _ h => h, fun _ _ h => h, fun _ _ h => h, ?_, fun _ h => h⟩
    intro j e hj
    have : j < s.sess.length := (List.getElem?_eq_some_iff.1 hj).1
    simp only [List.getElem?_append, this, if_true]; exact hj
  | finish i msg other hi hk ho =>
    refine ⟨fun _ h => h, ?_, ?_, fun _ _ h => h, fun _ h => h⟩
    · intro k o hk; simp only [setCli]; split
      · rename_i hki; subst hki; rw [hi] at hk; cases hk
      · exact hk
    · intro k o hk; simp only [setCli]; split
      · rename_i hki; subst hki; rw [hi] at hk; cases hk
      · exact hk
  | hello j e hj => exact ⟨fun _ h => h, fun _ _ h => h, fun _ _ h => h, fun _ _ h => h, fun _ h => h⟩
  | unlock i other msg hi hk ho =>
    refine ⟨fun _ h => h, ?_, ?_, fun _ _ h => h, fun _ h => h⟩
    · intro k o hk; simp only [setCli]; split
      · rename_i hki; subst hki; rw [hi] at hk; exact hk
      · exact hk
    · intro k o hk; simp only [setCli]; split
      · rename_i hki; subst hki; rw [hi] at hk; cases hk
      · exact hk
  | opened j p e hj hk =>
    exact ⟨fun _ h => h, fun _ _ h => h, fun _ _ h => h, fun _ _ h => h, fun _ h => List.mem_append_left _ h⟩
  | leak n => exact ⟨fun _ h => Or.inr h, fun _ _ h => h, fun _ _ h => h, fun _ _ h => h, fun _ h => h⟩

theorem later_steps {s s' : St} (h : Steps target pw s s') : Later s s' := by
  induction h with
  | refl => exact Later.refl _
  | tail _ h ih => exact ih.trans (later_step h)

theorem Later.open {s s' : St} (h : Later s s') {i : Nat} (ho : Open target s i) : Open target s' i :=
  fun n hn => h.leaked n (ho n hn)

theorem Later.legit {s s' : St} (h : Later s s') {k m : Term} (hl : Legit pw s k m) : Legit pw s' k m := by
  unfold Legit at hl ⊢
  split at hl
  · exact ⟨h.unlocked _ _ hl.1, hl.2⟩
  · obtain ⟨e, h1, h2⟩ := hl; exact ⟨e, h.sess _ _ h1, h2⟩
  · exact ⟨h.unlocked _ _ hl.1, hl.2⟩
  · exact hl.elim

theorem Later.safe {s s' : St} (h : Later s s') {t : Term} (ht : Safe target pw s t) : Safe target pw s' t := by
  induction t with
  | atom a =>
    cases a with
    | srv n => exact h.leaked n ht
    | pass p => obtain ⟨i, o, h1, h2, h3⟩ := ht; exact ⟨i, o, h1, h.other i o h2, h3⟩
    | adv _ => trivial
    | _ => exact ht.elim
  | pub t _ =>
    cases t with
    | atom a =>
      cases a with
      | cbox i => exact h.open ht
      | ckx i => exact h.open ht
      | _ => trivial
    | _ => trivial
  | pair a b iha ihb => exact ⟨iha ht.1, ihb ht.2⟩
  | sealed m pk ihm ihp =>
    rcases ht with ht | ht | ⟨i, j, h1, h2, e, h3, h4⟩
    · exact Or.inl ⟨ihm ht.1, ihp ht.2⟩
    · exact Or.inr (Or.inl ht)
    · exact Or.inr (Or.inr ⟨i, j, h1, h2, e, h.sess _ _ h3, h4⟩)
  | shared d a b _ _ => exact ht
  | odd => trivial
  | kdf l k ih => exact ih ht
  | enc k m ihk ihm =>
    rcases ht with ht | ht
    · exact Or.inl ⟨ihk ht.1, ihm ht.2⟩
    · exact Or.inr ⟨ht.1, h.legit ht.2⟩
  | hello t ih => exact ih ht

/-! ### The invariant -/

/-- Proof device: nothing in the code corresponds. -/
structure SInv (target : Nat → Target) (pw : Nat → Nat) (s : St) : Prop where
  wire : ∀ t ∈ s.wire, Safe target pw s t
  /-- handshakes completed with a server whose key is not leaked -/
  auth : ∀ i n o, target i = .honest n → (s.cli i).other? = some o → ¬ s.leaked n →
    ∃ j, o = pub (atom (.skx j)) ∧ Matches target s i j
  /-- unlocked connections -/
  opened : ∀ j p, (j, p) ∈ s.opened → Exposed pw s p ∨
    ∃ i e, s.sess[j]? = some e ∧ e.kx = pub (atom (.ckx i)) ∧ pw i = p ∧ s.cli i = .unlocked (pub (atom (.skx j)))

theorem SInv.knows {s : St} (h : SInv target pw s) {t : Term} (ht : s.knows t) : Safe target pw s t := by
  refine safe_know ?_ ht
  rintro t (h' | ⟨n, rfl⟩)
  · exact h.wire t h'
  · trivial

theorem sinv_init : SInv target pw St.init :=
  ⟨by simp [St.init], by intro i n o _ h; simp [St.init, CliPhase.other?] at h, by simp [St.init]⟩

theorem openSeal_some {sk t m : Term} (h : openSeal sk t = some m) : t = sealed m (pub sk) := by
  unfold openSeal at h
  split at h
  · split at h
    · rename_i heq; cases h; rw [heq]
    · cases h
  · cases h

theorem clientKey_cases (d : Bool) (i : Nat) (o : Term) :
    (∃ j, o = pub (atom (.skx j)) ∧ clientKey d (atom (.ckx i)) o = shared d (atom (.skx j)) (atom (.ckx i))) ∨
    ((∀ j, o ≠ pub (atom (.skx j))) ∧ ∀ s, Safe target pw s (clientKey d (atom (.ckx i)) o)) := by
  cases o with
  | pub a =>
    cases a with
    | atom x =>
      cases x with
      | skx j => exact Or.inl ⟨j, rfl, rfl⟩
      | _ => exact Or.inr ⟨(by intro j h; cases h), fun s h => h⟩
    | _ => exact Or.inr ⟨(by intro j h; cases h), fun s h => h⟩
  | _ => exact Or.inr ⟨(by intro j h; cases h), fun s => trivial⟩

theorem serverKey_cases (d : Bool) (j : Nat) (kx : Term) :
    (∃ i, kx = pub (atom (.ckx i)) ∧ serverKey d (atom (.skx j)) kx = shared d (atom (.skx j)) (atom (.ckx i))) ∨
    ((∀ i, kx ≠ pub (atom (.ckx i))) ∧ ∀ s, Safe target pw s (serverKey d (atom (.skx j)) kx)) := by
  cases kx with
  | pub a =>
    cases a with
    | atom x =>
      cases x with
      | ckx j => exact Or.inl ⟨j, rfl, rfl⟩
      | _ => exact Or.inr ⟨(by intro j h; cases h), fun s h => h⟩
    | _ => exact Or.inr ⟨(by intro j h; cases h), fun s h => h⟩
  | _ => exact Or.inr ⟨(by intro j h; cases h), fun s => trivial⟩

theorem Matches.later {s s' : St} (h : Later s s') {i j : Nat} (hm : Matches target s i j) : Matches target s' i j := by
  obtain ⟨e, h1, h2⟩ := hm; exact ⟨e, h.sess _ _ h1, h2⟩

/-- Parts of the invariant that only need monotonicity. -/
theorem opened_later {s s' : St} (h : Later s s') {j p : Nat} (ho : Exposed pw s p ∨
    ∃ i e, s.sess[j]? = some e ∧ e.kx = pub (atom (.ckx i)) ∧ pw i = p ∧ s.cli i = .unlocked (pub (atom (.skx j)))) :
    Exposed pw s' p ∨
    ∃ i e, s'.sess[j]? = some e ∧ e.kx = pub (atom (.ckx i)) ∧ pw i = p ∧ s'.cli i = .unlocked (pub (atom (.skx j))) := by
  rcases ho with ⟨i, o, h1, h2, h3⟩ | ⟨i, e, h1, h2, h3, h4⟩
  · exact Or.inl ⟨i, o, h1, h.other i o h2, h3⟩
  · exact Or.inr ⟨i, e, h.sess _ _ h1, h2, h3, h.unlocked _ _ h4⟩

theorem auth_later {s s' : St} (h : Later s s') (hi : SInv target pw s) (i n : Nat) (o : Term) (ht : target i = .honest n)
    (ho : (s.cli i).other? = some o) (hl : ¬ s'.leaked n) : ∃ j, o = pub (atom (.skx j)) ∧ Matches target s' i j := by
  obtain ⟨j, h1, h2⟩ := hi.auth i n o ht ho (fun x => hl (h.leaked n x))
  exact ⟨j, h1, h2.later h⟩

theorem wire_append {s s' : St} (h : Later s s') (hi : SInv target pw s) {w : Term} (hw : s'.wire = s.wire ++ [w])
    (hs : Safe target pw s' w) : ∀ t ∈ s'.wire, Safe target pw s' t := by
  intro t ht
  rw [hw] at ht
  rcases List.mem_append.1 ht with ht | ht
  · exact h.safe (hi.wire t ht)
  · simp at ht; subst ht; exact hs

theorem open_of_attacker {s : St} {i n : Nat} (h : target i = .attacker n) : Open target s i := by
  intro m hm; rw [h] at hm; cases hm

theorem safe_targetPk {s : St} (t : Target) : Safe target pw s t.pk := by cases t <;> trivial

theorem sinv_step {s s' : St} (hi : SInv target pw s) (h : Step target pw s s') : SInv target pw s' := by
  have hl := later_step h
  cases h with
  | start i hc =>
    refine ⟨wire_append hl hi rfl ?_, ?_, fun j p hp => opened_later hl (hi.opened j p hp)⟩
    · unfold initiator
      cases ht : target i with
      | honest n => exact Or.inr (Or.inl ⟨n, i, rfl, ht, rfl⟩)
      | attacker n => exact Or.inl ⟨⟨open_of_attacker ht, open_of_attacker ht⟩, trivial⟩
    · intro k n o ht ho hlk
      refine auth_later hl hi k n o ht ?_ hlk
      simp only [setCli] at ho
      split at ho
      · cases ho
      · exact ho
  | accept n msg cb kx hk ho =>
    refine ⟨wire_append hl hi rfl ?_, fun k m o ht ho' hlk => auth_later hl hi k m o ht ho' hlk,
      fun j p hp => opened_later hl (hi.opened j p hp)⟩
    have := openSeal_some ho; subst this
    rcases hi.knows hk with ⟨hm, _⟩ | ⟨n', i, hp, ht, hm⟩ | ⟨i, j, hp, _, _⟩
    · exact Or.inl ⟨trivial, hl.safe hm.1⟩
    · cases hp; cases hm
      exact Or.inr (Or.inr ⟨i, s.sess.length, rfl, rfl, ⟨n, _, _⟩, by simp, rfl, rfl, ht⟩)
    · cases hp
  | finish i msg other hc hk ho =>
    refine ⟨fun t ht => hl.safe (hi.wire t ht), ?_, fun j p hp => opened_later hl (hi.opened j p hp)⟩
    intro k n o ht ho' hlk
    by_cases hki : k = i
    · subst hki
      simp only [setCli, if_true, CliPhase.other?] at ho'
      cases ho'
      have := openSeal_some ho; subst this
      rcases hi.knows hk with ⟨_, hp⟩ | ⟨n', i, hp, _⟩ | ⟨i, j, hp, hm, hmm⟩
      · exact absurd (hp n ht) hlk
      · cases hp
      · cases hp; exact ⟨j, hm, hmm.later hl⟩
    · simp only [setCli, hki, if_false] at ho'
      exact auth_later hl hi k n o ht ho' hlk
  | hello j e hj =>
    refine ⟨wire_append hl hi rfl ?_, fun k m o ht ho' hlk => auth_later hl hi k m o ht ho' hlk,
      fun j p hp => opened_later hl (hi.opened j p hp)⟩
    rcases serverKey_cases (target := target) (pw := pw) false j e.kx with ⟨i, h1, h2⟩ | ⟨_, h2⟩
    · rw [h2]; exact Or.inr ⟨trivial, e, hj, h1, rfl⟩
    · exact Or.inl ⟨h2 _, trivial⟩
  | unlock i other msg hc hk ho =>
    refine ⟨wire_append hl hi rfl ?_, ?_, fun j p hp => opened_later hl (hi.opened j p hp)⟩
    · unfold unlockMsg
      rcases clientKey_cases (target := target) (pw := pw) true i other with ⟨j, h1, h2⟩ | ⟨h1, h2⟩
      · rw [h2]
        exact Or.inr ⟨trivial, by subst h1; exact ⟨by simp [setCli], rfl⟩⟩
      · refine Or.inl ⟨h2 _, Or.inl ⟨h2 _, i, other, rfl, ?_, h1⟩⟩
        simp [setCli, CliPhase.other?]
    · intro k n o ht ho' hlk
      refine auth_later hl hi k n o ht ?_ hlk
      simp only [setCli] at ho'
      split at ho'
      · rename_i hki; subst hki; rw [hc]; exact ho'
      · exact ho'
  | opened j p e hj hk =>
    refine ⟨fun t ht => hl.safe (hi.wire t ht), fun k m o ht ho' hlk => auth_later hl hi k m o ht ho' hlk, ?_⟩
    intro j' p' hp
    rcases List.mem_append.1 hp with hp | hp
    · exact opened_later hl (hi.opened j' p' hp)
    · simp at hp
      obtain ⟨rfl, rfl⟩ := hp
      refine opened_later hl ?_
      rcases hi.knows hk with ⟨hk1, hk2⟩ | ⟨hu, hlg⟩
      · rcases hk2 with hk2 | hk2
        · exact Or.inl hk2.2
        · exact absurd hk1 (not_safe_of_unsafe (k := serverKey true (atom (.skx j')) e.kx) hk2.1)
      · rcases serverKey_cases (target := target) (pw := pw) true j' e.kx with ⟨i, h1, h2⟩ | ⟨_, h2⟩
        · rw [h2] at hlg
          obtain ⟨h3, h4⟩ := hlg
          injection h4 with _ h4
          injection h4 with h4
          injection h4 with h4
          exact Or.inr ⟨i, e, hj, h1, h4.symm, h3⟩
        · exact absurd (h2 s) (not_safe_of_unsafe hu)
  | leak n =>
    exact ⟨wire_append hl hi rfl (Or.inl rfl), fun k m o ht ho' hlk => auth_later hl hi k m o ht ho' hlk,
      fun j p hp => opened_later hl (hi.opened j p hp)⟩

theorem sinv_steps {s s' : St} (hi : SInv target pw s) (h : Steps target pw s s') : SInv target pw s' := by
  induction h with
  | refl => exact hi
  | tail _ h ih => exact sinv_step ih h

theorem sinv_reachable {s : St} (h : Reachable target pw s) : SInv target pw s := sinv_steps sinv_init h

end Lair.Sym
