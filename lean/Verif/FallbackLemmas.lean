import Verif.Fallback

/- Invariants of the fallback. -/
namespace Lair

theorem AMap.insert_erase {α β : Type} [DecidableEq α] (m : AMap α β) (k : α) (v : β) : (m.erase k).insert k v = m.insert k v := by
  simp [AMap.insert, AMap.erase, List.filter_filter]

/-- Every request is waiting in exactly one place, or was answered. Proof device: nothing in the code corresponds. -/
structure FInv (s : FbSt) : Prop where
  qn : s.queue.Nodup
  q : ∀ k ∈ s.queue, ∃ r, s.reqs[k]? = some r ∧ r.answers = [] ∧ s.pending.get r.msgId ≠ some k
  p : ∀ id k, s.pending.get id = some k → ∃ r, s.reqs[k]? = some r ∧ r.msgId = id ∧ r.answers = []
  pn : AMap.Nodup s.pending
  un : ∀ (k : Nat) (r : FbReq), s.reqs[k]? = some r → r.answers = [] → k ∈ s.queue ∨ s.pending.get r.msgId = some k
  one : ∀ (k : Nat) (r : FbReq), s.reqs[k]? = some r → r.answers.length ≤ 1

theorem FInv.init : FInv .init := by
  constructor <;> simp [FbSt.init, AMap.get, AMap.Nodup]

theorem got_cases {a : Res (B 64)} {rs : List FbReq} {P : Nat → Prop} [DecidablePred P] {rs' : List FbReq}
    (h : ∀ j, rs'[j]? = rs[j]?.map (fun q => if P j then q.got a else q)) {j : Nat} {r' : FbReq} (hj : rs'[j]? = some r') :
    ∃ r, rs[j]? = some r ∧ (P j ∧ r' = r.got a ∨ ¬ P j ∧ r' = r) := by
  rw [h] at hj
  cases hr : rs[j]? with
  | none => rw [hr] at hj; simp at hj
  | some r =>
    rw [hr] at hj
    simp only [Option.map_some, Option.some.injEq] at hj
    by_cases hp : P j
    · rw [if_pos hp] at hj; exact ⟨r, rfl, Or.inl ⟨hp, hj.symm⟩⟩
    · rw [if_neg hp] at hj; exact ⟨r, rfl, Or.inr ⟨hp, hj.symm⟩⟩

theorem got_ne (r : FbReq) (a : Res (B 64)) : (r.got a).answers ≠ [] := by simp [FbReq.got]

/-- Answering a pending request. -/
theorem FInv.ansPending {s : FbSt} (hi : FInv s) {id : String} {k : Nat} (hg : s.pending.get id = some k) (a : Res (B 64)) :
    FInv ({ s with pending := s.pending.erase id }.answer k a) := by
  obtain ⟨rk, hk1, hk2, hk3⟩ := hi.p _ _ hg
  have hget := fbAnswer_get a s.reqs k
  have hkq : k ∉ s.queue := by
    intro hm
    obtain ⟨r, h1, -, h3⟩ := hi.q k hm
    rw [hk1] at h1; cases h1; rw [hk2] at h3; exact h3 hg
  refine ⟨hi.qn, ?_, ?_, AMap.nodup_erase hi.pn _, ?_, ?_⟩
  · intro j hj
    obtain ⟨r, h1, h2, h3⟩ := hi.q j hj
    have hne : ¬ k = j := by rintro rfl; exact hkq hj
    refine ⟨r, ?_, h2, ?_⟩
    · show (fbAnswer a s.reqs k)[j]? = _
      rw [hget, h1]; simp [hne]
    · show (s.pending.erase id).get r.msgId ≠ _
      by_cases he : r.msgId = id
      · rw [he, AMap.get_erase_self]; simp
      · rw [AMap.get_erase_ne _ he]; exact h3
  · intro id' j hj
    change (s.pending.erase id).get id' = _ at hj
    have he : id' ≠ id := by rintro rfl; rw [AMap.get_erase_self] at hj; cases hj
    rw [AMap.get_erase_ne _ he] at hj
    obtain ⟨r, h1, h2, h3⟩ := hi.p _ _ hj
    have hne : ¬ k = j := by rintro rfl; rw [hk1] at h1; cases h1; exact he (h2.symm.trans hk2)
    refine ⟨r, ?_, h2, h3⟩
    show (fbAnswer a s.reqs k)[j]? = _
    rw [hget, h1]; simp [hne]
  · intro j r' hj hr'
    obtain ⟨r, h1, ⟨-, rfl⟩ | ⟨hne, rfl⟩⟩ := got_cases hget hj
    · exact absurd hr' (got_ne r a)
    · rcases hi.un _ _ h1 hr' with h | h
      · exact Or.inl h
      · right
        show (s.pending.erase id).get r'.msgId = _
        have he : r'.msgId ≠ id := by intro he; rw [he, hg] at h; exact hne (Option.some.inj h)
        rw [AMap.get_erase_ne _ he]; exact h
  · intro j r' hj
    obtain ⟨r, h1, ⟨rfl, rfl⟩ | ⟨-, rfl⟩⟩ := got_cases hget hj
    · rw [hk1] at h1; cases h1; simp [FbReq.got, hk3]
    · exact hi.one _ _ h1

/-- Answering the head of the queue. -/
theorem FInv.ansHead {s : FbSt} (hi : FInv s) {k : Nat} {rest : List Nat} (hq : s.queue = k :: rest) (a : Res (B 64)) :
    FInv ({ s with queue := rest }.answer k a) := by
  have hget := fbAnswer_get a s.reqs k
  have hqn := hi.qn
  rw [hq] at hqn
  obtain ⟨hk, hn⟩ := List.nodup_cons.mp hqn
  obtain ⟨rk, hk1, hk2, hk3⟩ := hi.q k (by rw [hq]; simp)
  refine ⟨hn, ?_, ?_, hi.pn, ?_, ?_⟩
  · intro j hj
    obtain ⟨r, h1, h2, h3⟩ := hi.q j (by rw [hq]; exact List.mem_cons_of_mem _ hj)
    have hne : ¬ k = j := by rintro rfl; exact hk hj
    refine ⟨r, ?_, h2, h3⟩
    show (fbAnswer a s.reqs k)[j]? = _
    rw [hget, h1]; simp [hne]
  · intro id j hj
    obtain ⟨r, h1, h2, h3⟩ := hi.p _ _ hj
    have hne : ¬ k = j := by rintro rfl; rw [hk1] at h1; cases h1; rw [h2] at hk3; exact hk3 hj
    refine ⟨r, ?_, h2, h3⟩
    show (fbAnswer a s.reqs k)[j]? = _
    rw [hget, h1]; simp [hne]
  · intro j r' hj hr'
    obtain ⟨r, h1, ⟨-, rfl⟩ | ⟨hne, rfl⟩⟩ := got_cases hget hj
    · exact absurd hr' (got_ne r a)
    · rcases hi.un _ _ h1 hr' with h | h
      · left; rw [hq] at h; rcases List.mem_cons.mp h with h | h
        · exact absurd h.symm hne
        · exact h
      · exact Or.inr h
  · intro j r' hj
    obtain ⟨r, h1, ⟨rfl, rfl⟩ | ⟨-, rfl⟩⟩ := got_cases hget hj
    · rw [hk1] at h1; cases h1; simp [FbReq.got, hk2]
    · exact hi.one _ _ h1

/-- Moving the head of the queue to the pending table. -/
theorem FInv.toPending {s : FbSt} (hi : FInv s) {k : Nat} {rest : List Nat} {r₀ : FbReq} (hq : s.queue = k :: rest)
    (hr : s.reqs[k]? = some r₀) (hg : s.pending.get r₀.msgId = none) (w : Option Nat) :
    FInv { s with queue := rest, pending := s.pending.insert r₀.msgId k, writing := w } := by
  have hqn := hi.qn
  rw [hq] at hqn
  obtain ⟨hk, hn⟩ := List.nodup_cons.mp hqn
  obtain ⟨rk, hk1, hk2, hk3⟩ := hi.q k (by rw [hq]; simp)
  rw [hr] at hk1; cases hk1
  refine ⟨hn, ?_, ?_, AMap.nodup_insert hi.pn _ _, ?_, hi.one⟩
  · intro j hj
    obtain ⟨r, h1, h2, h3⟩ := hi.q j (by rw [hq]; exact List.mem_cons_of_mem _ hj)
    refine ⟨r, h1, h2, ?_⟩
    show (s.pending.insert r₀.msgId k).get r.msgId ≠ _
    by_cases he : r.msgId = r₀.msgId
    · rw [he, AMap.get_insert_self]; intro h; exact hk (by rw [Option.some.inj h]; exact hj)
    · rw [AMap.get_insert_ne _ _ he]; exact h3
  · intro id j hj
    change (s.pending.insert r₀.msgId k).get id = _ at hj
    by_cases he : id = r₀.msgId
    · subst he; rw [AMap.get_insert_self] at hj; cases hj; exact ⟨r₀, hr, rfl, hk2⟩
    · rw [AMap.get_insert_ne _ _ he] at hj; exact hi.p _ _ hj
  · intro j r hj hr'
    rcases hi.un _ _ hj hr' with h | h
    · rw [hq] at h
      rcases List.mem_cons.mp h with h | h
      · subst h; right
        rw [hr] at hj; cases hj
        exact AMap.get_insert_self _ _ _
      · exact Or.inl h
    · right
      show (s.pending.insert r₀.msgId k).get r.msgId = _
      have he : r.msgId ≠ r₀.msgId := by intro he; rw [he, hg] at h; cases h
      rw [AMap.get_insert_ne _ _ he]; exact h

theorem FInv.wExit {s : FbSt} (hi : FInv s) : FInv s.wExit := by
  have hget := fbAnswer_all (.error "no fallback cmd task") s.queue hi.qn s.reqs
  refine ⟨by simp [FbSt.wExit], by simp [FbSt.wExit], ?_, hi.pn, ?_, ?_⟩
  · intro id j hj
    obtain ⟨r, h1, h2, h3⟩ := hi.p id j hj
    have hne : j ∉ s.queue := by
      intro hm
      obtain ⟨r', g1, -, g3⟩ := hi.q j hm
      rw [h1] at g1; cases g1; rw [h2] at g3; exact g3 hj
    refine ⟨r, ?_, h2, h3⟩
    show (s.queue.foldl _ s.reqs)[j]? = _
    rw [hget, h1]; simp [hne]
  · intro j r' hj hr'
    obtain ⟨r, h1, ⟨-, rfl⟩ | ⟨hne, rfl⟩⟩ := got_cases hget hj
    · exact absurd hr' (got_ne r _)
    · rcases hi.un _ _ h1 hr' with h | h
      · exact absurd h hne
      · exact Or.inr h
  · intro j r' hj
    obtain ⟨r, h1, ⟨hm, rfl⟩ | ⟨-, rfl⟩⟩ := got_cases hget hj
    · obtain ⟨r2, g1, g2, -⟩ := hi.q j hm
      rw [h1] at g1; cases g1; simp [FbReq.got, g2]
    · exact hi.one _ _ h1

theorem FInv.values_nodup {s : FbSt} (hi : FInv s) : s.pending.values.Nodup := by
  have : ∀ m : AMap String Nat, AMap.Nodup m → (∀ p ∈ m, ∃ r, s.reqs[p.2]? = some r ∧ r.msgId = p.1) → (m.map Prod.snd).Nodup := by
    intro m
    induction m with
    | nil => intro _ _; simp
    | cons x m ih =>
      intro hn hp
      obtain ⟨id, k⟩ := x
      unfold AMap.Nodup at hn
      rw [List.map_cons, List.nodup_cons] at hn
      rw [List.map_cons, List.nodup_cons]
      refine ⟨?_, ih hn.2 (fun p h => hp p (List.mem_cons_of_mem _ h))⟩
      intro hm
      obtain ⟨⟨id', k'⟩, h1, h2⟩ := List.mem_map.mp hm
      simp only at h2; subst h2
      obtain ⟨r, a1, a2⟩ := hp (id, k') (by simp)
      obtain ⟨r', b1, b2⟩ := hp (id', k') (List.mem_cons_of_mem _ h1)
      simp only at a1 b1 a2 b2
      rw [a1] at b1; cases b1
      apply hn.1
      rw [← a2, b2]
      exact List.mem_map.mpr ⟨(id', k'), h1, rfl⟩
  refine this s.pending hi.pn ?_
  rintro ⟨id, k⟩ hm
  obtain ⟨r, h1, h2, -⟩ := hi.p _ _ (AMap.get_of_mem hi.pn hm)
  exact ⟨r, h1, h2⟩

theorem FInv.mem_values {s : FbSt} (hi : FInv s) {j : Nat} : j ∈ s.pending.values ↔ ∃ r, s.reqs[j]? = some r ∧ s.pending.get r.msgId = some j := by
  constructor
  · intro h
    obtain ⟨⟨id, k⟩, h1, h2⟩ := List.mem_map.mp h
    simp only at h2; subst h2
    have hg := AMap.get_of_mem hi.pn h1
    obtain ⟨r, a1, a2, -⟩ := hi.p _ _ hg
    exact ⟨r, a1, by rw [a2]; exact hg⟩
  · rintro ⟨r, -, h⟩
    exact List.mem_map.mpr ⟨_, AMap.mem_of_get h, rfl⟩

theorem FInv.rExit {s : FbSt} (hi : FInv s) : FInv s.rExit := by
  have hget := fbAnswer_all (.error "fallback executable closed") s.pending.values hi.values_nodup s.reqs
  refine ⟨hi.qn, ?_, by simp [FbSt.rExit, AMap.get], by simp [FbSt.rExit, AMap.Nodup], ?_, ?_⟩
  · intro j hj
    obtain ⟨r, h1, h2, h3⟩ := hi.q j hj
    have hne : j ∉ s.pending.values := by
      intro hm
      obtain ⟨r', g1, g2⟩ := hi.mem_values.mp hm
      rw [h1] at g1; cases g1; exact h3 g2
    refine ⟨r, ?_, h2, by simp [FbSt.rExit, AMap.get]⟩
    show (s.pending.values.foldl _ s.reqs)[j]? = _
    rw [hget, h1]; simp [hne]
  · intro j r' hj hr'
    obtain ⟨r, h1, ⟨-, rfl⟩ | ⟨hne, rfl⟩⟩ := got_cases hget hj
    · exact absurd hr' (got_ne r _)
    · rcases hi.un _ _ h1 hr' with h | h
      · exact Or.inl h
      · exact absurd (hi.mem_values.mpr ⟨_, h1, h⟩) hne
  · intro j r' hj
    obtain ⟨r, h1, ⟨hm, rfl⟩ | ⟨-, rfl⟩⟩ := got_cases hget hj
    · obtain ⟨r2, g1, g2⟩ := hi.mem_values.mp hm
      obtain ⟨r3, g3, -, g4⟩ := hi.p _ _ g2
      rw [h1] at g3; cases g3; simp [FbReq.got, g4]
    · exact hi.one _ _ h1

theorem FInv.rBreak {s : FbSt} (hi : FInv s) : FInv s.rBreak := ⟨hi.qn, hi.q, hi.p, hi.pn, hi.un, hi.one⟩

theorem FInv.step {s : FbSt} (hi : FInv s) (e : FbEv) : FInv (s.step e) := by
  cases e with
  | submit id pk data =>
    have key : ∀ (x : FbReq) (qu : List Nat), x.msgId = id → (qu = s.queue ++ [s.reqs.length] ∧ x.answers = [] ∨
        qu = s.queue ∧ x.answers.length = 1) → FInv { s with reqs := s.reqs ++ [x], queue := qu } := by
      intro x qu hx hqu
      have hnew : ∀ (j : Nat) (r : FbReq), s.reqs[j]? = some r → (s.reqs ++ [x])[j]? = some r := by
        intro j r h
        rw [List.getElem?_append_left (List.getElem?_eq_some_iff.mp h).1]; exact h
      have hlt : ∀ k ∈ s.queue, k < s.reqs.length := by
        intro k hk
        obtain ⟨r, h1, -⟩ := hi.q k hk
        exact (List.getElem?_eq_some_iff.mp h1).1
      have hold : ∀ (j : Nat) (r : FbReq), (s.reqs ++ [x])[j]? = some r → s.reqs[j]? = some r ∨ (j = s.reqs.length ∧ r = x) := by
        intro j r h
        rw [List.getElem?_append] at h
        split at h
        · exact Or.inl h
        · right
          cases hj : j - s.reqs.length with
          | zero => rw [hj] at h; simp at h; exact ⟨by omega, h.symm⟩
          | succ n => rw [hj] at h; simp at h
      refine ⟨?_, ?_, ?_, hi.pn, ?_, ?_⟩
      · rcases hqu with ⟨rfl, -⟩ | ⟨rfl, -⟩
        · refine List.nodup_append.mpr ⟨hi.qn, by simp, ?_⟩
          intro a ha b hb hab
          simp at hb; subst hb; subst hab; exact absurd (hlt _ ha) (by omega)
        · exact hi.qn
      · intro k hk
        have hcase : k ∈ s.queue ∨ (k = s.reqs.length ∧ x.answers = []) := by
          rcases hqu with ⟨rfl, h⟩ | ⟨rfl, -⟩
          · rcases List.mem_append.mp hk with h' | h'
            · exact Or.inl h'
            · simp at h'; exact Or.inr ⟨h', h⟩
          · exact Or.inl hk
        rcases hcase with h | ⟨rfl, h⟩
        · obtain ⟨r, h1, h2, h3⟩ := hi.q k h
          exact ⟨r, hnew _ _ h1, h2, h3⟩
        · refine ⟨x, by simp, h, ?_⟩
          intro hg
          obtain ⟨r, h1, -⟩ := hi.p _ _ hg
          have := (List.getElem?_eq_some_iff.mp h1).1
          omega
      · intro id' k hk
        obtain ⟨r, h1, h2, h3⟩ := hi.p _ _ hk
        exact ⟨r, hnew _ _ h1, h2, h3⟩
      · intro k r hk hr
        rcases hold k r hk with h | ⟨rfl, rfl⟩
        · rcases hi.un _ _ h hr with h' | h'
          · left
            rcases hqu with ⟨rfl, -⟩ | ⟨rfl, -⟩
            · exact List.mem_append_left _ h'
            · exact h'
          · exact Or.inr h'
        · rcases hqu with ⟨rfl, -⟩ | ⟨-, h⟩
          · left; simp
          · rw [hr] at h; simp at h
      · intro k r hk
        rcases hold k r hk with h | ⟨rfl, rfl⟩
        · exact hi.one _ _ h
        · rcases hqu with ⟨-, h⟩ | ⟨-, h⟩
          · rw [h]; simp
          · omega
    simp only [FbSt.step]
    split
    · exact key ⟨id, pk, data, []⟩ _ rfl (Or.inl ⟨rfl, rfl⟩)
    · exact key ⟨id, pk, data, [.error "no fallback cmd task"]⟩ _ rfl (Or.inr ⟨rfl, rfl⟩)
  | take =>
    simp only [FbSt.step]
    split
    · rename_i k rest hw hwr hq
      split
      · exact hi
      · rename_i q hk
        split
        · split
          · rename_i hg
            exact hi.toPending hq hk hg _
          · rename_i k₀ hg
            have h1 := hi.ansPending hg (.error "no fallback cmd task")
            have hne : ¬ k₀ = k := by
              rintro rfl
              obtain ⟨r, g1, -, g3⟩ := hi.q k₀ (by rw [hq]; simp)
              rw [hk] at g1; cases g1; exact g3 hg
            have hk' : (fbAnswer (.error "no fallback cmd task") s.reqs k₀)[k]? = some q := by
              rw [fbAnswer_get, hk]; simp [hne]
            have h2 := h1.toPending (k := k) (rest := rest) (r₀ := q) hq hk' (AMap.get_erase_self _ _) (some k)
            have e : (AMap.insert (AMap.erase s.pending q.msgId) q.msgId k) = s.pending.insert q.msgId k := AMap.insert_erase _ _ _
            simp only [FbSt.answer] at h2 ⊢
            rw [e] at h2
            exact h2
        · exact (hi.ansHead hq _).wExit
    · exact hi
  | written =>
    simp only [FbSt.step]
    split
    · exact hi
    · split
      · exact hi
      · exact ⟨hi.qn, hi.q, hi.p, hi.pn, hi.un, hi.one⟩
  | writeErr =>
    simp only [FbSt.step]
    split
    · exact hi
    · split
      · exact hi
      · split
        · exact hi.wExit
        · rename_i hg
          exact (hi.ansPending hg _).wExit
  | idle =>
    simp only [FbSt.step]
    split
    · exact hi.wExit
    · exact hi
  | line l =>
    simp only [FbSt.step]
    split
    · split
      · exact hi.rBreak
      · split
        · exact hi
        · rename_i hg
          split
          · exact hi.ansPending hg _
          · exact (hi.ansPending hg _).rBreak
          · split
            · exact (hi.ansPending hg _).rBreak
            · exact hi.ansPending hg _
          · exact hi.ansPending hg _
    · exact hi
  | eof =>
    simp only [FbSt.step]
    split
    · exact hi.rBreak
    · exact hi
  | drain =>
    simp only [FbSt.step]
    split
    · exact hi.rExit
    · exact hi

theorem FInv.run (evs : List FbEv) {s : FbSt} (hi : FInv s) : FInv (s.run evs) := by
  induction evs generalizing s with
  | nil => exact hi
  | cons e es ih => exact ih (hi.step e)

/-- The flags. Proof device: nothing in the code corresponds. -/
structure FFlags (s : FbSt) : Prop where
  w : s.wOpen = false → s.queue = [] ∧ s.writing = none
  r : s.rOpen = true → s.running = true
  d : s.running = false → s.pending = []

theorem FFlags.init : FFlags .init := by constructor <;> simp [FbSt.init]

theorem FFlags.step {s : FbSt} (hf : FFlags s) (e : FbEv) : FFlags (s.step e) := by
  cases e with
  | submit id pk data =>
    simp only [FbSt.step]
    split
    · rename_i h; exact ⟨fun h' => (by simp at h'; rw [h] at h'; cases h'), hf.r, hf.d⟩
    · exact ⟨hf.w, hf.r, hf.d⟩
  | take =>
    simp only [FbSt.step]
    split
    · rename_i k rest hw hwr hq
      split
      · exact hf
      · split
        · rename_i hrun
          split
          · exact ⟨fun h => by (change s.wOpen = false at h; rw [hw] at h; cases h), hf.r, fun h => by (change s.running = false at h; rw [hrun] at h; cases h)⟩
          · exact ⟨fun h => by (change s.wOpen = false at h; rw [hw] at h; cases h), hf.r, fun h => by (change s.running = false at h; rw [hrun] at h; cases h)⟩
        · exact ⟨fun _ => ⟨rfl, rfl⟩, hf.r, hf.d⟩
    · exact hf
  | written =>
    simp only [FbSt.step]
    split
    · exact hf
    · split
      · exact hf
      · exact ⟨fun h => ⟨(hf.w h).1, rfl⟩, hf.r, hf.d⟩
  | writeErr =>
    simp only [FbSt.step]
    split
    · exact hf
    · split
      · exact hf
      · split
        · exact ⟨fun _ => ⟨rfl, rfl⟩, hf.r, hf.d⟩
        · refine ⟨fun _ => ⟨rfl, rfl⟩, hf.r, fun h => ?_⟩
          have h' := hf.d h
          simp [FbSt.wExit, FbSt.answer, h', AMap.erase]
  | idle =>
    simp only [FbSt.step]
    split
    · exact ⟨fun _ => ⟨rfl, rfl⟩, hf.r, hf.d⟩
    · exact hf
  | line l =>
    simp only [FbSt.step]
    split
    · rename_i hro
      have keep : ∀ s' : FbSt, s'.wOpen = s.wOpen → s'.queue = s.queue → s'.writing = s.writing → s'.rOpen = s.rOpen →
          s'.running = s.running → FFlags s' := by
        intro s' a b c d e
        exact ⟨fun h => by rw [b, c]; exact hf.w (by rw [← a]; exact h), by rw [d, e]; exact hf.r, fun h => by rw [e, hf.r hro] at h; cases h⟩
      have close : ∀ s' : FbSt, s'.wOpen = s.wOpen → s'.queue = s.queue → s'.writing = s.writing → s'.running = s.running → FFlags s'.rBreak := by
        intro s' a b c e
        exact ⟨fun h => by (change s'.wOpen = false at h; show s'.queue = _ ∧ s'.writing = _; rw [b, c]; exact hf.w (by rw [← a]; exact h)),
          fun h => by (cases h), fun h => by (change s'.running = false at h; rw [e, hf.r hro] at h; cases h)⟩
      split
      · exact close s rfl rfl rfl rfl
      · split
        · exact hf
        · split
          · exact keep _ rfl rfl rfl rfl rfl
          · exact close _ rfl rfl rfl rfl
          · split
            · exact close _ rfl rfl rfl rfl
            · exact keep _ rfl rfl rfl rfl rfl
          · exact keep _ rfl rfl rfl rfl rfl
    · exact hf
  | eof =>
    simp only [FbSt.step]
    split
    · exact ⟨hf.w, fun h => by (cases h), hf.d⟩
    · exact hf
  | drain =>
    simp only [FbSt.step]
    split
    · exact ⟨hf.w, fun h => by (cases h), fun _ => rfl⟩
    · exact hf

theorem FFlags.run (evs : List FbEv) {s : FbSt} (hf : FFlags s) : FFlags (s.run evs) := by
  induction evs generalizing s with
  | nil => exact hf
  | cons e es ih => exact ih (hf.step e)

/-- Answers that do not come from a line of the process. Specification: nothing in the code corresponds. -/
def fbInternal : List String := ["no fallback cmd task", "signature fallback process closed", "signature_fallback write error",
  "fallback executable closed", "signature_fallback read error", "signature_fallback read error: invalid signature size"]

/-- The line is a reply to `id` saying `a`. Specification: nothing in the code corresponds. -/
def FbLine.Says (l : FbLine) (id : String) (a : Res (B 64)) : Prop :=
  match a with
  | .ok sig => l = .reply id (some (some sig.val)) none
  | .error e => ∃ sig, l = .reply id sig (some e)

/-- Where an answer given in this step comes from. Proof device: nothing in the code corresponds. -/
def FbFrom (e : FbEv) (id : String) (a : Res (B 64)) : Prop :=
  (∃ x ∈ fbInternal, a = .error x) ∨ ∃ l, e = .line l ∧ l.Says id a

/-- Same request, perhaps with one more answer. Proof device: nothing in the code corresponds. -/
def FbNext (e : FbEv) (r r' : FbReq) : Prop :=
  r'.msgId = r.msgId ∧ r'.pk = r.pk ∧ r'.data = r.data ∧
    (r'.answers = r.answers ∨ ∃ a, r'.answers = r.answers ++ [a] ∧ FbFrom e r.msgId a)

theorem FbNext.refl (e : FbEv) (r : FbReq) : FbNext e r r := ⟨rfl, rfl, rfl, Or.inl rfl⟩

theorem FbNext.got {e : FbEv} {r : FbReq} {a : Res (B 64)} (h : FbFrom e r.msgId a) : FbNext e r (r.got a) :=
  ⟨rfl, rfl, rfl, Or.inr ⟨a, rfl, h⟩⟩

theorem internal_from (e : FbEv) (id x : String) (h : x ∈ fbInternal) : FbFrom e id (.error x) := Or.inl ⟨x, h, rfl⟩

theorem step_next {s : FbSt} (hi : FInv s) (e : FbEv) {k : Nat} {r : FbReq} (hk : s.reqs[k]? = some r) :
    ∃ r', (s.step e).reqs[k]? = some r' ∧ FbNext e r r' := by
  -- answering one request, then perhaps a loop ending: nobody is answered twice
  have one : ∀ (j : Nat) (x : String) (rs : List FbReq), x ∈ fbInternal → rs[k]? = some r →
      ∃ r', (fbAnswer (.error x) rs j)[k]? = some r' ∧ FbNext e r r' := by
    intro j x rs hx hrs
    rw [fbAnswer_get, hrs]
    refine ⟨_, rfl, ?_⟩
    dsimp only
    split
    · exact .got (internal_from _ _ _ hx)
    · exact .refl _ _
  -- the loop ends after request `j` was answered: `j` is not among the others
  have after : ∀ (s' : FbSt), FInv s' → ∀ r1, s'.reqs[k]? = some r1 → FbNext e r r1 → (r1 = r ∨ r1.answers ≠ []) →
      (∃ r', s'.wExit.reqs[k]? = some r' ∧ FbNext e r r') ∧ (∃ r', s'.rExit.reqs[k]? = some r' ∧ FbNext e r r') := by
    intro s' hi' r1 h1 hn hor
    constructor
    · have hget := fbAnswer_all (.error "no fallback cmd task") s'.queue hi'.qn s'.reqs k
      by_cases hm : k ∈ s'.queue
      · obtain ⟨r2, g1, g2, -⟩ := hi'.q k hm
        rw [h1] at g1; cases g1
        rcases hor with rfl | h
        · refine ⟨r1.got (.error "no fallback cmd task"), ?_, .got (internal_from _ _ _ (by simp [fbInternal]))⟩
          show (s'.queue.foldl _ s'.reqs)[k]? = _
          rw [hget, h1]; simp [hm]
        · exact absurd g2 h
      · refine ⟨r1, ?_, hn⟩
        show (s'.queue.foldl _ s'.reqs)[k]? = _
        rw [hget, h1]; simp [hm]
    · have hget := fbAnswer_all (.error "fallback executable closed") s'.pending.values hi'.values_nodup s'.reqs k
      by_cases hm : k ∈ s'.pending.values
      · obtain ⟨r2, g1, g2⟩ := hi'.mem_values.mp hm
        rw [h1] at g1; cases g1
        obtain ⟨r3, g3, -, g4⟩ := hi'.p _ _ g2
        rw [h1] at g3; cases g3
        rcases hor with rfl | h
        · refine ⟨r1.got (.error "fallback executable closed"), ?_, .got (internal_from _ _ _ (by simp [fbInternal]))⟩
          show (s'.pending.values.foldl _ s'.reqs)[k]? = _
          rw [hget, h1]; simp [hm]
        · exact absurd g4 h
      · refine ⟨r1, ?_, hn⟩
        show (s'.pending.values.foldl _ s'.reqs)[k]? = _
        rw [hget, h1]; simp [hm]
  have oneOr : ∀ (j : Nat) (a : Res (B 64)), FbFrom e r.msgId a ∨ j ≠ k →
      ∃ r1, (fbAnswer a s.reqs j)[k]? = some r1 ∧ FbNext e r r1 ∧ (r1 = r ∨ r1.answers ≠ []) := by
    intro j a ha
    rw [fbAnswer_get, hk]
    refine ⟨_, rfl, ?_⟩
    dsimp only
    split
    · rename_i hjk
      rcases ha with ha | ha
      · exact ⟨.got ha, Or.inr (got_ne _ _)⟩
      · exact absurd hjk ha
    · exact ⟨.refl _ _, Or.inl rfl⟩
  cases e with
  | submit id pk data =>
    simp only [FbSt.step]
    split <;> exact ⟨r, by rw [List.getElem?_append_left (List.getElem?_eq_some_iff.mp hk).1]; exact hk, .refl _ _⟩
  | take =>
    simp only [FbSt.step]
    split
    · rename_i j rest hw hwr hq
      split
      · exact ⟨r, hk, .refl _ _⟩
      · split
        · split
          · exact ⟨r, hk, .refl _ _⟩
          · exact one _ _ _ (by simp [fbInternal]) hk
        · obtain ⟨r1, h1, h2, h3⟩ := oneOr j (.error "signature fallback process closed") (Or.inl (internal_from _ _ _ (by simp [fbInternal])))
          exact (after _ (hi.ansHead hq _) r1 h1 h2 h3).1
    · exact ⟨r, hk, .refl _ _⟩
  | written =>
    simp only [FbSt.step]
    split
    · exact ⟨r, hk, .refl _ _⟩
    · split <;> exact ⟨r, hk, .refl _ _⟩
  | writeErr =>
    simp only [FbSt.step]
    split
    · exact ⟨r, hk, .refl _ _⟩
    · split
      · exact ⟨r, hk, .refl _ _⟩
      · split
        · exact (after s hi r hk (.refl _ _) (Or.inl rfl)).1
        · rename_i j hg
          obtain ⟨r1, h1, h2, h3⟩ := oneOr j (.error "signature_fallback write error") (Or.inl (internal_from _ _ _ (by simp [fbInternal])))
          exact (after _ (hi.ansPending hg _) r1 h1 h2 h3).1
  | idle =>
    simp only [FbSt.step]
    split
    · exact (after s hi r hk (.refl _ _) (Or.inl rfl)).1
    · exact ⟨r, hk, .refl _ _⟩
  | line l =>
    simp only [FbSt.step]
    split
    · split
      · exact ⟨r, hk, .refl _ _⟩
      · rename_i id sig err
        split
        · exact ⟨r, hk, .refl _ _⟩
        · rename_i j hg
          obtain ⟨rj, g1, g2, -⟩ := hi.p _ _ hg
          have own : ∀ a, FbLine.Says (.reply id sig err) id a → FbFrom (.line (.reply id sig err)) r.msgId a ∨ j ≠ k := by
            intro a ha
            by_cases hjk : j = k
            · subst hjk; rw [hk] at g1; cases g1; rw [g2]; exact Or.inl (Or.inr ⟨_, rfl, ha⟩)
            · exact Or.inr hjk
          split
          · rename_i er
            obtain ⟨r1, h1, h2, -⟩ := oneOr j (.error er) (own _ ⟨_, rfl⟩)
            exact ⟨r1, h1, h2⟩
          · obtain ⟨r1, h1, h2, h3⟩ := oneOr j (.error "signature_fallback read error") (Or.inl (internal_from _ _ _ (by simp [fbInternal])))
            exact ⟨r1, h1, h2⟩
          · split
            · obtain ⟨r1, h1, h2, h3⟩ := oneOr j (.error "signature_fallback read error: invalid signature size") (Or.inl (internal_from _ _ _ (by simp [fbInternal])))
              exact ⟨r1, h1, h2⟩
            · rename_i b _ sg hb
              have hsv : sg.val = b := by
                unfold B.ofBytes? at hb
                split at hb
                · cases hb; rfl
                · cases hb
              obtain ⟨r1, h1, h2, -⟩ := oneOr j (.ok sg) (own _ (by simp [FbLine.Says, hsv]))
              exact ⟨r1, h1, h2⟩
          · obtain ⟨r1, h1, h2, -⟩ := oneOr j (.error "no fallback cmd task") (Or.inl (internal_from _ _ _ (by simp [fbInternal])))
            exact ⟨r1, h1, h2⟩
    · exact ⟨r, hk, .refl _ _⟩
  | eof =>
    simp only [FbSt.step]
    split
    · exact ⟨r, hk, .refl _ _⟩
    · exact ⟨r, hk, .refl _ _⟩
  | drain =>
    simp only [FbSt.step]
    split
    · exact (after s hi r hk (.refl _ _) (Or.inl rfl)).2
    · exact ⟨r, hk, .refl _ _⟩

/-- The requests handed over, in order. Specification: nothing in the code corresponds. -/
def submits (evs : List FbEv) : List (String × B 32 × Bytes) := evs.filterMap (fun e => match e with
  | .submit id pk data => some (id, pk, data)
  | _ => none)

theorem submits_append (a b : List FbEv) : submits (a ++ b) = submits a ++ submits b := by simp [submits]

theorem fbStep_len (s : FbSt) (e : FbEv) : (s.step e).reqs.length = s.reqs.length + (submits [e]).length := by
  cases e with
  | submit id pk data => simp only [FbSt.step, submits]; split <;> simp
  | take =>
    simp only [FbSt.step, submits, List.filterMap_cons, List.filterMap_nil, List.length_nil, Nat.add_zero]
    split
    · split
      · rfl
      · split
        · split
          · rfl
          · simp [FbSt.answer, fbAnswer_len]
        · simp [FbSt.wExit, FbSt.answer, fbAnswer_len, fbAnswer_all_len]
    · rfl
  | written => simp only [FbSt.step]; split; rfl; (split <;> rfl)
  | writeErr =>
    simp only [FbSt.step, submits, List.filterMap_cons, List.filterMap_nil, List.length_nil, Nat.add_zero]
    split
    · rfl
    · split
      · rfl
      · split
        · simp [FbSt.wExit, fbAnswer_all_len]
        · simp [FbSt.wExit, FbSt.answer, fbAnswer_len, fbAnswer_all_len]
  | idle =>
    simp only [FbSt.step, submits, List.filterMap_cons, List.filterMap_nil, List.length_nil, Nat.add_zero]
    split
    · simp [FbSt.wExit, fbAnswer_all_len]
    · rfl
  | line l =>
    simp only [FbSt.step, submits, List.filterMap_cons, List.filterMap_nil, List.length_nil, Nat.add_zero]
    split
    · split
      · rfl
      · split
        · rfl
        · split
          · simp [FbSt.answer, fbAnswer_len]
          · simp [FbSt.rBreak, FbSt.answer, fbAnswer_len]
          · split
            · simp [FbSt.rBreak, FbSt.answer, fbAnswer_len]
            · simp [FbSt.answer, fbAnswer_len]
          · simp [FbSt.answer, fbAnswer_len]
    · rfl
  | eof =>
    simp only [FbSt.step, submits, List.filterMap_cons, List.filterMap_nil, List.length_nil, Nat.add_zero]
    split
    · rfl
    · rfl
  | drain =>
    simp only [FbSt.step, submits, List.filterMap_cons, List.filterMap_nil, List.length_nil, Nat.add_zero]
    split
    · simp [FbSt.rExit, fbAnswer_all_len]
    · rfl

/-- What the process is to be told of a request. Proof device: nothing in the code corresponds. -/
def FbReq.triple (r : FbReq) : String × B 32 × Bytes := (r.msgId, r.pk, r.data)

theorem triples_answer (a : Res (B 64)) (rs : List FbReq) (k : Nat) : (fbAnswer a rs k).map FbReq.triple = rs.map FbReq.triple := by
  apply List.ext_getElem?
  intro i
  rw [List.getElem?_map, List.getElem?_map, fbAnswer_get, Option.map_map]
  congr 1
  funext q
  simp only [Function.comp]
  split <;> rfl

theorem triples_all (a : Res (B 64)) (ks : List Nat) (rs : List FbReq) : (ks.foldl (fbAnswer a) rs).map FbReq.triple = rs.map FbReq.triple := by
  induction ks generalizing rs with
  | nil => rfl
  | cons k ks ih => rw [List.foldl_cons, ih, triples_answer]

/-- The process is sent the requests in the order they were handed over; the queue holds the rest.
    Proof device: nothing in the code corresponds. -/
def FStd (s : FbSt) : Prop := ∃ n, n ≤ s.reqs.length ∧ s.stdin = (s.reqs.map FbReq.triple).take n ∧
  (s.wOpen = true → (s.writing = none ∧ s.queue = List.range' n (s.reqs.length - n)) ∨
    (s.writing = some n ∧ n < s.reqs.length ∧ s.queue = List.range' (n + 1) (s.reqs.length - (n + 1))))

theorem FStd.of_eq {s s' : FbSt} (h : FStd s) (h1 : s'.reqs.map FbReq.triple = s.reqs.map FbReq.triple) (h2 : s'.stdin = s.stdin)
    (h3 : s'.wOpen = true → s.wOpen = true ∧ s'.writing = s.writing ∧ s'.queue = s.queue) : FStd s' := by
  obtain ⟨n, hn, hs, hw⟩ := h
  have hl : s'.reqs.length = s.reqs.length := by have := congrArg List.length h1; simpa using this
  refine ⟨n, by omega, by rw [h1, h2, hs], ?_⟩
  intro ho
  obtain ⟨g1, g2, g3⟩ := h3 ho
  rw [g2, g3, hl]
  exact hw g1

theorem FStd.wExit {s s' : FbSt} (h : FStd s) (h1 : s'.reqs.map FbReq.triple = s.reqs.map FbReq.triple) (h2 : s'.stdin = s.stdin) :
    FStd s'.wExit :=
  h.of_eq (by rw [← h1]; exact triples_all _ _ _) h2 (fun h => by simp [FbSt.wExit] at h)

theorem FStd.init : FStd .init := ⟨0, by simp [FbSt.init], by simp [FbSt.init], fun _ => Or.inl (by simp [FbSt.init])⟩

theorem FStd.step {s : FbSt} (hf : FFlags s) (h : FStd s) (e : FbEv) : FStd (s.step e) := by
  cases e with
  | submit id pk data =>
    obtain ⟨n, hn, hs, hw⟩ := h
    have htk : ∀ x : FbReq, ((s.reqs ++ [x]).map FbReq.triple).take n = (s.reqs.map FbReq.triple).take n := by
      intro x
      rw [List.map_append, List.take_append_of_le_length (by simpa using hn)]
    simp only [FbSt.step]
    split
    · rename_i ho
      refine ⟨n, by simp; omega, by simp only [htk]; exact hs, ?_⟩
      intro _
      rcases hw ho with ⟨h1, h2⟩ | ⟨h1, h2, h3⟩
      · refine Or.inl ⟨h1, ?_⟩
        simp only [List.length_append, List.length_cons, List.length_nil]
        rw [h2, show s.reqs.length + (0 + 1) - n = (s.reqs.length - n) + 1 by omega, List.range'_concat]
        simp; omega
      · refine Or.inr ⟨h1, by simp; omega, ?_⟩
        simp only [List.length_append, List.length_cons, List.length_nil]
        rw [h3, show s.reqs.length + (0 + 1) - (n + 1) = (s.reqs.length - (n + 1)) + 1 by omega, List.range'_concat]
        simp; omega
    · rename_i ho
      exact ⟨n, by simp; omega, by simp only [htk]; exact hs, fun h => absurd h ho⟩
  | take =>
    simp only [FbSt.step]
    split
    · rename_i k rest ho hwr hq
      split
      · exact h
      · rename_i q hk
        split
        · rename_i hrun
          obtain ⟨n, hn, hs, hw⟩ := h
          have key : ∀ rs' : List FbReq, rs'.map FbReq.triple = s.reqs.map FbReq.triple → ∀ p,
              FStd { s with reqs := rs', queue := rest, pending := p, writing := some k } := by
            intro rs' hrs p
            have hl : rs'.length = s.reqs.length := by have := congrArg List.length hrs; simpa using this
            refine ⟨n, by simp only; omega, by simp only [hrs]; exact hs, fun _ => Or.inr ?_⟩
            rcases hw ho with ⟨-, h2⟩ | ⟨h1, -⟩
            · rw [hq] at h2
              have hlt : n < s.reqs.length := by
                refine Classical.byContradiction (fun hc => ?_)
                rw [show s.reqs.length - n = 0 by omega] at h2
                cases h2
              rw [show s.reqs.length - n = (s.reqs.length - (n + 1)) + 1 by omega, List.range'_succ] at h2
              simp only [List.cons.injEq] at h2
              obtain ⟨rfl, h2⟩ := h2
              exact ⟨rfl, by simp only; omega, by simp only [hl]; exact h2⟩
            · rw [hwr] at h1; cases h1
          cases s.pending.get q.msgId with
          | none => exact key s.reqs rfl _
          | some k₀ => exact key _ (triples_answer _ _ _) _
        · exact FStd.wExit h (triples_answer _ _ _) rfl
    · exact h
  | written =>
    simp only [FbSt.step]
    split
    · exact h
    · rename_i k hwr
      split
      · exact h
      · rename_i q hk
        obtain ⟨n, hn, hs, hw⟩ := h
        have ho : s.wOpen = true := by
          cases hc : s.wOpen with
          | true => rfl
          | false => have := (hf.w hc).2; rw [hwr] at this; cases this
        rcases hw ho with ⟨h1, -⟩ | ⟨h1, h2, h3⟩
        · rw [hwr] at h1; cases h1
        · rw [hwr] at h1; cases h1
          refine ⟨k + 1, h2, ?_, fun _ => Or.inl ⟨rfl, h3⟩⟩
          simp only [hs]
          rw [List.take_add_one]
          congr 1
          rw [List.getElem?_map, hk]
          rfl
  | writeErr =>
    simp only [FbSt.step]
    split
    · exact h
    · split
      · exact h
      · split
        · exact FStd.wExit h rfl rfl
        · exact FStd.wExit h (triples_answer _ _ _) rfl
  | idle =>
    simp only [FbSt.step]
    split
    · exact FStd.wExit h rfl rfl
    · exact h
  | line l =>
    have rex : ∀ s' : FbSt, FStd s' → FStd s'.rBreak := fun s' h' =>
      h'.of_eq rfl rfl (fun g => ⟨g, rfl, rfl⟩)
    have an : ∀ (id : String) (k : Nat) (a : Res (B 64)), FStd ({ s with pending := s.pending.erase id }.answer k a) := fun id k a =>
      h.of_eq (triples_answer _ _ _) rfl (fun g => ⟨g, rfl, rfl⟩)
    simp only [FbSt.step]
    split
    · split
      · exact rex _ h
      · split
        · exact h
        · split
          · exact an _ _ _
          · exact rex _ (an _ _ _)
          · split
            · exact rex _ (an _ _ _)
            · exact an _ _ _
          · exact an _ _ _
    · exact h
  | eof =>
    simp only [FbSt.step]
    split
    · exact h.of_eq rfl rfl (fun g => ⟨g, rfl, rfl⟩)
    · exact h
  | drain =>
    simp only [FbSt.step]
    split
    · exact h.of_eq (triples_all _ _ _) rfl (fun g => ⟨g, rfl, rfl⟩)
    · exact h

theorem FStd.run (evs : List FbEv) {s : FbSt} (hf : FFlags s) (h : FStd s) : FStd (s.run evs) := by
  induction evs generalizing s with
  | nil => exact h
  | cons e es ih => exact ih (hf.step e) (h.step hf e)

theorem step_triples {s : FbSt} (hi : FInv s) (e : FbEv) :
    (s.step e).reqs.map FbReq.triple = s.reqs.map FbReq.triple ++ submits [e] := by
  apply List.ext_getElem?
  intro i
  by_cases hlt : i < s.reqs.length
  · obtain ⟨r, hr⟩ : ∃ r, s.reqs[i]? = some r := ⟨_, List.getElem?_eq_getElem hlt⟩
    obtain ⟨r', h1, h2, h3, h4, -⟩ := step_next hi e hr
    rw [List.getElem?_append_left (by simpa using hlt), List.getElem?_map, List.getElem?_map, h1, hr]
    simp [FbReq.triple, h2, h3, h4]
  · by_cases hlen : i < (s.step e).reqs.length
    · have hl := fbStep_len s e
      cases e with
      | submit id pk data =>
        have hi' : i = s.reqs.length := by simp [submits] at hl; omega
        subst hi'
        simp only [FbSt.step, submits]
        split <;> simp [FbReq.triple]
      | _ => simp [submits] at hl; omega
    · rw [List.getElem?_eq_none (by simpa using Nat.le_of_not_lt hlen), List.getElem?_eq_none]
      have hl := fbStep_len s e
      simp; omega

theorem run_triples (evs : List FbEv) {s : FbSt} (hi : FInv s) :
    (s.run evs).reqs.map FbReq.triple = s.reqs.map FbReq.triple ++ submits evs := by
  induction evs generalizing s with
  | nil => simp [FbSt.run, submits]
  | cons e es ih =>
    have := ih (hi.step e)
    rw [step_triples hi e] at this
    rw [show s.run (e :: es) = (s.step e).run es from rfl, this, show e :: es = [e] ++ es from rfl, submits_append]
    simp

theorem answered_of_empty {s : FbSt} (hi : FInv s) (hq : s.queue = []) (hp : s.pending = []) {k : Nat} {r : FbReq}
    (hk : s.reqs[k]? = some r) : r.answers.length = 1 := by
  have h1 := hi.one k r hk
  cases ha : r.answers with
  | nil =>
    rcases hi.un k r hk ha with h | h
    · rw [hq] at h; cases h
    · rw [hp] at h; cases h
  | cons a l => rw [ha] at h1; simp at h1 ⊢; exact h1

theorem fb_after_end (evs : List FbEv) (w : FbEv) (hw : w = .written ∨ w = .writeErr) :
    ((FbSt.init.run evs).run [.eof, .drain, w, .take]).queue = [] ∧ ((FbSt.init.run evs).run [.eof, .drain, w, .take]).pending = [] := by
  have hf0 := FFlags.init.run evs
  have hst0 := FStd.init.run evs FFlags.init
  have hf1 := (hf0.step .eof).step .drain
  have hi1 := ((FInv.init.run evs).step .eof).step .drain
  have hf2 := hf1.step w
  have hi2 := hi1.step w
  have hst1 := (hst0.step hf0 .eof).step (hf0.step .eof) .drain
  generalize FbSt.init.run evs = s at hf0 hst0 hf1 hi1 hf2 hi2 hst1
  have hrun1 : ((s.step .eof).step .drain).running = false := by
    have hr : (s.step .eof).rOpen = false := by
      simp only [FbSt.step]; split
      · rfl
      · rename_i h; simpa using h
    generalize s.step .eof = s' at hr
    simp only [FbSt.step, hr]
    cases hc : s'.running with
    | true => rfl
    | false => simpa using hc
  have hp1 := hf1.d hrun1
  show ((((s.step .eof).step .drain).step w).step .take).queue = [] ∧ ((((s.step .eof).step .drain).step w).step .take).pending = []
  generalize (s.step .eof).step .drain = s1 at hf1 hi1 hf2 hi2 hp1 hrun1 hst1
  have e2 : (s1.step w).running = false ∧ (s1.step w).writing = none ∧ (s1.step w).pending = [] := by
    obtain ⟨n, hn, hs, hwr⟩ := hst1
    have hex : ∀ k, s1.writing = some k → ∃ q, s1.reqs[k]? = some q := by
      intro k hk'
      cases ho : s1.wOpen with
      | false => have := (hf1.w ho).2; rw [hk'] at this; cases this
      | true =>
        rcases hwr ho with ⟨h1, -⟩ | ⟨h1, h2, -⟩
        · rw [hk'] at h1; cases h1
        · rw [hk'] at h1; cases h1; exact ⟨_, List.getElem?_eq_getElem h2⟩
    rcases hw with rfl | rfl
    · simp only [FbSt.step]
      split
      · rename_i h; exact ⟨hrun1, h, hp1⟩
      · rename_i k' h
        obtain ⟨q, hq⟩ := hex _ h
        rw [hq]
        exact ⟨hrun1, rfl, hp1⟩
    · simp only [FbSt.step]
      split
      · rename_i h; exact ⟨hrun1, h, hp1⟩
      · rename_i k' h
        obtain ⟨q, hq⟩ := hex _ h
        rw [hq]
        simp only [hp1, AMap.get]
        exact ⟨hrun1, rfl, hp1⟩
  generalize hs2 : s1.step w = s2 at hf2 hi2 e2
  obtain ⟨a2, a3, a4⟩ := e2
  simp only [FbSt.step]
  split
  · rename_i k' rest ho hn hq
    obtain ⟨q, hq', -⟩ := hi2.q k' (by rw [hq]; simp)
    simp [hq', a2, FbSt.wExit, FbSt.answer, a4]
  · rename_i h
    refine ⟨?_, a4⟩
    cases ho : s2.wOpen with
    | false => exact (hf2.w ho).1
    | true =>
      cases hq : s2.queue with
      | nil => rfl
      | cons k' rest => exact absurd hq (h _ _ ho a3)

end Lair
