import Verif.KeystoreLin

/- The sequential history that explains a run. -/
namespace Lair

section
variable {E : Env} {okLim : UInt32 → UInt32 → Bool} {room : Item → Bool} {H : List (B 64)} {Λ : List (UInt32 × UInt32)}

instance : Inhabited Op := ⟨⟨0, .listEntries, ⟨zero 32, zero 24, "", [], [], none⟩, none⟩⟩

/-- Entries added, with the number of the request that added each. Proof device: nothing in the code corresponds. -/
def writers (h : List (Nat × Ev)) : List (Nat × Entry) := h.filterMap (fun p => match p.2 with
  | .wrote e => some (p.1, e)
  | _ => none)

theorem writers_snd (h : List (Nat × Ev)) : (writers h).map Prod.snd = writesOf h := by
  induction h with
  | nil => rfl
  | cons p h ih =>
    obtain ⟨k, ev⟩ := p
    cases ev <;> simp_all [writers, writesOf]

theorem mem_writers {h : List (Nat × Ev)} {k : Nat} {e : Entry} : (k, e) ∈ writers h ↔ (k, Ev.wrote e) ∈ h := by
  simp only [writers, List.mem_filterMap]
  constructor
  · rintro ⟨⟨k', ev⟩, hm, h2⟩
    cases ev <;> simp at h2
    obtain ⟨rfl, rfl⟩ := h2
    exact hm
  · intro hm; exact ⟨_, hm, rfl⟩

theorem writers_append (a b : List (Nat × Ev)) : writers (a ++ b) = writers a ++ writers b := by simp [writers]

theorem fst_mem_writers {h : List (Nat × Ev)} {k : Nat} (hk : k ∈ (writers h).map Prod.fst) : ∃ e, (k, Ev.wrote e) ∈ h := by
  obtain ⟨q, hq, rfl⟩ := List.mem_map.1 hk
  exact ⟨q.2, mem_writers.1 hq⟩

/-- If no request adds more than one entry, no request occurs twice. -/
theorem writers_nodup (h : List (Nat × Ev)) (hs : ∀ k e, Ev.wrote e ∈ histOf h k → (histOf h k).length ≤ 1) :
    ((writers h).map Prod.fst).Nodup := by
  induction h with
  | nil => simp [writers]
  | cons p h ih =>
    obtain ⟨k, ev⟩ := p
    have hcons : ∀ k', histOf ((k, ev) :: h) k' = if k = k' then ev :: histOf h k' else histOf h k' := by
      intro k'
      by_cases hk : k = k' <;> simp [histOf, hk]
    have ih' := ih (by
      intro k' e he
      have := hs k' e
      rw [hcons] at this
      by_cases hk : k = k'
      · simp only [hk, if_true, List.length_cons] at this
        have := this (List.mem_cons_of_mem _ he)
        omega
      · simp only [hk, if_false] at this
        exact this he)
    cases ev with
    | wrote e =>
      show ((k :: (writers h).map Prod.fst)).Nodup
      rw [List.nodup_cons]
      refine ⟨?_, ih'⟩
      intro hm
      obtain ⟨e', hm'⟩ := fst_mem_writers hm
      have h2 := mem_histOf.2 hm'
      have h1 := hs k e' (by rw [hcons]; simp [h2])
      rw [hcons] at h1
      have := List.length_pos_of_mem h2
      simp at h1
      rw [h1] at h2; cases h2
    | _ => exact ih'

/-! ### Correct histories -/

theorem ops_after_append (C : Crypto) (ks : Keystore) (a b : List Op) :
    Keystore.after C okLim room ks (a ++ b) = Keystore.after C okLim room (Keystore.after C okLim room ks a) b := by
  induction a generalizing ks with
  | nil => rfl
  | cons x xs ih => exact ih _

theorem correct_append (C : Crypto) (ks : Keystore) (a b : List Op) :
    Keystore.Correct C okLim room ks (a ++ b) ↔
      Keystore.Correct C okLim room ks a ∧ Keystore.Correct C okLim room (Keystore.after C okLim room ks a) b := by
  induction a generalizing ks with
  | nil => simp [Keystore.Correct, Keystore.after]
  | cons x xs ih => simp only [List.cons_append, Keystore.Correct, Keystore.after, ih, and_assoc]

/-- Calls that change nothing. -/
theorem readers_correct (C : Crypto) (ks : Keystore) (ops : List Op)
    (h : ∀ op ∈ ops, ∃ a, Keystore.call C okLim room op.luck ks op.call = (a, ks) ∧ ∀ o, op.ans = some o → Agrees a o) :
    Keystore.Correct C okLim room ks ops ∧ Keystore.after C okLim room ks ops = ks := by
  induction ops with
  | nil => exact ⟨trivial, rfl⟩
  | cons x xs ih =>
    obtain ⟨a, ha, hb⟩ := h x (by simp)
    obtain ⟨h1, h2⟩ := ih (fun op hop => h op (by simp [hop]))
    simp only [Keystore.Correct, Keystore.after, ha]
    exact ⟨⟨hb, h1⟩, h2⟩

/-- The history: for each length `n` of the table the readers placed there, then the request that made it longer. The number
    with each call is its rank. Specification: nothing in the code corresponds. -/
def blocks (rd : Nat → List Op) (wop : Nat × Entry → Op) : Nat → List (Nat × Entry) → List (Nat × Op)
  | n, [] => (rd n).map (fun op => (2 * n, op))
  | n, p :: w => (rd n).map (fun op => (2 * n, op)) ++ (2 * n + 1, wop p) :: blocks rd wop (n + 1) w

theorem blocks_correct {T : List Entry} (rd : Nat → List Op) (wop : Nat × Entry → Op)
    (hr : ∀ n, ∀ op ∈ rd n, ∀ ks, Stands E ks (T.take n) → Known H Λ ks →
      ∃ a, Keystore.call E.C okLim room op.luck ks op.call = (a, ks) ∧ ∀ o, op.ans = some o → Agrees a o)
    (w : List (Nat × Entry)) (n : Nat) (hT : T.drop n = w.map Prod.snd)
    (hw : ∀ a p b, w = a ++ p :: b → ∃ item, Repr E item p.2 ∧ Known H Λ [item] ∧ ∀ ks, Stands E ks (T.take (n + a.length)) → Known H Λ ks →
      ∃ v, Keystore.call E.C okLim room (wop p).luck ks (wop p).call = (some v, ks ++ [item]) ∧ ∀ o, (wop p).ans = some o → Agrees (some v) o)
    (ks : Keystore) (hs : Stands E ks (T.take n)) (hk : Known H Λ ks) :
    Keystore.Correct E.C okLim room ks ((blocks rd wop n w).map Prod.snd) ∧
    Stands E (Keystore.after E.C okLim room ks ((blocks rd wop n w).map Prod.snd)) T := by
  induction w generalizing n ks with
  | nil =>
    have hle : T.take n = T := by
      rw [List.take_of_length_le]
      simpa using hT
    obtain ⟨h1, h2⟩ := readers_correct (okLim := okLim) (room := room) E.C ks (rd n) (fun op hop => hr n op hop ks hs hk)
    simp only [blocks, List.map_map]
    have : (rd n).map (Prod.snd ∘ fun op => (2 * n, op)) = rd n := by simp [Function.comp_def]
    rw [this, h2]
    exact ⟨h1, by rw [← hle]; exact hs⟩
  | cons p w ih =>
    obtain ⟨h1, h2⟩ := readers_correct (okLim := okLim) (room := room) E.C ks (rd n) (fun op hop => hr n op hop ks hs hk)
    obtain ⟨item, hrep, hkn, hcall⟩ := hw [] p w rfl
    obtain ⟨v, hv, hans⟩ := hcall ks (by simpa using hs) hk
    have hget : T[n]? = some p.2 := by
      have : (T.drop n)[0]? = some p.2 := by rw [hT]; simp
      simpa using this
    have htake : T.take (n + 1) = T.take n ++ [p.2] := by
      rw [List.take_add_one, hget]; rfl
    have hs' : Stands E (ks ++ [item]) (T.take (n + 1)) := by
      rw [htake]; exact hs.append ⟨hrep, trivial⟩
    have hk' : Known H Λ (ks ++ [item]) := by
      intro t s x pw ops mem hm
      rcases List.mem_append.1 hm with hm | hm
      · exact hk t s x pw ops mem hm
      · exact hkn t s x pw ops mem hm
    have hT' : T.drop (n + 1) = w.map Prod.snd := by
      rw [← List.drop_drop, hT]; simp
    obtain ⟨h3, h4⟩ := ih (n + 1) hT' (fun a q b hab => by
      obtain ⟨item, i1, i2, i3⟩ := hw (p :: a) q b (by simp [hab])
      refine ⟨item, i1, i2, ?_⟩
      have : n + (p :: a).length = n + 1 + a.length := by simp; omega
      rwa [this] at i3) (ks ++ [item]) hs' hk'
    have : ((blocks rd wop n (p :: w)).map Prod.snd) = rd n ++ wop p :: (blocks rd wop (n + 1) w).map Prod.snd := by
      simp [blocks, Function.comp_def]
    rw [this, correct_append, ops_after_append, h2]
    simp only [Keystore.Correct, Keystore.after, hv]
    exact ⟨⟨h1, hans, h3⟩, h4⟩

theorem mem_blocks {rd : Nat → List Op} {wop : Nat × Entry → Op} {w : List (Nat × Entry)} {n : Nat} {q : Nat × Op} :
    q ∈ blocks rd wop n w ↔ (∃ m, n ≤ m ∧ m ≤ n + w.length ∧ q.2 ∈ rd m ∧ q.1 = 2 * m) ∨
      (∃ a p b, w = a ++ p :: b ∧ q = (2 * (n + a.length) + 1, wop p)) := by
  induction w generalizing n with
  | nil =>
    simp only [blocks, List.mem_map, List.length_nil, Nat.add_zero]
    constructor
    · rintro ⟨op, h, rfl⟩; exact Or.inl ⟨n, Nat.le_refl _, Nat.le_refl _, h, rfl⟩
    · rintro (⟨m, h1, h2, h3, h4⟩ | ⟨a, p, b, h, _⟩)
      · have : m = n := by omega
        subst this; exact ⟨q.2, h3, by rw [← h4]⟩
      · simp at h
  | cons p w ih =>
    simp only [blocks, List.mem_append, List.mem_map, List.mem_cons, ih]
    constructor
    · rintro (⟨op, h, rfl⟩ | rfl | ⟨m, h1, h2, h3, h4⟩ | ⟨a, p', b, rfl, rfl⟩)
      · exact Or.inl ⟨n, Nat.le_refl _, by omega, h, rfl⟩
      · exact Or.inr ⟨[], p, w, rfl, rfl⟩
      · exact Or.inl ⟨m, by omega, by simp; omega, h3, h4⟩
      · refine Or.inr ⟨p :: a, p', b, rfl, ?_⟩
        simp; omega
    · rintro (⟨m, h1, h2, h3, h4⟩ | ⟨a, p', b, h, h5⟩)
      · by_cases hm : m = n
        · subst hm; exact Or.inl ⟨q.2, h3, by rw [← h4]⟩
        · exact Or.inr (Or.inr (Or.inl ⟨m, by omega, by simp at h2; omega, h3, h4⟩))
      · cases a with
        | nil => simp at h; obtain ⟨rfl, rfl⟩ := h; exact Or.inr (Or.inl (by simpa using h5))
        | cons x a =>
          simp at h; obtain ⟨rfl, rfl⟩ := h
          refine Or.inr (Or.inr (Or.inr ⟨a, p', b, rfl, ?_⟩))
          rw [h5]; simp; omega

/-- Ranks ascend; calls of the same rank are readers in the order of `rd`. -/
theorem blocks_pairwise {rd : Nat → List Op} {wop : Nat × Entry → Op} {R : Op → Op → Prop} (hR : ∀ n, (rd n).Pairwise R)
    (w : List (Nat × Entry)) (n : Nat) :
    (blocks rd wop n w).Pairwise (fun p q => p.1 < q.1 ∨ (p.1 = q.1 ∧ ∃ m, p.2 ∈ rd m ∧ q.2 ∈ rd m ∧ R p.2 q.2)) := by
  have hrd : ∀ n, ((rd n).map (fun op => (2 * n, op))).Pairwise
      (fun p q => p.1 < q.1 ∨ (p.1 = q.1 ∧ ∃ m, p.2 ∈ rd m ∧ q.2 ∈ rd m ∧ R p.2 q.2)) := by
    intro n
    rw [List.pairwise_map]
    exact (List.Pairwise.and_mem.1 (hR n)).imp (fun ⟨h1, h2, h3⟩ => Or.inr ⟨rfl, n, h1, h2, h3⟩)
  induction w generalizing n with
  | nil => exact hrd n
  | cons p w ih =>
    rw [blocks, List.pairwise_append]
    refine ⟨hrd n, ?_, ?_⟩
    · rw [List.pairwise_cons]
      refine ⟨?_, ih (n + 1)⟩
      intro q hq
      left
      rcases mem_blocks.1 hq with ⟨m, h1, _, _, h4⟩ | ⟨a, p', b, _, rfl⟩
      · simp only [h4]; omega
      · simp only; omega
    · intro x hx y hy
      simp only [List.mem_map] at hx
      obtain ⟨op, _, rfl⟩ := hx
      left
      rcases List.mem_cons.1 hy with rfl | hy
      · simp
      · rcases mem_blocks.1 hy with ⟨m, h1, _, _, h4⟩ | ⟨a, p', b, _, rfl⟩
        · simp only [h4]; omega
        · simp only; omega


/-! ### Positions -/

theorem distinct_nodup {T : List Entry} (h : Distinct T) : T.Nodup := by
  refine List.Pairwise.imp ?_ h
  rintro a b hab rfl
  exact hab (Or.inl rfl)

theorem nodup_split {α : Type} {l a b a' b' : List α} {x : α} (hn : l.Nodup) (h : l = a ++ x :: b) (h' : l = a' ++ x :: b') : a = a' := by
  have h1 : l[a.length]? = some x := by rw [h]; simp
  have h2 : l[a'.length]? = some x := by rw [h']; simp
  have hlt : a.length < l.length := (List.getElem?_eq_some_iff.1 h1).1
  have := (List.getElem?_inj hlt hn).1 (h1.trans h2.symm)
  have e1 : a = l.take a.length := by rw [h]; simp
  have e2 : a' = l.take a'.length := by rw [h']; simp
  rw [e1, e2, this]

/-- In a list without repetition, a prefix with a later element has the earlier ones. -/
theorem prefix_order {α : Type} {l : List α} (hn : l.Nodup) :
    l.Pairwise (fun a b => a ≠ b ∧ ∀ pre more, l = pre ++ more → b ∈ pre → a ∈ pre) := by
  rw [List.pairwise_iff_getElem]
  intro i j hi hj hij
  refine ⟨?_, ?_⟩
  · intro heq
    have := (List.getElem_inj hn).1 heq
    omega
  · intro pre more hl hb
    obtain ⟨k, hk, hkb⟩ := List.mem_iff_getElem.1 hb
    have h1 : l[k]'(by rw [hl]; simp; omega) = l[j] := by
      rw [← hkb]
      subst hl
      exact List.getElem_append_left hk
    have hkj := (List.getElem_inj hn).1 h1
    have : l[i] = pre[i]'(by omega) := by
      subst hl
      exact List.getElem_append_left (by omega)
    rw [this]
    exact List.getElem_mem _

theorem hist_foldl (evs : List Event) (s : Sys E) : ∃ more, (evs.foldl Sys.step s).hist = s.hist ++ more := by
  induction evs generalizing s with
  | nil => exact ⟨[], by simp⟩
  | cons ev evs ih =>
    obtain ⟨a, ha, _⟩ := hist_step s ev
    obtain ⟨b, hb⟩ := ih (s.step ev)
    exact ⟨a ++ b, by simp only [List.foldl_cons]; rw [hb, ha, List.append_assoc]⟩

theorem done_foldl (evs : List Event) (s : Sys E) : ∃ more, (evs.foldl Sys.step s).done = s.done ++ more := by
  induction evs generalizing s with
  | nil => exact ⟨[], by simp⟩
  | cons ev evs ih =>
    obtain ⟨a, ha⟩ := done_step s ev
    obtain ⟨b, hb⟩ := ih (s.step ev)
    exact ⟨a ++ b, by simp only [List.foldl_cons]; rw [hb, ha, List.append_assoc]⟩

/-- What is known of a request placed at table length `n` without adding anything.
    Proof device: nothing in the code corresponds. -/
structure ReaderOp (st : E.S.σ) (evs : List Event) (okLim : UInt32 → UInt32 → Bool) (room : Item → Bool) (H : List (B 64))
    (Λ : List (UInt32 × UInt32)) (d : Done E) (n : Nat) (op : Op) : Prop where
  done : d ∈ (Sys.run E st evs).done
  quiet : ∀ e, Ev.wrote e ∉ d.log
  id : op.id = d.id
  lo : d.start.tbl.length ≤ n
  hi : n ≤ d.stop.tbl.length
  real : IsRequest E st evs op
  spec : ∀ ks, Stands E ks ((Sys.run E st evs).sh.tbl.take n) → Known H Λ ks →
    ∃ a, Keystore.call E.C okLim room op.luck ks op.call = (a, ks) ∧ ∀ o, op.ans = some o → Agrees a o

/-- What is known of a request that added an entry. Proof device: nothing in the code corresponds. -/
structure WriterOp (st : E.S.σ) (evs : List Event) (okLim : UInt32 → UInt32 → Bool) (room : Item → Bool) (H : List (B 64))
    (Λ : List (UInt32 × UInt32)) (p : Nat × Entry) (op : Op) : Prop where
  id : op.id = p.1
  real : IsRequest E st evs op
  spec : ∃ pre rest item, (Sys.run E st evs).sh.tbl = pre ++ p.2 :: rest ∧ Repr E item p.2 ∧ Known H Λ [item] ∧
    ∀ ks, Stands E ks pre → Known H Λ ks →
      ∃ v, Keystore.call E.C okLim room op.luck ks op.call = (some v, ks ++ [item]) ∧ ∀ o, op.ans = some o → Agrees (some v) o

variable {st : E.S.σ} {evs : List Event}

theorem reader_op (hst : GoodStore E st) (hv : View E okLim room H Λ (Sys.run E st evs).sh.tbl)
    (hcalls : ∀ c i r call, (c, Msg.req i r) ∈ received evs → r.call? E c = some call → call.within H Λ) {d : Done E}
    (hd : d ∈ (Sys.run E st evs).done) (hc : Counted d) (hq : ∀ e, Ev.wrote e ∉ d.log) :
    ∃ n op, ReaderOp st evs okLim room H Λ d n op := by
  obtain ⟨⟨i, r, call, hm, hcall⟩, hnf, hlock⟩ := hc
  obtain ⟨_, hi, hx⟩ := done_inv hst hd
  have hin := (idInv_run st evs).done d hd
  rw [inbox_run, hm] at hin
  have hspec := done_spec hst hd
  rw [hm] at hspec
  obtain ⟨U, ⟨a, ha⟩, ⟨b, hb⟩, luck, hl, hp⟩ := reader_point hv hcall
    (hcalls _ _ _ _ (List.mem_of_getElem? hin.1) hcall) hx hi (done_tbl hst hd) hspec hnf hq hlock
  obtain ⟨more, hmore⟩ := done_tbl hst hd
  refine ⟨U.length, ⟨d.id, call, luck, some (answerOf E.C (E.encKey d.conn) d.outcome)⟩, hd, hq, rfl, ?_, ?_, ?_, ?_⟩
  · rw [ha]; simp
  · rw [hb]; simp
  · refine ⟨d.conn, i, r, hin.1, hcall, by rw [← hin.2]; exact hl, ?_, ?_⟩
    · intro d' hd' hid
      have := nodup_map_inj (idInv_run st evs).done_ids hd' hd hid
      rw [this]
    · intro hno; exact absurd rfl (hno d hd)
  · intro ks hs hk
    have hU : (Sys.run E st evs).sh.tbl.take U.length = U := by rw [hmore, hb]; simp
    rw [hU] at hs
    obtain ⟨v, h1, h2⟩ := hp ks hs hk
    refine ⟨v, h1, ?_⟩
    intro o ho
    cases ho
    exact h2

theorem writer_op (hst : GoodStore E st) (hv : View E okLim room H Λ (Sys.run E st evs).sh.tbl)
    (hcalls : ∀ c i r call, (c, Msg.req i r) ∈ received evs → r.call? E c = some call → call.within H Λ) {p : Nat × Entry}
    (hp : p ∈ writers (Sys.run E st evs).hist) : ∃ op, WriterOp st evs okLim room H Λ p op := by
  obtain ⟨k, e⟩ := p
  have hw := mem_writers.1 hp
  obtain ⟨c, m, s₀, s₁, o, h1, h2, h3, h4, h5⟩ := writer_run hst evs hw
  have hl : Ev.wrote e ∈ histOf (Sys.run E st evs).hist k := mem_histOf.2 hw
  rw [inbox_run] at h1
  cases m with
  | res i r => obtain ⟨h3, _⟩ := h3; rw [h3] at hl; cases hl
  | req i r =>
    obtain ⟨call, hcall⟩ := writer_call h3 hl
    obtain ⟨_, pre, rest, item, luck, a1, a2, a3, a4, a5, a6, a7⟩ := writer_point hv hcall
      (hcalls _ _ _ _ (List.mem_of_getElem? h1) hcall) h2 h4 h3 hl
    open Classical in
    refine ⟨⟨k, call, luck, if ∃ d ∈ (Sys.run E st evs).done, d.id = k then some (answerOf E.C (E.encKey c) o) else none⟩,
      rfl, ⟨c, i, r, h1, hcall, a6, ?_, ?_⟩, pre, rest, item, a1, a4, a5, ?_⟩
    · intro d hd hid
      have : ∃ d ∈ (Sys.run E st evs).done, d.id = k := ⟨d, hd, hid⟩
      simp only [if_pos this]
      rw [(h5 d hd hid).2.2.2.1]
    · intro hno
      have : ¬ ∃ d ∈ (Sys.run E st evs).done, d.id = k := fun ⟨d, hd, hid⟩ => hno d hd hid
      simp only [if_neg this]
    · intro ks hs hk
      obtain ⟨v, b1, b2⟩ := a7 ks hs hk
      refine ⟨v, b1, ?_⟩
      intro o' ho'
      simp only at ho'
      split at ho'
      · cases ho'; exact b2
      · cases ho'

/-- Every run is explained by a sequential history. -/
theorem explained (hst : GoodStore E st) (hv : View E okLim room H Λ (Sys.run E st evs).sh.tbl)
    (hcalls : ∀ c i r call, (c, Msg.req i r) ∈ received evs → r.call? E c = some call → call.within H Λ)
    {ks₀ : Keystore} (hks : Stands E ks₀ (E.S.tbl st)) (hkn : Known H Λ ks₀) :
    ∃ ops, Explains E st evs okLim room ks₀ ops := by
  have hs := sysInv_run hst evs
  have hid := idInv_run st evs
  -- choose the operations
  have hf : ∀ d : Done E, ∃ q : Option (Nat × Op), (∀ n op, q = some (n, op) → ReaderOp st evs okLim room H Λ d n op) ∧
      (d ∈ (Sys.run E st evs).done → Counted d → (∀ e, Ev.wrote e ∉ d.log) → q ≠ none) := by
    intro d
    by_cases h : d ∈ (Sys.run E st evs).done ∧ Counted d ∧ ∀ e, Ev.wrote e ∉ d.log
    · obtain ⟨n, op, ho⟩ := reader_op hst hv hcalls h.1 h.2.1 h.2.2
      exact ⟨some (n, op), fun n' op' he => (by cases he; exact ho), fun _ _ _ => by simp⟩
    · exact ⟨none, fun n op he => (by cases he), fun h1 h2 h3 => absurd ⟨h1, h2, h3⟩ h⟩
  obtain ⟨f, hf⟩ := Classical.axiomOfChoice hf
  have hg : ∀ p : Nat × Entry, ∃ op, p ∈ writers (Sys.run E st evs).hist → WriterOp st evs okLim room H Λ p op := by
    intro p
    by_cases h : p ∈ writers (Sys.run E st evs).hist
    · obtain ⟨op, ho⟩ := writer_op hst hv hcalls h
      exact ⟨op, fun _ => ho⟩
    · exact ⟨default, fun h' => absurd h' h⟩
  obtain ⟨g, hg⟩ := Classical.axiomOfChoice hg
  let rd : Nat → List Op := fun n => (Sys.run E st evs).done.filterMap (fun d => match f d with
    | some (m, op) => if m = n then some op else none
    | none => none)
  have hrd : ∀ n op, op ∈ rd n ↔ ∃ d ∈ (Sys.run E st evs).done, f d = some (n, op) := by
    intro n op
    simp only [rd, List.mem_filterMap]
    constructor
    · rintro ⟨d, hd, h⟩
      refine ⟨d, hd, ?_⟩
      cases hfd : f d with
      | none => rw [hfd] at h; cases h
      | some q =>
        obtain ⟨m, op'⟩ := q
        rw [hfd] at h
        simp only [Option.ite_none_right_eq_some] at h
        obtain ⟨rfl, h⟩ := h
        cases h; rfl
    · rintro ⟨d, hd, h⟩
      exact ⟨d, hd, by rw [h]; simp⟩
  let base := (E.S.tbl st).length
  let wr := writers (Sys.run E st evs).hist
  have hT : (Sys.run E st evs).sh.tbl = E.S.tbl st ++ wr.map Prod.snd := by rw [hs.tbl, writers_snd]
  have hwn : (wr.map Prod.fst).Nodup := by
    refine writers_nodup _ ?_
    intro k e he
    obtain ⟨c, m, s₀, s₁, o, _, _, h3, _, _⟩ := writer_run hst evs (mem_histOf.1 he)
    rw [hspec_single h3 he]; simp
  have hTn := distinct_nodup hv.distinct
  -- the place of a writer
  have hplace : ∀ a p b, wr = a ++ p :: b → (Sys.run E st evs).sh.tbl = (E.S.tbl st ++ a.map Prod.snd) ++ p.2 :: b.map Prod.snd := by
    intro a p b h
    rw [hT, h]; simp
  have hwop : ∀ a p b, wr = a ++ p :: b → WriterOp st evs okLim room H Λ p (g p) := by
    intro a p b h
    exact hg p (by show p ∈ wr; rw [h]; simp)
  -- ranks and requests
  have hread : ∀ n op, op ∈ rd n → ∃ d, ReaderOp st evs okLim room H Λ d n op ∧ f d = some (n, op) := by
    intro n op h
    obtain ⟨d, _, hfd⟩ := (hrd n op).1 h
    exact ⟨d, (hf d).1 n op hfd, hfd⟩
  have hRpair : ∀ n, (rd n).Pairwise (fun a b => a.id ≠ b.id ∧ ∀ pre more, (Sys.run E st evs).done.map Done.id = pre ++ more →
      b.id ∈ pre → a.id ∈ pre) := by
    intro n
    rw [List.pairwise_filterMap]
    have := prefix_order hid.done_ids
    rw [List.pairwise_map] at this
    refine this.imp ?_
    intro d d' h b hb b' hb'
    have e1 : b.id = d.id := by
      cases hfd : f d with
      | none => rw [hfd] at hb; cases hb
      | some q =>
        obtain ⟨m, op'⟩ := q
        rw [hfd] at hb
        simp only [Option.ite_none_right_eq_some] at hb
        obtain ⟨rfl, hb⟩ := hb
        cases hb
        exact ((hf d).1 _ _ hfd).id
    have e2 : b'.id = d'.id := by
      cases hfd : f d' with
      | none => rw [hfd] at hb'; cases hb'
      | some q =>
        obtain ⟨m, op'⟩ := q
        rw [hfd] at hb'
        simp only [Option.ite_none_right_eq_some] at hb'
        obtain ⟨rfl, hb'⟩ := hb'
        cases hb'
        exact ((hf d').1 _ _ hfd).id
    rw [e1, e2]; exact h
  have hpair := blocks_pairwise (wop := g) hRpair wr base
  have hbase : ∀ d ∈ (Sys.run E st evs).done, base ≤ d.start.tbl.length := by
    intro d hd
    obtain ⟨more, hm⟩ := later_tbl hst [] evs (d := d) hd (by simp [Sys.run, Sys.init])
    rw [hm]
    simp [Sys.run, Sys.init, Shared.tbl, base]
  -- a request placed twice has one rank
  have huniq : ∀ p ∈ blocks rd g base wr, ∀ q ∈ blocks rd g base wr, p.2.id = q.2.id → p.1 = q.1 := by
    intro p hp q hq heq
    have mixed : ∀ d m op a p' b, ReaderOp st evs okLim room H Λ d m op → wr = a ++ p' :: b → op.id ≠ (g p').id := by
      intro d m op a p' b hd hw heq
      have h1 : p' ∈ wr := by rw [hw]; simp
      obtain ⟨k, e⟩ := p'
      have h2 := mem_histOf.2 (mem_writers.1 h1)
      rw [hd.id, (hwop a _ b hw).id] at heq
      apply hd.quiet e
      rw [(hid.done d hd.done).2, heq]
      exact h2
    rcases mem_blocks.1 hp with ⟨m, _, _, h3, h4⟩ | ⟨a, p', b, hw, rfl⟩ <;>
      rcases mem_blocks.1 hq with ⟨m', _, _, h3', h4'⟩ | ⟨a', q', b', hw', rfl⟩
    · obtain ⟨d, hd, hfd⟩ := hread _ _ h3
      obtain ⟨d', hd', hfd'⟩ := hread _ _ h3'
      rw [hd.id, hd'.id] at heq
      have := nodup_map_inj hid.done_ids hd.done hd'.done heq
      subst this
      rw [hfd] at hfd'
      have := congrArg Prod.fst (Option.some.inj hfd')
      simp only at this
      rw [h4, h4', this]
    · obtain ⟨d, hd, hfd⟩ := hread _ _ h3
      exact absurd heq (mixed d m _ a' q' b' hd hw')
    · obtain ⟨d, hd, hfd⟩ := hread _ _ h3'
      exact absurd heq.symm (mixed d m' _ a p' b hd hw)
    · rw [(hwop a p' b hw).id, (hwop a' q' b' hw').id] at heq
      have e1 : wr.map Prod.fst = a.map Prod.fst ++ p'.1 :: b.map Prod.fst := by rw [hw]; simp
      have e2 : wr.map Prod.fst = a'.map Prod.fst ++ p'.1 :: b'.map Prod.fst := by rw [hw', heq]; simp
      have := congrArg List.length (nodup_split hwn e1 e2)
      simp at this
      simp only [this]
  refine ⟨(blocks rd g base wr).map Prod.snd, ?_, ?_, ?_, ?_, ?_, ?_⟩
  case refine_3 =>
    rw [List.map_map, List.Nodup, List.pairwise_map]
    refine (List.Pairwise.and_mem.1 hpair).imp ?_
    rintro p q ⟨hp, hq, h | ⟨_, m, _, _, h, _⟩⟩
    · intro heq
      have := huniq p hp q hq heq
      omega
    · exact h
  case refine_4 =>
    rw [List.pairwise_map]
    refine (List.Pairwise.and_mem.1 hpair).imp ?_
    rintro p q ⟨hp, hq, hpq⟩ ⟨evs₁, evs₂, rfl, ⟨d₁, hd₁, hid₁⟩, hrec⟩
    have hi1 := idInv_run st evs₁
    have hin1 := inbox_run st evs₁
    rw [← hin1] at hrec
    let N := (Sys.run E st evs₁).sh.tbl.length
    have hT1 : N = base + (writers (Sys.run E st evs₁).hist).length := by
      show (Sys.run E st evs₁).sh.tbl.length = _
      rw [(sysInv_run hst evs₁).tbl, ← writers_snd]; simp [base]
    obtain ⟨mh, hmh⟩ := hist_foldl evs₂ (Sys.run E st evs₁)
    rw [← run_append] at hmh
    have hwr1 : wr = writers (Sys.run E st evs₁).hist ++ writers mh := by
      show writers (Sys.run E st (evs₁ ++ evs₂)).hist = _
      rw [hmh, writers_append]
    obtain ⟨md, hmd⟩ := done_foldl evs₂ (Sys.run E st evs₁)
    rw [← run_append] at hmd
    -- the later one is placed no earlier
    have hlo : 2 * N ≤ p.1 := by
      rcases mem_blocks.1 hp with ⟨m, _, _, h3, h4⟩ | ⟨a, p', b, hw, rfl⟩
      · obtain ⟨d, hd, hfd⟩ := hread _ _ h3
        rw [hd.id] at hrec
        obtain ⟨more, hmore⟩ := later_tbl hst evs₁ evs₂ hd.done hrec
        have := hd.lo
        rw [hmore] at this
        simp only [List.length_append] at this
        rw [h4]; show 2 * (Sys.run E st evs₁).sh.tbl.length ≤ _; omega
      · have hpid := (hwop a p' b hw).id
        have hge : (writers (Sys.run E st evs₁).hist).length ≤ a.length := by
          rcases Nat.lt_or_ge a.length (writers (Sys.run E st evs₁).hist).length with hlt | hge
          · exfalso
            have h1 : wr[a.length]? = some p' := by rw [hw]; simp
            rw [hwr1, List.getElem?_append_left hlt] at h1
            have h2 : (p'.1, p'.2) ∈ writers (Sys.run E st evs₁).hist := List.mem_of_getElem? h1
            have := hi1.hist _ (mem_writers.1 h2)
            simp only at this hrec
            omega
          · exact hge
        simp only; omega
    -- the earlier one is placed no later
    have hhi : q.1 ≤ 2 * N ∧ (q.1 = 2 * N → ∃ m, q.2 ∈ rd m) := by
      have hd₁' : d₁ ∈ (Sys.run E st (evs₁ ++ evs₂)).done := by rw [hmd]; exact List.mem_append_left _ hd₁
      rcases mem_blocks.1 hq with ⟨m, _, _, h3, h4⟩ | ⟨a, q', b, hw, rfl⟩
      · refine ⟨?_, fun _ => ⟨m, h3⟩⟩
        obtain ⟨d, hd, hfd⟩ := hread _ _ h3
        have hdd := nodup_map_inj hid.done_ids hd₁' hd.done (by rw [hid₁, hd.id])
        rw [← hdd] at hd
        have h5 := hd.hi
        obtain ⟨more, hmore⟩ := done_tbl hst hd₁
        have : N = d₁.stop.tbl.length + more.length := by
          show (Sys.run E st evs₁).sh.tbl.length = _
          rw [hmore]; simp
        omega
      · have hpid := (hwop a q' b hw).id
        have hmem : (q'.1, q'.2) ∈ writers (Sys.run E st evs₁).hist := by
          have h1 : (q'.1, q'.2) ∈ wr := by rw [hw]; simp
          have h2 := mem_histOf.2 (mem_writers.1 h1)
          have h3 := (hid.done d₁ hd₁').2
          have h4 := (hi1.done d₁ hd₁).2
          have h5 : d₁.id = q'.1 := hid₁.trans hpid
          rw [← h5, ← h3, h4, h5] at h2
          exact mem_writers.2 (mem_histOf.1 h2)
        have hlt : a.length < (writers (Sys.run E st evs₁).hist).length := by
          obtain ⟨x, y, hxy⟩ := List.append_of_mem hmem
          have e1 : wr.map Prod.fst = a.map Prod.fst ++ q'.1 :: b.map Prod.fst := by rw [hw]; simp
          have e2 : wr.map Prod.fst = x.map Prod.fst ++ q'.1 :: (y ++ writers mh).map Prod.fst := by rw [hwr1, hxy]; simp
          have := congrArg List.length (nodup_split hwn e1 e2)
          simp at this
          rw [this, hxy]; simp
        constructor
        · simp only; omega
        · intro h; simp only at h; omega
    rcases hpq with hlt | ⟨heq, m, hpm, hqm, _, hpre⟩
    · omega
    · have : p.2.id ∈ (Sys.run E st evs₁).done.map Done.id :=
        hpre _ (md.map Done.id) (by rw [hmd]; simp) (List.mem_map.2 ⟨d₁, hd₁, hid₁⟩)
      obtain ⟨d, hd, hdid⟩ := List.mem_map.1 this
      have := (List.getElem?_eq_some_iff.1 (hi1.done d hd).1).1
      omega
  case refine_5 =>
    intro d hd hc
    by_cases hq : ∀ e, Ev.wrote e ∉ d.log
    · cases hfd : f d with
      | none => exact absurd hfd ((hf d).2 hd hc hq)
      | some q =>
        obtain ⟨n, op⟩ := q
        have hro := (hf d).1 n op hfd
        refine ⟨op, List.mem_map.2 ⟨(2 * n, op), mem_blocks.2 (Or.inl ⟨n, ?_, ?_, (hrd n op).2 ⟨d, hd, hfd⟩, rfl⟩), rfl⟩, hro.id⟩
        · exact Nat.le_trans (hbase d hd) hro.lo
        · obtain ⟨more, hmore⟩ := done_tbl hst hd
          have h1 := congrArg List.length hmore
          have h2 := congrArg List.length hT
          have h3 := hro.hi
          simp only [List.length_append, List.length_map] at h1 h2
          show n ≤ (E.S.tbl st).length + wr.length
          omega
    · obtain ⟨e, he⟩ := Classical.not_forall.1 hq
      have he := Classical.not_not.1 he
      rw [(hid.done d hd).2] at he
      have hm : (d.id, e) ∈ wr := mem_writers.2 (mem_histOf.1 he)
      obtain ⟨a, b, hab⟩ := List.append_of_mem hm
      exact ⟨g (d.id, e), List.mem_map.2 ⟨(2 * (base + a.length) + 1, g (d.id, e)), mem_blocks.2 (Or.inr ⟨a, _, b, hab, rfl⟩), rfl⟩,
        (hwop a _ b hab).id⟩
  case refine_6 =>
    intro op hop
    obtain ⟨q, hq, rfl⟩ := List.mem_map.1 hop
    rcases mem_blocks.1 hq with ⟨m, _, _, h3, h4⟩ | ⟨a, p', b, hw, rfl⟩
    · obtain ⟨d, hd, _⟩ := hread _ _ h3
      exact hd.real
    · exact (hwop a p' b hw).real
  all_goals
    have := blocks_correct (E := E) (okLim := okLim) (room := room) (H := H) (Λ := Λ) (T := (Sys.run E st evs).sh.tbl) rd g
      (fun n op hop ks hs hk => by
        obtain ⟨d, hd, _⟩ := hread _ _ hop
        exact hd.spec ks hs hk)
      wr base (by rw [hT]; simp [base])
      (fun a p b hw => by
        obtain ⟨pre, rest, item, h1, h2, h3, h4⟩ := (hwop a p b hw).spec
        refine ⟨item, h2, h3, ?_⟩
        have e1 := hplace a p b hw
        have := nodup_split hTn h1 e1
        have e2 : (Sys.run E st evs).sh.tbl.take (base + a.length) = pre := by
          rw [e1, this]
          have : base + a.length = (E.S.tbl st ++ a.map Prod.snd).length := by simp [base]
          rw [this, List.take_left']
          simp
        rw [e2]; exact h4)
      ks₀ (by rw [hT]; simpa [base] using hks) hkn
  · exact this.1
  · exact this.2

end
end Lair
