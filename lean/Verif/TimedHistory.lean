import Verif.KeystoreLinProof

/- A sequential history from a list of events, each of which finishes at most one reader or adds at most one entry. Operations are
   numbered by the event with which they begin. -/
namespace Lair

section
variable {E : Env} {okLim : UInt32 → UInt32 → Bool} {room : Item → Bool} {H : List (B 64)} {Λ : List (UInt32 × UInt32)}

/-- The operations that add an entry, up to event `n`. Specification: nothing in the code corresponds. -/
def wrTo (w : Nat → Option (Nat × Entry)) (n : Nat) : List (Nat × Entry) := (List.range n).filterMap w

theorem wrTo_succ (w : Nat → Option (Nat × Entry)) (n : Nat) : wrTo w (n + 1) = wrTo w n ++ (w n).toList := by
  unfold wrTo
  rw [List.range_succ, List.filterMap_append]
  congr 1

theorem wrTo_mono (w : Nat → Option (Nat × Entry)) {n m : Nat} (h : n ≤ m) : ∃ more, wrTo w m = wrTo w n ++ more := by
  induction h with
  | refl => exact ⟨[], by simp⟩
  | step _ ih =>
    obtain ⟨more, ih⟩ := ih
    exact ⟨_, by rw [wrTo_succ, ih, List.append_assoc]⟩

/-- The place of an addition. -/
theorem wrTo_split (w : Nat → Option (Nat × Entry)) {L : Nat} {a b : List (Nat × Entry)} {p : Nat × Entry} (h : wrTo w L = a ++ p :: b) :
    ∃ n, n < L ∧ w n = some p ∧ a = wrTo w n := by
  induction L generalizing b with
  | zero => simp [wrTo] at h
  | succ L ih =>
    rw [wrTo_succ] at h
    cases hw : w L with
    | none =>
      rw [hw] at h
      simp at h
      obtain ⟨n, h1, h2, h3⟩ := ih h
      exact ⟨n, by omega, h2, h3⟩
    | some q =>
      rw [hw] at h
      simp only [Option.toList] at h
      rcases List.eq_nil_or_concat b with rfl | ⟨b', x, rfl⟩
      · have := List.append_inj' h (by simp)
        obtain ⟨h1, h2⟩ := this
        simp at h2
        subst h2
        exact ⟨L, by omega, hw, h1.symm⟩
      · have h' : wrTo w L ++ [q] = (a ++ p :: b') ++ [x] := by simpa using h
        have := (List.append_inj' h' (by simp)).1
        obtain ⟨n, h1, h2, h3⟩ := ih this
        exact ⟨n, by omega, h2, h3⟩

variable {tb : Nat → List Entry} {w : Nat → Option (Nat × Entry)} {f : Nat → Option (Nat × Op)} {g : Nat × Entry → Op} {L : Nat}

theorem tb_wr (htb : ∀ n, n < L → tb (n + 1) = tb n ++ ((w n).map Prod.snd).toList) : ∀ n, n ≤ L → tb n = tb 0 ++ (wrTo w n).map Prod.snd := by
  intro n
  induction n with
  | zero => simp [wrTo]
  | succ n ih =>
    intro h
    rw [htb n (by omega), ih (by omega), wrTo_succ]
    cases w n <;> simp

theorem tb_mono (htb : ∀ n, n < L → tb (n + 1) = tb n ++ ((w n).map Prod.snd).toList) {n m : Nat} (h : n ≤ m) (hm : m ≤ L) :
    ∃ more, tb m = tb n ++ more := by
  obtain ⟨more, hmore⟩ := wrTo_mono w h
  refine ⟨more.map Prod.snd, ?_⟩
  rw [tb_wr htb m hm, tb_wr htb n (by omega), hmore]
  simp

theorem tb_len (htb : ∀ n, n < L → tb (n + 1) = tb n ++ ((w n).map Prod.snd).toList) {n m : Nat} (h : n ≤ m) (hm : m ≤ L) :
    (tb n).length ≤ (tb m).length := by
  obtain ⟨more, hmore⟩ := tb_mono htb h hm
  rw [hmore]; simp

/-- The readers placed at table length `r`, in the order in which they finish.
    Specification: nothing in the code corresponds. -/
def rdAt (f : Nat → Option (Nat × Op)) (L r : Nat) : List Op := (List.range L).filterMap fun n => match f n with
  | some (r', op) => if r' = r then some op else none
  | none => none

theorem rdAt_item {n r : Nat} {op : Op} : (match f n with
    | some (r', op') => if r' = r then some op' else none
    | none => none) = some op ↔ f n = some (r, op) := by
  cases h : f n with
  | none => simp
  | some q =>
    obtain ⟨r', op'⟩ := q
    by_cases hr : r' = r <;> simp [hr]

theorem mem_rdAt {r : Nat} {op : Op} : op ∈ rdAt f L r ↔ ∃ n, n < L ∧ f n = some (r, op) := by
  simp only [rdAt, List.mem_filterMap, List.mem_range]
  constructor
  · rintro ⟨n, h1, h2⟩; exact ⟨n, h1, rdAt_item.1 h2⟩
  · rintro ⟨n, h1, h2⟩; exact ⟨n, h1, rdAt_item.2 h2⟩

theorem rdAt_pairwise (r : Nat) : (rdAt f L r).Pairwise fun a b => ∃ n m, n < m ∧ m < L ∧ f n = some (r, a) ∧ f m = some (r, b) := by
  unfold rdAt
  rw [List.pairwise_filterMap]
  have h : (List.range L).Pairwise fun n m => n < m ∧ m < L := by
    have := List.pairwise_lt_range (n := L)
    refine (List.Pairwise.and_mem.1 this).imp ?_
    rintro a b ⟨_, h2, h3⟩
    exact ⟨h3, List.mem_range.1 h2⟩
  refine h.imp ?_
  rintro n m ⟨h1, h2⟩ a ha b hb
  exact ⟨n, m, h1, h2, rdAt_item.1 ha, rdAt_item.1 hb⟩

/-- The history of a timed run. -/
theorem timed_history (htb : ∀ n, n < L → tb (n + 1) = tb n ++ ((w n).map Prod.snd).toList)
    (hwid : ∀ n p, n < L → w n = some p → p.1 ≤ n ∧ (g p).id = p.1)
    (hwinj : ∀ n m p q, n < L → m < L → w n = some p → w m = some q → p.1 = q.1 → n = m)
    (hwspec : ∀ n p, n < L → w n = some p → ∃ item, Repr E item p.2 ∧ Known H Λ [item] ∧ ∀ ks, Stands E ks (tb n) → Known H Λ ks →
      ∃ v, Keystore.call E.C okLim room (g p).luck ks (g p).call = (some v, ks ++ [item]) ∧ ∀ o, (g p).ans = some o → Agrees (some v) o)
    (hfid : ∀ n r op, n < L → f n = some (r, op) → op.id ≤ n ∧ (tb op.id).length ≤ r ∧ r ≤ (tb n).length)
    (hfinj : ∀ n m r s op op', n < L → m < L → f n = some (r, op) → f m = some (s, op') → op.id = op'.id → n = m)
    (hfspec : ∀ n r op, n < L → f n = some (r, op) → ∀ ks, Stands E ks ((tb L).take r) → Known H Λ ks →
      ∃ a, Keystore.call E.C okLim room op.luck ks op.call = (a, ks) ∧ ∀ o, op.ans = some o → Agrees a o)
    (hfw : ∀ n m r op p, n < L → m < L → f n = some (r, op) → w m = some p → op.id ≠ p.1)
    (Bef : Nat → Nat → Prop)
    (hBf : ∀ n r op y, n < L → f n = some (r, op) → Bef op.id y → n < y)
    (hBw : ∀ n p y, n < L → w n = some p → Bef p.1 y → n < y)
    {ks₀ : Keystore} (hks : Stands E ks₀ (tb 0)) (hkn : Known H Λ ks₀) :
    ∃ ops : List Op, Keystore.Correct E.C okLim room ks₀ ops ∧ Stands E (Keystore.after E.C okLim room ks₀ ops) (tb L) ∧
      (ops.map Op.id).Nodup ∧ ops.Pairwise (fun a b => ¬ Bef b.id a.id) ∧
      (∀ op, op ∈ ops ↔ (∃ n r, n < L ∧ f n = some (r, op)) ∨ ∃ n p, n < L ∧ w n = some p ∧ op = g p) := by
  have hplace : ∀ n, n ≤ L → (tb 0).length + (wrTo w n).length = (tb n).length := by
    intro n hn
    rw [tb_wr htb n hn]; simp
  have hT := tb_wr htb L (Nat.le_refl L)
  have htake : ∀ n, n ≤ L → (tb L).take (tb n).length = tb n := by
    intro n hn
    obtain ⟨more, hm⟩ := tb_mono htb hn (Nat.le_refl L)
    rw [hm]; simp
  have hpair := blocks_pairwise (rd := rdAt f L) (wop := g) (R := fun a b => ∃ r n m, n < m ∧ m < L ∧ f n = some (r, a) ∧ f m = some (r, b))
    (fun r => (rdAt_pairwise r).imp fun ⟨n, m, h⟩ => ⟨r, n, m, h⟩) (wrTo w L) (tb 0).length
  -- where an element of the history comes from
  have hmem : ∀ q : Nat × Op, q ∈ blocks (rdAt f L) g (tb 0).length (wrTo w L) ↔
      (∃ n r, n < L ∧ f n = some (r, q.2) ∧ q.1 = 2 * r) ∨ ∃ n p, n < L ∧ w n = some p ∧ q = (2 * (tb n).length + 1, g p) := by
    intro q
    rw [mem_blocks]
    constructor
    · rintro (⟨m, _, _, h3, h4⟩ | ⟨a, p, b, h1, h2⟩)
      · obtain ⟨n, hn, hf⟩ := mem_rdAt.1 h3
        exact Or.inl ⟨n, m, hn, hf, h4⟩
      · obtain ⟨n, hn, hw, rfl⟩ := wrTo_split w h1
        rw [hplace n (by omega)] at h2
        exact Or.inr ⟨n, p, hn, hw, h2⟩
    · rintro (⟨n, r, hn, hf, hq⟩ | ⟨n, p, hn, hw, hq⟩)
      · obtain ⟨_, h2, h3⟩ := hfid n r q.2 hn hf
        refine Or.inl ⟨r, ?_, ?_, mem_rdAt.2 ⟨n, hn, hf⟩, hq⟩
        · exact Nat.le_trans (tb_len htb (Nat.zero_le _) (by have := (hfid n r q.2 hn hf).1; omega)) h2
        · rw [hplace L (Nat.le_refl L)]
          exact Nat.le_trans h3 (tb_len htb (by omega) (Nat.le_refl L))
      · obtain ⟨more, hmore⟩ := wrTo_mono w (show n + 1 ≤ L by omega)
        rw [wrTo_succ, hw] at hmore
        refine Or.inr ⟨wrTo w n, p, more, by simpa using hmore, ?_⟩
        rw [hplace n (by omega)]; exact hq
  have hwgrow : ∀ n p, n < L → w n = some p → (tb n).length < (tb (n + 1)).length := by
    intro n p hn hw
    rw [htb n hn, hw]; simp
  refine ⟨(blocks (rdAt f L) g (tb 0).length (wrTo w L)).map Prod.snd, ?_, ?_, ?_, ?_, ?_⟩
  case refine_5 =>
    intro op
    rw [List.mem_map]
    constructor
    · rintro ⟨q, hq, rfl⟩
      rcases (hmem q).1 hq with ⟨n, r, hn, hf, _⟩ | ⟨n, p, hn, hw, rfl⟩
      · exact Or.inl ⟨n, r, hn, hf⟩
      · exact Or.inr ⟨n, p, hn, hw, rfl⟩
    · rintro (⟨n, r, hn, hf⟩ | ⟨n, p, hn, hw, rfl⟩)
      · exact ⟨(2 * r, op), (hmem _).2 (Or.inl ⟨n, r, hn, hf, rfl⟩), rfl⟩
      · exact ⟨_, (hmem _).2 (Or.inr ⟨n, p, hn, hw, rfl⟩), rfl⟩
  case refine_3 =>
    rw [List.map_map, List.Nodup, List.pairwise_map]
    refine (List.Pairwise.and_mem.1 hpair).imp ?_
    rintro p q ⟨hp, hq, h⟩ heq
    simp only [Function.comp_def] at heq
    rcases h with hlt | ⟨_, _, _, _, r, n, m, h1, h2, h3, h4⟩
    · rcases (hmem p).1 hp with ⟨n, r, hn, hf, hr⟩ | ⟨n, x, hn, hw, rfl⟩ <;>
        rcases (hmem q).1 hq with ⟨m, s, hm, hf', hs⟩ | ⟨m, y, hm, hw', rfl⟩
      · have := hfinj n m r s _ _ hn hm hf hf' heq
        subst this
        rw [hf] at hf'
        simp only [Option.some.injEq, Prod.mk.injEq] at hf'
        omega
      · rw [(hwid m y hm hw').2] at heq
        exact hfw n m r _ y hn hm hf hw' heq
      · rw [(hwid n x hn hw).2] at heq
        exact hfw m n s _ x hm hn hf' hw heq.symm
      · rw [(hwid n x hn hw).2, (hwid m y hm hw').2] at heq
        have := hwinj n m x y hn hm hw hw' heq
        subst this
        simp at hlt
    · have := hfinj n m r r _ _ (by omega) h2 h3 h4 heq
      omega
  case refine_4 =>
    rw [List.pairwise_map]
    refine (List.Pairwise.and_mem.1 hpair).imp ?_
    -- `p` is placed before `q`, but `q` was finished when `p` began
    rintro p q ⟨hp, hq, hpq⟩ hb
    have hbound : ∀ n : Nat, n < p.2.id → p.2.id ≤ L → (tb n).length ≤ (tb p.2.id).length := fun n h1 h2 => tb_len htb (by omega) h2
    rcases hpq with hlt | ⟨heq, _, _, _, r, n, m, h1, h2, h3, h4⟩
    · rcases (hmem p).1 hp with ⟨n, r, hn, hf, hr⟩ | ⟨n, x, hn, hw, rfl⟩
      · obtain ⟨i1, i2, i3⟩ := hfid n r _ hn hf
        rcases (hmem q).1 hq with ⟨m, s, hm, hf', hs⟩ | ⟨m, y, hm, hw', rfl⟩
        · have hb' := hBf m s _ _ hm hf' hb
          have := (hfid m s _ hm hf').2.2
          have := hbound m hb' (by omega)
          omega
        · simp only [(hwid m y hm hw').2] at hb
          have hb' := hBw m y _ hm hw' hb
          have := hwgrow m y hm hw'
          have := tb_len htb (show m + 1 ≤ p.2.id by omega) (by omega)
          simp only at hlt
          omega
      · have hid := (hwid n x hn hw)
        simp only [hid.2] at hb
        rcases (hmem q).1 hq with ⟨m, s, hm, hf', hs⟩ | ⟨m, y, hm, hw', rfl⟩
        · have hb' := hBf m s _ _ hm hf' hb
          have := (hfid m s _ hm hf').2.2
          have := tb_len htb (show m ≤ n by omega) (by omega)
          simp only at hlt
          omega
        · simp only [(hwid m y hm hw').2] at hb
          have hb' := hBw m y _ hm hw' hb
          have := tb_len htb (show m ≤ n by omega) (by omega)
          simp only at hlt
          omega
    · have hb' := hBf m r _ _ h2 h4 hb
      have := (hfid n r _ (by omega) h3).1
      omega
  all_goals
    have := blocks_correct (E := E) (okLim := okLim) (room := room) (H := H) (Λ := Λ) (T := tb L) (rdAt f L) g
      (fun r op hop ks hs hk => by
        obtain ⟨n, hn, hf⟩ := mem_rdAt.1 hop
        exact hfspec n r op hn hf ks hs hk)
      (wrTo w L) (tb 0).length (by rw [hT]; simp)
      (fun a p b hw => by
        obtain ⟨n, hn, hwn, rfl⟩ := wrTo_split w hw
        rw [hplace n (by omega), htake n (by omega)]
        exact hwspec n p hn hwn)
      ks₀ (by rw [hT]; simpa using hks) hkn
  · exact this.1
  · exact this.2

end
end Lair
