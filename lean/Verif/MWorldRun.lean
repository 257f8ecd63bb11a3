import Verif.MWorldLemmas

/-
Runs of `MWorld` and their beginnings; what the server processes received and finished, seen from the connections.
-/
namespace Lair

variable {S : SStream} {E : Env} {st : E.S.σ}

/-! ### One connection -/

theorem conn_only {c : Nat} {sys : Sys E} {x : Conn S} (hc : ConnInv c sys x) (L : S.Lawful)
    (hu : Lair.Unforged S x.up.start (x.up.pushed.map (fun p => Codec.encodeMsg p.2)) (arrived x.up.net)) {n : Nat} {m : Msg}
    (h : sys.inbox[n]? = some (c, m)) : ∃ (k : Nat) (a : Asked), x.asked[k]? = some a ∧ m = .req a.id a.req := by
  have hm := mem_of_prefix_takeWhile (hc.up.prefix L hu) (inbox_got hc h)
  obtain ⟨p, hp, rfl⟩ := List.mem_map.mp hm
  obtain ⟨ph, h1, -⟩ := hc.up.mem p hp
  obtain ⟨a, ha, -, h2⟩ := hc.ups _ _ _ h1
  obtain ⟨k, hk⟩ := List.mem_iff_getElem?.mp ha
  exact ⟨k, a, hk, h2⟩

theorem conn_once {c : Nat} {sys : Sys E} {x : Conn S} (hc : ConnInv c sys x) (L : S.Lawful)
    (hu : Lair.Unforged S x.up.start (x.up.pushed.map (fun p => Codec.encodeMsg p.2)) (arrived x.up.net)) (hf : (x.asked.map Asked.id).Nodup)
    {n n' : Nat} {m m' : Msg} (h : sys.inbox[n]? = some (c, m)) (h' : sys.inbox[n']? = some (c, m')) (hid : m.id = m'.id) : n = n' := by
  refine filter_index sys.inbox c Msg.id ?_ h h' hid
  rw [hc.inbox]
  obtain ⟨t, ht⟩ := (hc.up.prefix L hu).trans (List.takeWhile_prefix _)
  have := pushed_ids hc hf
  rw [← ht, List.map_append, List.nodup_append] at this
  exact this.1

theorem conn_own {c : Nat} {sys : Sys E} {x : Conn S} (hc : ConnInv c sys x) (hids : IdInv sys) (L : S.Lawful)
    (hu : Lair.Unforged S x.up.start (x.up.pushed.map (fun p => Codec.encodeMsg p.2)) (arrived x.up.net))
    (hd : Lair.Unforged S x.down.start (x.down.pushed.map (fun p => Codec.encodeMsg p.2)) (arrived x.down.net))
    (hf : (x.asked.map Asked.id).Nodup) {k : Nat} {a : Asked} {rid : String} {r : Res Msg} {sl : Slot} {v : Resp} (ha : x.asked[k]? = some a)
    (hk : x.cli.reqs[k]? = some ⟨rid, .done r, sl⟩) (hr : typedResult a.req r = .ok v) :
    ∃ d ∈ sys.done, d.conn = c ∧ d.msg = .req a.id a.req ∧ d.outcome = .ok v := by
  obtain ⟨hans, id', rfl⟩ := (C30_typed_result _ _ _).mp hr
  obtain ⟨pos, hpos, -⟩ := C29_response_is_own x.cevs
  rw [hc.cli] at hk
  obtain ⟨g1, g2, g3, -⟩ := hpos k _ _ hk rfl
  rw [hc.starts, List.getElem?_map, ha] at g2
  simp at g2
  simp only [Msg.id] at g1
  subst g1
  subst g2
  have hgot : Msg.res a.id v ∈ x.down.got := by
    exact hc.arr _ (List.mem_of_getElem? g3)
  have hm := mem_of_prefix_takeWhile (hc.down.prefix L hd) hgot
  obtain ⟨p, hp, hp2⟩ := List.mem_map.mp hm
  obtain ⟨ph, h1, -⟩ := hc.down.mem p hp
  rw [hp2] at h1
  obtain ⟨d, hd, hdc, r, hr', ho⟩ := hc.downs _ _ _ h1
  injection hr' with hid' hv
  subst hv
  have hout : d.outcome = .ok v := by
    rcases ho with ho | ⟨e, rfl⟩
    · exact ho
    · cases hq : a.req <;> simp [hq, Answers] at hans
  refine ⟨d, hd, hdc, ?_, hout⟩
  have hbox := (hids.done d hd).1
  rw [hdc] at hbox
  obtain ⟨k', b, hb, hmsg⟩ := conn_only hc L hu hbox
  have hid : b.id = a.id := by rw [hmsg] at hid'; exact hid'.symm
  have := nodup_map_inj hf (List.mem_of_getElem? hb) (List.mem_of_getElem? ha) hid
  subst this
  exact hmsg

/-! ### The connections of a run -/

theorem mrequest_some {w : MWorld E S} {c k : Nat} {id : String} {q : Req} (h : w.request c k = some (id, q)) :
    ∃ j x a, w.conns[c]? = some (j, x) ∧ x.asked[k]? = some a ∧ a.id = id ∧ a.req = q := by
  unfold MWorld.request at h
  cases hx : w.conns[c]? with
  | none => rw [hx] at h; simp at h
  | some p =>
    obtain ⟨j, x⟩ := p
    rw [hx] at h
    simp only [Option.bind_some, Option.map_eq_some_iff] at h
    obtain ⟨a, h1, h2⟩ := h
    cases h2
    exact ⟨j, x, a, rfl, h1, rfl, rfl⟩

theorem mrequest_of {w : MWorld E S} {c k j : Nat} {x : Conn S} {a : Asked} (h : w.conns[c]? = some (j, x)) (ha : x.asked[k]? = some a) :
    w.request c k = some (a.id, a.req) := by
  simp [MWorld.request, h, ha]

theorem mresult_some {w : MWorld E S} {c k : Nat} {r : Res Resp} (h : w.result c k = some r) :
    ∃ j x a rid m sl, w.conns[c]? = some (j, x) ∧ x.asked[k]? = some a ∧ x.cli.reqs[k]? = some ⟨rid, .done m, sl⟩ ∧ r = typedResult a.req m := by
  unfold MWorld.result at h
  cases hx : w.conns[c]? with
  | none => rw [hx] at h; simp at h
  | some p =>
    obtain ⟨j, x⟩ := p
    rw [hx] at h
    simp only at h
    cases ha : x.asked[k]? with
    | none => rw [ha] at h; simp at h
    | some a =>
      cases hk : x.cli.reqs[k]? with
      | none => rw [ha, hk] at h; simp at h
      | some rq =>
        obtain ⟨rid, ph, sl⟩ := rq
        rw [ha, hk] at h
        cases ph with
        | done m => exact ⟨j, x, a, rid, m, sl, rfl, ha, hk, by simpa using h.symm⟩
        | _ => simp at h

theorem mrequest_unique {w : MWorld E S} {c k k' : Nat} {id : String} {q q' : Req} (hf : w.FreshIds c) (h : w.request c k = some (id, q))
    (h' : w.request c k' = some (id, q')) : k = k' := by
  obtain ⟨j, x, a, hx, ha, h1, -⟩ := mrequest_some h
  obtain ⟨j', x', b, hx', hb, h2, -⟩ := mrequest_some h'
  rw [hx] at hx'; cases hx'
  have hn := hf j x hx
  obtain ⟨l1, g1⟩ := List.getElem?_eq_some_iff.mp ha
  obtain ⟨l2, g2⟩ := List.getElem?_eq_some_iff.mp hb
  rcases Nat.lt_trichotomy k k' with hlt | heq | hgt
  · have := List.pairwise_iff_getElem.mp hn k k' (by simpa using l1) (by simpa using l2) hlt
    simp [g1, g2, h1, h2] at this
  · exact heq
  · have := List.pairwise_iff_getElem.mp hn k' k (by simpa using l2) (by simpa using l1) hgt
    simp [g1, g2, h1, h2] at this

section Inv
variable {w : MWorld E S} (hw : MWorldInv st w) (L : S.Lawful)
include hw L

theorem mw_only {c j n : Nat} {m : Msg} {l : LSys E} (hu : w.Unforged c) (hl : w.multi.procs[j]? = some l) (h : l.sys.inbox[n]? = some (c, m)) :
    ∃ k id q, w.request c k = some (id, q) ∧ m = .req id q := by
  obtain ⟨x, hx⟩ := hw.known j l hl _ (List.mem_of_getElem? h)
  obtain ⟨l', hl', hc⟩ := hw.conns c j x hx
  rw [hl] at hl'; cases hl'
  obtain ⟨k, a, ha, rfl⟩ := conn_only hc L (hu j x hx).1 h
  exact ⟨k, a.id, a.req, mrequest_of hx ha, rfl⟩

/-- The same message is not handled twice, in whichever processes. -/
theorem mw_once {c j j' n n' : Nat} {m m' : Msg} {l l' : LSys E} (hu : w.Unforged c) (hf : w.FreshIds c) (hl : w.multi.procs[j]? = some l)
    (hl' : w.multi.procs[j']? = some l') (h : l.sys.inbox[n]? = some (c, m)) (h' : l'.sys.inbox[n']? = some (c, m')) (hid : m.id = m'.id) :
    j = j' ∧ n = n' := by
  obtain ⟨x, hx⟩ := hw.known j l hl _ (List.mem_of_getElem? h)
  obtain ⟨x', hx'⟩ := hw.known j' l' hl' _ (List.mem_of_getElem? h')
  simp only at hx hx'
  rw [hx] at hx'; cases hx'
  rw [hl] at hl'; cases hl'
  obtain ⟨l', hl', hc⟩ := hw.conns c j x hx
  rw [hl] at hl'; cases hl'
  exact ⟨rfl, conn_once hc L (hu j x hx).1 (hf j x hx) h h' hid⟩

theorem mw_own {c k : Nat} {id : String} {q : Req} {v : Resp} (hu : w.Unforged c) (hf : w.FreshIds c) (hq : w.request c k = some (id, q))
    (hr : w.result c k = some (.ok v)) :
    ∃ (j : Nat) (l : LSys E), w.multi.procs[j]? = some l ∧ ∃ d ∈ l.sys.done, d.conn = c ∧ d.msg = .req id q ∧ d.outcome = .ok v := by
  obtain ⟨j, x, a, hx, ha, rfl, rfl⟩ := mrequest_some hq
  obtain ⟨j', x', a', rid, m, sl, hx', ha', hk, he⟩ := mresult_some hr
  rw [hx] at hx'; cases hx'
  rw [ha] at ha'; cases ha'
  obtain ⟨l, hl, hc⟩ := hw.conns c j x hx
  obtain ⟨h1, h2⟩ := hu j x hx
  exact ⟨j, l, hl, conn_own hc (hw.ids j l hl) L h1 h2 (hf j x hx) ha hk he.symm⟩

end Inv

/-! ### Growing -/

theorem mgrows_modify (l : List (Nat × Conn S)) (i : Nat) (f : Conn S → Conn S) (hf : ∀ x, Grows x (f x)) {c j : Nat} {x : Conn S}
    (h : l[c]? = some (j, x)) : ∃ y, (l.modify i (fun p => (p.1, f p.2)))[c]? = some (j, y) ∧ Grows x y := by
  refine ⟨if i = c then f x else x, ?_, ?_⟩
  · rw [mw_modify_get_of h]; split <;> rfl
  · split
    · exact hf x
    · exact Grows.refl x

theorem mgrows_step (w : MWorld E S) (e : MWEv S) {c j : Nat} {x : Conn S} (h : w.conns[c]? = some (j, x)) :
    ∃ y, (w.step e).conns[c]? = some (j, y) ∧ Grows x y := by
  cases e with
  | start => exact ⟨x, h, Grows.refl x⟩
  | call j y ch => exact ⟨x, h, Grows.refl x⟩
  | connect j u d =>
    simp only [MWorld.step]
    split
    · refine ⟨x, ?_, Grows.refl x⟩
      show (w.conns ++ [_])[c]? = _
      rw [List.getElem?_append_left (List.getElem?_eq_some_iff.mp h).1]; exact h
    · exact ⟨x, h, Grows.refl x⟩
  | net i e => exact mgrows_modify w.conns i _ (fun x => grows_step x e) h
  | serve i =>
    simp only [MWorld.step]
    split
    · exact ⟨x, h, Grows.refl x⟩
    · split
      · exact ⟨x, h, Grows.refl x⟩
      · have := mgrows_modify w.conns i (fun x => { x with up := x.up.poll }) (fun x => (Grows.mk List.prefix_rfl List.prefix_rfl List.prefix_rfl)) h
        split
        · exact this
        · exact this
  | act j i ch =>
    simp only [MWorld.step]
    split
    · exact ⟨x, h, Grows.refl x⟩
    · split
      · exact mgrows_modify w.conns _ _ (fun x => grows_reply x _ _) h
      · exact ⟨x, h, Grows.refl x⟩
  | restart k =>
    refine ⟨if j = k then { x with gone := true } else x, ?_, ?_⟩
    · show (w.conns.map _)[c]? = _
      rw [List.getElem?_map, h]
      simp only [Option.map_some]
      split <;> rfl
    · split
      · exact Grows.mk List.prefix_rfl List.prefix_rfl List.prefix_rfl
      · exact Grows.refl x

theorem mgrows_run (more : List (MWEv S)) (w : MWorld E S) {c j : Nat} {x : Conn S} (h : w.conns[c]? = some (j, x)) :
    ∃ y, (more.foldl MWorld.step w).conns[c]? = some (j, y) ∧ Grows x y := by
  induction more generalizing w x with
  | nil => exact ⟨x, h, Grows.refl x⟩
  | cons e es ih =>
    obtain ⟨y, h1, h2⟩ := mgrows_step w e h
    obtain ⟨z, h3, h4⟩ := ih _ h1
    exact ⟨z, h3, h2.trans h4⟩

theorem mw_take (evs : List (MWEv S)) (n : Nat) :
    MWorld.run E S st evs = (evs.drop n).foldl MWorld.step (MWorld.run E S st (evs.take n)) := by
  unfold MWorld.run
  rw [← List.foldl_append, List.take_append_drop]

theorem mrequest_prefix (evs : List (MWEv S)) (n : Nat) {c k : Nat} {p : String × Req} (h : (MWorld.run E S st (evs.take n)).request c k = some p) :
    (MWorld.run E S st evs).request c k = some p := by
  obtain ⟨j, x, a, hx, ha, h1, h2⟩ := mrequest_some (id := p.1) (q := p.2) h
  obtain ⟨y, hy, hg⟩ := mgrows_run (evs.drop n) _ hx
  rw [← mw_take] at hy
  obtain ⟨t, ht⟩ := hg.asked
  have : y.asked[k]? = some a := by rw [← ht]; exact List.getElem?_append_left (List.getElem?_eq_some_iff.mp ha).1 ▸ ha
  rw [mrequest_of hy this, h1, h2]

theorem mfreshIds_prefix (evs : List (MWEv S)) (n : Nat) {c : Nat} (h : (MWorld.run E S st evs).FreshIds c) :
    (MWorld.run E S st (evs.take n)).FreshIds c := by
  intro j x hx
  obtain ⟨y, hy, hg⟩ := mgrows_run (evs.drop n) _ hx
  rw [← mw_take] at hy
  obtain ⟨t, ht⟩ := hg.asked
  have := h j y hy
  rw [← ht, List.map_append, List.nodup_append] at this
  exact this.1

/-! ### What happened to the processes -/

theorem mevs_step (w : MWorld E S) (e : MWEv S) : (w.step e).mevs = w.mevs ∨ ∃ m, (w.step e).mevs = w.mevs ++ [m] ∧
    ∀ j x ch, m = .at j (.call x ch) → e = .call j x ch := by
  cases e with
  | start => exact Or.inr ⟨_, rfl, by simp⟩
  | call j y ch => exact Or.inr ⟨_, rfl, by rintro j' x ch' h; cases h; rfl⟩
  | connect j u d =>
    simp only [MWorld.step]
    split <;> exact Or.inl rfl
  | net i e => exact Or.inl rfl
  | serve i =>
    simp only [MWorld.step]
    split
    · exact Or.inl rfl
    · split
      · exact Or.inl rfl
      · split
        · exact Or.inr ⟨_, rfl, by simp⟩
        · exact Or.inl rfl
  | act j i ch =>
    have : ((w.step (.act j i ch)).mevs) = w.mevs ++ [.at j (.srv (.step i ch))] := by
      simp only [MWorld.step]
      split
      · rfl
      · split <;> rfl
    exact Or.inr ⟨_, this, by simp⟩
  | restart k => exact Or.inr ⟨_, rfl, by simp⟩

/-- How much had happened to the processes after `n` events. Proof device: nothing in the code corresponds. -/
def mpos (E : Env) (S : SStream) (st : E.S.σ) (evs : List (MWEv S)) (n : Nat) : Nat := (MWorld.run E S st (evs.take n)).mevs.length

theorem mw_succ {evs : List (MWEv S)} {n : Nat} {e : MWEv S} (h : evs[n]? = some e) :
    MWorld.run E S st (evs.take (n + 1)) = (MWorld.run E S st (evs.take n)).step e := by
  obtain ⟨hlt, rfl⟩ := List.getElem?_eq_some_iff.1 h
  unfold MWorld.run
  rw [List.take_add_one, List.getElem?_eq_getElem hlt, List.foldl_append]
  rfl

theorem mevs_prefix (evs : List (MWEv S)) (n : Nat) : (MWorld.run E S st (evs.take n)).mevs <+: (MWorld.run E S st evs).mevs := by
  rw [mw_take evs n]
  generalize MWorld.run E S st (evs.take n) = w
  induction evs.drop n generalizing w with
  | nil => exact List.prefix_rfl
  | cons e es ih =>
    refine List.IsPrefix.trans ?_ (ih _)
    rcases mevs_step w e with h | ⟨m, h, -⟩
    · rw [h]; exact List.prefix_rfl
    · rw [h]; exact List.prefix_append _ _

theorem mevs_take (evs : List (MWEv S)) (n : Nat) :
    (MWorld.run E S st evs).mevs.take (mpos E S st evs n) = (MWorld.run E S st (evs.take n)).mevs :=
  (List.prefix_iff_eq_take.1 (mevs_prefix evs n)).symm

theorem mpos_mono (evs : List (MWEv S)) {n m : Nat} (h : n ≤ m) : mpos E S st evs n ≤ mpos E S st evs m := by
  have := (mevs_prefix (E := E) (st := st) (evs.take m) n).length_le
  rwa [List.take_take, Nat.min_eq_left h] at this

theorem mpos_le (evs : List (MWEv S)) (n : Nat) : mpos E S st evs n ≤ (MWorld.run E S st evs).mevs.length := (mevs_prefix evs n).length_le

theorem mw_multi (evs : List (MWEv S)) : (MWorld.run E S st evs).multi = Multi.run E st (MWorld.run E S st evs).mevs := (mworldInv_run st evs).run

theorem mw_multi_take (evs : List (MWEv S)) (n : Nat) :
    (MWorld.run E S st (evs.take n)).multi = Multi.run E st ((MWorld.run E S st evs).mevs.take (mpos E S st evs n)) := by
  rw [mevs_take]; exact mw_multi _

/-- A call of a store handle, among what happened to the processes. -/
theorem mcall_forward {evs : List (MWEv S)} {p j : Nat} {x : LocalCall} {ch : Nat → Choice} (h : evs[p]? = some (.call j x ch)) :
    (MWorld.run E S st evs).mevs[mpos E S st evs p]? = some (.at j (.call x ch)) ∧ mpos E S st evs (p + 1) = mpos E S st evs p + 1 := by
  have hs : (MWorld.run E S st (evs.take (p + 1))).mevs = (MWorld.run E S st (evs.take p)).mevs ++ [.at j (.call x ch)] := by
    rw [mw_succ h]; rfl
  refine ⟨?_, by unfold mpos; rw [hs]; simp⟩
  obtain ⟨t, ht⟩ := mevs_prefix (E := E) (st := st) evs (p + 1)
  rw [hs] at ht
  rw [← ht, List.append_assoc]
  simp [mpos]

theorem mcall_back {evs : List (MWEv S)} {q j : Nat} {x : LocalCall} {ch : Nat → Choice}
    (h : (MWorld.run E S st evs).mevs[q]? = some (.at j (.call x ch))) : ∃ p, evs[p]? = some (.call j x ch) ∧ mpos E S st evs p = q := by
  have key : ∀ n, n ≤ evs.length → ∀ q, (MWorld.run E S st (evs.take n)).mevs[q]? = some (.at j (.call x ch)) →
      ∃ p, evs[p]? = some (.call j x ch) ∧ mpos E S st evs p = q := by
    intro n
    induction n with
    | zero => intro _ q hq; simp [MWorld.run, MWorld.init] at hq
    | succ n ih =>
      intro hn q hq
      have he : evs[n]? = some evs[n] := List.getElem?_eq_getElem (by omega)
      generalize evs[n] = e at he
      rw [mw_succ he] at hq
      rcases mevs_step (MWorld.run E S st (evs.take n)) e with h1 | ⟨m, h1, h2⟩
      · rw [h1] at hq; exact ih (by omega) q hq
      · rw [h1, List.getElem?_append] at hq
        split at hq
        · exact ih (by omega) q hq
        · rename_i hge
          cases hd : q - (MWorld.run E S st (evs.take n)).mevs.length with
          | succ i => rw [hd] at hq; simp at hq
          | zero =>
            rw [hd] at hq
            simp at hq
            have := h2 j x ch hq
            subst this
            exact ⟨n, he, by unfold mpos; omega⟩
  exact key evs.length (Nat.le_refl _) q (by simpa using h)

/-- A process that receives something is there. -/
theorem mserve_there (evs : List (MWEv S)) {q j c : Nat} {m : Msg}
    (h : (MWorld.run E S st evs).mevs[q]? = some (.at j (.srv (.recv c m)))) :
    j < (Multi.run E st ((MWorld.run E S st evs).mevs.take q)).procs.length := by
  have key : ∀ n, n ≤ evs.length → ∀ q, (MWorld.run E S st (evs.take n)).mevs[q]? = some (.at j (.srv (.recv c m))) →
      j < (Multi.run E st ((MWorld.run E S st (evs.take n)).mevs.take q)).procs.length := by
    intro n
    induction n with
    | zero => intro _ q hq; simp [MWorld.run, MWorld.init] at hq
    | succ n ih =>
      intro hn q hq
      have he : evs[n]? = some evs[n] := List.getElem?_eq_getElem (by omega)
      generalize evs[n] = e at he
      rw [mw_succ he] at hq ⊢
      have hw := mworldInv_run (S := S) st (evs.take n)
      generalize MWorld.run E S st (evs.take n) = w at *
      have old : w.mevs[q]? = some (.at j (.srv (.recv c m))) → ∀ more, j < (Multi.run E st ((w.mevs ++ more).take q)).procs.length := by
        intro h more
        rw [List.take_append_of_le_length (Nat.le_of_lt (List.getElem?_eq_some_iff.1 h).1)]
        exact ih (by omega) q h
      rcases mevs_step w e with h1 | ⟨m', h1, -⟩
      · rw [h1] at hq ⊢
        have := old hq []
        rwa [List.append_nil] at this
      · rw [h1] at hq ⊢
        rw [List.getElem?_append] at hq
        split at hq
        · exact old hq _
        · rename_i hge
          cases hd : q - w.mevs.length with
          | succ i => rw [hd] at hq; simp at hq
          | zero =>
            rw [hd] at hq
            simp at hq
            subst hq
            have : q = w.mevs.length := by omega
            subst this
            rw [List.take_left, ← hw.run]
            -- only `serve` makes a receipt
            cases e with
            | serve i =>
              simp only [MWorld.step] at h1
              split at h1
              · simp at h1
              · rename_i j' x hx
                split at h1
                · simp at h1
                · split at h1
                  · simp [MWorld.multiStep] at h1
                    obtain ⟨rfl, -⟩ := h1
                    obtain ⟨l, hl, -⟩ := hw.conns _ _ _ hx
                    exact (List.getElem?_eq_some_iff.1 hl).1
                  · simp at h1
            | act j' i ch =>
              simp only [MWorld.step] at h1
              split at h1
              · simp [MWorld.multiStep] at h1
              · split at h1 <;> simp [MWorld.multiStep] at h1
            | connect j' u d =>
              simp only [MWorld.step] at h1
              split at h1 <;> simp at h1
            | _ => simp [MWorld.step, MWorld.multiStep] at h1
  have := key evs.length (Nat.le_refl _) q (by simpa using h)
  simpa using this

/-! ### Without an external signer -/

/-- Nothing is forwarded if no external signer is configured. -/
theorem mno_fallback (hk : HasPassphrase E) (hst : GoodStore E st) (evs : List MEvent) (hb : E.hasFallback = false) :
    ∀ (n j : Nat) (l : LSys E), n ≤ evs.length → (Multi.run E st (evs.take n)).procs[j]? = some l → ∀ k pk data ans, (k, Ev.fell pk data ans) ∉ l.sys.hist := by
  intro n
  induction n with
  | zero => intro j l _ hl; simp [Multi.run] at hl
  | succ n ih =>
    intro j q hn hq k pk data ans
    have old := fun l hl => ih j l (by omega) hl k pk data ans
    have hev : evs[n]? = some evs[n] := List.getElem?_eq_getElem (by omega)
    generalize evs[n] = ev at hev
    rw [mrun_at hev] at hq
    rcases procs_step _ _ _ _ hq with ⟨l, st', hl, rfl⟩ | ⟨_, _, rfl⟩ | ⟨l, ev', rfl, hl, rfl⟩
    · exact old l hl
    · simp [Sys.init]
    · cases ev' with
      | call x ch => exact old l hl
      | srv ev =>
        cases ev with
        | recv c m => exact old l hl
        | restart => exact old l hl
        | step i ch =>
          simp only [LSys.step]
          cases hti : l.sys.threads[i]? with
          | none => rw [step_none _ i ch hti]; exact old l hl
          | some t =>
            cases hp : t.prog with
            | ret r => rw [step_ret _ i ch t r hti hp]; exact old l hl
            | fail x => rw [step_fail _ i ch t x hti hp]; exact old l hl
            | step a f =>
              rw [step_act _ i ch t a f hti hp]
              intro hmem
              rcases List.mem_append.1 hmem with hmem | hmem
              · exact old l hl hmem
              · obtain ⟨ev, hev, heq⟩ := List.mem_map.1 hmem
                have hev' : Ev.fell pk data ans ∈ (exec t.conn ch l.sys.sh a).2.2 := by
                  have := (Prod.mk.inj heq).2; rw [← this]; exact hev
                cases a with
                | fallback p x =>
                  have ht := List.mem_of_getElem? hti
                  obtain ⟨story, _, h⟩ := (minv_run hk hst (evs.take n)).told j l hl
                  rw [← h] at ht
                  obtain ⟨c, a, hbe⟩ := lrun_one (st := st) hk (story.map Prod.snd)
                  obtain ⟨u, hu, hs⟩ := hbe.threads.mem t ht
                  have hok := thread_act (sysInv_run hst a) hu (hs.prog ▸ hp)
                  rw [hok.2] at hb; cases hb
                | write e =>
                  simp only [exec] at hev'
                  split at hev'
                  · simp at hev'
                  · split at hev' <;> simp at hev'
                | storeTag t => simp only [exec] at hev'; split at hev' <;> simp at hev'
                | storeEd t => simp only [exec] at hev'; split at hev' <;> simp at hev'
                | storeX t => simp only [exec] at hev'; split at hev' <;> simp at hev'
                | list => simp only [exec] at hev'; split at hev' <;> simp at hev'
                | alloc => simp only [exec] at hev'; split at hev' <;> simp at hev'
                | _ => simp [exec] at hev'

/-! ### Beginnings of runs of processes -/

theorem recvAt_of_lt {evs : List MEvent} {p j k c y : Nat} {m : Msg} (h : RecvAt E st evs p j k c m) (hp : p < y) :
    RecvAt E st (evs.take y) p j k c m := by
  obtain ⟨h1, h2⟩ := h
  refine ⟨by rw [List.getElem?_take_of_lt hp]; exact h1, ?_⟩
  rw [List.take_take, Nat.min_eq_left (by omega)]; exact h2

theorem doneOf_later {evs : List MEvent} {x y z : Nat} {d : Done E} (h : DoneOf E st (evs.take y) x d) (hyz : y ≤ z) :
    DoneOf E st (evs.take z) x d := by
  obtain ⟨j, c, m, l, h1, h2, h3⟩ := h
  obtain ⟨h0, h1⟩ := recvAt_take h1
  obtain ⟨l', hl', hL⟩ := proc_later hyz h2
  exact ⟨j, c, m, l', recvAt_of_lt h1 (by omega), hl', hL.done.subset h3⟩

theorem callAt_take {evs : List MEvent} {p y : Nat} {x : LocalCall} {ch : Nat → Choice} {r : Res LocalOut} (h : CallAt E st evs p x ch r) (hp : p < y) :
    CallAt E st (evs.take y) p x ch r := by
  obtain ⟨j, l, h1, h2, h3⟩ := h
  refine ⟨j, l, by rw [List.getElem?_take_of_lt hp]; exact h1, ?_, h3⟩
  rw [List.take_take, Nat.min_eq_left (by omega)]; exact h2

end Lair
