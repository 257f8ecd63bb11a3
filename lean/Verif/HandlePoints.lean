import Verif.MultiLin
import Verif.KeystorePoints

/- A call of a store handle does what `Verif.KeystoreSpec` says. -/
namespace Lair
open Cli

section
variable {E : Env} {okLim : UInt32 → UInt32 → Bool} {room : Item → Bool} {H : List (B 64)} {Λ : List (UInt32 × UInt32)}
  {T : List Entry}

/-- What a call of the handle does to a keystore that the entries stand for; `fine`: no failure of the environment.
    Specification: nothing in the code corresponds. -/
structure HandlePoint (E : Env) (okLim : UInt32 → UInt32 → Bool) (room : Item → Bool) (H : List (B 64)) (Λ : List (UInt32 × UInt32))
    (x : LocalCall) (call : Call) (fine : Prop) (s : Shared E) (r : Res Ans) (s' : Shared E) : Prop where
  reads : fine → E.S.tbl s'.store = E.S.tbl s.store → ∃ luck, HandleLuck E x luck ∧ ∀ ks, Stands E ks (E.S.tbl s.store) →
    ∃ a, Keystore.call E.C okLim room luck ks call = (a, ks) ∧ Agrees a r
  adds : ∀ e, E.S.tbl s'.store = E.S.tbl s.store ++ [e] → ∃ item luck, HandleLuck E x luck ∧ Repr E item e ∧ Known H Λ [item] ∧
    ∀ ks, Stands E ks (E.S.tbl s.store) →
      ∃ v, Keystore.call E.C okLim room luck ks call = (some v, ks ++ [item]) ∧ Agrees (some v) r

theorem no_growth {α : Type} {l : List α} {e : α} : l ≠ l ++ [e] := by
  intro h
  have := congrArg List.length h
  simp at this

theorem handle_luck {x : LocalCall} {seed : B 32} {n : Nat} (h : ∀ s, x.given = some s → seed = s) :
    HandleLuck E x (mkLuck E seed (zero 24) n none) := ⟨⟨n, rfl⟩, rfl, h⟩

/-- The last step of a creation. -/
theorem handle_finish {α : Type} (hv : View E okLim room H Λ T) {x : LocalCall} {call : Call} {fine : Prop} {s : Shared E} (hi : E.S.ok s.store)
    (ch : Nat → Choice) (hfine : fine → ∀ n, (ch n).fault = none) (e : Entry) (a : α) (to : α → Ans) (item : Item) (hr : Repr E item e)
    (hk : Known H Λ [item]) (luck : Luck) (hl : HandleLuck E x luck)
    (hcall : ∀ ks, Keystore.call E.C okLim room luck ks call = Keystore.add E.C room ks item (to a)) (hto : ∀ l, to a ≠ .entries l) :
    HandlePoint E okLim room H Λ x call fine s ((runAlone ch s (finishWith e a)).1.map to) (runAlone ch s (finishWith e a)).2 := by
  have hrun : ∀ x : Res Unit × Shared E × List Ev, exec 0 (ch 0) s (.write e) = x →
      runAlone ch s (finishWith e a) = runAlone (fun n => ch (n + 1)) x.2.1 ((Prog.ofRes x.1).bind fun _ => .ret a) := by
    rintro x rfl; rfl
  have hag : Agrees (some (to a)) (.ok (to a)) := by
    have := hto
    cases h : to a with
    | entries l => exact absurd h (hto l)
    | _ => simp [Agrees]
  cases hf : (ch 0).fault with
  | some er =>
    have h1 : exec 0 (ch 0) s (.write e) = (.error er, s, [.fault]) := by simp only [exec, hf]
    rw [hrun _ h1]
    refine ⟨fun h => ?_, fun e' h => absurd h no_growth⟩
    have := hfine h 0
    rw [hf] at this; cases this
  | none =>
    have e1 : (exec 0 (ch 0) s (.write e)).1 = (E.S.I.write s.store e).1 := by simp [exec, hf]; rfl
    have e2 : (exec 0 (ch 0) s (.write e)).2.1 = { s with store := (E.S.I.write s.store e).2 } := by simp [exec, hf]
    by_cases h : E.S.fits e = false ∨ ∃ e' ∈ E.S.tbl s.store, Clash e' e
    · obtain ⟨⟨y, h1⟩, h2⟩ := E.S.R.write_clash s.store e hi h
      rw [h1] at e1
      rw [h2] at e2
      rw [hrun (.error y, s, (exec 0 (ch 0) s (.write e)).2.2) (Prod.ext e1 (Prod.ext e2 rfl))]
      refine ⟨fun _ _ => ⟨luck, hl, fun ks hs => ⟨none, ?_, trivial⟩⟩, fun e' h => absurd h no_growth⟩
      rw [hcall]; exact add_refused hv hs hr h
    · simp only [not_or, not_exists, not_and, Bool.not_eq_false] at h
      obtain ⟨h1, h2, h3⟩ := E.S.R.write_new s.store e hi h.1 h.2
      rw [h1] at e1
      rw [hrun (.ok (), { s with store := (E.S.I.write s.store e).2 }, (exec 0 (ch 0) s (.write e)).2.2) (Prod.ext e1 (Prod.ext e2 rfl))]
      have hst : E.S.tbl (runAlone (E := E) (fun n => ch (n + 1)) { s with store := (E.S.I.write s.store e).2 }
          ((Prog.ofRes (.ok () : Res Unit)).bind fun _ => .ret a)).2.store = E.S.tbl s.store ++ [e] := h3
      refine ⟨fun _ h' => ?_, fun e' h' => ?_⟩
      · rw [hst] at h'; exact absurd h'.symm no_growth
      · rw [hst] at h'
        have : e = e' := by simpa using h'
        subst this
        refine ⟨item, luck, hl, hr, hk, fun ks hs => ⟨to a, ?_, hag⟩⟩
        rw [hcall]; exact add_accepted hv hs hr h.1 h.2

theorem HandlePoint.same {x : LocalCall} {call : Call} {fine : Prop} {s : Shared E} {r : Res Ans}
    (h : fine → ∃ luck, HandleLuck E x luck ∧ ∀ ks, Stands E ks (E.S.tbl s.store) →
      ∃ a, Keystore.call E.C okLim room luck ks call = (a, ks) ∧ Agrees a r) : HandlePoint E okLim room H Λ x call fine s r s :=
  ⟨fun hf _ => h hf, fun _ h => absurd h no_growth⟩

/-- Inserting a seed. -/
theorem handle_seed (hv : View E okLim room H Λ T) {x : LocalCall} {fine : Prop} {s : Shared E} (hi : E.S.ok s.store)
    (ch : Nat → Choice) (hfine : fine → ∀ n, (ch n).fault = none) (seed : B 32) (t : String) (y : Bool)
    (hx : ∀ s, x.given = some s → seed = s) :
    HandlePoint E okLim room H Λ x (.newSeed t none y) fine s ((runAlone ch s (insertSeed E seed t y)).1.map Ans.seedInfo)
      (runAlone ch s (insertSeed E seed t y)).2 := by
  rw [runAlone_insertSeed_eq]
  split
  · rename_i er hf
    refine .same fun h => ?_
    have := hfine h 0
    rw [hf] at this; cases this
  · refine handle_finish hv hi _ (fun h n => hfine h _) _ _ _ (.seed t seed y) (.seed _ _ _ _ (SecretSized.decrypt_encrypt ..)) ?_
      (mkLuck E seed (zero 24) 0 none) (handle_luck hx) (fun ks => rfl) (by simp)
    intro t s x pw ops mem h; simp at h

/-- Inserting a deep-locked seed. -/
theorem handle_deep (hv : View E okLim room H Λ T) {x : LocalCall} {fine : Prop} {s : Shared E} (hi : E.S.ok s.store)
    (ch : Nat → Choice) (hfine : fine → ∀ n, (ch n).fault = none) (seed : B 32) (t : String) (ops mem : UInt32) (pass : B 64) (y : Bool)
    (hp : pass ∈ H) (hl : (ops, mem) ∈ Λ) (hx : ∀ s, x.given = some s → seed = s) :
    HandlePoint E okLim room H Λ x (.newSeed t (some ⟨some pass, ops, mem⟩) y) fine s
      ((runAlone ch s (insertDeep E seed t ops mem pass y)).1.map Ans.seedInfo) (runAlone ch s (insertDeep E seed t ops mem pass y)).2 := by
  rw [runAlone_insertDeep_eq]
  split
  · rename_i er hf
    refine .same fun h => ?_
    have := hfine h 0
    rw [hf] at this; cases this
  · split
    · rename_i ha
      refine .same fun _ => ⟨_, handle_luck (n := 0) hx, fun ks _ => ⟨none, ?_, trivial⟩⟩
      have := hv.lim pass.val ((ch 1).rnd 16) ops mem
      rw [ha] at this
      simp [Keystore.call, Keystore.create, ← this]
    · rename_i key ha
      have hlim := hv.lim pass.val ((ch 1).rnd 16) ops mem
      rw [ha] at hlim
      refine handle_finish hv hi _ (fun h n => hfine h _) _ _ _ (.locked t seed y pass ops mem)
        (.locked _ _ _ _ _ _ _ _ _ ha (SecretSized.decrypt_encrypt ..)) ?_
        (mkLuck E seed (zero 24) 0 none) (handle_luck hx) (fun ks => ?_) (by simp)
      · intro t s x pw ops mem h
        simp only [List.mem_singleton, Item.locked.injEq] at h
        obtain ⟨_, _, _, rfl, rfl, rfl⟩ := h
        exact ⟨hp, hl⟩
      · simp [Keystore.call, Keystore.create, ← hlim, mkLuck]

/-- Making a certificate. -/
theorem handle_cert (hv : View E okLim room H Λ T) {x : LocalCall} {fine : Prop} {s : Shared E} (hi : E.S.ok s.store)
    (ch : Nat → Choice) (hfine : fine → ∀ n, (ch n).fault = none) (t : String) (hx : x.given = none) :
    HandlePoint E okLim room H Λ x (.newCert t) fine s ((runAlone ch s (newCert E t)).1.map Ans.certInfo)
      (runAlone ch s (newCert E t)).2 := by
  have hr : ∀ x : Res Unit × Shared E × List Ev, exec 0 (ch 0) s .alloc = x →
      runAlone ch s (newCert E t) = runAlone (fun n => ch (n + 1)) x.2.1 ((Prog.ofRes x.1).bind fun _ =>
        .step .genCert fun (g : CertGen) => .step (.random 24) fun (hdr : B 24) =>
          finishWith (.cert t ⟨g.sni, E.C.blake2b32 g.cert, g.cert⟩ (SecretData.encrypt E.C E.bidi hdr g.priv))
            ⟨g.sni, E.C.blake2b32 g.cert, g.cert⟩) := by
    rintro x rfl; rfl
  cases hf : (ch 0).fault with
  | some er =>
    rw [hr _ (exec_alloc_fault hf)]
    refine HandlePoint.same fun h => ?_
    have := hfine h 0
    rw [hf] at this; cases this
  | none =>
    rw [hr _ (exec_alloc_ok hf)]
    refine handle_finish (a := (⟨(E.certGen (ch 1).cert).sni, E.C.blake2b32 (E.certGen (ch 1).cert).cert, (E.certGen (ch 1).cert).cert⟩ : CertInfo))
      hv hi (fun n => ch (n + 3)) (fun h n => hfine h _) _ Ans.certInfo
      (.cert t (E.certGen (ch 1).cert).sni (E.certGen (ch 1).cert).cert (E.certGen (ch 1).cert).priv)
      (.cert _ _ _ _ _ (SecretData.decrypt_encrypt _ E.L ..)) ?_
      (mkLuck E (zero 32) (zero 24) (ch 1).cert none) (handle_luck (by simp [hx])) (fun ks => rfl) (by simp)
    intro t s x pw ops mem h; simp at h

theorem handle_fresh {x : LocalCall} {call : Call} {fine : Prop} {s : Shared E} (ch : Nat → Choice) (hfine : fine → ∀ n, (ch n).fault = none)
    (to : SeedInfo → Ans) (p : B 32 → Prog SeedInfo)
    (h : HandlePoint E okLim room H Λ x call fine s ((runAlone (fun n => ch (n + 2)) s (p ((ch 1).rnd 32))).1.map to)
      (runAlone (fun n => ch (n + 2)) s (p ((ch 1).rnd 32))).2) :
    HandlePoint E okLim room H Λ x call fine s ((runAlone ch s (alloc.bind fun _ => .step (.random 32) p)).1.map to)
      (runAlone ch s (alloc.bind fun _ => .step (.random 32) p)).2 := by
  have hr : ∀ x : Res Unit × Shared E × List Ev, exec 0 (ch 0) s .alloc = x →
      runAlone ch s (alloc.bind fun _ => .step (.random 32) p) =
        runAlone (fun n => ch (n + 1)) x.2.1 ((Prog.ofRes x.1).bind fun _ => .step (.random 32) p) := by
    rintro x rfl; rfl
  cases hf : (ch 0).fault with
  | some er =>
    rw [hr _ (exec_alloc_fault hf)]
    refine HandlePoint.same fun h => ?_
    have := hfine h 0
    rw [hf] at this; cases this
  | none =>
    rw [hr _ (exec_alloc_ok hf)]
    exact h

/-- Every call of the handle. -/
theorem handle_point (hv : View E okLim room H Λ T) (s : Shared E) (hi : Inv s) (x : LocalCall) (call : Call)
    (hc : x.asCall = some call) (hw : call.within H Λ) (ch : Nat → Choice) :
    HandlePoint E okLim room H Λ x call (∀ n, (ch n).fault = none) s ((runAlone ch s (x.prog E)).1.map LocalOut.asAns)
      (runAlone ch s (x.prog E)).2 := by
  have hmap : ∀ {α : Type} (r : Res α) (f : α → LocalOut), (r.map f).map LocalOut.asAns = r.map (LocalOut.asAns ∘ f) := by
    intro α r f; cases r <;> rfl
  have hid : ∀ h : ∀ n, (ch n).fault = none, ∀ n, (ch n).fault = none := fun h => h
  cases x with
  | insertSeed seed t y =>
    cases hc
    simp only [LocalCall.prog, runAlone_bind_ret, hmap]
    exact handle_seed hv hi.ok ch hid seed t y (by simp [LocalCall.given])
  | newSeed t y =>
    cases hc
    simp only [LocalCall.prog, runAlone_bind_ret, hmap]
    exact handle_fresh ch hid _ _ (handle_seed hv hi.ok _ (fun h n => h _) _ t y (by simp [LocalCall.given]))
  | insertDeep seed t ops mem pass y =>
    cases hc
    obtain ⟨h1, h2⟩ := hw _ rfl
    simp only [LocalCall.prog, runAlone_bind_ret, hmap]
    exact handle_deep hv hi.ok ch hid seed t ops mem pass y (h1 _ rfl) h2 (by simp [LocalCall.given])
  | newDeep t ops mem pass y =>
    cases hc
    obtain ⟨h1, h2⟩ := hw _ rfl
    simp only [LocalCall.prog, runAlone_bind_ret, hmap]
    exact handle_fresh ch hid _ _ (handle_deep hv hi.ok _ (fun h n => h _) _ t ops mem pass y (h1 _ rfl) h2 (by simp [LocalCall.given]))
  | newCert t =>
    cases hc
    simp only [LocalCall.prog, runAlone_bind_ret, hmap]
    exact handle_cert hv hi.ok ch hid t rfl
  | list =>
    cases hc
    obtain ⟨l, h1, h2⟩ := E.S.R.list_perm s.store hi.ok
    have hr : ∀ y : Res (List EntryInfo) × Shared E × List Ev, exec 0 (ch 0) s .list = y →
        runAlone ch s (LocalCall.list.prog E) = runAlone (fun n => ch (n + 1)) y.2.1 ((Prog.ofRes y.1).bind fun l => .ret (.list l)) := by
      rintro y rfl; rfl
    cases hf : (ch 0).fault with
    | some er =>
      rw [hr (.error er, s, [.fault]) (by simp only [exec, hf]; rfl)]
      refine HandlePoint.same fun h => ?_
      have := h 0
      rw [hf] at this; cases this
    | none =>
      rw [hr (.ok l, s, []) (by simp only [exec, hf, h1]; rfl)]
      refine HandlePoint.same fun _ => ⟨_, handle_luck (seed := zero 32) (n := 0) (by simp [LocalCall.given]), fun ks hs => ⟨_, rfl, ?_⟩⟩
      rw [hs.map_info]
      exact h2
  | byTag t =>
    cases hc
    have hr : ∀ y : Res Entry × Shared E × List Ev, exec 0 (ch 0) s (.storeTag t) = y →
        runAlone ch s ((LocalCall.byTag t).prog E) = runAlone (fun n => ch (n + 1)) y.2.1 ((Prog.ofRes y.1).bind fun e => .ret (.entry e)) := by
      rintro y rfl; rfl
    cases hf : (ch 0).fault with
    | some er =>
      rw [hr (.error er, s, [.fault]) (by simp only [exec, hf]; rfl)]
      refine HandlePoint.same fun h => ?_
      have := h 0
      rw [hf] at this; cases this
    | none =>
      have hx : ∀ z, E.S.I.byTag s.store t = z → exec 0 (ch 0) s (.storeTag t) = (z, s, []) := by
        rintro z rfl; simp only [exec, hf]; rfl
      cases hb : E.S.I.byTag s.store t with
      | error er =>
        rw [hr _ (hx _ hb)]
        refine HandlePoint.same fun _ => ⟨_, handle_luck (seed := zero 32) (n := 0) (by simp [LocalCall.given]), fun ks hs => ⟨none, ?_, trivial⟩⟩
        have : ∀ e ∈ E.S.tbl s.store, e.tag ≠ t := by
          intro e he ht
          have := (E.S.R.byTag_iff s.store t e hi.ok).2 ⟨he, ht⟩
          rw [hb] at this; cases this
        simp [Keystore.call, Keystore.answer, hs.tag_none this]
      | ok e =>
        rw [hr _ (hx _ hb)]
        obtain ⟨he, ht⟩ := (E.S.R.byTag_iff s.store t e hi.ok).1 hb
        refine HandlePoint.same fun _ => ⟨_, handle_luck (seed := zero 32) (n := 0) (by simp [LocalCall.given]), fun ks hs => ?_⟩
        obtain ⟨i, h1, h2⟩ := hs.tag_some hi.distinct he ht
        refine ⟨some (.entry (i.info E.C)), by simp [Keystore.call, Keystore.answer, h1], ?_⟩
        rw [h2.info]; rfl
  | byEd k => cases hc
  | byX k => cases hc

end
end Lair
