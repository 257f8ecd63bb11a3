import Verif.HandlerSpec

/- Every handler meets its specification under arbitrary interference. -/
namespace Lair

section
variable {E : Env} {c : Nat} {m : Msg} {s : Shared E} {l : List Ev} {β : Type}

theorem Placed.later {s s' : Shared E} {src : List Entry} {e : Entry} (h : Placed s src e) (hx : Ext s s') : Placed s' src e := by
  obtain ⟨hf, pre, more, ht, hs⟩ := h
  obtain ⟨⟨m, hm⟩, _⟩ := hx
  exact ⟨hf, pre, more ++ m, by rw [hm, ht]; simp, hs⟩

theorem Placed.sub {s : Shared E} {src src' : List Entry} {e : Entry} (h : Placed s src e) (hx : ∀ a ∈ src', a ∈ src) : Placed s src' e := by
  obtain ⟨hf, pre, more, ht, hs⟩ := h
  exact ⟨hf, pre, more, ht, fun a ha => hs a (hx a ha)⟩

theorem Sat.write {e : Entry} {k : Res Unit → Prog β} {Q : Shared E → List Ev → Res β → Prop}
    (hu : s.unlocked c = true) (hwf : Made E e)
    (hf : ∀ s' x, Ext s s' → Inv s' → Sat c m Q (k (.error x)) s' (l ++ [.fault]))
    (hr : ∀ s' x, Ext s s' → Inv s' → (E.S.fits e = false ∨ ∃ e' ∈ s'.tbl, Clash e' e) → Sat c m Q (k (.error x)) s' l)
    (h : ∀ s', Ext s s' → Inv s' → e ∈ s'.tbl → (∀ e' ∈ s.tbl, ¬ Clash e' e) → Placed s' s.tbl e → Sat c m Q (k (.ok ())) s' (l ++ [.wrote e])) :
    Sat c m Q (.step (.write e) k) s l := by
  intro t ht hi
  have hok : ActOk c m t (.write e) := ⟨ht.unlocked c hu, hwf⟩
  refine ⟨hok, fun ch => ?_⟩
  cases hfl : ch.fault with
  | some x => simp only [exec, hfl]; exact hf t x ht hi
  | none =>
    rcases exec_write c ch t hi e hfl with ⟨h1, h2, h3, h4, h5⟩ | ⟨x, h1, h2, h3, h4⟩
    · have hx := exec_ext c ch t hi (.write e)
      have hi' := exec_inv c m ch t hi (.write e) hok
      rw [h1, h2]
      exact h _ (ht.trans hx) hi' (by rw [h3]; simp) (fun e' he' => h5 e' (ht.mem he'))
        ⟨h4, t.tbl, [], h3, fun a ha => ht.mem ha⟩
    · rw [h1, h2, h3, List.append_nil]
      exact hr t x ht hi h4

theorem made_seed (tag : String) (seed : B 32) (x : Bool) (hdr : B 24) :
    Made E (.seed tag (infoOf E seed x) (SecretSized.encrypt E.C E.L E.bidi hdr seed)) :=
  ⟨hdr, seed, rfl, rfl, rfl⟩

theorem made_deep (tag : String) (seed : B 32) (x : Bool) (hdr : B 24) (salt : B 16) (ops mem : UInt32) (pass : B 64)
    (key : B 32) (h : E.C.argon2id pass.val salt ops mem = some key) :
    Made E (.deep tag (infoOf E seed x) salt ops mem (SecretSized.encrypt E.C E.L key hdr seed)) :=
  ⟨hdr, pass, key, seed, h, rfl, rfl, rfl⟩

theorem made_cert (tag : String) (n : Nat) (hdr : B 24) :
    Made E (.cert tag ⟨(E.certGen n).sni, E.C.blake2b32 (E.certGen n).cert, (E.certGen n).cert⟩
      (SecretData.encrypt E.C E.bidi hdr (E.certGen n).priv)) :=
  ⟨hdr, n, rfl, rfl⟩

theorem Sat.insertSeed {seed : B 32} {tag : String} {x : Bool} {k : SeedInfo → Prog β}
    {Q : Shared E → List Ev → Res β → Prop} (hi : Inv s) (hu : s.unlocked c = true)
    (hf : ∀ s' er, Ext s s' → Inv s' → Q s' (l ++ [.fault]) (.error er))
    (hr : ∀ s' er, Ext s s' → Inv s' → CannotCreate c s' seed tag none x → Q s' l (.error er))
    (h : ∀ s' e, Ext s s' → Inv s' → IsNew E c seed tag none x e → e ∈ s'.tbl → (∀ e' ∈ s.tbl, ¬ Clash e' e) → Placed s' s.tbl e →
      Sat c m Q (k (infoOf E seed x)) s' (l ++ [.wrote e])) :
    Sat c m Q ((Lair.insertSeed E seed tag x).bind k) s l := by
  apply Sat.bind hi
  apply Sat.alloc
  · exact fun s' er h1 h2 => hf s' er h1 h2
  · intro s1 h1 hi1
    apply Sat.random
    intro s2 h2 hi2 hdr
    have h02 := h1.trans h2
    apply Sat.write (h02.unlocked c hu) (made_seed tag seed x hdr)
    · exact fun s' er h3 hi3 => fun t ht hit => hf t er (h02.trans (h3.trans ht)) hit
    · intro s' er h3 hi3 hwhy
      refine fun t ht hit => hr t er (h02.trans (h3.trans ht)) hit ?_
      refine Or.inr (Or.inr ⟨_, ⟨hdr, rfl⟩, ?_⟩)
      rcases hwhy with hw | ⟨e', he', hc⟩
      · exact Or.inl hw
      · exact Or.inr ⟨e', ht.mem he', hc⟩
    · intro s' h3 hi3 hm hn hpl
      intro t ht hit
      exact h t _ (h02.trans (h3.trans ht)) hit ⟨hdr, rfl⟩ (ht.mem hm) (fun e' he' => hn e' (h02.mem he'))
        ((hpl.later ht).sub fun a ha => h02.mem ha)

theorem Sat.insertDeep {seed : B 32} {tag : String} {d : DeepPass} {pass : B 64} {x : Bool} {k : SeedInfo → Prog β}
    {Q : Shared E → List Ev → Res β → Prop} (hi : Inv s) (hu : s.unlocked c = true)
    (hp : decPass E c d.pass = some pass)
    (hf : ∀ s' er, Ext s s' → Inv s' → Q s' (l ++ [.fault]) (.error er))
    (hr : ∀ s' er, Ext s s' → Inv s' → CannotCreate c s' seed tag (some d) x → Q s' l (.error er))
    (h : ∀ s' e, Ext s s' → Inv s' → IsNew E c seed tag (some d) x e → e ∈ s'.tbl → (∀ e' ∈ s.tbl, ¬ Clash e' e) → Placed s' s.tbl e →
      Sat c m Q (k (infoOf E seed x)) s' (l ++ [.wrote e])) :
    Sat c m Q ((Lair.insertDeep E seed tag d.ops d.mem pass x).bind k) s l := by
  apply Sat.bind hi
  apply Sat.alloc
  · exact fun s' er h1 h2 => hf s' er h1 h2
  · intro s1 h1 hi1
    apply Sat.random
    intro s2 h2 hi2 salt
    apply Sat.ofOpt
    · exact fun s' hnone h3 hi3 => hr s' _ (h1.trans (h2.trans h3)) hi3 (Or.inr (Or.inl ⟨d, pass, salt, rfl, hp, hnone⟩))
    intro key hkey
    apply Sat.random
    intro s3 h3 hi3 hdr
    have h03 := h1.trans (h2.trans h3)
    apply Sat.write (h03.unlocked c hu) (made_deep tag seed x hdr salt d.ops d.mem pass key hkey)
    · exact fun s' er h3 hi3 => fun t ht hit => hf t er (h03.trans (h3.trans ht)) hit
    · intro s' er h3 hi3 hwhy
      refine fun t ht hit => hr t er (h03.trans (h3.trans ht)) hit ?_
      refine Or.inr (Or.inr ⟨_, ⟨pass, salt, key, hdr, hp, hkey, rfl⟩, ?_⟩)
      rcases hwhy with hw | ⟨e', he', hc⟩
      · exact Or.inl hw
      · exact Or.inr ⟨e', ht.mem he', hc⟩
    · intro s' h4 hi4 hm hn hpl
      intro t ht hit
      exact h t _ (h03.trans (h4.trans ht)) hit ⟨pass, salt, key, hdr, hp, hkey, rfl⟩ (ht.mem hm)
        (fun e' he' => hn e' (h03.mem he')) ((hpl.later ht).sub fun a ha => h03.mem ha)

theorem Sat.insertMaybeDeep {seed : B 32} {tag : String} {d : Option DeepPass} {x : Bool} {k : SeedInfo → Prog β}
    {Q : Shared E → List Ev → Res β → Prop} (hi : Inv s) (hu : s.unlocked c = true)
    (hf : ∀ s' er, Ext s s' → Inv s' → Q s' (l ++ [.fault]) (.error er))
    (hr : ∀ s' er, Ext s s' → Inv s' → CannotCreate c s' seed tag d x → Q s' l (.error er))
    (h : ∀ s' e, Ext s s' → Inv s' → IsNew E c seed tag d x e → e ∈ s'.tbl → (∀ e' ∈ s.tbl, ¬ Clash e' e) → Placed s' s.tbl e →
      Sat c m Q (k (infoOf E seed x)) s' (l ++ [.wrote e])) :
    Sat c m Q ((Lair.insertMaybeDeep E c seed tag d x).bind k) s l := by
  cases d with
  | none => exact Sat.insertSeed hi hu hf hr h
  | some d =>
    unfold Lair.insertMaybeDeep
    apply Sat.bind hi
    apply Sat.ofOpt
    · exact fun s' hn h1 hi1 => hr s' _ h1 hi1 (Or.inl ⟨d, rfl, hn⟩)
    · intro pass hp
      have := Sat.insertDeep (k := Prog.ret) (Q := Cont c m Q k) (l := l) (m := m) (seed := seed) (tag := tag) (x := x) hi hu hp hf hr
        (fun s' e h1 h2 h3 h4 h5 h6 t ht hit => (h s' e h1 h2 h3 h4 h5 h6).later ht)
      have hb : ∀ p : Prog SeedInfo, p.bind Prog.ret = p := by
        intro p
        induction p with
        | ret a => rfl
        | fail e => rfl
        | step a k ih => simp only [Prog.bind, ih]
      rw [hb] at this
      exact this

end

section
variable {E : Env} {c : Nat} {s₀ : Shared E}

/-- Final state bookkeeping used in every handler. -/
theorem lockedOut {P : Prop} {l : List Ev} {o : Res Resp} (hl : l = []) (ho : o = .error "KeystoreLocked")
    (h : s₀.unlocked c = false) : (l = [] ∧ o = .error "KeystoreLocked" ∧ s₀.unlocked c = false) ∨ P := Or.inl ⟨hl, ho, h⟩

/-- Handler `p` meets the specification `HSpec` when run from `s₀` (ghost). -/
abbrev HOk (E : Env) (c : Nat) (s₀ : Shared E) (m : Msg) (p : Prog Resp) : Prop :=
  Sat c m (fun s₁ l o => HSpec c s₀ s₁ l o m) p s₀ []

theorem ok_hello (i : String) : HOk E c s₀ (.req i .hello) (hHello E) := fun _ _ _ => ⟨rfl, rfl⟩

theorem ok_res (i : String) (r : Resp) : HOk E c s₀ (.res i r) (handle E c (.res i r)) := fun _ _ _ => ⟨rfl, rfl⟩

theorem ok_unlock (i : String) (p : SecretSized 81) : HOk E c s₀ (.req i (.unlock p)) (hUnlock E c p) := by
  apply Sat.alloc
  · exact fun s' e h hi => Or.inr (Or.inr ⟨rfl, e, rfl⟩)
  · intro s1 h1 hi1
    apply Sat.ofRes
    · intro s2 e he h2 hi2
      exact Or.inr (Or.inl ⟨⟨rfl, e, rfl⟩, by rw [he]; simp⟩)
    · intro _ hok
      apply Sat.setUnlocked ⟨i, p, rfl, hok⟩
      intro s2 h2 hi2 hu
      exact fun t ht hi => Or.inl ⟨rfl, rfl, hok, ht.unlocked c hu⟩

theorem ok_getEntry (i : String) (t : String) : HOk E c s₀ (.req i (.getEntry t)) (hGetEntry E t) := by
  apply Sat.check
  · exact fun s' h hi hl => Or.inl ⟨rfl, rfl, hl⟩
  intro s1 h1 hi1 hu
  apply Sat.fullByTag hu
  · exact fun s' x h2 hi2 => Or.inr ⟨h2.unlocked c hu, Or.inl ⟨rfl, x, rfl⟩⟩
  · exact fun s' x h2 hi2 hn => Or.inr ⟨h2.unlocked c hu, Or.inr (Or.inl ⟨⟨rfl, x, rfl⟩, fun e he => hn e (h1.mem he)⟩)⟩
  · intro s2 f h2 hi2 hf ht s3 h3 hi3
    exact Or.inr ⟨(h2.trans h3).unlocked c hu, Or.inr (Or.inr ⟨rfl, f.entry, h3.mem hf.1, ht, rfl⟩)⟩

theorem ok_list (i : String) : HOk E c s₀ (.req i .listEntries) hList := by
  apply Sat.check
  · exact fun s' h hi hl => Or.inl ⟨rfl, rfl, hl⟩
  intro s1 h1 hi1 hu s2 h2 hi2
  refine ⟨h2.unlocked c hu, fun ch => ?_⟩
  cases hfl : ch.fault with
  | some x => simp only [exec, hfl]; exact fun t ht hi => Or.inr ⟨(h2.trans ht).unlocked c hu, Or.inl ⟨rfl, x, rfl⟩⟩
  | none =>
    obtain ⟨infos, hl, hp⟩ := E.S.R.list_perm s2.store hi2.ok
    simp only [exec, hfl, hl, List.append_nil]
    exact fun t ht hi => Or.inr ⟨(h2.trans ht).unlocked c hu, Or.inr ⟨rfl, s2, infos, h1.trans h2, ht, hi2, hp, rfl⟩⟩

theorem create_ok {seed : B 32} {tag : String} {d : Option DeepPass} {x : Bool} {mk : SeedInfo → Resp} {s s₁ : Shared E} {e : Entry} {src : List Entry}
    (h : Ext s₀ s) (hnew : IsNew E c seed tag d x e) (hm : e ∈ s₁.tbl) (hn : ∀ e' ∈ s.tbl, ¬ Clash e' e) (hpl : Placed s₁ s.tbl e)
    (hsrc : ∀ a ∈ src, a ∈ s.tbl) : CreateSpec c s₀ s₁ [.wrote e] (.ok (mk (infoOf E seed x))) seed tag d x mk src :=
  Or.inl ⟨e, hnew, rfl, rfl, hm, fun e' he' => hn e' (h.mem he'), hpl.sub hsrc⟩

theorem ok_newSeed (i : String) (tag : String) (d : Option DeepPass) (x : Bool) :
    HOk E c s₀ (.req i (.newSeed tag d x)) (hNewSeed E c tag d x) := by
  apply Sat.check
  · exact fun s' h hi hl => Or.inl ⟨rfl, rfl, hl⟩
  intro s1 h1 hi1 hu
  cases d with
  | some d =>
    apply Sat.ofOpt
    · exact fun s' hn h2 hi2 => Or.inr ⟨h2.unlocked c hu, Or.inr (Or.inl ⟨⟨rfl, _, rfl⟩, d, rfl, hn⟩)⟩
    intro pass hp
    apply Sat.random
    intro s2 h2 hi2 seed
    apply Sat.insertDeep hi2 (h2.unlocked c hu) hp
    · exact fun s' er h3 hi3 => Or.inr ⟨(h2.trans h3).unlocked c hu, Or.inl ⟨rfl, er, rfl⟩⟩
    · exact fun s' er h3 hi3 hc =>
        Or.inr ⟨(h2.trans h3).unlocked c hu, Or.inr (Or.inr ⟨seed, Or.inr ⟨⟨rfl, er, rfl⟩, hc⟩⟩)⟩
    · intro s3 e h3 hi3 hnew hm hn hpl s4 h4 hi4
      exact Or.inr ⟨(h2.trans (h3.trans h4)).unlocked c hu, Or.inr (Or.inr ⟨seed,
        create_ok (h1.trans h2) hnew (h4.mem hm) hn (hpl.later h4) (by simp)⟩)⟩
  | none =>
    apply Sat.random
    intro s2 h2 hi2 seed
    apply Sat.insertSeed hi2 (h2.unlocked c hu)
    · exact fun s' er h3 hi3 => Or.inr ⟨(h2.trans h3).unlocked c hu, Or.inl ⟨rfl, er, rfl⟩⟩
    · exact fun s' er h3 hi3 hc =>
        Or.inr ⟨(h2.trans h3).unlocked c hu, Or.inr (Or.inr ⟨seed, Or.inr ⟨⟨rfl, er, rfl⟩, hc⟩⟩)⟩
    · intro s3 e h3 hi3 hnew hm hn hpl s4 h4 hi4
      exact Or.inr ⟨(h2.trans (h3.trans h4)).unlocked c hu, Or.inr (Or.inr ⟨seed,
        create_ok (h1.trans h2) hnew (h4.mem hm) hn (hpl.later h4) (by simp)⟩)⟩

theorem ok_derive (i : String) (src : String) (sd : Option DeepPass) (dst : String) (dd : Option DeepPass)
    (path : List UInt32) : HOk E c s₀ (.req i (.deriveSeed src sd dst dd path)) (hDerive E c src sd dst dd path) := by
  apply Sat.check
  · exact fun s' h hi hl => Or.inl ⟨rfl, rfl, hl⟩
  intro s1 h1 hi1 hu s2 h2 hi2
  refine ⟨h2.unlocked c hu, fun ch => ?_⟩
  cases hfl : ch.fault with
  | some x => simp only [exec, hfl]; exact fun t ht hi => Or.inr ⟨(h2.trans ht).unlocked c hu, Or.inl ⟨rfl, x, rfl⟩⟩
  | none =>
    simp only [exec, hfl, List.append_nil]
    cases hg : E.S.I.byTag s2.store src with
    | error x =>
      refine fun t ht hi => Or.inr ⟨(h2.trans ht).unlocked c hu, Or.inr (Or.inl ⟨⟨rfl, x, rfl⟩, ?_⟩)⟩
      intro e he het
      have := (E.S.R.byTag_iff s2.store src e hi2.ok).2 ⟨(h1.trans h2).mem he, het⟩
      rw [hg] at this; cases this
    | ok e =>
      obtain ⟨hm, ht⟩ := (E.S.R.byTag_iff s2.store src e hi2.ok).1 hg
      apply Sat.alloc
      · exact fun s' er h3 hi3 => Or.inr ⟨(h2.trans h3).unlocked c hu, Or.inl ⟨rfl, er, rfl⟩⟩
      intro s3 h3 hi3
      apply Sat.ofRes
      · exact fun s' x hx h4 hi4 => Or.inr ⟨(h2.trans (h3.trans h4)).unlocked c hu,
          Or.inr (Or.inr ⟨e, (h3.trans h4).mem hm, ht, Or.inl ⟨⟨rfl, x, rfl⟩, x, hx⟩⟩)⟩
      · rintro ⟨seed, info⟩ hds
        apply Sat.insertMaybeDeep hi3 ((h2.trans h3).unlocked c hu)
        · exact fun s' er h4 hi4 => Or.inr ⟨(h2.trans (h3.trans h4)).unlocked c hu, Or.inl ⟨rfl, er, rfl⟩⟩
        · exact fun s' er h4 hi4 hc => Or.inr ⟨(h2.trans (h3.trans h4)).unlocked c hu,
            Or.inr (Or.inr ⟨e, (h3.trans h4).mem hm, ht, Or.inr ⟨seed, info, hds,
              Or.inr ⟨⟨rfl, er, rfl⟩, hc⟩, by simp⟩⟩)⟩
        · intro s4 e' h4 hi4 hnew hm' hn hpl s5 h5 hi5
          exact Or.inr ⟨(h2.trans (h3.trans (h4.trans h5))).unlocked c hu,
            Or.inr (Or.inr ⟨e, (h3.trans (h4.trans h5)).mem hm, ht, Or.inr ⟨seed, info, hds,
              create_ok (h1.trans (h2.trans h3)) hnew (h5.mem hm') hn (hpl.later h5)
                (by intro a ha; simp at ha; subst ha; exact h3.mem hm), by
                intro e'' he''
                simp at he''; subst he''
                exact hn e (h3.mem hm)⟩⟩)⟩

theorem ok_export (i : String) (t : String) (sender recipient : B 32) (d : Option (SecretSized 81)) :
    HOk E c s₀ (.req i (.exportSeed t sender recipient d)) (hExport E t sender recipient) := by
  apply Sat.check
  · exact fun s' h hi hl => Or.inl ⟨rfl, rfl, hl⟩
  intro s1 h1 hi1 hu
  apply Sat.fullByTag hu
  · exact fun s' x h2 hi2 => Or.inr ⟨h2.unlocked c hu, Or.inl ⟨rfl, x, rfl⟩⟩
  · exact fun s' x h2 hi2 hn => Or.inr ⟨h2.unlocked c hu, Or.inr (Or.inl ⟨⟨rfl, x, rfl⟩, Or.inl fun e he => hn e (h1.mem he)⟩)⟩
  intro s2 sf h2 hi2 hsf hst
  apply Sat.fullByX (h2.unlocked c hu)
  · exact fun s' x h3 hi3 => Or.inr ⟨(h2.trans h3).unlocked c hu, Or.inl ⟨rfl, x, rfl⟩⟩
  · exact fun s' x h3 hi3 hn => Or.inr ⟨(h2.trans h3).unlocked c hu,
      Or.inr (Or.inl ⟨⟨rfl, x, rfl⟩, Or.inr fun e he => hn e ((h1.trans h2).mem he)⟩)⟩
  intro s3 ef h3 hi3 hef hex
  apply Sat.random
  intro s4 h4 hi4 nonce
  have fin : ∀ s5, Ext s4 s5 → ∀ o, o = exportOut (E := E) sf ef recipient nonce →
      HSpec c s₀ s5 [] o (.req i (.exportSeed t sender recipient d)) := by
    intro s5 h5 o ho
    exact Or.inr ⟨(h2.trans (h3.trans (h4.trans h5))).unlocked c hu, Or.inr (Or.inr ⟨rfl, sf, ef, nonce,
      (h3.trans (h4.trans h5)).full hsf, hst, (h4.trans h5).full hef, hex, ho⟩)⟩
  unfold exportOut at fin
  cases hx : ef.xSk with
  | none => exact fun s5 h5 hi5 => fin s5 h5 _ (by simp [hx])
  | some xSk =>
    cases hs : sf.seed with
    | none => exact fun s5 h5 hi5 => fin s5 h5 _ (by simp [hx, hs])
    | some seed =>
      by_cases hexp : sf.exportable = false
      · simp only [hexp, if_true]
        exact fun s5 h5 hi5 => fin s5 h5 _ (by simp [hx, hs, hexp])
      · simp only [hexp]
        apply Sat.alloc
        · exact fun s' x h5 hi5 => Or.inr ⟨(h2.trans (h3.trans (h4.trans h5))).unlocked c hu, Or.inl ⟨rfl, x, rfl⟩⟩
        intro s5 h5 hi5
        apply Sat.ofOpt
        · intro s6 hb h6 hi6
          exact fin s6 (h5.trans h6) _ (by simp [hx, hs, hexp, hb])
        · intro ci hb s6 h6 hi6
          exact fin s6 (h5.trans h6) _ (by simp [hx, hs, hexp, hb])

theorem ok_import (i : String) (sender recipient : B 32) (d : Option DeepPass) (nonce : B 24) (cipher : Bytes) (t : String)
    (x : Bool) : HOk E c s₀ (.req i (.importSeed sender recipient d nonce cipher t x))
      (hImport E c sender recipient d nonce cipher t x) := by
  apply Sat.check
  · exact fun s' h hi hl => Or.inl ⟨rfl, rfl, hl⟩
  intro s1 h1 hi1 hu
  apply Sat.check
  · intro s' h hi hl; rw [hu] at hl; cases hl
  intro s2 h2 hi2 _
  apply Sat.fullByX (h2.unlocked c hu)
  · exact fun s' x h3 hi3 => Or.inr ⟨(h2.trans h3).unlocked c hu, Or.inl ⟨rfl, x, rfl⟩⟩
  · exact fun s' x h3 hi3 hn => Or.inr ⟨(h2.trans h3).unlocked c hu,
      Or.inr (Or.inl ⟨⟨rfl, x, rfl⟩, fun e he => hn e ((h1.trans h2).mem he)⟩)⟩
  intro s3 f h3 hi3 hf hfx
  have hu3 := (h2.trans h3).unlocked c hu
  by_cases hlen : cipher.length ≠ 48
  · simp only [hlen, ne_eq, not_false_eq_true, if_true]
    exact fun s4 h4 hi4 => Or.inr ⟨h4.unlocked c hu3, Or.inr (Or.inr ⟨f, h4.full hf, hfx, Or.inl ⟨⟨rfl, _, rfl⟩, Or.inl hlen⟩⟩)⟩
  · have hlen' : cipher.length = 48 := by simpa using hlen
    simp only [hlen', ne_eq, not_true_eq_false, if_false]
    apply Sat.alloc
    · exact fun s' x h4 hi4 => Or.inr ⟨h4.unlocked c hu3, Or.inl ⟨rfl, x, rfl⟩⟩
    intro s4 h4 hi4
    apply Sat.ofOpt
    · exact fun s5 hn h5 hi5 => Or.inr ⟨(h4.trans h5).unlocked c hu3, Or.inr (Or.inr ⟨f, (h4.trans h5).full hf, hfx,
        Or.inl ⟨⟨rfl, _, rfl⟩, Or.inr (Or.inl hn)⟩⟩)⟩
    intro xSk hxs
    apply Sat.ofOpt
    · exact fun s5 hn h5 hi5 => Or.inr ⟨(h4.trans h5).unlocked c hu3, Or.inr (Or.inr ⟨f, (h4.trans h5).full hf, hfx,
        Or.inl ⟨⟨rfl, _, rfl⟩, Or.inr (Or.inr ⟨xSk, hxs, by rw [hn]; simp⟩)⟩⟩)⟩
    intro msg hmsg
    apply Sat.ofOpt
    · intro s5 hn h5 hi5
      refine Or.inr ⟨(h4.trans h5).unlocked c hu3, Or.inr (Or.inr ⟨f, (h4.trans h5).full hf, hfx,
        Or.inl ⟨⟨rfl, _, rfl⟩, Or.inr (Or.inr ⟨xSk, hxs, ?_⟩)⟩⟩)⟩
      intro seed hseed
      rw [hmsg] at hseed
      cases hseed
      simp at hn
    intro seed hseed
    rw [B.ofBytes?_eq_some] at hseed
    subst hseed
    apply Sat.insertMaybeDeep hi4 (h4.unlocked c hu3)
    · exact fun s' er h5 hi5 => Or.inr ⟨(h4.trans h5).unlocked c hu3, Or.inl ⟨rfl, er, rfl⟩⟩
    · exact fun s' er h5 hi5 hc => Or.inr ⟨(h4.trans h5).unlocked c hu3, Or.inr (Or.inr ⟨f, (h4.trans h5).full hf, hfx,
        Or.inr ⟨xSk, seed, hxs, hlen', hmsg, Or.inr ⟨⟨rfl, er, rfl⟩, hc⟩⟩⟩)⟩
    · intro s5 e h5 hi5 hnew hm hn hpl s6 h6 hi6
      exact Or.inr ⟨(h4.trans (h5.trans h6)).unlocked c hu3, Or.inr (Or.inr ⟨f, (h4.trans (h5.trans h6)).full hf, hfx,
        Or.inr ⟨xSk, seed, hxs, hlen', hmsg, create_ok (h1.trans (h2.trans (h3.trans h4))) hnew (h6.mem hm) hn
          (hpl.later h6) (by intro a ha; simp at ha; subst ha; exact h4.mem hf.1)⟩⟩)⟩

theorem ok_sign (i : String) (pk : B 32) (d : Option (SecretSized 81)) (data : Bytes) :
    HOk E c s₀ (.req i (.sign pk d data)) (hSign E c pk d data) := by
  apply Sat.check
  · exact fun s' h hi hl => Or.inl ⟨rfl, rfl, hl⟩
  intro s1 h1 hi1 hu
  apply Sat.bind hi1
  apply Sat.attempt
  have hb : ∀ p : Prog Full, p.bind Prog.ret = p := by
    intro p
    induction p with
    | ret a => rfl
    | fail e => rfl
    | step a k ih => simp only [Prog.bind, ih]
  rw [← hb (fullByEd E pk)]
  have fb : ∀ s' l' e, Ext s1 s' → Inv s' →
      (l' = [] ∧ (∀ e ∈ s₀.tbl, e.edKey ≠ some pk) ∨ l' = [.fault]) →
      Sat c (.req i (.sign pk d data)) (fun s₁ l o => HSpec c s₀ s₁ l o (.req i (.sign pk d data)))
        (if E.hasFallback then
          .step (.fallback pk data) fun (s : Res (B 64)) => do
            let sig ← Prog.ofRes s
            return .sign sig
        else .fail e : Prog Resp) s' l' := by
    intro s2 l' e h2 hi2 hl
    have hu2 := h2.unlocked c hu
    by_cases hh : E.hasFallback = true
    · simp only [hh, if_true]
      intro s3 h3 hi3
      refine ⟨⟨h3.unlocked c hu2, hh⟩, fun ch => ?_⟩
      have fin : ∀ s4, Ext s3 s4 → HSpec c s₀ s4 (l' ++ [.fell pk data ch.fb]) (ch.fb.map Resp.sign)
          (.req i (.sign pk d data)) := by
        intro s4 h4
        refine Or.inr ⟨(h3.trans h4).unlocked c hu2, Or.inr ?_⟩
        rcases hl with ⟨rfl, hn⟩ | rfl
        · exact Or.inr (Or.inr (Or.inl ⟨hh, ch.fb, rfl, rfl, hn⟩))
        · exact Or.inr (Or.inr (Or.inr ⟨hh, ch.fb, rfl, rfl⟩))
      simp only [exec]
      cases hfb : ch.fb with
      | ok sig =>
        rw [hfb] at fin
        exact fun s4 h4 hi4 => fin s4 h4
      | error x =>
        rw [hfb] at fin
        exact fun s4 h4 hi4 => fin s4 h4
    · have hh' : E.hasFallback = false := by simpa using hh
      simp only [hh', Bool.false_eq_true, if_false]
      intro s3 h3 hi3
      refine Or.inr ⟨h3.unlocked c hu2, ?_⟩
      rcases hl with ⟨rfl, hn⟩ | rfl
      · exact Or.inr (Or.inr (Or.inl ⟨hh', ⟨rfl, e, rfl⟩, hn⟩))
      · exact Or.inl ⟨rfl, e, rfl⟩
  apply Sat.fullByEd hu
  · intro s2 x h2 hi2
    exact fb s2 _ x h2 hi2 (Or.inr rfl)
  · intro s2 x h2 hi2 hn
    exact fb s2 _ x h2 hi2 (Or.inl ⟨rfl, fun e he => hn e (h1.mem he)⟩)
  · intro s2 f h2 hi2 hf hed t ht hit
    have hut := (h2.trans ht).unlocked c hu
    apply Sat.alloc
    · exact fun s' x h3 hi3 => Or.inr ⟨h3.unlocked c hut, Or.inl ⟨rfl, x, rfl⟩⟩
    intro s3 h3 hi3
    have hf3 := (ht.trans h3).full hf
    have hu3 := h3.unlocked c hut
    apply Sat.ofRes
    · intro s4 x hx h4 hi4
      exact Or.inr ⟨h4.unlocked c hu3, Or.inr (Or.inl ⟨rfl, f, h4.full hf3, hed, by rw [hx]; rfl⟩)⟩
    · intro sk hsk s4 h4 hi4
      exact Or.inr ⟨h4.unlocked c hu3, Or.inr (Or.inl ⟨rfl, f, h4.full hf3, hed, by rw [hsk]; rfl⟩)⟩

theorem ok_boxEnc (i : String) (sender recipient : B 32) (d : Option (SecretSized 81)) (data : Bytes) :
    HOk E c s₀ (.req i (.boxEnc sender recipient d data)) (hBoxEnc E sender recipient data) := by
  apply Sat.check
  · exact fun s' h hi hl => Or.inl ⟨rfl, rfl, hl⟩
  intro s1 h1 hi1 hu
  apply Sat.fullByX hu
  · exact fun s' x h2 hi2 => Or.inr ⟨h2.unlocked c hu, Or.inl ⟨rfl, x, rfl⟩⟩
  · exact fun s' x h2 hi2 hn => Or.inr ⟨h2.unlocked c hu, Or.inr (Or.inl ⟨⟨rfl, x, rfl⟩, fun e he => hn e (h1.mem he)⟩)⟩
  intro s2 f h2 hi2 hf hfx
  apply Sat.random
  intro s3 h3 hi3 nonce
  have hu3 := (h2.trans h3).unlocked c hu
  have hf3 := h3.full hf
  cases hx : f.xSk with
  | none => exact fun s4 h4 hi4 => Or.inr ⟨h4.unlocked c hu3, Or.inr (Or.inr ⟨rfl, f, nonce, h4.full hf3, hfx, by simp [hx]⟩)⟩
  | some xSk =>
    apply Sat.alloc
    · exact fun s' x h4 hi4 => Or.inr ⟨h4.unlocked c hu3, Or.inl ⟨rfl, x, rfl⟩⟩
    intro s4 h4 hi4
    apply Sat.ofOpt
    · exact fun s5 hb h5 hi5 => Or.inr ⟨(h4.trans h5).unlocked c hu3, Or.inr (Or.inr ⟨rfl, f, nonce,
        (h4.trans h5).full hf3, hfx, by simp only [hx, hb]; rfl⟩)⟩
    · exact fun ci hb s5 h5 hi5 => Or.inr ⟨(h4.trans h5).unlocked c hu3, Or.inr (Or.inr ⟨rfl, f, nonce,
        (h4.trans h5).full hf3, hfx, by simp only [hx, hb]; rfl⟩)⟩

theorem ok_boxDec (i : String) (sender recipient : B 32) (d : Option (SecretSized 81)) (nonce : B 24) (cipher : Bytes) :
    HOk E c s₀ (.req i (.boxDec sender recipient d nonce cipher)) (hBoxDec E sender recipient nonce cipher) := by
  apply Sat.check
  · exact fun s' h hi hl => Or.inl ⟨rfl, rfl, hl⟩
  intro s1 h1 hi1 hu
  apply Sat.fullByX hu
  · exact fun s' x h2 hi2 => Or.inr ⟨h2.unlocked c hu, Or.inl ⟨rfl, x, rfl⟩⟩
  · exact fun s' x h2 hi2 hn => Or.inr ⟨h2.unlocked c hu, Or.inr (Or.inl ⟨⟨rfl, x, rfl⟩, fun e he => hn e (h1.mem he)⟩)⟩
  intro s3 f h2 hi2 hf3 hfx
  have hu3 := h2.unlocked c hu
  by_cases hlen : cipher.length < 16
  · simp only [hlen, if_true]
    exact fun s4 h4 hi4 => Or.inr ⟨h4.unlocked c hu3, Or.inr (Or.inr ⟨rfl, f, h4.full hf3, hfx, by simp only [hlen, if_true]⟩)⟩
  · simp only [hlen, if_false]
    cases hx : f.xSk with
    | none => exact fun s4 h4 hi4 => Or.inr ⟨h4.unlocked c hu3, Or.inr (Or.inr ⟨rfl, f, h4.full hf3, hfx, by simp only [hx, hlen, if_false]⟩)⟩
    | some xSk =>
      apply Sat.alloc
      · exact fun s' x h4 hi4 => Or.inr ⟨h4.unlocked c hu3, Or.inl ⟨rfl, x, rfl⟩⟩
      intro s4 h4 hi4
      apply Sat.ofOpt
      · exact fun s5 hb h5 hi5 => Or.inr ⟨(h4.trans h5).unlocked c hu3, Or.inr (Or.inr ⟨rfl, f,
          (h4.trans h5).full hf3, hfx, by simp only [hx, hb, hlen, if_false]; rfl⟩)⟩
      · exact fun ci hb s5 h5 hi5 => Or.inr ⟨(h4.trans h5).unlocked c hu3, Or.inr (Or.inr ⟨rfl, f,
          (h4.trans h5).full hf3, hfx, by simp only [hx, hb, hlen, if_false]; rfl⟩)⟩

theorem ok_boxEncEd (i : String) (sender recipient : B 32) (d : Option (SecretSized 81)) (data : Bytes) :
    HOk E c s₀ (.req i (.boxEncEd sender recipient d data)) (hBoxEncEd E sender recipient data) := by
  apply Sat.check
  · exact fun s' h hi hl => Or.inl ⟨rfl, rfl, hl⟩
  intro s1 h1 hi1 hu
  apply Sat.fullByEd hu
  · exact fun s' x h2 hi2 => Or.inr ⟨h2.unlocked c hu, Or.inl ⟨rfl, x, rfl⟩⟩
  · exact fun s' x h2 hi2 hn => Or.inr ⟨h2.unlocked c hu, Or.inr (Or.inl ⟨⟨rfl, x, rfl⟩, fun e he => hn e (h1.mem he)⟩)⟩
  intro s2 f h2 hi2 hf hfx
  apply Sat.random
  intro s3 h3 hi3 nonce
  have hu3 := (h2.trans h3).unlocked c hu
  have hf3 := h3.full hf
  cases hx : f.edSk with
  | none => exact fun s4 h4 hi4 => Or.inr ⟨h4.unlocked c hu3, Or.inr (Or.inr ⟨rfl, f, nonce, h4.full hf3, hfx, by simp only [hx]⟩)⟩
  | some sk =>
    apply Sat.ofOpt
    · exact fun s5 hb h5 hi5 => Or.inr ⟨h5.unlocked c hu3, Or.inr (Or.inr ⟨rfl, f, nonce,
        h5.full hf3, hfx, by simp only [hx, hb]⟩)⟩
    intro pk hpk
    apply Sat.alloc
    · exact fun s' x h4 hi4 => Or.inr ⟨h4.unlocked c hu3, Or.inl ⟨rfl, x, rfl⟩⟩
    intro s4 h4 hi4
    apply Sat.ofOpt
    · exact fun s5 hb h5 hi5 => Or.inr ⟨(h4.trans h5).unlocked c hu3, Or.inr (Or.inr ⟨rfl, f, nonce,
        (h4.trans h5).full hf3, hfx, by simp only [hx, hb, hpk]; rfl⟩)⟩
    · exact fun ci hb s5 h5 hi5 => Or.inr ⟨(h4.trans h5).unlocked c hu3, Or.inr (Or.inr ⟨rfl, f, nonce,
        (h4.trans h5).full hf3, hfx, by simp only [hx, hb, hpk]; rfl⟩)⟩

theorem ok_boxDecEd (i : String) (sender recipient : B 32) (d : Option (SecretSized 81)) (nonce : B 24) (cipher : Bytes) :
    HOk E c s₀ (.req i (.boxDecEd sender recipient d nonce cipher)) (hBoxDecEd E sender recipient nonce cipher) := by
  apply Sat.check
  · exact fun s' h hi hl => Or.inl ⟨rfl, rfl, hl⟩
  intro s1 h1 hi1 hu
  apply Sat.fullByEd hu
  · exact fun s' x h2 hi2 => Or.inr ⟨h2.unlocked c hu, Or.inl ⟨rfl, x, rfl⟩⟩
  · exact fun s' x h2 hi2 hn => Or.inr ⟨h2.unlocked c hu, Or.inr (Or.inl ⟨⟨rfl, x, rfl⟩, fun e he => hn e (h1.mem he)⟩)⟩
  intro s3 f h2 hi2 hf3 hfx
  have hu3 := h2.unlocked c hu
  by_cases hlen : cipher.length < 16
  · simp only [hlen, if_true]
    exact fun s4 h4 hi4 => Or.inr ⟨h4.unlocked c hu3, Or.inr (Or.inr ⟨rfl, f, h4.full hf3, hfx, by simp only [hlen, if_true]⟩)⟩
  · simp only [hlen, if_false]
    cases hx : f.edSk with
    | none => exact fun s4 h4 hi4 => Or.inr ⟨h4.unlocked c hu3, Or.inr (Or.inr ⟨rfl, f, h4.full hf3, hfx, by simp only [hx, hlen, if_false]⟩)⟩
    | some sk =>
      apply Sat.ofOpt
      · exact fun s5 hb h5 hi5 => Or.inr ⟨h5.unlocked c hu3, Or.inr (Or.inr ⟨rfl, f,
          h5.full hf3, hfx, by simp only [hx, hb, hlen, if_false]⟩)⟩
      intro pk hpk
      apply Sat.alloc
      · exact fun s' x h4 hi4 => Or.inr ⟨h4.unlocked c hu3, Or.inl ⟨rfl, x, rfl⟩⟩
      intro s4 h4 hi4
      apply Sat.ofOpt
      · exact fun s5 hb h5 hi5 => Or.inr ⟨(h4.trans h5).unlocked c hu3, Or.inr (Or.inr ⟨rfl, f,
          (h4.trans h5).full hf3, hfx, by simp only [hx, hb, hpk, hlen, if_false]; rfl⟩)⟩
      · exact fun ci hb s5 h5 hi5 => Or.inr ⟨(h4.trans h5).unlocked c hu3, Or.inr (Or.inr ⟨rfl, f,
          (h4.trans h5).full hf3, hfx, by simp only [hx, hb, hpk, hlen, if_false]; rfl⟩)⟩

theorem ok_newCert (i : String) (t : String) : HOk E c s₀ (.req i (.newCert t)) (hNewCert E t) := by
  apply Sat.check
  · exact fun s' h hi hl => Or.inl ⟨rfl, rfl, hl⟩
  intro s1 h1 hi1 hu
  apply Sat.bind hi1
  apply Sat.alloc
  · exact fun s' x h2 hi2 => Or.inr ⟨h2.unlocked c hu, Or.inl ⟨rfl, x, rfl⟩⟩
  intro s2 h2 hi2
  apply Sat.genCert
  intro s3 h3 hi3 n
  apply Sat.random
  intro s4 h4 hi4 hdr
  have h14 := h2.trans (h3.trans h4)
  have hu4 := h14.unlocked c hu
  apply Sat.write hu4 (made_cert t n hdr)
  · exact fun s' x h5 hi5 => fun t' ht hit => Or.inr ⟨(h5.trans ht).unlocked c hu4, Or.inl ⟨rfl, x, rfl⟩⟩
  · intro s' x h5 hi5 hwhy t' ht hit
    refine Or.inr ⟨(h5.trans ht).unlocked c hu4, Or.inr ⟨n, hdr, Or.inr ⟨⟨rfl, x, rfl⟩, ?_⟩⟩⟩
    rcases hwhy with hw | ⟨e', he', hc⟩
    · exact Or.inl hw
    · exact Or.inr ⟨e', ht.mem he', hc⟩
  · intro s5 h5 hi5 hm hn hpl t' ht hit
    exact fun s6 h6 hi6 => Or.inr ⟨(h5.trans (ht.trans h6)).unlocked c hu4, Or.inr ⟨n, hdr, Or.inl ⟨rfl, rfl,
      (ht.trans h6).mem hm, fun e' he' => hn e' ((h1.trans h14).mem he'), (hpl.later (ht.trans h6)).sub (by simp)⟩⟩⟩

theorem ok_getCertKey (i : String) (t : String) : HOk E c s₀ (.req i (.getCertKey t)) (hGetCertKey E c t) := by
  apply Sat.check
  · exact fun s' h hi hl => Or.inl ⟨rfl, rfl, hl⟩
  intro s1 h1 hi1 hu
  apply Sat.fullByTag hu
  · exact fun s' x h2 hi2 => Or.inr ⟨h2.unlocked c hu, Or.inl ⟨rfl, x, rfl⟩⟩
  · exact fun s' x h2 hi2 hn => Or.inr ⟨h2.unlocked c hu, Or.inr (Or.inl ⟨⟨rfl, x, rfl⟩, fun e he => hn e (h1.mem he)⟩)⟩
  intro s2 f h2 hi2 hf ht
  have hu2 := h2.unlocked c hu
  cases he : f.entry with
  | seed a b d =>
    exact fun s3 h3 hi3 => Or.inr ⟨h3.unlocked c hu2, Or.inr (Or.inr ⟨rfl, f.entry, h3.mem hf.1, ht, by rw [he]⟩)⟩
  | deep a b d e g j =>
    exact fun s3 h3 hi3 => Or.inr ⟨h3.unlocked c hu2, Or.inr (Or.inr ⟨rfl, f.entry, h3.mem hf.1, ht, by rw [he]⟩)⟩
  | cert a b priv =>
    apply Sat.alloc
    · exact fun s' x h4 hi4 => Or.inr ⟨h4.unlocked c hu2, Or.inl ⟨rfl, x, rfl⟩⟩
    intro s3 h3 hi3
    apply Sat.ofOpt
    · intro s4 hn h4 hi4
      obtain ⟨n, _, h6⟩ : WF E (.cert a b priv) := he ▸ hi2.wf _ hf.1
      rw [hn] at h6; cases h6
    intro key hkey
    apply Sat.random
    intro s4 h4 hi4 hdr s5 h5 hi5
    have h25 := h3.trans (h4.trans h5)
    exact Or.inr ⟨h25.unlocked c hu2, Or.inr (Or.inr ⟨rfl, f.entry, h25.mem hf.1, ht, by rw [he]; exact ⟨key, hdr, hkey, rfl⟩⟩)⟩

theorem ok_sboxEnc (i : String) (t : String) (d : Option (SecretSized 81)) (data : Bytes) :
    HOk E c s₀ (.req i (.sboxEnc t d data)) (hSboxEnc E t data) := by
  apply Sat.check
  · exact fun s' h hi hl => Or.inl ⟨rfl, rfl, hl⟩
  intro s1 h1 hi1 hu
  apply Sat.fullByTag hu
  · exact fun s' x h2 hi2 => Or.inr ⟨h2.unlocked c hu, Or.inl ⟨rfl, x, rfl⟩⟩
  · exact fun s' x h2 hi2 hn => Or.inr ⟨h2.unlocked c hu, Or.inr (Or.inl ⟨⟨rfl, x, rfl⟩, fun e he => hn e (h1.mem he)⟩)⟩
  intro s2 f h2 hi2 hf hfx
  apply Sat.random
  intro s3 h3 hi3 nonce
  have hu3 := (h2.trans h3).unlocked c hu
  have hf3 := h3.full hf
  cases hx : f.seed with
  | none => exact fun s4 h4 hi4 => Or.inr ⟨h4.unlocked c hu3, Or.inr (Or.inr ⟨rfl, f, nonce, h4.full hf3, hfx, by simp only [hx]⟩)⟩
  | some seed =>
    apply Sat.alloc
    · exact fun s' x h4 hi4 => Or.inr ⟨h4.unlocked c hu3, Or.inl ⟨rfl, x, rfl⟩⟩
    intro s4 h4 hi4 s5 h5 hi5
    exact Or.inr ⟨(h4.trans h5).unlocked c hu3, Or.inr (Or.inr ⟨rfl, f, nonce,
        (h4.trans h5).full hf3, hfx, by simp only [hx]⟩)⟩

theorem ok_sboxDec (i : String) (t : String) (d : Option (SecretSized 81)) (nonce : B 24) (cipher : Bytes) :
    HOk E c s₀ (.req i (.sboxDec t d nonce cipher)) (hSboxDec E t nonce cipher) := by
  apply Sat.check
  · exact fun s' h hi hl => Or.inl ⟨rfl, rfl, hl⟩
  intro s1 h1 hi1 hu
  apply Sat.fullByTag hu
  · exact fun s' x h2 hi2 => Or.inr ⟨h2.unlocked c hu, Or.inl ⟨rfl, x, rfl⟩⟩
  · exact fun s' x h2 hi2 hn => Or.inr ⟨h2.unlocked c hu, Or.inr (Or.inl ⟨⟨rfl, x, rfl⟩, fun e he => hn e (h1.mem he)⟩)⟩
  intro s3 f h2 hi2 hf3 hfx
  have hu3 := h2.unlocked c hu
  by_cases hlen : cipher.length < 16
  · simp only [hlen, if_true]
    exact fun s4 h4 hi4 => Or.inr ⟨h4.unlocked c hu3, Or.inr (Or.inr ⟨rfl, f, h4.full hf3, hfx, by simp only [hlen, if_true]⟩)⟩
  · simp only [hlen, if_false]
    cases hx : f.seed with
    | none => exact fun s4 h4 hi4 => Or.inr ⟨h4.unlocked c hu3, Or.inr (Or.inr ⟨rfl, f, h4.full hf3, hfx, by simp only [hx, hlen, if_false]⟩)⟩
    | some seed =>
      apply Sat.alloc
      · exact fun s' x h4 hi4 => Or.inr ⟨h4.unlocked c hu3, Or.inl ⟨rfl, x, rfl⟩⟩
      intro s4 h4 hi4
      apply Sat.ofOpt
      · exact fun s5 hb h5 hi5 => Or.inr ⟨(h4.trans h5).unlocked c hu3, Or.inr (Or.inr ⟨rfl, f,
          (h4.trans h5).full hf3, hfx, by simp only [hx, hb, hlen, if_false]; rfl⟩)⟩
      · exact fun ci hb s5 h5 hi5 => Or.inr ⟨(h4.trans h5).unlocked c hu3, Or.inr (Or.inr ⟨rfl, f,
          (h4.trans h5).full hf3, hfx, by simp only [hx, hb, hlen, if_false]; rfl⟩)⟩

/-- Every handler meets its specification. -/
theorem handle_ok (s₀ : Shared E) (c : Nat) (m : Msg) : HOk E c s₀ m (handle E c m) := by
  cases m with
  | res i r => exact ok_res i r
  | req i r =>
    cases r with
    | hello => exact ok_hello i
    | unlock p => exact ok_unlock i p
    | getEntry t => exact ok_getEntry i t
    | listEntries => exact ok_list i
    | newSeed t d x => exact ok_newSeed i t d x
    | exportSeed t a b d => exact ok_export i t a b d
    | importSeed a b d n ci t x => exact ok_import i a b d n ci t x
    | deriveSeed a b d e p => exact ok_derive i a b d e p
    | sign k d m => exact ok_sign i k d m
    | boxEnc a b d m => exact ok_boxEnc i a b d m
    | boxDec a b d n ci => exact ok_boxDec i a b d n ci
    | boxEncEd a b d m => exact ok_boxEncEd i a b d m
    | boxDecEd a b d n ci => exact ok_boxDecEd i a b d n ci
    | newCert t => exact ok_newCert i t
    | getCertKey t => exact ok_getCertKey i t
    | sboxEnc t d m => exact ok_sboxEnc i t d m
    | sboxDec t d n ci => exact ok_sboxDec i t d n ci

end
end Lair
