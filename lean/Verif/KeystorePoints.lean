import Verif.KeystoreLemmas
import Verif.Linearizable

/- Where in its lifetime a request takes effect, and that it then does what `Verif.KeystoreSpec` says. -/
namespace Lair

section
variable {E : Env} {okLim : UInt32 → UInt32 → Bool} {room : Item → Bool} {H : List (B 64)} {Λ : List (UInt32 × UInt32)}
  {T : List Entry}

/-- Some luck. Specification: nothing in the code corresponds. -/
def mkLuck (E : Env) (seed : B 32) (nonce : B 24) (n : Nat) (fb : Option (B 64)) : Luck :=
  ⟨seed, nonce, (E.certGen n).sni, (E.certGen n).cert, (E.certGen n).priv, fb⟩

/-- A placeholder value. Specification: nothing in the code corresponds. -/
def zero (n : Nat) : B n := ⟨List.replicate n 0, by simp⟩

theorem luck_plain (l : List Ev) (call : Call) (seed : B 32) (nonce : B 24) (n : Nat) :
    LuckOf E l call (mkLuck E seed nonce n none) := ⟨⟨n, rfl⟩, fun sig h => by simp [mkLuck] at h⟩

/-- At the moment when the table is `U`, the request does what the specification says, without changing anything.
    Specification: nothing in the code corresponds. -/
def PointAt (E : Env) (okLim : UInt32 → UInt32 → Bool) (room : Item → Bool) (H : List (B 64)) (Λ : List (UInt32 × UInt32))
    (c : Nat) (l : List Ev) (call : Call) (o : Res Resp) (U : List Entry) : Prop :=
  ∃ luck, LuckOf E l call luck ∧ ∀ ks, Stands E ks U → Known H Λ ks →
    ∃ a, Keystore.call E.C okLim room luck ks call = (a, ks) ∧ Agrees a (answerOf E.C (E.encKey c) o)

theorem Known.found {ks : Keystore} (h : Known H Λ ks) {i : Item} (hi : i ∈ ks) :
    ∀ t s x pw ops mem, i = .locked t s x pw ops mem → pw ∈ H ∧ (ops, mem) ∈ Λ := by
  rintro t s x pw ops mem rfl
  exact h t s x pw ops mem hi

theorem mem_byTag {ks : Keystore} {t : String} {i : Item} (h : Keystore.byTag ks t = some i) : i ∈ ks := List.mem_of_find?_eq_some h
theorem mem_byEd {C : Crypto} {ks : Keystore} {t : B 32} {i : Item} (h : Keystore.byEd C ks t = some i) : i ∈ ks := List.mem_of_find?_eq_some h
theorem mem_byX {C : Crypto} {ks : Keystore} {t : B 32} {i : Item} (h : Keystore.byX C ks t = some i) : i ∈ ks := List.mem_of_find?_eq_some h

theorem refused_agrees {c : Nat} {l : List Ev} {o : Res Resp} (h : Refused l o) : Agrees none (answerOf E.C (E.encKey c) o) := by
  obtain ⟨_, x, rfl⟩ := h; trivial

/-- The moment of a request that adds nothing: at its start, at its end or in between. -/
theorem reader_point (hv : View E okLim room H Λ T) {c : Nat} {i : String} {r : Req} {call : Call} {s₀ s₁ : Shared E} {l : List Ev}
    {o : Res Resp} (hcall : r.call? E c = some call) (hw : call.within H Λ) (hx : Ext s₀ s₁) (hi : Inv s₁)
    (hT : ∃ more, T = s₁.tbl ++ more) (hspec : HSpec c s₀ s₁ l o (.req i r)) (hnf : Ev.fault ∉ l) (hnw : ∀ e, Ev.wrote e ∉ l)
    (hlock : s₀.unlocked c = true ∨ o ≠ .error "KeystoreLocked") :
    ∃ U, (∃ a, U = s₀.tbl ++ a) ∧ (∃ b, s₁.tbl = U ++ b) ∧ PointAt E okLim room H Λ c l call o U := by
  have hTm : ∀ e ∈ s₁.tbl, e ∈ T := by
    obtain ⟨more, rfl⟩ := hT
    exact fun e he => List.mem_append_left _ he
  have at0 : PointAt E okLim room H Λ c l call o s₀.tbl →
      ∃ U, (∃ a, U = s₀.tbl ++ a) ∧ (∃ b, s₁.tbl = U ++ b) ∧ PointAt E okLim room H Λ c l call o U :=
    fun h => ⟨s₀.tbl, ⟨[], by simp⟩, hx.tbl, h⟩
  have at1 : PointAt E okLim room H Λ c l call o s₁.tbl →
      ∃ U, (∃ a, U = s₀.tbl ++ a) ∧ (∃ b, s₁.tbl = U ++ b) ∧ PointAt E okLim room H Λ c l call o U :=
    fun h => ⟨s₁.tbl, hx.tbl, ⟨[], by simp⟩, h⟩
  have hcr : ∀ {seed tag deep x mk src}, CreateSpec c s₀ s₁ l o seed tag deep x mk src →
      Refused l o ∧ CannotCreate c s₁ seed tag deep x := by
    intro seed tag deep x mk src h
    rcases h with ⟨e, _, h, _⟩ | h
    · exact absurd (by rw [h]; simp) (hnw e)
    · exact h
  have hreq : ∀ {P : Prop}, (l = [] ∧ o = .error "KeystoreLocked" ∧ s₀.unlocked c = false) ∨
      (s₁.unlocked c = true ∧ (Faulted l o ∨ P)) → P := by
    rintro P (⟨_, h1, h2⟩ | ⟨_, ⟨h, _⟩ | h⟩)
    · rcases hlock with h | h
      · rw [h] at h2; cases h2
      · exact absurd h1 h
    · exact absurd (by rw [h]; simp) hnf
    · exact h
  cases r with
  | hello => cases hcall
  | unlock p => cases hcall
  | getEntry t =>
    cases hcall
    rcases hreq hspec with ⟨h, hn⟩ | ⟨_, e, he, ht, rfl⟩
    · refine at0 ⟨_, luck_plain _ _ (zero 32) (zero 24) 0, fun ks hs hk => ?_⟩
      refine ⟨none, ?_, refused_agrees h⟩
      simp [Keystore.call, Keystore.answer, hs.tag_none hn]
    · refine at1 ⟨_, luck_plain _ _ (zero 32) (zero 24) 0, fun ks hs hk => ?_⟩
      obtain ⟨it, h1, h2⟩ := hs.tag_some hi.distinct he ht
      refine ⟨some (.entry (it.info E.C)), by simp [Keystore.call, Keystore.answer, h1], ?_⟩
      rw [h2.info]; rfl
  | listEntries =>
    cases hcall
    obtain ⟨_, s, infos, h1, h2, hs', hp, rfl⟩ := hreq hspec
    refine ⟨s.tbl, h1.tbl, h2.tbl, _, luck_plain _ _ (zero 32) (zero 24) 0, fun ks hs hk => ?_⟩
    refine ⟨_, rfl, ?_⟩
    rw [hs.map_info]
    exact hp
  | newSeed t d x =>
    cases hcall
    rcases hreq hspec with ⟨h, dp, rfl, hd⟩ | ⟨seed, h⟩
    · refine at1 ⟨_, luck_plain _ _ (zero 32) (zero 24) 0, fun ks hs hk => ⟨none, ?_, refused_agrees h⟩⟩
      simp [Keystore.call, Keystore.create, lockOf, hd]
    · obtain ⟨h, hc⟩ := hcr h
      refine at1 ⟨_, luck_plain _ _ seed (zero 24) 0, fun ks hs hk => ⟨none, ?_, refused_agrees h⟩⟩
      exact create_refused hv hs hc
  | exportSeed t sender recipient p =>
    cases hcall
    rcases hreq hspec with ⟨h, hn | hn⟩ | ⟨_, sf, ef, nonce, h1, h2, h3, h4, rfl⟩
    · refine at0 ⟨_, luck_plain _ _ (zero 32) (zero 24) 0, fun ks hs hk => ⟨none, ?_, refused_agrees h⟩⟩
      simp [Keystore.call, Keystore.answer, hs.tag_none hn]
    · refine at0 ⟨_, luck_plain _ _ (zero 32) (zero 24) 0, fun ks hs hk => ⟨none, ?_, refused_agrees h⟩⟩
      simp [Keystore.call, Keystore.answer, hs.x_none hn, Keystore.plain]
      split <;> rfl
    · refine at1 ⟨_, luck_plain _ _ (zero 32) nonce 0, fun ks hs hk => ?_⟩
      obtain ⟨it, a1, a2⟩ := hs.tag_some hi.distinct h1.1 h2
      obtain ⟨jt, b1, b2⟩ := hs.x_some hi.distinct h3.1 h4
      obtain ⟨c1, _, _, c4⟩ := a2.full h1.2
      obtain ⟨_, _, d3, _⟩ := b2.full h3.2
      refine ⟨_, rfl, ?_⟩
      simp only [exportOut, c1, d3, a1, b1, mkLuck]
      cases hpj : Keystore.plain (some jt) with
      | none =>
        cases it with
        | seed t s x => cases x <;> simp [Agrees, answerOf]
        | locked => simp [Agrees, answerOf]
        | cert => simp [Agrees, answerOf]
      | some me =>
        cases it with
        | locked => simp [Agrees, answerOf, Keystore.plain]
        | cert => simp [Agrees, answerOf, Keystore.plain]
        | seed t s x =>
          rw [c4 t s x rfl]
          cases x with
          | false => simp [Agrees, answerOf, Keystore.plain]
          | true =>
            simp only [Keystore.plain, Option.map_some, Option.bind_eq_bind, Option.bind_some]
            cases hb : E.C.box nonce s.val recipient (E.C.xSk me) with
            | none => simp [Agrees, answerOf]
            | some ci => simp [Agrees, answerOf, Pure.pure]
  | importSeed sender recipient d nonce cipher t x =>
    cases hcall
    rcases hreq hspec with ⟨h, hn⟩ | ⟨f, h1, h2, ⟨h, hwhy⟩ | ⟨xSk, seed, h3, h4, h5, h⟩⟩
    · refine at0 ⟨_, luck_plain _ _ (zero 32) (zero 24) 0, fun ks hs hk => ⟨none, ?_, refused_agrees h⟩⟩
      simp [Keystore.call, hs.x_none hn, Keystore.plain]
    · refine at1 ⟨_, luck_plain _ _ (zero 32) (zero 24) 0, fun ks hs hk => ⟨none, ?_, refused_agrees h⟩⟩
      obtain ⟨it, a1, a2⟩ := hs.x_some hi.distinct h1.1 h2
      obtain ⟨_, _, c3, _⟩ := a2.full h1.2
      have : (do
          let me ← Keystore.plain (Keystore.byX E.C ks recipient)
          let m ← E.C.boxOpen nonce cipher sender (E.C.xSk me)
          B.ofBytes? 32 m) = none := by
        rw [a1]
        cases hp : Keystore.plain (some it) with
        | none => rfl
        | some me =>
          rw [hp] at c3
          simp only [Option.bind_eq_bind, Option.bind_some]
          cases hb : E.C.boxOpen nonce cipher sender (E.C.xSk me) with
          | none => rfl
          | some m =>
            simp only [Option.bind_some]
            cases ho : B.ofBytes? 32 m with
            | none => rfl
            | some sd =>
              exfalso
              rw [B.ofBytes?_eq_some] at ho
              subst ho
              rcases hwhy with h | h | ⟨xSk, h, h'⟩
              · have := E.L.boxOpen_len _ _ _ _ _ hb
                rw [sd.len] at this; exact h this
              · rw [c3] at h; cases h
              · rw [c3] at h; cases h; exact h' sd hb
      simp only [Keystore.call]
      rw [this]
    · obtain ⟨h, hc⟩ := hcr h
      refine at1 ⟨_, luck_plain _ _ (zero 32) (zero 24) 0, fun ks hs hk => ⟨none, ?_, refused_agrees h⟩⟩
      obtain ⟨it, a1, a2⟩ := hs.x_some hi.distinct h1.1 h2
      obtain ⟨_, _, c3, _⟩ := a2.full h1.2
      rw [h3] at c3
      cases hp : Keystore.plain (some it) with
      | none => rw [hp] at c3; cases c3
      | some me =>
        rw [hp] at c3
        simp only [Option.map_some, Option.some.injEq] at c3
        subst c3
        simp only [Keystore.call, a1, hp, Option.bind_eq_bind, Option.bind_some, h5, B.ofBytes?_val]
        exact create_refused hv hs hc
  | deriveSeed src sd dst dd path =>
    cases hcall
    rcases hreq hspec with ⟨h, hn⟩ | ⟨e, he, ht, ⟨h, x, hds⟩ | ⟨seed, info, hds, h, _⟩⟩
    · refine at0 ⟨_, luck_plain _ _ (zero 32) (zero 24) 0, fun ks hs hk => ⟨none, ?_, refused_agrees h⟩⟩
      simp [Keystore.call, hs.tag_none hn, Keystore.source]
    · refine at1 ⟨_, luck_plain _ _ (zero 32) (zero 24) 0, fun ks hs hk => ⟨none, ?_, refused_agrees h⟩⟩
      obtain ⟨it, a1, a2⟩ := hs.tag_some hi.distinct he ht
      have := (source_eq hv a2 (hTm e he) (hk.found (mem_byTag a1)) hw.1).2 x hds
      simp only [Keystore.call, a1, this]
    · obtain ⟨h, hc⟩ := hcr h
      refine at1 ⟨_, luck_plain _ _ (zero 32) (zero 24) 0, fun ks hs hk => ⟨none, ?_, refused_agrees h⟩⟩
      obtain ⟨it, a1, a2⟩ := hs.tag_some hi.distinct he ht
      have := (source_eq hv a2 (hTm e he) (hk.found (mem_byTag a1)) hw.1).1 seed info hds
      simp only [Keystore.call, a1, this, derivePath_eq]
      exact create_refused hv hs hc
  | sign pk deep data =>
    cases hcall
    rcases hreq hspec with ⟨_, f, h1, h2, rfl⟩ | ⟨_, h, hn⟩ | ⟨_, ans, rfl, rfl, hn⟩ | ⟨_, ans, rfl, _⟩
    · refine at1 ⟨_, luck_plain _ _ (zero 32) (zero 24) 0, fun ks hs hk => ?_⟩
      obtain ⟨it, a1, a2⟩ := hs.ed_some hi.distinct h1.1 h2
      have key := sign_eq hv a2 (hTm _ h1.1) h1.2 (hk.found (mem_byEd a1)) (deep := deep) (c := c) hw
      refine ⟨_, rfl, ?_⟩
      simp only [a1]
      cases hsk : signKey E c f deep with
      | error x =>
        rcases key.2 x hsk with ⟨t, sni, crt, pk, rfl⟩ | ⟨t, s, x, pw, ops, mem, rfl, hne⟩
        · simp [Except.map, answerOf, Agrees]
        · simp [Except.map, answerOf, Agrees, hne]
      | ok sk =>
        obtain ⟨s, rfl, ⟨t, x, rfl⟩ | ⟨t, x, pw, ops, mem, rfl, hpw⟩⟩ := key.1 sk hsk
        · simp [Except.map, answerOf, Agrees]
        · simp [Except.map, answerOf, Agrees, hpw]
    · refine at0 ⟨_, luck_plain _ _ (zero 32) (zero 24) 0, fun ks hs hk => ⟨none, ?_, refused_agrees h⟩⟩
      simp [Keystore.call, Keystore.answer, hs.ed_none hn, mkLuck]
    · refine at0 ⟨mkLuck E (zero 32) (zero 24) 0 (match ans with | .ok s => some s | .error _ => none), ⟨⟨0, rfl⟩, ?_⟩, fun ks hs hk => ?_⟩
      · intro sig hsig
        refine ⟨pk, _, data, rfl, ?_⟩
        cases ans with
        | error x => simp [mkLuck] at hsig
        | ok s => simp [mkLuck] at hsig; subst hsig; simp
      · refine ⟨_, rfl, ?_⟩
        simp only [hs.ed_none hn, mkLuck]
        cases ans with
        | error x => simp [Except.map, answerOf, Agrees]
        | ok s => simp [Except.map, answerOf, Agrees]
    · exact absurd (by simp) hnf
  | boxEnc sender recipient p data =>
    cases hcall
    rcases hreq hspec with ⟨h, hn⟩ | ⟨_, f, nonce, h1, h2, ho⟩
    · refine at0 ⟨_, luck_plain _ _ (zero 32) (zero 24) 0, fun ks hs hk => ⟨none, ?_, refused_agrees h⟩⟩
      simp [Keystore.call, Keystore.answer, hs.x_none hn, Keystore.plain]
    · refine at1 ⟨_, luck_plain _ _ (zero 32) nonce 0, fun ks hs hk => ?_⟩
      obtain ⟨it, a1, a2⟩ := hs.x_some hi.distinct h1.1 h2
      obtain ⟨_, _, c3, _⟩ := a2.full h1.2
      refine ⟨_, rfl, ?_⟩
      rw [ho, c3]
      simp only [a1, mkLuck]
      cases hp : Keystore.plain (some it) with
      | none => simp [Agrees, answerOf]
      | some me =>
        simp only [Option.map_some, Option.bind_eq_bind, Option.bind_some]
        cases hb : E.C.box nonce data recipient (E.C.xSk me) with
        | none => simp [Agrees, answerOf, Res.ofOption, Except.map]
        | some ci => simp [Agrees, answerOf, Res.ofOption, Except.map, Pure.pure]
  | boxDec sender recipient p nonce cipher =>
    cases hcall
    rcases hreq hspec with ⟨h, hn⟩ | ⟨_, f, h1, h2, ho⟩
    · refine at0 ⟨_, luck_plain _ _ (zero 32) (zero 24) 0, fun ks hs hk => ⟨none, ?_, refused_agrees h⟩⟩
      simp [Keystore.call, Keystore.answer, hs.x_none hn, Keystore.plain]
    · refine at1 ⟨_, luck_plain _ _ (zero 32) (zero 24) 0, fun ks hs hk => ?_⟩
      obtain ⟨it, a1, a2⟩ := hs.x_some hi.distinct h1.1 h2
      obtain ⟨_, _, c3, _⟩ := a2.full h1.2
      refine ⟨_, rfl, ?_⟩
      rw [ho, c3]
      simp only [a1]
      cases hp : Keystore.plain (some it) with
      | none => split <;> simp [Agrees, answerOf]
      | some me =>
        simp only [Option.map_some, Option.bind_eq_bind, Option.bind_some]
        cases hb : E.C.boxOpen nonce cipher sender (E.C.xSk me) with
        | none => split <;> simp [Agrees, answerOf, Res.ofOption, Except.map]
        | some m =>
          have := E.L.boxOpen_len _ _ _ _ _ hb
          rw [if_neg (by omega)]
          simp [Agrees, answerOf, Res.ofOption, Except.map, Pure.pure]
  | boxEncEd sender recipient p data =>
    cases hcall
    rcases hreq hspec with ⟨h, hn⟩ | ⟨_, f, nonce, h1, h2, ho⟩
    · refine at0 ⟨_, luck_plain _ _ (zero 32) (zero 24) 0, fun ks hs hk => ⟨none, ?_, refused_agrees h⟩⟩
      simp [Keystore.call, Keystore.answer, hs.ed_none hn, Keystore.plain]
    · refine at1 ⟨_, luck_plain _ _ (zero 32) nonce 0, fun ks hs hk => ?_⟩
      obtain ⟨it, a1, a2⟩ := hs.ed_some hi.distinct h1.1 h2
      obtain ⟨_, c2, _, _⟩ := a2.full h1.2
      refine ⟨_, rfl, ?_⟩
      rw [ho, c2]
      simp only [a1, mkLuck]
      cases hp : Keystore.plain (some it) with
      | none => simp [Agrees, answerOf]
      | some me =>
        simp only [Option.map_some, Option.bind_eq_bind, Option.bind_some]
        cases hpk : E.C.edPkToX recipient with
        | none => simp [Agrees, answerOf]
        | some pk =>
          simp only [Option.bind_some]
          cases hb : E.C.box nonce data pk (E.C.edSkToX (E.C.edSk me)) with
          | none => simp [Agrees, answerOf, Res.ofOption, Except.map]
          | some ci => simp [Agrees, answerOf, Res.ofOption, Except.map, Pure.pure]
  | boxDecEd sender recipient p nonce cipher =>
    cases hcall
    rcases hreq hspec with ⟨h, hn⟩ | ⟨_, f, h1, h2, ho⟩
    · refine at0 ⟨_, luck_plain _ _ (zero 32) (zero 24) 0, fun ks hs hk => ⟨none, ?_, refused_agrees h⟩⟩
      simp [Keystore.call, Keystore.answer, hs.ed_none hn, Keystore.plain]
    · refine at1 ⟨_, luck_plain _ _ (zero 32) (zero 24) 0, fun ks hs hk => ?_⟩
      obtain ⟨it, a1, a2⟩ := hs.ed_some hi.distinct h1.1 h2
      obtain ⟨_, c2, _, _⟩ := a2.full h1.2
      refine ⟨_, rfl, ?_⟩
      rw [ho, c2]
      simp only [a1]
      cases hp : Keystore.plain (some it) with
      | none => split <;> simp [Agrees, answerOf]
      | some me =>
        simp only [Option.map_some, Option.bind_eq_bind, Option.bind_some]
        cases hpk : E.C.edPkToX sender with
        | none => split <;> simp [Agrees, answerOf]
        | some pk =>
          simp only [Option.bind_some]
          cases hb : E.C.boxOpen nonce cipher pk (E.C.edSkToX (E.C.edSk me)) with
          | none => split <;> simp [Agrees, answerOf, Res.ofOption, Except.map]
          | some m =>
            have := E.L.boxOpen_len _ _ _ _ _ hb
            rw [if_neg (by omega)]
            simp [Agrees, answerOf, Res.ofOption, Except.map, Pure.pure]
  | newCert t =>
    cases hcall
    obtain ⟨n, hdr, ⟨rfl, _⟩ | ⟨h, hc⟩⟩ := hreq hspec
    · exact absurd List.mem_cons_self (hnw _)
    · refine at1 ⟨_, luck_plain _ _ (zero 32) (zero 24) n, fun ks hs hk => ⟨none, ?_, refused_agrees h⟩⟩
      exact add_refused hv hs (.cert _ _ _ _ _ (SecretData.decrypt_encrypt _ E.L _ hdr _)) hc
  | getCertKey t =>
    cases hcall
    rcases hreq hspec with ⟨h, hn⟩ | ⟨_, e, he, ht, hm⟩
    · refine at0 ⟨_, luck_plain _ _ (zero 32) (zero 24) 0, fun ks hs hk => ⟨none, ?_, refused_agrees h⟩⟩
      simp [Keystore.call, Keystore.answer, hs.tag_none hn]
    · refine at1 ⟨_, luck_plain _ _ (zero 32) (zero 24) 0, fun ks hs hk => ?_⟩
      obtain ⟨it, a1, a2⟩ := hs.tag_some hi.distinct he ht
      refine ⟨_, rfl, ?_⟩
      simp only [a1]
      cases a2 with
      | seed => subst hm; simp [Agrees, answerOf]
      | locked => subst hm; simp [Agrees, answerOf]
      | cert t sni crt key priv hpr =>
        obtain ⟨key', hdr, h1, rfl⟩ := hm
        rw [hpr] at h1; cases h1
        simp [Agrees, answerOf, SecretData.decrypt_encrypt _ E.L]
  | sboxEnc t p data =>
    cases hcall
    rcases hreq hspec with ⟨h, hn⟩ | ⟨_, f, nonce, h1, h2, ho⟩
    · refine at0 ⟨_, luck_plain _ _ (zero 32) (zero 24) 0, fun ks hs hk => ⟨none, ?_, refused_agrees h⟩⟩
      simp [Keystore.call, Keystore.answer, hs.tag_none hn, Keystore.plain]
    · refine at1 ⟨_, luck_plain _ _ (zero 32) nonce 0, fun ks hs hk => ?_⟩
      obtain ⟨it, a1, a2⟩ := hs.tag_some hi.distinct h1.1 h2
      obtain ⟨c1, _, _, _⟩ := a2.full h1.2
      refine ⟨_, rfl, ?_⟩
      rw [ho, c1]
      simp only [a1, mkLuck]
      cases hp : Keystore.plain (some it) with
      | none => simp [Agrees, answerOf]
      | some me => simp [Agrees, answerOf, Pure.pure]
  | sboxDec t p nonce cipher =>
    cases hcall
    rcases hreq hspec with ⟨h, hn⟩ | ⟨_, f, h1, h2, ho⟩
    · refine at0 ⟨_, luck_plain _ _ (zero 32) (zero 24) 0, fun ks hs hk => ⟨none, ?_, refused_agrees h⟩⟩
      simp [Keystore.call, Keystore.answer, hs.tag_none hn, Keystore.plain]
    · refine at1 ⟨_, luck_plain _ _ (zero 32) (zero 24) 0, fun ks hs hk => ?_⟩
      obtain ⟨it, a1, a2⟩ := hs.tag_some hi.distinct h1.1 h2
      obtain ⟨c1, _, _, _⟩ := a2.full h1.2
      refine ⟨_, rfl, ?_⟩
      rw [ho, c1]
      simp only [a1]
      cases hp : Keystore.plain (some it) with
      | none => split <;> simp [Agrees, answerOf]
      | some me =>
        simp only [Option.bind_eq_bind, Option.bind_some]
        cases hb : E.C.secretBoxOpen nonce cipher me with
        | none => split <;> simp [Agrees, answerOf, Res.ofOption, Except.map]
        | some m =>
          have := E.L.secretBoxOpen_len _ _ _ _ hb
          rw [if_neg (by omega)]
          simp [Agrees, answerOf, Res.ofOption, Except.map, Pure.pure]

theorem prefix_before {A m pre more : List Entry} {e : Entry} (h : A ++ m = pre ++ e :: more) (he : e ∉ A) :
    A.length ≤ pre.length := by
  rcases Nat.lt_or_ge pre.length A.length with hlt | hge
  · exfalso
    apply he
    have h1 : (A ++ m)[pre.length]? = some e := by rw [h]; simp
    rw [List.getElem?_append_left hlt] at h1
    exact List.mem_of_getElem? h1
  · exact hge

theorem writer_call {c : Nat} {i : String} {r : Req} {s₀ s₁ : Shared E} {l : List Ev} {o : Res Resp}
    (hspec : HSpec c s₀ s₁ l o (.req i r)) {e : Entry} (he : Ev.wrote e ∈ l) : ∃ call, r.call? E c = some call := by
  cases r with
  | hello => obtain ⟨rfl, _⟩ := hspec; cases he
  | unlock p =>
    rcases hspec with ⟨rfl, _⟩ | ⟨⟨rfl, _⟩, _⟩ | ⟨rfl, _⟩ <;> simp at he
  | _ => exact ⟨_, rfl⟩

/-- The moment of a request that adds an entry: when it is added. -/
theorem writer_point (hv : View E okLim room H Λ T) {c : Nat} {i : String} {r : Req} {call : Call} {s₀ s₁ : Shared E} {l : List Ev}
    {o : Res Resp} (hcall : r.call? E c = some call) (hw : call.within H Λ) (hx : Ext s₀ s₁)
    (hT : ∃ more, T = s₁.tbl ++ more) (hspec : HSpec c s₀ s₁ l o (.req i r)) {e : Entry} (he : Ev.wrote e ∈ l) :
    l = [.wrote e] ∧ ∃ pre rest item luck, T = pre ++ e :: rest ∧ s₀.tbl.length ≤ pre.length ∧ pre.length < s₁.tbl.length ∧
      Repr E item e ∧ Known H Λ [item] ∧ LuckOf E l call luck ∧
      ∀ ks, Stands E ks pre → Known H Λ ks →
        ∃ a, Keystore.call E.C okLim room luck ks call = (some a, ks ++ [item]) ∧ Agrees (some a) (answerOf E.C (E.encKey c) o) := by
  obtain ⟨m, hm⟩ := hx.tbl
  obtain ⟨m', hm'⟩ := hT
  -- the place of the new entry
  have place : ∀ {src}, (∀ e' ∈ s₀.tbl, ¬ Clash e' e) → Placed s₁ src e → ∃ pre rest, T = pre ++ e :: rest ∧
      s₀.tbl.length ≤ pre.length ∧ pre.length < s₁.tbl.length ∧ (∀ a ∈ src, a ∈ pre) ∧ (∀ e' ∈ pre, ¬ Clash e' e) ∧
      Distinct pre ∧ ∀ a ∈ pre, a ∈ T := by
    rintro src hn ⟨_, pre, more, hp, hsrc⟩
    have hTe : T = pre ++ e :: (more ++ m') := by rw [hm', hp]; simp
    have hd := hv.distinct
    rw [hTe] at hd
    unfold Distinct at hd
    rw [List.pairwise_append] at hd
    refine ⟨pre, more ++ m', hTe, ?_, by rw [hp]; simp, hsrc, fun e' he' => hd.2.2 e' he' e (by simp), hd.1, ?_⟩
    · exact prefix_before (by rw [← hm, hp]) (fun hmem => hn e hmem (Or.inl rfl))
    · intro a ha; rw [hTe]; exact List.mem_append_left _ ha
  have hreq : ∀ {P : Prop}, (l = [] ∧ o = .error "KeystoreLocked" ∧ s₀.unlocked c = false) ∨
      (s₁.unlocked c = true ∧ (Faulted l o ∨ P)) → P := by
    rintro P (⟨h, _⟩ | ⟨_, ⟨h, _⟩ | h⟩)
    · rw [h] at he; cases he
    · rw [h] at he; simp at he
    · exact h
  have hnil : l = [] → False := by rintro rfl; cases he
  have hone : ∀ e', l = [.wrote e'] → e' = e := by rintro e' rfl; simp at he; exact he.symm
  have known : ∀ {seed tag x} {d : Option DeepPass}, IsNew E c seed tag d x e → (∀ k, d.map (lockOf E c) = some k → k.within H Λ) →
      Known H Λ [newItem E c seed tag x d] := by
    intro seed tag x d hn hd t s x' pw ops mem hmem
    simp only [List.mem_singleton] at hmem
    cases d with
    | none => cases hmem
    | some d =>
      obtain ⟨pass, _, _, _, hp, _⟩ := hn
      obtain ⟨h1, h2⟩ := hd _ rfl
      simp only [newItem, hp, Option.getD_some, Item.locked.injEq] at hmem
      obtain ⟨_, _, _, rfl, rfl, rfl⟩ := hmem
      exact ⟨h1 _ hp, h2⟩
  cases r with
  | hello => cases hcall
  | unlock p => cases hcall
  | newSeed t d x =>
    cases hcall
    rcases hreq hspec with ⟨⟨h, _⟩, _⟩ | ⟨seed, ⟨e', hn, hl, ho, _, hcl, hpl⟩ | ⟨⟨h, _⟩, _⟩⟩
    · exact (hnil h).elim
    · have := hone e' hl; subst this
      obtain ⟨pre, rest, h1, h2, h3, _, h5, _, _⟩ := place hcl hpl
      refine ⟨hl, pre, rest, _, _, h1, h2, h3, newItem_repr hn, known hn hw, luck_plain _ _ seed (zero 24) 0, fun ks hs hk => ?_⟩
      refine ⟨_, create_accepted hv hs hn hpl.1 h5, ?_⟩
      rw [ho]; exact (rfl : Ans.seedInfo _ = _)
    · exact (hnil h).elim
  | importSeed sender recipient d nonce cipher t x =>
    cases hcall
    rcases hreq hspec with ⟨⟨h, _⟩, _⟩ | ⟨f, hf, hfk, ⟨⟨h, _⟩, _⟩ | ⟨xSk, seed, h3, h4, h5, ⟨e', hn, hl, ho, _, hcl, hpl⟩ | ⟨⟨h, _⟩, _⟩⟩⟩
    · exact (hnil h).elim
    · exact (hnil h).elim
    · have := hone e' hl; subst this
      obtain ⟨pre, rest, p1, p2, p3, p4, p5, p6, _⟩ := place hcl hpl
      refine ⟨hl, pre, rest, _, _, p1, p2, p3, newItem_repr hn, known hn hw, luck_plain _ _ (zero 32) (zero 24) 0, fun ks hs hk => ?_⟩
      obtain ⟨it, a1, a2⟩ := hs.x_some p6 (p4 f.entry (by simp)) hfk
      obtain ⟨_, _, c3, _⟩ := a2.full hf.2
      rw [h3] at c3
      cases hp : Keystore.plain (some it) with
      | none => rw [hp] at c3; cases c3
      | some me =>
        rw [hp] at c3
        simp only [Option.map_some, Option.some.injEq] at c3
        subst c3
        simp only [Keystore.call, a1, hp, Option.bind_eq_bind, Option.bind_some, h5, B.ofBytes?_val]
        refine ⟨_, create_accepted hv hs hn hpl.1 p5, ?_⟩
        rw [ho]; exact (rfl : Ans.seedInfo _ = _)
    · exact (hnil h).elim
  | deriveSeed src sd dst dd path =>
    cases hcall
    rcases hreq hspec with ⟨⟨h, _⟩, _⟩ | ⟨a, ha, ht, ⟨⟨h, _⟩, _⟩ | ⟨seed, info, hds, ⟨e', hn, hl, ho, _, hcl, hpl⟩ | ⟨⟨h, _⟩, _⟩, _⟩⟩
    · exact (hnil h).elim
    · exact (hnil h).elim
    · have := hone e' hl; subst this
      obtain ⟨pre, rest, p1, p2, p3, p4, p5, p6, p7⟩ := place hcl hpl
      refine ⟨hl, pre, rest, _, _, p1, p2, p3, newItem_repr hn, known hn hw.2, luck_plain _ _ (zero 32) (zero 24) 0, fun ks hs hk => ?_⟩
      have hap := p4 a (by simp)
      obtain ⟨it, a1, a2⟩ := hs.tag_some p6 hap ht
      have := (source_eq hv a2 (p7 a hap) (hk.found (mem_byTag a1)) hw.1).1 seed info hds
      simp only [Keystore.call, a1, this, derivePath_eq]
      refine ⟨_, create_accepted hv hs hn hpl.1 p5, ?_⟩
      rw [ho]; exact (rfl : Ans.seedInfo _ = _)
    · exact (hnil h).elim
  | newCert t =>
    cases hcall
    obtain ⟨n, hdr, ⟨hl, ho, _, hcl, hpl⟩ | ⟨⟨h, _⟩, _⟩⟩ := hreq hspec
    · have := hone _ hl
      rw [this] at hl hcl hpl
      obtain ⟨pre, rest, p1, p2, p3, _, p5, _, _⟩ := place hcl hpl
      have hr : Repr E (.cert t (E.certGen n).sni (E.certGen n).cert (E.certGen n).priv) e := by
        rw [← this]; exact .cert _ _ _ _ _ (SecretData.decrypt_encrypt _ E.L _ hdr _)
      refine ⟨hl, pre, rest, _, _, p1, p2, p3, hr, ?_, luck_plain _ _ (zero 32) (zero 24) n, fun ks hs hk => ?_⟩
      · intro t s x pw ops mem h; simp at h
      · refine ⟨_, add_accepted hv hs hr hpl.1 p5, ?_⟩
        rw [ho]; simp [Agrees, answerOf, mkLuck]
    · exact (hnil h).elim
  | getEntry t =>
    rcases hreq hspec with ⟨⟨h, _⟩, _⟩ | ⟨h, _⟩ <;> exact (hnil h).elim
  | listEntries => exact (hnil (hreq hspec).1).elim
  | exportSeed t sender recipient p =>
    rcases hreq hspec with ⟨⟨h, _⟩, _⟩ | ⟨h, _⟩ <;> exact (hnil h).elim
  | sign pk deep data =>
    rcases hreq hspec with ⟨h, _⟩ | ⟨_, ⟨h, _⟩, _⟩ | ⟨_, ans, h, _⟩ | ⟨_, ans, h, _⟩
    · exact (hnil h).elim
    · exact (hnil h).elim
    · rw [h] at he; simp at he
    · rw [h] at he; simp at he
  | boxEnc => rcases hreq hspec with ⟨⟨h, _⟩, _⟩ | ⟨h, _⟩ <;> exact (hnil h).elim
  | boxDec => rcases hreq hspec with ⟨⟨h, _⟩, _⟩ | ⟨h, _⟩ <;> exact (hnil h).elim
  | boxEncEd => rcases hreq hspec with ⟨⟨h, _⟩, _⟩ | ⟨h, _⟩ <;> exact (hnil h).elim
  | boxDecEd => rcases hreq hspec with ⟨⟨h, _⟩, _⟩ | ⟨h, _⟩ <;> exact (hnil h).elim
  | getCertKey => rcases hreq hspec with ⟨⟨h, _⟩, _⟩ | ⟨h, _⟩ <;> exact (hnil h).elim
  | sboxEnc => rcases hreq hspec with ⟨⟨h, _⟩, _⟩ | ⟨h, _⟩ <;> exact (hnil h).elim
  | sboxDec => rcases hreq hspec with ⟨⟨h, _⟩, _⟩ | ⟨h, _⟩ <;> exact (hnil h).elim

end
end Lair
