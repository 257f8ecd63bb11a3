import Verif.Props.Session

/-
Properties of the keystore's contents: C05 (permanence), C06 (uniqueness), C07 (creation), C11 (list and get),
C12 (caches), C19 (exportability).
-/
namespace Lair

variable {E : Env} {st : E.S.σ}

/-! ### helper facts -/

/-- Entries are written only by successful creations. -/
theorem hspec_effect {c : Nat} {s₀ s₁ : Shared E} {l : List Ev} {o : Res Resp} {m : Msg} (h : HSpec c s₀ s₁ l o m) :
    (∃ i r t e resp, m = .req i r ∧ Creates r t ∧ l = [.wrote e] ∧ o = .ok resp ∧ e.tag = t ∧ Reports resp e ∧
      e ∈ s₁.tbl ∧ ∀ e' ∈ s₀.tbl, ¬ Clash e' e) ∨
    ((∀ e, Ev.wrote e ∉ l) ∧ ∀ i r t, m = .req i r → Creates r t → ∃ x, o = .error x) := by
  cases m with
  | res i r => exact Or.inr ⟨by simp [h.1], by intro i' r' t h'; cases h'⟩
  | req i r =>
    have hq : ∀ {r}, (∀ e, Ev.wrote e ∉ l) → (∀ t, ¬ Creates r t) →
      ((∀ e, Ev.wrote e ∉ l) ∧ ∀ i' r' t, Msg.req i r = .req i' r' → Creates r' t → ∃ x, o = .error x) := by
      intro r h1 h2
      refine ⟨h1, ?_⟩
      intro i' r' t he hc
      cases he
      exact absurd hc (h2 t)
    have herr : ∀ {r}, (∀ e, Ev.wrote e ∉ l) → (∃ x, o = .error x) →
      ((∀ e, Ev.wrote e ∉ l) ∧ ∀ i' r' t, Msg.req i r = .req i' r' → Creates r' t → ∃ x, o = .error x) :=
      fun h1 h2 => ⟨h1, fun _ _ _ _ _ => h2⟩
    have href : ∀ {r}, Refused l o →
      ((∀ e, Ev.wrote e ∉ l) ∧ ∀ i' r' t, Msg.req i r = .req i' r' → Creates r' t → ∃ x, o = .error x) :=
      fun h => herr (by simp [h.1]) h.2
    have hfault : ∀ {r}, Faulted l o →
      ((∀ e, Ev.wrote e ∉ l) ∧ ∀ i' r' t, Msg.req i r = .req i' r' → Creates r' t → ∃ x, o = .error x) :=
      fun h => herr (by simp [h.1]) h.2
    have hcreate : ∀ {seed t dp x mk sr r}, CreateSpec c s₀ s₁ l o seed t dp x mk sr → Creates r t →
        (∀ e, e.info = .seed t (infoOf E seed x) ∨ e.info = .deep t (infoOf E seed x) →
          Reports (mk (infoOf E seed x)) e) →
        (∃ i' r' t e resp, Msg.req i r = .req i' r' ∧ Creates r' t ∧ l = [.wrote e] ∧ o = .ok resp ∧ e.tag = t ∧
          Reports resp e ∧ e ∈ s₁.tbl ∧ ∀ e' ∈ s₀.tbl, ¬ Clash e' e) ∨
        ((∀ e, Ev.wrote e ∉ l) ∧ ∀ i' r' t, Msg.req i r = .req i' r' → Creates r' t → ∃ x, o = .error x) := by
      intro seed t dp x mk sr r h hcr hrep
      rcases h with ⟨e, hn, h1, h2, h3, h4⟩ | ⟨h, _⟩
      · left
        have hinfo : e.info = .seed t (infoOf E seed x) ∨ e.info = .deep t (infoOf E seed x) := by
          cases dp with
          | none => obtain ⟨hdr, rfl⟩ := hn; exact Or.inl rfl
          | some dp => obtain ⟨_, _, _, _, _, _, rfl⟩ := hn; exact Or.inr rfl
        refine ⟨i, r, t, e, _, rfl, hcr, h1, h2, ?_, hrep e hinfo, h3, h4.1⟩
        rcases hinfo with hi | hi <;> rw [← Entry.info_tag, hi] <;> rfl
      · exact Or.inr (href h)
    have hlk : ∀ {r} {s : Bool}, (l = [] ∧ o = .error "KeystoreLocked" ∧ s = false) →
      ((∀ e, Ev.wrote e ∉ l) ∧ ∀ i' r' t, Msg.req i r = .req i' r' → Creates r' t → ∃ x, o = .error x) :=
      fun h => herr (by simp [h.1]) ⟨_, h.2.1⟩
    cases r with
    | hello => exact Or.inr (hq (by simp [h.1]) (by simp [Creates]))
    | unlock p =>
      right
      rcases h with ⟨h1, _⟩ | ⟨h, _⟩ | h
      · exact hq (by simp [h1]) (by simp [Creates])
      · exact href h
      · exact hfault h
    | newSeed t dp x =>
      rcases h with h | ⟨_, h | ⟨h, _⟩ | ⟨seed, h⟩⟩
      · exact Or.inr (hlk h)
      · exact Or.inr (hfault h)
      · exact Or.inr (href h)
      · exact hcreate h rfl (fun e he => he)
    | importSeed a b dp n ci t x =>
      rcases h with h | ⟨_, h | ⟨h, _⟩ | ⟨f, _, _, ⟨h, _⟩ | ⟨xSk, seed, _, _, _, h⟩⟩⟩
      · exact Or.inr (hlk h)
      · exact Or.inr (hfault h)
      · exact Or.inr (href h)
      · exact Or.inr (href h)
      · exact hcreate h rfl (fun e he => he)
    | deriveSeed a sd b dd path =>
      rcases h with h | ⟨_, h | ⟨h, _⟩ | ⟨e, _, _, ⟨h, _⟩ | ⟨seed, info, _, h, _⟩⟩⟩
      · exact Or.inr (hlk h)
      · exact Or.inr (hfault h)
      · exact Or.inr (href h)
      · exact Or.inr (href h)
      · refine hcreate h rfl (fun e he => ?_)
        have : e.tag = b := by rcases he with hi | hi <;> rw [← Entry.info_tag, hi] <;> rfl
        simp only [Reports, this]; exact he
    | newCert t =>
      rcases h with h | ⟨_, h | ⟨n, hdr, ⟨h1, h2, h3, h4⟩ | ⟨h, _⟩⟩⟩
      · exact Or.inr (hlk h)
      · exact Or.inr (hfault h)
      · exact Or.inl ⟨i, _, t, _, _, rfl, rfl, h1, h2, rfl, rfl, h3, h4.1⟩
      · exact Or.inr (href h)
    | sign pk dp data =>
      right
      rcases h with h | ⟨_, h | ⟨h1, f, _, _, h2⟩ | ⟨_, h, _⟩ | ⟨_, a, h1, h2, _⟩ | ⟨_, a, h1, h2⟩⟩
      · exact hlk h
      · exact hfault h
      · exact hq (by simp [h1]) (by simp [Creates])
      · exact href h
      · exact hq (by simp [h1]) (by simp [Creates])
      · exact hq (by simp [h1]) (by simp [Creates])
    | listEntries =>
      right
      rcases h with h | ⟨_, h | ⟨h1, _⟩⟩
      · exact hlk h
      · exact hfault h
      · exact hq (by simp [h1]) (by simp [Creates])
    | _ =>
      right
      rcases h with h | ⟨_, h | ⟨h, _⟩ | ⟨h1, _⟩⟩
      · exact hlk h
      · exact hfault h
      · exact href h
      · exact hq (by simp [h1]) (by simp [Creates])

theorem added_eq {evs : List Event} {d : Done E} (hd : d ∈ (Sys.run E st evs).done) :
    (Sys.run E st evs).added d.id = d.log.filterMap (fun ev => match ev with
      | .wrote e => some e
      | _ => none) := by rw [log_eq hd]; rfl

theorem filterMap_none {l : List Ev} (h : ∀ e, Ev.wrote e ∉ l) :
    l.filterMap (fun ev => match ev with
      | .wrote e => some e
      | _ => none) = [] := by
  rw [List.filterMap_eq_nil_iff]
  intro ev hev
  cases ev with
  | wrote e => exact absurd hev (h e)
  | _ => rfl

/-! ### C05 -/

/-- C05. Whatever happens (`evs₂`: any requests of any clients, interleaved in any way, crashes and restarts), an entry
    stays in the keystore, in the same position, and lookups by its tag and its keys return exactly it. -/
theorem C05_entries_permanent (hst : GoodStore E st) (evs₁ evs₂ : List Event) (e : Entry)
    (he : e ∈ (Sys.run E st evs₁).entries) :
    let later := Sys.run E st (evs₁ ++ evs₂)
    e ∈ later.entries ∧ E.S.I.byTag later.sh.store e.tag = .ok e ∧
    (∀ k, e.edKey = some k → E.S.I.byEd later.sh.store k = .ok e) ∧
    (∀ k, e.xKey = some k → E.S.I.byX later.sh.store k = .ok e) := by
  intro later
  have hinv := (sysInv_run hst (evs₁ ++ evs₂)).inv
  have hmem : e ∈ later.entries := by
    obtain ⟨more, hm⟩ := tbl_foldl evs₂ _ (sysInv_run hst evs₁)
    show e ∈ (Sys.run E st (evs₁ ++ evs₂)).sh.tbl
    rw [run_append, hm]
    exact List.mem_append_left _ he
  exact ⟨hmem, (E.S.R.byTag_iff _ _ _ hinv.ok).2 ⟨hmem, rfl⟩,
    fun k hk => (E.S.R.byEd_iff _ _ _ hinv.ok).2 ⟨hmem, hk⟩, fun k hk => (E.S.R.byX_iff _ _ _ hinv.ok).2 ⟨hmem, hk⟩⟩

/-- C05. The list of entries only grows at its end. -/
theorem C05_entries_only_appended (hst : GoodStore E st) (evs₁ evs₂ : List Event) :
    (Sys.run E st evs₁).entries <+: (Sys.run E st (evs₁ ++ evs₂)).entries := by
  obtain ⟨more, hm⟩ := tbl_foldl evs₂ _ (sysInv_run hst evs₁)
  refine ⟨more, ?_⟩
  show (Sys.run E st evs₁).sh.tbl ++ more = (Sys.run E st (evs₁ ++ evs₂)).sh.tbl
  rw [run_append, hm]

/-- C05, at the API. A get-entry request that arrives at any time after the entry exists is answered with that entry's
    information, unless the environment makes it fail or its connection is locked. -/
theorem C05_get_entry_forever (hst : GoodStore E st) (evs₁ evs₂ : List Event) (e : Entry)
    (he : e ∈ (Sys.run E st evs₁).entries) (d : Done E) (hd : d ∈ (Sys.run E st (evs₁ ++ evs₂)).done)
    (hlater : (Sys.run E st evs₁).inbox.length ≤ d.id) (i : String) (hm : d.msg = .req i (.getEntry e.tag))
    (hf : Ev.fault ∉ (Sys.run E st (evs₁ ++ evs₂)).effects d.id) (hlock : d.outcome ≠ .error "KeystoreLocked") :
    d.outcome = .ok (.getEntry e.info) := by
  have hs := done_spec hst hd
  obtain ⟨more, hmore⟩ := later_tbl hst evs₁ evs₂ hd hlater
  have hstart : e ∈ d.start.tbl := by rw [hmore]; exact List.mem_append_left _ he
  obtain ⟨_, hi, hx⟩ := done_inv hst hd
  rw [hm] at hs
  rw [← log_eq hd] at hf
  rcases hs with ⟨_, h, _⟩ | ⟨_, ⟨h, _⟩ | ⟨_, h⟩ | ⟨_, e', he', ht, ho⟩⟩
  · exact absurd h hlock
  · rw [h] at hf; simp at hf
  · exact absurd rfl (h e hstart)
  · have : e' = e := hi.distinct.eq_of_clash he' (hx.mem hstart) (Or.inl ht)
    rw [ho, this]

/-- C05. Restarting the server on its store loses nothing. -/
theorem C05_restart_keeps_entries (evs : List Event) :
    (Sys.run E st (evs ++ [.restart])).entries = (Sys.run E st evs).entries := by
  rw [run_append]; rfl

/-! ### C06 -/

/-- C06. At every moment of every run, tags are pairwise different, and so are signing and encryption public keys. -/
theorem C06_tags_and_keys_unique (hst : GoodStore E st) (evs : List Event) :
    ((Sys.run E st evs).entries.map Entry.tag).Nodup ∧
    ((Sys.run E st evs).entries.filterMap Entry.edKey).Nodup ∧
    ((Sys.run E st evs).entries.filterMap Entry.xKey).Nodup := by
  have hd := (sysInv_run hst evs).inv.distinct
  refine ⟨?_, ?_, ?_⟩
  · unfold List.Nodup
    rw [List.pairwise_map]
    exact hd.imp (fun h ht => h (Or.inl ht))
  · unfold List.Nodup
    rw [List.pairwise_filterMap]
    exact hd.imp (fun h k hk k' hk' hkk => h (Or.inr (Or.inl ⟨k, hk, by rw [hkk]; exact hk'⟩)))
  · unfold List.Nodup
    rw [List.pairwise_filterMap]
    exact hd.imp (fun h k hk k' hk' hkk => h (Or.inr (Or.inr ⟨k, hk, by rw [hkk]; exact hk'⟩)))

theorem pairwise_ne {α : Type} {R : α → α → Prop} (hsym : ∀ a b, R a b → R b a) {l : List α} (h : l.Pairwise R) {a b : α}
    (ha : a ∈ l) (hb : b ∈ l) (hab : a ≠ b) : R a b := by
  induction l with
  | nil => cases ha
  | cons x xs ih =>
    rw [List.pairwise_cons] at h
    rcases List.mem_cons.1 ha with h1 | h1
    · rcases List.mem_cons.1 hb with h2 | h2
      · exact absurd (h1.trans h2.symm) hab
      · rw [h1]; exact h.1 b h2
    · rcases List.mem_cons.1 hb with h2 | h2
      · rw [h2]; exact hsym _ _ (h.1 a h1)
      · exact ih h.2 h1 h2

theorem mem_effects {s : Sys E} {k : Nat} {ev : Ev} (h : ev ∈ s.effects k) : (k, ev) ∈ s.hist := by
  simp only [Sys.effects, histOf, List.mem_map, List.mem_filter] at h
  obtain ⟨p, ⟨hp, hk⟩, rfl⟩ := h
  simp at hk
  rw [← hk]; exact hp

/-- C06. Of two racing creations with the same tag at most one succeeds, however they interleave. -/
theorem C06_racing_creations (hst : GoodStore E st) (evs : List Event) (d₁ d₂ : Done E)
    (h₁ : d₁ ∈ (Sys.run E st evs).done) (h₂ : d₂ ∈ (Sys.run E st evs).done) (hne : d₁.id ≠ d₂.id)
    (t i₁ i₂ : String) (r₁ r₂ : Req) (hm₁ : d₁.msg = .req i₁ r₁) (hm₂ : d₂.msg = .req i₂ r₂)
    (hc₁ : Creates r₁ t) (hc₂ : Creates r₂ t) :
    ¬ (d₁.outcome.isOk = true ∧ d₂.outcome.isOk = true) := by
  rintro ⟨ho₁, ho₂⟩
  have get : ∀ (d : Done E) (i : String) (r : Req), d ∈ (Sys.run E st evs).done → d.msg = .req i r → Creates r t →
      d.outcome.isOk = true → ∃ e, e.tag = t ∧ (d.id, Ev.wrote e) ∈ (Sys.run E st evs).hist := by
    intro d i r hd hm hc ho
    rcases hspec_effect (done_spec hst hd) with ⟨i', r', t', e, resp, h1, h2, h3, h4, h5, _⟩ | ⟨_, h⟩
    · rw [hm] at h1; cases h1
      have : t' = t := by cases r <;> simp_all [Creates]
      refine ⟨e, by rw [h5, this], mem_effects ?_⟩
      rw [← log_eq hd, h3]; simp
    · obtain ⟨x, hx⟩ := h i r t hm hc
      rw [hx] at ho; cases ho
  obtain ⟨e₁, ht₁, hh₁⟩ := get d₁ i₁ r₁ h₁ hm₁ hc₁ ho₁
  obtain ⟨e₂, ht₂, hh₂⟩ := get d₂ i₂ r₂ h₂ hm₂ hc₂ ho₂
  have hinv := sysInv_run hst evs
  have hd := hinv.inv.distinct
  rw [hinv.tbl] at hd
  have hw : (writesOf (Sys.run E st evs).hist).Pairwise (fun a b => ¬ Clash a b) := (List.pairwise_append.1 hd).2.1
  unfold writesOf at hw
  rw [List.pairwise_filterMap] at hw
  have := pairwise_ne (by
    intro a b h x hx y hy hc
    exact h y hy x hx (clash_symm hc)) hw hh₁ hh₂ (by intro h; exact hne (congrArg Prod.fst h)) e₁ rfl e₂ rfl
  exact this (Or.inl (by rw [ht₁, ht₂]))

/-! ### C07 -/

/-- C07. A creation that succeeded added exactly one entry: new, under the requested tag, with the public information the
    response reports. -/
theorem C07_success_adds_exactly_one (hst : GoodStore E st) (evs : List Event) (d : Done E)
    (hd : d ∈ (Sys.run E st evs).done) (i t : String) (r : Req) (hm : d.msg = .req i r) (hc : Creates r t) (resp : Resp)
    (ho : d.outcome = .ok resp) :
    ∃ e, (Sys.run E st evs).added d.id = [e] ∧ e.tag = t ∧ Reports resp e ∧ e ∈ (Sys.run E st evs).entries ∧
      ∀ e' ∈ E.S.tbl d.start.store, ¬ Clash e' e := by
  rcases hspec_effect (done_spec hst hd) with ⟨i', r', t', e, resp', h1, h2, h3, h4, h5, h6, h7, h8⟩ | ⟨_, h⟩
  · rw [hm] at h1; cases h1
    rw [ho] at h4; cases h4
    have : t' = t := by cases r <;> simp_all [Creates]
    obtain ⟨more, hmore⟩ := done_tbl hst hd
    refine ⟨e, ?_, by rw [h5, this], h6, ?_, h8⟩
    · rw [added_eq hd, h3]; rfl
    · show e ∈ (Sys.run E st evs).sh.tbl
      rw [hmore]; exact List.mem_append_left _ h7
  · obtain ⟨x, hx⟩ := h i r t hm hc
    rw [ho] at hx; cases hx

/-- C07. A request whose handling failed added nothing; and a request that is not a creation never adds anything. -/
theorem C07_failure_adds_nothing (hst : GoodStore E st) (evs : List Event) (d : Done E)
    (hd : d ∈ (Sys.run E st evs).done)
    (h : (∃ x, d.outcome = .error x) ∨ ∀ i r t, d.msg = .req i r → ¬ Creates r t) :
    (Sys.run E st evs).added d.id = [] := by
  rcases hspec_effect (done_spec hst hd) with ⟨i', r', t', e, resp', h1, h2, h3, h4, _⟩ | ⟨h', _⟩
  · rcases h with ⟨x, hx⟩ | h
    · rw [hx] at h4; cases h4
    · exact absurd h2 (h _ _ _ h1)
  · rw [added_eq hd]; exact filterMap_none h'

/-- C07. Entries come from nowhere else: the entries at any time are those the server was started with, followed by those
    added by requests, in the order in which they were added. -/
theorem C07_entries_come_from_requests (hst : GoodStore E st) (evs : List Event) :
    (Sys.run E st evs).entries = E.S.tbl st ++ writesOf (Sys.run E st evs).hist ∧
    ∀ e ∈ writesOf (Sys.run E st evs).hist, ∃ k, e ∈ (Sys.run E st evs).added k := by
  refine ⟨(sysInv_run hst evs).tbl, ?_⟩
  intro e he
  unfold writesOf at he
  obtain ⟨⟨k, ev⟩, hp, hpe⟩ := List.mem_filterMap.1 he
  refine ⟨k, ?_⟩
  cases ev with
  | wrote e' =>
    simp at hpe; subst hpe
    refine List.mem_filterMap.2 ⟨.wrote e', ?_, rfl⟩
    exact List.mem_map.2 ⟨(k, .wrote e'), List.mem_filter.2 ⟨hp, by simp⟩, rfl⟩
  | _ => simp at hpe

/-- C07 (partial), as the client sees it. If the reply on the wire is an error and the success reply would have fitted a
    frame, nothing was added. Missing: replies too long for a frame, see `C07_error_reply_although_added`. -/
theorem C07_error_reply_adds_nothing_partial (hst : GoodStore E st) (evs : List Event) (d : Done E)
    (hd : d ∈ (Sys.run E st evs).done) (x : String) (hx : d.wire = [.error x])
    (hfit : ∀ r, d.outcome = .ok r → sendable (.res d.msg.id r) = true) : (Sys.run E st evs).added d.id = [] := by
  rw [done_wire hst hd] at hx
  cases ho : d.outcome with
  | error y => exact C07_failure_adds_nothing hst evs d hd (Or.inl ⟨y, ho⟩)
  | ok r =>
    rw [ho] at hx
    simp only [deliver, hfit r ho, if_true] at hx
    cases hx
    -- a successful outcome is never the error response
    refine C07_failure_adds_nothing hst evs d hd (Or.inr ?_)
    intro i r t hm hc
    have := hspec_answers (by have := done_spec hst hd; rw [hm] at this; exact this) _ ho
    cases r <;> simp_all [Creates, Answers]

/-- C07. A success reply on the wire is always true: the entry it reports was added and is there. -/
theorem C07_success_reply_is_true (hst : GoodStore E st) (evs : List Event) (d : Done E)
    (hd : d ∈ (Sys.run E st evs).done) (i t : String) (r : Req) (hm : d.msg = .req i r) (hc : Creates r t) (resp : Resp)
    (hw : resp ∈ d.wire) (hne : ¬ resp.IsError) :
    ∃ e, (Sys.run E st evs).added d.id = [e] ∧ e.tag = t ∧ Reports resp e ∧ e ∈ (Sys.run E st evs).entries := by
  rw [done_wire hst hd] at hw
  rcases mem_deliver hw with ho | he
  · obtain ⟨e, h1, h2, h3, h4, _⟩ := C07_success_adds_exactly_one hst evs d hd i t r hm hc resp ho
    exact ⟨e, h1, h2, h3, h4⟩
  · exact absurd he hne


/-- C07, the negative part: a creation of an ordinary seed that succeeded, under a tag so long that the response exceeds a
    frame (the request itself is shorter and may fit), is answered with the error `FrameOverflow`, although the entry has
    been added. -/
theorem C07_long_tag_answered_with_error (hst : GoodStore E st) (evs : List Event) (d : Done E)
    (hd : d ∈ (Sys.run E st evs).done) (i t : String) (x : Bool) (hm : d.msg = .req i (.newSeed t none x)) (resp : Resp)
    (ho : d.outcome = .ok resp) (hlong : 8120 ≤ (Mp.utf8 t).length) (hi : (Mp.utf8 i).length ≤ 100) :
    d.wire = [.error "FrameOverflow"] ∧ ∃ e ∈ (Sys.run E st evs).entries, (Sys.run E st evs).added d.id = [e] ∧ e.tag = t := by
  obtain ⟨e, h1, h2, h3, h4, _⟩ := C07_success_adds_exactly_one hst evs d hd i t _ hm rfl resp ho
  refine ⟨?_, e, h4, h1, h2⟩
  have hans := hspec_answers (by have := done_spec hst hd; rw [hm] at this; exact this) _ ho
  cases resp with
  | newSeed t' info =>
    have ht : t' = t := by
      rcases h3 with h | h
      · rw [← h2, ← Entry.info_tag, h]; rfl
      · rw [← h2, ← Entry.info_tag, h]; rfl
    rw [done_wire hst hd, ho, hm]
    have a := Codec.len_resNewSeed i t' info
    have b := Codec.encStr_len t
    have b' := Codec.encStr_len i
    have s1 : 1 ≤ Codec.strHdr (Mp.utf8 i).length := by unfold Codec.strHdr; split <;> (repeat' split) <;> omega
    have s2 : Codec.strHdr (Mp.utf8 i).length ≤ 5 := by unfold Codec.strHdr; split <;> (repeat' split) <;> omega
    have c := Codec.len_error i "FrameOverflow"
    have c' := Codec.encStr_len "FrameOverflow"
    have f1 : sendable (.res i (.newSeed t' info)) = false := by
      simp only [sendable, decide_eq_false_iff_not]
      rw [ht] at a ⊢
      have : 28 ≤ (Mp.enc (Codec.sSeedInfo info)).length := by
        unfold Codec.sSeedInfo
        rw [Codec.enc_map_len _ (by cases info.exportable <;> simp [Codec.sFlag])]
        simp only [List.map_append, List.map_cons, List.sum_append, List.sum_cons, List.map_nil, List.sum_nil,
          show (Mp.encStr "ed25519PubKey").length = 14 from by decide +kernel,
          show (Mp.encStr "x25519PubKey").length = 13 from by decide +kernel]
        omega
      omega
    have f2 : sendable (.res i (.error "FrameOverflow")) = true := by
      simp only [sendable, decide_eq_true_eq]
      have : (Mp.encStr "FrameOverflow").length = 14 := by decide +kernel
      omega
    simp [deliver, deliverErr, Msg.id, f1, f2]
  | _ => simp [Answers] at hans

/-- C07, the negative part happens: in this run the client asks, within the frame limit, for a new seed, receives an
    error, and the seed has been created. -/
theorem C07_error_reply_although_added :
    ∃ (E : Env) (st : E.S.σ) (_ : GoodStore E st) (evs : List Event), ∃ d ∈ (Sys.run E st evs).done,
      ∃ t, d.msg = .req "a" (.newSeed t none false) ∧ sendable d.msg = true ∧ d.wire = [.error "FrameOverflow"] ∧
        ∃ e ∈ (Sys.run E st evs).entries, (Sys.run E st evs).added d.id = [e] ∧ e.tag = t := by
  let evs := Ex.unlock 0 ++ Ex.serve 0 (.req "a" (.newSeed (Codec.letters 8130) none false)) 11
  have hrun : (Sys.run (Ex.env false 2) MemStore.empty evs).done.map (fun d => (d.id, d.outcome.isOk)) =
    [(0, true), (1, true)] := by decide +kernel
  have hmem : (1, true) ∈ (Sys.run (Ex.env false 2) MemStore.empty evs).done.map (fun d => (d.id, d.outcome.isOk)) := by
    rw [hrun]; simp
  obtain ⟨d, hd, he⟩ := List.mem_map.1 hmem
  have hid : d.id = 1 := congrArg Prod.fst he
  have hok : d.outcome.isOk = true := congrArg Prod.snd he
  have hbox := ((idInv_run (E := Ex.env false 2) MemStore.empty evs).done d hd).1
  have hin : (Sys.run (Ex.env false 2) MemStore.empty evs).inbox =
      [(0, .req "u" (.unlock (Ex.sent 0 Ex.pass))), (0, .req "a" (.newSeed (Codec.letters 8130) none false))] := by
    refine (inbox_run (E := Ex.env false 2) MemStore.empty evs).trans ?_
    simp [evs, Ex.unlock, Ex.serve, received]
  rw [hin, hid] at hbox
  have hm : d.msg = .req "a" (.newSeed (Codec.letters 8130) none false) := by
    simp at hbox; exact hbox.2.symm
  have hg := goodStore_empty (Ex.env false 2)
  have hul : (Mp.utf8 (Codec.letters 8130)).length = 8130 := Codec.utf8_letters _
  obtain ⟨resp, ho⟩ : ∃ resp, d.outcome = .ok resp := by
    cases h : d.outcome with
    | ok r => exact ⟨r, rfl⟩
    | error x => rw [h] at hok; cases hok
  obtain ⟨h1, e, h2, h2', h3⟩ := C07_long_tag_answered_with_error hg evs d hd _ _ _ hm resp ho (by omega) (by decide +kernel)
  refine ⟨Ex.env false 2, MemStore.empty, hg, evs, d, hd, _, hm, ?_, h1, e, h2, h2', h3⟩
  rw [hm]
  simp only [sendable, decide_eq_true_eq, Codec.len_newSeed, Codec.encStr_len, hul]
  have : (Mp.utf8 "a").length = 1 := by decide +kernel
  rw [this]
  decide

/-! ### C11 -/

theorem list_done {evs : List Event} (hst : GoodStore E st) {d : Done E} (hd : d ∈ (Sys.run E st evs).done) {i : String}
    (hm : d.msg = .req i .listEntries) {infos : List EntryInfo} (ho : d.outcome = .ok (.listEntries infos)) :
    ∃ s, Ext d.start s ∧ Ext s d.stop ∧ Inv s ∧ infos.Perm (s.tbl.map Entry.info) := by
  have hs := done_spec hst hd
  rw [hm] at hs
  rcases hs with ⟨_, h, _⟩ | ⟨_, ⟨_, x, h⟩ | ⟨_, s, l, h1, h2, h3, h4, h5⟩⟩
  · rw [ho] at h; cases h
  · rw [ho] at h; cases h
  · rw [ho] at h5; cases h5; exact ⟨s, h1, h2, h3, h4⟩

theorem get_done {evs : List Event} (hst : GoodStore E st) {d : Done E} (hd : d ∈ (Sys.run E st evs).done) {i t : String}
    (hm : d.msg = .req i (.getEntry t)) {info : EntryInfo} (ho : d.outcome = .ok (.getEntry info)) :
    ∃ e ∈ d.stop.tbl, e.tag = t ∧ e.info = info := by
  have hs := done_spec hst hd
  rw [hm] at hs
  rcases hs with ⟨_, h, _⟩ | ⟨_, ⟨_, x, h⟩ | ⟨⟨_, x, h⟩, _⟩ | ⟨_, e, h1, h2, h3⟩⟩
  · rw [ho] at h; cases h
  · rw [ho] at h; cases h
  · rw [ho] at h; cases h
  · rw [ho] at h3; cases h3; exact ⟨e, h1, h2, rfl⟩

/-- C11. A listing never names a tag twice. -/
theorem C11_list_has_no_duplicates (hst : GoodStore E st) (evs : List Event) (d : Done E)
    (hd : d ∈ (Sys.run E st evs).done) (i : String) (hm : d.msg = .req i .listEntries) (infos : List EntryInfo)
    (ho : d.outcome = .ok (.listEntries infos)) : (infos.map EntryInfo.tag).Nodup := by
  obtain ⟨s, _, _, hi, hp⟩ := list_done hst hd hm ho
  have := hp.map EntryInfo.tag
  rw [this.nodup_iff]
  unfold List.Nodup
  simp only [List.map_map]
  rw [List.pairwise_map]
  refine hi.distinct.imp (fun {a b} h ht => h (Or.inl ?_))
  simpa using ht

/-- C11. Everything listed can be got: a get-entry request arriving after the listing was answered, for a tag in the
    listing, returns exactly the listed information (environment failures and locked connections aside). -/
theorem C11_listed_implies_get (hst : GoodStore E st) (evs₁ evs₂ : List Event) (d : Done E)
    (hd : d ∈ (Sys.run E st evs₁).done) (i : String) (hm : d.msg = .req i .listEntries) (infos : List EntryInfo)
    (ho : d.outcome = .ok (.listEntries infos)) (info : EntryInfo) (hin : info ∈ infos)
    (g : Done E) (hg : g ∈ (Sys.run E st (evs₁ ++ evs₂)).done) (hlater : (Sys.run E st evs₁).inbox.length ≤ g.id)
    (j : String) (hgm : g.msg = .req j (.getEntry info.tag))
    (hf : Ev.fault ∉ (Sys.run E st (evs₁ ++ evs₂)).effects g.id) (hlock : g.outcome ≠ .error "KeystoreLocked") :
    g.outcome = .ok (.getEntry info) := by
  obtain ⟨s, _, hx, hi, hp⟩ := list_done hst hd hm ho
  obtain ⟨e, he, rfl⟩ := List.mem_map.1 (hp.mem_iff.1 hin)
  obtain ⟨more, hmore⟩ := done_tbl hst hd
  have hent : e ∈ (Sys.run E st evs₁).entries := by
    show e ∈ (Sys.run E st evs₁).sh.tbl
    rw [hmore]; exact List.mem_append_left _ (hx.mem he)
  rw [Entry.info_tag] at hgm
  exact C05_get_entry_forever hst evs₁ evs₂ e hent g hg hlater j hgm hf hlock

/-- C11. Everything that could be got is listed: if getting a tag succeeded, every listing requested afterwards contains
    exactly that information for it, exactly once. -/
theorem C11_got_implies_listed (hst : GoodStore E st) (evs₁ evs₂ : List Event) (g : Done E)
    (hg : g ∈ (Sys.run E st evs₁).done) (j t : String) (hgm : g.msg = .req j (.getEntry t)) (info : EntryInfo)
    (hgo : g.outcome = .ok (.getEntry info))
    (d : Done E) (hd : d ∈ (Sys.run E st (evs₁ ++ evs₂)).done) (hlater : (Sys.run E st evs₁).inbox.length ≤ d.id)
    (i : String) (hm : d.msg = .req i .listEntries) (infos : List EntryInfo) (ho : d.outcome = .ok (.listEntries infos)) :
    info.tag = t ∧ infos.count info = 1 ∧ ∀ x ∈ infos, x.tag = t → x = info := by
  obtain ⟨e, he, rfl, rfl⟩ := get_done hst hg hgm hgo
  obtain ⟨s, hx, _, hi, hp⟩ := list_done hst hd hm ho
  obtain ⟨m1, hm1⟩ := done_tbl hst hg
  obtain ⟨m2, hm2⟩ := later_tbl hst evs₁ evs₂ hd hlater
  have hes : e ∈ s.tbl := hx.mem (by
    rw [hm2, hm1]; exact List.mem_append_left _ (List.mem_append_left _ he))
  have hmem : e.info ∈ infos := hp.mem_iff.2 (List.mem_map.2 ⟨e, hes, rfl⟩)
  have hnd := C11_list_has_no_duplicates hst _ d hd i hm infos ho
  refine ⟨Entry.info_tag e, ?_, ?_⟩
  · have hnd' : infos.Nodup := by
      unfold List.Nodup at hnd ⊢
      rw [List.pairwise_map] at hnd
      exact hnd.imp (fun h ht => h (by rw [ht]))
    rw [hnd'.count]; simp [hmem]
  · intro x hxi hxt
    obtain ⟨e', he', rfl⟩ := List.mem_map.1 (hp.mem_iff.1 hxi)
    rw [Entry.info_tag] at hxt
    rw [hi.distinct.eq_of_clash he' hes (Or.inl hxt)]

/-- C11. A listing contains every entry that existed when it was requested and only entries that exist when it is
    answered. -/
theorem C11_list_is_complete_and_sound (hst : GoodStore E st) (evs : List Event) (d : Done E)
    (hd : d ∈ (Sys.run E st evs).done) (i : String) (hm : d.msg = .req i .listEntries) (infos : List EntryInfo)
    (ho : d.outcome = .ok (.listEntries infos)) :
    (∀ e ∈ E.S.tbl d.start.store, e.info ∈ infos) ∧ ∀ x ∈ infos, ∃ e ∈ E.S.tbl d.stop.store, e.info = x := by
  obtain ⟨s, h1, h2, hi, hp⟩ := list_done hst hd hm ho
  refine ⟨fun e he => hp.mem_iff.2 (List.mem_map.2 ⟨e, h1.mem he, rfl⟩), fun x hx => ?_⟩
  obtain ⟨e, he, rfl⟩ := List.mem_map.1 (hp.mem_iff.1 hx)
  exact ⟨e, h2.mem he, rfl⟩

/-! ### C12 -/

/-- C12. At every moment of every run, for every capacity: what a cache returns for a tag or key is exactly what an
    uncached read of the store at that moment gives - the entry and its secrets. -/
theorem C12_cache_agrees_with_store (hst : GoodStore E st) (evs : List Event) :
    let s := (Sys.run E st evs).sh
    (∀ t f, (s.cTag.get t).1 = some f → uncached E (E.S.I.byTag s.store t) = .ok f) ∧
    (∀ k f, (s.cEd.get k).1 = some f → uncached E (E.S.I.byEd s.store k) = .ok f) ∧
    (∀ k f, (s.cX.get k).1 = some f → uncached E (E.S.I.byX s.store k) = .ok f) := by
  intro s
  have hi := (sysInv_run hst evs).inv
  refine ⟨?_, ?_, ?_⟩
  · intro t f h
    obtain ⟨⟨h1, h2⟩, h3⟩ := hi.cTag _ (Lru.get_fst h)
    have hb : E.S.I.byTag s.store t = .ok f.entry := (E.S.R.byTag_iff _ _ _ hi.ok).2 ⟨h1, h3⟩
    rw [hb]; exact h2
  · intro t f h
    obtain ⟨⟨h1, h2⟩, h3⟩ := hi.cEd _ (Lru.get_fst h)
    have hb : E.S.I.byEd s.store t = .ok f.entry := (E.S.R.byEd_iff _ _ _ hi.ok).2 ⟨h1, h3⟩
    rw [hb]; exact h2
  · intro t f h
    obtain ⟨⟨h1, h2⟩, h3⟩ := hi.cX _ (Lru.get_fst h)
    have hb : E.S.I.byX s.store t = .ok f.entry := (E.S.R.byX_iff _ _ _ hi.ok).2 ⟨h1, h3⟩
    rw [hb]; exact h2

/-- C12. The caches never exceed their capacity. -/
theorem C12_caches_bounded (hst : GoodStore E st) (evs : List Event) :
    (Sys.run E st evs).sh.cTag.length ≤ E.cap ∧ (Sys.run E st evs).sh.cEd.length ≤ E.cap ∧
      (Sys.run E st evs).sh.cX.length ≤ E.cap :=
  let hi := (sysInv_run hst evs).inv
  ⟨hi.lTag, hi.lEd, hi.lX⟩

theorem gen_alone (c : Nat) (ch : Choice) (hf : ch.fault = none) (s : Shared E) (e : Entry) :
    ((genAndRegister E e).alone c ch s).1 = fullOf E.C E.bidi e := by
  have : ∀ r, fullOf E.C E.bidi e = r → ((genAndRegister E e).alone c ch s).1 = r := by
    intro r hr
    unfold genAndRegister alloc
    simp only [Prog.bind, Bind.bind, Prog.alone, exec, hf, Prog.ofRes, hr]
    cases r with
    | error x => simp [Prog.bind, Prog.alone]
    | ok f => simp [Prog.bind, Prog.alone, Prog.act, Pure.pure]
  exact this _ rfl

/-- C12. Every lookup a handler makes (cache first, then store, then filling the caches), from every reachable state,
    gives the result of an uncached read. -/
theorem C12_lookups_as_uncached (hst : GoodStore E st) (evs : List Event) (c : Nat) (ch : Choice) (hf : ch.fault = none) :
    let s := (Sys.run E st evs).sh
    (∀ t, ((fullByTag E t).alone c ch s).1 = uncached E (E.S.I.byTag s.store t)) ∧
    (∀ k, ((fullByEd E k).alone c ch s).1 = uncached E (E.S.I.byEd s.store k)) ∧
    (∀ k, ((fullByX E k).alone c ch s).1 = uncached E (E.S.I.byX s.store k)) := by
  intro s
  obtain ⟨h1, h2, h3⟩ := C12_cache_agrees_with_store hst evs
  refine ⟨?_, ?_, ?_⟩
  · intro t
    have key : ∀ u, (s.cTag.get t).1 = u → ((fullByTag E t).alone c ch s).1 = uncached E (E.S.I.byTag s.store t) := by
      intro u hu
      unfold fullByTag
      simp only [Prog.alone, exec, hu]
      cases u with
      | some f => exact (h1 t f hu).symm
      | none =>
        simp only [Prog.alone, exec, hf]
        cases hb : E.S.I.byTag s.store t with
        | error x => simp [Prog.ofRes, Prog.bind, Prog.alone, uncached]
        | ok e => simp only [Prog.ofRes, Prog.bind, uncached]; exact gen_alone c ch hf _ e
    exact key _ rfl
  · intro t
    have key : ∀ u, (s.cEd.get t).1 = u → ((fullByEd E t).alone c ch s).1 = uncached E (E.S.I.byEd s.store t) := by
      intro u hu
      unfold fullByEd
      simp only [Prog.alone, exec, hu]
      cases u with
      | some f => exact (h2 t f hu).symm
      | none =>
        simp only [Prog.alone, exec, hf]
        cases hb : E.S.I.byEd s.store t with
        | error x => simp [Prog.ofRes, Prog.bind, Prog.alone, uncached]
        | ok e => simp only [Prog.ofRes, Prog.bind, uncached]; exact gen_alone c ch hf _ e
    exact key _ rfl
  · intro t
    have key : ∀ u, (s.cX.get t).1 = u → ((fullByX E t).alone c ch s).1 = uncached E (E.S.I.byX s.store t) := by
      intro u hu
      unfold fullByX
      simp only [Prog.alone, exec, hu]
      cases u with
      | some f => exact (h3 t f hu).symm
      | none =>
        simp only [Prog.alone, exec, hf]
        cases hb : E.S.I.byX s.store t with
        | error x => simp [Prog.ofRes, Prog.bind, Prog.alone, uncached]
        | ok e => simp only [Prog.ofRes, Prog.bind, uncached]; exact gen_alone c ch hf _ e
    exact key _ rfl

/-- C12. A server reading its own entries never finds a seed it cannot decrypt: uncached reads of stored entries
    succeed. -/
theorem C12_stored_entries_readable (hst : GoodStore E st) (evs : List Event) (e : Entry)
    (he : e ∈ (Sys.run E st evs).entries) : ∃ f, uncached E (.ok e) = .ok f ∧ f.entry = e :=
  fullOf_ok ((sysInv_run hst evs).inv.wf e he)

/-! ### C19 -/

/-- C19. A derived seed is exportable exactly if its source is. -/
theorem C19_derived_exportable_iff_source (hst : GoodStore E st) (evs : List Event) (d : Done E)
    (hd : d ∈ (Sys.run E st evs).done) (i src dst : String) (sd dd : Option DeepPass) (path : List UInt32)
    (hm : d.msg = .req i (.deriveSeed src sd dst dd path)) (resp : Resp) (ho : d.outcome = .ok resp) :
    ∃ x e e', resp = .deriveSeed x ∧ e ∈ (Sys.run E st evs).entries ∧ e.tag = src ∧
      (Sys.run E st evs).added d.id = [e'] ∧ e'.tag = dst ∧
      e.exportable? = some x.exportable ∧ e'.exportable? = some x.exportable := by
  have hs := done_spec hst hd
  obtain ⟨more, hmore⟩ := done_tbl hst hd
  rw [hm] at hs
  rcases hs with ⟨_, h, _⟩ | ⟨_, ⟨_, y, h⟩ | ⟨⟨_, y, h⟩, _⟩ | ⟨e, he, ht, ⟨⟨_, y, h⟩, _⟩ | ⟨seed, info, hsrc, h, _⟩⟩⟩
  · rw [ho] at h; cases h
  · rw [ho] at h; cases h
  · rw [ho] at h; cases h
  · rw [ho] at h; cases h
  · rcases h with ⟨e', hn, h1, h2, h3, _⟩ | ⟨⟨_, y, h⟩, _⟩
    · rw [ho] at h2; cases h2
      refine ⟨_, e, e', rfl, ?_, ht, by rw [added_eq hd, h1]; rfl, ?_, ?_, ?_⟩
      · show e ∈ (Sys.run E st evs).sh.tbl
        rw [hmore]; exact List.mem_append_left _ he
      · cases dd with
        | none => obtain ⟨_, rfl⟩ := hn; rfl
        | some x => obtain ⟨_, _, _, _, _, _, rfl⟩ := hn; rfl
      · unfold deriveSource at hsrc
        split at hsrc
        · split at hsrc
          · cases hsrc; rfl
          · cases hsrc
        · split at hsrc
          · cases hsrc
          · split at hsrc
            · cases hsrc; rfl
            · cases hsrc
        · cases hsrc
        · cases hsrc
        · cases hsrc
      · cases dd with
        | none => obtain ⟨_, rfl⟩ := hn; rfl
        | some x => obtain ⟨_, _, _, _, _, _, rfl⟩ := hn; rfl
    · rw [ho] at h; cases h

/-- C19. The flag reported for a tag never changes: two get-entry answers for the same tag, at any times, are equal. -/
theorem C19_reported_info_never_changes (hst : GoodStore E st) (evs : List Event) (d₁ d₂ : Done E)
    (h₁ : d₁ ∈ (Sys.run E st evs).done) (h₂ : d₂ ∈ (Sys.run E st evs).done) (i₁ i₂ t : String)
    (hm₁ : d₁.msg = .req i₁ (.getEntry t)) (hm₂ : d₂.msg = .req i₂ (.getEntry t)) (x₁ x₂ : EntryInfo)
    (ho₁ : d₁.outcome = .ok (.getEntry x₁)) (ho₂ : d₂.outcome = .ok (.getEntry x₂)) : x₁ = x₂ := by
  obtain ⟨e₁, he₁, ht₁, rfl⟩ := get_done hst h₁ hm₁ ho₁
  obtain ⟨e₂, he₂, ht₂, rfl⟩ := get_done hst h₂ hm₂ ho₂
  obtain ⟨m₁, hm₁⟩ := done_tbl hst h₁
  obtain ⟨m₂, hm₂⟩ := done_tbl hst h₂
  have hd := (sysInv_run hst evs).inv.distinct
  have a : e₁ ∈ (Sys.run E st evs).sh.tbl := by rw [hm₁]; exact List.mem_append_left _ he₁
  have b : e₂ ∈ (Sys.run E st evs).sh.tbl := by rw [hm₂]; exact List.mem_append_left _ he₂
  rw [hd.eq_of_clash a b (Or.inl (by rw [ht₁, ht₂]))]

/-! ### Concrete cases -/

section Examples
open Ex

/-- C05, C11: create, restart, unlock again, get and list: the hypotheses of `C05_get_entry_forever`,
    `C11_listed_implies_get` and `C11_got_implies_listed` are met. -/
example : outcomes false 2 (unlock 0 ++ serve 0 (.req "a" (.newSeed "alice" none true)) 11 ++ [.restart] ++ unlock 0 ++
    serve 0 (.req "b" (.getEntry "alice")) 0 ++ serve 0 (.req "c" .listEntries) 0 ++
    serve 0 (.req "d" (.getEntry "alice")) 0) =
  [.ok .unlock, .ok (.newSeed "alice" ⟨B.fill 32 11, B.fill 32 11, true⟩), .ok .unlock,
    .ok (.getEntry (.seed "alice" ⟨B.fill 32 11, B.fill 32 11, true⟩)),
    .ok (.listEntries [.seed "alice" ⟨B.fill 32 11, B.fill 32 11, true⟩]),
    .ok (.getEntry (.seed "alice" ⟨B.fill 32 11, B.fill 32 11, true⟩))] := by decide +kernel

/-- C05: an entry to speak about. -/
example : (Sys.run (env false 2) MemStore.empty (unlock 0 ++ serve 0 (.req "a" (.newSeed "alice" none true)) 11)).entries.map
    Entry.tag = ["alice"] := by decide +kernel

/-- C06: two creations of the same tag, every step of one followed by a step of the other. -/
example : (outcomes false 2 (unlock 0 ++ [.recv 0 (.req "x" (.newSeed "a" none true)), .recv 0 (.req "y" (.newCert "a"))] ++
    (List.replicate 12 [Event.step 0 (calm 3), .step 1 (calm 4)]).flatten)).map Res.isOk = [true, true, false] := by
  decide +kernel

/-- C07: success adds one entry, a duplicate and an environment failure add none. -/
example : let s := Sys.run (env false 2) MemStore.empty (unlock 0 ++ serve 0 (.req "a" (.newSeed "alice" none true)) 11 ++
    serve 0 (.req "b" (.newSeed "alice" none true)) 12 ++
    (.recv 0 (.req "c" (.newCert "tls")) :: List.replicate 12 (.step 0 faulty)))
  s.done.map (fun d => (d.outcome.isOk, (s.added d.id).map Entry.tag)) =
    [(true, []), (true, ["alice"]), (false, []), (false, [])] := by decide +kernel

/-- C12: with room for one element, using two entries evicts the first; both caches are in use. -/
example : let s := Sys.run (env false 1) MemStore.empty (unlock 0 ++ serve 0 (.req "a" (.newSeed "alice" none true)) 11 ++
    serve 0 (.req "b" (.newSeed "bob" none true)) 12 ++ serve 0 (.req "c" (.getEntry "alice")) 0 ++
    serve 0 (.req "d" (.getEntry "bob")) 0)
  s.sh.cTag.map Prod.fst = ["bob"] ∧ s.sh.cEd.map Prod.fst = [B.fill 32 12] := by decide +kernel

/-- C19: derivation from a non-exportable and from an exportable seed. -/
example : (outcomes false 2 (unlock 0 ++ serve 0 (.req "a" (.newSeed "no" none false)) 11 ++
    serve 0 (.req "b" (.newSeed "yes" none true)) 12 ++ serve 0 (.req "c" (.deriveSeed "no" none "no1" none [1])) 0 ++
    serve 0 (.req "d" (.deriveSeed "yes" none "yes1" none [1, 2])) 0)).map (fun o => match o with
      | .ok (.newSeed _ i) => some i.exportable
      | .ok (.deriveSeed i) => some i.exportable
      | _ => none) = [none, some false, some true, some false, some true] := by decide +kernel

end Examples

end Lair
