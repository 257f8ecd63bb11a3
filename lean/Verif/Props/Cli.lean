import Verif.CliLemmas
import Verif.Props.Bundle
import Verif.Examples

/-
C46 (piped passphrases), C54 (the passphrase of the keystore in `import-seed`), C47 (`import-seed`).
-/
namespace Lair
open Mp Bundle Cli

/-! ### C46 -/

/-- C46. What `init --piped` and `server --piped` use as the passphrase: the text without its final CR LF, else without its final LF,
    else all of it. -/
theorem C46_piped_passphrase (b : Bytes) :
    stripEol (b ++ [13, 10]) = b ∧ (b.getLast? ≠ some 13 → stripEol (b ++ [10]) = b) ∧ (b.getLast? ≠ some 10 → stripEol b = b) :=
  ⟨stripEol_crlf b, stripEol_lf b, stripEol_none b⟩

/-- C46. At most one line ending is lost, and nothing else. -/
theorem C46_at_most_one_line_ending (b : Bytes) :
    b = stripEol b ∨ b = stripEol b ++ [10] ∨ b = stripEol b ++ [13, 10] := by
  by_cases h : b.getLast? = some 10
  · obtain ⟨c, rfl⟩ := List.getLast?_eq_some_iff.1 h
    by_cases h2 : c.getLast? = some 13
    · obtain ⟨d, rfl⟩ := List.getLast?_eq_some_iff.1 h2
      right; right
      rw [List.append_assoc]
      simp only [List.cons_append, List.nil_append]
      rw [stripEol_crlf]
    · right; left
      rw [stripEol_lf _ h2]
  · left; rw [stripEol_none _ h]

/-- C46. In particular every passphrase that does not end in CR is usable with a final LF, and every one with a final CR LF: the same
    passphrase reaches the server however the line ends. -/
theorem C46_line_ending_irrelevant (p : Bytes) (h1 : p.getLast? ≠ some 10) (h2 : p.getLast? ≠ some 13) :
    stripEol p = p ∧ stripEol (p ++ [10]) = p ∧ stripEol (p ++ [13, 10]) = p :=
  ⟨stripEol_none p h1, stripEol_lf p h2, stripEol_crlf p⟩

example : stripEol [97, 32, 13, 10] = [97, 32] ∧ stripEol [97, 10, 10] = [97, 10] ∧ stripEol [97, 13] = [97, 13] ∧ stripEol [10] = [] := by decide

/-! ### C54 -/

/-- A passphrase that `import-seed --piped` can take: not empty, no white space at either end, no line break inside. -/
def Plain (l : List Char) : Prop := l ≠ [] ∧ trim l = l ∧ '\n' ∉ l

theorem Plain.last {l : List Char} (h : Plain l) : ∃ r c, l = r ++ [c] ∧ isWs c = false := by
  rcases List.eq_nil_or_concat l with rfl | ⟨r, c, e⟩
  · exact absurd rfl h.1
  · rw [List.concat_eq_append] at e
    subst e
    exact ⟨r, c, rfl, trim_last r c h.2.1⟩

/-- Any of the line endings in use. -/
def IsEol (w : List Char) : Prop := w = ['\n'] ∨ w = ['\r', '\n']

theorem splitLines_eol (a b w : List Char) (h : '\n' ∉ a) (hw : IsEol w) :
    ∃ a', splitLines (a ++ w ++ b) = a' :: splitLines b ∧ trim a' = trim a := by
  rcases hw with rfl | rfl
  · refine ⟨a, ?_, rfl⟩
    rw [List.append_assoc]
    exact splitLines_line a b h
  · refine ⟨a ++ ['\r'], ?_, ?_⟩
    · have := splitLines_line (a ++ ['\r']) b (by simp [h])
      simpa using this
    · have := trim_pad [] a ['\r'] (by simp) (by decide)
      simpa using this

theorem stripEol_text (x l w : List Char) (h : Plain l) (hw : w = [] ∨ IsEol w) :
    stripEol (utf8 (String.ofList (x ++ l ++ w))) = utf8 (String.ofList (x ++ l)) := by
  obtain ⟨r, c, rfl, hc⟩ := h.last
  have hs := utf8_last_solid (x ++ r) c hc
  rw [List.append_assoc] at hs
  rcases hw with rfl | rfl | rfl
  · rw [List.append_nil]
    exact stripEol_none _ hs.1
  · rw [utf8_append, show utf8 (String.ofList ['\n']) = [10] by decide +kernel]
    exact stripEol_lf _ hs.2
  · rw [utf8_append, show utf8 (String.ofList ['\r', '\n']) = [13, 10] by decide +kernel]
    exact stripEol_crlf _

/-- C54. Plain passphrases, one per line, reach `import-seed` unchanged, however the lines end and with or without a final line ending. -/
theorem C54_plain_passphrases_unchanged_partial (p b d w1 w2 w3 : List Char) (hp : Plain p) (hb : Plain b) (hd : Plain d)
    (h1 : IsEol w1) (h2 : IsEol w2) (h3 : w3 = [] ∨ IsEol w3) :
    importPassphrases false (utf8 (String.ofList (p ++ w1 ++ b ++ w3))) =
      .ok (utf8 (String.ofList p), utf8 (String.ofList b), none) ∧
    importPassphrases true (utf8 (String.ofList (p ++ w1 ++ b ++ w2 ++ d ++ w3))) =
      .ok (utf8 (String.ofList p), utf8 (String.ofList b), some (utf8 (String.ofList d))) := by
  constructor
  · unfold importPassphrases
    rw [stripEol_text (p ++ w1) b w3 hb h3, ofUtf8_utf8]
    simp only [passphraseLines, String.toList_ofList]
    obtain ⟨p', e1, t1⟩ := splitLines_eol p b w1 hp.2.2 h1
    rw [e1, splitLines_last b hb.2.2]
    simp [t1, hp.2.1, hb.2.1, hp.1, hb.1]
  · unfold importPassphrases
    rw [stripEol_text (p ++ w1 ++ b ++ w2) d w3 hd h3, ofUtf8_utf8]
    simp only [passphraseLines, String.toList_ofList]
    obtain ⟨p', e1, t1⟩ := splitLines_eol p (b ++ w2 ++ d) w1 hp.2.2 h1
    obtain ⟨b', e2, t2⟩ := splitLines_eol b d w2 hb.2.2 h2
    rw [show p ++ w1 ++ b ++ w2 ++ d = p ++ w1 ++ (b ++ w2 ++ d) by simp, e1, e2, splitLines_last d hd.2.2]
    simp [t1, t2, hp.2.1, hb.2.1, hd.2.1, hp.1, hb.1, hd.1]

theorem mem_passphraseLines {s : String} {p : Bytes} (h : p ∈ passphraseLines s) : ∃ l, Plain l ∧ p = utf8 (String.ofList l) := by
  unfold passphraseLines at h
  simp only [List.mem_filterMap, List.mem_map] at h
  obtain ⟨l, ⟨l0, hl0, rfl⟩, h⟩ := h
  split at h
  · cases h
  · rename_i hne
    refine ⟨trim l0, ⟨hne, trim_idem l0, ?_⟩, (Option.some.inj h).symm⟩
    intro hn
    exact splitLines_mem _ l0 hl0 (trim_sub l0 _ hn)

/-- C54. Which passphrases can be given to `import-seed --piped`: exactly the plain ones. -/
theorem C54_importable_iff_plain (deep : Bool) (p : Bytes) :
    (∃ stdin b d, importPassphrases deep stdin = .ok (p, b, d)) ↔ ∃ l, Plain l ∧ p = utf8 (String.ofList l) := by
  constructor
  · rintro ⟨stdin, b, d, h⟩
    unfold importPassphrases at h
    split at h
    · cases h
    · rename_i s _
      split at h
      · split at h
        · rename_i e
          cases h
          exact mem_passphraseLines (s := s) (by rw [e]; simp)
        · cases h
      · split at h
        · rename_i e
          cases h
          exact mem_passphraseLines (s := s) (by rw [e]; simp)
        · cases h
  · rintro ⟨l, hl, rfl⟩
    have hx : Plain ['x'] := ⟨by simp, by decide, by decide⟩
    have := C54_plain_passphrases_unchanged_partial l ['x'] ['x'] ['\n'] ['\n'] [] hl hx hx (Or.inl rfl) (Or.inl rfl) (Or.inl rfl)
    cases deep with
    | false => exact ⟨_, _, _, this.1⟩
    | true => exact ⟨_, _, _, this.2⟩

/-- C54. `import-seed --piped` accepts exactly the inputs that are text with as many non-blank lines as it needs passphrases; any other
    number of lines is refused. -/
theorem C54_exact_number_of_lines (deep : Bool) (stdin : Bytes) :
    (∃ p, importPassphrases deep stdin = .ok p) ↔
      ∃ s, ofUtf8 (stripEol stdin) = some s ∧
        ((splitLines s.toList).filter (fun l => trim l ≠ [])).length = if deep then 3 else 2 := by
  have hlen : ∀ ls : List (List Char), ((ls.map trim).filterMap (fun l => if l = [] then none else some (utf8 (String.ofList l)))).length =
      (ls.filter (fun l => trim l ≠ [])).length := by
    intro ls
    induction ls with
    | nil => rfl
    | cons l ls ih => by_cases h : trim l = [] <;> simp [h] at ih ⊢ <;> exact ih
  unfold importPassphrases
  cases hs : ofUtf8 (stripEol stdin) with
  | none => simp
  | some s =>
    simp only [Option.some.injEq, exists_eq_left', ← hlen]
    have hp : passphraseLines s = ((splitLines s.toList).map trim).filterMap (fun l => if l = [] then none else some (utf8 (String.ofList l))) := rfl
    rw [← hp]
    generalize passphraseLines s = ls
    cases deep
    · rcases ls with - | ⟨a, - | ⟨b, - | ⟨c, ls⟩⟩⟩ <;> simp
    · rcases ls with - | ⟨a, - | ⟨b, - | ⟨c, - | ⟨d, ls⟩⟩⟩⟩ <;> simp

/-- C54 does not hold: a keystore created by `init --piped` with a passphrase that begins or ends with a blank runs with
    `server --piped`, but `import-seed --piped` cannot be given that passphrase at all. -/
theorem C54_blank_at_the_end (deep : Bool) :
    let p := utf8 "secret "
    stripEol (p ++ [10]) = p ∧ ¬ ∃ stdin b d, importPassphrases deep stdin = .ok (p, b, d) := by
  refine ⟨by decide +kernel, ?_⟩
  rw [C54_importable_iff_plain]
  rintro ⟨l, hl, e⟩
  have e := congrArg ofUtf8 e
  rw [ofUtf8_utf8, ofUtf8_utf8] at e
  have e := congrArg String.toList (Option.some.inj e)
  have e : "secret ".toList = l := e.trans String.toList_ofList
  have := hl.2.1
  rw [← e] at this
  revert this
  decide +kernel

example : Plain "correct horse battery".toList ∧ IsEol ['\r', '\n'] ∧
    importPassphrases true (utf8 "  one \r\n\n two\nthree") = .ok (utf8 "one", utf8 "two", some (utf8 "three")) := by
  unfold Plain IsEol
  decide +kernel

/-! ### C47 -/

/-- SPECIFICATION: an entry that holds this seed, deep-locked if there is a passphrase for that. `SecretSized.decrypt` is what the
    server does to use it. -/
def ImportedAs (E : Env) (tag : String) (seed : B 32) (exportable : Bool) (deep : Option Bytes) : Entry → Prop
  | .seed t info enc => deep = none ∧ t = tag ∧ info = ⟨E.C.edPk seed, E.C.xPk seed, exportable⟩ ∧ enc.decrypt (m := 32) E.C E.bidi = some seed
  | .deep t info salt ops mem enc => ∃ dp key, deep = some dp ∧ t = tag ∧ info = ⟨E.C.edPk seed, E.C.xPk seed, exportable⟩ ∧
      ops = PwHashLimits.moderate.ops ∧ mem = PwHashLimits.moderate.mem ∧
      E.C.argon2id (E.C.blake2b64 dp).val salt ops mem = some key ∧ enc.decrypt (m := 32) E.C key = some seed
  | .cert .. => False

theorem firstOpen_spec (C : Crypto) (pass : Bytes) (ls : List Locked) (u : Unlocked) :
    firstOpen C pass ls = some u ↔ ∃ pre l post, ls = pre ++ l :: post ∧ l.unlockPw C pass = some u ∧ ∀ l' ∈ pre, l'.unlockPw C pass = none := by
  induction ls with
  | nil => simp [firstOpen]
  | cons x xs ih =>
    have hqa : ∀ (l : Locked), (∀ a b c d e, l.cipher ≠ .pw a b c d e) → l.unlockPw C pass = none := by
      intro l hl
      unfold Locked.unlockPw
      split
      · rename_i h; exact absurd h (hl _ _ _ _ _)
      · rfl
    have hstep : firstOpen C pass (x :: xs) = match x.unlockPw C pass with
        | some v => some v
        | none => firstOpen C pass xs := by
      rw [firstOpen]
      split
      · rfl
      · rename_i h
        rw [hqa x (by rw [h]; simp)]
    rw [hstep]
    constructor
    · intro h
      split at h
      · rename_i v hv
        exact ⟨[], x, xs, rfl, by rw [hv, h], by simp⟩
      · rename_i hv
        obtain ⟨pre, l, post, e, h1, h2⟩ := ih.1 h
        refine ⟨x :: pre, l, post, by rw [e]; rfl, h1, ?_⟩
        intro l' hl'
        rcases List.mem_cons.1 hl' with rfl | hl'
        · exact hv
        · exact h2 l' hl'
    · rintro ⟨pre, l, post, e, h1, h2⟩
      cases pre with
      | nil =>
        obtain ⟨rfl, rfl⟩ := List.cons.inj e
        rw [h1]
      | cons y ys =>
        obtain ⟨rfl, rfl⟩ := List.cons.inj e
        rw [h2 x (by simp)]
        exact ih.2 ⟨ys, l, post, rfl, h1, fun l' hl' => h2 l' (by simp [hl'])⟩

variable {E : Env}

/-- Outcomes of a write. -/
theorem alone_write (ch : Choice) (s : Shared E) (hs : E.S.ok s.store) (e : Entry) :
    ((∃ x, (exec 0 ch s (.write e)).1 = .error x) ∧ (exec 0 ch s (.write e)).2.1 = s) ∨
    ((exec 0 ch s (.write e)).1 = .ok () ∧ E.S.tbl (exec 0 ch s (.write e)).2.1.store = E.S.tbl s.store ++ [e]) := by
  cases hf : ch.fault with
  | some x => left; exact ⟨⟨x, by simp [exec, hf]; rfl⟩, by simp [exec, hf]⟩
  | none =>
    have e1 : (exec 0 ch s (.write e)).1 = (E.S.I.write s.store e).1 := by simp [exec, hf]; rfl
    have e2 : (exec 0 ch s (.write e)).2.1 = { s with store := (E.S.I.write s.store e).2 } := by simp [exec, hf]
    by_cases h : E.S.fits e = false ∨ ∃ e' ∈ E.S.tbl s.store, Clash e' e
    · obtain ⟨⟨x, h1⟩, h2⟩ := E.S.R.write_clash s.store e hs h
      left
      rw [e1, e2, h1, h2]
      exact ⟨⟨x, rfl⟩, rfl⟩
    · simp only [not_or, not_exists, not_and, Bool.not_eq_false] at h
      obtain ⟨h1, h2, h3⟩ := E.S.R.write_new s.store e hs h.1 h.2
      right
      rw [e1, e2]
      exact ⟨h1, h3⟩

/-- The result of a program alone is a refusal that changes nothing, or one new entry satisfying `P`. -/
def OneEntry (s : Shared E) (P : Entry → Prop) (info : SeedInfo) (r : Res SeedInfo × Shared E) : Prop :=
  ((∃ x, r.1 = .error x) ∧ r.2 = s) ∨ (r.1 = .ok info ∧ ∃ e, E.S.tbl r.2.store = E.S.tbl s.store ++ [e] ∧ P e)

/-- The last action of both insertions. -/
def writeRet (e : Entry) (info : SeedInfo) : Prog SeedInfo :=
  .step (.write e) fun (r : Res Unit) => (Prog.ofRes r).bind fun _ => .ret info

theorem runAlone_writeRet (ch : Nat → Choice) (s : Shared E) (hs : E.S.ok s.store) (e : Entry) (info : SeedInfo) (P : Entry → Prop)
    (hP : P e) : OneEntry s P info (runAlone ch s (writeRet e info)) := by
  have hr : ∀ x : Res Unit × Shared E × List Ev, exec 0 (ch 0) s (.write e) = x →
      runAlone ch s (writeRet e info) = runAlone (fun n => ch (n + 1)) x.2.1 ((Prog.ofRes x.1).bind fun _ => .ret info) := by
    rintro x rfl; rfl
  rcases alone_write (ch 0) s hs e with ⟨⟨x, h1⟩, h2⟩ | ⟨h1, h2⟩
  · left
    rw [hr (.error x, s, (exec 0 (ch 0) s (.write e)).2.2) (Prod.ext h1 (Prod.ext h2 rfl))]
    exact ⟨⟨x, rfl⟩, rfl⟩
  · right
    rw [hr (.ok (), (exec 0 (ch 0) s (.write e)).2.1, (exec 0 (ch 0) s (.write e)).2.2) (Prod.ext h1 rfl)]
    exact ⟨rfl, e, h2, hP⟩

theorem exec_alloc_fault {ch : Choice} {s : Shared E} {x : String} (h : ch.fault = some x) :
    exec 0 ch s .alloc = (.error x, s, [.fault]) := by simp [exec, h]

theorem exec_alloc_ok {ch : Choice} {s : Shared E} (h : ch.fault = none) : exec 0 ch s .alloc = (.ok (), s, []) := by simp [exec, h]

theorem runAlone_insertSeed_eq (ch : Nat → Choice) (s : Shared E) (seed : B 32) (tag : String) (exportable : Bool) :
    runAlone ch s (insertSeed E seed tag exportable) = match (ch 0).fault with
      | some x => (.error x, s)
      | none => runAlone (fun n => ch (n + 2)) s (writeRet (.seed tag ⟨E.C.edPk seed, E.C.xPk seed, exportable⟩
          (SecretSized.encrypt E.C E.L E.bidi ((ch 1).rnd 24) seed)) ⟨E.C.edPk seed, E.C.xPk seed, exportable⟩) := by
  have hr : ∀ x : Res Unit × Shared E × List Ev, exec 0 (ch 0) s .alloc = x →
      runAlone ch s (insertSeed E seed tag exportable) = runAlone (fun n => ch (n + 1)) x.2.1 ((Prog.ofRes x.1).bind fun _ =>
        .step (.random 24) fun (hdr : B 24) => writeRet (.seed tag ⟨E.C.edPk seed, E.C.xPk seed, exportable⟩
          (SecretSized.encrypt E.C E.L E.bidi hdr seed)) ⟨E.C.edPk seed, E.C.xPk seed, exportable⟩) := by
    rintro x rfl; rfl
  cases hf : (ch 0).fault with
  | some x => rw [hr _ (exec_alloc_fault hf)]; rfl
  | none => rw [hr _ (exec_alloc_ok hf)]; rfl

theorem runAlone_insertDeep_eq (ch : Nat → Choice) (s : Shared E) (seed : B 32) (tag : String) (ops mem : UInt32) (pass : B 64) (exportable : Bool) :
    runAlone ch s (insertDeep E seed tag ops mem pass exportable) = match (ch 0).fault with
      | some x => (.error x, s)
      | none => match E.C.argon2id pass.val ((ch 1).rnd 16) ops mem with
        | none => (.error "argon2id error", s)
        | some key => runAlone (fun n => ch (n + 3)) s (writeRet (.deep tag ⟨E.C.edPk seed, E.C.xPk seed, exportable⟩ ((ch 1).rnd 16) ops mem
          (SecretSized.encrypt E.C E.L key ((ch 2).rnd 24) seed)) ⟨E.C.edPk seed, E.C.xPk seed, exportable⟩) := by
  have hr : ∀ x : Res Unit × Shared E × List Ev, exec 0 (ch 0) s .alloc = x →
      runAlone ch s (insertDeep E seed tag ops mem pass exportable) = runAlone (fun n => ch (n + 1)) x.2.1 ((Prog.ofRes x.1).bind fun _ =>
        .step (.random 16) fun (salt : B 16) => (Prog.ofOpt "argon2id error" (E.C.argon2id pass.val salt ops mem)).bind fun key =>
        .step (.random 24) fun (hdr : B 24) => writeRet (.deep tag ⟨E.C.edPk seed, E.C.xPk seed, exportable⟩ salt ops mem
          (SecretSized.encrypt E.C E.L key hdr seed)) ⟨E.C.edPk seed, E.C.xPk seed, exportable⟩) := by
    rintro x rfl; rfl
  cases hf : (ch 0).fault with
  | some x => rw [hr _ (exec_alloc_fault hf)]; rfl
  | none =>
    rw [hr _ (exec_alloc_ok hf)]
    have h2 : ∀ o : Option (B 32), E.C.argon2id pass.val ((ch 1).rnd 16) ops mem = o →
        runAlone (fun n => ch (n + 1)) s (.step (.random 16) fun (salt : B 16) =>
          (Prog.ofOpt "argon2id error" (E.C.argon2id pass.val salt ops mem)).bind fun key =>
          .step (.random 24) fun (hdr : B 24) => writeRet (.deep tag ⟨E.C.edPk seed, E.C.xPk seed, exportable⟩ salt ops mem
          (SecretSized.encrypt E.C E.L key hdr seed)) ⟨E.C.edPk seed, E.C.xPk seed, exportable⟩) =
        runAlone (fun n => ch (n + 2)) s ((Prog.ofOpt "argon2id error" o).bind fun key =>
          .step (.random 24) fun (hdr : B 24) => writeRet (.deep tag ⟨E.C.edPk seed, E.C.xPk seed, exportable⟩ ((ch 1).rnd 16) ops mem
          (SecretSized.encrypt E.C E.L key hdr seed)) ⟨E.C.edPk seed, E.C.xPk seed, exportable⟩) := by
      rintro o rfl; rfl
    cases hk : E.C.argon2id pass.val ((ch 1).rnd 16) ops mem with
    | none => exact h2 none hk
    | some key => exact h2 (some key) hk

theorem runAlone_insertSeed (ch : Nat → Choice) (s : Shared E) (hs : E.S.ok s.store) (seed : B 32) (tag : String) (exportable : Bool) :
    OneEntry s (ImportedAs E tag seed exportable none) ⟨E.C.edPk seed, E.C.xPk seed, exportable⟩
      (runAlone ch s (insertSeed E seed tag exportable)) := by
  rw [runAlone_insertSeed_eq]
  split
  · exact Or.inl ⟨⟨_, rfl⟩, rfl⟩
  · exact runAlone_writeRet _ s hs _ _ _ ⟨rfl, rfl, rfl, SecretSized.decrypt_encrypt ..⟩

theorem runAlone_insertDeep (ch : Nat → Choice) (s : Shared E) (hs : E.S.ok s.store) (seed : B 32) (tag : String) (dp : Bytes) (exportable : Bool) :
    OneEntry s (ImportedAs E tag seed exportable (some dp)) ⟨E.C.edPk seed, E.C.xPk seed, exportable⟩
      (runAlone ch s (insertDeep E seed tag PwHashLimits.moderate.ops PwHashLimits.moderate.mem (E.C.blake2b64 dp) exportable)) := by
  rw [runAlone_insertDeep_eq]
  split
  · exact Or.inl ⟨⟨_, rfl⟩, rfl⟩
  · split
    · exact Or.inl ⟨⟨_, rfl⟩, rfl⟩
    · rename_i key hk
      exact runAlone_writeRet _ s hs _ _ _ ⟨dp, key, rfl, rfl, rfl, rfl, rfl, hk, SecretSized.decrypt_encrypt ..⟩

/-- Without a failure and with room for the entry, the last action succeeds. -/
theorem runAlone_writeRet_ok (ch : Nat → Choice) (hch : ∀ n, (ch n).fault = none) (s : Shared E) (hs : E.S.ok s.store) (e : Entry)
    (info : SeedInfo) (h : E.S.fits e = true ∧ ∀ e' ∈ E.S.tbl s.store, ¬ Clash e' e) : (runAlone ch s (writeRet e info)).1 = .ok info := by
  have hr : ∀ x : Res Unit × Shared E × List Ev, exec 0 (ch 0) s (.write e) = x →
      runAlone ch s (writeRet e info) = runAlone (fun n => ch (n + 1)) x.2.1 ((Prog.ofRes x.1).bind fun _ => .ret info) := by
    rintro x rfl; rfl
  have h1 : (exec 0 (ch 0) s (.write e)).1 = .ok () := by
    have e1 : (exec 0 (ch 0) s (.write e)).1 = (E.S.I.write s.store e).1 := by simp [exec, hch]; rfl
    rw [e1]
    exact (E.S.R.write_new s.store e hs h.1 h.2).1
  rw [hr (.ok (), (exec 0 (ch 0) s (.write e)).2.1, (exec 0 (ch 0) s (.write e)).2.2) (Prod.ext h1 rfl)]
  rfl

/-- C47. Whatever the bundle, the passphrases and the failures on the way: `import-seed` either reports an error and leaves the keystore
    as it was, or the keystore passphrase is right, the bundle passphrase opens a password cipher of the bundle, and the seed of the
    first one it opens is stored under the requested tag (deep-locked with the given passphrase, if any) and nothing else changes. -/
theorem C47_import_outcome (ch : Nat → Choice) (s : Shared E) (hs : E.S.ok s.store) (opens : Bytes → Bool) (opt : ImportOpt)
    (sp bp : Bytes) (dp : Option Bytes) :
    let r := runAlone ch s (importSeed E opens opt (sp, bp, dp))
    ((∃ x, r.1 = .error x) ∧ r.2 = s) ∨
    ∃ bytes pre l post u e, opens sp = true ∧ Base64.ofText opt.bundle = some bytes ∧ fromLocked bytes = some (pre ++ l :: post) ∧
      l.unlockPw E.C bp = some u ∧ (∀ l' ∈ pre, l'.unlockPw E.C bp = none) ∧
      r.1 = .ok ⟨E.C.edPk u.seed, E.C.xPk u.seed, opt.exportable⟩ ∧ E.S.tbl r.2.store = E.S.tbl s.store ++ [e] ∧
      ImportedAs E opt.tag u.seed opt.exportable dp e := by
  intro r
  have hr : r = runAlone ch s (importSeed E opens opt (sp, bp, dp)) := rfl
  unfold importSeed at hr
  split at hr
  · rename_i ho
    split at hr
    · left; rw [hr]; exact ⟨⟨_, rfl⟩, rfl⟩
    · rename_i bytes hb
      split at hr
      · left; rw [hr]; exact ⟨⟨_, rfl⟩, rfl⟩
      · rename_i ls hls
        split at hr
        · left; rw [hr]; exact ⟨⟨_, rfl⟩, rfl⟩
        · rename_i u hu
          obtain ⟨pre, l, post, e1, h1, h2⟩ := (firstOpen_spec _ _ _ _).1 hu
          have key : OneEntry s (ImportedAs E opt.tag u.seed opt.exportable dp) ⟨E.C.edPk u.seed, E.C.xPk u.seed, opt.exportable⟩ r := by
            cases dp with
            | none => rw [hr]; exact runAlone_insertSeed ch s hs u.seed opt.tag opt.exportable
            | some d => rw [hr]; exact runAlone_insertDeep ch s hs u.seed opt.tag d opt.exportable
          rcases key with h | ⟨h3, e, h4, h5⟩
          · exact Or.inl h
          · exact Or.inr ⟨bytes, pre, l, post, u, e, ho, hb, by rw [hls, e1], h1, h2, h3, h4, h5⟩
  · left; rw [hr]; exact ⟨⟨_, rfl⟩, rfl⟩

/-- C47. If no password cipher of the bundle opens with the passphrase, the command fails and creates nothing. -/
theorem C47_wrong_passphrase (ch : Nat → Choice) (s : Shared E) (hs : E.S.ok s.store) (opens : Bytes → Bool) (opt : ImportOpt)
    (sp bp : Bytes) (dp : Option Bytes) (bytes : Bytes) (ls : List Locked) (hb : Base64.ofText opt.bundle = some bytes)
    (hls : fromLocked bytes = some ls) (hw : ∀ l ∈ ls, l.unlockPw E.C bp = none) :
    (∃ x, (runAlone ch s (importSeed E opens opt (sp, bp, dp))).1 = .error x) ∧ (runAlone ch s (importSeed E opens opt (sp, bp, dp))).2 = s := by
  rcases C47_import_outcome ch s hs opens opt sp bp dp with h | ⟨bytes', pre, l, post, u, e, _, h1, h2, h3, _⟩
  · exact h
  · rw [hb] at h1; cases h1
    rw [hls] at h2; cases h2
    rw [hw l (by simp)] at h3
    cases h3

/-- C47. A seed that was locked with the passphrase given - under any other ciphers beside, in any order - is the seed that is stored: the
    command succeeds when the keystore passphrase is right, no failure is injected, the tag and the keys are new and (for a deep lock)
    password hashing works, and no other key makes something else of an encryption of the seed (`hcm`). -/
theorem C47_locked_seed_is_imported (ch : Nat → Choice) (hch : ∀ n, (ch n).fault = none) (s : Shared E)
    (hs : E.S.ok s.store) (opens : Bytes → Bool) (u : Unlocked) (items : List LockItem) (bytes : Bytes)
    (hl : u.lock E.C items = some bytes) (hf : bytes.length < 2 ^ 32) (sp bp : Bytes) (lim : PwHashLimits) (salt : B 16) (header : B 24)
    (hm : .pw bp lim salt header ∈ items) (hsp : opens sp = true) (dp : Option Bytes) (opt : ImportOpt)
    (hopt : opt.bundle = Base64.toText bytes)
    (hdp : ∀ d, dp = some d → ∀ salt, ∃ k, E.C.argon2id (E.C.blake2b64 d).val salt PwHashLimits.moderate.ops PwHashLimits.moderate.mem = some k)
    (hnew : ∀ e, ImportedAs E opt.tag u.seed opt.exportable dp e → E.S.fits e = true ∧ ∀ e' ∈ E.S.tbl s.store, ¬ Clash e' e)
    (hcm : ∀ k k' h m, E.C.ssDec k' h (E.C.ssEnc k h u.seed.val) = some m → m = u.seed.val) :
    let r := runAlone ch s (importSeed E opens opt (sp, bp, dp))
    r.1 = .ok ⟨E.C.edPk u.seed, E.C.xPk u.seed, opt.exportable⟩ ∧
      ∃ e, E.S.tbl r.2.store = E.S.tbl s.store ++ [e] ∧ ImportedAs E opt.tag u.seed opt.exportable dp e := by
  intro r
  obtain ⟨ls, h1, h2, h3, h4⟩ := C37_every_cipher_unlocks E.C E.L u items bytes hl hf
  have hb : Base64.ofText opt.bundle = some bytes := by rw [hopt]; exact Base64.ofText_toText bytes
  have hopen : firstOpen E.C bp ls = some u := by
    obtain ⟨i, hi⟩ := List.mem_iff_getElem?.1 hm
    obtain ⟨l, hl1, hl2⟩ := h3 i bp lim salt header hi
    have hlm : l ∈ ls := List.mem_of_getElem? hl1
    have hsome : ∃ v, firstOpen E.C bp ls = some v := by
      clear h1 h2 h3 h4 hl1
      induction ls with
      | nil => cases hlm
      | cons x xs ih =>
        rw [firstOpen]
        rcases List.mem_cons.1 hlm with rfl | hlm
        · split
          · rw [hl2]; exact ⟨u, rfl⟩
          · rename_i hq
            unfold Locked.unlockPw at hl2
            rw [hq] at hl2; cases hl2
        · split
          · split
            · exact ⟨_, rfl⟩
            · exact ih hlm
          · exact ih hlm
    obtain ⟨v, hv⟩ := hsome
    obtain ⟨pre, l', post, e, h5, _⟩ := (firstOpen_spec _ _ _ _).1 hv
    have := (C37_nothing_else_unlocks E.C E.L u items bytes hl hf ls h1 hcm l' (by rw [e]; simp) v).1 bp h5
    rw [hv, this]
  have hok : ∃ a, r.1 = .ok a := by
    have hr : r = runAlone ch s (importSeed E opens opt (sp, bp, dp)) := rfl
    unfold importSeed at hr
    simp only [hsp, if_true, hb, h1, hopen] at hr
    cases dp with
    | none =>
      simp only [runAlone_insertSeed_eq, hch 0] at hr
      refine ⟨⟨E.C.edPk u.seed, E.C.xPk u.seed, opt.exportable⟩, ?_⟩
      rw [hr]
      exact runAlone_writeRet_ok (fun n => ch (n + 2)) (fun n => hch _) s hs _ _
        (hnew _ ⟨rfl, rfl, rfl, SecretSized.decrypt_encrypt ..⟩)
    | some d =>
      obtain ⟨k, hk⟩ := hdp d rfl ((ch 1).rnd 16)
      simp only [runAlone_insertDeep_eq, hch 0, hk] at hr
      refine ⟨⟨E.C.edPk u.seed, E.C.xPk u.seed, opt.exportable⟩, ?_⟩
      rw [hr]
      exact runAlone_writeRet_ok (fun n => ch (n + 3)) (fun n => hch _) s hs _ _
        (hnew _ ⟨d, k, rfl, rfl, rfl, rfl, rfl, hk, SecretSized.decrypt_encrypt ..⟩)
  obtain ⟨a, ha⟩ := hok
  rcases C47_import_outcome ch s hs opens opt sp bp dp with ⟨⟨x, h⟩, _⟩ | ⟨bytes', pre, l, post, v, e, _, g1, g2, g3, g4, g5, g6, g7⟩
  · rw [show (runAlone ch s (importSeed E opens opt (sp, bp, dp))).1 = r.1 from rfl, ha] at h
    cases h
  · rw [hb] at g1; cases g1
    rw [h1] at g2; cases g2
    have : v = u := (C37_nothing_else_unlocks E.C E.L u items bytes hl hf _ h1 hcm l (by simp) v).1 bp g3
    subst this
    exact ⟨g5, e, g6, g7⟩

/-- C47. `import-seed --piped`: either an error is reported and the keystore is as it was, or the input is a text whose non-blank lines -
    without the white space around them - are the passphrase of the keystore, then the one of the bundle and then, if and only if
    `--deep-lock` was given, the one to lock the seed with; and the seed of the first cipher the second opens is stored. -/
theorem C47_piped_import (ch : Nat → Choice) (s : Shared E) (hs : E.S.ok s.store) (opens : Bytes → Bool) (deep : Bool) (opt : ImportOpt)
    (stdin : Bytes) :
    let r := runAlone ch s (importPiped E opens deep opt stdin)
    ((∃ x, r.1 = .error x) ∧ r.2 = s) ∨
    ∃ text sp bp dp bytes pre l post u e, ofUtf8 (stripEol stdin) = some text ∧
      ((splitLines text.toList).filter (fun l => trim l ≠ [])).map (fun l => utf8 (String.ofList (trim l))) = sp :: bp :: dp.toList ∧
      dp.isSome = deep ∧ opens sp = true ∧ Base64.ofText opt.bundle = some bytes ∧ fromLocked bytes = some (pre ++ l :: post) ∧
      l.unlockPw E.C bp = some u ∧ (∀ l' ∈ pre, l'.unlockPw E.C bp = none) ∧
      r.1 = .ok ⟨E.C.edPk u.seed, E.C.xPk u.seed, opt.exportable⟩ ∧ E.S.tbl r.2.store = E.S.tbl s.store ++ [e] ∧
      ImportedAs E opt.tag u.seed opt.exportable dp e := by
  intro r
  have hr : r = runAlone ch s (importPiped E opens deep opt stdin) := rfl
  have hlines : ∀ ls : List (List Char), ((ls.map trim).filterMap (fun l => if l = [] then none else some (utf8 (String.ofList l)))) =
      (ls.filter (fun l => trim l ≠ [])).map (fun l => utf8 (String.ofList (trim l))) := by
    intro ls
    induction ls with
    | nil => rfl
    | cons l ls ih => by_cases h : trim l = [] <;> simp [h] at ih ⊢ <;> exact ih
  unfold importPiped at hr
  split at hr
  · left; rw [hr]; exact ⟨⟨_, rfl⟩, rfl⟩
  · rename_i pass hpass
    obtain ⟨sp, bp, dp⟩ := pass
    have hp : ∃ text, ofUtf8 (stripEol stdin) = some text ∧ passphraseLines text = sp :: bp :: dp.toList ∧ dp.isSome = deep := by
      unfold importPassphrases at hpass
      split at hpass
      · cases hpass
      · rename_i text ht
        refine ⟨text, ht, ?_⟩
        split at hpass
        · rename_i hd
          split at hpass
          · rename_i e; cases hpass; exact ⟨e, hd.symm⟩
          · cases hpass
        · rename_i hd
          split at hpass
          · rename_i e; cases hpass; exact ⟨e, by simpa using hd⟩
          · cases hpass
    obtain ⟨text, ht, hl, hd⟩ := hp
    rcases C47_import_outcome ch s hs opens opt sp bp dp with h | ⟨bytes, pre, l, post, u, e, h1, h2, h3, h4, h5, h6, h7, h8⟩
    · left; rw [hr]; exact h
    · right
      refine ⟨text, sp, bp, dp, bytes, pre, l, post, u, e, ht, ?_, hd, h1, h2, h3, h4, h5, ?_, ?_, h8⟩
      · rw [← hl, passphraseLines, hlines]
      · rw [hr]; exact h6
      · rw [hr]; exact h7

/-- A bundle with two passphrases, imported with the second one, deep-locked and not. -/
example :
    let E := Ex.env false 128;
    let u : Unlocked := ⟨B.fill 32 7, []⟩;
    let items : List LockItem := [.pw [97] .minimum (B.fill 16 5) (B.fill 24 6), .pw [98] .minimum (B.fill 16 5) (B.fill 24 6)];
    let text := ((u.lock E.C items).map Base64.toText).getD "";
    let s : Shared E := ⟨MemStore.empty, [], [], [], fun _ => false⟩;
    let r := runAlone (fun _ => Ex.calm 3) s (importSeed E (fun p => p == [1]) ⟨"t", text, true⟩ ([1], [98], none));
    (r.1.isOk, (E.S.tbl r.2.store).map Entry.info) = (true, [.seed "t" ⟨E.C.edPk u.seed, E.C.xPk u.seed, true⟩]) ∧
    (runAlone (fun _ => Ex.calm 3) s (importSeed E (fun p => p == [1]) ⟨"t", text, true⟩ ([1], [99], none))).1.isOk = false ∧
    (runAlone (fun _ => Ex.calm 3) s (importSeed E (fun p => p == [1]) ⟨"t", text, true⟩ ([1], [98], some [5]))).1.isOk = true ∧
    (runAlone (fun _ => Ex.calm 3) s (importPiped E (fun p => p == [120]) false ⟨"t", text, true⟩ [120, 10, 32, 98, 13, 10])).1.isOk = true ∧
    (runAlone (fun _ => Ex.calm 3) s (importPiped E (fun p => p == [120]) true ⟨"t", text, true⟩ [120, 10, 32, 98, 13, 10])).1.isOk = false := by
  decide +kernel

end Lair
