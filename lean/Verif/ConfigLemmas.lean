import Verif.Config

/-! Lemmas about connection URLs, generated configurations and their printing. -/
namespace Lair
namespace Url

theorem hexVal_hexDigit {n : Nat} (h : n < 16) : hexVal (hexDigit n) = some n := by
  have : ∀ m : Fin 16, hexVal (hexDigit m.val) = some m.val := by decide +kernel
  exact this ⟨n, h⟩

theorem hexDigit_safe {n : Nat} (h : n < 16) : pathSet (hexDigit n) = false ∧ querySet (hexDigit n) = false := by
  have : ∀ m : Fin 16, pathSet (hexDigit m.val) = false ∧ querySet (hexDigit m.val) = false := by decide +kernel
  exact this ⟨n, h⟩

theorem pctDecode_plain {b : UInt8} (hb : b ≠ 0x25) (rest : Bytes) : pctDecode (b :: rest) = b :: pctDecode rest := by
  rw [pctDecode.eq_def]
  split
  · rename_i h; cases h; exact absurd rfl hb
  · rename_i h; cases h; rfl
  · rename_i h; cases h

theorem pctDecode_escape {x y : UInt8} {a b : Nat} (hx : hexVal x = some a) (hy : hexVal y = some b) (rest : Bytes) :
    pctDecode (0x25 :: x :: y :: rest) = UInt8.ofNat (16 * a + b) :: pctDecode rest := by
  rw [pctDecode]
  simp only [hx, hy]

/-- What is encoded decodes to itself, unless it already had a `%`. -/
theorem pctDecode_pctEncode (set : UInt8 → Bool) (b : Bytes) (h : (0x25 : UInt8) ∉ b) : pctDecode (pctEncode set b) = b := by
  induction b with
  | nil => simp [pctEncode, pctDecode]
  | cons x xs ih =>
    have hx : x ≠ 0x25 := fun e => h (by simp [e])
    have hxs := ih (fun e => h (by simp [e]))
    have hl := x.toNat_lt
    simp only [pctEncode]
    split
    · rw [pctDecode_escape (hexVal_hexDigit (by omega)) (hexVal_hexDigit (by omega)), hxs]
      have : UInt8.ofNat (16 * (x.toNat / 16) + x.toNat % 16) = x := by
        rw [Nat.div_add_mod]; simp
      rw [this]
    · rw [pctDecode_plain hx, hxs]

theorem pctDecode_id (b : Bytes) (h : (0x25 : UInt8) ∉ b) : pctDecode b = b := by
  induction b with
  | nil => simp [pctDecode]
  | cons x xs ih =>
    rw [pctDecode_plain (fun e => h (by simp [e])), ih (fun e => h (by simp [e]))]

theorem pctEncode_safe (set : UInt8 → Bool) (b : Bytes) (h : ∀ x ∈ b, set x = false) : pctEncode set b = b := by
  induction b with
  | nil => rfl
  | cons x xs ih => simp [pctEncode, h x (by simp), ih (fun y hy => h y (by simp [hy]))]

theorem mem_pctEncode_path {b : Bytes} {x : UInt8} (h : x ∈ pctEncode pathSet b) : pathSet x = false := by
  induction b with
  | nil => simp [pctEncode] at h
  | cons y ys ih =>
    have hl := y.toNat_lt
    simp only [pctEncode] at h
    split at h
    · simp only [List.mem_cons] at h
      rcases h with rfl | rfl | rfl | h
      · decide
      · exact (hexDigit_safe (by omega)).1
      · exact (hexDigit_safe (by omega)).1
      · exact ih h
    · rename_i hn
      simp only [List.mem_cons] at h
      rcases h with rfl | h
      · simpa using hn
      · exact ih h

theorem mem_pctEncode_query {b : Bytes} {x : UInt8} (h : x ∈ pctEncode querySet b) : querySet x = false := by
  induction b with
  | nil => simp [pctEncode] at h
  | cons y ys ih =>
    have hl := y.toNat_lt
    simp only [pctEncode] at h
    split at h
    · simp only [List.mem_cons] at h
      rcases h with rfl | rfl | rfl | h
      · decide
      · exact (hexDigit_safe (by omega)).2
      · exact (hexDigit_safe (by omega)).2
      · exact ih h
    · rename_i hn
      simp only [List.mem_cons] at h
      rcases h with rfl | h
      · simpa using hn
      · exact ih h

theorem pathSet_false {x : UInt8} (h : pathSet x = false) : x ≠ 0x23 ∧ x ≠ 0x3f ∧ dropped x = false := by
  refine ⟨?_, ?_, ?_⟩
  · rintro rfl; exact absurd h (by decide)
  · rintro rfl; exact absurd h (by decide)
  · unfold dropped
    simp only [Bool.or_eq_false_iff, beq_eq_false_iff_ne]
    refine ⟨⟨?_, ?_⟩, ?_⟩ <;> (rintro rfl; exact absurd h (by decide))

theorem querySet_false {x : UInt8} (h : querySet x = false) : x ≠ 0x23 ∧ dropped x = false := by
  refine ⟨?_, ?_⟩
  · rintro rfl; exact absurd h (by decide)
  · unfold dropped
    simp only [Bool.or_eq_false_iff, beq_eq_false_iff_ne]
    refine ⟨⟨?_, ?_⟩, ?_⟩ <;> (rintro rfl; exact absurd h (by decide))

theorem takeWhile_all {p : UInt8 → Bool} {l : Bytes} (h : ∀ x ∈ l, p x = true) : l.takeWhile p = l := by
  induction l with
  | nil => rfl
  | cons x xs ih => simp [List.takeWhile, h x (by simp), ih (fun y hy => h y (by simp [hy]))]

theorem takeWhile_stop {p : UInt8 → Bool} {l r : Bytes} {c : UInt8} (h : ∀ x ∈ l, p x = true) (hc : p c = false) :
    (l ++ c :: r).takeWhile p = l ∧ (l ++ c :: r).dropWhile p = c :: r := by
  induction l with
  | nil => simp [hc]
  | cons x xs ih =>
    have := ih (fun y hy => h y (by simp [hy]))
    simp [h x (by simp), this]

theorem dropWhile_all {p : UInt8 → Bool} {l : Bytes} (h : ∀ x ∈ l, p x = true) : l.dropWhile p = [] := by
  induction l with
  | nil => rfl
  | cons x xs ih => simp [List.dropWhile, h x (by simp), ih (fun y hy => h y (by simp [hy]))]

/-- Parsing path and query that need no dropping. -/
theorem ofText_query {p q : Bytes} (hp : ∀ x ∈ p, x ≠ 0x23 ∧ x ≠ 0x3f ∧ dropped x = false)
    (hq : ∀ x ∈ q, x ≠ 0x23 ∧ dropped x = false) :
    ofText (p ++ 0x3f :: q) = { path := pctEncode pathSet p, query := some (pctEncode querySet q) } := by
  have hf : (p ++ 0x3f :: q).filter (fun b => !dropped b) = p ++ 0x3f :: q := by
    apply List.filter_eq_self.2
    intro x hx
    simp only [List.mem_append, List.mem_cons] at hx
    rcases hx with hx | rfl | hx
    · simp [(hp x hx).2.2]
    · decide
    · simp [(hq x hx).2]
  have ht : (p ++ 0x3f :: q).takeWhile (· != 0x23) = p ++ 0x3f :: q := by
    apply takeWhile_all
    intro x hx
    simp only [List.mem_append, List.mem_cons] at hx
    rcases hx with hx | rfl | hx
    · simp [(hp x hx).1]
    · decide
    · simp [(hq x hx).1]
  have hs := takeWhile_stop (p := (· != 0x3f)) (l := p) (r := q) (c := 0x3f) (fun x hx => by simp [(hp x hx).2.1]) (by decide)
  unfold ofText
  simp only [hf, ht, hs.1, hs.2]

theorem ofText_plain {p : Bytes} (hp : ∀ x ∈ p, x ≠ 0x23 ∧ x ≠ 0x3f ∧ dropped x = false) :
    ofText p = { path := pctEncode pathSet p, query := none } := by
  have hf : p.filter (fun b => !dropped b) = p := by
    apply List.filter_eq_self.2
    intro x hx
    simp [(hp x hx).2.2]
  have ht : p.takeWhile (· != 0x23) = p := takeWhile_all (fun x hx => by simp [(hp x hx).1])
  have hs : p.takeWhile (· != 0x3f) = p := takeWhile_all (fun x hx => by simp [(hp x hx).2.1])
  have hd : p.dropWhile (· != 0x3f) = [] := dropWhile_all (fun x hx => by simp [(hp x hx).2.1])
  unfold ofText
  simp only [hf, ht, hs, hd]

/-- A URL read back from its text is itself. -/
theorem ofText_text (rest : Bytes) : ofText (ofText rest).text = ofText rest := by
  generalize hu : ofText rest = u
  have hpath : ∃ p, u.path = pctEncode pathSet p := ⟨_, by rw [← hu]; rfl⟩
  obtain ⟨p, hp⟩ := hpath
  have hp1 : ∀ x ∈ u.path, pathSet x = false := fun x hx => mem_pctEncode_path (hp ▸ hx)
  have hq : u.query = none ∨ ∃ q, u.query = some (pctEncode querySet q) := by
    rw [← hu]; unfold ofText; simp only
    split
    · exact Or.inl rfl
    · exact Or.inr ⟨_, rfl⟩
  rcases u with ⟨path, query⟩
  simp only at hp hp1 hq
  rcases hq with rfl | ⟨q, rfl⟩
  · simp only [text]
    rw [ofText_plain (fun x hx => pathSet_false (hp1 x hx)), pctEncode_safe _ _ hp1]
  · simp only [text]
    have hq1 : ∀ x ∈ pctEncode querySet q, querySet x = false := fun x hx => mem_pctEncode_query hx
    rw [ofText_query (fun x hx => pathSet_false (hp1 x hx)) (fun x hx => querySet_false (hq1 x hx)),
      pctEncode_safe _ _ hp1, pctEncode_safe _ _ hq1]

/-! ### The key in the query -/

/-- A byte of the base64 alphabet. Specification: nothing in the code corresponds. -/
def plain (x : UInt8) : Bool :=
  !querySet x && !dropped x && x != 0x23 && x != 0x25 && x != 0x26 && x != 0x2b && x != 0x3d

theorem utf8_ofList_ascii (cs : List Char) (h : ∀ c ∈ cs, ∃ n, n < 64 ∧ c = Base64.enc6 n) :
    ∀ x ∈ Mp.utf8 (String.ofList cs), plain x = true := by
  induction cs with
  | nil => intro x hx; simp [Mp.utf8] at hx
  | cons c cs ih =>
    intro x hx
    have e : Mp.utf8 (String.ofList (c :: cs)) = Mp.utf8 (String.singleton c) ++ Mp.utf8 (String.ofList cs) := by
      simp only [Mp.utf8]
      rw [show String.ofList (c :: cs) = String.singleton c ++ String.ofList cs by
        apply String.toList_inj.1; simp]
      simp
    rw [e, List.mem_append] at hx
    rcases hx with hx | hx
    · obtain ⟨n, hn, rfl⟩ := h c (by simp)
      have : ∀ m : Fin 64, ∀ x ∈ Mp.utf8 (String.singleton (Base64.enc6 m.val)), plain x = true := by decide +kernel
      exact this ⟨n, hn⟩ x hx
    · exact ih (fun c hc => h c (by simp [hc])) x hx

theorem encode_alphabet (b : Bytes) : ∀ c ∈ Base64.encode b, ∃ n, n < 64 ∧ c = Base64.enc6 n := by
  fun_induction Base64.encode b with
  | case1 a b c rest n ih =>
    have ha := a.toNat_lt; have hb := b.toNat_lt; have hc := c.toNat_lt
    have hn : n = a.toNat * 65536 + b.toNat * 256 + c.toNat := rfl
    intro d hd
    simp only [List.mem_cons] at hd
    rcases hd with rfl | rfl | rfl | rfl | hd
    · exact ⟨_, by omega, rfl⟩
    · exact ⟨_, by omega, rfl⟩
    · exact ⟨_, by omega, rfl⟩
    · exact ⟨_, by omega, rfl⟩
    · exact ih d hd
  | case2 a b n =>
    have ha := a.toNat_lt; have hb := b.toNat_lt
    have hn : n = a.toNat * 65536 + b.toNat * 256 := rfl
    intro d hd
    simp only [List.mem_cons, List.not_mem_nil, or_false] at hd
    rcases hd with rfl | rfl | rfl <;> exact ⟨_, by omega, rfl⟩
  | case3 a n =>
    have ha := a.toNat_lt
    have hn : n = a.toNat * 65536 := rfl
    intro d hd
    simp only [List.mem_cons, List.not_mem_nil, or_false] at hd
    rcases hd with rfl | rfl <;> exact ⟨_, by omega, rfl⟩
  | case4 => simp

theorem toText_plain (b : Bytes) : ∀ x ∈ Mp.utf8 (Base64.toText b), plain x = true :=
  utf8_ofList_ascii _ (encode_alphabet b)

theorem splitOn_none {c : UInt8} {b : Bytes} (h : c ∉ b) : splitOn c b = [b] := by
  induction b with
  | nil => rfl
  | cons x xs ih =>
    have hx : x ≠ c := fun e => h (by simp [e])
    simp only [splitOn, hx, if_false, ih (fun e => h (by simp [e]))]

theorem formDecode_plain {b : Bytes} (h : ∀ x ∈ b, plain x = true) : formDecode b = b := by
  have hm : b.map (fun x => if x = 0x2b then 0x20 else x) = b := by
    conv => rhs; rw [← List.map_id b]
    apply List.map_congr_left
    intro x hx
    have := h x hx
    have hne : x ≠ 0x2b := by rintro rfl; revert this; decide
    simp [hne]
  unfold formDecode
  rw [hm]
  apply pctDecode_id
  intro hm
  have := h _ hm
  revert this; decide

/-- The key at the end of a URL is found. -/
theorem serverPubKey_of_query (p : Bytes) (k : B 32) :
    serverPubKey { path := p, query := some (pctEncode querySet (Mp.utf8 "k=" ++ Mp.utf8 (Base64.toText k.val))) } = some k := by
  generalize ht : Mp.utf8 (Base64.toText k.val) = t
  have htp : ∀ x ∈ t, plain x = true := ht ▸ toText_plain k.val
  have hk : Mp.utf8 "k=" = [0x6b, 0x3d] := by decide +kernel
  have henc : pctEncode querySet ([0x6b, 0x3d] ++ t) = 0x6b :: 0x3d :: t := by
    apply pctEncode_safe
    intro x hx
    simp only [List.mem_append, List.mem_cons, List.not_mem_nil, or_false] at hx
    rcases hx with (rfl | rfl) | hx
    · decide
    · decide
    · have := htp x hx
      simp only [plain, Bool.and_eq_true, Bool.not_eq_true'] at this
      exact this.1.1.1.1.1.1
  have hsplit : splitOn 0x26 (0x6b :: 0x3d :: t) = [0x6b :: 0x3d :: t] := by
    apply splitOn_none
    intro hm
    simp only [List.mem_cons] at hm
    rcases hm with hm | hm | hm
    · exact absurd hm (by decide)
    · exact absurd hm (by decide)
    · have := htp _ hm; revert this; decide
  have hform : formDecode [0x6b] = [0x6b] := by decide +kernel
  have hpair : pair (0x6b :: 0x3d :: t) = ([0x6b], t) := by
    have h1 : (0x6b :: 0x3d :: t : Bytes).takeWhile (· != 0x3d) = [0x6b] := by simp [List.takeWhile]
    have h2 : (0x6b :: 0x3d :: t : Bytes).dropWhile (· != 0x3d) = 0x3d :: t := by simp [List.dropWhile]
    simp only [pair, h1, h2, List.drop_succ_cons, List.drop_zero, hform, formDecode_plain htp]
  unfold serverPubKey queryPairs
  rw [hk, henc]
  simp only [hsplit]
  rw [show List.filter (fun x => decide (x ≠ [])) [0x6b :: 0x3d :: t] = [0x6b :: 0x3d :: t] by simp]
  simp only [List.map_cons, List.map_nil, hpair, List.find?_cons, decide_true]
  rw [← ht, Mp.ofUtf8_utf8]
  exact Base64.ofTextSized_toText k

end Url
end Lair
