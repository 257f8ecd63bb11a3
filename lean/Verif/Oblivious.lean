import Verif.Secrecy
import Verif.Sizes
import Verif.Examples

/- Both stores give answers that do not depend on sealed seeds. -/
namespace Lair
open Mp

/-! ### The SQLite store -/

theorem enc6_size (n : Nat) : (Base64.enc6 n).utf8Size = 1 := by
  by_cases h : n < 64
  · have key : ∀ m : Nat, m < 64 → (Base64.enc6 m).utf8Size = 1 := by decide
    exact key n h
  · unfold Base64.enc6
    rw [if_neg (by omega), if_neg (by omega), if_neg (by omega), if_neg (by omega)]
    decide

theorem encode_size : (b : Bytes) → ∀ c ∈ Base64.encode b, c.utf8Size = 1
  | a :: b :: c :: rest => by
    intro x hx
    simp only [Base64.encode, List.mem_cons] at hx
    rcases hx with rfl | rfl | rfl | rfl | hx
    · exact enc6_size _
    · exact enc6_size _
    · exact enc6_size _
    · exact enc6_size _
    · exact encode_size rest x hx
  | [a, b] => by
    intro x hx
    simp only [Base64.encode, List.mem_cons, List.not_mem_nil, or_false] at hx
    rcases hx with rfl | rfl | rfl <;> exact enc6_size _
  | [a] => by
    intro x hx
    simp only [Base64.encode, List.mem_cons, List.not_mem_nil, or_false] at hx
    rcases hx with rfl | rfl <;> exact enc6_size _
  | [] => by intro x hx; cases hx

theorem encode_len : (b : Bytes) → (Base64.encode b).length = (4 * b.length + 2) / 3
  | a :: b :: c :: rest => by
    simp only [Base64.encode, List.length_cons]
    rw [encode_len rest]; omega
  | [_, _] => by simp [Base64.encode]
  | [_] => by simp [Base64.encode]
  | [] => rfl

theorem encode_len_eq (b b' : Bytes) (h : b.length = b'.length) : (Base64.encode b).length = (Base64.encode b').length := by
  rw [encode_len, encode_len, h]

theorem utf8_ofList_len (l : List Char) (h : ∀ c ∈ l, c.utf8Size = 1) : (utf8 (String.ofList l)).length = l.length := by
  have : (String.ofList l).utf8ByteSize = l.length := by
    induction l with
    | nil => rfl
    | cons c l ih =>
      rw [String.ofList_cons, String.utf8ByteSize_append, ih (fun x hx => h x (List.mem_cons_of_mem _ hx))]
      have : (String.singleton c).utf8ByteSize = 1 := by
        rw [String.utf8ByteSize_singleton]; exact h c (List.mem_cons_self ..)
      simp only [List.length_cons]; omega
  exact this

theorem sBin_len {b b' : Bytes} (h : b.length = b'.length) : (enc (Codec.sBin b)).length = (enc (Codec.sBin b')).length := by
  have hl : (utf8 (Base64.toText b)).length = (utf8 (Base64.toText b')).length := by
    unfold Base64.toText
    rw [utf8_ofList_len _ (encode_size b), utf8_ofList_len _ (encode_size b'), encode_len_eq _ _ h]
  simp only [Codec.sBin, enc]
  rw [Codec.encStr_len, Codec.encStr_len, hl]

theorem sSecret_len {n : Nat} (a b : SecretSized n) : (enc (Codec.sSecret a)).length = (enc (Codec.sSecret b)).length := by
  simp only [Codec.sSecret, enc, encVals, List.length_append]
  have h1 := sBin_len (b := a.hdr.val) (b' := b.hdr.val) (by rw [a.hdr.len, b.hdr.len])
  have h2 := sBin_len (b := a.cipher.val) (b' := b.cipher.val) (by rw [a.cipher.len, b.cipher.len])
  simp only [Vals.length]
  omega

theorem Entry.PubEq.size {e e' : Entry} (h : e.PubEq e') : (Codec.encodeEntry e).length = (Codec.encodeEntry e').length := by
  cases e <;> cases e' <;> first | exact h.elim | skip
  · rename_i t i c t' i' c'
    obtain ⟨rfl, rfl⟩ := h
    simp only [Codec.encodeEntry, Codec.sEntry]
    rw [Codec.enc_map_len _ (by simp), Codec.enc_map_len _ (by simp)]
    simp only [List.map_cons, List.map_nil, List.sum_cons, List.sum_nil]
    rw [sSecret_len c c']
  · rename_i t i sa o m c t' i' sa' o' m' c'
    obtain ⟨rfl, rfl, rfl, rfl, rfl⟩ := h
    simp only [Codec.encodeEntry, Codec.sEntry]
    rw [Codec.enc_map_len _ (by simp), Codec.enc_map_len _ (by simp)]
    simp only [List.map_cons, List.map_nil, List.sum_cons, List.sum_nil]
    rw [sSecret_len c c']
  · obtain ⟨rfl, rfl, rfl⟩ := h; rfl

namespace SqlStore

/-- The columns of corresponding rows. Proof device: nothing in the code corresponds. -/
def RowEq (r r' : SqlRow) : Prop := r.tag = r'.tag ∧ r.ed = r'.ed ∧ r.x = r'.x

theorem rows_eq : (rows rows' : List SqlRow) → (∀ r ∈ rows, ∃ e, RowOf r e) → (∀ r ∈ rows', ∃ e, RowOf r e) →
    All2 Entry.PubEq (rows.filterMap (fun r => Codec.decodeEntry r.data)) (rows'.filterMap (fun r => Codec.decodeEntry r.data)) →
    All2 RowEq rows rows'
  | [], [], _, _, _ => .nil
  | [], r' :: rs', _, h', h => by
    obtain ⟨e, he⟩ := h' r' (List.mem_cons_self ..)
    simp [he.1] at h; cases h
  | r :: rs, [], h, _, h2 => by
    obtain ⟨e, he⟩ := h r (List.mem_cons_self ..)
    simp [he.1] at h2; cases h2
  | r :: rs, r' :: rs', h, h', h2 => by
    obtain ⟨e, he⟩ := h r (List.mem_cons_self ..)
    obtain ⟨e', he'⟩ := h' r' (List.mem_cons_self ..)
    simp only [List.filterMap_cons, he.1, he'.1] at h2
    cases h2 with
    | cons h3 h4 =>
      refine .cons ⟨?_, ?_, ?_⟩ (rows_eq rs rs' (fun r hr => h r (List.mem_cons_of_mem _ hr)) (fun r hr => h' r (List.mem_cons_of_mem _ hr)) h4)
      · rw [he.2.1, he'.2.1, h3.tag]
      · rw [he.2.2.1, he'.2.2.1, h3.edKey]
      · rw [he.2.2.2, he'.2.2.2, h3.xKey]

theorem queryRow_error {s s' : SqlStore} (h : Ok s) (hr : All2 RowEq s.rows s'.rows) {p : SqlRow → Bool}
    (hp : ∀ r r', RowEq r r' → p r = p r') {x : String} (hx : queryRow s p = .error x) : queryRow s' p = .error x := by
  unfold queryRow at *
  rcases hr.find hp with ⟨h1, h2⟩ | ⟨r, r', h1, h2, _⟩
  · rw [h1] at hx; rw [h2]; exact hx
  · rw [h1] at hx
    obtain ⟨e, he⟩ := h.rows r (List.mem_of_find?_eq_some h1)
    simp only [he.1] at hx
    cases hx

theorem write_pub {s s' : SqlStore} (h : Ok s) (h' : Ok s') (ht : All2 Entry.PubEq (tbl s) (tbl s')) {e e' : Entry} (he : e.PubEq e') :
    (SqlStore.write s e).1 = (SqlStore.write s' e').1 := by
  have hr := rows_eq _ _ h.rows h'.rows ht
  rw [insertRow_eq, insertRow_eq]
  unfold insertRow
  have e1 : s.rows.any (fun r => r.tag = e.tag) = s'.rows.any (fun r => r.tag = e'.tag) := by
    refine hr.any_eq ?_
    intro r r' hrr; rw [hrr.1, he.tag]
  have e2 : s.rows.map (·.ed) = s'.rows.map (·.ed) := hr.map_eq fun _ _ h => h.2.1
  have e3 : s.rows.map (·.x) = s'.rows.map (·.x) := hr.map_eq fun _ _ h => h.2.2
  rw [he.size, e1, e2, e3, he.edKey, he.xKey]
  split
  · rfl
  · split
    · rfl
    · split
      · rfl
      · split <;> rfl

end SqlStore

/-- The SQLite store as a `StoreModel`. Specification: nothing in the code corresponds. -/
def sqlModel : StoreModel := ⟨SqlStore, SqlStore.impl, SqlStore.fits, SqlStore.Ok, SqlStore.tbl, SqlStore.refines⟩

open SqlStore in
theorem sql_oblivious : sqlModel.Oblivious where
  write := fun _ _ h h' ht _ _ he => write_pub h h' ht he
  byTag := by
    intro s s' h h' ht t x hx
    exact queryRow_error h (rows_eq _ _ h.rows h'.rows ht) (fun r r' hr => by rw [hr.1]) hx
  byEd := by
    intro s s' h h' ht t x hx
    exact queryRow_error h (rows_eq _ _ h.rows h'.rows ht) (fun r r' hr => by rw [hr.2.1]) hx
  byX := by
    intro s s' h h' ht t x hx
    exact queryRow_error h (rows_eq _ _ h.rows h'.rows ht) (fun r r' hr => by rw [hr.2.2]) hx
  list := by
    intro s s' h h' ht
    have key : ∀ s : SqlStore, Ok s → decodeAll s.rows = .ok ((SqlStore.tbl s).map Entry.info) := by
      intro s h
      suffices hs : ∀ rows : List SqlRow, (∀ r ∈ rows, ∃ e, RowOf r e) →
          decodeAll rows = .ok ((rows.filterMap (fun r => Codec.decodeEntry r.data)).map Entry.info) from hs s.rows h.rows
      intro rows
      induction rows with
      | nil => intro _; rfl
      | cons r rs ih =>
        intro hr
        obtain ⟨e, he⟩ := hr r (List.mem_cons_self ..)
        have := ih (fun r hr' => hr r (List.mem_cons_of_mem _ hr'))
        simp [decodeAll, he.1, this]
    show decodeAll s.rows = decodeAll s'.rows
    rw [key s h, key s' h']
    exact congrArg Except.ok (ht.map_eq fun _ _ h => h.info)

/-! ### The in-memory store -/

namespace MemStore

theorem get_pub {s s' : MemStore} (h : Ok s) (h' : Ok s') (ht : All2 Entry.PubEq (tbl s) (tbl s')) (t : String) (e : Entry)
    (hg : s.entryByTag.get t = some e) : ∃ e', s'.entryByTag.get t = some e' ∧ e.PubEq e' := by
  have h1 := h.tags t e hg
  subst h1
  obtain ⟨e', hm, hp⟩ := ht.mem ((mem_tbl h e).2 hg)
  exact ⟨e', by rw [hp.tag]; exact (mem_tbl h' e').1 hm, hp⟩

theorem isSome_pub {s s' : MemStore} (h : Ok s) (h' : Ok s') (ht : All2 Entry.PubEq (tbl s) (tbl s')) (t : String) :
    (s.entryByTag.get t).isSome = (s'.entryByTag.get t).isSome := by
  have ht' : All2 Entry.PubEq (tbl s') (tbl s) := ht.symm fun _ _ h => h.symm
  cases hg : s.entryByTag.get t with
  | some e => obtain ⟨e', h1, _⟩ := get_pub h h' ht t e hg; rw [h1]; rfl
  | none =>
    cases hg' : s'.entryByTag.get t with
    | none => rfl
    | some e' => obtain ⟨e, h1, _⟩ := get_pub h' h ht' t e' hg'; rw [hg] at h1; cases h1

theorem ed_pub {s s' : MemStore} (h : Ok s) (h' : Ok s') (ht : All2 Entry.PubEq (tbl s) (tbl s')) (k : B 32) (t : String)
    (hg : s.edPkToTag.get k = some t) : s'.edPkToTag.get k = some t := by
  obtain ⟨e, h1, h2⟩ := (h.ed k t).1 hg
  obtain ⟨e', h3, h4⟩ := get_pub h h' ht t e h1
  exact (h'.ed k t).2 ⟨e', h3, by rw [← h4.edKey, h2]⟩

theorem x_pub {s s' : MemStore} (h : Ok s) (h' : Ok s') (ht : All2 Entry.PubEq (tbl s) (tbl s')) (k : B 32) (t : String)
    (hg : s.xPkToTag.get k = some t) : s'.xPkToTag.get k = some t := by
  obtain ⟨e, h1, h2⟩ := (h.x k t).1 hg
  obtain ⟨e', h3, h4⟩ := get_pub h h' ht t e h1
  exact (h'.x k t).2 ⟨e', h3, by rw [← h4.xKey, h2]⟩

theorem ed_eq {s s' : MemStore} (h : Ok s) (h' : Ok s') (ht : All2 Entry.PubEq (tbl s) (tbl s')) (k : B 32) :
    s.edPkToTag.get k = s'.edPkToTag.get k := by
  have ht' : All2 Entry.PubEq (tbl s') (tbl s) := ht.symm fun _ _ h => h.symm
  cases hg : s.edPkToTag.get k with
  | some t => rw [ed_pub h h' ht k t hg]
  | none =>
    cases hg' : s'.edPkToTag.get k with
    | none => rfl
    | some t => rw [ed_pub h' h ht' k t hg'] at hg; cases hg

theorem x_eq {s s' : MemStore} (h : Ok s) (h' : Ok s') (ht : All2 Entry.PubEq (tbl s) (tbl s')) (k : B 32) :
    s.xPkToTag.get k = s'.xPkToTag.get k := by
  have ht' : All2 Entry.PubEq (tbl s') (tbl s) := ht.symm fun _ _ h => h.symm
  cases hg : s.xPkToTag.get k with
  | some t => rw [x_pub h h' ht k t hg]
  | none =>
    cases hg' : s'.xPkToTag.get k with
    | none => rfl
    | some t => rw [x_pub h' h ht' k t hg'] at hg; cases hg

theorem list_pub {s s' : MemStore} (ht : All2 Entry.PubEq (tbl s) (tbl s')) :
    (Except.ok (s.entryByTag.values.map Entry.info) : Res (List EntryInfo)) = Except.ok (s'.entryByTag.values.map Entry.info) := by
  have : All2 Entry.PubEq s.entryByTag.values s'.entryByTag.values := by
    have := ht.reverse
    simpa [MemStore.tbl] using this
  exact congrArg Except.ok (this.map_eq fun _ _ h => h.info)

end MemStore

open MemStore in
theorem mem_oblivious : Ex.mem.Oblivious where
  write := by
    intro s s' h h' ht e e' he
    show (MemStore.write s e).1 = (MemStore.write s' e').1
    unfold MemStore.write
    have e2 : hasOpt s.edPkToTag e.edKey = hasOpt s'.edPkToTag e'.edKey := by
      rw [he.edKey]; unfold hasOpt
      split
      · rw [ed_eq h h' ht]
      · rfl
    have e3 : hasOpt s.xPkToTag e.xKey = hasOpt s'.xPkToTag e'.xKey := by
      rw [he.xKey]; unfold hasOpt
      split
      · rw [x_eq h h' ht]
      · rfl
    rw [isSome_pub h h' ht, he.tag, e2, e3]
    split
    · rfl
    · split
      · rfl
      · split <;> rfl
  byTag := by
    intro s s' h h' ht t x hx
    have hx : Res.ofOption "tag not found" (s.entryByTag.get t) = .error x := hx
    show Res.ofOption "tag not found" (s'.entryByTag.get t) = .error x
    have := isSome_pub h h' ht t
    cases hg : s.entryByTag.get t with
    | some e => rw [hg] at hx; cases hx
    | none =>
      rw [hg] at this hx
      cases hg' : s'.entryByTag.get t with
      | none => exact hx
      | some e => rw [hg'] at this; cases this
  byEd := by
    intro s s' h h' ht k x hx
    have hx : MemStore.byEd s k = .error x := hx
    show MemStore.byEd s' k = .error x
    unfold MemStore.byEd at *
    rw [← ed_eq h h' ht]
    split at hx
    · rename_i h1; exact hx
    · rename_i t h1
      obtain ⟨e, h2, _⟩ := (h.ed k t).1 h1
      rw [h2] at hx; cases hx
  byX := by
    intro s s' h h' ht k x hx
    have hx : MemStore.byX s k = .error x := hx
    show MemStore.byX s' k = .error x
    unfold MemStore.byX at *
    rw [← x_eq h h' ht]
    split at hx
    · rename_i h1; exact hx
    · rename_i t h1
      obtain ⟨e, h2, _⟩ := (h.x k t).1 h1
      rw [h2] at hx; cases hx
  list := by
    intro s s' h h' ht
    exact list_pub ht

end Lair
