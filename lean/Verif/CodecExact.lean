import Verif.CodecLemmas
import Verif.CodecSpec
import Verif.MsgpackWire

/- The decoders of lair's types read exactly what the specification in `CodecSpec` says. -/
namespace Lair.Codec
open Mp

/-! ### Leaves -/

theorem dStr_iff {v : Val} {s : String} : dStr v = some s ↔ v = .str s := by
  cases v <;> simp [dStr]
theorem dBool_iff {v : Val} {b : Bool} : dBool v = some b ↔ v = .bool b := by
  cases v <;> simp [dBool]
theorem dU32_iff {v : Val} {n : UInt32} : dU32 v = some n ↔ v = sU32 n := by
  constructor
  · intro h
    cases v with
    | uint m =>
      simp only [dU32] at h
      split at h
      · rename_i hm
        cases h
        simp only [sU32, Val.uint.injEq]
        rw [UInt32.toNat_ofNat_of_lt' (by simpa using hm)]
      · cases h
    | _ => simp [dU32] at h
  · rintro rfl
    simp [dU32, sU32]
    exact n.toNat_lt
theorem dU8_iff {v : Val} {n : UInt8} : dU8 v = some n ↔ v = sU8 n := by
  constructor
  · intro h
    cases v with
    | uint m =>
      simp only [dU8] at h
      split at h
      · rename_i hm
        cases h
        simp only [sU8, Val.uint.injEq]
        rw [UInt8.toNat_ofNat_of_lt' (by simpa using hm)]
      · cases h
    | _ => simp [dU8] at h
  · rintro rfl
    simp [dU8, sU8]
    exact n.toNat_lt
theorem dBin_iff {v : Val} {b : Bytes} : dBin v = some b ↔ v = sBin b := by
  constructor
  · intro h
    cases v with
    | str s => simp only [dBin] at h; rw [sBin, ← Base64.toText_of_ofText h]
    | _ => simp [dBin] at h
  · rintro rfl; simp [dBin, sBin, Base64.ofText_toText]
theorem dSized_iff {n : Nat} {v : Val} {b : B n} : dSized n v = some b ↔ v = sBin b.val := by
  constructor
  · intro h
    cases v with
    | str s =>
      simp only [dSized, Base64.ofTextSized] at h
      obtain ⟨c, h1, h2⟩ := Option.bind_eq_some_iff.mp h
      rw [B.ofBytes?_eq_some] at h2
      rw [sBin, ← h2, ← Base64.toText_of_ofText h1]
    | _ => simp [dSized] at h
  · rintro rfl; simp [dSized, sBin, Base64.ofTextSized_toText]

theorem dVals_iff {α : Type} {f : Val → Option α} {g : α → Val} (h : ∀ v a, f v = some a ↔ v = g a) (vs : Vals) (l : List α) :
    dVals f vs = some l ↔ vs = valsOf g l := by
  induction l generalizing vs with
  | nil =>
    cases vs with
    | nil => simp [dVals, valsOf]
    | cons v vs =>
      simp only [dVals, valsOf]
      split <;> simp
  | cons a l ih =>
    cases vs with
    | nil => simp [dVals, valsOf]
    | cons v vs =>
      simp only [dVals, valsOf, Vals.cons.injEq]
      rw [← h, ← ih]
      split
      · rename_i a' l' h1 h2; rw [h1, h2]; simp
      · rename_i hno
        constructor
        · intro hx; cases hx
        · rintro ⟨h1, h2⟩; exact absurd h2 (hno _ _ h1)

theorem dList_iff {α : Type} {f : Val → Option α} {g : α → Val} (h : ∀ v a, f v = some a ↔ v = g a) {v : Val} {l : List α} :
    dList f v = some l ↔ v = sList g l := by
  cases v with
  | arr vs => simp only [dList, sList, Val.arr.injEq]; exact dVals_iff h vs l
  | _ => simp [dList, sList]

theorem dSeq_iff {v : Val} {b : Bytes} : dSeq v = some b ↔ v = sSeq b := dList_iff (fun _ _ => dU8_iff)
theorem dSeqSized_iff {n : Nat} {v : Val} {b : B n} : dSeqSized n v = some b ↔ v = sSeq b.val := by
  unfold dSeqSized
  rw [Option.bind_eq_some_iff]
  constructor
  · rintro ⟨c, h1, h2⟩
    rw [B.ofBytes?_eq_some] at h2
    rw [← h2]; exact dSeq_iff.mp h1
  · intro h
    exact ⟨b.val, dSeq_iff.mpr h, by rw [B.ofBytes?_eq_some]⟩
theorem dPath_iff {v : Val} {l : List UInt32} : dList dU32 v = some l ↔ v = sList sU32 l := dList_iff (fun _ _ => dU32_iff)

theorem dSecret_iff {n : Nat} {v : Val} {s : SecretSized n} : dSecret n v = some s ↔ v = sSecret s := by
  constructor
  · intro h
    unfold dSecret at h
    split at h
    · rename_i a b
      split at h
      · rename_i x y h1 h2
        cases h
        rw [dSized_iff.mp h1, dSized_iff.mp h2]; rfl
      · cases h
    · cases h
  · rintro rfl
    simp only [dSecret, sSecret]
    rw [dSized_iff.mpr rfl, dSized_iff.mpr rfl]

theorem dSecretData_iff {v : Val} {s : SecretData} : dSecretData v = some s ↔ v = sSecretData s := by
  constructor
  · intro h
    unfold dSecretData at h
    split at h
    · rename_i a b
      split at h
      · rename_i x y h1 h2
        cases h
        rw [dSized_iff.mp h1, dBin_iff.mp h2]; rfl
      · cases h
    · cases h
  · rintro rfl
    simp only [dSecretData, sSecretData]
    rw [dSized_iff.mpr rfl, dBin_iff.mpr rfl]

/-! ### Fields -/

theorem fieldsOf_list : (fs : Fields) → fieldsOf (Fields.list fs) = fs
  | .nil => rfl
  | .cons k v fs => by simp [Fields.list, fieldsOf, fieldsOf_list fs]

theorem dMap_iff {v : Val} {l : List (String × Val)} : dMap v = some l ↔ v = .map (fieldsOf l) := by
  constructor
  · intro h
    cases v with
    | map fs =>
      simp only [dMap, Option.some.injEq] at h
      subst h
      simp [fieldsOf_list]
    | _ => simp [dMap] at h
  · rintro rfl
    exact dMap_sMap l

theorem one_of {l : List (String × Val)} {k : String} {v : Val} (h : fld l k = some v) : valsAt l k = [v] := by
  unfold fld at h
  unfold valsAt
  split at h
  · rename_i k' w he; cases h; rw [he]; rfl
  · cases h

theorem fld_of {l : List (String × Val)} {k : String} {v : Val} (h : valsAt l k = [v]) : fld l k = some v := by
  unfold valsAt at h
  obtain ⟨p, hp, hv⟩ := List.map_eq_singleton_iff.mp h
  unfold fld
  rw [hp, ← hv]

theorem fldB {α β : Type} {l : List (String × Val)} {k : String} {f : Val → Option α} {P : α → Val → Prop} (h : ∀ v a, f v = some a ↔ P a v)
    {g : α → Option β} {b : β} : ((fld l k).bind fun v => (f v).bind g) = some b ↔ ∃ a, one (P a) (valsAt l k) ∧ g a = some b := by
  constructor
  · intro hb
    obtain ⟨v, h1, h2⟩ := Option.bind_eq_some_iff.mp hb
    obtain ⟨a, h3, h4⟩ := Option.bind_eq_some_iff.mp h2
    exact ⟨a, ⟨v, one_of h1, (h v a).mp h3⟩, h4⟩
  · rintro ⟨a, ⟨v, h1, h2⟩, h3⟩
    rw [fld_of h1, Option.bind_some, (h v a).mpr h2, Option.bind_some, h3]

theorem optB {α β : Type} {l : List (String × Val)} {k : String} {f : Val → Option α} {P : α → Val → Prop} (h : ∀ v a, f v = some a ↔ P a v)
    (hn : f .nil = none) {g : Option α → Option β} {b : β} :
    (fldOpt l k f).bind g = some b ↔ ∃ a, opt P a (valsAt l k) ∧ g a = some b := by
  rw [Option.bind_eq_some_iff]
  have : ∀ o, fldOpt l k f = some o ↔ opt P o (valsAt l k) := by
    intro o
    unfold fldOpt valsAt
    cases hl : l.filter (fun p => p.1 = k) with
    | nil => cases o <;> simp [opt, one]
    | cons p r =>
      cases r with
      | cons q r => cases o <;> simp [opt, one]
      | nil =>
        obtain ⟨k', v⟩ := p
        by_cases hv : v = .nil
        · subst hv
          cases o with
          | none => simp [opt, isNil]
          | some a => simp [opt, isNil, one, ← h, hn]
        · have : isNil v = false := by cases v <;> simp_all [isNil]
          cases o with
          | none => simp [opt, this, hv]
          | some a => simp [opt, this, one, ← h]
  simp [this]

theorem flagB {β : Type} {l : List (String × Val)} {k : String} {g : Bool → Option β} {b : β} :
    (dFlag l k).bind g = some b ↔ ∃ a, flag a (valsAt l k) ∧ g a = some b := by
  rw [Option.bind_eq_some_iff]
  have : ∀ o, dFlag l k = some o ↔ flag o (valsAt l k) := by
    intro o
    unfold dFlag valsAt
    cases hl : l.filter (fun p => p.1 = k) with
    | nil => cases o <;> simp [flag]
    | cons p r =>
      cases r with
      | cons q r => simp [flag]
      | nil => simp [flag, dBool_iff]
  simp [this]

theorem mapB {β : Type} {v : Val} {g : List (String × Val) → Option β} {b : β} :
    (dMap v).bind g = some b ↔ ∃ l, v = .map (fieldsOf l) ∧ g l = some b := by
  rw [Option.bind_eq_some_iff]
  simp [dMap_iff]

/-! ### The specification's lists -/

theorem listOf_iff {α : Type} {f : Val → Option α} {P : α → Val → Prop} (h : ∀ v a, f v = some a ↔ P a v) (vs : Vals) (l : List α) :
    dVals f vs = some l ↔ ListOf P l vs := by
  induction l generalizing vs with
  | nil =>
    cases vs with
    | nil => simp [dVals, ListOf]
    | cons v vs =>
      simp only [dVals, ListOf]
      split <;> simp
  | cons a l ih =>
    cases vs with
    | nil => simp [dVals, ListOf]
    | cons v vs =>
      simp only [dVals, ListOf, Vals.cons.injEq]
      constructor
      · intro hx
        split at hx
        · rename_i a' l' h1 h2
          simp only [Option.some.injEq, List.cons.injEq] at hx
          obtain ⟨rfl, rfl⟩ := hx
          exact ⟨v, vs, ⟨rfl, rfl⟩, (h _ _).mp h1, (ih _).mp h2⟩
        · cases hx
      · rintro ⟨v', r, ⟨rfl, rfl⟩, h1, h2⟩
        rw [(h _ _).mpr h1, (ih _).mpr h2]

theorem list_iff {α : Type} {f : Val → Option α} {P : α → Val → Prop} (h : ∀ v a, f v = some a ↔ P a v) (v : Val) (l : List α) :
    dList f v = some l ↔ ∃ vs, v = .arr vs ∧ ListOf P l vs := by
  cases v with
  | arr vs =>
    simp only [dList, listOf_iff h, Val.arr.injEq]
    constructor
    · intro hl; exact ⟨vs, rfl, hl⟩
    · rintro ⟨_, rfl, hl⟩; exact hl
  | _ => simp [dList]

theorem isSeq_iff (v : Val) (b : Bytes) : dSeq v = some b ↔ IsSeq b v := list_iff (fun _ _ => dU8_iff) v b
theorem isPath_iff (v : Val) (l : List UInt32) : dList dU32 v = some l ↔ IsPath l v := list_iff (fun _ _ => dU32_iff) v l
theorem isSeqSized_iff (n : Nat) (v : Val) (b : B n) : dSeqSized n v = some b ↔ IsSeq b.val v := by
  rw [← isSeq_iff]
  exact dSeqSized_iff.trans dSeq_iff.symm
theorem isText_iff (v : Val) (s : String) : dStr v = some s ↔ IsText s v := dStr_iff
theorem isBool_iff (v : Val) (s : Bool) : dBool v = some s ↔ IsBool s v := dBool_iff
theorem isU32_iff (v : Val) (s : UInt32) : dU32 v = some s ↔ IsU32 s v := dU32_iff
theorem isBin_iff (v : Val) (b : Bytes) : dBin v = some b ↔ IsBin b v := dBin_iff
theorem isSized_iff (n : Nat) (v : Val) (b : B n) : dSized n v = some b ↔ IsBin b.val v := dSized_iff
theorem isSecret_iff (n : Nat) (v : Val) (b : SecretSized n) : dSecret n v = some b ↔ IsSecret b v := dSecret_iff
theorem isSecretData_iff (v : Val) (b : SecretData) : dSecretData v = some b ↔ IsSecretData b v := dSecretData_iff

theorem obj_nil (l : List (String × Val)) : ∀ f ∈ ([] : List (String × Field)), f.2 (valsAt l f.1) := by simp

/-! ### Structs -/

theorem isSeedInfo_iff (v : Val) (i : SeedInfo) : dSeedInfo v = some i ↔ IsSeedInfo i v := by
  constructor
  · intro h
    obtain ⟨l, hl, h⟩ := mapB.mp h
    obtain ⟨x0, h0, h⟩ := (fldB (isSized_iff _)).mp h
    obtain ⟨x1, h1, h⟩ := (fldB (isSized_iff _)).mp h
    obtain ⟨x2, h2, h⟩ := (flagB).mp h
    cases h
    exact ⟨l, hl, List.forall_mem_cons.mpr ⟨h0, List.forall_mem_cons.mpr ⟨h1, List.forall_mem_cons.mpr ⟨h2, obj_nil _⟩⟩⟩⟩
  · rintro ⟨l, hl, h⟩
    simp only [List.forall_mem_cons] at h
    obtain ⟨h0, h1, h2, -⟩ := h
    exact mapB.mpr ⟨l, hl, (fldB (isSized_iff _)).mpr ⟨_, h0, (fldB (isSized_iff _)).mpr ⟨_, h1, (flagB).mpr ⟨_, h2, rfl⟩⟩⟩⟩

theorem isCertInfo_iff (v : Val) (i : CertInfo) : dCertInfo v = some i ↔ IsCertInfo i v := by
  constructor
  · intro h
    obtain ⟨l, hl, h⟩ := mapB.mp h
    obtain ⟨x0, h0, h⟩ := (fldB isText_iff).mp h
    obtain ⟨x1, h1, h⟩ := (fldB (isSized_iff _)).mp h
    obtain ⟨x2, h2, h⟩ := (fldB isBin_iff).mp h
    cases h
    exact ⟨l, hl, List.forall_mem_cons.mpr ⟨h0, List.forall_mem_cons.mpr ⟨h1, List.forall_mem_cons.mpr ⟨h2, obj_nil _⟩⟩⟩⟩
  · rintro ⟨l, hl, h⟩
    simp only [List.forall_mem_cons] at h
    obtain ⟨h0, h1, h2, -⟩ := h
    exact mapB.mpr ⟨l, hl, (fldB isText_iff).mpr ⟨_, h0, (fldB (isSized_iff _)).mpr ⟨_, h1, (fldB isBin_iff).mpr ⟨_, h2, rfl⟩⟩⟩⟩

theorem isDeep_iff (v : Val) (i : DeepPass) : dDeep v = some i ↔ IsDeep i v := by
  constructor
  · intro h
    obtain ⟨l, hl, h⟩ := mapB.mp h
    obtain ⟨x0, h0, h⟩ := (fldB isU32_iff).mp h
    obtain ⟨x1, h1, h⟩ := (fldB isU32_iff).mp h
    obtain ⟨x2, h2, h⟩ := (fldB (isSecret_iff _)).mp h
    cases h
    exact ⟨l, hl, List.forall_mem_cons.mpr ⟨h0, List.forall_mem_cons.mpr ⟨h1, List.forall_mem_cons.mpr ⟨h2, obj_nil _⟩⟩⟩⟩
  · rintro ⟨l, hl, h⟩
    simp only [List.forall_mem_cons] at h
    obtain ⟨h0, h1, h2, -⟩ := h
    exact mapB.mpr ⟨l, hl, (fldB isU32_iff).mpr ⟨_, h0, (fldB isU32_iff).mpr ⟨_, h1, (fldB (isSecret_iff _)).mpr ⟨_, h2, rfl⟩⟩⟩⟩

theorem isEntryInfo_iff (v : Val) (i : EntryInfo) : dEntryInfo v = some i ↔ IsEntryInfo i v := by
  constructor
  · intro h
    obtain ⟨l, hl, h⟩ := mapB.mp h
    obtain ⟨ty, ht, h⟩ := (fldB isText_iff).mp h
    obtain ⟨t, hg, h⟩ := (fldB isText_iff).mp h
    rcases ite_or h with ⟨rfl, h⟩ | ⟨-, h⟩
    · obtain ⟨x0, h0, h⟩ := (fldB isSeedInfo_iff).mp h
      cases h
      exact ⟨l, hl, List.forall_mem_cons.mpr ⟨ht, List.forall_mem_cons.mpr ⟨hg, List.forall_mem_cons.mpr ⟨h0, obj_nil _⟩⟩⟩⟩
    rcases ite_or h with ⟨rfl, h⟩ | ⟨-, h⟩
    · obtain ⟨x0, h0, h⟩ := (fldB isSeedInfo_iff).mp h
      cases h
      exact ⟨l, hl, List.forall_mem_cons.mpr ⟨ht, List.forall_mem_cons.mpr ⟨hg, List.forall_mem_cons.mpr ⟨h0, obj_nil _⟩⟩⟩⟩
    rcases ite_or h with ⟨rfl, h⟩ | ⟨-, h⟩
    · obtain ⟨x0, h0, h⟩ := (fldB isCertInfo_iff).mp h
      cases h
      exact ⟨l, hl, List.forall_mem_cons.mpr ⟨ht, List.forall_mem_cons.mpr ⟨hg, List.forall_mem_cons.mpr ⟨h0, obj_nil _⟩⟩⟩⟩
    cases h
  · intro h
    cases i
    case seed =>
      obtain ⟨l, hl, h⟩ := h
      simp only [List.forall_mem_cons] at h
      obtain ⟨ht, hg, h0, -⟩ := h
      refine mapB.mpr ⟨l, hl, (fldB isText_iff).mpr ⟨_, ht, (fldB isText_iff).mpr ⟨_, hg, ?_⟩⟩⟩
      simp only [if_true, String.reduceEq, if_false]
      exact (fldB isSeedInfo_iff).mpr ⟨_, h0, rfl⟩
    case deep =>
      obtain ⟨l, hl, h⟩ := h
      simp only [List.forall_mem_cons] at h
      obtain ⟨ht, hg, h0, -⟩ := h
      refine mapB.mpr ⟨l, hl, (fldB isText_iff).mpr ⟨_, ht, (fldB isText_iff).mpr ⟨_, hg, ?_⟩⟩⟩
      simp only [if_true, String.reduceEq, if_false]
      exact (fldB isSeedInfo_iff).mpr ⟨_, h0, rfl⟩
    case cert =>
      obtain ⟨l, hl, h⟩ := h
      simp only [List.forall_mem_cons] at h
      obtain ⟨ht, hg, h0, -⟩ := h
      refine mapB.mpr ⟨l, hl, (fldB isText_iff).mpr ⟨_, ht, (fldB isText_iff).mpr ⟨_, hg, ?_⟩⟩⟩
      simp only [if_true, String.reduceEq, if_false]
      exact (fldB isCertInfo_iff).mpr ⟨_, h0, rfl⟩

theorem isInfoList_iff (v : Val) (l : List EntryInfo) : dList dEntryInfo v = some l ↔ IsInfoList l v := list_iff isEntryInfo_iff v l

theorem isEntry_iff (v : Val) (i : Entry) : dEntry v = some i ↔ IsEntry i v := by
  constructor
  · intro h
    obtain ⟨l, hl, h⟩ := mapB.mp h
    obtain ⟨ty, ht, h⟩ := (fldB isText_iff).mp h
    obtain ⟨t, hg, h⟩ := (fldB isText_iff).mp h
    rcases ite_or h with ⟨rfl, h⟩ | ⟨-, h⟩
    · obtain ⟨x0, h0, h⟩ := (fldB isSeedInfo_iff).mp h
      obtain ⟨x1, h1, h⟩ := (fldB (isSecret_iff _)).mp h
      cases h
      exact ⟨l, hl, List.forall_mem_cons.mpr ⟨ht, List.forall_mem_cons.mpr ⟨hg, List.forall_mem_cons.mpr ⟨h0, List.forall_mem_cons.mpr ⟨h1, obj_nil _⟩⟩⟩⟩⟩
    rcases ite_or h with ⟨rfl, h⟩ | ⟨-, h⟩
    · obtain ⟨x0, h0, h⟩ := (fldB isSeedInfo_iff).mp h
      obtain ⟨x1, h1, h⟩ := (fldB (isSized_iff _)).mp h
      obtain ⟨x2, h2, h⟩ := (fldB isU32_iff).mp h
      obtain ⟨x3, h3, h⟩ := (fldB isU32_iff).mp h
      obtain ⟨x4, h4, h⟩ := (fldB (isSecret_iff _)).mp h
      cases h
      exact ⟨l, hl, List.forall_mem_cons.mpr ⟨ht, List.forall_mem_cons.mpr ⟨hg, List.forall_mem_cons.mpr ⟨h0, List.forall_mem_cons.mpr ⟨h1, List.forall_mem_cons.mpr ⟨h2, List.forall_mem_cons.mpr ⟨h3, List.forall_mem_cons.mpr ⟨h4, obj_nil _⟩⟩⟩⟩⟩⟩⟩⟩
    rcases ite_or h with ⟨rfl, h⟩ | ⟨-, h⟩
    · obtain ⟨x0, h0, h⟩ := (fldB isCertInfo_iff).mp h
      obtain ⟨x1, h1, h⟩ := (fldB isSecretData_iff).mp h
      cases h
      exact ⟨l, hl, List.forall_mem_cons.mpr ⟨ht, List.forall_mem_cons.mpr ⟨hg, List.forall_mem_cons.mpr ⟨h0, List.forall_mem_cons.mpr ⟨h1, obj_nil _⟩⟩⟩⟩⟩
    cases h
  · intro h
    cases i
    case seed =>
      obtain ⟨l, hl, h⟩ := h
      simp only [List.forall_mem_cons] at h
      obtain ⟨ht, hg, h0, h1, -⟩ := h
      refine mapB.mpr ⟨l, hl, (fldB isText_iff).mpr ⟨_, ht, (fldB isText_iff).mpr ⟨_, hg, ?_⟩⟩⟩
      simp only [if_true, String.reduceEq, if_false]
      exact (fldB isSeedInfo_iff).mpr ⟨_, h0, (fldB (isSecret_iff _)).mpr ⟨_, h1, rfl⟩⟩
    case deep =>
      obtain ⟨l, hl, h⟩ := h
      simp only [List.forall_mem_cons] at h
      obtain ⟨ht, hg, h0, h1, h2, h3, h4, -⟩ := h
      refine mapB.mpr ⟨l, hl, (fldB isText_iff).mpr ⟨_, ht, (fldB isText_iff).mpr ⟨_, hg, ?_⟩⟩⟩
      simp only [if_true, String.reduceEq, if_false]
      exact (fldB isSeedInfo_iff).mpr ⟨_, h0, (fldB (isSized_iff _)).mpr ⟨_, h1, (fldB isU32_iff).mpr ⟨_, h2, (fldB isU32_iff).mpr ⟨_, h3, (fldB (isSecret_iff _)).mpr ⟨_, h4, rfl⟩⟩⟩⟩⟩
    case cert =>
      obtain ⟨l, hl, h⟩ := h
      simp only [List.forall_mem_cons] at h
      obtain ⟨ht, hg, h0, h1, -⟩ := h
      refine mapB.mpr ⟨l, hl, (fldB isText_iff).mpr ⟨_, ht, (fldB isText_iff).mpr ⟨_, hg, ?_⟩⟩⟩
      simp only [if_true, String.reduceEq, if_false]
      exact (fldB isCertInfo_iff).mpr ⟨_, h0, (fldB isSecretData_iff).mpr ⟨_, h1, rfl⟩⟩

/-! ### Messages -/

theorem dReq_sound {ty : String} {l : List (String × Val)} {r : Req} (h : dReq ty l = some r) : ty = (reqSpec r).1 ∧ ∀ f ∈ (reqSpec r).2, f.2 (valsAt l f.1) := by
  unfold dReq at h
  rcases ite_or h with ⟨rfl, h⟩ | ⟨-, h⟩
  · cases h
    exact ⟨rfl, obj_nil _⟩
  rcases ite_or h with ⟨rfl, h⟩ | ⟨-, h⟩
  · obtain ⟨x0, h0, h⟩ := (fldB (isSecret_iff _)).mp h
    cases h
    exact ⟨rfl, List.forall_mem_cons.mpr ⟨h0, obj_nil _⟩⟩
  rcases ite_or h with ⟨rfl, h⟩ | ⟨-, h⟩
  · obtain ⟨x0, h0, h⟩ := (fldB isText_iff).mp h
    cases h
    exact ⟨rfl, List.forall_mem_cons.mpr ⟨h0, obj_nil _⟩⟩
  rcases ite_or h with ⟨rfl, h⟩ | ⟨-, h⟩
  · cases h
    exact ⟨rfl, obj_nil _⟩
  rcases ite_or h with ⟨rfl, h⟩ | ⟨-, h⟩
  · obtain ⟨x0, h0, h⟩ := (fldB isText_iff).mp h
    obtain ⟨x1, h1, h⟩ := (optB isDeep_iff rfl).mp h
    obtain ⟨x2, h2, h⟩ := (flagB).mp h
    cases h
    exact ⟨rfl, List.forall_mem_cons.mpr ⟨h0, List.forall_mem_cons.mpr ⟨h1, List.forall_mem_cons.mpr ⟨h2, obj_nil _⟩⟩⟩⟩
  rcases ite_or h with ⟨rfl, h⟩ | ⟨-, h⟩
  · obtain ⟨x0, h0, h⟩ := (fldB isText_iff).mp h
    obtain ⟨x1, h1, h⟩ := (fldB (isSized_iff _)).mp h
    obtain ⟨x2, h2, h⟩ := (fldB (isSized_iff _)).mp h
    obtain ⟨x3, h3, h⟩ := (optB (isSecret_iff _) rfl).mp h
    cases h
    exact ⟨rfl, List.forall_mem_cons.mpr ⟨h0, List.forall_mem_cons.mpr ⟨h1, List.forall_mem_cons.mpr ⟨h2, List.forall_mem_cons.mpr ⟨h3, obj_nil _⟩⟩⟩⟩⟩
  rcases ite_or h with ⟨rfl, h⟩ | ⟨-, h⟩
  · obtain ⟨x0, h0, h⟩ := (fldB (isSized_iff _)).mp h
    obtain ⟨x1, h1, h⟩ := (fldB (isSized_iff _)).mp h
    obtain ⟨x2, h2, h⟩ := (optB isDeep_iff rfl).mp h
    obtain ⟨x3, h3, h⟩ := (fldB (isSeqSized_iff _)).mp h
    obtain ⟨x4, h4, h⟩ := (fldB isSeq_iff).mp h
    obtain ⟨x5, h5, h⟩ := (fldB isText_iff).mp h
    obtain ⟨x6, h6, h⟩ := (fldB isBool_iff).mp h
    cases h
    exact ⟨rfl, List.forall_mem_cons.mpr ⟨h0, List.forall_mem_cons.mpr ⟨h1, List.forall_mem_cons.mpr ⟨h2, List.forall_mem_cons.mpr ⟨h3, List.forall_mem_cons.mpr ⟨h4, List.forall_mem_cons.mpr ⟨h5, List.forall_mem_cons.mpr ⟨h6, obj_nil _⟩⟩⟩⟩⟩⟩⟩⟩
  rcases ite_or h with ⟨rfl, h⟩ | ⟨-, h⟩
  · obtain ⟨x0, h0, h⟩ := (fldB isText_iff).mp h
    obtain ⟨x1, h1, h⟩ := (optB isDeep_iff rfl).mp h
    obtain ⟨x2, h2, h⟩ := (fldB isText_iff).mp h
    obtain ⟨x3, h3, h⟩ := (optB isDeep_iff rfl).mp h
    obtain ⟨x4, h4, h⟩ := (fldB isPath_iff).mp h
    cases h
    exact ⟨rfl, List.forall_mem_cons.mpr ⟨h0, List.forall_mem_cons.mpr ⟨h1, List.forall_mem_cons.mpr ⟨h2, List.forall_mem_cons.mpr ⟨h3, List.forall_mem_cons.mpr ⟨h4, obj_nil _⟩⟩⟩⟩⟩⟩
  rcases ite_or h with ⟨rfl, h⟩ | ⟨-, h⟩
  · obtain ⟨x0, h0, h⟩ := (fldB (isSized_iff _)).mp h
    obtain ⟨x1, h1, h⟩ := (optB (isSecret_iff _) rfl).mp h
    obtain ⟨x2, h2, h⟩ := (fldB isSeq_iff).mp h
    cases h
    exact ⟨rfl, List.forall_mem_cons.mpr ⟨h0, List.forall_mem_cons.mpr ⟨h1, List.forall_mem_cons.mpr ⟨h2, obj_nil _⟩⟩⟩⟩
  rcases ite_or h with ⟨rfl, h⟩ | ⟨-, h⟩
  · obtain ⟨x0, h0, h⟩ := (fldB (isSized_iff _)).mp h
    obtain ⟨x1, h1, h⟩ := (fldB (isSized_iff _)).mp h
    obtain ⟨x2, h2, h⟩ := (optB (isSecret_iff _) rfl).mp h
    obtain ⟨x3, h3, h⟩ := (fldB isSeq_iff).mp h
    cases h
    exact ⟨rfl, List.forall_mem_cons.mpr ⟨h0, List.forall_mem_cons.mpr ⟨h1, List.forall_mem_cons.mpr ⟨h2, List.forall_mem_cons.mpr ⟨h3, obj_nil _⟩⟩⟩⟩⟩
  rcases ite_or h with ⟨rfl, h⟩ | ⟨-, h⟩
  · obtain ⟨x0, h0, h⟩ := (fldB (isSized_iff _)).mp h
    obtain ⟨x1, h1, h⟩ := (fldB (isSized_iff _)).mp h
    obtain ⟨x2, h2, h⟩ := (optB (isSecret_iff _) rfl).mp h
    obtain ⟨x3, h3, h⟩ := (fldB (isSeqSized_iff _)).mp h
    obtain ⟨x4, h4, h⟩ := (fldB isSeq_iff).mp h
    cases h
    exact ⟨rfl, List.forall_mem_cons.mpr ⟨h0, List.forall_mem_cons.mpr ⟨h1, List.forall_mem_cons.mpr ⟨h2, List.forall_mem_cons.mpr ⟨h3, List.forall_mem_cons.mpr ⟨h4, obj_nil _⟩⟩⟩⟩⟩⟩
  rcases ite_or h with ⟨rfl, h⟩ | ⟨-, h⟩
  · obtain ⟨x0, h0, h⟩ := (fldB (isSized_iff _)).mp h
    obtain ⟨x1, h1, h⟩ := (fldB (isSized_iff _)).mp h
    obtain ⟨x2, h2, h⟩ := (optB (isSecret_iff _) rfl).mp h
    obtain ⟨x3, h3, h⟩ := (fldB isSeq_iff).mp h
    cases h
    exact ⟨rfl, List.forall_mem_cons.mpr ⟨h0, List.forall_mem_cons.mpr ⟨h1, List.forall_mem_cons.mpr ⟨h2, List.forall_mem_cons.mpr ⟨h3, obj_nil _⟩⟩⟩⟩⟩
  rcases ite_or h with ⟨rfl, h⟩ | ⟨-, h⟩
  · obtain ⟨x0, h0, h⟩ := (fldB (isSized_iff _)).mp h
    obtain ⟨x1, h1, h⟩ := (fldB (isSized_iff _)).mp h
    obtain ⟨x2, h2, h⟩ := (optB (isSecret_iff _) rfl).mp h
    obtain ⟨x3, h3, h⟩ := (fldB (isSeqSized_iff _)).mp h
    obtain ⟨x4, h4, h⟩ := (fldB isSeq_iff).mp h
    cases h
    exact ⟨rfl, List.forall_mem_cons.mpr ⟨h0, List.forall_mem_cons.mpr ⟨h1, List.forall_mem_cons.mpr ⟨h2, List.forall_mem_cons.mpr ⟨h3, List.forall_mem_cons.mpr ⟨h4, obj_nil _⟩⟩⟩⟩⟩⟩
  rcases ite_or h with ⟨rfl, h⟩ | ⟨-, h⟩
  · obtain ⟨x0, h0, h⟩ := (fldB isText_iff).mp h
    cases h
    exact ⟨rfl, List.forall_mem_cons.mpr ⟨h0, obj_nil _⟩⟩
  rcases ite_or h with ⟨rfl, h⟩ | ⟨-, h⟩
  · obtain ⟨x0, h0, h⟩ := (fldB isText_iff).mp h
    cases h
    exact ⟨rfl, List.forall_mem_cons.mpr ⟨h0, obj_nil _⟩⟩
  rcases ite_or h with ⟨rfl, h⟩ | ⟨-, h⟩
  · obtain ⟨x0, h0, h⟩ := (fldB isText_iff).mp h
    obtain ⟨x1, h1, h⟩ := (optB (isSecret_iff _) rfl).mp h
    obtain ⟨x2, h2, h⟩ := (fldB isSeq_iff).mp h
    cases h
    exact ⟨rfl, List.forall_mem_cons.mpr ⟨h0, List.forall_mem_cons.mpr ⟨h1, List.forall_mem_cons.mpr ⟨h2, obj_nil _⟩⟩⟩⟩
  rcases ite_or h with ⟨rfl, h⟩ | ⟨-, h⟩
  · obtain ⟨x0, h0, h⟩ := (fldB isText_iff).mp h
    obtain ⟨x1, h1, h⟩ := (optB (isSecret_iff _) rfl).mp h
    obtain ⟨x2, h2, h⟩ := (fldB (isSeqSized_iff _)).mp h
    obtain ⟨x3, h3, h⟩ := (fldB isSeq_iff).mp h
    cases h
    exact ⟨rfl, List.forall_mem_cons.mpr ⟨h0, List.forall_mem_cons.mpr ⟨h1, List.forall_mem_cons.mpr ⟨h2, List.forall_mem_cons.mpr ⟨h3, obj_nil _⟩⟩⟩⟩⟩
  cases h

theorem dReq_complete {l : List (String × Val)} {r : Req} (h : ∀ f ∈ (reqSpec r).2, f.2 (valsAt l f.1)) : dReq (reqSpec r).1 l = some r := by
  cases r
  case hello =>
    simp only [reqSpec, List.forall_mem_cons] at h
    simp only [dReq, reqSpec, if_true, String.reduceEq, if_false]
  case unlock =>
    simp only [reqSpec, List.forall_mem_cons] at h
    obtain ⟨h0, -⟩ := h
    simp only [dReq, reqSpec, if_true, String.reduceEq, if_false]
    exact (fldB (isSecret_iff _)).mpr ⟨_, h0, rfl⟩
  case getEntry =>
    simp only [reqSpec, List.forall_mem_cons] at h
    obtain ⟨h0, -⟩ := h
    simp only [dReq, reqSpec, if_true, String.reduceEq, if_false]
    exact (fldB isText_iff).mpr ⟨_, h0, rfl⟩
  case listEntries =>
    simp only [reqSpec, List.forall_mem_cons] at h
    simp only [dReq, reqSpec, if_true, String.reduceEq, if_false]
  case newSeed =>
    simp only [reqSpec, List.forall_mem_cons] at h
    obtain ⟨h0, h1, h2, -⟩ := h
    simp only [dReq, reqSpec, if_true, String.reduceEq, if_false]
    exact (fldB isText_iff).mpr ⟨_, h0, (optB isDeep_iff rfl).mpr ⟨_, h1, (flagB).mpr ⟨_, h2, rfl⟩⟩⟩
  case exportSeed =>
    simp only [reqSpec, List.forall_mem_cons] at h
    obtain ⟨h0, h1, h2, h3, -⟩ := h
    simp only [dReq, reqSpec, if_true, String.reduceEq, if_false]
    exact (fldB isText_iff).mpr ⟨_, h0, (fldB (isSized_iff _)).mpr ⟨_, h1, (fldB (isSized_iff _)).mpr ⟨_, h2, (optB (isSecret_iff _) rfl).mpr ⟨_, h3, rfl⟩⟩⟩⟩
  case importSeed =>
    simp only [reqSpec, List.forall_mem_cons] at h
    obtain ⟨h0, h1, h2, h3, h4, h5, h6, -⟩ := h
    simp only [dReq, reqSpec, if_true, String.reduceEq, if_false]
    exact (fldB (isSized_iff _)).mpr ⟨_, h0, (fldB (isSized_iff _)).mpr ⟨_, h1, (optB isDeep_iff rfl).mpr ⟨_, h2, (fldB (isSeqSized_iff _)).mpr ⟨_, h3, (fldB isSeq_iff).mpr ⟨_, h4, (fldB isText_iff).mpr ⟨_, h5, (fldB isBool_iff).mpr ⟨_, h6, rfl⟩⟩⟩⟩⟩⟩⟩
  case deriveSeed =>
    simp only [reqSpec, List.forall_mem_cons] at h
    obtain ⟨h0, h1, h2, h3, h4, -⟩ := h
    simp only [dReq, reqSpec, if_true, String.reduceEq, if_false]
    exact (fldB isText_iff).mpr ⟨_, h0, (optB isDeep_iff rfl).mpr ⟨_, h1, (fldB isText_iff).mpr ⟨_, h2, (optB isDeep_iff rfl).mpr ⟨_, h3, (fldB isPath_iff).mpr ⟨_, h4, rfl⟩⟩⟩⟩⟩
  case sign =>
    simp only [reqSpec, List.forall_mem_cons] at h
    obtain ⟨h0, h1, h2, -⟩ := h
    simp only [dReq, reqSpec, if_true, String.reduceEq, if_false]
    exact (fldB (isSized_iff _)).mpr ⟨_, h0, (optB (isSecret_iff _) rfl).mpr ⟨_, h1, (fldB isSeq_iff).mpr ⟨_, h2, rfl⟩⟩⟩
  case boxEnc =>
    simp only [reqSpec, List.forall_mem_cons] at h
    obtain ⟨h0, h1, h2, h3, -⟩ := h
    simp only [dReq, reqSpec, if_true, String.reduceEq, if_false]
    exact (fldB (isSized_iff _)).mpr ⟨_, h0, (fldB (isSized_iff _)).mpr ⟨_, h1, (optB (isSecret_iff _) rfl).mpr ⟨_, h2, (fldB isSeq_iff).mpr ⟨_, h3, rfl⟩⟩⟩⟩
  case boxDec =>
    simp only [reqSpec, List.forall_mem_cons] at h
    obtain ⟨h0, h1, h2, h3, h4, -⟩ := h
    simp only [dReq, reqSpec, if_true, String.reduceEq, if_false]
    exact (fldB (isSized_iff _)).mpr ⟨_, h0, (fldB (isSized_iff _)).mpr ⟨_, h1, (optB (isSecret_iff _) rfl).mpr ⟨_, h2, (fldB (isSeqSized_iff _)).mpr ⟨_, h3, (fldB isSeq_iff).mpr ⟨_, h4, rfl⟩⟩⟩⟩⟩
  case boxEncEd =>
    simp only [reqSpec, List.forall_mem_cons] at h
    obtain ⟨h0, h1, h2, h3, -⟩ := h
    simp only [dReq, reqSpec, if_true, String.reduceEq, if_false]
    exact (fldB (isSized_iff _)).mpr ⟨_, h0, (fldB (isSized_iff _)).mpr ⟨_, h1, (optB (isSecret_iff _) rfl).mpr ⟨_, h2, (fldB isSeq_iff).mpr ⟨_, h3, rfl⟩⟩⟩⟩
  case boxDecEd =>
    simp only [reqSpec, List.forall_mem_cons] at h
    obtain ⟨h0, h1, h2, h3, h4, -⟩ := h
    simp only [dReq, reqSpec, if_true, String.reduceEq, if_false]
    exact (fldB (isSized_iff _)).mpr ⟨_, h0, (fldB (isSized_iff _)).mpr ⟨_, h1, (optB (isSecret_iff _) rfl).mpr ⟨_, h2, (fldB (isSeqSized_iff _)).mpr ⟨_, h3, (fldB isSeq_iff).mpr ⟨_, h4, rfl⟩⟩⟩⟩⟩
  case newCert =>
    simp only [reqSpec, List.forall_mem_cons] at h
    obtain ⟨h0, -⟩ := h
    simp only [dReq, reqSpec, if_true, String.reduceEq, if_false]
    exact (fldB isText_iff).mpr ⟨_, h0, rfl⟩
  case getCertKey =>
    simp only [reqSpec, List.forall_mem_cons] at h
    obtain ⟨h0, -⟩ := h
    simp only [dReq, reqSpec, if_true, String.reduceEq, if_false]
    exact (fldB isText_iff).mpr ⟨_, h0, rfl⟩
  case sboxEnc =>
    simp only [reqSpec, List.forall_mem_cons] at h
    obtain ⟨h0, h1, h2, -⟩ := h
    simp only [dReq, reqSpec, if_true, String.reduceEq, if_false]
    exact (fldB isText_iff).mpr ⟨_, h0, (optB (isSecret_iff _) rfl).mpr ⟨_, h1, (fldB isSeq_iff).mpr ⟨_, h2, rfl⟩⟩⟩
  case sboxDec =>
    simp only [reqSpec, List.forall_mem_cons] at h
    obtain ⟨h0, h1, h2, h3, -⟩ := h
    simp only [dReq, reqSpec, if_true, String.reduceEq, if_false]
    exact (fldB isText_iff).mpr ⟨_, h0, (optB (isSecret_iff _) rfl).mpr ⟨_, h1, (fldB (isSeqSized_iff _)).mpr ⟨_, h2, (fldB isSeq_iff).mpr ⟨_, h3, rfl⟩⟩⟩⟩

theorem dResp_sound {ty : String} {l : List (String × Val)} {r : Resp} (h : dResp ty l = some r) : ty = (respSpec r).1 ∧ ∀ f ∈ (respSpec r).2, f.2 (valsAt l f.1) := by
  unfold dResp at h
  rcases ite_or h with ⟨rfl, h⟩ | ⟨-, h⟩
  · obtain ⟨x0, h0, h⟩ := (fldB isText_iff).mp h
    cases h
    exact ⟨rfl, List.forall_mem_cons.mpr ⟨h0, obj_nil _⟩⟩
  rcases ite_or h with ⟨rfl, h⟩ | ⟨-, h⟩
  · obtain ⟨x0, h0, h⟩ := (fldB isText_iff).mp h
    obtain ⟨x1, h1, h⟩ := (fldB isText_iff).mp h
    obtain ⟨x2, h2, h⟩ := (fldB (isSized_iff _)).mp h
    cases h
    exact ⟨rfl, List.forall_mem_cons.mpr ⟨h0, List.forall_mem_cons.mpr ⟨h1, List.forall_mem_cons.mpr ⟨h2, obj_nil _⟩⟩⟩⟩
  rcases ite_or h with ⟨rfl, h⟩ | ⟨-, h⟩
  · cases h
    exact ⟨rfl, obj_nil _⟩
  rcases ite_or h with ⟨rfl, h⟩ | ⟨-, h⟩
  · obtain ⟨x0, h0, h⟩ := (fldB isEntryInfo_iff).mp h
    cases h
    exact ⟨rfl, List.forall_mem_cons.mpr ⟨h0, obj_nil _⟩⟩
  rcases ite_or h with ⟨rfl, h⟩ | ⟨-, h⟩
  · obtain ⟨x0, h0, h⟩ := (fldB isInfoList_iff).mp h
    cases h
    exact ⟨rfl, List.forall_mem_cons.mpr ⟨h0, obj_nil _⟩⟩
  rcases ite_or h with ⟨rfl, h⟩ | ⟨-, h⟩
  · obtain ⟨x0, h0, h⟩ := (fldB isText_iff).mp h
    obtain ⟨x1, h1, h⟩ := (fldB isSeedInfo_iff).mp h
    cases h
    exact ⟨rfl, List.forall_mem_cons.mpr ⟨h0, List.forall_mem_cons.mpr ⟨h1, obj_nil _⟩⟩⟩
  rcases ite_or h with ⟨rfl, h⟩ | ⟨-, h⟩
  · obtain ⟨x0, h0, h⟩ := (fldB (isSeqSized_iff _)).mp h
    obtain ⟨x1, h1, h⟩ := (fldB isSeq_iff).mp h
    cases h
    exact ⟨rfl, List.forall_mem_cons.mpr ⟨h0, List.forall_mem_cons.mpr ⟨h1, obj_nil _⟩⟩⟩
  rcases ite_or h with ⟨rfl, h⟩ | ⟨-, h⟩
  · obtain ⟨x0, h0, h⟩ := (fldB isText_iff).mp h
    obtain ⟨x1, h1, h⟩ := (fldB isSeedInfo_iff).mp h
    cases h
    exact ⟨rfl, List.forall_mem_cons.mpr ⟨h0, List.forall_mem_cons.mpr ⟨h1, obj_nil _⟩⟩⟩
  rcases ite_or h with ⟨rfl, h⟩ | ⟨-, h⟩
  · obtain ⟨x0, h0, h⟩ := (fldB isSeedInfo_iff).mp h
    cases h
    exact ⟨rfl, List.forall_mem_cons.mpr ⟨h0, obj_nil _⟩⟩
  rcases ite_or h with ⟨rfl, h⟩ | ⟨-, h⟩
  · obtain ⟨x0, h0, h⟩ := (fldB (isSized_iff _)).mp h
    cases h
    exact ⟨rfl, List.forall_mem_cons.mpr ⟨h0, obj_nil _⟩⟩
  rcases ite_or h with ⟨rfl, h⟩ | ⟨-, h⟩
  · obtain ⟨x0, h0, h⟩ := (fldB (isSeqSized_iff _)).mp h
    obtain ⟨x1, h1, h⟩ := (fldB isSeq_iff).mp h
    cases h
    exact ⟨rfl, List.forall_mem_cons.mpr ⟨h0, List.forall_mem_cons.mpr ⟨h1, obj_nil _⟩⟩⟩
  rcases ite_or h with ⟨rfl, h⟩ | ⟨-, h⟩
  · obtain ⟨x0, h0, h⟩ := (fldB isSeq_iff).mp h
    cases h
    exact ⟨rfl, List.forall_mem_cons.mpr ⟨h0, obj_nil _⟩⟩
  rcases ite_or h with ⟨rfl, h⟩ | ⟨-, h⟩
  · obtain ⟨x0, h0, h⟩ := (fldB (isSeqSized_iff _)).mp h
    obtain ⟨x1, h1, h⟩ := (fldB isSeq_iff).mp h
    cases h
    exact ⟨rfl, List.forall_mem_cons.mpr ⟨h0, List.forall_mem_cons.mpr ⟨h1, obj_nil _⟩⟩⟩
  rcases ite_or h with ⟨rfl, h⟩ | ⟨-, h⟩
  · obtain ⟨x0, h0, h⟩ := (fldB isSeq_iff).mp h
    cases h
    exact ⟨rfl, List.forall_mem_cons.mpr ⟨h0, obj_nil _⟩⟩
  rcases ite_or h with ⟨rfl, h⟩ | ⟨-, h⟩
  · obtain ⟨x0, h0, h⟩ := (fldB isText_iff).mp h
    obtain ⟨x1, h1, h⟩ := (fldB isCertInfo_iff).mp h
    cases h
    exact ⟨rfl, List.forall_mem_cons.mpr ⟨h0, List.forall_mem_cons.mpr ⟨h1, obj_nil _⟩⟩⟩
  rcases ite_or h with ⟨rfl, h⟩ | ⟨-, h⟩
  · obtain ⟨x0, h0, h⟩ := (fldB isSecretData_iff).mp h
    cases h
    exact ⟨rfl, List.forall_mem_cons.mpr ⟨h0, obj_nil _⟩⟩
  rcases ite_or h with ⟨rfl, h⟩ | ⟨-, h⟩
  · obtain ⟨x0, h0, h⟩ := (fldB (isSeqSized_iff _)).mp h
    obtain ⟨x1, h1, h⟩ := (fldB isSeq_iff).mp h
    cases h
    exact ⟨rfl, List.forall_mem_cons.mpr ⟨h0, List.forall_mem_cons.mpr ⟨h1, obj_nil _⟩⟩⟩
  rcases ite_or h with ⟨rfl, h⟩ | ⟨-, h⟩
  · obtain ⟨x0, h0, h⟩ := (fldB isSeq_iff).mp h
    cases h
    exact ⟨rfl, List.forall_mem_cons.mpr ⟨h0, obj_nil _⟩⟩
  cases h

theorem dResp_complete {l : List (String × Val)} {r : Resp} (h : ∀ f ∈ (respSpec r).2, f.2 (valsAt l f.1)) : dResp (respSpec r).1 l = some r := by
  cases r
  case error =>
    simp only [respSpec, List.forall_mem_cons] at h
    obtain ⟨h0, -⟩ := h
    simp only [dResp, respSpec, if_true, String.reduceEq, if_false]
    exact (fldB isText_iff).mpr ⟨_, h0, rfl⟩
  case hello =>
    simp only [respSpec, List.forall_mem_cons] at h
    obtain ⟨h0, h1, h2, -⟩ := h
    simp only [dResp, respSpec, if_true, String.reduceEq, if_false]
    exact (fldB isText_iff).mpr ⟨_, h0, (fldB isText_iff).mpr ⟨_, h1, (fldB (isSized_iff _)).mpr ⟨_, h2, rfl⟩⟩⟩
  case unlock =>
    simp only [respSpec, List.forall_mem_cons] at h
    simp only [dResp, respSpec, if_true, String.reduceEq, if_false]
  case getEntry =>
    simp only [respSpec, List.forall_mem_cons] at h
    obtain ⟨h0, -⟩ := h
    simp only [dResp, respSpec, if_true, String.reduceEq, if_false]
    exact (fldB isEntryInfo_iff).mpr ⟨_, h0, rfl⟩
  case listEntries =>
    simp only [respSpec, List.forall_mem_cons] at h
    obtain ⟨h0, -⟩ := h
    simp only [dResp, respSpec, if_true, String.reduceEq, if_false]
    exact (fldB isInfoList_iff).mpr ⟨_, h0, rfl⟩
  case newSeed =>
    simp only [respSpec, List.forall_mem_cons] at h
    obtain ⟨h0, h1, -⟩ := h
    simp only [dResp, respSpec, if_true, String.reduceEq, if_false]
    exact (fldB isText_iff).mpr ⟨_, h0, (fldB isSeedInfo_iff).mpr ⟨_, h1, rfl⟩⟩
  case exportSeed =>
    simp only [respSpec, List.forall_mem_cons] at h
    obtain ⟨h0, h1, -⟩ := h
    simp only [dResp, respSpec, if_true, String.reduceEq, if_false]
    exact (fldB (isSeqSized_iff _)).mpr ⟨_, h0, (fldB isSeq_iff).mpr ⟨_, h1, rfl⟩⟩
  case importSeed =>
    simp only [respSpec, List.forall_mem_cons] at h
    obtain ⟨h0, h1, -⟩ := h
    simp only [dResp, respSpec, if_true, String.reduceEq, if_false]
    exact (fldB isText_iff).mpr ⟨_, h0, (fldB isSeedInfo_iff).mpr ⟨_, h1, rfl⟩⟩
  case deriveSeed =>
    simp only [respSpec, List.forall_mem_cons] at h
    obtain ⟨h0, -⟩ := h
    simp only [dResp, respSpec, if_true, String.reduceEq, if_false]
    exact (fldB isSeedInfo_iff).mpr ⟨_, h0, rfl⟩
  case sign =>
    simp only [respSpec, List.forall_mem_cons] at h
    obtain ⟨h0, -⟩ := h
    simp only [dResp, respSpec, if_true, String.reduceEq, if_false]
    exact (fldB (isSized_iff _)).mpr ⟨_, h0, rfl⟩
  case boxEnc =>
    simp only [respSpec, List.forall_mem_cons] at h
    obtain ⟨h0, h1, -⟩ := h
    simp only [dResp, respSpec, if_true, String.reduceEq, if_false]
    exact (fldB (isSeqSized_iff _)).mpr ⟨_, h0, (fldB isSeq_iff).mpr ⟨_, h1, rfl⟩⟩
  case boxDec =>
    simp only [respSpec, List.forall_mem_cons] at h
    obtain ⟨h0, -⟩ := h
    simp only [dResp, respSpec, if_true, String.reduceEq, if_false]
    exact (fldB isSeq_iff).mpr ⟨_, h0, rfl⟩
  case boxEncEd =>
    simp only [respSpec, List.forall_mem_cons] at h
    obtain ⟨h0, h1, -⟩ := h
    simp only [dResp, respSpec, if_true, String.reduceEq, if_false]
    exact (fldB (isSeqSized_iff _)).mpr ⟨_, h0, (fldB isSeq_iff).mpr ⟨_, h1, rfl⟩⟩
  case boxDecEd =>
    simp only [respSpec, List.forall_mem_cons] at h
    obtain ⟨h0, -⟩ := h
    simp only [dResp, respSpec, if_true, String.reduceEq, if_false]
    exact (fldB isSeq_iff).mpr ⟨_, h0, rfl⟩
  case newCert =>
    simp only [respSpec, List.forall_mem_cons] at h
    obtain ⟨h0, h1, -⟩ := h
    simp only [dResp, respSpec, if_true, String.reduceEq, if_false]
    exact (fldB isText_iff).mpr ⟨_, h0, (fldB isCertInfo_iff).mpr ⟨_, h1, rfl⟩⟩
  case getCertKey =>
    simp only [respSpec, List.forall_mem_cons] at h
    obtain ⟨h0, -⟩ := h
    simp only [dResp, respSpec, if_true, String.reduceEq, if_false]
    exact (fldB isSecretData_iff).mpr ⟨_, h0, rfl⟩
  case sboxEnc =>
    simp only [respSpec, List.forall_mem_cons] at h
    obtain ⟨h0, h1, -⟩ := h
    simp only [dResp, respSpec, if_true, String.reduceEq, if_false]
    exact (fldB (isSeqSized_iff _)).mpr ⟨_, h0, (fldB isSeq_iff).mpr ⟨_, h1, rfl⟩⟩
  case sboxDec =>
    simp only [respSpec, List.forall_mem_cons] at h
    obtain ⟨h0, -⟩ := h
    simp only [dResp, respSpec, if_true, String.reduceEq, if_false]
    exact (fldB isSeq_iff).mpr ⟨_, h0, rfl⟩

theorem dReq_respSpec (r : Resp) (l : List (String × Val)) : dReq (respSpec r).1 l = none := by
  cases r <;> simp only [respSpec, dReq, String.reduceEq, if_false]

/-- The decoder reads exactly the messages of the specification. -/
theorem isMsg_iff (v : Val) (m : Msg) : dMsg v = some m ↔ IsMsg m v := by
  constructor
  · intro h
    obtain ⟨l, hl, h⟩ := mapB.mp h
    obtain ⟨ty, ht, h⟩ := (fldB isText_iff).mp h
    obtain ⟨id, hi, h⟩ := (fldB isText_iff).mp h
    split at h
    · rename_i r hr
      cases h
      obtain ⟨rfl, hf⟩ := dReq_sound hr
      exact ⟨l, hl, List.forall_mem_cons.mpr ⟨ht, List.forall_mem_cons.mpr ⟨hi, hf⟩⟩⟩
    · split at h
      · rename_i r hr
        cases h
        obtain ⟨rfl, hf⟩ := dResp_sound hr
        exact ⟨l, hl, List.forall_mem_cons.mpr ⟨ht, List.forall_mem_cons.mpr ⟨hi, hf⟩⟩⟩
      · cases h
  · intro h
    cases m with
    | req id r =>
      obtain ⟨l, hl, h⟩ := h
      simp only [List.forall_mem_cons] at h
      obtain ⟨ht, hi, h⟩ := h
      refine mapB.mpr ⟨l, hl, (fldB isText_iff).mpr ⟨_, ht, (fldB isText_iff).mpr ⟨_, hi, ?_⟩⟩⟩
      rw [dReq_complete h]
    | res id r =>
      obtain ⟨l, hl, h⟩ := h
      simp only [List.forall_mem_cons] at h
      obtain ⟨ht, hi, h⟩ := h
      refine mapB.mpr ⟨l, hl, (fldB isText_iff).mpr ⟨_, ht, (fldB isText_iff).mpr ⟨_, hi, ?_⟩⟩⟩
      rw [dReq_respSpec, dResp_complete h]

end Lair.Codec
