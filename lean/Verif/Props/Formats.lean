import Verif.BundleExact

/-
C34, C35, C36: which bytes are read as which entry, message or bundle. The formats are those of msgpack.org (`Mp.Wire`, MsgpackWire.lean) and
the field tables of CodecSpec.lean and BundleExact.lean; none of them mentions an encoder or a decoder. Two forms that serde's derived code
also reads are outside the model: a struct written as an array of its fields, and a field named by its number (see Codec.lean, Msgpack.lean).
-/
namespace Lair
open Mp Codec Bundle

theorem formats_exact {α : Type} {d : Val → Option α} {P : α → Val → Prop} (h : ∀ v a, d v = some a ↔ P a v) (bs : Bytes) (a : α) :
    (Mp.decode bs).bind d = some a ↔ ∃ v b r, bs = b ++ r ∧ Wire v b ∧ P a v := by
  rw [Option.bind_eq_some_iff]
  constructor
  · rintro ⟨v, hv, hd⟩
    obtain ⟨b, r, hw, he⟩ := (decode_iff _ _).mp hv
    exact ⟨v, b, r, he, hw, (h v a).mp hd⟩
  · rintro ⟨v, b, r, he, hw, hp⟩
    exact ⟨v, (decode_iff _ _).mpr ⟨b, r, hw, he⟩, (h v a).mpr hp⟩

/-- C34. Bytes in the store are read as the entry `e` exactly if they begin with some MessagePack form of `e`: nothing else is taken for it,
    and every form of it is read, whichever program or version wrote it. -/
theorem C34_exact (bs : Bytes) (e : Entry) : decodeEntry bs = some e ↔ ∃ v b r, bs = b ++ r ∧ Wire v b ∧ IsEntry e v :=
  formats_exact isEntry_iff bs e

/-- C35. The same for the messages between client and server. -/
theorem C35_exact (bs : Bytes) (m : Msg) : decodeMsg bs = some m ↔ ∃ v b r, bs = b ++ r ∧ Wire v b ∧ IsMsg m v :=
  formats_exact isMsg_iff bs m

/-- C36. The same for seed bundles. -/
theorem C36_exact (bs : Bytes) (b : SeedBundle) : decodeBundle bs = some b ↔ ∃ v w r, bs = w ++ r ∧ Wire v w ∧ IsBundle b v :=
  formats_exact isBundle_iff bs b

/-- C34, C35, C36. No bytes can be read in two ways: two entries (messages, bundles) with a common form are the same. -/
theorem C34_one_reading (v : Val) (e e' : Entry) (h : IsEntry e v) (h' : IsEntry e' v) : e = e' :=
  Option.some.inj (((isEntry_iff v e).mpr h).symm.trans ((isEntry_iff v e').mpr h'))
theorem C35_one_reading (v : Val) (m m' : Msg) (h : IsMsg m v) (h' : IsMsg m' v) : m = m' :=
  Option.some.inj (((isMsg_iff v m).mpr h).symm.trans ((isMsg_iff v m').mpr h'))
theorem C36_one_reading (v : Val) (b b' : SeedBundle) (h : IsBundle b v) (h' : IsBundle b' v) : b = b' :=
  Option.some.inj (((isBundle_iff v b).mpr h).symm.trans ((isBundle_iff v b').mpr h'))

/-! ### Examples: the hypotheses are met -/

-- A request as another implementation may write it: the type last, one field lair does not know, the tag with a two-byte length.
example : decodeMsg ([0x84, 0xa3] ++ utf8 "tag" ++ [0xda, 0, 5] ++ utf8 "alice" ++ [0xa5] ++ utf8 "extra" ++ [0x93, 1, 0xff, 0xc0] ++ [0xa5] ++
    utf8 "msgId" ++ [0xa1, 0x31] ++ [0xa4] ++ utf8 "type" ++ [0xab] ++ utf8 "reqGetEntry") = some (.req "1" (.getEntry "alice")) := by
  decide +kernel

-- So there is such a form: the right side of `C35_exact` is met.
example : ∃ v b r, ([0x83, 0xa4] ++ utf8 "type" ++ [0xab] ++ utf8 "reqGetEntry" ++ [0xa5] ++ utf8 "msgId" ++ [0xa1, 0x31] ++ [0xa3] ++ utf8 "tag" ++
    [0xa5] ++ utf8 "alice" : Bytes) = b ++ r ∧ Wire v b ∧ IsMsg (.req "1" (.getEntry "alice")) v :=
  (C35_exact _ _).mp (by decide +kernel)

-- An entry whose `exportable` is written out as false.
example : IsSeedInfo ⟨⟨List.replicate 32 1, rfl⟩, ⟨List.replicate 32 2, rfl⟩, false⟩
    (.map (fieldsOf [("exportable", .bool false), ("x25519PubKey", .str (Base64.toText (List.replicate 32 2))),
      ("ed25519PubKey", .str (Base64.toText (List.replicate 32 1)))])) := by
  refine ⟨_, rfl, ?_⟩
  simp [valsAt, one, flag, IsBin]

-- A bundle without ciphers, its application data given as text.
example : decodeBundle ([0x93, 0xa5] ++ utf8 "hcsb0" ++ [0x90, 0xa2] ++ utf8 "hi") = some ⟨[], utf8 "hi"⟩ :=
  (C36_exact _ _).mpr ⟨.arr (valsList [.str "hcsb0", .arr .nil, .str "hi"]), _, [], (List.append_nil _).symm,
    .arr (h := [0x93]) (b := [0xa5] ++ utf8 "hcsb0" ++ ([0x90] ++ [] ++ ([0xa2] ++ utf8 "hi" ++ []))) (Or.inl ⟨by decide, rfl⟩)
      (.cons (.str ⟨[0xa5], Or.inl ⟨by decide +kernel, by decide +kernel⟩, rfl⟩) (.cons (.arr (h := [0x90]) (Or.inl ⟨by decide, rfl⟩) .nil)
        (.cons (.str ⟨[0xa2], Or.inl ⟨by decide +kernel, by decide +kernel⟩, rfl⟩) .nil))),
    ⟨.nil, .str "hi", rfl, rfl, Or.inr (Or.inl ⟨"hi", rfl, rfl⟩)⟩⟩

end Lair
