import Verif.KeystoreSpec
import Verif.Oblivious
import Verif.ClientApi

/- What the SQLite store has room for depends on the item only, not on how it is encrypted. -/
namespace Lair
open Mp

/-- A secret of given lengths with nothing in it. Proof device: nothing in the code corresponds. -/
def blankSecret (n : Nat) : SecretSized n := ⟨⟨List.replicate 24 0, by simp⟩, ⟨List.replicate n 0, by simp⟩⟩

/-- An entry of the size an item takes. Proof device: nothing in the code corresponds. -/
def Item.blank (C : Crypto) : Item → Entry
  | .seed t s x => .seed t ⟨C.edPk s, C.xPk s, x⟩ (blankSecret 49)
  | .locked t s x _ ops mem => .deep t ⟨C.edPk s, C.xPk s, x⟩ ⟨List.replicate 16 0, by simp⟩ ops mem (blankSecret 49)
  | .cert t sni crt priv => .cert t ⟨sni, C.blake2b32 crt, crt⟩ ⟨⟨List.replicate 24 0, by simp⟩, List.replicate (priv.length + 17) 0⟩

/-- SPECIFICATION: SQLite stores blobs of up to a billion bytes (`SQLITE_MAX_LENGTH`); the blob is the encoded entry. -/
def sqlRoom (C : Crypto) (i : Item) : Bool := SqlStore.fits (i.blank C)

theorem sSecretData_len (a b : SecretData) (h : a.cipher.length = b.cipher.length) :
    (enc (Codec.sSecretData a)).length = (enc (Codec.sSecretData b)).length := by
  simp only [Codec.sSecretData, enc, encVals, List.length_append]
  have h1 := sBin_len (b := a.hdr.val) (b' := b.hdr.val) (by rw [a.hdr.len, b.hdr.len])
  have h2 := sBin_len (b := a.cipher) (b' := b.cipher) h
  simp only [Vals.length]
  omega

theorem repr_size {E : Env} {i : Item} {e : Entry} (h : Repr E i e) :
    (Codec.encodeEntry e).length = (Codec.encodeEntry (i.blank E.C)).length := by
  cases h with
  | seed t s x enc hd =>
    simp only [Item.blank, Codec.encodeEntry, Codec.sEntry]
    rw [Codec.enc_map_len _ (by simp), Codec.enc_map_len _ (by simp)]
    simp only [List.map_cons, List.map_nil, List.sum_cons, List.sum_nil, sSecret_len enc (blankSecret 49)]
  | locked t s x pw ops mem salt key enc hk hd =>
    simp only [Item.blank, Codec.encodeEntry, Codec.sEntry]
    rw [Codec.enc_map_len _ (by simp), Codec.enc_map_len _ (by simp)]
    simp only [List.map_cons, List.map_nil, List.sum_cons, List.sum_nil, sSecret_len enc (blankSecret 49)]
    have := sBin_len (b := salt.val) (b' := List.replicate 16 0) (by rw [salt.len]; simp)
    rw [this]
  | cert t sni crt key priv hd =>
    simp only [Item.blank, Codec.encodeEntry, Codec.sEntry]
    rw [Codec.enc_map_len _ (by simp), Codec.enc_map_len _ (by simp)]
    have hl := E.L.ssDec_len _ _ _ _ hd
    have := sSecretData_len priv ⟨⟨List.replicate 24 0, by simp⟩, List.replicate (key.length + 17) 0⟩ (by simp [hl])
    simp only [List.map_cons, List.map_nil, List.sum_cons, List.sum_nil, this]

theorem sql_room {E : Env} (hE : E.S.fits = SqlStore.fits) (i : Item) (e : Entry) (h : Repr E i e) : E.S.fits e = sqlRoom E.C i := by
  rw [hE]
  simp only [sqlRoom, SqlStore.fits, repr_size h]

end Lair
