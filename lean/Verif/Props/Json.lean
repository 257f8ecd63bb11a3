import Verif.JsonLemmas
import Verif.JsonReplies
import Verif.Props.FallbackGens

/-
C67: the text between the server and the signature fallback program.

`SpellsObj fs t` (JsonLemmas.lean) says that `t` is a way of writing, in JSON, an object with the fields `fs` (strings or null):
any white space, any of the legal escapes, surrogate pairs included. `readRequest` is what a program that reads JSON finds in
a line.
-/
namespace Lair.Json

/-- The text the server writes for a list of requests; each has its three fields in some order. -/
def outText (rs : List (String × B 32 × Bytes)) (order : String × B 32 × Bytes → List (String × List Char)) : List Char :=
  rs.flatMap (fun r => requestLine (order r) ++ ['\n'])

theorem request_read (id : String) (pk : B 32) (data : Bytes) (fs : List (String × List Char)) (hp : fs.Perm (requestFields id pk data)) :
    readRequest (requestLine fs) = some (id, pk, data) := by
  have hne : fs ≠ [] := by
    rintro rfl
    have := hp.length_eq
    simp [requestFields] at this
  obtain ⟨js, h1, h2⟩ := parse_obj (spells_line fs hne)
  have hnd : ((fs.map (fun f => (f.1.toList, some f.2))).map (·.1)).Nodup := by
    rw [List.map_map]
    have hp' := hp.map ((fun x : List Char × Option (List Char) => x.1) ∘ fun f : String × List Char => (f.1.toList, some f.2))
    exact hp'.nodup_iff.mpr (by simp [requestFields])
  have hf : ∀ (name : String) (v : List Char), (name, v) ∈ requestFields id pk data → field js name = some v := by
    intro name v hm
    refine field_reads h2 hnd name v ?_
    exact List.mem_map.mpr ⟨(name, v), hp.mem_iff.mpr hm, rfl⟩
  unfold readRequest
  rw [h1]
  simp only
  rw [hf "msgId" id.toList (by simp [requestFields]), hf "pubKey" (Base64.encode pk.val) (by simp [requestFields]),
    hf "dataToSign" (encodeStd data) (by simp [requestFields])]
  simp [Base64.decode_encode, decodeStd_encodeStd]

/-- **C67** Whatever the message ids, keys and data of the requests are, and in whatever order the fields are written: a program that reads
    line by line, and each line as JSON, reads exactly these requests, one per line. No message id (or data) can end its line, add a
    line, or change what is read of this or another request. -/
theorem C67_requests_read (rs : List (String × B 32 × Bytes)) (order : String × B 32 × Bytes → List (String × List Char))
    (ho : ∀ r, (order r).Perm (requestFields r.1 r.2.1 r.2.2)) :
    (lines (outText rs order)).map readRequest = rs.map some := by
  have : outText rs order = (rs.map (fun r => requestLine (order r))).flatMap (· ++ ['\n']) := by
    simp [outText, List.flatMap_map]
  rw [this, lines_flatMap _ (by
    intro l hl d hd
    obtain ⟨r, -, rfl⟩ := List.mem_map.mp hl
    exact line_printable _ d hd), List.map_map]
  apply List.map_congr_left
  intro r _
  exact request_read r.1 r.2.1 r.2.2 (order r) (ho r)

/-- **C67** In every history of the fallback, what each process has read from its input, if it reads JSON lines, are the id, key and data of the
    calls that were handed to it. -/
theorem C67_process_reads_calls (evs : List GEv) (g : Nat) (x : FbGen) (hx : (FbAll.init.run evs).gens[g]? = some x)
    (order : String × B 32 × Bytes → List (String × List Char)) (ho : ∀ r, (order r).Perm (requestFields r.1 r.2.1 r.2.2))
    (k : Nat) (l : List Char) (hl : (lines (outText x.st.stdin order))[k]? = some l) :
    ∃ (c : Nat) (q : FbCall), (FbAll.init.run evs).calls[c]? = some q ∧ q.phase = .given g k ∧
      readRequest l = some (q.msgId, q.pk, q.data) := by
  have h := congrArg (fun l => l[k]?) (C67_requests_read x.st.stdin order ho)
  simp only [List.getElem?_map, hl, Option.map_some] at h
  cases ht : x.st.stdin[k]? with
  | none => rw [ht] at h; cases h
  | some t =>
    rw [ht] at h
    obtain ⟨c, q, h1, h2, h3, -⟩ := C66_process_sees_calls evs g x hx k t ht
    refine ⟨c, q, h1, h2, ?_⟩
    simp only [Option.map_some, Option.some.injEq] at h
    rw [h, h3]

/-- **C67** However the program writes its reply - any legal JSON: any order of fields, white space, escapes, and further fields - if it
    is an object with the message id and the (padded, standard) base64 of a 64 byte signature, and no error, the server takes it as exactly that signature
    for exactly that id. -/
theorem C67_signature_understood (fs : List (List Char × Option (List Char))) (t : List Char) (h : SpellsObj fs t)
    (hn : (fs.map (·.1)).Nodup) (id : String) (sig : B 64) (hid : ("msgId".toList, some id.toList) ∈ fs)
    (hs : ("signature".toList, some (encodeStd sig.val)) ∈ fs) (he : ∀ e, ("error".toList, some e) ∉ fs) :
    replyLine t = .reply id (some (some sig.val)) none := by
  rw [reply_obj h hn id.toList hid, lookup_mem hn hs]
  have : (fs.lookup "error".toList).join = none := by
    cases hl : fs.lookup "error".toList with
    | none => rfl
    | some v =>
      cases v with
      | none => rfl
      | some e => exact absurd (lookup_some_mem hl) (he e)
  rw [this]
  simp [decodeStd_encodeStd]

/-- **C67** If the object has an error, that error is the answer for that id (a signature next to it does not count). -/
theorem C67_error_understood (fs : List (List Char × Option (List Char))) (t : List Char) (h : SpellsObj fs t)
    (hn : (fs.map (·.1)).Nodup) (id e : String) (hid : ("msgId".toList, some id.toList) ∈ fs)
    (he : ("error".toList, some e.toList) ∈ fs) : FbLine.Says (replyLine t) id (.error e) := by
  rw [reply_obj h hn id.toList hid, lookup_mem hn he]
  exact ⟨(fs.lookup "signature".toList).join.map decodeStd, by simp⟩

/-- **C67** Text to text: after any history in which no process runs, the next call's request is the one line the new process is sent; whatever
    legal JSON text that process then prints with the request's id and a signature, that signature is what the caller gets. -/
theorem C67_signed_through_text (evs : List GEv) (id : String) (pk : B 32) (data : Bytes) (sig : B 64) (pf : Bool)
    (hno : ∀ (g : Nat) (x : FbGen), (FbAll.init.run evs).gens[g]? = some x → x.proc ≠ .running)
    (fs : List (List Char × Option (List Char))) (t : List Char) (h : SpellsObj fs t) (hn : (fs.map (·.1)).Nodup)
    (hid : ("msgId".toList, some id.toList) ∈ fs) (hs : ("signature".toList, some (encodeStd sig.val)) ∈ fs)
    (he : ∀ e, ("error".toList, some e) ∉ fs) :
    let s := FbAll.init.run evs
    let g := s.gens.length
    (s.run ([.call id pk data, .get s.calls.length pf none, .send s.calls.length, .gen g .take, .gen g .written] ++
      [.gen g (.line (replyLine t))])).answers s.calls.length = [.ok sig] := by
  intro s g
  rw [C67_signature_understood fs t h hn id sig hid hs he, FbAll.run_append]
  exact (C66_recovers evs id pk data sig pf hno).2

/-- **C67** The reader takes exactly the JSON texts of RFC 8259 (`IsJson`, JsonGrammar.lean), to the last character, and finds in each the
    value that is written there (numbers without their value: no reply uses one). -/
theorem C67_reader_exact (t : List Char) (v : JVal) : parse t = some v ↔ IsJson v t := parse_iff t v

/-- **C67** A line counts as a reply exactly if it is a JSON text of a reply (`IsReply`, JsonReplies.lean): an object with one member
    `msgId`, a string, and at most one `signature` and one `error`, each a string or null, whatever other members of whatever values it
    has; or an array of these three. The id, the signature text and the error are those written in it; any other line is
    malformed and ends the process. -/
theorem C67_replies_exact (t : List Char) :
    (∀ v id sig err, IsJson v t → IsReply v id sig err → replyLine t = .reply (String.ofList id) (sig.map decodeStd) (err.map String.ofList)) ∧
      (replyLine t ≠ .malformed → ∃ v id sig err, IsJson v t ∧ IsReply v id sig err) := by
  constructor
  · intro v id sig err hj hr
    unfold replyLine
    rw [(parse_iff t v).mpr hj, Option.bind_some, (resOf_iff (isJson_good hj) id sig err).mpr hr]
  · intro hne
    unfold replyLine at hne
    cases hp : parse t with
    | none => rw [hp] at hne; exact absurd rfl hne
    | some v =>
      have hj := (parse_iff t v).mp hp
      rw [hp, Option.bind_some] at hne
      cases hr : resOf v with
      | none => rw [hr] at hne; exact absurd rfl hne
      | some q =>
        obtain ⟨id, sig, err⟩ := q
        exact ⟨v, id, sig, err, hj, (resOf_iff (isJson_good hj) id sig err).mp hr⟩

/-- **C67** A text has at most one reading. -/
theorem C67_one_reading (t : List Char) (v v' : JVal) (h : IsJson v t) (h' : IsJson v' t) : v = v' := by
  have h1 := (parse_iff t v).mpr h
  rw [(parse_iff t v').mpr h'] at h1
  exact (Option.some.inj h1).symm

/-! ### Examples -/

-- A reply with members of every other kind is a JSON text, and a reply.
set_option maxRecDepth 100000 in
example : ∃ v, IsJson v " { \"a\" : true, \"b\":[ false ,{ }, [ ], -0.5E+7], \"msgId\":\"x\" } ".toList ∧ IsReply v "x".toList none none := by
  have h : ((parse " { \"a\" : true, \"b\":[ false ,{ }, [ ], -0.5E+7], \"msgId\":\"x\" } ".toList).bind resOf) = some ("x".toList, none, none) := by
    decide +kernel
  obtain ⟨v, h1, h2⟩ := Option.bind_eq_some_iff.mp h
  exact ⟨v, (parse_iff _ v).mp h1, (resOf_iff (isJson_good ((parse_iff _ v).mp h1)) _ _ _).mp h2⟩

-- Texts that are not JSON.
set_option maxRecDepth 100000 in
example : ∀ v, ¬ IsJson v "{\"msgId\":\"a\",}".toList ∧ ¬ IsJson v "{\"msgId\":\"a\",\"n\":01}".toList ∧ ¬ IsJson v "{\"msgId\":\"a\"".toList := by
  intro v
  have h : (parse "{\"msgId\":\"a\",}".toList).isNone ∧ (parse "{\"msgId\":\"a\",\"n\":01}".toList).isNone ∧
      (parse "{\"msgId\":\"a\"".toList).isNone := by decide +kernel
  simp only [← parse_iff]
  simp only [Option.isNone_iff_eq_none] at h
  rw [h.1, h.2.1, h.2.2]
  simp

/-- A message id that tries to add a request of its own. -/
def evilId : String := "a\",\"pubKey\":\"x\"}\n{\"msgId\":\"b"

set_option maxRecDepth 100000 in
example : (lines (outText [(evilId, B.fill 32 1, [1, 2, 3, 4]), ("c", B.fill 32 2, [])] (fun r => requestFields r.1 r.2.1 r.2.2))).length = 2 := by
  decide +kernel

example : requestLine (requestFields "a\nb" (B.fill 32 0) [255, 254]) =
    "{\"msgId\":\"a\\nb\",\"pubKey\":\"AAAAAAAAAAAAAAAAAAAAAAAAAAAAAAAAAAAAAAAAAAA\",\"dataToSign\":\"//4=\"}".toList := by decide +kernel

-- What the read loop makes of lines: white space, escapes, other fields, an array; and what it refuses.
set_option maxRecDepth 100000 in
example : (parse " { \"x\" : [1, -2.5e+3, {\"y\":null}] , \"msgId\":\"\\u0041\\ud83d\\ude00\" , \"error\" : \"no\" } ".toList).bind resOf
    = some ("A😀".toList, none, some "no".toList) := by decide +kernel

set_option maxRecDepth 100000 in
example : (parse "[\"a\",null,\"e\"]".toList).bind resOf = some ("a".toList, none, some "e".toList) ∧
    replyLine "{\"msgId\":\"a\"} x".toList = .malformed ∧ replyLine "{\"msgId\":\"a\",\"msgId\":\"b\"}".toList = .malformed ∧
    replyLine "{\"signature\":\"a\"}".toList = .malformed ∧ replyLine "{\"msgId\":\"a\",\"signature\":\"AA\"}".toList = .reply "a" (some none) none ∧
    replyLine "{\"msgId\":\"\\ud800\"}".toList = .malformed := by decide +kernel

-- A compact reply is among the texts of `C67_signature_understood`.
example (sig : B 64) : SpellsObj [("msgId".toList, some "a".toList), ("signature".toList, some (encodeStd sig.val))]
    (requestLine [("msgId", "a".toList), ("signature", encodeStd sig.val)]) :=
  spells_line [("msgId", "a".toList), ("signature", encodeStd sig.val)] (by simp)

end Lair.Json
