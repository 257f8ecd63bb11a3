import Verif.Props.Gate
import Verif.Props.DialEx

/-
Concrete cases for C80.
-/
namespace Lair.Dial.GEx
open Lair.Dial Lair.Dial.DEx

/-- The 136 bytes of the example client's part, sent by another program. -/
def hand : Bytes := clientInit Toy.kx ident.pk cr ++ cr.header.val

set_option maxRecDepth 100000 in
example : (([hand.take 50, hand.drop 50 |>.take 70] : List Bytes).flatten ++ hand.drop 120).length = 136 ∧ hand.drop 120 ≠ [] ∧
    (match serverAccept Toy.stream ident.K ident.pk ident.sk sr (([hand.take 50, hand.drop 50 |>.take 70] : List Bytes).flatten ++ hand.drop 120) with
      | .ok _ => true
      | .error _ => false) = true := by decide +kernel

-- A client whose handshake is unfinished: one byte short. The server has no session; it closes, and the byte comes too late.
def w0 : HWorld env Toy.stream := run [.dial cr sr, .net 0 (.upArrive (hand.take 135))]

set_option maxRecDepth 100000 in
example : 0 < w0.conns.length ∧ w0.conns.map (fun x => (x.srv.isSome, x.cli.isSome)) = [(false, false)] := by decide +kernel
example : Breaks ident w0 0 (.net 0 .upClose) := .closed
example : ClientBreaks ident w0 0 (.net 0 .downClose) := .closed
set_option maxRecDepth 100000 in
example : (run [.dial cr sr, .net 0 (.upArrive (hand.take 135)), .net 0 .upClose, .net 0 (.upArrive (hand.drop 135))]).conns.map
    (fun x => x.srv.isSome) = [false] ∧
    (run [.dial cr sr, .net 0 (.upArrive (hand.take 135)), .net 0 (.upArrive (hand.drop 135))]).conns.map (fun x => x.srv.isSome) = [true] := by
  decide +kernel

-- 136 bytes of garbage are not acceptable to the server, 104 not to the client.
set_option maxRecDepth 100000 in
example : (match serverAccept Toy.stream ident.K ident.pk ident.sk sr (List.replicate 136 0) with | .ok _ => false | .error _ => true) = true ∧
    (match clientFinish Toy.stream ident.K cr (List.replicate 104 0) with | .ok _ => false | .error _ => true) = true := by decide +kernel

-- The run of DialEx has received something on connection 0.
set_option maxRecDepth 100000 in
example : (run e3).received 0 ≠ [] := by decide +kernel

-- The stranger of DialEx has sent its 136 bytes.
example : StrangerBreaks ident (run [.stranger sr]) 0 (.strangerSends 0 (List.replicate 136 0)) := .last ⟨sr, [], false⟩ _ rfl rfl
example : 0 < (run [.stranger sr]).strangers.length := by decide

end Lair.Dial.GEx
