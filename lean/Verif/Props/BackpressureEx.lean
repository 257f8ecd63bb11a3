import Verif.Props.ProgressEx
import Verif.Props.Backpressure

/- Concrete cases for C88. -/
namespace Lair
namespace WEx

/-- The hypotheses of `C88_limits_never_block` hold of the four requests in flight, with pipes of one byte and one request at a time. -/
example : ∃ e, (run ([] ++ .connect ([1], 0) ([2], 0) :: flight2)).CanMove 1 1 0 e :=
  C88_limits_never_block (S := Toy.stream) (E := Ex.env false 4) Toy.stream_lawful 1 1 (by decide) (by decide) [] flight2 ([1], 0) ([2], 0) flight_unbroken
    (by have h := way_fresh; rw [way0] at h; exact h) 3 (by have h := (way_running 3 (by decide)).2; rw [way0] at h; exact h)

-- there, pipes of that size are full, and with a limit of one the server has more in hand than it may take: what goes on is not just what was next
set_option maxRecDepth 100000 in
example : flying.inHand 0 = 2 ∧ (match flying.conns[0]? with
    | some x => decide (1 < x.up.inPipe)
    | none => false) = true := by decide +kernel

/-- The hypotheses of `C88_every_request_is_answered_within_limits` hold of the schedule `homeward`, with the in-process server's limits. -/
example : ∃ T, ∀ n, T ≤ n → ∀ k, k < 4 → ∃ d ∈ (wayW n).sys.done,
    d.conn = 0 ∧ (wayW n).result 0 k = some d.outcome := by
  obtain ⟨T, hT⟩ := C88_every_request_is_answered_within_limits (S := Toy.stream) (E := Ex.env false 4) Toy.stream_lawful (goodStore_empty (Ex.env false 4))
    4096 4096 (by decide) (by decide) [] flight2 ([1], 0) ([2], 0)
    homeward flight_unbroken way_fresh way_unbroken way_noask
    (by
      rintro n ⟨e, he⟩
      by_cases hn : n < 37
      · exact ⟨36, by omega, way_36, fun _ _ => trivial⟩
      · exact absurd he.1 (way_over n hn e))
  refine ⟨T, fun n hn k hk => ?_⟩
  obtain ⟨⟨id, q, h1⟩, h2⟩ := way_running k hk
  obtain ⟨d, hd, hdc, -, hres⟩ := (hT n hn).2 k id q h1 h2 (way_kept k)
  exact ⟨d, hd, hdc, hres⟩

end WEx
end Lair
