import Verif.Props.StarveEx
import Verif.Props.StarveFull

/- A concrete case for C91: the schedule of StarveEx.lean, with the limits of the code, and with the smallest. -/
namespace Lair

namespace WEx

/-- The hypotheses of `C91_no_request_starves_behind_the_limit` hold of this schedule, with the limit of the code. -/
example : ∀ k, k = 0 ∨ k = 1 ∨ k = 3 → ∃ id q T, (turnW 45).request 0 k = some (id, q) ∧
    ∀ m, T ≤ m → ∃ d ∈ (turnW m).sys.done, d.conn = 0 ∧ d.msg = .req id q ∧ (turnW m).result 0 k = some d.outcome := by
  intro k hk
  have hr := turns_requests.1
  have hq := turns_requests.2
  have hw : turnW 45 = turns.foldl World.step atStart := by have := turnW_out 0; rwa [Nat.add_zero, turns_nice.2.1] at this
  rw [← hw] at hr
  cases hx : (turnW 45).conns[0]? with
  | none => rw [hx] at hr; cases hr
  | some x =>
    rw [hx] at hr
    have hr := Option.some.inj hr
    have hla := congrArg List.length hr
    simp only [List.length_map, List.length_cons, List.length_nil] at hla
    have hka : k < x.asked.length := by omega
    have hreq := request_of hx (List.getElem?_eq_getElem hka)
    obtain ⟨T, hT⟩ := C91_no_request_starves_behind_the_limit (S := Toy.stream) (E := Ex.env false 4) Toy.stream_lawful (goodStore_empty (Ex.env false 4)) 4096 (by omega) [] ([1], 0) ([2], 0)
      turning (fun n => (turn_ok n).1) (fun n => (turn_ok n).2.2.1) (fun n => (turn_ok n).2.1) (fun p n _ ⟨e, he⟩ => (turn_ok n).2.2.2 p e he)
      45 k _ _ hreq (by
        intro m
        by_cases hm : m < turns.length
        · rw [turning_in hm]
          have := List.all_eq_true.mp hq _ (List.getElem_mem hm)
          constructor
          · intro he; rw [he] at this
            have := of_decide_eq_true this
            omega
          · intro he; rw [he] at this
            have := of_decide_eq_true this
            omega
        · rw [turning_out hm]
          exact ⟨by simp, by simp⟩)
    exact ⟨_, _, T, hreq, hT⟩

/-- The hypotheses of `C91_no_request_starves_within_limits` hold of this schedule, with the limits of the code. -/
example : ∀ k, k = 0 ∨ k = 1 ∨ k = 3 → ∃ id q T, (turnW 45).request 0 k = some (id, q) ∧
    ∀ m, T ≤ m → ∃ d ∈ (turnW m).sys.done, d.conn = 0 ∧ d.msg = .req id q ∧ (turnW m).result 0 k = some d.outcome := by
  intro k hk
  have hr := turns_requests.1
  have hq := turns_requests.2
  have hw : turnW 45 = turns.foldl World.step atStart := by have := turnW_out 0; rwa [Nat.add_zero, turns_nice.2.1] at this
  rw [← hw] at hr
  cases hx : (turnW 45).conns[0]? with
  | none => rw [hx] at hr; cases hr
  | some x =>
    rw [hx] at hr
    have hr := Option.some.inj hr
    have hla := congrArg List.length hr
    simp only [List.length_map, List.length_cons, List.length_nil] at hla
    have hka : k < x.asked.length := by omega
    have hreq := request_of hx (List.getElem?_eq_getElem hka)
    obtain ⟨T, hT⟩ := C91_no_request_starves_within_limits (S := Toy.stream) (E := Ex.env false 4) Toy.stream_lawful (goodStore_empty (Ex.env false 4)) 4096 4096 (by omega) (by omega) [] ([1], 0) ([2], 0)
      turning (fun n => (turn_ok n).1) (fun n => (turn_ok n).2.2.1) (fun n => (turn_ok n).2.1) (fun p n ⟨e, he, _⟩ => (turn_ok n).2.2.2 p e he)
      45 k _ _ hreq (by
        intro m
        by_cases hm : m < turns.length
        · rw [turning_in hm]
          have := List.all_eq_true.mp hq _ (List.getElem_mem hm)
          constructor
          · intro he; rw [he] at this
            have := of_decide_eq_true this
            omega
          · intro he; rw [he] at this
            have := of_decide_eq_true this
            omega
        · rw [turning_out hm]
          exact ⟨by simp, by simp⟩)
    exact ⟨_, _, T, hreq, hT⟩

/-- The hypotheses of `C91_no_request_starves_within_limits` hold of this schedule, with pipes that hold one byte and a server that handles one request at a time. -/
example : ∀ k, k = 0 ∨ k = 1 ∨ k = 3 → ∃ id q T, (turnW 45).request 0 k = some (id, q) ∧
    ∀ m, T ≤ m → ∃ d ∈ (turnW m).sys.done, d.conn = 0 ∧ d.msg = .req id q ∧ (turnW m).result 0 k = some d.outcome := by
  intro k hk
  have hr := turns_requests.1
  have hq := turns_requests.2
  have hw : turnW 45 = turns.foldl World.step atStart := by have := turnW_out 0; rwa [Nat.add_zero, turns_nice.2.1] at this
  rw [← hw] at hr
  cases hx : (turnW 45).conns[0]? with
  | none => rw [hx] at hr; cases hr
  | some x =>
    rw [hx] at hr
    have hr := Option.some.inj hr
    have hla := congrArg List.length hr
    simp only [List.length_map, List.length_cons, List.length_nil] at hla
    have hka : k < x.asked.length := by omega
    have hreq := request_of hx (List.getElem?_eq_getElem hka)
    obtain ⟨T, hT⟩ := C91_no_request_starves_within_limits (S := Toy.stream) (E := Ex.env false 4) Toy.stream_lawful (goodStore_empty (Ex.env false 4)) 1 1 (by omega) (by omega) [] ([1], 0) ([2], 0)
      turning (fun n => (turn_ok n).1) (fun n => (turn_ok n).2.2.1) (fun n => (turn_ok n).2.1) (fun p n ⟨e, he, _⟩ => (turn_ok n).2.2.2 p e he)
      45 k _ _ hreq (by
        intro m
        by_cases hm : m < turns.length
        · rw [turning_in hm]
          have := List.all_eq_true.mp hq _ (List.getElem_mem hm)
          constructor
          · intro he; rw [he] at this
            have := of_decide_eq_true this
            omega
          · intro he; rw [he] at this
            have := of_decide_eq_true this
            omega
        · rw [turning_out hm]
          exact ⟨by simp, by simp⟩)
    exact ⟨_, _, T, hreq, hT⟩

end WEx
end Lair
