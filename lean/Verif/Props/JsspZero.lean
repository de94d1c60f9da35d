import Verif.Props.Jssp

/-!
# C97 for operations of duration zero

The positivity hypothesis of `C97_evaluation_returns` is needed: the loader accepts operations of duration zero, and
an instance with two of them makes the local search run into a cycle, although every job uses every machine at most once.
-/

set_option linter.unusedSectionVars false

namespace Ecrs.Jssp

/-- Two jobs, neither of which uses a machine twice; both pass machine 1 without delay. -/
def idleJob : Jobs := [[(0, 3), (1, 0)], [(1, 0), (0, 2), (2, 1)]]

def idleJobOps : List Operation := (getOk ([], 0) (load (idleJob.file 3))).1

def idleJobInd : Individual Nat := freshIndividual idleJobOps 3 1000 [5, 4, 3, 2, 1, 9, 9, 9, 9, 9]

def idleJobSched : Sched := getOk ⟨⟨0, default⟩, ⟨0, Machine.new⟩, ⟨0, default⟩, 0, 0, 0⟩ (schedule natEval 40 idleJobInd)

def idleJobDist : Arr Operation × Nat := getOk (⟨0, default⟩, 0) (makespan 40 idleJobSched.ops)

def idleJobSwapped : Arr Operation := getOk ⟨0, default⟩ (swapOps idleJobDist.1 1 4)

/-- **C97**, violated for durations zero: this instance is accepted and each job uses each machine at most once.  The machine
edges follow the decoding order, so there is a path from operation 1 to operation 4 through the two operations without
duration on machine 1; it is as long as the machine edge, which wins the tie.  The local search swaps operations 1 and 4, the
graph gets a cycle, and the search for the critical path never returns. -/
theorem C97_zero_duration_diverges : load (idleJob.file 3) = .ok (idleJobOps, 3) ∧ idleJob.Proper 3 ∧
    (∀ j k k' m d d', idleJob.op? j k = some (m, d) → idleJob.op? j k' = some (m, d') → k = k') ∧
    ∀ fuel, evaluate natEval fuel (freshIndividual idleJobOps 3 1000 [5, 4, 3, 2, 1, 9, 9, 9, 9, 9]) = .error .outOfFuel := by
  refine ⟨rfl, ⟨by decide, by decide, by decide⟩, ?_, fun fuel => ?_⟩
  · intro j k k' m d d' h1 h2
    rcases j with _ | _ | j
    · rcases k with _ | _ | k <;> rcases k' with _ | _ | k' <;> simp [Jobs.op?, idleJob] at h1 h2 <;> omega
    · rcases k with _ | _ | _ | k <;> rcases k' with _ | _ | _ | k' <;> simp [Jobs.op?, idleJob] at h1 h2 <;> omega
    · simp [Jobs.op?, idleJob] at h1
  show evaluate natEval fuel idleJobInd = _
  by_cases hf : fuel < 40
  · have h : ∀ fuel < 40, isOutOfFuel (evaluate natEval fuel idleJobInd) = true := by decide +kernel
    exact isOutOfFuel_eq (h fuel hf)
  · obtain ⟨k, rfl⟩ : ∃ k, fuel = k + 40 := ⟨fuel - 40, by omega⟩
    have h1 : schedule natEval (k + 40) idleJobInd.prepare = .ok idleJobSched := rfl
    have h2 : makespan (k + 40) idleJobSched.ops = .ok idleJobDist := rfl
    have h3 : criticalBlocks (k + 40) idleJobDist.1 = .ok [[1, 4], [5]] := rfl
    have h4 : swapOps idleJobDist.1 1 4 = .ok idleJobSwapped := rfl
    have h5 : makespan (k + 40) idleJobSwapped = .error .outOfFuel := by
      unfold makespan
      refine Exc.bind_of_error ?_
      unfold criticalPath
      refine dfs_diverges (fun v => v ≤ 4) ?_ _ 0 [] (by omega)
      have hall : ∀ v < 5, v < idleJobSwapped.size ∧ (∀ e ∈ (idleJobSwapped.get v).edgesOut, e.neigh < idleJobSwapped.size) ∧
          ∃ e ∈ (idleJobSwapped.get v).edgesOut.getLast?, e.neigh ≤ 4 := by decide +kernel
      intro v hv
      obtain ⟨a1, a2, e, a3, a4⟩ := hall v (by omega)
      refine ⟨a1, a1, rfl, a2, (idleJobSwapped.get v).edgesOut.dropLast, e, ?_, a4⟩
      exact (List.dropLast_append_getLast? e a3).symm
    unfold evaluate
    rw [Exc.bind_of_ok h1]
    refine Exc.bind_of_error ?_
    rw [localSearch, Exc.bind_of_ok h2]
    show (criticalBlocks (k + 40) idleJobDist.1 >>= _) = _
    rw [Exc.bind_of_ok h3]
    refine Exc.bind_of_error ?_
    rw [tryBlocks]
    show (tryBack (k + 40) idleJobDist.1 idleJobDist.2 false [1, 4] >>= _) = _
    refine Exc.bind_of_error ?_
    show trySwap (k + 40) idleJobDist.1 idleJobDist.2 1 4 = _
    unfold trySwap
    rw [Exc.bind_of_ok h4, Exc.bind_of_error h5]

end Ecrs.Jssp
