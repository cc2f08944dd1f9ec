import Verif.Processor.Model

/-! # What counting and aging should do -/

namespace Verif.Processor.Spec
open Verif.Processor

/-- The sum of all counts of the candidates that can be loaded. -/
def total (candidates : List Candidate) : Nat := ((candidates.filterMap id).flatten).sum

/-- How often the index is asked to run the aging query. -/
def cycles (outs : List EraserOut) : Nat := outs.count .query

/-- The messages of one aging cycle over `n` batches of partitions of the given size: the timer, the response of the index
    with the number of partitions, and `done` for each batch. -/
def cycleMessages (total scheduled : Nat) (batches : Nat) : List EraserMsg :=
  .timer :: .reply total scheduled :: List.replicate batches .done

/-- The number of batches: at least one `done` comes, even if there are no partitions. -/
def batches (total taste : Nat) : Nat := max 1 ((total + taste - 1) / taste)

end Verif.Processor.Spec
