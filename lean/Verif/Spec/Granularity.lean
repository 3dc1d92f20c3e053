/-
The granularity of a partition as a real number.
-/
import Mathlib.Analysis.SpecialFunctions.Log.Base

namespace Toron.Spec

variable {α : Type} [DecidableEq α]

/-- The granularity of a partition of `N` records, given by the label of each record: the average over the
records of `log2 (N / c)`, with `c` the size of the record's block (the Shannon entropy; Hartley measure of
the blocks subtracted from that of the whole, Klir and Folger). Written as a sum over the blocks. -/
noncomputable def granularity (labels : List α) : ℝ :=
  ∑ x ∈ labels.toFinset, ((labels.count x : ℝ) / labels.length) *
    Real.logb 2 (labels.length / labels.count x)

end Toron.Spec
