import Verif.Subroutines.Compare

/-!
# Specification: comparing results with reference values
-/

namespace Pydisort.Spec

/-- The difference relative to a reference value; zero where the reference value is zero. -/
noncomputable def relative (ref x : ℝ) : ℝ := if ref = 0 then 0 else |ref - x| / ref

/-- A report on `n` values `v` and their reference values. -/
structure Compares (n : ℕ) (ref v : ℕ → ℝ) (r : FluxReport) : Prop where
  shape : r.diff.shape = [n] ∧ r.ratio.shape = [n]
  diff : ∀ t < n, r.diff.get [t] = |ref t - v t|
  ratio : ∀ t < n, r.ratio.get [t] = relative (ref t) (v t)
  maxDiff : IsGreatest {d | ∃ t < n, d = |ref t - v t|} r.maxDiff
  maxRatio : IsGreatest {d | ∃ t < n, d = relative (ref t) (v t)} r.maxRatio

/-- A report on the intensities `v` (stream, depth, azimuth) in the streams chosen by `mask`, in the order of the reference values. -/
structure ComparesIntensities (tau : A1 ℝ) (mask : A1 Bool) (ref : A3 ℝ) (v : ℕ → ℕ → ℕ → ℝ) (r : IntensityReport) : Prop where
  /-- The rows of the returned arrays are the chosen streams. -/
  rows : ∃ sel : ℕ → ℕ, (∀ i j, i < j → j < r.diff.d0 → sel i < sel j) ∧
    (∀ i, (∃ j < r.diff.d0, sel j = i) ↔ i < mask.n ∧ mask.get i = true) ∧
    (r.ratio.d0 = r.diff.d0 ∧ r.diff.d1 = ref.d1 ∧ r.ratio.d1 = ref.d1 ∧ r.diff.d2 = ref.d2 ∧ r.ratio.d2 = ref.d2) ∧
    ∀ j < r.diff.d0, ∀ t < ref.d1, ∀ p < ref.d2, r.diff.get j t p = |ref.get (sel j) t p - v (sel j) t p| ∧
      r.ratio.get j t p = relative (ref.get (sel j) t p) (v (sel j) t p)
  /-- No chosen value differs by more than what is printed, and it does differ so much at the depth that is printed. -/
  largest : (∀ i < mask.n, mask.get i = true → ∀ t < ref.d1, ∀ p < ref.d2, |ref.get i t p - v i t p| ≤ r.maxDiff) ∧
    ∃ i < mask.n, mask.get i = true ∧ ∃ t < ref.d1, ∃ p < ref.d2, r.maxDiff = |ref.get i t p - v i t p| ∧ r.diffTau = tau.get t
  /-- The same for the relative difference. -/
  largestRatio : (∀ i < mask.n, mask.get i = true → ∀ t < ref.d1, ∀ p < ref.d2, relative (ref.get i t p) (v i t p) ≤ r.maxRatio) ∧
    ∃ i < mask.n, mask.get i = true ∧ ∃ t < ref.d1, ∃ p < ref.d2, r.maxRatio = relative (ref.get i t p) (v i t p) ∧ r.ratioTau = tau.get t

end Pydisort.Spec
