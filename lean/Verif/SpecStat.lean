import Mathlib.Probability.Distributions.Exponential
import Mathlib.Probability.Independence.InfinitePi
import Mathlib.Probability.ConditionalProbability

/-!
# Specification of the random number generator

Nothing here refers to the model: a stream of numbers from `rng.random` is a family of independent random variables, each
uniformly distributed on [0, 1) (Lebesgue measure), and a stream of indices from `rng.choice(..., p=prob)` is a family of
independent random variables with the given probabilities.
-/

namespace Verif.Spec

open MeasureTheory ProbabilityTheory

/-- the uniform distribution on [0, 1) -/
noncomputable def unif : Measure ℝ := volume.restrict (Set.Ico 0 1)

instance : IsProbabilityMeasure unif := ⟨by simp [unif]⟩

/-- independent numbers, each uniform on [0, 1): what `rng.random` delivers -/
structure UniformDraws {Ω ι : Type} [MeasurableSpace Ω] (P : Measure Ω) (U : ι → Ω → ℝ) : Prop where
  meas : ∀ i, Measurable (U i)
  law : ∀ i, P.map (U i) = unif
  indep : iIndepFun U P

/-- such streams exist, for every index type -/
theorem uniformDraws_exist (ι : Type) :
    ∃ (Ω : Type) (_ : MeasurableSpace Ω) (P : Measure Ω) (U : ι → Ω → ℝ), IsProbabilityMeasure P ∧ UniformDraws P U := by
  refine ⟨ι → ℝ, inferInstance, Measure.infinitePi fun _ => unif, fun i ω => ω i, inferInstance, ?_, ?_, ?_⟩
  · intro i; fun_prop
  · intro i; exact Measure.infinitePi_map_eval (fun _ => unif) i
  · exact iIndepFun_infinitePi (X := fun _ x => x) (fun _ => measurable_id)

/-- the uniform distribution on a region of the plane, or of the line: probability is proportional to area, or length -/
noncomputable def uniformOver {α : Type} [MeasureSpace α] (A : Set α) : Measure α := (volume A)⁻¹ • volume.restrict A

end Verif.Spec
