import Verif.Spec.Plane
import Mathlib.MeasureTheory.Measure.Lebesgue.Basic
import Mathlib.MeasureTheory.Measure.WithDensity
import Mathlib.MeasureTheory.Integral.Lebesgue.Basic
import Mathlib.Analysis.SpecialFunctions.Trigonometric.Basic
import Mathlib.Analysis.Calculus.Deriv.Basic

/-!
# Laws of random points

Sets of points are subsets of `ℝ × ℝ`, with the Lebesgue measure `volume` as area.
-/

open MeasureTheory Set
noncomputable section
namespace Spec

/-- The coordinates of a point. -/
def coords (P : Pt) : ℝ × ℝ := (P.x, P.y)

/-- The set of the points with a property. -/
def region (S : Pt → Prop) : Set (ℝ × ℝ) := {p | S ⟨p.1, p.2⟩}

/-- The law of a number drawn uniformly from `[0, 1)`. -/
def unif01 : Measure ℝ := volume.restrict (Ico 0 1)

/-- The law of a number drawn uniformly from `[lo, hi)`. -/
def unif (lo hi : ℝ) : Measure ℝ := ENNReal.ofReal (1 / (hi - lo)) • volume.restrict (Ico lo hi)

/-- The law of two independent standard normal numbers. -/
def normal2 : Measure (ℝ × ℝ) := volume.withDensity fun p => ENNReal.ofReal (Real.exp (-(p.1 ^ 2 + p.2 ^ 2) / 2) / (2 * Real.pi))

/-- The length of the part of the segment `AB` that is in `E`. -/
def lengthIn (A B : Pt) (E : Set (ℝ × ℝ)) : ENNReal :=
  ENNReal.ofReal (dist A B) * volume {t : ℝ | t ∈ Icc 0 1 ∧ coords (A + t • (B - A)) ∈ E}

/-- `prob E` is the probability that a random point is in `E`: the point is uniformly distributed in `S`. -/
def UniformOn (S : Set (ℝ × ℝ)) (prob : Set (ℝ × ℝ) → ENNReal) : Prop :=
  volume S ≠ 0 ∧ volume S ≠ ⊤ ∧ ∀ E, MeasurableSet E → prob E = volume (E ∩ S) / volume S

/-- The random point is `γ t` for a uniform `t` in `(-π, π)`. -/
def UniformParam (γ : ℝ → Pt) (prob : Set (ℝ × ℝ) → ENNReal) : Prop :=
  ∀ E, MeasurableSet E → prob E = volume {t : ℝ | t ∈ Ioo (-Real.pi) Real.pi ∧ coords (γ t) ∈ E} / ENNReal.ofReal (2 * Real.pi)

/-- The random point is uniformly distributed on the edges of the triangle: the probability of `E` is the length of the part of the edges in `E`, divided by the
perimeter. -/
def UniformOnEdges (A B C : Pt) (prob : Set (ℝ × ℝ) → ENNReal) : Prop :=
  ∀ E, MeasurableSet E → prob E = (lengthIn A B E + lengthIn B C E + lengthIn C A E) / ENNReal.ofReal (dist A B + dist B C + dist C A)

/-- The speed of a curve. -/
def speed (γ : ℝ → Pt) (t : ℝ) : ℝ := √(deriv (fun s => (γ s).x) t ^ 2 + deriv (fun s => (γ s).y) t ^ 2)

/-- The random point is uniformly distributed on the closed curve `γ` with respect to the length: the probability of `E` is the length of the part of the curve in
`E`, divided by the length of the curve. -/
def UniformByLength (γ : ℝ → Pt) (prob : Set (ℝ × ℝ) → ENNReal) : Prop :=
  ∀ E, MeasurableSet E → prob E =
    (∫⁻ t in {t : ℝ | t ∈ Ioo (-Real.pi) Real.pi ∧ coords (γ t) ∈ E}, ENNReal.ofReal (speed γ t)) / ∫⁻ t in Ioo (-Real.pi) Real.pi, ENNReal.ofReal (speed γ t)

end Spec
