import Verif.Spec.Gasket
import Verif.Spec.Mobius

/-! Images of curves by words of inversions, and the ways in which two circles or lines of the completed plane can meet.  Nothing in this file models
code; `GCircle` is a circle given by its center and radius, or a line given by two points. -/

namespace Spec
noncomputable section

/-- The points of a circle, or of a line completed with infinity. -/
def curve : GCircle → Set XPt
  | .circle c => {P | XOnCircle c.center c.radius P}
  | .line l => {P | XOnLine l.A l.B P}

/-- The image of the last circle of a word by the inversions in the other circles of the word, the one before the last first. -/
def wordCurve (c : ℕ → Circle) : List ℕ → Set XPt
  | [] => ∅
  | [j] => curve (.circle (c j))
  | i :: j :: w => xinv (c i).center ((c i).radius ^ 2) '' wordCurve c (j :: w)

/-- A word of `n + 1` letters less than `k`, no two consecutive ones equal. -/
def IsWord (k n : ℕ) (w : List ℕ) : Prop := w.length = n + 1 ∧ (∀ i ∈ w, i < k) ∧ w.IsChain fun i j => i ≠ j

/-- Four circles of radius 1 whose centers are the points of the axes at distance 1 of the origin, and the circle of radius 2 around them. -/
def fiveCircles : ℕ → Circle
  | 0 => ⟨⟨1, 0⟩, 1⟩
  | 1 => ⟨⟨0, 1⟩, 1⟩
  | 2 => ⟨⟨-1, 0⟩, 1⟩
  | 3 => ⟨⟨0, -1⟩, 1⟩
  | _ => ⟨⟨0, 0⟩, 2⟩

/-- The image by the central symmetry about the origin. -/
def opposite : XPt → XPt
  | .fin P => .fin ⟨-P.x, -P.y⟩
  | .inf => .inf

/-- The curves cross at right angles. -/
def CrossAtRight : GCircle → GCircle → Prop
  | .circle c, .circle d => Orthogonal c.center c.radius d.center d.radius
  | .circle c, .line l => OnLine l.A l.B c.center
  | .line l, .circle c => OnLine l.A l.B c.center
  | .line l, .line m => Perp (l.B - l.A) (m.B - m.A)

end
end Spec
